/-
Whatever size is set is the right one, as long as no error was given.
-/
import Verif.Sizing.Facts
import Mathlib.Tactic.Ring
import Mathlib.Tactic.Positivity
import Mathlib.Tactic.ByContra

namespace Ulam.Sizing

variable {n : Nat} {p : Prog n}

/-- No message, no failed assertion. -/
def Clean (s : St n) : Prop := s.err = false ∧ s.abort = false

/-- Facts about the tables that have to stay. -/
structure Keep (n : Nat) where
  size : Fin n → Prop
  comp : Fin n → Prop
  len : Ty n → Nat → Prop

/-- What holds of the type tables. -/
structure Inv (p : Prog n) (Q : Keep n) (s : St n) : Prop where
  size_cases : ∀ c, s.size c = UNKNOWN ∨ s.size c = CYCLE ∨ 0 ≤ s.size c
  base_cases : ∀ c, s.base c = UNKNOWN ∨ 0 ≤ s.base c
  size_ok : ∀ c, 0 ≤ s.size c → Sizable p c ∧ s.size c = totOf p c ∧ s.size c ≤ limit (p.kind c)
  base_ok : ∀ c, 0 ≤ s.base c → Sizable p c ∧ s.base c = ownOf p c
  item_cases : ∀ d j, s.item d j = UNKNOWN ∨ 0 ≤ s.item d j
  item_ok : ∀ d j, 0 ≤ s.item d j → s.size d = s.item d j
  len_item : ∀ d j, s.len (.cls d) j = true → 0 ≤ s.item d j
  item_len : ∀ d j, 0 ≤ s.item d j → s.len (.cls d) j = true
  keep_size : ∀ c, Q.size c → 0 ≤ s.size c
  keep_comp : ∀ c, Q.comp c → complete p s c = true
  keep_len : ∀ ty j, Q.len ty j → s.len ty j = true

variable {Q : Keep n}

theorem not_clean_fail (s : St n) : ¬ Clean s.fail := fun h => by simp [St.fail, Clean] at h

theorem not_clean_stop (s : St n) : ¬ Clean s.stop := fun h => by simp [St.stop, Clean] at h

theorem clean_setSize {c : Fin n} {b : Int} {s : St n} (h : Clean (setSize p c b s)) : Clean s := by
  unfold setSize at h
  split_ifs at h
  · exact h
  · exact absurd h (not_clean_fail s)
  · exact h
  · exact h

theorem clean_putBase {c : Fin n} {b : Int} {s : St n} (h : Clean (putBase c b s)) : Clean s := by
  unfold putBase at h
  split_ifs at h
  · exact h
  · exact absurd h (not_clean_stop s)
  · exact h

theorem clean_setBase {c : Fin n} {b : Int} {s : St n} (h : Clean (setBase p c b s).2) : Clean s := by
  unfold setBase at h
  split_ifs at h
  · exact h
  · exact absurd h (not_clean_fail s)
  · exact clean_putBase h

theorem clean_setItem {d : Fin n} {j : Nat} {b : Int} {s : St n} (h : Clean (setItem d j b s)) :
    Clean s := by
  unfold setItem at h
  split_ifs at h
  · exact h
  · exact absurd h (not_clean_fail s)
  · exact h

theorem clean_setType {m : Member n} {b : Int} {s : St n} (h : Clean (setType p m b s)) : Clean s := by
  unfold setType at h
  split at h
  · exact h
  · exact clean_setSize h
  · exact clean_setItem h

theorem clean_setTypeKeep {m : Member n} {b : Int} {s : St n} (h : Clean (setTypeKeep p m b s)) :
    Clean s := by
  unfold setTypeKeep at h
  split at h
  · split_ifs at h
    · exact clean_setSize h
    · exact clean_setSize (clean_setBase h)
  · exact clean_setType h

theorem complete_size {s : St n} (i : Inv p Q s) {c : Fin n} (h : complete p s c = true) :
    0 ≤ s.size c := by
  unfold complete at h
  simp only [Bool.and_eq_true, decide_eq_true_eq] at h
  have h1 := h.1
  rcases i.size_cases c with e | e | e
  · rw [e] at h1; exact absurd h1 (by decide)
  · rw [e] at h1; exact absurd h1 (by decide)
  · exact e

theorem complete_base {s : St n} (i : Inv p Q s) {c : Fin n} (h : complete p s c = true)
    (hk : p.kind c ≠ .element) : 0 ≤ s.base c := by
  unfold complete at h
  simp only [Bool.and_eq_true, Bool.or_eq_true, decide_eq_true_eq] at h
  rcases h.2 with e | e
  · exact absurd e hk
  · exact (i.base_cases c).resolve_left e

/-- Setting the right size. -/
theorem inv_setSize {s : St n} (i : Inv p Q s) {c : Fin n} (hc : Sizable p c)
    (h : Clean (setSize p c (totOf p c) s)) :
    Inv p Q (setSize p c (totOf p c) s) ∧ (setSize p c (totOf p c) s).size c = totOf p c := by
  unfold setSize at h ⊢
  split_ifs at h ⊢ with h1 h2 h3
  · exact ⟨i, (i.size_ok c (complete_size i h1)).2.1⟩
  · exact absurd h (not_clean_fail s)
  · exact ⟨i, h3⟩
  · have hneg : ¬ 0 ≤ s.size c := fun h0 => h3 (i.size_ok c h0).2.1
    refine ⟨⟨?_, ?_, ?_, ?_, ?_, ?_, ?_, i.item_len, ?_, ?_, i.keep_len⟩, by simp⟩
    · intro d
      by_cases e : d = c
      · subst e; right; right; simp
      · simp only [Function.update_of_ne e]; exact i.size_cases d
    · intro d
      by_cases e : d = c
      · subst e; left; simp
      · simp only [Function.update_of_ne e]; exact i.base_cases d
    · intro d hd
      by_cases e : d = c
      · subst e
        simp only [Function.update_self] at hd ⊢
        exact ⟨hc, trivial, by omega⟩
      · simp only [Function.update_of_ne e] at hd ⊢
        exact i.size_ok d hd
    · intro d hd
      by_cases e : d = c
      · subst e
        simp only [Function.update_self] at hd
        exact absurd hd (by decide)
      · simp only [Function.update_of_ne e] at hd ⊢
        exact i.base_ok d hd
    · exact i.item_cases
    · intro d j hd
      have := i.item_ok d j hd
      by_cases e : d = c
      · subst e
        exact absurd (this ▸ hd) hneg
      · simp only [Function.update_of_ne e]; exact this
    · exact i.len_item
    · intro d hd
      by_cases e : d = c
      · subst e; simp
      · simp only [Function.update_of_ne e]; exact i.keep_size d hd
    · intro d hd
      have hd := i.keep_comp d hd
      by_cases e : d = c
      · subst e; exact absurd hd h1
      · simpa only [complete, Function.update_of_ne e] using hd

/-- Marking a class of unknown size as a cycle. -/
theorem inv_setCycle {s : St n} (i : Inv p Q s) {c : Fin n} (hc : s.size c = UNKNOWN)
    (h : Clean (setSize p c CYCLE s)) : Inv p Q (setSize p c CYCLE s) := by
  unfold setSize at h ⊢
  split_ifs at h ⊢ with h1 h2 h3
  · exact i
  · exact absurd h (not_clean_fail s)
  · exact i
  · refine ⟨?_, ?_, ?_, ?_, i.item_cases, ?_, i.len_item, i.item_len, ?_, ?_, i.keep_len⟩
    · intro d
      by_cases e : d = c
      · subst e; right; left; simp
      · simp only [Function.update_of_ne e]; exact i.size_cases d
    · intro d
      by_cases e : d = c
      · subst e; left; simp
      · simp only [Function.update_of_ne e]; exact i.base_cases d
    · intro d hd
      by_cases e : d = c
      · subst e
        simp only [Function.update_self] at hd
        exact absurd hd (by decide)
      · simp only [Function.update_of_ne e] at hd ⊢
        exact i.size_ok d hd
    · intro d hd
      by_cases e : d = c
      · subst e
        simp only [Function.update_self] at hd
        exact absurd hd (by decide)
      · simp only [Function.update_of_ne e] at hd ⊢
        exact i.base_ok d hd
    · intro d j hd
      have := i.item_ok d j hd
      by_cases e : d = c
      · subst e
        rw [hc] at this
        rw [← this] at hd
        exact absurd hd (by decide)
      · simp only [Function.update_of_ne e]; exact this
    · intro d hd
      have hd := i.keep_size d hd
      by_cases e : d = c
      · subst e; rw [hc] at hd; exact absurd hd (by decide)
      · simp only [Function.update_of_ne e]; exact hd
    · intro d hd
      have hd := i.keep_comp d hd
      by_cases e : d = c
      · subst e; exact absurd hd h1
      · simpa only [complete, Function.update_of_ne e] using hd

/-- Setting the right size as a base. -/
theorem inv_putBase {s : St n} (i : Inv p Q s) {c : Fin n} (hc : Sizable p c) :
    Inv p Q (putBase c (ownOf p c) s) ∧ ((putBase c (ownOf p c) s).base c = ownOf p c) ∧
      (putBase c (ownOf p c) s).size = s.size ∧ (putBase c (ownOf p c) s).len = s.len ∧
      (putBase c (ownOf p c) s).item = s.item ∧ (putBase c (ownOf p c) s).err = s.err ∧
      (putBase c (ownOf p c) s).abort = s.abort ∧
      ∀ d, d ≠ c → (putBase c (ownOf p c) s).base d = s.base d := by
  unfold putBase
  split_ifs with h1 h2
  · exact ⟨i, h2.symm, rfl, rfl, rfl, rfl, rfl, fun _ _ => rfl⟩
  · exact absurd (i.base_ok c (by omega)).2.symm h2
  · refine ⟨⟨i.size_cases, ?_, i.size_ok, ?_, i.item_cases, i.item_ok, i.len_item, i.item_len, i.keep_size, ?_, i.keep_len⟩, by simp, rfl, rfl,
      rfl, rfl, rfl, fun d hd => by simp [Function.update_of_ne hd]⟩
    · intro d
      by_cases e : d = c
      · subst e; right; simp
      · simp only [Function.update_of_ne e]; exact i.base_cases d
    · intro d hd
      by_cases e : d = c
      · subst e; exact ⟨hc, by simp⟩
      · simp only [Function.update_of_ne e] at hd ⊢
        exact i.base_ok d hd
    · intro d hd
      have hd := i.keep_comp d hd
      by_cases e : d = c
      · subst e
        simp only [complete, Bool.and_eq_true, decide_eq_true_eq] at hd ⊢
        refine ⟨hd.1, ?_⟩
        have : ((ownOf p d : Nat) : Int) ≠ UNKNOWN := by have : UNKNOWN = -2 := rfl; omega
        simp [this]
      · simpa only [complete, Function.update_of_ne e] using hd

theorem inv_setBase {s : St n} (i : Inv p Q s) {c : Fin n} (hc : Sizable p c)
    (h : Clean (setBase p c (ownOf p c) s).2) :
    Inv p Q (setBase p c (ownOf p c) s).2 ∧ (setBase p c (ownOf p c) s).2.size = s.size ∧
      (setBase p c (ownOf p c) s).1 = true := by
  unfold setBase at h ⊢
  split_ifs at h ⊢
  · exact ⟨i, rfl, rfl⟩
  · exact absurd h (not_clean_fail s)
  · have := inv_putBase i hc
    exact ⟨this.1, this.2.2.1, rfl⟩

theorem inv_setItem {s : St n} (i : Inv p Q s) {d : Fin n} {j : Nat} {b : Int} (hl : 0 ≤ s.item d j) :
    setItem d j b s = s := by
  unfold setItem
  refine if_pos ?_
  have : UNKNOWN = -2 := rfl
  omega

/-- What is expected of the function for scalar classes. -/
def Good (p : Prog n) (R : Fin n → List (Fin n) → St n → Option (Out n)) : Prop :=
  ∀ d seen s o, R d seen s = some o → Clean o.st →
    Clean s ∧ ∀ Q, (Inv p Q s → Inv p Q o.st ∧ (o.bits = UNKNOWN ∨ o.bits = CYCLE ∨
      (Sizable p d ∧ o.bits = totOf p d)))

/-- The size of an item, by the specification. -/
def ItemOk (p : Prog n) (m : Member n) (b : Int) (s : St n) : Prop :=
  match m.ty with
  | .prim k => b = k
  | .cls d => Sizable p d ∧ b = totOf p d ∧ ∀ j, m.count = some j → 0 ≤ s.item d j

theorem typeSize_good {R : Fin n → List (Fin n) → St n → Option (Out n)} (hR : Good p R)
    {m : Member n} {seen : List (Fin n)} {s : St n} {o : Out n} (h : typeSize R m seen s = some o)
    (cl : Clean o.st) :
    Clean s ∧ ∀ Q, (Inv p Q s → Inv p Q o.st ∧ (o.bits = UNKNOWN ∨ o.bits = CYCLE ∨ ItemOk p m o.bits o.st)) := by
  obtain ⟨ty, count⟩ := m
  cases ty with
  | prim b =>
    cases count with
    | none =>
      simp only [typeSize, Option.some.injEq] at h
      subst h
      exact ⟨cl, fun Q i => ⟨i, .inr (.inr rfl)⟩⟩
    | some j =>
      simp only [typeSize, Option.some.injEq] at h
      subst h
      refine ⟨cl, fun Q i => ⟨i, ?_⟩⟩
      dsimp only
      split_ifs
      · exact .inr (.inr rfl)
      · exact .inl rfl
  | cls d =>
    cases count with
    | none =>
      simp only [typeSize] at h
      obtain ⟨c1, c2⟩ := hR d seen s o h cl
      refine ⟨c1, fun Q i => ?_⟩
      obtain ⟨i', h'⟩ := c2 _ i
      refine ⟨i', ?_⟩
      rcases h' with h' | h' | h'
      · exact .inl h'
      · exact .inr (.inl h')
      · exact .inr (.inr ⟨h'.1, h'.2, fun j hj => by simp at hj⟩)
    | some j =>
      simp only [typeSize] at h
      split_ifs at h with h1 h2 h3 h4
      · simp only [Option.some.injEq] at h
        subst h
        refine ⟨cl, fun Q i => ⟨i, .inr (.inr ?_)⟩⟩
        have e := i.item_ok d j h2
        have q := i.size_ok d (e ▸ h2)
        refine ⟨q.1, e ▸ q.2.1, fun j' hj => ?_⟩
        simp only [Option.some.injEq] at hj
        subst hj
        exact h2
      · simp only [Option.some.injEq] at h
        subst h
        exact absurd cl (not_clean_stop s)
      · simp only [Option.some.injEq] at h
        subst h
        refine ⟨cl, fun Q i => ?_⟩
        exact absurd (i.len_item d j h1) h2
      · simp only [Option.map_eq_some_iff] at h
        obtain ⟨o', ho', e⟩ := h
        have cl' : Clean o'.st := by
          rw [← e] at cl
          split_ifs at cl <;> exact cl
        exact ⟨(hR d seen s o' ho' cl').1, fun Q i => absurd (i.len_item d j h1) h2⟩
      · simp only [Option.some.injEq] at h
        subst h
        exact ⟨cl, fun Q i => ⟨i, .inl rfl⟩⟩

/-- A member whose size is in the tables. -/
def StoredOk (p : Prog n) (m : Member n) (s : St n) : Prop :=
  match m.ty, m.count with
  | .prim _, _ => True
  | .cls d, none => Sizable p d ∧ s.size d = totOf p d
  | .cls d, some j => Sizable p d ∧ s.item d j = totOf p d ∧ s.size d = totOf p d

theorem setType_good {m : Member n} {b : Int} {s : St n} (i : Inv p Q s) (hb : ItemOk p m b s)
    (cl : Clean (setType p m b s)) :
    Inv p Q (setType p m b s) ∧ StoredOk p m (setType p m b s) := by
  obtain ⟨ty, count⟩ := m
  cases ty with
  | prim k => exact ⟨i, trivial⟩
  | cls d =>
    obtain ⟨h1, h2, h3⟩ := hb
    cases count with
    | none =>
      subst h2
      have := inv_setSize i h1 cl
      exact ⟨this.1, h1, this.2⟩
    | some j =>
      have hj := h3 j rfl
      have e : setType p ⟨.cls d, some j⟩ b s = s := inv_setItem i hj
      rw [e]
      have e2 := i.item_ok d j hj
      have := i.size_ok d (e2 ▸ hj)
      exact ⟨i, h1, e2 ▸ this.2.1, this.2.1⟩

theorem setTypeKeep_good {m : Member n} {b : Int} {s : St n} (i : Inv p Q s) (hb : ItemOk p m b s)
    (cl : Clean (setTypeKeep p m b s)) :
    Inv p Q (setTypeKeep p m b s) ∧ StoredOk p m (setTypeKeep p m b s) := by
  obtain ⟨ty, count⟩ := m
  cases ty with
  | prim k => exact setType_good i hb cl
  | cls d =>
    cases count with
    | some j => exact setType_good i hb cl
    | none =>
      obtain ⟨h1, h2, h3⟩ := hb
      subst h2
      simp only [setTypeKeep] at cl ⊢
      by_cases hu : getBase p s d = UNKNOWN
      · rw [if_pos hu] at cl ⊢
        have := inv_setSize i h1 cl
        exact ⟨this.1, h1, this.2⟩
      · rw [if_neg hu] at cl ⊢
        have q := inv_setSize i h1 (clean_setBase cl)
        by_cases hk : p.kind d = .element
        · simp only [setBase, if_pos hk] at cl ⊢
          exact ⟨q.1, h1, q.2⟩
        · have e : getBase p s d = ownOf p d := by
            simp only [getBase, if_neg hk] at hu ⊢
            exact (i.base_ok d ((i.base_cases d).resolve_left hu)).2
          rw [e] at cl ⊢
          have r := inv_setBase q.1 h1 cl
          refine ⟨r.1, h1, ?_⟩
          show (setBase p d _ _).2.size d = _
          rw [r.2.1]
          exact q.2

theorem stored_bound {m : Member n} {s : St n} (i : Inv p Q s) (h : StoredOk p m s) :
    ∀ d, m.ty = .cls d → Sizable p d ∧ totOf p d ≤ 8192 := by
  intro d hd
  obtain ⟨ty, count⟩ := m
  simp only at hd
  subst hd
  have key : Sizable p d ∧ s.size d = totOf p d := by
    cases count with
    | none => exact h
    | some j => exact ⟨h.1, h.2.2⟩
  refine ⟨key.1, ?_⟩
  have h1 := (i.size_ok d (by rw [key.2]; exact Int.natCast_nonneg _)).2.2
  have h2 := limit_le (p.kind d)
  have := key.2
  omega

/-- The bits in the tables are those of the specification. -/
theorem totalBitSize_eq {m : Member n} {s : St n} {c : Fin n} (h : StoredOk p m s)
    (hne : p.kind c = .transient → isElement p m = false)
    (hb : part p (totOf p) c m < 2 ^ 31) : totalBitSize m s = part p (totOf p) c m := by
  obtain ⟨ty, count⟩ := m
  cases ty with
  | prim k =>
    have hu : (k : Int) ≠ UNKNOWN := by have : UNKNOWN = -2 := rfl; omega
    simp only [part, totalBitSize, Member.times, if_neg hu] at hb ⊢
    rw [s32_eq]
    · push_cast; ring
    · have : (0 : Int) ≤ (k : Int) * (count.getD 1 : Nat) := by positivity
      omega
    · rw [Nat.mul_comm] at hb; exact_mod_cast hb
  | cls d =>
    have hk : ¬ (p.kind c = .transient ∧ p.kind d = .element) := by
      rintro ⟨h1, h2⟩
      have := hne h1
      simp [isElement, h2] at this
    simp only [part, if_neg hk] at hb ⊢
    have hu : ((totOf p d : Nat) : Int) ≠ UNKNOWN := by have : UNKNOWN = -2 := rfl; omega
    have key : totalBitSize ⟨.cls d, count⟩ s = s32 ((totOf p d : Int) * (count.getD 1 : Nat)) := by
      cases count with
      | none =>
        simp only [totalBitSize, Member.times]
        rw [h.2, if_neg hu]
      | some j =>
        simp only [totalBitSize, Member.times]
        rw [h.2.1, if_neg hu]
    rw [key, s32_eq]
    · push_cast; ring
    · have : (0 : Int) ≤ (totOf p d : Int) * (count.getD 1 : Nat) :=
        Int.mul_nonneg (Int.natCast_nonneg _) (Int.natCast_nonneg _)
      omega
    · rw [Nat.mul_comm] at hb; exact_mod_cast hb

theorem addBits_eq {m : Member n} {s : St n} {c : Fin n} (h : StoredOk p m s)
    (hb : part p (totOf p) c m < 2 ^ 31) : addBits p c m s = part p (totOf p) c m := by
  unfold addBits
  split_ifs with h1
  · obtain ⟨h1, h2⟩ := h1
    obtain ⟨ty, count⟩ := m
    cases ty with
    | prim k => simp [isElement] at h2
    | cls d =>
      simp only [isElement, decide_eq_true_eq] at h2
      simp only [part, if_pos (And.intro h1 h2), Member.times] at hb ⊢
      rw [s32_eq]
      · push_cast; ring
      · have : (0 : Int) ≤ (96 : Int) * (count.getD 1 : Nat) := by positivity
        omega
      · rw [Nat.mul_comm] at hb; exact_mod_cast hb
  · refine totalBitSize_eq h (fun hk => ?_) hb
    by_contra hc
    exact h1 ⟨hk, by simpa using hc⟩

/-- The members' types have sizes. -/
def AllSizable (p : Prog n) (ms : List (Member n)) : Prop :=
  ∀ m ∈ ms, ∀ d, m.ty = .cls d → Sizable p d ∧ totOf p d ≤ 8192

/-- A data member that keeps the size from being known: its type is not usable, or its size is
unknown at some moment. -/
def Blocked (R : Fin n → List (Fin n) → St n → Option (Out n)) (p : Prog n) (v : View n) (Q : Keep n)
    (c : Fin n) (m : Member n) : Prop :=
  v.typed c m = false ∨ ∃ seen s o, typeSize R m seen s = some o ∧ Clean o.st ∧ Inv p Q s ∧
    o.bits = UNKNOWN

theorem sumMembers_clean {R : Fin n → List (Fin n) → St n → Option (Out n)} (hR : Good p R)
    (v : View n) (c : Fin n) (ms : List (Member n)) :
    ∀ (acc : Int) (seen : List (Fin n)) (s : St n) (o : Out n),
      sumMembers R p v c ms acc seen s = some o → Clean o.st → Clean s := by
  induction ms with
  | nil =>
    intro acc seen s o h cl
    simp only [sumMembers, Option.some.injEq] at h
    subst h; exact cl
  | cons m ms ih =>
    intro acc seen s o h cl
    unfold sumMembers at h
    split_ifs at h with hv
    · rw [Option.bind_eq_some_iff] at h
      obtain ⟨o', ho', h⟩ := h
      split_ifs at h with h1 h2 h3
      · simp only [Option.some.injEq] at h
        subst h
        exact absurd cl (not_clean_fail _)
      · exact (typeSize_good hR ho' (clean_setType (ih _ _ _ _ h cl))).1
      · simp only [Option.some.injEq] at h
        subst h
        exact (typeSize_good hR ho' cl).1
      · exact (typeSize_good hR ho' (clean_setTypeKeep (ih _ _ _ _ h cl))).1
    · simp only [Option.some.injEq] at h
      subst h; exact cl

theorem maxMembers_clean {R : Fin n → List (Fin n) → St n → Option (Out n)} (hR : Good p R)
    (v : View n) (c : Fin n) (ms : List (Member n)) :
    ∀ (acc : Int) (seen : List (Fin n)) (s : St n) (o : Out n),
      maxMembers R p v c ms acc seen s = some o → Clean o.st → Clean s := by
  induction ms with
  | nil =>
    intro acc seen s o h cl
    simp only [maxMembers, Option.some.injEq] at h
    subst h; exact cl
  | cons m ms ih =>
    intro acc seen s o h cl
    unfold maxMembers at h
    split_ifs at h with hv
    · rw [Option.bind_eq_some_iff] at h
      obtain ⟨o', ho', h⟩ := h
      split_ifs at h with h1 h2 h3
      · simp only [Option.some.injEq] at h
        subst h
        exact absurd cl (not_clean_fail _)
      · exact (typeSize_good hR ho' (clean_setType (ih _ _ _ _ h cl))).1
      · simp only [Option.some.injEq] at h
        subst h
        exact (typeSize_good hR ho' cl).1
      · exact (typeSize_good hR ho' (clean_setType (ih _ _ _ _ h cl))).1
    · simp only [Option.some.injEq] at h
      subst h; exact cl

theorem sumMembers_good {R : Fin n → List (Fin n) → St n → Option (Out n)} (hR : Good p R)
    (v : View n) (c : Fin n) (ms : List (Member n)) :
    ∀ (acc : Nat) (seen : List (Fin n)) (s : St n) (o : Out n),
      acc + (ms.map (part p (fun _ => 8192) c)).sum < 2 ^ 31 →
      sumMembers R p v c ms acc seen s = some o → Clean o.st → Inv p Q s →
      Inv p Q o.st ∧ ((o.bits = UNKNOWN ∧ ∃ m ∈ ms, Blocked R p v Q c m) ∨
        (AllSizable p ms ∧ o.bits = (acc + (ms.map (part p (totOf p) c)).sum : Nat))) := by
  induction ms with
  | nil =>
    intro acc seen s o _ h cl i
    simp only [sumMembers, Option.some.injEq] at h
    subst h
    exact ⟨i, .inr ⟨fun m hm => (by cases hm), by simp⟩⟩
  | cons m ms ih =>
    intro acc seen s o hf h cl i
    simp only [List.map_cons, List.sum_cons] at hf
    unfold sumMembers at h
    split_ifs at h with hv
    · rw [Option.bind_eq_some_iff] at h
      obtain ⟨o', ho', h⟩ := h
      split_ifs at h with h1 h2 h3
      · simp only [Option.some.injEq] at h
        subst h
        exact absurd cl (not_clean_fail _)
      · -- no item has the mark of the empty table
        exfalso
        obtain ⟨_, hb⟩ := (typeSize_good hR ho' (clean_setType (sumMembers_clean hR v c ms _ _ _ _ h cl))).2 _ i
        rcases hb with hb | hb | hb
        · rw [h2] at hb; exact absurd hb (by decide)
        · exact h1 hb
        · obtain ⟨ty, count⟩ := m
          have hE : EMPTY = -11 := rfl
          cases ty with
          | prim k => have : o'.bits = k := hb; omega
          | cls d => have := hb.2.1; omega
      · simp only [Option.some.injEq] at h
        subst h
        obtain ⟨i1, hb⟩ := (typeSize_good hR ho' cl).2 _ i
        refine ⟨i1, .inl ⟨rfl, m, List.mem_cons_self .., .inr ⟨_, _, _, ho', cl, i, ?_⟩⟩⟩
        rcases hb with hb | hb | hb
        · exact hb
        · exact absurd hb h1
        · exfalso
          obtain ⟨ty, count⟩ := m
          have hU : UNKNOWN = -2 := rfl
          cases ty with
          | prim k => have : o'.bits = k := hb; omega
          | cls d => have := hb.2.1; omega
      · have cl1 := sumMembers_clean hR v c ms _ _ _ _ h cl
        obtain ⟨i1, hb⟩ := (typeSize_good hR ho' (clean_setTypeKeep cl1)).2 _ i
        have hb : ItemOk p m o'.bits o'.st := by
          rcases hb with hb | hb | hb
          · exact absurd (Int.le_of_eq hb) h3
          · exact absurd hb h1
          · exact hb
        obtain ⟨i2, st⟩ := setTypeKeep_good i1 hb cl1
        have bd := stored_bound i2 st
        have pm : part p (totOf p) c m ≤ part p (fun _ => 8192) c m :=
          part_mono fun d hd => (bd d hd).2
        rw [addBits_eq (c := c) st (by omega)] at h
        have e : s32 ((acc : Int) + (part p (totOf p) c m : Nat)) = (acc + part p (totOf p) c m : Nat) := by
          rw [s32_eq (by omega) (by omega)]
          push_cast
          rfl
        rw [e] at h
        obtain ⟨i3, r⟩ := ih _ _ _ _ (by omega) h cl i2
        refine ⟨i3, r.imp (fun q => ⟨q.1, q.2.imp fun m' hm' => ⟨List.mem_cons_of_mem _ hm'.1, hm'.2⟩⟩)
          fun q => ⟨?_, ?_⟩⟩
        · intro m' hm'
          rcases List.mem_cons.1 hm' with rfl | hm'
          · exact bd
          · exact q.1 m' hm'
        · rw [q.2]
          simp only [List.map_cons, List.sum_cons]
          rw [Nat.add_assoc]
    · simp only [Option.some.injEq] at h
      subst h
      exact ⟨i, .inl ⟨rfl, m, List.mem_cons_self .., .inl (by simpa using hv)⟩⟩

theorem maxMembers_good {R : Fin n → List (Fin n) → St n → Option (Out n)} (hR : Good p R)
    (v : View n) (c : Fin n) (hu : p.kind c = .quark) (ms : List (Member n)) :
    ∀ (acc : Nat) (seen : List (Fin n)) (s : St n) (o : Out n),
      acc + (ms.map (part p (fun _ => 8192) c)).sum < 2 ^ 31 →
      maxMembers R p v c ms acc seen s = some o → Clean o.st → Inv p Q s →
      Inv p Q o.st ∧ ((o.bits = UNKNOWN ∧ ∃ m ∈ ms, Blocked R p v Q c m) ∨
        (AllSizable p ms ∧ o.bits = (max acc ((ms.map (part p (totOf p) c)).foldr max 0) : Nat))) := by
  induction ms with
  | nil =>
    intro acc seen s o _ h cl i
    simp only [maxMembers, Option.some.injEq] at h
    subst h
    exact ⟨i, .inr ⟨fun m hm => (by cases hm), by simp⟩⟩
  | cons m ms ih =>
    intro acc seen s o hf h cl i
    simp only [List.map_cons, List.sum_cons] at hf
    unfold maxMembers at h
    split_ifs at h with hv
    · rw [Option.bind_eq_some_iff] at h
      obtain ⟨o', ho', h⟩ := h
      split_ifs at h with h1 h2 h3
      · simp only [Option.some.injEq] at h
        subst h
        exact absurd cl (not_clean_fail _)
      · -- no item has the mark of the empty table
        exfalso
        obtain ⟨_, hb⟩ := (typeSize_good hR ho' (clean_setType (maxMembers_clean hR v c ms _ _ _ _ h cl))).2 _ i
        rcases hb with hb | hb | hb
        · rw [h2] at hb; exact absurd hb (by decide)
        · exact h1 hb
        · obtain ⟨ty, count⟩ := m
          have hE : EMPTY = -11 := rfl
          cases ty with
          | prim k => have : o'.bits = k := hb; omega
          | cls d => have := hb.2.1; omega
      · simp only [Option.some.injEq] at h
        subst h
        obtain ⟨i1, hb⟩ := (typeSize_good hR ho' cl).2 _ i
        refine ⟨i1, .inl ⟨rfl, m, List.mem_cons_self .., .inr ⟨_, _, _, ho', cl, i, ?_⟩⟩⟩
        rcases hb with hb | hb | hb
        · exact hb
        · exact absurd hb h1
        · exfalso
          obtain ⟨ty, count⟩ := m
          have hU : UNKNOWN = -2 := rfl
          cases ty with
          | prim k => have : o'.bits = k := hb; omega
          | cls d => have := hb.2.1; omega
      · have cl1 := maxMembers_clean hR v c ms _ _ _ _ h cl
        obtain ⟨i1, hb⟩ := (typeSize_good hR ho' (clean_setType cl1)).2 _ i
        have hb : ItemOk p m o'.bits o'.st := by
          rcases hb with hb | hb | hb
          · exact absurd (Int.le_of_eq hb) h3
          · exact absurd hb h1
          · exact hb
        obtain ⟨i2, st⟩ := setType_good i1 hb cl1
        have bd := stored_bound i2 st
        have pm : part p (totOf p) c m ≤ part p (fun _ => 8192) c m :=
          part_mono fun d hd => (bd d hd).2
        rw [totalBitSize_eq (c := c) st (fun hk => by rw [hu] at hk; cases hk) (by omega)] at h
        have e : max (acc : Int) (part p (totOf p) c m : Nat) = (max acc (part p (totOf p) c m) : Nat) := by
          push_cast
          rfl
        rw [e] at h
        obtain ⟨i3, r⟩ := ih _ _ _ _ (by omega) h cl i2
        refine ⟨i3, r.imp (fun q => ⟨q.1, q.2.imp fun m' hm' => ⟨List.mem_cons_of_mem _ hm'.1, hm'.2⟩⟩)
          fun q => ⟨?_, ?_⟩⟩
        · intro m' hm'
          rcases List.mem_cons.1 hm' with rfl | hm'
          · exact bd
          · exact q.1 m' hm'
        · rw [q.2]
          simp only [List.map_cons, List.foldr_cons]
          rw [Nat.max_assoc]
    · simp only [Option.some.injEq] at h
      subst h
      exact ⟨i, .inl ⟨rfl, m, List.mem_cons_self .., .inl (by simpa using hv)⟩⟩

end Ulam.Sizing
