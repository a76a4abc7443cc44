/-
Programs in which no class needs itself: every class gets its size and no error is given.
-/
import Verif.Sizing.Ready

namespace Ulam.Sizing

variable {n : Nat} {p : Prog n} {Q : Keep n} {rank : Fin n → Nat}

/-- A program without fault: needs go down in rank, sizes are within the limits, a union has
something in its table, no scalar member of a union is an ancestor, every class is in the table. -/
structure Fine (p : Prog n) (rank : Fin n → Nat) : Prop where
  rank_lt : ∀ c d, Needs p c d → rank d < rank c
  limit : ∀ c k t, Sized p c k t → (t : Int) ≤ limit (p.kind c)
  table : ∀ c, p.union c = true → p.members c ≠ [] ∨ p.other c = true
  apart : ∀ u d, p.union u = true → ⟨.cls d, none⟩ ∈ p.members u → ∀ e, d ∉ p.anc e
  order : ∀ c, c ∈ p.order

theorem Fine.sizable (f : Fine p rank) (c : Fin n) : Sizable p c := by
  induction h : rank c using Nat.strong_induction_on generalizing c with
  | _ r ih =>
    exact (sizable_of fun d hd => ih (rank d) (h ▸ f.rank_lt c d hd) d rfl).1

theorem Fine.tot_le (f : Fine p rank) (c : Fin n) : (totOf p c : Int) ≤ Sizing.limit (p.kind c) :=
  f.limit c _ _ (f.sizable c).sized

theorem Fine.own_le (f : Fine p rank) (c : Fin n) : (ownOf p c : Int) ≤ Sizing.limit (p.kind c) := by
  have := (f.sizable c).own_le
  have := f.tot_le c
  omega

/-- The state of the tables while all goes well. -/
structure Well (p : Prog n) (s : St n) : Prop where
  clean : Clean s
  inv : Inv p nothing s
  up : ∀ c, 0 ≤ s.size c → ∀ a ∈ p.anc c, 0 ≤ s.size a
  comp : ∀ e, ∀ a ∈ p.anc e, 0 ≤ s.size a → complete p s a = true
  cyc : ∀ c, s.size c ≠ CYCLE

/-- Everything known in a state. -/
def snap (p : Prog n) (s : St n) : Keep n :=
  ⟨fun c => 0 ≤ s.size c, fun c => complete p s c = true, fun ty j => s.len ty j = true⟩

theorem inv_snap {s : St n} (i : Inv p Q s) : Inv p (snap p s) s :=
  ⟨i.size_cases, i.base_cases, i.size_ok, i.base_ok, i.item_cases, i.item_ok, i.len_item, i.item_len,
    fun _ h => h, fun _ h => h, fun _ _ h => h⟩

theorem inv_nothing {s : St n} (i : Inv p Q s) : Inv p nothing s :=
  ⟨i.size_cases, i.base_cases, i.size_ok, i.base_ok, i.item_cases, i.item_ok, i.len_item, i.item_len,
    fun _ h => h.elim, fun _ h => h.elim, fun _ _ h => h.elim⟩

theorem clean_setSize_of (f : Fine p rank) {s : St n} (cl : Clean s) (d : Fin n) :
    Clean (setSize p d (totOf p d) s) := by
  unfold setSize
  split_ifs with h1 h2
  · exact cl
  · have := f.tot_le d; omega
  · exact cl
  · exact cl

theorem clean_setBase_of (f : Fine p rank) {s : St n} (cl : Clean s) (i : Inv p Q s) (d : Fin n) :
    Clean (setBase p d (ownOf p d) s).2 := by
  unfold setBase
  split_ifs with h1 h2
  · exact cl
  · have := f.own_le d; omega
  · obtain ⟨_, _, _, _, _, e1, e2, _⟩ := inv_putBase i (f.sizable d)
    exact ⟨e1.trans cl.1, e2.trans cl.2⟩

theorem setSize_other {s : St n} {d x : Fin n} {b : Int} (h : x ≠ d) :
    (setSize p d b s).size x = s.size x ∧ (setSize p d b s).base x = s.base x := by
  unfold setSize
  split_ifs
  · exact ⟨rfl, rfl⟩
  · exact ⟨rfl, rfl⟩
  · exact ⟨rfl, rfl⟩
  · simp [Function.update_of_ne h]

theorem complete_congr {s s' : St n} {x : Fin n} (h1 : s'.size x = s.size x) (h2 : s'.base x = s.base x) :
    complete p s' x = complete p s x := by
  unfold complete
  rw [h1, h2]

theorem well_setBase (f : Fine p rank) {s : St n} (w : Well p s) (d : Fin n) :
    Well p (setBase p d (ownOf p d) s).2 := by
  have cl := clean_setBase_of f w.clean w.inv d
  have i := inv_setBase (inv_snap w.inv) (f.sizable d) cl
  refine ⟨cl, inv_nothing i.1, ?_, ?_, ?_⟩
  · rw [i.2.1]; exact w.up
  · rw [i.2.1]; intro e a ha h; exact i.1.keep_comp a (w.comp e a ha h)
  · rw [i.2.1]; exact w.cyc

/-- The size of a class that is no ancestor. -/
theorem well_setSize (f : Fine p rank) {s : St n} (w : Well p s) {d : Fin n} (hd : ∀ e, d ∉ p.anc e)
    (ha : ∀ a ∈ p.anc d, 0 ≤ s.size a) : Well p (setSize p d (totOf p d) s) := by
  have cl := clean_setSize_of f w.clean d
  have i := inv_setSize (inv_snap w.inv) (f.sizable d) cl
  refine ⟨cl, inv_nothing i.1, ?_, ?_, ?_⟩
  · intro c hc a hca
    have hne : a ≠ d := fun e => hd c (e ▸ hca)
    rw [(setSize_other hne).1]
    by_cases e : c = d
    · subst e; exact ha a hca
    · rw [(setSize_other e).1] at hc
      exact w.up c hc a hca
  · intro e a hea h
    have hne : a ≠ d := fun q => hd e (q ▸ hea)
    rw [(setSize_other hne).1] at h
    rw [complete_congr (setSize_other hne).1 (setSize_other hne).2]
    exact w.comp e a hea h
  · intro c
    by_cases e : c = d
    · subst e
      rw [i.2]
      have : CYCLE = -12 := rfl
      omega
    · rw [(setSize_other e).1]; exact w.cyc c

theorem setBase_other {s : St n} {d x : Fin n} {b : Int} (h : x ≠ d) :
    (setBase p d b s).2.size x = s.size x ∧ (setBase p d b s).2.base x = s.base x := by
  unfold setBase putBase
  split_ifs
  · exact ⟨rfl, rfl⟩
  · exact ⟨rfl, rfl⟩
  · exact ⟨rfl, rfl⟩
  · exact ⟨rfl, rfl⟩
  · simp [Function.update_of_ne h]

/-- Size and size as a base together. -/
theorem well_setBoth (L : Legal p) (f : Fine p rank) {s : St n} (w : Well p s) {d : Fin n}
    (ha : ∀ a ∈ p.anc d, 0 ≤ s.size a) :
    Well p (setBase p d (ownOf p d) (setSize p d (totOf p d) s)).2 ∧
      (setBase p d (ownOf p d) (setSize p d (totOf p d) s)).2.size d = totOf p d := by
  have cl := clean_setSize_of f w.clean d
  have i := inv_setSize (inv_snap w.inv) (f.sizable d) cl
  have cl2 := clean_setBase_of f cl i.1 d
  have i2 := inv_setBase i.1 (f.sizable d) cl2
  have hs : (setBase p d (ownOf p d) (setSize p d (totOf p d) s)).2.size d = totOf p d := by
    rw [i2.2.1]; exact i.2
  refine ⟨⟨cl2, inv_nothing i2.1, ?_, ?_, ?_⟩, hs⟩
  · intro c hc a hca
    by_cases e : c = d
    · subst e; exact i2.1.keep_size a (ha a hca)
    · rw [(setBase_other e).1, (setSize_other e).1] at hc
      exact i2.1.keep_size a (w.up c hc a hca)
  · intro e a hea h
    by_cases q : a = d
    · subst q
      have hk := L.base_kind e a hea
      have hl := f.own_le a
      have hU : UNKNOWN = -2 := rfl
      have hb : (setBase p a (ownOf p a) (setSize p a (totOf p a) s)).2.base a = ownOf p a := by
        simp only [setBase, if_neg hk, if_neg (show ¬ limit (p.kind a) < (ownOf p a : Int) by omega)]
        exact (inv_putBase i.1 (f.sizable a)).2.1
      unfold complete
      rw [hs, hb]
      have h1 : UNKNOWN < ((totOf p a : Nat) : Int) := by omega
      have h2 : ((ownOf p a : Nat) : Int) ≠ UNKNOWN := by omega
      simp [h1, h2]
    · rw [(setBase_other q).1, (setSize_other q).1] at h
      exact i2.1.keep_comp a (w.comp e a hea h)
  · intro c
    by_cases e : c = d
    · subst e
      rw [hs]
      have : CYCLE = -12 := rfl
      omega
    · rw [(setBase_other e).1, (setSize_other e).1]; exact w.cyc c

/-- The tables let the size of a class be set: its ancestors have sizes, and its size as a base is
there. -/
def Settable (p : Prog n) (s : St n) (d : Fin n) : Prop :=
  (∀ a ∈ p.anc d, 0 ≤ s.size a) ∧ (0 ≤ s.size d ∨ p.kind d = .element ∨ s.base d ≠ UNKNOWN)

theorem setSize_same (f : Fine p rank) {s : St n} (w : Well p s) {d : Fin n} (h : 0 ≤ s.size d) :
    setSize p d (totOf p d) s = s := by
  have := (w.inv.size_ok d h).2.1
  unfold setSize
  split_ifs with h1 h2 h3
  · rfl
  · have := f.tot_le d; omega
  · rfl

theorem well_setTypeKeep (L : Legal p) (f : Fine p rank) {s : St n} (w : Well p s) {m : Member n} {b : Int}
    (hb : ItemOk p m b s) (hs : ∀ d, m = ⟨.cls d, none⟩ → Settable p s d) :
    Well p (setTypeKeep p m b s) := by
  obtain ⟨ty, count⟩ := m
  cases ty with
  | prim k => exact w
  | cls d =>
    cases count with
    | some j =>
      have e : setTypeKeep p ⟨.cls d, some j⟩ b s = s := inv_setItem w.inv (hb.2.2 j rfl)
      rw [e]; exact w
    | none =>
      obtain ⟨h1, h2⟩ := hs d rfl
      have e := hb.2.1
      subst e
      simp only [setTypeKeep]
      by_cases hu : getBase p s d = UNKNOWN
      · rw [if_pos hu]
        have h0 : 0 ≤ s.size d := by
          rcases h2 with h2 | h2 | h2
          · exact h2
          · rw [getBase, if_pos h2] at hu; exact absurd hu (by decide)
          · by_cases hk : p.kind d = .element
            · rw [getBase, if_pos hk] at hu; exact absurd hu (by decide)
            · rw [getBase, if_neg hk] at hu; exact absurd hu h2
        rw [setSize_same f w h0]
        exact w
      · rw [if_neg hu]
        by_cases hk : p.kind d = .element
        · simp only [setBase, if_pos hk]
          exact well_setSize f w (fun e he => L.base_kind e d he hk) h1
        · have e : getBase p s d = ownOf p d := by
            simp only [getBase, if_neg hk] at hu ⊢
            exact (w.inv.base_ok d ((w.inv.base_cases d).resolve_left hu)).2
          rw [e]
          exact (well_setBoth L f w h1).1

theorem well_setType (f : Fine p rank) {s : St n} (w : Well p s) {m : Member n} {b : Int}
    (hb : ItemOk p m b s) (hs : ∀ d, m = ⟨.cls d, none⟩ → Settable p s d)
    (ha : ∀ d, m = ⟨.cls d, none⟩ → ∀ e, d ∉ p.anc e) : Well p (setType p m b s) := by
  obtain ⟨ty, count⟩ := m
  cases ty with
  | prim k => exact w
  | cls d =>
    cases count with
    | some j =>
      have e : setType p ⟨.cls d, some j⟩ b s = s := inv_setItem w.inv (hb.2.2 j rfl)
      rw [e]; exact w
    | none =>
      have e := hb.2.1
      subst e
      exact well_setSize f w (ha d rfl) (hs d rfl).1

/-- What is expected of the function for scalar classes needed by `ctx`; `P` are the classes whose
size is being worked out. -/
def Fwd (p : Prog n) (rank : Fin n → Nat) (ctx : Fin n)
    (R : Fin n → List (Fin n) → St n → Option (Out n)) : Prop :=
  ∀ (P : Fin n → Prop) d seen s o, rank d < rank ctx → (∀ x, P x → rank d < rank x) → Well p s →
    (∀ x ∈ seen, 0 ≤ s.size x ∨ P x) → R d seen s = some o →
    Well p o.st ∧ o.bits ≠ CYCLE ∧ (0 ≤ o.bits → Settable p o.st d ∧
      ∀ x ∈ o.seen, 0 ≤ o.st.size x ∨ x = d ∨ P x)

theorem typeSize_fwd {R : Fin n → List (Fin n) → St n → Option (Out n)} {c : Fin n}
    (hF : Fwd p rank c R) (f : Fine p rank) {m : Member n} (hm : m ∈ p.members c) {P : Fin n → Prop}
    (hP : ∀ x, P x → rank c ≤ rank x) {seen : List (Fin n)} {s : St n} (w : Well p s)
    (hs : ∀ x ∈ seen, 0 ≤ s.size x ∨ P x) {o : Out n} (h : typeSize R m seen s = some o) :
    Well p o.st ∧ o.bits ≠ CYCLE ∧ (0 ≤ o.bits → (∀ d, m = ⟨.cls d, none⟩ → Settable p o.st d) ∧
      ∀ x ∈ o.seen, 0 ≤ o.st.size x ∨ m = ⟨.cls x, none⟩ ∨ P x) := by
  have hC : CYCLE = -12 := rfl
  obtain ⟨ty, count⟩ := m
  cases ty with
  | prim b =>
    have hU : UNKNOWN = -2 := rfl
    have key : o.st = s ∧ o.seen = seen ∧ o.bits ≠ CYCLE := by
      cases count with
      | none =>
        simp only [typeSize, Option.some.injEq] at h
        subst h
        exact ⟨rfl, rfl, by simp only; omega⟩
      | some j =>
        simp only [typeSize, Option.some.injEq] at h
        subst h
        refine ⟨rfl, rfl, ?_⟩
        simp only
        split_ifs <;> omega
    obtain ⟨e1, e2, e3⟩ := key
    rw [e1, e2]
    refine ⟨w, e3, fun _ => ⟨fun d hd => ?_, fun x hx => (hs x hx).imp_right .inr⟩⟩
    simp at hd
  | cls d =>
    cases count with
    | some j =>
      have key : o.st = s ∧ o.seen = seen ∧ o.bits ≠ CYCLE := by
        simp only [typeSize] at h
        by_cases hl : s.len (.cls d) j = true
        · have hi := w.inv.len_item d j hl
          simp only [hl, if_true, if_pos hi, Option.some.injEq] at h
          subst h
          exact ⟨rfl, rfl, by simp only; omega⟩
        · simp only [hl, Bool.false_eq_true, if_false, Option.some.injEq] at h
          subst h
          exact ⟨rfl, rfl, by show UNKNOWN ≠ CYCLE; decide⟩
      obtain ⟨e1, e2, e3⟩ := key
      rw [e1, e2]
      refine ⟨w, e3, fun _ => ⟨fun d hd => ?_, fun x hx => (hs x hx).imp_right .inr⟩⟩
      simp at hd
    | none =>
      simp only [typeSize] at h
      have hr := f.rank_lt c d (.inl ⟨_, hm, rfl⟩)
      obtain ⟨a1, a2, a3⟩ := hF P d seen s o hr (fun x hx => Nat.lt_of_lt_of_le hr (hP x hx)) w hs h
      refine ⟨a1, a2, fun h0 => ?_⟩
      obtain ⟨b1, b2⟩ := a3 h0
      refine ⟨?_, ?_⟩
      · intro d' e
        simp only [Member.mk.injEq, Ty.cls.injEq, and_true] at e
        subst e
        exact b1
      · intro x hx
        rcases b2 x hx with q | q | q
        · exact .inl q
        · subst q; exact .inr (.inl rfl)
        · exact .inr (.inr q)

theorem sumMembers_fwd (L : Legal p) (f : Fine p rank) {R : Fin n → List (Fin n) → St n → Option (Out n)}
    (hR : Good p R) {c : Fin n} (hF : Fwd p rank c R) (v : View n) {P : Fin n → Prop}
    (hP : ∀ x, P x → rank c ≤ rank x) (ms : List (Member n)) :
    ∀ acc seen s o, (∀ m ∈ ms, m ∈ p.members c) → Well p s → (∀ x ∈ seen, 0 ≤ s.size x ∨ P x) →
      sumMembers R p v c ms acc seen s = some o →
      Well p o.st ∧ (o.bits ≠ UNKNOWN → ∀ x ∈ o.seen, 0 ≤ o.st.size x ∨ P x) := by
  induction ms with
  | nil =>
    intro acc seen s o _ w hs h
    simp only [sumMembers, Option.some.injEq] at h
    subst h
    exact ⟨w, fun _ => hs⟩
  | cons m ms ih =>
    intro acc seen s o hms w hs h
    unfold sumMembers at h
    split_ifs at h with hv
    · rw [Option.bind_eq_some_iff] at h
      obtain ⟨o', ho', h⟩ := h
      obtain ⟨w1, nc, a⟩ := typeSize_fwd hF f (hms m (List.mem_cons_self ..)) hP w hs ho'
      obtain ⟨i1, hb⟩ := (typeSize_good hR ho' w1.clean).2 _ (inv_snap w.inv)
      split_ifs at h with h1 h2 h3
      · exact absurd h1 nc
      · exfalso
        rcases hb with hb | hb | hb
        · rw [h2] at hb; exact absurd hb (by decide)
        · exact h1 hb
        · obtain ⟨ty, count⟩ := m
          have hE : EMPTY = -11 := rfl
          cases ty with
          | prim k => have : o'.bits = k := hb; omega
          | cls d => have := hb.2.1; omega
      · simp only [Option.some.injEq] at h
        subst h
        exact ⟨w1, fun q => absurd rfl q⟩
      · have hb : ItemOk p m o'.bits o'.st := by
          rcases hb with hb | hb | hb
          · exact absurd (Int.le_of_eq hb) h3
          · exact absurd hb h1
          · exact hb
        have h0 : 0 ≤ o'.bits := by
          obtain ⟨ty, count⟩ := m
          cases ty with
          | prim k => have : o'.bits = k := hb; omega
          | cls d => have := hb.2.1; omega
        obtain ⟨b1, b2⟩ := a h0
        have w2 : Well p (setTypeKeep p m o'.bits o'.st) := well_setTypeKeep L f w1 hb b1
        obtain ⟨i2, st⟩ := setTypeKeep_good (inv_snap w1.inv) hb w2.clean
        refine ih _ _ _ _ (fun m' hm' => hms m' (List.mem_cons_of_mem _ hm')) w2 ?_ h
        intro x hx
        rcases b2 x hx with q | q | q
        · exact .inl (i2.keep_size x q)
        · subst q
          left
          have : (setTypeKeep p ⟨.cls x, none⟩ o'.bits o'.st).size x = totOf p x := st.2
          omega
        · exact .inr q
    · simp only [Option.some.injEq] at h
      subst h
      exact ⟨w, fun q => absurd rfl q⟩

theorem maxMembers_fwd (f : Fine p rank) {R : Fin n → List (Fin n) → St n → Option (Out n)}
    (hR : Good p R) {c : Fin n} (hF : Fwd p rank c R) (hu : p.union c = true) (v : View n) {P : Fin n → Prop}
    (hP : ∀ x, P x → rank c ≤ rank x) (ms : List (Member n)) :
    ∀ acc seen s o, (∀ m ∈ ms, m ∈ p.members c) → Well p s → (∀ x ∈ seen, 0 ≤ s.size x ∨ P x) →
      maxMembers R p v c ms acc seen s = some o →
      Well p o.st ∧ (o.bits ≠ UNKNOWN → ∀ x ∈ o.seen, 0 ≤ o.st.size x ∨ P x) := by
  induction ms with
  | nil =>
    intro acc seen s o _ w hs h
    simp only [maxMembers, Option.some.injEq] at h
    subst h
    exact ⟨w, fun _ => hs⟩
  | cons m ms ih =>
    intro acc seen s o hms w hs h
    unfold maxMembers at h
    split_ifs at h with hv
    · rw [Option.bind_eq_some_iff] at h
      obtain ⟨o', ho', h⟩ := h
      obtain ⟨w1, nc, a⟩ := typeSize_fwd hF f (hms m (List.mem_cons_self ..)) hP w hs ho'
      obtain ⟨i1, hb⟩ := (typeSize_good hR ho' w1.clean).2 _ (inv_snap w.inv)
      split_ifs at h with h1 h2 h3
      · exact absurd h1 nc
      · exfalso
        rcases hb with hb | hb | hb
        · rw [h2] at hb; exact absurd hb (by decide)
        · exact h1 hb
        · obtain ⟨ty, count⟩ := m
          have hE : EMPTY = -11 := rfl
          cases ty with
          | prim k => have : o'.bits = k := hb; omega
          | cls d => have := hb.2.1; omega
      · simp only [Option.some.injEq] at h
        subst h
        exact ⟨w1, fun q => absurd rfl q⟩
      · have hb : ItemOk p m o'.bits o'.st := by
          rcases hb with hb | hb | hb
          · exact absurd (Int.le_of_eq hb) h3
          · exact absurd hb h1
          · exact hb
        have h0 : 0 ≤ o'.bits := by
          obtain ⟨ty, count⟩ := m
          cases ty with
          | prim k => have : o'.bits = k := hb; omega
          | cls d => have := hb.2.1; omega
        obtain ⟨b1, b2⟩ := a h0
        have w2 : Well p (setType p m o'.bits o'.st) := well_setType f w1 hb b1 fun d hd =>
          f.apart c d hu (hd ▸ hms m (List.mem_cons_self ..))
        obtain ⟨i2, st⟩ := setType_good (inv_snap w1.inv) hb w2.clean
        refine ih _ _ _ _ (fun m' hm' => hms m' (List.mem_cons_of_mem _ hm')) w2 ?_ h
        intro x hx
        rcases b2 x hx with q | q | q
        · exact .inl (i2.keep_size x q)
        · subst q
          left
          have : (setType p ⟨.cls x, none⟩ o'.bits o'.st).size x = totOf p x := st.2
          omega
        · exact .inr q
    · simp only [Option.some.injEq] at h
      subst h
      exact ⟨w, fun q => absurd rfl q⟩

theorem baseSum_nonneg {s : St n} (l : List (Fin n)) : ∀ acc, 0 ≤ acc → ¬ baseSum s l acc < 0 →
    ∀ b ∈ l, 0 ≤ s.size b := by
  induction l with
  | nil => intro acc _ _ b hb; cases hb
  | cons x l ih =>
    intro acc h h' b hb
    unfold baseSum at h'
    split_ifs at h' with h1
    · omega
    · rcases List.mem_cons.1 hb with rfl | hb
      · omega
      · exact ih _ (by omega) h' b hb

theorem anc_of_bases (L : Legal p) {s : St n} (w : Well p s) {c : Fin n}
    (h : ∀ b ∈ p.bases c, 0 ≤ s.size b) : ∀ a ∈ p.anc c, 0 ≤ s.size a := by
  intro a ha
  have hb := (L.anc_iff c a).1 ha
  obtain ⟨b, hb1, hb2⟩ := (Relation.TransGen.head'_iff).1 hb
  rcases (Relation.reflTransGen_iff_eq_or_transGen).1 hb2 with e | e
  · rw [e]; exact h b hb1
  · exact w.up b (h b hb1) a ((L.anc_iff b a).2 e)

theorem blockBits_fwd (L : Legal p) (F : Fits p) (f : Fine p rank)
    {R : Fin n → List (Fin n) → St n → Option (Out n)} (hR : Good p R) {c : Fin n}
    (hF : Fwd p rank c R) {v : View n} {P : Fin n → Prop} (hP : ∀ x, P x → rank c ≤ rank x)
    {seen : List (Fin n)} {s : St n} {o : Out n} (w : Well p s) (hs : ∀ x ∈ seen, 0 ≤ s.size x ∨ P x)
    (h : blockBits R p v c seen s = some o) :
    Well p o.st ∧ o.bits ≠ CYCLE ∧ (p.union c = true → o.bits ≠ EMPTY) ∧
      (o.bits ≠ UNKNOWN → (∀ x ∈ o.seen, 0 ≤ o.st.size x ∨ P x) ∧ ∀ b ∈ p.bases c, 0 ≤ s.size b) := by
  have hU : UNKNOWN = -2 := rfl
  have hC : CYCLE = -12 := rfl
  have hE : EMPTY = -11 := rfl
  have hf := F c
  unfold blockBits at h
  split_ifs at h with h1 h2 h3 h4
  · simp only [Option.some.injEq] at h
    subst h
    obtain ⟨b, hb, e⟩ := baseSum_neg _ _ (Int.le_refl 0) h1
    have hu : baseSum s (p.bases c) 0 = UNKNOWN := by
      rcases w.inv.size_cases b with q | q | q
      · rw [e, q]
      · exact absurd q (w.cyc b)
      · omega
    refine ⟨w, ?_, fun _ => ?_, fun q => absurd hu q⟩
    · simp only; omega
    · simp only; omega
  · exfalso
    simp only [Bool.and_eq_true, List.isEmpty_iff, Bool.not_eq_true'] at h3
    rcases f.table c h2 with q | q
    · exact q h3.1
    · rw [h3.2] at q; cases q
  · obtain ⟨w1, a⟩ := maxMembers_fwd f hR hF h2 v hP _ _ _ _ _ (fun _ h => h) w hs h
    obtain ⟨_, r⟩ := maxMembers_good hR v c (L.union_quark c h2) (p.members c) 0 seen s o (by omega) h
      w1.clean w.inv
    refine ⟨w1, ?_, fun _ => ?_, fun q => ⟨a q, baseSum_nonneg _ _ (Int.le_refl 0) h1⟩⟩
    · rcases r with r | r
      · have := r.1; omega
      · have := r.2; omega
    · rcases r with r | r
      · have := r.1; omega
      · have := r.2; omega
  · simp only [Option.some.injEq] at h
    subst h
    refine ⟨w, by simp only; omega, fun q => absurd q h2, fun _ => ⟨hs, baseSum_nonneg _ _ (Int.le_refl 0) h1⟩⟩
  · obtain ⟨w1, a⟩ := sumMembers_fwd L f hR hF v hP _ _ _ _ _ (fun _ h => h) w hs h
    obtain ⟨_, r⟩ := sumMembers_good hR v c (p.members c) 0 seen s o (by omega) h w1.clean w.inv
    refine ⟨w1, ?_, fun q => absurd q h2, fun q => ⟨a q, baseSum_nonneg _ _ (Int.le_refl 0) h1⟩⟩
    rcases r with r | r
    · have := r.1; omega
    · have := r.2; omega

theorem trySet_fwd (L : Legal p) (F : Fits p) (f : Fine p rank)
    {R : Fin n → List (Fin n) → St n → Option (Out n)} (hR : Good p R) {c : Fin n}
    (hF : Fwd p rank c R) {v : View n} {P : Fin n → Prop} (hP : ∀ x, P x → rank c ≤ rank x)
    {seen : List (Fin n)} {s : St n} {t : Try n} (w : Well p s) (hs : ∀ x ∈ seen, 0 ≤ s.size x ∨ P x)
    (hc : complete p s c = false) (h : trySet R p v c seen s = some t) :
    Well p t.st ∧ (t.ok = true → (∀ x ∈ t.seen, 0 ≤ t.st.size x ∨ P x) ∧
      ∀ a ∈ p.anc c, 0 ≤ t.st.size a) := by
  unfold trySet at h
  rw [Option.map_eq_some_iff] at h
  obtain ⟨o, ho, e⟩ := h
  obtain ⟨w1, b1, b2, b3⟩ := blockBits_fwd L F f hR hF hP w hs ho
  have i1 := ((blockBits_good L F hR ho w1.clean).2 _ (inv_snap w.inv)).1
  subst e
  rw [hc]
  unfold judge
  rw [if_neg b1]
  have key : o.bits ≠ UNKNOWN → (∀ x ∈ o.seen, 0 ≤ o.st.size x ∨ P x) ∧ ∀ a ∈ p.anc c, 0 ≤ o.st.size a :=
    fun q => ⟨(b3 q).1, anc_of_bases L w1 fun b hb => i1.keep_size b ((b3 q).2 b hb)⟩
  split_ifs with h2 h3 h4 h5
  · exact absurd h2 (b2 h3)
  · exact ⟨w1, fun _ => key (by rw [h2]; decide)⟩
  · exact ⟨w1, fun _ => key h4⟩
  · exact ⟨w1, fun _ => key h4⟩
  · exact ⟨w1, fun q => by cases q⟩

theorem sharedBits_fwd {s : St n} (l : List (Fin n)) (hl : ∀ a ∈ l, complete p s a = true) :
    ∀ acc, (sharedBits p s l acc).1 = true := by
  induction l with
  | nil => intro acc; rfl
  | cons a l ih =>
    intro acc
    unfold sharedBits
    rw [if_neg (by rw [hl a (List.mem_cons_self ..)]; decide)]
    split_ifs
    · rfl
    · exact ih (fun x hx => hl x (List.mem_cons_of_mem _ hx)) _

theorem shared_known (L : Legal p) {s : St n} (w : Well p s) {c : Fin n}
    (h : ∀ a ∈ p.anc c, 0 ≤ s.size a) : ∃ sb, sharedBits p s (p.anc c) 0 = (true, some sb) :=
  sharedBits_known w.inv (p.anc c) (L.base_kind c) 0
    (sharedBits_fwd _ (fun a ha => w.comp c a ha (h a ha)) 0)

theorem classBits_fwd (L : Legal p) (F : Fits p) (f : Fine p rank) (v : View n) (fuel : Nat) :
    ∀ ctx, Fwd p rank ctx (classBits p v fuel ctx) := by
  induction fuel with
  | zero => intro ctx P d seen s o _ _ _ _ h; simp [classBits] at h
  | succ fuel ih =>
    intro ctx P d seen s o hr hP w hs h
    have hU : UNKNOWN = -2 := rfl
    have hC : CYCLE = -12 := rfl
    unfold classBits at h
    split_ifs at h with h1 h2 h3 h4 h5 h6
    · simp only [Option.some.injEq] at h
      subst h
      exact ⟨w, by simp only; omega, fun _ => ⟨⟨w.up d h1, .inl h1⟩, fun x hx => (hs x hx).imp_right .inr⟩⟩
    · exact absurd h2 (w.cyc d)
    · exfalso
      rcases w.inv.size_cases d with e | e | e
      · rw [e] at h3; exact absurd h3 (by decide)
      · exact h2 e
      · exact h1 e
    · exfalso
      rcases w.inv.size_cases d with e | e | e
      · exact h4 e
      · exact h2 e
      · exact h1 e
    · subst h5; omega
    · exfalso
      rcases hs d h6 with q | q
      · exact h1 q
      · have := hP d q; omega
    · rw [Option.map_eq_some_iff] at h
      obtain ⟨t, ht, e⟩ := h
      subst e
      have hc : complete p s d = false := incomplete_of (by simpa using h4)
      obtain ⟨w1, a⟩ := trySet_fwd L F f (classBits_good L F v fuel d) (ih d)
        (P := fun x => x = d ∨ P x)
        (fun x hx => hx.elim (fun e => e ▸ Nat.le_refl _) fun hx => Nat.le_of_lt (hP x hx)) w
        (fun x hx => by
          rcases List.mem_cons.1 hx with e | hx
          · exact .inr (.inl e)
          · exact (hs x hx).imp_right .inr) hc ht
      obtain ⟨_, _, q2⟩ := (trySet_good L F (classBits_good L F v fuel d) ht hc w1.clean).2 _ (inv_snap w.inv)
      by_cases ok : t.ok = true
      · obtain ⟨a1, a2⟩ := a ok
        obtain ⟨c1, c2⟩ := q2 ok
        obtain ⟨sb, hq⟩ := shared_known L w1 a2
        obtain ⟨g1, g2, g3, _⟩ := total_good L F w1.inv c1 hq
        have w2 := well_setBase f w1 d
        have i2 := inv_setBase (inv_snap w1.inv) g1 w2.clean
        have e : finish p d t = ⟨totOf p d, t.seen, (setBase p d (ownOf p d) t.st).2⟩ := by
          simp only [finish, ok, if_true, hq]
          rw [c2, g3, g2, i2.2.2]
          rfl
        rw [e]
        refine ⟨w2, by simp only; omega, fun _ => ⟨⟨?_, ?_⟩, ?_⟩⟩
        · intro x hx; exact i2.1.keep_size x (a2 x hx)
        · right
          by_cases hk : p.kind d = .element
          · exact .inl hk
          · right
            have hl := f.own_le d
            simp only [setBase, if_neg hk, if_neg (show ¬ limit (p.kind d) < (ownOf p d : Int) by omega)]
            rw [(inv_putBase w1.inv g1).2.1]
            omega
        · intro x hx
          rcases a1 x hx with q | q
          · exact .inl (i2.1.keep_size x q)
          · exact .inr q
      · have e : finish p d t = ⟨UNKNOWN, t.seen, t.st⟩ := by simp [finish, ok]
        rw [e]
        exact ⟨w1, by show UNKNOWN ≠ CYCLE; decide, fun q => absurd q (by show ¬ 0 ≤ UNKNOWN; decide)⟩

theorem sizeClass_fwd (L : Legal p) (F : Fits p) (f : Fine p rank) {v : View n} {c : Fin n} {s : St n}
    (w : Well p s) {r : Bool × St n} (h : sizeClass p v c s = some r) : Well p r.2 := by
  unfold sizeClass at h
  split_ifs at h with h1
  · simp only [Option.some.injEq] at h
    subst h
    exact w
  · rw [Option.map_eq_some_iff] at h
    obtain ⟨t, ht, e⟩ := h
    subst e
    have hc : complete p s c = false := by simpa using h1
    obtain ⟨w1, a⟩ := trySet_fwd L F f (classBits_good L F v (n + 1) c) (classBits_fwd L F f v (n + 1) c)
      (P := fun x => x = c) (fun x hx => hx ▸ Nat.le_refl _) w
      (fun x hx => .inr (List.mem_singleton.1 hx)) hc ht
    obtain ⟨_, _, q2⟩ := (trySet_good L F (classBits_good L F v (n + 1) c) ht hc w1.clean).2 _ (inv_snap w.inv)
    by_cases ok : t.ok = true
    · obtain ⟨a1, a2⟩ := a ok
      obtain ⟨c1, c2⟩ := q2 ok
      obtain ⟨sb, hq⟩ := shared_known L w1 a2
      obtain ⟨g1, g2, g3, g4⟩ := total_good L F w1.inv c1 hq
      have i2 := inv_setSize (inv_snap w1.inv) g1 (clean_setSize_of f w1.clean c)
      have e : settle p c t = (true, (setBase p c (ownOf p c) (setSize p c (totOf p c) t.st)).2) := by
        simp only [settle, ok, if_true, hq]
        rw [c2, g3]
        rw [if_neg (by rw [i2.2]; simp), g4]
      rw [e]
      exact (well_setBoth L f w1 a2).1
    · rw [settle_false (by simpa using ok)]
      exact w1

theorem pass_fwd (L : Legal p) (F : Fits p) (f : Fine p rank) {v : View n} (l : List (Fin n)) :
    ∀ ok s r, Well p s → pass p v l ok s = some r → Well p r.2 := by
  induction l with
  | nil =>
    intro ok s r w h
    simp only [pass, Option.some.injEq] at h
    subst h
    exact w
  | cons c l ih =>
    intro ok s r w h
    unfold pass at h
    rw [Option.bind_eq_some_iff] at h
    obtain ⟨r', hr', h⟩ := h
    exact ih _ _ _ (sizeClass_fwd L F f w hr') h

end Ulam.Sizing
