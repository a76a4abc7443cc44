/-
The sizing ends; a class that only waits for nothing is sized, unless an error is given.
-/
import Verif.Sizing.Sound2
import Mathlib.Data.Fintype.Card
import Mathlib.Data.List.Nodup

namespace Ulam.Sizing

variable {n : Nat} {p : Prog n} {Q : Keep n}

/-! ### The recursion ends -/

/-- The function gives a result when the classes not seen are fewer than `k`. -/
def Ends (k : Nat) (R : Fin n → List (Fin n) → St n → Option (Out n)) : Prop :=
  ∀ d seen s, seen.Nodup → n < k + seen.length →
    ∃ o, R d seen s = some o ∧ o.seen.Nodup ∧ seen.length ≤ o.seen.length

theorem typeSize_ends {k : Nat} {R : Fin n → List (Fin n) → St n → Option (Out n)} (hR : Ends k R)
    (m : Member n) (seen : List (Fin n)) (s : St n) (hn : seen.Nodup) (hk : n < k + seen.length) :
    ∃ o, typeSize R m seen s = some o ∧ o.seen.Nodup ∧ seen.length ≤ o.seen.length := by
  obtain ⟨ty, count⟩ := m
  cases ty with
  | prim b => cases count <;> exact ⟨_, rfl, hn, Nat.le_refl _⟩
  | cls d =>
    cases count with
    | none => exact hR d seen s hn hk
    | some j =>
      simp only [typeSize]
      obtain ⟨o, ho, h1, h2⟩ := hR d seen s hn hk
      split_ifs
      · exact ⟨_, rfl, hn, Nat.le_refl _⟩
      · exact ⟨_, rfl, hn, Nat.le_refl _⟩
      · exact ⟨_, rfl, hn, Nat.le_refl _⟩
      · rw [ho]
        refine ⟨_, rfl, ?_⟩
        dsimp only
        split_ifs <;> exact ⟨h1, h2⟩
      · exact ⟨_, rfl, hn, Nat.le_refl _⟩

theorem sumMembers_ends {k : Nat} {R : Fin n → List (Fin n) → St n → Option (Out n)} (hR : Ends k R)
    (v : View n) (c : Fin n) (ms : List (Member n)) :
    ∀ acc seen s, seen.Nodup → n < k + seen.length →
      ∃ o, sumMembers R p v c ms acc seen s = some o ∧ o.seen.Nodup ∧ seen.length ≤ o.seen.length := by
  induction ms with
  | nil => intro acc seen s hn _; exact ⟨_, rfl, hn, Nat.le_refl _⟩
  | cons m ms ih =>
    intro acc seen s hn hk
    unfold sumMembers
    split_ifs
    · obtain ⟨o, ho, h1, h2⟩ := typeSize_ends hR m seen s hn hk
      rw [ho, Option.bind_some]
      split_ifs
      · exact ⟨_, rfl, h1, h2⟩
      · obtain ⟨o', ho', h1', h2'⟩ := ih (s32 (acc + addBits p c m (setType p m 0 o.st))) o.seen
          (setType p m 0 o.st) h1 (by omega)
        exact ⟨o', ho', h1', by omega⟩
      · exact ⟨_, rfl, h1, h2⟩
      · obtain ⟨o', ho', h1', h2'⟩ := ih (s32 (acc + addBits p c m (setTypeKeep p m o.bits o.st))) o.seen
          (setTypeKeep p m o.bits o.st) h1 (by omega)
        exact ⟨o', ho', h1', by omega⟩
    · exact ⟨_, rfl, hn, Nat.le_refl _⟩

theorem maxMembers_ends {k : Nat} {R : Fin n → List (Fin n) → St n → Option (Out n)} (hR : Ends k R)
    (v : View n) (c : Fin n) (ms : List (Member n)) :
    ∀ acc seen s, seen.Nodup → n < k + seen.length →
      ∃ o, maxMembers R p v c ms acc seen s = some o ∧ o.seen.Nodup ∧ seen.length ≤ o.seen.length := by
  induction ms with
  | nil => intro acc seen s hn _; exact ⟨_, rfl, hn, Nat.le_refl _⟩
  | cons m ms ih =>
    intro acc seen s hn hk
    unfold maxMembers
    split_ifs
    · obtain ⟨o, ho, h1, h2⟩ := typeSize_ends hR m seen s hn hk
      rw [ho, Option.bind_some]
      split_ifs
      · exact ⟨_, rfl, h1, h2⟩
      · obtain ⟨o', ho', h1', h2'⟩ := ih (max acc (totalBitSize m (setType p m 0 o.st))) o.seen
          (setType p m 0 o.st) h1 (by omega)
        exact ⟨o', ho', h1', by omega⟩
      · exact ⟨_, rfl, h1, h2⟩
      · obtain ⟨o', ho', h1', h2'⟩ := ih (max acc (totalBitSize m (setType p m o.bits o.st))) o.seen
          (setType p m o.bits o.st) h1 (by omega)
        exact ⟨o', ho', h1', by omega⟩
    · exact ⟨_, rfl, hn, Nat.le_refl _⟩

theorem blockBits_ends {k : Nat} {R : Fin n → List (Fin n) → St n → Option (Out n)} (hR : Ends k R)
    (v : View n) (c : Fin n) (seen : List (Fin n)) (s : St n) (hn : seen.Nodup)
    (hk : n < k + seen.length) :
    ∃ o, blockBits R p v c seen s = some o ∧ o.seen.Nodup ∧ seen.length ≤ o.seen.length := by
  unfold blockBits
  split_ifs
  · exact ⟨_, rfl, hn, Nat.le_refl _⟩
  · exact ⟨_, rfl, hn, Nat.le_refl _⟩
  · exact maxMembers_ends hR v c _ _ _ _ hn hk
  · exact ⟨_, rfl, hn, Nat.le_refl _⟩
  · exact sumMembers_ends hR v c _ _ _ _ hn hk

theorem trySet_ends {k : Nat} {R : Fin n → List (Fin n) → St n → Option (Out n)} (hR : Ends k R)
    (v : View n) (c : Fin n) (seen : List (Fin n)) (s : St n) (hn : seen.Nodup)
    (hk : n < k + seen.length) :
    ∃ t, trySet R p v c seen s = some t ∧ t.seen.Nodup ∧ seen.length ≤ t.seen.length := by
  obtain ⟨o, ho, h1, h2⟩ := blockBits_ends (p := p) hR v c seen s hn hk
  unfold trySet
  rw [ho]
  refine ⟨_, rfl, ?_⟩
  have : (judge p c (complete p s c) o).seen = o.seen := by
    unfold judge
    split_ifs <;> rfl
  rw [this]
  exact ⟨h1, h2⟩

theorem finish_seen (d : Fin n) (t : Try n) : (finish p d t).seen = t.seen := by
  unfold finish
  dsimp only
  split
  · split
    · split <;> rfl
    · rfl
  · rfl

theorem classBits_ends (p : Prog n) (v : View n) (fuel : Nat) :
    ∀ ctx, Ends fuel (classBits p v fuel ctx) := by
  induction fuel with
  | zero =>
    intro ctx d seen s hn hk
    have := hn.length_le_card
    simp only [Fintype.card_fin] at this
    omega
  | succ fuel ih =>
    intro ctx d seen s hn hk
    unfold classBits
    split_ifs with h1 h2 h3 h4 h5 h6
    · exact ⟨_, rfl, hn, Nat.le_refl _⟩
    · exact ⟨_, rfl, hn, Nat.le_refl _⟩
    · exact ⟨_, rfl, hn, Nat.le_refl _⟩
    · exact ⟨_, rfl, hn, Nat.le_refl _⟩
    · exact ⟨_, rfl, hn, Nat.le_refl _⟩
    · exact ⟨_, rfl, hn, Nat.le_refl _⟩
    · obtain ⟨t, ht, q1, q2⟩ := trySet_ends (p := p) (ih d) v d (d :: seen) s
        (List.nodup_cons.2 ⟨h6, hn⟩) (by simp only [List.length_cons]; omega)
      rw [ht]
      refine ⟨_, rfl, ?_⟩
      rw [finish_seen]
      simp only [List.length_cons] at q2
      exact ⟨q1, by omega⟩

theorem sizeClass_ends (p : Prog n) (v : View n) (c : Fin n) (s : St n) :
    ∃ r, sizeClass p v c s = some r := by
  unfold sizeClass
  split_ifs
  · exact ⟨_, rfl⟩
  · obtain ⟨t, ht, _⟩ := trySet_ends (p := p) (classBits_ends p v (n + 1) c) v c [c] s
      (List.nodup_singleton c) (by simp only [List.length_singleton]; omega)
    rw [ht]
    exact ⟨_, rfl⟩

theorem pass_ends (p : Prog n) (v : View n) (l : List (Fin n)) :
    ∀ ok s, ∃ r, pass p v l ok s = some r := by
  induction l with
  | nil => intro ok s; exact ⟨_, rfl⟩
  | cons c l ih =>
    intro ok s
    unfold pass
    obtain ⟨r, hr⟩ := sizeClass_ends p v c s
    rw [hr]
    exact ih _ _

theorem rounds_ends (p : Prog n) (vs : List (View n)) : ∀ s, ∃ s', rounds p vs s = some s' := by
  induction vs with
  | nil => intro s; exact ⟨_, rfl⟩
  | cons v vs ih =>
    intro s
    unfold rounds
    obtain ⟨r, hr⟩ := pass_ends p v p.order true (v.early.foldl earlyArray (v.arrays.foldl (resolveArray p) s))
    rw [show round p v s = some r from hr]
    exact ih _

/-! ### A class that is ready gets its size -/

/-- The classes `X` wait for nothing: each has a size, or its base classes have, its members have
usable types, its arrays have lengths, and its members' classes are in `X`. -/
def Ready (p : Prog n) (v : View n) (Q : Keep n) (X : Fin n → Prop) : Prop :=
  ∀ x, X x → Q.size x ∨ ((∀ b ∈ p.bases x, Q.size b) ∧ ∀ m ∈ p.members x, v.typed x m = true ∧
    (∀ j, m.count = some j → Q.len m.ty j) ∧ (m.count = none → ∀ d, m.ty = .cls d → X d))

/-- For classes in `X` the function does not answer "unknown". -/
def Solid (p : Prog n) (Q : Keep n) (X : Fin n → Prop)
    (R : Fin n → List (Fin n) → St n → Option (Out n)) : Prop :=
  ∀ d seen s o, X d → R d seen s = some o → Clean o.st → Inv p Q s → o.bits ≠ UNKNOWN

theorem not_blocked {X : Fin n → Prop} {R : Fin n → List (Fin n) → St n → Option (Out n)}
    (hS : Solid p Q X R) {v : View n} {x : Fin n} {m : Member n} (h1 : v.typed x m = true)
    (h2 : ∀ j, m.count = some j → Q.len m.ty j) (h3 : m.count = none → ∀ d, m.ty = .cls d → X d) :
    ¬ Blocked R p v Q x m := by
  rintro (h | ⟨seen, s, o, h, cl, i, hu⟩)
  · rw [h1] at h; cases h
  · have hU : UNKNOWN = -2 := rfl
    obtain ⟨ty, count⟩ := m
    cases ty with
    | prim b =>
      cases count with
      | none =>
        simp only [typeSize, Option.some.injEq] at h
        subst h
        simp only at hu
        omega
      | some j =>
        simp only [typeSize, Option.some.injEq] at h
        subst h
        simp only [i.keep_len _ j (h2 j rfl), if_true] at hu
        omega
    | cls d =>
      cases count with
      | none => exact hS d seen s o (h3 rfl d rfl) h cl i hu
      | some j =>
        have hl := i.keep_len _ j (h2 j rfl)
        have hi := i.len_item d j hl
        simp only [typeSize, hl, if_true, if_pos hi, Option.some.injEq] at h
        subst h
        simp only at hu
        omega

theorem not_wait {X : Fin n → Prop} {R : Fin n → List (Fin n) → St n → Option (Out n)}
    (hS : Solid p Q X R) {v : View n} {x : Fin n} (h1 : ∀ b ∈ p.bases x, Q.size b)
    (h2 : ∀ m ∈ p.members x, v.typed x m = true ∧
      (∀ j, m.count = some j → Q.len m.ty j) ∧ (m.count = none → ∀ d, m.ty = .cls d → X d)) :
    ¬ Wait R p v Q x := by
  rintro (⟨b, hb, s, i, hneg⟩ | ⟨m, hm, h⟩)
  · have := i.keep_size b (h1 b hb)
    omega
  · obtain ⟨q1, q2, q3⟩ := h2 m hm
    exact not_blocked hS q1 q2 q3 h

theorem classBits_solid (L : Legal p) (F : Fits p) {v : View n} {X : Fin n → Prop}
    (hX : Ready p v Q X) (fuel : Nat) : ∀ ctx, Solid p Q X (classBits p v fuel ctx) := by
  induction fuel with
  | zero => intro ctx d seen s o _ h; simp [classBits] at h
  | succ fuel ih =>
    intro ctx d seen s o hd h cl i hu
    have hU : UNKNOWN = -2 := rfl
    have hC : CYCLE = -12 := rfl
    unfold classBits at h
    split_ifs at h with h1 h2 h3 h4 h5 h6
    · simp only [Option.some.injEq] at h
      subst h
      simp only at hu
      omega
    · simp only [Option.some.injEq] at h
      subst h
      simp only at hu
      omega
    · simp only [Option.some.injEq] at h
      subst h
      simp only at hu
      omega
    · simp only [Option.some.injEq] at h
      subst h
      exact absurd cl (not_clean_stop _)
    · simp only [Option.some.injEq] at h
      subst h
      exact absurd cl (not_clean_fail _)
    · simp only [Option.some.injEq] at h
      subst h
      simp only at hu
      omega
    · rw [Option.map_eq_some_iff] at h
      obtain ⟨t, ht, e⟩ := h
      subst e
      obtain ⟨_, g2⟩ := trySet_good L F (classBits_good L F v fuel d) ht
        (incomplete_of (by simpa using h4)) (finish_clean cl)
      obtain ⟨i', q1, q2⟩ := g2 _ i
      obtain ⟨_, r⟩ := (finish_good L F cl q2).2 _ i'
      rcases r with r | r
      · rcases hX d hd with hq | ⟨hb, hm⟩
        · exact h1 (i.keep_size d hq)
        · exact not_wait (ih d) hb hm (q1 r.2)
      · have := r.2; omega

theorem settle_done (L : Legal p) (F : Fits p) {c : Fin n} {t : Try n} (cl : Clean (settle p c t).2)
    (ht : AllSizable p (p.members c) ∧ t.mybits = own p (totOf p) c) (i : Inv p Q t.st)
    (ok : t.ok = true) :
    complete p (settle p c t).2 c = true ∧ (settle p c t).1 = true := by
  unfold settle at cl ⊢
  obtain ⟨a1, a2⟩ := ht
  rcases hq : sharedBits p t.st (p.anc c) 0 with ⟨b, r⟩
  rw [hq] at cl
  cases b with
  | false =>
    simp only [ok, if_true] at cl
    exact absurd cl (not_clean_stop _)
  | true =>
    cases r with
    | none =>
      exfalso
      obtain ⟨sb, hs⟩ := sharedBits_known i (p.anc c) (L.base_kind c) 0 (by rw [hq])
      rw [hq] at hs
      cases hs
    | some sb =>
      obtain ⟨g1, g2, g3, g4⟩ := total_good L F i a1 hq
      simp only [ok, if_true] at cl ⊢
      rw [a2, g3] at cl ⊢
      split_ifs at cl ⊢ with h
      · exact absurd cl (not_clean_fail _)
      · rw [g4] at cl ⊢
        refine ⟨?_, rfl⟩
        obtain ⟨i2, e2⟩ := inv_setSize i g1 (clean_setBase cl)
        have hU : UNKNOWN = -2 := rfl
        unfold complete
        by_cases hk : p.kind c = .element
        · simp only [setBase, if_pos hk]
          rw [e2]
          simp only [hk, decide_true, Bool.true_or, Bool.and_true, decide_eq_true_eq]
          omega
        · have hne : ¬ limit (p.kind c) < (ownOf p c : Int) := by
            intro hl
            simp only [setBase, if_neg hk, if_pos hl] at cl
            exact not_clean_fail _ cl
          simp only [setBase, if_neg hk, if_neg hne]
          obtain ⟨_, b1, b2, _⟩ := inv_putBase i2 g1
          rw [b2, e2]
          have : UNKNOWN < ((totOf p c : Nat) : Int) := by omega
          have h' : ((ownOf p c : Nat) : Int) ≠ UNKNOWN := by omega
          simp [this, b1, h']

theorem sizeClass_done (L : Legal p) (F : Fits p) {v : View n} {X : Fin n → Prop} (hX : Ready p v Q X)
    {c : Fin n} (hc : X c) {s : St n} {r : Bool × St n} (h : sizeClass p v c s = some r)
    (cl : Clean r.2) (i : Inv p Q s)
    (hq : Q.size c → (∀ b ∈ p.bases c, Q.size b) ∧ ∀ m ∈ p.members c, v.typed c m = true ∧
      (∀ j, m.count = some j → Q.len m.ty j) ∧ (m.count = none → ∀ d, m.ty = .cls d → X d)) :
    complete p r.2 c = true ∧ r.1 = true := by
  unfold sizeClass at h
  split_ifs at h with h1
  · simp only [Option.some.injEq] at h
    subst h
    exact ⟨h1, rfl⟩
  · rw [Option.map_eq_some_iff] at h
    obtain ⟨t, ht, e⟩ := h
    subst e
    have clt := settle_clean cl
    obtain ⟨_, g2⟩ := trySet_good L F (classBits_good L F v (n + 1) c) ht (by simpa using h1) clt
    obtain ⟨i', q1, q2⟩ := g2 _ i
    have hb : (∀ b ∈ p.bases c, Q.size b) ∧ ∀ m ∈ p.members c, v.typed c m = true ∧
      (∀ j, m.count = some j → Q.len m.ty j) ∧ (m.count = none → ∀ d, m.ty = .cls d → X d) :=
      (hX c hc).elim hq id
    have ok : t.ok = true := by
      by_contra hf
      exact not_wait (classBits_solid L F hX (n + 1) c) hb.1 hb.2 (q1 (by simpa using hf))
    exact settle_done L F cl (q2 ok) i' ok

/-- Adding a complete class to what stays. -/
def addComp (Q : Keep n) (c : Fin n) : Keep n :=
  ⟨Q.size, fun x => Q.comp x ∨ x = c, Q.len⟩

theorem inv_addComp {s : St n} (i : Inv p Q s) {c : Fin n} (h : complete p s c = true) :
    Inv p (addComp Q c) s :=
  ⟨i.size_cases, i.base_cases, i.size_ok, i.base_ok, i.item_cases, i.item_ok, i.len_item, i.item_len, i.keep_size,
    fun x hx => hx.elim (i.keep_comp x) fun e => e ▸ h, i.keep_len⟩

theorem pass_done (L : Legal p) (F : Fits p) {v : View n} {X : Fin n → Prop} {c : Fin n} (l : List (Fin n)) :
    ∀ Q ok s r, Ready p v Q X → X c → (Q.size c → (∀ b ∈ p.bases c, Q.size b) ∧
      ∀ m ∈ p.members c, v.typed c m = true ∧
        (∀ j, m.count = some j → Q.len m.ty j) ∧ (m.count = none → ∀ d, m.ty = .cls d → X d)) →
      (c ∈ l ∨ Q.comp c) → pass p v l ok s = some r → Clean r.2 → Inv p Q s →
      complete p r.2 c = true := by
  induction l with
  | nil =>
    intro Q ok s r _ _ _ hc h cl i
    simp only [pass, Option.some.injEq] at h
    subst h
    rcases hc with hc | hc
    · cases hc
    · exact i.keep_comp c hc
  | cons x l ih =>
    intro Q ok s r hX hc hq hl h cl i
    unfold pass at h
    rw [Option.bind_eq_some_iff] at h
    obtain ⟨r', hr', h⟩ := h
    have cl' := (pass_good L F _ _ _ _ h cl).1
    have i' := (sizeClass_good L F hr' cl').2 _ i
    by_cases e : x = c
    · subst e
      have hd := (sizeClass_done L F hX hc hr' cl' i hq).1
      exact ih (addComp Q x) _ _ _ hX hc hq (.inr (.inr rfl)) h cl (inv_addComp i' hd)
    · refine ih Q _ _ _ hX hc hq ?_ h cl i'
      rcases hl with hl | hl
      · rcases List.mem_cons.1 hl with rfl | hl
        · exact absurd rfl e
        · exact .inl hl
      · exact .inr hl

/-! ### What a pass answers -/

theorem settle_false {c : Fin n} {t : Try n} (h : t.ok = false) : settle p c t = (false, t.st) := by
  simp [settle, h]

theorem sizeClass_true (L : Legal p) (F : Fits p) {v : View n} {c : Fin n} {s : St n} {r : Bool × St n}
    (h : sizeClass p v c s = some r) (cl : Clean r.2) (i : Inv p Q s) :
    r.1 = true → complete p r.2 c = true := by
  intro hr
  unfold sizeClass at h
  split_ifs at h with h1
  · simp only [Option.some.injEq] at h
    subst h
    exact h1
  · rw [Option.map_eq_some_iff] at h
    obtain ⟨t, ht, e⟩ := h
    subst e
    obtain ⟨_, g2⟩ := trySet_good L F (classBits_good L F v (n + 1) c) ht (by simpa using h1) (settle_clean cl)
    obtain ⟨i', q1, q2⟩ := g2 _ i
    have ok : t.ok = true := by
      by_contra hf
      rw [settle_false (by simpa using hf)] at hr
      cases hr
    exact (settle_done L F cl (q2 ok) i' ok).1

theorem pass_true (L : Legal p) (F : Fits p) {v : View n} (l : List (Fin n)) :
    ∀ Q ok s r, pass p v l ok s = some r → Clean r.2 → Inv p Q s → r.1 = true →
      ok = true ∧ ∀ c, (c ∈ l ∨ Q.comp c) → complete p r.2 c = true := by
  induction l with
  | nil =>
    intro Q ok s r h cl i hr
    simp only [pass, Option.some.injEq] at h
    subst h
    refine ⟨hr, fun c hc => ?_⟩
    rcases hc with hc | hc
    · cases hc
    · exact i.keep_comp c hc
  | cons x l ih =>
    intro Q ok s r h cl i hr
    unfold pass at h
    rw [Option.bind_eq_some_iff] at h
    obtain ⟨r', hr', h⟩ := h
    have cl' := (pass_good L F _ _ _ _ h cl).1
    have i' := (sizeClass_good L F hr' cl').2 _ i
    obtain ⟨a, _⟩ := ih Q _ _ _ h cl i' hr
    simp only [Bool.and_eq_true] at a
    have hd := sizeClass_true L F hr' cl' i a.2
    obtain ⟨_, b⟩ := ih (addComp Q x) _ _ _ h cl (inv_addComp i' hd) hr
    refine ⟨a.1, fun c hc => ?_⟩
    rcases hc with hc | hc
    · rcases List.mem_cons.1 hc with rfl | hc
      · exact b c (.inr (.inr rfl))
      · exact b c (.inl hc)
    · exact b c (.inr (.inl hc))

end Ulam.Sizing
