import Verif.Fold.Lemmas
/-!
# C49: folded constant expressions
-/
namespace Ulam.Fold
open Ulam.Types Ulam.Fold.Spec

/-- One operator on numbers. -/
def opExact (op : Op) (x y : Int) : Option Int :=
  match op with
  | .add => some (x + y)
  | .sub => some (x - y)
  | .mul => some (x * y)
  | .div => if y = 0 then none else some (x.tdiv y)
  | .rem => if y = 0 then none else some (x.tmod y)

theorem exact_bin (op : Op) (a b : Expr) {x y : Int} (ha : exact a = some x) (hb : exact b = some y) :
    exact (.bin op a b) = opExact op x y := by
  rw [exact, ha, hb]; rfl

theorem natAbs_bound {n : Nat} {v : Int} : Bound true n v ↔ v.natAbs < 2 ^ (n - 1) := by
  simp only [Bound, if_true]
  rw [← Int.ofNat_lt]
  push_cast
  rw [abs_lt]

theorem tdiv_bound {s a} {x y : Int} (h : Bound s a x) (hy : s = false → 0 ≤ y) : Bound s a (x.tdiv y) := by
  cases s
  · simp only [Bound, Bool.false_eq_true, if_false] at h ⊢
    have hy := hy rfl
    rw [Int.tdiv_eq_ediv_of_nonneg h.1]
    exact ⟨Int.ediv_nonneg h.1 hy, lt_of_le_of_lt (Int.ediv_le_self _ h.1) h.2⟩
  · rw [natAbs_bound] at h ⊢
    rw [Int.natAbs_tdiv]
    exact lt_of_le_of_lt (Nat.div_le_self _ _) h

theorem tmod_bound {s b} {x y : Int} (h : Bound s b y) (h0 : y ≠ 0) (hx : s = false → 0 ≤ x) : Bound s b (x.tmod y) := by
  cases s
  · simp only [Bound, Bool.false_eq_true, if_false] at h ⊢
    have hx := hx rfl
    rw [Int.tmod_eq_emod_of_nonneg hx]
    have := Int.emod_lt_of_pos x (show 0 < y by omega)
    have := Int.emod_nonneg x h0
    omega
  · rw [natAbs_bound] at h ⊢
    rw [Int.natAbs_tmod]
    exact lt_trans (Nat.mod_lt _ (by omega)) h

theorem sum_bound {a b : Nat} {x y : Int} (ha : 1 ≤ a) (hb : 1 ≤ b) (hx : Bound true a x) (hy : Bound true b y) :
    Bound true (max a b + 1) (x + y) ∧ Bound true (max a b + 1) (x - y) := by
  have h1 := pow_mono (show a - 1 ≤ max a b - 1 by omega)
  have h2 := pow_mono (show b - 1 ≤ max a b - 1 by omega)
  have h3 := pow_succ_pred (show 1 ≤ max a b by omega)
  simp only [Bound, if_true, Nat.add_sub_cancel] at hx hy ⊢
  omega

theorem sum_bound_unsigned {a b : Nat} {x y : Int} (hx : Bound false a x) (hy : Bound false b y) :
    Bound false (max a b + 1) (x + y) ∧ (y ≤ x → Bound false (max a b + 1) (x - y)) := by
  have h1 := pow_mono (show a ≤ max a b by omega)
  have h2 := pow_mono (show b ≤ max a b by omega)
  have h3 := pow_succ_pred (show 1 ≤ max a b + 1 by omega)
  simp only [Bound, Bool.false_eq_true, if_false, Nat.add_sub_cancel] at hx hy h3 ⊢
  omega

theorem mul_bound {s : Bool} {a b : Nat} {x y : Int} (ha : 1 ≤ a) (hb : 1 ≤ b) (hx : Bound s a x) (hy : Bound s b y) :
    Bound s (a + b) (x * y) := by
  cases s
  · simp only [Bound, Bool.false_eq_true, if_false] at hx hy ⊢
    rw [pow_add]
    exact ⟨Int.mul_nonneg hx.1 hy.1, mul_lt_mul'' hx.2 hy.2 hx.1 hy.1⟩
  · rw [natAbs_bound] at hx hy ⊢
    rw [Int.natAbs_mul]
    have h1 : x.natAbs * y.natAbs < 2 ^ (a - 1) * 2 ^ (b - 1) := Nat.mul_lt_mul'' hx hy
    rw [← pow_add] at h1
    exact lt_of_lt_of_le h1 (Nat.pow_le_pow_right (by norm_num) (by omega))

theorem safeTo_ok {x s k v t m} (hx : Inv x s k v) (hb : Bound (s || t) m v) (hm : conv s t k ≤ m) :
    safeTo x (bs (s || t)) m = true := by
  unfold safeTo
  split_ifs with ho
  · rw [hx.value, clamp_bound hb]; simp
  · have := hx.own
    cases s <;> cases t <;> simp [conv] at hm <;> simp [bs, hx.base, intFrom, unsignedFrom] <;> omega

theorem step {op l r s t n m x y} (hl : Inv l s n x) (hr : Inv r t m y)
    (h1 : conv s t n ≤ word n) (h2 : conv t s m ≤ word m) (h3 : need op (conv s t n) (conv t s m) ≤ word (max n m))
    (hd : op = .sub → s = false → t = false → y ≤ x)
    (hq : op = .div ∨ op = .rem → (l.own = n ∨ 0 ≤ x) ∧ (r.own = m ∨ 0 ≤ y)) :
    (∀ v, opExact op x y = some v → ∃ z, foldBin op l r = some z ∧
      Inv z (s || t) (need op (conv s t n) (conv t s m)) v ∧
      (z.own = need op (conv s t n) (conv t s m) ∨ op = .div ∨ op = .rem)) ∧
    (opExact op x y = none → foldBin op l r = none) := by
  have ln := hl.pos; have ln' := hl.own; have rn := hr.pos; have rn' := hr.own
  have ls := hl.small; have rs := hr.small
  have hsz := result_size (op := op) (s := s) (t := t) (by omega) hl.small (by omega) hr.small h1 h2 h3
  have hts : (t || s) = (s || t) := Bool.or_comm _ _
  set a := conv s t n with ha
  set b := conv t s m with hb
  have an : n ≤ a := by rw [ha]; unfold conv; split_ifs <;> omega
  have bm : m ≤ b := by rw [hb]; unfold conv; split_ifs <;> omega
  have bx : Bound (s || t) a x := (hl.bound.mono ln').conv t
  have by' : Bound (s || t) b y := by
    have := (hr.bound.mono rn').conv s
    rwa [hts] at this
  have ka : a ≤ need op a b := by cases op <;> simp only [need] <;> omega
  have kb : b ≤ need op a b := by cases op <;> simp only [need] <;> omega
  have sl : safeTo l (bs (s || t)) (need op a b) = true := safeTo_ok hl (bx.mono ka) ka
  have sr : safeTo r (bs (s || t)) (need op a b) = true := by
    have := safeTo_ok (t := s) hr (by rw [hts]; exact by'.mono kb) kb
    rwa [hts] at this
  have ol : operand l (bs (s || t)) (need op a b) = x := by
    refine operand_exact hl (bx.mono ka) (by omega) fun _ hk => ?_
    by_cases hop : op = .div ∨ op = .rem
    · exact (hq hop).1
    · exfalso; cases op <;> simp [need] at hk hop <;> omega
  have or' : operand r (bs (s || t)) (need op a b) = y := by
    refine operand_exact hr (by'.mono kb) (by omega) fun _ hk => ?_
    by_cases hop : op = .div ∨ op = .rem
    · exact (hq hop).2
    · exfalso; cases op <;> simp [need] at hk hop <;> omega
  have cl : convertSize (bs (s || t)) l = a := convertSize_bs hl t h1
  have cr : convertSize (bs (s || t)) r = b := by
    have := convertSize_bs hr s h2
    rwa [hts] at this
  have k64 : need op a b ≤ 64 := by
    refine le_trans h3 ?_
    unfold word; split_ifs <;> omega
  have xn : (s || t) = false → 0 ≤ x := by
    intro hs; rw [hs] at bx; simp [Bound] at bx; omega
  have yn : (s || t) = false → 0 ≤ y := by
    intro hs; rw [hs] at by'; simp [Bound] at by'; omega
  unfold foldBin
  simp only [hl.base, hl.bits, hr.base, hr.bits, hsz, resultBase_bs, sl, sr, Bool.and_self, if_true, ol, or']
  cases op with
  | add =>
    refine ⟨fun v hv => ?_, by simp [opExact]⟩
    simp only [opExact, Option.some.injEq] at hv
    subst hv
    have hB : Bound (s || t) (max a b + 1) (x + y) := by
      cases hst : (s || t)
      · rw [hst] at bx by'; exact (sum_bound_unsigned bx by').1
      · rw [hst] at bx by'; exact (sum_bound (by omega) (by omega) bx by').1
    simp only [compute, ownSize, need, clamp_bound hB]
    exact ⟨_, rfl, ⟨rfl, rfl, by simp, le_refl _, by simpa [need] using k64, rfl, hB⟩, Or.inl rfl⟩
  | sub =>
    refine ⟨fun v hv => ?_, by simp [opExact]⟩
    simp only [opExact, Option.some.injEq] at hv
    subst hv
    have hB : Bound (s || t) (max a b + 1) (x - y) := by
      cases hst : (s || t)
      · rw [hst] at bx by'
        simp only [Bool.or_eq_false_iff] at hst
        exact (sum_bound_unsigned bx by').2 (hd rfl hst.1 hst.2)
      · rw [hst] at bx by'; exact (sum_bound (by omega) (by omega) bx by').2
    simp only [compute, ownSize, need, clamp_bound hB]
    exact ⟨_, rfl, ⟨rfl, rfl, by simp, le_refl _, by simpa [need] using k64, rfl, hB⟩, Or.inl rfl⟩
  | mul =>
    refine ⟨fun v hv => ?_, by simp [opExact]⟩
    simp only [opExact, Option.some.injEq] at hv
    subst hv
    have hB : Bound (s || t) (a + b) (x * y) := mul_bound (by omega) (by omega) bx by'
    simp only [compute, ownSize, need, clamp_bound hB]
    exact ⟨_, rfl, ⟨rfl, rfl, by simp; omega, le_refl _, by simpa [need] using k64, rfl, hB⟩, Or.inl rfl⟩
  | div =>
    by_cases hy : y = 0
    · simp [opExact, compute, hy]
    · refine ⟨fun v hv => ?_, by simp [opExact, hy]⟩
      simp only [opExact, hy, if_false, Option.some.injEq] at hv
      subst hv
      have hB : Bound (s || t) a (x.tdiv y) := tdiv_bound bx yn
      have hB' : Bound (s || t) (max a b) (x.tdiv y) := hB.mono (by omega)
      simp only [compute, hy, if_false, ownSize, cl, need, clamp_bound hB', clamp_bound hB]
      exact ⟨_, rfl, ⟨rfl, rfl, by simp; omega, by simp, by simpa [need] using k64, rfl, hB⟩, by simp⟩
  | rem =>
    by_cases hy : y = 0
    · simp [opExact, compute, hy]
    · refine ⟨fun v hv => ?_, by simp [opExact, hy]⟩
      simp only [opExact, hy, if_false, Option.some.injEq] at hv
      subst hv
      have hB : Bound (s || t) b (x.tmod y) := tmod_bound by' hy xn
      have hB' : Bound (s || t) (max a b) (x.tmod y) := hB.mono (by omega)
      simp only [compute, hy, if_false, ownSize, cr, need, clamp_bound hB', clamp_bound hB]
      exact ⟨_, rfl, ⟨rfl, rfl, by simp; omega, by simp, by simpa [need] using k64, rfl, hB⟩, by simp⟩

/-- The expression is a quotient or remainder. -/
def isQuotient : Expr → Bool
  | .bin .div _ _ => true
  | .bin .rem _ _ => true
  | _ => false

theorem nonneg_of_quotient {e v} (hq : isQuotient e = true) (hn : ¬ negativeQuotient e) (hv : exact e = some v) : 0 ≤ v := by
  match e with
  | .bin .div a b =>
    by_contra hc
    exact hn ⟨v, hv, by omega⟩
  | .bin .rem a b =>
    by_contra hc
    exact hn ⟨v, hv, by omega⟩

theorem uncapped_eq (op : Op) {a b p n q m} (ha : uncapped a = some (p, n)) (hb : uncapped b = some (q, m)) :
    uncapped (.bin op a b) = if conv p q n ≤ word n ∧ conv q p m ≤ word m ∧
      need op (conv p q n) (conv q p m) ≤ word (max n m)
      then some (p || q, need op (conv p q n) (conv q p m)) else none := by
  rw [uncapped, ha, hb]
  cases op <;> rfl

theorem uncapped_bin {op a b s k} (h : uncapped (.bin op a b) = some (s, k)) :
    ∃ p n q m, uncapped a = some (p, n) ∧ uncapped b = some (q, m) ∧ conv p q n ≤ word n ∧ conv q p m ≤ word m ∧
      need op (conv p q n) (conv q p m) ≤ word (max n m) ∧ s = (p || q) ∧ k = need op (conv p q n) (conv q p m) := by
  cases ha : uncapped a with
  | none => simp [uncapped, ha] at h
  | some u =>
    cases hb : uncapped b with
    | none => simp [uncapped, ha, hb] at h
    | some w =>
      obtain ⟨p, n⟩ := u
      obtain ⟨q, m⟩ := w
      rw [uncapped_eq op ha hb] at h
      by_cases hc : conv p q n ≤ word n ∧ conv q p m ≤ word m ∧ need op (conv p q n) (conv q p m) ≤ word (max n m)
      · rw [if_pos hc] at h
        simp only [Option.some.injEq, Prod.mk.injEq] at h
        exact ⟨p, n, q, m, rfl, rfl, hc.1, hc.2.1, hc.2.2, h.1.symm, h.2.symm⟩
      · rw [if_neg hc] at h; simp at h

theorem uncapped_sign : ∀ {e s k}, uncapped e = some (s, k) → s = !unsignedTree e
  | .int v, s, k, h => by
    simp only [uncapped] at h; split_ifs at h; simp_all [unsignedTree]
  | .uns v, s, k, h => by
    simp only [uncapped] at h; split_ifs at h; simp_all [unsignedTree]
  | .neg a, s, k, h => by
    cases ha : uncapped a <;> simp [uncapped, ha] at h
    simp [unsignedTree, h.1]
  | .bin op a b, s, k, h => by
    obtain ⟨p, n, q, m, ha, hb, -, -, -, rfl, -⟩ := uncapped_bin h
    rw [uncapped_sign ha, uncapped_sign hb]
    simp [unsignedTree]

theorem fold_main : ∀ e s k, uncapped e = some (s, k) → Clean e →
    (∀ z, fold e = some z → ∃ v, exact e = some v ∧ Inv z s k v ∧ (z.own = k ∨ isQuotient e = true)) ∧
    (SignedMinus e → ∀ v, exact e = some v → ∃ z, fold e = some z) := by
  intro e
  induction e with
  | int w =>
    intro s k h _
    simp only [uncapped] at h
    split_ifs at h with hw
    simp only [Option.some.injEq, Prod.mk.injEq] at h
    obtain ⟨rfl, rfl⟩ := h
    have hb : intLiteralBits w = Nat.log2 w + 2 := by
      have := log2_le (k := 62) hw
      simp only [intLiteralBits, Int.natAbs_natCast]; omega
    refine ⟨fun z hz => ?_, fun _ v hv => ?_⟩
    · simp only [fold, hw, if_true, Option.some.injEq] at hz
      subst hz
      refine ⟨w, rfl, ⟨rfl, hb, by simp [hb], by simp [hb], ?_, rfl, ?_⟩, Or.inl hb⟩
      · have := log2_le (k := 62) hw; omega
      · have h1 := log2_lt w
        have h2 := pow_pos' (Nat.log2 w + 1)
        simp only [hb, Bound, if_true]
        refine ⟨?_, by simpa using h1⟩
        simp only [Nat.add_one_sub_one, show Nat.log2 w + 2 - 1 = Nat.log2 w + 1 by omega]
        omega
    · simp [fold, hw]
  | uns w =>
    intro s k h _
    simp only [uncapped] at h
    split_ifs at h with hw
    simp only [Option.some.injEq, Prod.mk.injEq] at h
    obtain ⟨rfl, rfl⟩ := h
    refine ⟨fun z hz => ?_, fun _ v hv => ?_⟩
    · simp only [fold, hw, if_true, Option.some.injEq] at hz
      subst hz
      refine ⟨w, rfl, ⟨rfl, rfl, by simp [unsignedLiteralBits], by simp [unsignedLiteralBits], ?_, rfl, ?_⟩, Or.inl rfl⟩
      · have := log2_le (k := 63) hw; omega
      · have h1 := log2_lt w
        simp only [unsignedLiteralBits, Bound, Bool.false_eq_true, if_false]
        omega
    · simp [fold, hw]
  | neg a ih =>
    intro s k h hc
    cases ha : uncapped a with
    | none => simp [uncapped, ha] at h
    | some p =>
      obtain ⟨p, n⟩ := p
      simp only [uncapped, ha, Option.map_some, Option.some.injEq, Prod.mk.injEq] at h
      obtain ⟨rfl, rfl⟩ := h
      obtain ⟨hca, hnq⟩ := hc
      obtain ⟨ih1, ih2⟩ := ih p n ha hca
      have core : ∀ x, fold a = some x → safeTo x .int x.bits = true → ∃ v, exact (.neg a) = some v ∧
          ∃ z, fold (.neg a) = some z ∧ Inv z true n v ∧ z.own = n := by
        intro x hx hsafe
        obtain ⟨v, hv, hi, ho⟩ := ih1 x hx
        have hp := hi.pos; have hp' := hi.own
        have hB : Bound true n v := by
          have hb := hi.bound
          cases p
          · -- an unsigned operand fits by value, or its own size is smaller
            unfold safeTo at hsafe
            split_ifs at hsafe with hown
            · have := clamp_int_fits (of_decide_eq_true hsafe)
              rw [hi.value, hi.bits] at this
              simp only [Bound, Bool.false_eq_true, if_false] at hb
              have := pow_pos' (n - 1)
              simp only [Bound, if_true]; omega
            · simp only [intFrom, hi.base, bs, hi.bits, Bool.false_eq_true, if_false, decide_eq_true_eq] at hsafe
              exact hb.toSigned.mono (by omega)
          · exact hb.mono hi.own
        have hop : operand x .int x.bits = v := by
          rw [hi.bits]
          refine operand_exact (t := true) hi hB (by omega) fun _ _ => ?_
          rcases ho with ho | ho
          · exact Or.inl ho
          · exact Or.inr (nonneg_of_quotient ho hnq hv)
        have hN : Bound true n (-v) := by simp only [Bound, if_true] at hB ⊢; omega
        refine ⟨-v, by simp [exact, hv], ⟨.int, x.bits, x.bits, clamp .int x.bits (-(operand x .int x.bits))⟩, ?_, ?_, hi.bits⟩
        · simp only [fold, hx, foldNeg, hsafe, if_true]
        · refine ⟨rfl, hi.bits, by show 1 ≤ x.bits; have := hi.bits; omega, le_of_eq hi.bits, hi.small, ?_, by rw [hi.bits]; exact hN⟩
          rw [hop, hi.bits]; exact clamp_bound (s := true) hN
      refine ⟨fun z hz => ?_, fun hs v hv => ?_⟩
      · cases hx : fold a with
        | none => simp [fold, hx] at hz
        | some x =>
          by_cases hsafe : safeTo x .int x.bits = true
          · obtain ⟨v, hv, z', hz', hi, ho⟩ := core x hx hsafe
            have : z = z' := by rw [hz] at hz'; exact Option.some.inj hz'
            subst this
            exact ⟨v, hv, hi, Or.inl ho⟩
          · simp [fold, hx, foldNeg, hsafe] at hz
      · cases hva : exact a with
        | none => simp [exact, hva] at hv
        | some w =>
          obtain ⟨x, hx⟩ := ih2 hs.1 w hva
          obtain ⟨v', hv', hi, -⟩ := ih1 x hx
          have hps : p = true := by rw [uncapped_sign ha, hs.2]; rfl
          subst hps
          have hsafe : safeTo x .int x.bits = true := by
            have := safeTo_ok (t := true) (m := n) hi (by simpa using hi.bound.mono hi.own) (by simp [conv])
            rw [hi.bits]; exact this
          obtain ⟨_, _, z, hz, _⟩ := core x hx hsafe
          exact ⟨z, hz⟩
  | bin op a b iha ihb =>
    intro s k h hc
    obtain ⟨p, n, q, m, ha, hb, h1, h2, h3, rfl, rfl⟩ := uncapped_bin h
    obtain ⟨hca, hcb, hcd, hcq⟩ := hc
    obtain ⟨iha1, iha2⟩ := iha p n ha hca
    obtain ⟨ihb1, ihb2⟩ := ihb q m hb hcb
    have core : ∀ l r, fold a = some l → fold b = some r → ∃ x y, exact a = some x ∧ exact b = some y ∧
        (∀ v, opExact op x y = some v → ∃ z, foldBin op l r = some z ∧
          Inv z (p || q) (need op (conv p q n) (conv q p m)) v ∧
          (z.own = need op (conv p q n) (conv q p m) ∨ op = .div ∨ op = .rem)) ∧
        (opExact op x y = none → foldBin op l r = none) := by
      intro l r hl hr
      obtain ⟨x, hx, hil, hol⟩ := iha1 l hl
      obtain ⟨y, hy, hir, hor⟩ := ihb1 r hr
      refine ⟨x, y, hx, hy, step hil hir h1 h2 h3 ?_ ?_⟩
      · intro hop hp hq
        refine hcd hop ?_ ?_ x y hx hy
        · have := uncapped_sign ha; rw [hp] at this; simpa using this.symm
        · have := uncapped_sign hb; rw [hq] at this; simpa using this.symm
      · intro hop
        obtain ⟨n1, n2⟩ := hcq hop
        refine ⟨?_, ?_⟩
        · rcases hol with ho | ho
          · exact Or.inl ho
          · exact Or.inr (nonneg_of_quotient ho n1 hx)
        · rcases hor with ho | ho
          · exact Or.inl ho
          · exact Or.inr (nonneg_of_quotient ho n2 hy)
    refine ⟨fun z hz => ?_, fun hs v hv => ?_⟩
    · cases hl : fold a with
      | none => simp [fold, hl] at hz
      | some l =>
        cases hr : fold b with
        | none => simp [fold, hl, hr] at hz
        | some r =>
          simp only [fold, hl, hr] at hz
          obtain ⟨x, y, hx, hy, c1, c2⟩ := core l r hl hr
          cases hv : opExact op x y with
          | none => rw [c2 hv] at hz; simp at hz
          | some v =>
            obtain ⟨z', hz', hi, ho⟩ := c1 v hv
            have : z = z' := by rw [hz] at hz'; exact Option.some.inj hz'
            subst this
            refine ⟨v, by rw [exact_bin op a b hx hy, hv], hi, ?_⟩
            rcases ho with ho | ho | ho
            · exact Or.inl ho
            · subst ho; exact Or.inr rfl
            · subst ho; exact Or.inr rfl
    · cases hva : exact a with
      | none => simp [exact, hva] at hv
      | some x =>
        cases hvb : exact b with
        | none => simp [exact, hva, hvb] at hv
        | some y =>
          obtain ⟨l, hl⟩ := iha2 hs.1 x hva
          obtain ⟨r, hr⟩ := ihb2 hs.2 y hvb
          obtain ⟨x', y', hx, hy, c1, -⟩ := core l r hl hr
          rw [hva] at hx; rw [hvb] at hy
          cases hx; cases hy
          rw [exact_bin op a b hva hvb] at hv
          obtain ⟨z, hz, -⟩ := c1 v hv
          exact ⟨z, by simp only [fold, hl, hr, hz]⟩

/-- C49. When no size is capped, a constant expression that is accepted is folded to exactly the number it denotes; in
particular an expression with a division or remainder by zero is not accepted. Missing for the full statement: unsigned
differences below zero, and negative quotients or remainders under a minus sign, a division or a remainder (`Clean`);
for these the claim is false, see below. -/
theorem C49_exact_partial {e : Expr} {s : Bool} {k : Nat} {z : Node} (hu : uncapped e = some (s, k)) (hc : Clean e)
    (hz : fold e = some z) : exact e = some z.value := by
  obtain ⟨v, hv, hi, -⟩ := (fold_main e s k hu hc).1 z hz
  rw [hv, hi.value]

/-- `(12 - 5u) * -3 / 4 + 7 % 4`: minus five and three. -/
def sample : Expr :=
  .bin .add (.bin .div (.bin .mul (.bin .sub (.int 12) (.uns 5)) (.neg (.int 3))) (.int 4)) (.bin .rem (.int 7) (.int 4))

theorem sample_clean : Clean sample := by
  refine ⟨⟨⟨⟨trivial, trivial, ?_, ?_⟩, ⟨trivial, ?_⟩, ?_, ?_⟩, trivial, ?_, ?_⟩, ⟨trivial, trivial, ?_, ?_⟩, ?_, ?_⟩ <;>
    simp [unsignedTree, negativeQuotient]

example : uncapped sample = some (true, 10) ∧ fold sample = some ⟨.int, 10, 10, -2⟩ ∧ exact sample = some (-2) := by
  decide +kernel

/-- C49. The expressions of the theorem above are in fact accepted, as long as no minus sign stands before an unsigned
expression (there the compiler may ask for a cast). -/
theorem C49_accepted {e : Expr} {s : Bool} {k : Nat} {v : Int} (hu : uncapped e = some (s, k)) (hc : Clean e)
    (hs : SignedMinus e) (hv : exact e = some v) : ∃ z, fold e = some z ∧ z.value = v := by
  obtain ⟨h1, h2⟩ := fold_main e s k hu hc
  obtain ⟨z, hz⟩ := h2 hs v hv
  obtain ⟨v', hv', hi, -⟩ := h1 z hz
  rw [hv] at hv'
  cases hv'
  exact ⟨z, hz, hi.value⟩

example : SignedMinus sample := by simp [sample, SignedMinus, unsignedTree]

/-- C49. Division or remainder by an expression that folds to zero is rejected, whatever the sizes. -/
theorem C49_zero_divisor (op : Op) (hop : op = .div ∨ op = .rem) (a b : Expr) (z : Node) (hb : fold b = some z)
    (h0 : z.value = 0) : fold (.bin op a b) = none := by
  cases ha : fold a with
  | none => simp [fold, ha]
  | some l =>
    simp only [fold, ha, hb, foldBin]
    split
    · rfl
    · split_ifs
      · rw [operand_zero h0]
        rcases hop with rfl | rfl <;> simp [compute]
      · rfl

example : fold (.bin .sub (.int 3) (.int 3)) = some ⟨.int, 4, 4, 0⟩ ∧
    fold (.bin .div (.int 7) (.bin .sub (.int 3) (.int 3))) = none := by decide +kernel

/-- C49. Nothing is accepted inside a rejected expression: a zero divisor anywhere rejects the whole. -/
theorem C49_rejects_part (op : Op) (a b : Expr) (h : fold a = none ∨ fold b = none) : fold (.bin op a b) = none := by
  rcases h with h | h
  · simp [fold, h]
  · cases ha : fold a <;> simp [fold, ha, h]

/-- C49 fails for unsigned differences: `a - b` of unsigned literals with `a < b` is folded to zero. -/
theorem C49_unsigned_difference_fails (a b : Nat) (h : a < b) (hb : b < 2 ^ 63) :
    ∃ z, fold (.bin .sub (.uns a) (.uns b)) = some z ∧ z.value = 0 ∧
      exact (.bin .sub (.uns a) (.uns b)) = some ((a : Int) - b) := by
  have la := log2_le (k := 62) (show a < 2 ^ (62 + 1) by omega)
  have lb := log2_le (k := 62) (show b < 2 ^ (62 + 1) by omega)
  have ia : Inv ⟨.unsigned, unsignedLiteralBits a, unsignedLiteralBits a, a⟩ false (Nat.log2 a + 1) a :=
    ⟨rfl, rfl, by simp [unsignedLiteralBits], by simp [unsignedLiteralBits], by omega, rfl, by
      have := log2_lt a; simp only [Bound, unsignedLiteralBits, Bool.false_eq_true, if_false]; omega⟩
  have ib : Inv ⟨.unsigned, unsignedLiteralBits b, unsignedLiteralBits b, b⟩ false (Nat.log2 b + 1) b :=
    ⟨rfl, rfl, by simp [unsignedLiteralBits], by simp [unsignedLiteralBits], by omega, rfl, by
      have := log2_lt b; simp only [Bound, unsignedLiteralBits, Bool.false_eq_true, if_false]; omega⟩
  generalize hA : unsignedLiteralBits a = A at *
  generalize hB : unsignedLiteralBits b = B at *
  have hA' : A = Nat.log2 a + 1 := hA.symm
  have hB' : B = Nat.log2 b + 1 := hB.symm
  have wA := wordSize_word (n := A) (by omega) (by omega)
  have wB := wordSize_word (n := B) (by omega) (by omega)
  have hbits : ∃ k, resultBitsize .sub .unsigned A .unsigned B = some k ∧ A ≤ k ∧ B ≤ k ∧ 1 ≤ k := by
    simp only [resultBitsize, resultBitsizeCalc, calcBitsizeForResult, wA, wB]
    simp only [ne_eq, not_true, false_and, if_false, reduceCtorEq, or_self, and_false, Option.map_some,
      Option.some.injEq, exists_eq_left']
    unfold word
    split_ifs <;> omega
  obtain ⟨k, hk, h1, h2, h3⟩ := hbits
  have ba : Bound false k (a : Int) := ia.bound.mono h1
  have bb : Bound false k (b : Int) := ib.bound.mono h2
  have sa := safeTo_ok (t := false) ia ba (by simp only [conv, Bool.and_false, Bool.false_and, Bool.false_eq_true, if_false]; omega)
  have sb := safeTo_ok (t := false) ib bb (by simp only [conv, Bool.and_false, Bool.false_and, Bool.false_eq_true, if_false]; omega)
  have oa := operand_exact (t := false) ia ba h3 (fun _ _ => Or.inl hA')
  have ob := operand_exact (t := false) ib bb h3 (fun _ _ => Or.inl hB')
  have hbase : resultBase .unsigned .unsigned = bs false := resultBase_bs false false
  have hcl : clamp (bs false) k ((a : Int) - b) = 0 := by
    have := pow_pos' k
    simp only [clamp, bs, Bool.false_eq_true, if_false]; omega
  refine ⟨⟨.unsigned, k, k, 0⟩, ?_, rfl, rfl⟩
  simp only [Bool.or_self] at sa sb
  simp only [fold, show a < 2 ^ 64 by omega, show b < 2 ^ 64 by omega, if_true, foldBin, hA, hB, hk, hbase, sa, sb, oa, ob,
    Bool.and_self, compute, hcl, ownSize, clamp_zero]
  rfl

example : fold (.bin .sub (.uns 3) (.uns 5)) = some ⟨.unsigned, 4, 4, 0⟩ := by decide +kernel

/-- C49 fails for negative remainders as operands, though no size is capped: `-(-7 % 2)` is folded to `-7` instead of `1`,
and `(-7 % 2) / 1` to `7` instead of `-1`. -/
theorem C49_negative_remainder_fails :
    (∃ z, fold (.neg (.bin .rem (.neg (.int 7)) (.int 2))) = some z ∧ z.value = -7 ∧
      uncapped (.neg (.bin .rem (.neg (.int 7)) (.int 2))) = some (true, 4) ∧
      exact (.neg (.bin .rem (.neg (.int 7)) (.int 2))) = some 1) ∧
    (∃ z, fold (.bin .div (.bin .rem (.neg (.int 7)) (.int 2)) (.int 1)) = some z ∧ z.value = 7 ∧
      uncapped (.bin .div (.bin .rem (.neg (.int 7)) (.int 2)) (.int 1)) = some (true, 4) ∧
      exact (.bin .div (.bin .rem (.neg (.int 7)) (.int 2)) (.int 1)) = some (-1)) :=
  ⟨⟨⟨.int, 4, 4, -7⟩, by decide +kernel⟩, ⟨⟨.int, 4, 4, 7⟩, by decide +kernel⟩⟩

/-- What a size capped to the word does: an unsigned operand of 32 bits counts as `Int(32)`, so a remainder by it is cut at
`2^31 - 1`, although the remainder is computed with 34 bits. -/
theorem C49_capped_remainder_fails :
    ∃ z, fold (.bin .rem (.int 8589934589) (.uns 4294967295)) = some z ∧ z.value = 2147483647 ∧
      exact (.bin .rem (.int 8589934589) (.uns 4294967295)) = some 4294967294 :=
  ⟨⟨.int, 34, 32, 2147483647⟩, by decide +kernel⟩

end Ulam.Fold
