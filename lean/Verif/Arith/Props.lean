import Verif.Arith.Lemmas
/-! # Theorems about arithmetic, shifts, unary operators and compound assignments: C72-C74 -/
namespace Ulam.Arith
open Ulam.Types hiding Sized
open Ulam.Types.Spec Spec Ulam.Oper
open Ulam.Oper.Spec (Value Within)
open Ulam.Cast (makeImmediate makeImmediateLong make32 make64 word_cases nearest_exact nearest_self number_inj inRange_iff lo hi)
open Ulam.Cast.Spec (Sized Scalar Carried Nearest)
open Ulam.Packed (Bits getData getDataLong putData putDataLong readBits readBits_lt writeBits)

/-! ## C72: arithmetic -/

theorem number_zero {b : Base} (hb : b = .int ∨ b = .unsigned) {n : Nat} (n1 : 1 ≤ n) : number b n 0 = 0 := by
  have := Nat.two_pow_pos (n - 1)
  rcases hb with rfl | rfl <;> simp [number, twos]

theorem preserved_number {t : Ty} (h : t.base = .int ∨ t.base = .unsigned) {x n y : Nat} {b : Base}
    (p : Preserved t.base t.bits x b n y) : number t.base t.bits x = number b n y := by
  rcases h with h | h <;> rw [h] at p ⊢ <;> exact p

/-- What the cast to the final type means on both sides. -/
theorem final_carried {lib : Calc} {cnt : Nat} {valid : Nat → Bool} (hx : Faithful lib cnt valid) {f t : Ty} (hf : Scalar f)
    (ht : Scalar t) (hb : t.base = .int ∨ t.base = .unsigned) (he : f.base = t.base) (hle : f.bits ≤ t.bits) {v : Int} (b : Bits)
    (hn : Nearest t.base t.bits v (number t.base t.bits (readBits b (96 - t.bits) t.bits))) :
    ∃ z, (evalFinal lib.toLib cnt f t b).map (fun b => readBits b (96 - f.bits) f.bits) = some z ∧
      genOperand lib.toLib cnt f ⟨t, none⟩ (readBits b (96 - t.bits) t.bits) = some z ∧ z < 2 ^ f.bits ∧
      Nearest f.base f.bits v (number f.base f.bits z) := by
  have hs : Sized t.base := by rcases hb with h | h <;> simp [Sized, h]
  obtain ⟨b', r, e1, e2, e3, c1, c2⟩ := operands_carried hx.base hf (o := ⟨t, none⟩) ht (he ▸ hs) hs b
  have hb' : f.base = .int ∨ f.base = .unsigned := he ▸ hb
  have hn' : Numeric f.base := exact_numeric hb'
  have tr : ∀ {z}, Carried valid f.base f.bits z t.base t.bits (readBits b (96 - t.bits) t.bits) →
      Nearest f.base f.bits v (number f.base f.bits z) := by
    intro z c
    have c' : Nearest f.base f.bits (number t.base t.bits (readBits b (96 - t.bits) t.bits)) (number f.base f.bits z) := by
      rw [he] at c ⊢
      rcases hb with h | h <;> rw [h] at c ⊢ <;> exact c
    rw [← he] at hn c'
    exact nearest_trans hn' hf.2.2.1 hle hn c'
  have er := nearest_raw hb' hf.2.2.1 (readBits_lt b' _ _) e3 (tr c1) (tr c2)
  refine ⟨r, ?_, e2, e3, tr c2⟩
  unfold evalFinal
  rw [e1]
  exact congrArg some er

/-- C72: an accepted `+ - * / %` has the exact result on the operands' own numbers, or the nearest number of the type it is
given; the evaluator and the generated program agree. -/
theorem C72_meaning {lib : Calc} {cnt : Nat} {valid : Nat → Bool} (hx : Faithful lib cnt valid) {op : Op} {l r : Operand}
    {t : Ty} (hl : Scalar l.ty) (hr : Scalar r.ty) (h : checkArith lib.toLib cnt op l r = .ty t) (bl br : Bits)
    (vl : Value l (readBits bl (96 - l.ty.bits) l.ty.bits)) (vr : Value r (readBits br (96 - r.ty.bits) r.ty.bits)) :
    let x := readBits bl (96 - l.ty.bits) l.ty.bits
    let y := readBits br (96 - r.ty.bits) r.ty.bits
    let f := finalType op t l.ty r.ty
    Defined op (number r.ty.base r.ty.bits y) →
    ∃ z, evalArith lib cnt op t l r bl br = some z ∧ genArith lib cnt op t l r x y = some z ∧ z < 2 ^ f.bits ∧
      Nearest f.base f.bits (exact op (number l.ty.base l.ty.bits x) (number r.ty.base r.ty.bits y))
        (number f.base f.bits z) := by
  intro x y f hd
  obtain ⟨ht, sl, sr⟩ := safe_of_both h
  obtain ⟨hs, hb, nl, nr, -, -⟩ := arithType_cases hl hr ht
  obtain ⟨hf, fb, fn⟩ := finalType_ok hl hr ht
  have h1 : Sized t.base := by rcases hb with h | h <;> simp [Sized, h]
  have nb : t.base ≠ .bits := by rcases hb with h | h <;> simp [h]
  obtain ⟨bl', xl, e1, e2, e3, p1, p2⟩ := C68_kept_partial hx.base hs hl h1 sl (fun k => absurd k nb) bl vl
  obtain ⟨br', xr, f1, f2, f3, q1, q2⟩ := C68_kept_partial hx.base hs hr h1 sr (fun k => absurd k nb) br vr
  have p1' := preserved_number hb p1
  have p2' := preserved_number hb p2
  have q1' := preserved_number hb q1
  have q2' := preserved_number hb q2
  have ex := number_inj hb (readBits_lt bl' _ _) e3 (p1'.trans p2'.symm)
  have ey := number_inj hb (readBits_lt br' _ _) f3 (q1'.trans q2'.symm)
  obtain ⟨ww, wn⟩ := word_ok hs.2.2.1 hs.2.2.2.1
  have k := hx.arith op t.base _ t.bits (exact_numeric hb) ww hs.2.2.1 wn xl xr
  rw [Nat.mod_eq_of_lt e3, Nat.mod_eq_of_lt f3, p2', q2'] at k
  have k := k hd
  have hz : zeroTest op xr = false := by
    unfold zeroTest
    have : (op = .div ∨ op = .rem) → xr ≠ 0 := by
      rintro ho rfl
      rw [number_zero hb hs.2.2.1] at q2'
      exact hd ho q2'.symm
    cases op <;> simp_all
  obtain ⟨b, hi, hrd⟩ := immediate_read (t := t) hs.2.2.1 hs.2.2.2.1
    (lib.arith op t.base (wordSize t.bits) xl xr t.bits) (len := t.bits) (by have := hs.2.2.2.1; omega)
  rw [Nat.mod_mod] at hrd
  rw [← hrd] at k
  obtain ⟨z, z1, z2, z3, z4⟩ := final_carried hx hf hs hb fb fn b k
  refine ⟨z, ?_, ?_, z3, z4⟩
  · have ec : evalCompute lib op t bl' br' = some b := by
      unfold evalCompute
      rw [dataOf_eq hs.2.2.1 hs.2.2.2.1, dataOf_eq hs.2.2.1 hs.2.2.2.1, ex, ey]
      simp only [hz, Bool.false_eq_true, if_false]
      rcases hb with h | h <;> rw [h] at hi ⊢ <;> exact hi
    unfold evalArith
    rw [e1, f1]
    simp only [ec]
    exact z1
  · have gc : genCompute lib op t xl xr = some (readBits b (96 - t.bits) t.bits) := by
      unfold genCompute
      rw [hrd]
      rcases hb with h | h <;> rw [h]
    unfold genArith
    rw [e2, f2]
    simp only [gc]
    exact z2

/-- C72: a constant division by zero is an error. -/
theorem C72_zero {lib : Calc} {cnt : Nat} {valid : Nat → Bool} (hx : Faithful lib cnt valid) {op : Op} {l r : Operand}
    {t : Ty} (hl : Scalar l.ty) (hr : Scalar r.ty) (h : checkArith lib.toLib cnt op l r = .ty t) (bl br : Bits)
    (vr : Value r (readBits br (96 - r.ty.bits) r.ty.bits)) (ho : op = .div ∨ op = .rem)
    (hz : number r.ty.base r.ty.bits (readBits br (96 - r.ty.bits) r.ty.bits) = 0) :
    evalArith lib cnt op t l r bl br = none := by
  obtain ⟨ht, sl, sr⟩ := safe_of_both h
  obtain ⟨hs, hb, nl, nr, -, -⟩ := arithType_cases hl hr ht
  have h1 : Sized t.base := by rcases hb with h | h <;> simp [Sized, h]
  have nb : t.base ≠ .bits := by rcases hb with h | h <;> simp [h]
  obtain ⟨br', xr, f1, f2, f3, q1, q2⟩ := C68_kept_partial hx.base hs hr h1 sr (fun k => absurd k nb) br vr
  have q1' := preserved_number hb q1
  have e0 : readBits br' (96 - t.bits) t.bits = 0 :=
    number_inj hb (readBits_lt _ _ _) (Nat.two_pow_pos _) (by rw [q1', hz, number_zero hb hs.2.2.1])
  unfold evalArith
  cases he : evalOperand lib.toLib cnt t l bl with
  | none => rfl
  | some bl' =>
    rw [f1]
    have : evalCompute lib op t bl' br' = none := by
      unfold evalCompute
      rw [dataOf_eq hs.2.2.1 hs.2.2.2.1, dataOf_eq hs.2.2.1 hs.2.2.2.1, e0]
      rcases ho with rfl | rfl <;> simp [zeroTest]
    simp only [this]

theorem tdiv_abs (x y : Int) : |x.tdiv y| ≤ |x| := by
  rw [Int.abs_eq_natAbs, Int.abs_eq_natAbs, Int.natAbs_tdiv]
  exact_mod_cast Nat.div_le_self _ _

theorem tmod_abs (x : Int) {y : Int} (h : y ≠ 0) : |x.tmod y| < |y| := by
  rw [Int.abs_eq_natAbs, Int.abs_eq_natAbs, Int.natAbs_tmod]
  exact_mod_cast Nat.mod_lt _ (Int.natAbs_pos.mpr h)

/-- C72 (missing: results that need the whole word, where the nearest number is taken, and a negative difference of unsigned
numbers): a sum, difference or product below the word size is exact. -/
theorem C72_exact_partial {lib : Calc} {cnt : Nat} {valid : Nat → Bool} (hx : Faithful lib cnt valid) {op : Op} {l r : Operand}
    {t : Ty} (hl : Scalar l.ty) (hr : Scalar r.ty) (h : checkArith lib.toLib cnt op l r = .ty t) (bl br : Bits)
    (vl : Value l (readBits bl (96 - l.ty.bits) l.ty.bits)) (vr : Value r (readBits br (96 - r.ty.bits) r.ty.bits))
    (ho : op = .add ∨ op = .sub ∨ op = .mul)
    (hcap : t.bits < if l.ty.bits ≤ 32 ∧ r.ty.bits ≤ 32 then 32 else 64) :
    let x := readBits bl (96 - l.ty.bits) l.ty.bits
    let y := readBits br (96 - r.ty.bits) r.ty.bits
    (op = .sub → t.base = .unsigned → number r.ty.base r.ty.bits y ≤ number l.ty.base l.ty.bits x) →
    ∃ z, evalArith lib cnt op t l r bl br = some z ∧ genArith lib cnt op t l r x y = some z ∧
      number t.base t.bits z = exact op (number l.ty.base l.ty.bits x) (number r.ty.base r.ty.bits y) := by
  intro x y hsub
  have ef : finalType op t l.ty r.ty = t := by rcases ho with rfl | rfl | rfl <;> rfl
  have hd : Defined op (number r.ty.base r.ty.bits y) := by
    rintro (rfl | rfl) <;> simp at ho
  obtain ⟨z, e1, e2, e3, e4⟩ := C72_meaning hx hl hr h bl br vl vr hd
  rw [ef] at e3 e4
  refine ⟨z, e1, e2, ?_⟩
  obtain ⟨ht, sl, sr⟩ := safe_of_both h
  obtain ⟨hs, hb, nl, nr, e, eb⟩ := arithType_cases hl hr ht
  have xl := number_range (number_base nl) hl.2.2.1 vl.1
  have yr := number_range (number_base nr) hr.2.2.1 vr.1
  have hop : ∀ {t : Ty}, numeric t = true → Types.Operand t.base := by
    intro t h
    rcases number_base h with k | k | k <;> simp [Types.Operand, k]
  have hq : ∀ {t : Ty}, numeric t = true → t.base ≠ .quark := by
    intro t h
    rcases number_base h with k | k | k <;> simp [k]
  have es : resultSign l.ty.base r.ty.base = (if t.base = .unsigned then .unsigned else .signed) := by
    rw [eb]
    rcases number_base nl with k | k | k <;> rcases number_base nr with k' | k' | k' <;> simp [asUnsigned, resultSign, k, k']
  have fit := C09_result_fits_partial op l.ty.base r.ty.base l.ty.bits r.ty.bits (hop nl) (hop nr) hl.2.2.1 hl.2.2.2.1
    hr.2.2.1 hr.2.2.2.1 t.bits e (by simpa [hq nl, hq nr] using hcap) _ _ xl yr
    (fun a b => hsub a (by rw [es] at b; by_contra hc; simp [hc] at b))
    (fun a => by rcases ho with o | o | o <;> rw [o] at a <;> simp at a)
  refine nearest_exact ?_ e4
  rw [es] at fit
  rcases hb with k | k <;> rw [k] at fit ⊢ <;> exact fit

/-- C72 (missing: a dividend that is no number of the quotient's type, see `C72_quotient_fails`, and the most negative number
divided by -1): a quotient is exact. -/
theorem C72_quotient_partial {lib : Calc} {cnt : Nat} {valid : Nat → Bool} (hx : Faithful lib cnt valid) {l r : Operand}
    {t : Ty} (hl : Scalar l.ty) (hr : Scalar r.ty) (h : checkArith lib.toLib cnt .div l r = .ty t) (bl br : Bits)
    (vl : Value l (readBits bl (96 - l.ty.bits) l.ty.bits)) (vr : Value r (readBits br (96 - r.ty.bits) r.ty.bits)) :
    let x := readBits bl (96 - l.ty.bits) l.ty.bits
    let y := readBits br (96 - r.ty.bits) r.ty.bits
    let f := finalType .div t l.ty r.ty
    number r.ty.base r.ty.bits y ≠ 0 → InRange f.base f.bits (number l.ty.base l.ty.bits x) →
    ¬ (number l.ty.base l.ty.bits x = - 2 ^ (f.bits - 1) ∧ number r.ty.base r.ty.bits y = -1) →
    ∃ z, evalArith lib cnt .div t l r bl br = some z ∧ genArith lib cnt .div t l r x y = some z ∧
      number f.base f.bits z = (number l.ty.base l.ty.bits x).tdiv (number r.ty.base r.ty.bits y) := by
  intro x y f hy hin hm
  obtain ⟨z, e1, e2, e3, e4⟩ := C72_meaning hx hl hr h bl br vl vr (fun _ => hy)
  refine ⟨z, e1, e2, nearest_exact ?_ e4⟩
  obtain ⟨ht, sl, sr⟩ := safe_of_both h
  obtain ⟨hs, hb, nl, nr, e, eb⟩ := arithType_cases hl hr ht
  obtain ⟨hf, fb, -⟩ := finalType_ok hl hr ht
  have yr := number_range (number_base nr) hr.2.2.1 vr.1
  change InRange f.base f.bits ((number l.ty.base l.ty.bits x).tdiv (number r.ty.base r.ty.bits y))
  change ¬ (number l.ty.base l.ty.bits x = - 2 ^ (f.bits - 1) ∧ _) at hm
  have fb' : f.base = .int ∨ f.base = .unsigned := by
    change f.base = _ at fb
    rw [fb]; exact hb
  have hu : f.base = .unsigned → 0 ≤ number r.ty.base r.ty.bits y := by
    intro k
    change f.base = _ at fb
    rw [fb, eb] at k
    rcases number_base nr with k' | k' | k'
    · simp [asUnsigned, k'] at k
    · rw [k'] at yr ⊢; exact yr.1
    · rw [k'] at yr ⊢; exact yr.1
  generalize number r.ty.base r.ty.bits y = Y at *
  generalize number l.ty.base l.ty.bits x = X at *
  have ab := tdiv_abs X Y
  rcases fb' with k | k <;> rw [k] at hin ⊢ <;> simp only [InRange] at hin ⊢
  · by_cases hX : X = - 2 ^ (f.bits - 1)
    · have hY : Y ≠ -1 := fun k => hm ⟨hX, k⟩
      by_cases h1 : Y = 1
      · subst h1; simp only [Int.tdiv_one]; exact hin
      · have h2 : 2 ≤ Y.natAbs := by omega
        have h3 : (X.tdiv Y).natAbs * 2 ≤ X.natAbs := by
          rw [Int.natAbs_tdiv]
          calc X.natAbs / Y.natAbs * 2 ≤ X.natAbs / Y.natAbs * Y.natAbs := Nat.mul_le_mul_left _ h2
            _ ≤ X.natAbs := Nat.div_mul_le_self _ _
        have : (0 : Int) < 2 ^ (f.bits - 1) := by positivity
        omega
    · rw [abs_le] at ab
      have : (0 : Int) < 2 ^ (f.bits - 1) := by positivity
      rcases abs_cases X with ⟨c, -⟩ | ⟨c, -⟩ <;> rw [c] at ab <;> omega
  · have := Int.tdiv_nonneg hin.1 (hu k)
    rw [abs_of_nonneg this, abs_of_nonneg hin.1] at ab
    omega

/-- C72 (missing: a divisor that is no number of the remainder's type, see `C72_remainder_fails`): a remainder is exact. -/
theorem C72_remainder_partial {lib : Calc} {cnt : Nat} {valid : Nat → Bool} (hx : Faithful lib cnt valid) {l r : Operand}
    {t : Ty} (hl : Scalar l.ty) (hr : Scalar r.ty) (h : checkArith lib.toLib cnt .rem l r = .ty t) (bl br : Bits)
    (vl : Value l (readBits bl (96 - l.ty.bits) l.ty.bits)) (vr : Value r (readBits br (96 - r.ty.bits) r.ty.bits)) :
    let x := readBits bl (96 - l.ty.bits) l.ty.bits
    let y := readBits br (96 - r.ty.bits) r.ty.bits
    let f := finalType .rem t l.ty r.ty
    number r.ty.base r.ty.bits y ≠ 0 → InRange f.base f.bits (number r.ty.base r.ty.bits y) →
    ∃ z, evalArith lib cnt .rem t l r bl br = some z ∧ genArith lib cnt .rem t l r x y = some z ∧
      number f.base f.bits z = (number l.ty.base l.ty.bits x).tmod (number r.ty.base r.ty.bits y) := by
  intro x y f hy hin
  obtain ⟨z, e1, e2, e3, e4⟩ := C72_meaning hx hl hr h bl br vl vr (fun _ => hy)
  refine ⟨z, e1, e2, nearest_exact ?_ e4⟩
  obtain ⟨ht, sl, sr⟩ := safe_of_both h
  obtain ⟨hs, hb, nl, nr, e, eb⟩ := arithType_cases hl hr ht
  obtain ⟨hf, fb, -⟩ := finalType_ok hl hr ht
  have xl := number_range (number_base nl) hl.2.2.1 vl.1
  change InRange f.base f.bits ((number l.ty.base l.ty.bits x).tmod (number r.ty.base r.ty.bits y))
  change f.base = _ at fb
  have fb' : f.base = .int ∨ f.base = .unsigned := by rw [fb]; exact hb
  have hu : f.base = .unsigned → 0 ≤ number l.ty.base l.ty.bits x := by
    intro k
    rw [fb, eb] at k
    rcases number_base nl with k' | k' | k'
    · simp [asUnsigned, k'] at k
    · rw [k'] at xl ⊢; exact xl.1
    · rw [k'] at xl ⊢; exact xl.1
  generalize number r.ty.base r.ty.bits y = Y at *
  generalize number l.ty.base l.ty.bits x = X at *
  have ab := tmod_abs X hy
  rcases fb' with k | k <;> rw [k] at hin ⊢ <;> simp only [InRange] at hin ⊢
  · rw [abs_lt] at ab
    rcases abs_cases Y with ⟨c, -⟩ | ⟨c, -⟩ <;> rw [c] at ab <;> omega
  · have := Int.tmod_nonneg Y (hu k)
    rw [abs_of_nonneg this, abs_of_nonneg hin.1] at ab
    omega

/-- The computation type holds both operands' sizes. -/
theorem arith_size {l r : Ty} (hl : Scalar l) (hr : Scalar r) (nl : numeric l = true) (nr : numeric r = true) (op : Op) :
    ∃ n, arithType op l r = .ty (scalar (if asUnsigned l && asUnsigned r then .unsigned else .int) n) ∧
      resultBitsize op l.base l.bits r.base r.bits = some n ∧ 1 ≤ n ∧ n ≤ 64 := by
  have ho : ∀ {t : Ty}, numeric t = true → Types.Operand t.base := by
    intro t h
    rcases number_base h with k | k | k <;> simp [Types.Operand, k]
  obtain ⟨n, e, n1, n2⟩ := C09_result_size_within_word op l.base r.base l.bits r.bits (ho nl) (ho nr)
    hl.2.2.1 hl.2.2.2.1 hr.2.2.1 hr.2.2.2.1
  refine ⟨n, ?_, e, n1, n2.trans (by split <;> decide)⟩
  unfold arithType
  rw [e]
  rcases number_base nl with k | k | k <;> rcases number_base nr with k' | k' | k' <;>
    simp [k, k', nl, nr, hl.1, hr.1]

set_option maxHeartbeats 2000000 in
/-- C72: two numbers that are not constants may be added, subtracted, multiplied or divided exactly when both are unsigned,
or when every value of both is a number of `Int` with the larger of the two word sizes. -/
theorem C72_accepted (lib : Lib) (cnt : Nat) (op : Op) {l r : Ty} (hl : Scalar l) (hr : Scalar r)
    (nl : numeric l = true) (nr : numeric r = true) :
    (∃ t, checkArith lib cnt op ⟨l, none⟩ ⟨r, none⟩ = .ty t) ↔
    ((l.base ≠ .int ∧ r.base ≠ .int) ∨
      Within l .int (if l.bits ≤ 32 ∧ r.bits ≤ 32 then 32 else 64) ∧
      Within r .int (if l.bits ≤ 32 ∧ r.bits ≤ 32 then 32 else 64)) := by
  obtain ⟨la, lr, l1, l2, -⟩ := id hl
  obtain ⟨ra, rr, r1, r2, -⟩ := id hr
  have hw : (if l.bits ≤ 32 ∧ r.bits ≤ 32 then 32 else 64) = 32 ∨ (if l.bits ≤ 32 ∧ r.bits ≤ 32 then 32 else 64) = 64 := by
    split <;> simp
  rw [within_int nl l1 l2 hw (by split <;> omega), within_int nr r1 r2 hw (by split <;> omega)]
  obtain ⟨n, eo, hn, n1, n2⟩ := arith_size hl hr nl nr op
  have ex : ∀ x, (∃ t, bothSafe lib cnt ⟨l, none⟩ ⟨r, none⟩ (.ty x) = .ty t) ↔
      (safeCast x l = true ∧ safeCast x r = true) := by
    intro x
    simp only [bothSafe, safeTo]
    cases safeCast x l <;> cases safeCast x r <;> simp
  unfold checkArith
  simp only
  rw [eo, ex]
  have a := log2_small l2
  have c := log2_small r2
  have hbase : ∀ b m (s : Ty), s.arr = -1 → s.alt = .notRef → baseSafeCast (scalar b m) s = true := by
    intro b m s h1 h2
    simp [baseSafeCast, checkArrayCast, h1, h2, scalar]
  unfold safeCast
  rw [hbase _ _ _ la lr, hbase _ _ _ ra rr]
  cases op <;>
  rcases word_cases l1 l2 with ⟨q, q'⟩ | ⟨q, q'⟩ <;> rcases word_cases r1 r2 with ⟨p, p'⟩ | ⟨p, p'⟩ <;>
    rcases number_base nl with k | k | k <;> rcases number_base nr with k' | k' | k' <;>
    rw [k, k'] at hn ⊢ <;>
    simp [resultBitsize, resultBitsizeCalc, calcBitsizeForResult, bitsizeToInt, q', p'] at hn <;>
    simp [asUnsigned, k, k', scalar, intFrom, unsignedFrom] <;>
    (repeat' split at hn) <;> (repeat' split) <;> omega

/-- What the two failing divisions have in common: the type of a plain `Unsigned` with a wide `Int` is `Int(n)`, and the
result that of a plain `Int`. -/
theorem wide_type (lib : Lib) (cnt : Nat) {n : Nat} (n1 : 33 ≤ n) (n2 : n ≤ 64) :
    checkArith lib cnt .div ⟨scalar .unsigned 32, none⟩ ⟨scalar .int n, none⟩ = .ty (scalar .int n) ∧
    finalType .div (scalar .int n) (scalar .unsigned 32) (scalar .int n) = scalar .int 32 ∧
    checkArith lib cnt .rem ⟨scalar .int n, none⟩ ⟨scalar .unsigned 32, none⟩ = .ty (scalar .int n) ∧
    finalType .rem (scalar .int n) (scalar .int n) (scalar .unsigned 32) = scalar .int 32 := by
  have hw : wordSize n = 64 := by rw [wordSize_eq (by omega) n2, if_neg (by omega)]
  have hw2 : wordSize 32 = 32 := by decide
  have h1 : resultBitsize .div .unsigned 32 .int n = some n := by
    simp [resultBitsize, resultBitsizeCalc, calcBitsizeForResult, bitsizeToInt, hw, hw2]
    rw [if_neg (by omega : ¬ n < 32)]
    split <;> omega
  have h2 : resultBitsize .rem .int n .unsigned 32 = some n := by
    simp [resultBitsize, resultBitsizeCalc, calcBitsizeForResult, bitsizeToInt, hw, hw2]
    rw [if_pos (by omega : 32 < n)]
    split <;> omega
  have h3 : ¬ n ≤ 32 := by omega
  refine ⟨?_, ?_, ?_, ?_⟩
  · simp [checkArith, arithType, scalar, numeric, h1, asUnsigned, bothSafe, safeTo, safeCast, baseSafeCast, checkArrayCast, intFrom]
    rw [decide_eq_true (by omega : 32 < n)]
  · simp [finalType, scalar, convertSize, bitsizeToInt, hw2]
  · simp [checkArith, arithType, scalar, numeric, h2, asUnsigned, bothSafe, safeTo, safeCast, baseSafeCast, checkArrayCast, intFrom]
    rw [decide_eq_true (by omega : 32 < n)]
  · simp [finalType, scalar, convertSize, bitsizeToInt, hw2]

/-- C72, negative: a plain `Unsigned` of at least 2^31 divided by a wide `Int` 1 is not itself but 2^31 - 1: the quotient is
cut down to the `Int` size the dividend is converted to, which is one bit short. -/
theorem C72_quotient_fails {lib : Calc} {cnt : Nat} {valid : Nat → Bool} (hx : Faithful lib cnt valid) {n : Nat} (n1 : 33 ≤ n)
    (n2 : n ≤ 64) (bl br : Bits) (h1 : 2 ^ 31 ≤ readBits bl (96 - 32) 32) (h2 : readBits br (96 - n) n = 1) :
    let l : Operand := ⟨scalar .unsigned 32, none⟩
    let r : Operand := ⟨scalar .int n, none⟩
    checkArith lib.toLib cnt .div l r = .ty (scalar .int n) ∧
    evalArith lib cnt .div (scalar .int n) l r bl br = some (2 ^ 31 - 1) ∧
    genArith lib cnt .div (scalar .int n) l r (readBits bl (96 - 32) 32) 1 = some (2 ^ 31 - 1) := by
  intro l r
  obtain ⟨a, b, -, -⟩ := wide_type lib.toLib cnt n1 n2
  have hl : Scalar l.ty := scalar_scalar (by simp [Sized]) (by omega) (by omega)
  have hr : Scalar r.ty := scalar_scalar (by simp [Sized]) (by omega) (by omega)
  have one : number .int n 1 = 1 := by
    have : 2 * 1 < 2 ^ n := lt_of_lt_of_le (by decide : 2 * 1 < 2 ^ 33) (Nat.pow_le_pow_right (by decide) n1)
    simp only [number, twos]
    rw [if_pos this]; rfl
  have v : ∀ (o : Operand) (b : Bits), o.const = none → Value o (readBits b (96 - o.ty.bits) o.ty.bits) :=
    fun o b h => ⟨readBits_lt _ _ _, fun u hu => by rw [h] at hu; simp at hu⟩
  have hY : number r.ty.base r.ty.bits (readBits br (96 - r.ty.bits) r.ty.bits) = 1 := by
    change number .int n (readBits br (96 - n) n) = 1
    rw [h2, one]
  obtain ⟨z, e1, e2, e3, e4⟩ := C72_meaning hx hl hr a bl br (v l bl rfl) (v r br rfl) (fun _ => by rw [hY]; decide)
  rw [hY] at e4
  have b' : finalType .div (scalar .int n) l.ty r.ty = scalar .int 32 := b
  rw [b'] at e3 e4
  have e3' : z < 2 ^ 32 := e3
  have ez : z = 2 ^ 31 - 1 := by
    refine nearest_raw (b := .int) (t := 32) (Or.inl rfl) (by decide) e3' (by decide) e4 ?_
    rw [nearest_iff (by simp [Numeric]) (by decide)]
    change number .int 32 (2 ^ 31 - 1) = max (lo .int 32) (min (hi .int 32) (exact .div (readBits bl (96 - 32) 32 : Nat) 1))
    simp only [exact, Int.tdiv_one, lo, hi]
    have : number .int 32 (2 ^ 31 - 1) = 2 ^ 31 - 1 := by decide
    rw [this]
    norm_num at h1 ⊢
    omega
  subst ez
  refine ⟨a, e1, ?_⟩
  have e2' : genArith lib cnt .div (scalar .int n) l r (readBits bl (96 - 32) 32) (readBits br (96 - n) n) =
    some (2 ^ 31 - 1) := e2
  rw [h2] at e2'
  exact e2'

/-- C72, negative: the same for `Int(n) % Unsigned(32)`: 2^31 % y is 2^31 - 1 when y is larger. -/
theorem C72_remainder_fails {lib : Calc} {cnt : Nat} {valid : Nat → Bool} (hx : Faithful lib cnt valid) {n : Nat} (n1 : 33 ≤ n)
    (n2 : n ≤ 64) (bl br : Bits) (h1 : readBits bl (96 - n) n = 2 ^ 31) (h2 : 2 ^ 31 < readBits br (96 - 32) 32) :
    let l : Operand := ⟨scalar .int n, none⟩
    let r : Operand := ⟨scalar .unsigned 32, none⟩
    checkArith lib.toLib cnt .rem l r = .ty (scalar .int n) ∧
    evalArith lib cnt .rem (scalar .int n) l r bl br = some (2 ^ 31 - 1) ∧
    genArith lib cnt .rem (scalar .int n) l r (2 ^ 31) (readBits br (96 - 32) 32) = some (2 ^ 31 - 1) := by
  intro l r
  obtain ⟨-, -, a, b⟩ := wide_type lib.toLib cnt n1 n2
  have hr : Scalar r.ty := scalar_scalar (by simp [Sized]) (by omega) (by omega)
  have hl : Scalar l.ty := scalar_scalar (by simp [Sized]) (by omega) (by omega)
  have one : number .int n (2 ^ 31) = 2 ^ 31 := by
    have : 2 * 2 ^ 31 < 2 ^ n := lt_of_lt_of_le (by decide : 2 * 2 ^ 31 < 2 ^ 33) (Nat.pow_le_pow_right (by decide) n1)
    simp only [number, twos]
    rw [if_pos this]; rfl
  have v : ∀ (o : Operand) (b : Bits), o.const = none → Value o (readBits b (96 - o.ty.bits) o.ty.bits) :=
    fun o b h => ⟨readBits_lt _ _ _, fun u hu => by rw [h] at hu; simp at hu⟩
  have hX : number l.ty.base l.ty.bits (readBits bl (96 - l.ty.bits) l.ty.bits) = 2 ^ 31 := by
    change number .int n (readBits bl (96 - n) n) = 2 ^ 31
    rw [h1, one]
  have hY : number r.ty.base r.ty.bits (readBits br (96 - r.ty.bits) r.ty.bits) = (readBits br (96 - 32) 32 : Nat) := rfl
  obtain ⟨z, e1, e2, e3, e4⟩ := C72_meaning hx hl hr a bl br (v l bl rfl) (v r br rfl)
    (fun _ => by rw [hY]; norm_num at h2 ⊢; omega)
  rw [hX, hY] at e4
  have b' : finalType .rem (scalar .int n) l.ty r.ty = scalar .int 32 := b
  rw [b'] at e3 e4
  have e3' : z < 2 ^ 32 := e3
  have ez : z = 2 ^ 31 - 1 := by
    refine nearest_raw (b := .int) (t := 32) (Or.inl rfl) (by decide) e3' (by decide) e4 ?_
    rw [nearest_iff (by simp [Numeric]) (by decide)]
    change number .int 32 (2 ^ 31 - 1) = max (lo .int 32) (min (hi .int 32) (exact .rem (2 ^ 31) (readBits br (96 - 32) 32 : Nat)))
    have : number .int 32 (2 ^ 31 - 1) = 2 ^ 31 - 1 := by decide
    have e : ((2 : Int) ^ 31).tmod (readBits br (96 - 32) 32 : Nat) = 2 ^ 31 :=
      Int.tmod_eq_of_lt (by positivity) (by exact_mod_cast h2)
    rw [this]
    simp only [exact, e, lo, hi]
    decide
  subst ez
  refine ⟨a, e1, ?_⟩
  have e2' : genArith lib cnt .rem (scalar .int n) l r (readBits bl (96 - n) n) (readBits br (96 - 32) 32) =
    some (2 ^ 31 - 1) := e2
  rw [h1] at e2'
  exact e2'

/-! ## C73: shifts -/

/-- No bits above the type's. -/
def Clear (n : Nat) (b : Bits) : Prop := ∀ i, i < 96 - n → b i = false

theorem make_clear {t : Ty} {v : Nat} {b : Bits} (h : makeImmediate t v = .ok b ∨ makeImmediateLong t v = .ok b) :
    Clear t.bits b := by
  unfold makeImmediate makeImmediateLong putData putDataLong at h
  intro i hi
  rcases h with h | h
  all_goals
    split at h
    · rename_i x hx
      split at hx
      · simp only [Option.some.injEq] at hx
        simp only [Cast.Res.ok.injEq] at h
        rw [← h, ← hx]
        simp [writeBits]; omega
      · simp at hx
    · simp at h

theorem immediate_clear {t : Ty} {v : Nat} {b : Bits} (h : immediate t v = some b) : Clear t.bits b := by
  unfold immediate at h
  split at h
  · rename_i b' hb
    simp only [Option.some.injEq] at h
    subst h
    split at hb
    · exact make_clear (Or.inl hb)
    · exact make_clear (Or.inr hb)
  · simp at h

/-- A cast leaves nothing above the bits of its type. -/
theorem cast_clear {ext : Cast.Ext} {cnt : Nat} {dst frm : Ty} {b b' : Bits} (h : Cast.evalCast ext cnt dst frm b = .ok b') :
    Clear dst.bits b' := by
  unfold Cast.evalCast Cast.cast Cast.castTo32 Cast.castTo64 at h
  repeat' split at h
  all_goals first
    | exact make_clear (Or.inl h)
    | exact make_clear (Or.inr h)
    | simp at h
    | (simp only at h; repeat' split at h)
  all_goals first
    | exact make_clear (Or.inl h)
    | exact make_clear (Or.inr h)
    | simp at h

theorem clear_read {n : Nat} {b : Bits} (h : Clear n b) (hn : n ≤ 96) {len : Nat} (hl : len ≤ 96) :
    readBits b (96 - len) len = readBits b (96 - n) n % 2 ^ len := by
  rw [Packed.readBits_eq]
  refine ⟨Nat.mod_lt _ (by positivity), fun j hj => ?_⟩
  have r := Packed.readBits_holds b (96 - n) n
  rw [Nat.testBit_mod_two_pow]
  by_cases hc : len - 1 - j < n
  · rw [show 96 - len + j = 96 - n + (n - 1 - (len - 1 - j)) by omega, r.2 _ (by omega)]
    rw [show n - 1 - (n - 1 - (len - 1 - j)) = len - 1 - j by omega]
    simp [show len - 1 - j < len by omega]
  · rw [h _ (by omega)]
    have : (readBits b (96 - n) n).testBit (len - 1 - j) = false :=
      Nat.testBit_lt_two_pow (r.1.trans_le (Nat.pow_le_pow_right (by decide) (by omega)))
    simp [this]

/-- What an operand stored right-justified becomes: the value `C68` speaks of, with nothing above. -/
theorem operand_clear {lib : Lib} {cnt : Nat} {t : Ty} {o : Operand} {b b' : Bits} (h : evalOperand lib cnt t o b = some b')
    (hc : Clear o.ty.bits b) : Clear t.bits b' := by
  unfold evalOperand at h
  split at h
  · rename_i he
    simp only [Option.some.injEq] at h
    subst h; rw [← he]; exact hc
  · split at h
    · rename_i e
      simp only [Option.some.injEq] at h
      subst h
      exact cast_clear e
    · simp at h

theorem shiftLeftTy_eq {l : Ty} (h : Scalar l) : shiftLeftTy l = scalar .bits l.bits := by
  unfold shiftLeftTy
  split
  · rename_i hb
    obtain ⟨b, n, a, r⟩ := l
    obtain ⟨h1, h2, -⟩ := h
    simp only at h1 h2 hb
    subst h1 h2 hb
    rfl
  · rfl

/-- The left operand of a shift: its own bits, on both sides. -/
theorem shift_left_kept {lib : Calc} {cnt : Nat} {valid : Nat → Bool} (hx : Faithful lib cnt valid) {l : Operand}
    (hl : Scalar l.ty) (h : safeTo lib.toLib cnt (scalar .bits l.ty.bits) l = some true) {x : Nat} (v : Value l x) {len : Nat}
    (h1 : 1 ≤ len) (h2 : len ≤ 64) (hle : l.ty.bits ≤ len) :
    (∃ b b', immediate l.ty x = some b ∧ evalOperand lib.toLib cnt (shiftLeftTy l.ty) l b = some b' ∧ dataOf len b' = some x) ∧
    genOperand lib.toLib cnt (shiftLeftTy l.ty) l x = some x := by
  obtain ⟨b, hi, hrd⟩ := immediate_read (t := l.ty) hl.2.2.1 hl.2.2.2.1 x (len := l.ty.bits) (by have := hl.2.2.2.1; omega)
  rw [Nat.mod_mod, Nat.mod_eq_of_lt v.1] at hrd
  rw [shiftLeftTy_eq hl]
  have hs : Scalar (scalar .bits l.ty.bits) := scalar_scalar (by simp [Sized]) hl.2.2.1 hl.2.2.2.1
  obtain ⟨b', r, e1, e2, e3, p1, p2⟩ := C68_kept_partial hx.base hs hl (by simp [Sized, scalar]) h
    (fun _ _ => le_refl _) b (by rw [hrd]; exact v)
  have p1' : readBits b' (96 - l.ty.bits) l.ty.bits = x := (show _ = _ from p1).trans hrd
  have p2' : r = x := (show _ = _ from p2).trans hrd
  rw [hrd, p2'] at e2
  refine ⟨⟨b, b', hi, e1, ?_⟩, e2⟩
  have cl := operand_clear e1 (immediate_clear hi)
  change Clear l.ty.bits b' at cl
  rw [dataOf_eq h1 h2, clear_read cl (by have := hl.2.2.2.1; omega) (by omega), p1',
    Nat.mod_eq_of_lt (v.1.trans_le (Nat.pow_le_pow_right (by decide) hle))]

/-- The right operand of a shift: its number in the generated program, the low `len` bits of it in the evaluator. -/
theorem shift_right_kept {lib : Calc} {cnt : Nat} {valid : Nat → Bool} (hx : Faithful lib cnt valid) {r : Operand}
    (hr : Scalar r.ty) (h : safeTo lib.toLib cnt (scalar .unsigned 32) r = some true) {y : Nat} (v : Value r y) {len : Nat}
    (h1 : 1 ≤ len) (h2 : len ≤ 64) :
    ∃ k : Nat, number r.ty.base r.ty.bits y = k ∧
    (∃ b b', immediate r.ty y = some b ∧ evalOperand lib.toLib cnt (shiftRightTy r.ty) r b = some b' ∧
      dataOf len b' = some (k % 2 ^ len)) ∧
    genOperand lib.toLib cnt (shiftRightTy r.ty) r y = some k := by
  obtain ⟨b, hi, hrd⟩ := immediate_read (t := r.ty) hr.2.2.1 hr.2.2.2.1 y (len := r.ty.bits) (by have := hr.2.2.2.1; omega)
  rw [Nat.mod_mod, Nat.mod_eq_of_lt v.1] at hrd
  unfold shiftRightTy
  by_cases hu : r.ty.base = .unsigned
  · rw [if_pos hu]
    refine ⟨y, by rw [hu]; rfl, ⟨b, b, hi, if_pos rfl, ?_⟩, if_pos rfl⟩
    rw [dataOf_eq h1 h2, clear_read (immediate_clear hi) (by have := hr.2.2.2.1; omega) (by omega), hrd]
  · rw [if_neg hu]
    have hs : Scalar (scalar .unsigned 32) := by decide
    obtain ⟨b', k, e1, e2, e3, p1, p2⟩ := C68_kept_partial hx.base hs hr (by simp [Sized, scalar]) h
      (fun a => by simp [scalar] at a) b (by rw [hrd]; exact v)
    rw [hrd] at p1 p2 e2
    have p1' : ((readBits b' (96 - 32) 32 : Nat) : Int) = number r.ty.base r.ty.bits y := p1
    have p2' : ((k : Nat) : Int) = number r.ty.base r.ty.bits y := p2
    have ek : readBits b' (96 - 32) 32 = k := by exact_mod_cast p1'.trans p2'.symm
    refine ⟨k, p2'.symm, ⟨b, b', hi, e1, ?_⟩, e2⟩
    have cl := operand_clear e1 (immediate_clear hi)
    change Clear 32 b' at cl
    rw [dataOf_eq h1 h2, clear_read cl (by omega) (by omega), ek]

/-- The size of an accepted shift. -/
theorem shift_size {lib : Lib} {cnt : Nat} {d : Dir} {l r : Operand} {t : Ty} (hl : Scalar l.ty) (hr : Scalar r.ty)
    (h : checkShift lib cnt d l r = .ty t) :
    safeTo lib cnt (scalar .bits l.ty.bits) l = some true ∧ safeTo lib cnt (scalar .unsigned 32) r = some true ∧
    t = scalar .bits t.bits ∧ 1 ≤ t.bits ∧ t.bits ≤ 64 ∧ l.ty.bits ≤ t.bits ∧ (d = .right → t.bits = l.ty.bits) ∧
    shiftBits d l.ty r.ty = .val t.bits := by
  unfold checkShift at h
  split at h
  · simp at h
  split at h
  · simp at h
  split at h
  · rename_i s1 s2
    split at h
    · rename_i n hn
      split at h
      · simp at h
      · rename_i n0
        simp only [Shifted.ty.injEq] at h
        subst h
        have hl1 := hl.2.2.1
        have hl2 := hl.2.2.2.1
        have key : 1 ≤ n.toNat ∧ n.toNat ≤ 64 ∧ l.ty.bits ≤ n.toNat ∧ (d = .right → n.toNat = l.ty.bits) := by
          cases d with
          | right =>
            simp only [shiftBits, Outcome.val.injEq] at hn
            omega
          | left =>
            have nq : ∀ {s : Ty}, Scalar s → s.base ≠ .quark := by
              intro s hs
              rcases hs.2.2.2.2 with (k | k | k | k | k) | k <;> simp [k]
            have cb : ∀ (b : Base) (n : Nat), b ≠ .quark → calcBitsizeForResultInBits b n = (n, wordSize n) := by
              intro b n h; cases b <;> simp_all [calcBitsizeForResultInBits]
            simp only [shiftBits, shiftLeftBitsize, cb _ _ (nq hl), cb _ _ (nq hr)] at hn
            have sh : ∀ {k s}, shl1 k = .val s → 0 < s ∨ s = -(2 ^ 31) := by
              intro k s hs
              unfold shl1 at hs
              split at hs
              · simp only [Outcome.val.injEq] at hs
                exact Or.inl (hs ▸ by positivity)
              · split at hs
                · simp only [Outcome.val.injEq] at hs
                  exact Or.inr hs.symm
                · simp at hs
            suffices hh : 1 ≤ n.toNat ∧ n.toNat ≤ 64 ∧ l.ty.bits ≤ n.toNat from
              ⟨hh.1, hh.2.1, hh.2.2, fun k => by simp at k⟩
            cases hsh : shl1 r.ty.bits with
            | ub =>
              rw [hsh] at hn
              dsimp only at hn
              rcases word_cases hl1 hl2 with ⟨q, q'⟩ | ⟨q, q'⟩ <;>
                rcases word_cases hr.2.2.1 hr.2.2.2.1 with ⟨p, p'⟩ | ⟨p, p'⟩ <;> rw [q', p'] at hn <;>
                (repeat' split at hn) <;> first | (simp only [Outcome.val.injEq] at hn; omega) | simp at hn
            | val s =>
              have := sh hsh
              rw [hsh] at hn
              dsimp only at hn
              rcases word_cases hl1 hl2 with ⟨q, q'⟩ | ⟨q, q'⟩ <;>
                rcases word_cases hr.2.2.1 hr.2.2.2.1 with ⟨p, p'⟩ | ⟨p, p'⟩ <;> rw [q', p'] at hn <;>
                (repeat' split at hn) <;> first | (simp only [Outcome.val.injEq] at hn; omega) | simp at hn
        refine ⟨s1, s2, rfl, key.1, key.2.1, key.2.2.1, key.2.2.2, ?_⟩
        rw [hn]
        simp only [scalar, Outcome.val.injEq]
        omega
    · simp at h
  · simp at h
  · simp at h

/-- C73 (missing: distances the result's own size cannot hold, see `C73_narrow_fails`): an accepted shift moves the left
operand's bits by the right operand's number, and the evaluator and the generated program agree. -/
theorem C73_shift_partial {lib : Calc} {cnt : Nat} {valid : Nat → Bool} (hx : Faithful lib cnt valid) {d : Dir}
    {l r : Operand} {t : Ty} (hl : Scalar l.ty) (hr : Scalar r.ty) (h : checkShift lib.toLib cnt d l r = .ty t) {x y k : Nat}
    (vl : Value l x) (vr : Value r y) (hk : number r.ty.base r.ty.bits y = k) (hw : k < if t.bits ≤ 32 then 32 else 64)
    (hn : k < 2 ^ t.bits) :
    evalShift lib cnt d t l r x y = some (shifted d x k t.bits) ∧ genShift lib cnt d t l r x y = some (shifted d x k t.bits) := by
  obtain ⟨s1, s2, -, t1, t2, hle, -, -⟩ := shift_size hl hr h
  obtain ⟨⟨bl, bl', a1, a2, a3⟩, a4⟩ := shift_left_kept hx hl s1 vl t1 t2 hle
  obtain ⟨k', hk', ⟨br, br', b1, b2, b3⟩, b4⟩ := shift_right_kept hx hr s2 vr t1 t2
  have ek : k' = k := by exact_mod_cast hk'.symm.trans hk
  subst ek
  rw [Nat.mod_eq_of_lt hn] at b3
  obtain ⟨ww, wn⟩ := word_ok t1 t2
  have hw' : k' < wordSize t.bits := by rw [wordSize_eq t1 t2]; exact hw
  have hs := hx.shift d _ t.bits ww t1 wn x k' hw'
  rw [Nat.mod_eq_of_lt (vl.1.trans_le (Nat.pow_le_pow_right (by decide) hle))] at hs
  constructor
  · unfold evalShift
    rw [a1, b1]
    simp only [a2, b2, a3, b3]
    obtain ⟨b, hi, hrd⟩ := immediate_read (t := t) t1 t2 (lib.shift d (wordSize t.bits) x k' t.bits) (len := t.bits) (by omega)
    rw [hi]
    simp only [Option.map_some, Option.some.injEq]
    rw [hrd, Nat.mod_mod, hs]
  · unfold genShift
    rw [a4, b4]
    simp only [hs]

/-- C73 (missing: distances of more than 30 bits, see `C73_size_fails`): a left shift of a result below the word size loses
no bits. -/
theorem C73_left_exact_partial {lib : Calc} {cnt : Nat} {valid : Nat → Bool} (hx : Faithful lib cnt valid)
    {l r : Operand} {t : Ty} (hl : Scalar l.ty) (hr : Scalar r.ty) (h : checkShift lib.toLib cnt .left l r = .ty t) {x y k : Nat}
    (vl : Value l x) (vr : Value r y) (hk : number r.ty.base r.ty.bits y = k) (h30 : r.ty.bits ≤ 30)
    (hu : r.ty.base = .unsigned) (hcap : t.bits < if l.ty.bits ≤ 32 then 32 else 64) :
    evalShift lib cnt .left t l r x y = some (x * 2 ^ k) ∧ genShift lib cnt .left t l r x y = some (x * 2 ^ k) := by
  obtain ⟨s1, s2, -, t1, t2, hle, -, hb⟩ := shift_size hl hr h
  have nq : ∀ {s : Ty}, Scalar s → s.base ≠ .quark := by
    intro s hs
    rcases hs.2.2.2.2 with (k | k | k | k | k) | k <;> simp [k]
  have hk' : k = y := by
    rw [hu] at hk
    have : ((y : Nat) : Int) = k := hk
    exact_mod_cast this.symm
  obtain ⟨n, e, hor⟩ := C10_shift_left_size_partial l.ty.base r.ty.base l.ty.bits r.ty.bits hl.2.2.1 hr.2.2.1 (nq hl) (nq hr)
    (Or.inl h30)
  have en : n = t.bits := by
    have := e.symm.trans hb
    simp only [Outcome.val.injEq] at this
    exact_mod_cast this
  subst en
  have fit : ∀ x k, x < 2 ^ l.ty.bits → k < 2 ^ r.ty.bits → x * 2 ^ k < 2 ^ t.bits := by
    rcases hor with o | o
    · rw [wordSize_eq hl.2.2.1 hl.2.2.2.1, wordSize_eq hr.2.2.1 hr.2.2.2.1] at o
      split at o <;> split at o <;> split at hcap <;> omega
    · exact o
  have hy : k < 2 ^ r.ty.bits := hk' ▸ vr.1
  have big := fit 1 k (Nat.one_lt_two_pow (by have := hl.2.2.1; omega)) hy
  rw [one_mul] at big
  have kt : k < t.bits := (Nat.pow_lt_pow_iff_right (by decide)).mp big
  obtain ⟨e1, e2⟩ := C73_shift_partial hx hl hr h vl vr hk (by split <;> omega) (kt.trans Nat.lt_two_pow_self)
  have es : shifted .left x k t.bits = x * 2 ^ k := Nat.mod_eq_of_lt (fit x k vl.1 hy)
  rw [es] at e1 e2
  exact ⟨e1, e2⟩

/-- C73, negative: a value of at most four bits shifted right by two to the power of its size - further than it has bits - is
nothing in the generated program, as it should be, but the evaluator leaves it unchanged: it reads no more bits of the distance
than the value has. -/
theorem C73_narrow_fails {lib : Calc} {cnt : Nat} {valid : Nat → Bool} (hx : Faithful lib cnt valid) {n m x : Nat} (n1 : 1 ≤ n)
    (n2 : n ≤ 4) (m1 : n < m) (m2 : m ≤ 32) (hxn : x < 2 ^ n) :
    let l : Operand := ⟨scalar .bits n, none⟩
    let r : Operand := ⟨scalar .unsigned m, none⟩
    checkShift lib.toLib cnt .right l r = .ty (scalar .bits n) ∧
    evalShift lib cnt .right (scalar .bits n) l r x (2 ^ n) = some x ∧
    genShift lib cnt .right (scalar .bits n) l r x (2 ^ n) = some 0 := by
  intro l r
  have hl : Scalar l.ty := scalar_scalar (by simp [Sized]) (by omega) (by omega)
  have hr : Scalar r.ty := scalar_scalar (by simp [Sized]) (by omega) (by omega)
  have hc : checkShift lib.toLib cnt .right l r = .ty (scalar .bits n) := by
    simp [checkShift, l, r, scalar, safeTo, safeCast, baseSafeCast, checkArrayCast, bitsFrom, unsignedFrom, shiftBits, m2]
  obtain ⟨s1, s2, -, t1, t2, hle, -, -⟩ := shift_size hl hr hc
  have v : ∀ (o : Operand) (x : Nat), o.const = none → x < 2 ^ o.ty.bits → Value o x :=
    fun o x h hx => ⟨hx, fun u hu => by rw [h] at hu; simp at hu⟩
  have vl := v l x rfl hxn
  have vr := v r (2 ^ n) rfl (Nat.pow_lt_pow_right (by decide) m1)
  obtain ⟨⟨bl, bl', a1, a2, a3⟩, a4⟩ := shift_left_kept hx hl s1 vl t1 t2 hle
  obtain ⟨k', hk', ⟨br, br', b1, b2, b3⟩, b4⟩ := shift_right_kept hx hr s2 vr t1 t2
  have ek : k' = 2 ^ n := by
    have : ((2 ^ n : Nat) : Int) = k' := hk'
    exact_mod_cast this.symm
  subst ek
  have e0 : dataOf n br' = some 0 := by rw [← Nat.mod_self (2 ^ n)]; exact b3
  obtain ⟨ww, wn⟩ := word_ok n1 (by omega : n ≤ 64)
  have w32 : wordSize n = 32 := by rw [wordSize_eq n1 (by omega), if_pos (by omega)]
  have lt16 : 2 ^ n ≤ 2 ^ 4 := Nat.pow_le_pow_right (by decide) n2
  have hs0 := hx.shift .right _ n ww n1 wn x 0 (by omega)
  have hs := hx.shift .right _ n ww n1 wn x (2 ^ n) (by rw [w32]; omega)
  rw [Nat.mod_eq_of_lt hxn] at hs hs0
  have z0 : shifted .right x 0 n = x := by simp [shifted]
  have z : shifted .right x (2 ^ n) n = 0 :=
    Nat.div_eq_of_lt (hxn.trans_le (Nat.pow_le_pow_right (by decide) (Nat.lt_two_pow_self).le))
  rw [z0] at hs0
  rw [z] at hs
  refine ⟨hc, ?_, ?_⟩
  · have a3' : dataOf n bl' = some x := a3
    unfold evalShift
    rw [a1, b1]
    simp only [a2, b2, show (scalar .bits n).bits = n from rfl, a3', e0]
    obtain ⟨b, hi, hrd⟩ := immediate_read (t := scalar .bits n) t1 t2 (lib.shift .right (wordSize n) x 0 n) (len := n) (by omega)
    rw [hi]
    simp only [Option.map_some, Option.some.injEq]
    change _ = _ % 2 ^ n % 2 ^ n at hrd
    rw [hrd, Nat.mod_mod, hs0]
  · unfold genShift
    rw [a4, b4]
    simp only [show (scalar .bits n).bits = n from rfl, hs]

/-- C73, negative: there is no size for a left shift by an `Unsigned(31)`, nor for that of a wide value by a plain
`Unsigned`, although both are accepted. -/
theorem C73_size_fails (lib : Lib) (cnt : Nat) {l : Operand} (hl : Scalar l.ty)
    (h : safeTo lib cnt (scalar .bits l.ty.bits) l = some true) :
    (l.ty.bits ≤ 32 → checkShift lib cnt .left l ⟨scalar .unsigned 31, none⟩ = .broken) ∧
    (32 < l.ty.bits → checkShift lib cnt .left l ⟨scalar .unsigned 32, none⟩ = .broken) := by
  have nv : l.ty.base ≠ .void := by rcases hl.2.2.2.2 with (k | k | k | k | k) | k <;> simp [k]
  have nq : l.ty.base ≠ .quark := by rcases hl.2.2.2.2 with (k | k | k | k | k) | k <;> simp [k]
  have cb : ∀ (b : Base) (n : Nat), b ≠ .quark → calcBitsizeForResultInBits b n = (n, wordSize n) := by
    intro b n h; cases b <;> simp_all [calcBitsizeForResultInBits]
  have hl1 := hl.2.2.1
  have hl2 := hl.2.2.2.1
  have w31 : wordSize 31 = 32 := by decide
  have w32 : wordSize 32 = 32 := by decide
  constructor <;> intro hb
  · have w : wordSize l.ty.bits = 32 := by rw [wordSize_eq hl1 hl2, if_pos hb]
    have hs : safeTo lib cnt (scalar .unsigned 32) ⟨scalar .unsigned 31, none⟩ = some true := by
      simp [safeTo, safeCast, scalar, baseSafeCast, checkArrayCast, unsignedFrom]
    unfold checkShift
    rw [if_neg (by simp [nv, scalar]), if_neg (by simp [hl.1, scalar]), h, hs]
    simp only [shiftBits, shiftLeftBitsize, cb _ _ nq, scalar, cb .unsigned 31 (by decide), w, w31, shl1]
    simp
    repeat' split
    all_goals simp_all
    all_goals omega
  · have w : wordSize l.ty.bits = 64 := by rw [wordSize_eq hl1 hl2, if_neg (by omega)]
    have hs : safeTo lib cnt (scalar .unsigned 32) ⟨scalar .unsigned 32, none⟩ = some true := by
      simp [safeTo, safeCast, scalar, baseSafeCast, checkArrayCast, unsignedFrom]
    unfold checkShift
    rw [if_neg (by simp [nv, scalar]), if_neg (by simp [hl.1, scalar]), h, hs]
    simp [shiftBits, shiftLeftBitsize, cb _ _ nq, scalar, cb .unsigned 32 (by decide), w, w32, shl1]

/-- C72: of quotients and remainders of variables, only those of a plain `Unsigned` and a wider `Int` are not covered by
`C72_quotient_partial` and `C72_remainder_partial`. -/
theorem C72_division_within {lib : Lib} {cnt : Nat} {l r t : Ty} (hl : Scalar l) (hr : Scalar r) :
    (checkArith lib cnt .div ⟨l, none⟩ ⟨r, none⟩ = .ty t → ¬ (l.base = .unsigned ∧ l.bits = 32 ∧ r.base = .int ∧ 32 < r.bits) →
      Within l (finalType .div t l r).base (finalType .div t l r).bits) ∧
    (checkArith lib cnt .rem ⟨l, none⟩ ⟨r, none⟩ = .ty t → ¬ (r.base = .unsigned ∧ r.bits = 32 ∧ l.base = .int ∧ 32 < l.bits) →
      Within r (finalType .rem t l r).base (finalType .rem t l r).bits) := by
  have key : ∀ (op : Op) (s q : Ty), (op = .div ∨ op = .rem) → checkArith lib cnt op ⟨l, none⟩ ⟨r, none⟩ = .ty t →
      (s = l ∧ q = r ∨ s = r ∧ q = l) → ¬ (s.base = .unsigned ∧ s.bits = 32 ∧ q.base = .int ∧ 32 < q.bits) →
      Within s t.base (convertSize t.base s) := by
    intro op s q ho h hsq hne
    obtain ⟨ht, sl, sr⟩ := safe_of_both h
    obtain ⟨hs, hb, nl, nr, e, eb⟩ := arithType_cases hl hr ht
    have e' : resultBitsize .div l.base l.bits r.base r.bits = some t.bits := by rcases ho with rfl | rfl <;> exact e
    have a := log2_small hl.2.2.2.1
    have c := log2_small hr.2.2.2.1
    have l1 := hl.2.2.1
    have l2 := hl.2.2.2.1
    have r1 := hr.2.2.1
    have r2 := hr.2.2.2.1
    have ns : numeric s = true ∧ Scalar s ∧ safeCast t s = true := by
      simp only [safeTo, Option.some.injEq] at sl sr
      rcases hsq with ⟨rfl, -⟩ | ⟨rfl, -⟩
      · exact ⟨nl, hl, sl⟩
      · exact ⟨nr, hr, sr⟩
    have sf : t.base = .int → intFrom t.bits s.base s.bits = true := by
      intro k
      have := ns.2.2
      unfold safeCast at this
      rw [Bool.and_eq_true, k] at this
      exact this.2
    have cs : 1 ≤ convertSize t.base s := by
      unfold convertSize bitsizeToInt bitsizeToUnsigned
      have := ns.2.1.2.2.1
      rcases word_cases ns.2.1.2.2.1 ns.2.1.2.2.2.1 with ⟨q, q'⟩ | ⟨q, q'⟩ <;> rw [q'] <;>
        rcases number_base ns.1 with k | k | k <;> rw [k] <;> simp <;> (repeat' split) <;> omega
    refine (numFrom_iff (exact_numeric hb) (number_base ns.1) cs ns.2.1.2.2.1).mp ?_
    rw [eb] at sf ⊢
    rcases word_cases l1 l2 with ⟨q, q'⟩ | ⟨q, q'⟩ <;> rcases word_cases r1 r2 with ⟨p, p'⟩ | ⟨p, p'⟩ <;>
      rcases number_base nl with k | k | k <;> rcases number_base nr with k' | k' | k' <;>
      rw [k, k'] at e' <;>
      simp [resultBitsize, resultBitsizeCalc, calcBitsizeForResult, bitsizeToInt, q', p'] at e' <;>
      rcases hsq with ⟨rfl, rfl⟩ | ⟨rfl, rfl⟩ <;>
      simp [asUnsigned, k, k', convertSize, bitsizeToInt, bitsizeToUnsigned, q', p', numFrom, intFrom, unsignedFrom] at sf hne ⊢ <;>
      (repeat' split at e') <;> (repeat' split) <;> omega
  exact ⟨fun h hne => key .div l r (Or.inl rfl) h (Or.inl ⟨rfl, rfl⟩) hne, fun h hne => key .rem r l (Or.inr rfl) h (Or.inr ⟨rfl, rfl⟩) hne⟩

end Ulam.Arith
