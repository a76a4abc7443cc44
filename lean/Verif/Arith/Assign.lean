import Verif.Arith.Props
/-! # Theorems about unary operators and compound assignments: C74, and a library that meets the assumptions of C72-C74 -/
namespace Ulam.Arith
open Ulam.Types hiding Sized
open Ulam.Types.Spec Spec Ulam.Oper
open Ulam.Oper.Spec (Value Within)
open Ulam.Cast (makeImmediate makeImmediateLong make32 make64 word_cases nearest_exact nearest_self number_inj inRange_iff lo hi)
open Ulam.Cast.Spec (Sized Scalar Carried Nearest)
open Ulam.Packed (Bits getData getDataLong putData putDataLong readBits readBits_lt writeBits)

/-! ## C74: unary operators -/

/-- The two sides of a unary operator, given what the operand becomes. -/
theorem unary_sides {lib : Calc} {cnt : Nat} {op : Un} {t : Ty} {o : Operand} {b b' : Bits} {x r : Nat} (t1 : 1 ≤ t.bits)
    (t2 : t.bits ≤ 64) (e1 : evalOperand lib.toLib cnt t o b = some b') (e2 : genOperand lib.toLib cnt t o x = some r) :
    evalUnary lib cnt op t o b =
      some (unaryFn lib op (wordSize t.bits) (readBits b' (96 - t.bits) t.bits) t.bits % 2 ^ t.bits) ∧
    genUnary lib cnt op t o x = some (unaryFn lib op (wordSize t.bits) r t.bits % 2 ^ t.bits) := by
  constructor
  · unfold evalUnary
    rw [e1]
    simp only [dataOf_eq t1 t2]
    obtain ⟨b, hi, hrd⟩ := immediate_read (t := t) t1 t2
      (unaryFn lib op (wordSize t.bits) (readBits b' (96 - t.bits) t.bits) t.bits) (len := t.bits) (by omega)
    rw [hi]
    simp only [Option.map_some, Option.some.injEq]
    rw [hrd, Nat.mod_mod]
  · unfold genUnary
    rw [e2]

/-- C74: an accepted `-x` is the negated number, or the nearest the type has (that of the most negative number is the most
positive one), on both sides. -/
theorem C74_minus {lib : Calc} {cnt : Nat} {valid : Nat → Bool} (hx : Faithful lib cnt valid) {o : Operand} {t : Ty}
    (ho : Scalar o.ty) (h : checkUnary lib.toLib cnt .minus o = .ty t) (b : Bits)
    (v : Value o (readBits b (96 - o.ty.bits) o.ty.bits)) :
    let x := readBits b (96 - o.ty.bits) o.ty.bits
    t = scalar .int o.ty.bits ∧ ∃ z, evalUnary lib cnt .minus t o b = some z ∧ genUnary lib cnt .minus t o x = some z ∧
      z < 2 ^ t.bits ∧ Nearest .int t.bits (- number o.ty.base o.ty.bits x) (number .int t.bits z) := by
  intro x
  unfold checkUnary at h
  split at h
  · simp at h
  split at h
  · simp at h
  dsimp only at h
  split at h
  · simp at h
  split at h
  · rename_i hs
    simp only [Typed.ty.injEq] at h
    subst h
    have ht : Scalar (scalar .int o.ty.bits) := scalar_scalar (by simp [Sized]) ho.2.2.1 ho.2.2.2.1
    obtain ⟨b', r, e1, e2, e3, p1, p2⟩ := C68_kept_partial hx.base ht ho (by simp [Sized, scalar]) hs
      (fun a => by simp [scalar] at a) b v
    have er := number_inj (b := .int) (Or.inl rfl) (readBits_lt b' _ _) e3
      (show number .int _ _ = number .int _ _ from (show _ = _ from p1).trans (show _ = _ from p2).symm)
    obtain ⟨u1, u2⟩ := unary_sides (op := .minus) ht.2.2.1 ht.2.2.2.1 e1 e2
    obtain ⟨ww, wn⟩ := word_ok ho.2.2.1 ho.2.2.2.1
    have k := hx.minus _ o.ty.bits ww ho.2.2.1 wn r
    rw [Nat.mod_eq_of_lt (show r < 2 ^ o.ty.bits from e3),
      show number .int o.ty.bits r = number o.ty.base o.ty.bits x from p2] at k
    refine ⟨rfl, _, ?_, u2, Nat.mod_lt _ (Nat.two_pow_pos _), k⟩
    rw [u1, er]
  · simp at h
  · simp at h

/-- C74: `-` on something that is not a constant is accepted exactly when each of its numbers is a number of `Int` with the
same size: of no `Unsigned`, and of no `Unary` below three bits. -/
theorem C74_minus_accepted (lib : Lib) (cnt : Nat) {s : Ty} (hs : Scalar s) (hn : numeric s = true) :
    (∃ t, checkUnary lib cnt .minus ⟨s, none⟩ = .ty t) ↔ Within s .int s.bits := by
  have nv : s.base ≠ .void := by rcases number_base hn with k | k | k <;> simp [k]
  have e : (∃ t, checkUnary lib cnt .minus ⟨s, none⟩ = .ty t) ↔ intFrom s.bits s.base s.bits = true := by
    have : safeCast (scalar .int s.bits) s = intFrom s.bits s.base s.bits := by
      simp [safeCast, scalar, baseSafeCast, checkArrayCast, hs.1, hs.2.1]
    unfold checkUnary
    simp only [hs.1, ne_eq, not_true_eq_false, if_false, nv, hn, Bool.not_true, Bool.false_eq_true, safeTo, this]
    cases intFrom s.bits s.base s.bits <;> simp
  rw [e]
  have := numFrom_iff (tb := .int) (fb := s.base) (t := s.bits) (n := s.bits) (by simp [Numeric]) (number_base hn) hs.2.2.1 hs.2.2.1
  exact this

/-- C74: an accepted `!x` says the opposite of `x` on both sides. -/
theorem C74_bang {lib : Calc} {cnt : Nat} {valid : Nat → Bool} (hx : Faithful lib cnt valid) {o : Operand} {t : Ty}
    (ho : Scalar o.ty) (h : checkUnary lib.toLib cnt .bang o = .ty t) (b : Bits) :
    let x := readBits b (96 - o.ty.bits) o.ty.bits
    t.base = .bool ∧ ∃ z z', evalUnary lib cnt .bang t o b = some z ∧ genUnary lib cnt .bang t o x = some z' ∧
      truth .bool t.bits z = !truth o.ty.base o.ty.bits x ∧ truth .bool t.bits z' = !truth o.ty.base o.ty.bits x := by
  intro x
  unfold checkUnary at h
  split at h
  · simp at h
  split at h
  · simp at h
  dsimp only at h
  split at h
  · simp at h
  split at h
  · simp at h
  rename_i hs
  simp only [Bool.not_eq_true, Bool.not_eq_false'] at hs
  simp only [Typed.ty.injEq] at h
  have hn : 1 ≤ (if o.ty.base = .bool then o.ty.bits else 1) ∧ (if o.ty.base = .bool then o.ty.bits else 1) ≤ 64 := by
    have := ho.2.2.1
    have := ho.2.2.2.1
    split <;> omega
  generalize (if o.ty.base = .bool then o.ty.bits else 1) = n at h hn
  subst h
  obtain ⟨b', r, e1, e2, e3, p1, p2⟩ := bool_safe hx.base ho hs hn.1 hn.2 b
  obtain ⟨u1, u2⟩ := unary_sides (op := .bang) (t := scalar .bool n) hn.1 hn.2 e1 e2
  obtain ⟨ww, wn⟩ := word_ok hn.1 hn.2
  refine ⟨rfl, _, _, u1, u2, ?_, ?_⟩
  · have k := hx.bang _ n ww hn.1 wn (readBits b' (96 - n) n)
    rw [Nat.mod_eq_of_lt (readBits_lt _ _ _), p1] at k
    exact k
  · have k := hx.bang _ n ww hn.1 wn r
    rw [Nat.mod_eq_of_lt e3, p2] at k
    exact k

/-- C74: `~x` is every bit of `x` the other way, on both sides. -/
theorem C74_twiddle {lib : Calc} {cnt : Nat} {valid : Nat → Bool} (hx : Faithful lib cnt valid) {o : Operand} {t : Ty}
    (ho : Scalar o.ty) (h : checkUnary lib.toLib cnt .twiddle o = .ty t) (b : Bits) :
    let x := readBits b (96 - o.ty.bits) o.ty.bits
    t = scalar .bits o.ty.bits ∧ evalUnary lib cnt .twiddle t o b = some (2 ^ o.ty.bits - 1 - x) ∧
      genUnary lib cnt .twiddle t o x = some (2 ^ o.ty.bits - 1 - x) := by
  intro x
  unfold checkUnary at h
  split at h
  · simp at h
  split at h
  · simp at h
  dsimp only at h
  split at h
  · simp at h
  rename_i hs
  simp only [Bool.not_eq_true, Bool.not_eq_false'] at hs
  simp only [Typed.ty.injEq] at h
  subst h
  have h2 : Sized o.ty.base := safe_sized ho (by simp [Sized, scalar]) hs
  have ht : Scalar (scalar .bits o.ty.bits) := scalar_scalar (by simp [Sized]) ho.2.2.1 ho.2.2.2.1
  obtain ⟨b', r, e1, e2, e3, c1, c2⟩ := operands_carried hx.base ht ho (by simp [Sized, scalar]) h2 b
  have cb : ∀ {r}, Carried valid .bits o.ty.bits r o.ty.base o.ty.bits x → r = x := by
    intro r c
    have : r = x % 2 ^ o.ty.bits := by rcases h2 with k | k | k | k | k <;> rw [k] at c <;> exact c
    rw [this, Nat.mod_eq_of_lt (readBits_lt _ _ _)]
  obtain ⟨u1, u2⟩ := unary_sides (op := .twiddle) ht.2.2.1 ht.2.2.2.1 e1 e2
  obtain ⟨ww, wn⟩ := word_ok ho.2.2.1 ho.2.2.2.1
  have k := hx.compl _ o.ty.bits ww ho.2.2.1 wn x
  rw [Nat.mod_eq_of_lt (readBits_lt _ _ _)] at k
  refine ⟨rfl, ?_, ?_⟩
  · rw [u1, cb c1]; exact congrArg some k
  · rw [u2, cb c2]; exact congrArg some k

/-- C74: `+x` is `x`. -/
theorem C74_plus (lib : Calc) (cnt : Nat) {o : Operand} {t : Ty} (ho : Scalar o.ty) (h : checkUnary lib.toLib cnt .plus o = .ty t)
    (b : Bits) :
    let x := readBits b (96 - o.ty.bits) o.ty.bits
    t = o.ty ∧ evalUnary lib cnt .plus t o b = some x ∧ genUnary lib cnt .plus t o x = some x := by
  intro x
  unfold checkUnary at h
  split at h
  · simp at h
  split at h
  · simp at h
  dsimp only at h
  split at h
  · simp at h
  simp only [Typed.ty.injEq] at h
  subst h
  obtain ⟨u1, u2⟩ := unary_sides (lib := lib) (cnt := cnt) (op := .plus) (t := o.ty) (o := o) (b := b) (b' := b) (x := x) (r := x)
    ho.2.2.1 ho.2.2.2.1 (if_pos rfl) (if_pos rfl)
  have e : x % 2 ^ o.ty.bits = x := Nat.mod_eq_of_lt (readBits_lt _ _ _)
  exact ⟨rfl, u1.trans (congrArg some e), u2.trans (congrArg some e)⟩

/-! ## C74: compound assignments -/

/-- The two sides of a compound assignment, given what the right operand becomes. -/
theorem assign_sides {lib : Calc} {cnt : Nat} {c : Comp} {l : Ty} {r : Operand} {b b' : Bits} {x y v yg : Nat} (t1 : 1 ≤ l.bits)
    (t2 : l.bits ≤ 64) (e0 : immediate r.ty y = some b) (e1 : evalOperand lib.toLib cnt (assignRightTy c l r.ty) r b = some b')
    (ed : dataOf l.bits b' = some v) (e2 : genOperand lib.toLib cnt (assignRightTy c l r.ty) r y = some yg) :
    evalAssign lib cnt c l r x y = (assignFn lib c l.base (wordSize l.bits) x v l.bits).map (· % 2 ^ l.bits) ∧
    genAssign lib cnt c l r x y = (assignFn lib c l.base (wordSize l.bits) x yg l.bits).map (· % 2 ^ l.bits) := by
  constructor
  · unfold evalAssign
    rw [e0]
    simp only [e1, ed]
    cases assignFn lib c l.base (wordSize l.bits) x v l.bits with
    | none => rfl
    | some z =>
      obtain ⟨b, hi, hrd⟩ := immediate_read (t := l) t1 t2 z (len := l.bits) (by omega)
      simp only [hi, Option.map_some, Option.some.injEq]
      rw [hrd, Nat.mod_mod]
  · unfold genAssign
    rw [e2]

/-- What the right operand becomes when it is cast to the left one's type. -/
theorem assign_right {lib : Calc} {cnt : Nat} {valid : Nat → Bool} (hx : Faithful lib cnt valid) {l : Ty} {r : Operand}
    (hl : Scalar l) (hr : Scalar r.ty) (hs : Sized l.base) (h : r.ty = l ∨ safeTo lib.toLib cnt l r = some true)
    (hu : l.base = .bits → r.ty.base = .unary → r.ty.bits ≤ l.bits) {y : Nat} (v : Value r y) :
    ∃ b b' u w, immediate r.ty y = some b ∧ evalOperand lib.toLib cnt l r b = some b' ∧ dataOf l.bits b' = some u ∧
      genOperand lib.toLib cnt l r y = some w ∧ u < 2 ^ l.bits ∧ w < 2 ^ l.bits ∧
      Oper.Spec.Kept l u r.ty y ∧ Oper.Spec.Kept l w r.ty y := by
  obtain ⟨b, hi, hrd⟩ := immediate_read (t := r.ty) hr.2.2.1 hr.2.2.2.1 y (len := r.ty.bits) (by have := hr.2.2.2.1; omega)
  rw [Nat.mod_mod, Nat.mod_eq_of_lt v.1] at hrd
  by_cases he : r.ty = l
  · refine ⟨b, b, y, y, hi, if_pos he, ?_, if_pos he, he ▸ v.1, he ▸ v.1, ?_, ?_⟩
    · rw [dataOf_eq hl.2.2.1 hl.2.2.2.1, ← he, hrd]
    · rw [Oper.Spec.Kept, if_pos he]
    · rw [Oper.Spec.Kept, if_pos he]
  · have h := h.resolve_left he
    obtain ⟨b', w, e1, e2, e3, p1, p2⟩ := C68_kept_partial hx.base hl hr hs h hu b (by rw [hrd]; exact v)
    rw [hrd] at p1 p2 e2
    refine ⟨b, b', _, w, hi, e1, dataOf_eq hl.2.2.1 hl.2.2.2.1 b', e2, readBits_lt _ _ _, e3, ?_, ?_⟩
    · rw [Oper.Spec.Kept, if_neg he]; exact p1
    · rw [Oper.Spec.Kept, if_neg he]; exact p2

theorem kept_number {l s : Ty} (hn : Numeric l.base) {u y : Nat} (h : Oper.Spec.Kept l u s y) :
    number l.base l.bits u = number s.base s.bits y := by
  unfold Oper.Spec.Kept at h
  split at h
  · rename_i he; rw [h, he]
  · rcases hn with k | k | k <;> rw [k] at h ⊢ <;> exact h

/-- What acceptance of an arithmetic assignment says. -/
theorem assign_cases {lib : Lib} {cnt : Nat} {op : Op} {l t : Ty} {r : Operand} (h : checkAssign lib cnt (.arith op) l r = .ty t) :
    t = l ∧ numeric l = true ∧ (r.ty = l ∨ safeTo lib cnt l r = some true) := by
  unfold checkAssign at h
  split at h
  · simp at h
  split at h
  · simp at h
  dsimp only at h
  split at h
  · rename_i hs
    split at h
    · rename_i hn
      simp only [Typed.ty.injEq] at h
      refine ⟨h.symm, hn, ?_⟩
      split at hs
      · rename_i e; exact Or.inl e
      · split at hs
        · rename_i e
          rcases number_base hn with k | k | k <;> rw [k] at e <;> simp at e
        · exact Or.inr hs
    · simp at h
  · simp at h
  · simp at h

/-- C74: an accepted `l op= r` leaves the exact result on the numbers of both, or the nearest number of `l`'s type, in the
evaluator and in the generated program; the same bits, unless `l` is `Unary`. -/
theorem C74_assign {lib : Calc} {cnt : Nat} {valid : Nat → Bool} (hx : Faithful lib cnt valid) {op : Op} {l t : Ty} {r : Operand}
    (hl : Scalar l) (hr : Scalar r.ty) (h : checkAssign lib.toLib cnt (.arith op) l r = .ty t) {x y : Nat} (hxl : x < 2 ^ l.bits)
    (v : Value r y) (hd : Defined op (number r.ty.base r.ty.bits y)) :
    ∃ z z', evalAssign lib cnt (.arith op) l r x y = some z ∧ genAssign lib cnt (.arith op) l r x y = some z' ∧
      z < 2 ^ l.bits ∧ z' < 2 ^ l.bits ∧ (l.base ≠ .unary → z = z') ∧
      Nearest l.base l.bits (exact op (number l.base l.bits x) (number r.ty.base r.ty.bits y)) (number l.base l.bits z) ∧
      Nearest l.base l.bits (exact op (number l.base l.bits x) (number r.ty.base r.ty.bits y)) (number l.base l.bits z') := by
  obtain ⟨-, hn, hs⟩ := assign_cases h
  have nb := number_base hn
  have sz : Sized l.base := by rcases nb with k | k | k <;> simp [Sized, k]
  obtain ⟨b, b', u, w, e0, e1, ed, e2, hu, hw, k1, k2⟩ := assign_right hx hl hr sz hs
    (fun a => by rcases nb with k | k | k <;> rw [k] at a <;> simp at a) v
  obtain ⟨s1, s2⟩ := assign_sides (lib := lib) (cnt := cnt) (c := .arith op) (x := x) hl.2.2.1 hl.2.2.2.1 e0 e1 ed e2
  have fn : ∀ y, assignFn lib (.arith op) l.base (wordSize l.bits) x y l.bits = some (lib.arith op l.base (wordSize l.bits) x y l.bits) := by
    intro y
    rcases nb with k | k | k <;> rw [k] <;> rfl
  rw [fn] at s1 s2
  obtain ⟨ww, wn⟩ := word_ok hl.2.2.1 hl.2.2.2.1
  have nr : ∀ y', y' < 2 ^ l.bits → Oper.Spec.Kept l y' r.ty y →
      Nearest l.base l.bits (exact op (number l.base l.bits x) (number r.ty.base r.ty.bits y))
        (number l.base l.bits (lib.arith op l.base (wordSize l.bits) x y' l.bits % 2 ^ l.bits)) := by
    intro y' hy hk
    have k := hx.arith op l.base _ l.bits nb ww hl.2.2.1 wn x y'
    rw [Nat.mod_eq_of_lt hxl, Nat.mod_eq_of_lt hy, kept_number nb hk] at k
    exact k hd
  refine ⟨_, _, s1, s2, Nat.mod_lt _ (Nat.two_pow_pos _), Nat.mod_lt _ (Nat.two_pow_pos _), ?_, nr u hu k1, nr w hw k2⟩
  intro hb
  have hb' : l.base = .int ∨ l.base = .unsigned := by
    rcases nb with k | k | k
    · exact Or.inl k
    · exact Or.inr k
    · exact absurd k hb
  exact nearest_raw hb' hl.2.2.1 (Nat.mod_lt _ (Nat.two_pow_pos _)) (Nat.mod_lt _ (Nat.two_pow_pos _)) (nr u hu k1) (nr w hw k2)

/-- C74: an arithmetic assignment of numbers is accepted exactly when the right one is a number of the left type: always, for a
variable; this time, for a constant. -/
theorem C74_assign_accepted {lib : Calc} {cnt : Nat} {valid : Nat → Bool} (hx : Faithful lib cnt valid) (op : Op) {l : Ty} {r : Operand}
    (hl : Scalar l) (hr : Scalar r.ty) (nl : numeric l = true) (nr : numeric r.ty = true) :
    (r.const = none → (checkAssign lib.toLib cnt (.arith op) l r = .ty l ↔ Within r.ty l.base l.bits)) ∧
    (∀ u, r.const = some u → (r.ty.base = .unary → u < 2 ^ r.ty.bits) →
      (checkAssign lib.toLib cnt (.arith op) l r = .ty l ↔
        InRange l.base l.bits (number r.ty.base r.ty.bits (u % 2 ^ r.ty.bits)))) := by
  have nv : ∀ {s : Ty}, numeric s = true → s.base ≠ .void ∧ s.base ≠ .bits := by
    intro s h
    rcases number_base h with k | k | k <;> simp [k]
  have e : checkAssign lib.toLib cnt (.arith op) l r = .ty l ↔ (r.ty = l ∨ safeTo lib.toLib cnt l r = some true) := by
    constructor
    · intro h; exact (assign_cases h).2.2
    · intro h
      unfold checkAssign
      rw [if_neg (by simp [(nv nl).1, (nv nr).1]), if_neg (by simp [hl.1, hr.1])]
      dsimp only
      by_cases he : r.ty = l
      · rw [if_pos he]; simp [nl]
      · rw [if_neg he, if_neg (by simp [(nv nl).2]), h.resolve_left he]
        simp [nl]
  rw [e]
  constructor
  · intro hc
    have es : safeCast l r.ty = numFrom l.base l.bits r.ty.base r.ty.bits := by
      have hb : baseSafeCast l r.ty = true := by
        simp [baseSafeCast, checkArrayCast, hl.1, hr.1, hr.2.1]
      unfold safeCast
      rw [hb]
      rcases number_base nl with k | k | k <;> simp [numFrom, k]
    unfold safeTo
    rw [hc]
    simp only [Option.some.injEq]
    rw [es, numFrom_iff (number_base nl) (number_base nr) hl.2.2.1 hr.2.2.1]
    constructor
    · rintro (he | he)
      · intro v hv; rw [← he]; exact hv
      · exact he
    · exact Or.inr
  · intro u hc hu
    obtain ⟨b, e1, e2⟩ := C68_numeric hx.base hl hr (number_base nl) (number_base nr) hu
    unfold safeTo
    rw [hc]
    simp only [e1, Option.some.injEq, e2]
    constructor
    · rintro (he | he)
      · rw [← he]; exact number_range (number_base nr) hr.2.2.1 (Nat.mod_lt _ (Nat.two_pow_pos _))
      · exact he
    · exact Or.inr

/-- C74 (missing: a `Unary` constant on the right with more bits than the left, as in C68): `l &= r` and its fellows
combine the bits. -/
theorem C74_assign_bitwise_partial {lib : Calc} {cnt : Nat} {valid : Nat → Bool} (hx : Faithful lib cnt valid) {op : Bitw}
    {l t : Ty} {r : Operand} (hl : Scalar l) (hr : Scalar r.ty) (h : checkAssign lib.toLib cnt (.bitw op) l r = .ty t) {x y : Nat}
    (hxl : x < 2 ^ l.bits) (v : Value r y) (hu : r.ty.base = .unary → r.ty.bits ≤ l.bits) :
    evalAssign lib cnt (.bitw op) l r x y = some (Oper.Spec.bitwise op x y) ∧
    genAssign lib cnt (.bitw op) l r x y = some (Oper.Spec.bitwise op x y) := by
  unfold checkAssign at h
  split at h
  · simp at h
  split at h
  · simp at h
  dsimp only at h
  split at h
  · rename_i hs
    split at h
    · rename_i hb
      obtain ⟨b, b', u, w, e0, e1, ed, e2, hu', -, k1, k2⟩ := assign_right hx hl hr (by simp [Sized, hb]) (Or.inr hs)
        (fun _ => hu) v
      obtain ⟨s1, s2⟩ := assign_sides (lib := lib) (cnt := cnt) (c := .bitw op) (x := x) hl.2.2.1 hl.2.2.2.1 e0 e1 ed e2
      have kb : ∀ {u}, Oper.Spec.Kept l u r.ty y → u = y := by
        intro u hk
        unfold Oper.Spec.Kept at hk
        split at hk
        · exact hk
        · rw [hb] at hk; exact hk
      obtain ⟨ww, wn⟩ := word_ok hl.2.2.1 hl.2.2.2.1
      have k := hx.base.bitw op _ l.bits ww hl.2.2.1 wn x y
      rw [kb k1] at hu' s1
      rw [kb k2] at s2
      rw [Nat.mod_eq_of_lt hxl, Nat.mod_eq_of_lt hu'] at k
      rw [hb] at s1 s2
      simp only [assignFn, Option.map_some, k] at s1 s2
      exact ⟨s1, s2⟩
    · simp at h
  · simp at h
  · simp at h

/-- What acceptance of a shift assignment says. -/
theorem shift_assign_cases {lib : Lib} {cnt : Nat} {d : Dir} {l t : Ty} {r : Operand}
    (h : checkAssign lib cnt (.shift d) l r = .ty t) :
    l.base = .bits ∧ safeTo lib cnt (scalar .unsigned 32) r = some true := by
  unfold checkAssign at h
  split at h
  · simp at h
  split at h
  · simp at h
  dsimp only at h
  split at h
  · rename_i hs
    split at h
    · rename_i hb
      exact ⟨hb, hs⟩
    · simp at h
  · simp at h
  · simp at h

/-- The two sides of a shift assignment: the evaluator keeps only as many bits of the distance as the left operand has. -/
theorem shift_assign {lib : Calc} {cnt : Nat} {valid : Nat → Bool} (hx : Faithful lib cnt valid) {d : Dir} {l t : Ty} {r : Operand}
    (hl : Scalar l) (hr : Scalar r.ty) (h : checkAssign lib.toLib cnt (.shift d) l r = .ty t) {x y k : Nat} (hxl : x < 2 ^ l.bits)
    (v : Value r y) (hk : number r.ty.base r.ty.bits y = k) (hw : k < if l.bits ≤ 32 then 32 else 64) :
    evalAssign lib cnt (.shift d) l r x y = some (shifted d x (k % 2 ^ l.bits) l.bits) ∧
    genAssign lib cnt (.shift d) l r x y = some (shifted d x k l.bits) := by
  obtain ⟨hb, hs⟩ := shift_assign_cases h
  obtain ⟨k', hk', ⟨b, b', e0, e1, ed⟩, e2⟩ := shift_right_kept hx hr hs v hl.2.2.1 hl.2.2.2.1
  have ek : k' = k := by exact_mod_cast hk'.symm.trans hk
  subst ek
  obtain ⟨s1, s2⟩ := assign_sides (lib := lib) (cnt := cnt) (c := .shift d) (x := x) hl.2.2.1 hl.2.2.2.1 e0 e1 ed e2
  obtain ⟨ww, wn⟩ := word_ok hl.2.2.1 hl.2.2.2.1
  have hw' : k' < wordSize l.bits := by rw [wordSize_eq hl.2.2.1 hl.2.2.2.1]; exact hw
  have q := hx.shift d _ l.bits ww hl.2.2.1 wn x k' hw'
  have q' := hx.shift d _ l.bits ww hl.2.2.1 wn x (k' % 2 ^ l.bits) (lt_of_le_of_lt (Nat.mod_le _ _) hw')
  rw [Nat.mod_eq_of_lt hxl] at q q'
  rw [hb] at s1 s2
  simp only [assignFn, Option.map_some, q, q'] at s1 s2
  exact ⟨s1, s2⟩

/-- C74 (missing: distances the left operand's size cannot hold, see `C74_assign_shift_fails`): `l <<= r` and `l >>= r` move
the bits of `l` by the number of `r`. -/
theorem C74_assign_shift_partial {lib : Calc} {cnt : Nat} {valid : Nat → Bool} (hx : Faithful lib cnt valid) {d : Dir} {l t : Ty}
    {r : Operand} (hl : Scalar l) (hr : Scalar r.ty) (h : checkAssign lib.toLib cnt (.shift d) l r = .ty t) {x y k : Nat}
    (hxl : x < 2 ^ l.bits) (v : Value r y) (hk : number r.ty.base r.ty.bits y = k) (hw : k < if l.bits ≤ 32 then 32 else 64)
    (hn : k < 2 ^ l.bits) :
    evalAssign lib cnt (.shift d) l r x y = some (shifted d x k l.bits) ∧
    genAssign lib cnt (.shift d) l r x y = some (shifted d x k l.bits) := by
  have := shift_assign hx hl hr h hxl v hk hw
  rw [Nat.mod_eq_of_lt hn] at this
  exact this

/-- C74, negative: `Bits(n) <<=` and `>>=` by two to the power of `n`, for `n` up to four: all bits are shifted out by the
generated program, none by the evaluator. -/
theorem C74_assign_shift_fails {lib : Calc} {cnt : Nat} {valid : Nat → Bool} (hx : Faithful lib cnt valid) (d : Dir) {n m x : Nat}
    (n1 : 1 ≤ n) (n2 : n ≤ 4) (m1 : n < m) (m2 : m ≤ 32) (hxn : x < 2 ^ n) :
    let r : Operand := ⟨scalar .unsigned m, none⟩
    checkAssign lib.toLib cnt (.shift d) (scalar .bits n) r = .ty (scalar .bits n) ∧
    evalAssign lib cnt (.shift d) (scalar .bits n) r x (2 ^ n) = some x ∧
    genAssign lib cnt (.shift d) (scalar .bits n) r x (2 ^ n) = some 0 := by
  intro r
  have hl : Scalar (scalar .bits n) := scalar_scalar (by simp [Sized]) (by omega) (by omega)
  have hr : Scalar r.ty := scalar_scalar (by simp [Sized]) (by omega) (by omega)
  have hc : checkAssign lib.toLib cnt (.shift d) (scalar .bits n) r = .ty (scalar .bits n) := by
    simp [checkAssign, r, scalar, safeTo, safeCast, baseSafeCast, checkArrayCast, unsignedFrom, m2]
  have lt16 : 2 ^ n ≤ 2 ^ 4 := Nat.pow_le_pow_right (by decide) n2
  have vr : Value r (2 ^ n) := ⟨Nat.pow_lt_pow_right (by decide) m1, fun u hu => by simp [r] at hu⟩
  have hk : number r.ty.base r.ty.bits (2 ^ n) = ((2 ^ n : Nat) : Int) := rfl
  obtain ⟨a, b⟩ := shift_assign hx hl hr hc (x := x) hxn vr hk
    (by change _ < if n ≤ 32 then 32 else 64; rw [if_pos (by omega)]; omega)
  have hlt : n < 2 ^ n := Nat.lt_two_pow_self
  have ea : shifted d x (2 ^ n % 2 ^ n) n = x := by
    rw [Nat.mod_self]
    cases d
    · simp [shifted, Nat.mod_eq_of_lt hxn]
    · simp [shifted]
  have eb : shifted d x (2 ^ n) n = 0 := by
    cases d
    · simp only [shifted]
      exact Nat.mod_eq_zero_of_dvd (Dvd.dvd.mul_left (pow_dvd_pow 2 hlt.le) x)
    · exact Nat.div_eq_of_lt (hxn.trans_le (Nat.pow_le_pow_right (by decide) hlt.le))
  refine ⟨hc, a.trans (congrArg some ea), b.trans (congrArg some eb)⟩

/-! ### `++` and `--` -/

theorem one_value : Value one 1 :=
  ⟨by decide, fun u hu => by simp [one] at hu; subst hu; exact ⟨by decide, fun h => by simp [one, scalar] at h⟩⟩

/-- C74: stepping is accepted for every numeric type that has a one: for all but `Int(1)`. -/
theorem C74_step_accepted {lib : Calc} {cnt : Nat} {valid : Nat → Bool} (hx : Faithful lib cnt valid) (op : Op) {l : Ty}
    (hl : Scalar l) (nl : numeric l = true) :
    checkAssign lib.toLib cnt (.arith op) l one = .ty l ↔ ¬ (l.base = .int ∧ l.bits = 1) := by
  rw [(C74_assign_accepted hx op hl (r := one) (by decide) nl (by decide)).2 1 rfl (fun h => by simp [one, scalar] at h)]
  have e : number one.ty.base one.ty.bits (1 % 2 ^ one.ty.bits) = 1 := by decide
  rw [e]
  have l1 := hl.2.2.1
  have p : ∀ k : Nat, 1 ≤ k → (2 : Int) ≤ 2 ^ k := fun k hk => by
    have : 2 ^ 1 ≤ 2 ^ k := Nat.pow_le_pow_right (by decide : 0 < 2) hk
    exact_mod_cast this
  rcases number_base nl with k | k | k <;> rw [k] <;> simp only [InRange]
  · by_cases hb : l.bits = 1
    · simp [hb]
    · have := p (l.bits - 1) (by omega)
      simp [hb]
      omega
  · have := p l.bits l1
    simp
    omega
  · simp
    omega

/-- C74: `++` and `--` add or take away one, stopping at the ends of the type; used before, the result is the new value, used
after, the old one. -/
theorem C74_step {lib : Calc} {cnt : Nat} {valid : Nat → Bool} (hx : Faithful lib cnt valid) {op : Op} {l t : Ty} (hl : Scalar l)
    (ho : op = .add ∨ op = .sub) (h : checkAssign lib.toLib cnt (.arith op) l one = .ty t) (post : Bool) {x : Nat}
    (hxl : x < 2 ^ l.bits) :
    ∃ z z', evalStep lib cnt post op l x = some (z, if post then x else z) ∧
      genStep lib cnt post op l x = some (z', if post then x else z') ∧ (l.base ≠ .unary → z = z') ∧
      (∀ w, w = z ∨ w = z' → Nearest l.base l.bits (if op = .add then number l.base l.bits x + 1 else number l.base l.bits x - 1)
        (number l.base l.bits w)) := by
  have e : number one.ty.base one.ty.bits 1 = 1 := by decide
  obtain ⟨z, z', a, b, -, -, c, d, d'⟩ := C74_assign hx hl (r := one) (by decide) h hxl one_value (fun _ => by rw [e]; decide)
  rw [e] at d d'
  refine ⟨z, z', ?_, ?_, c, ?_⟩
  · simp [evalStep, step, a]
  · simp [genStep, step, b]
  · rintro w (rfl | rfl) <;> rcases ho with rfl | rfl <;> simpa [exact] using by assumption

/-- C74, negative: the evaluator refuses `x / 0`, but not `x /= 0` and `x %= 0`: there the library is asked to divide by zero. -/
theorem C74_assign_zero_fails (lib : Calc) (cnt : Nat) {op : Op} {l : Ty} (hl : Scalar l) (hb : l.base = .int ∨ l.base = .unsigned)
    {x : Nat} :
    evalAssign lib cnt (.arith op) l ⟨l, none⟩ x 0 =
      some (lib.arith op l.base (wordSize l.bits) x 0 l.bits % 2 ^ l.bits) := by
  obtain ⟨b, hi, hrd⟩ := immediate_read (t := l) hl.2.2.1 hl.2.2.2.1 0 (len := l.bits) (by have := hl.2.2.2.1; omega)
  rw [Nat.mod_mod, Nat.zero_mod] at hrd
  obtain ⟨s1, -⟩ := assign_sides (lib := lib) (cnt := cnt) (c := .arith op) (x := x) (l := l) (r := ⟨l, none⟩) (y := 0) (b := b)
    (b' := b) (v := 0) (yg := 0) hl.2.2.1 hl.2.2.2.1 hi (if_pos rfl) (by rw [dataOf_eq hl.2.2.1 hl.2.2.2.1, hrd]) (if_pos rfl)
  rw [s1]
  rcases hb with k | k <;> rw [k] <;> rfl

/-! ## A library that does what the names say -/

/-- The nearest number, stored. -/
def sat (b : Base) (n : Nat) (v : Int) : Nat := Cast.enc b n (max (lo b n) (min (hi b n) v))

/-- The reference library. -/
def refCalc (valid : Nat → Bool) : Calc where
  toLib := refLib valid
  arith := fun op b _ x y n => sat b n (exact op (number b n (x % 2 ^ n)) (number b n (y % 2 ^ n)))
  shift := fun d _ x k n => shifted d (x % 2 ^ n) k n
  minus := fun _ x n => sat .int n (- number .int n (x % 2 ^ n))
  bang := fun _ x n => if truth .bool n (x % 2 ^ n) then 0 else 2 ^ n - 1
  compl := fun _ x n => 2 ^ n - 1 - x % 2 ^ n

/-- The assumption on the library can be met. -/
theorem refCalc_faithful (cnt : Nat) (valid : Nat → Bool) : Faithful (refCalc valid) cnt valid where
  base := refLib_faithful cnt valid
  arith := by
    intro op b w n hb _ n1 _ x y _
    exact Cast.sat_nearest hb n1 _
  shift := by
    intro d w n _ _ _ x k _
    simp only [refCalc]
    cases d
    · simp [shifted]
    · exact Nat.mod_eq_of_lt (lt_of_le_of_lt (Nat.div_le_self _ _) (Nat.mod_lt _ (Nat.two_pow_pos _)))
  minus := by
    intro w n _ n1 _ x
    exact Cast.sat_nearest (by simp [Numeric]) n1 _
  bang := by
    intro w n _ n1 _ x
    have := Cast.all_truth n1 (!truth .bool n (x % 2 ^ n))
    simp only [refCalc]
    cases h : truth .bool n (x % 2 ^ n) <;> rw [h] at this <;> simpa using this
  compl := by
    intro w n _ _ _ x
    have := Nat.two_pow_pos n
    exact Nat.mod_eq_of_lt (show 2 ^ n - 1 - x % 2 ^ n < 2 ^ n by omega)

/-! ### Cases -/

/-- `Int(8) 100 + Int(8) 100` is 200, in `Int(9)`. -/
example : let l : Operand := ⟨scalar .int 8, none⟩
    checkArith (refLib fun _ => true) 0 .add l l = .ty (scalar .int 9) ∧
    genArith (refCalc fun _ => true) 0 .add (scalar .int 9) l l 100 100 = some 200 ∧
    (∃ b, immediate l.ty 100 = some b ∧ Value l (readBits b 88 8) ∧
      evalArith (refCalc fun _ => true) 0 .add (scalar .int 9) l l b b = some 200) := by
  refine ⟨by decide, by decide +kernel, _, rfl, ⟨by decide +kernel, fun u h => by simp at h⟩, by decide +kernel⟩

/-- Unsigned differences stop at zero: `3u - 5u`. -/
example : genArith (refCalc fun _ => true) 0 .sub (scalar .unsigned 9) ⟨scalar .unsigned 8, none⟩ ⟨scalar .unsigned 8, none⟩ 3 5 =
    some 0 := by decide +kernel

/-- `-7 / 2` is -3 and `-7 % 2` is -1. -/
example : let l : Operand := ⟨scalar .int 8, none⟩
    genArith (refCalc fun _ => true) 0 .div (scalar .int 8) l l 249 2 = some 253 ∧
    genArith (refCalc fun _ => true) 0 .rem (scalar .int 8) l l 249 2 = some 255 := by decide +kernel

/-- `Unsigned(32)` with `Int(32)` is refused, with `Int(33)` not. -/
example : checkArith (refLib fun _ => true) 0 .mul ⟨scalar .unsigned 32, none⟩ ⟨scalar .int 32, none⟩ = .reject ∧
    checkArith (refLib fun _ => true) 0 .mul ⟨scalar .unsigned 32, none⟩ ⟨scalar .int 33, none⟩ = .ty (scalar .int 64) := by
  decide +kernel

/-- `C72_quotient_fails` is about something: 4000000000 / 1 is 2147483647. -/
example : genArith (refCalc fun _ => true) 0 .div (scalar .int 40) ⟨scalar .unsigned 32, none⟩ ⟨scalar .int 40, none⟩ 4000000000 1 =
    some 2147483647 := by decide +kernel

/-- `Bits(8) 0x81 << 1u` in 10 bits, and `>>`. -/
example : checkShift (refLib fun _ => true) 0 .left ⟨scalar .bits 8, none⟩ ⟨scalar .unsigned 1, none⟩ = .ty (scalar .bits 10) ∧
    genShift (refCalc fun _ => true) 0 .left (scalar .bits 10) ⟨scalar .bits 8, none⟩ ⟨scalar .unsigned 1, none⟩ 0x81 1 = some 0x102 ∧
    evalShift (refCalc fun _ => true) 0 .left (scalar .bits 10) ⟨scalar .bits 8, none⟩ ⟨scalar .unsigned 1, none⟩ 0x81 1 = some 0x102 ∧
    evalShift (refCalc fun _ => true) 0 .right (scalar .bits 8) ⟨scalar .bits 8, none⟩ ⟨scalar .unsigned 3, none⟩ 0x81 7 = some 1 := by
  decide +kernel

/-- `-` of the most negative `Int(4)` is the most positive one; `!` of a `Bool(3)`; `~` of an `Unary(4)`. -/
example : genUnary (refCalc fun _ => true) 0 .minus (scalar .int 4) ⟨scalar .int 4, none⟩ 8 = some 7 ∧
    genUnary (refCalc fun _ => true) 0 .bang (scalar .bool 3) ⟨scalar .bool 3, none⟩ 6 = some 0 ∧
    genUnary (refCalc fun _ => true) 0 .twiddle (scalar .bits 4) ⟨scalar .unary 4, none⟩ 5 = some 10 := by
  decide +kernel

/-- `Unsigned(4) 14 += 5` is 15, `x++` of 15 stays there and says 15; `Int(1)` has no `++`. -/
example : checkAssign (refLib fun _ => true) 0 (.arith .add) (scalar .unsigned 4) ⟨scalar .int 32, some 5⟩ = .ty (scalar .unsigned 4) ∧
    evalAssign (refCalc fun _ => true) 0 (.arith .add) (scalar .unsigned 4) ⟨scalar .int 32, some 5⟩ 14 5 = some 15 ∧
    evalStep (refCalc fun _ => true) 0 true .add (scalar .unsigned 4) 14 = some (15, 14) ∧
    genStep (refCalc fun _ => true) 0 true .add (scalar .unsigned 4) 15 = some (15, 15) ∧
    checkAssign (refLib fun _ => true) 0 (.arith .add) (scalar .int 1) one = .reject := by
  decide +kernel

end Ulam.Arith
