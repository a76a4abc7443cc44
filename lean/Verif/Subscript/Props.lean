import Verif.Subscript.Model
import Verif.Packed.Props
import Mathlib.Tactic.Linarith
import Mathlib.Tactic.Ring
/-!
# C71: subscripts of any index type, constant or not, evaluated or generated
-/
namespace Ulam.Subscript
open Ulam.Packed

/-! ## Specification -/

/-- The numbers of an index type. -/
def In (x : Ix) (v : Int) : Prop :=
  0 < x.n ∧ if x.signed then -2 ^ (x.n - 1) ≤ v ∧ v < 2 ^ (x.n - 1) else 0 ≤ v ∧ v < 2 ^ x.n

/-- What is asked of the library: the numbers of a type that are numbers of the C type come out right. -/
structure Faithful (L : Lib) : Prop where
  cs32 : ∀ x v, In x v → x.n ≤ 32 → v < 2 ^ 31 → L.cs32 x (raw x.n v) = v
  cs64 : ∀ x v, In x v → x.n ≤ 64 → v < 2 ^ 63 → L.cs64 x (raw x.n v) = v

/-- Bits of item `i` of an array at `pos`. -/
def itemPos (pos bits i : Nat) : Nat := pos + i * bits

/-! ## Lemmas -/

theorem genAccess_inside {const : Bool} {size bits pos : Nat} {i : Nat} (h : i < size)
    (hfit : pos + size * bits < 2 ^ 32) : genAccess const size bits pos i = some (itemPos pos bits i) := by
  have h1 : i * bits ≤ size * bits := Nat.mul_le_mul_right _ h.le
  unfold genAccess itemPos
  have hc : ¬ (const = false ∧ (i : Int) ≥ size) := by rintro ⟨-, h2⟩; omega
  rw [if_neg hc]
  have : ((i : Int) * bits + pos) = ((pos + i * bits : Nat) : Int) := by push_cast; ring
  rw [this]
  congr 1
  have h2 : ((pos + i * bits : Nat) : Int) % 2 ^ 32 = ((pos + i * bits : Nat) : Int) :=
    Int.emod_eq_of_lt (by positivity) (by omega)
  rw [h2]; rfl

/-! ## Theorems -/

/-- **C71** (index types). Exactly the numeric types can be an index, and the number given as a `Unary` or an `Int`, `Unsigned`
of any size stays the same (`Unary` up to 32 bits become `Unsigned`). -/
theorem C71_index_types (s : Src) :
    (indexType s).isSome ↔ (∃ n, s = .int n ∨ s = .unsigned n ∨ s = .unary n) ∨ s = .quark true := by
  cases s with
  | quark b => cases b <;> simp [indexType]
  | _ => simp [indexType]

/-- **C71** (generated code). An index that is not a constant and not negative selects its item, or stops the program when
there is none. Missing: negative numbers, `C71_negative_fails`. -/
theorem C71_generated_partial (size bits pos : Nat) (hfit : pos + size * bits < 2 ^ 32) (i : Nat) :
    (i < size → genAccess false size bits pos i = some (itemPos pos bits i)) ∧
    (size ≤ i → genAccess false size bits pos i = none) := by
  refine ⟨fun h => genAccess_inside h hfit, fun h => ?_⟩
  unfold genAccess
  exact if_pos ⟨rfl, by omega⟩

/-- **C71** fails for negative numbers: the generated test never stops them, and the access goes to the bits that lie in
front of the array. -/
theorem C71_negative_fails (const : Bool) (size bits pos k : Nat) (hk : 0 < k) (hfit : pos < 2 ^ 32)
    (hin : k * bits ≤ pos) : genAccess const size bits pos (-k) = some (pos - k * bits) := by
  unfold genAccess
  have hc : ¬ (const = false ∧ (-(k : Int)) ≥ size) := by rintro ⟨-, h2⟩; omega
  rw [if_neg hc]
  have : (-(k : Int) * bits + pos) = ((pos - k * bits : Nat) : Int) := by push_cast [hin]; ring
  rw [this]
  have h2 : ((pos - k * bits : Nat) : Int) % 2 ^ 32 = ((pos - k * bits : Nat) : Int) :=
    Int.emod_eq_of_lt (by positivity) (by omega)
  rw [h2]; rfl

theorem constOk_iff {L : Lib} (hL : Faithful L) {size : Nat} {x : Ix} {v : Int} (hv : In x v) (hn : x.n ≤ 32)
    (h31 : v < 2 ^ 31) : constOk L size x v = true ↔ v = -2 ∨ (0 ≤ v ∧ v ≤ size) := by
  have hraw : raw x.n v % 2 ^ 32 = raw x.n v := by
    refine Nat.mod_eq_of_lt ?_
    have h1 : v % 2 ^ x.n < 2 ^ x.n := Int.emod_lt_of_pos _ (by positivity)
    have h2 : (2 : Int) ^ x.n ≤ 2 ^ 32 := by
      exact_mod_cast Nat.pow_le_pow_right (by norm_num) hn
    have h3 : 0 ≤ v % 2 ^ x.n := Int.emod_nonneg _ (by positivity)
    unfold raw
    omega
  have hk : constOffset L x v = v := by unfold constOffset; rw [hraw, hL.cs32 x v hv hn h31]
  simp only [constOk, hk]
  constructor
  · intro h
    split_ifs at h with h1 h2
    omega
  · intro h
    rw [if_neg (by omega), if_neg (by omega)]

/-- **C71** (constants). A constant index up to 32 bits is accepted when there is such an item, and an accepted one, other
than the size of the array and -2, selects its item in the generated program. Missing: `C71_constant_fails`. -/
theorem C71_constant_partial (L : Lib) (hL : Faithful L) (size bits pos : Nat) (hfit : pos + size * bits < 2 ^ 32)
    (x : Ix) (v : Int) (hv : In x v) (hn : x.n ≤ 32) (h31 : v < 2 ^ 31) :
    (0 ≤ v → v < size → constOk L size x v = true) ∧
    (constOk L size x v = true → v ≠ size → v ≠ -2 →
      ∃ i : Nat, v = i ∧ i < size ∧ genAccess true size bits pos v = some (itemPos pos bits i)) := by
  rw [constOk_iff hL hv hn h31]
  refine ⟨fun h0 h1 => Or.inr ⟨h0, h1.le⟩, fun h h1 h2 => ?_⟩
  obtain ⟨i, rfl⟩ := Int.eq_ofNat_of_zero_le (show 0 ≤ v by omega)
  exact ⟨i, rfl, by omega, genAccess_inside (by omega) hfit⟩

/-- **C71** fails for constants: in every array the constant index that equals the size is accepted and goes, without a test,
to the first bits behind the array; the evaluator refuses to read it. The constant -2 is accepted too. -/
theorem C71_constant_fails (L : Lib) (hL : Faithful L) (t : Ty) (p : Ptr) (b : Bits) (hfit : p.pos + t.n * t.bits < 2 ^ 32)
    (x : Ix) (hn : x.n ≤ 32) (hs : t.n < 2 ^ 31) (hv : In x t.n) :
    constOk L t.n x t.n = true ∧ genAccess true t.n t.bits p.pos t.n = some (p.pos + t.n * t.bits) ∧
    evalRead L t p b x t.n = .refused ∧ (In x (-2) → constOk L t.n x (-2) = true) := by
  have h31 : ((t.n : Nat) : Int) < 2 ^ 31 := by exact_mod_cast hs
  refine ⟨(constOk_iff hL hv hn h31).2 (Or.inr ⟨by omega, le_refl _⟩), ?_, ?_, fun h =>
    (constOk_iff hL h hn (by norm_num)).2 (Or.inl rfl)⟩
  · unfold genAccess
    rw [if_neg (by simp)]
    have : ((t.n : Int) * t.bits + p.pos) = ((p.pos + t.n * t.bits : Nat) : Int) := by push_cast; ring
    rw [this]
    have h2 : ((p.pos + t.n * t.bits : Nat) : Int) % 2 ^ 32 = ((p.pos + t.n * t.bits : Nat) : Int) :=
      Int.emod_eq_of_lt (by positivity) (by omega)
    rw [h2]; rfl
  · simp only [evalRead, readOffset, if_pos hn, hL.cs32 x _ hv hn h31, readSub]
    exact if_pos (le_refl _)

/-- **C71** (evaluator and generated program). An index up to 32 bits that names an item finds the same bits in both, for
reading and for storing. Missing: wider indices, `C71_long_fails` and `C71_long_store_fails`. -/
theorem C71_agree_partial (L : Lib) (hL : Faithful L) (t : Ty) (p : Ptr) (h : Placed t p) (hb : 0 < t.bits)
    (hb' : t.bits ≤ 64) (b : Bits) (x : Ix) (hn : x.n ≤ 32) (i : Nat) (hv : In x i) (hi : i < t.n) (const : Bool) :
    genAccess const t.n t.bits p.pos i = some (itemPos p.pos t.bits i) ∧
    (∃ q, evalStore L t p x i = .ok q ∧ q.pos = itemPos p.pos t.bits i ∧ q.len = t.bits) ∧
    evalRead L t p b x i = .ok (readBits b (itemPos p.pos t.bits i) t.bits) := by
  have hin := h.inside
  have hn96 : t.n ≤ 96 := by nlinarith
  have h31 : ((i : Nat) : Int) < 2 ^ 31 := by omega
  refine ⟨genAccess_inside hi (by omega), ?_, ?_⟩
  · refine ⟨⟨p.pos + i * t.bits, t.bits, packable (t.n * t.bits), true⟩, ?_, rfl, rfl⟩
    simp only [evalStore, if_pos hn, hL.cs32 x _ hv hn h31]
    exact storeSub_item h hb hi
  · simp only [evalRead, readOffset, if_pos hn, hL.cs32 x _ hv hn h31, readSub]
    rw [if_neg (by omega), getValAt_item h hb hb' b hi]
    rfl

/-- **C71** fails for indices over 32 bits: the evaluator drops the upper half, so `a[k + 2^32 * j]` reads item `k`; the
generated program stops. -/
theorem C71_long_fails (L : Lib) (hL : Faithful L) (t : Ty) (p : Ptr) (h : Placed t p) (hb : 0 < t.bits)
    (hb' : t.bits ≤ 64) (b : Bits) (x : Ix) (hn : 32 < x.n) (hn' : x.n ≤ 64) (k j : Nat) (hj : 0 < j) (hk : k < t.n)
    (hv : In x (k + 2 ^ 32 * j : Nat)) (h63 : k + 2 ^ 32 * j < 2 ^ 63) :
    evalRead L t p b x (k + 2 ^ 32 * j : Nat) = .ok (readBits b (itemPos p.pos t.bits k) t.bits) ∧
    genAccess false t.n t.bits p.pos (k + 2 ^ 32 * j : Nat) = none := by
  have hin := h.inside
  have hn96 : t.n ≤ 96 := by nlinarith
  constructor
  · have hw : wrap32 ((k + 2 ^ 32 * j : Nat) : Int) = k := by
      unfold wrap32
      push_cast
      omega
    simp only [evalRead, readOffset, if_neg (Nat.not_le.2 hn), if_pos hn', hL.cs64 x _ hv hn' (by exact_mod_cast h63), hw, readSub]
    rw [if_neg (by omega), getValAt_item h hb hb' b hk]
    rfl
  · exact if_pos ⟨rfl, by omega⟩

/-- **C71** fails for indices over 32 bits: the evaluator cannot store with them at all. -/
theorem C71_long_store_fails (L : Lib) (t : Ty) (p : Ptr) (x : Ix) (hn : 32 < x.n) (v : Int) :
    evalStore L t p x v = .abort := if_neg (Nat.not_le.2 hn)

theorem raw_nonneg {n : Nat} {v : Int} (h0 : 0 ≤ v) (h : v < 2 ^ n) : (raw n v : Int) = v := by
  unfold raw
  rw [Int.emod_eq_of_lt h0 h, Int.toNat_of_nonneg h0]

/-- **C71** (bytes of strings). An index up to 32 bits that is not negative gives its byte, or stops when there is none, in
both. Missing: negative numbers (`C71_string_negative_fails`), wider indices (`C71_string_long_fails`). -/
theorem C71_string_partial (len : Nat) (x : Ix) (hn : x.n ≤ 32) (i : Nat) (hv : In x i) :
    (i < len → evalByte len x i = .ok i ∧ genByte len x i = some i) ∧
    (len ≤ i → evalByte len x i = .refused ∧ genByte len x i = none) := by
  have hlt : (i : Int) < 2 ^ x.n := by
    have := hv.2
    split_ifs at this
    · have h2 : (2 : Int) ^ (x.n - 1) ≤ 2 ^ x.n := by
        exact_mod_cast Nat.pow_le_pow_right (by norm_num) (Nat.sub_le _ _)
      omega
    · exact this.2
  have hr : raw x.n i = i := by exact_mod_cast raw_nonneg (by omega) hlt
  have h32 : (2 : Int) ^ x.n ≤ 2 ^ 32 := by exact_mod_cast Nat.pow_le_pow_right (by norm_num) hn
  have hm : (i : Int) % 2 ^ 32 = i := Int.emod_eq_of_lt (by omega) (by omega)
  refine ⟨fun h => ?_, fun h => ?_⟩
  · constructor
    · simp only [evalByte, if_pos hn, hr]; exact if_neg (by omega)
    · simp only [genByte, if_pos hn, hm]; exact if_neg (by omega)
  · constructor
    · simp only [evalByte, if_pos hn, hr]; exact if_pos (by omega)
    · simp only [genByte, if_pos hn, hm]; exact if_pos (by omega)

/-- **C71** fails for negative indices of strings: `s[-k]` with an `Int(n)` is byte `2^n - k` to the evaluator, when the string
is that long; the generated program stops when the string is shorter than 2^31. -/
theorem C71_string_negative_fails (n k len : Nat) (hn : n ≤ 32) (hk : 0 < k) (hv : In ⟨true, n⟩ (-k)) (hlen : 2 ^ n - k < len)
    (hmax : len < 2 ^ 31) :
    evalByte len ⟨true, n⟩ (-k) = .ok ((2 ^ n - k : Nat) : Int) ∧ genByte len ⟨true, n⟩ (-k) = none := by
  have h1 := hv.2
  simp only [if_true] at h1
  have h0 : 0 < n := hv.1
  have hp : (2 : Nat) ^ n = 2 * 2 ^ (n - 1) := by rw [← pow_succ']; congr 1; omega
  have hk' : k ≤ 2 ^ (n - 1) := by have := h1.1; exact_mod_cast (by linarith : (k : Int) ≤ 2 ^ (n - 1))
  have h32 : 2 ^ (n - 1) ≤ 2 ^ 31 := Nat.pow_le_pow_right (by norm_num) (by omega)
  have hraw : raw n (-k) = 2 ^ n - k := by
    unfold raw
    have : (-(k : Int)) % 2 ^ n = ((2 ^ n - k : Nat) : Int) := by
      rw [← Int.add_emod_right]
      have e : (-(k : Int) + 2 ^ n) = ((2 ^ n - k : Nat) : Int) := by
        rw [Nat.cast_sub (by omega)]; push_cast; ring
      rw [e]
      refine Int.emod_eq_of_lt (by positivity) ?_
      have : 2 ^ n - k < 2 ^ n := Nat.sub_lt (by positivity) hk
      exact_mod_cast this
    rw [this]; rfl
  constructor
  · simp only [evalByte, if_pos hn, hraw]
    exact if_neg (by omega)
  · have hm : (-(k : Int)) % 2 ^ 32 = 2 ^ 32 - k := by omega
    simp only [genByte, if_pos hn, hm]
    exact if_pos (by omega)

/-- **C71** fails for indices of strings over 32 bits: the evaluator cannot take them, and the generated program lets every
negative one pass. -/
theorem C71_string_long_fails (len n k : Nat) (hn : 32 < n) (hk : 0 < k) :
    evalByte len ⟨true, n⟩ (-k) = .abort ∧ genByte len ⟨true, n⟩ (-k) = some (-k : Int) := by
  refine ⟨if_neg (by simp; omega), ?_⟩
  simp only [genByte]
  rw [if_neg (by simp; omega), if_neg (by omega)]

/-! ## Cases meeting the hypotheses -/

/-- A library that is as asked. -/
def refLib : Lib where
  cs32 x d := if x.signed ∧ d ≥ 2 ^ (x.n - 1) then (d : Int) - 2 ^ x.n else d
  cs64 x d := if x.signed ∧ d ≥ 2 ^ (x.n - 1) then (d : Int) - 2 ^ x.n else d

theorem refLib_value (x : Ix) (v : Int) (hv : In x v) :
    (if x.signed ∧ raw x.n v ≥ 2 ^ (x.n - 1) then (raw x.n v : Int) - 2 ^ x.n else raw x.n v) = v := by
  obtain ⟨h0, h1⟩ := hv
  have hp : (2 : Int) ^ x.n = 2 * 2 ^ (x.n - 1) := by rw [← pow_succ']; congr 1; omega
  have hc : ((2 ^ (x.n - 1) : Nat) : Int) = 2 ^ (x.n - 1) := by push_cast; rfl
  have hpos : (0 : Int) < 2 ^ (x.n - 1) := by positivity
  cases hs : x.signed with
  | false =>
    simp only [hs] at h1
    have h1 : 0 ≤ v ∧ v < 2 ^ x.n := by simpa using h1
    simp only [Bool.false_eq_true, false_and, if_false]
    exact raw_nonneg h1.1 h1.2
  | true =>
    simp only [hs, if_true] at h1
    by_cases hv0 : 0 ≤ v
    · have hr := raw_nonneg (n := x.n) hv0 (by omega)
      rw [if_neg (by rintro ⟨-, h⟩; omega)]
      exact hr
    · have hr : (raw x.n v : Int) = v + 2 ^ x.n := by
        unfold raw
        rw [← Int.add_emod_right, Int.emod_eq_of_lt (by omega) (by omega), Int.toNat_of_nonneg (by omega)]
      rw [if_pos ⟨rfl, by omega⟩, hr]
      ring

theorem refLib_faithful : Faithful refLib :=
  ⟨fun x v hv _ _ => refLib_value x v hv, fun x v hv _ _ => refLib_value x v hv⟩

/-- Two items of four bits at bit 25. -/
example : Placed ⟨4, 2, false⟩ ⟨25, 8, .loadable, false⟩ := ⟨by decide, by decide, by decide, by decide, rfl⟩
example : In ⟨false, 2⟩ 2 := ⟨by decide, by decide⟩
example : In ⟨true, 33⟩ ((1 + 2 ^ 32 * 0 : Nat) : Int) := ⟨by decide, by decide⟩
example : In ⟨true, 40⟩ ((1 + 2 ^ 32 * 1 : Nat) : Int) := ⟨by decide, by decide⟩
example : In ⟨true, 4⟩ (-(1 : Nat)) := ⟨by decide, by decide⟩
example : genAccess true 2 4 25 2 = some 33 := by decide
example : genAccess false 2 4 25 (-1) = some 21 := by decide
example : constOk refLib 2 ⟨true, 2⟩ (-2) = true := by decide
example : constOk refLib 2 ⟨false, 2⟩ 3 = false := by decide
example : evalByte 20 ⟨true, 4⟩ (-1) = .ok 15 := by decide

end Ulam.Subscript
