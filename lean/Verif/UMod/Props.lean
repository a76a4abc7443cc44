import Verif.UMod.Model
import Mathlib.Tactic.Linarith
import Mathlib.Tactic.Ring
/-! # C40: the wrap-around counter -/
namespace Ulam.UMod
variable (p : Params)

/-- The sizes UMod.ulam:4 says it supports, and its parameter type: 2 to 31 bits, dead band parameter up to 16. -/
structure Good (p : Params) : Prop where
  lo : 2 ≤ p.bits
  hi : p.bits ≤ 31
  dead : p.deadbits ≤ 16

/-- Half the counter, rounded down. -/
def half (p : Params) : Nat := 2 ^ (p.bits - 1) - 1

/-- Whether a distance is in the dead band, as documented (UMod.ulam:7-12): within `2^deadbits - 1` of half the counter. The upper
end is left out, as for the comparison. -/
def InDeadBand (p : Params) (d : Nat) : Prop := half p - (2 ^ p.deadbits - 1) ≤ d ∧ d < half p + (2 ^ p.deadbits - 1)

theorem pow_split (p : Params) (g : Good p) : 2 ^ p.bits = 2 * 2 ^ (p.bits - 1) ∧ 2 ≤ 2 ^ (p.bits - 1) ∧ 2 ^ p.bits ≤ 2 ^ 31 := by
  obtain ⟨b, hb⟩ : ∃ b, p.bits = b + 2 := ⟨p.bits - 2, by have := g.lo; omega⟩
  rw [hb]
  have h : b + 2 - 1 = b + 1 := by omega
  rw [h]
  refine ⟨by ring, ?_, ?_⟩
  · have : 1 ≤ 2 ^ b := Nat.one_le_two_pow
    rw [pow_succ]; omega
  · exact Nat.pow_le_pow_right (by omega) (by have := g.hi; omega)

theorem toUnsigned_of (b : Nat) (x : Nat) (h : x < 2 ^ b) : toUnsigned b x = x := by
  unfold toUnsigned
  have h1 : (1 : Int) ≤ 2 ^ b := by exact_mod_cast Nat.one_le_two_pow
  have h2 : (x : Int) < 2 ^ b := by exact_mod_cast h
  rw [max_eq_left (by omega), min_eq_left (by omega)]
  simp

theorem cuts (g : Good p) : midpoint p = half p ∧
    (∀ d, d < 2 ^ p.bits → (d < lowerCut p ↔ d < half p - (2 ^ p.deadbits - 1))) ∧
    (∀ d, d < 2 ^ p.bits - 1 → (d ≥ upperCut p ↔ d ≥ half p + (2 ^ p.deadbits - 1))) ∧ 1 ≤ upperCut p ∧ lowerCut p ≤ upperCut p := by
  obtain ⟨h1, h2, h3⟩ := pow_split p g
  have e31 : (2:Nat)^31 = 2147483648 := by norm_num
  have hd : 2 ^ p.deadbits ≤ 2 ^ 16 := Nat.pow_le_pow_right (by omega) g.dead
  have hd1 : 1 ≤ 2 ^ p.deadbits := Nat.one_le_two_pow
  have e16 : (2:Nat)^16 = 65536 := by norm_num
  have e32 : (2:Nat)^32 = 4294967296 := by norm_num
  have hm : midpoint p = half p := by
    unfold midpoint maxof half
    rw [toUnsigned_of _ _ (by omega)]
    omega
  have hsp : toUnsigned 32 (2 ^ p.deadbits) = 2 ^ p.deadbits := by
    have := toUnsigned_of 32 (2 ^ p.deadbits) (by omega)
    simpa using this
  have hp : ((2:Int) ^ p.bits) = ((2 ^ p.bits : Nat) : Int) := by push_cast; ring
  have hs : deadSpread p = min (2 ^ p.deadbits - 1) (2 ^ p.bits - 1) := by
    unfold deadSpread
    rw [hsp]
    unfold toUnsigned
    rw [hp]
    omega
  have hl : lowerCut p = half p - min (2 ^ p.deadbits - 1) (2 ^ p.bits - 1) := by
    unfold lowerCut
    rw [hm, hs]
    unfold toUnsigned half
    rw [hp]
    omega
  have hu : upperCut p = min (half p + min (2 ^ p.deadbits - 1) (2 ^ p.bits - 1)) (2 ^ p.bits - 1) := by
    unfold upperCut
    rw [hm, hs]
    unfold toUnsigned half
    rw [hp]
    omega
  refine ⟨hm, ?_, ?_, ?_, ?_⟩
  · intro d hd; rw [hl]; unfold half; omega
  · intro d hd; rw [hu]; unfold half; omega
  · rw [hu]; unfold half; omega
  · rw [hl, hu]; unfold half; omega

/-- **C40.** Exactly one of less, equal and greater holds, for every size, dead band and pair of values. -/
theorem C40_trichotomy (g : Good p) (a b : Nat) :
    (isLess p a b = true ∧ isEqual a b = false ∧ isGreater p a b = false) ∨
    (isLess p a b = false ∧ isEqual a b = true ∧ isGreater p a b = false) ∨
    (isLess p a b = false ∧ isEqual a b = false ∧ isGreater p a b = true) := by
  obtain ⟨_, _, _, h, _⟩ := cuts p g
  unfold isGreater isEqual
  by_cases e : a = b
  · subst e
    have : isLess p a a = false := by
      unfold isLess
      rw [if_neg (by omega)]
      simp only [decide_eq_false_iff_not]
      omega
    simp [this]
  · simp only [e, decide_false]
    cases isLess p a b <;> simp

example : Good ⟨4, 1⟩ ∧ isLess ⟨4, 1⟩ 3 5 = true ∧ isGreater ⟨4, 1⟩ 13 3 = false := by
  exact ⟨⟨by decide, by decide, by decide⟩, by decide, by decide⟩

/-- **C40.** Every value equals itself only; the remaining comparisons are the negations one expects. -/
theorem C40_other_comparisons (g : Good p) (a b : Nat) :
    (isLessEqual p a b = true ↔ isLess p a b = true ∨ a = b) ∧ (isGreaterEqual p a b = true ↔ isGreater p a b = true ∨ a = b) ∧
    (isNotEqual a b = true ↔ a ≠ b) := by
  have t := C40_trichotomy p g a b
  have e : isEqual a b = true ↔ a = b := by simp [isEqual]
  unfold isLessEqual isGreaterEqual isNotEqual
  rw [← e]
  simp only [ne_eq, Bool.not_eq_true', Bool.not_eq_true] at *
  rcases t with ⟨h1, h2, h3⟩ | ⟨h1, h2, h3⟩ | ⟨h1, h2, h3⟩ <;> rw [h1, h2, h3] <;> simp
  all_goals (rw [← e, h2]; try simp)

/-- **C40**, outside the dead band: one value is less than another exactly when the other is greater than it; which of them depends
only on whether their distance is below or above half the counter. With no dead band (the default), that is every pair; with one, it
fails inside it (`C40_dead_band_fails`). The distance 2^bits - 1, between the two ends, is left out: incrementing never reaches
the upper one. -/
theorem C40_antisymmetric_partial (g : Good p) (a b : Nat) (ha : a < 2 ^ p.bits) (hb : b < 2 ^ p.bits)
    (hd : ¬ InDeadBand p (max a b - min a b)) (hm : max a b - min a b ≠ 2 ^ p.bits - 1) :
    (isLess p a b = true ↔ isGreater p b a = true) ∧
    (a < b → (isLess p a b = true ↔ b - a < half p)) := by
  obtain ⟨_, hl, hu, h1, h2⟩ := cuts p g
  have hd1 : 1 ≤ 2 ^ p.deadbits := Nat.one_le_two_pow
  have t := C40_trichotomy p g b a
  unfold InDeadBand at hd
  rcases Nat.lt_trichotomy a b with h | h | h
  · have l := hl (b - a) (by omega)
    have u := hu (b - a) (by omega)
    have x : isLess p a b = true ↔ b - a < lowerCut p := by unfold isLess; rw [if_pos h]; simp
    have y : isLess p b a = true ↔ b - a ≥ upperCut p := by unfold isLess; rw [if_neg (by omega)]; simp
    have z : isGreater p b a = true ↔ ¬ isLess p b a = true := by
      unfold isGreater isEqual
      have : b ≠ a := by omega
      simp [this]
    rw [z, y, x, l, u]
    rw [Nat.max_eq_right (by omega), Nat.min_eq_left (by omega)] at hd
    exact ⟨by omega, fun _ => by omega⟩
  · subst h
    refine ⟨?_, fun h => absurd h (Nat.lt_irrefl _)⟩
    have : isEqual a a = true := by simp [isEqual]
    rcases t with ⟨t1, t2, t3⟩ | ⟨t1, t2, t3⟩ | ⟨t1, t2, t3⟩
    · rw [this] at t2; cases t2
    · rw [t1, t3]
    · rw [this] at t2; cases t2
  · have l := hl (a - b) (by omega)
    have u := hu (a - b) (by omega)
    have x : isLess p b a = true ↔ a - b < lowerCut p := by unfold isLess; rw [if_pos h]; simp
    have y : isLess p a b = true ↔ a - b ≥ upperCut p := by unfold isLess; rw [if_neg (by omega)]; simp
    have z : isGreater p b a = true ↔ ¬ isLess p b a = true := by
      unfold isGreater isEqual
      have : b ≠ a := by omega
      simp [this]
    rw [z, y, x, l, u]
    rw [Nat.max_eq_left (by omega), Nat.min_eq_right (by omega)] at hd
    exact ⟨by omega, fun q => by omega⟩

example : ¬ InDeadBand ⟨4, 0⟩ (max 3 12 - min 3 12) ∧ isLess ⟨4, 0⟩ 12 3 = true ∧ isLess ⟨4, 0⟩ 3 12 = false := by
  refine ⟨?_, by decide, by decide⟩
  unfold InDeadBand half; simp

/-- **C40.** Without a dead band the comparison is antisymmetric for every pair. -/
theorem C40_antisymmetric_without_dead_band (g : Good p) (h0 : p.deadbits = 0) (a b : Nat) (ha : a < 2 ^ p.bits) (hb : b < 2 ^ p.bits) :
    isLess p a b = true ↔ isGreater p b a = true := by
  obtain ⟨h1, h2, h3⟩ := pow_split p g
  by_cases hm : max a b - min a b = 2 ^ p.bits - 1
  · obtain ⟨_, hl, hu, h4, h5⟩ := cuts p g
    have t := C40_trichotomy p g b a
    have hu' : upperCut p ≤ 2 ^ p.bits - 1 := by
      have := hu (half p) (by unfold half; omega)
      rw [h0] at this
      unfold half at this
      omega
    have hl' : lowerCut p < 2 ^ p.bits - 1 := by
      by_contra q
      have := hl (half p) (by unfold half; omega)
      rw [h0] at this
      unfold half at this q
      omega
    have e : b ≠ a := by omega
    have z : isGreater p b a = true ↔ ¬ isLess p b a = true := by
      unfold isGreater isEqual; simp [e]
    rw [z]
    unfold isLess
    rcases Nat.lt_or_ge a b with h | h
    · rw [if_pos h, if_neg (by omega)]
      simp only [decide_eq_true_eq]
      omega
    · rw [if_neg (by omega), if_pos (by omega)]
      simp only [decide_eq_true_eq]
      omega
  · refine (C40_antisymmetric_partial p g a b ha hb ?_ hm).1
    unfold InDeadBand
    rw [h0]; omega

/-- **C40** fails in the dead band: each of the two values is greater than the other. -/
theorem C40_dead_band_fails (g : Good p) (a b : Nat) (hab : a < b) (hb : b < 2 ^ p.bits - 1) (hd : InDeadBand p (b - a)) :
    isGreater p a b = true ∧ isGreater p b a = true := by
  obtain ⟨_, hl, hu, h1, h2⟩ := cuts p g
  have l := hl (b - a) (by omega)
  have u := hu (b - a) (by omega)
  unfold InDeadBand at hd
  have e1 : a ≠ b := by omega
  have e2 : b ≠ a := by omega
  unfold isGreater isEqual isLess
  rw [if_pos hab, if_neg (by omega)]
  simp only [e1, e2, decide_false, Bool.not_false, Bool.true_and, Bool.not_eq_true', decide_eq_false_iff_not]
  omega

/-- **C40** fails for `isComparable`: it is true for every pair, also in the dead band, where it is documented to be false. -/
theorem C40_isComparable_fails (a b : Nat) : isComparable p a b = true := by
  unfold isComparable isGreaterEqual
  cases isLess p a b <;> rfl

example : Good ⟨4, 2⟩ ∧ InDeadBand ⟨4, 2⟩ (8 - 1) ∧ 8 < 2 ^ 4 - 1 := by
  refine ⟨⟨by decide, by decide, by decide⟩, ?_, by decide⟩
  unfold InDeadBand half; simp

/-! ### Increment and decrement -/

theorem increment_eq (g : Good p) (v k : Nat) (hv : v < 2 ^ p.bits) (hk : k < 2 ^ p.bits) :
    increment p v k = (v + k) % (2 ^ p.bits - 1) := by
  obtain ⟨h1, h2, h3⟩ := pow_split p g
  have e31 : (2:Nat)^31 = 2147483648 := by norm_num
  have e32 : (2:Nat)^32 = 4294967296 := by norm_num
  unfold increment maxof
  have : toUnsigned 32 ((v : Int) + k) = v + k := by
    have := toUnsigned_of 32 (v + k) (by omega)
    push_cast at this
    exact this
  rw [this]
  have hlt := Nat.mod_lt (v + k) (show 2 ^ p.bits - 1 > 0 by omega)
  exact toUnsigned_of _ _ (by omega)

theorem decrement_eq (g : Good p) (v k : Nat) (hv : v < 2 ^ p.bits) (hk : k < 2 ^ p.bits) :
    decrement p v k = (v + (2 ^ p.bits - 1 - k)) % (2 ^ p.bits - 1) := by
  unfold decrement maxof
  have h : ((2 ^ p.bits - 1 : Nat) : Int) - k = ((2 ^ p.bits - 1 - k : Nat) : Int) := by
    have := Nat.one_le_two_pow (n := p.bits)
    omega
  rw [h, toUnsigned_of _ _ (by omega), increment_eq p g v _ hv (by omega)]

/-- **C40**, for the values a counter takes by counting (all but the largest): decrementing undoes incrementing and incrementing
undoes decrementing, by any amount, and the counter stays among those values; incrementing one by one goes through all of them in
turn. (The largest value, which can be set, is left out: `C40_largest_value_fails`.) -/
theorem C40_increment_decrement_partial (g : Good p) (v k : Nat) (hv : v < 2 ^ p.bits - 1) (hk : k < 2 ^ p.bits) :
    decrement p (increment p v k) k = v ∧ increment p (decrement p v k) k = v ∧ increment p v k < 2 ^ p.bits - 1 ∧
    decrement p v k < 2 ^ p.bits - 1 ∧ increment p v 1 = if v + 1 = 2 ^ p.bits - 1 then 0 else v + 1 := by
  obtain ⟨h1, h2, h3⟩ := pow_split p g
  have m0 : 2 ^ p.bits - 1 > 0 := by omega
  have hi := increment_eq p g v k (by omega) hk
  have hd := decrement_eq p g v k (by omega) hk
  have li : increment p v k < 2 ^ p.bits - 1 := by rw [hi]; exact Nat.mod_lt _ m0
  have ld : decrement p v k < 2 ^ p.bits - 1 := by rw [hd]; exact Nat.mod_lt _ m0
  refine ⟨?_, ?_, li, ld, ?_⟩
  · rw [decrement_eq p g _ k (by omega) hk, hi, Nat.mod_add_mod]
    have : v + k + (2 ^ p.bits - 1 - k) = v + (2 ^ p.bits - 1) := by omega
    rw [this, Nat.add_mod_right, Nat.mod_eq_of_lt hv]
  · rw [increment_eq p g _ k (by omega) hk, hd, Nat.mod_add_mod]
    have : v + (2 ^ p.bits - 1 - k) + k = v + (2 ^ p.bits - 1) := by omega
    rw [this, Nat.add_mod_right, Nat.mod_eq_of_lt hv]
  · rw [increment_eq p g v 1 (by omega) (by omega)]
    split
    · rename_i h; rw [h, Nat.mod_self]
    · exact Nat.mod_eq_of_lt (by omega)

example : increment ⟨4, 0⟩ 14 1 = 0 ∧ decrement ⟨4, 0⟩ 0 1 = 14 := by decide

/-- **C40** fails for the largest value: incrementing and decrementing it gives zero. -/
theorem C40_largest_value_fails (g : Good p) : decrement p (increment p (maxof p) 1) 1 = 0 ∧ maxof p ≠ 0 := by
  obtain ⟨h1, h2, h3⟩ := pow_split p g
  have m0 : 2 ^ p.bits - 1 > 1 := by omega
  refine ⟨?_, by unfold maxof; omega⟩
  unfold maxof
  rw [increment_eq p g _ 1 (by omega) (by omega)]
  have : (2 ^ p.bits - 1 + 1) % (2 ^ p.bits - 1) = 1 := by rw [Nat.add_mod_left, Nat.mod_eq_of_lt m0]
  rw [this, decrement_eq p g 1 1 (by omega) (by omega)]
  have : 1 + (2 ^ p.bits - 1 - 1) = 2 ^ p.bits - 1 := by omega
  rw [this, Nat.mod_self]

/-- **C40.** "One less" and "one more" agree with incrementing, for the values a counter takes by counting. -/
theorem C40_neighbours (g : Good p) (a b : Nat) (ha : a < 2 ^ p.bits - 1) (hb : b < 2 ^ p.bits - 1) :
    (isOneLessThan p a b = true ↔ b = increment p a 1) ∧ (isOneMoreThan p a b = true ↔ a = increment p b 1) := by
  obtain ⟨h1, h2, h3⟩ := pow_split p g
  obtain ⟨x1, _, _, _, _⟩ := C40_increment_decrement_partial p g a 1 ha (by omega)
  obtain ⟨_, y2, _, _, _⟩ := C40_increment_decrement_partial p g b 1 hb (by omega)
  unfold isOneLessThan isOneMoreThan isEqual
  simp only [decide_eq_true_eq]
  refine ⟨⟨?_, ?_⟩, trivial⟩
  · intro h; rw [h, y2]
  · intro h; rw [h, x1]

/-- **C40** fails as a wrap-around comparison: without a dead band, stepping both counters on by one can turn "less" around. Two
values that are half the counter apart compare one way, and the other way after the larger one wraps to zero. -/
theorem C40_not_rotation_invariant (g : Good p) (h0 : p.deadbits = 0) :
    isLess p (half p) (2 ^ p.bits - 2) = false ∧ increment p (2 ^ p.bits - 2) 1 = 0 ∧
    isLess p (increment p (half p) 1) (increment p (2 ^ p.bits - 2) 1) = true := by
  obtain ⟨h1, h2, h3⟩ := pow_split p g
  obtain ⟨_, hl, hu, _, _⟩ := cuts p g
  rw [h0] at hl hu
  have e1 : increment p (2 ^ p.bits - 2) 1 = 0 := by
    rw [increment_eq p g _ 1 (by omega) (by omega)]
    have : 2 ^ p.bits - 2 + 1 = 2 ^ p.bits - 1 := by omega
    rw [this, Nat.mod_self]
  have e2 : increment p (half p) 1 = half p + 1 := by
    rw [increment_eq p g _ 1 (by unfold half; omega) (by omega)]
    exact Nat.mod_eq_of_lt (by unfold half; omega)
  refine ⟨?_, e1, ?_⟩
  · unfold isLess
    rw [if_pos (by unfold half; omega)]
    have := hl (2 ^ p.bits - 2 - half p) (by omega)
    simp only [decide_eq_false_iff_not, this]
    unfold half; omega
  · rw [e1, e2]
    unfold isLess
    rw [if_neg (by omega)]
    have := hu (half p + 1 - 0) (by unfold half; omega)
    simp only [decide_eq_true_eq, this]
    omega

end Ulam.UMod
