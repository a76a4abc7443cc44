import Verif.Fold.Spec
import Mathlib.Tactic.Linarith
import Mathlib.Tactic.Ring
import Mathlib.Tactic.Positivity
import Mathlib.Tactic.SplitIfs
import Mathlib.Algebra.Order.Ring.Int
/-!
# Sizes and ranges (lemmas for C49)
-/
namespace Ulam.Fold
open Ulam.Types Ulam.Fold.Spec

/-- Base of a signedness. -/
def bs (s : Bool) : Base := if s then .int else .unsigned

/-- Symmetric range of a signed size, range of an unsigned size. -/
def Bound (s : Bool) (n : Nat) (v : Int) : Prop :=
  if s then -(2 : Int) ^ (n - 1) < v ∧ v < (2 : Int) ^ (n - 1) else 0 ≤ v ∧ v < (2 : Int) ^ n

/-- What folding keeps while nothing is capped. -/
structure Inv (x : Node) (s : Bool) (k : Nat) (v : Int) : Prop where
  base : x.base = bs s
  bits : x.bits = k
  pos : 1 ≤ x.own
  own : x.own ≤ k
  small : k ≤ 64
  value : x.value = v
  bound : Bound s x.own v

theorem pow_mono {a b : Nat} (h : a ≤ b) : (2 : Int) ^ a ≤ 2 ^ b := by
  exact_mod_cast Nat.pow_le_pow_right (by norm_num) h

theorem pow_succ_pred {n : Nat} (h : 1 ≤ n) : (2 : Int) ^ n = 2 * 2 ^ (n - 1) := by
  obtain ⟨m, rfl⟩ : ∃ m, n = m + 1 := ⟨n - 1, by omega⟩
  simp [pow_succ]; ring

theorem pow_pos' (n : Nat) : (0 : Int) < 2 ^ n := by positivity

theorem Bound.mono {s n m v} (h : Bound s n v) (hm : n ≤ m) : Bound s m v := by
  have h1 := pow_mono (show n - 1 ≤ m - 1 by omega)
  have h2 := pow_mono hm
  cases s <;> simp [Bound] at h ⊢ <;> omega

theorem Bound.toSigned {n v} (h : Bound false n v) : Bound true (n + 1) v := by
  have := pow_pos' n
  simp [Bound] at h ⊢; omega

theorem clamp_bound {s n v} (h : Bound s n v) : clamp (bs s) n v = v := by
  cases s <;> simp [Bound, clamp, bs] at h ⊢ <;> omega

theorem clamp_int_fits {n : Nat} {v : Int} (h : clamp .int n v = v) :
    -(2 : Int) ^ (n - 1) ≤ v ∧ v < (2 : Int) ^ (n - 1) := by
  have := pow_pos' (n - 1)
  simp only [clamp] at h; omega

theorem toRaw_cast (n : Nat) (v : Int) : ((toRaw n v % 2 ^ n : Nat) : Int) = v % (2 : Int) ^ n := by
  have hp := pow_pos' n
  have hr : 0 ≤ v % (2 : Int) ^ n := Int.emod_nonneg _ (by omega)
  have hl : v % (2 : Int) ^ n < 2 ^ n := Int.emod_lt_of_pos _ hp
  unfold toRaw
  rw [Nat.mod_eq_of_lt]
  · omega
  · zify; rw [Int.toNat_of_nonneg hr]; exact hl

theorem ofRaw_same {s n v} (hn : 1 ≤ n) (h : Bound s n v) : ofRaw (bs s) n (toRaw n v) = v := by
  have hp := pow_pos' n
  have h2 := pow_succ_pred hn
  have hc := toRaw_cast n v
  have hq : ((2 ^ n : Nat) : Int) = 2 ^ n := by norm_cast
  cases s
  · simp only [Bound, Bool.false_eq_true, if_false] at h
    simp only [ofRaw, bs, Bool.false_eq_true, if_false]
    rw [hc, Int.emod_eq_of_lt h.1 h.2]
  · simp only [Bound, if_true] at h
    simp only [ofRaw, bs, if_true]
    generalize toRaw n v % 2 ^ n = r at hc ⊢
    by_cases hv : 0 ≤ v
    · have he : v % (2 : Int) ^ n = v := Int.emod_eq_of_lt hv (by omega)
      rw [he] at hc
      split_ifs <;> omega
    · have he : v % (2 : Int) ^ n = v + 2 ^ n := by
        rw [← Int.add_emod_right v ((2 : Int) ^ n), Int.emod_eq_of_lt (by omega) (by omega)]
      rw [he] at hc
      split_ifs <;> omega

theorem toRaw_nonneg {s n v} (h : Bound s n v) (hv : 0 ≤ v) (m : Nat) (hm : n ≤ m) : toRaw n v = toRaw m v := by
  have hlt : v < 2 ^ n := by
    have := pow_mono (show n - 1 ≤ n by omega)
    cases s <;> simp [Bound] at h <;> omega
  have := pow_mono hm
  unfold toRaw
  rw [Int.emod_eq_of_lt hv hlt, Int.emod_eq_of_lt hv (by omega)]

/-- Reading an operand gives its value, unless it is a negative number held in fewer bits than are read. -/
theorem operand_exact {x s k v t m} (hx : Inv x s k v) (hb : Bound t m v) (hm : 1 ≤ m)
    (hraw : s = t → k = m → x.own = k ∨ 0 ≤ v) : operand x (bs t) m = v := by
  unfold operand
  split_ifs with hc
  · have hst : s = t := by
      have := hc.1; rw [hx.base] at this; revert this; cases s <;> cases t <;> simp [bs]
    have hkm : k = m := by rw [← hx.bits]; exact hc.2
    subst hst hkm
    rw [hx.value]
    rcases hraw rfl rfl with ho | hv
    · rw [ho]; exact ofRaw_same hm hb
    · rw [toRaw_nonneg hx.bound hv k hx.own]; exact ofRaw_same hm hb
  · rw [hx.value]; exact clamp_bound hb

/-- Zero is read as zero. -/
theorem ofRaw_zero (b : Base) (n m : Nat) : ofRaw b n (toRaw m 0) = 0 := by
  unfold toRaw ofRaw
  cases b <;> simp

theorem clamp_zero (b : Base) (n : Nat) : clamp b n 0 = 0 := by
  have := pow_pos' (n - 1)
  have := pow_pos' n
  cases b <;> simp only [clamp] <;> omega

theorem operand_zero {x : Node} (h : x.value = 0) (b : Base) (n : Nat) : operand x b n = 0 := by
  unfold operand
  rw [h]
  split_ifs
  · exact ofRaw_zero _ _ _
  · exact clamp_zero _ _

theorem wordSize_word {n : Nat} (h1 : 1 ≤ n) (h2 : n ≤ 64) : wordSize n = word n := by
  unfold wordSize word
  split_ifs <;> omega

/-- Sizes of both operands after conversion. -/
def conv (s other : Bool) (n : Nat) : Nat := if other && !s then n + 1 else n

/-- Size of the result when nothing is capped. -/
def need (op : Op) (a b : Nat) : Nat :=
  match op with
  | .add | .sub => max a b + 1
  | .mul => a + b
  | .div | .rem => max a b

theorem result_size {op s t n m} (hn : 1 ≤ n) (hn' : n ≤ 64) (hm : 1 ≤ m) (hm' : m ≤ 64)
    (h1 : conv s t n ≤ word n) (h2 : conv t s m ≤ word m)
    (h3 : need op (conv s t n) (conv t s m) ≤ word (max n m)) :
    resultBitsize op (bs s) n (bs t) m = some (need op (conv s t n) (conv t s m)) := by
  have wn := wordSize_word hn hn'
  have wm := wordSize_word hm hm'
  have hw : (if word n ≠ word m then (if word n > word m then word n else word m) else word n) = word (max n m) := by
    unfold word; split_ifs <;> omega
  cases s <;> cases t <;>
    simp only [conv, Bool.and_true, Bool.and_false, Bool.not_true, Bool.not_false, if_true, Bool.false_eq_true,
      if_false] at h1 h2 h3 ⊢ <;>
    simp only [resultBitsize, resultBitsizeCalc, calcBitsizeForResult, bs, bitsizeToInt, wn, wm, hw, if_true, if_false,
      Bool.false_eq_true, Option.map_some, Option.some.injEq, ne_eq, not_true, not_false_iff, reduceCtorEq,
      true_and, false_and, and_true, or_true, true_or, or_false, false_or, or_self] <;>
    cases op <;> simp only [need] at h3 ⊢ <;> split_ifs <;> omega

theorem resultBase_bs (s t : Bool) : resultBase (bs s) (bs t) = bs (s || t) := by
  cases s <;> cases t <;> simp [resultBase, resultSign, bs]

theorem convertSize_bs {x s k v} (hx : Inv x s k v) (t : Bool) (h : conv s t k ≤ word k) :
    convertSize (bs (s || t)) x = conv s t k := by
  have hk := wordSize_word (by have := hx.pos; have := hx.own; omega) hx.small
  cases s <;> cases t <;>
    simp only [convertSize, bs, conv, bitsizeToInt, hx.base, hx.bits, hk, Bool.or_false, Bool.or_true, if_true,
      Bool.false_eq_true, if_false, Bool.and_true, Bool.and_false, Bool.not_true, Bool.not_false] at h ⊢ <;>
    first | rfl | (split_ifs <;> omega)

/-- Values after conversion. -/
theorem Bound.conv {s n v} (h : Bound s n v) (t : Bool) : Bound (s || t) (conv s t n) v := by
  cases s <;> cases t <;> simp only [Fold.conv, Bool.and_true, Bool.and_false, Bool.not_true, Bool.not_false, if_true,
    Bool.false_eq_true, if_false, Bool.or_false, Bool.or_true] at h ⊢
  · exact h
  · exact h.toSigned
  · exact h
  · exact h

theorem log2_lt (v : Nat) : (v : Int) < 2 ^ (Nat.log2 v + 1) := by
  have : v < 2 ^ (Nat.log2 v + 1) := Nat.lt_log2_self
  exact_mod_cast this

theorem log2_le {v k : Nat} (h : v < 2 ^ (k + 1)) : Nat.log2 v ≤ k := by
  by_cases h0 : v = 0
  · subst h0; simp
  · exact Nat.lt_succ_iff.1 ((Nat.log2_lt h0).2 h)

end Ulam.Fold
