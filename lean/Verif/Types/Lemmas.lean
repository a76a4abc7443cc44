import Verif.Types.Spec
import Mathlib.Tactic.Linarith
import Mathlib.Tactic.Ring
import Mathlib.Tactic.ByContra
import Mathlib.Tactic.Push
import Mathlib.Tactic.Positivity
/-! # Helper lemmas for casts and sizes -/
namespace Ulam.Types
open Spec

theorem ones_le (n : Nat) : ∀ r, ones n r ≤ n := by
  induction n with
  | zero => intro r; simp [ones]
  | succ n ih => intro r; have := ih (r / 2); simp only [ones]; omega

theorem ones_full (n : Nat) : ∀ k, k ≤ n → ones n (2 ^ k - 1) = k := by
  induction n with
  | zero => intro k hk; have : k = 0 := by omega
            subst this; rfl
  | succ n ih =>
    intro k hk
    cases k with
    | zero => simp only [ones]; have := ih 0 (by omega); simpa using this
    | succ k =>
      have h1 : 2 ^ (k + 1) - 1 = 2 * (2 ^ k - 1) + 1 := by
        have := Nat.one_le_two_pow (n := k); rw [Nat.pow_succ]; omega
      simp only [ones]
      rw [h1]
      have h2 : (2 * (2 ^ k - 1) + 1) / 2 = 2 ^ k - 1 := by omega
      rw [h2, ih k (by omega)]
      omega

theorem pow_pred {n : Nat} (h : 1 ≤ n) : (2 : Nat) ^ n = 2 * 2 ^ (n - 1) := by
  obtain ⟨m, rfl⟩ : ∃ m, n = m + 1 := ⟨n - 1, by omega⟩
  rw [Nat.pow_succ]; simp; omega

theorem twos_range {n raw : Nat} (h1 : 1 ≤ n) (h : raw < 2 ^ n) :
    -(2 : Int) ^ (n - 1) ≤ twos n raw ∧ twos n raw < (2 : Int) ^ (n - 1) := by
  have hp := pow_pred h1
  have hpi : (2 : Int) ^ n = 2 * 2 ^ (n - 1) := by exact_mod_cast hp
  have hc : ((2 ^ (n - 1) : Nat) : Int) = 2 ^ (n - 1) := by simp
  unfold twos
  split
  · constructor
    · have : (0 : Int) ≤ 2 ^ (n - 1) := by positivity
      omega
    · omega
  · rw [hpi]; constructor <;> omega

theorem twos_surj {n : Nat} {v : Int} (h1 : 1 ≤ n) (hl : -(2 : Int) ^ (n - 1) ≤ v) (hu : v < (2 : Int) ^ (n - 1)) :
    ∃ raw, raw < 2 ^ n ∧ twos n raw = v := by
  have hp := pow_pred h1
  have hpi : (2 : Int) ^ n = 2 * 2 ^ (n - 1) := by exact_mod_cast hp
  have hc : ((2 ^ (n - 1) : Nat) : Int) = 2 ^ (n - 1) := by simp
  by_cases h0 : 0 ≤ v
  · refine ⟨v.toNat, by omega, ?_⟩
    unfold twos; rw [if_pos (by omega)]; omega
  · refine ⟨(v + 2 ^ n).toNat, by omega, ?_⟩
    unfold twos; rw [if_neg (by omega)]; omega

theorem number_range {b : Base} {n raw : Nat} (hb : Numeric b) (h1 : 1 ≤ n) (h : raw < 2 ^ n) :
    InRange b n (number b n raw) := by
  rcases hb with rfl | rfl | rfl
  · exact twos_range h1 h
  · simp only [InRange, number]; exact ⟨by omega, by exact_mod_cast h⟩
  · simp only [InRange, number]; exact ⟨by omega, by exact_mod_cast ones_le n raw⟩

theorem number_surj {b : Base} {n : Nat} {v : Int} (hb : Numeric b) (h1 : 1 ≤ n) (h : InRange b n v) :
    ∃ raw, raw < 2 ^ n ∧ number b n raw = v := by
  rcases hb with rfl | rfl | rfl
  · exact twos_surj h1 h.1 h.2
  · obtain ⟨h0, h2⟩ := h
    have hc : ((2 ^ n : Nat) : Int) = 2 ^ n := by simp
    exact ⟨v.toNat, by omega, by simp only [number]; omega⟩
  · obtain ⟨h0, h2⟩ := h
    refine ⟨2 ^ v.toNat - 1, ?_, ?_⟩
    · have : 2 ^ v.toNat ≤ 2 ^ n := Nat.pow_le_pow_right (by omega) (by omega)
      have := Nat.one_le_two_pow (n := v.toNat)
      omega
    · simp only [number]
      rw [ones_full n v.toNat (by omega)]; omega

/-- The rule for two numeric base types. -/
def numFrom (tb : Base) (t : Nat) (fb : Base) (n : Nat) : Bool :=
  match tb with
  | .int => intFrom t fb n
  | .unsigned => unsignedFrom t fb n
  | .unary => unaryFrom t fb n
  | _ => false

theorem ipow_le {a b : Nat} (h : a ≤ b) : (2 : Int) ^ a ≤ 2 ^ b := by
  exact_mod_cast Nat.pow_le_pow_right (by omega) h

theorem ipow_le_iff {a b : Nat} : (2 : Int) ^ a ≤ 2 ^ b ↔ a ≤ b := by
  constructor
  · intro h
    have : (2 : Nat) ^ a ≤ 2 ^ b := by exact_mod_cast h
    exact (Nat.pow_le_pow_iff_right (by omega)).1 this
  · exact ipow_le

theorem log_lt_iff {n k : Nat} (hn : 1 ≤ n) : Nat.log2 n < k ↔ (n : Int) < (2 : Int) ^ k := by
  rw [Nat.log2_lt (by omega)]
  constructor <;> intro h <;> exact_mod_cast h

theorem numFrom_iff {tb fb : Base} {t n : Nat} (ht : Numeric tb) (hf : Numeric fb) (h1 : 1 ≤ t) (hn : 1 ≤ n) :
    numFrom tb t fb n = true ↔ ∀ v, InRange fb n v → InRange tb t v := by
  have hpos : ∀ k : Nat, (0 : Int) < 2 ^ k := fun k => by positivity
  rcases ht with rfl | rfl | rfl <;> rcases hf with rfl | rfl | rfl <;>
    simp only [numFrom, intFrom, unsignedFrom, unaryFrom, InRange, decide_eq_true_eq]
  · constructor
    · intro h v hv
      have := ipow_le (show n - 1 ≤ t - 1 by omega)
      omega
    · intro h
      have := (h (-(2 : Int) ^ (n - 1)) ⟨le_refl _, by have := hpos (n-1); omega⟩).1
      have h2 := ipow_le_iff.1 (show (2 : Int) ^ (n - 1) ≤ 2 ^ (t - 1) by omega)
      omega
  · constructor
    · intro h v hv
      have := ipow_le (show n ≤ t - 1 by omega)
      have := hpos (t-1)
      omega
    · intro h
      have := (h ((2 : Int) ^ n - 1) ⟨by have := hpos n; omega, by omega⟩).2
      have h2 := ipow_le_iff.1 (show (2 : Int) ^ n ≤ 2 ^ (t - 1) by omega)
      omega
  · have := log_lt_iff (k := t - 1) hn
    have := hpos (t - 1)
    constructor
    · intro h v hv
      omega
    · intro h
      have := (h n ⟨by omega, by omega⟩).2
      omega
  · constructor
    · intro h; simp at h
    · intro h
      have := (h (-1) ⟨by have := hpos (n-1); omega, by have := hpos (n-1); omega⟩).1
      omega
  · constructor
    · intro h v hv
      have := ipow_le h
      omega
    · intro h
      have := (h ((2 : Int) ^ n - 1) ⟨by have := hpos n; omega, by omega⟩).2
      exact ipow_le_iff.1 (show (2 : Int) ^ n ≤ 2 ^ t by omega)
  · have := log_lt_iff (k := t) hn
    constructor
    · intro h v hv
      omega
    · intro h
      have := (h n ⟨by omega, by omega⟩).2
      omega
  · constructor
    · intro h; simp at h
    · intro h
      have := (h (-1) ⟨by have := hpos (n-1); omega, by have := hpos (n-1); omega⟩).1
      omega
  · have hc : ((2 ^ n : Nat) : Int) = 2 ^ n := by simp
    have := hpos n
    unfold unsignedMax
    constructor
    · intro h v hv
      omega
    · intro h
      have := (h ((2 : Int) ^ n - 1) ⟨by omega, by omega⟩).2
      omega
  · constructor
    · intro h v hv; omega
    · intro h
      have := (h n ⟨by omega, by omega⟩).2
      omega

end Ulam.Types
