import Mathlib.Algebra.BigOperators.Ring.Finset
import Mathlib.Algebra.BigOperators.Field
import Mathlib.Algebra.Order.BigOperators.Group.Finset
import Mathlib.Algebra.Order.Field.Rat
import Mathlib.Data.Rat.Cast.Order
import Mathlib.Tactic.Ring
import Mathlib.Tactic.FieldSimp
import Mathlib.Tactic.Linarith
/-
Programs that draw random numbers. The native `Random.create(max)` (Random.ulam:20; MFM library, not in /repo) is taken to answer each
number below `max` with the same probability, independently of the draws before it, and to fail for 0.
-/
namespace Ulam.Chance

/-- A program that draws random numbers: it ends with an answer, fails, or draws a number below `max` and goes on. -/
inductive Rand (α : Type) : Type
  | done (a : α)
  | fail
  | draw (max : Nat) (k : Nat → Rand α)

namespace Rand
variable {α β : Type}

/-- One program after another. -/
def bind (t : Rand α) (k : α → Rand β) : Rand β :=
  match t with
  | .done a => k a
  | .fail => .fail
  | .draw m g => .draw m fun r => (g r).bind k

/-- A possible answer. -/
def Possible : Rand α → α → Prop
  | .done a, b => a = b
  | .fail, _ => False
  | .draw m g, b => ∃ r, r < m ∧ (g r).Possible b

/-- It cannot fail. -/
def Safe : Rand α → Prop
  | .done _ => True
  | .fail => False
  | .draw m g => 0 < m ∧ ∀ r, r < m → (g r).Safe

/-- The expected value of a quantity that depends on the answer. -/
def expect : Rand α → (α → ℚ) → ℚ
  | .done a, f => f a
  | .fail, _ => 0
  | .draw m g, f => (∑ r ∈ Finset.range m, (g r).expect f) / m

open Classical in
/-- The probability that the answer has a property. -/
noncomputable def prob (t : Rand α) (P : α → Prop) : ℚ := t.expect fun a => if P a then 1 else 0

theorem expect_bind (t : Rand α) (k : α → Rand β) (f : β → ℚ) : (t.bind k).expect f = t.expect fun a => (k a).expect f := by
  induction t with
  | done a => rfl
  | fail => rfl
  | draw m g ih => simp [bind, expect, ih]

theorem possible_bind (t : Rand α) (k : α → Rand β) (b : β) : (t.bind k).Possible b ↔ ∃ a, t.Possible a ∧ (k a).Possible b := by
  induction t with
  | done a => simp [bind, Possible]
  | fail => simp [bind, Possible]
  | draw m g ih =>
    simp only [bind, Possible, ih]
    constructor
    · rintro ⟨r, hr, a, ha, hb⟩; exact ⟨a, ⟨r, hr, ha⟩, hb⟩
    · rintro ⟨a, ⟨r, hr, ha⟩, hb⟩; exact ⟨r, hr, a, ha, hb⟩

theorem safe_bind (t : Rand α) (k : α → Rand β) (h : t.Safe) (hk : ∀ a, t.Possible a → (k a).Safe) : (t.bind k).Safe := by
  induction t with
  | done a => exact hk a rfl
  | fail => exact h
  | draw m g ih => exact ⟨h.1, fun r hr => ih r (h.2 r hr) fun a ha => hk a ⟨r, hr, ha⟩⟩

theorem expect_congr (t : Rand α) (f g : α → ℚ) (h : ∀ a, t.Possible a → f a = g a) : t.expect f = t.expect g := by
  induction t with
  | done a => exact h a rfl
  | fail => rfl
  | draw m k ih =>
    simp only [expect]
    rw [Finset.sum_congr rfl fun r hr => ih r fun a ha => h a ⟨r, Finset.mem_range.1 hr, ha⟩]

theorem expect_const (t : Rand α) (h : t.Safe) (c : ℚ) : (t.expect fun _ => c) = c := by
  induction t with
  | done a => rfl
  | fail => exact absurd h id
  | draw m k ih =>
    simp only [expect]
    rw [Finset.sum_congr rfl fun r hr => ih r (h.2 r (Finset.mem_range.1 hr))]
    have : (m : ℚ) ≠ 0 := by have := h.1; positivity
    simp [this]

theorem expect_add (t : Rand α) (f g : α → ℚ) : (t.expect fun a => f a + g a) = t.expect f + t.expect g := by
  induction t with
  | done a => rfl
  | fail => simp [expect]
  | draw m k ih => simp [expect, ih, Finset.sum_add_distrib, add_div]

theorem expect_mul (t : Rand α) (c : ℚ) (f : α → ℚ) : (t.expect fun a => c * f a) = c * t.expect f := by
  induction t with
  | done a => rfl
  | fail => simp [expect]
  | draw m k ih => simp [expect, ih, ← Finset.mul_sum, mul_div_assoc]

/-- Drawing one of `c + w` numbers: the first `w` and the others. -/
theorem expect_draw_split (w c : Nat) (A B : ℚ) (g : Nat → Rand α) (f : α → ℚ) (h : 0 < c + w)
    (hA : ∀ r, r < w → (g r).expect f = A) (hB : ∀ r, w ≤ r → (g r).expect f = B) :
    (Rand.draw (c + w) g).expect f = (w * A + c * B) / (c + w) := by
  simp only [expect]
  have : ∑ r ∈ Finset.range (c + w), (g r).expect f = w * A + c * B := by
    rw [Nat.add_comm, Finset.sum_range_add]
    rw [Finset.sum_congr rfl fun r hr => hA r (Finset.mem_range.1 hr)]
    rw [Finset.sum_congr rfl fun r (_ : r ∈ Finset.range c) => hB (w + r) (by omega)]
    simp
  rw [this]
  push_cast
  ring

theorem safe_bind_iff (t : Rand α) (k : α → Rand β) : (t.bind k).Safe ↔ t.Safe ∧ ∀ a, t.Possible a → (k a).Safe := by
  induction t with
  | done a => simp [bind, Safe, Possible]
  | fail => simp [bind, Safe]
  | draw m g ih =>
    simp only [bind, Safe, Possible, ih]
    constructor
    · rintro ⟨h1, h2⟩
      exact ⟨⟨h1, fun r hr => (h2 r hr).1⟩, fun a ⟨r, hr, ha⟩ => (h2 r hr).2 a ha⟩
    · rintro ⟨⟨h1, h2⟩, h3⟩
      exact ⟨h1, fun r hr => ⟨h2 r hr, fun a ha => h3 a ⟨r, hr, ha⟩⟩⟩

theorem bind_assoc {γ : Type} (t : Rand α) (k : α → Rand β) (l : β → Rand γ) : (t.bind k).bind l = t.bind fun a => (k a).bind l := by
  induction t with
  | done a => rfl
  | fail => rfl
  | draw m g ih => simp [Rand.bind, ih]

/-- Two programs that cannot be told apart by their answers. -/
structure Same (t u : Rand α) : Prop where
  expect : ∀ f, t.expect f = u.expect f
  possible : ∀ a, t.Possible a ↔ u.Possible a
  safe : t.Safe ↔ u.Safe

theorem Same.refl (t : Rand α) : Same t t := ⟨fun _ => rfl, fun _ => Iff.rfl, Iff.rfl⟩

theorem same_bind (t : Rand α) (k l : α → Rand β) (h : ∀ a, t.Possible a → Same (k a) (l a)) : Same (t.bind k) (t.bind l) := by
  refine ⟨fun f => ?_, fun a => ?_, ?_⟩
  · rw [expect_bind, expect_bind]
    exact expect_congr _ _ _ fun a ha => (h a ha).expect f
  · rw [possible_bind, possible_bind]
    exact ⟨fun ⟨x, hx, hy⟩ => ⟨x, hx, ((h x hx).possible a).1 hy⟩, fun ⟨x, hx, hy⟩ => ⟨x, hx, ((h x hx).possible a).2 hy⟩⟩
  · rw [safe_bind_iff, safe_bind_iff]
    exact ⟨fun ⟨h1, h2⟩ => ⟨h1, fun a ha => (h a ha).safe.1 (h2 a ha)⟩, fun ⟨h1, h2⟩ => ⟨h1, fun a ha => (h a ha).safe.2 (h2 a ha)⟩⟩

theorem expect_nonneg (t : Rand α) (f : α → ℚ) (h : ∀ a, 0 ≤ f a) : 0 ≤ t.expect f := by
  induction t with
  | done a => exact h a
  | fail => exact le_refl _
  | draw m g ih => exact div_nonneg (Finset.sum_nonneg fun r _ => ih r) (by positivity)

theorem expect_pos (t : Rand α) (f : α → ℚ) (h : ∀ a, 0 ≤ f a) (a : α) (ha : t.Possible a) (hf : 0 < f a) : 0 < t.expect f := by
  induction t with
  | done b => change b = a at ha; subst ha; exact hf
  | fail => exact absurd ha id
  | draw m g ih =>
    obtain ⟨r, hr, hp⟩ := ha
    have hm : (0 : ℚ) < m := by exact_mod_cast (by omega : 0 < m)
    refine div_pos (Finset.sum_pos' (fun q _ => expect_nonneg _ _ h) ⟨r, Finset.mem_range.2 hr, ih r hp⟩) hm

/-- What is possible has a positive probability. -/
theorem prob_pos (t : Rand α) (P : α → Prop) (a : α) (ha : t.Possible a) (hP : P a) : 0 < t.prob P := by
  unfold prob
  refine expect_pos t _ (fun b => by split <;> norm_num) a ha ?_
  rw [if_pos hP]; norm_num

end Rand
end Ulam.Chance
