import Verif.Chance.Spec
/-! # C46, C60: the random number service -/
namespace Ulam.Chance
open Spec

theorem satI32 (x : Int) : satI 32 x = max (-2147483648) (min x 2147483647) := by
  unfold satI; norm_num

theorem create_possible (m r : Nat) : (create m).Possible r ↔ r < m := by
  unfold create
  split
  · rename_i h; subst h; simp [Rand.Possible]
  · simp [Rand.Possible]

theorem create_safe (m : Nat) (h : 0 < m) : (create m).Safe := by
  unfold create; rw [if_neg (by omega)]; exact ⟨h, fun _ _ => trivial⟩

theorem create_expect (m : Nat) (f : Nat → ℚ) : (create m).expect f = (∑ r ∈ Finset.range m, f r) / m := by
  unfold create
  split
  · rename_i h; subst h; simp [Rand.expect]
  · rfl

/-- How many numbers `between` draws from: the size of the range, but at most 2^31 - 1. -/
def spread (lo hi : Int) : Nat := min (hi - lo + 1).toNat 2147483647

theorem betweenOrdered_eq (lo hi : Int) (h : lo ≤ hi) (h1 : -2147483648 ≤ lo) (h2 : hi ≤ 2147483647) :
    ∀ f, (betweenOrdered lo hi).expect f = (∑ r ∈ Finset.range (spread lo hi), f (lo + r)) / (spread lo hi) := by
  intro f
  unfold betweenOrdered
  rw [Rand.expect_bind]
  have e : satI 32 (satI 32 (hi - lo) + 1) = (spread lo hi : Int) := by
    simp only [satI32]; unfold spread; omega
  rw [e]
  unfold createInt
  have hs : 0 < spread lo hi := by unfold spread; omega
  rw [if_neg (by omega), Int.toNat_natCast, create_expect]
  congr 1
  refine Finset.sum_congr rfl fun r hr => ?_
  have hr' := Finset.mem_range.1 hr
  have : satI 32 (lo + satI 32 r) = lo + r := by
    simp only [satI32]; unfold spread at hr'; omega
  rw [this]; rfl

theorem betweenOrdered_possible (lo hi x : Int) (h : lo ≤ hi) (h1 : -2147483648 ≤ lo) (h2 : hi ≤ 2147483647) :
    (betweenOrdered lo hi).Safe ∧ ((betweenOrdered lo hi).Possible x ↔ lo ≤ x ∧ x < lo + spread lo hi) := by
  have e : satI 32 (satI 32 (hi - lo) + 1) = (spread lo hi : Int) := by
    simp only [satI32]; unfold spread; omega
  have hs : 0 < spread lo hi := by unfold spread; omega
  unfold betweenOrdered createInt
  rw [e, if_neg (by omega), Int.toNat_natCast]
  refine ⟨Rand.safe_bind _ _ (create_safe _ hs) fun _ _ => trivial, ?_⟩
  rw [Rand.possible_bind]
  constructor
  · rintro ⟨r, hr, hx⟩
    rw [create_possible] at hr
    change satI 32 (lo + satI 32 r) = x at hx
    rw [← hx]; simp only [satI32]; unfold spread at *; omega
  · rintro ⟨h3, h4⟩
    refine ⟨(x - lo).toNat, ?_, ?_⟩
    · rw [create_possible]; omega
    · change satI 32 (lo + satI 32 (x - lo).toNat) = x
      simp only [satI32]; unfold spread at *; omega

/-- **C46.** For all `Int` arguments, in either order, and whatever is drawn, `between` does not fail and its answer lies between
them. -/
theorem C46_between_in_range (a b : Int) (ha : -2147483648 ≤ a ∧ a ≤ 2147483647) (hb : -2147483648 ≤ b ∧ b ≤ 2147483647) :
    (between a b).Safe ∧ ∀ x, (between a b).Possible x → min a b ≤ x ∧ x ≤ max a b := by
  unfold between
  split
  · rename_i h
    refine ⟨(betweenOrdered_possible b a 0 (by omega) (by omega) (by omega)).1, fun x hx => ?_⟩
    have := (betweenOrdered_possible b a x (by omega) (by omega) (by omega)).2.1 hx
    unfold spread at this; omega
  · rename_i h
    refine ⟨(betweenOrdered_possible a b 0 (by omega) (by omega) (by omega)).1, fun x hx => ?_⟩
    have := (betweenOrdered_possible a b x (by omega) (by omega) (by omega)).2.1 hx
    unfold spread at this; omega

example : (between 3 (-2)).Possible 0 ∧ ¬ (between 3 (-2)).Possible 4 := by
  constructor
  · unfold between; rw [if_pos (by omega)]
    exact (betweenOrdered_possible (-2) 3 0 (by omega) (by omega) (by omega)).2.2 (by unfold spread; omega)
  · intro h
    have := (C46_between_in_range 3 (-2) (by omega) (by omega)).2 4 h
    omega

theorem betweenOrdered_prob (lo hi x : Int) (h : lo ≤ hi) (h1 : -2147483648 ≤ lo) (h2 : hi ≤ 2147483647)
    (hx : lo ≤ x ∧ x < lo + spread lo hi) : (betweenOrdered lo hi).prob (fun y => y = x) = 1 / (spread lo hi) := by
  unfold Rand.prob
  rw [betweenOrdered_eq lo hi h h1 h2]
  congr 1
  rw [Finset.sum_eq_single (x - lo).toNat]
  · rw [if_pos (by omega)]
  · intro r _ hr; rw [if_neg (by omega)]
  · intro h3; exact absurd (Finset.mem_range.2 (by omega)) h3

/-- **C46**, more: if there are fewer than 2^31 values between the arguments, each of them is answered with the same probability. -/
theorem C46_between_uniform (lo hi x : Int) (h1 : -2147483648 ≤ lo) (h : lo ≤ hi) (h2 : hi ≤ 2147483647) (hx : lo ≤ x ∧ x ≤ hi)
    (hw : hi - lo + 1 < 2147483648) :
    (between lo hi).prob (fun y => y = x) = 1 / (hi - lo + 1 : Int) ∧ (lo < hi → (between hi lo).prob (fun y => y = x) = 1 / (hi - lo + 1 : Int)) := by
  have e : ((spread lo hi : Nat) : ℚ) = ((hi - lo + 1 : Int) : ℚ) := by
    have : ((spread lo hi : Nat) : Int) = hi - lo + 1 := by unfold spread; omega
    rw [← this]; simp
  have := betweenOrdered_prob lo hi x h h1 h2 (by unfold spread; omega)
  rw [e] at this
  refine ⟨?_, fun hlt => ?_⟩
  · unfold between; rw [if_neg (by omega)]; exact this
  · unfold between; rw [if_pos (by omega)]; exact this

/-- **C46**, where it is not uniform: if 2^31 values or more lie between the arguments, the upper ones are never answered. -/
theorem C46_wide_range_fails (lo hi : Int) (h1 : -2147483648 ≤ lo) (h2 : hi ≤ 2147483647) (hw : 2147483648 ≤ hi - lo + 1) :
    ¬ (between lo hi).Possible hi := by
  unfold between
  rw [if_neg (by omega)]
  intro h
  have := (betweenOrdered_possible lo hi hi (by omega) h1 h2).2.1 h
  unfold spread at this; omega

example : ¬ (between (-5) 2147483647).Possible 2147483647 := C46_wide_range_fails _ _ (by omega) (by omega) (by omega)

theorem create_prob_lt (n m : Nat) (hm : 0 < m) (f : Nat → ℚ) (hf : ∀ r, r < m → f r = if r < n then 1 else 0) :
    (create m).expect f = (min n m : Nat) / m := by
  rw [create_expect]
  congr 1
  rw [Finset.sum_congr rfl fun r hr => hf r (Finset.mem_range.1 hr), ← Finset.sum_filter, Finset.sum_const]
  have : (Finset.range m).filter (fun r => r < n) = Finset.range (min n m) := by
    ext r; simp; omega
  rw [this]; simp

/-- **C60.** `oddsOf(n, m)` is true with probability exactly n/m (1 if n ≥ m), `oneIn(m)` with probability 1/m. -/
theorem C60_odds (n m : Nat) (hm : 0 < m) :
    (oddsOf n m).Safe ∧ (oddsOf n m).prob (fun b => b = true) = (min n m : Nat) / m ∧ (oneIn m).prob (fun b => b = true) = 1 / m := by
  have gen : ∀ n, (oddsOf n m).prob (fun b => b = true) = (min n m : Nat) / m := by
    intro n
    unfold Rand.prob oddsOf
    rw [Rand.expect_bind]
    refine create_prob_lt n m hm _ fun r hr => ?_
    simp [Rand.expect]
  refine ⟨Rand.safe_bind _ _ (create_safe _ hm) fun _ _ => trivial, gen n, ?_⟩
  have := gen 1
  rw [Nat.min_eq_left (by omega)] at this
  simpa [oneIn] using this

/-- **C60**, for the `Int` version: the same for 0 ≤ n and 0 < m; a negative n never succeeds; an m that is not positive counts as 1. -/
theorem C60_odds_int (n m : Int) (hn : n ≤ 2147483647) (hm : m ≤ 2147483647) :
    (oddsOfInt n m).Safe ∧ (oddsOfInt n m).prob (fun b => b = true) = (min n.toNat (max m 1).toNat : Nat) / (max m 1).toNat := by
  unfold oddsOfInt createInt
  by_cases h : m ≤ 0
  · rw [if_pos h]
    refine ⟨trivial, ?_⟩
    have e : (max m 1).toNat = 1 := by omega
    rw [e]
    unfold Rand.prob Rand.bind
    simp only [Rand.expect, satI32]
    by_cases h2 : 0 < n
    · rw [Nat.min_eq_right (by omega)]; simp; omega
    · rw [Nat.min_eq_left (by omega)]
      have : n.toNat = 0 := by omega
      simp [this]; omega
  · rw [if_neg h]
    have e : (max m 1).toNat = m.toNat := by omega
    rw [e]
    refine ⟨Rand.safe_bind _ _ (create_safe _ (by omega)) fun _ _ => trivial, ?_⟩
    unfold Rand.prob
    rw [Rand.expect_bind]
    refine create_prob_lt n.toNat m.toNat (by omega) _ fun r hr => ?_
    have : satI 32 (r : Int) < n ↔ r < n.toNat := by rw [satI32]; omega
    simp [Rand.expect, this]

example : (oddsOf 2 6).prob (fun b => b = true) = 1 / 3 := by
  rw [(C60_odds 2 6 (by omega)).2.1]; norm_num

end Ulam.Chance
