import Verif.Chance.Random
import Mathlib.Tactic.LinearCombination
/-! # C61: stochastic timers -/
namespace Ulam.Chance
open Spec

/-- One call of `count`: how it goes on when the alarm is off and the divisor is `d`. -/
def tick (bits d time : Nat) : Rand Nat := (oneIn d).bind fun b => .done (if b then satU bits (time + 1) else time)

theorem tick_expect (bits d time : Nat) (hd : 0 < d) (f : Nat → ℚ) :
    (tick bits d time).expect f * d = f (satU bits (time + 1)) + (d - 1) * f time := by
  unfold tick oneIn oddsOf create
  rw [if_neg (by omega)]
  simp only [Rand.bind]
  obtain ⟨c, rfl⟩ : ∃ c, d = c + 1 := ⟨d - 1, by omega⟩
  rw [Rand.expect_draw_split 1 c (f (satU bits (time + 1))) (f time) _ _ (by omega)]
  · push_cast
    have : ((c : ℚ) + 1) ≠ 0 := by positivity
    field_simp
    ring
  · intro r hr; simp [hr, Rand.expect]
  · intro r hr; simp [show r ≠ 0 by omega, Rand.expect]

theorem tick_possible (bits d time : Nat) (hd : 0 < d) :
    (tick bits d time).Safe ∧ ∀ t, (tick bits d time).Possible t → t = time ∨ t = satU bits (time + 1) := by
  refine ⟨Rand.safe_bind _ _ (C60_odds 1 d hd).1 fun _ _ => trivial, fun t ht => ?_⟩
  obtain ⟨b, _, hq⟩ := (Rand.possible_bind _ _ _).1 ht
  change _ = t at hq
  subst hq
  cases b
  · exact Or.inl rfl
  · exact Or.inr rfl

theorem timerCount_eq (p : TimerParams) (time : Nat) :
    timerCount p time = if p.triggerLevel ≤ time then .done time else tick p.bits (shl p.k time) time := by
  unfold timerCount alarm tick
  by_cases h : p.triggerLevel ≤ time
  · simp [h]
  · simp [h]

theorem reverseCount_eq (p : TimerParams) (time : Nat) :
    reverseCount p time = if p.triggerLevel ≤ time then .done time else tick p.bits (shl p.k (p.triggerLevel - 1 - time)) time := by
  unfold reverseCount alarm tick
  by_cases h : p.triggerLevel ≤ time
  · simp [h]
  · simp [h]

/-- A timer that goes from `t` to `t + 1` in one of `d t` calls, on average, up to the level. -/
structure Steps (step : Nat → Rand Nat) (level : Nat) (d : Nat → Nat) : Prop where
  stop : ∀ t, level ≤ t → step t = .done t
  safe : ∀ t, t < level → (step t).Safe
  pos : ∀ t, t < level → 0 < d t
  go : ∀ t, t < level → ∀ u, (step t).Possible u → u = t ∨ u = t + 1
  mean : ∀ t, t < level → ∀ f : Nat → ℚ, (step t).expect f * d t = f (t + 1) + (d t - 1) * f t

/-- The calls expected from time `t` on. -/
def rest (level : Nat) (d : Nat → Nat) (t : Nat) : Nat := ((List.range' t (level - t)).map d).sum

theorem rest_top (level : Nat) (d : Nat → Nat) (t : Nat) (h : level ≤ t) : rest level d t = 0 := by
  unfold rest; rw [show level - t = 0 by omega]; rfl

theorem rest_step (level : Nat) (d : Nat → Nat) (t : Nat) (h : t < level) : rest level d t = d t + rest level d (t + 1) := by
  unfold rest
  rw [show level - t = (level - (t + 1)) + 1 by omega, List.range'_succ]
  simp

theorem rest_anti (level : Nat) (d : Nat → Nat) (t n : Nat) : rest level d (t + n) ≤ rest level d t := by
  induction n with
  | zero => exact le_refl _
  | succ n ih =>
    refine le_trans ?_ ih
    by_cases h : t + n < level
    · have := rest_step level d (t + n) h
      rw [show t + (n + 1) = t + n + 1 by omega]; omega
    · rw [rest_top level d (t + (n + 1)) (by omega)]; omega

section
variable {step : Nat → Rand Nat} {level : Nat} {d : Nat → Nat} (hs : Steps step level d)
include hs

theorem runTimer_safe (n : Nat) : ∀ t, (runTimer step level t n).Safe := by
  induction n with
  | zero => intro t; trivial
  | succ n ih =>
    intro t
    have h1 : (step t).Safe := by
      by_cases h : t < level
      · exact hs.safe t h
      · rw [hs.stop t (by omega)]; trivial
    exact Rand.safe_bind _ _ h1 fun u _ => Rand.safe_bind _ _ (ih u) fun _ _ => trivial

/-- What is left and what was used add up. -/
theorem runTimer_balance (n : Nat) : ∀ t, (runTimer step level t n).expect (fun p => (rest level d p.1 : ℚ) + p.2) = rest level d t := by
  induction n with
  | zero => intro t; simp [runTimer, Rand.expect]
  | succ n ih =>
    intro t
    simp only [runTimer]
    rw [Rand.expect_bind]
    have inner : ∀ u, ((runTimer step level u n).bind fun p => Rand.done (p.1, p.2 + if t < level then 1 else 0)).expect
        (fun p => (rest level d p.1 : ℚ) + p.2) = rest level d u + if t < level then 1 else 0 := by
      intro u
      rw [Rand.expect_bind]
      have : ∀ p : Nat × Nat, (Rand.done (p.1, p.2 + if t < level then 1 else 0)).expect (fun p => (rest level d p.1 : ℚ) + p.2) =
          ((rest level d p.1 : ℚ) + p.2) + if t < level then 1 else 0 := by
        intro p; simp only [Rand.expect]; push_cast; split_ifs <;> ring
      simp only [this]
      rw [Rand.expect_add, ih u, Rand.expect_const _ (runTimer_safe hs n u)]
    simp only [inner]
    by_cases h : t < level
    · simp only [h, if_true]
      have hd : ((d t : Nat) : ℚ) ≠ 0 := by exact_mod_cast (by have := hs.pos t h; omega : d t ≠ 0)
      apply mul_right_cancel₀ hd
      rw [hs.mean t h, rest_step level d t h]
      push_cast
      ring
    · rw [hs.stop t (by omega)]
      simp [Rand.expect, h]

/-- What is left shrinks at least geometrically. -/
theorem runTimer_left (K : Nat) (hK : rest level d 0 ≤ K) (hpos : 0 < K) (n : Nat) : ∀ t,
    (runTimer step level t n).expect (fun p => (rest level d p.1 : ℚ)) ≤ (1 - 1 / K) ^ n * rest level d t := by
  have hKq : (0 : ℚ) < K := by exact_mod_cast hpos
  have h1K : (1 : ℚ) / K ≤ 1 := by rw [div_le_one₀ hKq]; exact_mod_cast hpos
  have hfac : (0 : ℚ) ≤ 1 - 1 / K := by linarith
  induction n with
  | zero => intro t; simp [runTimer, Rand.expect]
  | succ n ih =>
    intro t
    simp only [runTimer]
    rw [Rand.expect_bind]
    have inner : ∀ u, ((runTimer step level u n).bind fun p => Rand.done (p.1, p.2 + if t < level then 1 else 0)).expect
        (fun p => (rest level d p.1 : ℚ)) = (runTimer step level u n).expect (fun p => (rest level d p.1 : ℚ)) := by
      intro u; rw [Rand.expect_bind]; rfl
    simp only [inner]
    by_cases h : t < level
    · have hdp := hs.pos t h
      have hd : (0 : ℚ) < d t := by exact_mod_cast hdp
      have hd1 : (0 : ℚ) ≤ (d t : ℚ) - 1 := by
        have : (1 : ℚ) ≤ d t := by exact_mod_cast hdp
        linarith
      have a := ih (t + 1)
      have b := ih t
      have hm := hs.mean t h fun u => (runTimer step level u n).expect (fun p => (rest level d p.1 : ℚ))
      generalize (step t).expect (fun u => (runTimer step level u n).expect (fun p => (rest level d p.1 : ℚ))) = E at *
      generalize (runTimer step level (t + 1) n).expect (fun p => (rest level d p.1 : ℚ)) = A at *
      generalize (runTimer step level t n).expect (fun p => (rest level d p.1 : ℚ)) = B at *
      have hst : (rest level d t : ℚ) = d t + rest level d (t + 1) := by exact_mod_cast rest_step level d t h
      have hle : (rest level d t : ℚ) ≤ K := by
        have := rest_anti level d 0 t
        rw [Nat.zero_add] at this
        exact_mod_cast le_trans this hK
      generalize (rest level d t : ℚ) = R at *
      generalize (rest level d (t + 1) : ℚ) = R' at *
      have hq : (0 : ℚ) ≤ (1 - 1 / K) ^ n := pow_nonneg hfac n
      rw [pow_succ]
      generalize ((1 : ℚ) - 1 / K) ^ n = q at *
      have h3 : E * d t ≤ q * (d t * R - d t) := by
        rw [hm]
        have : (d t - 1 : ℚ) * B ≤ (d t - 1) * (q * R) := mul_le_mul_of_nonneg_left b hd1
        calc A + (d t - 1 : ℚ) * B ≤ q * R' + (d t - 1) * (q * R) := add_le_add a this
          _ = q * (d t * R - d t) := by rw [hst]; ring
      have h4 : q * (d t * R - d t) ≤ q * (1 - 1 / K) * R * d t := by
        have : R / K ≤ 1 := by rw [div_le_one₀ hKq]; exact hle
        have h5 : (d t : ℚ) * R - d t ≤ (1 - 1 / K) * R * d t := by
          have : (d t : ℚ) * (R / K) ≤ d t * 1 := mul_le_mul_of_nonneg_left this hd.le
          have e : (1 - 1 / (K : ℚ)) * R * d t = d t * R - d t * (R / K) := by ring
          rw [e]; linarith
        calc q * (d t * R - d t) ≤ q * ((1 - 1 / K) * R * d t) := mul_le_mul_of_nonneg_left h5 hq
          _ = q * (1 - 1 / K) * R * d t := by ring
      exact le_of_mul_le_mul_right (le_trans h3 h4) hd
    · rw [hs.stop t (by omega)]
      simp only [Rand.expect]
      refine le_trans (ih t) ?_
      rw [rest_top level d t (by omega)]
      simp

end

theorem timer_steps (p : TimerParams) (hk : 0 < p.k) (hl : p.triggerLevel ≤ 2 ^ p.bits - 1) (hf : p.k * 2 ^ (p.triggerLevel - 1) < 2 ^ 32) :
    Steps (timerCount p) p.triggerLevel (fun t => p.k * 2 ^ t) := by
  have hsh : ∀ t, t < p.triggerLevel → shl p.k t = p.k * 2 ^ t ∧ 0 < p.k * 2 ^ t := by
    intro t ht
    have : p.k * 2 ^ t ≤ p.k * 2 ^ (p.triggerLevel - 1) := Nat.mul_le_mul_left _ (Nat.pow_le_pow_right (by omega) (by omega))
    exact ⟨by unfold shl; exact Nat.mod_eq_of_lt (by omega), Nat.mul_pos hk (Nat.two_pow_pos _)⟩
  have hsat : ∀ t, t < p.triggerLevel → satU p.bits (t + 1) = t + 1 := by intro t ht; unfold satU; omega
  have heq : ∀ t, t < p.triggerLevel → timerCount p t = tick p.bits (p.k * 2 ^ t) t := by
    intro t ht; rw [timerCount_eq, if_neg (by omega), (hsh t ht).1]
  refine ⟨fun t ht => by rw [timerCount_eq, if_pos ht], fun t ht => ?_, fun t ht => (hsh t ht).2, fun t ht u hu => ?_, fun t ht f => ?_⟩
  · rw [heq t ht]; exact (tick_possible _ _ _ (hsh t ht).2).1
  · rw [heq t ht] at hu
    have := (tick_possible _ _ _ (hsh t ht).2).2 u hu
    rwa [hsat t ht] at this
  · rw [heq t ht, tick_expect _ _ _ (hsh t ht).2, hsat t ht]

theorem reverse_steps (p : TimerParams) (hk : 0 < p.k) (hl : p.triggerLevel ≤ 2 ^ p.bits - 1) (hf : p.k * 2 ^ (p.triggerLevel - 1) < 2 ^ 32) :
    Steps (reverseCount p) p.triggerLevel (fun t => p.k * 2 ^ (p.triggerLevel - 1 - t)) := by
  have hsh : ∀ t, t < p.triggerLevel → shl p.k (p.triggerLevel - 1 - t) = p.k * 2 ^ (p.triggerLevel - 1 - t) ∧
      0 < p.k * 2 ^ (p.triggerLevel - 1 - t) := by
    intro t ht
    have : p.k * 2 ^ (p.triggerLevel - 1 - t) ≤ p.k * 2 ^ (p.triggerLevel - 1) := Nat.mul_le_mul_left _ (Nat.pow_le_pow_right (by omega) (by omega))
    exact ⟨by unfold shl; exact Nat.mod_eq_of_lt (by omega), Nat.mul_pos hk (Nat.two_pow_pos _)⟩
  have hsat : ∀ t, t < p.triggerLevel → satU p.bits (t + 1) = t + 1 := by intro t ht; unfold satU; omega
  have heq : ∀ t, t < p.triggerLevel → reverseCount p t = tick p.bits (p.k * 2 ^ (p.triggerLevel - 1 - t)) t := by
    intro t ht; rw [reverseCount_eq, if_neg (by omega), (hsh t ht).1]
  refine ⟨fun t ht => by rw [reverseCount_eq, if_pos ht], fun t ht => ?_, fun t ht => (hsh t ht).2, fun t ht u hu => ?_, fun t ht f => ?_⟩
  · rw [heq t ht]; exact (tick_possible _ _ _ (hsh t ht).2).1
  · rw [heq t ht] at hu
    have := (tick_possible _ _ _ (hsh t ht).2).2 u hu
    rwa [hsat t ht] at this
  · rw [heq t ht, tick_expect _ _ _ (hsh t ht).2, hsat t ht]

theorem rest_forward (k L : Nat) : ∀ n t, t + n = L → rest L (fun t => k * 2 ^ t) t + k * 2 ^ t = k * 2 ^ L := by
  intro n
  induction n with
  | zero => intro t h; rw [rest_top _ _ _ (by omega), show t = L by omega]; omega
  | succ n ih =>
    intro t h
    have := ih (t + 1) (by omega)
    rw [rest_step _ _ _ (by omega)]
    rw [pow_succ] at this
    have e : k * (2 ^ t * 2) = k * 2 ^ t + k * 2 ^ t := by ring
    omega

theorem rest_reverse (k L : Nat) : ∀ n t, t + n = L → rest L (fun t => k * 2 ^ (L - 1 - t)) t + k = k * 2 ^ n := by
  intro n
  induction n with
  | zero => intro t h; rw [rest_top _ _ _ (by omega)]; omega
  | succ n ih =>
    intro t h
    have := ih (t + 1) (by omega)
    rw [rest_step _ _ _ (by omega), show L - 1 - t = n by omega, pow_succ]
    have e : k * (2 ^ n * 2) = k * 2 ^ n + k * 2 ^ n := by ring
    omega

theorem steps_mean {step : Nat → Rand Nat} {level : Nat} {d : Nat → Nat} (hs : Steps step level d) (K n : Nat)
    (hK : rest level d 0 ≤ K) (hpos : 0 < K) :
    (1 - (1 - 1 / (K : ℚ)) ^ n) * rest level d 0 ≤ (runTimer step level 0 n).expect (fun p => (p.2 : ℚ)) ∧
    (runTimer step level 0 n).expect (fun p => (p.2 : ℚ)) ≤ rest level d 0 := by
  have h1 := runTimer_balance hs n 0
  rw [Rand.expect_add] at h1
  have h2 := runTimer_left hs K hK hpos n 0
  have h3 : 0 ≤ (runTimer step level 0 n).expect (fun p => (rest level d p.1 : ℚ)) := Rand.expect_nonneg _ _ fun p => by positivity
  constructor <;> linarith

/-- **C61.** For a timer whose trigger level fits its counter and whose multiplier `k` does not overflow: after a reset, of `n` calls of
`count` the expected number made before the alarm is at most k·(2^level − 1), and approaches that number as `n` grows: it falls short by
at most the factor (1 − 1/(k·2^level))^n. (The documentation, for k = 1: "The alarm() method begins returning true after, on average,
approximately 2**triggerLevel-1 calls on count()".) The same holds for the reverse timer. -/
theorem C61_mean_calls (p : TimerParams) (n : Nat) (hk : 0 < p.k) (hl : p.triggerLevel ≤ 2 ^ p.bits - 1)
    (hf : p.k * 2 ^ (p.triggerLevel - 1) < 2 ^ 32) :
    let mean : ℚ := p.k * (2 ^ p.triggerLevel - 1)
    let left : ℚ := (1 - 1 / (p.k * 2 ^ p.triggerLevel)) ^ n
    ((1 - left) * mean ≤ (runTimer (timerCount p) p.triggerLevel 0 n).expect (fun q => (q.2 : ℚ)) ∧
      (runTimer (timerCount p) p.triggerLevel 0 n).expect (fun q => (q.2 : ℚ)) ≤ mean) ∧
    ((1 - left) * mean ≤ (runTimer (reverseCount p) p.triggerLevel 0 n).expect (fun q => (q.2 : ℚ)) ∧
      (runTimer (reverseCount p) p.triggerLevel 0 n).expect (fun q => (q.2 : ℚ)) ≤ mean) := by
  intro mean left
  have r1 := rest_forward p.k p.triggerLevel p.triggerLevel 0 (by omega)
  have r2 := rest_reverse p.k p.triggerLevel p.triggerLevel 0 (by omega)
  rw [pow_zero, Nat.mul_one] at r1
  have hK : 0 < p.k * 2 ^ p.triggerLevel := Nat.mul_pos hk (Nat.two_pow_pos _)
  have m1 := steps_mean (timer_steps p hk hl hf) (p.k * 2 ^ p.triggerLevel) n (by omega) hK
  have m2 := steps_mean (reverse_steps p hk hl hf) (p.k * 2 ^ p.triggerLevel) n (by omega) hK
  have q1 : (rest p.triggerLevel (fun t => p.k * 2 ^ t) 0 : ℚ) = mean := by
    have : ((rest p.triggerLevel (fun t => p.k * 2 ^ t) 0 + p.k : Nat) : ℚ) = ((p.k * 2 ^ p.triggerLevel : Nat) : ℚ) := by rw [r1]
    push_cast at this
    show _ = (p.k : ℚ) * (2 ^ p.triggerLevel - 1)
    linear_combination this
  have q2 : (rest p.triggerLevel (fun t => p.k * 2 ^ (p.triggerLevel - 1 - t)) 0 : ℚ) = mean := by
    have : ((rest p.triggerLevel (fun t => p.k * 2 ^ (p.triggerLevel - 1 - t)) 0 + p.k : Nat) : ℚ) = ((p.k * 2 ^ p.triggerLevel : Nat) : ℚ) := by rw [r2]
    push_cast at this
    show _ = (p.k : ℚ) * (2 ^ p.triggerLevel - 1)
    linear_combination this
  rw [q1] at m1
  rw [q2] at m2
  push_cast at m1 m2
  exact ⟨m1, m2⟩

example : (0 < (⟨3, 5, 2⟩ : TimerParams).k) ∧ (5 ≤ 2 ^ 3 - 1) ∧ 2 * 2 ^ (5 - 1) < 2 ^ 32 := by decide

/-- **C61**, step by step: as long as the alarm is off a call leaves the time or adds 1 to it; once it is on, calls change nothing, so
the alarm stays on until `reset` or `set`; the time never passes the trigger level. -/
theorem C61_alarm_stays (p : TimerParams) (hk : 0 < p.k) (hl : p.triggerLevel ≤ 2 ^ p.bits - 1)
    (hf : p.k * 2 ^ (p.triggerLevel - 1) < 2 ^ 32) (time : Nat) :
    (alarm p time = true → timerCount p time = .done time ∧ reverseCount p time = .done time) ∧
    (alarm p time = false → (timerCount p time).Safe ∧ (reverseCount p time).Safe ∧
      ∀ t, (timerCount p time).Possible t ∨ (reverseCount p time).Possible t → (t = time ∨ t = time + 1) ∧ t ≤ p.triggerLevel) ∧
    alarm p (trigger p) = true := by
  have s1 := timer_steps p hk hl hf
  have s2 := reverse_steps p hk hl hf
  refine ⟨fun h => ?_, fun h => ?_, ?_⟩
  · have : p.triggerLevel ≤ time := by simpa [alarm] using h
    exact ⟨s1.stop _ this, s2.stop _ this⟩
  · have ht : time < p.triggerLevel := by simpa [alarm] using h
    refine ⟨s1.safe _ ht, s2.safe _ ht, fun t hp => ?_⟩
    have : t = time ∨ t = time + 1 := by
      rcases hp with hp | hp
      · exact s1.go _ ht _ hp
      · exact s2.go _ ht _ hp
    exact ⟨this, by omega⟩
  · unfold alarm trigger satU
    simp; omega

/-- **C61 fails** if the trigger level does not fit the counter: the alarm never comes, whatever is drawn and even after `trigger()`,
since the time stays below it. -/
theorem C61_wide_level_fails (p : TimerParams) (hl : 2 ^ p.bits - 1 < p.triggerLevel) (n : Nat) :
    alarm p (trigger p) = false ∧
    ∀ time, time ≤ 2 ^ p.bits - 1 → ∀ q, (runTimer (timerCount p) p.triggerLevel time n).Possible q → alarm p q.1 = false := by
  refine ⟨by unfold alarm trigger satU; simp; omega, ?_⟩
  have step : ∀ t u, t ≤ 2 ^ p.bits - 1 → (timerCount p t).Possible u → u ≤ 2 ^ p.bits - 1 := by
    intro t u ht hu
    rw [timerCount_eq, if_neg (by omega)] at hu
    obtain ⟨b, _, hq⟩ := (Rand.possible_bind _ _ _).1 hu
    change _ = u at hq
    subst hq
    cases b
    · exact ht
    · simp [satU]
  induction n with
  | zero =>
    intro time ht q hq
    change _ = q at hq
    subst hq
    simp [alarm]; omega
  | succ n ih =>
    intro time ht q hq
    obtain ⟨u, hu, h2⟩ := (Rand.possible_bind _ _ _).1 hq
    obtain ⟨v, hv, h3⟩ := (Rand.possible_bind _ _ _).1 h2
    change _ = q at h3
    subst h3
    exact ih u (step time u ht hu) v hv

/-- **C61 fails** if `k << time` loses all its bits: the call fails (`Random.create(0)`). -/
theorem C61_overflow_fails (p : TimerParams) (time : Nat) (ht : time < p.triggerLevel) (h : 2 ^ 32 ∣ p.k * 2 ^ time) :
    timerCount p time = .fail := by
  rw [timerCount_eq, if_neg (by omega)]
  have : shl p.k time = 0 := by unfold shl; exact Nat.mod_eq_zero_of_dvd h
  rw [this]
  rfl

example : timerCount ⟨5, 31, 16⟩ 28 = .fail := C61_overflow_fails _ _ (by decide) (by decide)

end Ulam.Chance
