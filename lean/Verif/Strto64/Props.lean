import Verif.Strto64.Lemmas

/-!
# C05, C06: number literals denote their exact value or are rejected
-/
namespace Ulam.Strto64
open Spec

/-- Helper: two's complement negation read back as signed. -/
theorem S64_neg {n : Nat} (h0 : 0 < n) (h : n < 2 ^ 63) : S64 ((M - n) % M) = -(n : Int) := by
  have hM : M = 2 ^ 64 := rfl
  have : (M - n) % M = M - n := Nat.mod_eq_of_lt (by omega)
  rw [this]
  unfold S64
  rw [if_neg (by omega)]
  omega

/-- C05: converting an ASCII literal to a signed 64-bit number succeeds with `v` exactly when the literal is well formed and
denotes `v`, and `v` is in range. (Malformed and out-of-range literals are therefore all rejected.) -/
theorem C05_signed_literal_exact (s : List Nat) (ha : Ascii s) (v : Int) :
    strtos64 s = .ok v ↔
      ∃ neg n, Denotes s neg n ∧ v = signedValue neg n ∧ -(2 : Int) ^ 63 ≤ v ∧ v < (2 : Int) ^ 63 := by
  have key := fun w => parse_iff (check := checkSigned)
    (by intro sg; unfold checkSigned; split <;> simp [M])
    (by intro sg sg' n h
        unfold checkSigned
        by_cases h1 : sg ≥ 0
        · rw [if_pos h1, if_pos (show sg' ≥ 0 by omega)]
        · rw [if_neg h1, if_neg (show ¬ sg' ≥ 0 by omega)]) s ha w
  unfold strtos64
  constructor
  · intro h
    split at h
    · rename_i w hw
      obtain ⟨neg, n, h1, h2, h3⟩ := (key w).1 hw
      refine ⟨neg, n, h1, ?_⟩
      simp at h
      subst h
      unfold checkSigned at h3
      unfold S64 signedValue
      cases neg
      · simp at h3
        split at h3
        · simp at h3
        · simp at h3; subst h3
          rw [if_pos (by omega)]
          simp; omega
      · simp at h3
        split at h3
        · simp at h3
        · split at h3
          · simp at h3; subst h3
            rw [if_neg (by omega)]
            simp; omega
          · simp at h3; subst h3
            rcases Nat.eq_zero_or_pos n with h0 | h0
            · subst h0; simp [M]
            · have := S64_neg h0 (by omega)
              unfold S64 at this
              rw [this]
              simp; omega
    · simp at h
  · rintro ⟨neg, n, h1, h2, h3, h4⟩
    have hn : n < M := by
      unfold signedValue at h2; unfold M; cases neg <;> simp at h2 <;> omega
    have hk : ∃ w, checkSigned (if neg then -1 else 0) n = .ok w ∧ S64 w = v := by
      unfold signedValue at h2
      unfold checkSigned S64
      cases neg
      · simp at h2
        refine ⟨n, ?_, ?_⟩
        · simp; omega
        · rw [if_pos (by omega)]; omega
      · simp at h2
        by_cases h63 : n = 2 ^ 63
        · refine ⟨2 ^ 63, ?_, ?_⟩
          · simp [h63]
          · simp; omega
        · rcases Nat.eq_zero_or_pos n with h0 | h0
          · subst h0; exact ⟨0, by simp [M], by simp; omega⟩
          · refine ⟨(M - n) % M, ?_, ?_⟩
            · rw [if_neg (by simp), if_neg (by omega), if_neg h63]
            · have := S64_neg h0 (by omega)
              unfold S64 at this
              rw [this]; omega
    obtain ⟨w, hw, hv⟩ := hk
    rw [(key w).2 ⟨neg, n, h1, hn, hw⟩]
    simp [hv]

/-- C06 (partial): an ASCII literal without a minus sign converts to an unsigned 64-bit number exactly when it is well formed
and below `2^64`, and then to exactly the number it denotes. What is missing for the full C06: rejection of negative literals,
which the code does not do (see `C06_negative_accepted`). -/
theorem C06_unsigned_literal_exact_partial (s : List Nat) (ha : Ascii s) (hpos : 45 ∉ s) (v : Nat) :
    strtou64 s = .ok v ↔ Denotes s false v ∧ v < 2 ^ 64 := by
  have key := parse_iff (check := checkUnsigned)
    (by intro sg; unfold checkUnsigned; split <;> simp [M, S64])
    (by intro sg sg' n h
        unfold checkUnsigned
        by_cases h1 : sg ≥ 0
        · rw [if_pos h1, if_pos (show sg' ≥ 0 by omega)]
        · rw [if_neg h1, if_neg (show ¬ sg' ≥ 0 by omega)]) s ha v
  unfold strtou64
  rw [key]
  constructor
  · rintro ⟨neg, n, h1, h2, h3⟩
    have hneg : neg = false := by
      obtain ⟨body, hs, _⟩ := h1
      cases hs
      · rfl
      · rfl
      · exact absurd (by simp) hpos
    subst hneg
    simp [checkUnsigned] at h3
    subst h3
    exact ⟨h1, h2⟩
  · rintro ⟨h1, h2⟩
    exact ⟨false, v, h1, h2, by simp [checkUnsigned]⟩

/-- C06, the exact set of negative literals wrongly accepted as unsigned: those with `n = 0` or `n ≥ 2^63`; the value is
`2^64 - n`. -/
theorem C06_negative_literal_behaviour (s : List Nat) (ha : Ascii s) (n : Nat) (h : Denotes s true n) (hn : n < 2 ^ 64) :
    (∃ v, strtou64 s = .ok v) ↔ n = 0 ∨ 2 ^ 63 ≤ n := by
  have hc0 : ∀ sg, checkUnsigned sg 0 = .ok 0 := by
    intro sg; unfold checkUnsigned; split <;> simp [M, S64]
  have hcn : ∀ sg sg' n, (sg < 0 ↔ sg' < 0) → checkUnsigned sg n = checkUnsigned sg' n := by
    intro sg sg' n h
    unfold checkUnsigned
    by_cases h1 : sg ≥ 0
    · rw [if_pos h1, if_pos (show sg' ≥ 0 by omega)]
    · rw [if_neg h1, if_neg (show ¬ sg' ≥ 0 by omega)]
  have hp : strtou64 s = checkUnsigned (-1) n := by
    unfold strtou64
    obtain ⟨body, h1, h2⟩ := h
    have hab := signed_ascii h1 ha
    obtain ⟨sg, h3, h4, _⟩ := parseSign_complete h1 (body_starts h2 hab)
    rw [parse_eq hc0, h3]
    simp only
    rw [parseBody_complete hab h2 hn]
    simp only
    exact hcn _ _ _ (by rw [h4]; simp)
  rw [hp]
  unfold checkUnsigned S64
  rw [if_neg (by omega)]
  by_cases h1 : n < 2 ^ 63
  · rw [if_pos h1]
    by_cases h0 : n = 0
    · subst h0; simp
    · rw [if_pos (by omega)]
      constructor
      · rintro ⟨v, hv⟩; exact absurd hv (by simp)
      · omega
  · rw [if_neg h1, if_neg (by omega)]
    exact ⟨fun _ => by omega, fun _ => ⟨_, rfl⟩⟩

/-- C06 is violated: the negative literal `-9223372036854775809` is accepted as the unsigned number `9223372036854775807`. -/
theorem C06_negative_accepted :
    strtou64 (bytes "-9223372036854775809") = .ok 9223372036854775807 := by
  rfl

/-! Non-vacuity. -/
example : strtos64 (bytes " - 0x1F") = .ok (-31) := rfl
example : Ascii (bytes " - 0x1F") := by unfold Ascii; decide
example : Denotes (bytes "0x1f") false 31 :=
  ⟨bytes "0x1f", .plain (w := []) (by simp),
   .hex (ds := [1, 15]) (cs := [49, 102]) (t := []) (Or.inl rfl)
     (.cons (.dec (by decide) (by decide) (by decide)) (.cons (.lower (by decide) (by decide) (by decide)) .nil)) .none⟩
example : ∃ e, strtos64 (bytes "9223372036854775808") = .error e := ⟨_, rfl⟩
example : strtos64 (bytes "-9223372036854775808") = .ok (-9223372036854775808) := rfl

end Ulam.Strto64
