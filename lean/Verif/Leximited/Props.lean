import Verif.Leximited.Lemmas

/-!
# C01: leximited encodings are uniquely decodable
-/
namespace Ulam.Leximited

/-- C01 (unsigned, any width): whatever follows, the encoding of a number determines the number and where
the encoding ends. -/
theorem C01_unsigned_prefix_free (a b : Nat) (r s : Str) (h : lexU a ++ r = lexU b ++ s) :
    a = b ∧ r = s := lexU_prefix_free' a b r s h

/-- C01 (signed, 32 bit): same for every `s32`, including the most negative one. -/
theorem C01_signed32_prefix_free (a b : Int) (r s : Str) (h : lexS 32 a ++ r = lexS 32 b ++ s) :
    a = b ∧ r = s := lexS_prefix_free' 32 a b r s h

/-- C01 (signed, 64 bit). -/
theorem C01_signed64_prefix_free (a b : Int) (r s : Str) (h : lexS 64 a ++ r = lexS 64 b ++ s) :
    a = b ∧ r = s := lexS_prefix_free' 64 a b r s h

/-- C01 (strings): same for all strings shorter than 2^32. -/
theorem C01_string_prefix_free (a b r s : Str) (ha : a.length < 2 ^ 32) (hb : b.length < 2 ^ 32)
    (h : lexStr a ++ r = lexStr b ++ s) : a = b ∧ r = s := lexStr_prefix_free' a b r s ha hb h

/-- C01 (sequences): a concatenation of encoded strings splits in exactly one way. -/
theorem C01_string_sequences (xs ys : List Str) (hx : ∀ x ∈ xs, x.length < 2 ^ 32)
    (hy : ∀ y ∈ ys, y.length < 2 ^ 32)
    (h : (xs.map lexStr).flatten = (ys.map lexStr).flatten) : xs = ys :=
  flatten_inj lexStr (fun s => s.length < 2 ^ 32) lexStr_ne_nil
    (fun a b r s ha hb h => lexStr_prefix_free' a b r s ha hb h) xs ys hx hy h

/-- C01 (documented values, UlamUtil.cpp:14-17): positive numbers up to 8 digits are their digit count
followed by their digits. -/
theorem C01_short_form (n : Nat) (h : n < 10 ^ 8) :
    lexU n = digit (dec n).length :: dec n ∧ (dec n).length ≤ 8 := by
  have hlen : ∀ k m : Nat, m < 10 ^ (k + 1) → digitCount m ≤ k + 1 := by
    intro k
    induction k with
    | zero => intro m hm; rw [digitCount, if_pos (by simpa using hm)]; omega
    | succ k ih =>
      intro m hm
      rw [digitCount]
      split
      · omega
      · have := ih (m / 10) (by rw [Nat.pow_succ] at hm; omega)
        omega
  have h8 : digitCount n ≤ 8 := hlen 7 n h
  rw [lexU_eq, header, if_pos (by omega), dec_lt9 (by omega), dec_length]
  exact ⟨rfl, h8⟩

/-! Non-vacuity: concrete instances. -/
example : lexS 32 (-3) = "n13".toList := by simp [lexS, header, dec, digitCount, digit]
example : lexS 32 (-2147483648) = "n10".toList := by simp [lexS, header, dec, digitCount, digit]

end Ulam.Leximited
