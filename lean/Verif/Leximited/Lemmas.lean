import Verif.Leximited.Model

namespace Ulam.Leximited

/-- Helper: value of a decimal text, left to right. -/
def undec (s : Str) : Nat := s.foldl (fun a c => a * 10 + (c.toNat - 48)) 0

theorem digit_toNat (d : Nat) : (digit d).toNat = 48 + d % 10 := by
  have h : d % 10 < 10 := Nat.mod_lt _ (by omega)
  unfold digit
  generalize d % 10 = k at h
  have : ∀ k < 10, (Char.ofNat (48 + k)).toNat = 48 + k := by decide
  exact this k h

theorem undec_append (s : Str) (c : Char) : undec (s ++ [c]) = undec s * 10 + (c.toNat - 48) := by
  simp [undec, List.foldl_append]

theorem undec_dec (n : Nat) : undec (dec n) = n := by
  induction n using Nat.strongRecOn with
  | ind n ih =>
    rw [dec]
    split
    · rename_i h
      simp [undec, digit_toNat, Nat.mod_eq_of_lt h]
    · rw [undec_append, ih _ (by omega), digit_toNat]
      omega

theorem dec_inj {a b : Nat} (h : dec a = dec b) : a = b := by
  rw [← undec_dec a, h, undec_dec]

theorem dec_length (n : Nat) : (dec n).length = digitCount n := by
  induction n using Nat.strongRecOn with
  | ind n ih =>
    rw [dec, digitCount]
    split
    · simp
    · simp [ih (n / 10) (by omega)]

theorem dec_ne_nil (n : Nat) : dec n ≠ [] := by
  rw [dec]; split <;> simp

theorem dec_lt9 {n : Nat} (h : n < 9) : dec n = [digit n] := by
  rw [dec, if_pos (by omega)]

theorem digit_ne_nine {n : Nat} (h : n < 9) : digit n ≠ '9' := by
  intro hc
  have := congrArg Char.toNat hc
  rw [digit_toNat] at this
  simp at this
  omega

theorem digit_inj {a b : Nat} (ha : a < 10) (hb : b < 10) (h : digit a = digit b) : a = b := by
  have := congrArg Char.toNat h
  rw [digit_toNat, digit_toNat] at this
  omega

theorem digitCount_lt {n : Nat} (h : 9 ≤ n) : digitCount n < n := by
  rw [digitCount]
  split
  · omega
  · have := digitCount_le (n / 10) (by omega)
    omega

/-- Same-length prefixes can be cancelled. -/
theorem append_cancel {α} {a b r s : List α} (hl : a.length = b.length) (h : a ++ r = b ++ s) :
    a = b ∧ r = s := List.append_inj h hl

theorem header_small {n : Nat} (h : n < 9) : header n = [digit n] := by
  rw [header, if_pos h, dec_lt9 h]

theorem header_big {n : Nat} (h : ¬ n < 9) : header n = '9' :: (header (digitCount n) ++ dec n) := by
  rw [header, if_neg h]

/-- The header code is prefix free. -/
theorem header_prefix_free (a b : Nat) (r s : Str) (h : header a ++ r = header b ++ s) :
    a = b ∧ r = s := by
  induction a using Nat.strongRecOn generalizing b r s with
  | ind a ih =>
    by_cases ha : a < 9 <;> by_cases hb : b < 9
    · rw [header_small ha, header_small hb] at h
      simp at h
      exact ⟨digit_inj (by omega) (by omega) h.1, h.2⟩
    · rw [header_small ha, header_big hb] at h
      simp at h
      exact absurd h.1 (digit_ne_nine ha)
    · rw [header_big ha, header_small hb] at h
      simp at h
      exact absurd h.1.symm (digit_ne_nine hb)
    · rw [header_big ha, header_big hb] at h
      simp at h
      obtain ⟨hc, hr⟩ := ih _ (digitCount_lt (by omega)) _ _ _ h
      obtain ⟨h1, h2⟩ := append_cancel (by rw [dec_length, dec_length, hc]) hr
      exact ⟨dec_inj h1, h2⟩

theorem digitCount_zero : digitCount 0 = 1 := by rw [digitCount]; simp

theorem lexU_eq (n : Nat) : lexU n = header (digitCount n) ++ dec n := by
  unfold lexU
  split
  · rename_i h; subst h; rw [digitCount_zero]
  · rfl

/-- The head character of a header is a decimal digit, never `n`. -/
theorem header_head (n : Nat) : ∃ d t, header n = digit d :: t := by
  rw [header]
  split
  · rename_i h; exact ⟨n, [], dec_lt9 h⟩
  · exact ⟨9, _, rfl⟩

theorem digit_ne_n (d : Nat) : digit d ≠ 'n' := by
  intro hc
  have := congrArg Char.toNat hc
  rw [digit_toNat] at this
  simp at this
  omega

theorem header_ne_nil (n : Nat) : header n ≠ [] := by
  obtain ⟨d, t, h⟩ := header_head n
  simp [h]

theorem lexU_prefix_free' (a b : Nat) (r s : Str) (h : lexU a ++ r = lexU b ++ s) : a = b ∧ r = s := by
  rw [lexU_eq, lexU_eq, List.append_assoc, List.append_assoc] at h
  obtain ⟨hc, hr⟩ := header_prefix_free _ _ _ _ h
  obtain ⟨h1, h2⟩ := append_cancel (by rw [dec_length, dec_length, hc]) hr
  exact ⟨dec_inj h1, h2⟩

theorem lexU_head (n : Nat) : ∃ d t, lexU n = digit d :: t := by
  obtain ⟨d, t, h⟩ := header_head (digitCount n)
  exact ⟨d, t ++ dec n, by rw [lexU_eq, h]; rfl⟩

/-- Signed code in terms of the unsigned one. -/
theorem lexS_eq (w : Nat) (n : Int) :
    lexS w n = if n < 0 then 'n' :: lexU (if n = -(2 ^ (w - 1) : Int) then 0 else n.natAbs) else lexU n.natAbs := by
  unfold lexS
  split
  · rename_i h; subst h; simp [lexU]
  · rename_i h0
    split
    · split
      · simp [lexU]
      · rw [lexU_eq]
    · rw [lexU_eq]

theorem lexS_prefix_free' (w : Nat) (a b : Int) (r s : Str) (h : lexS w a ++ r = lexS w b ++ s) :
    a = b ∧ r = s := by
  rw [lexS_eq, lexS_eq] at h
  obtain ⟨d, t, hd⟩ := lexU_head a.natAbs
  obtain ⟨d', t', hd'⟩ := lexU_head b.natAbs
  by_cases ha : a < 0 <;> by_cases hb : b < 0 <;> simp only [ha, hb, if_true, if_false] at h
  · simp only [List.cons_append, List.cons.injEq, true_and] at h
    obtain ⟨h1, h2⟩ := lexU_prefix_free' _ _ _ _ h
    refine ⟨?_, h2⟩
    split at h1 <;> split at h1 <;> omega
  · rw [hd'] at h; simp at h
    exact absurd h.1.symm (digit_ne_n _)
  · rw [hd] at h; simp at h
    exact absurd h.1 (digit_ne_n _)
  · obtain ⟨h1, h2⟩ := lexU_prefix_free' _ _ _ _ h
    exact ⟨by omega, h2⟩

theorem lexStr_prefix_free' (a b r s : Str) (ha : a.length < 2 ^ 32) (hb : b.length < 2 ^ 32)
    (h : lexStr a ++ r = lexStr b ++ s) : a = b ∧ r = s := by
  unfold lexStr at h
  rw [Nat.mod_eq_of_lt ha, Nat.mod_eq_of_lt hb, List.append_assoc, List.append_assoc] at h
  obtain ⟨hl, hr⟩ := header_prefix_free _ _ _ _ h
  exact append_cancel hl hr

theorem lexStr_ne_nil (a : Str) : lexStr a ≠ [] := by
  simp [lexStr, header_ne_nil]

/-- A code with no empty code words and the prefix-free cancellation property is uniquely decodable on
sequences. -/
theorem flatten_inj {α β} (enc : α → List β) (P : α → Prop) (hne : ∀ a, enc a ≠ [])
    (hpf : ∀ a b r s, P a → P b → enc a ++ r = enc b ++ s → a = b ∧ r = s) :
    ∀ xs ys : List α, (∀ x ∈ xs, P x) → (∀ y ∈ ys, P y) →
      (xs.map enc).flatten = (ys.map enc).flatten → xs = ys := by
  intro xs
  induction xs with
  | nil =>
    intro ys _ _ h
    cases ys with
    | nil => rfl
    | cons y ys =>
      simp at h
      exact absurd h.1 (hne y)
  | cons x xs ih =>
    intro ys hx hy h
    cases ys with
    | nil => simp at h; exact absurd h.1 (hne x)
    | cons y ys =>
      simp only [List.map_cons, List.flatten_cons] at h
      obtain ⟨h1, h2⟩ := hpf _ _ _ _ (hx x (by simp)) (hy y (by simp)) h
      subst h1
      rw [ih ys (fun z hz => hx z (by simp [hz])) (fun z hz => hy z (by simp [hz])) h2]

end Ulam.Leximited
