import Verif.Util.Model
import Verif.Util.Spec
import Mathlib.Tactic.Ring
namespace Ulam.Util

theorem hexVal_hexDigit (d : Nat) (h : d < 16) : hexVal (hexDigit d) = some d := by
  unfold hexVal hexDigit
  by_cases h1 : d < 10
  · rw [if_pos h1, if_pos (by omega)]; congr 1; omega
  · rw [if_neg h1, if_neg (by omega), if_pos (by omega)]; congr 1; omega

theorem hex_small (n : Nat) (h : n < 16) : hex n = [hexDigit n] := by
  rw [hex, if_pos h]

theorem hex_byte (n : Nat) (h1 : 16 ≤ n) (h2 : n < 256) : hex n = [hexDigit (n / 16), hexDigit (n % 16)] := by
  rw [hex, if_neg (by omega), hex_small _ (by omega)]; rfl

theorem unescape_escapeByte (c : Nat) (h : c < 256) (rest : Bytes) :
    unescape (escapeByte c ++ rest) = (unescape rest).map (c :: ·) := by
  unfold escapeByte
  by_cases hg : (isGraph c && decide (c ≠ 37)) = true
  · rw [if_pos hg]
    have hne : c ≠ 37 := by
      simp only [Bool.and_eq_true, decide_eq_true_eq] at hg; exact hg.2
    simp only [List.cons_append, List.nil_append]
    rw [unescape]
    · intro a b s e _; exact hne e
    · intro e; exact hne e
  · rw [if_neg hg]
    have key : (if c < 16 then [48] else []) ++ hex c = [hexDigit (c / 16), hexDigit (c % 16)] := by
      by_cases hc : c < 16
      · rw [if_pos hc, hex_small c hc]
        have h1 : c / 16 = 0 := by omega
        have h2 : c % 16 = c := by omega
        rw [h1, h2]; rfl
      · rw [if_neg hc, hex_byte c (by omega) h]; rfl
    rw [key]
    simp only [List.cons_append, List.nil_append, unescape]
    rw [hexVal_hexDigit _ (by omega), hexVal_hexDigit _ (by omega)]
    simp only
    congr 2
    funext x
    congr 1
    omega

theorem hexDigit_graph (d : Nat) (h : d < 16) : 48 ≤ hexDigit d ∧ hexDigit d ≤ 102 := by
  unfold hexDigit; split <;> omega

theorem hex_graph (n : Nat) : ∀ x ∈ hex n, 48 ≤ x ∧ x ≤ 102 := by
  induction n using Nat.strongRecOn with
  | ind n ih =>
    intro x hx
    rw [hex] at hx
    split at hx
    · next h => simp at hx; subst hx; exact hexDigit_graph n h
    · next h =>
      rcases List.mem_append.mp hx with h1 | h1
      · exact ih (n / 16) (by omega) x h1
      · simp at h1; subst h1; exact hexDigit_graph _ (by omega)

/-- Reading back hexadecimal text. -/
theorem hexValue_hex (n : Nat) : ∀ acc, hexValue acc (hex n) = some (acc * 16 ^ (hex n).length + n) := by
  induction n using Nat.strongRecOn with
  | ind n ih =>
    intro acc
    by_cases h : n < 16
    · rw [hex_small n h]
      simp only [hexValue, hexVal_hexDigit n h, List.length_cons, List.length_nil]
      simp
    · have hx : hex n = hex (n / 16) ++ [hexDigit (n % 16)] := by rw [hex, if_neg h]
      have app : ∀ (a : Bytes) (d acc v : Nat), hexValue acc a = some v → d < 16 →
          hexValue acc (a ++ [hexDigit d]) = some (v * 16 + d) := by
        intro a
        induction a with
        | nil =>
          intro d acc v hv hd
          simp only [hexValue, Option.some.injEq] at hv
          subst hv
          simp [hexValue, hexVal_hexDigit d hd]
        | cons y a iha =>
          intro d acc v hv hd
          simp only [hexValue, List.cons_append] at hv ⊢
          cases hy : hexVal y with
          | none => rw [hy] at hv; simp at hv
          | some z =>
            rw [hy] at hv
            simp only at hv ⊢
            exact iha d _ v hv hd
      rw [hx, app _ (n % 16) acc _ (ih (n / 16) (by omega) acc) (by omega)]
      congr 1
      rw [List.length_append, List.length_singleton, pow_succ]
      have := Nat.div_add_mod n 16
      generalize 16 ^ (hex (n / 16)).length = p
      have e : (acc * p + n / 16) * 16 = acc * (p * 16) + n / 16 * 16 := by ring
      rw [e]
      omega

theorem hex_injective (n m : Nat) (h : hex n = hex m) : n = m := by
  have a := hexValue_hex n 0
  have b := hexValue_hex m 0
  rw [h, b] at a
  simpa using a.symm

/-! ### find -/

theorem find_some {pat s : Bytes} {i : Nat} (h : find pat s = some i) :
    pat <+: s.drop i ∧ i ≤ s.length ∧ ∀ j, j < i → ¬ pat <+: s.drop j := by
  induction s generalizing i with
  | nil =>
    simp only [find] at h
    split at h
    · next hp => simp at h; subst h; subst hp; simp
    · simp at h
  | cons c s ih =>
    simp only [find] at h
    split at h
    · next hp =>
      simp at h; subst h
      exact ⟨by simpa using List.isPrefixOf_iff_prefix.mp hp, by simp, by omega⟩
    · next hp =>
      cases hf : find pat s with
      | none => rw [hf] at h; simp at h
      | some k =>
        rw [hf] at h
        simp at h
        subst h
        obtain ⟨h1, h2, h3⟩ := ih hf
        refine ⟨by simpa using h1, by simp; omega, ?_⟩
        intro j hj
        cases j with
        | zero => simpa using fun hh => hp (List.isPrefixOf_iff_prefix.mpr hh)
        | succ j => simpa using h3 j (by omega)

theorem find_none {pat s : Bytes} (h : find pat s = none) : ∀ j, ¬ pat <+: s.drop j := by
  induction s with
  | nil =>
    simp only [find] at h
    split at h
    · simp at h
    · next hp => intro j; simpa using hp
  | cons c s ih =>
    simp only [find] at h
    split at h
    · simp at h
    · next hp =>
      intro j
      cases j with
      | zero => simpa using fun hh => hp (List.isPrefixOf_iff_prefix.mpr hh)
      | succ j => simpa using ih (by simpa using h) j

theorem occurs_iff {pat s : Bytes} : pat <:+: s ↔ ∃ j, pat <+: s.drop j := by
  constructor
  · rintro ⟨a, b, rfl⟩
    exact ⟨a.length, by simp⟩
  · rintro ⟨j, hj⟩
    exact hj.isInfix.trans (List.drop_suffix j s).isInfix

theorem prefix_drop {a b : Bytes} (h : a <+: b) (j : Nat) : a.drop j <+: b.drop j := by
  obtain ⟨t, rfl⟩ := h
  rw [List.drop_append]
  exact List.prefix_append _ _

theorem findSuffix_eq (s : Bytes) (k : Nat) :
    findSuffix s = k + 1 ↔ ∃ name, s = name ++ suffix ∧ name.length = k + 1 ∧ ¬ suffix <:+: (name ++ suffix.dropLast) := by
  unfold findSuffix
  constructor
  · intro h
    cases hf : find suffix s with
    | none => rw [hf] at h; simp at h
    | some i =>
      rw [hf] at h
      simp only at h
      split at h
      · omega
      · next hne =>
        split at h
        · omega
        · subst h
          obtain ⟨h1, h2, h3⟩ := find_some hf
          have hlen : s.length = (k + 1) + 5 := by omega
          have hdrop : s.drop (k + 1) = suffix := by
            obtain ⟨t, ht⟩ := h1
            have : (s.drop (k + 1)).length = 5 := by simp; omega
            rw [← ht] at this
            simp [suffix] at this
            subst this
            rw [← ht]; simp
          refine ⟨s.take (k + 1), ?_, by simp; omega, ?_⟩
          · rw [← hdrop]; exact (List.take_append_drop _ _).symm
          · intro hi
            obtain ⟨j, hj⟩ := occurs_iff.mp hi
            have hs : s = s.take (k + 1) ++ suffix := by rw [← hdrop]; exact (List.take_append_drop _ _).symm
            have hpre : (s.take (k + 1) ++ suffix.dropLast).drop j <+: s.drop j := by
              conv => rhs; rw [hs]
              refine prefix_drop ?_ j
              exact (List.prefix_append_right_inj _).mpr (List.dropLast_prefix _)
            have hjlt : j < k + 1 := by
              have := hj.length_le
              simp [suffix] at this
              omega
            exact h3 j hjlt (hj.trans hpre)
  · rintro ⟨name, rfl, hl, hno⟩
    cases hf : find suffix (name ++ suffix) with
    | none =>
      have := find_none hf name.length
      simp at this
    | some i =>
      obtain ⟨h1, h2, h3⟩ := find_some hf
      have hle : ¬ name.length < i := by
        intro hlt
        have := h3 name.length hlt
        simp at this
      have hge : i = name.length := by
        by_contra hne
        have hlt : i < name.length := by omega
        apply hno
        refine occurs_iff.mpr ⟨i, ?_⟩
        have e : name ++ suffix = (name ++ suffix.dropLast) ++ [109] := by simp [suffix]
        rw [e, List.drop_append_of_le_length (by simp; omega)] at h1
        refine List.prefix_of_prefix_length_le h1 (List.prefix_append _ _) ?_
        simp [suffix]; omega
      subst hge
      have hs5 : suffix.length = 5 := rfl
      simp only [List.length_append, hs5]
      rw [if_neg (by push_cast; omega), if_neg (by omega)]
      exact hl

end Ulam.Util
