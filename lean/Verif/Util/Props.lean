import Verif.Util.Lemmas
/-
C36: hex escaping is reversible and printable.  C51: which file names are
compiled, and as which class.
-/
namespace Ulam.Util

/-- C36. Percent decoding gives back the original bytes, whatever they are. -/
theorem C36_reversible (s : Bytes) (h : ∀ c ∈ s, c < 256) : unescape (hexEscape s) = some s := by
  induction s with
  | nil => rfl
  | cons c s ih =>
    have : hexEscape (c :: s) = escapeByte c ++ hexEscape s := by simp [hexEscape]
    rw [this, unescape_escapeByte c (h c (by simp)), ih (fun x hx => h x (by simp [hx]))]
    rfl

/-- C36. The output has only printable characters other than space: no blank, newline, control or
non-ASCII byte, so a field escaped this way can be followed by a blank. -/
theorem C36_printable (s : Bytes) (h : ∀ c ∈ s, c < 256) : ∀ x ∈ hexEscape s, 33 ≤ x ∧ x ≤ 126 := by
  intro x hx
  obtain ⟨c, hc, hxc⟩ := List.mem_flatMap.mp hx
  unfold escapeByte at hxc
  split at hxc
  · next hg =>
    simp only [Bool.and_eq_true, isGraph, decide_eq_true_eq] at hg
    simp at hxc; subst hxc; exact hg.1
  · rcases List.mem_cons.mp hxc with e | e
    · omega
    · rcases List.mem_append.mp e with e | e
      · split at e
        · simp at e; omega
        · simp at e
      · have := hex_graph c x e; omega

/-- C36. Different byte strings have different escapes, also when several of them are written one
after the other with a blank after each. -/
theorem C36_fields_distinct (ss ts : List Bytes) (hs : ∀ s ∈ ss, ∀ c ∈ s, c < 256)
    (ht : ∀ t ∈ ts, ∀ c ∈ t, c < 256)
    (h : ss.flatMap (fun s => hexEscape s ++ [32]) = ts.flatMap (fun t => hexEscape t ++ [32])) :
    ss = ts := by
  induction ss generalizing ts with
  | nil =>
    cases ts with
    | nil => rfl
    | cons t ts => simp at h
  | cons s ss ih =>
    cases ts with
    | nil => simp at h
    | cons t ts =>
      simp only [List.flatMap_cons, List.append_assoc] at h
      have hps := C36_printable s (hs s (by simp))
      have hpt := C36_printable t (ht t (by simp))
      have key : ∀ (a b x y : Bytes), (∀ c ∈ a, 33 ≤ c ∧ c ≤ 126) → (∀ c ∈ b, 33 ≤ c ∧ c ≤ 126) →
          a ++ ([32] ++ x) = b ++ ([32] ++ y) → a = b ∧ x = y := by
        intro a
        induction a with
        | nil =>
          intro b x y _ hb e
          cases b with
          | nil => simpa using e
          | cons d b =>
            simp at e
            have := (hb d (by simp)).1
            omega
        | cons c a iha =>
          intro b x y ha hb e
          cases b with
          | nil =>
            simp at e
            have := (ha c (by simp)).1
            omega
          | cons d b =>
            simp only [List.cons_append, List.cons.injEq] at e
            obtain ⟨rfl, e⟩ := e
            obtain ⟨rfl, h2⟩ := iha b x y (fun z hz => ha z (by simp [hz])) (fun z hz => hb z (by simp [hz])) e
            exact ⟨rfl, h2⟩
      obtain ⟨h1, h2⟩ := key _ _ _ _ hps hpt h
      have e : s = t := by
        have a := C36_reversible s (hs s (by simp))
        rw [h1, C36_reversible t (ht t (by simp))] at a
        injection a with a
        exact a.symm
      rw [e, ih ts (fun s' h' => hs s' (by simp [h'])) (fun t' h' => ht t' (by simp [h'])) h2]

/-- A space, a percent sign, a newline and a byte above 127. -/
example : hexEscape [97, 32, 37, 10, 200] = [97, 37, 50, 48, 37, 50, 53, 37, 48, 97, 37, 99, 56] := by
  simp [hexEscape, escapeByte, isGraph, hex, hexDigit]

/-- C51. A file name is accepted exactly when it is a capitalised name followed by ".ulam" in which
".ulam" does not occur any earlier, and the class compiled is then that name. -/
theorem C51_class_name (file name : Bytes) :
    classNameFromFile file = some name ↔
      file = name ++ suffix ∧ (∃ c rest, name = c :: rest ∧ 65 ≤ c ∧ c ≤ 90) ∧
      ¬ suffix <:+: (name ++ suffix.dropLast) := by
  unfold classNameFromFile
  constructor
  · intro h
    simp only at h
    split at h
    · simp at h
    · next hz =>
      obtain ⟨k, hk⟩ := Nat.exists_eq_succ_of_ne_zero hz
      obtain ⟨nm, hf, hl, hno⟩ := (findSuffix_eq file k).mp hk
      have ht : file.take (findSuffix file) = nm := by
        rw [hk, hf]; simp [← hl]
      rw [ht] at h
      cases nm with
      | nil => simp at h
      | cons c rest =>
        simp only at h
        split at h
        · next hu =>
          simp only [Option.some.injEq] at h
          subst h
          simp only [isUpper, decide_eq_true_eq] at hu
          exact ⟨hf, ⟨c, rest, rfl, by omega, by omega⟩, hno⟩
        · simp at h
  · rintro ⟨hf, ⟨c, rest, hn, h1, h2⟩, hno⟩
    have hk : findSuffix file = rest.length + 1 := (findSuffix_eq file rest.length).mpr
      ⟨name, hf, by rw [hn]; rfl, hno⟩
    have ht : file.take (rest.length + 1) = name := by rw [hf, hn]; simp
    simp only [hk, ht]
    rw [if_neg (by omega), hn]
    simp only
    rw [if_pos]
    simp only [isUpper, decide_eq_true_eq]; omega

/-- Only the first occurrence of ".ulam" is looked at: "A.ulam.ulam" is refused although it ends in
".ulam" and starts with a capital. -/
theorem C51_repeated_suffix_refused : classNameFromFile ([65] ++ suffix ++ suffix) = none := by
  decide

example : classNameFromFile ([70, 111, 111] ++ suffix) = some [70, 111, 111] := by decide

/-- C52. The text written for a 64-bit constant determines the constant. -/
theorem C52_hexU64_injective (a b : Nat) (ha : a < 2 ^ 64) (hb : b < 2 ^ 64) (h : hexU64 a = hexU64 b) : a = b := by
  unfold hexU64 at h
  simp only [List.append_assoc] at h
  have h := List.append_cancel_left h
  have key : ∀ (x y r r' : Bytes), (∀ c ∈ x, 48 ≤ c ∧ c ≤ 102) → (∀ c ∈ y, 48 ≤ c ∧ c ≤ 102) →
      ∀ d, d < 48 → x ++ (d :: r) = y ++ (d :: r') → x = y ∧ r = r' := by
    intro x
    induction x with
    | nil =>
      intro y r r' _ hy d hd e
      cases y with
      | nil => simpa using e
      | cons z y =>
        simp at e
        have := (hy z (by simp)).1
        omega
    | cons c x ih =>
      intro y r r' hx hy d hd e
      cases y with
      | nil =>
        simp at e
        have := (hx c (by simp)).1
        omega
      | cons z y =>
        simp only [List.cons_append, List.cons.injEq] at e
        obtain ⟨rfl, e⟩ := e
        obtain ⟨rfl, h2⟩ := ih y r r' (fun q hq => hx q (by simp [hq])) (fun q hq => hy q (by simp [hq])) d hd e
        exact ⟨rfl, h2⟩
  obtain ⟨h1, h2⟩ := key _ _ _ _ (hex_graph _) (hex_graph _) 44 (by omega) h
  have h3 : hex (a % 2 ^ 32) ++ [41] = hex (b % 2 ^ 32) ++ [41] := by simpa using h2
  obtain ⟨h4, _⟩ := key _ _ [] [] (hex_graph _) (hex_graph _) 41 (by omega) h3
  have e1 := hex_injective _ _ h1
  have e2 := hex_injective _ _ h4
  omega

/-- C52. The two words can be read back. -/
theorem C52_hexU64_value (a : Nat) (ha : a < 2 ^ 64) : ∃ hi lo x y, hexU64 a =
      [72, 101, 120, 85, 54, 52, 40, 48, 120] ++ hi ++ [44, 32, 48, 120] ++ lo ++ [41] ∧
    hexValue 0 hi = some x ∧ hexValue 0 lo = some y ∧ x < 2 ^ 32 ∧ y < 2 ^ 32 ∧ a = x * 2 ^ 32 + y := by
  refine ⟨_, _, a / 2 ^ 32 % 2 ^ 32, a % 2 ^ 32, rfl, ?_, ?_, by omega, by omega, by omega⟩
  · rw [hexValue_hex]; simp
  · rw [hexValue_hex]; simp

example : hexU64 0x123456789 = [72, 101, 120, 85, 54, 52, 40, 48, 120, 49, 44, 32, 48, 120, 50, 51, 52, 53, 54, 55, 56, 57, 41] := by
  simp [hexU64, hexU64Head, hex, hexDigit]

end Ulam.Util
