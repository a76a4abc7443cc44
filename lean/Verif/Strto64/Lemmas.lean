import Verif.Strto64.Model
import Verif.Strto64.Spec
import Mathlib.Tactic.ByContra

namespace Ulam.Strto64
open Spec

/-- The bytes of an ASCII C string: no terminator inside, none negative as `char`. -/
def Ascii (s : List Nat) : Prop := ∀ b ∈ s, 0 < b ∧ b < 128

theorem read_ascii {b : Nat} {r : List Nat} (h : 0 < b ∧ b < 128) :
    read (b :: r) = (((toLower b : Nat) : Int), r) := by
  simp [read, show b ≠ 0 by omega, h.2]

theorem toLower_cases (b : Nat) : (65 ≤ b ∧ b ≤ 90 ∧ toLower b = b + 32) ∨ ((b < 65 ∨ 90 < b) ∧ toLower b = b) := by
  unfold toLower
  by_cases h : 65 ≤ b ∧ b ≤ 90
  · left; rw [if_pos h]; omega
  · right; rw [if_neg h]; omega

theorem digitVal_of_isDigit {base b d : Nat} (hb : 2 ≤ base) (hb' : base ≤ 36) (h : IsDigit base b d) :
    digitVal base (toLower b : Nat) = d ∧ d < base := by
  have hb0 : base ≠ 0 := by omega
  cases h with
  | dec h1 h2 h3 =>
    rcases toLower_cases b with h | h
    · omega
    · rw [h.2]
      unfold digitVal
      simp only [hb0, if_false]
      rw [if_neg (by omega), if_neg (by omega)]
      by_cases hle : (base : Int) ≤ 10 ∨ (b : Int) ≤ 57
      · rw [if_pos hle, if_neg (by omega)]; omega
      · omega
  | lower h1 h2 h3 =>
    rcases toLower_cases b with h | h
    · omega
    · rw [h.2]
      unfold digitVal
      simp only [hb0, if_false]
      rw [if_neg (by omega), if_neg (by omega), if_neg (by omega), if_neg (by omega)]
      omega
  | upper h1 h2 h3 =>
    rcases toLower_cases b with h | h
    · rw [h.2.2]
      unfold digitVal
      simp only [hb0, if_false]
      rw [if_neg (by omega), if_neg (by omega), if_neg (by omega), if_neg (by omega)]
      omega
    · omega

theorem isDigit_of_digitVal {base b : Nat} (hb : 2 ≤ base) (hb' : base ≤ 36)
    (h : 0 ≤ digitVal base (toLower b : Nat)) :
    IsDigit base b (digitVal base (toLower b : Nat)).toNat := by
  have hb0 : base ≠ 0 := by omega
  unfold digitVal at h ⊢
  simp only [hb0, if_false] at h ⊢
  rcases toLower_cases b with hl | hl
  · obtain ⟨h1, h2, h3⟩ := hl
    rw [h3] at h ⊢
    split at h
    · omega
    · rename_i h4
      split at h
      · omega
      · rename_i h5
        split at h
        · split at h <;> omega
        · rename_i h6
          split at h
          · omega
          · rename_i h7
            rw [if_neg h4, if_neg h5, if_neg h6, if_neg h7]
            have : ((((b + 32 : Nat) : Int)) - 97 + 10).toNat = b - 55 := by omega
            rw [this]
            exact .upper h1 h2 (by omega)
  · obtain ⟨h1, h3⟩ := hl
    rw [h3] at h ⊢
    split at h
    · omega
    · rename_i h4
      split at h
      · omega
      · rename_i h5
        split at h
        · rename_i h6
          split at h
          · omega
          · rename_i h7
            rw [if_neg h4, if_neg h5, if_pos h6, if_neg h7]
            have : ((b : Int) - 48).toNat = b - 48 := by omega
            rw [this]
            exact .dec (by omega) (by omega) (by omega)
        · rename_i h6
          split at h
          · omega
          · rename_i h7
            rw [if_neg h4, if_neg h5, if_neg h6, if_neg h7]
            have : ((b : Int) - 97 + 10).toNat = b - 87 := by omega
            rw [this]
            exact .lower (by omega) (by omega) (by omega)

theorem digits_length {base ds cs} (h : Digits base ds cs) : ds.length = cs.length := by
  induction h with
  | nil => rfl
  | cons _ _ ih => simp [ih]

/-- The code's overflow test is exact. -/
theorem overflow_test {base acc v : Nat} (hb : 2 ≤ base) (hacc : acc < M) (hv : v < base) (hbM : base ≤ 36) :
    ((acc * base + v) % M / base = acc ↔ acc * base + v < M) ∧
    (acc * base + v < M → (acc * base + v) % M = acc * base + v) := by
  have hM : M = 18446744073709551616 := rfl
  constructor
  · constructor
    · intro h
      by_contra hc
      have h1 : (acc * base + v) % M ≤ acc * base + v - M := by
        have h2 : (acc * base + v) % M = (acc * base + v - M) % M := Nat.mod_eq_sub_mod (by omega)
        rw [h2]; exact Nat.mod_le _ _
      have h3 : acc * base ≤ (acc * base + v) % M := by
        have := Nat.div_mul_le_self ((acc * base + v) % M) base
        rw [h] at this; exact this
      omega
    · intro h
      rw [Nat.mod_eq_of_lt h, Nat.mul_comm, Nat.mul_add_div (by omega), Nat.div_eq_of_lt hv]
      omega
  · intro h; exact Nat.mod_eq_of_lt h

theorem value_cons (base d : Nat) (ds : List Nat) : value base (d :: ds) = d * base ^ ds.length + value base ds := rfl

theorem suffix_ascii_end {t : List Nat} (h : Suffix t) : t = [] ∨ ∃ c, t = [c] ∧ toLower c = 117 ∧ 0 < c ∧ c < 128 := by
  cases h
  · left; rfl
  · right; exact ⟨117, rfl, rfl, by omega, by omega⟩
  · right; exact ⟨85, rfl, rfl, by omega, by omega⟩

theorem suffix_of_lower {c : Nat} (h : toLower c = 117) : Suffix [c] := by
  rcases toLower_cases c with h' | h'
  · have : c = 85 := by omega
    subst this; exact .U
  · have : c = 117 := by omega
    subst this; exact .u

theorem read_nonneg_iff {s : List Nat} (hs : Ascii s) : (read s).1 ≥ 0 ↔ s ≠ [] := by
  cases s with
  | nil => simp [read]
  | cons b r => rw [read_ascii (hs b (by simp))]; simp

theorem Ascii.tail {b : Nat} {r : List Nat} (h : Ascii (b :: r)) : Ascii r := fun x hx => h x (by simp [hx])
theorem Ascii.head {b : Nat} {r : List Nat} (h : Ascii (b :: r)) : 0 < b ∧ b < 128 := h b (by simp)

theorem isDigit_ne_u {base c d : Nat} (hb' : base ≤ 16) (h : IsDigit base c d) : toLower c ≠ 117 := by
  intro hc
  cases h <;> rcases toLower_cases c with h' | h' <;> omega

/-- `parseDigits` accepts exactly digit strings with an optional `u` whose value fits in 64 bits. -/
theorem parseDigits_sound {base : Nat} (hb : 2 ≤ base) (hb' : base ≤ 16) :
    ∀ (s : List Nat) (acc r : Nat), Ascii s → acc < M → parseDigits base acc s = .ok r →
      ∃ ds cs t, s = cs ++ t ∧ Digits base ds cs ∧ Suffix t ∧
        r = acc * base ^ ds.length + value base ds ∧ r < M := by
  intro s
  induction s with
  | nil =>
    intro acc r _ hacc h
    simp [parseDigits] at h
    exact ⟨[], [], [], rfl, .nil, .none, by simp [value, h], by omega⟩
  | cons b rest ih =>
    intro acc r ha hacc h
    have hh := ha.head
    rw [parseDigits] at h
    simp only [read_ascii hh] at h
    rw [if_neg (by omega)] at h
    split at h
    · rename_i hu
      split at h
      · exact absurd h (by simp)
      · rename_i hne
        have : rest = [] := by
          by_contra hc
          exact hne ((read_nonneg_iff ha.tail).2 hc)
        subst this
        simp at h
        exact ⟨[], [], [b], rfl, .nil, suffix_of_lower (by omega), by simp [value, h], by omega⟩
    · split at h
      · exact absurd h (by simp)
      · rename_i hval
        split at h
        · exact absurd h (by simp)
        · rename_i hov
          have hd := isDigit_of_digitVal hb (by omega) (b := b) (by omega)
          have hlt := (digitVal_of_isDigit hb (by omega) hd).2
          have hov' := (overflow_test hb hacc hlt (by omega)).1.1 (by simpa using hov)
          have hmod := (overflow_test hb hacc hlt (by omega)).2 hov'
          rw [hmod] at h
          obtain ⟨ds, cs, t, h1, h2, h3, h4, h5⟩ := ih _ _ ha.tail hov' h
          refine ⟨_ :: ds, b :: cs, t, by rw [h1]; rfl, .cons hd h2, h3, ?_, h5⟩
          rw [h4, value_cons]
          simp only [List.length_cons, Nat.pow_succ]
          rw [Nat.add_mul, Nat.mul_assoc, Nat.mul_comm base, Nat.add_assoc]

theorem parseDigits_complete {base : Nat} (hb : 2 ≤ base) (hb' : base ≤ 16) :
    ∀ (ds cs t : List Nat) (acc : Nat), Digits base ds cs → Suffix t → Ascii (cs ++ t) → acc < M →
      acc * base ^ ds.length + value base ds < M →
      parseDigits base acc (cs ++ t) = .ok (acc * base ^ ds.length + value base ds) := by
  intro ds
  induction ds with
  | nil =>
    intro cs t acc hd ht ha hacc hlt
    cases hd
    rcases suffix_ascii_end ht with rfl | ⟨c, rfl, hc, hc'⟩
    · simp [parseDigits, value]
    · simp only [List.nil_append, parseDigits]
      simp only [read_ascii hc', hc]
      simp [read, value]
  | cons d ds ih =>
    intro cs t acc hd ht ha hacc hlt
    cases hd with
    | @cons _ _ c cs' hdig hrest =>
      have hh := ha.head
      have hv := digitVal_of_isDigit hb (by omega) hdig
      have hnu := isDigit_ne_u hb' hdig
      have hpow : 0 < base ^ ds.length := Nat.pow_pos (by omega)
      have heq : acc * base ^ (d :: ds).length + value base (d :: ds) =
          (acc * base + d) * base ^ ds.length + value base ds := by
        rw [value_cons]
        simp only [List.length_cons, Nat.pow_succ]
        rw [Nat.add_mul, Nat.mul_assoc, Nat.mul_comm base, Nat.add_assoc]
      have hlt' : acc * base + d < M := by
        have h1 : (acc * base + d) * 1 ≤ (acc * base + d) * base ^ ds.length := Nat.mul_le_mul_left _ hpow
        omega
      have hov := (overflow_test hb hacc hv.2 (by omega)).1.2 hlt'
      have hmod := (overflow_test hb hacc hv.2 (by omega)).2 hlt'
      simp only [List.cons_append, parseDigits]
      simp only [read_ascii hh]
      rw [if_neg (by omega), if_neg (by omega), hv.1, if_neg (by omega)]
      simp only [Int.toNat_natCast]
      rw [if_neg (by simpa using hov), hmod, ih _ _ _ hrest ht ha.tail hlt' (by omega), heq]

theorem isSpace_iff (b : Nat) (h : b < 128) : isSpace ((toLower b : Nat) : Int) = true ↔ IsWs b := by
  unfold isSpace IsWs
  rcases toLower_cases b with h' | h'
  · rw [h'.2.2]; simp; omega
  · rw [h'.2]; simp; omega

theorem parseSign_ws (sg : Int) : ∀ (w t : List Nat), (∀ c ∈ w, IsWs c) → parseSign sg (w ++ t) = parseSign sg t := by
  intro w
  induction w with
  | nil => intro t _; rfl
  | cons b w ih =>
    intro t hw
    have hb := hw b (by simp)
    have hb' : 0 < b ∧ b < 128 := by unfold IsWs at hb; omega
    rw [List.cons_append, parseSign]
    simp only [read_ascii hb']
    rw [if_neg (by omega), if_pos ((isSpace_iff b hb'.2).2 hb)]
    exact ih t (fun c hc => hw c (by simp [hc]))

/-- A character that starts a literal body: not white space, not a sign. -/
def Starts (b : Nat) : Prop := 0 < b ∧ b < 128 ∧ ¬ IsWs b ∧ b ≠ 43 ∧ b ≠ 45

theorem toLower_eq_small {b k : Nat} (hk : k < 65) : toLower b = k ↔ b = k := by
  rcases toLower_cases b with h' | h' <;> omega

theorem parseSign_stop (sg : Int) {b : Nat} {r : List Nat} (h : Starts b) :
    parseSign sg (b :: r) = .ok (sg, b :: r) := by
  obtain ⟨h1, h2, h3, h4, h5⟩ := h
  rw [parseSign]
  simp only [read_ascii ⟨h1, h2⟩]
  rw [if_neg (by omega), if_neg (by rw [isSpace_iff b h2]; exact h3), if_neg, if_neg]
  · intro hc; exact h5 ((toLower_eq_small (by omega)).1 (by omega))
  · intro hc; exact h4 ((toLower_eq_small (by omega)).1 (by omega))

theorem parseSign_complete {s body : List Nat} {neg : Bool} (h : Signed s neg body)
    (hb : ∃ b r, body = b :: r ∧ Starts b) :
    ∃ sg : Int, parseSign 0 s = .ok (sg, body) ∧ (sg < 0 ↔ neg = true) ∧ (-1 ≤ sg ∧ sg ≤ 1) := by
  obtain ⟨b, r, rfl, hst⟩ := hb
  cases h with
  | plain hw =>
    refine ⟨0, ?_, by simp, by omega⟩
    rw [parseSign_ws _ _ _ hw, parseSign_stop _ hst]
  | plus hw hw' =>
    refine ⟨1, ?_, by simp, by omega⟩
    rw [parseSign_ws _ _ _ hw, parseSign]
    simp only [read_ascii (show 0 < 43 ∧ 43 < 128 by omega)]
    simp only [show toLower 43 = 43 from rfl]
    simp [isSpace, parseSign_ws _ _ _ hw', parseSign_stop _ hst]
  | minus hw hw' =>
    refine ⟨-1, ?_, by simp, by omega⟩
    rw [parseSign_ws _ _ _ hw, parseSign]
    simp only [read_ascii (show 0 < 45 ∧ 45 < 128 by omega)]
    simp only [show toLower 45 = 45 from rfl]
    simp [isSpace, parseSign_ws _ _ _ hw', parseSign_stop _ hst]

theorem parseSign_sound1 (sg : Int) (hsg : sg ≠ 0) : ∀ (s body : List Nat) (sg' : Int), Ascii s →
    parseSign sg s = .ok (sg', body) → sg' = sg ∧ ∃ w, s = w ++ body ∧ ∀ c ∈ w, IsWs c := by
  intro s
  induction s with
  | nil => intro body sg' _ h; simp [parseSign] at h
  | cons b r ih =>
    intro body sg' ha h
    have hh := ha.head
    rw [parseSign] at h
    simp only [read_ascii hh] at h
    rw [if_neg (by omega)] at h
    split at h
    · rename_i hsp
      obtain ⟨h1, w, h2, h3⟩ := ih body sg' ha.tail h
      refine ⟨h1, b :: w, by rw [h2]; rfl, ?_⟩
      intro c hc
      simp at hc
      rcases hc with rfl | hc
      · exact (isSpace_iff _ hh.2).1 hsp
      · exact h3 c hc
    · split at h
      · split at h
        · simp at h
        · split at h
          · simp at h
          · omega
      · split at h
        · split at h
          · simp at h
          · split at h
            · simp at h
            · omega
        · simp at h
          obtain ⟨h1, h2⟩ := h
          exact ⟨h1.symm, [], by simp [h2], by simp⟩

theorem parseSign_sound : ∀ (s body : List Nat) (sg : Int), Ascii s →
    parseSign 0 s = .ok (sg, body) → ∃ neg, Signed s neg body ∧ (sg < 0 ↔ neg = true) := by
  intro s
  induction s with
  | nil => intro body sg _ h; simp [parseSign] at h
  | cons b r ih =>
    intro body sg ha h
    have hh := ha.head
    rw [parseSign] at h
    simp only [read_ascii hh] at h
    rw [if_neg (by omega)] at h
    split at h
    · rename_i hsp
      have hws := (isSpace_iff _ hh.2).1 hsp
      obtain ⟨neg, h1, h2⟩ := ih body sg ha.tail h
      refine ⟨neg, ?_, h2⟩
      have ext : ∀ w : List Nat, (∀ c ∈ w, IsWs c) → ∀ c ∈ b :: w, IsWs c := by
        intro w hw c hc
        simp at hc
        rcases hc with rfl | hc
        · exact hws
        · exact hw c hc
      cases h1 with
      | @plain w _ hw => exact .plain (w := b :: w) (ext w hw)
      | @plus w _ _ hw hw' => exact .plus (w := b :: w) (ext w hw) hw'
      | @minus w _ _ hw hw' => exact .minus (w := b :: w) (ext w hw) hw'
    · split at h
      · rename_i h43
        have : b = 43 := (toLower_eq_small (by omega)).1 (by omega)
        subst this
        rw [if_neg (by omega), if_neg (by omega)] at h
        obtain ⟨h1, w, h2, h3⟩ := parseSign_sound1 1 (by omega) _ _ _ ha.tail h
        subst h1; rw [h2]
        exact ⟨false, .plus (w := []) (by simp) h3, by simp⟩
      · split at h
        · rename_i h45
          have : b = 45 := (toLower_eq_small (by omega)).1 (by omega)
          subst this
          rw [if_neg (by omega), if_neg (by omega)] at h
          obtain ⟨h1, w, h2, h3⟩ := parseSign_sound1 (-1) (by omega) _ _ _ ha.tail h
          subst h1; rw [h2]
          exact ⟨true, .minus (w := []) (by simp) h3, by simp⟩
        · simp at h
          obtain ⟨h1, h2⟩ := h
          subst h1; subst h2
          exact ⟨false, .plain (w := []) (by simp), by simp⟩

theorem signed_ascii {s body : List Nat} {neg : Bool} (h : Signed s neg body) (ha : Ascii s) : Ascii body := by
  cases h <;> intro c hc <;> apply ha <;> simp [hc]

/-- The unsigned part of the parse. -/
def parseBody (sg : Int) (s1 : List Nat) : Res Nat :=
  match parseBase sg s1 with
  | .error e => .error e
  | .ok .zero => .ok 0
  | .ok (.go base s2) => parseDigits base 0 s2

theorem M_pos : 0 < M := by unfold M; omega

theorem digitVal0_eq (b : Nat) : digitVal 0 b = digitVal 10 b := by
  simp [digitVal]

theorem parseBase_ok {sg : Int} {s : List Nat} {res : BaseRes} (ha : Ascii s) (h : parseBase sg s = .ok res) :
    (∃ t, s = 48 :: t ∧ Suffix t ∧ res = .zero) ∨
    (∃ d, ∃ c r, s = c :: r ∧ 1 ≤ d ∧ IsDigit 10 c d ∧ res = .go 10 s) ∨
    (∃ x r, s = 48 :: x :: r ∧ (x = 120 ∨ x = 88) ∧ res = .go 16 r) ∨
    (∃ x r, s = 48 :: x :: r ∧ (x = 98 ∨ x = 66) ∧ res = .go 2 r) ∨
    (∃ c r, s = 48 :: c :: r ∧ 48 ≤ c ∧ c ≤ 55 ∧ res = .go 8 (c :: r)) := by
  cases s with
  | nil =>
    simp [parseBase, read, digitVal] at h
    split at h
    · simp at h
    · split at h <;> simp at h
  | cons b r =>
    have hh := ha.head
    unfold parseBase at h
    simp only [read_ascii hh, digitVal0_eq] at h
    split at h
    · split at h
      · simp at h
      · split at h <;> simp at h
    · rename_i hv
      have hd := isDigit_of_digitVal (base := 10) (by omega) (by omega) (b := b) (by omega)
      split at h
      · rename_i h19
        right; left
        simp at h
        exact ⟨_, b, r, rfl, by omega, hd, h.symm⟩
      · rename_i h19
        split at h
        · simp at h
        · rename_i h0
          have hb48 : b = 48 := by
            have h0' : digitVal 10 ((toLower b : Nat) : Int) = 0 := by simpa using h0
            generalize hz : (digitVal 10 ((toLower b : Nat) : Int)).toNat = z at hd
            have hz0 : z = 0 := by omega
            cases hd <;> omega
          subst hb48
          cases r with
          | nil =>
            simp [read] at h
            left
            exact ⟨[], rfl, .none, h.symm⟩
          | cons c r =>
            have hc := ha.tail.head
            simp only [read_ascii hc] at h
            split at h
            · rename_i hcu
              split at h
              · simp at h
              · rename_i hne
                have : r = [] := by
                  by_contra hcc
                  exact hne ((read_nonneg_iff ha.tail.tail).2 hcc)
                subst this
                left
                simp at h
                exact ⟨[c], rfl, suffix_of_lower (by omega), h.symm⟩
            · split at h
              · rename_i hx
                right; right; left
                simp at h
                refine ⟨c, r, rfl, ?_, h.symm⟩
                rcases toLower_cases c with h' | h' <;> omega
              · split at h
                · right; right; right; left
                  simp at h
                  refine ⟨c, r, rfl, ?_, h.symm⟩
                  rcases toLower_cases c with h' | h' <;> omega
                · split at h
                  · right; right; right; right
                    simp at h
                    refine ⟨c, r, rfl, ?_, ?_, h.symm⟩
                    · rcases toLower_cases c with h' | h' <;> omega
                    · rcases toLower_cases c with h' | h' <;> omega
                  · simp at h

theorem parseBody_sound {sg : Int} {s : List Nat} {n : Nat} (ha : Ascii s) (h : parseBody sg s = .ok n) :
    Body s n ∧ n < M := by
  unfold parseBody at h
  split at h
  · simp at h
  · rename_i hb
    rcases parseBase_ok ha hb with ⟨t, rfl, ht, _⟩ | ⟨d, c, r, rfl, _, _, h'⟩ | ⟨x, r, rfl, _, h'⟩ | ⟨x, r, rfl, _, h'⟩ | ⟨c, r, rfl, _, _, h'⟩
    · simp at h; subst h; exact ⟨.zero ht, M_pos⟩
    all_goals simp at h'
  · rename_i base s2 hb
    rcases parseBase_ok ha hb with ⟨t, rfl, ht, h'⟩ | ⟨d, c, r, rfl, hd1, hd, h'⟩ | ⟨x, r, rfl, hx, h'⟩ | ⟨x, r, rfl, hx, h'⟩ | ⟨c, r, rfl, hc1, hc2, h'⟩
    · simp at h'
    · simp at h'
      obtain ⟨rfl, rfl⟩ := h'
      obtain ⟨ds, cs, t, h1, h2, h3, h4, h5⟩ := parseDigits_sound (by omega) (by omega) _ _ _ ha M_pos h
      cases h2 with
      | nil =>
        simp at h1
        subst h1
        have := isDigit_ne_u (by omega) hd
        rcases suffix_ascii_end h3 with h6 | ⟨c', h6, h7, _⟩
        · simp at h6
        · simp at h6
          obtain ⟨rfl, _⟩ := h6
          exact absurd h7 this
      | @cons d' ds' c' cs' hd' hr =>
        simp at h1
        obtain ⟨rfl, rfl⟩ := h1
        have hdd : d' = d := by
          have e1 := (digitVal_of_isDigit (by omega) (by omega) hd).1
          have e2 := (digitVal_of_isDigit (by omega) (by omega) hd').1
          omega
        subst hdd
        simp at h4
        subst h4
        exact ⟨.decimal (cs := c :: cs') hd1 (.cons hd' hr) h3, h5⟩
    · simp at h'
      obtain ⟨rfl, rfl⟩ := h'
      obtain ⟨ds, cs, t, h1, h2, h3, h4, h5⟩ := parseDigits_sound (by omega) (by omega) _ _ _ ha.tail.tail M_pos h
      simp at h4
      subst h4; subst h1
      exact ⟨.hex hx h2 h3, h5⟩
    · simp at h'
      obtain ⟨rfl, rfl⟩ := h'
      obtain ⟨ds, cs, t, h1, h2, h3, h4, h5⟩ := parseDigits_sound (by omega) (by omega) _ _ _ ha.tail.tail M_pos h
      simp at h4
      subst h4; subst h1
      exact ⟨.binary hx h2 h3, h5⟩
    · simp at h'
      obtain ⟨rfl, rfl⟩ := h'
      obtain ⟨ds, cs, t, h1, h2, h3, h4, h5⟩ := parseDigits_sound (by omega) (by omega) _ _ _ ha.tail M_pos h
      simp at h4
      subst h4
      cases h2 with
      | nil =>
        simp at h1
        subst h1
        rcases suffix_ascii_end h3 with h6 | ⟨c', h6, h7, _⟩
        · simp at h6
        · simp at h6
          obtain ⟨rfl, _⟩ := h6
          rcases toLower_cases c with h' | h' <;> omega
      | @cons d' ds' c' cs' hd' hr =>
        rw [h1]
        exact ⟨.octal (.cons hd' hr) h3, h5⟩

theorem body_starts {s : List Nat} {n : Nat} (h : Body s n) (ha : Ascii s) : ∃ b r, s = b :: r ∧ Starts b := by
  have h48 : Starts 48 := by unfold Starts IsWs; omega
  cases h with
  | zero => exact ⟨_, _, rfl, h48⟩
  | hex => exact ⟨_, _, rfl, h48⟩
  | binary => exact ⟨_, _, rfl, h48⟩
  | octal => exact ⟨_, _, rfl, h48⟩
  | decimal h1 h2 h3 =>
    cases h2 with
    | @cons _ _ c cs hd _ =>
      refine ⟨c, _, rfl, ?_⟩
      unfold Starts IsWs
      cases hd <;> omega

theorem parseBody_complete {sg : Int} {s : List Nat} {n : Nat} (ha : Ascii s) (h : Body s n) (hn : n < M) :
    parseBody sg s = .ok n := by
  cases h with
  | zero ht =>
    cases ht <;> simp [parseBody, parseBase, read, digitVal, toLower]
  | @decimal d ds cs t h1 h2 h3 =>
    have hcomp := parseDigits_complete (by omega) (by omega) (d :: ds) cs t 0 h2 h3 ha M_pos (by simpa using hn)
    cases h2 with
    | @cons _ _ c cs hd hr =>
      have hv := digitVal_of_isDigit (by omega) (by omega) hd
      have hb : parseBase sg (c :: cs ++ t) = .ok (.go 10 (c :: cs ++ t)) := by
        unfold parseBase
        simp only [List.cons_append, read_ascii ha.head, digitVal0_eq, hv.1]
        rw [if_neg (by omega), if_pos (by omega)]
      unfold parseBody
      rw [hb]
      simp only
      rw [hcomp]
      simp
  | @hex x ds cs t hx h2 h3 =>
    have hcomp := parseDigits_complete (by omega) (by omega) ds cs t 0 h2 h3 ha.tail.tail M_pos (by simpa using hn)
    have hb : parseBase sg (48 :: x :: (cs ++ t)) = .ok (.go 16 (cs ++ t)) := by
      have hl : toLower x = 120 := by rcases hx with rfl | rfl <;> rfl
      simp [parseBase, read_ascii ha.head, read_ascii ha.tail.head, digitVal, show toLower 48 = 48 from rfl, hl]
    unfold parseBody
    rw [hb]
    simp only
    rw [hcomp]
    simp
  | @binary x ds cs t hx h2 h3 =>
    have hcomp := parseDigits_complete (by omega) (by omega) ds cs t 0 h2 h3 ha.tail.tail M_pos (by simpa using hn)
    have hb : parseBase sg (48 :: x :: (cs ++ t)) = .ok (.go 2 (cs ++ t)) := by
      have hl : toLower x = 98 := by rcases hx with rfl | rfl <;> rfl
      simp [parseBase, read_ascii ha.head, read_ascii ha.tail.head, digitVal, show toLower 48 = 48 from rfl, hl]
    unfold parseBody
    rw [hb]
    simp only
    rw [hcomp]
    simp
  | @octal d ds cs t h2 h3 =>
    have hcomp := parseDigits_complete (by omega) (by omega) (d :: ds) cs t 0 h2 h3 ha.tail M_pos (by simpa using hn)
    cases h2 with
    | @cons _ _ c cs hd hr =>
      have hc8 : 48 ≤ c ∧ c ≤ 55 := by cases hd <;> omega
      have hl : toLower c = c := by rcases toLower_cases c with h' | h' <;> omega
      have hb : parseBase sg (48 :: (c :: cs ++ t)) = .ok (.go 8 (c :: cs ++ t)) := by
        unfold parseBase
        simp only [List.cons_append, read_ascii ha.head, read_ascii ha.tail.head, digitVal0_eq, show toLower 48 = 48 from rfl, hl]
        rw [show digitVal 10 ((48 : Nat) : Int) = 0 from rfl]
        rw [if_neg (by omega), if_neg (by omega), if_neg (by omega), if_neg (by omega), if_neg (by omega), if_neg (by omega), if_pos (by omega)]
      unfold parseBody
      rw [hb]
      simp only
      rw [hcomp]
      simp

/-- `parse` in terms of its three stages; the `0`/`0u` short cut skips the range check, which is harmless when the check
accepts 0 as 0. -/
theorem parse_eq {check : Int → Nat → Res Nat} (h0 : ∀ sg, check sg 0 = .ok 0) (s : List Nat) :
    parse check s = match parseSign 0 s with
      | .error e => .error e
      | .ok (sg, s1) => match parseBody sg s1 with
        | .error e => .error e
        | .ok n => check sg n := by
  unfold parse parseBody
  cases parseSign 0 s with
  | error e => rfl
  | ok p =>
    obtain ⟨sg, s1⟩ := p
    simp only
    cases parseBase sg s1 with
    | error e => rfl
    | ok b => cases b with
      | zero => simp [h0]
      | go base s2 =>
        simp only
        cases parseDigits base 0 s2 <;> rfl

/-- The full characterisation of `parse` by the specification. -/
theorem parse_iff {check : Int → Nat → Res Nat} (h0 : ∀ sg, check sg 0 = .ok 0)
    (hneg : ∀ sg sg' n, (sg < 0 ↔ sg' < 0) → check sg n = check sg' n) (s : List Nat) (ha : Ascii s) (v : Nat) :
    parse check s = .ok v ↔
      ∃ neg n, Denotes s neg n ∧ n < M ∧ check (if neg then -1 else 0) n = .ok v := by
  rw [parse_eq h0]
  constructor
  · intro h
    split at h
    · simp at h
    · rename_i sg s1 hs
      obtain ⟨neg, h1, h2⟩ := parseSign_sound _ _ _ ha hs
      split at h
      · simp at h
      · rename_i n hn
        obtain ⟨h3, h4⟩ := parseBody_sound (signed_ascii h1 ha) hn
        refine ⟨neg, n, ⟨s1, h1, h3⟩, h4, ?_⟩
        rw [hneg _ sg n]
        · exact h
        · rw [h2]; cases neg <;> simp
  · rintro ⟨neg, n, ⟨body, h1, h2⟩, hn, hc⟩
    have hab := signed_ascii h1 ha
    obtain ⟨sg, h3, h4, _⟩ := parseSign_complete h1 (body_starts h2 hab)
    rw [h3]
    simp only
    rw [parseBody_complete hab h2 hn]
    simp only
    rw [hneg _ (if neg then -1 else 0) n]
    · exact hc
    · rw [h4]; cases neg <;> simp

end Ulam.Strto64
