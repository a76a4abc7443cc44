import Verif.ValText.Model
import Verif.Leximited.Props
import Verif.Types.Lemmas
import Mathlib.Data.List.SplitOn
import Mathlib.Tactic.Ring
import Mathlib.Tactic.Linarith
/-! # C116 - C118: values as text -/
namespace Ulam.ValText
open Ulam.Leximited
open Ulam.Types (Base)
open Ulam.Types.Spec (twos ones truth number)

/-! ### Reading (specification) -/

/-- The value of a digit, decimal or hexadecimal. -/
def digitVal (c : Char) : Nat := if c.toNat < 58 then c.toNat - 48 else c.toNat - 87

/-- A row of digits in a base. -/
def readDigits (base : Nat) (s : Str) : Nat := s.foldl (fun a c => base * a + digitVal c) 0

/-- A number without a sign: hexadecimal after `0x`, decimal otherwise; a `u` at its end does not count. -/
def readNat : Str → Nat
  | '0' :: 'x' :: t => readDigits 16 t
  | t => readDigits 10 (if t.getLast? = some 'u' then t.dropLast else t)

/-- A literal: `true` and `false` are 1 and 0, a minus may precede a number. -/
def readLit (s : Str) : Int :=
  if s = "true".toList then 1 else if s = "false".toList then 0
  else match s with
    | '-' :: t => - (readNat t : Int)
    | t => readNat t

/-- The items of a list between braces in C++: split at commas, blanks do not count. -/
def readItems (s : Str) : List Nat :=
  if s.filter (· ≠ ' ') = [] then [] else ((s.filter (· ≠ ' ')).splitOn ',').map readNat

/-- The elements of a C++ array of size `n` initialized with such a list: the items, then zeros; no more items than elements. -/
def IsArray (s : Str) (n : Nat) (ws : List Nat) : Prop :=
  (readItems s).length ≤ max n 1 ∧ ∀ i < n, (readItems s).getD i 0 = ws.getD i 0

/-- The number of words that hold so many bits, and no more. -/
def Holds (bits n : Nat) : Prop := bits ≤ 32 * n ∧ 32 * n < bits + 32

theorem nwords_holds {bits n : Nat} : Holds bits n ↔ n = nwords bits := by
  unfold Holds nwords; omega

theorem lt_nwords {bits i : Nat} : i < nwords bits ↔ 32 * i < bits := by
  unfold nwords; omega

/-! ### Digits -/

theorem readDigits_append (base : Nat) (s : Str) (c : Char) : readDigits base (s ++ [c]) = base * readDigits base s + digitVal c := by
  unfold readDigits; rw [List.foldl_append]; rfl

theorem digitVal_digit (d : Nat) : digitVal (digit d) = d % 10 := by
  have := digit_toNat d
  unfold digitVal
  rw [this, if_pos (by omega)]
  omega

theorem hexChar_toNat (n : Nat) : (hexChar n).toNat = if n % 16 < 10 then 48 + n % 16 else 87 + n % 16 := by
  have : ∀ k < 16, (hexChar k).toNat = if k < 10 then 48 + k else 87 + k := by decide
  have h : hexChar n = hexChar (n % 16) := by unfold hexChar; rw [Nat.mod_mod]
  rw [h, this _ (Nat.mod_lt _ (by decide))]

theorem digitVal_hexChar (n : Nat) : digitVal (hexChar n) = n % 16 := by
  unfold digitVal
  rw [hexChar_toNat]
  split_ifs <;> omega

theorem readDigits_dec (n : Nat) : readDigits 10 (dec n) = n := by
  induction n using Nat.strongRecOn with
  | ind n ih =>
    rw [dec]
    split
    · show 10 * 0 + digitVal (digit n) = n
      rw [digitVal_digit]; omega
    · rw [readDigits_append, ih _ (by omega), digitVal_digit]; omega

theorem readDigits_hex (n : Nat) : readDigits 16 (hex n) = n := by
  induction n using Nat.strongRecOn with
  | ind n ih =>
    rw [hex]
    split
    · show 16 * 0 + digitVal (hexChar n) = n
      rw [digitVal_hexChar]; omega
    · rw [readDigits_append, ih _ (by omega), digitVal_hexChar]; omega

/-- Decimal texts consist of digits. -/
theorem dec_chars (n : Nat) : ∀ c ∈ dec n, 48 ≤ c.toNat ∧ c.toNat < 58 := by
  induction n using Nat.strongRecOn with
  | ind n ih =>
    intro c hc
    rw [dec] at hc
    have hd : ∀ c, c = digit n → 48 ≤ c.toNat ∧ c.toNat < 58 := by
      rintro c rfl
      rw [digit_toNat]; omega
    split at hc
    · exact hd c (by simpa using hc)
    · rcases List.mem_append.1 hc with h | h
      · exact ih _ (by omega) c h
      · exact hd c (by simpa using h)

theorem hex_chars (n : Nat) : ∀ c ∈ hex n, 48 ≤ c.toNat ∧ c.toNat < 103 := by
  induction n using Nat.strongRecOn with
  | ind n ih =>
    intro c hc
    rw [hex] at hc
    have hd : ∀ c, c = hexChar n → 48 ≤ c.toNat ∧ c.toNat < 103 := by
      rintro c rfl
      rw [hexChar_toNat]; split <;> omega
    split at hc
    · exact hd c (by simpa using hc)
    · rcases List.mem_append.1 hc with h | h
      · exact ih _ (by omega) c h
      · exact hd c (by simpa using h)

theorem readNat_hex (n : Nat) : readNat ('0' :: 'x' :: hex n) = n := readDigits_hex n

theorem readNat_digits {s : Str} (h : ∀ c ∈ s, 48 ≤ c.toNat ∧ c.toNat < 58) : readNat s = readDigits 10 s ∧
    readNat (s ++ ['u']) = readDigits 10 s := by
  have hx : ∀ t, s ≠ '0' :: 'x' :: t := by
    rintro t rfl
    have := h 'x' (by simp)
    revert this; decide
  have hx2 : ∀ t, s ++ ['u'] ≠ '0' :: 'x' :: t := by
    intro t e
    match s, h, e with
    | [], _, e => simp at e
    | [a], _, e => simp at e
    | a :: b :: s, h, e =>
      simp only [List.cons_append, List.cons.injEq] at e
      have := h b (by simp)
      rw [e.2.1] at this
      revert this; decide
  have hu : s.getLast? ≠ some 'u' := by
    intro e
    have := h 'u' (List.mem_of_getLast? e)
    revert this; decide
  constructor
  · unfold readNat
    split
    · exact absurd rfl (hx _)
    · rw [if_neg hu]
  · unfold readNat
    split
    · rename_i t e
      exact absurd e (hx2 _)
    · rw [if_pos (by simp), List.dropLast_concat]

theorem readNat_dec (n : Nat) : readNat (dec n) = n ∧ readNat (dec n ++ ['u']) = n := by
  have := readNat_digits (dec_chars n)
  rw [readDigits_dec] at this
  exact this

theorem dec_cons (n : Nat) : ∃ c t, dec n = c :: t ∧ 48 ≤ c.toNat ∧ c.toNat < 58 := by
  cases h : dec n with
  | nil => exact absurd h (dec_ne_nil n)
  | cons c t => exact ⟨c, t, rfl, dec_chars n c (by rw [h]; simp)⟩

theorem readLit_nat {s : Str} {c : Char} {t : Str} (h : s = c :: t) (hc : 48 ≤ c.toNat ∧ c.toNat < 58) : readLit s = readNat s := by
  subst h
  unfold readLit
  rw [if_neg, if_neg]
  · split
    · rename_i e
      cases e
      exact absurd hc (by decide)
    · rfl
  · intro e; cases e; exact absurd hc (by decide)
  · intro e; cases e; exact absurd hc (by decide)

theorem readLit_neg (s : Str) : readLit ('-' :: s) = - (readNat s : Int) := by
  unfold readLit
  rw [if_neg (by simp), if_neg (by simp)]
  rfl

theorem readLit_sdec (i : Int) (u : Bool) : readLit (sdec i ++ if u then ['u'] else []) = i := by
  have e : ∀ n, readNat (dec n ++ if u then ['u'] else []) = n := by
    intro n
    cases u
    · rw [if_neg (by decide), List.append_nil]; exact (readNat_dec n).1
    · rw [if_pos rfl]; exact (readNat_dec n).2
  unfold sdec
  split
  · rw [List.cons_append, readLit_neg, e]; omega
  · obtain ⟨c, t, h, hc⟩ := dec_cons i.natAbs
    rw [readLit_nat (c := c) (t := t ++ if u then ['u'] else []) (by rw [h]; rfl) hc, e]; omega

theorem readLit_dec (n : Nat) (u : Bool) : readLit (dec n ++ if u then ['u'] else []) = n := by
  have := readLit_sdec n u
  unfold sdec at this
  rw [if_neg (by omega)] at this
  simpa using this

/-! ### C116: the list of members -/

theorem lastNonZero_some {ws : List Nat} : ∀ {n x}, lastNonZero ws n = some x → x < n ∧ ws.getD x 0 ≠ 0 ∧ ∀ i, x < i → i < n → ws.getD i 0 = 0
  | n + 1, x, h => by
    unfold lastNonZero at h
    split at h
    · rename_i hn
      cases h
      exact ⟨by omega, hn, fun i h1 h2 => by omega⟩
    · rename_i hn
      obtain ⟨h1, h2, h3⟩ := lastNonZero_some h
      refine ⟨by omega, h2, fun i a b => ?_⟩
      by_cases q : i = n
      · subst q; omega
      · exact h3 i a (by omega)

theorem lastNonZero_none {ws : List Nat} : ∀ {n}, lastNonZero ws n = none ↔ ∀ i < n, ws.getD i 0 = 0
  | 0 => by simp [lastNonZero]
  | n + 1 => by
    unfold lastNonZero
    split
    · rename_i hn
      constructor
      · intro h; cases h
      · intro h; exact absurd (h n (by omega)) hn
    · rename_i hn
      rw [lastNonZero_none]
      constructor
      · intro h i hi
        by_cases q : i = n
        · subst q; omega
        · exact h i (by omega)
      · intro h i hi; exact h i (by omega)

theorem lexWords_inj {ws vs : List Nat} {r s : Str} : ∀ {n i}, lexWords ws i n ++ r = lexWords vs i n ++ s →
    r = s ∧ ∀ j, i ≤ j → j < i + n → ws.getD j 0 = vs.getD j 0
  | 0, i, h => ⟨by simpa [lexWords] using h, fun j h1 h2 => by omega⟩
  | n + 1, i, h => by
    unfold lexWords at h
    rw [List.append_assoc, List.append_assoc] at h
    obtain ⟨e, h⟩ := C01_unsigned_prefix_free _ _ _ _ h
    obtain ⟨h1, h2⟩ := lexWords_inj h
    refine ⟨h1, fun j a b => ?_⟩
    by_cases q : j = i
    · subst q; exact e
    · exact h2 j (by omega) (by omega)

theorem ten : (['1', '0'] : Str) = lexU 0 := by
  rw [lexU_eq, digitCount_zero, header_small (by decide), dec_lt9 (by decide)]; decide

/-- The text as one form: the number of words, then the words. -/
theorem lexValue_form (bits : Nat) (ws : List Nat) : ∃ k, k ≤ nwords bits ∧ (lexValue bits ws).2 = lexU k ++ lexWords ws 0 k ∧
    ∀ i, k ≤ i → i < nwords bits → ws.getD i 0 = 0 := by
  unfold lexValue
  cases h : lastNonZero ws (nwords bits) with
  | none =>
    refine ⟨0, Nat.zero_le _, ?_, fun i _ hi => lastNonZero_none.1 h i hi⟩
    simp [lexWords, ten]
  | some x =>
    obtain ⟨h1, h2, h3⟩ := lastNonZero_some h
    exact ⟨x + 1, h1, rfl, fun i a b => h3 i (by omega) b⟩

theorem prefix_free_aux (bits bits' : Nat) (ws vs : List Nat) (r s : Str)
    (h : (lexValue bits ws).2 ++ r = (lexValue bits' vs).2 ++ s) :
    r = s ∧ ∀ i, (if i < nwords bits then ws.getD i 0 else 0) = (if i < nwords bits' then vs.getD i 0 else 0) := by
  obtain ⟨k, hk, e1, z1⟩ := lexValue_form bits ws
  obtain ⟨l, hl, e2, z2⟩ := lexValue_form bits' vs
  rw [e1, e2, List.append_assoc, List.append_assoc] at h
  obtain ⟨e, h⟩ := C01_unsigned_prefix_free _ _ _ _ h
  subst e
  obtain ⟨h1, h2⟩ := lexWords_inj h
  refine ⟨h1, fun i => ?_⟩
  by_cases q : i < k
  · rw [if_pos (by omega), if_pos (by omega)]
    exact h2 i (by omega) (by omega)
  · have a1 : (if i < nwords bits then ws.getD i 0 else 0) = 0 := by
      split
      · exact z1 i (by omega) ‹_›
      · rfl
    have a2 : (if i < nwords bits' then vs.getD i 0 else 0) = 0 := by
      split
      · exact z2 i (by omega) ‹_›
      · rfl
    rw [a1, a2]

/-- **C116.** The text of a value in the list of members determines the value, word by word (words beyond the size count as zero), and
where it ends, whatever follows it. -/
theorem C116_prefix_free (bits bits' : Nat) (ws vs : List Nat) (r s : Str)
    (h : (lexValue bits ws).2 ++ r = (lexValue bits' vs).2 ++ s) :
    r = s ∧ ∀ i, (if 32 * i < bits then ws.getD i 0 else 0) = (if 32 * i < bits' then vs.getD i 0 else 0) := by
  simpa only [lt_nwords] using prefix_free_aux bits bits' ws vs r s h

theorem zero_aux (bits : Nat) (ws : List Nat) : ((lexValue bits ws).1 = false ↔ ∀ i < nwords bits, ws.getD i 0 = 0) ∧
    (memberValue bits none = (lexValue bits []).2) ∧ memberValue bits (some ws) = (lexValue bits ws).2 := by
  refine ⟨?_, ?_, rfl⟩
  · unfold lexValue
    cases h : lastNonZero ws (nwords bits) with
    | none => exact ⟨fun _ => lastNonZero_none.1 h, fun _ => rfl⟩
    | some x =>
      obtain ⟨h1, h2, _⟩ := lastNonZero_some h
      exact ⟨fun q => (by cases q), fun q => absurd (q x h1) h2⟩
  · unfold lexValue
    rw [lastNonZero_none.2 (by simp)]
    rfl

/-- **C116.** It is said to be zero exactly if all its words are; a data member without an initial value has the text of zero. -/
theorem C116_zero (bits : Nat) (ws : List Nat) : ((lexValue bits ws).1 = false ↔ ∀ i, 32 * i < bits → ws.getD i 0 = 0) ∧
    (memberValue bits none = (lexValue bits []).2) ∧ memberValue bits (some ws) = (lexValue bits ws).2 := by
  simpa only [lt_nwords] using zero_aux bits ws

example : (lexValue 96 [5, 0, 0]).2 = lexU 1 ++ lexU 5 ∧ (lexValue 96 [0, 7, 0]).2 = lexU 2 ++ (lexU 0 ++ lexU 7) ∧
    (lexValue 96 [0, 0, 0]).1 = false := by
  simp [lexValue, nwords, lastNonZero, lexWords]

/-! ### C117: arrays in C++ -/

theorem filter_id {s : Str} (h : ∀ c ∈ s, c ≠ ' ') : s.filter (· ≠ ' ') = s := by
  rw [List.filter_eq_self]; simpa using h

/-- An item as it is written. -/
def item (n : Nat) : Str := '0' :: 'x' :: hex n

theorem item_chars (n : Nat) : ∀ c ∈ item n, c ≠ ' ' ∧ c ≠ ',' := by
  intro c hc
  simp only [item, List.mem_cons] at hc
  rcases hc with rfl | rfl | hc
  · decide
  · decide
  · have := hex_chars n c hc
    constructor <;> (rintro rfl; revert this; decide)

theorem hexWords_filter (ws : List Nat) : ∀ n i, 0 < i → (hexWords ws i n).filter (· ≠ ' ') =
    ((List.range n).map fun j => ',' :: item (ws.getD (i + j) 0)).flatten
  | 0, i, _ => by simp [hexWords]
  | n + 1, i, hi => by
    unfold hexWords
    rw [if_pos hi]
    have e : ([',', ' '] : Str) ++ '0' :: 'x' :: hex (ws.getD i 0) ++ hexWords ws (i + 1) n =
        [',', ' '] ++ (item (ws.getD i 0) ++ hexWords ws (i + 1) n) := by simp [item]
    rw [e, List.filter_append, List.filter_append, hexWords_filter ws n (i + 1) (by omega),
      filter_id (fun c hc => (item_chars _ c hc).1), List.range_succ_eq_map]
    simp only [List.map_cons, List.map_map, List.flatten_cons, Nat.add_zero]
    have : ([',', ' '] : Str).filter (· ≠ ' ') = [','] := by decide
    rw [this]
    simp only [List.cons_append, List.nil_append, List.cons.injEq, true_and, List.append_cancel_left_eq]
    congr 1
    apply List.map_congr_left
    intro j _
    simp only [Function.comp]
    rw [show i + 1 + j = i + (j + 1) by omega]

theorem intercalate_flatten (x : List Char) : ∀ xs : List (List Char),
    x ++ (xs.map fun y => ',' :: y).flatten = [','].intercalate (x :: xs)
  | [] => by simp [List.intercalate]
  | y :: ys => by
    have := intercalate_flatten y ys
    simp only [List.map_cons, List.flatten_cons, List.cons_append]
    rw [this]
    simp [List.intercalate, List.intersperse]

theorem readItems_hexWords (ws : List Nat) (n : Nat) : readItems (hexWords ws 0 n) = (List.range n).map fun i => ws.getD i 0 := by
  cases n with
  | zero => simp [hexWords, readItems]
  | succ n =>
    have e : (hexWords ws 0 (n + 1)).filter (· ≠ ' ') =
        [','].intercalate (item (ws.getD 0 0) :: (List.range n).map fun j => item (ws.getD (1 + j) 0)) := by
      unfold hexWords
      rw [if_neg (by decide)]
      have e : ([] : Str) ++ '0' :: 'x' :: hex (ws.getD 0 0) ++ hexWords ws (0 + 1) n = item (ws.getD 0 0) ++ hexWords ws 1 n := by
        simp [item]
      rw [e, List.filter_append, filter_id (fun c hc => (item_chars _ c hc).1), hexWords_filter ws n 1 (by decide),
        ← intercalate_flatten, List.map_map]
      rfl
    unfold readItems
    rw [e, if_neg, List.splitOn_intercalate]
    · simp only [List.map_cons, List.map_map, List.range_succ_eq_map]
      congr 1
      · exact readNat_hex _
      · apply List.map_congr_left
        intro j _
        simp only [Function.comp]
        rw [show item (ws.getD (1 + j) 0) = '0' :: 'x' :: hex (ws.getD (1 + j) 0) from rfl, readNat_hex, Nat.add_comm]
    · intro l hl
      simp only [List.mem_cons, List.mem_map] at hl
      rcases hl with rfl | ⟨j, _, rfl⟩
      · exact fun hc => (item_chars _ _ hc).2 rfl
      · exact fun hc => (item_chars _ _ hc).2 rfl
    · simp
    · rw [← intercalate_flatten]
      simp [item]

theorem isArray_hexWords (ws : List Nat) (n : Nat) : IsArray (hexWords ws 0 n) n ws := by
  unfold IsArray
  rw [readItems_hexWords]
  refine ⟨by simp, fun i hi => ?_⟩
  simp [List.getD, hi]

theorem allZero_iff {ws : List Nat} : ∀ {n i}, allZero ws i n = true ↔ ∀ j, i ≤ j → j < i + n → ws.getD j 0 = 0
  | 0, i => by simp [allZero]; omega
  | n + 1, i => by
    unfold allZero
    split
    · rename_i hn
      constructor
      · intro h; cases h
      · intro h; exact absurd (h i (by omega) (by omega)) hn
    · rename_i hn
      rw [allZero_iff]
      constructor
      · intro h j a b
        by_cases q : j = i
        · subst q; omega
        · exact h j (by omega) (by omega)
      · intro h j a b; exact h j (by omega) (by omega)

theorem isArray_zero {s : Str} {n : Nat} {ws : List Nat} (h : readItems s = [0] ∨ readItems s = []) (z : ∀ j < n, ws.getD j 0 = 0) :
    IsArray s n ws := by
  unfold IsArray
  rcases h with h | h <;> rw [h]
  · refine ⟨by simp, fun i hi => ?_⟩
    rw [z i hi]
    cases i <;> rfl
  · exact ⟨by simp, fun i hi => by rw [z i hi]; rfl⟩

theorem value_aux (bits : Nat) (ws : List Nat) : IsArray (hexValue bits ws).2 (nwords bits) ws ∧
    ((hexValue bits ws).1 = false ↔ ∀ i < nwords bits, ws.getD i 0 = 0) := by
  unfold hexValue
  by_cases h : allZero ws 0 (nwords bits) = true
  · rw [if_pos h]
    have z : ∀ i < nwords bits, ws.getD i 0 = 0 := fun i hi => allZero_iff.1 h i (by omega) (by omega)
    exact ⟨isArray_zero (Or.inl (by decide)) z, fun _ => z, fun _ => rfl⟩
  · rw [if_neg h]
    refine ⟨isArray_hexWords _ _, fun q => (by cases q), fun q => absurd ?_ h⟩
    exact allZero_iff.2 fun j _ b => q j (by omega)

theorem constant_array_aux (isString : Bool) (bits : Nat) (ws : List Nat) :
    (∀ s, arrayItems isString bits ws = some s → IsArray s (nwords bits) ws) ∧
    (arrayItems isString bits ws = none ↔ isString = true ∧ 0 < bits ∧ ∀ i < nwords bits, ws.getD i 0 = 0) := by
  obtain ⟨V, Z⟩ := value_aux bits ws
  unfold arrayItems
  by_cases h0 : bits = 0
  · subst h0
    rw [if_pos rfl]
    refine ⟨fun s h => ?_, fun h => (by cases h), fun h => by omega⟩
    cases h
    exact isArray_zero (Or.inr (by decide)) (fun j hj => by simp [nwords] at hj)
  rw [if_neg h0]
  by_cases hv : (hexValue bits ws).1 = true
  · rw [if_pos hv]
    refine ⟨fun s h => (by cases h; exact V), fun h => (by cases h), fun h => ?_⟩
    have := Z.2 h.2.2
    rw [this] at hv
    cases hv
  rw [if_neg hv]
  have z := Z.1 (by simpa using hv)
  cases isString
  · rw [if_neg (by decide)]
    refine ⟨fun s h => ?_, fun h => (by cases h), fun h => (by cases h.1)⟩
    cases h
    exact isArray_zero (Or.inl (by decide)) z
  · rw [if_pos rfl]
    exact ⟨fun s h => (by cases h), fun _ => ⟨rfl, by omega, z⟩, fun _ => rfl⟩

/-- **C117.** The text for a default value or a constant of a class, between the braces of an array of the words that hold it, stands for
the words of the value, and it is said to be zero exactly if they all are. -/
theorem C117_value (bits n : Nat) (ws : List Nat) (hn : Holds bits n) : IsArray (hexValue bits ws).2 n ws ∧
    ((hexValue bits ws).1 = false ↔ ∀ i < n, ws.getD i 0 = 0) := by
  rw [nwords_holds] at hn; subst hn; exact value_aux bits ws

/-- **C117.** The text for a constant array stands for the words of the value; only for an array of strings that is zero the compiler
aborts. -/
theorem C117_constant_array (isString : Bool) (bits n : Nat) (ws : List Nat) (hn : Holds bits n) :
    (∀ s, arrayItems isString bits ws = some s → IsArray s n ws) ∧
    (arrayItems isString bits ws = none ↔ isString = true ∧ 0 < bits ∧ ∀ i < n, ws.getD i 0 = 0) := by
  rw [nwords_holds] at hn; subst hn; exact constant_array_aux isString bits ws

/-- **C117.** So does the text for a list of initial values; one that is loaded as one number is written so that it reads as that
number. -/
theorem C117_list (n v : Nat) (ws : List Nat) : IsArray (listItems n ws) n ws ∧
    (n ≤ 2 → v < 2 ^ (32 * max n 1) → ∃ s, listNumber n v = some s ∧ readNat s = v) ∧ (n > 2 → listNumber n v = none) := by
  refine ⟨isArray_hexWords _ _, fun h1 h2 => ?_, fun h => ?_⟩
  · unfold listNumber
    by_cases h : n ≤ 1
    · rw [if_pos h]
      refine ⟨_, rfl, ?_⟩
      unfold writeHexadecimal
      rw [Nat.max_eq_right h] at h2
      rw [readNat_hex, Nat.mod_eq_of_lt h2]
    · have : n = 2 := by omega
      subst this
      rw [if_neg (by decide), if_pos rfl]
      refine ⟨_, rfl, ?_⟩
      unfold writeHexadecimallong
      rw [(readNat_dec _).1]
      exact Nat.mod_eq_of_lt h2
  · unfold listNumber
    rw [if_neg (by omega), if_neg (by omega)]

example : Holds 70 3 ∧ (hexValue 70 [171, 0, 4096]).2 = "0xab, 0x0, 0x1000".toList ∧ readItems "0xab, 0x0, 0x1000".toList = [171, 0, 4096] := by
  refine ⟨⟨by decide, by decide⟩, ?_, ?_⟩
  · simp [hexValue, nwords, allZero, hexWords, hex, hexChar]
  · decide

/-! ### C118: single values -/

/-- What a value of a type reads as: the number it stands for, the bits of `Bits`, 1 or 0 for `Bool`. -/
def meaning (b : Base) (n raw : Nat) : Int :=
  match b with
  | .bool => if truth .bool n raw then 1 else 0
  | .bits => raw
  | _ => number b n raw

/-- **C118.** The text of a value shown in names of instances reads as the value, for all types with values but `String`. -/
theorem C118_pretty (b : Base) (n raw : Nat) (hb : b = .int ∨ b = .unsigned ∨ b = .unary ∨ b = .bool ∨ b = .bits) (hn : n ≤ 64)
    (h : raw < 2 ^ n) : ∃ s, pretty b n raw = some s ∧ readLit s = meaning b n raw := by
  rcases hb with rfl | rfl | rfl | rfl | rfl
  · refine ⟨_, by unfold pretty; dsimp only; rw [if_pos hn], ?_⟩
    simpa [meaning, number] using readLit_sdec (twos n raw) false
  · unfold pretty
    dsimp only
    by_cases h32 : n ≤ 32
    · rw [if_pos h32]
      have : raw % 2 ^ 32 = raw := Nat.mod_eq_of_lt (Nat.lt_of_lt_of_le h (Nat.pow_le_pow_right (by decide) h32))
      rw [this]
      exact ⟨_, rfl, by simpa [meaning, number] using readLit_dec raw true⟩
    · rw [if_neg h32, if_pos hn]
      exact ⟨_, rfl, by simpa [meaning, number] using readLit_dec raw true⟩
  · exact ⟨_, rfl, by simpa [meaning, number] using readLit_dec (ones n raw) false⟩
  · refine ⟨_, rfl, ?_⟩
    unfold meaning
    dsimp only
    cases truth Base.bool n raw <;> decide
  · refine ⟨_, rfl, ?_⟩
    rw [readLit_nat (c := '0') (t := 'x' :: hex raw) rfl (by decide), readNat_hex]
    rfl

example : pretty .int 5 31 = some "-1".toList ∧ pretty .unary 5 3 = some "2".toList ∧ pretty .bool 3 5 = some "true".toList := by
  simp [pretty, twos, ones, truth, sdec, dec, digit]

theorem readLit_writeUnsigned {n : Nat} (h : n < 2 ^ 32) :
    readLit (writeDecimalUnsigned n ++ ['u']) = if n < 2 ^ 31 then (n : Int) else (n : Int) - 2 ^ 32 := by
  unfold writeDecimalUnsigned
  have := readLit_sdec (asS32 n) true
  rw [if_pos rfl] at this
  rw [this]
  unfold asS32 twos
  rw [Nat.mod_eq_of_lt h]
  by_cases q : n < 2 ^ 31
  · rw [if_pos (by omega), if_pos q]
  · rw [if_neg (by omega), if_neg q]

/-- **C118 (partial: not negative in more than 32 bits, not the upper half of 32 bits, no `Unary` but 0 and 1).** The text of a value in
the printed tree reads as the value. -/
theorem C118_printed_partial (b : Base) (n raw : Nat) (hb : b = .int ∨ b = .unsigned ∨ b = .unary ∨ b = .bool ∨ b = .bits) (hn : n ≤ 64)
    (h : raw < 2 ^ n) (hi : b = .int → n ≤ 32 ∨ 0 ≤ twos n raw) (hu : b ≠ .int → n ≤ 32 → raw < 2 ^ 31)
    (hy : b = .unary → 0 < n ∧ raw ≤ 1) :
    ∃ s, printed b n raw = some s ∧ readLit s = meaning b n raw := by
  have low : b = .unsigned ∨ b = .bits ∨ b = .unary → ∃ s, printed b n raw = some s ∧ readLit s = raw := by
    intro q
    have e : printed b n raw = if n ≤ 32 then some (writeDecimalUnsigned raw ++ ['u'])
        else if n ≤ 64 then some (writeHexadecimallong raw ++ ['u']) else none := by
      rcases q with rfl | rfl | rfl <;> rfl
    have hne : b ≠ .int := by rcases q with rfl | rfl | rfl <;> decide
    rw [e]
    by_cases h32 : n ≤ 32
    · have l := hu hne h32
      rw [if_pos h32]
      exact ⟨_, rfl, by rw [readLit_writeUnsigned (by omega), if_pos l]⟩
    · rw [if_neg h32, if_pos hn]
      have : raw % 2 ^ 64 = raw := Nat.mod_eq_of_lt (Nat.lt_of_lt_of_le h (Nat.pow_le_pow_right (by decide) hn))
      refine ⟨_, rfl, ?_⟩
      unfold writeHexadecimallong
      rw [this]
      simpa using readLit_dec raw true
  rcases hb with rfl | rfl | rfl | rfl | rfl
  · unfold printed
    dsimp only
    by_cases h32 : n ≤ 32
    · rw [if_pos h32]
      exact ⟨_, rfl, by simpa [meaning, number, writeDecimal] using readLit_sdec (twos n raw) false⟩
    · rw [if_neg h32, if_pos hn]
      have h0 : 0 ≤ twos n raw := by
        rcases hi rfl with q | q
        · exact absurd q h32
        · exact q
      refine ⟨_, rfl, ?_⟩
      have lt : twos n raw < 2 ^ 64 := by
        have : (raw : Int) < 2 ^ n := by exact_mod_cast h
        have : (2 : Int) ^ n ≤ 2 ^ 64 := by exact_mod_cast Nat.pow_le_pow_right (n := 2) (by decide) hn
        have : (0 : Int) < 2 ^ n := by positivity
        unfold twos
        split <;> omega
      have e : ((twos n raw) % 2 ^ 64).toNat % 2 ^ 64 = (twos n raw).toNat := by
        rw [Int.emod_eq_of_lt h0 lt, Nat.mod_eq_of_lt (by omega)]
      unfold writeHexadecimallong
      rw [e]
      have := readLit_dec (twos n raw).toNat false
      simp only [Bool.false_eq_true, if_false, List.append_nil] at this
      rw [this]
      simp only [meaning, number]
      omega
  · obtain ⟨s, h1, h2⟩ := low (by simp)
    exact ⟨s, h1, by rw [h2]; rfl⟩
  · obtain ⟨s, h1, h2⟩ := low (by simp)
    refine ⟨s, h1, ?_⟩
    rw [h2]
    simp only [meaning, number]
    obtain ⟨h0, hr⟩ := hy rfl
    obtain ⟨m, rfl⟩ : ∃ m, n = m + 1 := ⟨n - 1, by omega⟩
    have : raw = 2 ^ raw - 1 := by
      have : raw = 0 ∨ raw = 1 := by omega
      rcases this with rfl | rfl <;> rfl
    have e := Types.ones_full (m + 1) raw (by omega)
    rw [← this] at e
    rw [e]
  · refine ⟨_, rfl, ?_⟩
    unfold meaning
    dsimp only
    cases truth Base.bool n raw <;> decide
  · obtain ⟨s, h1, h2⟩ := low (by simp)
    exact ⟨s, h1, by rw [h2]; rfl⟩

/-- **C118 (finding).** A negative `Int` of more than 32 bits is printed as the positive number `2^64` above it. -/
theorem C118_negative_fails (n raw : Nat) (h1 : 32 < n) (h2 : n ≤ 64) (h : raw < 2 ^ n) (hneg : twos n raw < 0) :
    ∃ s, printed .int n raw = some s ∧ readLit s = twos n raw + 2 ^ 64 := by
  unfold printed
  dsimp only
  rw [if_neg (by omega), if_pos h2]
  refine ⟨_, rfl, ?_⟩
  have hge : - 2 ^ 64 ≤ twos n raw := by
    have : (2 : Int) ^ n ≤ 2 ^ 64 := by exact_mod_cast Nat.pow_le_pow_right (n := 2) (by decide) h2
    unfold twos
    split <;> omega
  have e : ((twos n raw) % 2 ^ 64).toNat % 2 ^ 64 = (twos n raw + 2 ^ 64).toNat := by omega
  unfold writeHexadecimallong
  rw [e]
  have := readLit_dec (twos n raw + 2 ^ 64).toNat false
  simp only [Bool.false_eq_true, if_false, List.append_nil] at this
  rw [this]
  omega

/-- **C118 (finding).** A value in the upper half of 32 bits that is no `Int` is printed as a negative number. -/
theorem C118_upper_half_fails (b : Base) (raw : Nat) (hb : b = .unsigned ∨ b = .bits) (h1 : 2 ^ 31 ≤ raw) (h2 : raw < 2 ^ 32) :
    ∃ s, printed b 32 raw = some s ∧ readLit s = (raw : Int) - 2 ^ 32 := by
  refine ⟨writeDecimalUnsigned raw ++ ['u'], by rcases hb with rfl | rfl <;> rfl, ?_⟩
  rw [readLit_writeUnsigned h2, if_neg (by omega)]

/-- **C118 (finding).** A `Unary` value of `k` is printed as `2^k - 1`, which is another number from 2 on. -/
theorem C118_unary_fails (n k : Nat) (h1 : 2 ≤ k) (h2 : k ≤ n) (h3 : n < 32) :
    ∃ s, printed .unary n (2 ^ k - 1) = some s ∧ readLit s = ((2 ^ k - 1 : Nat) : Int) ∧ readLit s ≠ meaning .unary n (2 ^ k - 1) := by
  have hk : 2 ^ k - 1 < 2 ^ 31 := by
    have := Nat.pow_le_pow_right (n := 2) (by decide) (show k ≤ 31 by omega)
    have := Nat.two_pow_pos k
    omega
  refine ⟨writeDecimalUnsigned (2 ^ k - 1) ++ ['u'], by unfold printed; dsimp only; rw [if_pos (by omega)], ?_⟩
  rw [readLit_writeUnsigned (by omega), if_pos hk]
  refine ⟨rfl, ?_⟩
  simp only [meaning, number]
  rw [Types.ones_full n k h2]
  intro q
  have q : 2 ^ k - 1 = k := by exact_mod_cast q
  obtain ⟨j, rfl⟩ : ∃ j, k = j + 2 := ⟨k - 2, by omega⟩
  have := Nat.lt_two_pow_self (n := j)
  rw [Nat.pow_add] at q
  omega

example : printed .unary 3 3 = some "3u".toList ∧ printed .unsigned 32 (2 ^ 32 - 1) = some "-1u".toList ∧
    printed .int 64 (2 ^ 64 - 1) = some "18446744073709551615".toList := by
  simp [printed, writeDecimalUnsigned, writeHexadecimallong, asS32, twos, sdec, dec, digit]

end Ulam.ValText
