import Verif.Token.Model
import Verif.Util.Lemmas
/-
C29: the internal name of an operator overload determines the operator.
-/
namespace Ulam.Token

theorem digitValue_hexDigit (d : Nat) (h : d < 16) : digitValue (Util.hexDigit d) = some d := by
  unfold digitValue Util.hexDigit
  by_cases h1 : d < 10
  · rw [if_pos h1, if_pos (by omega)]; congr 1; omega
  · rw [if_neg h1, if_neg (by omega), if_pos (by omega)]; congr 1; omega

theorem hexOfChar_pair (c : Nat) (h1 : 16 ≤ c) (h2 : c < 128) :
    hexOfChar c = [Util.hexDigit (c / 16), Util.hexDigit (c % 16)] := by
  unfold hexOfChar
  rw [if_pos h2, Util.hex_byte c h1 (by omega)]

theorem decode_hexName (s : Bytes) (h : ∀ c ∈ s, 16 ≤ c ∧ c < 128) : decodePairs (hexName s) = s := by
  induction s with
  | nil => rfl
  | cons c s ih =>
    have hc := h c (by simp)
    have e : hexName (c :: s) = Util.hexDigit (c / 16) :: Util.hexDigit (c % 16) :: hexName s := by
      simp [hexName, hexOfChar_pair c hc.1 hc.2]
    rw [e]
    simp only [decodePairs, strtol16]
    rw [digitValue_hexDigit _ (by omega), digitValue_hexDigit _ (by omega),
      ih (fun x hx => h x (by simp [hx]))]
    simp only
    congr 1
    omega

/-- C29, for any spelling made of printable ASCII characters: the operator's spelling is recovered
from the internal name. -/
theorem C29_decode_spelling (s : Bytes) (h : ∀ c ∈ s, 16 ≤ c ∧ c < 128) :
    ulamName (prefixName ++ hexName s) = some (spelling tokKwOperator ++ s) := by
  unfold ulamName isOverloadName
  have h1 : prefixName.isPrefixOf (prefixName ++ hexName s) = true := by
    rw [List.isPrefixOf_iff_prefix]; exact List.prefix_append _ _
  have h2 : (prefixName ++ hexName s).drop 9 = hexName s := rfl
  rw [h1, h2, decode_hexName s h]
  rfl

set_option maxRecDepth 4000 in
theorem table_ascii : ∀ e ∈ table, e.overloadable = true → ∀ c ∈ e.spelling, 16 ≤ c ∧ c < 128 := by
  decide

theorem overloadable_ascii (t : Nat) (h : overloadable t = true) : ∀ c ∈ spelling t, 16 ≤ c ∧ c < 128 := by
  unfold overloadable at h
  unfold spelling
  cases ht : table[t]? with
  | none => rw [ht] at h; simp at h
  | some e =>
    rw [ht] at h
    simp only [Option.map_some, Option.getD_some] at h ⊢
    exact table_ascii e (List.mem_of_getElem? ht) h

set_option maxRecDepth 10000 in
theorem spellings_nodup : (table.map (·.spelling)).Nodup := by decide +kernel

theorem spelling_injective (t u : Nat) (ht : t < lastOne) (hu : u < lastOne) (h : spelling t = spelling u) : t = u := by
  have hl : (table.map (·.spelling)).length = lastOne := by rw [List.length_map, table_length]
  have key : ∀ v, v < lastOne → (table.map (·.spelling))[v]? = some (spelling v) := by
    intro v hv
    have : v < table.length := by rw [table_length]; exact hv
    rw [List.getElem?_map]
    unfold spelling
    rw [List.getElem?_eq_getElem this]
    rfl
  refine (List.getElem?_inj (by rw [hl]; exact ht) spellings_nodup).mp ?_
  rw [key t ht, key u hu, h]

/-- C29. Every operator that can be overloaded has an internal name, it is recognised as one, and
"operator" followed by the operator's spelling is recovered from it; other tokens have none. -/
theorem C29_reversible (t : Nat) :
    (overloadable t = true → ∃ n, fullName t = some n ∧ isOverloadName n = true ∧
      ulamName n = some (spelling tokKwOperator ++ spelling t)) ∧
    (overloadable t = false → fullName t = none) := by
  constructor
  · intro h
    refine ⟨prefixName ++ hexName (spelling t), ?_, ?_, C29_decode_spelling _ (overloadable_ascii t h)⟩
    · unfold fullName
      rw [if_neg (by simp [h])]
      rfl
    · unfold isOverloadName
      rw [List.isPrefixOf_iff_prefix]; exact List.prefix_append _ _
  · intro h
    unfold fullName; simp [h]

/-- C29. Two different operators never share a name. -/
theorem C29_injective (t u : Nat) (n : Bytes) (ht : fullName t = some n) (hu : fullName u = some n) : t = u := by
  have get : ∀ v, fullName v = some n → overloadable v = true ∧ ulamName n = some (spelling tokKwOperator ++ spelling v) := by
    intro v hv
    have ho : overloadable v = true := by
      cases h : overloadable v with
      | true => rfl
      | false => rw [(C29_reversible v).2 h] at hv; simp at hv
    obtain ⟨m, hm, _, hd⟩ := (C29_reversible v).1 ho
    rw [hm] at hv
    injection hv with hv
    subst hv
    exact ⟨ho, hd⟩
  obtain ⟨h1, h2⟩ := get t ht
  obtain ⟨h3, h4⟩ := get u hu
  have lt : ∀ v, overloadable v = true → v < lastOne := by
    intro v hv
    by_contra hge
    unfold overloadable at hv
    rw [List.getElem?_eq_none (by rw [table_length]; omega)] at hv
    simp at hv
  refine spelling_injective t u (lt t h1) (lt u h3) ?_
  rw [h2] at h4
  simpa using h4

/-- Not so for arbitrary spellings: the name has no separators, and a control character takes one
digit only. -/
theorem C29_needs_two_digits : hexName [1, 0x11] = hexName [0x11, 1] := by
  simp [hexName, hexOfChar, Util.hex, Util.hexDigit]

/-- `<<=` is token 32: "_operator3c3c3d". -/
example : fullName 32 = some [95, 111, 112, 101, 114, 97, 116, 111, 114, 51, 99, 51, 99, 51, 100] := by
  simp [fullName, overloadable, spelling, table, tokKwOperator, hexName, hexOfChar, Util.hex, Util.hexDigit]

/-- The token table is looked up by spelling: every entry is found, and only under its own spelling. -/
theorem typeOf_spelling (t : Nat) (ht : t < lastOne) : typeOf (spelling t) = t := by
  unfold typeOf
  have go : ∀ (l : List Entry) (b k : Nat) (e : Entry), l[k]? = some e → (l.map (·.spelling)).Nodup →
      typeOf.go e.spelling l b = b + k := by
    intro l
    induction l with
    | nil => intro b k e h; simp at h
    | cons x l ih =>
      intro b k e h hn
      simp only [List.map_cons, List.nodup_cons] at hn
      cases k with
      | zero => simp at h; subst h; simp [typeOf.go]
      | succ k =>
        simp at h
        have hne : ¬ x.spelling = e.spelling := by
          intro heq
          exact hn.1 (by rw [heq]; exact List.mem_map.mpr ⟨e, List.mem_of_getElem? h, rfl⟩)
        simp only [typeOf.go, hne, if_false]
        rw [ih (b + 1) k e h hn.2]
        omega
  have hlt : t < table.length := by rw [table_length]; exact ht
  have := go table 0 t table[t] (List.getElem?_eq_getElem hlt) spellings_nodup
  unfold spelling
  rw [List.getElem?_eq_getElem hlt]
  simpa using this

end Ulam.Token
