import Verif.Lexer.Skip
import Verif.Source.Spec
import Mathlib.Tactic.ByContra
/-
C22: tokenizing terminates and consumes the input. C23: comments. C24: longest match.
-/
namespace Ulam.Lexer
open Ulam.Token

/-- The stream here is the spliced stream of C26: reading. -/
theorem read_is_flat (disk : Source.Disk) (f : Source.Flat) :
    (f.step disk .read).1 = .byte (some (((read ⟨f.rest, f.last⟩).1.map (fun b => (b : Int))).getD (-1))) ∧
    (f.step disk .read).2.rest = (read ⟨f.rest, f.last⟩).2.rest ∧
    (f.step disk .read).2.last = (read ⟨f.rest, f.last⟩).2.last := by
  unfold Source.Flat.step read
  cases h : f.rest <;> simp [h]

/-- The stream here is the spliced stream of C26: putting back. -/
theorem unread_is_flat (disk : Source.Disk) (f : Source.Flat) :
    (f.step disk .unread).2.rest = (unread ⟨f.rest, f.last⟩).rest ∧
    (f.step disk .unread).2.last = (unread ⟨f.rest, f.last⟩).last := by
  unfold Source.Flat.step unread
  cases h : f.last <;> simp [h]

theorem after_length (k : Nat) (s : Str) : (after k s).rest.length ≤ s.rest.length - k := by
  induction k generalizing s with
  | zero => simp [after]
  | succ k ih =>
    have h1 := ih (nextToken s).2.2
    rw [after]
    obtain ⟨r, l⟩ := s
    cases r with
    | nil =>
      rw [nextToken_nil] at h1 ⊢
      simpa using h1
    | cons b r =>
      have h2 := (nextToken_suffix b r l).length_le
      simp only [List.length_cons] at h1 ⊢
      omega

/-- C22: what is left after a request is an end of what was there before, at least one byte shorter unless
there was nothing left, in which case end of file is answered; repeatedly asking reaches the end after at
most as many requests as there are bytes, and from then on the answer is end of file. -/
theorem C22_terminates (s : Str) :
    (s.rest ≠ [] → ∃ used, used ≠ [] ∧ s.rest = used ++ (nextToken s).2.2.rest) ∧
    (s.rest = [] → (nextToken s).1 = true ∧ (nextToken s).2.1 = eofTok ∧ (nextToken s).2.2.rest = []) ∧
    (∀ k, s.rest.length ≤ k → (after k s).rest = [] ∧ (nextToken (after k s)).2.1 = eofTok) := by
  refine ⟨?_, ?_, ?_⟩
  · intro h
    obtain ⟨r, l⟩ := s
    cases r with
    | nil => simp at h
    | cons b r =>
      obtain ⟨x, hx⟩ := nextToken_suffix b r l
      exact ⟨b :: x, by simp, by simp [hx]⟩
  · intro h
    obtain ⟨r, l⟩ := s
    simp only at h
    subst h
    rw [nextToken_nil]
    simp
  · intro k hk
    have h1 := after_length k s
    have h2 : (after k s).rest = [] := List.eq_nil_of_length_eq_zero (by omega)
    refine ⟨h2, ?_⟩
    generalize after k s = s' at h2
    obtain ⟨r, l⟩ := s'
    simp only at h2
    subst h2
    rw [nextToken_nil]

/-- C22, the other direction: when byte 255 does not occur, end of file is answered only when all input has been consumed. -/
theorem C22_eof_at_end (s : Str) (h : 255 ∉ s.rest) (k : Nat) (he : (nextToken (after k s)).2.1.type = tokEof) :
    (after (k + 1) s).rest = [] := by
  have hafter : ∀ k s, after (k + 1) s = (nextToken (after k s)).2.2 := by
    intro k
    induction k with
    | zero => intro s; rfl
    | succ k ih => intro s; rw [after, ih]; rfl
  have hsub : ∀ k (s : Str), (after k s).rest <:+ s.rest := by
    intro k
    induction k with
    | zero => intro s; exact List.suffix_refl _
    | succ k ih =>
      intro s
      rw [after]
      refine (ih _).trans ?_
      obtain ⟨r, l⟩ := s
      cases r with
      | nil => rw [nextToken_nil]; simp
      | cons b r => exact (nextToken_suffix b r l).trans (suffix_tail b r)
  rw [hafter]
  exact nextToken_eof _ (fun e => h ((hsub k s).subset e)) he

/-- Byte 255 has to be excluded there: it is answered as end of file whatever follows it. -/
theorem C22_early_eof (rest : List Nat) :
    (nextToken (fresh (255 :: rest))).2.1 = eofTok ∧ (nextToken (fresh (255 :: rest))).2.2.rest = rest := by
  obtain ⟨l', e⟩ := nextToken_start 255 rest none (by decide) (fun h => absurd h (by decide))
  have h : dispatch (some 255) ⟨rest, l'⟩ = (some eofTok, ⟨rest, l'⟩) := by
    unfold dispatch
    have h1 : ttypeOf [255] = tokEof := by decide +kernel
    simp only [Option.getD_some, h1, eof_special]
    rfl
  rw [h] at e
  unfold fresh
  rw [e]
  exact ⟨rfl, rfl⟩

/-- C22: a token put back is answered again, and the lexer goes on as before. (The answer then says success
even if the token is an error.) -/
theorem C22_put_back (x : Lex) :
    getNextToken (unreadToken (getNextToken x).2.2) = (true, (getNextToken x).2.1, (getNextToken x).2.2) := by
  unfold getNextToken unreadToken
  by_cases h : x.haveUnread = true
  · simp [h]
  · simp [h]

/-- Two tokens of three bytes, then end of file for ever. -/
example : answers 4 (fresh (bytes "a;\n")) = [(true, ⟨tokIdentifier, .text (bytes "a")⟩), (true, ⟨7, .none⟩),
    (true, eofTok), (true, eofTok)] := by decide +kernel

example : 255 ∉ (fresh (bytes "a + b")).rest ∧ (nextToken (after 3 (fresh (bytes "a + b")))).2.1.type = tokEof := by
  decide +kernel

/-- C23, line comments: at a token boundary the comment up to the end of its line, or up to the end of the
input, can be replaced by a space without changing any later token. -/
theorem C23_line (body post : List Nat) (h : 10 ∉ body) (k : Nat) :
    answers k (fresh (bytes "//" ++ body ++ 10 :: post)) = answers k (fresh (bytes " " ++ 10 :: post)) ∧
    answers k (fresh (bytes "//" ++ body)) = answers k (fresh (bytes " ")) := by
  obtain ⟨e1, e2⟩ := eatLine_body body post h
  have b2 : bytes "//" = [47, 47] := by decide
  have b1 : bytes " " = [32] := by decide
  rw [b2, b1]
  constructor
  · apply answers_congr
    rw [show fresh ([32] ++ 10 :: post) = ⟨32 :: 10 :: post, none⟩ from rfl, nextToken_space 32 _ _ none (by decide),
      nextToken_space 10 _ _ none (by decide)]
    unfold nextToken
    rw [show fresh ([47, 47] ++ body ++ 10 :: post) = ⟨47 :: 47 :: (body ++ 10 :: post), none⟩ by simp [fresh],
      skipSpace_cons]
    have ec : eatComment (fresh (47 :: 47 :: (body ++ 10 :: post))) = (some 10, none, ⟨post, some 10⟩) := by
      unfold eatComment fresh
      simp only [read, if_true, e1]
    rw [ec]
    simp only [Option.any_some, Option.none_or]
    rw [if_pos (by decide), skipSpace_last post (some 10) none]
  · apply answers_congr
    rw [show fresh [32] = ⟨[32], none⟩ from rfl, nextToken_space 32 _ _ none (by decide), nextToken_nil]
    unfold nextToken
    rw [show fresh ([47, 47] ++ body) = ⟨47 :: 47 :: body, none⟩ by simp [fresh], skipSpace_cons]
    have ec : eatComment (fresh (47 :: 47 :: body)) = (none, none, ⟨[], none⟩) := by
      unfold eatComment fresh
      simp only [read, if_true, e2]
    rw [ec]
    rfl

/-- C23, block comments: at a token boundary a comment that is not a structured one, and that is not directly
followed by another comment, can be replaced by a space without changing any later token. -/
theorem C23_block_partial (body post : List Nat) (h : ¬ occurs (bytes "*/") body) (hs : body.head? ≠ some 42)
    (hp1 : ¬ bytes "//" <+: post) (hp2 : ¬ bytes "/*" <+: post) (k : Nat) :
    answers k (fresh (bytes "/*" ++ body ++ bytes "*/" ++ post)) = answers k (fresh (bytes " " ++ post)) := by
  have b1 : bytes "/*" = [47, 42] := by decide
  have b2 : bytes "*/" = [42, 47] := by decide
  have b3 : bytes "//" = [47, 47] := by decide
  have b4 : bytes " " = [32] := by decide
  rw [b1] at hp2 ⊢
  rw [b2] at h ⊢
  rw [b3] at hp1
  rw [b4]
  apply answers_congr
  rw [show fresh ([32] ++ post) = ⟨32 :: post, none⟩ from rfl, nextToken_space 32 _ _ none (by decide)]
  rw [show fresh ([47, 42] ++ body ++ [42, 47] ++ post) = ⟨47 :: 42 :: body ++ 42 :: 47 :: post, none⟩ by simp [fresh]]
  have e := skipSpace_block body post none none h hs
  cases post with
  | nil =>
    rw [nextToken_nil]
    unfold nextToken
    rw [e]
    rfl
  | cons b r =>
    simp only at e
    by_cases hsp : isSpace b = true
    · rw [if_pos hsp] at e
      rw [nextToken_space b r none none hsp]
      unfold nextToken
      rw [e]
    · rw [if_neg hsp] at e
      by_cases hb : b = 47
      · subst hb
        have c1 : r.head? ≠ some 47 := by
          intro hh
          cases r with
          | nil => simp at hh
          | cons d r => simp only [List.head?_cons, Option.some.injEq] at hh; subst hh; exact hp1 ⟨r, rfl⟩
        have c2 : r.head? ≠ some 42 := by
          intro hh
          cases r with
          | nil => simp at hh
          | cons d r => simp only [List.head?_cons, Option.some.injEq] at hh; subst hh; exact hp2 ⟨r, rfl⟩
        unfold nextToken
        rw [e, skipSpace_cons, eatComment_slash r c1 c2]
        rfl
      · unfold nextToken
        rw [e, skipSpace_cons, eatComment_plain b r hb]
        simp only [Option.any_some, hsp]
        rfl

example : ¬ occurs (bytes "*/") (bytes " note * / ") ∧ (bytes " note * / ").head? ≠ some 42 ∧
    ¬ bytes "//" <+: bytes "/ 2" ∧ ¬ bytes "/*" <+: bytes "/ 2" := by
  refine ⟨?_, by decide, by decide, by decide⟩
  rintro ⟨x, y, e⟩
  have hl : ∀ n ≤ 10, ¬ (bytes "*/") <+: ((bytes " note * / ").drop n) := by decide +kernel
  have hx : x.length ≤ 10 := by
    have := congrArg List.length e
    rw [List.length_append, List.length_append] at this
    have h10 : (bytes " note * / ").length = 10 := by decide
    omega
  apply hl x.length hx
  rw [e, List.append_assoc, List.drop_left]
  exact ⟨y, rfl⟩

/-- What is missing above: a comment directly after a block comment is not recognised, its opening becomes a
token. -/
theorem C23_adjacent (body post : List Nat) (h : ¬ occurs (bytes "*/") body) (hs : body.head? ≠ some 42) :
    (nextToken (fresh (bytes "/*" ++ body ++ bytes "*/" ++ (bytes "/*" ++ post)))).2.1 = ⟨typeOf (bytes "/*"), .none⟩ ∧
    (nextToken (fresh (bytes "/*" ++ body ++ bytes "*/" ++ (bytes "//" ++ post)))).2.1 = ⟨typeOf (bytes "//"), .none⟩ := by
  have b1 : bytes "/*" = [47, 42] := by decide
  have b2 : bytes "*/" = [42, 47] := by decide
  have b3 : bytes "//" = [47, 47] := by decide
  rw [b2] at h
  rw [b1, b2, b3]
  have key : ∀ d, (d = 42 ∨ d = 47) →
      (nextToken (fresh ([47, 42] ++ body ++ [42, 47] ++ ([47, d] ++ post)))).2.1 = ⟨typeOf [47, d], .none⟩ := by
    intro d hd
    rw [show fresh ([47, 42] ++ body ++ [42, 47] ++ ([47, d] ++ post)) =
      ⟨47 :: 42 :: body ++ 42 :: 47 :: (47 :: d :: post), none⟩ by simp [fresh]]
    have e := skipSpace_block body (47 :: d :: post) none none h hs
    unfold nextToken
    rw [e]
    simp only
    rw [if_neg (by decide)]
    have hd' : dispatch (some 47) ⟨d :: post, some 47⟩ = (some ⟨typeOf [47, d], .none⟩, ⟨post, some d⟩) := by
      rw [dispatch_makeOperator 47 _ (by decide +kernel) (by decide +kernel)]
      unfold makeOperator read
      rcases hd with rfl | rfl
      · have h2 : ttypeOf ([47] ++ [42]) = 47 := by decide +kernel
        have h3 : typeOf [47, 42] = 47 := by decide +kernel
        simp only [h2, h3]
        rfl
      · have h2 : ttypeOf ([47] ++ [47]) = 46 := by decide +kernel
        have h3 : typeOf [47, 47] = 46 := by decide +kernel
        simp only [h2, h3]
        rfl
    dsimp only
    rw [hd']
  exact ⟨key 42 (Or.inl rfl), key 47 (Or.inr rfl)⟩

/-- Another position at which a comment is not transparent: after a star. The star and the slash become one
token, with a space between them there are two. -/
theorem C23_after_star (post : List Nat) :
    (nextToken (fresh (bytes "*" ++ (bytes "/*" ++ post)))).2.1 = ⟨typeOf (bytes "*/"), .none⟩ ∧
    (nextToken (fresh (bytes "*" ++ (bytes " " ++ post)))).2.1 = ⟨typeOf (bytes "*"), .none⟩ := by
  have key : ∀ d x t, ttypeOf [42, d] = t → (t = lastOne → x = typeOf [42]) → (t ≠ lastOne → x = t) →
      t ≠ tokEllipsis → ¬ (t = tokShiftLeft ∨ t = tokShiftRight) → ∀ post,
      (nextToken (fresh (42 :: d :: post))).2.1 = ⟨x, .none⟩ := by
    intro d x t ht h1 h2 h3 h4 post
    obtain ⟨l', e⟩ := nextToken_start 42 (d :: post) none (by decide) (fun h => absurd h (by decide))
    have hd' : (dispatch (some 42) ⟨d :: post, l'⟩).1 = some ⟨x, .none⟩ := by
      have hsl : ttypeOf [42] = 41 := by decide +kernel
      rw [dispatch_makeOperator 42 _ (by decide +kernel) (by decide +kernel)]
      unfold makeOperator read
      simp only [List.cons_append, List.nil_append, ht]
      by_cases hl : t = lastOne
      · rw [if_neg (not_not.2 hl)]
        unfold simpleOperator
        have hc : ttypeOf (List.take 1 [42, d]) = 41 := hsl
        have h5 : typeOf [42] = 41 := by decide +kernel
        simp only [hc]
        rw [if_pos (by decide), h1 hl, h5]
        rfl
      · rw [if_pos hl, if_neg h3, if_neg h4, h2 hl]
        rfl
    unfold fresh
    rw [e, hd']
    rfl
  constructor
  · exact key 47 48 48 (by decide +kernel) (by decide) (by decide) (by decide) (by decide) (42 :: post)
  · exact key 32 (typeOf [42]) lastOne (by decide +kernel) (fun _ => rfl) (by simp) (by decide) (by decide) post

/-- C24, words: in front of a word (a letter and the longest run of letters, digits and underscores after it)
that is not in the token table, the answer is one identifier with the whole word as its text, and what is left
is what follows the word; a word of more than 255 characters is refused as a whole. -/
theorem C24_identifier (first : Nat) (w post : List Nat) (l : Option Nat) (h1 : first ∈ letters)
    (hw : ∀ c ∈ w, c ∈ identBytes) (hp : ∀ c, post.head? = some c → c ∉ identBytes)
    (ht : ∀ t < lastOne, spelling t ≠ first :: w) :
    (nextToken ⟨first :: w ++ post, l⟩).2.2.rest = post ∧
    ((first :: w).length ≤ 255 → (nextToken ⟨first :: w ++ post, l⟩).1 = true ∧
      (nextToken ⟨first :: w ++ post, l⟩).2.1 =
        ⟨if first ∈ capitals then tokTypeIdentifier else tokIdentifier, .text (first :: w)⟩) ∧
    (255 < (first :: w).length → (nextToken ⟨first :: w ++ post, l⟩).1 = false) := by
  obtain ⟨l', e, r1, r2, r3⟩ := nextToken_word first w post h1 hw hp l
  have hl : ttypeOf (first :: w) = lastOne := by
    rw [r3]
    by_contra hne
    obtain ⟨k1, k2⟩ := spelling_of_typeOf _ hne
    exact ht _ k1 k2
  have hm : makeWord [first] ⟨w ++ post, l'⟩ =
      ((if (first :: w).length > maxLength then none
        else if isUpper first then some ⟨tokTypeIdentifier, .text (first :: w)⟩
        else some ⟨tokIdentifier, .text (first :: w)⟩), fresh post) := by
    unfold makeWord
    generalize readWhile isWord (w ++ post) [first] = q at r1 r2
    obtain ⟨name, c, s1⟩ := q
    simp only at r1 r2
    subst r1
    dsimp only
    rw [hl, if_neg (by simp), r2]
    rfl
  rw [hm] at e
  rw [e]
  refine ⟨rfl, ?_, ?_⟩
  · intro hlen
    simp only
    rw [if_neg (by simp only [maxLength]; omega)]
    by_cases hu : first ∈ capitals
    · simp [(capitals_iff first).2 hu, hu]
    · have : ¬ isUpper first = true := fun h => hu ((capitals_iff first).1 h)
      simp [this, hu]
  · intro hlen
    simp only
    rw [if_pos (by simp only [maxLength]; omega)]
    rfl

/-- C24, words that are keywords: the answer is the keyword, whatever follows the whole word. -/
theorem C24_keyword (t first : Nat) (w post : List Nat) (l : Option Nat) (h1 : first ∈ letters)
    (hw : ∀ c ∈ w, c ∈ identBytes) (hp : ∀ c, post.head? = some c → c ∉ identBytes)
    (hlt : t < lastOne) (hs : spelling t = first :: w)
    (hk : special t = .keyword ∨ special t = .typekeyword ∨ special t = .ctlkeyword) :
    (nextToken ⟨first :: w ++ post, l⟩).1 = true ∧ (nextToken ⟨first :: w ++ post, l⟩).2.1 = ⟨t, .none⟩ ∧
    (nextToken ⟨first :: w ++ post, l⟩).2.2.rest = post := by
  obtain ⟨l', e, r1, r2, r3⟩ := nextToken_word first w post h1 hw hp l
  have ht : ttypeOf (first :: w) = t := by rw [r3, ← hs]; exact typeOf_spelling t hlt
  have hm : makeWord [first] ⟨w ++ post, l'⟩ = (some ⟨t, .none⟩, fresh post) := by
    unfold makeWord
    generalize readWhile isWord (w ++ post) [first] = q at r1 r2
    obtain ⟨name, c, s1⟩ := q
    simp only at r1 r2
    subst r1
    dsimp only
    rw [ht, if_pos (by omega), r2]
    rcases hk with h | h | h <;> rw [h]
  rw [hm] at e
  rw [e]
  exact ⟨rfl, rfl, rfl⟩

/-- "iff" is an identifier although "if" is a keyword; "Int" is a keyword. -/
example : answers 3 (fresh (bytes "iff if Int")) = [(true, ⟨tokIdentifier, .text (bytes "iff")⟩),
    (true, ⟨typeOf (bytes "if"), .none⟩), (true, ⟨typeOf (bytes "Int"), .none⟩)] := by decide +kernel

example : (∀ c ∈ bytes "ff", c ∈ identBytes) ∧ (105 : Nat) ∈ letters ∧ (∀ t < lastOne, spelling t ≠ bytes "iff") := by
  decide +kernel

/-- C24, operators: in front of an operator the answer is the token with the longest spelling in the table that
starts the input, and just that spelling is consumed; if there is none the answer is an error. Left out are
comments (C23), two dots, a zero byte in second place, and a shift at the very end of the input. -/
theorem C24_operator_partial (b : Nat) (r : List Nat) (l : Option Nat) (hb : operatorByte b)
    (hc1 : ¬ bytes "//" <+: b :: r) (hc2 : ¬ bytes "/*" <+: b :: r) (hdots : ¬ bytes ".." <+: b :: r)
    (h0 : r.head? ≠ some 0) (hl1 : b :: r ≠ bytes "<<") (hl2 : b :: r ≠ bytes ">>") :
    ∃ t, LongestMatch (b :: r) t (nextToken ⟨b :: r, l⟩).2.2.rest ∧ (nextToken ⟨b :: r, l⟩).1 = t.isSome ∧
      ∀ x, t = some x → (nextToken ⟨b :: r, l⟩).2.1 = ⟨x, .none⟩ := by
  have b3 : bytes "//" = [47, 47] := by decide
  have b1 : bytes "/*" = [47, 42] := by decide
  have b4 : bytes ".." = [46, 46] := by decide
  have b5 : bytes "<<" = [60, 60] := by decide
  have b6 : bytes ">>" = [62, 62] := by decide
  rw [b3] at hc1; rw [b1] at hc2; rw [b4] at hdots; rw [b5] at hl1; rw [b6] at hl2
  obtain ⟨l', e⟩ := nextToken_start b r l (operator_not_space b hb) (by
    rintro rfl
    constructor
    · intro hh
      cases r with
      | nil => simp at hh
      | cons d r => simp only [List.head?_cons, Option.some.injEq] at hh; subst hh; exact hc1 ⟨r, rfl⟩
    · intro hh
      cases r with
      | nil => simp at hh
      | cons d r => simp only [List.head?_cons, Option.some.injEq] at hh; subst hh; exact hc2 ⟨r, rfl⟩)
  rw [e]
  rcases dispatch_operator b ⟨r, l'⟩ hb with ⟨d1, d2, d3⟩ | d
  · rw [d3]
    refine ⟨some (ttypeOf [b]), ?_, rfl, ?_⟩
    · have hb0 : b ≠ 0 := by rintro rfl; exact d1 (by decide +kernel)
      have hc : cstr [b] = [b] := cstr_id [b] (by simp; omega)
      have he : ttypeOf [b] = typeOf [b] := by unfold ttypeOf; rw [hc]
      rw [he] at d1 d2 ⊢
      obtain ⟨k1, k2⟩ := spelling_of_typeOf _ d1
      refine ⟨k1, by rw [k2]; rfl, ?_⟩
      intro u hu hp
      have hh := (prefix_head u hu b r hp).1
      have := table_single _ k1 d2 u hu (by rw [hh, k2]; rfl)
      rw [this]
    · intro x hx
      simp only [Option.some.injEq] at hx
      subst hx
      rfl
  · rw [d]
    refine ⟨(makeOperator [b] ⟨r, l'⟩).1, makeOperator_longest b r l' hb hdots h0 hl1 hl2, ?_, ?_⟩
    · simp
    · intro x hx
      simp only [hx, Option.map_some, Option.getD_some]

example : operatorByte 60 ∧ ¬ bytes "//" <+: bytes "<<=1" ∧ ¬ bytes "/*" <+: bytes "<<=1" ∧
    ¬ bytes ".." <+: bytes "<<=1" ∧ (bytes "<=1").head? ≠ some 0 ∧ bytes "<<=1" ≠ bytes "<<" ∧
    answers 2 (fresh (bytes "<<=1")) = [(true, ⟨tokShiftLeftEqual, .none⟩), (true, ⟨tokNumberSigned, .text (bytes "1")⟩)] := by
  decide +kernel

/-- Left out above: two dots not followed by a third are an error, although "." alone is in the table. -/
theorem C24_two_dots (d : Nat) (r : List Nat) (l : Option Nat) (h : d ≠ 46) :
    (nextToken ⟨46 :: 46 :: d :: r, l⟩).1 = false ∧ spelling 12 = bytes "." := by
  refine ⟨?_, by decide⟩
  obtain ⟨l', e⟩ := nextToken_start 46 (46 :: d :: r) l (by decide) (fun h => absurd h (by decide))
  rw [e]
  have hd' : (dispatch (some 46) ⟨46 :: d :: r, l'⟩).1 = none := by
    have h2 : ttypeOf ([46] ++ [46]) = tokEllipsis := by decide +kernel
    rw [dispatch_makeOperator 46 _ (by decide +kernel) (by decide +kernel)]
    unfold makeOperator read
    simp only [h2]
    unfold checkEllipsis read
    simp only
    rw [if_pos h]
    rfl
  rw [hd']
  rfl

/-- Left out above: a shift operator at the very end of the input is an error, although both "<<" and "<" are in
the table. -/
theorem C24_shift_at_end (l : Option Nat) :
    (nextToken ⟨bytes "<<", l⟩).1 = false ∧ spelling tokShiftLeft = bytes "<<" := by
  rw [nextToken_last _ l none]
  decide +kernel

/-- Left out above: three dots are one token although only two are in the table. -/
theorem C24_ellipsis (r : List Nat) (l : Option Nat) :
    (nextToken ⟨46 :: 46 :: 46 :: r, l⟩).2.1 = ⟨tokEllipsis, .none⟩ ∧
    (nextToken ⟨46 :: 46 :: 46 :: r, l⟩).2.2.rest = r := by
  obtain ⟨l', e⟩ := nextToken_start 46 (46 :: 46 :: r) l (by decide) (fun h => absurd h (by decide))
  rw [e]
  have hd' : dispatch (some 46) ⟨46 :: 46 :: r, l'⟩ = (some ⟨tokEllipsis, .none⟩, ⟨r, some 46⟩) := by
    have h2 : ttypeOf ([46] ++ [46]) = tokEllipsis := by decide +kernel
    rw [dispatch_makeOperator 46 _ (by decide +kernel) (by decide +kernel)]
    unfold makeOperator read
    simp only [h2]
    rfl
  rw [hd']
  exact ⟨rfl, rfl⟩

/-- C24, white space: any amount of it, of any kind, in front of a token makes no difference to the
token. -/
theorem C24_white_space (ws post : List Nat) (l l' : Option Nat) (h : ∀ b ∈ ws, b ∈ white) :
    nextToken ⟨ws ++ post, l⟩ = nextToken ⟨post, l'⟩ := by
  have hw : ∀ b ∈ white, isSpace b = true := by decide +kernel
  induction ws generalizing l with
  | nil =>
    unfold nextToken
    rw [List.nil_append, skipSpace_last _ _ l']
  | cons b ws ih =>
    rw [List.cons_append, nextToken_space b _ l none (hw b (h b (by simp)))]
    exact ih none fun c hc => h c (by simp [hc])

example : nextToken ⟨bytes " \r\n\tx", none⟩ = nextToken ⟨bytes "x", none⟩ :=
  C24_white_space (bytes " \r\n\t") (bytes "x") none none (by decide +kernel)

end Ulam.Lexer
