import Verif.Lexer.Lemmas
/-
White space, comments, words and operators, in terms of the input bytes.
-/
namespace Ulam.Lexer
open Ulam.Token

theorem eatComment_last (r : List Nat) (l l' : Option Nat) : eatComment ⟨r, l⟩ = eatComment ⟨r, l'⟩ := rfl

theorem skipSpace_cons (b : Nat) (r : List Nat) (l : Option Nat) (com : Option Tok) :
    skipSpace ⟨b :: r, l⟩ com =
      if (eatComment (fresh (b :: r))).1.any isSpace then
        skipSpace (eatComment (fresh (b :: r))).2.2 ((eatComment (fresh (b :: r))).2.1.or com)
      else ((eatComment (fresh (b :: r))).1, (eatComment (fresh (b :: r))).2.1.or com,
        (eatComment (fresh (b :: r))).2.2) := by
  rw [skipSpace.eq_def]
  rfl

theorem skipSpace_last (r : List Nat) (l l' : Option Nat) (com : Option Tok) :
    skipSpace ⟨r, l⟩ com = skipSpace ⟨r, l'⟩ com := by
  cases r with
  | nil => rw [(skipSpace_suffix ⟨[], l⟩ com).2.2.2 rfl, (skipSpace_suffix ⟨[], l'⟩ com).2.2.2 rfl]
  | cons b r => rw [skipSpace_cons, skipSpace_cons]

theorem nextToken_last (r : List Nat) (l l' : Option Nat) : nextToken ⟨r, l⟩ = nextToken ⟨r, l'⟩ := by
  unfold nextToken
  rw [skipSpace_last r l l']

theorem nextToken_fresh (s : Str) : nextToken s = nextToken (fresh s.rest) := by
  obtain ⟨r, l⟩ := s
  exact nextToken_last r l none

theorem eatComment_plain (b : Nat) (r : List Nat) (h : b ≠ 47) :
    eatComment (fresh (b :: r)) = (some b, none, ⟨r, some b⟩) := by
  unfold eatComment fresh
  simp only [read]
  rw [if_neg h]

theorem eatComment_slash (r : List Nat) (h1 : r.head? ≠ some 47) (h2 : r.head? ≠ some 42) :
    eatComment (fresh (47 :: r)) = (some 47, none, ⟨r, none⟩) := by
  unfold eatComment fresh
  simp only [read]
  rw [if_pos trivial]
  cases r with
  | nil => rfl
  | cons d r =>
    simp only [List.head?_cons, ne_eq, Option.some.injEq] at h1 h2
    dsimp only
    rw [if_neg h1, if_neg h2]
    rfl

/-- White space is skipped. -/
theorem skipSpace_space (b : Nat) (r : List Nat) (l l' : Option Nat) (com : Option Tok) (h : isSpace b = true) :
    skipSpace ⟨b :: r, l⟩ com = skipSpace ⟨r, l'⟩ com := by
  have hb : b ≠ 47 := by rintro rfl; simp [isSpace] at h
  rw [skipSpace_cons, eatComment_plain b r hb]
  simp only [Option.any_some, h, if_true, Option.none_or]
  exact skipSpace_last _ _ _ _

theorem nextToken_space (b : Nat) (r : List Nat) (l l' : Option Nat) (h : isSpace b = true) :
    nextToken ⟨b :: r, l⟩ = nextToken ⟨r, l'⟩ := by
  unfold nextToken
  rw [skipSpace_space b r l l' none h]

/-- Anything else starts a token, unless it starts a comment. -/
theorem skipSpace_start (b : Nat) (r : List Nat) (l : Option Nat) (com : Option Tok) (h : isSpace b = false)
    (hc : b = 47 → r.head? ≠ some 47 ∧ r.head? ≠ some 42) :
    ∃ l', skipSpace ⟨b :: r, l⟩ com = (some b, com, ⟨r, l'⟩) := by
  by_cases hb : b = 47
  · subst hb
    rw [skipSpace_cons, eatComment_slash r (hc rfl).1 (hc rfl).2]
    exact ⟨none, by simp [isSpace]⟩
  · rw [skipSpace_cons, eatComment_plain b r hb]
    exact ⟨some b, by simp [h]⟩

/-- The first byte of a token decides. -/
theorem nextToken_start (b : Nat) (r : List Nat) (l : Option Nat) (h : isSpace b = false)
    (hc : b = 47 → r.head? ≠ some 47 ∧ r.head? ≠ some 42) :
    ∃ l', nextToken ⟨b :: r, l⟩ =
      ((dispatch (some b) ⟨r, l'⟩).1.isSome, (dispatch (some b) ⟨r, l'⟩).1.getD ⟨tokErrorLowlevel, .none⟩,
        (dispatch (some b) ⟨r, l'⟩).2) := by
  obtain ⟨l', e⟩ := skipSpace_start b r l none h hc
  refine ⟨l', ?_⟩
  unfold nextToken
  rw [e]
  dsimp only
  generalize dispatch (some b) ⟨r, l'⟩ = q
  obtain ⟨o, s⟩ := q
  cases o <;> rfl

/-! Comments. -/

theorem eatLine_body (body post : List Nat) (h : 10 ∉ body) :
    eatLine (body ++ 10 :: post) = (some 10, ⟨post, some 10⟩) ∧ eatLine body = (none, ⟨[], none⟩) := by
  induction body with
  | nil => simp [eatLine]
  | cons b r ih =>
    simp only [List.mem_cons, not_or] at h
    have hb : ¬ b = 10 := fun e => h.1 e.symm
    simp only [List.cons_append, eatLine, if_neg hb]
    exact ih h.2

theorem eatBlock_body (body post : List Nat) (h : ¬ occurs [42, 47] body) :
    eatBlock (body ++ 42 :: 47 :: post) = read ⟨post, some 47⟩ := by
  induction body with
  | nil => rfl
  | cons b r ih =>
    have hr : ¬ occurs [42, 47] r := by
      rintro ⟨x, y, e⟩
      exact h ⟨b :: x, y, by simp [e]⟩
    rw [List.cons_append, eatBlock]
    · exact ih hr
    · intro r' hb hr'
      subst hb
      cases r with
      | nil => simp at hr'
      | cons c r =>
        simp only [List.cons_append, List.cons.injEq] at hr'
        exact h ⟨[], r, by simp [hr'.1]⟩

theorem eatComment_block (body post : List Nat) (h : ¬ occurs [42, 47] body) (hs : body.head? ≠ some 42) :
    eatComment (fresh (47 :: 42 :: body ++ 42 :: 47 :: post)) =
      ((read ⟨post, some 47⟩).1, none, (read ⟨post, some 47⟩).2) := by
  unfold eatComment fresh
  simp only [List.cons_append, read, if_true]
  rw [if_neg (by decide)]
  cases body with
  | nil => simp
  | cons b r =>
    have hb : ¬ b = 42 := by simpa using hs
    simp only [List.cons_append]
    rw [if_neg hb]
    have := eatBlock_body (b :: r) post h
    simp only [List.cons_append] at this
    simp only [unread, this]
    rfl

/-- A block comment in front of anything but a comment. -/
theorem skipSpace_block (body post : List Nat) (l : Option Nat) (com : Option Tok) (h : ¬ occurs [42, 47] body)
    (hs : body.head? ≠ some 42) :
    skipSpace ⟨47 :: 42 :: body ++ 42 :: 47 :: post, l⟩ com =
      match post with
      | [] => (none, com, ⟨[], none⟩)
      | b :: r => if isSpace b then skipSpace ⟨r, none⟩ com else (some b, com, ⟨r, some b⟩) := by
  have e := eatComment_block body post h hs
  simp only [List.cons_append] at e ⊢
  rw [skipSpace_cons, e]
  cases post with
  | nil => simp [read]
  | cons b r =>
    simp only [read, Option.any_some, Option.none_or]
    rw [skipSpace_last r (some b) none]
    rfl

theorem answers_congr (k : Nat) (s s' : Str) (h : nextToken s = nextToken s') : answers k s = answers k s' := by
  cases k with
  | zero => rfl
  | succ k => simp only [answers, h]

/-! Words. -/

theorem identBytes_iff (c : Nat) : isWord c = true ↔ c ∈ identBytes := by
  by_cases hc : c < 128
  · have : ∀ c < (128 : Nat), isWord c = true ↔ c ∈ identBytes := by decide +kernel
    exact this c hc
  · have h1 : ∀ x ∈ identBytes, x < 128 := by decide +kernel
    constructor
    · intro h
      simp only [isWord, isAlpha, isDigit, Bool.or_eq_true, Bool.and_eq_true, decide_eq_true_eq] at h
      omega
    · intro h; exact absurd (h1 c h) hc

theorem letters_iff (c : Nat) : isAlpha c = true ↔ c ∈ letters := by
  by_cases hc : c < 128
  · have : ∀ c < (128 : Nat), isAlpha c = true ↔ c ∈ letters := by decide +kernel
    exact this c hc
  · have h1 : ∀ x ∈ letters, x < 128 := by decide +kernel
    constructor
    · intro h
      simp only [isAlpha, Bool.or_eq_true, Bool.and_eq_true, decide_eq_true_eq] at h
      omega
    · intro h; exact absurd (h1 c h) hc

theorem capitals_iff (c : Nat) : isUpper c = true ↔ c ∈ capitals := by
  by_cases hc : c < 128
  · have : ∀ c < (128 : Nat), isUpper c = true ↔ c ∈ capitals := by decide +kernel
    exact this c hc
  · have h1 : ∀ x ∈ capitals, x < 128 := by decide +kernel
    constructor
    · intro h
      simp only [isUpper, Bool.and_eq_true, decide_eq_true_eq] at h
      omega
    · intro h; exact absurd (h1 c h) hc

theorem readWhile_run (p : Nat → Bool) (w post : List Nat) (acc : Bytes) (hw : ∀ c ∈ w, p c = true)
    (hp : ∀ c, post.head? = some c → p c = false) :
    (readWhile p (w ++ post) acc).1 = acc ++ w ∧ unread (readWhile p (w ++ post) acc).2.2 = fresh post := by
  induction w generalizing acc with
  | nil =>
    cases post with
    | nil => simp [readWhile, unread, fresh]
    | cons c r =>
      have := hp c rfl
      simp [readWhile, this, unread, fresh]
  | cons b w ih =>
    have hb := hw b (by simp)
    simp only [List.cons_append, readWhile, hb, if_true]
    have := ih (acc ++ [b]) (fun c hc => hw c (by simp [hc]))
    simpa using this

theorem cstr_id (w : Bytes) (h : 0 ∉ w) : cstr w = w := by
  induction w with
  | nil => rfl
  | cons b w ih =>
    simp only [List.mem_cons, not_or] at h
    have hb : b ≠ 0 := fun e => h.1 e.symm
    have := ih h.2
    unfold cstr at this ⊢
    rw [List.takeWhile_cons_of_pos (by simpa using hb), this]

/-- No entry of the table is a single letter. -/
theorem typeOf_letter (c : Nat) (h : isAlpha c = true) : ttypeOf [c] = lastOne := by
  have hc : c < 128 := by
    simp only [isAlpha, Bool.or_eq_true, Bool.and_eq_true, decide_eq_true_eq] at h; omega
  have : ∀ c < (128 : Nat), isAlpha c = true → ttypeOf [c] = lastOne := by decide +kernel
  exact this c hc h

theorem alpha_not_space (c : Nat) (h : isAlpha c = true) : isSpace c = false ∧ c ≠ 47 := by
  simp only [isAlpha, Bool.or_eq_true, Bool.and_eq_true, decide_eq_true_eq] at h
  constructor
  · simp only [isSpace, Bool.or_eq_false_iff, Bool.and_eq_false_iff, decide_eq_false_iff_not]; omega
  · omega

theorem dispatch_word (c : Nat) (s : Str) (h : isAlpha c = true) : dispatch (some c) s = makeWord [c] s := by
  unfold dispatch
  simp only [Option.getD_some, typeOf_letter c h, Option.any_some, h]
  rfl

/-- A request in front of a word. -/
theorem nextToken_word (first : Nat) (w post : List Nat) (h1 : first ∈ letters) (hw : ∀ c ∈ w, c ∈ identBytes)
    (hp : ∀ c, post.head? = some c → c ∉ identBytes) (l : Option Nat) :
    ∃ l', nextToken ⟨first :: w ++ post, l⟩ =
      ((makeWord [first] ⟨w ++ post, l'⟩).1.isSome, (makeWord [first] ⟨w ++ post, l'⟩).1.getD ⟨tokErrorLowlevel, .none⟩,
        (makeWord [first] ⟨w ++ post, l'⟩).2) ∧
    (readWhile isWord (w ++ post) [first]).1 = first :: w ∧
    unread (readWhile isWord (w ++ post) [first]).2.2 = fresh post ∧ ttypeOf (first :: w) = typeOf (first :: w) := by
  have ha := (letters_iff first).2 h1
  obtain ⟨l', e⟩ := nextToken_start first (w ++ post) l (alpha_not_space first ha).1
    (fun e => absurd e (alpha_not_space first ha).2)
  rw [dispatch_word first _ ha] at e
  obtain ⟨r1, r2⟩ := readWhile_run isWord w post [first] (fun c hc => (identBytes_iff c).2 (hw c hc))
    (fun c hc => by
      cases hx : isWord c with
      | false => rfl
      | true => exact absurd ((identBytes_iff c).1 hx) (hp c hc))
  refine ⟨l', e, r1, r2, ?_⟩
  unfold ttypeOf
  rw [cstr_id]
  have h0 : (0 : Nat) ∉ identBytes := by decide +kernel
  have h0' : (0 : Nat) ∉ letters := by decide +kernel
  simp only [List.mem_cons, not_or]
  exact ⟨fun e => h0' (e ▸ h1), fun hm => h0 (hw 0 hm)⟩

/-! Operators. -/

instance : DecidablePred operatorByte := fun b => by unfold operatorByte; infer_instance

set_option maxRecDepth 10000 in
theorem table_lengths : ∀ t < lastOne, (spelling t ≠ [] ∧ 0 ∉ spelling t) ∧
    (operatorByte ((spelling t).headD 0) → (spelling t).length ≤ 2 ∨
      (t = tokShiftLeftEqual ∨ t = tokShiftRightEqual)) := by decide +kernel

set_option maxRecDepth 10000 in
theorem table_single : ∀ t < lastOne, special t = .single → ∀ u < lastOne,
    (spelling u).head? = (spelling t).head? → u = t := by decide +kernel

set_option maxRecDepth 10000 in
theorem table_quotes : ∀ t < lastOne, (special t = .dquote → (spelling t).head? = some 34) ∧
    (special t = .squote → (spelling t).head? = some 39) := by decide +kernel

/-- An operator byte goes to the operators or is a token of its own. -/
theorem dispatch_operator (b : Nat) (s : Str) (h : operatorByte b) :
    (ttypeOf [b] ≠ lastOne ∧ special (ttypeOf [b]) = .single ∧ dispatch (some b) s = (some ⟨ttypeOf [b], .none⟩, s)) ∨
    dispatch (some b) s = ((makeOperator [b] s).1.map (fun t => ⟨t, .none⟩), (makeOperator [b] s).2.2) := by
  obtain ⟨h1, h2, h3, h4, h5⟩ := h
  have hw : isWord b = false := by
    cases hx : isWord b with
    | false => rfl
    | true => exact absurd ((identBytes_iff b).1 hx) h1
  have h64 : b ≠ 64 := by rintro rfl; exact h2 (by decide)
  have h34 : b ≠ 34 := by rintro rfl; exact h2 (by decide)
  have h39 : b ≠ 39 := by rintro rfl; exact h2 (by decide)
  simp only [isWord, Bool.or_eq_false_iff, decide_eq_false_iff_not] at hw
  obtain ⟨⟨ha, hd⟩, h95⟩ := hw
  have hsp : ∀ x, (if ttypeOf [b] ≠ lastOne then special (ttypeOf [b]) else .unclear) = x →
      x ≠ .dquote ∧ x ≠ .squote ∧ (x = .single → ttypeOf [b] ≠ lastOne ∧ special (ttypeOf [b]) = .single) := by
    intro x hx
    by_cases hl : ttypeOf [b] = lastOne
    · rw [if_neg (by simpa using hl)] at hx; subst hx; simp
    · rw [if_pos hl] at hx
      have hb : b ≠ 0 := by
        rintro rfl
        exact hl (by decide +kernel)
      have hc : cstr [b] = [b] := cstr_id [b] (by simp; omega)
      have hsx : typeOf (cstr [b]) ≠ lastOne := hl
      rw [hc] at hsx
      obtain ⟨k1, k2⟩ := spelling_of_typeOf _ hsx
      have hq := table_quotes _ k1
      rw [k2] at hq
      have e : ttypeOf [b] = typeOf [b] := by unfold ttypeOf; rw [hc]
      rw [e] at hx hl ⊢
      subst hx
      refine ⟨?_, ?_, fun h => ⟨hl, h⟩⟩
      · intro e2; have := hq.1 e2; simp at this; omega
      · intro e2; have := hq.2 e2; simp at this; omega
  unfold dispatch
  simp only [Option.getD_some]
  generalize hx : (if ttypeOf [b] ≠ lastOne then special (ttypeOf [b]) else .unclear) = x
  obtain ⟨x1, x2, x3⟩ := hsp x hx
  have rest : (if (Option.any isAlpha (some b)) = true then makeWord [b] s
      else if (Option.any isDigit (some b)) = true then makeNumber b s
      else if some b = some 64 then makeFlag s
      else if some b = some 95 then makeSubstitute s
      else match makeOperator [b] s with
        | (some t, _, s1) => (some ⟨t, .none⟩, s1)
        | (none, _, s1) => (none, s1)) =
      ((makeOperator [b] s).1.map (fun t => (⟨t, .none⟩ : Tok)), (makeOperator [b] s).2.2) := by
    simp only [Option.any_some, ha, hd, Option.some.injEq, h64, h95, Bool.false_eq_true, if_false]
    generalize makeOperator [b] s = q
    obtain ⟨o, str, s1⟩ := q
    cases o <;> rfl
  cases x with
  | single => exact Or.inl ⟨(x3 rfl).1, (x3 rfl).2, rfl⟩
  | dquote => exact absurd rfl x1
  | squote => exact absurd rfl x2
  | _ => exact Or.inr rest

theorem dispatch_makeOperator (b : Nat) (s : Str) (h : operatorByte b) (hs : special (ttypeOf [b]) ≠ .single) :
    dispatch (some b) s = ((makeOperator [b] s).1.map (fun t => ⟨t, .none⟩), (makeOperator [b] s).2.2) := by
  rcases dispatch_operator b s h with ⟨_, h2, _⟩ | h2
  · exact absurd h2 hs
  · exact h2

theorem operator_not_space (b : Nat) (h : operatorByte b) : isSpace b = false := by
  obtain ⟨_, h2, h3, h4, _⟩ := h
  cases hs : isSpace b with
  | false => rfl
  | true =>
    simp only [isSpace, Bool.or_eq_true, Bool.and_eq_true, decide_eq_true_eq] at hs
    exfalso
    have : b = 32 ∨ b = 9 ∨ b = 10 ∨ b = 13 := by omega
    apply h2
    rcases this with rfl | rfl | rfl | rfl <;> decide

theorem prefix_head (u : Nat) (hu : u < lastOne) (b : Nat) (r : List Nat) (h : spelling u <+: b :: r) :
    (spelling u).head? = some b ∧ (spelling u).headD 0 = b := by
  have h0 := (table_lengths u hu).1.1
  obtain ⟨y, hy⟩ := h
  cases hs : spelling u with
  | nil => exact absurd hs h0
  | cons x xs =>
    rw [hs] at hy
    simp only [List.cons_append, List.cons.injEq] at hy
    simp [hy.1]

theorem simple_longest (b : Nat) (r : List Nat) (s : Str) (hs : unread s = fresh r)
    (hlen : ∀ u < lastOne, spelling u <+: b :: r → spelling u = [b]) :
    LongestMatch (b :: r) (simpleOperator [b] s).1 (simpleOperator [b] s).2.2.rest := by
  rw [simpleOperator_rest, hs]
  have h1 : (simpleOperator [b] s).1 = if ttypeOf [b] ≠ lastOne then some (ttypeOf [b]) else none := by
    unfold simpleOperator
    dsimp only
    split <;> rfl
  rw [h1]
  by_cases hl : ttypeOf [b] = lastOne
  · rw [if_neg (by simpa using hl)]
    refine ⟨?_, rfl⟩
    intro u hu hp
    have he := hlen u hu hp
    have h0 := (table_lengths u hu).1.2
    rw [he] at h0
    have := typeOf_spelling u hu
    rw [he] at this
    unfold ttypeOf at hl
    rw [cstr_id _ h0, this] at hl
    omega
  · rw [if_pos hl]
    have hb : b ≠ 0 := by rintro rfl; exact hl (by decide +kernel)
    have hc : cstr [b] = [b] := cstr_id [b] (by simp; omega)
    have e : ttypeOf [b] = typeOf [b] := by unfold ttypeOf; rw [hc]
    rw [e] at hl ⊢
    obtain ⟨k1, k2⟩ := spelling_of_typeOf _ hl
    refine ⟨k1, by rw [k2]; rfl, ?_⟩
    intro u hu hp
    rw [hlen u hu hp, k2]

theorem shiftEqual_spellings : spelling tokShiftLeftEqual = [60, 60, 61] ∧ spelling tokShiftRightEqual = [62, 62, 61] ∧
    spelling tokShiftLeft = [60, 60] ∧ spelling tokShiftRight = [62, 62] ∧ spelling tokEllipsis = [46, 46] ∧
    typeOf [60, 60] = tokShiftLeft ∧ typeOf [62, 62] = tokShiftRight ∧
    typeOf [60, 60, 61] = tokShiftLeftEqual ∧ typeOf [62, 62, 61] = tokShiftRightEqual := by
  decide +kernel

/-- How long a table spelling starting the input can be. -/
theorem prefix_cases (u : Nat) (hu : u < lastOne) (b : Nat) (r : List Nat) (hb : operatorByte b)
    (h : spelling u <+: b :: r) :
    spelling u = [b] ∨ (∃ c r', r = c :: r' ∧ spelling u = [b, c]) ∨
    ((b = 60 ∨ b = 62) ∧ (∃ r', r = b :: 61 :: r') ∧ spelling u = [b, b, 61]) := by
  obtain ⟨hh, hd⟩ := prefix_head u hu b r h
  have hl := (table_lengths u hu).2 (by rw [hd]; exact hb)
  obtain ⟨y, hy⟩ := h
  rcases hl with hl | hl
  · cases hs : spelling u with
    | nil => rw [hs] at hh; simp at hh
    | cons x xs =>
      rw [hs] at hl hh hy
      simp only [List.head?_cons, Option.some.injEq] at hh
      subst hh
      cases xs with
      | nil => left; rfl
      | cons c ys =>
        cases ys with
        | nil =>
          right; left
          simp only [List.cons_append, List.nil_append, List.cons.injEq, true_and] at hy
          exact ⟨c, y, hy.symm, rfl⟩
        | cons d zs => simp at hl
  · right; right
    rcases hl with e | e
    · subst e
      rw [shiftEqual_spellings.1] at hh hy ⊢
      simp only [List.head?_cons, Option.some.injEq] at hh
      subst hh
      simp only [List.cons_append, List.nil_append, List.cons.injEq, true_and] at hy
      exact ⟨Or.inl rfl, ⟨y, hy.symm⟩, rfl⟩
    · subst e
      rw [shiftEqual_spellings.2.1] at hh hy ⊢
      simp only [List.head?_cons, Option.some.injEq] at hh
      subst hh
      simp only [List.cons_append, List.nil_append, List.cons.injEq, true_and] at hy
      exact ⟨Or.inr rfl, ⟨y, hy.symm⟩, rfl⟩

theorem makeOperator_longest (b : Nat) (r : List Nat) (l : Option Nat) (hb : operatorByte b)
    (hdots : ¬ [46, 46] <+: b :: r) (h0 : r.head? ≠ some 0) (hl1 : b :: r ≠ [60, 60]) (hl2 : b :: r ≠ [62, 62]) :
    LongestMatch (b :: r) (makeOperator [b] ⟨r, l⟩).1 (makeOperator [b] ⟨r, l⟩).2.2.rest := by
  obtain ⟨e1, e2, e3, e4, e5, e6, e7, e8, e9⟩ := shiftEqual_spellings
  unfold makeOperator read
  cases r with
  | nil =>
    apply simple_longest b [] _ rfl
    intro u hu hp
    rcases prefix_cases u hu b [] hb hp with h | ⟨c, r', h, _⟩ | ⟨_, ⟨r', h⟩, _⟩
    · exact h
    · simp at h
    · simp at h
  | cons c r =>
    dsimp only
    have hc0 : c ≠ 0 := by simpa using h0
    by_cases hb0 : b = 0
    · subst hb0
      have ht : ttypeOf ([0] ++ [c]) = lastOne := by
        show typeOf (cstr (0 :: [c])) = lastOne
        have : cstr (0 :: [c]) = [] := by simp [cstr]
        rw [this]; decide +kernel
      rw [if_neg (by simpa using ht)]
      apply simple_longest 0 (c :: r) _ rfl
      intro u hu hp
      have h1 := (prefix_head u hu 0 (c :: r) hp).1
      exact absurd (List.mem_of_head? h1) (table_lengths u hu).1.2
    · have hcs : cstr ([b] ++ [c]) = [b, c] := cstr_id [b, c] (by simp; omega)
      have htt : ttypeOf ([b] ++ [c]) = typeOf [b, c] := by unfold ttypeOf; rw [hcs]
      rw [htt]
      by_cases hl : typeOf [b, c] = lastOne
      · rw [if_neg (by simpa using hl)]
        apply simple_longest b (c :: r) _ rfl
        intro u hu hp
        rcases prefix_cases u hu b (c :: r) hb hp with h | ⟨c', r', h, h2⟩ | ⟨hbb, ⟨r', h⟩, h2⟩
        · exact h
        · simp only [List.cons.injEq] at h
          obtain ⟨rfl, rfl⟩ := h
          exact absurd h2 (typeOf_eq_lastOne _ hl u hu)
        · simp only [List.cons.injEq] at h
          obtain ⟨rfl, rfl⟩ := h
          rcases hbb with rfl | rfl
          · rw [e6] at hl; exact absurd hl (by decide)
          · rw [e7] at hl; exact absurd hl (by decide)
      · rw [if_pos hl]
        obtain ⟨k1, k2⟩ := spelling_of_typeOf _ hl
        have hne : ¬ typeOf [b, c] = tokEllipsis := by
          intro h
          rw [h, e5] at k2
          simp only [List.cons.injEq, and_true] at k2
          apply hdots
          rw [← k2.1, ← k2.2]
          exact ⟨r, rfl⟩
        rw [if_neg hne]
        by_cases hsh : typeOf [b, c] = tokShiftLeft ∨ typeOf [b, c] = tokShiftRight
        · rw [if_pos hsh]
          have hbc : (b = 60 ∧ c = 60) ∨ (b = 62 ∧ c = 62) := by
            rcases hsh with h | h
            · rw [h, e3] at k2; simp only [List.cons.injEq, and_true] at k2; left; omega
            · rw [h, e4] at k2; simp only [List.cons.injEq, and_true] at k2; right; omega
          unfold checkShiftEqual read
          cases r with
          | nil =>
            rcases hbc with ⟨rfl, rfl⟩ | ⟨rfl, rfl⟩
            · exact absurd rfl hl1
            · exact absurd rfl hl2
          | cons d r =>
            dsimp only
            by_cases hd : d = 61
            · subst hd
              rw [if_pos rfl]
              have hcs3 : ttypeOf ([b] ++ [c] ++ [61]) = typeOf [b, c, 61] := by
                unfold ttypeOf; rw [show [b] ++ [c] ++ [61] = [b, c, 61] from rfl, cstr_id _ (by simp; omega)]
              have hlen : ∀ u < lastOne, spelling u <+: b :: c :: 61 :: r → (spelling u).length ≤ 3 := by
                intro u hu hp
                rcases prefix_cases u hu b _ hb hp with h | ⟨_, _, _, h⟩ | ⟨_, _, h⟩ <;> rw [h] <;> simp
              rcases hbc with ⟨rfl, rfl⟩ | ⟨rfl, rfl⟩
              · refine ⟨?_, ?_, ?_⟩
                · rw [hcs3, e8]; decide
                · rw [hcs3, e8, e1]; rfl
                · rw [hcs3, e8, e1]; exact hlen
              · refine ⟨?_, ?_, ?_⟩
                · rw [hcs3, e9]; decide
                · rw [hcs3, e9, e2]; rfl
                · rw [hcs3, e9, e2]; exact hlen
            · rw [if_neg hd]
              refine ⟨k1, by rw [k2]; rfl, ?_⟩
              intro u hu hp
              rw [k2]
              rcases prefix_cases u hu b _ hb hp with h | ⟨_, _, _, h⟩ | ⟨_, ⟨r', h⟩, _⟩
              · rw [h]; simp
              · rw [h]; simp
              · simp only [List.cons.injEq] at h; exact absurd h.2.1 hd
        · rw [if_neg hsh]
          refine ⟨k1, by rw [k2]; rfl, ?_⟩
          intro u hu hp
          rw [k2]
          rcases prefix_cases u hu b _ hb hp with h | ⟨_, _, _, h⟩ | ⟨hbb, ⟨r', h⟩, _⟩
          · rw [h]; simp
          · rw [h]; simp
          · simp only [List.cons.injEq] at h
            exfalso
            apply hsh
            obtain ⟨rfl, _⟩ := h
            rcases hbb with rfl | rfl
            · left; exact e6
            · right; exact e7

end Ulam.Lexer
