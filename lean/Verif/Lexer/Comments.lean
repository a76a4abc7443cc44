import Verif.Lexer.Local
import Verif.Lexer.Props
/-
C23 for whole programs: the tokens before a comment and the tokens after it.
-/
namespace Ulam.Lexer
open Ulam.Token

theorem answers_add (k m : Nat) (s : Str) : answers (k + m) s = answers k s ++ answers m (after k s) := by
  induction k generalizing s with
  | zero => simp [answers, after]
  | succ k ih =>
    rw [show k + 1 + m = (k + m) + 1 by omega]
    simp only [answers, after, ih, List.cons_append]

theorem answers_length (k : Nat) (s : Str) : (answers k s).length = k := by
  induction k generalizing s with
  | zero => rfl
  | succ k ih => simp [answers, ih]

/-- Agreement up to a request and from there on. -/
theorem answers_glue (k : Nat) (s s' : Str) (h1 : answers k s = answers k s')
    (h2 : ∀ m, answers m (after k s) = answers m (after k s')) (n : Nat) : answers n s = answers n s' := by
  rcases Nat.le_total n k with h | h
  · obtain ⟨m, rfl⟩ := Nat.exists_eq_add_of_le h
    rw [answers_add, answers_add] at h1
    exact (List.append_inj h1 (by simp [answers_length])).1
  · obtain ⟨m, rfl⟩ := Nat.exists_eq_add_of_le h
    rw [answers_add, answers_add, h1, h2]

theorem answers_fresh (n : Nat) (s : Str) : answers n s = answers n (fresh s.rest) :=
  answers_congr n _ _ (nextToken_fresh s)

/-- Another continuation with the same tokens. -/
theorem answers_continue (u q q' : List Nat) (x x' : Nat) (hf : Fits x x' u) (k : Nat)
    (hk : (after k (fresh (u ++ x :: q))).rest = x :: q) (hok : ∀ a ∈ answers k (fresh (u ++ x :: q)), a.1 = true)
    (he : ∀ n, answers n (fresh (x' :: q')) = answers n (fresh (x :: q))) (n : Nat) :
    answers n (fresh (u ++ x' :: q')) = answers n (fresh (u ++ x :: q)) := by
  obtain ⟨h1, h2⟩ := answers_local (q' := q') k u none none hf hok hk
  refine answers_glue k _ _ h1 ?_ n
  intro m
  show answers m (after k (fresh (u ++ x' :: q'))) = answers m (after k (fresh (u ++ x :: q)))
  rw [answers_fresh m (after k (fresh (u ++ x' :: q'))), answers_fresh m (after k (fresh (u ++ x :: q))), hk]
  rw [show (after k (fresh (u ++ x' :: q'))).rest = x' :: q' from h2]
  exact he m

/-- The input is cut after `u`: the lexer, having answered some requests without an error, is about to read
the rest. -/
def Boundary (u rest : List Nat) : Prop :=
  ∃ k, (after k (fresh (u ++ rest))).rest = rest ∧ ∀ a ∈ answers k (fresh (u ++ rest)), a.1 = true

/-- Replacing what follows a token and some white space. -/
theorem answers_replace (u w r z : List Nat) (hw : ∀ b ∈ w, b ∈ white)
    (h42 : (u ++ w).getLast? ≠ some 42) (h47 : (u ++ w).getLast? ≠ some 47) (hb : Boundary u (w ++ 32 :: r))
    (he : ∀ n, answers n (fresh (47 :: z)) = answers n (fresh (32 :: r))) (n : Nat) :
    answers n (fresh (u ++ w ++ 47 :: z)) = answers n (fresh (u ++ w ++ 32 :: r)) := by
  obtain ⟨k, hk, hok⟩ := hb
  cases w with
  | nil =>
    simp only [List.append_nil, List.nil_append] at *
    exact answers_continue u r z 32 47 (Or.inr ⟨by decide, rfl, h42, h47⟩) k hk hok he n
  | cons b w =>
    simp only [List.cons_append, List.append_assoc] at *
    refine answers_continue u (w ++ 32 :: r) (w ++ 47 :: z) b b (Or.inl rfl) k hk hok ?_ n
    intro m
    have e := answers_congr m _ _ (C24_white_space (b :: w) (47 :: z) none none hw)
    have e' := answers_congr m _ _ (C24_white_space (b :: w) (32 :: r) none none hw)
    exact e.trans ((he m).trans e'.symm)

/-- C23, line comments anywhere between two tokens: after any tokens `u` and any white space `w`, except
directly after a star or a slash, the comment can be replaced by a space without changing any token of the
program, before it or after it. -/
theorem C23_line_program (u w body post : List Nat) (hw : ∀ b ∈ w, b ∈ white)
    (h42 : (u ++ w).getLast? ≠ some 42) (h47 : (u ++ w).getLast? ≠ some 47) (h : 10 ∉ body)
    (hb : Boundary u (w ++ (bytes " " ++ 10 :: post))) (n : Nat) :
    answers n (fresh (u ++ w ++ (bytes "//" ++ body ++ 10 :: post))) =
      answers n (fresh (u ++ w ++ (bytes " " ++ 10 :: post))) := by
  have b2 : bytes "//" = [47, 47] := by decide
  have b1 : bytes " " = [32] := by decide
  have e := fun m => (C23_line body post h m).1
  rw [b1] at hb
  rw [b1, b2] at e
  rw [b1, b2]
  exact answers_replace u w (10 :: post) (47 :: body ++ 10 :: post) hw h42 h47 hb e n

/-- The same for a line comment at the end of the program. -/
theorem C23_line_at_end (u w body : List Nat) (hw : ∀ b ∈ w, b ∈ white)
    (h42 : (u ++ w).getLast? ≠ some 42) (h47 : (u ++ w).getLast? ≠ some 47) (h : 10 ∉ body)
    (hb : Boundary u (w ++ bytes " ")) (n : Nat) :
    answers n (fresh (u ++ w ++ (bytes "//" ++ body))) = answers n (fresh (u ++ w ++ bytes " ")) := by
  have b2 : bytes "//" = [47, 47] := by decide
  have b1 : bytes " " = [32] := by decide
  have e := fun m => (C23_line body [] h m).2
  rw [b1] at hb
  rw [b1, b2] at e
  rw [b1, b2]
  exact answers_replace u w [] (47 :: body) hw h42 h47 hb e n

/-- C23, block comments anywhere between two tokens, except directly after a star or a slash: one that is not
a structured comment and not directly followed by another comment can be replaced by a space without changing
any token of the program. -/
theorem C23_block_program_partial (u w body post : List Nat) (hw : ∀ b ∈ w, b ∈ white)
    (h42 : (u ++ w).getLast? ≠ some 42) (h47 : (u ++ w).getLast? ≠ some 47)
    (h : ¬ occurs (bytes "*/") body) (hs : body.head? ≠ some 42)
    (hp1 : ¬ bytes "//" <+: post) (hp2 : ¬ bytes "/*" <+: post)
    (hb : Boundary u (w ++ (bytes " " ++ post))) (n : Nat) :
    answers n (fresh (u ++ w ++ (bytes "/*" ++ body ++ bytes "*/" ++ post))) =
      answers n (fresh (u ++ w ++ (bytes " " ++ post))) := by
  have b2 : bytes "/*" = [47, 42] := by decide
  have b1 : bytes " " = [32] := by decide
  have e := fun m => C23_block_partial body post h hs hp1 hp2 m
  rw [b1] at hb
  rw [b1, b2] at e
  rw [b1, b2]
  have := answers_replace u w post (42 :: body ++ bytes "*/" ++ post) hw h42 h47 hb e n
  simpa using this

/-- `int a = 5;` and then ` b`: the lexer stops after the semicolon, having answered five requests. -/
example : Boundary (bytes "int a = 5;") (bytes "" ++ (bytes " " ++ bytes "b")) :=
  ⟨5, by decide +kernel, by decide +kernel⟩

/-- A comment in the middle of a program, with white space and without. -/
example (n : Nat) : answers n (fresh (bytes "int a = 5; " ++ bytes "" ++ (bytes "/*" ++ bytes " why " ++ bytes "*/" ++ bytes "b + 1"))) =
    answers n (fresh (bytes "int a = 5; " ++ bytes "" ++ (bytes " " ++ bytes "b + 1"))) := by
  have hn : ¬ occurs (bytes "*/") (bytes " why ") := by
    rintro ⟨x, y, e⟩
    have : (42 : Nat) ∈ bytes " why " := by rw [e]; simp [show bytes "*/" = [42, 47] by decide]
    exact absurd this (by decide)
  have := C23_block_program_partial (bytes "int a = 5;") (bytes " ") (bytes " why ") (bytes "b + 1") (by decide +kernel)
    (by decide) (by decide) hn (by decide) (by decide) (by decide) ⟨5, by decide +kernel, by decide +kernel⟩ n
  exact this

/-! Comments after a structured comment. -/

theorem structured_body (d r : List Nat) (acc : Bytes) (h : ¬ occurs [42, 47] d) :
    structured (d ++ 42 :: 47 :: r) acc = (⟨tokStructuredComment, .text (acc ++ d)⟩, read ⟨r, some 47⟩) := by
  induction d generalizing acc with
  | nil => rw [List.nil_append, structured_end, List.append_nil]
  | cons b d ih =>
    have hr : ¬ occurs [42, 47] d := by
      rintro ⟨x, y, e⟩
      exact h ⟨b :: x, y, by simp [e]⟩
    rw [show acc ++ b :: d = (acc ++ [b]) ++ d by simp, ← ih (acc ++ [b]) hr]
    cases d with
    | nil => exact structured_step b 42 _ _ (by simp)
    | cons e d =>
      refine structured_step b e _ _ ?_
      rintro ⟨rfl, rfl⟩
      exact h ⟨[], d, rfl⟩

theorem skipSpace_white (w p : List Nat) (l l' : Option Nat) (com : Option Tok) (hw : ∀ b ∈ w, b ∈ white) :
    skipSpace ⟨w ++ p, l⟩ com = skipSpace ⟨p, l'⟩ com := by
  have hsp : ∀ b ∈ white, isSpace b = true := by decide +kernel
  induction w generalizing l with
  | nil => rw [List.nil_append, skipSpace_last _ _ l']
  | cons b w ih =>
    rw [List.cons_append, skipSpace_space b _ l none com (hsp b (hw b (by simp)))]
    exact ih none fun c hc => hw c (by simp [hc])

/-- After a structured comment and white space, only what skipping makes of the rest matters. -/
theorem nextToken_after_doc (d w p p' : List Nat) (hd : ¬ occurs [42, 47] d) (hd' : d.head? ≠ some 47)
    (hw : ∀ b ∈ w, b ∈ white) (hne : w ≠ [])
    (he : ∀ com, skipSpace (fresh p) com = skipSpace (fresh p') com) :
    nextToken (fresh (47 :: 42 :: 42 :: (d ++ 42 :: 47 :: (w ++ p)))) =
      nextToken (fresh (47 :: 42 :: 42 :: (d ++ 42 :: 47 :: (w ++ p')))) := by
  have hsp : ∀ b ∈ white, isSpace b = true := by decide +kernel
  have key : ∀ p : List Nat, skipSpace (fresh (47 :: 42 :: 42 :: (d ++ 42 :: 47 :: (w ++ p)))) none =
      skipSpace (fresh p) (some ⟨tokStructuredComment, .text d⟩) := by
    intro p
    rw [show fresh (47 :: 42 :: 42 :: (d ++ 42 :: 47 :: (w ++ p))) =
      ⟨47 :: 42 :: 42 :: (d ++ 42 :: 47 :: (w ++ p)), none⟩ from rfl, skipSpace_cons, eatComment_doc, structured_body d _ [] hd]
    · cases w with
      | nil => exact absurd rfl hne
      | cons b w =>
        simp only [List.nil_append, List.cons_append, read, Option.any_some]
        refine (if_pos (hsp b (hw b (by simp)))).trans ?_
        exact skipSpace_white w p _ none _ fun c hc => hw c (by simp [hc])
    · cases d with
      | nil => simp
      | cons e d => simpa using hd'
  unfold nextToken
  rw [key p, key p', he]

theorem skipSpace_line (body post : List Nat) (com : Option Tok) (h : 10 ∉ body) :
    skipSpace (fresh (47 :: 47 :: (body ++ 10 :: post))) com = skipSpace (fresh (32 :: 10 :: post)) com := by
  obtain ⟨e1, -⟩ := eatLine_body body post h
  rw [show fresh (32 :: 10 :: post) = ⟨32 :: 10 :: post, none⟩ from rfl, skipSpace_space 32 _ none none _ (by decide),
    skipSpace_space 10 _ none none _ (by decide)]
  rw [show fresh (47 :: 47 :: (body ++ 10 :: post)) = ⟨47 :: 47 :: (body ++ 10 :: post), none⟩ from rfl, skipSpace_cons,
    eatComment_line, e1]
  simp only [Option.any_some, Option.none_or]
  rw [if_pos (by decide), skipSpace_last post (some 10) none]

theorem skipSpace_block_space (body post : List Nat) (com : Option Tok) (h : ¬ occurs [42, 47] body)
    (hs : body.head? ≠ some 42) (hp : post.head? ≠ some 47) :
    skipSpace (fresh (47 :: 42 :: body ++ 42 :: 47 :: post)) com = skipSpace (fresh (32 :: post)) com := by
  rw [show fresh (32 :: post) = ⟨32 :: post, none⟩ from rfl, skipSpace_space 32 _ none none _ (by decide)]
  rw [show fresh (47 :: 42 :: body ++ 42 :: 47 :: post) = ⟨47 :: 42 :: body ++ 42 :: 47 :: post, none⟩ from rfl,
    skipSpace_block body post none com h hs]
  cases post with
  | nil => rw [(skipSpace_suffix ⟨[], none⟩ com).2.2.2 rfl]
  | cons b r =>
    have hb : b ≠ 47 := by simpa using hp
    dsimp only
    rw [skipSpace_cons, eatComment_plain b r hb]
    simp only [Option.any_some, Option.none_or]
    split
    · rw [skipSpace_last r (some b) none]
    · rfl

theorem append_doc (u d w p : List Nat) : u ++ (bytes "/**" ++ d ++ bytes "*/") ++ w ++ p =
    u ++ 47 :: 42 :: 42 :: (d ++ 42 :: 47 :: (w ++ p)) := by
  rw [show bytes "/**" = [47, 42, 42] by decide, show bytes "*/" = [42, 47] by decide]
  simp

theorem doc_append (d w p : List Nat) : bytes "/**" ++ d ++ bytes "*/" ++ w ++ p =
    47 :: 42 :: 42 :: (d ++ 42 :: 47 :: (w ++ p)) := by
  rw [show bytes "/**" = [47, 42, 42] by decide, show bytes "*/" = [42, 47] by decide]
  simp

/-- C23, the place a comment has between a structured comment `/**d*/` and the token after it: a line comment,
or a block comment that is not directly followed by a slash, can be replaced by a space without changing any
token, the structured comment included. -/
theorem C23_after_doc_partial (u d w body post : List Nat) (hd : ¬ occurs (bytes "*/") d) (hd' : d.head? ≠ some 47)
    (hw : ∀ b ∈ w, b ∈ white) (hne : w ≠ []) (n : Nat) :
    (10 ∉ body → Boundary u (bytes "/**" ++ d ++ bytes "*/" ++ w ++ (bytes " " ++ 10 :: post)) →
      answers n (fresh (u ++ (bytes "/**" ++ d ++ bytes "*/") ++ w ++ (bytes "//" ++ body ++ 10 :: post))) =
        answers n (fresh (u ++ (bytes "/**" ++ d ++ bytes "*/") ++ w ++ (bytes " " ++ 10 :: post)))) ∧
    (¬ occurs (bytes "*/") body → body.head? ≠ some 42 → post.head? ≠ some 47 →
      Boundary u (bytes "/**" ++ d ++ bytes "*/" ++ w ++ (bytes " " ++ post)) →
      answers n (fresh (u ++ (bytes "/**" ++ d ++ bytes "*/") ++ w ++ (bytes "/*" ++ body ++ bytes "*/" ++ post))) =
        answers n (fresh (u ++ (bytes "/**" ++ d ++ bytes "*/") ++ w ++ (bytes " " ++ post)))) := by
  have b1 : bytes " " = [32] := by decide
  have b2 : bytes "//" = [47, 47] := by decide
  have b3 : bytes "/*" = [47, 42] := by decide
  have b4 : bytes "*/" = [42, 47] := by decide
  constructor
  · rintro hl ⟨k, hk, hok⟩
    rw [doc_append] at hk hok
    rw [append_doc, append_doc]
    refine answers_continue u _ _ 47 47 (Or.inl rfl) k hk hok ?_ n
    intro m
    apply answers_congr
    apply nextToken_after_doc d w _ _ (b4 ▸ hd) hd' hw hne
    intro com
    rw [b1, b2]
    simpa using skipSpace_line body post com hl
  · rintro hbd hs hp ⟨k, hk, hok⟩
    rw [doc_append] at hk hok
    rw [append_doc, append_doc]
    refine answers_continue u _ _ 47 47 (Or.inl rfl) k hk hok ?_ n
    intro m
    apply answers_congr
    apply nextToken_after_doc d w _ _ (b4 ▸ hd) hd' hw hne
    intro com
    rw [b1, b3, b4]
    rw [b4] at hbd
    simpa using skipSpace_block_space body post com hbd hs hp

/-- `use A;`, a structured comment, white space and a space before `quark`. -/
example : Boundary (bytes "use A;") (bytes "/**" ++ bytes " doc " ++ bytes "*/" ++ bytes "\n" ++ (bytes " " ++ bytes "quark Q")) :=
  ⟨3, by decide +kernel, by decide +kernel⟩

/-- What is missing above: after a structured comment and white space a slash is lost; after a block comment in
between it is not. -/
theorem C23_slash_after_doc :
    answers 3 (fresh (bytes "/** d */ / b")) ≠ answers 3 (fresh (bytes "/** d */ /* c *// b")) := by
  decide +kernel

/-- C24, one byte ahead: if a request is answered without an error and leaves the input from byte `x` on, then
the answer depends only on what was taken and on `x`, not on what follows `x`. -/
theorem C24_lookahead (u q q' : List Nat) (x : Nat) (t : Tok)
    (h : (nextToken (fresh (u ++ x :: q))).1 = true) (ht : (nextToken (fresh (u ++ x :: q))).2.1 = t)
    (hr : (nextToken (fresh (u ++ x :: q))).2.2.rest = x :: q) :
    (nextToken (fresh (u ++ x :: q'))).1 = true ∧ (nextToken (fresh (u ++ x :: q'))).2.1 = t ∧
      (nextToken (fresh (u ++ x :: q'))).2.2.rest = x :: q' := by
  have hl := nextToken_local (x := x) (x' := x) (q := q) (q' := q') u none none (Or.inl rfl)
  simp only [fresh] at h ht hr ⊢
  rcases hl with e | e | ⟨e1, e2, w, -, e3, e4⟩
  · rw [h] at e; simp at e
  · rw [hr] at e; simp at e
  · rw [hr] at e3
    have hw : w = [] := by
      have := congrArg List.length e3
      simp only [List.length_append, List.length_cons] at this
      exact List.eq_nil_of_length_eq_zero (by omega)
    subst hw
    exact ⟨e1 ▸ h, e2 ▸ ht, e4⟩

example : (nextToken (fresh (bytes " >>" ++ 61 :: bytes "2"))).2.2.rest ≠ 61 :: bytes "2" ∧
    (nextToken (fresh (bytes " >>" ++ 62 :: bytes "2"))).2.2.rest = 62 :: bytes "2" := by decide +kernel

end Ulam.Lexer
