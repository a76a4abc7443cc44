import Verif.Parser.Main
import Verif.Parser.Stops

/-!
# C28: printing an expression and parsing it gives the expression back; C58: parsing always ends
-/

namespace Ulam.Parser

theorem level_le (e : Tree) : e.level ≤ 11 := by
  unfold Tree.level
  split <;> try omega
  rename_i o _ _
  have := level_bounds o
  omega

theorem Derives.down {j k ts e} (h : Derives j ts e) (hk : k ≤ j) : Derives k ts e := by
  induction hk with
  | refl => exact h
  | step _ ih => exact ih h.up

/-- A tree written in a place of level `k`. -/
theorem derives_place {k ts e} (h : Derives e.level ts e) (hk : k ≤ 11) :
    Derives k (parens (e.level < k) ts) e := by
  by_cases hl : e.level < k
  · simp only [parens, hl, decide_true, if_true]
    exact (Derives.paren (h.down (Nat.zero_le _))).down hk
  · simp only [parens, hl, decide_false]
    exact h.down (by omega)

theorem derives_args {args : List Tree} (h : ∀ a ∈ args, Derives a.level a.print a) :
    DerivesArgs (printArgs args) args := by
  induction args with
  | nil => exact .none
  | cons a r ih =>
    have ha := (h a (by simp)).down (Nat.zero_le _)
    cases r with
    | nil => exact .last ha
    | cons b r => exact .more ha (ih fun x hx => h x (by simp [hx]))

theorem IsLval.level {e} (h : IsLval e) : e.level = 11 := by cases h <;> rfl

theorem print_derives {e : Tree} (h : Complete e) :
    Derives e.level e.print e ∧ (IsLval e → DerivesLval e.print e) := by
  induction h with
  | ident n => exact ⟨.ident n, fun _ => .ident n⟩
  | num n => exact ⟨.num n, fun h => nomatch h⟩
  | str n => exact ⟨.str n, fun h => nomatch h⟩
  | call n _ ih =>
    refine ⟨?_, fun h => nomatch h⟩
    rw [Tree.print]
    exact .call n (derives_args fun a ha => (ih a ha).1)
  | @index l i _ _ il ii =>
    have hi := derives_place ii.1 (k := 1) (by omega)
    refine ⟨?_, fun h => ?_⟩
    · rw [Tree.print]
      exact .index (derives_place il.1 (by omega)) hi
    · cases h with
      | index hl =>
        rw [Tree.print]
        have : parens (l.level < 11) l.print = l.print := by simp [parens, hl.level]
        rw [this]
        exact .index (il.2 hl) hi
  | @member l r _ _ hr il ir =>
    refine ⟨?_, fun h => nomatch h⟩
    have h10 : (Tree.member l r).level = 10 := by cases hr <;> rfl
    rw [Tree.print, h10]
    exact .member (derives_place il.1 (by omega)) (ir.2 hr)
  | methodCall n _ _ il ia =>
    refine ⟨?_, fun h => nomatch h⟩
    rw [Tree.print, Tree.print]
    exact .methodCall n (derives_place il.1 (by omega)) (derives_args fun a ha => (ia a ha).1)
  | proxy k _ ie =>
    refine ⟨?_, fun h => nomatch h⟩
    rw [Tree.print]
    exact .proxy k (derives_place ie.1 (by omega))
  | cast n _ ie =>
    refine ⟨?_, fun h => nomatch h⟩
    rw [Tree.print]
    exact .cast n (derives_place ie.1 (by omega))
  | isType n _ ie =>
    refine ⟨?_, fun h => nomatch h⟩
    rw [Tree.print]
    exact .isType n (derives_place ie.1 (by omega))
  | pre o _ ie =>
    refine ⟨?_, fun h => nomatch h⟩
    rw [Tree.print]
    exact .pre o (derives_place ie.1 (by omega))
  | post o _ ie =>
    refine ⟨?_, fun h => nomatch h⟩
    rw [Tree.print]
    exact .post o (derives_place ie.1 (by omega))
  | bin o _ _ il ir =>
    refine ⟨?_, fun h => nomatch h⟩
    rw [Tree.print]
    have := level_bounds o
    exact .bin o (derives_place il.1 (by omega)) (derives_place ir.1 (by omega))
  | cond _ _ _ ic ia ib =>
    refine ⟨?_, fun h => nomatch h⟩
    rw [Tree.print]
    exact .cond (derives_place ic.1 (by omega)) (derives_place ia.1 (by omega))
      (derives_place ib.1 (by omega))
  | assign o _ _ il ir =>
    refine ⟨?_, fun h => nomatch h⟩
    rw [Tree.print]
    exact .assign o (derives_place il.1 (by omega)) (ir.1.down (Nat.zero_le _))

/-! ## The claims -/

/-- Every way to write an expression that the documented grammar allows, with whatever parentheses,
is parsed into that expression; the tokens behind it are left alone.  Not covered: an `is` test with
a `&` behind it (see `C28_is_amp`), and the syntax left out of the model. -/
theorem C28_grammar_partial {ts rest : List Tok} {e : Tree} (h : Derives 0 ts e)
    (hn : NoIsAmp (ts ++ rest)) (hr : Ends 0 rest) :
    Runs (parseAssignExpr · (ts ++ rest)) (e, rest) :=
  Good.derives h rest hn hr

/-- The round trip: an expression printed with the parentheses that the table of levels demands is
parsed into the same expression. -/
theorem C28_roundtrip_partial {e : Tree} (he : Complete e) {rest : List Tok}
    (hn : NoIsAmp (e.print ++ rest)) (hr : Ends 0 rest) :
    Runs (parseAssignExpr · (e.print ++ rest)) (e, rest) :=
  C28_grammar_partial ((print_derives he).1.down (Nat.zero_le _)) hn hr

/-- `a.b[2] += b - (c - d) * -e[2]++ - (f(g, h = 1) is T ? (U) b.sizeof : 3)` -/
def sample : Tree :=
  .assign .add (.member (.ident 0) (.index (.ident 1) (.num 2)))
    (.bin .subtract (.bin .subtract (.ident 1) (.bin .multiply (.bin .subtract (.ident 2) (.ident 3))
      (.pre .minus (.post .incr (.index (.ident 4) (.num 2))))))
      (.cond (.isType (.call 5 [.ident 6, .assign .set (.ident 7) (.num 1)]) 8 false)
        (.cast 9 (.proxy (.ident 1) 0)) (.num 3)))

example : Complete sample := by
  refine .assign _ (.member (.ident _) (.index (.ident _) (.num _)) (.index (.ident _)))
    (.bin _ (.bin _ (.ident _) (.bin _ (.bin _ (.ident _) (.ident _))
      (.pre _ (.post _ (.index (.ident _) (.num _)))))) (.cond (.isType _ (.call _ ?_))
        (.cast _ (.proxy _ (.ident _))) (.num _)))
  intro a ha
  simp only [List.mem_cons, List.not_mem_nil, or_false] at ha
  rcases ha with rfl | rfl
  · exact .ident _
  · exact .assign _ (.ident _) (.num _)

example : sample.print =
    [.ident 0, .dot, .ident 1, .openSquare, .num 2, .closeSquare, .plusEqual,
      .ident 1, .minus, .openParen, .ident 2, .minus, .ident 3, .closeParen, .star,
      .minus, .ident 4, .openSquare, .num 2, .closeSquare, .plusPlus, .minus,
      .openParen, .ident 5, .openParen, .ident 6, .comma, .ident 7, .equal, .num 1, .closeParen,
      .isKw, .typ 8, .question, .openParen, .typ 9, .closeParen, .ident 1, .dot, .ofKw 0, .colon,
      .num 3, .closeParen] := by decide +kernel

example : Ends 0 [Tok.other 7] := by
  intro t r h j hj
  cases h
  cases hj

/-- Different expressions are printed differently, when no `is` test stands before a `&`. -/
theorem C28_print_injective {a b : Tree} (ha : Complete a) (hb : Complete b)
    (hn : NoIsAmp a.print) (h : a.print = b.print) : a = b := by
  have e0 : Ends 0 ([] : List Tok) := fun t r h => by cases h
  have h1 := C28_roundtrip_partial ha (rest := []) (by simpa using hn) e0
  have h2 := C28_roundtrip_partial hb (rest := []) (by rw [← h]; simpa using hn) e0
  rw [h] at h1
  exact congrArg Prod.fst (h1.unique h2)

/-- The printed form has the fewest tokens, hence the fewest parentheses, of all the ways to write
the expression in a place of level `k`. -/
theorem C28_fewest_parentheses {k ts e} (h : Derives k ts e) :
    (parens (e.level < k) e.print).length ≤ ts.length := by
  have pl : ∀ (b : Bool) (l : List Tok), l.length ≤ (parens b l).length ∧
      (parens b l).length ≤ l.length + 2 := by
    intro b l
    cases b <;> simp [parens] <;> omega
  have mono : ∀ (j k : Nat) (e : Tree), k ≤ j →
      (parens (e.level < k) e.print).length ≤ (parens (e.level < j) e.print).length := by
    intro j k e hjk
    by_cases h1 : e.level < k
    · simp [parens, h1, Nat.lt_of_lt_of_le h1 hjk]
    · simp [parens, h1]
      split <;> simp <;> omega
  refine Derives.rec
    (motive_1 := fun k ts e _ => (parens (e.level < k) e.print).length ≤ ts.length)
    (motive_2 := fun ts e _ => e.print.length ≤ ts.length ∧ e.level = 11 ∧
      ∀ l, (Tree.member l e).level = 10)
    (motive_3 := fun ts args _ => (printArgs args).length ≤ ts.length)
    ?_ ?_ ?_ ?_ ?_ ?_ ?_ ?_ ?_ ?_ ?_ ?_ ?_ ?_ ?_ ?_ ?_ ?_ ?_ ?_ ?_ ?_ h
  · intro k ts e _ ih
    exact Nat.le_trans (mono _ _ e (by omega)) ih
  · intro o l r tl tr _ _ il ir
    have := mono 0 0 r (by omega)
    simp [parens, Tree.level, Tree.print] at il ir ⊢
    omega
  · intro c a b tc ta tb _ _ _ ic ia ib
    simp only [Tree.print, Tree.level, parens] at ic ia ib ⊢
    simp at ic ia ib ⊢
    omega
  · intro o l r tl tr _ _ il ir
    simp only [Tree.print, Tree.level, parens] at il ir ⊢
    simp at il ir ⊢
    omega
  · intro o e te _ ie
    simp only [Tree.print, Tree.level, parens] at ie ⊢
    simp at ie ⊢
    omega
  · intro n; simp [Tree.print, Tree.level, parens]
  · intro n e te _ ie
    simp only [Tree.print, Tree.level, parens] at ie ⊢
    simp at ie ⊢
    omega
  · intro n e te _ ie
    simp only [Tree.print, Tree.level, parens] at ie ⊢
    simp at ie ⊢
    omega
  · intro l r tl tr _ _ il ir
    simp only [Tree.print, parens, ir.2.2 l] at il ⊢
    simp at il ⊢
    have := ir.1
    omega
  · intro n; simp [Tree.print, Tree.level, parens]
  · intro n; simp [Tree.print, Tree.level, parens]
  · intro n args ta _ ia
    simp [Tree.print, Tree.level, parens] at ia ⊢
    omega
  · intro n l args tl ta _ _ il ia
    simp only [Tree.print, Tree.level, parens] at il ⊢
    simp at il ⊢
    omega
  · intro n e te _ ie
    simp only [Tree.print, Tree.level, parens] at ie ⊢
    simp at ie ⊢
    omega
  · intro l i tl ti _ _ il ii
    simp only [Tree.print, Tree.level, parens] at il ii ⊢
    simp at il ii ⊢
    omega
  · intro o e te _ ie
    simp only [Tree.print, Tree.level, parens] at ie ⊢
    simp at ie ⊢
    omega
  · intro e te _ ie
    have := (pl (e.level < 11) e.print).2
    have h0 := (pl (e.level < 0) e.print).1
    simp only [List.length_cons, List.length_append, List.length_nil]
    omega
  · intro n; simp [Tree.print, Tree.level]
  · intro l i tl ti _ _ il ii
    refine ⟨?_, rfl, fun _ => rfl⟩
    simp only [Tree.print, parens, il.2.1] at ii ⊢
    simp at ii ⊢
    have := il.1
    omega
  · simp [printArgs]
  · intro a ta _ ia
    simp [printArgs, parens] at ia ⊢
    omega
  · intro a b ta tb bs _ _ ia ib
    simp [printArgs, parens] at ia ib ⊢
    omega

/-- In front of a `&` the round trip fails: in `a is T & b`, which the grammar reads as
`(a is T) & b`, the `&` is taken for a part of the type, and the rest of the expression is left
unread. -/
theorem C28_is_amp (a n b : Nat) :
    Derives 0 [.ident a, .isKw, .typ n, .amp, .ident b]
      (.bin .bitwiseAnd (.isType (.ident a) n false) (.ident b)) ∧
    (Tree.bin .bitwiseAnd (.isType (.ident a) n false) (.ident b)).print =
      [.ident a, .isKw, .typ n, .amp, .ident b] ∧
    Runs (parseAssignExpr · [.ident a, .isKw, .typ n, .amp, .ident b])
      (.isType (.ident a) n true, [.ident b]) := by
  refine ⟨?_, by simp [Tree.print, parens, Tree.level, BinOp.level, BinOp.tok], 20, ?_⟩
  · have h1 : Derives 9 ([.ident a] ++ [.isKw, .typ n]) (.isType (.ident a) n false) :=
      .isType n (Derives.ident a).up
    have h2 := Derives.bin .bitwiseAnd (h1.down (k := 3) (by omega))
      ((Derives.ident b).down (k := 4) (by omega))
    exact h2.down (k := 0) (Nat.zero_le _)
  · intro f hf
    obtain ⟨g, rfl⟩ : ∃ g, f = g + 20 := ⟨f - 20, by omega⟩
    simp [parseAssignExpr, parseExpression, parseLevel, parseOperand, Level.operand, parseFactor,
      parseIdentExpr, parseRestOfLvalExpr, parseRestOfFactor, restOfType, Tree.isNull,
      parseRestOfLevel, Level.makes, parseRestOfExpression, makesExpression, parseRestOfAssignExpr,
      makesAssign, makesPost]

/-- A number is not followed by the search for postfix operators, so `a + 1 ++`, which the grammar
does not allow, is parsed as `(a + 1)++`. -/
theorem C28_number_postfix (a n : Nat) :
    Runs (parseAssignExpr · [.ident a, .plus, .num n, .plusPlus])
      (.post .incr (.bin .add (.ident a) (.num n)), []) ∧
    ∀ e, ¬ Derives 0 [.ident a, .plus, .num n, .plusPlus] e := by
  have h1 : Runs (parseAssignExpr · [.ident a, .plus, .num n, .plusPlus])
      (.post .incr (.bin .add (.ident a) (.num n)), []) := by
    refine ⟨20, fun f hf => ?_⟩
    obtain ⟨g, rfl⟩ : ∃ g, f = g + 20 := ⟨f - 20, by omega⟩
    simp [parseAssignExpr, parseExpression, parseLevel, parseOperand, Level.operand, parseFactor,
      parseIdentExpr, parseRestOfLvalExpr, parseRestOfFactor, Tree.isNull, makeAssignExprNode,
      parseRestOfLevel, Level.makes, parseRestOfExpression, makesExpression, parseRestOfAssignExpr,
      makesAssign, makesPost]
  refine ⟨h1, fun e he => ?_⟩
  have h2 := C28_grammar_partial (rest := []) he (by
    intro x m y h
    simp at h
    rcases x with _ | ⟨x0, _ | ⟨x1, _ | ⟨x2, _ | ⟨x3, x⟩⟩⟩⟩ <;> simp at h) (by
      intro t r h; cases h)
  simp only [List.append_nil] at h2
  have h3 := congrArg Prod.fst (h2.unique h1)
  subst h3
  have := C28_fewest_parentheses he
  simp [parens, Tree.print, Tree.level, BinOp.level, PostOp.tok] at this

/-- Whatever tokens it is given, the expression parser stops, and the tokens it leaves unread are an
end of the ones it was given: it neither runs for ever nor makes up or reorders tokens. -/
theorem C58_stops (ts : List Tok) :
    ∃ e rest, Runs (parseAssignExpr · ts) (e, rest) ∧ ∃ read, ts = read ++ rest := by
  obtain ⟨⟨e, rest⟩, h1, ⟨read, h2⟩⟩ := (all_all (ts.length + 1)).assign ts (by omega)
  exact ⟨e, rest, h1, read, h2.symm⟩

example : Runs (parseAssignExpr · [.openParen, .star, .ident 0, .openSquare, .error])
    (.null, [.star, .ident 0, .openSquare, .error]) := by
  refine ⟨60, fun f hf => ?_⟩
  obtain ⟨g, rfl⟩ : ∃ g, f = g + 60 := ⟨f - 60, by omega⟩
  simp [parseAssignExpr, parseExpression, parseLevel, parseOperand, Level.operand, parseFactor,
    makesPre, Tree.isNull]

/-- The same for the arguments of a call and for an expression that is not an assignment (conditions,
subscripts, array sizes). -/
theorem C58_stops_inside (ts : List Tok) (n : Nat) :
    (∃ e rest, Runs (parseExpression · ts) (e, rest) ∧ ∃ read, ts = read ++ rest) ∧
    (∃ e rest, Runs (parseFunctionCall · n [] ts) (e, rest) ∧ ∃ read, ts = read ++ rest) := by
  constructor
  · obtain ⟨⟨e, rest⟩, h1, ⟨read, h2⟩⟩ := (all_all (ts.length + 1)).expr ts (by omega)
    exact ⟨e, rest, h1, read, h2.symm⟩
  · obtain ⟨⟨e, rest⟩, h1, ⟨read, h2⟩⟩ := (all_all (ts.length + 1)).call n [] ts (by omega)
    exact ⟨e, rest, h1, read, h2.symm⟩

end Ulam.Parser
