import Verif.Lexer.Spec
import Verif.Token.Props
import Mathlib.Tactic.SplitIfs
/-
What each function of the lexer leaves of the stream.
-/
namespace Ulam.Lexer
open Ulam.Token

theorem suffix_tail (b : Nat) (r : List Nat) : r <:+ b :: r := List.suffix_cons b r

theorem readWhile_suffix (p : Nat → Bool) (l : List Nat) (acc : Bytes) :
    (unread (readWhile p l acc).2.2).rest <:+ l := by
  induction l generalizing acc with
  | nil => simp [readWhile, unread]
  | cons b r ih =>
    unfold readWhile
    split
    · exact (ih _).trans (suffix_tail b r)
    · simp [unread]

theorem simpleOperator_rest (a : Bytes) (s : Str) : (simpleOperator a s).2.2 = unread s := by
  unfold simpleOperator
  dsimp only
  split <;> rfl

theorem makeOperator_suffix (a : Bytes) (s : Str) : (makeOperator a s).2.2.rest <:+ s.rest := by
  unfold makeOperator read
  cases h : s.rest with
  | nil => simp [simpleOperator_rest, unread]
  | cons c r =>
    dsimp only
    split
    · split
      · unfold checkEllipsis read
        cases r with
        | nil => simp
        | cons d r =>
          dsimp only
          by_cases hd : d ≠ 46
          · rw [if_pos hd]; simp [unread]
          · rw [if_neg hd]; exact (suffix_tail d r).trans (suffix_tail c _)
      · split
        · unfold checkShiftEqual read
          cases r with
          | nil => simp
          | cons d r =>
            dsimp only
            by_cases hd : d = 61
            · rw [if_pos hd]; exact (suffix_tail d r).trans (suffix_tail c _)
            · rw [if_neg hd]; simp [unread]
        · exact suffix_tail c r
    · simp [simpleOperator_rest, unread]

theorem makeWord_suffix (a : Bytes) (s : Str) : (makeWord a s).2.rest <:+ s.rest := by
  have hw := readWhile_suffix isWord s.rest a
  unfold makeWord
  generalize readWhile isWord s.rest a = q at hw ⊢
  obtain ⟨name, c, s1⟩ := q
  dsimp only at hw ⊢
  split
  · split
    · exact hw
    · exact hw
    · exact hw
    · have h1 := makeOperator_suffix [] (unread s1)
      generalize makeOperator [] (unread s1) = q1 at h1 ⊢
      obtain ⟨o1, str, s3⟩ := q1
      cases o1 with
      | none => exact h1.trans hw
      | some t1 =>
        dsimp only at h1 ⊢
        have h2 := makeOperator_suffix str s3
        generalize makeOperator str s3 = q2 at h2 ⊢
        obtain ⟨o2, str2, s4⟩ := q2
        cases o2 with
        | none => exact h2.trans (h1.trans hw)
        | some t2 =>
          dsimp only at h2 ⊢
          split <;> exact h2.trans (h1.trans hw)
    · exact hw
  · exact hw

theorem numberLoop_suffix (l : List Nat) (acc : Bytes) (f : NumFlags) :
    (unread (numberLoop l acc f).2.2.2).rest <:+ l := by
  induction l generalizing acc f with
  | nil => simp [numberLoop, unread]
  | cons b r ih =>
    unfold numberLoop
    split
    · exact (ih _ _).trans (suffix_tail b r)
    · simp [unread]

theorem rest_suffix_unread (s : Str) : s.rest <:+ (unread s).rest := by
  unfold unread
  cases s.last with
  | none => exact List.suffix_refl _
  | some b => exact suffix_tail b _

theorem finishNumber_suffix (acc : Bytes) (f : NumFlags) (c : Option Nat) (s : Str) :
    (finishNumber acc f c s).2.rest <:+ (unread s).rest := by
  have key : (finishNumber acc f c s).2 = if c = some 117 ∨ c = some 85 then s else unread s := by
    unfold finishNumber
    dsimp only
    split_ifs <;> rfl
  rw [key]
  split
  · exact rest_suffix_unread s
  · exact List.suffix_refl _

theorem makeNumber_suffix (b : Nat) (s : Str) : (makeNumber b s).2.rest <:+ s.rest := by
  unfold makeNumber read
  cases h : s.rest with
  | nil =>
    have := finishNumber_suffix [b] noFlags none ⟨[], none⟩
    simpa [unread] using this
  | cons c r =>
    dsimp only
    split
    · have h1 := numberLoop_suffix r [b, c] (secondFlags (decide (b = 48)) c)
      generalize numberLoop r [b, c] (secondFlags (decide (b = 48)) c) = q at h1 ⊢
      obtain ⟨acc, f, c', s2⟩ := q
      exact ((finishNumber_suffix acc f c' s2).trans h1).trans (suffix_tail c r)
    · have := finishNumber_suffix [b] noFlags (some c) ⟨r, some c⟩
      simpa [unread] using this

theorem makeFlag_suffix (s : Str) : (makeFlag s).2.rest <:+ s.rest := by
  unfold makeFlag read
  cases h : s.rest with
  | nil => simp
  | cons c r =>
    dsimp only
    split
    · have h1 := readWhile_suffix isWord r [64, c]
      generalize readWhile isWord r [64, c] = q at h1 ⊢
      obtain ⟨n, c', s2⟩ := q
      dsimp only at h1 ⊢
      split <;> exact h1.trans (suffix_tail c r)
    · dsimp only
      split
      · simp [unread]
      · exact suffix_tail c r

theorem makeSubstitute_suffix (s : Str) : (makeSubstitute s).2.rest <:+ s.rest := by
  unfold makeSubstitute read
  cases h : s.rest with
  | nil => simp
  | cons c r =>
    dsimp only
    split
    · have h1 := readWhile_suffix (fun b => isUpper b || b = 95) r [95, c]
      generalize readWhile (fun b => isUpper b || b = 95) r [95, c] = q at h1 ⊢
      obtain ⟨n, c', s2⟩ := q
      dsimp only at h1 ⊢
      split <;> exact h1.trans (suffix_tail c r)
    · exact suffix_tail c r

theorem octalLoop_suffix (k n v : Nat) (s : Str) : (octalLoop k n v s).2.rest <:+ s.rest := by
  induction k generalizing n v s with
  | zero => simp [octalLoop]
  | succ k ih =>
    unfold octalLoop read
    cases h : s.rest with
    | nil => simp
    | cons b r =>
      dsimp only
      split
      · exact (ih _ _ _).trans (suffix_tail b r)
      · split <;> simp [unread]

theorem hexLoop_suffix (k n v : Nat) (s : Str) : (hexLoop k n v s).2.rest <:+ s.rest := by
  induction k generalizing n v s with
  | zero => simp [hexLoop]
  | succ k ih =>
    unfold hexLoop read
    cases h : s.rest with
    | nil => simp
    | cons b r =>
      dsimp only
      split
      · exact (ih _ _ _).trans (suffix_tail b r)
      · split <;> simp [unread]

theorem nextByte_suffix (s : Str) : (nextByte s).2.rest <:+ s.rest := by
  unfold nextByte read
  cases h : s.rest with
  | nil => simp [unread]
  | cons c r =>
    dsimp only
    split
    · cases r with
      | nil => simp [unread]
      | cons d r =>
        dsimp only
        split
        · exact (octalLoop_suffix 3 0 0 (unread ⟨r, some d⟩)).trans (suffix_tail c _)
        · split
          · exact (hexLoop_suffix 2 0 0 ⟨r, some d⟩).trans ((suffix_tail d r).trans (suffix_tail c _))
          · exact (suffix_tail d r).trans (suffix_tail c _)
    · exact suffix_tail c r

theorem quoteLoop_suffix (s : Str) (acc : Bytes) : (quoteLoop s acc).2.rest <:+ s.rest := by
  induction hn : s.rest.length using Nat.strong_induction_on generalizing s acc with
  | _ n ih =>
    subst hn
    rw [quoteLoop.eq_def]
    split
    · rename_i h; rw [h]; simp
    · rename_i b r h
      rw [h]
      split
      · exact suffix_tail b r
      · have h1 := nextByte_suffix ⟨b :: r, none⟩
        have h2 := nextByte_length b r none
        split
        · rename_i s1 e; rw [e] at h1; exact h1
        · rename_i x s1 e
          rw [e] at h1 h2
          refine (ih _ ?_ s1 (acc ++ [x]) rfl).trans h1
          rw [h]; exact h2

theorem makeDoubleQuote_suffix (s : Str) : (makeDoubleQuote s).2.rest <:+ s.rest := by
  have h := quoteLoop_suffix s []
  unfold makeDoubleQuote
  generalize quoteLoop s [] = q at h ⊢
  obtain ⟨o, s1⟩ := q
  cases o <;> exact h

theorem makeSingleQuote_suffix (s : Str) : (makeSingleQuote s).2.rest <:+ s.rest := by
  have fin : ∀ (x : Bytes) (s1 : Str),
      (match read s1 with
        | (c, s2) => if c = some 39 then ((some ⟨tokSquotedString, .text x⟩ : Option Tok), s2)
          else (none, unread s2)).2.rest <:+ s1.rest := by
    intro x s1
    unfold read
    cases s1.rest with
    | nil => simp [unread]
    | cons c r =>
      dsimp only
      split
      · exact suffix_tail c r
      · simp [unread]
  unfold makeSingleQuote
  dsimp only
  cases h : s.rest with
  | nil =>
    have e : read s = (none, ⟨[], none⟩) := by unfold read; rw [h]
    rw [e]
    exact fin [] ⟨[], none⟩
  | cons c r =>
    have e : read s = (some c, ⟨r, some c⟩) := by unfold read; rw [h]
    rw [e]
    dsimp only
    split
    · exact suffix_tail c r
    · have h1 := nextByte_suffix (unread ⟨r, some c⟩)
      generalize nextByte (unread ⟨r, some c⟩) = q at h1 ⊢
      obtain ⟨o, s2⟩ := q
      cases o with
      | none => exact h1
      | some x => exact (fin [x] s2).trans h1

theorem dispatch_suffix (c : Option Nat) (s : Str) : (dispatch c s).2.rest <:+ s.rest := by
  unfold dispatch
  dsimp only
  split
  · exact List.suffix_refl _
  · exact makeDoubleQuote_suffix s
  · exact makeSingleQuote_suffix s
  · split
    · exact makeWord_suffix _ s
    · split
      · exact makeNumber_suffix _ s
      · split
        · exact makeFlag_suffix s
        · split
          · exact makeSubstitute_suffix s
          · have h := makeOperator_suffix [c.getD 255] s
            generalize makeOperator [c.getD 255] s = q at h ⊢
            obtain ⟨o, str, s1⟩ := q
            cases o <;> exact h

theorem eatBlock_suffix (l : List Nat) : (unread (eatBlock l).2).rest <:+ l := by
  induction l using eatBlock.induct with
  | case1 => simp [eatBlock, unread]
  | case2 r =>
    simp only [eatBlock, read]
    cases r with
    | nil => exact ⟨[42, 47], rfl⟩
    | cons b r => exact ⟨[42, 47], rfl⟩
  | case3 b r h ih =>
    rw [eatBlock]
    · exact ih.trans (suffix_tail b r)
    · exact h

theorem eatLine_suffix (l : List Nat) : (unread (eatLine l).2).rest <:+ l := by
  induction l with
  | nil => simp [eatLine, unread]
  | cons b r ih =>
    unfold eatLine
    split
    · simp [unread]
    · exact ih.trans (suffix_tail b r)

theorem structured_suffix (l : List Nat) (acc : Bytes) : (unread (structured l acc).2.2).rest <:+ l := by
  induction l, acc using structured.induct with
  | case1 => simp [structured, unread]
  | case2 r acc =>
    simp only [structured, read]
    cases r with
    | nil => exact ⟨[42, 47], rfl⟩
    | cons b r => exact ⟨[42, 47], rfl⟩
  | case3 => simp [structured, unread]
  | case4 b r acc h1 h2 ih =>
    rw [structured]
    · exact ih.trans (suffix_tail b r)
    · exact h1
    · exact h2

/-- What `eatComment` leaves: the byte it answers and what follows come from the input; a structured comment
is at least one byte long. -/
theorem eatComment_suffix (b : Nat) (r : List Nat) (l : Option Nat) :
    (unread (eatComment ⟨b :: r, l⟩).2.2).rest <:+ b :: r ∧
    (eatComment ⟨b :: r, l⟩).2.2.rest <:+ r ∧
    ((eatComment ⟨b :: r, l⟩).2.1.isSome → (unread (eatComment ⟨b :: r, l⟩).2.2).rest <:+ r) := by
  unfold eatComment
  simp only [read]
  split
  · cases r with
    | nil => simp [unread]
    | cons d r =>
      dsimp only
      split
      · have h := eatLine_suffix r
        have h2 := h.trans (suffix_tail d r)
        have h3 := (rest_suffix_unread _).trans h2
        exact ⟨h2.trans (suffix_tail b _), h3, fun _ => h2⟩
      · split
        · cases r with
          | nil => simp [unread, eatBlock]
          | cons e r =>
            dsimp only
            split
            · cases r with
              | nil => simp [unread, structured]
              | cons f r =>
                dsimp only
                split
                · cases r with
                  | nil => simp [unread]
                  | cons g r =>
                    have h2 : g :: r <:+ d :: e :: f :: g :: r := ⟨[d, e, f], rfl⟩
                    exact ⟨h2.trans (suffix_tail b _), (suffix_tail g r).trans h2, fun _ => h2⟩
                · have h := structured_suffix (f :: r) []
                  have h2 : (unread (structured (f :: r) []).2.2).rest <:+ d :: e :: f :: r :=
                    h.trans ((suffix_tail e _).trans (suffix_tail d _))
                  have h3 := (rest_suffix_unread _).trans h2
                  exact ⟨h2.trans (suffix_tail b _), h3, fun _ => h2⟩
            · have h := eatBlock_suffix (e :: r)
              have h2 := h.trans (suffix_tail d _)
              have h3 := (rest_suffix_unread _).trans h2
              exact ⟨h2.trans (suffix_tail b _), h3, fun _ => h2⟩
        · refine ⟨?_, ?_, by simp⟩
          · simp only [unread]; exact suffix_tail b _
          · simp [unread]
  · simp [unread]

/-- What skipping white space and comments leaves. -/
theorem skipSpace_suffix (s : Str) (com : Option Tok) :
    (unread (skipSpace s com).2.2).rest <:+ s.rest ∧
    (s.rest ≠ [] → (skipSpace s com).2.2.rest <:+ s.rest.tail) ∧
    (s.rest ≠ [] → com = none → (skipSpace s com).2.1.isSome → (unread (skipSpace s com).2.2).rest <:+ s.rest.tail) ∧
    (s.rest = [] → skipSpace s com = (none, com, ⟨[], none⟩)) := by
  induction hn : s.rest.length using Nat.strong_induction_on generalizing s com with
  | _ n ih =>
    subst hn
    rw [skipSpace.eq_def]
    split
    · rename_i h; rw [h]; simp [unread]
    · rename_i b r h
      have hs := eatComment_suffix b r s.last
      have hl := eatComment_length b r s.last
      generalize hq : eatComment ⟨b :: r, s.last⟩ = q at hs hl
      obtain ⟨c, t, s1⟩ := q
      rw [h]
      dsimp only at hs hl ⊢
      simp only [List.tail_cons, ne_eq, reduceCtorEq, not_false_eq_true, forall_const, false_implies, and_true]
      split
      · obtain ⟨i1, i2, i3, i4⟩ := ih _ (by rw [h]; exact hl) s1 (t.or com) rfl
        refine ⟨i1.trans (hs.2.1.trans (suffix_tail b r)), ?_, ?_⟩
        · exact (rest_suffix_unread _).trans (i1.trans hs.2.1)
        · intro _ _; exact i1.trans hs.2.1
      · refine ⟨hs.1, hs.2.1, ?_⟩
        intro hc ht
        subst hc
        simp only [Option.or_none] at ht
        exact hs.2.2 ht

/-- A request on an empty stream. -/
theorem nextToken_nil (l : Option Nat) : nextToken ⟨[], l⟩ = (true, eofTok, ⟨[], none⟩) := by
  unfold nextToken
  rw [(skipSpace_suffix ⟨[], l⟩ none).2.2.2 rfl]
  rfl

/-- A request takes bytes off the front, at least one. -/
theorem nextToken_suffix (b : Nat) (r : List Nat) (l : Option Nat) : (nextToken ⟨b :: r, l⟩).2.2.rest <:+ r := by
  obtain ⟨h1, h2, h3, _⟩ := skipSpace_suffix ⟨b :: r, l⟩ none
  simp only [ne_eq, reduceCtorEq, not_false_eq_true, List.tail_cons, forall_const] at h2 h3
  unfold nextToken
  generalize skipSpace ⟨b :: r, l⟩ none = q at h1 h2 h3
  obtain ⟨c, t, s1⟩ := q
  cases t with
  | some t => exact h3 rfl
  | none =>
    dsimp only at h2 ⊢
    have hd := dispatch_suffix c s1
    generalize dispatch c s1 = q at hd
    obtain ⟨o, s2⟩ := q
    cases o <;> exact hd.trans h2

theorem eatBlock_byte (l : List Nat) (x : Nat) (h : (eatBlock l).1 = some x) : x ∈ l := by
  induction l using eatBlock.induct with
  | case1 => simp [eatBlock] at h
  | case2 r =>
    cases r with
    | nil => simp [eatBlock, read] at h
    | cons b r => simp only [eatBlock, read, Option.some.injEq] at h; subst h; simp
  | case3 b r hb ih =>
    rw [eatBlock] at h
    · exact List.mem_cons_of_mem _ (ih h)
    · exact hb

theorem eatLine_byte (l : List Nat) (x : Nat) (h : (eatLine l).1 = some x) : x ∈ l := by
  induction l with
  | nil => simp [eatLine] at h
  | cons b r ih =>
    unfold eatLine at h
    split at h
    · simp only [Option.some.injEq] at h; subst h; simp
    · exact List.mem_cons_of_mem _ (ih h)

theorem structured_byte (l : List Nat) (acc : Bytes) (x : Nat) (h : (structured l acc).2.1 = some x) : x ∈ l := by
  induction l, acc using structured.induct with
  | case1 => simp [structured] at h
  | case2 r acc =>
    cases r with
    | nil => simp [structured, read] at h
    | cons b r => simp only [structured, read, Option.some.injEq] at h; subst h; simp
  | case3 => simp [structured] at h
  | case4 b r acc h1 h2 ih =>
    rw [structured] at h
    · exact List.mem_cons_of_mem _ (ih h)
    · exact h1
    · exact h2

theorem structured_type (l : List Nat) (acc : Bytes) :
    (structured l acc).1.type = tokStructuredComment ∨ (structured l acc).1.type = tokErrorLowlevel := by
  induction l, acc using structured.induct with
  | case1 => simp [structured]
  | case2 r acc => simp [structured]
  | case3 => simp [structured]
  | case4 b r acc h1 h2 ih =>
    rw [structured]
    · exact ih
    · exact h1
    · exact h2

theorem eatComment_byte (b : Nat) (r : List Nat) (l : Option Nat) (x : Nat)
    (h : (eatComment ⟨b :: r, l⟩).1 = some x) : x ∈ b :: r := by
  unfold eatComment at h
  simp only [read] at h
  split at h
  · cases r with
    | nil => simp only [Option.some.injEq] at h; subst h; simp
    | cons d r =>
      dsimp only at h
      split at h
      · have := eatLine_byte r x h; simp [this]
      · split at h
        · cases r with
          | nil => simp [unread, eatBlock] at h
          | cons e r =>
            dsimp only at h
            split at h
            · cases r with
              | nil => simp [unread, structured] at h
              | cons f r =>
                dsimp only at h
                split at h
                · cases r with
                  | nil => simp at h
                  | cons g r => simp only [Option.some.injEq] at h; subst h; simp
                · have := structured_byte (f :: r) [] x h
                  simp only [List.mem_cons] at this ⊢
                  rcases this with h | h <;> simp [h]
            · have := eatBlock_byte (e :: r) x h
              simp only [List.mem_cons] at this ⊢
              rcases this with h | h <;> simp [h]
        · simp only [Option.some.injEq] at h; subst h; simp
  · simp only [Option.some.injEq] at h; subst h; simp

theorem eatComment_type (b : Nat) (r : List Nat) (l : Option Nat) (t : Tok)
    (h : (eatComment ⟨b :: r, l⟩).2.1 = some t) : t.type = tokStructuredComment ∨ t.type = tokErrorLowlevel := by
  unfold eatComment at h
  simp only [read] at h
  split at h
  · cases r with
    | nil => simp at h
    | cons d r =>
      dsimp only at h
      split at h
      · simp at h
      · split at h
        · cases r with
          | nil => simp at h
          | cons e r =>
            dsimp only at h
            split at h
            · cases r with
              | nil =>
                simp only [Option.some.injEq] at h; subst h; exact structured_type _ _
              | cons f r =>
                dsimp only at h
                split at h
                · simp at h
                · simp only [Option.some.injEq] at h; subst h; exact structured_type _ _
            · simp at h
        · simp at h
  · simp at h

theorem eatBlock_none (l : List Nat) (h : (eatBlock l).1 = none) : (eatBlock l).2 = ⟨[], none⟩ := by
  induction l using eatBlock.induct with
  | case1 => simp [eatBlock]
  | case2 r =>
    cases r with
    | nil => simp [eatBlock, read]
    | cons b r => simp [eatBlock, read] at h
  | case3 b r hb ih =>
    rw [eatBlock] at h ⊢
    · exact ih h
    · exact hb
    · exact hb

theorem eatLine_none (l : List Nat) (h : (eatLine l).1 = none) : (eatLine l).2 = ⟨[], none⟩ := by
  induction l with
  | nil => simp [eatLine]
  | cons b r ih =>
    unfold eatLine at h ⊢
    split at h
    · simp at h
    · rename_i hb; rw [if_neg hb]; exact ih h

theorem structured_none (l : List Nat) (acc : Bytes) (h : (structured l acc).2.1 = none) :
    (structured l acc).2.2 = ⟨[], none⟩ := by
  induction l, acc using structured.induct with
  | case1 => simp [structured]
  | case2 r acc =>
    cases r with
    | nil => simp [structured, read]
    | cons b r => simp [structured, read] at h
  | case3 => simp [structured]
  | case4 b r acc h1 h2 ih =>
    rw [structured] at h ⊢
    · exact ih h
    · exact h1
    · exact h2
    · exact h1
    · exact h2

theorem eatComment_none (s : Str) (h : (eatComment s).1 = none) : (eatComment s).2.2 = ⟨[], none⟩ := by
  unfold eatComment at h ⊢
  simp only [read] at h ⊢
  cases hs : s.rest with
  | nil => rfl
  | cons b r =>
    rw [hs] at h
    dsimp only at h ⊢
    split at h
    · rename_i hb
      rw [if_pos hb]
      cases r with
      | nil => simp at h
      | cons d r =>
        dsimp only at h ⊢
        split at h
        · rename_i hd
          rw [if_pos hd]
          exact eatLine_none r h
        · rename_i hd
          rw [if_neg hd]
          split at h
          · rename_i hd2
            rw [if_pos hd2]
            cases r with
            | nil => rfl
            | cons e r =>
              dsimp only at h ⊢
              split at h
              · rename_i he
                rw [if_pos he]
                cases r with
                | nil => rfl
                | cons f r =>
                  dsimp only at h ⊢
                  split at h
                  · rename_i hf
                    rw [if_pos hf]
                    cases r with
                    | nil => rfl
                    | cons g r => simp at h
                  · rename_i hf
                    rw [if_neg hf]
                    exact structured_none _ _ h
              · rename_i he
                rw [if_neg he]
                exact eatBlock_none _ h
          · simp at h
    · simp at h

theorem skipSpace_byte (s : Str) (com : Option Tok)
    (hc : ∀ t, com = some t → t.type = tokStructuredComment ∨ t.type = tokErrorLowlevel) :
    (∀ x, (skipSpace s com).1 = some x → x ∈ s.rest) ∧
    ((skipSpace s com).1 = none → (skipSpace s com).2.2 = ⟨[], none⟩) ∧
    (∀ t, (skipSpace s com).2.1 = some t → t.type = tokStructuredComment ∨ t.type = tokErrorLowlevel) := by
  induction hn : s.rest.length using Nat.strong_induction_on generalizing s com with
  | _ n ih =>
    subst hn
    rw [skipSpace.eq_def]
    split
    · rename_i h; rw [h]; simpa using hc
    · rename_i b r h
      have hb := eatComment_byte b r s.last
      have ht := eatComment_type b r s.last
      have hs := (eatComment_suffix b r s.last).2.1
      have hl := eatComment_length b r s.last
      have h0 := eatComment_none ⟨b :: r, s.last⟩
      generalize hq : eatComment ⟨b :: r, s.last⟩ = q at hs hl hb ht h0
      obtain ⟨c, t, s1⟩ := q
      rw [h]
      dsimp only at hs hl hb ht h0 ⊢
      have hor : ∀ t', t.or com = some t' → t'.type = tokStructuredComment ∨ t'.type = tokErrorLowlevel := by
        intro t' e
        cases t with
        | none => exact hc t' (by simpa using e)
        | some u => simp only [Option.some_or, Option.some.injEq] at e; subst e; exact ht u rfl
      split
      · obtain ⟨i1, i2, i3⟩ := ih _ (by rw [h]; exact hl) s1 (t.or com) hor rfl
        exact ⟨fun x hx => List.mem_cons_of_mem _ (hs.subset (i1 x hx)), i2, i3⟩
      · exact ⟨hb, h0, hor⟩

/-! The token table. -/

theorem spelling_of_typeOf (s : Bytes) (h : typeOf s ≠ lastOne) : typeOf s < lastOne ∧ spelling (typeOf s) = s := by
  unfold typeOf at h ⊢
  have go : ∀ (l : List Entry) (b : Nat), b + l.length = lastOne → typeOf.go s l b ≠ lastOne →
      typeOf.go s l b < lastOne ∧ b ≤ typeOf.go s l b ∧ (l[typeOf.go s l b - b]?).map (·.spelling) = some s := by
    intro l
    induction l with
    | nil => intro b _ h; simp [typeOf.go] at h
    | cons e es ih =>
      intro b hb h
      unfold typeOf.go at h ⊢
      by_cases he : e.spelling = s
      · rw [if_pos he]
        simp only [List.length_cons] at hb
        refine ⟨by omega, Nat.le_refl _, ?_⟩
        simp [he]
      · rw [if_neg he] at h ⊢
        simp only [List.length_cons] at hb
        obtain ⟨i1, i2, i3⟩ := ih (b + 1) (by omega) h
        refine ⟨i1, by omega, ?_⟩
        have e1 : typeOf.go s es (b + 1) - b = (typeOf.go s es (b + 1) - (b + 1)) + 1 := by omega
        rw [e1]
        simpa using i3
  obtain ⟨h1, _, h3⟩ := go table 0 (by rw [table_length]; rfl) h
  refine ⟨h1, ?_⟩
  unfold spelling
  rw [Nat.sub_zero] at h3
  rw [h3]; rfl

theorem typeOf_eq_lastOne (s : Bytes) (h : typeOf s = lastOne) : ∀ t < lastOne, spelling t ≠ s := by
  intro t ht e
  have := typeOf_spelling t ht
  rw [e, h] at this
  omega

theorem typeOf_ge (s : Bytes) : typeOf s ≤ lastOne := by
  by_cases h : typeOf s = lastOne
  · omega
  · exact Nat.le_of_lt (spelling_of_typeOf s h).1

theorem ttypeOf_eof (s : Bytes) (h : 255 ∉ s) : ttypeOf s ≠ tokEof := by
  intro e
  have h1 : typeOf (cstr s) ≠ lastOne := by
    have : ttypeOf s = typeOf (cstr s) := rfl
    rw [← this, e]; decide
  have h2 := (spelling_of_typeOf _ h1).2
  have h3 : typeOf (cstr s) = tokEof := e
  rw [h3] at h2
  have h4 : cstr s = [255] := by rw [← h2]; decide
  have : (255 : Nat) ∈ cstr s := by rw [h4]; simp
  exact h ((List.takeWhile_sublist _).subset this)

theorem makeOperator_eof (a : Bytes) (s : Str) (h1 : 255 ∉ a) (h2 : 255 ∉ s.rest) (t : Nat)
    (h : (makeOperator a s).1 = some t) : t ≠ tokEof := by
  have hsimple : ∀ (x : Bytes) (s1 : Str), 255 ∉ x → (simpleOperator x s1).1 = some t → t ≠ tokEof := by
    intro x s1 hx e
    unfold simpleOperator at e
    dsimp only at e
    split at e
    · simp only [Option.some.injEq] at e; subst e; exact ttypeOf_eof x hx
    · simp at e
  unfold makeOperator read at h
  cases hr : s.rest with
  | nil => rw [hr] at h; exact hsimple _ _ h1 h
  | cons c r =>
    rw [hr] at h h2
    dsimp only at h
    simp only [List.mem_cons, not_or] at h2
    have hac : 255 ∉ a ++ [c] := by simp [h1, h2.1]
    split at h
    · split at h
      · rename_i he
        generalize checkEllipsis ⟨r, some c⟩ = q at h
        obtain ⟨o, s2⟩ := q
        cases o with
        | false => simp at h
        | true =>
          simp only [Option.some.injEq] at h
          subst h; exact ttypeOf_eof _ hac
      · split at h
        · generalize checkShiftEqual ⟨r, some c⟩ = q at h
          obtain ⟨o, s2⟩ := q
          cases o with
          | none => simp at h
          | some o =>
            cases o with
            | true =>
              simp only [Option.some.injEq] at h
              subst h
              exact ttypeOf_eof _ (by simp [h1, h2.1])
            | false =>
              simp only [Option.some.injEq] at h
              subst h; exact ttypeOf_eof _ hac
        · simp only [Option.some.injEq] at h
          subst h; exact ttypeOf_eof _ hac
    · refine hsimple _ _ ?_ h
      intro hm
      exact hac (List.mem_of_mem_take hm)

theorem eof_special : special tokEof = .single := by decide

theorem makeWord_eof (a : Bytes) (s : Str) (t : Tok) (h : (makeWord a s).1 = some t) : t.type ≠ tokEof := by
  unfold makeWord at h
  generalize readWhile isWord s.rest a = q at h
  obtain ⟨name, c, s1⟩ := q
  dsimp only at h
  split at h
  · split at h
    · rename_i hk
      simp only [Option.some.injEq] at h; subst h
      intro e; dsimp only at e; rw [e, eof_special] at hk; simp at hk
    · rename_i hk
      simp only [Option.some.injEq] at h; subst h
      intro e; dsimp only at e; rw [e, eof_special] at hk; simp at hk
    · rename_i hk
      simp only [Option.some.injEq] at h; subst h
      intro e; dsimp only at e; rw [e, eof_special] at hk; simp at hk
    · generalize makeOperator [] (unread s1) = q1 at h
      obtain ⟨o1, str, s3⟩ := q1
      cases o1 with
      | none => simp at h
      | some t1 =>
        dsimp only at h
        generalize makeOperator str s3 = q2 at h
        obtain ⟨o2, str2, s4⟩ := q2
        cases o2 with
        | none => simp at h
        | some t2 =>
          dsimp only at h
          split at h
          · simp only [Option.some.injEq] at h; subst h; show tokIdentifier ≠ tokEof; decide
          · simp at h
    · simp at h
  · dsimp only at h
    split_ifs at h <;> simp only [Option.some.injEq, reduceCtorEq] at h <;> subst h <;> simp only <;> decide

theorem makeNumber_eof (b : Nat) (s : Str) (t : Tok) (h : (makeNumber b s).1 = some t) : t.type ≠ tokEof := by
  have fin : ∀ acc f c s1, (finishNumber acc f c s1).1 = some t → t.type ≠ tokEof := by
    intro acc f c s1 h
    unfold finishNumber at h
    dsimp only at h
    split_ifs at h <;> simp only [Option.some.injEq, reduceCtorEq] at h <;> subst h <;> simp only <;> decide
  unfold makeNumber at h
  generalize read s = q at h
  obtain ⟨c, s1⟩ := q
  cases c with
  | none => exact fin _ _ _ _ h
  | some c =>
    dsimp only at h
    split at h
    · exact fin _ _ _ _ h
    · exact fin _ _ _ _ h

theorem makeFlag_eof (s : Str) (t : Tok) (h : (makeFlag s).1 = some t) : t.type ≠ tokEof := by
  unfold makeFlag at h
  generalize read s = q at h
  obtain ⟨c, s1⟩ := q
  cases c with
  | none => simp at h
  | some c =>
    dsimp only at h
    split at h
    · split at h
      · rename_i hk
        simp only [Option.some.injEq] at h; subst h
        intro e; dsimp only at e; rw [e, eof_special] at hk; simp at hk
      · simp at h
    · simp at h

theorem makeSubstitute_eof (s : Str) (t : Tok) (h : (makeSubstitute s).1 = some t) : t.type ≠ tokEof := by
  unfold makeSubstitute at h
  generalize read s = q at h
  obtain ⟨c, s1⟩ := q
  cases c with
  | none => simp at h
  | some c =>
    dsimp only at h
    split at h
    · split at h
      · rename_i hk
        dsimp only at h
        unfold substituteOf at h
        split_ifs at h <;> simp only [Option.some.injEq, reduceCtorEq] at h <;> subst h
        · simp only; decide
        · simp only; decide
        · simp only; decide
        · intro e; dsimp only at e; rw [e, eof_special] at hk; simp at hk
      · simp at h
    · simp at h

theorem makeDoubleQuote_eof (s : Str) (t : Tok) (h : (makeDoubleQuote s).1 = some t) : t.type ≠ tokEof := by
  unfold makeDoubleQuote at h
  generalize quoteLoop s [] = q at h
  obtain ⟨o, s1⟩ := q
  cases o with
  | none => simp at h
  | some str =>
    simp only [Option.map_eq_some_iff] at h
    obtain ⟨x, _, hx⟩ := h
    subst hx; simp only; decide

theorem makeSingleQuote_eof (s : Str) (t : Tok) (h : (makeSingleQuote s).1 = some t) : t.type ≠ tokEof := by
  have fin : ∀ (x : Bytes) (s1 : Str),
      (match read s1 with
        | (c, s2) => if c = some 39 then ((some ⟨tokSquotedString, .text x⟩ : Option Tok), s2)
          else (none, unread s2)).1 = some t → t.type ≠ tokEof := by
    intro x s1 h
    generalize read s1 = q at h
    obtain ⟨c, s2⟩ := q
    dsimp only at h
    split at h
    · simp only [Option.some.injEq] at h; subst h; simp only; decide
    · simp at h
  unfold makeSingleQuote at h
  dsimp only at h
  generalize read s = q at h
  obtain ⟨c, s1⟩ := q
  cases c with
  | none => exact fin _ _ h
  | some c =>
    dsimp only at h
    split at h
    · simp at h
    · generalize nextByte (unread s1) = q2 at h
      obtain ⟨o, s2⟩ := q2
      cases o with
      | none => simp at h
      | some x => exact fin _ _ h

theorem dispatch_eof (b : Nat) (s : Str) (hb : b ≠ 255) (hs : 255 ∉ s.rest) (t : Tok)
    (h : (dispatch (some b) s).1 = some t) : t.type ≠ tokEof := by
  have h255 : (255 : Nat) ∉ [b] := by simp; omega
  unfold dispatch at h
  dsimp only [Option.getD_some] at h
  split at h
  · simp only [Option.some.injEq] at h; subst h; exact ttypeOf_eof _ h255
  · exact makeDoubleQuote_eof s t h
  · exact makeSingleQuote_eof s t h
  · split at h
    · exact makeWord_eof _ s t h
    · split at h
      · exact makeNumber_eof _ s t h
      · split at h
        · exact makeFlag_eof s t h
        · split at h
          · exact makeSubstitute_eof s t h
          · have ho := makeOperator_eof [b] s h255 hs
            generalize makeOperator [b] s = q at h ho
            obtain ⟨o, str, s1⟩ := q
            cases o with
            | none => simp at h
            | some t1 =>
              simp only [Option.some.injEq] at h
              subst h; exact ho t1 rfl

/-- End of file is answered only at the end, unless byte 255 occurs. -/
theorem nextToken_eof (s : Str) (hs : 255 ∉ s.rest) (h : (nextToken s).2.1.type = tokEof) :
    (nextToken s).2.2.rest = [] := by
  obtain ⟨h1, h2, h3⟩ := skipSpace_byte s none (by simp)
  have hsub := (skipSpace_suffix s none).1
  unfold nextToken at h ⊢
  generalize skipSpace s none = q at h h1 h2 h3 hsub
  obtain ⟨c, t, s1⟩ := q
  cases t with
  | some t =>
    dsimp only at h h3
    rcases h3 t rfl with e | e <;> rw [e] at h <;> exact absurd h (by decide)
  | none =>
    dsimp only at h h1 h2 h3 hsub ⊢
    cases c with
    | none =>
      have := h2 rfl
      subst this
      rfl
    | some b =>
      have hb : b ≠ 255 := fun e => hs (e ▸ h1 b rfl)
      have hs1 : 255 ∉ s1.rest := fun e => hs (((rest_suffix_unread s1).trans hsub).subset e)
      have hd := dispatch_eof b s1 hb hs1
      generalize dispatch (some b) s1 = q at h hd ⊢
      obtain ⟨o, s2⟩ := q
      cases o with
      | none => dsimp only at h; exact absurd h (by decide)
      | some t => exact absurd h (hd t rfl)

end Ulam.Lexer
