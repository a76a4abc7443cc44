import Verif.StmtParse.Complete
import Verif.Control.Props
/-
Property C94: a text of statements is read in one way, the one of the grammar:
braces group, an else goes with the nearest if that has none, a loop or an if
without braces takes one statement; anything else is refused.
-/
namespace Ulam.StmtParse

/-- Property C94: reading the body of a function comes to an end, whatever the text. -/
theorem C94_terminates (f : Nat) (s : St) (hf : 4 * s.toks.length + 3 ≤ f) : pFunc f s ≠ none := by
  unfold pFunc
  have hd := (le_drop s).len
  split_ifs with h1 h2
  · simp
  · simp
  · cases h3 : pStatements f s.drop with
    | none => exact absurd h3 ((allTotal f).ss _ (by omega))
    | some q => dsimp only; split_ifs <;> simp

/-- Property C94: when nothing is reported, the text from `{` to before the matching `}` is the
writing of the statements found, these are statements of the grammar (an else belongs to the
nearest if without one, the body of a case is a block, `otherwise` is the last label), and an `as` in
a condition is all of the condition. -/
theorem C94_reads (f : Nat) (s : St) (r : Option Trees) (s' : St) (h : pFunc f s = some (r, s'))
    (he : s'.errs = s.errs) :
    ∃ ts, r = some ts ∧ s.toks = .oc :: (writes ts ++ s'.toks) ∧ s'.toks.head? = some .cc ∧
      goods ts = true ∧ condsOks ts = true := by
  unfold pFunc at h
  split_ifs at h with h1 h2
  · cases h; simp [St.err] at he
  · cases h
    exact ⟨.nil, rfl, toks_of_next (not_not.mp h1), h2, rfl, rfl⟩
  · cases h3 : pStatements f s.drop with
    | none => rw [h3] at h; cases h
    | some q =>
      rw [h3] at h
      obtain ⟨ts, s1⟩ := q
      have hl := (allLe f).ss _ _ h3
      dsimp only at h hl
      split_ifs at h with h4
      · cases h
        obtain ⟨g1, g2, g3, -⟩ := (allSound f).ss _ _ _ h3 ⟨he, next_ne_none h4⟩
        exact ⟨ts, rfl, by rw [toks_of_next (not_not.mp h1), g1], h4, g2, g3⟩
      · cases h
        have h5 := hl.1
        have h6 : s.drop.errs = s.errs := rfl
        simp only [St.err] at he
        omega

/-- Property C94, partial: all statements of the grammar are accepted and found, when `as` is used
only as a condition (of an if, a loop or a case).  Missing: an `as` in another place, see
`C94_stray_as_fails`. -/
theorem C94_accepts_partial (f : Nat) (ts : Trees) (rest : List Tok) (e : Nat) (h1 : goods ts = true)
    (h2 : condsOks ts = true) (h3 : noStrays ts = true)
    (hf : 4 * (writes ts ++ .cc :: rest).length + 3 ≤ f) :
    pFunc f ⟨.oc :: (writes ts ++ .cc :: rest), false, e⟩ = some (some ts, ⟨.cc :: rest, false, e⟩) := by
  unfold pFunc
  rw [if_neg (by simp [St.next])]
  cases ts with
  | nil => simp [St.next, St.drop, writes]
  | cons t ts =>
    obtain ⟨k, l, hk, -, h5, -⟩ := head_write t
    have hn : (writes (.cons t ts) ++ .cc :: rest).head? ≠ some .cc := by simp [writes, hk, h5]
    rw [if_neg (by simpa [St.next, St.drop] using hn)]
    simp only [St.drop, List.tail_cons]
    rw [compTs _ h1 h2 h3 (by simp) f rest e hf]
    simp [St.next]

/-- No `as` in a token. -/
def tokPlain : Tok → Bool
  | .simp x => !x.hasAs
  | _ => true

theorem plain_opt {o : Option Ex} (h : (wOpt o).all tokPlain = true) : o.all noAs = true := by
  cases o with
  | none => rfl
  | some x => simpa [wOpt, tokPlain, Simp.hasAs, noAs] using h

theorem plain_ex {c : Ex} (h : tokPlain (.simp (.ex c)) = true) : condAs c = true := by
  have : c.as = .no := by simpa [tokPlain, Simp.hasAs] using h
  simp [condAs, this]

theorem plain_labels : ∀ ls : List (Option Ex), (wLabels ls).all tokPlain = true → ls.all (fun l => l.all noAs) = true
  | [], _ => rfl
  | some e :: ls, h => by
    simp only [wLabels, List.all_cons, Bool.and_eq_true] at h
    have := plain_labels ls h.2.2.2
    have h1 : noAs e = true := by simpa [tokPlain, Simp.hasAs, noAs] using h.2.1
    simp only [List.all_cons, this, Option.all_some, h1, Bool.and_self]
  | none :: ls, h => by
    simp only [wLabels, List.all_cons, Bool.and_eq_true] at h
    have := plain_labels ls h.2.2
    simp only [List.all_cons, this, Option.all_none, Bool.and_self]

mutual
theorem plain_tree : ∀ t, (write t).all tokPlain = true → condsOk t = true ∧ noStray t = true
  | .simp x, h => by simpa [write, condsOk, noStray, tokPlain] using h
  | .empty, _ => ⟨rfl, rfl⟩
  | .brk, _ => ⟨rfl, rfl⟩
  | .cont, _ => ⟨rfl, rfl⟩
  | .ret e, h => by
    simp only [write, List.all_cons, List.all_append, Bool.and_eq_true] at h
    exact ⟨rfl, plain_opt h.2.1⟩
  | .block ts, h => by
    simp only [write, List.all_cons, List.all_append, Bool.and_eq_true] at h
    simpa [condsOk, noStray] using plain_trees ts h.2.1
  | .ite c t, h => by
    simp only [write, List.all_cons, Bool.and_eq_true] at h
    have := plain_tree t h.2.2.2.2
    exact ⟨by simp [condsOk, plain_ex h.2.2.1, this.1], by simp [noStray, this.2]⟩
  | .iteElse c t u, h => by
    simp only [write, List.all_cons, List.all_append, Bool.and_eq_true] at h
    have h1 := plain_tree t h.2.2.2.2.1
    have h2 := plain_tree u h.2.2.2.2.2.2
    exact ⟨by simp [condsOk, plain_ex h.2.2.1, h1.1, h2.1], by simp [noStray, h1.2, h2.2]⟩
  | .whil c t, h => by
    simp only [write, List.all_cons, Bool.and_eq_true] at h
    have := plain_tree t h.2.2.2.2
    exact ⟨by simp [condsOk, plain_ex h.2.2.1, this.1], by simp [noStray, this.2]⟩
  | .forr i c st t, h => by
    simp only [write, List.all_cons, List.all_append, Bool.and_eq_true] at h
    obtain ⟨-, -, h1, -, h2, -, h3, -, h4⟩ := h
    have := plain_tree t h4
    have hc := plain_opt h2
    have hi : i.any Simp.hasAs = false := by
      cases i with
      | none => rfl
      | some x => simpa [wInit, tokPlain] using h1
    have hc' : c.all condAs = true := by
      cases c with
      | none => rfl
      | some c =>
        have : c.as = .no := by simpa [noAs] using hc
        simp [condAs, this]
    exact ⟨by simp [condsOk, hc', this.1], by simp [noStray, hi, plain_opt h3, this.2]⟩
  | .which e gs, h => by
    simp only [write, List.all_cons, List.all_append, Bool.and_eq_true] at h
    obtain ⟨-, -, h1, -, -, h2, -⟩ := h
    have := plain_groups e.isSome gs h2
    exact ⟨by simp [condsOk, this.1], by simp [noStray, plain_opt h1, this.2]⟩
theorem plain_trees : ∀ ts, (writes ts).all tokPlain = true → condsOks ts = true ∧ noStrays ts = true
  | .nil, _ => ⟨rfl, rfl⟩
  | .cons t ts, h => by
    simp only [writes, List.all_append, Bool.and_eq_true] at h
    have h1 := plain_tree t h.1
    have h2 := plain_trees ts h.2
    exact ⟨by simp [condsOks, h1.1, h2.1], by simp [noStrays, h1.2, h2.2]⟩
theorem plain_groups (v : Bool) : ∀ gs, (writeG gs).all tokPlain = true → condsOkG v gs = true ∧ noStrayG gs = true
  | .nil, _ => ⟨rfl, rfl⟩
  | .cons ls b gs, h => by
    simp only [writeG, List.all_append, Bool.and_eq_true] at h
    have h1 := plain_tree b h.2.1
    have h2 := plain_groups v gs h.2.2
    exact ⟨by simp [condsOkG, labelsAs, plain_labels ls h.1, h1.1, h2.1], by simp [noStrayG, h1.2, h2.2]⟩
end

/-- Property C94: a text without `as` is accepted, up to before a `}`, exactly when it is `{` and the
writing of statements of the grammar; these are the statements found. -/
theorem C94_exactly (f : Nat) (toks rest : List Tok) (e : Nat) (ts : Trees) (hp : toks.all tokPlain = true)
    (hf : 4 * toks.length + 3 ≤ f) :
    pFunc f ⟨toks, false, e⟩ = some (some ts, ⟨.cc :: rest, false, e⟩) ↔
      toks = .oc :: (writes ts ++ .cc :: rest) ∧ goods ts = true := by
  constructor
  · intro h
    obtain ⟨us, h1, h2, -, h3, -⟩ := C94_reads f _ _ _ h rfl
    cases h1
    exact ⟨h2, h3⟩
  · rintro ⟨rfl, hg⟩
    simp only [List.all_cons, List.all_append, Bool.and_eq_true] at hp
    obtain ⟨h1, h2⟩ := plain_trees ts hp.2.1
    exact C94_accepts_partial f ts rest e hg h1 h2 (by simp only [List.length_cons] at hf; omega)

/-- Property C94: a text has one reading only. -/
theorem C94_unique (ts us : Trees) (r r' : List Tok) (h1 : goods ts = true) (h2 : goods us = true)
    (c1 : condsOks ts = true) (c2 : condsOks us = true) (n1 : noStrays ts = true) (n2 : noStrays us = true)
    (h : writes ts ++ .cc :: r = writes us ++ .cc :: r') : ts = us ∧ r = r' := by
  have g1 := C94_accepts_partial (4 * (writes ts ++ .cc :: r).length + 3) ts r 0 h1 c1 n1 (Nat.le_refl _)
  have g2 := C94_accepts_partial (4 * (writes ts ++ .cc :: r).length + 3) us r' 0 h2 c2 n2
    (by rw [h])
  rw [h] at g1 g2
  rw [g1] at g2
  simp only [Option.some.injEq, Prod.mk.injEq, St.mk.injEq, List.cons.injEq, true_and, and_true] at g2
  exact g2

/-- Property C94: in `if(a) if(b) X else Y` the else belongs to the second if, though the text could
also be written for the other reading. -/
theorem C94_nearest_else (f : Nat) (a b : Ex) (x y : Tree) (rest : List Tok) (e : Nat)
    (hg : good x = true ∧ openEnd x = false ∧ good y = true)
    (hp : (write (.iteElse a (.ite b x) y)).all tokPlain = true) (hr : rest.head? ≠ some .kElse)
    (hf : 4 * (write (.iteElse a (.ite b x) y) ++ rest).length + 2 ≤ f) :
    pStatement f ⟨write (.iteElse a (.ite b x) y) ++ rest, false, e⟩
      = some (some (.ite a (.iteElse b x y)), .nil, ⟨rest, false, e⟩) := by
  have hw : write (.iteElse a (.ite b x) y) = write (.ite a (.iteElse b x y)) := by simp [write]
  rw [hw] at hp hf ⊢
  obtain ⟨h1, h2⟩ := plain_tree _ hp
  obtain ⟨node, app, g1, g2⟩ := (compB _ (by simp [good, hg.1, hg.2.1, hg.2.2]) h1 h2).1 f rest e hf (fun _ => hr)
  rw [g1]
  rcases g2 with ⟨rfl, rfl⟩ | ⟨rfl, rfl⟩
  · rfl
  · exfalso
    cases f with
    | zero => omega
    | succ f =>
      unfold pStatement at g1
      simp only [write, List.cons_append, St.next, List.head?_cons] at g1
      obtain ⟨a, -, h4⟩ := map_some g1
      have h5 := congrArg (fun r => r.2.1) h4
      cases h5

/-- Property C94 fails for an `as` that is not a condition: after it the next if (with a condition
that is no `as`) is refused, whatever its statement. -/
theorem C94_stray_as_fails (f : Nat) (x c : Ex) (rest : List Tok) (e : Nat) (hx : x.as ≠ .no) (hc : c.as = .no)
    (r : Option Trees) (s' : St)
    (h : pFunc f ⟨.oc :: .simp (.ex x) :: .semi :: .kIf :: .op :: .simp (.ex c) :: .cp :: rest, false, e⟩
      = some (r, s')) : e < s'.errs := by
  have hp : pStatements f ⟨.simp (.ex x) :: .semi :: .kIf :: .op :: .simp (.ex c) :: .cp :: rest, false, e⟩
      = none ∨ ∃ q, pStatements f ⟨.simp (.ex x) :: .semi :: .kIf :: .op :: .simp (.ex c) :: .cp :: rest, false, e⟩
        = some q ∧ e < q.2.errs := by
    cases hq : pStatements f ⟨.simp (.ex x) :: .semi :: .kIf :: .op :: .simp (.ex c) :: .cp :: rest, false, e⟩ with
    | none => exact Or.inl rfl
    | some q =>
      refine Or.inr ⟨q, rfl, ?_⟩
      match f with
      | 0 => cases hq
      | 1 => cases hq
      | 2 =>
        unfold pStatements at hq
        simp [pStatement, pSimple, pExpr, St.next, finish, St.drop, pStatements] at hq
      | f + 3 =>
        unfold pStatements at hq
        have hb : (x.as != .no) = true := by simpa using hx
        have h1 : pStatement (f + 2) ⟨.simp (.ex x) :: .semi :: .kIf :: .op :: .simp (.ex c) :: .cp :: rest, false, e⟩
            = some (none, .one (.simp (.ex x)), ⟨.kIf :: .op :: .simp (.ex c) :: .cp :: rest, true, e⟩) := by
          unfold pStatement
          simp [pSimple, pExpr, St.next, finish, St.drop, hx]
        rw [h1] at hq
        dsimp only at hq
        rw [if_pos (by simp [St.next])] at hq
        obtain ⟨a, h2, h3⟩ := map_some hq
        have h4 : q.2 = a.2 := by rw [← h3]
        rw [h4]
        -- the second statement
        unfold pStatements at h2
        cases h5 : pStatement (f + 1) ⟨.kIf :: .op :: .simp (.ex c) :: .cp :: rest, true, e⟩ with
        | none => rw [h5] at h2; cases h2
        | some w =>
          have h6 : e < w.2.2.errs := by
            unfold pStatement at h5
            simp only [St.next, St.drop, List.head?_cons, List.tail_cons] at h5
            obtain ⟨b, h7, h8⟩ := map_some h5
            rw [← h8]
            dsimp only
            match f with
            | 0 => cases h7
            | 1 =>
              unfold pIf at h7
              simp [pParen, St.next, St.drop, pExpr, pBody] at h7
            | f + 2 =>
              unfold pIf at h7
              simp [pParen, St.next, St.drop, pExpr, pBody, hc, isAs] at h7
              rw [← h7]
              simp [St.err, St.setAs]
              omega
          rw [h5] at h2
          obtain ⟨node, app, s2⟩ := w
          dsimp only at h6
          cases node with
          | none =>
            dsimp only at h2
            split_ifs at h2
            · obtain ⟨b, h7, h8⟩ := map_some h2
              have := ((allLe _).ss _ _ h7).1
              rw [← h8]
              dsimp only
              omega
            · cases h2; exact h6
          | some t =>
            dsimp only at h2
            split_ifs at h2
            · obtain ⟨b, h7, h8⟩ := map_some h2
              have := ((allLe _).ss _ _ h7).1
              rw [← h8]
              dsimp only
              omega
            · cases h2; exact h6
  unfold pFunc at h
  rw [if_neg (by simp [St.next]), if_neg (by simp [St.next, St.drop])] at h
  simp only [St.drop, List.tail_cons] at h
  rcases hp with hp | ⟨q, hp, hlt⟩
  · rw [hp] at h; cases h
  · rw [hp] at h
    obtain ⟨ts, s1⟩ := q
    dsimp only at h hlt
    split_ifs at h <;> cases h
    · exact hlt
    · simp only [St.err]; omega

mutual
/-- The statement of `Verif/Control` for a tree; `ca` and `ce` name what is opaque there. -/
def toStmt (ca : Simp → Nat) (ce : Ex → Nat) : Tree → Control.Stmt
  | .simp x => .act (ca x)
  | .empty => .block .nil
  | .brk => .brk
  | .cont => .cont
  | .ret _ => .ret
  | .block ts => .block (toStmts ca ce ts)
  | .ite c t => .ite (ce c) (toStmt ca ce t)
  | .iteElse c t e => .iteElse (ce c) (toStmt ca ce t) (toStmt ca ce e)
  | .whil c b => .whil (ce c) (toStmt ca ce b)
  | .forr i c st b => .forr (i.map ca) (c.map ce) (st.map ce) (toStmt ca ce b)
  | .which e gs => .which (e.map ce) (toGroups ca ce gs)
def toStmts (ca : Simp → Nat) (ce : Ex → Nat) : Trees → Control.Stmts
  | .nil => .nil
  | .cons t ts => .cons (toStmt ca ce t) (toStmts ca ce ts)
def toGroups (ca : Simp → Nat) (ce : Ex → Nat) : Groups → Control.Groups
  | .nil => .nil
  | .cons [] _ gs => toGroups ca ce gs
  | .cons (l :: ls) b gs => .cons (l.map ce) (ls.map (·.map ce)) (toStmt ca ce b) (toGroups ca ce gs)
end

/-- Property C94, with C27: from the text of a function body to what the generated code does.  When
neither reading the text nor placing breaks and continues gives an error, the text is the writing of
one list of statements of the grammar and the code does what these statements mean. -/
theorem C94_meaning {σ} (S : Control.Sem σ) (ca : Simp → Nat) (ce : Ex → Nat) (f fuel : Nat) (s s' : St)
    (r : Option Trees) (h : pFunc f s = some (r, s')) (he : s'.errs = s.errs) (nd : Bool) (p : Control.PS)
    (hp : Control.Start p)
    (hc : ∀ ts, r = some ts → (Control.parse nd (.block (toStmts ca ce ts)) p).2.errs = p.errs) :
    ∃ ts, s.toks = .oc :: (writes ts ++ s'.toks) ∧ goods ts = true ∧ ∀ (ρ : Nat → Int) (x : σ),
      Control.cexec S fuel (Control.parse nd (.block (toStmts ca ce ts)) p).1 ρ x =
        (Control.exec S fuel (.block (toStmts ca ce ts)) x).map
          (fun r => (if r.1 = .ret then .ret else .normal, r.2)) := by
  obtain ⟨ts, rfl, h1, -, h2, -⟩ := C94_reads f s r s' h he
  exact ⟨ts, h1, h2, fun ρ x => (Control.C27_generated_code S fuel nd p hp _ (hc ts rfl) ρ x).1⟩

section Examples

def ex0 (n : Nat) : Ex := ⟨n, true, .no⟩
def as0 (n : Nat) : Ex := ⟨n, true, .top⟩
def body0 : Trees :=
  .cons (.simp (.decl 0 false)) <|
  .cons (.ite (ex0 1) (.iteElse (ex0 2) (.simp (.ex (ex0 3))) .empty)) <|
  .cons (.forr (some (.decl 4 false)) (some (ex0 5)) (some (ex0 6)) (.ite (as0 7) (.block (.one .brk)))) <|
  .cons (.which none (.cons [some (as0 8)] (.block .nil) (.cons [some (ex0 9), none] (.block (.one .cont)) .nil))) <|
  .one (.ret (some (ex0 10)))

example : goods body0 = true ∧ condsOks body0 = true ∧ noStrays body0 = true := by decide
example : (pFunc 400 ⟨.oc :: (writes body0 ++ [.cc]), false, 0⟩).map (fun r => (r.1.isSome, r.2))
    = some (true, ⟨[.cc], false, 0⟩) := by decide +kernel
-- `if(a) x; else y; else z;` is refused
example : (pFunc 100 ⟨[.oc, .kIf, .op, .simp (.ex (ex0 1)), .cp, .semi, .kElse, .semi, .kElse, .semi, .cc], false, 0⟩).map
    (fun r => r.2.errs) = some 1 := by decide +kernel
-- `b = x as T; if(c) ;`
example : (pFunc 100 ⟨[.oc, .simp (.ex ⟨0, true, .inside⟩), .semi, .kIf, .op, .simp (.ex (ex0 1)), .cp, .semi, .cc],
    false, 0⟩).map (fun r => decide (0 < r.2.errs)) = some true := by decide +kernel
-- the two readings of a dangling else have the same text, one of them is of the grammar
example : write (.iteElse (ex0 1) (.ite (ex0 2) .brk) .cont) = write (.ite (ex0 1) (.iteElse (ex0 2) .brk .cont)) ∧
    good (.iteElse (ex0 1) (.ite (ex0 2) .brk) .cont) = false ∧
    good (.ite (ex0 1) (.iteElse (ex0 2) .brk .cont)) = true := by decide
example : (writes (.cons (.ite (ex0 1) .empty) .nil)).all tokPlain = true := by decide
example : (Control.parse false (.block (toStmts (fun _ => 0) (fun e => e.n)
    (.one (.whil (ex0 0) (.ite (ex0 1) .brk))))) ⟨0, [], 0, false⟩).2.errs = 0 := by decide

end Examples

end Ulam.StmtParse
