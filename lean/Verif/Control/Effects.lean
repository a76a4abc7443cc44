import Verif.Control.Lemmas
/- How many uses are counted, and which outcomes a statement can have. -/
namespace Ulam.Control

def addBrk (k : Nat) : List Desc → List Desc
  | [] => []
  | d :: ds => if d.kind = .which then { d with uses := d.uses + k } :: ds else d :: ds

def addCont (k : Nat) : List Desc → List Desc
  | [] => []
  | d :: ds => if d.isLoop then { d with uses := d.uses + k } :: ds else d :: addCont k ds

theorem addBrk_zero (st : List Desc) : addBrk 0 st = st := by
  cases st with
  | nil => rfl
  | cons d ds => simp only [addBrk]; split <;> rfl

theorem addCont_zero (st : List Desc) : addCont 0 st = st := by
  induction st with
  | nil => rfl
  | cons d ds ih => simp only [addCont, ih]; split <;> rfl

theorem addBrk_add (a b : Nat) (st : List Desc) : addBrk b (addBrk a st) = addBrk (a + b) st := by
  cases st with
  | nil => rfl
  | cons d ds =>
    by_cases h : d.kind = .which <;> simp [addBrk, h, Nat.add_assoc]

theorem addCont_add (a b : Nat) (st : List Desc) : addCont b (addCont a st) = addCont (a + b) st := by
  induction st with
  | nil => rfl
  | cons d ds ih =>
    simp only [addCont]
    split
    · next h =>
      have h' : Desc.isLoop { d with uses := d.uses + a } = true := h
      simp [addCont, h', Nat.add_assoc]
    · next h => simp [addCont, h, ih]

theorem addBrk_addCont (a b : Nat) (st : List Desc) : addBrk b (addCont a st) = addCont a (addBrk b st) := by
  cases st with
  | nil => rfl
  | cons d ds =>
    have hl := isLoop_eq d
    by_cases hk : d.kind = .which
    · have h1 : d.isLoop = false := by rw [hl, hk]; rfl
      simp [addCont, addBrk, hk, h1, isLoop_eq]
    · have h1 : d.isLoop = true := by rw [hl]; simp [hk]
      simp [addCont, addBrk, hk, h1]

theorem nearestBreak_add (st : List Desc) : (nearestBreak st).2 = addBrk 1 st := by
  cases st with
  | nil => rfl
  | cons d ds => simp only [nearestBreak, addBrk]; split <;> rfl

theorem nearestContinue_add (st : List Desc) : (nearestContinue st).2 = addCont 1 st := by
  induction st with
  | nil => rfl
  | cons d ds ih => simp only [nearestContinue, addCont, ← ih]; split <;> rfl

/-- What parsing a statement without errors does to the state. -/
structure Effect (b c : Nat) (p q : PS) : Prop where
  stack : q.stack = addBrk b (addCont c p.stack)
  aborted : q.aborted = p.aborted

theorem Effect.none (p : PS) : Effect 0 0 p p := ⟨by rw [addCont_zero, addBrk_zero], rfl⟩

theorem Effect.trans {b c b' c' : Nat} {p q r : PS} (h : Effect b c p q) (h' : Effect b' c' q r) :
    Effect (b + b') (c + c') p r :=
  ⟨by rw [h'.stack, h.stack, ← addBrk_addCont, addBrk_add, addCont_add], h'.aborted.trans h.aborted⟩

/-- The use counted by the assertion. -/
def base (nd : Bool) : Nat := if nd then 0 else 1

theorem sanity_push_stack (nd : Bool) (p : PS) (k : Kind) (hk : k ≠ .which) :
    ((p.push k).sanity nd).stack = ⟨k, p.next + 1, base nd⟩ :: p.stack := by
  have hl : ∀ u, Desc.isLoop ⟨k, p.next + 1, u⟩ = true := by intro u; cases k <;> simp_all [isLoop_eq]
  unfold PS.sanity base
  cases nd with
  | true => rfl
  | false => simp [PS.push, nearestContinue, hl]

theorem add_loop (k : Kind) (hk : k ≠ .which) (n u b c : Nat) (st : List Desc) :
    addBrk b (addCont c (⟨k, n, u⟩ :: st)) = ⟨k, n, u + c⟩ :: st := by
  have hl : ∀ u, Desc.isLoop ⟨k, n, u⟩ = true := by intro u; cases k <;> simp_all [isLoop_eq]
  simp [addCont, hl, addBrk, hk]

theorem add_which (n u b c : Nat) (st : List Desc) :
    addBrk b (addCont c (⟨.which, n, u⟩ :: st)) = ⟨.which, n, u + b⟩ :: addCont c st := by
  simp [addCont, isLoop_eq, addBrk]

theorem nearestContinueIfUsed_loop (k : Kind) (hk : k ≠ .which) (n u : Nat) (st : List Desc) :
    nearestContinueIfUsed (⟨k, n, u⟩ :: st) = if u > 0 then n else 0 := by
  have hl : Desc.isLoop ⟨k, n, u⟩ = true := by cases k <;> simp_all [isLoop_eq]
  simp [nearestContinueIfUsed, hl]

/-- The stack when a loop's body has been parsed. -/
theorem loop_effect (nd : Bool) (p q : PS) (k : Kind) (hk : k ≠ .which) (b c : Nat) (n : Node) (st : Option Nat)
    (h : Effect b c ((p.push k).sanity nd) q) : Effect 0 0 p (loopBody nd q n st).2.pop ∧
      (loopBody nd q n st).1 = if base nd + c > 0 then .ofList (n :: .label (p.next + 1) :: stepNodes st)
        else .ofList (n :: stepNodes st) := by
  have hst := h.stack
  rw [sanity_push_stack nd p k hk, add_loop k hk] at hst
  have hu : nearestContinueIfUsed q.stack = if base nd + c > 0 then p.next + 1 else 0 := by
    rw [hst, nearestContinueIfUsed_loop k hk]
  have ha : q.aborted = p.aborted := by rw [h.aborted, sanity_aborted]; rfl
  by_cases hc : base nd + c > 0
  · have hpos : nearestContinueIfUsed q.stack > 0 := by rw [hu, if_pos hc]; omega
    refine ⟨⟨?_, ?_⟩, ?_⟩
    · simp only [PS.pop, loopBody_stack, hst, List.tail_cons]
      rw [addCont_zero, addBrk_zero]
    · simp only [loopBody, PS.pop, if_pos hpos]; exact ha
    · simp only [loopBody, if_pos hpos, if_pos hc]
      rw [hu, if_pos hc]
  · have hpos : ¬nearestContinueIfUsed q.stack > 0 := by rw [hu, if_neg hc]; omega
    have hnd : nd = true := by
      cases nd with
      | true => rfl
      | false => simp [base] at hc
    subst hnd
    refine ⟨⟨?_, ?_⟩, ?_⟩
    · simp only [PS.pop, loopBody_stack, hst, List.tail_cons]
      rw [addCont_zero, addBrk_zero]
    · simp only [loopBody, PS.pop, if_neg hpos]; exact ha
    · simp only [loopBody, if_neg hpos, if_neg hc]

/-- Well-formed for the stack. -/
def Ok (st : List Desc) (s : Stmt) : Prop := wellFormed (hasLoop st) (!st.isEmpty) s = true

theorem groupsOk_parts {inLoop : Bool} {l ls b gs} (h : groupsOk inLoop (.cons l ls b gs) = true) :
    labelsOk gs.isNil (l :: ls) = true ∧ wellFormed inLoop true b = true ∧ groupsOk inLoop gs = true := by
  rw [groupsOk_cons] at h
  simpa [Bool.and_eq_true] using h

/-- What `restOfCase` returns for a group that is allowed. -/
theorem restOfCase_ok (num : Nat) (v : Bool) (l : Option Nat) (ls : List (Option Nat)) (last : Bool)
    (h : labelsOk last (l :: ls) = true) :
    (none ∈ (l :: ls) ∧ last = true ∧ restOfCase num v (l :: ls) none false false = some (some .tt, true, true)) ∨
    (∃ e es, l :: ls = (e :: es).map some ∧ restOfCase num v (l :: ls) none false false =
      some (some (orAll num v (caseCond num v e) es), false, false)) := by
  rcases labels_cases (l :: ls) with ⟨es, hes⟩ | ⟨es, r, hes⟩
  · right
    cases es with
    | nil => simp at hes
    | cons e es => exact ⟨e, es, hes, by rw [hes]; exact restOfCase_plain num v e es⟩
  · left
    rw [hes, labelsOk_mid] at h
    simp only [Bool.and_eq_true, List.isEmpty_iff] at h
    obtain ⟨hl, rfl⟩ := h
    exact ⟨by rw [hes]; simp, hl, by rw [hes, restOfCase_otherwise]; simp⟩

mutual
theorem parse_effect (nd : Bool) : ∀ (s : Stmt) (p : PS), Ok p.stack s →
    Effect (nBrk s) (nCont s) p (parse nd s p).2
  | .act a, p, _ => by simp only [parse, nBrk, nCont]; exact .none p
  | .ret, p, _ => by simp only [parse, nBrk, nCont]; exact .none p
  | .brk, p, h => by
    have h' : okBreak p.stack = true := by simpa [Ok, wellFormed, okBreak] using h
    simp only [parse, h', if_true, nBrk, nCont]
    exact ⟨by simp only [nearestBreak_add, addCont_zero], rfl⟩
  | .cont, p, h => by
    simp only [parse, nBrk, nCont]
    split
    · exact ⟨by simp only [nearestContinue_add, addBrk_zero], rfl⟩
    · exact ⟨by simp only [PS.err, nearestContinue_add, addBrk_zero], rfl⟩
  | .block ss, p, h => by
    simp only [parse, nBrk, nCont]
    exact parses_effect nd ss p (by simpa [Ok, wellFormed] using h)
  | .ite c t, p, h => by
    simp only [parse, nBrk, nCont]
    exact parse_effect nd t p (by simpa [Ok, wellFormed] using h)
  | .iteElse c t e, p, h => by
    simp only [parse, nBrk, nCont]
    have h' : Ok p.stack t ∧ Ok p.stack e := by simpa [Ok, wellFormed] using h
    refine (parse_effect nd t p h'.1).trans (parse_effect nd e _ ?_)
    unfold Ok; rw [wf_env (parse_keeps nd t p)]; exact h'.2
  | .whil c b, p, h => by
    simp only [parse, nBrk, nCont]
    obtain ⟨h1, h2, _⟩ := sanity_push_loop nd p .whil (by decide)
    refine (loop_effect nd p _ .whil (by decide) _ _ _ _ (parse_effect nd b _ ?_)).1
    unfold Ok; rw [h1, h2]; simpa [Ok, wellFormed] using h
  | .forr i c st b, p, h => by
    simp only [parse, nBrk, nCont]
    obtain ⟨h1, h2, _⟩ := sanity_push_loop nd p .forr (by decide)
    refine (loop_effect nd p _ .forr (by decide) _ _ _ _ (parse_effect nd b _ ?_)).1
    unfold Ok; rw [h1, h2]; simpa [Ok, wellFormed] using h
  | .which e gs, p, h => by
    simp only [parse, nBrk, nCont]
    have hl : hasLoop (p.push .which).stack = hasLoop p.stack := by
      simp [PS.push, hasLoop, isLoop_eq]
    have := parseGroups_effect nd ((p.push .which).next + 1) e.isSome gs true
      { p.push .which with next := (p.push .which).next + 1 } rfl (by simp only [hl]; simpa [Ok, wellFormed] using h)
    refine ⟨?_, this.aborted⟩
    have hs := congrArg List.tail this.stack
    refine hs.trans ?_
    simp only [PS.push]
    rw [add_which, List.tail_cons, addBrk_zero]
theorem parses_effect (nd : Bool) : ∀ (ss : Stmts) (p : PS), wellFormeds (hasLoop p.stack) (!p.stack.isEmpty) ss = true →
    Effect (nBrks ss) (nConts ss) p (parses nd ss p).2
  | .nil, p, _ => by simp only [parses, nBrks, nConts]; exact .none p
  | .cons s ss, p, h => by
    simp only [parses, nBrks, nConts]
    simp only [wellFormeds, Bool.and_eq_true] at h
    have k := parse_keeps nd s p
    refine (parse_effect nd s p h.1).trans (parses_effect nd ss _ ?_)
    rw [hasLoop_shape k.shape, isEmpty_shape k.shape]
    exact h.2
theorem parseGroups_effect (nd : Bool) (num : Nat) (v : Bool) : ∀ (gs : Groups) (first : Bool) (p : PS),
    p.stack.isEmpty = false → groupsOk (hasLoop p.stack) gs = true →
    Effect (nBrkG gs) (nContG gs) p (parseGroups nd num v gs first false p).2
  | .nil, first, p, _, _ => by simp only [parseGroups, nBrkG, nContG]; exact .none p
  | .cons l ls b gs, first, p, hne, h => by
    obtain ⟨h1, h2, h3⟩ := groupsOk_parts h
    have k := parse_keeps nd b p
    have eb := parse_effect nd b p (by unfold Ok; rw [hne]; simpa using h2)
    simp only [parseGroups, nBrkG, nContG]
    rcases restOfCase_ok num v l ls _ h1 with ⟨_, hl, hr⟩ | ⟨e, es, _, hr⟩
    · obtain rfl : gs = .nil := by cases gs <;> simp_all [Groups.isNil]
      rw [hr]
      simp only [nBrkG, nContG, parseGroups]
      split <;> exact eb
    · rw [hr]
      simp only [true_or, if_true]
      exact eb.trans (parseGroups_effect nd num v gs false _ ((isEmpty_shape k.shape).trans hne)
        (by rw [hasLoop_shape k.shape]; exact h3))
end

/-! ### Which outcomes there can be -/

theorem sloop_out {σ} (cond : σ → Bool × σ) (body : σ → Option (Out × σ)) (step : σ → σ) (fuel : Nat) (s s' : σ)
    (o : Out) (h : sloop cond body step fuel s = some (o, s')) : o = .normal ∨ o = .ret := by
  induction fuel generalizing s with
  | zero => simp [sloop] at h
  | succ n ih =>
    simp only [sloop] at h
    split at h
    · simp only [Option.some.injEq, Prod.mk.injEq] at h; exact .inl h.1.symm
    · split at h
      · simp at h
      · simp only [Option.some.injEq, Prod.mk.injEq] at h; exact .inr h.1.symm
      · simp only [Option.some.injEq, Prod.mk.injEq] at h; exact .inl h.1.symm
      · exact ih _ h

mutual
theorem exec_out {σ} (S : Sem σ) (fuel : Nat) : ∀ (st : Stmt) (s s' : σ) (o : Out),
    exec S fuel st s = some (o, s') → (o = .brk → 0 < nBrk st) ∧ (o = .cont → 0 < nCont st)
  | .act a, s, s', o, h => by simp only [exec, Option.some.injEq, Prod.mk.injEq] at h; simp [← h.1]
  | .ret, s, s', o, h => by simp only [exec, Option.some.injEq, Prod.mk.injEq] at h; simp [← h.1]
  | .brk, s, s', o, h => by simp only [exec, Option.some.injEq, Prod.mk.injEq] at h; simp [← h.1, nBrk]
  | .cont, s, s', o, h => by simp only [exec, Option.some.injEq, Prod.mk.injEq] at h; simp [← h.1, nCont]
  | .block ss, s, s', o, h => by
    simp only [exec] at h
    simp only [nBrk, nCont]
    exact execs_out S fuel ss s s' o h
  | .ite c t, s, s', o, h => by
    simp only [exec] at h
    simp only [nBrk, nCont]
    split at h
    · exact exec_out S fuel t _ s' o h
    · simp only [Option.some.injEq, Prod.mk.injEq] at h; simp [← h.1]
  | .iteElse c t e, s, s', o, h => by
    simp only [exec] at h
    simp only [nBrk, nCont]
    split at h
    · have := exec_out S fuel t _ s' o h
      exact ⟨fun q => by have := this.1 q; omega, fun q => by have := this.2 q; omega⟩
    · have := exec_out S fuel e _ s' o h
      exact ⟨fun q => by have := this.1 q; omega, fun q => by have := this.2 q; omega⟩
  | .whil c b, s, s', o, h => by
    simp only [exec] at h
    rcases sloop_out _ _ _ _ _ _ _ h with rfl | rfl <;> simp
  | .forr i c st b, s, s', o, h => by
    simp only [exec] at h
    rcases sloop_out _ _ _ _ _ _ _ h with rfl | rfl <;> simp
  | .which e gs, s, s', o, h => by
    simp only [exec, Option.map_eq_some_iff] at h
    obtain ⟨⟨o', s''⟩, h1, h2⟩ := h
    simp only [Prod.mk.injEq] at h2
    obtain ⟨h2, rfl⟩ := h2
    have hc : o' = .cont → 0 < nContG gs := by
      cases e with
      | some e => exact execGroups_out S fuel _ gs _ _ _ h1
      | none => exact execGroups_out S fuel _ gs _ _ _ h1
    simp only [nCont]
    split at h2
    · subst h2; simp
    · next hb =>
      subst h2
      exact ⟨fun q => absurd q hb, hc⟩
theorem execs_out {σ} (S : Sem σ) (fuel : Nat) : ∀ (ss : Stmts) (s s' : σ) (o : Out),
    execs S fuel ss s = some (o, s') → (o = .brk → 0 < nBrks ss) ∧ (o = .cont → 0 < nConts ss)
  | .nil, s, s', o, h => by simp only [execs, Option.some.injEq, Prod.mk.injEq] at h; simp [← h.1]
  | .cons st ss, s, s', o, h => by
    simp only [execs] at h
    simp only [nBrks, nConts]
    split at h
    · have := execs_out S fuel ss _ s' o h
      exact ⟨fun q => by have := this.1 q; omega, fun q => by have := this.2 q; omega⟩
    · have := exec_out S fuel st _ s' o h
      exact ⟨fun q => by have := this.1 q; omega, fun q => by have := this.2 q; omega⟩
theorem execGroups_out {σ} (S : Sem σ) (fuel : Nat) (v : Option Int) : ∀ (gs : Groups) (s s' : σ) (o : Out),
    execGroups S fuel v gs s = some (o, s') → (o = .cont → 0 < nContG gs)
  | .nil, s, s', o, h => by simp only [execGroups, Option.some.injEq, Prod.mk.injEq] at h; simp [← h.1]
  | .cons l ls b gs, s, s', o, h => by
    simp only [execGroups] at h
    simp only [nContG]
    split at h
    · have := exec_out S fuel b _ s' o h
      exact fun q => by have := this.2 q; omega
    · have := execGroups_out S fuel v gs _ s' o h
      exact fun q => by have := this q; omega
end

theorem execGroups_brk {σ} (S : Sem σ) (fuel : Nat) (v : Option Int) (gs : Groups) (s s' : σ)
    (h : execGroups S fuel v gs s = some (.brk, s')) : 0 < nBrkG gs := by
  match gs with
  | .nil => simp [execGroups] at h
  | .cons l ls b gs =>
    simp only [execGroups] at h
    simp only [nBrkG]
    split at h
    · have := (exec_out S fuel b _ s' .brk h).1 rfl
      omega
    · have := execGroups_brk S fuel v gs _ s' h
      omega
termination_by structural gs

end Ulam.Control
