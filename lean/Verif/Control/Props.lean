import Verif.Control.Labels
import Verif.Control.Eval
/- Properties C27 (break and continue), C39 (which) and C53 (the evaluator). -/
namespace Ulam.Control

mutual
theorem noBrk (inLoop : Bool) : ∀ s, wellFormed inLoop false s = true → nBrk s = 0
  | .act _, _ => rfl
  | .ret, _ => rfl
  | .brk, h => by simp [wellFormed] at h
  | .cont, _ => rfl
  | .block ss, h => by simp only [nBrk]; exact noBrks inLoop ss (by simpa [wellFormed] using h)
  | .ite c t, h => by simp only [nBrk]; exact noBrk inLoop t (by simpa [wellFormed] using h)
  | .iteElse c t e, h => by
    have h' : wellFormed inLoop false t = true ∧ wellFormed inLoop false e = true := by simpa [wellFormed] using h
    simp only [nBrk, noBrk inLoop t h'.1, noBrk inLoop e h'.2]
  | .whil _ _, _ => rfl
  | .forr _ _ _ _, _ => rfl
  | .which _ _, _ => rfl
theorem noBrks (inLoop : Bool) : ∀ ss, wellFormeds inLoop false ss = true → nBrks ss = 0
  | .nil, _ => rfl
  | .cons s ss, h => by
    have h' : wellFormed inLoop false s = true ∧ wellFormeds inLoop false ss = true := by simpa [wellFormeds] using h
    simp only [nBrks, noBrk inLoop s h'.1, noBrks inLoop ss h'.2]
end

mutual
theorem noCont : ∀ (inAny : Bool) s, wellFormed false inAny s = true → nCont s = 0
  | _, .act _, _ => rfl
  | _, .ret, _ => rfl
  | _, .brk, _ => rfl
  | _, .cont, h => by simp [wellFormed] at h
  | a, .block ss, h => by simp only [nCont]; exact noConts a ss (by simpa [wellFormed] using h)
  | a, .ite c t, h => by simp only [nCont]; exact noCont a t (by simpa [wellFormed] using h)
  | a, .iteElse c t e, h => by
    have h' : wellFormed false a t = true ∧ wellFormed false a e = true := by simpa [wellFormed] using h
    simp only [nCont, noCont a t h'.1, noCont a e h'.2]
  | _, .whil _ _, _ => rfl
  | _, .forr _ _ _ _, _ => rfl
  | _, .which _ gs, h => by simp only [nCont]; exact noContG gs (by simpa [wellFormed] using h)
theorem noConts : ∀ (inAny : Bool) ss, wellFormeds false inAny ss = true → nConts ss = 0
  | _, .nil, _ => rfl
  | a, .cons s ss, h => by
    have h' : wellFormed false a s = true ∧ wellFormeds false a ss = true := by simpa [wellFormeds] using h
    simp only [nConts, noCont a s h'.1, noConts a ss h'.2]
theorem noContG : ∀ gs, groupsOk false gs = true → nContG gs = 0
  | .nil, _ => rfl
  | .cons l ls b gs, h => by
    obtain ⟨_, h2, h3⟩ := groupsOk_parts h
    simp only [nContG, noCont true b h2, noContG gs h3]
end

/-- The parser's state at the start of a function body. -/
def Start (p : PS) : Prop := p.stack = [] ∧ p.aborted = false

theorem Start.inv {p : PS} (h : Start p) : Inv p := by intro x hx; simp [h.1, shape] at hx

theorem Start.ok {p : PS} (h : Start p) (nd : Bool) (s : Stmt) (he : (parse nd s p).2.errs = p.errs) :
    Ok p.stack s := (parse_errs nd s p h.inv.pos).mp he

theorem Start.wf {p : PS} (h : Start p) {nd : Bool} {s : Stmt} (he : (parse nd s p).2.errs = p.errs) :
    wellFormed false false s = true := by
  have := h.ok nd s he
  simpa [Ok, h.1, hasLoop] using this

/-- Property C27: the parser reports no error exactly when every continue is inside a loop, every
break inside a loop or a `which`, and every `otherwise` is the last label of its `which`. -/
theorem C27_accepted (nd : Bool) (p : PS) (hp : Start p) (s : Stmt) :
    (parse nd s p).2.errs = p.errs ↔ wellFormed false false s = true := by
  have := parse_errs nd s p hp.inv.pos
  simpa [hp.1, hasLoop] using this

/-- Property C27: for a program accepted by the parser, the generated code with its gotos, labels and
C++ breaks does what the program means: break leaves the innermost loop or `which`, continue goes on
with the innermost loop.  This holds for every number of turns loops are run for, so also for loops that
do not end.  No jump is left without its label. -/
theorem C27_generated_code {σ} (S : Sem σ) (fuel : Nat) (nd : Bool) (p : PS) (hp : Start p) (s : Stmt)
    (he : (parse nd s p).2.errs = p.errs) (ρ : Nat → Int) (x : σ) :
    cexec S fuel (parse nd s p).1 ρ x =
        (exec S fuel s x).map (fun r => (if r.1 = .ret then .ret else .normal, r.2)) ∧
      ∀ o y, exec S fuel s x = some (o, y) → o = .normal ∨ o = .ret := by
  have hw := hp.wf he
  have h1 := noBrk false s hw
  have h2 := noCont false s hw
  have hout : ∀ o y, exec S fuel s x = some (o, y) → o = .normal ∨ o = .ret := by
    intro o y ho
    have := exec_out S fuel s x y o ho
    cases o with
    | normal => exact .inl rfl
    | ret => exact .inr rfl
    | brk => have := this.1 rfl; omega
    | cont => have := this.2 rfl; omega
  refine ⟨?_, hout⟩
  rw [parse_correct S fuel nd s p hp.inv (hp.ok nd s he) ρ x]
  cases hr : exec S fuel s x with
  | none => rfl
  | some r =>
    obtain ⟨o, y⟩ := r
    rcases hout o y hr with rfl | rfl <;> simp [trMap, tr]

/-- Property C27: in the code of an accepted program no label is defined twice, every goto has its
label, the parser has not aborted and its stack is empty again. -/
theorem C27_gotos_have_labels (nd : Bool) (p : PS) (hp : Start p) (s : Stmt)
    (he : (parse nd s p).2.errs = p.errs) :
    ((labelsOf (parse nd s p).1).map (·.2)).Nodup ∧
      (∀ g ∈ gotosOf (parse nd s p).1, g ∈ (labelsOf (parse nd s p).1).map (·.2)) ∧
      (parse nd s p).2.aborted = false ∧ (parse nd s p).2.stack = [] := by
  have hok := hp.ok nd s he
  have hw := hp.wf he
  have h := parse_labs nd s p hp.inv hok
  have e := parse_effect nd s p hok
  refine ⟨h.nodup, ?_, by rw [e.aborted]; exact hp.2, by rw [e.stack, hp.1]; rfl⟩
  intro g hg
  rcases h.gotos g hg with h1 | ⟨_, h2⟩ | ⟨_, h2⟩
  · exact h1
  · rw [noCont false s hw] at h2; omega
  · rw [noBrk false s hw] at h2; omega

/-- Property C27, in part: a label is emitted only if something jumps to it.  Missing: this holds for the
labels of `which` statements, and for those of loops only when the parser is compiled without assertions
(see `C27_unused_loop_label`). -/
theorem C27_labels_used_partial (nd : Bool) (p : PS) (hp : Start p) (s : Stmt)
    (he : (parse nd s p).2.errs = p.errs) (l : Bool × Nat) (hl : l ∈ labelsOf (parse nd s p).1)
    (h : nd = true ∨ l.1 = true) : l.2 ∈ gotosOf (parse nd s p).1 :=
  (parse_labs nd s p hp.inv (hp.ok nd s he)).used l hl h

/-- The whole claim of C27 about labels is false for the code as it is: a loop without any continue
gets a label. -/
theorem C27_unused_loop_label : ¬∀ (p : PS) (s : Stmt), Start p → (parse false s p).2.errs = p.errs →
    ∀ l ∈ labelsOf (parse false s p).1, l.2 ∈ gotosOf (parse false s p).1 := by
  intro h
  have := h ⟨0, [], 0, false⟩ (.whil 0 (.act 0)) ⟨rfl, rfl⟩ (by decide) (false, 1) (by decide)
  revert this
  decide

section Examples

/-- `for(a0; c0; a1) { if(c1) continue; which(e0) { case e1: case e2: break; otherwise: if(c2) continue; } a2; }` -/
def prog : Stmt :=
  .forr (some 0) (some 0) (some 1) (.block (.cons (.ite 1 .cont) (.cons
    (.which (some 0) (.cons (some 1) [some 2] .brk (.cons none [] (.ite 2 .cont) .nil))) (.cons (.act 2) .nil))))

def p0 : PS := ⟨0, [], 0, false⟩

example : wellFormed false false prog = true ∧ (parse false prog p0).2.errs = 0 := by decide
example : labelsOf (parse false prog p0).1 = [(true, 2), (false, 1)] ∧ gotosOf (parse false prog p0).1 = [1, 2, 1] := by
  decide
/-- A store that counts: condition 0 is `n < 3`, the step adds one to `n`. -/
def cnt : Sem (Nat × Nat) where
  act := fun a s => if a = 1 then (s.1 + 1, s.2) else if a = 2 then (s.1, s.2 + 1) else s
  cond := fun c s => (if c = 0 then decide (s.1 < 3) else decide (s.1 = 1), s)
  val := fun _ s => (s.1, s)
example : exec cnt 5 prog (0, 0) = some (.normal, (3, 2)) := by decide
example : cexec cnt 5 (parse false prog p0).1 (fun _ => 0) (0, 0) = some (.normal, (3, 2)) := by decide

end Examples

/-- The tests of case labels have no effect and `f` is their value. -/
def PureVal {σ} (S : Sem σ) (f : Nat → Int) : Prop := ∀ e s, S.val e s = (f e, s)

theorem anyMet_pure {σ} (S : Sem σ) (f : Nat → Int) (hf : PureVal S f) (v : Int) (es : List Nat) (s : σ) :
    anyMet S (some v) (es.map some) s = ((es.map some).any (fun l => l.any fun e => decide (f e = v)), s) := by
  induction es with
  | nil => rfl
  | cons e es ih =>
    rw [List.map_cons, anyMet_some]
    simp only [testLabel, hf e s, List.any_cons, Option.any_some]
    by_cases h : f e = v
    · simp [h]
    · have h' : ¬v = f e := fun q => h q.symm
      simp only [h, h', decide_false, Bool.false_eq_true, if_false, Bool.false_or]
      exact ih

theorem execGroups_select {σ} (S : Sem σ) (f : Nat → Int) (hf : PureVal S f) (fuel : Nat) (v : Int) (il : Bool)
    (gs : Groups) (hg : groupsOk il gs = true) (s : σ) :
    execGroups S fuel (some v) gs s = match (caseBody f v gs).or (otherwiseBody gs) with
      | some b => exec S fuel b s
      | none => some (.normal, s) := by
  match gs with
  | .nil => rfl
  | .cons l ls b gs =>
    obtain ⟨h1, h2, h3⟩ := groupsOk_parts hg
    simp only [execGroups, caseBody, otherwiseBody, groupTaken]
    by_cases hn : none ∈ l :: ls
    · obtain ⟨hl, _⟩ := labelsOk_none _ _ h1 hn
      obtain rfl : gs = .nil := by cases gs <;> simp_all [Groups.isNil]
      rw [if_pos hn, if_pos hn]
      simp only [caseBody]
      generalize (l :: ls).any (fun l => l.any fun e => decide (f e = v)) = q
      cases q <;> rfl
    · rw [if_neg hn, if_neg hn]
      rcases labels_cases (l :: ls) with ⟨es, hes⟩ | ⟨es, r, hes⟩
      · rw [hes, anyMet_pure S f hf]
        cases hm : (es.map some).any (fun l => l.any fun e => decide (f e = v)) with
        | true => rfl
        | false =>
          simp only [Bool.false_eq_true, if_false]
          exact execGroups_select S f hf fuel v il gs h3 s
      · rw [hes] at hn; simp at hn
termination_by structural gs

/-- Property C39: in an accepted program (so that `otherwise`, if any, is the last label), the code
generated for `which(e) {...}` evaluates `e` once and runs the body of the first group that has a case
label with that value, whichever label of the group it is; if there is none, the body labelled
`otherwise`; if there is none either, nothing.  A break in the body ends the `which`.  `s` may stand
anywhere in a program: `p` is any state of the parser.  Case values are without side effects. -/
theorem C39_first_match {σ} (S : Sem σ) (f : Nat → Int) (hf : PureVal S f) (fuel : Nat) (nd : Bool) (p : PS) (hi : Inv p)
    (e : Nat) (gs : Groups) (he : (parse nd (.which (some e) gs) p).2.errs = p.errs) (ρ : Nat → Int) (x : σ) :
    cexec S fuel (parse nd (.which (some e) gs) p).1 ρ x =
      match (caseBody f (f e) gs).or (otherwiseBody gs) with
      | none => some (.normal, x)
      | some b => (exec S fuel b x).map fun r => (if r.1 = .brk then .normal else tr p.stack r.1, r.2) := by
  have hok := (parse_errs nd _ p hi.pos).mp he
  rw [parse_correct S fuel nd _ p hi hok ρ x]
  simp only [exec, hf e x]
  rw [execGroups_select S f hf fuel (f e) (hasLoop p.stack) gs (by simpa [wellFormed] using hok)]
  cases (caseBody f (f e) gs).or (otherwiseBody gs) with
  | none => simp [trMap, tr]
  | some b =>
    simp only [trMap, Option.map_map]
    congr 1
    funext r
    simp only [Function.comp]
    split <;> simp [tr]

/-- Property C39: a `which` whose `otherwise` is followed by another label is refused. -/
theorem C39_otherwise_last (nd : Bool) (p : PS) (hi : Inv p) (e : Option Nat) (gs : Groups)
    (he : (parse nd (.which e gs) p).2.errs = p.errs) : groupsOk (hasLoop p.stack) gs = true := by
  have hok := (parse_errs nd _ p hi.pos).mp he
  simpa [wellFormed] using hok

section Examples

def gs0 : Groups := .cons (some 1) [some 2] (.act 5) (.cons (some 3) [none] (.block (.cons (.act 6) (.cons .brk .nil))) .nil)
example : caseBody (fun e => e) 2 gs0 = some (.act 5) ∧ caseBody (fun e => e) 7 gs0 = none ∧
    otherwiseBody gs0 = some (.block (.cons (.act 6) (.cons .brk .nil))) := by
  simp [caseBody, otherwiseBody, gs0]
example : groupsOk false gs0 = true := by decide
example : (parse false (.which (some 2) gs0) p0).2.errs = 0 := by decide
example : (parse false (.which (some 2) (.cons none [] (.act 5) (.cons (some 1) [] (.act 6) .nil))) p0).2.errs = 1 := by decide

end Examples

/-- How the evaluator's status shows in the generated code, for a whole function body. -/
def Status.toC : Status → COut
  | .ret => .ret
  | _ => .normal

/-- Property C53, in part: the evaluator runs an accepted program like the generated code does.
Missing: programs with a continue for a `for` loop that has a step, or with a break out of a `which`
followed by other statements of its case; on those they differ, see the next two theorems. -/
theorem C53_evaluator_agrees_partial {σ} (S : Sem σ) (fuel : Nat) (nd : Bool) (p : PS) (hp : Start p) (s : Stmt)
    (he : (parse nd s p).2.errs = p.errs) (hs : evalOk s = true) (ρ : Nat → Int) (x : σ) :
    (eval S fuel (parse nd s p).1 ρ x).map (fun r => (r.1.toC, r.2)) = cexec S fuel (parse nd s p).1 ρ x := by
  obtain ⟨h1, h2⟩ := C27_generated_code S fuel nd p hp s he ρ x
  rw [h1, parse_eval S fuel nd s p hp.inv (hp.ok nd s he) hs (fun q => by simp [hp.1, topWhich] at q) ρ x]
  cases hr : exec S fuel s x with
  | none => rfl
  | some r =>
    obtain ⟨o, y⟩ := r
    rcases h2 o y hr with rfl | rfl <;> simp [eMap, est, Status.toC]

/-- `for(a0; c0; a1) { if(c1) continue; a2; }`: the evaluator skips the step. -/
theorem C53_continue_skips_step : ∃ (s : Stmt) (fuel : Nat), (parse false s p0).2.errs = p0.errs ∧
    cexec cnt fuel (parse false s p0).1 (fun _ => 0) (0, 0) = some (.normal, (3, 2)) ∧
    ∀ fuel, eval cnt fuel (parse false s p0).1 (fun _ => 0) (0, 0) = none := by
  refine ⟨.forr none (some 0) (some 1) (.block (.cons (.ite 1 .cont) (.cons (.act 2) .nil))), 5, by decide, by decide, ?_⟩
  intro fuel
  have key : ∀ n m, eloop (evalCond cnt (fun _ => 0) (.prim 0))
      (evals cnt m (.cons (.block (.cons (.ite (.prim 1) (.cont 1)) (.cons (.act 2) .nil)))
        (.cons (.label 1) (.cons (.act 1) .nil))) (fun _ => 0)) n (1, 1) = none := by
    intro n m
    induction n with
    | zero => rfl
    | succ n ih => exact ih
  match fuel with
  | 0 => rfl
  | 1 => rfl
  | m + 2 =>
    have step : evals cnt (m + 2) (.cons (.whil (.prim 0) (.cons (.block (.cons (.ite (.prim 1) (.cont 1))
        (.cons (.act 2) .nil))) (.cons (.label 1) (.cons (.act 1) .nil)))) .nil) (fun _ => 0) (0, 0) = none := by
      rw [evals, show eval cnt (m + 2) (.whil (.prim 0) (.cons (.block (.cons (.ite (.prim 1) (.cont 1))
        (.cons (.act 2) .nil))) (.cons (.label 1) (.cons (.act 1) .nil)))) (fun _ => 0) (0, 0) = none from key m (m + 2)]
    exact step

/-- `which(e0) { case e1: { break; a2; } }`: the evaluator runs on after the break. -/
theorem C53_break_runs_on : ∃ (s : Stmt), (parse false s p0).2.errs = p0.errs ∧
    cexec cnt 1 (parse false s p0).1 (fun _ => 0) (0, 0) = some (.normal, (0, 0)) ∧
    eval cnt 1 (parse false s p0).1 (fun _ => 0) (0, 0) = some (.normal, (0, 1)) :=
  ⟨.which (some 0) (.cons (some 1) [] (.block (.cons .brk (.cons (.act 2) .nil))) .nil), by decide, by decide, by decide⟩

section Examples

/-- A program the evaluator runs correctly: continue in a while loop, break at the end of a case. -/
example : evalOk (.whil 0 (.block (.cons (.act 1) (.cons (.ite 1 .cont)
    (.cons (.which (some 0) (.cons (some 1) [] (.block (.cons (.act 2) (.cons .brk .nil))) .nil)) .nil))))) = true := by
  decide
example : evalOk prog = false := by decide

end Examples

end Ulam.Control
