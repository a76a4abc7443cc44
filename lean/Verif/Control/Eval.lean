import Verif.Control.Correct
/- The evaluator. -/
namespace Ulam.Control

/-- The innermost construct is a `which`. -/
def topWhich : List Desc → Bool
  | [] => false
  | d :: _ => d.kind == .which

theorem topWhich_shape {a b : List Desc} (h : shape a = shape b) : topWhich a = topWhich b := by
  cases a with
  | nil => cases b with
    | nil => rfl
    | cons d ds => simp [shape] at h
  | cons x xs =>
    cases b with
    | nil => simp [shape] at h
    | cons y ys =>
      simp only [shape, List.map_cons, List.cons.injEq, Prod.mk.injEq] at h
      simp only [topWhich, h.1.1]

/-- How an outcome shows in the evaluator. -/
def est (w : Bool) : Out → Status
  | .normal => .normal
  | .ret => .ret
  | .brk => if w then .normal else .brk
  | .cont => .cont

abbrev eMap {σ} (w : Bool) (r : Option (Out × σ)) : Option (Status × σ) := r.map fun r => (est w r.1, r.2)

theorem evals_step {σ} (S : Sem σ) (fuel : Nat) (st : Option Nat) (ρ : Nat → Int) (s : σ) :
    evals S fuel (.ofList (stepNodes st)) ρ s = some (.normal, stepFn S st s) := by
  cases st with
  | none => simp [stepNodes, Nodes.ofList, evals, stepFn]
  | some a => simp [stepNodes, Nodes.ofList, evals, eval, stepFn]

theorem tailOks_cons (s : Stmt) (ss : Stmts) (h : tailOks (.cons s ss) = true) :
    (ss = .nil ∧ tailOk s = true) ∨ (nBrk s = 0 ∧ tailOks ss = true) := by
  cases ss with
  | nil => exact .inl ⟨rfl, by simpa [tailOks] using h⟩
  | cons a b => right; simpa [tailOks] using h

theorem tailOk_of_none : ∀ s : Stmt, nBrk s = 0 → tailOk s = true :=
  fun s => (go s)
where
  go : ∀ s : Stmt, nBrk s = 0 → tailOk s = true
    | .block ss, h => by simp only [nBrk] at h; simp only [tailOk]; exact gos ss h
    | .ite _ t, h => by simp only [nBrk] at h; simp only [tailOk]; exact go t h
    | .iteElse _ t e, h => by
      simp only [nBrk] at h
      simp only [tailOk, Bool.and_eq_true]
      exact ⟨go t (by omega), go e (by omega)⟩
    | .act _, _ => rfl
    | .ret, _ => rfl
    | .brk, _ => rfl
    | .cont, _ => rfl
    | .whil _ _, _ => rfl
    | .forr _ _ _ _, _ => rfl
    | .which _ _, _ => rfl
  gos : ∀ ss : Stmts, nBrks ss = 0 → tailOks ss = true
    | .nil, _ => rfl
    | .cons s .nil, h => by simp only [nBrks] at h; simp only [tailOks]; exact go s (by omega)
    | .cons s (.cons a b), h => by
      have h' : nBrk s + nBrks (.cons a b) = 0 := by simpa only [nBrks] using h
      simp only [tailOks, Bool.and_eq_true, beq_iff_eq]
      exact ⟨by omega, gos (.cons a b) (by omega)⟩

/-- One turn of a loop in the evaluator. -/
theorem eturn {σ} (S : Sem σ) (fuel n : Nat) (st : Option Nat) (ρ : Nat → Int) (nb : Node) (B : σ → Option (Out × σ))
    (hB : ∀ s, eval S fuel nb ρ s = eMap false (B s)) (lab : Bool) (s : σ) :
    evals S fuel (if lab then .ofList (nb :: .label n :: stepNodes st) else .ofList (nb :: stepNodes st)) ρ s =
      (B s).map fun r => if r.1 = .normal then (.normal, stepFn S st r.2) else (est false r.1, r.2) := by
  have hb := hB s
  cases hr : B s with
  | none => rw [hr] at hb; cases lab <;> simp [Nodes.ofList, evals, hb]
  | some r =>
    obtain ⟨o, s'⟩ := r
    rw [hr] at hb
    cases o <;> cases lab <;> simp [Nodes.ofList, evals, hb, est, eval, evals_step]

theorem eloop_eq {σ} (cond : σ → Bool × σ) (cb : σ → Option (Status × σ)) (B : σ → Option (Out × σ)) (step : σ → σ)
    (w : Bool)
    (h : ∀ s, cb s = (B s).map fun r => if r.1 = .normal then (.normal, step r.2) else (est false r.1, r.2))
    (hc : ∀ s s', B s = some (.cont, s') → step s' = s') (fuel : Nat) (s : σ) :
    eloop cond cb fuel s = eMap w (sloop cond B step fuel s) := by
  induction fuel generalizing s with
  | zero => rfl
  | succ n ih =>
    simp only [eloop, sloop]
    obtain ⟨c, s1⟩ := cond s
    cases c with
    | false => rfl
    | true =>
      simp only
      rw [h]
      cases hB : B s1 with
      | none => rfl
      | some r =>
        obtain ⟨o, s2⟩ := r
        cases o with
        | ret => rfl
        | brk => rfl
        | normal => exact ih _
        | cont =>
          show eloop cond cb n s2 = eMap w (sloop cond B step n (step s2))
          rw [hc _ _ hB]
          exact ih _

theorem loop_eval {σ} (S : Sem σ) (fuel : Nat) (nd : Bool) (p q : PS) (k : Kind) (hk : k ≠ .which) (bb c : Nat)
    (nb : Node) (st : Option Nat) (ρ : Nat → Int) (B : σ → Option (Out × σ)) (cond : Cond) (scond : σ → Bool × σ)
    (hcond : ∀ s, evalCond S ρ cond s = scond s)
    (he : Effect bb c ((p.push k).sanity nd) q)
    (hB : ∀ s, eval S fuel nb ρ s = eMap (topWhich ((p.push k).sanity nd).stack) (B s))
    (hc : ∀ s s', B s = some (.cont, s') → stepFn S st s' = s') (s : σ) :
    evals S fuel (.cons (.whil cond (loopBody nd q nb st).1) .nil) ρ s =
      eMap (topWhich p.stack) (sloop scond B (stepFn S st) fuel s) := by
  have hcond' : evalCond S ρ cond = scond := funext hcond
  have ht : topWhich ((p.push k).sanity nd).stack = false := by
    rw [sanity_push_stack nd p k hk]; simp [topWhich, hk]
  rw [ht] at hB
  have main : eval S fuel (.whil cond (loopBody nd q nb st).1) ρ s =
      eMap (topWhich p.stack) (sloop scond B (stepFn S st) fuel s) := by
    rw [(loop_effect nd p q k hk bb c nb st he).2]
    simp only [eval, hcond']
    refine eloop_eq _ _ _ _ _ ?_ hc _ _
    intro s1
    have := eturn S fuel (p.next + 1) st ρ nb B hB (decide (base nd + c > 0)) s1
    simpa using this
  rw [evals, main]
  cases hr : sloop scond B (stepFn S st) fuel s with
  | none => rfl
  | some r =>
    obtain ⟨o, s'⟩ := r
    rcases sloop_out _ _ _ _ _ _ _ hr with rfl | rfl <;> simp [eMap, est, evals]

def evalOpt {σ} (S : Sem σ) (fuel : Nat) (n : Option Node) (ρ : Nat → Int) (s : σ) : Option (Status × σ) :=
  match n with
  | some n => eval S fuel n ρ s
  | none => some (.normal, s)

theorem eswitch_list {σ} (S : Sem σ) (fuel n : Nat) (chain : Option Node) (ρ : Nat → Int) (r : Option (Out × σ))
    (w : Bool) (lab : Bool) (s : σ)
    (hc : evalOpt S fuel chain ρ s = eMap true r) :
    evals S fuel (.ofList (chainThen chain (if lab then [Node.label n] else []))) ρ s =
      eMap w (r.map fun r => (if r.1 = .brk then .normal else r.1, r.2)) := by
  cases chain with
  | none =>
    simp only [evalOpt] at hc
    cases r with
    | none => simp [eMap] at hc
    | some r =>
      obtain ⟨o, s'⟩ := r
      simp only [eMap, Option.map_some, Option.some.injEq, Prod.mk.injEq] at hc
      obtain ⟨ho, rfl⟩ := hc
      cases o <;> simp [est] at ho <;> cases lab <;> simp [chainThen, Nodes.ofList, evals, eval, eMap, est]
  | some nd =>
    simp only [evalOpt] at hc
    cases r with
    | none => simp [chainThen, Nodes.ofList, evals, hc, eMap]
    | some r =>
      obtain ⟨o, s'⟩ := r
      cases o <;> cases lab <;> simp [chainThen, Nodes.ofList, evals, hc, eval, eMap, est]

mutual
theorem parse_eval {σ} (S : Sem σ) (fuel : Nat) (nd : Bool) : ∀ (st : Stmt) (p : PS), Inv p → Ok p.stack st →
    evalOk st = true → (topWhich p.stack = true → tailOk st = true) →
    ∀ (ρ : Nat → Int) (s : σ), eval S fuel (parse nd st p).1 ρ s = eMap (topWhich p.stack) (exec S fuel st s)
  | .act a, p, _, _, _, _, ρ, s => by simp [parse, eval, exec, eMap, est]
  | .ret, p, _, _, _, _, ρ, s => by simp [parse, eval, exec, eMap, est]
  | .brk, p, hi, h, _, _, ρ, s => by
    have h' : okBreak p.stack = true := by simpa [Ok, wellFormed, okBreak] using h
    simp only [parse, h', if_true, eval, exec, eMap, Option.map_some, est]
    cases hst : p.stack with
    | nil => rw [hst] at h'; simp [okBreak] at h'
    | cons d ds =>
      have hd : 0 < d.num := hi.pos (d.kind, d.num) (by rw [hst]; simp [shape])
      have hne : d.num ≠ 0 := by omega
      by_cases hk : d.kind = .which <;> simp [nearestBreak, topWhich, hk, hne]
  | .cont, p, hi, h, _, _, ρ, s => by
    have h' : hasLoop p.stack = true := by simpa [Ok, wellFormed] using h
    have hne := (nearestContinue_pos p.stack hi.pos).mpr h'
    simp only [parse, if_pos hne, eval, exec, eMap, Option.map_some, est]
  | .block ss, p, hi, h, he, ht, ρ, s => by
    simp only [parse, eval, exec]
    exact parses_eval S fuel nd ss p hi (by simpa [Ok, wellFormed] using h) (by simpa [evalOk] using he)
      (fun q => by simpa [tailOk] using ht q) ρ s
  | .ite c t, p, hi, h, he, ht, ρ, s => by
    have ih := parse_eval S fuel nd t p hi (by simpa [Ok, wellFormed] using h) (by simpa [evalOk] using he)
      (fun q => by simpa [tailOk] using ht q) ρ
    simp only [parse, eval, exec, evalCond]
    obtain ⟨c, s1⟩ := S.cond c s
    cases c with
    | true => exact ih _
    | false => simp [eMap, est]
  | .iteElse c t e, p, hi, h, he, ht, ρ, s => by
    have h' : Ok p.stack t ∧ Ok p.stack e := by simpa [Ok, wellFormed] using h
    have he' : evalOk t = true ∧ evalOk e = true := by simpa [evalOk] using he
    have ht' : topWhich p.stack = true → tailOk t = true ∧ tailOk e = true := fun q => by simpa [tailOk] using ht q
    have k := parse_keeps nd t p
    have ih1 := parse_eval S fuel nd t p hi h'.1 he'.1 (fun q => (ht' q).1) ρ
    have ih2 := parse_eval S fuel nd e (parse nd t p).2 (hi.keeps k) (by unfold Ok; rw [wf_env k]; exact h'.2)
      he'.2 (fun q => (ht' (by rwa [topWhich_shape k.shape] at q)).2) ρ
    rw [topWhich_shape k.shape] at ih2
    simp only [parse, eval, exec, evalCond]
    obtain ⟨c, s1⟩ := S.cond c s
    cases c with
    | true => exact ih1 _
    | false => exact ih2 _
  | .whil c b, p, hi, h, he, ht, ρ, s => by
    obtain ⟨h1, h2, _⟩ := sanity_push_loop nd p .whil (by decide)
    have hok : Ok ((p.push .whil).sanity nd).stack b := by
      unfold Ok; rw [h1, h2]; simpa [Ok, wellFormed] using h
    have ih := parse_eval S fuel nd b _ ((hi.push .whil).keeps (.sanity nd _)) hok (by simpa [evalOk] using he)
      (fun q => by rw [sanity_push_stack nd p .whil (by decide)] at q; simp [topWhich] at q) ρ
    have := loop_eval S fuel nd p _ .whil (by decide) _ _ _ none ρ (exec S fuel b) (.prim c) (S.cond c)
      (fun _ => rfl) (parse_effect nd b _ hok) ih (fun s s' _ => rfl) s
    simp only [parse, exec, eval]
    exact this
  | .forr i c st b, p, hi, h, he, ht, ρ, s => by
    have he' : evalOk b = true ∧ (st = none ∨ nCont b = 0) := by simpa [evalOk] using he
    obtain ⟨h1, h2, _⟩ := sanity_push_loop nd p .forr (by decide)
    have hok : Ok ((p.push .forr).sanity nd).stack b := by
      unfold Ok; rw [h1, h2]; simpa [Ok, wellFormed] using h
    have ih := parse_eval S fuel nd b _ ((hi.push .forr).keeps (.sanity nd _)) hok he'.1
      (fun q => by rw [sanity_push_stack nd p .forr (by decide)] at q; simp [topWhich] at q) ρ
    have one (s : σ) := loop_eval S fuel nd p _ .forr (by decide) _ _ _ st ρ (exec S fuel b) (forCond c) (forTest S c)
      (fun _ => by cases c <;> rfl) (parse_effect nd b _ hok) ih (fun s s' hr => by
        rcases he'.2 with rfl | h0
        · rfl
        · have := (exec_out S fuel b s s' _ hr).2 rfl
          omega) s
    simp only [parse, exec]
    cases i with
    | none => rw [eval]; exact one s
    | some a =>
      rw [eval, evals, eval]
      exact one _
  | .which e gs, p, hi, h, he, ht, ρ, s => by
    have hl : hasLoop (p.push .which).stack = hasLoop p.stack := by
      simp [PS.push, hasLoop, isLoop_eq]
    have hg : groupsOk (hasLoop (p.push .which).stack) gs = true := by rw [hl]; simpa [Ok, wellFormed] using h
    let p1 : PS := { p.push .which with next := (p.push .which).next + 1 }
    have hi1 : Inv p1 := fun x hx => ⟨((hi.push .which) x hx).1, Nat.le_succ_of_le ((hi.push .which) x hx).2⟩
    have eff := parseGroups_effect nd ((p.push .which).next + 1) e.isSome gs true p1 rfl hg
    have hstk : (parseGroups nd ((p.push .which).next + 1) e.isSome gs true false p1).2.stack =
        ⟨.which, p.next + 1, nBrkG gs⟩ :: addCont (nContG gs) p.stack := by
      rw [eff.stack]
      show addBrk _ (addCont _ (⟨.which, p.next + 1, 0⟩ :: p.stack)) = _
      rw [add_which, Nat.zero_add]
    have ih := parseGroups_eval S fuel nd ((p.push .which).next + 1) e.isSome gs true p1 hi1 rfl rfl hg
      (by simpa [evalOk] using he)
    have hlabs : (if nearestBreakIfUsed (parseGroups nd ((p.push .which).next + 1) e.isSome gs true false p1).2.stack > 0
        then [Node.label (nearestBreakIfUsed (parseGroups nd ((p.push .which).next + 1) e.isSome gs true false p1).2.stack)]
        else []) = if decide (nBrkG gs > 0) then [Node.label (p.next + 1)] else [] := by
      rw [hstk, nearestBreakIfUsed_which]
      by_cases hb : nBrkG gs > 0 <;> simp [hb]
    simp only [parse]
    simp only [p1] at hlabs
    rw [hlabs]
    cases e with
    | none =>
      rw [eval.eq_10]
      simp only [exec]
      exact eswitch_list S fuel (p.next + 1) _ ρ (execGroups S fuel none gs s) _ (decide (nBrkG gs > 0)) s (ih ρ s)
    | some e =>
      rw [eval.eq_11]
      simp only [exec]
      refine eswitch_list S fuel (p.next + 1) _ _ (execGroups S fuel (some (S.val e s).1) gs (S.val e s).2) _
        (decide (nBrkG gs > 0)) (S.val e s).2 ?_
      have := ih (upd ρ ((p.push .which).next + 1) (S.val e s).1) (S.val e s).2
      simpa [vOf, upd] using this
theorem parses_eval {σ} (S : Sem σ) (fuel : Nat) (nd : Bool) : ∀ (ss : Stmts) (p : PS), Inv p →
    wellFormeds (hasLoop p.stack) (!p.stack.isEmpty) ss = true → evalOks ss = true →
    (topWhich p.stack = true → tailOks ss = true) →
    ∀ (ρ : Nat → Int) (s : σ), evals S fuel (parses nd ss p).1 ρ s = eMap (topWhich p.stack) (execs S fuel ss s)
  | .nil, p, _, _, _, _, ρ, s => by simp [parses, evals, execs, eMap, est]
  | .cons st ss, p, hi, h, he, ht, ρ, s => by
    simp only [wellFormeds, Bool.and_eq_true] at h
    simp only [evalOks, Bool.and_eq_true] at he
    have ht' : topWhich p.stack = true → (ss = .nil ∧ tailOk st = true) ∨ (nBrk st = 0 ∧ tailOks ss = true) :=
      fun q => tailOks_cons st ss (ht q)
    have k := parse_keeps nd st p
    have ih1 := parse_eval S fuel nd st p hi h.1 he.1 (fun q => by
      rcases ht' q with h1 | h1
      · exact h1.2
      · exact tailOk_of_none st h1.1) ρ s
    have ih2 := parses_eval S fuel nd ss (parse nd st p).2 (hi.keeps k)
      (by rw [hasLoop_shape k.shape, isEmpty_shape k.shape]; exact h.2) he.2 (fun q => by
        rw [topWhich_shape k.shape] at q
        rcases ht' q with ⟨rfl, _⟩ | h1
        · rfl
        · exact h1.2) ρ
    rw [topWhich_shape k.shape] at ih2
    simp only [parses, execs]
    rw [evals, ih1]
    cases hr : exec S fuel st s with
    | none => rfl
    | some r =>
      obtain ⟨o, s'⟩ := r
      cases o with
      | normal => exact ih2 _
      | ret => rfl
      | cont => rfl
      | brk =>
        cases htw : topWhich p.stack with
        | false => simp [eMap, est]
        | true =>
          rcases ht' htw with ⟨rfl, _⟩ | ⟨h1, _⟩
          · simp [eMap, est, parses, evals]
          · have := (exec_out S fuel st s s' _ hr).1 rfl
            omega
theorem parseGroups_eval {σ} (S : Sem σ) (fuel : Nat) (nd : Bool) (num : Nat) (v : Bool) :
    ∀ (gs : Groups) (first : Bool) (p : PS), Inv p → p.stack.isEmpty = false → topWhich p.stack = true →
    groupsOk (hasLoop p.stack) gs = true → evalOkG gs = true →
    ∀ (ρ : Nat → Int) (s : σ), evalOpt S fuel (parseGroups nd num v gs first false p).1 ρ s =
      eMap true (execGroups S fuel (vOf v ρ num) gs s)
  | .nil, first, p, _, _, _, _, _, ρ, s => by simp [parseGroups, evalOpt, execGroups, eMap, est]
  | .cons l ls b gs, first, p, hi, hne, htw, h, he, ρ, s => by
    obtain ⟨h1, h2, h3⟩ := groupsOk_parts h
    have he' : evalOk b = true ∧ tailOk b = true ∧ evalOkG gs = true := by simpa [evalOkG] using he
    have k := parse_keeps nd b p
    have ihb := parse_eval S fuel nd b p hi (by unfold Ok; rw [hne]; simpa using h2) he'.1 (fun _ => he'.2.1) ρ
    rw [htw] at ihb
    simp only [parseGroups, execGroups]
    rcases restOfCase_ok num v l ls _ h1 with ⟨hm, hl, hr⟩ | ⟨e, es, hes, hr⟩
    · obtain rfl : gs = .nil := by cases gs <;> simp_all [Groups.isNil]
      rw [hr]
      simp only [parseGroups, groupTaken, if_pos hm]
      split
      · simp only [evalOpt, eval, evalCond]; exact ihb s
      · simp only [evalOpt]; exact ihb s
    · rw [hr]
      simp only [true_or, if_true]
      have ihg := parseGroups_eval S fuel nd num v gs false (parse nd b p).2 (hi.keeps k)
        ((isEmpty_shape k.shape).trans hne) ((topWhich_shape k.shape).trans htw)
        (by rw [hasLoop_shape k.shape]; exact h3) he'.2.2 ρ
      rw [hes, ← evalCond_group]
      cases hq : (parseGroups nd num v gs false false (parse nd b p).2).1 with
      | none =>
        rw [hq] at ihg
        simp only [evalOpt, eval]
        obtain ⟨c, s1⟩ := evalCond S ρ (orAll num v (caseCond num v e) es) s
        cases c with
        | true => exact ihb _
        | false => exact ihg _
      | some nq =>
        rw [hq] at ihg
        simp only [evalOpt, eval]
        obtain ⟨c, s1⟩ := evalCond S ρ (orAll num v (caseCond num v e) es) s
        cases c with
        | true => exact ihb _
        | false => exact ihg _
end

end Ulam.Control
