import Verif.Control.Effects
/- The generated code does what the statement means. -/
namespace Ulam.Control

/-- Where a break goes. -/
def breakTo : List Desc → COut
  | [] => .brk
  | d :: _ => if d.kind = .which then .goto d.num else .brk

theorem breakTo_not (st : List Desc) : breakTo st ≠ .normal ∧ breakTo st ≠ .ret := by
  cases st with
  | nil => simp [breakTo]
  | cons d ds => simp only [breakTo]; split <;> simp

/-- How an outcome shows in the generated code. -/
def tr (st : List Desc) : Out → COut
  | .normal => .normal
  | .ret => .ret
  | .brk => breakTo st
  | .cont => .goto (nearestContinue st).1

theorem nearestContinue_shape {a b : List Desc} (h : shape a = shape b) :
    (nearestContinue a).1 = (nearestContinue b).1 := by
  induction a generalizing b with
  | nil => cases b with
    | nil => rfl
    | cons d ds => simp [shape] at h
  | cons x xs ih =>
    cases b with
    | nil => simp [shape] at h
    | cons y ys =>
      simp only [shape, List.map_cons, List.cons.injEq, Prod.mk.injEq] at h
      obtain ⟨⟨hk, hn⟩, ht⟩ := h
      simp only [nearestContinue, isLoop_eq, hk]
      split
      · exact hn
      · exact ih ht

theorem tr_shape {a b : List Desc} (h : shape a = shape b) : tr a = tr b := by
  funext o
  cases o with
  | normal => rfl
  | ret => rfl
  | cont => simp only [tr, nearestContinue_shape h]
  | brk =>
    simp only [tr]
    cases a with
    | nil => cases b with
      | nil => rfl
      | cons d ds => simp [shape] at h
    | cons x xs =>
      cases b with
      | nil => simp [shape] at h
      | cons y ys =>
        simp only [shape, List.map_cons, List.cons.injEq, Prod.mk.injEq] at h
        simp only [breakTo, h.1.1, h.1.2]

/-- The numbers on the stack were handed out before. -/
def Inv (p : PS) : Prop := ∀ x ∈ shape p.stack, 0 < x.2 ∧ x.2 ≤ p.next

theorem Inv.pos {p : PS} (h : Inv p) : numsPos p.stack := fun x hx => (h x hx).1

theorem Inv.keeps {p q : PS} (h : Inv p) (k : Keeps p q) : Inv q := by
  intro x hx
  rw [k.shape] at hx
  exact ⟨(h x hx).1, Nat.le_trans (h x hx).2 k.next⟩

theorem Inv.push {p : PS} (h : Inv p) (k : Kind) : Inv (p.push k) := by
  intro x hx
  simp only [PS.push, shape, List.map_cons, List.mem_cons] at hx
  rcases hx with rfl | hx
  · exact ⟨Nat.succ_pos _, Nat.le_refl _⟩
  · exact ⟨(h x hx).1, Nat.le_succ_of_le (h x hx).2⟩

theorem Inv.cont_le {p : PS} (h : Inv p) : (nearestContinue p.stack).1 ≤ p.next := by
  have : ∀ st : List Desc, (∀ x ∈ shape st, x.2 ≤ p.next) → (nearestContinue st).1 ≤ p.next := by
    intro st
    induction st with
    | nil => intro _; simp [nearestContinue]
    | cons d ds ih =>
      intro h
      simp only [nearestContinue]
      split
      · exact h (d.kind, d.num) (by simp [shape])
      · exact ih fun x hx => h x (by simp only [shape, List.map_cons, List.mem_cons] at hx ⊢; exact .inr hx)
  exact this _ fun x hx => (h x hx).2

abbrev trMap {σ} (st : List Desc) (r : Option (Out × σ)) : Option (COut × σ) := r.map fun r => (tr st r.1, r.2)

/-- How one turn of a loop ends in the code. -/
def turnOut {σ} (step : σ → σ) : Option (Out × σ) → Option (COut × σ)
  | none => none
  | some (.ret, s) => some (.ret, s)
  | some (.brk, s) => some (.brk, s)
  | some (_, s) => some (.normal, step s)

theorem cexecs_step {σ} (S : Sem σ) (fuel : Nat) (st : Option Nat) (ρ : Nat → Int) (s : σ) :
    cexecs S fuel (.ofList (stepNodes st)) none ρ s = some (.normal, stepFn S st s) := by
  cases st with
  | none => simp [stepNodes, Nodes.ofList, cexecs, stepFn]
  | some a => simp [stepNodes, Nodes.ofList, cexecs, cexec, stepFn]

/-- One turn of a loop's body. -/
theorem turn {σ} (S : Sem σ) (fuel n : Nat) (st : Option Nat) (ρ : Nat → Int) (nb : Node) (B : σ → Option (Out × σ))
    (t : Out → COut) (ht : t .normal = .normal ∧ t .ret = .ret ∧ t .brk = .brk ∧ t .cont = .goto n)
    (hB : ∀ s, cexec S fuel nb ρ s = (B s).map fun r => (t r.1, r.2)) (lab : Bool)
    (hlab : lab = false → ∀ s s', B s ≠ some (.cont, s')) (s : σ) :
    cexecs S fuel (if lab then .ofList (nb :: .label n :: stepNodes st) else .ofList (nb :: stepNodes st)) none ρ s =
      turnOut (stepFn S st) (B s) := by
  unfold turnOut
  obtain ⟨t1, t2, t3, t4⟩ := ht
  have hb := hB s
  cases hr : B s with
  | none =>
    rw [hr] at hb
    cases lab <;> simp [chainThen, Nodes.ofList, cexecs, hb]
  | some r =>
    obtain ⟨o, s'⟩ := r
    rw [hr] at hb
    simp only [Option.map_some] at hb
    cases o with
    | normal =>
      rw [t1] at hb
      cases lab with
      | true => simp [chainThen, Nodes.ofList, cexecs, hb, cexec, cexecs_step]
      | false => simp [chainThen, Nodes.ofList, cexecs, hb, cexecs_step]
    | ret =>
      rw [t2] at hb
      cases lab <;> simp [chainThen, Nodes.ofList, cexecs, hb]
    | brk =>
      rw [t3] at hb
      cases lab <;> simp [chainThen, Nodes.ofList, cexecs, hb]
    | cont =>
      rw [t4] at hb
      cases lab with
      | true => simp [chainThen, Nodes.ofList, cexecs, hb, cexecs_step]
      | false => exact absurd hr (hlab rfl s s')

theorem loop_eq {σ} (cond : σ → Bool × σ) (cb : σ → Option (COut × σ)) (B : σ → Option (Out × σ)) (step : σ → σ)
    (st : List Desc)
    (h : ∀ s, cb s = turnOut step (B s)) (fuel : Nat) (s : σ) :
    cloop cond cb fuel s = trMap st (sloop cond B step fuel s) := by
  induction fuel generalizing s with
  | zero => rfl
  | succ n ih =>
    simp only [cloop, sloop]
    obtain ⟨c, s1⟩ := cond s
    cases c with
    | false => rfl
    | true =>
      simp only
      rw [h]
      cases hB : B s1 with
      | none => rfl
      | some r =>
        obtain ⟨o, s2⟩ := r
        cases o with
        | ret => rfl
        | brk => rfl
        | normal => exact ih _
        | cont => exact ih _

/-- How a loop's body ends in the code. -/
theorem tr_loop (k : Kind) (hk : k ≠ .which) (n u : Nat) (st : List Desc) :
    tr (⟨k, n, u⟩ :: st) .normal = .normal ∧ tr (⟨k, n, u⟩ :: st) .ret = .ret ∧
      tr (⟨k, n, u⟩ :: st) .brk = .brk ∧ tr (⟨k, n, u⟩ :: st) .cont = .goto n := by
  have hl : Desc.isLoop ⟨k, n, u⟩ = true := by cases k <;> simp_all [isLoop_eq]
  simp [tr, breakTo, hk, nearestContinue, hl]

/-- A whole loop. -/
theorem loop_correct {σ} (S : Sem σ) (fuel : Nat) (nd : Bool) (p q : PS) (k : Kind) (hk : k ≠ .which) (bb c : Nat)
    (nb : Node) (st : Option Nat) (ρ : Nat → Int) (B : σ → Option (Out × σ)) (cond : Cond) (scond : σ → Bool × σ)
    (hcond : ∀ s, evalCond S ρ cond s = scond s)
    (he : Effect bb c ((p.push k).sanity nd) q)
    (hB : ∀ s, cexec S fuel nb ρ s = trMap ((p.push k).sanity nd).stack (B s))
    (hc : ∀ s s', B s = some (.cont, s') → 0 < c) (s : σ) :
    cexec S fuel (.whil cond (loopBody nd q nb st).1) ρ s = trMap p.stack (sloop scond B (stepFn S st) fuel s) := by
  have hcond' : evalCond S ρ cond = scond := funext hcond
  rw [(loop_effect nd p q k hk bb c nb st he).2]
  simp only [cexec, hcond']
  refine loop_eq _ _ _ _ _ ?_ _ _
  intro s1
  rw [sanity_push_stack nd p k hk] at hB
  have := turn S fuel (p.next + 1) st ρ nb B _ (tr_loop k hk _ _ _) hB (decide (base nd + c > 0)) ?_ s1
  · simpa using this
  · intro hlab s s' h
    have := hc s s' h
    simp only [decide_eq_false_iff_not] at hlab
    omega

/-! ### Switches -/

def vOf (valued : Bool) (ρ : Nat → Int) (num : Nat) : Option Int := if valued then some (ρ num) else none

/-- One label. -/
def testLabel {σ} (S : Sem σ) (v : Option Int) (e : Nat) (s : σ) : Bool × σ :=
  match v with
  | some x => let r := S.val e s; (decide (x = r.1), r.2)
  | none => S.cond e s

theorem evalCond_case {σ} (S : Sem σ) (ρ : Nat → Int) (num : Nat) (valued : Bool) (e : Nat) (s : σ) :
    evalCond S ρ (caseCond num valued e) s = testLabel S (vOf valued ρ num) e s := by
  cases valued <;> simp [caseCond, evalCond, testLabel, vOf]

theorem anyMet_some {σ} (S : Sem σ) (v : Option Int) (e : Nat) (ls : List (Option Nat)) (s : σ) :
    anyMet S v (some e :: ls) s =
      if (testLabel S v e s).1 then (true, (testLabel S v e s).2) else anyMet S v ls (testLabel S v e s).2 := by
  cases v <;> rfl

theorem evalCond_orAll {σ} (S : Sem σ) (ρ : Nat → Int) (num : Nat) (valued : Bool) (es : List Nat) (c : Cond) (s : σ) :
    evalCond S ρ (orAll num valued c es) s =
      if (evalCond S ρ c s).1 then (true, (evalCond S ρ c s).2)
      else anyMet S (vOf valued ρ num) (es.map some) (evalCond S ρ c s).2 := by
  induction es generalizing c with
  | nil =>
    simp only [orAll, List.map_nil, anyMet]
    cases h : evalCond S ρ c s with
    | mk a b => cases a <;> rfl
  | cons e es ih =>
    simp only [orAll]
    rw [ih]
    simp only [evalCond, List.map_cons, anyMet_some, evalCond_case]
    cases h : evalCond S ρ c s with
    | mk a b =>
      cases a with
      | true => rfl
      | false => rfl

/-- The test made for a group without `otherwise`. -/
theorem evalCond_group {σ} (S : Sem σ) (ρ : Nat → Int) (num : Nat) (valued : Bool) (e : Nat) (es : List Nat) (s : σ) :
    evalCond S ρ (orAll num valued (caseCond num valued e) es) s =
      groupTaken S (vOf valued ρ num) ((e :: es).map some) s := by
  have hn : none ∉ (e :: es).map some := by simp
  rw [evalCond_orAll, evalCond_case, groupTaken, if_neg hn, List.map_cons, anyMet_some]

def cexecOpt {σ} (S : Sem σ) (fuel : Nat) (n : Option Node) (ρ : Nat → Int) (s : σ) : Option (COut × σ) :=
  match n with
  | some n => cexec S fuel n ρ s
  | none => some (.normal, s)

/-- The chain followed by the label, if there is one. -/
theorem switch_list {σ} (S : Sem σ) (fuel n : Nat) (chain : Option Node) (ρ : Nat → Int) (r : Option (Out × σ))
    (st : List Desc) (t : Out → COut) (ht : t .normal = .normal ∧ t .ret = .ret ∧ t .brk = .goto n ∧ t .cont = tr st .cont)
    (hn : (nearestContinue st).1 ≠ n) (lab : Bool) (s : σ)
    (hc : cexecOpt S fuel chain ρ s = r.map fun r => (t r.1, r.2))
    (hlab : lab = false → ∀ s', r ≠ some (.brk, s')) :
    cexecs S fuel (.ofList (chainThen chain (if lab then [Node.label n] else []))) none ρ s =
      trMap st (r.map fun r => (if r.1 = .brk then .normal else r.1, r.2)) := by
  obtain ⟨t1, t2, t3, t4⟩ := ht
  cases chain with
  | none =>
    simp only [cexecOpt] at hc
    cases r with
    | none => simp at hc
    | some r =>
      obtain ⟨o, s'⟩ := r
      simp only [Option.map_some, Option.some.injEq, Prod.mk.injEq] at hc
      obtain ⟨ho, rfl⟩ := hc
      have : o = .normal := by
        cases o with
        | normal => rfl
        | ret => rw [t2] at ho; simp at ho
        | brk => rw [t3] at ho; simp at ho
        | cont => rw [t4] at ho; simp [tr] at ho
      subst this
      cases lab <;> simp [chainThen, Nodes.ofList, cexecs, cexec, trMap, tr]
  | some nd =>
    simp only [cexecOpt] at hc
    cases r with
    | none => simp [chainThen, Nodes.ofList, cexecs, hc, trMap]
    | some r =>
      obtain ⟨o, s'⟩ := r
      simp only [Option.map_some] at hc
      cases o with
      | normal => rw [t1] at hc; cases lab <;> simp [chainThen, Nodes.ofList, cexecs, hc, cexec, trMap, tr]
      | ret => rw [t2] at hc; cases lab <;> simp [chainThen, Nodes.ofList, cexecs, hc, trMap, tr]
      | brk =>
        rw [t3] at hc
        cases lab with
        | true => simp [chainThen, Nodes.ofList, cexecs, hc, trMap, tr]
        | false => exact absurd rfl (hlab rfl s')
      | cont =>
        rw [t4] at hc
        simp only [tr] at hc
        cases lab with
        | true => simp [chainThen, Nodes.ofList, cexecs, hc, trMap, tr, Ne.symm hn]
        | false => simp [chainThen, Nodes.ofList, cexecs, hc, trMap, tr]

theorem nearestBreakIfUsed_which (n u : Nat) (st : List Desc) :
    nearestBreakIfUsed (⟨.which, n, u⟩ :: st) = if u > 0 then n else 0 := by
  simp [nearestBreakIfUsed]

theorem parse_not_label (nd : Bool) (st : Stmt) (p : PS) (m : Nat) : (parse nd st p).1 ≠ .label m := by
  cases st with
  | brk => simp only [parse]; split <;> simp
  | cont => simp only [parse]; split <;> simp
  | _ => simp [parse]

theorem cexecs_skip_cons {σ} (S : Sem σ) (fuel n : Nat) (x : Node) (ns : Nodes) (hx : ∀ m, x ≠ .label m)
    (ρ : Nat → Int) (s : σ) : cexecs S fuel (.cons x ns) (some n) ρ s = cexecs S fuel ns (some n) ρ s := by
  cases x with
  | label m => exact absurd rfl (hx m)
  | _ => simp [cexecs]

/-- A goto leaves a list of parsed statements: labels are only put after loop bodies and cases. -/
theorem parses_skip {σ} (S : Sem σ) (fuel n : Nat) (nd : Bool) (ρ : Nat → Int) (s : σ) (ss : Stmts) (p : PS) :
    cexecs S fuel (parses nd ss p).1 (some n) ρ s = some (.goto n, s) := by
  match ss with
  | .nil => simp [parses, cexecs]
  | .cons st ss =>
    simp only [parses]
    rw [cexecs_skip_cons S fuel n _ _ (parse_not_label nd st p)]
    exact parses_skip S fuel n nd ρ s ss _
termination_by structural ss

mutual
theorem parse_correct {σ} (S : Sem σ) (fuel : Nat) (nd : Bool) : ∀ (st : Stmt) (p : PS), Inv p → Ok p.stack st →
    ∀ (ρ : Nat → Int) (s : σ), cexec S fuel (parse nd st p).1 ρ s = trMap p.stack (exec S fuel st s)
  | .act a, p, _, _, ρ, s => by simp [parse, cexec, exec, trMap, tr]
  | .ret, p, _, _, ρ, s => by simp [parse, cexec, exec, trMap, tr]
  | .brk, p, hi, h, ρ, s => by
    have h' : okBreak p.stack = true := by simpa [Ok, wellFormed, okBreak] using h
    simp only [parse, h', if_true, cexec, exec, trMap, Option.map_some, tr]
    cases hst : p.stack with
    | nil => rw [hst] at h'; simp [okBreak] at h'
    | cons d ds =>
      simp only [nearestBreak, breakTo]
      have : 0 < d.num := hi.pos (d.kind, d.num) (by rw [hst]; simp [shape])
      split
      · simp only; rw [if_neg (by omega)]
      · simp
  | .cont, p, hi, h, ρ, s => by
    have h' : hasLoop p.stack = true := by simpa [Ok, wellFormed] using h
    have hne := (nearestContinue_pos p.stack hi.pos).mpr h'
    simp only [parse, if_pos hne, cexec, exec, trMap, Option.map_some, tr]
  | .block ss, p, hi, h, ρ, s => by
    simp only [parse, cexec, exec]
    exact parses_correct S fuel nd ss p hi (by simpa [Ok, wellFormed] using h) ρ s
  | .ite c t, p, hi, h, ρ, s => by
    have ih := parse_correct S fuel nd t p hi (by simpa [Ok, wellFormed] using h) ρ
    simp only [parse, cexec, exec, evalCond]
    obtain ⟨c, s1⟩ := S.cond c s
    cases c with
    | true => exact ih _
    | false => simp [trMap, tr]
  | .iteElse c t e, p, hi, h, ρ, s => by
    have h' : Ok p.stack t ∧ Ok p.stack e := by simpa [Ok, wellFormed] using h
    have k := parse_keeps nd t p
    have ih1 := parse_correct S fuel nd t p hi h'.1 ρ
    have ih2 := parse_correct S fuel nd e (parse nd t p).2 (hi.keeps k) (by unfold Ok; rw [wf_env k]; exact h'.2) ρ
    simp only [trMap, tr_shape k.shape] at ih2
    simp only [parse, cexec, exec, evalCond]
    obtain ⟨c, s1⟩ := S.cond c s
    cases c with
    | true => exact ih1 _
    | false => exact ih2 _
  | .whil c b, p, hi, h, ρ, s => by
    obtain ⟨h1, h2, _⟩ := sanity_push_loop nd p .whil (by decide)
    have hok : Ok ((p.push .whil).sanity nd).stack b := by
      unfold Ok; rw [h1, h2]; simpa [Ok, wellFormed] using h
    have ih := parse_correct S fuel nd b _ ((hi.push .whil).keeps (.sanity nd _)) hok ρ
    have := loop_correct S fuel nd p _ .whil (by decide) _ _ _ none ρ (exec S fuel b) (.prim c) (S.cond c)
      (fun _ => rfl) (parse_effect nd b _ hok) ih (fun s s' h => (exec_out S fuel b s s' _ h).2 rfl) s
    simp only [parse, exec]
    rw [cexec, cexecs, this]
    simp only [stepFn]
    cases hr : sloop (S.cond c) (exec S fuel b) id fuel s with
    | none => rfl
    | some r =>
      obtain ⟨o, s'⟩ := r
      rcases sloop_out _ _ _ _ _ _ _ hr with rfl | rfl <;> simp [trMap, tr, cexecs]
  | .forr i c st b, p, hi, h, ρ, s => by
    obtain ⟨h1, h2, _⟩ := sanity_push_loop nd p .forr (by decide)
    have hok : Ok ((p.push .forr).sanity nd).stack b := by
      unfold Ok; rw [h1, h2]; simpa [Ok, wellFormed] using h
    have ih := parse_correct S fuel nd b _ ((hi.push .forr).keeps (.sanity nd _)) hok ρ
    have main (s : σ) := loop_correct S fuel nd p _ .forr (by decide) _ _ _ st ρ (exec S fuel b) (forCond c)
      (forTest S c)
      (fun _ => by cases c <;> rfl) (parse_effect nd b _ hok) ih (fun s s' h => (exec_out S fuel b s s' _ h).2 rfl) s
    have one (s : σ) : cexecs S fuel (.cons (.whil (forCond c) (loopBody nd (parse nd b ((p.push .forr).sanity nd)).2
        (parse nd b ((p.push .forr).sanity nd)).1 st).1) .nil) none ρ s = trMap p.stack
          (sloop (forTest S c) (exec S fuel b) (stepFn S st) fuel s) := by
      rw [cexecs, main]
      cases hr : sloop (forTest S c) (exec S fuel b)
          (stepFn S st) fuel s with
      | none => rfl
      | some r =>
        obtain ⟨o, s'⟩ := r
        rcases sloop_out _ _ _ _ _ _ _ hr with rfl | rfl <;> simp [trMap, tr, cexecs]
    simp only [parse, exec]
    cases i with
    | none => rw [cexec]; exact one s
    | some a =>
      rw [cexec, cexecs, cexec]
      exact one _
  | .which e gs, p, hi, h, ρ, s => by
    have hl : hasLoop (p.push .which).stack = hasLoop p.stack := by
      simp [PS.push, hasLoop, isLoop_eq]
    have hg : groupsOk (hasLoop (p.push .which).stack) gs = true := by rw [hl]; simpa [Ok, wellFormed] using h
    let p1 : PS := { p.push .which with next := (p.push .which).next + 1 }
    have hi1 : Inv p1 := fun x hx => ⟨((hi.push .which) x hx).1, Nat.le_succ_of_le ((hi.push .which) x hx).2⟩
    have eff := parseGroups_effect nd ((p.push .which).next + 1) e.isSome gs true p1 rfl hg
    have hstk : (parseGroups nd ((p.push .which).next + 1) e.isSome gs true false p1).2.stack =
        ⟨.which, p.next + 1, nBrkG gs⟩ :: addCont (nContG gs) p.stack := by
      rw [eff.stack]
      show addBrk _ (addCont _ (⟨.which, p.next + 1, 0⟩ :: p.stack)) = _
      rw [add_which, Nat.zero_add]
    have ih := parseGroups_correct S fuel nd ((p.push .which).next + 1) e.isSome gs true p1 hi1 rfl hg
    have htr : tr p1.stack .normal = .normal ∧ tr p1.stack .ret = .ret ∧ tr p1.stack .brk = .goto (p.next + 1) ∧
        tr p1.stack .cont = tr p.stack .cont := by
      refine ⟨rfl, rfl, rfl, ?_⟩
      show tr (⟨.which, p.next + 1, 0⟩ :: p.stack) .cont = _
      simp [tr, nearestContinue, isLoop_eq]
    have hne : (nearestContinue p.stack).1 ≠ p.next + 1 := by have := hi.cont_le; omega
    have hlabs : (if nearestBreakIfUsed (parseGroups nd ((p.push .which).next + 1) e.isSome gs true false p1).2.stack > 0
        then [Node.label (nearestBreakIfUsed (parseGroups nd ((p.push .which).next + 1) e.isSome gs true false p1).2.stack)]
        else []) = if decide (nBrkG gs > 0) then [Node.label (p.next + 1)] else [] := by
      rw [hstk, nearestBreakIfUsed_which]
      by_cases hb : nBrkG gs > 0 <;> simp [hb]
    simp only [parse]
    simp only [p1] at hlabs
    rw [hlabs]
    cases e with
    | none =>
      rw [cexec.eq_10]
      simp only [exec]
      refine switch_list S fuel (p.next + 1) _ ρ (execGroups S fuel none gs s) p.stack (tr p1.stack) htr hne
        (decide (nBrkG gs > 0)) s ?_ ?_
      · exact ih ρ s
      · intro hb s' hr
        have := execGroups_brk S fuel none gs s s' hr
        simp only [decide_eq_false_iff_not] at hb
        omega
    | some e =>
      rw [cexec.eq_11]
      simp only [exec]
      refine switch_list S fuel (p.next + 1) _ _ (execGroups S fuel (some (S.val e s).1) gs (S.val e s).2) p.stack
        (tr p1.stack) htr hne (decide (nBrkG gs > 0)) (S.val e s).2 ?_ ?_
      · have := ih (upd ρ ((p.push .which).next + 1) (S.val e s).1) (S.val e s).2
        simpa [vOf, upd] using this
      · intro hb s' hr
        have := execGroups_brk S fuel _ gs _ s' hr
        simp only [decide_eq_false_iff_not] at hb
        omega
theorem parses_correct {σ} (S : Sem σ) (fuel : Nat) (nd : Bool) : ∀ (ss : Stmts) (p : PS), Inv p →
    wellFormeds (hasLoop p.stack) (!p.stack.isEmpty) ss = true →
    ∀ (ρ : Nat → Int) (s : σ), cexecs S fuel (parses nd ss p).1 none ρ s = trMap p.stack (execs S fuel ss s)
  | .nil, p, _, _, ρ, s => by simp [parses, cexecs, execs, trMap, tr]
  | .cons st ss, p, hi, h, ρ, s => by
    simp only [wellFormeds, Bool.and_eq_true] at h
    have k := parse_keeps nd st p
    have ih1 := parse_correct S fuel nd st p hi h.1 ρ s
    have ih2 := parses_correct S fuel nd ss (parse nd st p).2 (hi.keeps k)
      (by rw [hasLoop_shape k.shape, isEmpty_shape k.shape]; exact h.2) ρ
    simp only [trMap, tr_shape k.shape] at ih2
    simp only [parses, execs]
    rw [cexecs, ih1]
    cases hr : exec S fuel st s with
    | none => rfl
    | some r =>
      obtain ⟨o, s'⟩ := r
      cases o with
      | normal => exact ih2 _
      | ret => rfl
      | brk =>
        simp only [trMap, Option.map_some, tr]
        cases hb : breakTo p.stack with
        | goto m => exact parses_skip S fuel m nd ρ s' ss _
        | brk => rfl
        | normal => exact absurd hb (breakTo_not p.stack).1
        | ret => exact absurd hb (breakTo_not p.stack).2
      | cont => exact parses_skip S fuel _ nd ρ s' ss _
theorem parseGroups_correct {σ} (S : Sem σ) (fuel : Nat) (nd : Bool) (num : Nat) (v : Bool) :
    ∀ (gs : Groups) (first : Bool) (p : PS), Inv p → p.stack.isEmpty = false → groupsOk (hasLoop p.stack) gs = true →
    ∀ (ρ : Nat → Int) (s : σ), cexecOpt S fuel (parseGroups nd num v gs first false p).1 ρ s =
      trMap p.stack (execGroups S fuel (vOf v ρ num) gs s)
  | .nil, first, p, _, _, _, ρ, s => by simp [parseGroups, cexecOpt, execGroups, trMap, tr]
  | .cons l ls b gs, first, p, hi, hne, h, ρ, s => by
    obtain ⟨h1, h2, h3⟩ := groupsOk_parts h
    have k := parse_keeps nd b p
    have ihb := parse_correct S fuel nd b p hi (by unfold Ok; rw [hne]; simpa using h2) ρ
    simp only [parseGroups, execGroups]
    rcases restOfCase_ok num v l ls _ h1 with ⟨hm, hl, hr⟩ | ⟨e, es, hes, hr⟩
    · obtain rfl : gs = .nil := by cases gs <;> simp_all [Groups.isNil]
      rw [hr]
      simp only [parseGroups, groupTaken, if_pos hm]
      split
      · simp only [cexecOpt, cexec, evalCond]; exact ihb s
      · simp only [cexecOpt]; exact ihb s
    · rw [hr]
      simp only [true_or, if_true]
      have ihg := parseGroups_correct S fuel nd num v gs false (parse nd b p).2 (hi.keeps k)
        ((isEmpty_shape k.shape).trans hne) (by rw [hasLoop_shape k.shape]; exact h3) ρ
      simp only [trMap, tr_shape k.shape] at ihg
      rw [hes, ← evalCond_group]
      cases hq : (parseGroups nd num v gs false false (parse nd b p).2).1 with
      | none =>
        rw [hq] at ihg
        simp only [cexecOpt, cexec]
        obtain ⟨c, s1⟩ := evalCond S ρ (orAll num v (caseCond num v e) es) s
        cases c with
        | true => exact ihb _
        | false => exact ihg _
      | some nq =>
        rw [hq] at ihg
        simp only [cexecOpt, cexec]
        obtain ⟨c, s1⟩ := evalCond S ρ (orAll num v (caseCond num v e) es) s
        cases c with
        | true => exact ihb _
        | false => exact ihg _
end

end Ulam.Control
