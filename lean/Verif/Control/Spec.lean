import Verif.Control.Model
/-
What programs mean, from the language's description: break leaves the
innermost loop or `which`, continue goes on with the next turn of the
innermost loop (with the step of a `for`).  No labels, no parser.
-/
namespace Ulam.Control

/-- How a statement ends. -/
inductive Out where
  | normal | ret | brk | cont
deriving DecidableEq

/-- A loop: at most `fuel` turns. -/
def sloop {σ} (cond : σ → Bool × σ) (body : σ → Option (Out × σ)) (step : σ → σ) :
    Nat → σ → Option (Out × σ)
  | 0, _ => none
  | fuel + 1, s =>
    match cond s with
    | (false, s) => some (.normal, s)
    | (true, s) =>
      match body s with
      | none => none
      | some (.ret, s) => some (.ret, s)
      | some (.brk, s) => some (.normal, s)
      | some (_, s) => sloop cond body step fuel (step s)

/-- Are the labels of a group met?  Tested from left to right until one is; `otherwise` always is,
without testing anything. -/
def anyMet {σ} (S : Sem σ) (v : Option Int) : List (Option Nat) → σ → Bool × σ
  | [], s => (false, s)
  | none :: _, s => (true, s)
  | some e :: ls, s =>
    let r := match v with
      | some x => let r := S.val e s; (decide (x = r.1), r.2)
      | none => S.cond e s
    if r.1 then (true, r.2) else anyMet S v ls r.2

/-- A group with `otherwise` among its labels is taken without testing the others. -/
def groupTaken {σ} (S : Sem σ) (v : Option Int) (ls : List (Option Nat)) (s : σ) : Bool × σ :=
  if none ∈ ls then (true, s) else anyMet S v ls s

/-- An optional action: the first part or the step of a `for`. -/
def stepFn {σ} (S : Sem σ) : Option Nat → σ → σ
  | some a => S.act a
  | none => id

/-- The condition of a `for`, true when missing. -/
def forTest {σ} (S : Sem σ) : Option Nat → σ → Bool × σ
  | some c => S.cond c
  | none => fun s => (true, s)

mutual
/-- The meaning of a statement. -/
def exec {σ} (S : Sem σ) (fuel : Nat) : Stmt → σ → Option (Out × σ)
  | .act a, s => some (.normal, S.act a s)
  | .ret, s => some (.ret, s)
  | .brk, s => some (.brk, s)
  | .cont, s => some (.cont, s)
  | .block ss, s => execs S fuel ss s
  | .ite c t, s =>
    match S.cond c s with
    | (true, s) => exec S fuel t s
    | (false, s) => some (.normal, s)
  | .iteElse c t e, s =>
    match S.cond c s with
    | (true, s) => exec S fuel t s
    | (false, s) => exec S fuel e s
  | .whil c b, s => sloop (S.cond c) (exec S fuel b) id fuel s
  | .forr init c step b, s =>
    sloop (forTest S c) (exec S fuel b) (stepFn S step) fuel (stepFn S init s)
  | .which e gs, s =>
    let r := match e with
      | some e => let r := S.val e s; execGroups S fuel (some r.1) gs r.2
      | none => execGroups S fuel none gs s
    r.map fun r => (if r.1 = .brk then .normal else r.1, r.2)
def execs {σ} (S : Sem σ) (fuel : Nat) : Stmts → σ → Option (Out × σ)
  | .nil, s => some (.normal, s)
  | .cons st ss, s =>
    match exec S fuel st s with
    | some (.normal, s) => execs S fuel ss s
    | r => r
/-- The first group taken, if any. -/
def execGroups {σ} (S : Sem σ) (fuel : Nat) (v : Option Int) : Groups → σ → Option (Out × σ)
  | .nil, s => some (.normal, s)
  | .cons l ls b gs, s =>
    match groupTaken S v (l :: ls) s with
    | (true, s) => exec S fuel b s
    | (false, s) => execGroups S fuel v gs s
end

/-- `otherwise` may only be the very last label. -/
def labelsOk (last : Bool) : List (Option Nat) → Bool
  | [] => true
  | some _ :: ls => labelsOk last ls
  | [none] => last
  | none :: _ => false

mutual
/-- The nesting rules: continue only inside a loop, break only inside a loop or a `which`. -/
def wellFormed (inLoop inAny : Bool) : Stmt → Bool
  | .act _ => true
  | .ret => true
  | .brk => inAny
  | .cont => inLoop
  | .block ss => wellFormeds inLoop inAny ss
  | .ite _ t => wellFormed inLoop inAny t
  | .iteElse _ t e => wellFormed inLoop inAny t && wellFormed inLoop inAny e
  | .whil _ b => wellFormed true true b
  | .forr _ _ _ b => wellFormed true true b
  | .which _ gs => groupsOk inLoop gs
def wellFormeds (inLoop inAny : Bool) : Stmts → Bool
  | .nil => true
  | .cons s ss => wellFormed inLoop inAny s && wellFormeds inLoop inAny ss
def groupsOk (inLoop : Bool) : Groups → Bool
  | .nil => true
  | .cons l ls b .nil => labelsOk true (l :: ls) && wellFormed inLoop true b
  | .cons l ls b gs => labelsOk false (l :: ls) && (wellFormed inLoop true b && groupsOk inLoop gs)
end
mutual
/-- Break statements that leave this statement. -/
def nBrk : Stmt → Nat
  | .brk => 1
  | .block ss => nBrks ss
  | .ite _ t => nBrk t
  | .iteElse _ t e => nBrk t + nBrk e
  | _ => 0
def nBrks : Stmts → Nat
  | .nil => 0
  | .cons s ss => nBrk s + nBrks ss
end

/-- The same for the bodies of case groups. -/
def nBrkG : Groups → Nat
  | .nil => 0
  | .cons _ _ b gs => nBrk b + nBrkG gs

mutual
/-- Continue statements for a loop around this statement. -/
def nCont : Stmt → Nat
  | .cont => 1
  | .block ss => nConts ss
  | .ite _ t => nCont t
  | .iteElse _ t e => nCont t + nCont e
  | .which _ gs => nContG gs
  | _ => 0
def nConts : Stmts → Nat
  | .nil => 0
  | .cons s ss => nCont s + nConts ss
def nContG : Groups → Nat
  | .nil => 0
  | .cons _ _ b gs => nCont b + nContG gs
end

mutual
/-- Every break that leaves the statement is the last thing it does. -/
def tailOk : Stmt → Bool
  | .block ss => tailOks ss
  | .ite _ t => tailOk t
  | .iteElse _ t e => tailOk t && tailOk e
  | _ => true
def tailOks : Stmts → Bool
  | .nil => true
  | .cons s .nil => tailOk s
  | .cons s ss => nBrk s == 0 && tailOks ss
end

mutual
/-- The programs on which the evaluator follows the language: no continue for a `for` with a step, and
no break out of a `which` that is followed by other statements of the case. -/
def evalOk : Stmt → Bool
  | .block ss => evalOks ss
  | .ite _ t => evalOk t
  | .iteElse _ t e => evalOk t && evalOk e
  | .whil _ b => evalOk b
  | .forr _ _ step b => evalOk b && (step.isNone || nCont b == 0)
  | .which _ gs => evalOkG gs
  | _ => true
def evalOks : Stmts → Bool
  | .nil => true
  | .cons s ss => evalOk s && evalOks ss
def evalOkG : Groups → Bool
  | .nil => true
  | .cons _ _ b gs => evalOk b && (tailOk b && evalOkG gs)
end

/-- The body of the first group with a case label whose value is `v`. -/
def caseBody (f : Nat → Int) (v : Int) : Groups → Option Stmt
  | .nil => none
  | .cons l ls b gs => if (l :: ls).any (fun l => l.any fun e => decide (f e = v)) then some b else caseBody f v gs

/-- The body of the first group with an `otherwise` label. -/
def otherwiseBody : Groups → Option Stmt
  | .nil => none
  | .cons l ls b gs => if none ∈ l :: ls then some b else otherwiseBody gs

end Ulam.Control
