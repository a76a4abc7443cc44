import Verif.Returns.Model
import Verif.Control.Spec
/-
What return statements mean: the value is that of the expression of the
return statement that ran, cast to the return type.  No labels, no place for
the result, no parser.
-/
namespace Ulam.Returns
open Ulam.Control

/-- How a statement ends. -/
inductive ROut where
  | normal | brk | cont | ret (v : Option Int)
deriving DecidableEq

/-- A loop: at most `fuel` turns. -/
def rloop {σ} (cond : σ → Bool × σ) (body : σ → Option (ROut × σ)) (step : σ → σ) :
    Nat → σ → Option (ROut × σ)
  | 0, _ => none
  | fuel + 1, s =>
    match cond s with
    | (false, s) => some (.normal, s)
    | (true, s) =>
      match body s with
      | none => none
      | some (.ret v, s) => some (.ret v, s)
      | some (.brk, s) => some (.normal, s)
      | some (_, s) => rloop cond body step fuel (step s)

mutual
/-- The meaning of a statement; `conv e` is what becomes of the value of `e` when it is returned. -/
def rexec {σ} (S : Sem σ) (conv : Nat → Int → Int) (fuel : Nat) : RStmt → σ → Option (ROut × σ)
  | .act a, s => some (.normal, S.act a s)
  | .ret none, s => some (.ret none, s)
  | .ret (some e), s => some (.ret (some (conv e (S.val e s).1)), (S.val e s).2)
  | .brk, s => some (.brk, s)
  | .cont, s => some (.cont, s)
  | .block ss, s => rexecs S conv fuel ss s
  | .ite c t, s =>
    match S.cond c s with
    | (true, s) => rexec S conv fuel t s
    | (false, s) => some (.normal, s)
  | .iteElse c t e, s =>
    match S.cond c s with
    | (true, s) => rexec S conv fuel t s
    | (false, s) => rexec S conv fuel e s
  | .whil c b, s => rloop (S.cond c) (rexec S conv fuel b) id fuel s
  | .forr init c step b, s =>
    rloop (forTest S c) (rexec S conv fuel b) (stepFn S step) fuel (stepFn S init s)
  | .which e gs, s =>
    let r := match e with
      | some e => rexecG S conv fuel (some (S.val e s).1) gs (S.val e s).2
      | none => rexecG S conv fuel none gs s
    r.map fun r => (if r.1 = .brk then .normal else r.1, r.2)
def rexecs {σ} (S : Sem σ) (conv : Nat → Int → Int) (fuel : Nat) : RStmts → σ → Option (ROut × σ)
  | .nil, s => some (.normal, s)
  | .cons st ss, s =>
    match rexec S conv fuel st s with
    | some (.normal, s) => rexecs S conv fuel ss s
    | r => r
def rexecG {σ} (S : Sem σ) (conv : Nat → Int → Int) (fuel : Nat) (v : Option Int) :
    RGroups → σ → Option (ROut × σ)
  | .nil, s => some (.normal, s)
  | .cons l ls b gs, s =>
    match groupTaken S v (l :: ls) s with
    | (true, s) => rexec S conv fuel b s
    | (false, s) => rexecG S conv fuel v gs s
end

mutual
/-- May a break leave this statement? -/
def mayBreak : RStmt → Bool
  | .brk => true
  | .block ss => mayBreaks ss
  | .ite _ t => mayBreak t
  | .iteElse _ t e => mayBreak t || mayBreak e
  | _ => false
def mayBreaks : RStmts → Bool
  | .nil => false
  | .cons s ss => mayBreak s || mayBreaks ss
end

/-- May a break leave one of the groups? -/
def mayBreakG : RGroups → Bool
  | .nil => false
  | .cons _ _ b gs => mayBreak b || mayBreakG gs

mutual
/-- The statement never comes to its end, as its form shows: it returns on every way through, or
loops for ever. -/
def noEnd : RStmt → Bool
  | .ret _ => true
  | .block ss => noEnds ss
  | .iteElse _ t e => noEnd t && noEnd e
  | .forr _ none _ b => !mayBreak b
  | .which _ gs => noEndG gs && !mayBreakG gs
  | _ => false
def noEnds : RStmts → Bool
  | .nil => false
  | .cons s ss => noEnd s || noEnds ss
/-- Every group, and there is one that is always taken. -/
def noEndG : RGroups → Bool
  | .nil => false
  | .cons l ls b gs => noEnd b && (decide (none ∈ l :: ls) || noEndG gs)
end

/-- The value a return statement gives: of its expression, cast to the return type. -/
def returned {σ τ} (cv : τ → τ → Int → Int) (S : Sem σ) (f : Fn τ) (fuel : Nat) (x : σ) :
    Option (ROut × σ) :=
  rexec S (fun e => cv (f.ex e).ty f.rt) fuel f.body x

/-- What types and casts have to satisfy: Void is itself, only Void goes with Void, and casting a
value to a type that is the same is no change. -/
structure Sound {τ} (O : Ops τ) (cv : τ → τ → Int → Int) : Prop where
  void : O.isVoid O.voidTy = true
  arg : ∀ a b, O.sameArg a b = true → O.isVoid a = O.isVoid b
  asg : ∀ a b, O.sameAssign a b = true → O.isVoid a = O.isVoid b
  same : ∀ a b v, O.sameAssign a b = true → O.altRef a = O.altRef b → cv a b v = v

end Ulam.Returns
