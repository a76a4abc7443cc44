import Verif.EvalStmt.Model
/-! # Functions and their statements on the node evaluation stack (specification) -/
namespace Ulam.EvalStmt

mutual
/-- What an expression is worth, with the variables of the function. -/
def worth (env : List Int) : Expr → Option Int
  | .lit v => some v
  | .var k => env[k]?
  | .add l r => (worth env l).bind fun a => (worth env r).map fun b => a + b
  | .call body => returns [] body
/-- What a function returns. -/
def returns (env : List Int) : Body → Option Int
  | .ret e => worth env e
  | .decl e rest => (worth env e).bind fun v => returns (env ++ [v]) rest
  | .constList v rest => returns (env ++ [v]) rest
  | .list e rest => (worth env e).bind fun v => returns (env ++ [v]) rest
  | .expr e rest => (worth env e).bind fun _ => returns env rest
end

mutual
/-- No variable is initialised with a list whose value is not known. -/
def NoListE : Expr → Prop
  | .lit _ => True
  | .var _ => True
  | .add l r => NoListE l ∧ NoListE r
  | .call body => NoListB body
def NoListB : Body → Prop
  | .ret e => NoListE e
  | .decl e rest => NoListE e ∧ NoListB rest
  | .constList _ rest => NoListB rest
  | .list _ _ => False
  | .expr e rest => NoListE e ∧ NoListB rest
end

end Ulam.EvalStmt
