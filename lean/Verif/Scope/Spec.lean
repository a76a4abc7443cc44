import Verif.Scope.Model
/-
Lexical scoping, said without tables, numbers or passes: the statements are read in
order with the list of the declarations in scope, nearest first.
-/
namespace Ulam.Scope

/-- The nearest declaration of a name. -/
def nearest (env : List Decl) (x : Nat) : Option Decl :=
  env.find? fun d => d.name == x

/-- What each name in an expression stands for. -/
def resolveE (env : List Decl) : Expr → List (Option Decl)
  | .lit => []
  | .ident _ x => [nearest env x]
  | .op l r => resolveE env l ++ resolveE env r
  | .call e => resolveE env e

/-- What each name in the statements stands for. A declaration holds from the end of
its initial value to the end of its block. -/
def resolveS (env : List Decl) : Stmts → List (Option Decl)
  | .done => []
  | .var loc x e rest => resolveE env e ++ resolveS (⟨x, .var, loc⟩ :: env) rest
  | .con loc x rest => resolveS (⟨x, .con, loc⟩ :: env) rest
  | .use e rest => resolveE env e ++ resolveS env rest
  | .block body rest => resolveS env body ++ resolveS env rest

/-- What is in scope around the function: the members of its class, then those of the
ancestors in order, then the file. -/
def around (o : Outer) : List Decl :=
  o.members ++ o.bases.flatten ++ o.file

/-- A name may be used as a value when it stands for a variable or a constant. -/
def usable : Option Decl → Bool
  | none => false
  | some d => d.kind != .other

/-- The names an expression mentions. -/
def Expr.names : Expr → List Nat
  | .lit => []
  | .ident _ x => [x]
  | .op l r => l.names ++ r.names
  | .call e => e.names

/-- The names an expression mentions inside the arguments of a call. -/
def Expr.callNames : Expr → List Nat
  | .lit => []
  | .ident _ _ => []
  | .op l r => l.callNames ++ r.callNames
  | .call e => e.names

/-- No variable is used in an argument of a call in its own initial value. -/
def NoSelfCall : Stmts → Prop
  | .done => True
  | .var _ x e rest => x ∉ e.callNames ∧ NoSelfCall rest
  | .con _ _ rest => NoSelfCall rest
  | .use _ rest => NoSelfCall rest
  | .block body rest => NoSelfCall body ∧ NoSelfCall rest

/-- The declarations in the statements. -/
def Stmts.decls : Stmts → List Decl
  | .done => []
  | .var loc x _ rest => ⟨x, .var, loc⟩ :: rest.decls
  | .con loc x rest => ⟨x, .con, loc⟩ :: rest.decls
  | .use _ rest => rest.decls
  | .block body rest => body.decls ++ rest.decls

/-- The name of a constant of the function is not the name of a variable, in the
function or around it. -/
def Apart (o : Outer) (f : Stmts) : Prop :=
  ∀ c ∈ f.decls, c.kind = .con → ∀ v ∈ f.decls ++ around o, v.kind = .var → v.name ≠ c.name

/-- No block declares a name twice; `seen` are the names declared in the block so
far. -/
def NoDup : List Nat → Stmts → Prop
  | _, .done => True
  | seen, .var _ x _ rest => x ∉ seen ∧ NoDup (x :: seen) rest
  | seen, .con _ x rest => x ∉ seen ∧ NoDup (x :: seen) rest
  | seen, .use _ rest => NoDup seen rest
  | seen, .block body rest => NoDup [] body ∧ NoDup seen rest

/-- How deep the blocks inside the function are nested. -/
def Stmts.nesting : Stmts → Nat
  | .done => 0
  | .var _ _ _ rest => rest.nesting
  | .con _ _ rest => rest.nesting
  | .use _ rest => rest.nesting
  | .block body rest => max (body.nesting + 1) rest.nesting

instance : (seen : List Nat) → (st : Stmts) → Decidable (NoDup seen st) := fun seen st => go seen st
where
  go : (seen : List Nat) → (st : Stmts) → Decidable (NoDup seen st)
    | _, .done => .isTrue trivial
    | seen, .var _ x _ rest => @instDecidableAnd _ _ inferInstance (go (x :: seen) rest)
    | seen, .con _ x rest => @instDecidableAnd _ _ inferInstance (go (x :: seen) rest)
    | seen, .use _ rest => go seen rest
    | seen, .block body rest => @instDecidableAnd _ _ (go [] body) (go seen rest)

instance : (st : Stmts) → Decidable (NoSelfCall st) := fun st => go st
where
  go : (st : Stmts) → Decidable (NoSelfCall st)
    | .done => .isTrue trivial
    | .var _ x e rest => @instDecidableAnd _ _ (inferInstanceAs (Decidable (x ∉ e.callNames))) (go rest)
    | .con _ _ rest => go rest
    | .use _ rest => go rest
    | .block body rest => @instDecidableAnd _ _ (go body) (go rest)

instance (o : Outer) (f : Stmts) : Decidable (Apart o f) := by
  unfold Apart; infer_instance

end Ulam.Scope
