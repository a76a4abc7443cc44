import Verif.Frame.Model

/-!
Which variables are in scope at once, how much a function asks for, and what a reference stands for.
-/
namespace Ulam.Frame

/-- The variables in scope after a statement. -/
def leaves : List Nat → Stmt → List Nat
  | E, .decl x _ _ => x :: E
  | E, .seq s t => leaves (leaves E s) t
  | E, _ => E

/-- The pairs of variables in scope at once: the second is declared while the first is in scope. -/
def together : List Nat → Stmt → List (Nat × Nat)
  | _, .none => []
  | _, .expr _ => []
  | E, .decl x _ _ => E.map (·, x)
  | E, .block s => together E s
  | E, .seq s t => together E s ++ together (leaves E s) t
  | E, .ifc _ b e => together E b ++ together E e
  | E, .ctl _ b => together E b

/-- The variables declared. -/
def decls : Stmt → List Nat
  | .none => []
  | .expr _ => []
  | .decl x _ _ => [x]
  | .block s => decls s
  | .seq s t => decls s ++ decls t
  | .ifc _ b e => decls b ++ decls e
  | .ctl _ b => decls b

mutual
/-- The slots an expression asks for, all told. -/
def exprWeight : Expr → Nat
  | .leaf => 0
  | .un e => exprWeight e
  | .bin l r => exprWeight l + exprWeight r
  | .ques c l r => exprWeight c + exprWeight l + exprWeight r
  | .stor n e => n + exprWeight e
  | .call as ret => argsWeight as + ret + 2
def argsWeight : Args → Nat
  | .nil => 0
  | .cons e n as => exprWeight e + n + argsWeight as
end

mutual
/-- The choices in an expression. -/
def exprChoices : Expr → Nat
  | .leaf => 0
  | .un e => exprChoices e
  | .bin l r => exprChoices l + exprChoices r
  | .ques c l r => exprChoices c + exprChoices l + exprChoices r + 1
  | .stor _ e => exprChoices e
  | .call as _ => argsChoices as
def argsChoices : Args → Nat
  | .nil => 0
  | .cons e _ as => exprChoices e + argsChoices as
end

/-- The slots a statement asks for, all told. -/
def weight : Stmt → Nat
  | .none => 0
  | .expr e => exprWeight e
  | .decl _ n i => n + exprWeight i
  | .block s => weight s
  | .seq s t => weight s + weight t
  | .ifc c b e => exprWeight c + weight b + weight e
  | .ctl c b => exprWeight c + weight b

/-- The choices in a statement. -/
def choices : Stmt → Nat
  | .none => 0
  | .expr e => exprChoices e
  | .decl _ _ i => exprChoices i
  | .block s => choices s
  | .seq s t => choices s + choices t
  | .ifc c b e => exprChoices c + choices b + choices e + 1
  | .ctl c b => exprChoices c + choices b

/-! ### References -/

/-- What each local reference of a running function stands for. -/
abbrev Refs := Nat → Option Nat

def means (a : Act) (ρ : Refs) : Tgt → Option Nat
  | .loc x => some (a.fp + x)
  | .par i => a.pars[i]?
  | .ref r => ρ r

def meant (a : Act) (ρ : Refs) : List Tgt → Option (List Nat)
  | [] => some []
  | t :: ts => (means a ρ t).bind fun p => (meant a ρ ts).map (p :: ·)

/-- A reference stands for what it was bound to by the running function itself. -/
def exec (G : RProg) : Nat → Act → (Nat → Int) → Nat → Refs → RStmt → Option ((Nat → Int) × Refs)
  | 0, _, _, _, _, _ => none
  | n + 1, a, m, top, ρ, t =>
    match t with
    | .skip => some (m, ρ)
    | .seq t u => (exec G n a m top ρ t).bind fun r => exec G n a r.1 top r.2 u
    | .bind r t => (means a ρ t).map fun p => (m, Function.update ρ r (some p))
    | .set t v => (means a ρ t).map fun p => (Function.update m p v, ρ)
    | .call f ts => (meant a ρ ts).bind fun ps =>
        (exec G n ⟨f, top, ps⟩ m (top + (G f).slots) (fun _ => none) (G f).body).map fun r => (r.1, ρ)
    | .cond t u => (means a ρ t).bind fun p => if m p ≠ 0 then exec G n a m top ρ u else some (m, ρ)

/-- The functions called by a statement. -/
def callees : RStmt → List Nat
  | .seq s t => callees s ++ callees t
  | .call f _ => [f]
  | .cond _ s => callees s
  | _ => []

/-- No function is called while it runs: a number goes down with each call. -/
def NoRecursion (G : RProg) : Prop := ∃ h : Nat → Nat, ∀ f, ∀ g ∈ callees (G f).body, h g < h f

end Ulam.Frame
