import Verif.Constness.Model

/-!
What it means to stand for something that is not declared constant, and which programs keep to it
where the compiler does not look.
-/
namespace Ulam.Constness

/-- The expression stands for something not reached by a name declared constant. -/
def Open (Γ : Ctx) : Expr → Prop
  | .lit _ => False
  | .var x => ∃ s, Γ x = some s ∧ s.alt ≠ .cref ∧ s.cparam = false
  | .con _ => False
  | .field e _ => Open Γ e
  | .fieldCon _ _ => False
  | .base e _ => Open Γ e
  | .item str e _ => str = true ∨ Open Γ e
  | .castRef e => Open Γ e
  | .castVal _ _ => True
  | .tern _ a b => Open Γ a ∧ Open Γ b
  | .storageof e => Open Γ e
  | .inst => True
  | .bin _ _ _ => True
  | .assign a _ => Open Γ a
  | .assignOp _ a _ => Open Γ a
  | .call _ _ _ => True

/-- Choices, reference casts, `storageof` and `atomof` on the way to the place stood for are of
things that are open. -/
def Straight (Γ : Ctx) : Expr → Prop
  | .field e _ => Straight Γ e
  | .base e _ => Straight Γ e
  | .item _ e _ => Straight Γ e
  | .castRef e => Open Γ e
  | .tern _ a b => Open Γ a ∧ Open Γ b
  | .storageof e => Open Γ e
  | .assign a _ => Straight Γ a
  | .assignOp _ a _ => Straight Γ a
  | _ => True

mutual
/-- `T` holds of every expression within that is assigned to, called a function on, or passed for a
reference that is not constant. -/
def Targets (G : Prog) (T : Ctx → Expr → Prop) (Γ : Ctx) : Expr → Prop
  | .lit _ => True
  | .var _ => True
  | .con _ => True
  | .field e _ => Targets G T Γ e
  | .fieldCon e _ => Targets G T Γ e
  | .base e _ => Targets G T Γ e
  | .item _ e i => Targets G T Γ e ∧ Targets G T Γ i
  | .castRef e => Targets G T Γ e
  | .castVal _ e => Targets G T Γ e
  | .tern c a b => Targets G T Γ c ∧ Targets G T Γ a ∧ Targets G T Γ b
  | .storageof e => Targets G T Γ e
  | .inst => True
  | .bin _ a b => Targets G T Γ a ∧ Targets G T Γ b
  | .assign a b => T Γ a ∧ Targets G T Γ a ∧ Targets G T Γ b
  | .assignOp _ a b => T Γ a ∧ Targets G T Γ a ∧ Targets G T Γ b
  | .call e f as => T Γ e ∧ Targets G T Γ e ∧ TargetsArgs G T Γ (G.fn f).params as
def TargetsArgs (G : Prog) (T : Ctx → Expr → Prop) (Γ : Ctx) : List (Nat × Sym) → Args → Prop
  | p :: ps, .cons e as =>
    (p.2.alt = .ref → p.2.cparam = false → T Γ e) ∧ Targets G T Γ e ∧ TargetsArgs G T Γ ps as
  | _, _ => True
end

/-- `T` holds of every expression of the statement that is assigned to, called a function on, passed
for or bound to a reference that is not constant; and what is returned as a reference, and what an
as-conditional is about, is open. -/
def Keeps (G : Prog) (T : Ctx → Expr → Prop) (f : Func) (Γ : Ctx) : Stmt → Prop
  | .skip => True
  | .seq s t => Keeps G T f Γ s ∧ Keeps G T f (after Γ s) t
  | .expr e => Targets G T Γ e
  | .decl _ e => Targets G T Γ e
  | .bind c _ e => Targets G T Γ e ∧ (c = false → T Γ e)
  | .ite e s t => Targets G T Γ e ∧ Keeps G T f Γ s ∧ Keeps G T f Γ t
  | .loop e s => Targets G T Γ e ∧ Keeps G T f Γ s
  | .ifAs x _ s t => Open Γ (.var x) ∧ Keeps G T f (inAs Γ x) s ∧ Keeps G T f Γ t
  | .ret e => Targets G T Γ e ∧ (f.retRef = true → Open Γ e)

/-- Every function is accepted by the compiler. -/
def Accepted (G : Prog) : Prop := ∀ i, check G (G.fn i) (start (G.fn i)) (G.fn i).body = true

/-- The names that are not declared constant are bound to no object of `K`. -/
def Apart (K : Nat → Prop) (Γ : Ctx) (ρ : Env) : Prop :=
  ∀ x, Open Γ (.var x) → ¬ K (ρ x).obj

/-- The objects of `K` are as they were. -/
def Same (K : Nat → Prop) (s s' : St) : Prop := ∀ o, K o → s'.mem o = s.mem o

/-- The objects of `K` exist. -/
def Exist (K : Nat → Prop) (s : St) : Prop := ∀ o, K o → o < s.next

end Ulam.Constness
