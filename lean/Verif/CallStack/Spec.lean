import Verif.CallStack.Model
/-
What expressions mean, without any stack, and the discipline users of the
stack keep to.
-/
namespace Ulam.CallStack

/-- The value of an expression and the store after it. -/
def den {σ α} (S : Sem σ α) : Expr → σ → Except Nat α × σ
  | .leaf k, x => S.leaf k x
  | .un op e, x =>
    match den S e x with
    | (.error w, x) => (.error w, x)
    | (.ok a, x) => (S.un op a, x)
  | .bin op l r, x =>
    match den S l x with
    | (.error w, x) => (.error w, x)
    | (.ok a, x) =>
      match den S r x with
      | (.error w, x) => (.error w, x)
      | (.ok b, x) => (S.bin op a b, x)
  | .and len l r, x =>
    match den S l x with
    | (.error w, x) => (.error w, x)
    | (.ok a, x) => if S.cbool len a = true then den S r x else (.ok a, x)
  | .or len l r, x =>
    match den S l x with
    | (.error w, x) => (.error w, x)
    | (.ok a, x) => if S.cbool len a = true then (.ok a, x) else den S r x
  | .cond c l r, x =>
    match den S c x with
    | (.error w, x) => (.error w, x)
    | (.ok a, x) => if S.nonzero a = true then den S l x else den S r x

/-- The discipline inside the frame at `f`: an operation may return from frames made since, but not
from `f`; it may pop what was pushed in the current frame; it may store in the slots of the current
frame, or in the slots of the frame before (as when a result is handed back) if that is not below `f`;
it never touches a frame pointer. -/
def Allowed {α} (f : Nat) (s : CS α) : Op α → Prop
  | .call _ => True
  | .ret => f < s.cur
  | .push _ => True
  | .pop => s.cur + 1 < s.frames.length
  | .store _ i => 0 < i ∨ (f < s.cur ∧ ∃ prev, s.frames[s.cur]? = some (.fp prev) ∧ (prev : Int) < s.cur + i ∧ i < 0)
  | .storeAbs _ i => s.cur < i

/-- All operations of a list are allowed when they come. -/
def AllowedAll {α} (zero : α) (f : Nat) (s : CS α) : List (Op α) → Prop
  | [] => True
  | o :: os => Allowed f s o ∧ ∀ s', step zero s o = some s' → AllowedAll zero f s' os

end Ulam.CallStack
