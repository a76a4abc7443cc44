import Verif.RefRec.Model
/-!
# References of functions that call themselves (specification)

A reference is, in each activation of its function, to what it was initialized with in that activation.
-/
namespace Ulam.RefRec.Spec
open Ulam.RefRec

/-- What a name means in an activation: its references and parameters are places on the stack. -/
def meaning (env : Nat → Option Int) (ps : List (Option Int)) (cur : Int) : Src → Option Int
  | .var k => some (cur + k)
  | .param i => (ps[i]?).join
  | .ref r => env r
  | .data n => some n

/-- The places the uses should lead to; each activation has references of its own. -/
def ideal (env : Nat → Option Int) (cur size : Int) (ps : List (Option Int)) : Acts → List (Option Int)
  | .done => []
  | .decl r s rest => ideal (fun q => if q = r then meaning env ps cur s else env q) cur size ps rest
  | .use s rest => meaning env ps cur s :: ideal env cur size ps rest
  | .call room depth args body rest =>
    ideal (fun _ => none) (size + args.length + room) (size + args.length + room + 1 + depth) (args.map (meaning env ps cur)) body ++
      ideal env cur size ps rest

/-- The references declared in an execution, those of the calls in it too. -/
def declared : Acts → List Nat
  | .done => []
  | .decl r _ rest => r :: declared rest
  | .use _ rest => declared rest
  | .call _ _ _ body rest => declared body ++ declared rest

/-- A name is visible: a reference only if it was declared before, in this activation. -/
def Visible (d : List Nat) : Src → Prop
  | .ref r => r ∈ d
  | _ => True

/-- Names are visible (`d` has the references declared so far in the activation), and a reference in whose life it is declared again, by a
call of its function, is one that is always initialized with the same variable of its function: its slot is `fix r`. -/
def Good (fix : Nat → Option Int) : List Nat → Acts → Prop
  | _, .done => True
  | d, .decl r s rest => Visible d s ∧ (∀ k, fix r = some k → s = .var k) ∧ Good fix (r :: d) rest
  | d, .use s rest => Visible d s ∧ Good fix d rest
  | d, .call _ _ args body rest =>
    (∀ s ∈ args, Visible d s) ∧ Good fix [] body ∧ (∀ r ∈ d, r ∈ declared body → ∃ k, fix r = some k) ∧ Good fix d rest

end Ulam.RefRec.Spec
