import Verif.Driver.Model
/-
What the driver is expected to do, said without its functions: which reports the user gets to see
and how many of them are errors (over any sequence of uses of the handler), when a text shows an
error, and which files a program needs.
-/
namespace Ulam.Driver
open Ulam.Util

/-- A use of the message handler. -/
inductive Op
  | say (m : Msg)
  | clear
  | harden
  | soften
  | attach
  deriving DecidableEq, Repr

/-- What a use does to the handler, and a sequence of them from the start. -/
def exec (d : Modes) (h : Handler) : Op → Handler
  | .say m => build d h m
  | .clear => Driver.clear h
  | .harden => Driver.harden h
  | .soften => Driver.soften h
  | .attach => Driver.attach h

def run (d : Modes) (ops : List Op) : Handler := ops.foldl (exec d) Handler.start

/-- Under which heading a message goes to the user, if it does: `hard` when what was waited for is
no longer waited for. -/
def heading (d : Modes) (hard : Bool) (m : Msg) : Option String :=
  match m.kind with
  | .err => some "ERROR"
  | .warn => if d.warn then some "Warning" else none
  | .info => if d.info then some "Info" else none
  | .note => if d.note then some "NOTE" else none
  | .debug => none
  | .wait => if hard ∧ m.turn then some "ERROR" else none

/-- Whether waiting is over after some uses. -/
def hardAfter (ops : List Op) : Bool :=
  ops.foldl (fun b o => match o with | .harden => true | .soften => false | _ => b) false

/-- The `i`-th use puts line `l` before the user: it is a message with a heading, and a file was
given before. -/
def ShownAt (d : Modes) (ops : List Op) (i : Nat) (l : Line) : Prop :=
  ∃ m, ops[i]? = some (.say m) ∧ Op.attach ∈ ops.take i ∧
    heading d (hardAfter (ops.take i)) m = some l.label ∧ l.loc = m.loc ∧ l.text = m.text

/-- The `i`-th use is an error. -/
def ErrorAt (d : Modes) (ops : List Op) (i : Nat) : Prop :=
  ∃ m, ops[i]? = some (.say m) ∧ heading d (hardAfter (ops.take i)) m = some "ERROR"

/-- A text written to the user that shows an error, or the driver's own word that it gave up. -/
def Tells (x : Written) : Prop :=
  match x with
  | .line l => ∃ loc text, l.render = loc ++ " ERROR: " ++ text ++ ".\n"
  | .raw _ => True

/-- Only a finite number of files can be opened: those on a list. -/
def Finite (w : World) (files : List Bytes) : Prop := ∀ f, w.opens f → f ∈ files

/-- The set of unseen classes is gone through completely. -/
def Complete (w : World) : Prop := ∀ l x, x ∈ w.order l ↔ x ∈ l

/-- A name that can be the name of a class in a file of its own: it starts with a capital letter and
the file's suffix does not occur in it. -/
def ClassName (c : Bytes) : Prop := classNameFromFile (c ++ suffix) = some c

end Ulam.Driver
