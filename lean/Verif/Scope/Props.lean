import Verif.Scope.Passes

/-
C66: a name in the body of a function stands for the nearest declaration in scope.
-/
namespace Ulam.Scope

/-- A class with a member 10 whose ancestor has a constant 11, and a type 12 at file
scope. -/
def o1 : Outer := ⟨5, [⟨10, .var, 100⟩], [[⟨11, .con, 101⟩]], [⟨12, .other, 102⟩]⟩

/-- `Int a = m; { a = 1; Int b = a; { b = a; Int a = a + b + C; a = b; } Int a = b; }` -/
def f1 : Stmts :=
  .var 0 1 (.ident false 10)
  (.block
    (.use (.ident false 1)
    (.var 1 2 (.ident false 1)
    (.block
      (.use (.op (.ident false 2) (.ident false 1))
      (.var 2 1 (.op (.op (.ident false 1) (.ident false 2)) (.ident false 11))
      (.use (.op (.ident false 1) (.ident false 2)) .done)))
    (.var 3 1 (.ident false 2) .done))))
  .done)

/-- Whatever the number of passes allowed, as soon as it is larger than the nesting
calls for: the function is accepted with every name bound to the nearest declaration
in scope, or, when some name has none that can be used, rejected. Missing: a variable
used in a call inside its own initial value (`C66_call_argument_fails`), and a constant
with the name of a variable (`C66_constant_fails`). -/
theorem C66_passes_partial (o : Outer) (f : Stmts) (hd : NoDup [] f) (hs : NoSelfCall f)
    (ha : Apart o f) :
    ∃ t, parseFn o f = some t ∧ ∀ k, 2 * f.nesting + 7 < k →
      ((∀ d ∈ resolveS (around o) f, usable d = true) →
        ∃ t', run o k t = .accept t' ∧ boundS t' = resolveS (around o) f) ∧
      ((∃ d ∈ resolveS (around o) f, usable d = false) → run o k t = .reject) := by
  cases hp : parseFn o f with
  | none => exact absurd hd (parseFn_dup.1 hp)
  | some t =>
    refine ⟨t, rfl, fun k hk => ?_⟩
    obtain ⟨h1, h2⟩ := parseFn_main hp hs
    have := run_nu ha k t h2 (by have := parseFn_nu hp; omega)
    rw [h1] at this
    exact this

example : NoDup [] f1 ∧ NoSelfCall f1 ∧ Apart o1 f1 ∧ f1.nesting = 2 ∧
    ∀ d ∈ resolveS (around o1) f1, usable d = true := by
  refine ⟨by decide +kernel, by decide +kernel, by decide +kernel, rfl, by decide +kernel⟩

/-- The same of the compiler, which allows a hundred and one passes: they are enough
for blocks nested forty-six deep. -/
theorem C66_lexical_partial (o : Outer) (f : Stmts) (hd : NoDup [] f) (hs : NoSelfCall f)
    (ha : Apart o f) (hn : f.nesting ≤ 46) :
    ((∀ d ∈ resolveS (around o) f, usable d = true) →
      ∃ t, translate o f = .accept t ∧ boundS t = resolveS (around o) f) ∧
    ((∃ d ∈ resolveS (around o) f, usable d = false) → translate o f = .reject) := by
  obtain ⟨t, hp, h⟩ := C66_passes_partial o f hd hs ha
  obtain ⟨h1, h2⟩ := h 101 (by omega)
  simp only [translate, hp, compile]
  refine ⟨fun hh => ?_, fun hh => by rw [h2 hh]⟩
  obtain ⟨t', e1, e2⟩ := h1 hh
  exact ⟨t', by rw [e1], e2⟩

example : ∃ t, translate o1 f1 = .accept t ∧ boundS t =
    [some ⟨10, .var, 100⟩, some ⟨1, .var, 0⟩, some ⟨1, .var, 0⟩, some ⟨2, .var, 1⟩,
     some ⟨1, .var, 0⟩, some ⟨1, .var, 0⟩, some ⟨2, .var, 1⟩, some ⟨11, .con, 101⟩,
     some ⟨1, .var, 2⟩, some ⟨2, .var, 1⟩, some ⟨2, .var, 1⟩] := by
  obtain ⟨t, h1, h2⟩ := (C66_lexical_partial o1 f1 (by decide +kernel) (by decide +kernel)
    (by decide +kernel) (by decide)).1 (by decide +kernel)
  exact ⟨t, h1, h2.trans (by decide +kernel)⟩

/-- A name used before its only declaration, and the name of a type, are rejected. -/
example : translate o1 (.use (.ident false 1) (.var 0 1 .lit .done)) = .reject ∧
    translate o1 (.use (.ident false 12) .done) = .reject :=
  ⟨(C66_lexical_partial o1 _ (by decide +kernel) (by decide +kernel) (by decide +kernel)
      (by decide)).2 ⟨none, by decide +kernel, rfl⟩,
    (C66_lexical_partial o1 _ (by decide +kernel) (by decide +kernel) (by decide +kernel)
      (by decide)).2 ⟨some ⟨12, .other, 102⟩, by decide +kernel, rfl⟩⟩

/-- A function in which a block declares a name twice is rejected, and only such a
function is rejected by the parser. -/
theorem C66_duplicate (o : Outer) (f : Stmts) :
    (parseFn o f = none ↔ ¬ NoDup [] f) ∧ (¬ NoDup [] f → translate o f = .reject) := by
  refine ⟨parseFn_dup, fun h => ?_⟩
  simp only [translate, parseFn_dup.2 h]

example : ¬ NoDup [] (.var 0 1 .lit (.block (.var 1 1 .lit .done) (.con 2 1 .done))) := by
  decide +kernel

/-- Full statement: a use in the arguments of a call is resolved like any other. It is
not: in `Int a; { Int a = f(a); }` the argument is the inner variable, not yet
initialized, and `Int a = f(a);` is accepted without any `a` in scope. -/
theorem C66_call_argument_fails :
    (∃ t, translate o1 (.var 0 1 .lit (.block (.var 1 1 (.call (.ident false 1)) .done) .done)) =
        .accept t ∧ boundS t = [some ⟨1, .var, 1⟩]) ∧
      resolveS (around o1)
        (.var 0 1 .lit (.block (.var 1 1 (.call (.ident false 1)) .done) .done)) =
        [some ⟨1, .var, 0⟩] ∧
      (∃ t, translate o1 (.var 0 1 (.call (.ident false 1)) .done) = .accept t) ∧
      resolveS (around o1) (.var 0 1 (.call (.ident false 1)) .done) = [none] := by
  refine ⟨⟨_, by rfl, by decide +kernel⟩, by decide +kernel, ⟨_, by rfl⟩, by decide +kernel⟩

/-- Full statement: a function in which every name has a declaration in scope is
accepted. It is not: in `Int a; { a = 1; constant Int a = 2; }` the use becomes a
constant before it is found to stand above it, and then a variable is an error. -/
theorem C66_constant_fails :
    translate o1 (.var 0 1 .lit (.block (.use (.ident false 1) (.con 1 1 .done)) .done)) = .reject ∧
      resolveS (around o1)
        (.var 0 1 .lit (.block (.use (.ident false 1) (.con 1 1 .done)) .done)) =
        [some ⟨1, .var, 0⟩] := by
  exact ⟨by rfl, by decide +kernel⟩

/-- `Int a = a + b; Int b;` in `n` blocks, each of which declares `a` and `b` after the
one inside it. -/
def onion : Nat → Stmts
  | 0 => .var 500 1 (.op (.ident false 1) (.ident false 2)) (.var 501 2 .lit .done)
  | n + 1 => .block (onion n) (.var (n + 1) 1 .lit (.var (n + 1) 2 .lit .done))

/-- Full statement: the depth of the blocks makes no difference. It does: fifty-one
blocks deep, a function whose names all have a declaration in scope is rejected,
because its passes are used up; fifty deep it is accepted. -/
theorem C66_nesting_fails :
    translate o1 (.var 0 1 .lit (.var 1 2 .lit (.block (onion 50) .done))) = .reject ∧
      resolveS (around o1) (.var 0 1 .lit (.var 1 2 .lit (.block (onion 50) .done))) =
        [some ⟨1, .var, 0⟩, some ⟨2, .var, 1⟩] ∧
      (∃ t, translate o1 (.var 0 1 .lit (.var 1 2 .lit (.block (onion 49) .done))) = .accept t) := by
  refine ⟨?_, by decide +kernel, ?_⟩
  · rfl
  · exact ⟨_, rfl⟩

end Ulam.Scope
