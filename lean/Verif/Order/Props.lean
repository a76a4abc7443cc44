import Verif.Order.Lemmas
/-!
# C70: evaluation order

The compiler has two evaluators of expressions: its own (used for constants, test programs and `main`) and the C++ program
it writes. They take operands in opposite orders.
-/
namespace Ulam.Order
open Ulam.Order.Spec

/-- **C70** (generated code). The instructions written for an expression compute, from any memory and for any functions and
operators, the right operand of an operator before the left, the assigned value before the place it goes to and the
arguments of a call from the first to the last; temporaries of different parts never collide. -/
theorem C70_generated (E : Env) (e : Expr) (m : Mem) : genValue E e m = right E e m := by
  have h := (gen_runs E e 0).2.2 m fun _ => 0
  unfold genValue
  cases hr : right E e m with
  | none => rw [hr] at h; simp only at h; rw [h]
  | some q =>
    obtain ⟨v, m1⟩ := q
    rw [hr] at h
    simp only at h
    obtain ⟨τ, h1, h2, -⟩ := h
    rw [h1]; simp only [h2]

/-- **C70** (both agree). When no operator, assignment or call has operands one of which changes what another touches, the
generated program gives the value, the memory and the stop the evaluator gives. Missing: expressions whose operands do
interfere (`C70_operator_fails`, `C70_assign_fails`, `C70_arguments_fails`), arguments beyond the parameters that have
effects (`C70_extra_fails`), and a false `Bool` other than zero to the left of `&&` (`C70_false_fails`). -/
theorem C70_agree_partial (E : Env) (F : Foot) (hK : Keeps E F) (h0 : ∀ v, E.truth v = false → v = 0)
    (e : Expr) (h : Calm F e) (m : Mem) : genValue E e m = ev E e m := by
  rw [C70_generated, right_eq hK h0 e h]

/-- **C70** (short circuit). What stands to the right of `&&` or `||`, and the branch of `?:` not taken, has no effect, in
either. -/
theorem C70_short (E : Env) (l r : Expr) (m : Mem) :
    (∀ a m1, ev E l m = some (a, m1) →
      (E.truth a = false → ev E (.and l r) m = some (a, m1) ∧ ∀ b, ev E (.cond l b r) m = ev E r m1) ∧
      (E.truth a = true → ev E (.or l r) m = some (a, m1) ∧ ∀ b, ev E (.cond l r b) m = ev E r m1)) ∧
    (∀ a m1, genValue E l m = some (a, m1) →
      (E.truth a = false → genValue E (.and l r) m = some (0, m1) ∧ ∀ b, genValue E (.cond l b r) m = genValue E r m1) ∧
      (E.truth a = true → genValue E (.or l r) m = some (a, m1) ∧ ∀ b, genValue E (.cond l r b) m = genValue E r m1)) := by
  simp only [C70_generated]
  refine ⟨fun a m1 h => ⟨fun ht => ?_, fun ht => ?_⟩, fun a m1 h => ⟨fun ht => ?_, fun ht => ?_⟩⟩
  · simp [ev, h, ht]
  · simp [ev, h, ht]
  · simp [right, h, ht]
  · simp [right, h, ht]

/-! ## Where they differ -/

/-- Addition, values as truth, and functions: 0 is `x - y` of its arguments, 1 is a count kept in variable 9. -/
def demo : Env where
  bin _ a b := a + b
  un _ a := -a
  truth v := v ≠ 0
  fn f vs m :=
    match f, vs with
    | 0, [x, y] => some (x - y, m)
    | 1, [] => some (m 9 0 + 1, put m 9 0 (m 9 0 + 1))
    | _, _ => none
  size x := if x = 7 then 2 else 1

/-- The functions of `demo` keep to this. -/
def demoFoot : Foot where
  use f := if f = 1 then [9] else []
  wr f := if f = 1 then [9] else []

theorem demo_keeps : Keeps demo demoFoot := by
  intro f vs m m' h
  by_cases h1 : f = 1
  · subst h1
    cases vs with
    | cons v vs => exact Or.inl ⟨rfl, rfl⟩
    | nil =>
      have h9 : m 9 = m' 9 := h 9 (by simp [demoFoot])
      refine Or.inr ⟨m 9 0 + 1, put m 9 0 (m 9 0 + 1), put m' 9 0 (m' 9 0 + 1), rfl, ?_, ?_, ?_⟩
      · show some (m' 9 0 + 1, _) = _
        rw [h9]
      · intro x hx
        funext j
        simp only [demoFoot, if_true, List.mem_append, List.mem_singleton, or_self] at hx
        subst hx
        simp [put, h9]
      · intro x hx
        simp only [demoFoot, if_true, List.mem_singleton] at hx
        exact ⟨by funext j; simp [put, hx], by funext j; simp [put, hx]⟩
  · by_cases h2 : ∃ x y, f = 0 ∧ vs = [x, y]
    · obtain ⟨x, y, rfl, rfl⟩ := h2
      exact Or.inr ⟨x - y, m, m', rfl, rfl, by simp [demoFoot], fun _ _ => ⟨rfl, rfl⟩⟩
    · left
      have : ∀ m, demo.fn f vs m = none := by
        intro m
        show (match f, vs with
          | 0, [x, y] => some (x - y, m)
          | 1, [] => some (m 9 0 + 1, put m 9 0 (m 9 0 + 1))
          | _, _ => none) = none
        split
        · exact (h2 ⟨_, _, rfl, rfl⟩).elim
        · exact (h1 rfl).elim
        · rfl
      exact ⟨this m, this m'⟩

/-- All variables zero. -/
def zeros : Mem := fun _ _ => 0

/-- The value alone. -/
def valueOf (r : Option (Int × Mem)) : Option Int := r.map (·.1)

/-- `x + (x = 5)`. -/
def addAssign : Expr := .bin 0 (.read (.var 0)) (.assign (.var 0) (.const 5))

/-- **C70** (fails: operators). `x + (x = 5)` with `x` zero is 5 to the evaluator and 10 in the generated program. -/
theorem C70_operator_fails : valueOf (ev demo addAssign zeros) = some 5 ∧ valueOf (genValue demo addAssign zeros) = some 10 := by
  decide +kernel

/-- `a[i] = (i = 1)`. -/
def itemAssign : Expr := .assign (.item 7 (.read (.var 0))) (.assign (.var 0) (.const 1))

/-- Item `i` of variable `x` afterwards. -/
def itemOf (r : Option (Int × Mem)) (x : Nat) (i : Int) : Option Int := r.map fun q => q.2 x i

/-- **C70** (fails: assignment). `a[i] = (i = 1)` with `i` zero sets `a[0]` in the evaluator and `a[1]` in the generated
program. -/
theorem C70_assign_fails :
    itemOf (ev demo itemAssign zeros) 7 0 = some 1 ∧ itemOf (ev demo itemAssign zeros) 7 1 = some 0 ∧
    itemOf (genValue demo itemAssign zeros) 7 0 = some 0 ∧ itemOf (genValue demo itemAssign zeros) 7 1 = some 1 := by
  decide +kernel

/-- `f(x, x = 5)` where `f(a, b)` is `a - b`. -/
def callArgs : Expr := .call 0 (.cons (.read (.var 0)) (.cons (.assign (.var 0) (.const 5)) .nil)) .nil

/-- **C70** (fails: arguments). `f(x, x = 5)` with `x` zero gets 5 and 5 from the evaluator (last argument first), and 0 and
5 in the generated program. -/
theorem C70_arguments_fails : valueOf (ev demo callArgs zeros) = some 0 ∧ valueOf (genValue demo callArgs zeros) = some (-5) := by
  decide +kernel

/-- `count(x = 5)` where `count` takes no parameters but a variable number of arguments. -/
def callExtra : Expr := .call 1 .nil (.cons (.assign (.var 0) (.const 5)) .nil)

/-- **C70** (fails: extra arguments). The evaluator never evaluates arguments beyond the parameters; the generated program
does. -/
theorem C70_extra_fails : itemOf (ev demo callExtra zeros) 0 0 = some 0 ∧ itemOf (genValue demo callExtra zeros) 0 0 = some 5 := by
  decide +kernel

/-- **C70** (fails: false). Whenever the left of `&&` is a false value other than zero, as a `Bool` of several bits can be,
the evaluator gives that value and the generated program gives zero. -/
theorem C70_false_fails (E : Env) (v : Int) (h : E.truth v = false) (hv : v ≠ 0) (r : Expr) (m : Mem) :
    ev E (.and (.const v) r) m = some (v, m) ∧ genValue E (.and (.const v) r) m = some (0, m) ∧
    ev E (.and (.const v) r) m ≠ genValue E (.and (.const v) r) m := by
  have h1 : ev E (.and (.const v) r) m = some (v, m) := by simp [ev, h]
  have h2 : genValue E (.and (.const v) r) m = some (0, m) := by rw [C70_generated]; simp [right, h]
  refine ⟨h1, h2, ?_⟩
  rw [h1, h2]
  intro e
  simp only [Option.some.injEq, Prod.mk.injEq] at e
  exact hv e.1

/-! ## Cases meeting the hypotheses -/

/-- `x = (a[1] = y) + count()`: effects on both sides of the operator, none interfering. -/
def quiet : Expr :=
  .assign (.var 0) (.bin 0 (.assign (.item 7 (.const 1)) (.read (.var 3))) (.call 1 .nil .nil))

example : Calm demoFoot quiet := by
  simp [quiet, Calm, CalmPlace, CalmArgs, InertArgs, Apart, use, wr, usePlace, wrPlace, useArgs, wrArgs, target, demoFoot]

example : ∀ v, demo.truth v = false → v = 0 := by simp [demo]

example : valueOf (genValue demo quiet (fun _ _ => 4)) = some 9 ∧ valueOf (ev demo quiet (fun _ _ => 4)) = some 9 := by
  decide +kernel

/-- `a[0] = a[1] = 3`. -/
example : Calm demoFoot (.assign (.item 7 (.const 0)) (.assign (.item 7 (.const 1)) (.const 3))) := by
  simp [Calm, CalmPlace, Apart, use, wr, usePlace, wrPlace, target]

/-- `a[2]`, outside: both stop. -/
example : (ev demo (.read (.item 7 (.const 2))) zeros).isNone = true ∧
    (genValue demo (.read (.item 7 (.const 2))) zeros).isNone = true := by decide +kernel

end Ulam.Order
