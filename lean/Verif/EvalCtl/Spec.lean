import Verif.EvalCtl.Model
/-! # Conditions, loops, and leaving them, on the node evaluation stack (specification) -/
namespace Ulam.EvalCtl

variable {σ : Type}

/-- What statements do, without a stack. -/
inductive Runs (ev : Nat → σ → Int × σ) : Stmt → σ → Status → σ → Prop where
  | skip (x) : Runs ev .skip x .normal x
  | expr (k x) : Runs ev (.expr k) x .normal (ev k x).2
  | brk (x) : Runs ev .brk x .brk x
  | cont (x) : Runs ev .cont x .cont x
  | ret (k x) : Runs ev (.ret k) x (.ret (ev k x).1) (ev k x).2
  | yes {k t f x st y} (h : (ev k x).1 ≠ 0) (h' : Runs ev t (ev k x).2 st y) : Runs ev (.ite k t f) x st y
  | no {k t f x st y} (h : (ev k x).1 = 0) (h' : Runs ev f (ev k x).2 st y) : Runs ev (.ite k t f) x st y
  | stop {k b x} (h : (ev k x).1 = 0) : Runs ev (.loop k b) x .normal (ev k x).2
  | again {k b x st st' y z} (h : (ev k x).1 ≠ 0) (h' : Runs ev b (ev k x).2 st y) (hs : st = .normal ∨ st = .cont)
      (h'' : Runs ev (.loop k b) y st' z) : Runs ev (.loop k b) x st' z
  | leave {k b x y} (h : (ev k x).1 ≠ 0) (h' : Runs ev b (ev k x).2 .brk y) : Runs ev (.loop k b) x .normal y
  | away {k b x v y} (h : (ev k x).1 ≠ 0) (h' : Runs ev b (ev k x).2 (.ret v) y) : Runs ev (.loop k b) x (.ret v) y
  | seq {a b x y st z} (h : Runs ev a x .normal y) (h' : Runs ev b y st z) : Runs ev (.seq a b) x st z
  | skipped {a b x st y} (h : Runs ev a x st y) (hs : st ≠ .normal) : Runs ev (.seq a b) x st y
  | last {a x st y} (h : Runs ev a x st y) : Runs ev (.last a) x st y

end Ulam.EvalCtl
