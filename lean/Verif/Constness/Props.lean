import Verif.Constness.Lemmas

/-!
C87: what is declared constant is not changed by a program the compiler accepts. The compiler looks
at the way to what is stored into, but not through a choice, a reference cast, `storageof` and
`atomof`, a returned reference and an as-conditional; each of these lets a program change what it
was given as a constant.
-/
namespace Ulam.Constness

/-- In an accepted program in which choices, reference casts, `storageof` and `atomof` that are
stored into are of things not declared constant, and so are returned references and the subjects
of as-conditionals, running a function leaves every object as it was to which no name is bound that
is not declared constant: the named constants, and what is passed for constant references only.

Missing for the whole claim: the condition that the program is so (see the `_fails` theorems). -/
theorem C87_kept_partial (G : Prog) (is : St → Place → Nat → Bool) (K : Nat → Prop)
    (hA : Accepted G)
    (hS : ∀ i, Keeps G Straight (G.fn i) (start (G.fn i)) (G.fn i).body)
    (i n : Nat) (ρ : Env) (s : St) (r : Res) (he : Exist K s)
    (ha : Apart K (start (G.fn i)) ρ) (hr : exec G is n ρ s (G.fn i).body = some r) :
    Same K s r.st := by
  have H : ∀ j, Keeps G Open (G.fn j) (start (G.fn j)) (G.fn j).body := fun j =>
    keeps_open G (G.fn j) _ _ (hA j) (hS j)
  exact ((all_ok H n).2.2 (G.fn i) _ ρ s _ r he ha (H i) hr).2.1

/-- What an accepted function of such a program returns as a reference is none of those objects
either. -/
theorem C87_returned_partial (G : Prog) (is : St → Place → Nat → Bool) (K : Nat → Prop)
    (hA : Accepted G)
    (hS : ∀ i, Keeps G Straight (G.fn i) (start (G.fn i)) (G.fn i).body)
    (i n : Nat) (ρ : Env) (s : St) (r : Res) (p : Place) (he : Exist K s)
    (ha : Apart K (start (G.fn i)) ρ) (hr : exec G is n ρ s (G.fn i).body = some r)
    (hf : (G.fn i).retRef = true) (ho : r.out = some p) : ¬ K p.obj := by
  have H : ∀ j, Keeps G Open (G.fn j) (start (G.fn j)) (G.fn j).body := fun j =>
    keeps_open G (G.fn j) _ _ (hA j) (hS j)
  exact ((all_ok H n).2.2 (G.fn i) _ ρ s _ r he ha (H i) hr).2.2.2 hf p ho

/-- What is reached straight from a name declared constant, or a named constant, is refused as the
left side of an assignment of any kind, as what a function is called on, as what a reference that is
not constant is bound to, and as the argument for one. -/
theorem C87_refused (G : Prog) (Γ : Ctx) (e : Expr) (hs : Straight Γ e) (ho : ¬ Open Γ e) :
    (∀ b, label G Γ (.assign e b) = none) ∧ (∀ f b, label G Γ (.assignOp f e b) = none) ∧
      (∀ f as, label G Γ (.call e f as) = none) ∧
      (∀ f x, check G f Γ (.bind false x e) = false) ∧
      ∀ x ps as, labelArgs G Γ ((x, ⟨.ref, false⟩) :: ps) (.cons e as) = false := by
  have key : ∀ l, label G Γ e = some l → l.stor ≠ .yes ∧ l.refb ≠ .yes := fun l hl =>
    ⟨fun h => ho (label_open G Γ e l hl hs (Or.inl h)),
      fun h => ho (label_open G Γ e l hl hs (Or.inr h))⟩
  cases hl : label G Γ e with
  | none => simp [label, labelArgs, check, hl]
  | some l =>
    obtain ⟨h1, h2⟩ := key l hl
    refine ⟨fun b => ?_, fun f b => ?_, fun f as => ?_, fun f x => ?_, fun x ps as => ?_⟩
    · simp only [label, hl, Option.bind_some]
      cases label G Γ b <;> simp [labAssign, h1]
    · simp only [label, hl, Option.bind_some]
      cases label G Γ b <;> simp [labAssign, h1]
    · simp only [label, hl, Option.bind_some]
      split
      · simp [labCall, h1]
      · rfl
    · simp [check, hl, bindOk, h2]
    · have : argReferable ⟨.ref, false⟩ l = false := by
        cases h : l.refb <;> simp_all [argReferable, isAltRef]
      simp [labelArgs, hl, this]

/-- A part of a variable or parameter that is not declared constant. -/
def Part (Γ : Ctx) : Expr → Prop
  | .var x => ∃ s, Γ x = some s ∧ s.alt ≠ .cref ∧ s.cparam = false
  | .field e _ => Part Γ e
  | .base e _ => Part Γ e
  | .item str e _ => str = false ∧ Part Γ e
  | _ => False

theorem part_label (G : Prog) (Γ : Ctx) : ∀ (e : Expr), Part Γ e → ∀ l, label G Γ e = some l →
    l.stor = .yes ∧ l.refb = .yes ∧ l.alt ≠ .cref ∧ l.cnst = false ∧ l.xcast = false
  | .var x, h, l, hl => by
    obtain ⟨s, hs, h1, h2⟩ := h
    simp only [label, hs, Option.map_some, Option.some.injEq] at hl
    subst hl
    simp [labVar, h1, h2]
  | .field e m, h, l, hl => by
    simp only [label, Option.map_eq_some_iff] at hl
    obtain ⟨k, hk, rfl⟩ := hl
    have g := part_label G Γ e h k hk
    simp [labSelect, labMember, labVar, g, minTB]
  | .base e m, h, l, hl => by
    simp only [label, Option.map_eq_some_iff] at hl
    obtain ⟨k, hk, rfl⟩ := hl
    have g := part_label G Γ e h k hk
    simp [labBase, g]
  | .item str e i, h, l, hl => by
    simp only [label, Option.bind_eq_some_iff, Option.map_eq_some_iff] at hl
    obtain ⟨k, hk, j, hj, rfl⟩ := hl
    have g := part_label G Γ e h.2 k hk
    simp [labItem, h.1, g]

/-- A part of what is not declared constant is never refused: it may be assigned to, functions whose
arguments are accepted may be called on it, references may be bound to it, and it may be passed for
one. -/
theorem C87_allowed (G : Prog) (Γ : Ctx) (e : Expr) (l : Lab) (hp : Part Γ e)
    (hl : label G Γ e = some l) :
    (∀ b r, label G Γ b = some r → r.xref = false → (label G Γ (.assign e b)).isSome) ∧
      (∀ f as, labelArgs G Γ (G.fn f).params as = true → (label G Γ (.call e f as)).isSome) ∧
      (∀ f c x, check G f Γ (.bind c x e) = true) ∧
      ∀ x c ps as, labelArgs G Γ ps as = true →
        labelArgs G Γ ((x, ⟨if c then .cref else .ref, c⟩) :: ps) (.cons e as) = true := by
  obtain ⟨h1, h2, h3, h4, h5⟩ := part_label G Γ e hp l hl
  refine ⟨fun b r hb hr => ?_, fun f as h => ?_, fun f c x => ?_, fun x c ps as h => ?_⟩
  · simp [label, hl, hb, labAssign, h1, hr]
  · simp [label, hl, h, labCall, h1]
  · cases c <;> simp [check, hl, bindOk, h1, h2, h3]
  · cases c <;> simp [labelArgs, hl, h, argMatches, argReferable, h2, h3, h4, h5, isAltRef]

/-! ### The ways around it -/

/-- Two functions: one with the constant reference 1 and the value 2 as parameters, and one with a
constant reference only, that returns a reference. -/
def two (s t : Stmt) : Prog :=
  ⟨fun i => if i = 0 then ⟨[(1, ⟨.cref, true⟩), (2, ⟨.no, false⟩)], false, false, s⟩
    else ⟨[(1, ⟨.cref, true⟩)], true, false, t⟩, fun k => ⟨k, []⟩⟩

/-- `self` is object 0, the constant reference object 1, the value object 2. -/
def env : Env := fun x => ⟨x, []⟩

/-- Three objects, full of ones. -/
def ones : St := ⟨fun _ _ => 1, 3⟩

/-- `s` changes the object that its function has by a constant reference only. -/
def Changes (s t : Stmt) : Prop :=
  Accepted (two s t) ∧ Exist (· = 1) ones ∧ Apart (· = 1) (start ((two s t).fn 0)) env ∧
    ∃ n r, exec (two s t) (fun _ _ _ => true) n env ones ((two s t).fn 0).body = some r ∧
      ¬ Same (· = 1) ones r.st

theorem two_apart (s t : Stmt) : Apart (· = 1) (start ((two s t).fn 0)) env := by
  rintro x ⟨y, hy, h1, h2⟩ (rfl : x = 1)
  simp only [start, two, if_pos, List.foldr, Function.update_self, Option.some.injEq] at hy
  subst hy
  exact h1 rfl

theorem changes_of (s t : Stmt) (h0 : check (two s t) ((two s t).fn 0) (start ((two s t).fn 0)) s = true)
    (h1 : check (two s t) ((two s t).fn 1) (start ((two s t).fn 1)) t = true) (n : Nat) (v : Int)
    (h : (exec (two s t) (fun _ _ _ => true) n env ones ((two s t).fn 0).body).map
      (fun r => r.st.mem 1 [.mem 0]) = some v) (hv : v ≠ 1) : Changes s t := by
  refine ⟨fun i => ?_, fun o h => by simp only at h; subst h; decide, two_apart s t, n, ?_⟩
  · by_cases hi : i = 0
    · subst hi; exact h0
    · have e : (two s t).fn i = (two s t).fn 1 := by simp [two, hi]
      rw [e]; exact h1
  · rw [Option.map_eq_some_iff] at h
    obtain ⟨r, hr, h5⟩ := h
    refine ⟨r, hr, fun g => ?_⟩
    have := congrFun (g 1 rfl) [.mem 0]
    rw [h5] at this
    exact hv this

/-- `void f(constant C & c, Bool b) { (b ? c.m : c.m) = 5; }` changes `c`. -/
theorem C87_ternary_fails :
    Changes (.expr (.assign (.tern (.var 2) (.field (.var 1) 0) (.field (.var 1) 0)) (.lit 5)))
      (.ret (.var 0)) :=
  changes_of _ _ (by decide +kernel) (by decide +kernel) 9 5 (by decide +kernel) (by decide)

/-- `void f(constant C & c, Bool b) { Int & x = (Int &) c.m; x = 5; }` changes `c`. -/
theorem C87_cast_fails :
    Changes (.seq (.bind false 3 (.castRef (.field (.var 1) 0))) (.expr (.assign (.var 3) (.lit 5))))
      (.ret (.var 0)) :=
  changes_of _ _ (by decide +kernel) (by decide +kernel) 9 5 (by decide +kernel) (by decide)

/-- `void f(constant C & c, Bool b) { Atom & a = c.storageof; a = D.instanceof; }` changes `c`. -/
theorem C87_storageof_fails :
    Changes (.seq (.bind false 3 (.storageof (.var 1))) (.expr (.assign (.var 3) .inst)))
      (.ret (.var 0)) :=
  changes_of _ _ (by decide +kernel) (by decide +kernel) 9 0 (by decide +kernel) (by decide)

/-- `Int & g(constant C & c) { return c.m; }  void f(constant C & c, Bool b) { g(c) = 5; }` changes
`c`. -/
theorem C87_return_fails :
    Changes (.expr (.assign (.call (.var 0) 1 (.cons (.var 1) .nil)) (.lit 5)))
      (.ret (.field (.var 1) 0)) :=
  changes_of _ _ (by decide +kernel) (by decide +kernel) 9 5 (by decide +kernel) (by decide)

/-- `void f(constant C & c, Bool b) { if(c as D) c.m = 5; }` changes `c`. -/
theorem C87_as_fails :
    Changes (.ifAs 1 0 (.expr (.assign (.field (.var 1) 0) (.lit 5))) .skip) (.ret (.var 0)) :=
  changes_of _ _ (by decide +kernel) (by decide +kernel) 9 5 (by decide +kernel) (by decide)

/-- A reference cast of a constant reference by its name, of a named constant, and of an item of a
named constant at a constant index is refused. -/
theorem C87_cast_refused (G : Prog) (Γ : Ctx) :
    (∀ x s, Γ x = some s → s.alt = .cref → label G Γ (.castRef (.var x)) = none) ∧
      (∀ k, label G Γ (.castRef (.con k)) = none) ∧
      ∀ k v, label G Γ (.castRef (.item false (.con k) (.lit v))) = none := by
  refine ⟨fun x s h g => ?_, fun k => ?_, fun k v => ?_⟩
  · simp [label, h, labVar, labCastRef, g]
  · simp [label, labCon, labCastRef]
  · simp [label, labCon, labItem, labCastRef]

/-- A case. -/
example : label (two .skip .skip) (start ((two .skip .skip).fn 0)) (.castRef (.var 1)) = none ∧
    (label (two .skip .skip) (start ((two .skip .skip).fn 0)) (.castRef (.var 2))).isSome := by
  decide +kernel

/-! ### Cases -/

/-- `void f(constant C & c, Bool b) { C x = c; while(x.m) x.m = x.m - 1; g(c); self.m = c.m; }` with
`Int & g(constant C & c) { return self.m; }`. -/
def tame : Stmt :=
  .seq (.decl 3 (.var 1)) <|
  .seq (.loop (.field (.var 3) 0) (.expr (.assignOp (· - ·) (.field (.var 3) 0) (.lit 1)))) <|
  .seq (.expr (.call (.var 0) 1 (.cons (.var 1) .nil)))
    (.expr (.assign (.field (.var 0) 0) (.field (.var 1) 0)))

def tameRet : Stmt := .ret (.field (.var 0) 0)

/-- The hypotheses of `C87_kept_partial` hold of it, and it runs to its end. -/
example : Accepted (two tame tameRet) ∧
    (∀ i, Keeps (two tame tameRet) Straight ((two tame tameRet).fn i)
      (start ((two tame tameRet).fn i)) ((two tame tameRet).fn i).body) ∧
    Exist (· = 1) ones ∧ Apart (· = 1) (start ((two tame tameRet).fn 0)) env ∧
    (exec (two tame tameRet) (fun _ _ _ => true) 20 env ones
      ((two tame tameRet).fn 0).body).isSome := by
  refine ⟨fun i => ?_, fun i => ?_, fun o h => by simp only at h; subst h; decide,
    two_apart _ _, by decide +kernel⟩
  · by_cases hi : i = 0
    · subst hi; decide +kernel
    · have e : (two tame tameRet).fn i = (two tame tameRet).fn 1 := by simp [two, hi]
      rw [e]; decide +kernel
  · by_cases hi : i = 0
    · subst hi
      simp [two, tame, Keeps, Targets, TargetsArgs, Straight]
    · have e : (two tame tameRet).fn i = (two tame tameRet).fn 1 := by simp [two, hi]
      rw [e]
      simp [two, tameRet, Keeps, Targets, Open, start]

/-- `c.m[2]` of the constant reference is straight and not open. -/
example : Straight (start ((two tame tameRet).fn 0)) (.item false (.field (.var 1) 0) (.lit 2)) ∧
    ¬ Open (start ((two tame tameRet).fn 0)) (.item false (.field (.var 1) 0) (.lit 2)) := by
  simp [Straight, Open, start, two]

/-- `b` is a part of itself, and `self.m[2]` one of `self`. -/
example : Part (start ((two tame tameRet).fn 0)) (.var 2) ∧
    Part (start ((two tame tameRet).fn 0)) (.item false (.field (.var 0) 0) (.lit 2)) := by
  simp [Part, start, two]

end Ulam.Constness
