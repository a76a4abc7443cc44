import Verif.EvalStmt.Spec
/-! # Functions and their statements on the node evaluation stack: property C143 -/
namespace Ulam.EvalStmt
open CallStack (CS Slot addFrame pushArg popArg returnFrame storeSlot loadSlot absIndex storeAt loadAt)

/-- A frame on top of `fr`, with its slots. -/
def inner (fr : List (Slot Int)) (cur : Nat) (xs : List (Slot Int)) : CS Int := ⟨fr ++ .fp cur :: xs, fr.length⟩

theorem prolog_eq (fr : List (Slot Int)) (cur : Nat) : prolog ⟨fr, cur⟩ = inner fr cur [] := rfl

theorem room_inner (fr : List (Slot Int)) (cur : Nat) (xs : List (Slot Int)) : room (inner fr cur xs) = inner fr cur (xs ++ [.val 0]) := by
  simp [room, inner, pushArg]

theorem prolog_inner (fr : List (Slot Int)) (cur : Nat) (xs : List (Slot Int)) :
    prolog (inner fr cur xs) = inner (fr ++ .fp cur :: xs) fr.length [] := rfl

theorem load_inner (fr : List (Slot Int)) (cur : Nat) (xs : List (Slot Int)) (k : Nat) (v : Int) (h : xs[k]? = some (.val v)) :
    load (inner fr cur xs) ((k : Int) + 1) = some v := by
  have : loadSlot (inner fr cur xs) ((k : Int) + 1) = some (.val v) := by
    unfold loadSlot absIndex inner
    dsimp only
    rw [if_pos (by omega), Option.bind_some, show ((fr.length : Int) + ((k : Int) + 1)).toNat = fr.length + (k + 1) by omega]
    unfold loadAt
    rw [List.getElem?_append_right (by omega)]
    simpa using h
  simp only [load, this]

theorem load_beyond (fr : List (Slot Int)) (cur : Nat) (xs : List (Slot Int)) (k : Nat) (h : xs.length ≤ k) :
    load (inner fr cur xs) ((k : Int) + 1) = none := by
  have : loadSlot (inner fr cur xs) ((k : Int) + 1) = none := by
    unfold loadSlot absIndex inner
    dsimp only
    rw [if_pos (by omega), Option.bind_some, show ((fr.length : Int) + ((k : Int) + 1)).toNat = fr.length + (k + 1) by omega]
    unfold loadAt
    rw [List.getElem?_append_right (by omega)]
    simpa using h
  simp only [load, this]

theorem handUp_inner (g : List (Slot Int)) (z : Slot Int) (cur : Nat) (xs : List (Slot Int)) (v : Int) :
    handUp (inner (g ++ [z]) cur xs) v = some (inner (g ++ [.val v]) cur xs) := by
  unfold handUp storeSlot absIndex inner
  dsimp only
  rw [if_pos (by simp; omega), Option.bind_some, show (((g ++ [z]).length : Int) + -1).toNat = g.length by simp; omega]
  unfold storeAt
  dsimp only
  rw [if_pos (by simp)]
  simp

theorem return_inner (fr : List (Slot Int)) (cur : Nat) (xs : List (Slot Int)) (h : cur ≤ fr.length) :
    returnFrame (inner fr cur xs) = some ⟨fr, cur⟩ := by
  unfold returnFrame inner
  dsimp only
  rw [List.getElem?_append_right (Nat.le_refl _)]
  simp
  omega

theorem as_inner (fr : List (Slot Int)) (cur : Nat) (xs : List (Slot Int)) : (⟨fr ++ .fp cur :: xs, fr.length⟩ : CS Int) = inner fr cur xs := rfl

theorem room_one (fr : List (Slot Int)) (cur : Nat) : room (prolog ⟨fr, cur⟩) = ⟨(fr ++ [.fp cur]) ++ [.val 0], fr.length⟩ := by
  simp [room, prolog, addFrame, pushArg]

theorem one (fr : List (Slot Int)) (cur : Nat) (v : Slot Int) : (⟨(fr ++ [.fp cur]) ++ [v], fr.length⟩ : CS Int) = inner fr cur [v] := by
  simp [inner]

theorem two (fr : List (Slot Int)) (cur : Nat) (u v : Slot Int) :
    (⟨(fr ++ [.fp cur, u]) ++ [v], fr.length⟩ : CS Int) = inner fr cur [u, v] := by
  simp [inner]

theorem load1 (fr : List (Slot Int)) (cur : Nat) (v : Int) (xs : List (Slot Int)) : load (inner fr cur (.val v :: xs)) 1 = some v :=
  load_inner fr cur _ 0 v rfl

theorem load2 (fr : List (Slot Int)) (cur : Nat) (u : Slot Int) (v : Int) (xs : List (Slot Int)) :
    load (inner fr cur (u :: .val v :: xs)) 2 = some v :=
  load_inner fr cur _ 1 v rfl

/-- The evaluation of an expression in room for its value. -/
def GoodE (env : List Int) (e : Expr) : Prop := ∀ (g : List (Slot Int)) (z : Slot Int) (cur : Nat), cur < g.length →
  evalE env e ⟨g ++ [z], cur⟩ = (worth env e).map fun v => ⟨g ++ [.val v], cur⟩

def GoodB (env : List Int) (b : Body) : Prop := ∀ (fr : List (Slot Int)) (cur : Nat), cur < fr.length →
  evalB env b ⟨fr, cur⟩ = (returns env b).map fun v => (v, ⟨fr, cur⟩)

/-- In a new frame with room. -/
theorem GoodE.one {env : List Int} {e : Expr} (h : GoodE env e) (fr : List (Slot Int)) (cur : Nat) :
    evalE env e (inner fr cur [.val 0]) = (worth env e).map fun v => inner fr cur [.val v] := by
  have := h (fr ++ [.fp cur]) (.val 0) fr.length (by simp)
  rw [EvalStmt.one] at this
  rw [this]
  simp only [EvalStmt.one]

theorem GoodE.two {env : List Int} {e : Expr} (h : GoodE env e) (fr : List (Slot Int)) (cur : Nat) (u : Slot Int) :
    evalE env e (inner fr cur [u, .val 0]) = (worth env e).map fun v => inner fr cur [u, .val v] := by
  have := h (fr ++ [.fp cur, u]) (.val 0) fr.length (by simp)
  rw [EvalStmt.two] at this
  rw [this]
  simp only [EvalStmt.two]

mutual
theorem goodE (env : List Int) : ∀ e : Expr, NoListE e → GoodE env e
  | .lit v, _ => by
    intro g z cur hc
    simp only [evalE, worth, prolog_eq, handUp_inner, Option.bind_some, Option.map_some]
    exact return_inner _ _ _ (by simp; omega)
  | .var k, _ => by
    intro g z cur hc
    simp only [evalE, worth, prolog_eq, handUp_inner, Option.bind_some]
    cases env[k]? with
    | none => rfl
    | some v => exact return_inner _ _ _ (by simp; omega)
  | .add l r, h => by
    intro g z cur hc
    have hl := goodE env l h.1
    have hr := goodE env r h.2
    simp only [evalE, worth, prolog_eq, room_inner, List.nil_append, hl.one]
    cases worth env l with
    | none => rfl
    | some a =>
      simp only [Option.map_some, Option.bind_some, room_inner, List.cons_append, List.nil_append, hr.two]
      cases worth env r with
      | none => rfl
      | some b =>
        simp only [Option.map_some, Option.bind_some, load1, load2, handUp_inner]
        exact return_inner _ _ _ (by simp; omega)
  | .call body, h => by
    intro g z cur hc
    have hb := goodB [] body h
    simp only [evalE, worth, prolog_eq, room_inner, List.nil_append, prolog_inner]
    have := hb (((g ++ [z]) ++ [.fp cur, .val 0]) ++ [.fp (g ++ [z]).length, .val 0]) ((g ++ [z]) ++ [Slot.fp cur, Slot.val (0 : Int)]).length (by simp)
    rw [as_inner] at this
    rw [this]
    cases returns [] body with
    | none => rfl
    | some v =>
      simp only [Option.map_some, Option.bind_some]
      rw [show (g ++ [z]) ++ [Slot.fp cur, .val 0] = ((g ++ [z]) ++ [.fp cur]) ++ [.val 0] by simp, handUp_inner]
      simp only [Option.bind_some]
      rw [return_inner _ _ _ (by simp)]
      simp only [Option.bind_some]
      rw [EvalStmt.one]
      simp only [load1, Option.bind_some, handUp_inner]
      exact return_inner _ _ _ (by simp; omega)
theorem goodB (env : List Int) : ∀ b : Body, NoListB b → GoodB env b
  | .ret e, h => by
    intro fr cur hc
    have he := goodE env e h
    simp only [evalB, returns, prolog_eq, room_inner, List.nil_append, prolog_inner, he.one]
    cases worth env e with
    | none => rfl
    | some v =>
      simp only [Option.map_some, Option.bind_some, load1]
      rw [return_inner _ _ _ (by simp)]
      simp only [Option.bind_some, as_inner]
      rw [return_inner _ _ _ (by omega)]
      rfl
  | .decl e rest, h => by
    intro fr cur hc
    have he := goodE env e h.1
    simp only [evalB, returns, prolog_eq, room_inner, List.nil_append, prolog_inner, List.cons_append, he.two]
    cases worth env e with
    | none => rfl
    | some v =>
      simp only [Option.map_some, Option.bind_some, load2]
      rw [show fr ++ [Slot.fp cur, .val 0] = (fr ++ [.fp cur]) ++ [.val 0] by simp, handUp_inner]
      simp only [Option.bind_some]
      rw [return_inner _ _ _ (by simp)]
      simp only [Option.bind_some]
      rw [EvalStmt.one, return_inner _ _ _ (by omega)]
      exact goodB (env ++ [v]) rest h.2 fr cur hc
  | .constList v rest, h => by
    intro fr cur hc
    simp only [evalB, returns, prolog_eq, room_inner]
    rw [return_inner _ _ _ (by omega)]
    exact goodB (env ++ [v]) rest h fr cur hc
  | .list _ _, h => h.elim
  | .expr e rest, h => by
    intro fr cur hc
    have he := goodE env e h.1
    simp only [evalB, returns, prolog_eq, room_inner, List.nil_append, prolog_inner, he.one]
    cases worth env e with
    | none => rfl
    | some v =>
      simp only [Option.map_some, Option.bind_some]
      rw [return_inner _ _ _ (by simp)]
      simp only [Option.bind_some, as_inner]
      rw [return_inner _ _ _ (by omega)]
      exact goodB env rest h.2 fr cur hc
end

/-- Property C143 without lists that are not known: an expression, whatever functions it calls, is evaluated to what it is worth, and the stack is otherwise as
before. Missing: variables initialised with such lists, for which see `C143_list_fails`. -/
theorem C143_value_partial (env : List Int) (e : Expr) (h : NoListE e) (s : CS Int) (hs : s.cur + 1 < s.frames.length) :
    evalE env e s = (worth env e).map fun v => ⟨s.frames.dropLast ++ [.val v], s.cur⟩ := by
  have hne : s.frames ≠ [] := by intro he; rw [he] at hs; simp at hs
  have := goodE env e h s.frames.dropLast (s.frames.getLast hne) s.cur (by simp; omega)
  rw [List.dropLast_concat_getLast hne] at this
  exact this

/-- Property C143 without lists that are not known: the statements of a function leave the stack as it was. -/
theorem C143_statements_partial (env : List Int) (b : Body) (h : NoListB b) (s : CS Int) (hs : s.cur < s.frames.length) :
    evalB env b s = (returns env b).map fun v => (v, s) :=
  goodB env b h s.frames s.cur hs

/-- The statement that initialises a variable with a list leaves its frame on the stack. -/
theorem list_step (env : List Int) (e : Expr) (rest : Body) (h : NoListE e) (v : Int) (hv : worth env e = some v) (fr : List (Slot Int))
    (cur : Nat) : evalB env (.list e rest) ⟨fr, cur⟩ = evalB (env ++ [v]) rest (inner fr cur [.val v]) := by
  have he := goodE env e h
  simp only [evalB, prolog_eq, room_inner, List.nil_append, prolog_inner, he.one, hv, Option.map_some, Option.bind_some, load1]
  rw [return_inner _ _ _ (by simp)]
  simp only [Option.bind_some, as_inner]
  rw [show fr ++ [Slot.fp cur, .val 0] = (fr ++ [.fp cur]) ++ [.val 0] by simp, handUp_inner]
  simp only [Option.bind_some]
  rw [return_inner _ _ _ (by simp)]
  simp only [Option.bind_some]
  rw [EvalStmt.one]

/-- Property C143 fails: a function that initialises a packed array with a list that is not known returns the right value, but leaves a frame of
two slots on the stack, which is the current one. -/
theorem C143_list_fails (env : List Int) (e : Expr) (rest : Body) (he : NoListE e) (hr : NoListB rest) (v w : Int)
    (hv : worth env e = some v) (hw : returns (env ++ [v]) rest = some w) (s : CS Int) :
    returns env (.list e rest) = some w ∧
      evalB env (.list e rest) s = some (w, ⟨s.frames ++ [.fp s.cur, .val v], s.frames.length⟩) := by
  refine ⟨by simp only [returns, hv, Option.bind_some, hw], ?_⟩
  rw [show s = ⟨s.frames, s.cur⟩ from rfl, list_step env e rest he v hv]
  have := goodB (env ++ [v]) rest hr (s.frames ++ [.fp s.cur, .val v]) s.frames.length (by simp)
  rw [as_inner] at this
  rw [this, hw]
  rfl

/-- A call of such a function: the frame of the call is left, with the value in its slot. -/
theorem call_list (env : List Int) (e : Expr) (rest : Body) (he : NoListE e) (hr : NoListB rest) (v w : Int)
    (hv : worth [] e = some v) (hw : returns [v] rest = some w) (fr : List (Slot Int)) (cur : Nat) :
    evalE env (.call (.list e rest)) ⟨fr, cur⟩ = some (inner fr cur [.val w]) := by
  have hb := fun s => (C143_list_fails [] e rest he hr v w hv hw s).2
  simp only [evalE, hb, Option.bind_some, prolog_eq, room_inner, List.nil_append, prolog_inner]
  generalize hG : (inner (fr ++ [Slot.fp cur, .val 0]) fr.length [.val 0]) = G
  have h1 : (⟨G.frames ++ [.fp G.cur, .val v], G.frames.length⟩ : CS Int) =
      inner ((fr ++ [.fp cur, .val 0] ++ [.fp fr.length]) ++ [.val 0]) (fr.length + 2) [.val v] := by
    subst hG
    simp [inner]
  rw [h1, handUp_inner]
  simp only [Option.bind_some]
  rw [return_inner _ _ _ (by simp)]
  simp only [Option.bind_some]
  have h2 : (⟨(fr ++ [.fp cur, .val 0] ++ [.fp fr.length]) ++ [.val w], fr.length + 2⟩ : CS Int) =
      inner ((fr ++ [.fp cur]) ++ [.val 0]) fr.length [.val w] := by
    simp [inner]
  rw [h2]
  simp only [load1, Option.bind_some, handUp_inner]
  rw [return_inner _ _ _ (by simp)]
  rw [EvalStmt.one]

/-- Property C143 fails: with such a function as the right operand of an addition an assertion fails, whatever the left operand, though the
addition is worth something. -/
theorem C143_operand_fails (env : List Int) (l e : Expr) (rest : Body) (hl : NoListE l) (he : NoListE e) (hr : NoListB rest) (a v w : Int)
    (ha : worth env l = some a) (hv : worth [] e = some v) (hw : returns [v] rest = some w) (s : CS Int) :
    worth env (.add l (.call (.list e rest))) = some (a + w) ∧ evalE env (.add l (.call (.list e rest))) s = none := by
  constructor
  · simp only [worth, returns, ha, hv, Option.bind_some, List.nil_append, hw, Option.map_some]
  · rw [show s = ⟨s.frames, s.cur⟩ from rfl, evalE]
    simp only [prolog_eq, room_inner, List.nil_append, (goodE env l hl).one, ha, Option.map_some, Option.bind_some, List.cons_append]
    rw [show inner s.frames s.cur [.val a, .val 0] = ⟨s.frames ++ [.fp s.cur, .val a, .val 0], s.frames.length⟩ from rfl,
      call_list env e rest he hr v w hv hw _ _]
    have h1 := load_beyond (s.frames ++ [.fp s.cur, .val a, .val 0]) s.frames.length [.val w] 1 (by simp)
    rw [show ((1 : Nat) : Int) + 1 = 2 from rfl] at h1
    simp only [Option.bind_some, load1, h1, Option.bind_none]

/-- As the left operand its value is the right one, and the frame of the addition is left instead, with the sum in its room. -/
theorem C143_left_operand (env : List Int) (r e : Expr) (rest : Body) (hr' : NoListE r) (he : NoListE e) (hr : NoListB rest) (b v w : Int)
    (hb : worth env r = some b) (hv : worth [] e = some v) (hw : returns [v] rest = some w) (s : CS Int) :
    evalE env (.add (.call (.list e rest)) r) s = some ⟨s.frames ++ [.fp s.cur, .val (w + b)], s.frames.length⟩ := by
  rw [show s = ⟨s.frames, s.cur⟩ from rfl, evalE]
  simp only [prolog_eq, room_inner, List.nil_append]
  rw [show inner s.frames s.cur [.val 0] = ⟨s.frames ++ [.fp s.cur, .val 0], s.frames.length⟩ from rfl,
    call_list env e rest he hr v w hv hw _ _]
  simp only [Option.bind_some, room_inner, List.cons_append, List.nil_append, (goodE env r hr').two, hb, Option.map_some, load1, load2]
  rw [show s.frames ++ [Slot.fp s.cur, .val 0] = (s.frames ++ [.fp s.cur]) ++ [.val 0] by simp, handUp_inner]
  simp only [Option.bind_some]
  rw [return_inner _ _ _ (by simp)]
  simp

/-- `f() { Int x = 4; Int(4) y[2] = { 4 }; x; return x + y[0]; }` and `1 + f()`. -/
example : evalE [] (.add (.lit 1) (.call (.decl (.lit 4) (.constList 4 (.expr (.var 0) (.ret (.add (.var 0) (.var 1)))))))) ⟨[.val 7, .fp 0, .val 0], 1⟩ =
    some ⟨[.val 7, .fp 0, .val 9], 1⟩ := by
  rw [C143_value_partial _ _ (by simp [NoListE, NoListB]) _ (by decide)]
  rfl

/-- `f() { Int(4) x[2] = { 4 }; return x[0]; }`, if the list were not known, and `1 + f()`. -/
example : evalE [] (.add (.lit 1) (.call (.list (.lit 4) (.ret (.var 0))))) ⟨[.val 7, .fp 0, .val 0], 1⟩ = none :=
  (C143_operand_fails [] (.lit 1) (.lit 4) (.ret (.var 0)) trivial trivial trivial 1 4 4 rfl rfl rfl _).2

end Ulam.EvalStmt
