import Verif.Control.Spec
import Mathlib.Tactic.Tauto
/- The parser's bookkeeping: shape of the stack, errors, uses. -/
namespace Ulam.Control

def shape (st : List Desc) : List (Kind × Nat) := st.map fun d => (d.kind, d.num)

def hasLoop (st : List Desc) : Bool := st.any Desc.isLoop

theorem isLoop_eq (d : Desc) : d.isLoop = (d.kind != .which) := by
  unfold Desc.isLoop; cases d.kind <;> rfl

theorem hasLoop_shape {a b : List Desc} (h : shape a = shape b) : hasLoop a = hasLoop b := by
  have key : ∀ st, hasLoop st = (shape st).any fun x => x.1 != .which := by
    intro st
    simp only [hasLoop, shape, List.any_map]
    congr 1
    funext d
    exact isLoop_eq d
  rw [key, key, h]

theorem isEmpty_shape {a b : List Desc} (h : shape a = shape b) : a.isEmpty = b.isEmpty := by
  have := congrArg List.isEmpty h
  simpa [shape] using this

theorem shape_break (st : List Desc) : shape (nearestBreak st).2 = shape st := by
  cases st with
  | nil => rfl
  | cons d ds => simp only [nearestBreak]; split <;> rfl

theorem shape_cont (st : List Desc) : shape (nearestContinue st).2 = shape st := by
  induction st with
  | nil => rfl
  | cons d ds ih =>
    unfold nearestContinue
    split
    · rfl
    · simp only [shape, List.map_cons] at ih ⊢
      rw [ih]

theorem shape_tail {a b : List Desc} (h : shape a = shape b) : shape a.tail = shape b.tail := by
  have := congrArg List.tail h
  simpa [shape] using this

/-- What parsing leaves alone or only increases. -/
structure Keeps (p q : PS) : Prop where
  shape : shape q.stack = shape p.stack
  errs : p.errs ≤ q.errs
  next : p.next ≤ q.next

theorem Keeps.refl (p : PS) : Keeps p p := ⟨rfl, Nat.le_refl _, Nat.le_refl _⟩
theorem Keeps.trans {p q r : PS} (a : Keeps p q) (b : Keeps q r) : Keeps p r :=
  ⟨b.shape.trans a.shape, Nat.le_trans a.errs b.errs, Nat.le_trans a.next b.next⟩
theorem Keeps.err (p : PS) : Keeps p p.err := ⟨rfl, Nat.le_succ _, Nat.le_refl _⟩

theorem Keeps.sanity (nd : Bool) (p : PS) : Keeps p (p.sanity nd) := by
  unfold PS.sanity
  split
  · exact .refl p
  · exact ⟨shape_cont _, Nat.le_refl _, Nat.le_refl _⟩

theorem Keeps.loopBody (nd : Bool) (p : PS) (b : Node) (st : Option Nat) : Keeps p (loopBody nd p b st).2 := by
  unfold Control.loopBody
  simp only
  split
  · exact .refl p
  · cases nd
    · exact ⟨rfl, Nat.le_refl _, Nat.le_refl _⟩
    · exact .refl p

/-- Around a construct that pushes and pops. -/
theorem Keeps.around {p q r : PS} {k : Kind} (hq : Control.shape q.stack = Control.shape (p.push k).stack)
    (he : p.errs = q.errs) (hn : p.next ≤ q.next) (h : Keeps q r) : Keeps p r.pop := by
  refine ⟨?_, he ▸ h.errs, Nat.le_trans hn h.next⟩
  have := shape_tail (h.shape.trans hq)
  simpa [PS.pop, PS.push] using this

mutual
theorem parse_keeps (nd : Bool) : ∀ (s : Stmt) (p : PS), Keeps p (parse nd s p).2
  | .act a, p => by simp only [parse]; exact .refl p
  | .ret, p => by simp only [parse]; exact .refl p
  | .brk, p => by
    simp only [parse]
    split
    · exact ⟨shape_break _, Nat.le_refl _, Nat.le_refl _⟩
    · exact .err p
  | .cont, p => by
    simp only [parse]
    split
    · exact ⟨shape_cont _, Nat.le_refl _, Nat.le_refl _⟩
    · exact ⟨shape_cont _, Nat.le_succ _, Nat.le_refl _⟩
  | .block ss, p => by simp only [parse]; exact parses_keeps nd ss p
  | .ite c t, p => by simp only [parse]; exact parse_keeps nd t p
  | .iteElse c t e, p => by
    simp only [parse]
    exact (parse_keeps nd t p).trans (parse_keeps nd e _)
  | .whil c b, p => by
    simp only [parse]
    refine Keeps.around (q := (p.push .whil).sanity nd) (k := .whil) (Keeps.sanity nd _).shape ?_ ?_
      ((parse_keeps nd b _).trans (Keeps.loopBody nd _ _ _))
    · unfold PS.sanity; split <;> rfl
    · exact Nat.le_trans (Nat.le_succ _) (Keeps.sanity nd (p.push .whil)).next
  | .forr i c st b, p => by
    simp only [parse]
    refine Keeps.around (q := (p.push .forr).sanity nd) (k := .forr) (Keeps.sanity nd _).shape ?_ ?_
      ((parse_keeps nd b _).trans (Keeps.loopBody nd _ _ _))
    · unfold PS.sanity; split <;> rfl
    · exact Nat.le_trans (Nat.le_succ _) (Keeps.sanity nd (p.push .forr)).next
  | .which e gs, p => by
    simp only [parse]
    exact Keeps.around (k := .which) (q := { p.push .which with next := (p.push .which).next + 1 }) rfl rfl
      (by simp only [PS.push]; omega) (parseGroups_keeps nd _ _ gs true false _)
theorem parses_keeps (nd : Bool) : ∀ (ss : Stmts) (p : PS), Keeps p (parses nd ss p).2
  | .nil, p => by simp only [parses]; exact .refl p
  | .cons s ss, p => by
    simp only [parses]
    exact (parse_keeps nd s p).trans (parses_keeps nd ss _)
theorem parseGroups_keeps (nd : Bool) (num : Nat) (v : Bool) : ∀ (gs : Groups) (first seen : Bool) (p : PS),
    Keeps p (parseGroups nd num v gs first seen p).2
  | .nil, first, seen, p => by simp only [parseGroups]; exact .refl p
  | .cons l ls b gs, first, seen, p => by
    simp only [parseGroups]
    split
    · exact .err p
    · exact .err p
    · split
      · exact (parse_keeps nd b p).trans (parseGroups_keeps nd num v gs _ _ _)
      · exact (parse_keeps nd b p).trans (parseGroups_keeps nd num v gs _ _ _)
end

/-! ### Labels of a group -/

theorem restOfCase_seen (num : Nat) (v : Bool) (ls : List (Option Nat)) (cur d) :
    restOfCase num v ls cur d true = if ls = [] then some (cur, d, true) else none := by
  cases ls with
  | nil => rfl
  | cons l ls => cases l <;> simp [restOfCase]

/-- The condition of a group without `otherwise`, from the left. -/
def orAll (num : Nat) (v : Bool) : Cond → List Nat → Cond
  | c, [] => c
  | c, e :: es => orAll num v (.or c (caseCond num v e)) es

theorem labelsOk_none (last : Bool) (ls : List (Option Nat)) (h : labelsOk last ls = true) (hn : none ∈ ls) :
    last = true ∧ ∃ es : List Nat, ls = es.map some ++ [none] := by
  induction ls with
  | nil => simp at hn
  | cons l ls ih =>
    cases l with
    | some e =>
      simp only [labelsOk] at h
      have hn' : none ∈ ls := by simpa using hn
      obtain ⟨hl, es, rfl⟩ := ih h hn'
      exact ⟨hl, e :: es, rfl⟩
    | none =>
      cases ls with
      | nil => exact ⟨by simpa [labelsOk] using h, [], rfl⟩
      | cons a b => simp [labelsOk] at h

theorem labelsOk_some (last : Bool) (es : List Nat) : labelsOk last (es.map some) = true := by
  induction es with
  | nil => rfl
  | cons e es ih => simpa [labelsOk] using ih

theorem labels_cases (ls : List (Option Nat)) : (∃ es : List Nat, ls = es.map some) ∨
    (∃ (es : List Nat) (r : List (Option Nat)), ls = es.map some ++ none :: r) := by
  induction ls with
  | nil => exact .inl ⟨[], rfl⟩
  | cons l ls ih =>
    cases l with
    | none => exact .inr ⟨[], ls, rfl⟩
    | some e =>
      rcases ih with ⟨es, rfl⟩ | ⟨es, r, rfl⟩
      · exact .inl ⟨e :: es, rfl⟩
      · exact .inr ⟨e :: es, r, rfl⟩

theorem labelsOk_mid (last : Bool) (es : List Nat) (r : List (Option Nat)) :
    labelsOk last (es.map some ++ none :: r) = (last && r.isEmpty) := by
  induction es with
  | nil => cases r <;> simp [labelsOk]
  | cons e es ih => simpa [labelsOk] using ih

theorem restOfCase_some_cur (num : Nat) (v : Bool) (es : List Nat) (r : List (Option Nat)) (c : Cond) (d : Bool) :
    restOfCase num v (es.map some ++ r) (some c) d false =
      restOfCase num v r (some (orAll num v c es)) (if es = [] then d else false) false := by
  induction es generalizing c d with
  | nil => simp [orAll]
  | cons e es ih =>
    simp only [List.map_cons, List.cons_append, restOfCase, orAll]
    simp only [Bool.false_eq_true, if_false]
    rw [ih]
    simp

/-- No `otherwise`: the tests are joined by `||`. -/
theorem restOfCase_plain (num : Nat) (v : Bool) (e : Nat) (es : List Nat) :
    restOfCase num v ((e :: es).map some) none false false =
      some (some (orAll num v (caseCond num v e) es), false, false) := by
  have := restOfCase_some_cur num v es [] (caseCond num v e) false
  simp only [List.append_nil] at this
  simp only [List.map_cons, restOfCase, Bool.false_eq_true, if_false]
  rw [this]
  simp [restOfCase]

/-- With `otherwise`: accepted only in the last place, and the condition is then `true`. -/
theorem restOfCase_otherwise (num : Nat) (v : Bool) (es : List Nat) (r : List (Option Nat)) :
    restOfCase num v (es.map some ++ none :: r) none false false =
      if r = [] then some (some .tt, true, true) else none := by
  have base : ∀ cur d, restOfCase num v (none :: r) cur d false =
      if r = [] then some (some .tt, true, true) else none := by
    intro cur d
    simp only [restOfCase, Bool.false_eq_true, if_false]
    exact restOfCase_seen num v r _ _
  cases es with
  | nil => exact base none false
  | cons e es =>
    simp only [List.map_cons, List.cons_append, restOfCase, Bool.false_eq_true, if_false]
    rw [restOfCase_some_cur]
    exact base _ _

/-! ### Errors -/

def Groups.isNil : Groups → Bool
  | .nil => true
  | .cons .. => false

theorem groupsOk_cons (inLoop : Bool) (l ls b gs) : groupsOk inLoop (.cons l ls b gs) =
    (labelsOk gs.isNil (l :: ls) && (wellFormed inLoop true b && groupsOk inLoop gs)) := by
  cases gs with
  | nil => simp [groupsOk, Groups.isNil]
  | cons a b' c d => simp [groupsOk, Groups.isNil]

def numsPos (st : List Desc) : Prop := ∀ x ∈ shape st, 0 < x.2

theorem numsPos_shape {a b : List Desc} (h : shape a = shape b) : numsPos a ↔ numsPos b := by
  unfold numsPos; rw [h]

theorem nearestContinue_pos (st : List Desc) (h : numsPos st) : (nearestContinue st).1 ≠ 0 ↔ hasLoop st = true := by
  induction st with
  | nil => simp [nearestContinue, hasLoop]
  | cons d ds ih =>
    have hd : 0 < d.num := h (d.kind, d.num) (by simp [shape])
    have ht : numsPos ds := fun x hx => h x (by simp only [shape, List.map_cons, List.mem_cons] at hx ⊢; exact .inr hx)
    unfold nearestContinue
    cases hl : d.isLoop with
    | true => simp only [if_true, hasLoop, List.any_cons, hl, Bool.true_or, iff_true]; omega
    | false => simpa [hasLoop, hl] using ih ht

theorem errs_two {a b c : Nat} (h1 : a ≤ b) (h2 : b ≤ c) {P Q : Prop} (hp : b = a ↔ P) (hq : c = b ↔ Q) :
    c = a ↔ P ∧ Q := by
  rw [← hp, ← hq]; omega

theorem loopBody_errs (nd : Bool) (p : PS) (b : Node) (st : Option Nat) : (loopBody nd p b st).2.errs = p.errs := by
  unfold loopBody
  simp only
  split
  · rfl
  · cases nd <;> rfl

theorem loopBody_next (nd : Bool) (p : PS) (b : Node) (st : Option Nat) : (loopBody nd p b st).2.next = p.next := by
  unfold loopBody
  simp only
  split
  · rfl
  · cases nd <;> rfl

theorem loopBody_stack (nd : Bool) (p : PS) (b : Node) (st : Option Nat) : (loopBody nd p b st).2.stack = p.stack := by
  unfold loopBody
  simp only
  split
  · rfl
  · cases nd <;> rfl

theorem sanity_errs (nd : Bool) (p : PS) : (p.sanity nd).errs = p.errs := by unfold PS.sanity; split <;> rfl
theorem sanity_next (nd : Bool) (p : PS) : (p.sanity nd).next = p.next := by unfold PS.sanity; split <;> rfl
theorem sanity_aborted (nd : Bool) (p : PS) : (p.sanity nd).aborted = p.aborted := by unfold PS.sanity; split <;> rfl

theorem numsPos_push (p : PS) (k : Kind) (h : numsPos p.stack) : numsPos (p.push k).stack := by
  intro x hx
  simp only [PS.push, shape, List.map_cons, List.mem_cons] at hx
  rcases hx with rfl | hx
  · exact Nat.succ_pos _
  · exact h x hx

theorem wf_env {p q : PS} (h : Keeps p q) (s : Stmt) :
    wellFormed (hasLoop q.stack) (!q.stack.isEmpty) s = wellFormed (hasLoop p.stack) (!p.stack.isEmpty) s := by
  rw [hasLoop_shape h.shape, isEmpty_shape h.shape]

theorem sanity_push_loop (nd : Bool) (p : PS) (k : Kind) (hk : k ≠ .which) :
    hasLoop ((p.push k).sanity nd).stack = true ∧ (!((p.push k).sanity nd).stack.isEmpty) = true ∧
      (numsPos p.stack → numsPos ((p.push k).sanity nd).stack) := by
  have hs := (Keeps.sanity nd (p.push k)).shape
  refine ⟨?_, ?_, fun h => (numsPos_shape hs).mpr (numsPos_push p k h)⟩
  · rw [hasLoop_shape hs]
    simp only [PS.push, hasLoop, List.any_cons, isLoop_eq]
    cases k <;> simp_all
  · rw [isEmpty_shape hs]; rfl

mutual
theorem parse_errs (nd : Bool) : ∀ (s : Stmt) (p : PS), numsPos p.stack →
    ((parse nd s p).2.errs = p.errs ↔ wellFormed (hasLoop p.stack) (!p.stack.isEmpty) s = true)
  | .act a, p, _ => by simp [parse, wellFormed]
  | .ret, p, _ => by simp [parse, wellFormed]
  | .brk, p, _ => by
    by_cases h : p.stack.isEmpty = true
    · simp [parse, wellFormed, okBreak, h, PS.err]
    · simp [parse, wellFormed, okBreak, h]
  | .cont, p, hp => by
    simp only [parse, wellFormed]
    have := nearestContinue_pos p.stack hp
    split
    · next h => simpa using this.mp h
    · next h =>
      simp only [PS.err]
      constructor
      · intro h'; omega
      · intro h'; exact absurd (this.mpr h') h
  | .block ss, p, hp => by simp only [parse, wellFormed]; exact parses_errs nd ss p hp
  | .ite c t, p, hp => by simp only [parse, wellFormed]; exact parse_errs nd t p hp
  | .iteElse c t e, p, hp => by
    simp only [parse, wellFormed, Bool.and_eq_true]
    have k1 := parse_keeps nd t p
    have k2 := parse_keeps nd e (parse nd t p).2
    refine errs_two k1.errs k2.errs (parse_errs nd t p hp) ?_
    rw [← wf_env k1]
    exact parse_errs nd e _ ((numsPos_shape k1.shape).mpr hp)
  | .whil c b, p, hp => by
    simp only [parse, wellFormed, PS.pop, loopBody_errs]
    obtain ⟨h1, h2, h3⟩ := sanity_push_loop nd p .whil (by decide)
    have := parse_errs nd b ((p.push .whil).sanity nd) (h3 hp)
    rw [h1, h2, sanity_errs] at this
    exact this
  | .forr i c st b, p, hp => by
    simp only [parse, wellFormed, PS.pop, loopBody_errs]
    obtain ⟨h1, h2, h3⟩ := sanity_push_loop nd p .forr (by decide)
    have := parse_errs nd b ((p.push .forr).sanity nd) (h3 hp)
    rw [h1, h2, sanity_errs] at this
    exact this
  | .which e gs, p, hp => by
    simp only [parse, wellFormed, PS.pop]
    have hl : hasLoop (p.push .which).stack = hasLoop p.stack := by
      simp [PS.push, hasLoop, isLoop_eq]
    have := parseGroups_errs nd ((p.push .which).next + 1) e.isSome gs true false
      { p.push .which with next := (p.push .which).next + 1 } (numsPos_push p .which hp) rfl
    simp only [hl] at this
    refine this.trans ?_
    simp
theorem parses_errs (nd : Bool) : ∀ (ss : Stmts) (p : PS), numsPos p.stack →
    ((parses nd ss p).2.errs = p.errs ↔ wellFormeds (hasLoop p.stack) (!p.stack.isEmpty) ss = true)
  | .nil, p, _ => by simp [parses, wellFormeds]
  | .cons s ss, p, hp => by
    simp only [parses, wellFormeds, Bool.and_eq_true]
    have k1 := parse_keeps nd s p
    have k2 := parses_keeps nd ss (parse nd s p).2
    refine errs_two k1.errs k2.errs (parse_errs nd s p hp) ?_
    rw [← hasLoop_shape k1.shape, ← isEmpty_shape k1.shape]
    exact parses_errs nd ss _ ((numsPos_shape k1.shape).mpr hp)
theorem parseGroups_errs (nd : Bool) (num : Nat) (v : Bool) : ∀ (gs : Groups) (first seen : Bool) (p : PS),
    numsPos p.stack → p.stack.isEmpty = false →
    ((parseGroups nd num v gs first seen p).2.errs = p.errs ↔
      (seen = true → gs.isNil = true) ∧ groupsOk (hasLoop p.stack) gs = true)
  | .nil, first, seen, p, _, _ => by simp [parseGroups, Groups.isNil, groupsOk]
  | .cons l ls b gs, first, seen, p, hp, hne => by
    have bad : (p.err.errs = p.errs) ↔ False := by simp [PS.err]
    cases seen with
    | true =>
      simp only [parseGroups, restOfCase_seen, reduceCtorEq, if_false]
      rw [bad]
      simp [Groups.isNil]
    | false =>
      have hb := parse_errs nd b p hp
      rw [hne] at hb
      have k1 := parse_keeps nd b p
      have ih (first seen) := parseGroups_errs nd num v gs first seen (parse nd b p).2
        ((numsPos_shape k1.shape).mpr hp) ((isEmpty_shape k1.shape).trans hne)
      rw [hasLoop_shape k1.shape] at ih
      have k2 (first seen) := parseGroups_keeps nd num v gs first seen (parse nd b p).2
      rw [groupsOk_cons]
      simp only [Bool.false_eq_true, false_implies, true_and]
      rcases labels_cases (l :: ls) with ⟨es, hes⟩ | ⟨es, r, hes⟩
      · obtain ⟨e, es, rfl⟩ : ∃ e es', es = e :: es' := by
          cases es with
          | nil => simp at hes
          | cons e es => exact ⟨e, es, rfl⟩
        simp only [parseGroups]
        rw [hes, restOfCase_plain, labelsOk_some]
        simp only [true_or, if_true, Bool.true_and, Bool.and_eq_true]
        refine errs_two k1.errs (k2 _ _).errs (by simpa using hb) ?_
        rw [ih]; simp
      · simp only [parseGroups]
        rw [hes, restOfCase_otherwise, labelsOk_mid]
        cases r with
        | cons a r =>
          simp only [reduceCtorEq, if_false]
          rw [bad]; simp
        | nil =>
          simp only [if_true, List.isEmpty_nil, Bool.and_true, Bool.and_eq_true]
          have fin : ∀ first', ((parseGroups nd num v gs first' true (parse nd b p).2).2.errs = p.errs) ↔
              gs.isNil = true ∧ wellFormed (hasLoop p.stack) true b = true ∧ groupsOk (hasLoop p.stack) gs = true := by
            intro first'
            rw [errs_two k1.errs (k2 first' true).errs (by simpa using hb) (ih first' true)]
            simp only [true_implies]
            tauto
          split
          · exact fin _
          · exact fin _
end

end Ulam.Control
