import Verif.EvalCtl.Spec
import Verif.EvalStmt.Props
/-! # Conditions, loops, and leaving them, on the node evaluation stack: property C144 -/
namespace Ulam.EvalCtl
open CallStack (CS Slot popArg returnFrame)
open EvalStmt (prolog room load handUp inner prolog_eq room_inner prolog_inner load1 handUp_inner return_inner as_inner)

variable {σ : Type} (ev : Nat → σ → Int × σ)

/-- The stack after a statement: as before, but for the value in its room, if it has any. -/
def After (p : Stmt) (fr fr' : List (Slot Int)) : Prop :=
  if slots p = 1 then ∃ v, fr' = fr.dropLast ++ [v] else fr' = fr

/-- There is a frame, and room for the statement. -/
def Roomy (p : Stmt) (fr : List (Slot Int)) (cur : Nat) : Prop := if slots p = 1 then cur + 1 < fr.length else cur < fr.length

theorem slots_le (p : Stmt) : slots p = 1 ∨ slots p = 0 := by cases p <;> simp [slots]

theorem slots_statements {p : Stmt} (h : isStatements p = true) : slots p = 0 := by
  cases p <;> simp_all [isStatements, slots]

theorem evalX_one (k : Nat) (x : σ) (fr : List (Slot Int)) (cur : Nat) (xs : List (Slot Int)) (z : Slot Int) :
    evalX ev k x (inner fr cur (xs ++ [z])) = some ((ev k x).2, inner fr cur (xs ++ [.val (ev k x).1])) := by
  unfold evalX
  rw [show inner fr cur (xs ++ [z]) = ⟨(fr ++ .fp cur :: xs) ++ [z], fr.length⟩ by simp [inner], prolog_eq, handUp_inner]
  simp only [Option.bind_some]
  rw [return_inner _ _ _ (by simp)]
  simp [inner]

theorem evalX_first (k : Nat) (x : σ) (fr : List (Slot Int)) (cur : Nat) (z : Slot Int) :
    evalX ev k x (inner fr cur [z]) = some ((ev k x).2, inner fr cur [.val (ev k x).1]) := evalX_one ev k x fr cur [] z

theorem popVal_inner (fr : List (Slot Int)) (cur : Nat) (xs : List (Slot Int)) (v : Int) :
    popVal (inner fr cur (xs ++ [.val v])) = some (v, inner fr cur xs) := by
  unfold popVal popArg
  rw [show inner fr cur (xs ++ [.val v]) = ⟨(fr ++ .fp cur :: xs) ++ [.val v], fr.length⟩ by simp [inner]]
  dsimp only
  rw [List.getLast?_concat, List.dropLast_concat]
  rfl

/-- A statement in its room in the frame of another. -/
theorem after_room {p : Stmt} {fr fr' : List (Slot Int)} {cur : Nat} {xs : List (Slot Int)}
    (h : After p (roomFor p (inner fr cur xs)).frames fr') : ∃ ys, (⟨fr', fr.length⟩ : CS Int) = inner fr cur (xs ++ ys) ∧ ys.length = slots p := by
  unfold After roomFor at h
  rcases slots_le p with hs | hs
  · rw [if_pos hs, if_pos hs] at h
    obtain ⟨v, hv⟩ := h
    rw [room_inner] at hv
    refine ⟨[v], ?_, by simp [hs]⟩
    rw [hv, show (inner fr cur (xs ++ [.val 0])).frames = (fr ++ .fp cur :: xs) ++ [.val 0] by simp [inner], List.dropLast_concat]
    simp [inner]
  · rw [if_neg (by omega), if_neg (by omega)] at h
    exact ⟨[], by rw [h]; simp [inner], by simp [hs]⟩

theorem roomFor_cur (p : Stmt) (fr : List (Slot Int)) (cur : Nat) (xs : List (Slot Int)) :
    roomFor p (inner fr cur xs) = ⟨(roomFor p (inner fr cur xs)).frames, fr.length⟩ := by
  unfold roomFor
  split <;> rfl

theorem roomy_room (p : Stmt) (fr : List (Slot Int)) (cur : Nat) (xs : List (Slot Int)) :
    Roomy p (roomFor p (inner fr cur xs)).frames fr.length := by
  unfold Roomy roomFor
  split <;> simp [room, inner, CallStack.pushArg]

theorem unroom (p : Stmt) (fr : List (Slot Int)) (cur : Nat) (xs ys : List (Slot Int)) (h : ys.length = slots p) :
    unroomFor p (inner fr cur (xs ++ ys)) = some (inner fr cur xs) := by
  unfold unroomFor
  rcases slots_le p with hs | hs
  · rw [if_pos hs]
    rw [hs] at h
    match ys, h with
    | [y], _ =>
      unfold popArg
      rw [show inner fr cur (xs ++ [y]) = ⟨(fr ++ .fp cur :: xs) ++ [y], fr.length⟩ by simp [inner]]
      dsimp only
      rw [List.getLast?_concat, List.dropLast_concat]
      rfl
  · rw [if_neg (by omega)]
    rw [hs] at h
    match ys, h with
    | [], _ => simp

/-- What is to be shown of a statement with some fuel. -/
def Good (n : Nat) (p : Stmt) : Prop := WF p → ∀ (x : σ) (fr : List (Slot Int)) (cur : Nat), Roomy p fr cur →
  ∀ st y s', eval ev n p x ⟨fr, cur⟩ = some (st, y, s') → Runs ev p x st y ∧ s'.cur = cur ∧ After p fr s'.frames

def GoodLoop (n : Nat) (k : Nat) (body : Stmt) : Prop := WF body → ∀ (x : σ) (g : List (Slot Int)) (z : Slot Int) (cur : Nat), cur < g.length →
  ∀ st y s', evalLoop ev n k body (ev k x).1 (ev k x).2 (inner (g ++ [z]) cur []) = some (st, y, s') →
    Runs ev (.loop k body) x st y ∧ s'.cur = cur ∧ ∃ v, s'.frames = g ++ [v]

/-- In the frame of another statement. -/
theorem Good.within {n : Nat} {p : Stmt} (h : Good ev n p) (hw : WF p) (x : σ) (fr : List (Slot Int)) (cur : Nat) (xs : List (Slot Int)) (st : Status)
    (y : σ) (s' : CS Int) (he : eval ev n p x (roomFor p (inner fr cur xs)) = some (st, y, s')) :
    Runs ev p x st y ∧ ∃ ys, s' = inner fr cur (xs ++ ys) ∧ ys.length = slots p := by
  rw [roomFor_cur] at he
  obtain ⟨h1, h2, h3⟩ := h hw x _ _ (roomy_room p fr cur xs) st y s' he
  obtain ⟨ys, h4, h5⟩ := after_room h3
  refine ⟨h1, ys, ?_, h5⟩
  rw [← h4, ← h2]

theorem finish_inner (st : Status) (x : σ) (fr : List (Slot Int)) (cur : Nat) (xs : List (Slot Int)) (h : cur ≤ fr.length) :
    finish st x (inner fr cur xs) = some (st, x, ⟨fr, cur⟩) := by
  unfold finish
  rw [return_inner _ _ _ h]
  rfl

theorem split_last {fr : List (Slot Int)} {cur : Nat} (h : cur + 1 < fr.length) :
    ∃ g z, fr = g ++ [z] ∧ cur < g.length := by
  have hne : fr ≠ [] := by intro he; rw [he] at h; simp at h
  refine ⟨fr.dropLast, fr.getLast hne, (List.dropLast_concat_getLast hne).symm, by simp; omega⟩

theorem good (n : Nat) : (∀ p, Good ev n p) ∧ ∀ k body, GoodLoop ev n k body := by
  induction n with
  | zero => exact ⟨fun p _ x fr cur _ st y s' h => by simp [eval] at h, fun k body _ x g z cur _ st y s' h => by simp [evalLoop] at h⟩
  | succ n ih =>
    obtain ⟨ih, ihl⟩ := ih
    constructor
    · intro p hw x fr cur hr st y s' h
      cases p with
      | skip =>
        simp only [eval, Option.some.injEq, Prod.mk.injEq] at h
        obtain ⟨rfl, rfl, rfl⟩ := h
        exact ⟨.skip _, rfl, by simp [After, slots]⟩
      | brk =>
        simp only [eval, Option.some.injEq, Prod.mk.injEq] at h
        obtain ⟨rfl, rfl, rfl⟩ := h
        exact ⟨.brk _, rfl, by simp [After, slots]⟩
      | cont =>
        simp only [eval, Option.some.injEq, Prod.mk.injEq] at h
        obtain ⟨rfl, rfl, rfl⟩ := h
        exact ⟨.cont _, rfl, by simp [After, slots]⟩
      | expr k =>
        have hc : cur < fr.length := by simpa [Roomy, slots] using hr
        simp only [eval, prolog_eq, room_inner, evalX_one, Option.bind_some] at h
        rw [finish_inner _ _ _ _ _ (by omega)] at h
        simp only [Option.some.injEq, Prod.mk.injEq] at h
        obtain ⟨rfl, rfl, rfl⟩ := h
        exact ⟨.expr _ _, rfl, by simp [After, slots]⟩
      | ret k =>
        have hc : cur + 1 < fr.length := by simpa [Roomy, slots] using hr
        obtain ⟨g, z, rfl, hg⟩ := split_last hc
        simp only [eval, prolog_eq, room_inner, List.nil_append, evalX_first, Option.bind_some, load1] at h
        rw [finish_inner _ _ _ _ _ (by omega)] at h
        simp only [Option.some.injEq, Prod.mk.injEq] at h
        obtain ⟨rfl, rfl, rfl⟩ := h
        exact ⟨.ret _ _, rfl, by simp [After, slots]⟩
      | ite k t f =>
        have hc : cur + 1 < fr.length := by simpa [Roomy, slots] using hr
        obtain ⟨g, z, rfl, hg⟩ := split_last hc
        simp only [eval, prolog_eq, room_inner, List.nil_append, evalX_first, Option.bind_some, load1] at h
        obtain ⟨⟨st1, y1, s1⟩, h1, h2⟩ := Option.bind_eq_some_iff.mp h
        have hrun : Runs ev (.ite k t f) x st1 y1 ∧ ∃ ys, s1 = inner (g ++ [z]) cur ([.val (ev k x).1] ++ ys) := by
          by_cases hz : (ev k x).1 = 0
          · rw [if_pos hz] at h1
            obtain ⟨h3, ys, h4, -⟩ := (ih f).within ev hw.2 _ _ _ _ _ _ _ h1
            exact ⟨.no hz h3, ys, h4⟩
          · rw [if_neg hz] at h1
            obtain ⟨h3, ys, h4, -⟩ := (ih t).within ev hw.1 _ _ _ _ _ _ _ h1
            exact ⟨.yes hz h3, ys, h4⟩
        obtain ⟨h3, ys, rfl⟩ := hrun
        simp only [handUp_inner, Option.bind_some] at h2
        rw [finish_inner _ _ _ _ _ (by simp; omega)] at h2
        simp only [Option.some.injEq, Prod.mk.injEq] at h2
        obtain ⟨rfl, rfl, rfl⟩ := h2
        exact ⟨h3, rfl, by simp [After, slots]⟩
      | loop k body =>
        have hc : cur + 1 < fr.length := by simpa [Roomy, slots] using hr
        obtain ⟨g, z, rfl, hg⟩ := split_last hc
        simp only [eval, prolog_eq, room_inner, evalX_one, Option.bind_some, popVal_inner] at h
        obtain ⟨h1, h2, v, h3⟩ := ihl k body hw x g z cur hg st y s' h
        exact ⟨h1, h2, by simp [After, slots, h3]⟩
      | seq a rest =>
        have hc : cur < fr.length := by simpa [Roomy, slots] using hr
        simp only [eval, prolog_eq] at h
        obtain ⟨⟨st1, y1, s1⟩, h1, h2⟩ := Option.bind_eq_some_iff.mp h
        obtain ⟨h3, ys, rfl, -⟩ := (ih a).within ev hw.1 _ _ _ _ _ _ _ h1
        by_cases hn : st1 = .normal
        · subst hn
          simp only at h2
          rw [return_inner _ _ _ (by omega)] at h2
          simp only [Option.bind_some] at h2
          have hs := slots_statements hw.2.2
          obtain ⟨h4, h5, h6⟩ := ih rest hw.2.1 y1 fr cur (by unfold Roomy; rw [if_neg (by omega)]; exact hc) st y s' h2
          refine ⟨.seq h3 h4, h5, ?_⟩
          unfold After at h6 ⊢
          rw [if_neg (by omega)] at h6
          exact h6
        · have h4 : finish st1 y1 (inner fr cur ([] ++ ys)) = some (st, y, s') := by
            cases st1 with
            | normal => exact absurd rfl hn
            | brk => exact h2
            | cont => exact h2
            | ret v => exact h2
          rw [finish_inner _ _ _ _ _ (by omega)] at h4
          simp only [Option.some.injEq, Prod.mk.injEq] at h4
          obtain ⟨rfl, rfl, rfl⟩ := h4
          exact ⟨.skipped h3 hn, rfl, by simp [After, slots]⟩
      | last a =>
        have hc : cur < fr.length := by simpa [Roomy, slots] using hr
        simp only [eval, prolog_eq] at h
        obtain ⟨⟨st1, y1, s1⟩, h1, h2⟩ := Option.bind_eq_some_iff.mp h
        obtain ⟨h3, ys, rfl, -⟩ := (ih a).within ev hw _ _ _ _ _ _ _ h1
        simp only at h2
        rw [finish_inner _ _ _ _ _ (by omega)] at h2
        simp only [Option.some.injEq, Prod.mk.injEq] at h2
        obtain ⟨rfl, rfl, rfl⟩ := h2
        exact ⟨.last h3, rfl, by simp [After, slots]⟩
    · intro k body hw x g z cur hg st y s' h
      simp only [evalLoop] at h
      by_cases hz : (ev k x).1 = 0
      · rw [if_pos hz] at h
        simp only [handUp_inner, Option.bind_some] at h
        rw [finish_inner _ _ _ _ _ (by simp; omega)] at h
        simp only [Option.some.injEq, Prod.mk.injEq] at h
        obtain ⟨rfl, rfl, rfl⟩ := h
        exact ⟨.stop hz, rfl, _, rfl⟩
      · rw [if_neg hz] at h
        obtain ⟨⟨st1, y1, s1⟩, h1, h2⟩ := Option.bind_eq_some_iff.mp h
        obtain ⟨h3, ys, rfl, hys⟩ := (ih body).within ev hw _ _ _ _ _ _ _ h1
        have hagain : st1 = .normal ∨ st1 = .cont →
            ((unroomFor body (inner (g ++ [z]) cur ([] ++ ys))).bind fun s =>
              (evalX ev k y1 (room s)).bind fun y => (popVal y.2).bind fun c => evalLoop ev n k body c.1 y.1 c.2) = some (st, y, s') →
            Runs ev (.loop k body) x st y ∧ s'.cur = cur ∧ ∃ v, s'.frames = g ++ [v] := by
          intro hst h4
          rw [unroom _ _ _ _ _ hys] at h4
          simp only [Option.bind_some, room_inner, evalX_one, popVal_inner] at h4
          obtain ⟨h5, h6, h7⟩ := ihl k body hw y1 g z cur hg st y s' h4
          exact ⟨.again hz h3 hst h5, h6, h7⟩
        cases st1 with
        | normal => exact hagain (.inl rfl) h2
        | cont => exact hagain (.inr rfl) h2
        | brk =>
          simp only [handUp_inner, Option.bind_some] at h2
          rw [finish_inner _ _ _ _ _ (by simp; omega)] at h2
          simp only [Option.some.injEq, Prod.mk.injEq] at h2
          obtain ⟨rfl, rfl, rfl⟩ := h2
          exact ⟨.leave hz h3, rfl, _, rfl⟩
        | ret v =>
          simp only at h2
          rw [finish_inner _ _ _ _ _ (by simp; omega)] at h2
          simp only [Option.some.injEq, Prod.mk.injEq] at h2
          obtain ⟨rfl, rfl, rfl⟩ := h2
          exact ⟨.away hz h3, rfl, _, rfl⟩

/-- Property C144, what the evaluator does is what the statements do: the variables, and how it was left; and the stack is as before. -/
theorem C144_sound (n : Nat) (p : Stmt) (hw : WF p) (hp : isStatements p = true) (x : σ) (s : CS Int) (hs : s.cur < s.frames.length)
    (st : Status) (y : σ) (s' : CS Int) (h : eval ev n p x s = some (st, y, s')) : Runs ev p x st y ∧ s' = s := by
  have h0 := slots_statements hp
  obtain ⟨h1, h2, h3⟩ := (good ev n).1 p hw x s.frames s.cur (by unfold Roomy; rw [if_neg (by omega)]; exact hs) st y s' h
  unfold After at h3
  rw [if_neg (by omega)] at h3
  refine ⟨h1, ?_⟩
  cases s'; cases s
  simp_all

/-- What is to be shown for completeness: with enough fuel the evaluation gets there. -/
def Gets (p : Stmt) (x : σ) (st : Status) (y : σ) : Prop := ∃ N, ∀ n, N ≤ n → ∀ (fr : List (Slot Int)) (cur : Nat), Roomy p fr cur →
  ∃ s', eval ev n p x ⟨fr, cur⟩ = some (st, y, s')

def GetsLoop (k : Nat) (body : Stmt) (x : σ) (st : Status) (y : σ) : Prop := ∃ N, ∀ n, N ≤ n → ∀ (g : List (Slot Int)) (z : Slot Int)
  (cur : Nat), cur < g.length → ∃ s', evalLoop ev n k body (ev k x).1 (ev k x).2 (inner (g ++ [z]) cur []) = some (st, y, s')

theorem Gets.within {p : Stmt} {x y : σ} {st : Status} {n : Nat} (hw : WF p) (h : ∀ (fr : List (Slot Int)) (cur : Nat), Roomy p fr cur →
    ∃ s', eval ev n p x ⟨fr, cur⟩ = some (st, y, s')) (fr : List (Slot Int)) (cur : Nat) (xs : List (Slot Int)) :
    ∃ ys, eval ev n p x (roomFor p (inner fr cur xs)) = some (st, y, inner fr cur (xs ++ ys)) ∧ ys.length = slots p := by
  obtain ⟨s', h1⟩ := h _ _ (roomy_room p fr cur xs)
  rw [← roomFor_cur] at h1
  obtain ⟨-, ys, rfl, h3⟩ := ((good ev n).1 p).within ev hw x fr cur xs st y s' h1
  exact ⟨ys, h1, h3⟩

theorem loop_gets {k : Nat} {body : Stmt} {x y : σ} {st : Status} (h : GetsLoop ev k body x st y) : Gets ev (.loop k body) x st y := by
  obtain ⟨N, h⟩ := h
  refine ⟨N + 1, fun n hn fr cur hr => ?_⟩
  obtain ⟨n, rfl⟩ : ∃ m, n = m + 1 := ⟨n - 1, by omega⟩
  have hc : cur + 1 < fr.length := by simpa [Roomy, slots] using hr
  obtain ⟨g, z, rfl, hg⟩ := split_last hc
  simp only [eval, prolog_eq, room_inner, evalX_one, Option.bind_some, popVal_inner]
  exact h n (by omega) g z cur hg

theorem gets {p : Stmt} {x y : σ} {st : Status} (h : Runs ev p x st y) : WF p → Gets ev p x st y ∧
    ∀ k body, p = .loop k body → GetsLoop ev k body x st y := by
  induction h with
  | skip x => exact fun _ => ⟨⟨1, fun n hn fr cur _ => by obtain ⟨n, rfl⟩ : ∃ m, n = m + 1 := ⟨n - 1, by omega⟩; exact ⟨_, rfl⟩⟩, by simp⟩
  | brk x => exact fun _ => ⟨⟨1, fun n hn fr cur _ => by obtain ⟨n, rfl⟩ : ∃ m, n = m + 1 := ⟨n - 1, by omega⟩; exact ⟨_, rfl⟩⟩, by simp⟩
  | cont x => exact fun _ => ⟨⟨1, fun n hn fr cur _ => by obtain ⟨n, rfl⟩ : ∃ m, n = m + 1 := ⟨n - 1, by omega⟩; exact ⟨_, rfl⟩⟩, by simp⟩
  | expr k x =>
    refine fun _ => ⟨⟨1, fun n hn fr cur hr => ?_⟩, by simp⟩
    obtain ⟨n, rfl⟩ : ∃ m, n = m + 1 := ⟨n - 1, by omega⟩
    have hc : cur < fr.length := by simpa [Roomy, slots] using hr
    simp only [eval, prolog_eq, room_inner, evalX_one, Option.bind_some]
    rw [finish_inner _ _ _ _ _ (by omega)]
    exact ⟨_, rfl⟩
  | ret k x =>
    refine fun _ => ⟨⟨1, fun n hn fr cur hr => ?_⟩, by simp⟩
    obtain ⟨n, rfl⟩ : ∃ m, n = m + 1 := ⟨n - 1, by omega⟩
    have hc : cur + 1 < fr.length := by simpa [Roomy, slots] using hr
    simp only [eval, prolog_eq, room_inner, List.nil_append, evalX_first, Option.bind_some, load1]
    rw [finish_inner _ _ _ _ _ (by omega)]
    exact ⟨_, rfl⟩
  | @yes k t f x st y hz _ ih =>
    intro hw
    obtain ⟨⟨N, h⟩, -⟩ := ih hw.1
    refine ⟨⟨N + 1, fun n hn fr cur hr => ?_⟩, by simp⟩
    obtain ⟨n, rfl⟩ : ∃ m, n = m + 1 := ⟨n - 1, by omega⟩
    have hc : cur + 1 < fr.length := by simpa [Roomy, slots] using hr
    obtain ⟨g, z, rfl, hg⟩ := split_last hc
    obtain ⟨ys, h1, -⟩ := Gets.within ev hw.1 (h n (by omega)) (g ++ [z]) cur [.val (ev k x).1]
    simp only [eval, prolog_eq, room_inner, List.nil_append, evalX_first, Option.bind_some, load1, if_neg hz, h1, handUp_inner]
    rw [finish_inner _ _ _ _ _ (by simp; omega)]
    exact ⟨_, rfl⟩
  | @no k t f x st y hz _ ih =>
    intro hw
    obtain ⟨⟨N, h⟩, -⟩ := ih hw.2
    refine ⟨⟨N + 1, fun n hn fr cur hr => ?_⟩, by simp⟩
    obtain ⟨n, rfl⟩ : ∃ m, n = m + 1 := ⟨n - 1, by omega⟩
    have hc : cur + 1 < fr.length := by simpa [Roomy, slots] using hr
    obtain ⟨g, z, rfl, hg⟩ := split_last hc
    obtain ⟨ys, h1, -⟩ := Gets.within ev hw.2 (h n (by omega)) (g ++ [z]) cur [.val (ev k x).1]
    simp only [eval, prolog_eq, room_inner, List.nil_append, evalX_first, Option.bind_some, load1, if_pos hz, h1, handUp_inner]
    rw [finish_inner _ _ _ _ _ (by simp; omega)]
    exact ⟨_, rfl⟩
  | @stop k b x hz =>
    intro hw
    have key : GetsLoop ev k b x .normal (ev k x).2 := by
      refine ⟨1, fun n hn g z cur hg => ?_⟩
      obtain ⟨n, rfl⟩ : ∃ m, n = m + 1 := ⟨n - 1, by omega⟩
      simp only [evalLoop, if_pos hz, handUp_inner, Option.bind_some]
      rw [finish_inner _ _ _ _ _ (by simp; omega)]
      exact ⟨_, rfl⟩
    exact ⟨loop_gets ev key, by rintro _ _ ⟨⟩; exact key⟩
  | @again k b x st st' y z hz hb hs hl ihb ihl =>
    intro hw
    obtain ⟨⟨N, h⟩, -⟩ := ihb hw
    obtain ⟨M, hM⟩ := (ihl hw).2 k b rfl
    have key : GetsLoop ev k b x st' z := by
      refine ⟨N + M + 1, fun n hn g w cur hg => ?_⟩
      obtain ⟨n, rfl⟩ : ∃ m, n = m + 1 := ⟨n - 1, by omega⟩
      obtain ⟨ys, h1, h2⟩ := Gets.within ev (p := b) hw (h n (by omega)) (g ++ [w]) cur []
      obtain ⟨s', h3⟩ := hM n (by omega) g w cur hg
      refine ⟨s', ?_⟩
      simp only [evalLoop, if_neg hz, h1, Option.bind_some]
      rcases hs with rfl | rfl <;> simp only [unroom _ _ _ _ _ h2, Option.bind_some, room_inner, evalX_one, popVal_inner, h3]
    exact ⟨loop_gets ev key, by rintro _ _ ⟨⟩; exact key⟩
  | @leave k b x y hz hb ihb =>
    intro hw
    obtain ⟨⟨N, h⟩, -⟩ := ihb hw
    have key : GetsLoop ev k b x .normal y := by
      refine ⟨N + 1, fun n hn g w cur hg => ?_⟩
      obtain ⟨n, rfl⟩ : ∃ m, n = m + 1 := ⟨n - 1, by omega⟩
      obtain ⟨ys, h1, -⟩ := Gets.within ev (p := b) hw (h n (by omega)) (g ++ [w]) cur []
      simp only [evalLoop, if_neg hz, h1, Option.bind_some, handUp_inner]
      rw [finish_inner _ _ _ _ _ (by simp; omega)]
      exact ⟨_, rfl⟩
    exact ⟨loop_gets ev key, by rintro _ _ ⟨⟩; exact key⟩
  | @away k b x v y hz hb ihb =>
    intro hw
    obtain ⟨⟨N, h⟩, -⟩ := ihb hw
    have key : GetsLoop ev k b x (.ret v) y := by
      refine ⟨N + 1, fun n hn g w cur hg => ?_⟩
      obtain ⟨n, rfl⟩ : ∃ m, n = m + 1 := ⟨n - 1, by omega⟩
      obtain ⟨ys, h1, -⟩ := Gets.within ev (p := b) hw (h n (by omega)) (g ++ [w]) cur []
      simp only [evalLoop, if_neg hz, h1, Option.bind_some]
      rw [finish_inner _ _ _ _ _ (by simp; omega)]
      exact ⟨_, rfl⟩
    exact ⟨loop_gets ev key, by rintro _ _ ⟨⟩; exact key⟩
  | @seq a b x y st z ha hb iha ihb =>
    intro hw
    obtain ⟨⟨N, h⟩, -⟩ := iha hw.1
    obtain ⟨⟨M, hM⟩, -⟩ := ihb hw.2.1
    refine ⟨⟨N + M + 1, fun n hn fr cur hr => ?_⟩, by simp⟩
    obtain ⟨n, rfl⟩ : ∃ m, n = m + 1 := ⟨n - 1, by omega⟩
    have hc : cur < fr.length := by simpa [Roomy, slots] using hr
    have hs := slots_statements hw.2.2
    obtain ⟨ys, h1, -⟩ := Gets.within ev hw.1 (h n (by omega)) fr cur []
    obtain ⟨s', h3⟩ := hM n (by omega) fr cur (by unfold Roomy; rw [if_neg (by omega)]; exact hc)
    refine ⟨s', ?_⟩
    simp only [eval, prolog_eq, h1, Option.bind_some]
    rw [return_inner _ _ _ (by omega)]
    exact h3
  | @skipped a b x st y ha hs iha =>
    intro hw
    obtain ⟨⟨N, h⟩, -⟩ := iha hw.1
    refine ⟨⟨N + 1, fun n hn fr cur hr => ?_⟩, by simp⟩
    obtain ⟨n, rfl⟩ : ∃ m, n = m + 1 := ⟨n - 1, by omega⟩
    have hc : cur < fr.length := by simpa [Roomy, slots] using hr
    obtain ⟨ys, h1, -⟩ := Gets.within ev hw.1 (h n (by omega)) fr cur []
    simp only [eval, prolog_eq, h1, Option.bind_some]
    cases st with
    | normal => exact absurd rfl hs
    | brk => exact ⟨_, finish_inner _ _ _ _ _ (by omega)⟩
    | cont => exact ⟨_, finish_inner _ _ _ _ _ (by omega)⟩
    | ret v => exact ⟨_, finish_inner _ _ _ _ _ (by omega)⟩
  | @last a x st y ha iha =>
    intro hw
    obtain ⟨⟨N, h⟩, -⟩ := iha hw
    refine ⟨⟨N + 1, fun n hn fr cur hr => ?_⟩, by simp⟩
    obtain ⟨n, rfl⟩ : ∃ m, n = m + 1 := ⟨n - 1, by omega⟩
    have hc : cur < fr.length := by simpa [Roomy, slots] using hr
    obtain ⟨ys, h1, -⟩ := Gets.within ev (p := a) hw (h n (by omega)) fr cur []
    simp only [eval, prolog_eq, h1, Option.bind_some]
    exact ⟨_, finish_inner _ _ _ _ _ (by omega)⟩

/-- Property C144, what the statements do is what the evaluator does, whenever they come to an end: no assertion fails. -/
theorem C144_complete (p : Stmt) (hw : WF p) (hp : isStatements p = true) (x : σ) (st : Status) (y : σ) (h : Runs ev p x st y) :
    ∃ N, ∀ n, N ≤ n → ∀ s : CS Int, s.cur < s.frames.length → eval ev n p x s = some (st, y, s) := by
  obtain ⟨⟨N, h1⟩, -⟩ := gets ev h hw
  refine ⟨N, fun n hn s hs => ?_⟩
  have h0 := slots_statements hp
  obtain ⟨s', h2⟩ := h1 n hn s.frames s.cur (by unfold Roomy; rw [if_neg (by omega)]; exact hs)
  rw [h2, (C144_sound ev n p hw hp x s hs st y s' h2).2]

/-- `while(x) { if(x == 2) break; x--; }` then `return x;`, from 5: the variable is the state. -/
example : eval (fun k (x : Int) => if k = 0 then (x, x) else if k = 1 then (if x = 2 then 1 else 0, x) else if k = 2 then (x, x - 1) else (x, x))
    40 (.seq (.loop 0 (.seq (.ite 1 (.last .brk) .skip) (.last (.expr 2)))) (.last (.ret 0))) 5 ⟨[.val 7], 0⟩ =
      some (.ret 2, 2, ⟨[.val 7], 0⟩) := by decide

end Ulam.EvalCtl
