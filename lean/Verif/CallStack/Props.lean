import Verif.CallStack.Spec
/- Properties C32 (frames), C38 (short circuit), C54 (expressions leave the stack alone) and C55 (evaluator and
generated code agree on expressions). -/
namespace Ulam.CallStack
variable {α : Type}

/-! ### C32 -/

/-- Property C32: what is stored at a slot is what is loaded from it, and no other slot changes. -/
theorem C32_store_load (s s' : CS α) (v : Slot α) (i : Int) (h : storeSlot s v i = some s') :
    loadSlot s' i = some v ∧ (∀ j, j ≠ i → loadSlot s' j = loadSlot s j) ∧ s'.cur = s.cur ∧
      s'.frames.length = s.frames.length := by
  simp only [storeSlot, absIndex] at h
  split at h
  · next hi =>
    simp only [Option.bind_some, storeAt] at h
    split at h
    · next hlt =>
      simp only [Option.some.injEq] at h
      subst h
      refine ⟨?_, ?_, rfl, by simp⟩
      · simp only [loadSlot, absIndex, if_pos hi, Option.bind_some, loadAt]
        rw [List.getElem?_set_self hlt]
      · intro j hj
        simp only [loadSlot, absIndex]
        split
        · next hj0 =>
          simp only [Option.bind_some, loadAt]
          rw [List.getElem?_set_ne]
          omega
        · rfl
    · simp at h
  · simp at h

/-- The frames from `cur` down to `f`: each frame pointer points further down, to another. -/
inductive Chain (fr : List (Slot α)) (f : Nat) : Nat → Prop where
  | base : f < fr.length → Chain fr f f
  | link {cur prev : Nat} : fr[cur]? = some (.fp prev) → prev < cur → Chain fr f prev → Chain fr f cur

theorem Chain.ge {fr : List (Slot α)} {f cur : Nat} (h : Chain fr f cur) : f ≤ cur := by
  induction h with
  | base _ => exact Nat.le_refl _
  | link _ hlt _ ih => omega

theorem Chain.lt {fr : List (Slot α)} {f cur : Nat} (h : Chain fr f cur) : cur < fr.length := by
  cases h with
  | base h => exact h
  | link h _ _ =>
    rw [List.getElem?_eq_some_iff] at h
    exact h.1

/-- A chain only depends on the slots up to `cur`. -/
theorem Chain.mono {fr fr' : List (Slot α)} {f cur : Nat} (h : Chain fr f cur)
    (hs : ∀ i, i ≤ cur → fr'[i]? = fr[i]?) : Chain fr' f cur := by
  induction h with
  | base h =>
    refine .base ?_
    have := hs f (Nat.le_refl _)
    rw [List.getElem?_eq_getElem h] at this
    exact (List.getElem?_eq_some_iff.mp this).1
  | link hp hlt _ ih =>
    exact .link (by rw [hs _ (Nat.le_refl _)]; exact hp) hlt (ih fun i hi => hs i (by omega))

/-- A chain survives a store strictly between the frame before and the current one. -/
theorem Chain.mono_gap {fr fr' : List (Slot α)} {f cur prev : Nat} (h : Chain fr f cur) (hf : f < cur)
    (hp : fr[cur]? = some (.fp prev))
    (hs : ∀ i, i ≤ prev → fr'[i]? = fr[i]?) (hc : fr'[cur]? = fr[cur]?) : Chain fr' f cur := by
  cases h with
  | base _ => omega
  | link hp' hlt hch =>
    rw [hp] at hp'
    simp only [Option.some.injEq, Slot.fp.injEq] at hp'
    subst hp'
    exact .link (by rw [hc]; exact hp) hlt (hch.mono hs)

/-- Nothing at or below `f` has changed. -/
structure Same (f : Nat) (s s' : CS α) : Prop where
  low : ∀ i, i ≤ f → s'.frames[i]? = s.frames[i]?
  chain : Chain s'.frames f s'.cur

theorem step_same (zero : α) (f : Nat) (s s' : CS α) (o : Op α) (hc : Chain s.frames f s.cur)
    (ha : Allowed f s o) (h : step zero s o = some s') : Same f s s' := by
  have hge := hc.ge
  have hlt := hc.lt
  cases o with
  | call d =>
    simp only [step, Option.some.injEq] at h
    subst h
    have hpre : ∀ i, i < s.frames.length → (addFrame zero s d).frames[i]? = s.frames[i]? := by
      intro i hi
      simp only [addFrame]
      rw [List.getElem?_append_left hi]
    refine ⟨fun i hi => hpre i (by omega), ?_⟩
    refine .link (prev := s.cur) ?_ (by simpa [addFrame] using hlt) (hc.mono fun i hi => hpre i (by omega))
    simp only [addFrame]
    rw [List.getElem?_append_right (Nat.le_refl _)]
    simp
  | ret =>
    simp only [step, returnFrame] at h
    have hf : f < s.cur := ha
    cases hc with
    | base _ => omega
    | link hp hl hch =>
      rw [hp] at h
      simp only at h
      split at h
      · simp only [Option.some.injEq] at h
        subst h
        have hpre : ∀ i, i < s.cur → (s.frames.take s.cur)[i]? = s.frames[i]? := fun i hi => by
          rw [List.getElem?_take, if_pos hi]
        exact ⟨fun i hi => hpre i (by omega), hch.mono fun i hi => hpre i (by omega)⟩
      · simp at h
  | push v =>
    simp only [step, Option.some.injEq] at h
    subst h
    have hpre : ∀ i, i < s.frames.length → (pushArg s (.val v)).frames[i]? = s.frames[i]? := by
      intro i hi
      simp only [pushArg]
      rw [List.getElem?_append_left hi]
    exact ⟨fun i hi => hpre i (by omega), hc.mono fun i hi => hpre i (by omega)⟩
  | pop =>
    simp only [step, popArg] at h
    have hp : s.cur + 1 < s.frames.length := ha
    cases hl : s.frames.getLast? with
    | none => rw [hl] at h; simp at h
    | some v =>
      rw [hl] at h
      simp only [Option.map_some, Option.some.injEq] at h
      subst h
      have hpre : ∀ i, i ≤ s.cur → s.frames.dropLast[i]? = s.frames[i]? := by
        intro i hi
        rw [List.getElem?_dropLast]
        rw [if_pos (by omega)]
      exact ⟨fun i hi => hpre i (by omega), hc.mono fun i hi => hpre i hi⟩
  | store v i =>
    simp only [step, storeSlot, absIndex] at h
    split at h
    · next hi =>
      simp only [Option.bind_some, storeAt] at h
      split at h
      · simp only [Option.some.injEq] at h
        subst h
        rcases ha with h0 | ⟨hf, prev, hp, hlow, hneg⟩
        · have hpre : ∀ j, j ≤ s.cur → (s.frames.set ((s.cur : Int) + i).toNat (.val v))[j]? = s.frames[j]? := by
            intro j hj
            rw [List.getElem?_set_ne]
            omega
          exact ⟨fun j hj => hpre j (by omega), hc.mono hpre⟩
        · have hge' : f ≤ prev := by
            cases hc with
            | base _ => omega
            | link hp' _ hch =>
              rw [hp] at hp'
              simp only [Option.some.injEq, Slot.fp.injEq] at hp'
              subst hp'
              exact hch.ge
          have hpre : ∀ j, j ≤ prev ∨ j = s.cur →
              (s.frames.set ((s.cur : Int) + i).toNat (.val v))[j]? = s.frames[j]? := by
            intro j hj
            rw [List.getElem?_set_ne]
            rcases hj with hj | hj <;> omega
          exact ⟨fun j hj => hpre j (.inl (by omega)),
            hc.mono_gap hf hp (fun j hj => hpre j (.inl hj)) (hpre _ (.inr rfl))⟩
      · simp at h
    · simp at h
  | storeAbs v i =>
    simp only [step, storeAt] at h
    have hi : s.cur < i := ha
    split at h
    · simp only [Option.some.injEq] at h
      subst h
      have hpre : ∀ j, j ≤ s.cur → (s.frames.set i (.val v))[j]? = s.frames[j]? := by
        intro j hj
        rw [List.getElem?_set_ne]
        omega
      exact ⟨fun j hj => hpre j (by omega), hc.mono hpre⟩
    · simp at h

/-- Property C32: whatever is done inside a frame and the frames called from it, the slots of all
frames below are untouched. -/
theorem C32_frames_isolated (zero : α) (f : Nat) (os : List (Op α)) (s s' : CS α) (hc : Chain s.frames f s.cur)
    (ha : AllowedAll zero f s os) (h : steps zero s os = some s') : Same f s s' := by
  induction os generalizing s with
  | nil =>
    simp only [steps, Option.some.injEq] at h
    subst h
    exact ⟨fun _ _ => rfl, hc⟩
  | cons o os ih =>
    simp only [steps] at h
    cases hs : step zero s o with
    | none => rw [hs] at h; simp at h
    | some s1 =>
      rw [hs] at h
      obtain ⟨a1, a2⟩ := ha
      have h1 := step_same zero f s s1 o hc a1 hs
      have h2 := ih s1 h1.chain (a2 s1 hs) h
      exact ⟨fun i hi => (h2.low i hi).trans (h1.low i hi), h2.chain⟩

/-- Property C32: a call, anything allowed in the callee, and the return give back exactly the stack
there was before the call: the same slots and the same current frame. -/
theorem C32_return_restores (zero : α) (d : Nat) (os : List (Op α)) (s s' s'' : CS α) (hcur : s.cur < s.frames.length)
    (ha : AllowedAll zero s.frames.length (addFrame zero s d) os)
    (h : steps zero (addFrame zero s d) os = some s') (hback : s'.cur = s.frames.length)
    (hr : returnFrame s' = some s'') : s'' = s := by
  have hlen : s.frames.length < (addFrame zero s d).frames.length := by simp [addFrame]
  have hsame := C32_frames_isolated zero s.frames.length os (addFrame zero s d) s' (.base hlen) ha h
  have hfp : s'.frames[s.frames.length]? = some (.fp s.cur) := by
    rw [hsame.low _ (Nat.le_refl _)]
    simp only [addFrame]
    rw [List.getElem?_append_right (Nat.le_refl _)]
    simp
  simp only [returnFrame, hback, hfp] at hr
  split at hr
  · simp only [Option.some.injEq] at hr
    subst hr
    have : s'.frames.take s.frames.length = s.frames := by
      apply List.ext_getElem?
      intro i
      rw [List.getElem?_take]
      split
      · next hi =>
        rw [hsame.low i (by omega)]
        simp only [addFrame]
        rw [List.getElem?_append_left hi]
      · next hi => rw [List.getElem?_eq_none (by omega)]
    rw [this]
  · simp at hr

/-- Property C32: and the return does succeed. -/
theorem C32_return_succeeds (zero : α) (d : Nat) (os : List (Op α)) (s s' : CS α) (hcur : s.cur < s.frames.length)
    (ha : AllowedAll zero s.frames.length (addFrame zero s d) os)
    (h : steps zero (addFrame zero s d) os = some s') (hback : s'.cur = s.frames.length) : returnFrame s' = some s := by
  have hlen : s.frames.length < (addFrame zero s d).frames.length := by simp [addFrame]
  have hsame := C32_frames_isolated zero s.frames.length os (addFrame zero s d) s' (.base hlen) ha h
  have hfp : s'.frames[s.frames.length]? = some (.fp s.cur) := by
    rw [hsame.low _ (Nat.le_refl _)]
    simp only [addFrame]
    rw [List.getElem?_append_right (Nat.le_refl _)]
    simp
  cases hr : returnFrame s' with
  | some s'' => rw [C32_return_restores zero d os s s' s'' hcur ha h hback hr]
  | none =>
    have hl := hsame.chain.lt
    simp only [returnFrame, hback, hfp] at hr
    rw [if_pos (by omega)] at hr
    simp at hr

section Examples

/-- A call with two local slots, a nested call that hands back a result in the caller's slot, and the return. -/
def demo : List (Op Nat) := [.store 7 1, .push 8, .call 1, .store 9 1, .store 5 (-1), .ret, .store 6 2, .pop]
example : (steps 0 (addFrame 0 (init 3) 2) demo).bind returnFrame = some (init 3) := by decide
example : ((steps 0 (addFrame 0 (init 3) 2) (demo.take 6)).bind fun s => loadSlot s 3) = some (.val 5) := by decide
example : AllowedAll 0 1 (addFrame 0 (init 3) 2) [.store 7 1, .push 8] := by
  refine ⟨Or.inl (by decide), fun s' h => ⟨trivial, fun _ _ => trivial⟩⟩
/-- The discipline is needed: a store to slot 0 of the frame makes the return fail. -/
example : (steps 0 (addFrame 0 (init 3) 2) [.store 7 0]).bind returnFrame = none := by decide

end Examples

/-! ### C38 and C54 -/

/-- The result of evaluating, put on the stack: on success in the last slot, otherwise nowhere. -/
def outcome {σ} (s : CS α) : Except Nat α × σ → Status × CS α × σ
  | (.ok v, x) => (.normal, { s with frames := s.frames.dropLast ++ [.val v] }, x)
  | (.error w, x) => (.bad w, s, x)

/-- A stack whose last slot is no frame pointer of a frame in use. -/
def Room (s : CS α) : Prop := s.cur + 1 < s.frames.length

theorem return_add (zero : α) (s : CS α) (hr : Room s) (vs : List (Slot α)) (g : List (Slot α))
    (hg : g = s.frames ∨ ∃ v, g = s.frames.dropLast ++ [v]) :
    returnFrame (⟨g ++ .fp s.cur :: vs, s.frames.length⟩ : CS α) = some ⟨g, s.cur⟩ := by
  have hlen : g.length = s.frames.length := by
    rcases hg with rfl | ⟨v, rfl⟩
    · rfl
    · have : 0 < s.frames.length := by have := hr; unfold Room at this; omega
      simp; omega
  unfold Room at hr
  simp only [returnFrame]
  rw [List.getElem?_append_right (by omega), hlen]
  simp only [Nat.sub_self, List.getElem?_cons_zero]
  rw [if_pos (by simp; omega), ← hlen]
  simp

/-- The stack after a prolog and some slots. -/
def inner (s : CS α) (vs : List (Slot α)) : CS α := ⟨s.frames ++ .fp s.cur :: vs, s.frames.length⟩

theorem addFrame_zero (zero : α) (s : CS α) : addFrame zero s 0 = inner s [] := rfl

theorem room_inner {σ} (S : Sem σ α) (s : CS α) (vs : List (Slot α)) :
    room S (inner s vs) = inner s (vs ++ [.val S.zero]) := by simp [room, inner, pushArg]

theorem Room.inner (s : CS α) (vs : List (Slot α)) (v : Slot α) : Room (inner s (vs ++ [v])) := by
  simp [Room, CallStack.inner]

theorem dropLast_inner (s : CS α) (vs : List (Slot α)) (v w : Slot α) :
    ({ inner s (vs ++ [v]) with frames := (inner s (vs ++ [v])).frames.dropLast ++ [w] } : CS α) = inner s (vs ++ [w]) := by
  simp only [inner, CS.mk.injEq, and_true]
  rw [show s.frames ++ Slot.fp s.cur :: (vs ++ [v]) = (s.frames ++ Slot.fp s.cur :: vs) ++ [v] by simp,
    List.dropLast_concat]
  simp

theorem Room.one (s : CS α) (v : Slot α) : Room (CallStack.inner s [v]) := Room.inner s [] v

theorem outcome_one {σ} (s : CS α) (v : Slot α) (a : α) (x : σ) :
    outcome (inner s [v]) (.ok a, x) = (.normal, inner s [.val a], x) := by
  have := dropLast_inner s [] v (.val a)
  simp only [List.nil_append] at this
  simp only [outcome, this]

theorem absIndex_inner (s : CS α) (vs : List (Slot α)) (i : Int) (h : 0 ≤ (s.frames.length : Int) + i) :
    absIndex (inner s vs) i = some ((s.frames.length : Int) + i).toNat := by
  unfold absIndex
  exact if_pos h

theorem load_inner (s : CS α) (vs : List (Slot α)) (i : Nat) : loadSlot (inner s vs) ((i : Int) + 1) = vs[i]? := by
  rw [loadSlot, absIndex_inner _ _ _ (by omega)]
  simp only [Option.bind_some, loadAt, inner]
  rw [show ((s.frames.length : Int) + (i + 1)).toNat = s.frames.length + (i + 1) by omega,
    List.getElem?_append_right (by omega)]
  simp

theorem finish_inner {σ} (st : Status) (s : CS α) (zero : α) (hr : Room s) (vs : List (Slot α)) (x : σ) :
    finish st (inner s vs) x = some (st, s, x) := by
  have := return_add zero s hr vs s.frames (.inl rfl)
  simp only [finish, inner, this, Option.map_some]

theorem store_finish {σ} (s : CS α) (zero : α) (hr : Room s) (vs : List (Slot α)) (v : α) (x : σ) :
    ((storeSlot (inner s vs) (.val v) (-1)).bind fun s => finish .normal s x) =
      some (outcome s (.ok v, x)) := by
  have hr' := hr
  unfold Room at hr'
  have h1 : storeSlot (inner s vs) (.val v) (-1) =
      some ⟨(s.frames.dropLast ++ [.val v]) ++ .fp s.cur :: vs, s.frames.length⟩ := by
    rw [storeSlot, absIndex_inner _ _ _ (by omega)]
    simp only [Option.bind_some, storeAt]
    rw [if_pos (by simp [inner]; omega)]
    simp only [inner]
    simp only [Option.some.injEq, CS.mk.injEq, and_true]
    rw [show ((s.frames.length : Int) + -1).toNat = s.frames.length - 1 by omega]
    rw [List.set_append_left _ _ (by omega)]
    congr 1
    obtain ⟨l, a, hla⟩ : ∃ l a, s.frames = l ++ [a] := by
      have hne : s.frames ≠ [] := by intro e; rw [e] at hr'; simp at hr'
      exact ⟨s.frames.dropLast, s.frames.getLast hne, (List.dropLast_concat_getLast hne).symm⟩
    rw [hla]
    simp
  rw [h1]
  simp only [Option.bind_some, finish]
  rw [return_add zero s hr vs _ (.inr ⟨_, rfl⟩)]
  rfl

theorem outcome_inner_ok {σ} (s : CS α) (vs : List (Slot α)) (v : Slot α) (a : α) (x : σ) :
    outcome (inner s (vs ++ [v])) (.ok a, x) = (.normal, inner s (vs ++ [.val a]), x) := by
  simp only [outcome, dropLast_inner]

theorem eval_den {σ} (S : Sem σ α) (e : Expr) : ∀ (s : CS α) (x : σ), Room s →
    eval S e s x = some (outcome s (den S e x)) := by
  induction e with
  | leaf k =>
    intro s x hr
    simp only [eval, den, addFrame_zero]
    cases hk : S.leaf k x with
    | mk r x' =>
      cases r with
      | error w => simp only [finish_inner _ _ S.zero hr]; rfl
      | ok v => simp only [store_finish s S.zero hr]
  | un op e ih =>
    intro s x hr
    simp only [eval, den, addFrame_zero, room_inner, List.nil_append]
    rw [ih _ _ (Room.one s _)]
    cases hd : den S e x with
    | mk r x' =>
      cases r with
      | error w => simp only [outcome, handBack, finish_inner _ _ S.zero hr]
      | ok v =>
        rw [outcome_one]
        have h1 := load_inner s [Slot.val v] 0
        simp only [List.nil_append]
        simp only [Int.natCast_zero, Int.zero_add, List.getElem?_cons_zero] at h1
        rw [h1]
        simp only
        cases hu : S.un op v with
        | error w => simp only [finish_inner _ _ S.zero hr]; rfl
        | ok b => simp only [store_finish s S.zero hr]
  | bin op l r ihl ihr =>
    intro s x hr
    simp only [eval, den, addFrame_zero, room_inner, List.nil_append]
    rw [ihl _ _ (Room.one s _)]
    cases hd : den S l x with
    | mk rl x' =>
      cases rl with
      | error w => simp only [outcome, handBack, finish_inner _ _ S.zero hr]
      | ok a =>
        rw [outcome_one]
        simp only [room_inner, List.nil_append]
        rw [ihr _ _ (Room.inner s [.val a] _)]
        cases hd2 : den S r x' with
        | mk rr x2 =>
          cases rr with
          | error w => simp only [outcome, handBack, finish_inner _ _ S.zero hr]
          | ok b =>
            rw [outcome_inner_ok]
            have h1 := load_inner s ([Slot.val a] ++ [.val b]) 0
            have h2 := load_inner s ([Slot.val a] ++ [.val b]) 1
            simp only [Int.natCast_zero, Int.zero_add] at h1
            simp only [Int.natCast_one] at h2
            rw [show (1 : Int) + 1 = 2 from rfl] at h2
            simp only [h1, h2]
            simp only [List.cons_append, List.nil_append, List.getElem?_cons_zero, List.getElem?_cons_succ]
            cases hu : S.bin op a b with
            | error w => simp only [finish_inner _ _ S.zero hr]; rfl
            | ok c => simp only [store_finish s S.zero hr]
  | and len l r ihl ihr =>
    intro s x hr
    simp only [eval, den, addFrame_zero, room_inner, List.nil_append]
    rw [ihl _ _ (Room.one s _)]
    cases hd : den S l x with
    | mk rl x' =>
      cases rl with
      | error w => simp only [outcome, handBack, finish_inner _ _ S.zero hr]
      | ok a =>
        rw [outcome_one]
        simp only [List.nil_append]
        have h1 := load_inner s [Slot.val a] 0
        simp only [Int.natCast_zero, Int.zero_add, List.getElem?_cons_zero] at h1
        simp only [h1]
        cases hc : S.cbool len a with
        | false => simp only [if_true, Bool.false_eq_true, if_false, store_finish s S.zero hr]
        | true =>
          simp only [Bool.true_eq_false, if_false, if_true, room_inner]
          rw [ihr _ _ (Room.inner s [.val a] _)]
          cases hd2 : den S r x' with
          | mk rr x2 =>
            cases rr with
            | error w => simp only [outcome, handBack, finish_inner _ _ S.zero hr]
            | ok b =>
              rw [outcome_inner_ok]
              have h2 := load_inner s ([Slot.val a] ++ [.val b]) 1
              simp only [Int.natCast_one] at h2
              rw [show (1 : Int) + 1 = 2 from rfl] at h2
              simp only [h2]
              simp only [List.cons_append, List.nil_append, List.getElem?_cons_zero, List.getElem?_cons_succ]
              simp only [store_finish s S.zero hr]
  | or len l r ihl ihr =>
    intro s x hr
    simp only [eval, den, addFrame_zero, room_inner, List.nil_append]
    rw [ihl _ _ (Room.one s _)]
    cases hd : den S l x with
    | mk rl x' =>
      cases rl with
      | error w => simp only [outcome, handBack, finish_inner _ _ S.zero hr]
      | ok a =>
        rw [outcome_one]
        simp only [List.nil_append]
        have h1 := load_inner s [Slot.val a] 0
        simp only [Int.natCast_zero, Int.zero_add, List.getElem?_cons_zero] at h1
        simp only [h1]
        cases hc : S.cbool len a with
        | true => simp only [if_true, store_finish s S.zero hr]
        | false =>
          simp only [Bool.false_eq_true, if_false, room_inner]
          rw [ihr _ _ (Room.inner s [.val a] _)]
          cases hd2 : den S r x' with
          | mk rr x2 =>
            cases rr with
            | error w => simp only [outcome, handBack, finish_inner _ _ S.zero hr]
            | ok b =>
              rw [outcome_inner_ok]
              have h2 := load_inner s ([Slot.val a] ++ [.val b]) 1
              simp only [Int.natCast_one] at h2
              rw [show (1 : Int) + 1 = 2 from rfl] at h2
              simp only [h2]
              simp only [List.cons_append, List.nil_append, List.getElem?_cons_zero, List.getElem?_cons_succ]
              simp only [store_finish s S.zero hr]
  | cond c l r ihc ihl ihr =>
    intro s x hr
    simp only [eval, den, addFrame_zero, room_inner, List.nil_append]
    rw [ihc _ _ (Room.one s _)]
    cases hd : den S c x with
    | mk rl x' =>
      cases rl with
      | error w => simp only [outcome, handBack, finish_inner _ _ S.zero hr]
      | ok a =>
        rw [outcome_one]
        simp only [List.nil_append, room_inner]
        have h1 := load_inner s ([Slot.val a] ++ [.val S.zero]) 0
        simp only [Int.natCast_zero, Int.zero_add] at h1
        simp only [h1]
        simp only [List.cons_append, List.nil_append, List.getElem?_cons_zero]
        have fin : ∀ (e : Expr), (∀ (s : CS α) (x : σ), Room s → eval S e s x = some (outcome s (den S e x))) →
            handBack (eval S e (inner s [.val a, .val S.zero]) x') = some (outcome s (den S e x')) := by
          intro e ih
          rw [show ([.val a, .val S.zero] : List (Slot α)) = [.val a] ++ [.val S.zero] from rfl,
            ih _ _ (Room.inner s [.val a] _)]
          cases hd2 : den S e x' with
          | mk rr x2 =>
            cases rr with
            | error w => simp only [outcome, handBack, finish_inner _ _ S.zero hr]
            | ok b =>
              rw [outcome_inner_ok]
              simp only [handBack]
              have h2 := load_inner s ([Slot.val a] ++ [.val b]) 1
              simp only [Int.natCast_one] at h2
              rw [show (1 : Int) + 1 = 2 from rfl] at h2
              simp only [h2]
              simp only [List.cons_append, List.nil_append, List.getElem?_cons_zero, List.getElem?_cons_succ]
              simp only [store_finish s S.zero hr]
        cases hn : S.nonzero a with
        | true => simpa using fin l ihl
        | false => simpa using fin r ihr

/-- Property C54: evaluating any expression on the evaluation stack, in a frame with room for the
result, never fails an assertion; it leaves the stack exactly as it was, with the value of the expression
in the last slot (or, when the evaluation fails, with nothing changed at all). -/
theorem C54_stack_restored {σ} (S : Sem σ α) (e : Expr) (s : CS α) (x : σ) (hr : s.cur + 1 < s.frames.length) :
    eval S e s x = some (match den S e x with
      | (.ok v, y) => (.normal, ⟨s.frames.dropLast ++ [.val v], s.cur⟩, y)
      | (.error w, y) => (.bad w, s, y)) := by
  rw [eval_den S e s x hr]
  cases den S e x with
  | mk r y => cases r <;> rfl

/-- Property C38: `l && r` evaluates `r` exactly when `l` is true, and is true exactly when both are.
The result and the effects are those seen on the evaluator's stack. -/
theorem C38_and {σ} (S : Sem σ α) (len : Nat) (l r : Expr) (s : CS α) (x : σ) (hr : s.cur + 1 < s.frames.length)
    (a : α) (y : σ) (hl : den S l x = (.ok a, y)) :
    (S.cbool len a = false → eval S (.and len l r) s x = some (.normal, ⟨s.frames.dropLast ++ [.val a], s.cur⟩, y)) ∧
    (S.cbool len a = true → eval S (.and len l r) s x = eval S r s y) := by
  rw [C54_stack_restored S _ s x hr, C54_stack_restored S r s y hr]
  simp only [den, hl]
  constructor
  · intro h; simp [h]
  · intro h; simp [h]

/-- Property C38: `l || r` evaluates `r` exactly when `l` is false. -/
theorem C38_or {σ} (S : Sem σ α) (len : Nat) (l r : Expr) (s : CS α) (x : σ) (hr : s.cur + 1 < s.frames.length)
    (a : α) (y : σ) (hl : den S l x = (.ok a, y)) :
    (S.cbool len a = true → eval S (.or len l r) s x = some (.normal, ⟨s.frames.dropLast ++ [.val a], s.cur⟩, y)) ∧
    (S.cbool len a = false → eval S (.or len l r) s x = eval S r s y) := by
  rw [C54_stack_restored S _ s x hr, C54_stack_restored S r s y hr]
  simp only [den, hl]
  constructor
  · intro h; simp [h]
  · intro h; simp [h]

/-- Values of operands of the logical operators, as truth values. -/
inductive BExpr where
  | leaf (k : Nat)
  | and (l r : BExpr)
  | or (l r : BExpr)

/-- As a node. -/
def BExpr.toExpr (len : Nat) : BExpr → Expr
  | .leaf k => .leaf k
  | .and l r => .and len (l.toExpr len) (r.toExpr len)
  | .or l r => .or len (l.toExpr len) (r.toExpr len)

/-- The truth value, the leaves having the values `b`. -/
def BExpr.truth (b : Nat → Bool) : BExpr → Bool
  | .leaf k => b k
  | .and l r => l.truth b && r.truth b
  | .or l r => l.truth b || r.truth b

/-- The leaves that are evaluated, in order. -/
def BExpr.visited (b : Nat → Bool) : BExpr → List Nat
  | .leaf k => [k]
  | .and l r => l.visited b ++ if l.truth b then r.visited b else []
  | .or l r => l.visited b ++ if l.truth b then [] else r.visited b

/-- Property C38, for arbitrarily nested expressions: if leaf `k` always has the value `v k` and its
evaluation adds `k` to a list, then the list tells exactly the leaves needed, in order, and the value is
true exactly when the formula is. -/
theorem C38_nested (S : Sem (List Nat) α) (len : Nat) (v : Nat → α)
    (hleaf : ∀ k x, S.leaf k x = (.ok (v k), x ++ [k])) (e : BExpr) (s : CS α) (x : List Nat)
    (hr : s.cur + 1 < s.frames.length) :
    ∃ a, eval S (e.toExpr len) s x = some (.normal, ⟨s.frames.dropLast ++ [.val a], s.cur⟩,
        x ++ e.visited (fun k => S.cbool len (v k))) ∧
      S.cbool len a = e.truth (fun k => S.cbool len (v k)) := by
  have key : ∀ (e : BExpr) (x : List Nat), ∃ a, den S (e.toExpr len) x =
      (.ok a, x ++ e.visited (fun k => S.cbool len (v k))) ∧ S.cbool len a = e.truth (fun k => S.cbool len (v k)) := by
    intro e
    induction e with
    | leaf k => intro x; exact ⟨v k, by simp [BExpr.toExpr, den, hleaf, BExpr.visited], rfl⟩
    | and l r ihl ihr =>
      intro x
      obtain ⟨a, h1, h2⟩ := ihl x
      simp only [BExpr.toExpr, den, h1, BExpr.visited, BExpr.truth]
      rw [← h2]
      cases hc : S.cbool len a with
      | false => exact ⟨a, by simp, by simp [hc]⟩
      | true =>
        obtain ⟨b, h3, h4⟩ := ihr (x ++ l.visited fun k => S.cbool len (v k))
        exact ⟨b, by simp [h3], by simp [h4]⟩
    | or l r ihl ihr =>
      intro x
      obtain ⟨a, h1, h2⟩ := ihl x
      simp only [BExpr.toExpr, den, h1, BExpr.visited, BExpr.truth]
      rw [← h2]
      cases hc : S.cbool len a with
      | true => exact ⟨a, by simp, by simp [hc]⟩
      | false =>
        obtain ⟨b, h3, h4⟩ := ihr (x ++ l.visited fun k => S.cbool len (v k))
        exact ⟨b, by simp [h3], by simp [h4]⟩
  obtain ⟨a, h1, h2⟩ := key e x
  refine ⟨a, ?_, h2⟩
  rw [C54_stack_restored S _ s x hr, h1]

/-- Property C38: the generated code for a formula runs the same leaves and gives the same truth value
as the evaluator.  (The values may differ: `&&` gives the constant `false` instead of the left operand.) -/
theorem C38_generated (S : Sem (List Nat) α) (len : Nat) (v : Nat → α) (hfalse : S.cbool len S.false = false)
    (hleaf : ∀ k x, S.leaf k x = (.ok (v k), x ++ [k])) (e : BExpr) (x : List Nat) :
    ∃ a, gen S (e.toExpr len) x = (.ok a, x ++ e.visited (fun k => S.cbool len (v k))) ∧
      S.cbool len a = e.truth (fun k => S.cbool len (v k)) := by
  induction e generalizing x with
  | leaf k => exact ⟨v k, by simp [BExpr.toExpr, gen, hleaf, BExpr.visited], rfl⟩
  | and l r ihl ihr =>
    obtain ⟨a, h1, h2⟩ := ihl x
    simp only [BExpr.toExpr, gen, h1, BExpr.visited, BExpr.truth]
    rw [← h2]
    cases hc : S.cbool len a with
    | false => exact ⟨S.false, by simp, by simp [hfalse]⟩
    | true =>
      obtain ⟨b, h3, h4⟩ := ihr (x ++ l.visited fun k => S.cbool len (v k))
      exact ⟨b, by simp [h3], by simp [h4]⟩
  | or l r ihl ihr =>
    obtain ⟨a, h1, h2⟩ := ihl x
    simp only [BExpr.toExpr, gen, h1, BExpr.visited, BExpr.truth]
    rw [← h2]
    cases hc : S.cbool len a with
    | true => exact ⟨a, by simp, by simp [hc]⟩
    | false =>
      obtain ⟨b, h3, h4⟩ := ihr (x ++ l.visited fun k => S.cbool len (v k))
      exact ⟨b, by simp [h3], by simp [h4]⟩

/-! ### C55 -/

theorem gen_of_den {σ} (S : Sem σ α) (hpure : ∀ k x, (S.leaf k x).2 = x)
    (hfalse : ∀ len a, S.cbool len a = false → a = S.false) (x : σ) : ∀ (e : Expr) (v : α) (y : σ),
    den S e x = (.ok v, y) → gen S e x = (.ok v, x) ∧ y = x := by
  intro e
  induction e with
  | leaf k =>
    intro v y h
    have := hpure k x
    simp only [den] at h
    rw [h] at this
    simp only at this
    subst this
    exact ⟨h, rfl⟩
  | un op e ih =>
    intro v y h
    simp only [den] at h
    cases hd : den S e x with
    | mk r x' =>
      rw [hd] at h
      cases r with
      | error w => simp at h
      | ok a =>
        obtain ⟨h1, rfl⟩ := ih a x' hd
        simp only [Prod.mk.injEq] at h
        exact ⟨by simp [gen, h1, h.1], h.2.symm⟩
  | bin op l r ihl ihr =>
    intro v y h
    simp only [den] at h
    cases hd : den S l x with
    | mk rl x' =>
      rw [hd] at h
      cases rl with
      | error w => simp at h
      | ok a =>
        obtain ⟨h1, rfl⟩ := ihl a x' hd
        simp only at h
        cases hd2 : den S r x' with
        | mk rr x2 =>
          rw [hd2] at h
          cases rr with
          | error w => simp at h
          | ok b =>
            obtain ⟨h3, rfl⟩ := ihr b x2 hd2
            simp only [Prod.mk.injEq] at h
            exact ⟨by simp [gen, h1, h3, h.1], h.2.symm⟩
  | and len l r ihl ihr =>
    intro v y h
    simp only [den] at h
    cases hd : den S l x with
    | mk rl x' =>
      rw [hd] at h
      cases rl with
      | error w => simp at h
      | ok a =>
        obtain ⟨h1, rfl⟩ := ihl a x' hd
        simp only at h
        cases hc : S.cbool len a with
        | true =>
          simp only [hc, if_true] at h
          obtain ⟨h3, rfl⟩ := ihr v y h
          exact ⟨by simp [gen, h1, hc, h3], rfl⟩
        | false =>
          simp only [hc, Bool.false_eq_true, if_false, Prod.mk.injEq, Except.ok.injEq] at h
          obtain ⟨rfl, rfl⟩ := h
          exact ⟨by simp only [gen, h1, hc, Bool.false_eq_true, if_false]; rw [hfalse len a hc], rfl⟩
  | or len l r ihl ihr =>
    intro v y h
    simp only [den] at h
    cases hd : den S l x with
    | mk rl x' =>
      rw [hd] at h
      cases rl with
      | error w => simp at h
      | ok a =>
        obtain ⟨h1, rfl⟩ := ihl a x' hd
        simp only at h
        cases hc : S.cbool len a with
        | false =>
          simp only [hc, Bool.false_eq_true, if_false] at h
          obtain ⟨h3, rfl⟩ := ihr v y h
          exact ⟨by simp [gen, h1, hc, h3], rfl⟩
        | true =>
          simp only [hc, if_true, Prod.mk.injEq, Except.ok.injEq] at h
          obtain ⟨rfl, rfl⟩ := h
          exact ⟨by simp [gen, h1, hc], rfl⟩
  | cond c l r ihc ihl ihr =>
    intro v y h
    simp only [den] at h
    cases hd : den S c x with
    | mk rl x' =>
      rw [hd] at h
      cases rl with
      | error w => simp at h
      | ok a =>
        obtain ⟨h1, rfl⟩ := ihc a x' hd
        simp only at h
        cases hc : S.nonzero a with
        | false =>
          simp only [hc, Bool.false_eq_true, if_false] at h
          obtain ⟨h3, rfl⟩ := ihr v y h
          exact ⟨by simp [gen, h1, hc, h3], rfl⟩
        | true =>
          simp only [hc, if_true] at h
          obtain ⟨h3, rfl⟩ := ihl v y h
          exact ⟨by simp [gen, h1, hc, h3], rfl⟩

/-- Property C55, the part that holds: if evaluating a leaf changes nothing, and the only false value
is the constant `false`, then whenever the evaluator gets a value the generated code gets the same one.
Missing: leaves with effects, where `C55_operand_order` shows the two differ; and which of two failures is seen. -/
theorem C55_same_value_partial {σ} (S : Sem σ α) (hpure : ∀ k x, (S.leaf k x).2 = x)
    (hfalse : ∀ len a, S.cbool len a = false → a = S.false) (e : Expr) (s s' : CS α) (x y : σ)
    (hr : s.cur + 1 < s.frames.length) (h : eval S e s x = some (.normal, s', y)) :
    ∃ v, gen S e x = (.ok v, x) ∧ s' = ⟨s.frames.dropLast ++ [.val v], s.cur⟩ ∧ y = x := by
  rw [eval_den S e s x hr] at h
  cases hd : den S e x with
  | mk r y' =>
    rw [hd] at h
    cases r with
    | error w => simp [outcome] at h
    | ok v =>
      simp only [outcome, Option.some.injEq, Prod.mk.injEq, true_and] at h
      obtain ⟨h1, rfl⟩ := gen_of_den S hpure hfalse x e v y' hd
      exact ⟨v, h1, h.1.symm, h.2.symm⟩

/-- Property C55 fails: the evaluator computes the left operand of a binary operator first, the generated
code the right one.  With `sub` for the operator, leaf 0 reading a variable and leaf 1 setting it to 5 (with
value 5), `v - (v = 5)` at `v = 7` is 2 for the evaluator and 0 in the generated code. -/
theorem C55_operand_order : ∃ (S : Sem Nat Nat) (e : Expr) (s : CS Nat) (x : Nat), s.cur + 1 < s.frames.length ∧
    eval S e s x = some (.normal, ⟨s.frames.dropLast ++ [.val 2], s.cur⟩, 5) ∧ gen S e x = (.ok 0, 5) :=
  ⟨⟨fun k x => if k = 0 then (.ok x, x) else (.ok 5, 5), fun _ a => .ok a, fun _ a b => .ok (a - b), fun _ a => a != 0,
    fun a => a != 0, 0, 0⟩, .bin 0 (.leaf 0) (.leaf 1), ⟨[.val 0, .fp 0, .val 0], 1⟩, 7, by decide, by rfl, by rfl⟩

section Examples

/-- Values are numbers, leaves log themselves, operator 0 adds, operator 1 divides and may fail. -/
def sem : Sem (List Nat) Nat where
  leaf := fun k x => (.ok k, x ++ [k])
  un := fun _ a => .ok (a + 1)
  bin := fun op a b => if op = 0 then .ok (a + b) else if b = 0 then .error 9 else .ok (a / b)
  cbool := fun _ a => a != 0
  nonzero := fun a => a != 0
  zero := 0
  false := 0

def st0 : CS Nat := ⟨[.val 1, .fp 0, .val 0], 1⟩
example : st0.cur + 1 < st0.frames.length := by decide
/-- `(3 && 0) || (0 ? 5 : 2 + 4)` -/
example : eval sem (.or 1 (.and 1 (.leaf 3) (.leaf 0)) (.cond (.leaf 0) (.leaf 5) (.bin 0 (.leaf 2) (.leaf 4)))) st0 [] =
    some (.normal, ⟨[.val 1, .fp 0, .val 6], 1⟩, [3, 0, 0, 2, 4]) := by rfl
/-- a failing division inside -/
example : eval sem (.bin 0 (.leaf 3) (.bin 1 (.leaf 3) (.leaf 0))) st0 [] = some (.bad 9, st0, [3, 3, 0]) := by rfl
example : (BExpr.and (.leaf 0) (.leaf 7)).visited (fun k => sem.cbool 1 k) = [0] := by decide

end Examples

end Ulam.CallStack
