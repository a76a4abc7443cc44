import Verif.RefRet.Spec
import Verif.Frame.Props
/-
Property C98: no reference to a function's own variables gets out of it.
-/
namespace Ulam.RefRet

open Frame (enter pushed leave)

variable {V : Type}

theorem inside_cur (w : Nat → Nat) (f : Frame.Func) (fp z obj : V) (stk : List V) (args : List (List V))
    (ev cs : Stk) (self : Ptr) : (inside w f fp z obj stk args ev cs self).calls.cur =
      stk.length + (args.map List.length).sum + 2 + f.ret := Frame.enter_frame w f fp z obj stk args

theorem inside_size (w : Nat → Nat) (f : Frame.Func) (fp z obj : V) (stk : List V) (args : List (List V))
    (ev cs : Stk) (self : Ptr) : (inside w f fp z obj stk args ev cs self).calls.size =
      stk.length + (args.map List.length).sum + 2 + f.ret + 1 + f.size w := by
  show (enter w f fp z obj stk args).1.length = _
  rw [Frame.enter_stack]
  simp only [List.length_append, Frame.flatten_length, List.length_singleton, List.length_replicate]
  omega

theorem returned_below (s : St) (p : Ptr) (hs : p.stor = .stack) (h : place s.calls p ≤ s.calls.cur) :
    returned s p = some p := by
  have hu : unreturnable s p = false := by
    unfold unreturnable
    by_cases h0 : p = s.self
    · rw [if_pos h0]
    · rw [if_neg h0]
      unfold place at h
      by_cases ha : p.abs = true
      · rw [if_pos ha] at h ⊢
        simp only [unreturnableAbs, hs, localIndex, Bool.and_eq_false_iff, decide_eq_false_iff_not]
        left
        omega
      · rw [if_neg ha] at h ⊢
        simp only [hs, localSlot, localIndex, Bool.and_eq_false_iff, decide_eq_false_iff_not]
        left
        omega
  unfold returned
  rw [hu]
  rfl

/-- A pointer to a local variable of the function, relative or absolute, is refused: whatever slot of
the frame beyond the frame pointer it leads to.  (`self` was made before the frame: it leads
elsewhere.) -/
theorem C98_local_refused (w : Nat → Nat) (f : Frame.Func) (fp z obj : V) (stk : List V)
    (args : List (List V)) (ev cs : Stk) (self p : Ptr) (hs : p.stor = .stack)
    (hp : let k := (inside w f fp z obj stk args ev cs self).calls
      k.cur < place k p ∧ place k p < k.size)
    (hself : self.stor = .stack → self.abs = true ∧
      place (inside w f fp z obj stk args ev cs self).calls self <
        (inside w f fp z obj stk args ev cs self).calls.cur) :
    returned (inside w f fp z obj stk args ev cs self) p = none := by
  have hne : p ≠ (inside w f fp z obj stk args ev cs self).self := by
    intro e
    have e' : p = self := e
    subst e'
    have := (hself hs).2
    have := hp.1
    omega
  unfold returned unreturnable
  rw [if_neg hne]
  obtain ⟨h1, h2⟩ := hp
  unfold place at h1 h2
  by_cases ha : p.abs = true
  · rw [if_pos ha] at h1 h2 ⊢
    simp only [unreturnableAbs, hs, localIndex, Bool.and_eq_true, decide_eq_true_eq]
    exact if_pos ⟨h1, h2⟩
  · rw [if_neg ha] at h1 h2 ⊢
    simp only [hs, localSlot, localIndex, Bool.and_eq_true, decide_eq_true_eq]
    exact if_pos ⟨h1, h2⟩

/-- So every variable of the function's body, by its slot, is refused. -/
theorem C98_variable_refused (w : Nat → Nat) (f : Frame.Func) (fp z obj : V) (stk : List V)
    (args : List (List V)) (ev cs : Stk) (self : Ptr) (slot : Nat) (h1 : 1 ≤ slot) (h2 : slot ≤ f.size w)
    (hsz : (inside w f fp z obj stk args ev cs self).calls.size ≤ 2 ^ 32)
    (hself : self.stor = .stack → self.abs = true ∧
      place (inside w f fp z obj stk args ev cs self).calls self <
        (inside w f fp z obj stk args ev cs self).calls.cur) :
    returned (inside w f fp z obj stk args ev cs self) ⟨.stack, false, slot⟩ = none := by
  refine C98_local_refused w f fp z obj stk args ev cs self _ rfl ?_ hself
  have e1 := inside_cur w f fp z obj stk args ev cs self
  have e2 := inside_size w f fp z obj stk args ev cs self
  generalize (inside w f fp z obj stk args ev cs self).calls = k at *
  have : place k ⟨.stack, false, slot⟩ = k.cur + slot := by
    unfold place absSlot
    rw [if_neg (by simp)]
    show (((k.cur : Int) + (slot : Int)) % 2 ^ 32).toNat = _
    omega
  dsimp only
  rw [this]
  omega

/-- A pointer passed by reference, made absolute by the caller, and returned, is accepted and leads
to the same slot for the caller, which is still there: whichever slot `p` of the caller's it was, of
the caller's frame or of any below. -/
theorem C98_passed_through (w : Nat → Nat) (f : Frame.Func) (fp z obj : V) (stk : List V)
    (args : List (List V)) (ev cs : Stk) (self p : Ptr) (cur : Nat) (hs : p.stor = .stack)
    (hp : place ⟨stk.length, cur⟩ p < stk.length)
    (hsz : (inside w f fp z obj stk args ev cs self).calls.size ≤ 2 ^ 32) :
    ∃ q, returned (inside w f fp z obj stk args ev cs self) (toAbs ⟨stk.length, cur⟩ p) = some q ∧
      place ⟨stk.length, cur⟩ q = place ⟨stk.length, cur⟩ p ∧
      Kept (inside w f fp z obj stk args ev cs self).calls ⟨stk.length, cur⟩ q := by
  have e1 := inside_cur w f fp z obj stk args ev cs self
  have e2 := inside_size w f fp z obj stk args ev cs self
  have ha : (toAbs ⟨stk.length, cur⟩ p).abs = true := by
    unfold toAbs
    split
    · rfl
    · next h => simpa [hs] using h
  have hst : (toAbs ⟨stk.length, cur⟩ p).stor = .stack := by
    unfold toAbs
    split <;> exact hs
  have hpl : place ⟨stk.length, cur⟩ (toAbs ⟨stk.length, cur⟩ p) = place ⟨stk.length, cur⟩ p := by
    unfold toAbs
    split
    · next h =>
      unfold place
      rw [if_pos rfl, if_neg (by simp [h.2])]
      unfold u32 absSlot
      dsimp only
      omega
    · rfl
  have hind : ∀ k, place k (toAbs ⟨stk.length, cur⟩ p) = u32 (toAbs ⟨stk.length, cur⟩ p).idx := by
    intro k
    unfold place
    rw [if_pos ha]
  refine ⟨toAbs ⟨stk.length, cur⟩ p, ?_, hpl, ?_, ?_⟩
  · refine returned_below _ _ hst ?_
    rw [hind, ← hind ⟨stk.length, cur⟩, hpl]
    omega
  · rw [hind, hind]
  · show _ < stk.length
    rw [hpl]
    exact hp

/-- And it reads there what was there: a function that left the caller's part of the stack alone
gives a reference whose slot has the value it had. -/
theorem C98_value (w : Nat → Nat) (f : Frame.Func) (fp z obj : V) (stk : List V)
    (args : List (List V)) (ev cs : Stk) (self p : Ptr) (cur : Nat) (s : List V)
    (hk : Kept (inside w f fp z obj stk args ev cs self).calls ⟨stk.length, cur⟩ p)
    (hs : s.take stk.length = stk) :
    (leave s (enter w f fp z obj stk args).2 (pushed f args))[place ⟨stk.length, cur⟩ p]? =
      s[place (inside w f fp z obj stk args ev cs self).calls p]? := by
  rw [Frame.C89_restored w f fp z obj stk args s hs, ← hk.1]
  have h2 : place ⟨stk.length, cur⟩ p < stk.length := hk.2
  have : stk[place ⟨stk.length, cur⟩ p]? = (s.take stk.length)[place ⟨stk.length, cur⟩ p]? := by rw [hs]
  rw [this, List.getElem?_take, if_pos h2]

/-- What is accepted of the call stack, absolute, and not among what was pushed for the call itself,
is the caller's and stays where it is.

Missing for the whole claim: the parameters of the function (see `C98_parameter_fails` and
`C98_parameter_passed_fails`). -/
theorem C98_accepted_partial (w : Nat → Nat) (f : Frame.Func) (fp z obj : V) (stk : List V)
    (args : List (List V)) (ev cs : Stk) (self p q : Ptr) (cur : Nat) (hs : p.stor = .stack)
    (ha : p.abs = true)
    (hr : returned (inside w f fp z obj stk args ev cs self) p = some q)
    (hself : self.stor = .stack → self.abs = true ∧
      place (inside w f fp z obj stk args ev cs self).calls self < stk.length)
    (hin : place (inside w f fp z obj stk args ev cs self).calls p <
      (inside w f fp z obj stk args ev cs self).calls.size)
    (hz : ¬ (stk.length ≤ place (inside w f fp z obj stk args ev cs self).calls p ∧
      place (inside w f fp z obj stk args ev cs self).calls p ≤
        (inside w f fp z obj stk args ev cs self).calls.cur)) :
    q = p ∧ Kept (inside w f fp z obj stk args ev cs self).calls ⟨stk.length, cur⟩ q := by
  have e1 := inside_cur w f fp z obj stk args ev cs self
  have hq : q = p := by
    unfold returned at hr
    split at hr
    · simp at hr
    · simpa using hr.symm
  subst hq
  refine ⟨rfl, by simp [place, ha], ?_⟩
  show place ⟨stk.length, cur⟩ q < stk.length
  have hpe : place ⟨stk.length, cur⟩ q = place (inside w f fp z obj stk args ev cs self).calls q := by
    simp [place, ha]
  rw [hpe]
  by_contra hc
  have hp : (inside w f fp z obj stk args ev cs self).calls.cur <
      place (inside w f fp z obj stk args ev cs self).calls q := by omega
  have := C98_local_refused w f fp z obj stk args ev cs self q hs ⟨hp, hin⟩
    (fun h => ⟨(hself h).1, by have := (hself h).2; omega⟩)
  rw [this] at hr
  simp at hr

/-- Against the claim: a parameter passed by value is returned by reference without complaint, whatever
the function and the parameter.  For the caller the reference leads to another slot: one of its own
frame, not the argument's; and the argument's slot is gone. -/
theorem C98_parameter_fails (w : Nat → Nat) (f : Frame.Func) (fp z obj : V) (stk : List V)
    (args : List (List V)) (ev cs : Stk) (self : Ptr) (cur i : Nat) (slot : Int)
    (ht : args.map List.length = f.params) (hc : cur < stk.length)
    (hslot : f.paramSlots[i]? = some slot)
    (hsz : (inside w f fp z obj stk args ev cs self).calls.size ≤ 2 ^ 31) :
    returned (inside w f fp z obj stk args ev cs self) ⟨.stack, false, slot⟩ = some ⟨.stack, false, slot⟩ ∧
      stk.length ≤ place (inside w f fp z obj stk args ev cs self).calls ⟨.stack, false, slot⟩ ∧
      ¬ Kept (inside w f fp z obj stk args ev cs self).calls ⟨stk.length, cur⟩ ⟨.stack, false, slot⟩ := by
  have e1 := inside_cur w f fp z obj stk args ev cs self
  have e2 := inside_size w f fp z obj stk args ev cs self
  have hi : i < f.params.length := by
    have := (List.getElem?_eq_some_iff.1 hslot).1
    simpa [Frame.Func.paramSlots, Frame.slotsUp_length] using this
  rw [Frame.paramSlots_get f i hi, Option.some.injEq] at hslot
  have hb : f.base = f.ret + 2 + (args.map List.length).sum := by rw [ht]; rfl
  have hd : (f.params.drop (i + 1)).sum ≤ (args.map List.length).sum := by
    rw [ht]
    have := congrArg List.sum (List.take_append_drop (i + 1) f.params)
    rw [List.sum_append] at this
    omega
  generalize hk : (inside w f fp z obj stk args ev cs self) = st at *
  have hpl : place st.calls ⟨.stack, false, slot⟩ = stk.length + (f.params.drop (i + 1)).sum := by
    unfold place absSlot
    rw [if_neg (by simp)]
    show (((st.calls.cur : Int) + slot) % 2 ^ 32).toNat = _
    omega
  refine ⟨?_, by omega, ?_⟩
  · exact returned_below _ _ rfl (by omega)
  · intro ⟨h1, h2⟩
    have h2' : place ⟨stk.length, cur⟩ ⟨.stack, false, slot⟩ < stk.length := h2
    omega

/-- And one that was passed on by reference to another function and returned from there is absolute: it
is accepted too, its slot is gone after the call, and belongs to whatever is pushed next. -/
theorem C98_parameter_passed_fails (w : Nat → Nat) (f : Frame.Func) (fp z obj : V) (stk : List V)
    (args : List (List V)) (ev cs : Stk) (self p : Ptr) (cur n : Nat) (hs : p.stor = .stack)
    (ha : p.abs = true) (hn : n < (args.map List.length).sum)
    (hp : place (inside w f fp z obj stk args ev cs self).calls p = stk.length + n)
    (s more : List V) (hst : s.take stk.length = stk) :
    returned (inside w f fp z obj stk args ev cs self) p = some p ∧
      ¬ Kept (inside w f fp z obj stk args ev cs self).calls ⟨stk.length, cur⟩ p ∧
      (leave s (enter w f fp z obj stk args).2 (pushed f args) ++ more)[place ⟨stk.length, cur⟩ p]? =
        more[n]? := by
  have e1 := inside_cur w f fp z obj stk args ev cs self
  have hpe : place ⟨stk.length, cur⟩ p = stk.length + n := by
    rw [← hp]
    simp [place, ha]
  refine ⟨?_, ?_, ?_⟩
  · exact returned_below _ _ hs (by omega)
  · intro ⟨_, h2⟩
    have h2' : place ⟨stk.length, cur⟩ p < stk.length := h2
    omega
  · rw [Frame.C89_restored w f fp z obj stk args s hst, hpe, List.getElem?_append_right (by omega),
      Nat.add_sub_cancel_left]

/-- `self`, and anything in the event window, is always accepted. -/
theorem C98_self_and_sites (s : St) (p : Ptr) (h : p = s.self ∨ p.stor = .eventWindow) :
    returned s p = some p := by
  unfold returned unreturnable
  rcases h with h | h
  · rw [if_pos h]; rfl
  · unfold unreturnableAbs
    rw [h]
    split_ifs <;> simp_all

/-- A constant, whose storage is never given back, is nevertheless refused: all of them (the constants'
stack has only its first frame). -/
theorem C98_constant_refused (s : St) (p : Ptr) (h : p.stor = .constants) (hne : p ≠ s.self)
    (h0 : s.consts.cur = 0) (h1 : 1 ≤ p.idx) (h2 : p.idx < s.consts.size)
    (hsz : s.consts.size ≤ 2 ^ 32) : returned s p = none := by
  have : localIndex s.consts (u32 p.idx) = true := by
    have e : p.idx % 2 ^ 32 = p.idx := Int.emod_eq_of_lt (by omega) (by omega)
    simp only [localIndex, u32, Bool.and_eq_true, decide_eq_true_eq, h0, e]
    constructor <;> omega
  unfold returned unreturnable unreturnableAbs
  rw [if_neg hne, h]
  simp [this]

section Examples

/-- A function of one slot for what it returns, a parameter of one slot and one of three. -/
def f2 : Frame.Func := Frame.tame

/-- Called with the caller's variable in slot 1 as the first argument. -/
def st2 : St := inside Frame.w32 f2 90 0 7 [1, 2] [[10], [20, 21, 22]] ⟨1, 0⟩ ⟨1, 0⟩ ⟨.stack, true, 0⟩

example : st2.calls.cur = 9 ∧ 10 < st2.calls.size ∧
    returned st2 ⟨.stack, false, 1⟩ = none ∧ returned st2 ⟨.stack, true, 10⟩ = none ∧
    returned st2 (toAbs ⟨2, 0⟩ ⟨.stack, false, 1⟩) = some ⟨.stack, true, 1⟩ ∧
    returned st2 ⟨.stack, false, -4⟩ = some ⟨.stack, false, -4⟩ ∧
    returned st2 ⟨.stack, true, 5⟩ = some ⟨.stack, true, 5⟩ ∧
    returned st2 ⟨.eventWindow, false, 3⟩ = some ⟨.eventWindow, false, 3⟩ := by
  decide +kernel

example : f2.paramSlots = [-4, -7] ∧ place st2.calls ⟨.stack, false, -4⟩ = 5 := by decide +kernel

end Examples

end Ulam.RefRet
