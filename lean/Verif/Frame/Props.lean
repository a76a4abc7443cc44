import Verif.Frame.Lemmas

/-!
C88: local variables in scope at once have slots of their own, inside the frame of their function,
as long as the depth stays within its type; each choice about doubles it, and thirty-one of them take
it past the end. C89: each parameter holds its argument. C90: a local reference stands for what it
was bound to, if no function is called while it runs.
-/
namespace Ulam.Frame

/-! ### C88 -/

/-- The depth of a function and the size of its frame stay within their types. -/
def Fits (f : Func) : Prop := 1 + (f.locals id).maxd < 2 ^ 31 ∧ f.size id < 2 ^ 32

theorem locals_w {f : Func} (h : Fits f) : f.locals w32 = f.locals id :=
  depthOf_w 1 _ 0 0 (by have := h.1; simp [depthOf]) (by have := h.1; unfold Func.locals at this; omega)

theorem size_w {f : Func} (h : Fits f) : f.size w32 = f.size id := by
  have := h.2
  unfold Func.size at this ⊢
  simp only [id] at this ⊢
  rw [locals_w h, w32_of_lt (n := (f.locals id).maxd + 1) (by omega), w32_of_lt this]

theorem locals_depth (w : Nat → Nat) (f : Func) : (f.locals w).depth = 0 := rfl

/-- In a function that fits, two variables in scope at once have no slot in common: storing into a
slot of the one leaves every slot of the other as it was.

Missing for the whole claim: functions that do not fit (see `C88_choices_fail`). -/
theorem C88_apart_partial {V : Type} (f : Func) (hf : Fits f) (hn : (decls f.body).Nodup)
    (x y : Nat) (h : (x, y) ∈ together [] f.body) (sx sy : Int) (nx ny : Nat)
    (hx : (x, sx, nx) ∈ (f.locals w32).slots) (hy : (y, sy, ny) ∈ (f.locals w32).slots)
    (i j : Nat) (hi : i < nx) (hj : j < ny) :
    sx + i ≠ sy + j ∧ ∀ (s s' : List V) (frame : Nat) (v : V),
      (store s frame (sx + i) v = some s' → load s' frame (sy + j) = load s frame (sy + j)) ∧
      (store s frame (sy + j) v = some s' → load s' frame (sx + i) = load s frame (sx + i)) := by
  rw [locals_w hf] at hx hy
  have hs : ((f.locals id).slots.map (·.1)).Nodup := by
    rw [show (f.locals id).slots.map (·.1) = decls f.body from slots_decls id 1 (.block f.body) 0 0]
    exact hn
  have h1 := hf.1
  have key := slots_main 1 (slotOf (f.locals id).slots) (.block f.body) [] 0 0
    (by simp [depthOf]) (by unfold Func.locals at h1; omega) (slotOf_mem hs) (by simp [Within])
  have ap := key.1 (x, y) h
  have ex := slotOf_mem hs _ hx
  have ey := slotOf_mem hs _ hy
  simp only [] at ap ex ey
  rw [ex, ey] at ap
  have ne : sx + i ≠ sy + j := by
    rcases ap with ap | ap <;> simp only [] at ap <;> omega
  have go : ∀ (a b : Int), a ≠ b → ∀ (s s' : List V) (frame : Nat) (v : V),
      store s frame a v = some s' → load s' frame b = load s frame b := by
    intro a b hab s s' frame v e
    unfold store at e
    split at e
    · rename_i g
      simp only [Option.some.injEq] at e
      subst e
      unfold load
      split
      · rw [List.getElem?_set_ne (by omega)]
      · rfl
    · exact absurd e (by simp)
  exact ⟨ne, fun s s' frame v => ⟨go _ _ ne s s' frame v, go _ _ ne.symm s s' frame v⟩⟩

/-- In a function that fits, every slot of every variable is above the frame pointer and inside the
frame the call makes: storing into it does not fail, and reading it gives what was stored.

Missing for the whole claim: functions that do not fit (see `C88_choices_fail`). -/
theorem C88_inside_partial {V : Type} (f : Func) (hf : Fits f) (hn : (decls f.body).Nodup)
    (x n : Nat) (sx : Int) (hx : (x, sx, n) ∈ (f.locals w32).slots) (i : Nat) (hi : i < n) :
    0 < sx + i ∧ sx + i ≤ f.size w32 ∧
      ∀ (fp z self : V) (stk : List V) (args : List (List V)) (v : V),
        ∃ s', store (enter w32 f fp z self stk args).1 (enter w32 f fp z self stk args).2 (sx + i) v =
          some s' ∧ load s' (enter w32 f fp z self stk args).2 (sx + i) = some v := by
  rw [locals_w hf] at hx
  have hs : ((f.locals id).slots.map (·.1)).Nodup := by
    rw [show (f.locals id).slots.map (·.1) = decls f.body from slots_decls id 1 (.block f.body) 0 0]
    exact hn
  have h1 := hf.1
  have key := slots_main 1 (slotOf (f.locals id).slots) (.block f.body) [] 0 0
    (by simp [depthOf]) (by unfold Func.locals at h1; omega) (slotOf_mem hs) (by simp [Within])
  have g := key.2.2 _ hx
  change _ ∧ _ ≤ ((1 : Nat) : Int) + ((max (f.locals id).depth (f.locals id).maxd : Nat) : Int) at g
  rw [locals_depth] at g
  simp only [Nat.cast_one] at g
  have sz : f.size w32 = (f.locals id).maxd + 1 + f.base := by rw [size_w hf]; rfl
  have a : 0 < sx + i := by omega
  have b : sx + i ≤ f.size w32 := by rw [sz]; push_cast; omega
  refine ⟨a, b, fun fp z self stk args v => ?_⟩
  have len : (enter w32 f fp z self stk args).1.length =
      (enter w32 f fp z self stk args).2 + 1 + f.size w32 := by
    simp only [enter, addFrame, List.length_append, List.length_singleton, List.length_replicate]
  have ok : (0 : Int) ≤ (enter w32 f fp z self stk args).2 + (sx + i) ∧
      (enter w32 f fp z self stk args).2 + (sx + i) <
        ((enter w32 f fp z self stk args).1.length : Int) := by
    rw [len]; push_cast; omega
  refine ⟨_, if_pos ok, ?_⟩
  unfold load
  rw [if_pos ok.1, List.getElem?_set_self (by omega)]

/-- The depth a function asks for is at most its slots all told, times two for each choice: a
function for which that is small fits. -/
theorem C88_bound (f : Func) :
    (f.locals id).maxd ≤ weight f.body * 2 ^ choices f.body ∧
      (weight f.body * 2 ^ choices f.body + f.base + 1 < 2 ^ 31 → Fits f) := by
  have h := (depth_bound 1 (.block f.body) 0 0).2
  simp only [weight, choices, Nat.zero_add, Nat.zero_max] at h
  refine ⟨h, fun g => ?_⟩
  have e : f.size id = (f.locals id).maxd + 1 + f.base := rfl
  constructor
  · unfold Func.locals; omega
  · rw [e]; unfold Func.locals; omega

/-- `k` statements `a = b ? a : a;` -/
def many : Nat → Stmt → Stmt
  | 0, s => s
  | k + 1, s => .seq (.expr (.bin .leaf (.ques .leaf .leaf .leaf))) (many k s)

/-- `Int a; Int b;`, `k` statements `a = b ? a : a;`, `Int c;` -/
def chain (k : Nat) : Stmt :=
  .seq (.decl 0 1 .leaf) (.seq (.decl 1 1 .leaf) (many k (.decl 2 1 .leaf)))

theorem s32_congr {a b : Nat} (h : a % 2 ^ 32 = b % 2 ^ 32) : s32 a = s32 b := by
  have h' : (a : Int) % 2 ^ 32 = (b : Int) % 2 ^ 32 := by
    have := congrArg (Nat.cast : Nat → Int) h
    push_cast at this
    exact this
  unfold s32
  rw [h, h']

theorem many_slots (k d m : Nat) (s : Stmt) : ∃ d' m',
    (depthOf w32 1 (many k s) d m).slots = (depthOf w32 1 s d' m').slots ∧
      d' % 2 ^ 32 = d * 2 ^ k % 2 ^ 32 := by
  induction k generalizing d m with
  | zero => exact ⟨d, m, rfl, by simp⟩
  | succ k ih =>
    obtain ⟨d', m', h1, h2⟩ := ih (w32 (d + d)) m
    refine ⟨d', m', ?_, ?_⟩
    · rw [← h1]
      simp [many, depthOf, exprDepth]
    · rw [h2, w32, Nat.mod_mul_mod, pow_succ]
      congr 1
      ring

/-- Each choice doubles the depth of what comes after it: after `k` of them the third variable of
`chain k` is in slot `1 + 2 ^ (k + 1)`, as an `s32`. -/
theorem C88_doubles (ps : List Nat) (r k : Nat) :
    (Func.locals w32 ⟨ps, r, chain k⟩).slots =
      [(0, 1, 1), (1, 2, 1), (2, s32 (1 + 2 ^ (k + 1)), 1)] := by
  obtain ⟨d', m', h1, h2⟩ := many_slots k 2 0 (.decl 2 1 .leaf)
  have e : (Func.locals w32 ⟨ps, r, chain k⟩).slots =
      [(0, 1, 1), (1, 2, 1)] ++ (depthOf w32 1 (many k (.decl 2 1 .leaf)) 2 0).slots := rfl
  rw [e, h1]
  have : s32 (d' + 1) = s32 (1 + 2 ^ (k + 1)) := by
    apply s32_congr
    rw [Nat.add_mod, h2, ← Nat.add_mod, pow_succ]
    congr 1
    ring
  simp [depthOf, exprDepth, this]

/-- With thirty-one or more of them, the third variable has the slot of the first, though both are in
scope. With thirty, it is given a slot far below the frame. -/
theorem C88_choices_fail (ps : List Nat) (r : Nat) :
    (∀ k, 31 ≤ k → (Func.locals w32 ⟨ps, r, chain k⟩).slots = [(0, 1, 1), (1, 2, 1), (2, 1, 1)] ∧
      (0, 2) ∈ together [] (chain k)) ∧
    (Func.locals w32 ⟨ps, r, chain 30⟩).slots =
      [(0, 1, 1), (1, 2, 1), (2, -2 ^ 31 + 1, 1)] := by
  refine ⟨fun k hk => ⟨?_, ?_⟩, ?_⟩
  · rw [C88_doubles]
    obtain ⟨j, rfl⟩ : ∃ j, k = j + 31 := ⟨k - 31, by omega⟩
    have : s32 (1 + 2 ^ (j + 31 + 1)) = s32 1 := by
      apply s32_congr
      rw [show j + 31 + 1 = j + 32 from rfl, pow_add, Nat.add_mul_mod_self_right]
    rw [this]
    decide +kernel
  · have : ∀ (k : Nat) (E : List Nat), 0 ∈ E → (0, 2) ∈ together E (many k (.decl 2 1 .leaf)) := by
      intro k
      induction k with
      | zero => intro E h; simpa [many, together] using h
      | succ k ih => intro E h; simpa [many, together, leaves] using ih E h
    have := this k [1, 0] (by simp)
    simp [chain, together, leaves, this]
  · rw [C88_doubles]; decide +kernel

/-- Two blocks, one in the other, with a loop and a call. -/
def tame : Func :=
  ⟨[1, 3], 1, .seq (.decl 0 1 .leaf) (.seq (.ctl .leaf (.block (.decl 1 4 (.ques .leaf .leaf .leaf))))
    (.seq (.expr (.call (.cons .leaf 2 .nil) 1)) (.decl 2 1 .leaf)))⟩

/-- The hypotheses hold of it. -/
example : Fits tame ∧ (decls tame.body).Nodup ∧ (0, 1) ∈ together [] tame.body ∧
    (0, 2) ∈ together [] tame.body ∧ (1, 2) ∉ together [] tame.body ∧
    (tame.locals w32).slots = [(0, 1, 1), (1, 2, 4), (2, 7, 1)] ∧ tame.size w32 = 18 := by
  refine ⟨⟨?_, ?_⟩, ?_⟩ <;> decide +kernel

/-! ### C89 -/

section call
variable {V : Type}

theorem enter_stack (w : Nat → Nat) (f : Func) (fp z self : V) (stk : List V) (args : List (List V)) :
    (enter w f fp z self stk args).1 =
      stk ++ (args.reverse.flatten ++ ([self] ++ ([z] ++ (List.replicate f.ret z ++
        ([fp] ++ List.replicate (f.size w) z))))) := by
  simp [enter, addFrame, pushHidden, pushArgs, foldl_append]

theorem flatten_length (args : List (List V)) :
    args.reverse.flatten.length = (args.map List.length).sum := by
  rw [List.length_flatten, List.map_reverse, List.sum_reverse]

theorem enter_frame (w : Nat → Nat) (f : Func) (fp z self : V) (stk : List V) (args : List (List V)) :
    (enter w f fp z self stk args).2 = stk.length + (args.map List.length).sum + 2 + f.ret := by
  simp only [enter, pushHidden, pushArgs, foldl_append, List.length_append, flatten_length,
    List.length_singleton, List.length_replicate]

theorem paramSlots_get (f : Func) (i : Nat) (h : i < f.params.length) :
    f.paramSlots[i]? = some (-(f.base : Int) + ((f.params.drop (i + 1)).sum : Nat)) := by
  unfold Func.paramSlots
  rw [List.getElem?_reverse (by simpa [slotsUp_length] using h), slotsUp_length, List.length_reverse,
    slotsUp_get _ _ _ (by rw [List.length_reverse]; omega), List.take_reverse, List.sum_reverse]
  congr 4
  congr 1
  omega

/-- When the body of a function begins, each slot of each parameter holds the value given for it: the
`j`-th of the `i`-th argument. -/
theorem C89_parameter (w : Nat → Nat) (f : Func) (fp z self : V) (stk : List V)
    (args : List (List V)) (ht : args.map List.length = f.params) (i j : Nat) (a : List V) (v : V)
    (ha : args[i]? = some a) (hv : a[j]? = some v) :
    ∃ s, f.paramSlots[i]? = some s ∧
      load (enter w f fp z self stk args).1 (enter w f fp z self stk args).2 (s + j) = some v := by
  have hi : i < args.length := (List.getElem?_eq_some_iff.1 ha).1
  have hj : j < a.length := (List.getElem?_eq_some_iff.1 hv).1
  have hp : i < f.params.length := by rw [← ht]; simpa using hi
  refine ⟨_, paramSlots_get f i hp, ?_⟩
  have hb : f.base = f.ret + 2 + (args.map List.length).sum := by rw [ht]; rfl
  have hd : (f.params.drop (i + 1)).sum = ((args.reverse.take (args.length - 1 - i)).map List.length).sum := by
    rw [List.take_reverse, List.map_reverse, List.sum_reverse, ← ht, List.map_drop]
    congr 3
    omega
  have hr : args.reverse[args.length - 1 - i]? = some a := by
    rw [List.getElem?_reverse (by omega), ← ha]
    congr 1
    omega
  have hg := flatten_get args.reverse _ j a v hr hv
  rw [← hd] at hg
  have e : (((enter w f fp z self stk args).2 : Nat) : Int) + (-(f.base : Int) +
      ((f.params.drop (i + 1)).sum : Nat) + j) =
      ((stk.length + ((f.params.drop (i + 1)).sum + j) : Nat) : Int) := by
    rw [enter_frame, hb]; push_cast; ring
  have hl := (List.getElem?_eq_some_iff.1 hg).1
  unfold load
  rw [e, if_pos (by omega), Int.toNat_natCast, enter_stack,
    List.getElem?_append_right (by omega), Nat.add_sub_cancel_left,
    List.getElem?_append_left hl, hg]

/-- Its `self` is the object it was called on. -/
theorem C89_self (w : Nat → Nat) (f : Func) (fp z self : V) (stk : List V) (args : List (List V)) :
    load (enter w f fp z self stk args).1 (enter w f fp z self stk args).2 f.selfSlot = some self := by
  have e : (((enter w f fp z self stk args).2 : Nat) : Int) + f.selfSlot =
      ((stk.length + args.reverse.flatten.length : Nat) : Int) := by
    rw [enter_frame, flatten_length, Func.selfSlot]; push_cast; ring
  unfold load
  rw [e, if_pos (by omega), Int.toNat_natCast, enter_stack, List.getElem?_append_right (by omega),
    Nat.add_sub_cancel_left, List.getElem?_append_right le_rfl]
  simp

/-- The slots just below the frame pointer, where what is returned is put, are none of a parameter's,
of `self`, and of the caller's: storing into them keeps all of these. -/
theorem C89_returned (w : Nat → Nat) (f : Func) (fp z self : V) (stk : List V)
    (args : List (List V)) (ht : args.map List.length = f.params) (k : Nat) (hk : 1 ≤ k)
    (hk' : k ≤ f.ret) (v : V) :
    ∃ s, store (enter w f fp z self stk args).1 (enter w f fp z self stk args).2 (-(k : Int)) v =
        some s ∧
      load s (enter w f fp z self stk args).2 (-(k : Int)) = some v ∧
      load s (enter w f fp z self stk args).2 f.selfSlot = some self ∧
      (∀ i p, f.paramSlots[i]? = some p → ∀ j, j < f.params.getD i 0 →
        load s (enter w f fp z self stk args).2 (p + j) =
          load (enter w f fp z self stk args).1 (enter w f fp z self stk args).2 (p + j)) ∧
      s.take stk.length = stk := by
  have hF := enter_frame w f fp z self stk args
  have hs := C89_self w f fp z self stk args
  have hS := enter_stack w f fp z self stk args
  have len : (enter w f fp z self stk args).2 < (enter w f fp z self stk args).1.length := by
    simp [enter, addFrame]
  generalize (enter w f fp z self stk args).1 = S at *
  generalize (enter w f fp z self stk args).2 = F at *
  have ok : (0 : Int) ≤ F + -(k : Int) ∧ F + -(k : Int) < (S.length : Int) := by omega
  have other : ∀ q : Int, q ≠ -(k : Int) →
      load (S.set (F + -(k : Int)).toNat v) F q = load S F q := by
    intro q hq
    unfold load
    split
    · rw [List.getElem?_set_ne (by omega)]
    · rfl
  refine ⟨_, if_pos ok, ?_, ?_, ?_, ?_⟩
  · unfold load
    rw [if_pos ok.1, List.getElem?_set_self (by omega)]
  · rw [other _ (by unfold Func.selfSlot; omega), hs]
  · intro i p hp j hj
    apply other
    have hi : i < f.params.length := by
      by_contra hc
      rw [List.getD_eq_getElem?_getD, List.getElem?_eq_none (by omega)] at hj
      simp at hj
    rw [paramSlots_get f i hi] at hp
    simp only [Option.some.injEq] at hp
    have h1 : f.params.getD i 0 + (f.params.drop (i + 1)).sum ≤ f.params.sum := by
      rw [List.getD_eq_getElem?_getD, List.getElem?_eq_getElem hi, Option.getD_some]
      have := congrArg List.sum (List.take_append_drop i f.params)
      rw [List.sum_append] at this
      rw [List.drop_eq_getElem_cons hi, List.sum_cons] at this
      omega
    have hb : f.base = f.ret + 2 + f.params.sum := rfl
    omega
  · rw [List.take_set, hS, List.take_left']
    · exact List.set_eq_of_length_le (by omega)
    · rfl

/-- A call whose function left the caller's part of the stack alone gives the caller its stack
back. -/
theorem C89_restored (w : Nat → Nat) (f : Func) (fp z self : V) (stk : List V)
    (args : List (List V)) (s : List V)
    (hs : s.take stk.length = stk) :
    leave s (enter w f fp z self stk args).2 (pushed f args) = stk := by
  rw [enter_frame]
  unfold leave pushed
  rw [List.take_take]
  rw [show min (stk.length + (args.map List.length).sum + 2 + f.ret - ((args.map List.length).sum + 1 + 1 + f.ret))
      (stk.length + (args.map List.length).sum + 2 + f.ret) = stk.length by omega]
  exact hs

/-- A call of a function of two parameters, of one slot and of three. -/
example : (enter w32 tame 90 0 7 [1, 2] [[10], [20, 21, 22]]).2 = 9 ∧ tame.paramSlots = [-4, -7] ∧
    tame.selfSlot = -3 ∧
    load (enter w32 tame 90 0 7 [1, 2] [[10], [20, 21, 22]]).1 9 (-4) = some 10 ∧
    load (enter w32 tame 90 0 7 [1, 2] [[10], [20, 21, 22]]).1 9 (-7 + 2) = some 22 ∧
    load (enter w32 tame 90 0 7 [1, 2] [[10], [20, 21, 22]]).1 9 (-3) = some 7 ∧
    leave (enter w32 tame 90 0 7 [1, 2] [[10], [20, 21, 22]]).1 9 7 = [1, 2] := by
  decide +kernel

end call

/-! ### C90 -/

/-- In a program in which no function is called while it runs, every run in which references stand
for what they were bound to is the evaluator's: it ends with the same values in all places.

Missing for the whole claim: programs with recursion (see `C90_recursion_fails`). -/
theorem C90_bound_partial (G : RProg) (hG : NoRecursion G) (n f top : Nat) (ps : List Nat)
    (mem : Nat → Int) (auto : Nat → Nat → Option Ptr) (r : (Nat → Int) × Refs)
    (h : exec G n ⟨f, top, ps⟩ mem (top + (G f).slots) (fun _ => none) (G f).body = some r) :
    ∃ s, run G n ⟨f, top, ps⟩ ⟨mem, top + (G f).slots, auto⟩ (G f).body = some s ∧ s.mem = r.1 := by
  obtain ⟨k, H⟩ := hG
  obtain ⟨s, h1, h2, _⟩ := run_exec H n ⟨f, top, ps⟩ ⟨mem, top + (G f).slots, auto⟩ (fun _ => none)
    (G f).body r (H f) (fun _ _ e => by simp at e) h
  exact ⟨s, h1, h2⟩

/-- `f(Int & p) { Int y = 0; Int & r = p; if(p) f(y); r = 5; }` -/
def again : RProg := fun _ =>
  ⟨1, .seq (.set (.loc 0) 0) (.seq (.bind 0 (.par 0)) (.seq (.cond (.par 0) (.call 0 [.loc 0]))
    (.set (.ref 0) 5)))⟩

/-- It calls itself once, and then the outer `r` is the inner one: called for a variable that is 1,
it should make that 5, and leaves it. -/
theorem C90_recursion_fails : ∃ r s,
    exec again 9 ⟨0, 1, [0]⟩ (fun _ => 1) 2 (fun _ => none) (again 0).body = some r ∧
      run again 9 ⟨0, 1, [0]⟩ ⟨fun _ => 1, 2, fun _ _ => none⟩ (again 0).body = some s ∧
      r.1 0 = 5 ∧ s.mem 0 = 1 := by
  have h1 : ((exec again 9 ⟨0, 1, [0]⟩ (fun _ => 1) 2 (fun _ => none) (again 0).body).map
      fun r => r.1 0) = some 5 := by decide +kernel
  have h2 : ((run again 9 ⟨0, 1, [0]⟩ ⟨fun _ => 1, 2, fun _ _ => none⟩ (again 0).body).map
      fun s => s.mem 0) = some 1 := by decide +kernel
  simp only [Option.map_eq_some_iff] at h1 h2
  obtain ⟨r, hr, e1⟩ := h1
  obtain ⟨s, hs, e2⟩ := h2
  exact ⟨r, s, hr, hs, e1, e2⟩

/-- A program without recursion whose references cross two calls: function 0 calls 1, which calls 2
with its own reference. -/
def twoCalls : RProg := fun f =>
  match f with
  | 0 => ⟨2, .seq (.bind 0 (.loc 1)) (.seq (.call 1 [.ref 0, .loc 0]) (.set (.ref 0) 9))⟩
  | 1 => ⟨1, .seq (.bind 0 (.par 0)) (.seq (.call 2 [.par 1, .ref 0]) (.set (.ref 0) 4))⟩
  | _ => ⟨1, .seq (.bind 0 (.par 1)) (.set (.ref 0) 3)⟩

example : NoRecursion twoCalls ∧
    (exec twoCalls 9 ⟨0, 0, []⟩ (fun _ => 0) 2 (fun _ => none) (twoCalls 0).body).isSome := by
  refine ⟨⟨fun f => 2 - f, fun f g hg => ?_⟩, by decide +kernel⟩
  match f with
  | 0 => simp [twoCalls, callees] at hg; subst hg; decide
  | 1 => simp [twoCalls, callees] at hg; subst hg; decide
  | n + 2 => simp [twoCalls, callees] at hg

end Ulam.Frame
