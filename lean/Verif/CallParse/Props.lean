import Verif.CallParse.Spec
/-!
# Reading parameters and arguments of functions (properties)
-/
namespace Ulam.CallParse

/-! ### Parameters -/

theorem param_errs (s : St) (t n : Nat) : s.errs ≤ (s.param t n).errs := by
  unfold St.param St.err; dsimp only; split
  · simp only []; omega
  · split <;> simp

theorem errs_le (b : Bool) (s : St) (ts : List Tok) : s.errs ≤ (pPars b s ts).1.errs := by
  fun_induction pPars b s ts with
  | case1 | case2 | case4 | case9 | case10 => simp [St.err] <;> omega
  | case3 b s r ih => refine Nat.le_trans ?_ ih; split <;> simp [St.err]
  | case5 b s t n r ih => exact Nat.le_trans (param_errs s t n) ih
  | case6 b s t x r h ih => refine Nat.le_trans ?_ ih; simp [St.err]
  | case7 b s r ih => refine Nat.le_trans ?_ ih; simp [St.err]
  | case8 s r ih => refine Nat.le_trans ?_ ih; split <;> simp [St.err]

theorem var_end (s : St) (ts : List Tok) (hv : s.var = true) (h : (pPars true s ts).1.errs = s.errs) : ∃ r, ts = .close :: r := by
  have step : ∀ (b : Bool) (s' : St) (r : List Tok), s'.errs = s.errs + 1 → (pPars b s' r).1.errs ≠ s.errs := by
    intro b s' r he hc
    have := errs_le b s' r
    omega
  match ts with
  | [] => simp [pPars, St.err] at h
  | .close :: r => exact ⟨r, rfl⟩
  | .ell :: r => rw [pPars, if_pos hv] at h; exact absurd h (step _ _ _ rfl)
  | [.ty t] => simp only [pPars, St.err] at h; omega
  | .ty t :: .id n :: r =>
    rw [pPars] at h
    have := errs_le true (s.param t n) r
    have : s.errs < (s.param t n).errs := by
      unfold St.param St.err; dsimp only; split
      · simp only []; omega
      · simp
    omega
  | .ty t :: .ty _ :: r | .ty t :: .ex _ :: r | .ty t :: .comma :: r | .ty t :: .close :: r | .ty t :: .ell :: r | .ty t :: .eq :: r
  | .ty t :: .junk _ :: r | .eq :: r =>
    simp only [pPars] at h; exact absurd h (step _ _ _ rfl)
  | .comma :: r => rw [pPars, if_pos rfl, if_pos hv] at h; exact absurd h (step _ _ _ rfl)
  | .id _ :: r | .ex _ :: r | .junk _ :: r => simp [pPars, St.err] at h

/-- What is behind: a comma may be eaten first. -/
def After (b : Bool) (l : List (Nat × Nat)) (v : Bool) (w : List Tok) : Prop :=
  Loose l v w ∨ (b = true ∧ ∃ w', w = .comma :: w' ∧ Loose l v w')

theorem forward (b : Bool) (s : St) (ts : List Tok) (hv : s.var = false) (h : (pPars b s ts).1.errs = s.errs)
    (hn : (s.pars.map (·.2)).Nodup) :
    ∃ l v w, After b l v w ∧ ts = w ++ (pPars b s ts).2 ∧
      (pPars b s ts).1 = ⟨s.pars ++ l, v, s.errs⟩ ∧ ((s.pars ++ l).map (·.2)).Nodup := by
  fun_induction pPars b s ts with
  | case1 | case4 | case9 | case10 => simp [St.err] at h <;> omega
  | case2 b s r => 
    refine ⟨[], false, [.close], .inl .close, rfl, ?_, by simpa using hn⟩
    cases s; simp_all
  | case3 b s r ih =>
    simp only [hv, Bool.false_eq_true, if_false] at h ⊢
    obtain ⟨r', rfl⟩ := var_end { s with var := true } r rfl h
    refine ⟨[], true, [.ell, .close], .inl .dots, ?_, ?_, by simpa using hn⟩ <;> simp [pPars]
  | case5 b s t n r ih =>
    have h1 := param_errs s t n
    have h2 := errs_le true (s.param t n) r
    have hp : s.pars.any (fun p => p.2 == n) = false := by
      cases hc : s.pars.any (fun p => p.2 == n) with
      | false => rfl
      | true => 
        have : (s.param t n).errs = s.errs + 2 := by unfold St.param; rw [if_pos hc]; rfl
        omega
    have hs : s.param t n = { s with pars := s.pars ++ [(t, n)] } := by
      unfold St.param; rw [if_neg (by simp [hp])]; simp [hv]
    rw [hs] at h ih ⊢
    obtain ⟨l, v, w, hw, e1, e2, e3⟩ := ih hv h (by
      simp only [List.any_eq_false, beq_iff_eq] at hp
      simp only [List.map_append, List.map_cons, List.map_nil, List.nodup_append, List.mem_map]
      refine ⟨hn, by simp, ?_⟩
      rintro a ⟨p, hp', rfl⟩ c hc
      simp only [List.mem_singleton] at hc
      subst hc
      exact hp p hp')
    refine ⟨(t, n) :: l, v, .ty t :: .id n :: w, .inl ?_, ?_, ?_, by simpa using e3⟩
    · rcases hw with hw | ⟨-, w', rfl, hw⟩
      · exact .bare hw
      · exact .sep hw
    · simp only [List.cons_append]; rw [← e1]
    · simpa using e2
  | case6 b s t x r hx ih => have := errs_le true s.err r; simp only [St.err] at h this; omega
  | case7 b s r ih => have := errs_le true s.err r; simp only [St.err] at h this; omega
  | case8 s r ih =>
    rw [if_neg (by simp [hv])] at h ih ⊢
    obtain ⟨l, v, w, hw, e1, e2, e3⟩ := ih hv h hn
    rcases hw with hw | ⟨hf, -⟩
    · exact ⟨l, v, .comma :: w, .inr ⟨rfl, w, rfl, hw⟩, by simp only [List.cons_append]; rw [← e1], e2, e3⟩
    · simp at hf

theorem backward {l v w} (h : Loose l v w) (b : Bool) (s : St) (r : List Tok) (hv : s.var = false)
    (hn : ((s.pars ++ l).map (·.2)).Nodup) : pPars b s (w ++ r) = (⟨s.pars ++ l, v, s.errs⟩, r) := by
  have key : ∀ (s : St) (t n : Nat) (l : List (Nat × Nat)), s.var = false → ((s.pars ++ (t, n) :: l).map (·.2)).Nodup →
      s.param t n = { s with pars := s.pars ++ [(t, n)] } := by
    intro s t n l hv hn
    unfold St.param
    rw [if_neg, if_neg (by simp [hv])]
    simp only [List.any_eq_true, beq_iff_eq, not_exists, not_and]
    intro p hp he
    simp only [List.map_append, List.nodup_append] at hn
    exact hn.2.2 p.2 (List.mem_map_of_mem hp) n (by simp) he
  induction h generalizing b s with
  | close => cases s; simp_all [pPars]
  | dots => cases s; simp_all [pPars]
  | @bare t n l v w h ih =>
    simp only [List.cons_append, pPars]
    rw [key s t n l hv hn, ih]
    · simp
    · exact hv
    · simpa using hn
  | @sep t n l v w h ih =>
    simp only [List.cons_append, pPars]
    rw [key s t n l hv hn]
    simp only [if_true, hv, Bool.false_eq_true, if_false]
    rw [ih]
    · simp
    · rfl
    · simpa using hn

theorem loose_proper : ∀ (l : List (Nat × Nat)) (v : Bool), Loose l v (proper l v)
  | [], false => .close
  | [], true => .dots
  | [(t, n)], false => .bare .close
  | (t, n) :: [], true => .sep .dots
  | (t, n) :: p :: l, v => by
    have := loose_proper (p :: l) v
    cases v <;> exact .sep this

/-- **C140 (part: read back).** A list of parameters written as it should be, with different names, and such as the kind of function may have,
is read as these parameters in this order, without errors and up to the closing parenthesis. -/
theorem C140_reads_back (k : Kind) (l : List (Nat × Nat)) (v : Bool) (r : List Tok) (hn : (l.map (·.2)).Nodup) (hk : Allowed k l v) :
    pFunc k (proper l v ++ r) = (some (l, v), 0, r) := by
  unfold pFunc
  rw [backward (loose_proper l v) false ⟨[], false, 0⟩ r rfl (by simpa using hn)]
  obtain ⟨h1, h2, h3⟩ := hk
  dsimp only [List.nil_append]
  rw [if_neg, if_neg, if_neg]
  · rintro h; simp only [Bool.and_eq_true, Bool.not_eq_true'] at h; have := h3 h.1; simp_all
  · rintro h; simp only [Bool.and_eq_true, decide_eq_true_eq] at h; have := h2 h.1; omega
  · rintro h; simp only [Bool.and_eq_true, beq_iff_eq, List.length_eq_zero_iff] at h; exact h1 h.1 h.2

/-- **C140 (part: exactly).** A function is made without an error exactly from a list of parameters in the loose notation, with different names, and
such as the kind of function may have; what is made has these parameters in this order. Missing: that the commas are as they should be. -/
theorem C140_exactly_partial (k : Kind) (ts : List Tok) (l : List (Nat × Nat)) (v : Bool) (r : List Tok) :
    pFunc k ts = (some (l, v), 0, r) ↔ (∃ w, Loose l v w ∧ ts = w ++ r) ∧ (l.map (·.2)).Nodup ∧ Allowed k l v := by
  constructor
  · intro h
    unfold pFunc at h
    dsimp only at h
    by_cases c1 : (k.constr && (pPars false ⟨[], false, 0⟩ ts).1.pars.length == 0) = true
    · rw [if_pos c1] at h; simp at h
    rw [if_neg c1] at h
    by_cases c2 : (k.op && decide ((pPars false ⟨[], false, 0⟩ ts).1.pars.length > 1)) = true
    · rw [if_pos c2] at h; simp at h
    rw [if_neg c2] at h
    by_cases c3 : ((pPars false ⟨[], false, 0⟩ ts).1.var && !k.native) = true
    · rw [if_pos c3] at h; simp at h
    rw [if_neg c3] at h
    simp only [Prod.mk.injEq, Option.some.injEq] at h
    obtain ⟨⟨hl, hv⟩, he, hr⟩ := h
    obtain ⟨l', v', w, hw, e1, e2, e3⟩ := forward false ⟨[], false, 0⟩ ts rfl he (by simp)
    rw [e2] at hl hv c1 c2 c3
    simp only [List.nil_append] at hl hv c1 c2 c3 e3
    subst hl hv
    rcases hw with hw | ⟨hf, -⟩
    · rw [hr] at e1
      refine ⟨⟨w, hw, e1⟩, e3, ?_, ?_, ?_⟩
      · intro hc hl; simp [hc, hl] at c1
      · intro hc; simp [hc] at c2; exact c2
      · intro hc; simp [hc] at c3; exact c3
    · simp at hf
  · rintro ⟨⟨w, hw, rfl⟩, hn, h1, h2, h3⟩
    unfold pFunc
    rw [backward hw false ⟨[], false, 0⟩ r rfl (by simpa using hn)]
    dsimp only [List.nil_append]
    rw [if_neg, if_neg, if_neg]
    · rintro h; simp only [Bool.and_eq_true, Bool.not_eq_true'] at h; have := h3 h.1; simp_all
    · rintro h; simp only [Bool.and_eq_true, decide_eq_true_eq] at h; have := h2 h.1; omega
    · rintro h; simp only [Bool.and_eq_true, beq_iff_eq, List.length_eq_zero_iff] at h; exact h1 h.1 h.2

/-- **C140 (part: reported).** No function is dropped without an error, whatever is written. -/
theorem C140_reported (k : Kind) (ts : List Tok) (h : (pFunc k ts).1 = none) : 0 < (pFunc k ts).2.1 := by
  unfold pFunc at h ⊢
  dsimp only at h ⊢
  split
  · simp
  · split
    · simp
    · rw [if_neg ‹_›, if_neg ‹_›] at h
      split at h <;> simp at h

/-- The parameters without any commas. -/
def bare : List (Nat × Nat) → List Tok
  | [] => [.close]
  | (t, n) :: l => .ty t :: .id n :: bare l

/-- The parameters with a comma behind each. -/
def trailing : List (Nat × Nat) → List Tok
  | [] => [.close]
  | (t, n) :: l => .ty t :: .id n :: .comma :: trailing l

/-- **C140 (commas: fails).** Parameters without a comma between them, or with one behind the last, are accepted: whenever the list is
accepted as it should be written, it is without any comma and with one too many, and the same function is made. -/
theorem C140_commas_fails (k : Kind) (l : List (Nat × Nat)) (r : List Tok) (hn : (l.map (·.2)).Nodup) (hk : Allowed k l false) :
    pFunc k (bare l ++ r) = pFunc k (proper l false ++ r) ∧ pFunc k (trailing l ++ r) = pFunc k (proper l false ++ r) := by
  have hb : ∀ l, Loose l false (bare l) := by
    intro l; induction l with
    | nil => exact .close
    | cons p l ih => exact .bare ih
  have ht : ∀ l, Loose l false (trailing l) := by
    intro l; induction l with
    | nil => exact .close
    | cons p l ih => exact .sep ih
  rw [C140_reads_back k l false r hn hk, (C140_exactly_partial k _ l false r).2 ⟨⟨_, hb l, rfl⟩, hn, hk⟩,
    (C140_exactly_partial k _ l false r).2 ⟨⟨_, ht l, rfl⟩, hn, hk⟩]
  exact ⟨rfl, rfl⟩

/-- `f(Int a, Bool b)`. -/
example : pFunc ⟨false, false, false⟩ [.ty 1, .id 10, .comma, .ty 2, .id 11, .close, .junk 0] = (some ([(1, 10), (2, 11)], false), 0, [.junk 0]) :=
  C140_reads_back ⟨false, false, false⟩ [(1, 10), (2, 11)] false [.junk 0] (by decide) (by simp [Allowed])
/-- A native `f(Int a, ...)`, and the same that is not native. -/
example : pFunc ⟨false, false, true⟩ [.ty 1, .id 10, .comma, .ell, .close] = (some ([(1, 10)], true), 0, []) ∧
    pFunc ⟨false, false, false⟩ [.ty 1, .id 10, .comma, .ell, .close] = (some ([(1, 10)], false), 1, []) := ⟨rfl, rfl⟩
/-- A name twice, a parameter behind the ellipsis, a comma behind it, a value by default. -/
example : (pFunc ⟨false, false, true⟩ [.ty 1, .id 10, .comma, .ty 2, .id 10, .close]).2.1 = 2 ∧
    (pFunc ⟨false, false, true⟩ [.ell, .ty 2, .id 10, .close]).2.1 = 1 ∧
    (pFunc ⟨false, false, true⟩ [.ell, .comma, .close]).2.1 = 1 ∧
    (pFunc ⟨false, false, true⟩ [.ty 1, .id 10, .eq, .junk 1, .close]).2.1 = 2 := by decide
/-- A constructor without parameters; an operator with two. -/
example : (pFunc ⟨true, false, false⟩ [.close]).1 = none ∧
    (pFunc ⟨false, true, false⟩ [.ty 1, .id 10, .comma, .ty 2, .id 11, .close]).1 = none := by decide
/-- `f(Int a Bool b)`. -/
example : pFunc ⟨false, false, false⟩ [.ty 1, .id 10, .ty 2, .id 11, .close] = (some ([(1, 10), (2, 11)], false), 0, []) := rfl

/-! ### Arguments -/

theorem pCall_close (a : Option Nat) (r : List Tok) : pCall ((a.map Tok.ex).toList ++ .close :: r) = (some a.toList, 0, r) := by
  rw [pCall.eq_def]; cases a <;> simp [pAssign, addArg]

theorem pCall_comma (a : Option Nat) (r : List Tok) : pCall ((a.map Tok.ex).toList ++ .comma :: r) = addArg a (pCall r) := by
  rw [pCall.eq_def]; cases a <;> simp [pAssign]

/-- Neither a comma nor the closing parenthesis. -/
theorem pCall_bad (ts : List Tok) (h : ∀ r, (pAssign ts).2 ≠ .close :: r ∧ (pAssign ts).2 ≠ .comma :: r) :
    (pCall ts).1 = none ∧ (pCall ts).2.1 = 1 := by
  rw [pCall.eq_def]
  split
  · exact ⟨rfl, rfl⟩
  · rename_i r he; exact absurd (by rw [he]) (h r).1
  · rename_i r he; exact absurd (by rw [he]) (h r).2
  · exact ⟨rfl, rfl⟩

theorem places_read (l : List (Option Nat)) (hl : l ≠ []) (r : List Tok) : pCall (places l ++ r) = (some (l.filterMap id), 0, r) := by
  induction l with
  | nil => simp at hl
  | cons a l ih =>
    cases l with
    | nil => 
      simp only [places, List.append_assoc, List.cons_append, List.nil_append, pCall_close]
      cases a <;> simp
    | cons b l =>
      simp only [places, List.append_assoc, List.cons_append, List.nil_append, pCall_comma]
      rw [ih (by simp)]
      cases a <;> simp [addArg]

theorem places_some (l : List Nat) (hl : l ≠ []) : places (l.map some) = properArgs l := by
  induction l with
  | nil => simp at hl
  | cons e l ih =>
    cases l with
    | nil => simp [places, properArgs]
    | cons b l => 
      have := ih (by simp)
      simp only [List.map_cons] at this
      simp only [List.map_cons, places, this, properArgs, Option.map_some, Option.toList_some, List.cons_append, List.nil_append]

/-- **C140 (part: calls read back).** The arguments of a call written as they should be are read as these in this order, without errors and
up to the closing parenthesis. -/
theorem C140_call_reads_back (l : List Nat) (r : List Tok) : pCall (properArgs l ++ r) = (some l, 0, r) := by
  cases l with
  | nil => exact pCall_close none r
  | cons e l =>
    rw [← places_some _ (by simp), places_read _ (by simp)]
    simp

/-- **C140 (part: calls, exactly).** A call is read without an error exactly from places with commas between, and has the arguments written in
them, in order; else there is an error and no call. Missing: that there is an argument in each place. -/
theorem C140_call_exactly_partial (ts : List Tok) :
    (∀ a r, pCall ts = (some a, 0, r) ↔ ∃ l, l ≠ [] ∧ ts = places l ++ r ∧ a = l.filterMap id) ∧
    ((pCall ts).1 = none ↔ (pCall ts).2.1 = 1) ∧ ((pCall ts).1 ≠ none ↔ (pCall ts).2.1 = 0) := by
  have shape : ∀ (ts : List Tok), ts = (((pAssign ts).1).map Tok.ex).toList ++ (pAssign ts).2 := by
    intro ts; unfold pAssign; split <;> simp
  have main : ∀ (n : Nat) (ts : List Tok), ts.length ≤ n →
      (∃ l r, l ≠ [] ∧ ts = places l ++ r) ∨ ((pCall ts).1 = none ∧ (pCall ts).2.1 = 1) := by
    intro n
    induction n with
    | zero =>
      intro ts h
      have : ts = [] := by simpa using h
      subst this; right; rw [pCall.eq_def]; simp [pAssign]
    | succ n ih =>
      intro ts h
      have hs := shape ts
      have hle := pAssign_le ts
      generalize ha : (pAssign ts).1 = a at hs
      generalize hr : (pAssign ts).2 = r at hs hle
      have hp : pAssign ts = (a, r) := by rw [← ha, ← hr]
      match r, hs, hle, hp with
      | [], _, _, hp => exact .inr (pCall_bad ts (by rw [hp]; simp))
      | .close :: r, hs, _, _ => exact .inl ⟨[a], r, by simp, by simpa [places] using hs⟩
      | .comma :: r, hs, hle, _ =>
        rcases ih r (by simp at hle; omega) with ⟨l, r', hl, rfl⟩ | hno
        · left
          cases l with
          | nil => simp at hl
          | cons b l => exact ⟨a :: b :: l, r', by simp, by simpa [places] using hs⟩
        · right
          rw [hs, pCall_comma]
          simpa [addArg] using hno
      | .ty _ :: r, _, _, hp | .id _ :: r, _, _, hp | .ex _ :: r, _, _, hp | .ell :: r, _, _, hp | .eq :: r, _, _, hp | .junk _ :: r, _, _, hp =>
        exact .inr (pCall_bad ts (by rw [hp]; simp))
  rcases main ts.length ts (Nat.le_refl _) with ⟨l, r, hl, rfl⟩ | ⟨h1, h2⟩
  · rw [places_read l hl]
    refine ⟨?_, by simp, by simp⟩
    intro a r'
    constructor
    · intro h
      simp only [Prod.mk.injEq, Option.some.injEq, true_and] at h
      exact ⟨l, hl, by rw [h.2], h.1.symm⟩
    · rintro ⟨l', hl', he, rfl⟩
      have := places_read l hl r
      rw [he, places_read l' hl'] at this
      exact this.symm
  · refine ⟨?_, by simp [h1, h2], by simp [h1, h2]⟩
    intro a r
    constructor
    · intro h; rw [h] at h1; simp at h1
    · rintro ⟨l, hl, rfl, rfl⟩
      rw [places_read l hl] at h1
      simp at h1

/-- **C140 (places without an argument: fails).** A place between commas that has no argument is not reported, wherever it is: the call is
read as if neither it nor its comma were there. -/
theorem C140_call_commas_fails (l₁ l₂ : List (Option Nat)) (h : l₁ ++ l₂ ≠ []) (r : List Tok) :
    pCall (places (l₁ ++ none :: l₂) ++ r) = pCall (places (l₁ ++ l₂) ++ r) := by
  rw [places_read _ (by simp), places_read _ h]
  simp

/-- `f(1, 2)`; `f()`; `f(1,, 2)` and `f(1, 2,)`; `f(1 2)`. -/
example : pCall [.ex 1, .comma, .ex 2, .close, .junk 0] = (some [1, 2], 0, [.junk 0]) := C140_call_reads_back [1, 2] [.junk 0]
example : pCall [.close] = (some [], 0, []) := C140_call_reads_back [] []
example : pCall [.ex 1, .comma, .comma, .ex 2, .close] = (some [1, 2], 0, []) := places_read [some 1, none, some 2] (by simp) []
example : pCall [.ex 1, .comma, .ex 2, .comma, .close] = (some [1, 2], 0, []) := places_read [some 1, some 2, none] (by simp) []
example : (pCall [.ex 1, .ex 2, .close]).1 = none := by rw [pCall.eq_def]; simp [pAssign]

end Ulam.CallParse
