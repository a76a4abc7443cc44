import Verif.Overload.Search
import Mathlib.Data.List.Nodup
/-! # C17: which function a call means -/
namespace Ulam.Overload
open Spec
open Ulam.Walker (World Entry State getNextBase getNextBasePair init mem_sightings edge_base)
open Ulam.Walker.Spec (SelfOrAncestor Ok)
variable {n : Nat}

/-! ### The example: `Int(k)` is type `k`, `Unsigned(k)` is type `100 + k`, for `k < 100`; class 3 inherits 2, which inherits 1 -/

/-- Casts to a larger `Int`, a larger `Unsigned`, and from `Unsigned(k)` to `Int(k+1)` and more, are safe. -/
def demoTypes : TypeInfo where
  ok := fun t => decide (t > 0)
  complete := fun t => decide (t > 0)
  compare := fun a b => if a = b then .same else .notSame
  kind := fun t => t / 100
  altRef := fun _ => false
  constRef := fun _ => false
  safeCast := fun p a =>
    if p / 100 = a / 100 then if p ≥ a then .clear else .bad
    else if p < 100 ∧ p > a - 100 then .clear else .bad

def var (t : Nat) : Arg := ⟨t, false, false, fun _ => .bad⟩
def fn (id t : Nat) : Func := ⟨id, [⟨t, false⟩], false⟩

def chainWorld : World 5 where
  nouti := 0
  root := id
  deref := id
  defined := fun x => x ≠ 0 ∧ x ≠ 4
  table := fun x => if x = 3 then [⟨2, 0⟩] else if x = 2 then [⟨1, 0⟩] else [⟨0, 0⟩]
  name := fun x => x

def chainProgram (f1 f2 f3 : List Func) : Program 5 :=
  ⟨chainWorld, 4, demoTypes, fun x => if x = 1 then f1 else if x = 2 then f2 else if x = 3 then f3 else []⟩

theorem chainOk : Ok chainWorld := ⟨fun _ => rfl, by decide⟩

theorem known_demo (f : Func) (args : List Arg) (hp : ∀ p ∈ f.params, p.type > 0) (ha : ∀ a ∈ args, a.type > 0)
    (hc : ∀ a ∈ args, ∀ t, a.cast t ≠ .hazy) : Known demoTypes f args := by
  intro _ i p a h1 h2
  have hpm := List.mem_of_getElem? h1
  have ham := List.mem_of_getElem? h2
  refine ⟨decide_eq_true (hp p hpm), decide_eq_true (hp p hpm), decide_eq_true (ha a ham), ?_, hc a ham _, ?_⟩
  · simp only [demoTypes]; split <;> simp
  · simp only [demoTypes]; split_ifs <;> simp

/-! ### Theorems -/

theorem findExact_reorder {P P' : Program n} (R : Reordered P P') (args : List Arg) (c : Fin n) :
    findExact P' args c = findExact P args c := by
  unfold findExact
  rw [exactLoop_reorder R, R.1]

/-- **C17.** The order in which each class stores its overloads does not matter: once everything about the call is known
(`hazy` is off; otherwise the compiler waits and asks again), storing them in any other order gives the same number of matches,
the same function, and the same class. -/
theorem C17_order_independent (P P' : Program n) (R : Reordered P P') (args : List Arg) (c : Fin n)
    (hz : (search P args c).hazy = false) : search P' args c = search P args c := by
  unfold search at hz ⊢
  rw [findExact_reorder R]
  dsimp only at hz ⊢
  split
  · rfl
  · rename_i h
    rw [if_neg h] at hz
    have hl : (safeLoop P args ⟨0, (findExact P args c).func, .nowhere, (findExact P args c).hazy⟩ (init P.w c)).hazy = false := by
      split at hz
      · exact hz
      · split at hz <;> exact hz
    rw [R.1, safeLoop_reorder R args _ _ hl]

example : (search (chainProgram [fn 1 7] [fn 2 5, fn 3 105] []) [var 104] 3).hazy = false ∧
    search (chainProgram [fn 1 7] [fn 2 5, fn 3 105] []) [var 104] 3 = ⟨1, some (fn 3 105), .at 2, false⟩ ∧
    Reordered (chainProgram [fn 1 7] [fn 2 5, fn 3 105] []) (chainProgram [fn 1 7] [fn 3 105, fn 2 5] []) := by
  refine ⟨by decide +kernel, by decide +kernel, rfl, rfl, rfl, fun c => ?_⟩
  unfold chainProgram
  dsimp only
  split_ifs
  · exact .refl _
  · exact List.Perm.swap ..
  · exact .refl _
  · exact .refl _

/-- **C17.** A function that is chosen can be called: when the search ends with one match, that is a function of the class or of
one of its ancestors, and applies to the arguments. What the caller asserts also holds: without a match there is no class, and with
several the class is "ambiguous" (`NodeFunctionCall.cpp:163`, `:199`). -/
theorem C17_chosen_is_applicable (P : Program n) (ok : Ok P.w) (args : List Arg) (c : Fin n) (hz : (search P args c).hazy = false) :
    ((search P args c).count = 1 → ∃ x f, (search P args c).found = .at x ∧ (search P args c).func = some f ∧ Visible P c x f ∧
      Applicable P.T f args) ∧
    ((search P args c).count = 0 → (search P args c).found = .nowhere) ∧
    ((search P args c).count > 1 → (search P args c).found = .ambiguous) := by
  have SE := sound_exactLoop ok args c (init P.w c) ⟨0, none, .nowhere, false⟩ (reached_init P.w c) (fun h => by cases h)
  have hE : (findExact P args c).count = 1 → ∃ x f, (findExact P args c).found = .at x ∧ (findExact P args c).func = some f ∧
      Visible P c x f ∧ Applicable P.T f args := by
    intro h
    have key : findExact P args c = exactLoop P args ⟨0, none, .nowhere, false⟩ (init P.w c) := by
      unfold findExact at h ⊢
      dsimp only at h ⊢
      split
      · rename_i q; rw [if_pos q] at h; dsimp only at h; omega
      · rename_i q
        rw [if_neg q] at h
        split
        · rename_i q2; rw [if_pos q2] at h; dsimp only at h; omega
        · rfl
    rw [key] at h ⊢
    obtain ⟨x, f, k1, k2, k3, k4⟩ := SE h
    exact ⟨x, f, k1, k2, k3, exact_applicable k4⟩
  unfold search at hz ⊢
  dsimp only at hz ⊢
  by_cases h : (findExact P args c).count = 1
  · rw [if_pos h]
    exact ⟨fun _ => hE h, fun q => by omega, fun q => by omega⟩
  · rw [if_neg h] at hz ⊢
    have S0 : Sound P args c ⟨0, (findExact P args c).func, .nowhere, (findExact P args c).hazy⟩ :=
      ⟨fun x hx => (nomatch hx), fun _ => by simp, fun q => (nomatch q)⟩
    have S := sound_safeLoop ok args c (init P.w c) _ (reached_init P.w c) S0
    generalize safeLoop P args ⟨0, (findExact P args c).func, .nowhere, (findExact P args c).hazy⟩ (init P.w c) = a at hz S ⊢
    have hl : a.hazy = false := by
      split at hz
      · exact hz
      · split at hz <;> exact hz
    obtain ⟨s1, s2, s3⟩ := S hl
    by_cases h0 : a.count = 0
    · rw [if_pos h0]
      exact ⟨fun q => by dsimp only at q; omega, fun _ => rfl, fun q => by dsimp only at q; omega⟩
    · rw [if_neg h0]
      by_cases h1 : a.count > 1
      · rw [if_pos h1]
        exact ⟨fun q => by dsimp only at q; omega, fun q => by dsimp only at q; omega, fun _ => rfl⟩
      · rw [if_neg h1]
        refine ⟨fun q => ?_, fun q => absurd q h0, fun q => absurd q h1⟩
        cases hf : a.found with
        | nowhere => exact absurd q (s2 hf)
        | ambiguous => have := s3 hf; omega
        | «at» x =>
          obtain ⟨_, f, k1, k2, k3⟩ := s1 x hf
          exact ⟨x, f, rfl, k1, k2, k3⟩

example : Ok chainWorld ∧ search (chainProgram [fn 1 7] [fn 2 5, fn 3 105] []) [var 4] 3 = ⟨1, some (fn 2 5), .at 2, false⟩ ∧
    (search (chainProgram [] [] [fn 1 6, fn 2 7]) [var 4] 3).count = 2 ∧ (search (chainProgram [fn 1 7] [] []) [var 9] 3).count = 0 :=
  ⟨chainOk, by decide +kernel, by decide +kernel, by decide +kernel⟩

theorem filter_app {T : TypeInfo} {args : List Arg} {fs : List Func} (hk : ∀ f ∈ fs, Known T f args) (f : Func) :
    (f ∈ fs.filter (app T args) ↔ f ∈ fs ∧ Applicable T f args) ∧
    (f ∈ (fs.filter (app T args)).filter (all T args) ↔ f ∈ fs ∧ SameKind T f args) := by
  constructor
  · rw [List.mem_filter]
    exact ⟨fun h => ⟨h.1, (app_iff (known_haz (hk f h.1))).1 h.2⟩, fun h => ⟨h.1, (app_iff (known_haz (hk f h.1))).2 h.2⟩⟩
  · rw [List.mem_filter, List.mem_filter]
    constructor
    · rintro ⟨⟨h1, h2⟩, h3⟩
      exact ⟨h1, (same_iff (known_haz (hk f h1))).1 ⟨h2, h3⟩⟩
    · rintro ⟨h1, h2⟩
      obtain ⟨h3, h4⟩ := (same_iff (known_haz (hk f h1))).2 h2
      exact ⟨⟨h1, h3⟩, h4⟩

theorem any_known {T : TypeInfo} {args : List Arg} {fs : List Func} (hk : ∀ f ∈ fs, Known T f args) : fs.any (haz T args) = false := by
  rw [List.any_eq_false]
  intro f hf
  rw [known_haz (hk f hf)]; simp

theorem two_of_nodup {l : List Func} (hn : l.Nodup) : l.length > 1 ↔ ∃ f ∈ l, ∃ g ∈ l, f ≠ g := by
  match l, hn with
  | [], _ => simp
  | [a], _ => simp
  | a :: b :: l, hn =>
    refine ⟨fun _ => ⟨a, by simp, b, by simp, fun e => ?_⟩, fun _ => by simp⟩
    rw [List.nodup_cons] at hn
    exact hn.1 (by simp [e])

theorem one_of_nodup {l : List Func} (hn : l.Nodup) (f : Func) : l = [f] ↔ f ∈ l ∧ ∀ g ∈ l, g = f := by
  constructor
  · rintro rfl; simp
  · rintro ⟨h1, h2⟩
    match l, hn with
    | [], _ => cases h1
    | [a], _ => rw [h2 a (by simp)]
    | a :: b :: l, hn =>
      rw [List.nodup_cons] at hn
      exact absurd (by rw [h2 a (by simp), h2 b (by simp)]; simp) hn.1

/-- **C17.** What one class offers, when everything is known: one match means the best function, the only applicable one or else
the only one with arguments of the same kinds; more than one match is reported exactly when two functions have arguments of the
same kinds. (In the remaining cases, none is reported: also when several functions apply and none has arguments of the same
kinds.) -/
theorem C17_best_of_class (T : TypeInfo) (fs : List Func) (hn : fs.Nodup) (args : List Arg) (hk : ∀ f ∈ fs, Known T f args) :
    (∀ f, (findMatchingFunctionWithSafeCasts T fs args).count = 1 ∧ (findMatchingFunctionWithSafeCasts T fs args).func = some f ↔
      Best T fs args f) ∧
    ((findMatchingFunctionWithSafeCasts T fs args).count > 1 ↔
      ∃ f ∈ fs, ∃ g ∈ fs, f ≠ g ∧ SameKind T f args ∧ SameKind T g args) ∧
    ((findMatchingFunctionWithSafeCasts T fs args).count = 0 ↔ (∀ f ∈ fs, ¬ Applicable T f args) ∨
      ((∃ f ∈ fs, ∃ g ∈ fs, f ≠ g ∧ Applicable T f args ∧ Applicable T g args) ∧ ∀ f ∈ fs, ¬ SameKind T f args)) := by
  have hA := fun f => (filter_app hk f).1
  have hS := fun f => (filter_app hk f).2
  rw [safe_eq T args fs (any_known hk)]
  dsimp only
  have nA : (fs.filter (app T args)).Nodup := hn.filter _
  have nS : ((fs.filter (app T args)).filter (all T args)).Nodup := nA.filter _
  have sub : ∀ f ∈ (fs.filter (app T args)).filter (all T args), f ∈ fs.filter (app T args) := fun f h => (List.mem_filter.1 h).1
  have hle : ((fs.filter (app T args)).filter (all T args)).length ≤ (fs.filter (app T args)).length := List.length_filter_le ..
  generalize (fs.filter (app T args)).filter (all T args) = S at *
  generalize fs.filter (app T args) = A at *
  have single : ∀ (l : List Func) (f : Func), l.Nodup → (l.length = 1 ∧ l.getLast? = some f ↔ f ∈ l ∧ ∀ g ∈ l, g = f) := by
    intro l f hl
    rw [← one_of_nodup hl]
    constructor
    · rintro ⟨h1, h2⟩
      obtain ⟨g, rfl⟩ := List.length_eq_one_iff.1 h1
      simp at h2
      rw [h2]
    · rintro rfl; simp
  have twoA := two_of_nodup nA
  have twoS := two_of_nodup nS
  refine ⟨fun f => ?_, ?_, ?_⟩
  · unfold pick Best
    by_cases h1 : A.length > 1
    · rw [if_pos h1]
      obtain ⟨g1, m1, g2, m2, hne⟩ := twoA.1 h1
      have hno : ¬ ∀ g ∈ fs, Applicable T g args → g = f := by
        intro q
        have := q g1 ((hA g1).1 m1).1 ((hA g1).1 m1).2
        have := q g2 ((hA g2).1 m2).1 ((hA g2).1 m2).2
        exact hne (by simp_all)
      by_cases h2 : S.length > 1
      · rw [if_pos h2]
        obtain ⟨k1, l1, k2, l2, hne'⟩ := twoS.1 h2
        constructor
        · rintro ⟨q, _⟩; dsimp only at q; omega
        · rintro ⟨_, _, q | ⟨_, q⟩⟩
          · exact absurd q hno
          · have := q k1 ((hS k1).1 l1).1 ((hS k1).1 l1).2
            have := q k2 ((hS k2).1 l2).1 ((hS k2).1 l2).2
            exact absurd (by simp_all) hne'
      · rw [if_neg h2]
        dsimp only
        rw [single S f nS]
        constructor
        · rintro ⟨q1, q2⟩
          have := (hS f).1 q1
          exact ⟨this.1, this.2.1, .inr ⟨this.2, fun g hg hs => q2 g ((hS g).2 ⟨hg, hs⟩)⟩⟩
        · rintro ⟨q1, q2, q | ⟨q3, q4⟩⟩
          · exact absurd q hno
          · exact ⟨(hS f).2 ⟨q1, q3⟩, fun g hg => q4 g ((hS g).1 hg).1 ((hS g).1 hg).2⟩
    · rw [if_neg h1]
      dsimp only
      rw [single A f nA]
      constructor
      · rintro ⟨q1, q2⟩
        have := (hA f).1 q1
        exact ⟨this.1, this.2, .inl fun g hg ha => q2 g ((hA g).2 ⟨hg, ha⟩)⟩
      · rintro ⟨q1, q2, _⟩
        refine ⟨(hA f).2 ⟨q1, q2⟩, fun g hg => ?_⟩
        by_contra hne
        exact h1 (twoA.2 ⟨g, hg, f, (hA f).2 ⟨q1, q2⟩, hne⟩)
  · have e : (∃ f ∈ fs, ∃ g ∈ fs, f ≠ g ∧ SameKind T f args ∧ SameKind T g args) ↔ S.length > 1 := by
      rw [twoS]
      constructor
      · rintro ⟨f, h1, g, h2, h3, h4, h5⟩
        exact ⟨f, (hS f).2 ⟨h1, h4⟩, g, (hS g).2 ⟨h2, h5⟩, h3⟩
      · rintro ⟨f, h1, g, h2, h3⟩
        exact ⟨f, ((hS f).1 h1).1, g, ((hS g).1 h2).1, h3, ((hS f).1 h1).2, ((hS g).1 h2).2⟩
    rw [e]
    unfold pick
    split
    · split
      · rename_i q1 q2; exact ⟨fun _ => q2, fun _ => q1⟩
      · exact Iff.rfl
    · rename_i q1; dsimp only; omega
  · have e1 : (∀ f ∈ fs, ¬ Applicable T f args) ↔ A.length = 0 := by
      rw [List.length_eq_zero_iff, List.eq_nil_iff_forall_not_mem]
      exact ⟨fun h f hf => h f ((hA f).1 hf).1 ((hA f).1 hf).2, fun h f hf ha => h f ((hA f).2 ⟨hf, ha⟩)⟩
    have e2 : (∀ f ∈ fs, ¬ SameKind T f args) ↔ S.length = 0 := by
      rw [List.length_eq_zero_iff, List.eq_nil_iff_forall_not_mem]
      exact ⟨fun h f hf => h f ((hS f).1 hf).1 ((hS f).1 hf).2, fun h f hf ha => h f ((hS f).2 ⟨hf, ha⟩)⟩
    have e3 : (∃ f ∈ fs, ∃ g ∈ fs, f ≠ g ∧ Applicable T f args ∧ Applicable T g args) ↔ A.length > 1 := by
      rw [twoA]
      constructor
      · rintro ⟨f, h1, g, h2, h3, h4, h5⟩
        exact ⟨f, (hA f).2 ⟨h1, h4⟩, g, (hA g).2 ⟨h2, h5⟩, h3⟩
      · rintro ⟨f, h1, g, h2, h3⟩
        exact ⟨f, ((hA f).1 h1).1, g, ((hA g).1 h2).1, h3, ((hA f).1 h1).2, ((hA g).1 h2).2⟩
    rw [e1, e2, e3]
    unfold pick
    split
    · split <;> dsimp only <;> omega
    · dsimp only; omega

example : Best demoTypes [fn 2 5, fn 3 105] [var 104] (fn 3 105) ∧
    (findMatchingFunctionWithSafeCasts demoTypes [fn 2 5, fn 3 6] [var 104]).count = 0 := by
  have hk : ∀ f ∈ [fn 2 5, fn 3 105], Known demoTypes f [var 104] := by
    intro f hf
    refine known_demo f _ ?_ (by decide) (by simp [var])
    revert f; decide
  exact ⟨((C17_best_of_class demoTypes _ (by decide) _ hk).1 _).1 (by decide +kernel), by decide +kernel⟩

theorem strict_filter {T : TypeInfo} {args : List Arg} {fs : List Func} (hk : ∀ f ∈ fs, Known T f args) (f : Func) :
    f ∈ fs.filter (strict T args) ↔ f ∈ fs ∧ Exact T f args := by
  rw [List.mem_filter]
  exact ⟨fun h => ⟨h.1, ((strict_spec T f args).2 (hk f h.1)).2.1 h.2⟩, fun h => ⟨h.1, ((strict_spec T f args).2 (hk f h.1)).2.2 h.2⟩⟩

theorem strict_known {T : TypeInfo} {args : List Arg} {fs : List Func} (hk : ∀ f ∈ fs, Known T f args) :
    fs.any (strictHaz T args) = false := by
  rw [List.any_eq_false]
  intro f hf
  have := ((strict_spec T f args).2 (hk f hf)).1
  unfold strictHaz; rw [this]; simp

theorem inClass_exact {T : TypeInfo} {args : List Arg} {fs : List Func} (hn : fs.Nodup) (hk : ∀ f ∈ fs, Known T f args)
    {f : Func} (hf : f ∈ fs) (he : Exact T f args) (one : ∀ g ∈ fs, Exact T g args → g = f) :
    findInClassScope T fs args = ⟨1, some f, false⟩ := by
  rw [inClass_eq, strict_known hk]
  have : fs.filter (strict T args) = [f] := (one_of_nodup (hn.filter _) f).2
    ⟨(strict_filter hk f).2 ⟨hf, he⟩, fun g hg => one g ((strict_filter hk g).1 hg).1 ((strict_filter hk g).1 hg).2⟩
  rw [this]; rfl

theorem inClass_none {T : TypeInfo} {args : List Arg} {fs : List Func} (hk : ∀ f ∈ fs, Known T f args)
    (no : ∀ g ∈ fs, ¬ Exact T g args) : (findInClassScope T fs args).count = 0 := by
  rw [inClass_eq, strict_known hk]
  have : fs.filter (strict T args) = [] := by
    rw [List.eq_nil_iff_forall_not_mem]
    intro g hg
    exact no g ((strict_filter hk g).1 hg).1 ((strict_filter hk g).1 hg).2
  rw [this]; rfl

/-- **C17.** An exact match in the class itself wins, whatever else the class and its ancestors offer. -/
theorem C17_exact_in_class_wins (P : Program n) (args : List Arg) (c : Fin n) (hd : P.w.defined (P.w.root c) = true)
    (hn : (P.funcs (P.w.root c)).Nodup) (hk : ∀ f ∈ P.funcs (P.w.root c), Known P.T f args)
    (f : Func) (hf : f ∈ P.funcs (P.w.root c)) (he : Exact P.T f args)
    (one : ∀ g ∈ P.funcs (P.w.root c), Exact P.T g args → g = f) :
    search P args c = ⟨1, some f, .at (P.w.root c), false⟩ := by
  have hg : getNextBase P.w (init P.w c) = some (P.w.root c, ⟨[], {P.w.root c}⟩) := by
    simp [getNextBase, init, getNextBasePair]
  have hx := inClass_exact hn hk hf he one
  have e : findExact P args c = ⟨1, some f, .at (P.w.root c), false⟩ := by
    have e0 : exactLoop P args ⟨0, none, .nowhere, false⟩ (init P.w c) = ⟨1, some f, .at (P.w.root c), false⟩ := by
      have hc : (findInClassScope P.T (P.funcs (P.w.root c)) args).count = 1 ∧ (⟨[], {P.w.root c}⟩ : State n).bases = [] :=
        ⟨by rw [hx], rfl⟩
      rw [exactLoop_some hg, if_pos hd, if_pos hc]
      unfold exactAt
      rw [hx]
      rfl
    unfold findExact
    rw [e0]
    rfl
  unfold search
  rw [e]
  rfl

example : search (chainProgram [fn 1 5] [fn 2 5, fn 3 6, fn 4 105] []) [var 5] 2 = ⟨1, some (fn 2 5), .at 2, false⟩ := by
  decide +kernel

/-- **C17**, with the restriction that there is only one exact match in the class and its ancestors: it wins. (An exact match in
a base class that hides another one further up may lose: `C17_exact_can_lose`.) -/
theorem C17_exact_wins_partial (P : Program n) (ok : Ok P.w) (args : List Arg) (c x : Fin n)
    (hn : ∀ y, (P.funcs y).Nodup) (hk : ∀ y f, Visible P c y f → Known P.T f args)
    (f : Func) (hf : Visible P c x f) (he : Exact P.T f args)
    (one : ∀ y g, Visible P c y g → Exact P.T g args → y = x ∧ g = f) :
    (search P args c).count = 1 ∧ (search P args c).func = some f ∧ (search P args c).found = .at x := by
  obtain ⟨hd, hx, hm⟩ := hf
  have h1 := inClass_exact (hn x) (fun g hg => hk x g ⟨hd, hx, hg⟩) hm he (fun g hg hge => (one x g ⟨hd, hx, hg⟩ hge).2)
  have hvis : ∀ y ∈ Ulam.Walker.sightings P.w false (init P.w c), P.w.defined y = true → SelfOrAncestor P.w (P.w.root c) y :=
    fun y hy hyd => (edge_base ok _ _ hyd).1 ((mem_sightings P.w false c y).1 hy)
  obtain ⟨h, e⟩ := exact_single args x hd (by rw [h1]) (init P.w c) ⟨0, none, .nowhere, false⟩
    ((mem_sightings P.w false c x).2 ((edge_base ok _ _ hd).2 hx))
    (fun y hy hyd hne => inClass_none (fun g hg => hk y g ⟨hyd, hvis y hy hyd, hg⟩)
      fun g hg hge => hne (one y g ⟨hyd, hvis y hy hyd, hg⟩ hge).1)
  have e2 : findExact P args c = ⟨1, some f, .at x, h⟩ := by
    unfold findExact
    rw [e, h1]
    rfl
  unfold search
  rw [e2]
  exact ⟨rfl, rfl, rfl⟩

theorem chain_known (f1 f2 f3 : List Func) (args : List Arg) (h : ∀ f ∈ f1 ++ f2 ++ f3, ∀ p ∈ f.params, p.type > 0)
    (ha : ∀ a ∈ args, a.type > 0) (hc : ∀ a ∈ args, ∀ t, a.cast t ≠ .hazy) (y : Fin 5) (f : Func)
    (hv : f ∈ (chainProgram f1 f2 f3).funcs y) : Known demoTypes f args := by
  refine known_demo f args (h f ?_) ha hc
  unfold chainProgram at hv
  dsimp only at hv
  split_ifs at hv <;> simp_all

theorem exact_demo (f : Func) (args : List Arg) : Exact demoTypes f args ↔ (matchingTypesStrictly demoTypes f args).1 = true ∨
    (Exact demoTypes f args ∧ ¬ (∀ p ∈ f.params, p.type > 0)) := by
  constructor
  · intro h
    by_cases hp : ∀ p ∈ f.params, p.type > 0
    · refine .inl ?_
      unfold matchingTypesStrictly
      rw [(wrongNumber_iff f args).2 h.1]
      have hl : f.params.length ≤ args.length := by have := h.1; unfold Arity at this; omega
      refine ((strictLoop_spec demoTypes f.params args hl).2 ?_).2 h.2
      intro i p a h1 h2
      have := hp p (List.mem_of_getElem? h1)
      refine ⟨decide_eq_true this, decide_eq_true this, ?_⟩
      simp only [demoTypes]; split <;> simp
    · exact .inr ⟨h, hp⟩
  · rintro (h | h)
    · exact (strict_spec demoTypes f args).1 h
    · exact h.1

/-- The hypotheses of `C17_exact_wins_partial` hold with a better-looking place for the call nearer by. -/
example : ∃ P : Program 5, ∃ args : List Arg, Ok P.w ∧ (∀ y, (P.funcs y).Nodup) ∧ (∀ y f, Visible P 3 y f → Known P.T f args) ∧
    Visible P 3 1 (fn 1 5) ∧ Exact P.T (fn 1 5) args ∧ (∀ y g, Visible P 3 y g → Exact P.T g args → y = 1 ∧ g = fn 1 5) ∧
    (∃ g ∈ P.funcs 3, Applicable P.T g args) := by
  have hb1 : Ulam.Walker.Spec.Base chainWorld 3 2 := ⟨by decide, ⟨2, 0⟩, by decide, by decide, rfl⟩
  have hb2 : Ulam.Walker.Spec.Base chainWorld 2 1 := ⟨by decide, ⟨1, 0⟩, by decide, by decide, rfl⟩
  have he : ∀ f : Func, (∀ p ∈ f.params, p.type > 0) → (Exact demoTypes f [var 5] ↔ (matchingTypesStrictly demoTypes f [var 5]).1 = true) := by
    intro f hp
    rw [exact_demo]
    exact ⟨fun h => h.elim id fun q => absurd hp q.2, .inl⟩
  refine ⟨chainProgram [fn 1 5] [fn 2 7] [fn 3 6], [var 5], chainOk, by decide, fun y f hv => ?_, ⟨by decide, ?_, by decide⟩, ?_, ?_,
    ⟨fn 3 6, by decide, ?_⟩⟩
  · exact chain_known _ _ _ _ (by decide) (by decide) (by simp [var]) y f hv.2.2
  · exact (Relation.ReflTransGen.single hb1).tail hb2
  · exact (he _ (by decide)).2 (by decide +kernel)
  · intro y g hv hg
    have hm := hv.2.2
    have hp : ∀ p ∈ g.params, p.type > 0 := by
      unfold chainProgram at hm
      dsimp only at hm
      split_ifs at hm <;> simp_all [fn]
    rw [show (chainProgram [fn 1 5] [fn 2 7] [fn 3 6]).T = demoTypes from rfl, he g hp] at hg
    have : ∀ y : Fin 5, ∀ g ∈ (chainProgram [fn 1 5] [fn 2 7] [fn 3 6]).funcs y, (matchingTypesStrictly demoTypes g [var 5]).1 = true →
        y = 1 ∧ g = fn 1 5 := by decide +kernel
    exact this y g hm hg
  · have hk : Known demoTypes (fn 3 6) [var 5] := known_demo _ _ (by decide) (by decide) (by simp [var])
    exact (app_iff (known_haz hk)).1 (by decide +kernel)

/-- **C17.** A call to which exactly one function of the class and its ancestors applies means that function. -/
theorem C17_only_candidate (P : Program n) (ok : Ok P.w) (args : List Arg) (c x : Fin n)
    (hn : ∀ y, (P.funcs y).Nodup) (hk : ∀ y f, Visible P c y f → Known P.T f args)
    (f : Func) (hf : Visible P c x f) (ha : Applicable P.T f args)
    (one : ∀ y g, Visible P c y g → Applicable P.T g args → y = x ∧ g = f) :
    (search P args c).count = 1 ∧ (search P args c).func = some f ∧ (search P args c).found = .at x := by
  by_cases he : Exact P.T f args
  · exact C17_exact_wins_partial P ok args c x hn hk f hf he (fun y g hv hg => one y g hv (exact_applicable hg))
  have hno : ∀ y g, Visible P c y g → ¬ Exact P.T g args := by
    intro y g hv hg
    obtain ⟨_, e⟩ := one y g hv (exact_applicable hg)
    exact he (e ▸ hg)
  obtain ⟨hd, hx, hm⟩ := hf
  have hvis : ∀ y ∈ Ulam.Walker.sightings P.w false (init P.w c), P.w.defined y = true → SelfOrAncestor P.w (P.w.root c) y :=
    fun y hy hyd => (edge_base ok _ _ hyd).1 ((mem_sightings P.w false c y).1 hy)
  obtain ⟨h0, e0⟩ := exact_quiet (P := P) args (init P.w c) ⟨0, none, .nowhere, false⟩
    (fun y hy hyd => inClass_none (fun g hg => hk y g ⟨hyd, hvis y hy hyd, hg⟩) fun g hg => hno y g ⟨hyd, hvis y hy hyd, hg⟩)
  have e1 : findExact P args c = ⟨0, none, .nowhere, h0⟩ := by
    unfold findExact; rw [e0]; rfl
  have hb := ((C17_best_of_class P.T (P.funcs x) (hn x) args (fun g hg => hk x g ⟨hd, hx, hg⟩)).1 f).2
    ⟨hm, ha, .inl fun g hg hga => (one x g ⟨hd, hx, hg⟩ hga).2⟩
  obtain ⟨h, e⟩ := safe_single args c x hd hb.1 (fun y hy hyd hne => by
      have hv := (edge_base ok _ _ hyd).1 hy
      exact (C17_best_of_class P.T (P.funcs y) (hn y) args (fun g hg => hk y g ⟨hyd, hv, hg⟩)).2.2.2
        (.inl fun g hg hga => hne (one y g ⟨hyd, hv, hg⟩ hga).1))
    (init P.w c) ⟨0, none, .nowhere, h0⟩ (reached_init P.w c) rfl ((mem_sightings P.w false c x).2 ((edge_base ok _ _ hd).2 hx))
  unfold search
  rw [e1]
  dsimp only
  rw [if_neg (by decide), e, hb.2]
  exact ⟨rfl, rfl, rfl⟩

example : search (chainProgram [fn 1 7] [fn 2 5] [fn 3 5]) [var 6] 3 = ⟨1, some (fn 1 7), .at 1, false⟩ := by decide +kernel

/-! ### Findings -/

/-- Class 3 inherits 2, which inherits 1, and also 4, which declares nothing. -/
def sideProgram (f1 f2 : List Func) : Program 6 :=
  ⟨⟨0, id, id, fun x => x ≠ 0 ∧ x ≠ 5, fun x => if x = 3 then [⟨2, 0⟩, ⟨4, 0⟩] else if x = 2 then [⟨1, 0⟩] else [⟨0, 0⟩], fun x => x⟩,
    5, demoTypes, fun x => if x = 1 then f1 else if x = 2 then f2 else []⟩

/-- **C17 (finding).** An exact match does not always win. Class 2 declares `f(Int(5))`, which hides that of its base 1, and
also `f(Int(6))`. Called with an `Int(5)` on class 2, the function of class 2 is chosen; called on class 3, which inherits 2 and
a class without any such function, it is the one of class 1: the two exact matches are counted as ambiguous, and with casts
allowed class 2 has two candidates of the same kind and class 1 just one. -/
theorem C17_exact_can_lose :
    search (sideProgram [fn 1 5] [fn 2 5, fn 3 6]) [var 5] 2 = ⟨1, some (fn 2 5), .at 2, false⟩ ∧
    search (sideProgram [fn 1 5] [fn 2 5, fn 3 6]) [var 5] 3 = ⟨1, some (fn 1 5), .at 1, false⟩ := by
  exact ⟨by decide +kernel, by decide +kernel⟩

/-- Class 3 with bases 1 and 2, in a given order. -/
def twoBases (l : List (Entry 5)) (f1 f2 : List Func) : Program 5 :=
  ⟨⟨0, id, id, fun x => x ≠ 0 ∧ x ≠ 4, fun x => if x = 3 then l else [⟨0, 0⟩], fun x => x⟩, 4, demoTypes,
    fun x => if x = 1 then f1 else if x = 2 then f2 else []⟩

/-- **C17 (finding).** The order of overloads does not matter, but that of base classes does, and an ambiguity can be hidden:
`f(Int(5))` and `f(Int(6))` in one base are equally good for an `Int(4)`, and that is reported, unless a class met later in the
search has just one function that applies, which then is taken. -/
theorem C17_ambiguity_can_hide :
    (search (twoBases [⟨2, 0⟩, ⟨1, 0⟩] [fn 1 5, fn 2 6] [fn 3 7]) [var 4] 3).count = 3 ∧
    search (twoBases [⟨1, 0⟩, ⟨2, 0⟩] [fn 1 5, fn 2 6] [fn 3 7]) [var 4] 3 = ⟨1, some (fn 3 7), .at 2, false⟩ ∧
    (search (twoBases [⟨1, 0⟩] [fn 1 5, fn 2 6] [fn 3 7]) [var 4] 3).count = 2 := by
  exact ⟨by decide +kernel, by decide +kernel, by decide +kernel⟩

end Ulam.Overload
