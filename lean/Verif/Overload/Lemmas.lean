import Verif.Overload.Spec
import Mathlib.Tactic.SplitIfs
import Mathlib.Tactic.Tauto
/-! # Helper lemmas for overloads: one function, one class -/
namespace Ulam.Overload
open Spec

/-- `Each` on lists. -/
def EachL (R : Param → Arg → Prop) (ps : List Param) (as : List Arg) : Prop :=
  ∀ (i : Nat) (p : Param) (a : Arg), ps[i]? = some p → as[i]? = some a → R p a

theorem eachL_nil (R : Param → Arg → Prop) (as : List Arg) : EachL R [] as := by intro i p a h; simp at h

theorem eachL_nil' (R : Param → Arg → Prop) (ps : List Param) : EachL R ps [] := by intro i p a _ h; simp at h

theorem eachL_cons (R : Param → Arg → Prop) (p : Param) (ps : List Param) (a : Arg) (as : List Arg) :
    EachL R (p :: ps) (a :: as) ↔ R p a ∧ EachL R ps as := by
  constructor
  · intro h
    exact ⟨h 0 p a rfl rfl, fun i q b h1 h2 => h (i + 1) q b h1 h2⟩
  · rintro ⟨h1, h2⟩ i q b k1 k2
    cases i with
    | zero =>
      rw [List.getElem?_cons_zero, Option.some.injEq] at k1 k2
      subst k1; subst k2; exact h1
    | succ i => exact h2 i q b k1 k2

theorem wrongNumber_iff (f : Func) (args : List Arg) : wrongNumber f args = false ↔ Arity f args := by
  unfold wrongNumber Arity
  cases f.variadic <;> simp <;> omega

theorem strictLoop_spec (T : TypeInfo) (ps : List Param) (as : List Arg) (hl : ps.length ≤ as.length) :
    ((strictLoop T ps as).1 = true → EachL (fun p a => T.compare p.type a.type = .same) ps as) ∧
    (EachL (fun p a => T.ok p.type = true ∧ T.complete p.type = true ∧ T.compare p.type a.type ≠ .dontKnow) ps as →
      (strictLoop T ps as).2 = false ∧ (EachL (fun p a => T.compare p.type a.type = .same) ps as → (strictLoop T ps as).1 = true)) := by
  induction ps generalizing as with
  | nil => simp [strictLoop, eachL_nil]
  | cons p ps ih =>
    cases as with
    | nil => simp at hl
    | cons a as =>
      obtain ⟨i1, i2⟩ := ih as (by simpa using hl)
      simp only [eachL_cons, strictLoop]
      cases h1 : T.ok p.type <;> cases h2 : T.complete p.type <;> simp
      cases h3 : T.compare p.type a.type <;> simp
      exact ⟨i1, i2⟩

theorem strict_spec (T : TypeInfo) (f : Func) (args : List Arg) :
    ((matchingTypesStrictly T f args).1 = true → Exact T f args) ∧
    (Known T f args → (matchingTypesStrictly T f args).2 = false ∧ ((matchingTypesStrictly T f args).1 = true ↔ Exact T f args)) := by
  unfold matchingTypesStrictly
  cases hw : wrongNumber f args
  · have ha := (wrongNumber_iff f args).1 hw
    have hl : f.params.length ≤ args.length := by unfold Arity at ha; omega
    obtain ⟨h1, h2⟩ := strictLoop_spec T f.params args hl
    simp only [Bool.false_eq_true, if_false]
    refine ⟨fun h => ⟨ha, h1 h⟩, fun hk => ?_⟩
    obtain ⟨k1, k2⟩ := h2 fun i p a q1 q2 => ⟨(hk ha i p a q1 q2).1, (hk ha i p a q1 q2).2.1, (hk ha i p a q1 q2).2.2.2.1⟩
    exact ⟨k1, fun h => ⟨ha, h1 h⟩, fun h => k2 h.2⟩
  · have hn : ¬ Arity f args := fun q => by rw [(wrongNumber_iff f args).2 q] at hw; cases hw
    simp [Exact, hn]

theorem loose_acc (T : TypeInfo) (ps : List Param) (as : List Arg) (h : Bool) (k : Nat) :
    looseLoop T ps as h k = ((looseLoop T ps as false 0).1, h || (looseLoop T ps as false 0).2.1, k + (looseLoop T ps as false 0).2.2) := by
  induction ps generalizing as h k with
  | nil => simp [looseLoop]
  | cons p ps ih =>
    cases as with
    | nil => simp [looseLoop]
    | cons a as =>
      simp only [looseLoop]
      have e := fun h k => ih as h k
      by_cases h1 : (!T.ok p.type || !T.ok a.type) = true
      · simp [h1]
      · simp only [h1, Bool.false_eq_true, if_false]
        by_cases h2 : T.compare p.type a.type = .same
        · simp only [h2, if_true]
          rw [e h (k + 1), e false (0 + 1)]
          simp; omega
        · simp only [h2, if_false]
          cases h3 : a.const
          · simp only [Bool.false_eq_true, if_false]
            cases h4 : T.safeCast p.type a.type
            · dsimp only
              by_cases h5 : (T.constRef p.type && a.explicit) = true
              · simp [h5]
              · simp only [h5, Bool.false_eq_true, if_false]
                by_cases h6 : T.kind p.type = T.kind a.type
                · rw [if_pos h6, if_pos h6, e h (k + 1), e false (0 + 1)]; simp; omega
                · rw [if_neg h6, if_neg h6, e h k]; try simp
            · simp
            · dsimp only
              rw [e true, e true 0]; simp
          · simp only [if_true]
            by_cases h5 : (T.altRef p.type && (!p.const || a.explicit)) = true
            · simp [h5]
            · simp only [h5, Bool.false_eq_true, if_false]
              cases h4 : a.cast p.type
              · dsimp only
                by_cases h6 : T.kind p.type = T.kind a.type
                · rw [if_pos h6, if_pos h6, e h (k + 1), e false (0 + 1)]; simp; omega
                · rw [if_neg h6, if_neg h6, e h k]; try simp
              · simp
              · dsimp only
                rw [e true, e true 0]; simp

theorem loose_spec (T : TypeInfo) (ps : List Param) (as : List Arg) (hl : ps.length ≤ as.length) :
    ((looseLoop T ps as false 0).2.1 = false →
      ((looseLoop T ps as false 0).1 = true ↔ EachL (fun p a => T.compare p.type a.type = .same ∨ Converts T p a) ps as) ∧
      ((looseLoop T ps as false 0).2.2 ≤ ps.length) ∧
      ((looseLoop T ps as false 0).1 = true → ((looseLoop T ps as false 0).2.2 = ps.length ↔
        EachL (fun p a => T.compare p.type a.type = .same ∨ T.kind p.type = T.kind a.type) ps as))) ∧
    (EachL (fun p a => T.ok p.type = true ∧ T.complete p.type = true ∧ T.ok a.type = true ∧
      T.compare p.type a.type ≠ .dontKnow ∧ a.cast p.type ≠ .hazy ∧ T.safeCast p.type a.type ≠ .hazy) ps as →
      (looseLoop T ps as false 0).2.1 = false) := by
  induction ps generalizing as with
  | nil => simp [looseLoop, eachL_nil]
  | cons p ps ih =>
    cases as with
    | nil => simp at hl
    | cons a as =>
      obtain ⟨i1, i2⟩ := ih as (by simpa using hl)
      simp only [eachL_cons, looseLoop, List.length_cons]
      by_cases h1 : (!T.ok p.type || !T.ok a.type) = true
      · simp only [h1, if_true]
        refine ⟨fun q => (nomatch q), fun q => ?_⟩
        simp [q.1.1, q.1.2.2.1] at h1
      · simp only [h1, Bool.false_eq_true, if_false]
        by_cases h2 : T.compare p.type a.type = .same
        · simp only [h2, if_true]
          rw [loose_acc]
          simp only [Bool.false_or, true_or, true_and]
          refine ⟨fun q => ?_, fun q => i2 q.2⟩
          obtain ⟨j1, j2, j3⟩ := i1 q
          exact ⟨j1, by omega, fun e => by rw [← j3 e]; omega⟩
        · simp only [h2, if_false, false_or]
          cases h3 : a.const
          · simp only [Bool.false_eq_true, if_false]
            have hc : Converts T p a ↔ T.safeCast p.type a.type = .clear ∧ ¬ (T.constRef p.type = true ∧ a.explicit = true) := by
              simp [Converts, h3]
            rw [hc]
            cases h4 : T.safeCast p.type a.type
            · dsimp only
              by_cases h5 : (T.constRef p.type && a.explicit) = true
              · simp only [h5, if_true]
                rw [Bool.and_eq_true] at h5
                simp [h5]
              · simp only [h5, Bool.false_eq_true, if_false]
                rw [loose_acc]
                rw [Bool.and_eq_true] at h5
                simp only [Bool.false_or, h5, not_false_eq_true, true_and]
                refine ⟨fun q => ?_, fun q => i2 q.2⟩
                obtain ⟨j1, j2, j3⟩ := i1 q
                by_cases h6 : T.kind p.type = T.kind a.type
                · simp only [h6, if_true, true_and]
                  exact ⟨j1, by omega, fun e => by rw [← j3 e]; omega⟩
                · simp only [h6, if_false, false_and]
                  exact ⟨j1, by omega, fun e => ⟨fun z => by omega, False.elim⟩⟩
            · simp
            · dsimp only
              rw [loose_acc]
              simp
          · simp only [if_true]
            have hc : Converts T p a ↔ a.cast p.type = .clear ∧ (T.altRef p.type = true → p.const = true ∧ a.explicit = false) := by
              simp [Converts, h3]
            rw [hc]
            by_cases h5 : (T.altRef p.type && (!p.const || a.explicit)) = true
            · simp only [h5, if_true]
              have : ¬ (T.altRef p.type = true → p.const = true ∧ a.explicit = false) := by
                intro q
                rw [Bool.and_eq_true] at h5
                obtain ⟨q1, q2⟩ := q h5.1
                simp [q1, q2] at h5
              simp [this]
            · simp only [h5, Bool.false_eq_true, if_false]
              have : (T.altRef p.type = true → p.const = true ∧ a.explicit = false) := by
                intro q
                rw [q] at h5
                cases h7 : p.const <;> cases h8 : a.explicit <;> simp [h7, h8] at h5 ⊢
              cases h4 : a.cast p.type
              · dsimp only
                rw [loose_acc]
                rw [eq_true this]
                simp only [Bool.false_or, true_and]
                refine ⟨fun q => ?_, fun q => i2 q.2⟩
                obtain ⟨j1, j2, j3⟩ := i1 q
                by_cases h6 : T.kind p.type = T.kind a.type
                · simp only [h6, if_true, true_and]
                  exact ⟨by simpa using j1, by omega, fun e => by rw [← j3 e]; omega⟩
                · simp only [h6, if_false, false_and]
                  exact ⟨by simpa using j1, by omega, fun e => ⟨fun z => by omega, False.elim⟩⟩
              · simp
              · dsimp only
                rw [loose_acc]
                simp

/-- `matchingTypes` started afresh. -/
def app (T : TypeInfo) (args : List Arg) (f : Func) : Bool := (matchingTypes T f args false 0).1
def haz (T : TypeInfo) (args : List Arg) (f : Func) : Bool := (matchingTypes T f args false 0).2.1
def all (T : TypeInfo) (args : List Arg) (f : Func) : Bool := decide ((matchingTypes T f args false 0).2.2 = args.length)

theorem matching_acc (T : TypeInfo) (f : Func) (args : List Arg) (h : Bool) :
    matchingTypes T f args h 0 = (app T args f, h || haz T args f, (matchingTypes T f args false 0).2.2) := by
  unfold app haz matchingTypes
  split
  · simp
  · rw [loose_acc T f.params args h 0]; simp

theorem app_iff {T : TypeInfo} {f : Func} {args : List Arg} (h : haz T args f = false) :
    app T args f = true ↔ Applicable T f args := by
  unfold app Applicable
  unfold haz at h
  unfold matchingTypes at h ⊢
  cases hw : wrongNumber f args
  · have ha := (wrongNumber_iff f args).1 hw
    have hl : f.params.length ≤ args.length := by unfold Arity at ha; omega
    rw [hw] at h
    simp only [Bool.false_eq_true, if_false] at h ⊢
    rw [((loose_spec T f.params args hl).1 h).1]
    exact ⟨fun q => ⟨ha, q⟩, fun q => q.2⟩
  · have hn : ¬ Arity f args := fun q => by rw [(wrongNumber_iff f args).2 q] at hw; cases hw
    simp [hn]

theorem same_iff {T : TypeInfo} {f : Func} {args : List Arg} (h : haz T args f = false) :
    (app T args f = true ∧ all T args f = true) ↔ SameKind T f args := by
  unfold SameKind
  rw [← app_iff h]
  unfold haz at h
  unfold app all at *
  unfold matchingTypes at h ⊢
  cases hw : wrongNumber f args
  · have ha := (wrongNumber_iff f args).1 hw
    have hl : f.params.length ≤ args.length := by unfold Arity at ha; omega
    rw [hw] at h
    simp only [Bool.false_eq_true, if_false, decide_eq_true_eq] at h ⊢
    obtain ⟨_, j2, j3⟩ := (loose_spec T f.params args hl).1 h
    constructor
    · rintro ⟨q1, q2⟩
      have : f.params.length = args.length := by omega
      exact ⟨q1, this, (j3 q1).1 (by omega)⟩
    · rintro ⟨q1, q2, q3⟩
      exact ⟨q1, by rw [(j3 q1).2 q3, q2]⟩
  · simp

theorem known_haz {T : TypeInfo} {f : Func} {args : List Arg} (h : Known T f args) : haz T args f = false := by
  unfold haz matchingTypes
  cases hw : wrongNumber f args
  · have ha := (wrongNumber_iff f args).1 hw
    have hl : f.params.length ≤ args.length := by unfold Arity at ha; omega
    exact (loose_spec T f.params args hl).2 (h ha)
  · rfl

theorem exact_applicable {T : TypeInfo} {f : Func} {args : List Arg} (h : Exact T f args) : Applicable T f args :=
  ⟨h.1, fun i p a h1 h2 => .inl (h.2 i p a h1 h2)⟩

/-! ### One class -/

/-- The strict matches of a class. -/
def strict (T : TypeInfo) (args : List Arg) (f : Func) : Bool := (matchingTypesStrictly T f args).1
def strictHaz (T : TypeInfo) (args : List Arg) (f : Func) : Bool := (matchingTypesStrictly T f args).2

theorem strict_fold (T : TypeInfo) (args : List Arg) (fs : List Func) (a : Found) :
    fs.foldl (strictStep T args) a = ⟨a.count + (fs.filter (strict T args)).length,
      ((fs.filter (strict T args)).getLast?).or a.func, a.hazy || fs.any (strictHaz T args)⟩ := by
  induction fs generalizing a with
  | nil => simp
  | cons f fs ih =>
    rw [List.foldl_cons, ih]
    unfold strictStep
    cases h : strict T args f
    · have h' : (matchingTypesStrictly T f args).1 = false := h
      simp [h, h', strictHaz, Bool.or_assoc]
    · have h' : (matchingTypesStrictly T f args).1 = true := h
      simp only [h', List.filter_cons_of_pos h, List.length_cons, List.any_cons, Bool.or_assoc, if_true, List.getLast?_cons, strictHaz]
      cases (fs.filter (strict T args)).getLast? <;> simp <;> omega

theorem findMatching_eq (T : TypeInfo) (args : List Arg) (fs : List Func) :
    findMatchingFunction T fs args = ⟨(fs.filter (strict T args)).length, (fs.filter (strict T args)).getLast?, fs.any (strictHaz T args)⟩ := by
  unfold findMatchingFunction
  rw [strict_fold]; simp

/-- The count with the functions of not known types counted as none. -/
theorem inClass_eq (T : TypeInfo) (args : List Arg) (fs : List Func) :
    findInClassScope T fs args = ⟨if fs.any (strictHaz T args) then 0 else (fs.filter (strict T args)).length,
      (fs.filter (strict T args)).getLast?, fs.any (strictHaz T args)⟩ := by
  unfold findInClassScope
  rw [findMatching_eq]
  dsimp only
  split <;> simp_all

theorem safe_hazy (T : TypeInfo) (args : List Arg) (fs : List Func) (a : Safe) :
    (fs.foldl (safeStep T args) a).hazy = (a.hazy || fs.any (haz T args)) := by
  induction fs generalizing a with
  | nil => simp
  | cons f fs ih =>
    rw [List.foldl_cons, ih]
    unfold safeStep
    rw [matching_acc]
    dsimp only
    split <;> simp [Bool.or_assoc]

theorem safe_fold (T : TypeInfo) (args : List Arg) (fs : List Func) (a : Safe) (h : a.hazy = false) (hf : fs.any (haz T args) = false) :
    fs.foldl (safeStep T args) a = ⟨a.count + (fs.filter (app T args)).length, ((fs.filter (app T args)).getLast?).or a.func, false,
      a.sameCount + ((fs.filter (app T args)).filter (all T args)).length,
      (((fs.filter (app T args)).filter (all T args)).getLast?).or a.sameFunc⟩ := by
  induction fs generalizing a with
  | nil => cases a; simp_all
  | cons f fs ih =>
    rw [List.any_cons, Bool.or_eq_false_iff] at hf
    obtain ⟨hf1, hf2⟩ := hf
    rw [List.foldl_cons]
    have hs : (safeStep T args a f).hazy = false := by
      have := safe_hazy T args [f] a
      simpa [h, hf1] using this
    rw [ih _ hs hf2]
    unfold safeStep
    rw [matching_acc, h, hf1]
    cases ha : app T args f
    · simp [ha]
    · cases hall : all T args f
      · have h' : ¬ (matchingTypes T f args false 0).2.2 = args.length := by
          unfold all at hall; simpa using hall
        simp only [ha, List.filter_cons_of_pos ha, List.length_cons, List.getLast?_cons, h', hall]
        cases (fs.filter (app T args)).getLast? <;> simp [hall] <;> omega
      · have h' : (matchingTypes T f args false 0).2.2 = args.length := by
          unfold all at hall; simpa using hall
        simp only [ha, List.filter_cons_of_pos ha, List.length_cons, List.getLast?_cons, h', List.filter_cons_of_pos hall]
        cases (fs.filter (app T args)).getLast? <;> cases ((fs.filter (app T args)).filter (all T args)).getLast? <;> simp <;> omega

/-- Looking in one class in which everything is known. -/
def pick (A S : List Func) : Nat × Option Func :=
  if A.length > 1 then if S.length > 1 then (A.length, none) else (S.length, S.getLast?) else (A.length, A.getLast?)

theorem safe_eq (T : TypeInfo) (args : List Arg) (fs : List Func) (hf : fs.any (haz T args) = false) :
    findMatchingFunctionWithSafeCasts T fs args =
      ⟨(pick (fs.filter (app T args)) ((fs.filter (app T args)).filter (all T args))).1,
        (pick (fs.filter (app T args)) ((fs.filter (app T args)).filter (all T args))).2, false⟩ := by
  unfold findMatchingFunctionWithSafeCasts
  rw [safe_fold T args fs _ rfl hf]
  unfold pick
  simp only [Nat.zero_add, Option.or_none]
  split
  · split <;> rfl
  · rfl

theorem safe_any (T : TypeInfo) (args : List Arg) (fs : List Func) :
    (findMatchingFunctionWithSafeCasts T fs args).hazy = fs.any (haz T args) := by
  unfold findMatchingFunctionWithSafeCasts
  have := safe_hazy T args fs ⟨0, none, false, 0, none⟩
  dsimp only
  split
  · split <;> simpa using this
  · simpa using this

theorem perm_one {l l' : List Func} (h : l.Perm l') (h1 : l.length ≤ 1) : l = l' := by
  match l, h1 with
  | [], _ => exact (List.nil_perm.1 h).symm
  | [a], _ => exact List.singleton_perm.1 h

theorem pick_perm {A A' S S' : List Func} (hA : A.Perm A') (hS : S.Perm S') : pick A S = pick A' S' := by
  unfold pick
  rw [hA.length_eq, hS.length_eq]
  split
  · split
    · rfl
    · rename_i h
      rw [perm_one hS (by rw [hS.length_eq]; omega)]
  · rename_i h
    rw [perm_one hA (by rw [hA.length_eq]; omega)]

theorem safe_perm (T : TypeInfo) (args : List Arg) {fs fs' : List Func} (h : fs.Perm fs')
    (hz : (findMatchingFunctionWithSafeCasts T fs args).hazy = false) :
    findMatchingFunctionWithSafeCasts T fs' args = findMatchingFunctionWithSafeCasts T fs args := by
  rw [safe_any] at hz
  rw [safe_eq T args fs hz, safe_eq T args fs' (by rw [← h.any_eq]; exact hz)]
  rw [pick_perm (h.filter _) ((h.filter (app T args)).filter _)]

theorem inClass_perm (T : TypeInfo) (args : List Arg) {fs fs' : List Func} (h : fs.Perm fs') :
    (findInClassScope T fs' args).count = (findInClassScope T fs args).count ∧
    (findInClassScope T fs' args).hazy = (findInClassScope T fs args).hazy ∧
    ((findInClassScope T fs args).count = 1 → (findInClassScope T fs' args).func = (findInClassScope T fs args).func) := by
  rw [inClass_eq, inClass_eq]
  dsimp only
  have e := h.any_eq (f := strictHaz T args)
  rw [← e, (h.filter (strict T args)).length_eq]
  refine ⟨rfl, rfl, fun h1 => ?_⟩
  split at h1
  · cases h1
  · rw [perm_one (h.filter (strict T args)) (by rw [(h.filter (strict T args)).length_eq]; omega)]

end Ulam.Overload
