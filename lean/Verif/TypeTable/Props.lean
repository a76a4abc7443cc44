import Verif.TypeTable.Steps
import Mathlib.Tactic.SplitIfs
import Mathlib.Tactic.ByContra
/-! # C31: type numbers -/
namespace Ulam.TypeTable
open Ulam.Keys Spec
variable {no : Key}

/-! ### The state after the compiler made its basic types -/

theorem not_defined {s : State} (I : Inv no s) {k : Key} (h : ∀ u : Nat, s.keys[u]? ≠ some k) : isDefined s k = none := by
  cases e : isDefined s k with
  | none => rfl
  | some t =>
    obtain ⟨u, _, hu, _⟩ := any_least I (k := k) (by rw [e]; rfl)
    exact absurd hu (h u)

/-- The signature stored for a request for a new type. -/
def storedAs (k : Key) (kind u : Nat) : Key := { k with classInstanceIdx := if kind = cls then u else 0 }

theorem make_new {s : State} (I : Inv no s) {k : Key} {kind : Nat} {f : Nat → Option Bool} (hl : s.keys.length < 65536)
    (hk : kind = cls → k.arraySize = -1 ∧ k.referenceType = 0 ∧ k.classInstanceIdx = 0)
    (hn : isDefined s k = none ∨ k.bits = -2 ∨ k.arraySize = -2) :
    ∃ t, makeUlamType s k kind f = some (t, s.keys.length) ∧ Inv no t ∧ t.keys = s.keys ++ [storedAs k kind s.keys.length] := by
  have hc : ¬ (k.bits ≠ unknownSize ∧ k.arraySize ≠ unknownSize ∧ (isDefined s k).isSome) := by
    rintro ⟨h1, h2, h3⟩
    unfold unknownSize at h1 h2
    rcases hn with h | h | h
    · rw [h] at h3; cases h3
    · exact h1 h
    · exact h2 h
  unfold makeUlamType storedAs
  rw [if_neg hc]
  dsimp only
  by_cases e : kind = cls
  · obtain ⟨h1, h2, h3⟩ := hk e
    rw [if_pos e, if_neg (by unfold nonArraySize; omega), if_neg (by omega), if_pos (show k.classInstanceIdx = nouti from h3), if_pos e, Nat.mod_eq_of_lt hl]
    have := enter_some I { k with classInstanceIdx := s.keys.length } kind hl
    rw [Nat.mod_eq_of_lt hl] at this
    obtain ⟨t, ht⟩ := this
    have h4 := enter_spec I (t := t) (v := s.keys.length) (by rw [Nat.mod_eq_of_lt hl]; exact ht)
    exact ⟨t, ht, h4.1, h4.2.2.1⟩
  · rw [if_neg e, if_neg e]
    obtain ⟨t, ht⟩ := enter_some I { k with classInstanceIdx := nouti } kind hl
    have h4 := enter_spec I ht
    exact ⟨t, ht, h4.1, h4.2.2.1⟩

/-- Name, size and reference kind. -/
def front (k : Key) : Nat × Int × Nat := (k.typeNameId, k.bits, k.referenceType)

/-- Requests for types that are all new get numbers in order. -/
theorem run_new (ps : List (Key × Nat)) {s : State} (I : Inv no s) (hl : s.keys.length + ps.length ≤ 65536)
    (hk : ∀ p ∈ ps, p.1.arraySize = -1 ∧ p.1.classInstanceIdx = 0 ∧ (p.2 = cls → p.1.referenceType = 0))
    (hs : ∀ k ∈ s.keys, ∀ p ∈ ps, front k ≠ front p.1 ∨ p.1.bits = -2)
    (hp : ps.Pairwise fun p q => front p.1 ≠ front q.1 ∨ q.1.bits = -2) :
    ∃ t, run s (ps.map fun p => .make p.1 p.2 fun _ => none) = some t ∧
      (∀ (u : Nat) k, s.keys[u]? = some k → t.keys[u]? = some k) ∧ t.keys.length = s.keys.length + ps.length ∧
      ∀ i p, ps[i]? = some p → t.keys[s.keys.length + i]? = some (storedAs p.1 p.2 (s.keys.length + i)) := by
  induction ps generalizing s with
  | nil => exact ⟨s, rfl, fun _ _ h => h, rfl, fun i p h => by simp at h⟩
  | cons p ps ih =>
    have hlen : (p :: ps).length = ps.length + 1 := rfl
    rw [List.pairwise_cons] at hp
    obtain ⟨h1, h2, h3⟩ := hk p (by simp)
    obtain ⟨t, m1, J, k1⟩ := make_new I (k := p.1) (kind := p.2) (f := fun _ => none) (by omega) (fun e => ⟨h1, h3 e, h2⟩) (by
      by_cases e : p.1.bits = -2
      · exact .inr (.inl e)
      · refine .inl (not_defined I fun u hu => ?_)
        rcases hs p.1 (List.mem_of_getElem? hu) p (by simp) with h | h
        · exact h rfl
        · exact e h)
    have kl : t.keys.length = s.keys.length + 1 := by rw [k1]; simp
    obtain ⟨t', m2, kp, l2, at2⟩ := ih J (by omega) (fun q hq => hk q (by simp [hq])) (by
      intro k hk2 q hq
      rw [k1, List.mem_append] at hk2
      rcases hk2 with hk2 | hk2
      · exact hs k hk2 q (by simp [hq])
      · have : k = storedAs p.1 p.2 s.keys.length := by simpa using hk2
        subst this
        exact hp.1 q hq) hp.2
    refine ⟨t', ?_, fun u k hu => ?_, by omega, fun i q hi => ?_⟩
    · simp only [List.map_cons, run, step, m1, Option.bind_some]
      exact m2
    · refine kp u k ?_
      rw [k1, List.getElem?_append_left (List.getElem?_eq_some_iff.1 hu).1]; exact hu
    · match i, hi with
      | 0, hi =>
        have : p = q := by simpa using hi
        subst this
        exact kp _ _ (by rw [k1]; simp)
      | i + 1, hi =>
        have := at2 i q (by simpa using hi)
        rw [kl] at this
        have e : s.keys.length + 1 + i = s.keys.length + (i + 1) := by omega
        rw [e] at this
        exact this

/-- Different names have different string ids (a property of the string table, C10). -/
def NamesDiffer (nm : Nat → Nat) : Prop := ∀ i j, i < 15 → j < 15 → (nm i = nm j ↔ i = j)

/-- **C31.** The compiler's first types get the numbers it calls them by (the assertions of Parser.cpp:7156-7276): each basic type
the number of its kind, and then the five more, and each number stands for the type asked for (a class also for its own number). -/
theorem C31_basic_numbers (nm : Nat → Nat) (h : NamesDiffer nm) :
    ∃ s, run empty (basicOps nm) = some s ∧ s.keys.length = 21 ∧ Reachable ⟨nm 0, 0, -1, 0, 0⟩ s ∧
      ∀ i, i < 21 → Denotes s i (wellKnown nm i) := by
  suffices hs : ∃ s, run empty (basicOps nm) = some s ∧ s.keys.length = 21 ∧ Reachable ⟨nm 0, 0, -1, 0, 0⟩ s ∧
      ∀ i p, (basics nm)[i]? = some p → Denotes s i { p.1 with classInstanceIdx := if i = 9 then 9 else 0 } by
    obtain ⟨s, h1, h2, h3, h4⟩ := hs
    refine ⟨s, h1, h2, h3, fun i hi => ?_⟩
    suffices key : ∃ p, (basics nm)[i]? = some p ∧ { p.1 with classInstanceIdx := if i = 9 then 9 else 0 } = wellKnown nm i by
      obtain ⟨p, e1, e2⟩ := key
      rw [← e2]
      exact h4 i p e1
    match i, hi with
    | 0, _ | 1, _ | 2, _ | 3, _ | 4, _ | 5, _ | 6, _ | 7, _ | 8, _ | 9, _ | 10, _ | 11, _ | 12, _ | 13, _ | 14, _ | 15, _ | 16, _
    | 17, _ | 18, _ | 19, _ | 20, _ => exact ⟨_, rfl, rfl⟩
    | n + 21, hn => omega
  have e0 : step empty (.make ⟨nm 0, 0, -1, 0, 0⟩ 0 fun _ => none) = some (start ⟨nm 0, 0, -1, 0, 0⟩, 0) := by
    simp [step, makeUlamType, isDefined, empty, find, enter, increment, Keys.insert, C30_irreflexive, initAlias, cls, start, nouti]
  obtain ⟨p0, ps, hps⟩ : ∃ p0 ps, basics nm = p0 :: ps := ⟨_, _, rfl⟩
  have hp0 : p0 = (⟨nm 0, 0, -1, 0, 0⟩, 0) := by
    unfold basics at hps; exact (List.cons.inj hps).1.symm
  have hlen : ps.length = 20 := by
    have : (basics nm).length = 21 := rfl
    rw [hps] at this; simpa using this
  have hall : (basics nm).Pairwise fun p q => front p.1 ≠ front q.1 ∨ q.1.bits = -2 := by
    unfold NamesDiffer at h
    simp [basics, front, unknownSize, h]
  have hgood : ∀ p ∈ basics nm, p.1.arraySize = -1 ∧ p.1.classInstanceIdx = 0 ∧ (p.2 = cls → p.1.referenceType = 0) := by
    simp [basics, cls, nonArraySize, nouti]
  have hcls : ∀ i p, (basics nm)[i]? = some p → (p.2 = cls ↔ i = 9) := by
    intro i p hi
    have hi' : i < 21 := (List.getElem?_eq_some_iff.1 hi).1
    have : ∀ i, i < 21 → ∀ p, (basics nm)[i]? = some p → (p.2 = cls ↔ i = 9) := by
      intro i hi
      match i, hi with
      | 0, _ | 1, _ | 2, _ | 3, _ | 4, _ | 5, _ | 6, _ | 7, _ | 8, _ | 9, _ | 10, _ | 11, _ | 12, _ | 13, _ | 14, _ | 15, _ | 16, _
      | 17, _ | 18, _ | 19, _ | 20, _ => intro p hp; simp [basics] at hp; subst hp; simp [cls]
      | n + 21, hn => omega
    exact this i hi' p hi
  rw [hps] at hall hgood hcls
  rw [List.pairwise_cons] at hall
  obtain ⟨t, r, kp, l, at2⟩ := run_new ps (inv_start ⟨nm 0, 0, -1, 0, 0⟩) (by rw [hlen]; simp [start]) (fun p hp => hgood p (by simp [hp]))
    (by
      intro k hk q hq
      have : k = p0.1 := by rw [hp0]; simpa [start] using hk
      subst this
      exact hall.1 q hq) hall.2
  refine ⟨t, ?_, by rw [l, hlen]; rfl, ⟨_, ?_, r⟩, ?_⟩
  · unfold basicOps
    rw [hps, List.map_cons]
    simp only [run]
    rw [hp0, e0, Option.bind_some]
    exact r
  · intro o ho
    obtain ⟨p, _, rfl⟩ := List.mem_map.1 ho
    exact ⟨by simp [subject], fun a b q => by cases q⟩
  · intro i p hi
    rw [hps] at hi
    have hc := hcls i p hi
    match i, hi with
    | 0, hi =>
      have : p0 = p := by simpa using hi
      subst this
      subst hp0
      exact kp 0 _ rfl
    | i + 1, hi =>
      have := at2 i p (by simpa using hi)
      have e : (start ⟨nm 0, 0, -1, 0, 0⟩).keys.length + i = i + 1 := by simp [start]; omega
      rw [e] at this
      unfold Denotes
      rw [this]
      unfold storedAs
      by_cases q : p.2 = cls
      · have q2 := hc.1 q
        rw [if_pos q, if_pos q2, q2]
      · rw [if_neg q, if_neg (fun x => q (hc.2 x))]

example : NamesDiffer fun i => i + 100 := fun i j _ _ => by dsimp only; omega

/-! ### Theorems -/

/-- **C31.** Every number given out stands for a type in the table, whatever happened: looking it up does not fail. -/
theorem C31_numbers_have_types (s : State) (R : Reachable no s) (u : Nat) (h : u < s.keys.length) :
    ∃ k t, Denotes s u k ∧ typeByIndex s u = some (k, t) := by
  have I := reachable_inv R
  obtain ⟨t, ht⟩ := I.defined (List.getElem?_eq_getElem h)
  exact ⟨s.keys[u], t, List.getElem?_eq_getElem h, by unfold typeByIndex; rw [List.getElem?_eq_getElem h]; simp [ht]⟩

theorem plain_eq {k : Key} (h : Plain k) : { k with classInstanceIdx := nouti } = k := by
  unfold Plain at h
  cases k
  simp only [nouti, Key.mk.injEq, true_and, and_true] at h ⊢
  exact h.symm

/-- **C31.** Asking for a type that is not a class always gives a number, while there are numbers left; it stands for the type
asked for, no lower number does, and the numbers given out before keep their meaning. -/
theorem C31_request_answers (s : State) (R : Reachable no s) (k : Key) (kind : Nat) (hc : kind ≠ cls) (hp : Plain k)
    (hl : s.keys.length < 65536) (f : Nat → Option Bool) :
    ∃ t u, makeUlamType s k kind f = some (t, u) ∧ Denotes t u k ∧ (Known k → ∀ v, Denotes t v k → u ≤ v) ∧
      ∀ v k', Denotes s v k' → Denotes t v k' := by
  have I := reachable_inv R
  by_cases e : k.bits ≠ unknownSize ∧ k.arraySize ≠ unknownSize ∧ (isDefined s k).isSome
  · obtain ⟨u, h1, h2, h3⟩ := any_least I e.2.2
    refine ⟨s, u, ?_, h2, fun _ => h3, fun _ _ h => h⟩
    unfold makeUlamType
    rw [if_pos e, h1]; rfl
  · obtain ⟨t, h1, J, h2⟩ := make_new I (k := k) (kind := kind) (f := f) hl (fun q => absurd q hc) (by
      by_contra q
      simp only [not_or] at q
      exact e ⟨q.2.1, q.2.2, Option.isSome_iff_ne_none.2 q.1⟩)
    have hst : storedAs k kind s.keys.length = k := by unfold storedAs; rw [if_neg hc]; exact plain_eq hp
    rw [hst] at h2
    have keep : ∀ v k', Denotes s v k' → Denotes t v k' := by
      intro v k' hv
      unfold Denotes at hv ⊢
      rw [h2, List.getElem?_append_left (List.getElem?_eq_some_iff.1 hv).1]; exact hv
    refine ⟨t, _, h1, ?_, fun hk v hv => ?_, keep⟩
    · unfold Denotes; rw [h2]; simp
    · by_contra hlt
      unfold Denotes at hv
      rw [h2, List.getElem?_append_left (by omega)] at hv
      obtain ⟨x, hx⟩ := I.defined hv
      refine e ⟨?_, hk.2, by rw [hx]; rfl⟩
      have := hk.1
      unfold unknownSize; omega

/-- The number a request answers, when the type already has one. -/
theorem make_least {s : State} (I : Inv no s) {k : Key} {kind u : Nat} (hk : Known k) (f : Nat → Option Bool)
    (hu : Denotes s u k) (hmin : ∀ v, Denotes s v k → u ≤ v) : makeUlamType s k kind f = some (s, u) := by
  obtain ⟨x, hx⟩ := I.defined hu
  obtain ⟨w, h1, h2, h3⟩ := any_least I (k := k) (by rw [hx]; rfl)
  have : w = u := Nat.le_antisymm (h3 u hu) (hmin w h2)
  subst this
  unfold makeUlamType
  have hb : k.bits ≠ unknownSize := by have := hk.1; unfold unknownSize; omega
  rw [if_pos ⟨hb, hk.2, by rw [hx]; rfl⟩, h1]; rfl

/-- **C31**, as far as it holds. Asking again for the same type that is not a class, with known sizes, gives the same number and
changes nothing, after any history in which no number up to that one was changed: in particular after any number of requests. (What
is missing: a lower number, made for a type with unknown size, may come to stand for this type, and is answered from then on.
See `C31_same_number_fails`.) -/
theorem C31_same_number_partial (s : State) (R : Reachable no s) (k : Key) (kind : Nat) (hc : kind ≠ cls) (hp : Plain k)
    (hk : Known k) (f g : Nat → Option Bool) (t : State) (u : Nat) (h : makeUlamType s k kind f = some (t, u))
    (os : List Op) (hos : ∀ o ∈ os, Proper o ∧ ∀ v, subject o = some v → u < v) (t' : State) (h2 : run t os = some t') :
    makeUlamType t' k kind g = some (t', u) := by
  have I := reachable_inv R
  have A := make_after I h
  obtain ⟨J, l, kp, od⟩ := run_inv A.inv (fun o ho => (hos o ho).1) h2
  have hu : Denotes t u k ∧ ∀ v, Denotes t v k → u ≤ v := by
    have hl : s.keys.length < 65536 ∨ makeUlamType s k kind f = some (s, u) := by
      by_cases e : k.bits ≠ unknownSize ∧ k.arraySize ≠ unknownSize ∧ (isDefined s k).isSome
      · right
        obtain ⟨w, h1, h2, h3⟩ := any_least I e.2.2
        unfold makeUlamType at h ⊢
        rw [if_pos e, h1] at h ⊢
        cases h; rfl
      · left
        unfold makeUlamType at h
        dsimp only at h
        rw [if_neg e, if_neg hc] at h
        exact (enter_spec I h).2.2.2.1
    rcases hl with hl | hl
    · obtain ⟨t1, u1, e1, e2, e3, _⟩ := C31_request_answers s R k kind hc hp hl f
      rw [h] at e1; cases e1
      exact ⟨e2, e3 hk⟩
    · rw [h] at hl
      cases hl
      by_cases e : k.bits ≠ unknownSize ∧ k.arraySize ≠ unknownSize ∧ (isDefined s k).isSome
      · obtain ⟨w, h1, h2, h3⟩ := any_least I e.2.2
        unfold makeUlamType at h
        rw [if_pos e, h1] at h
        cases h
        exact ⟨h2, h3⟩
      · unfold makeUlamType at h
        dsimp only at h
        rw [if_neg e, if_neg hc] at h
        have := (enter_spec I h).2.2.1
        have := congrArg List.length this
        simp at this
  have low : ∀ v, v ≤ u → ∀ o ∈ os, subject o ≠ some v := by
    intro v hv o ho q
    have := (hos o ho).2 v q
    omega
  have hlt : u < t.keys.length := (List.getElem?_eq_some_iff.1 hu.1).1
  refine make_least J hk g (kp u k (low u (Nat.le_refl _)) hu.1) fun v hv => ?_
  by_contra hlt2
  have := hu.2 v (od v k (low v (by omega)) (by omega) hv)
  omega

/-- **C31.** Different types get different numbers: a number given out for one type is not answered for another type, however much
later, as long as nothing changed what the number stands for. -/
theorem C31_different_numbers (s : State) (R : Reachable no s) (k k' : Key) (kind kind' : Nat) (hc : kind ≠ cls) (hc' : kind' ≠ cls)
    (hp : Plain k) (hp' : Plain k') (hne : k ≠ k') (f g : Nat → Option Bool) (hl : s.keys.length < 65536)
    (t : State) (u : Nat) (h : makeUlamType s k kind f = some (t, u))
    (os : List Op) (hos : ∀ o ∈ os, Proper o ∧ subject o ≠ some u) (t' : State) (h2 : run t os = some t')
    (hl' : t'.keys.length < 65536) (t'' : State) (u' : Nat) (h3 : makeUlamType t' k' kind' g = some (t'', u')) : u ≠ u' := by
  obtain ⟨os0, P0, r0⟩ := R
  have R' : Reachable no t' := by
    refine ⟨os0 ++ .make k kind f :: os, ?_, ?_⟩
    · intro o ho
      rcases List.mem_append.1 ho with ho | ho
      · exact P0 o ho
      · rcases List.mem_cons.1 ho with rfl | ho
        · exact ⟨by simp [subject], fun a b q => by cases q⟩
        · exact (hos o ho).1
    · rw [run_append, r0]
      simp only [Option.bind_some, run, step, h]
      exact h2
  obtain ⟨t1, u1, e1, e2, _, _⟩ := C31_request_answers s ⟨os0, P0, r0⟩ k kind hc hp hl f
  rw [h] at e1; cases e1
  obtain ⟨t2, u2, e3, e4, _, e5⟩ := C31_request_answers t' R' k' kind' hc' hp' hl' g
  rw [h3] at e3; cases e3
  have J := (make_after (reachable_inv ⟨os0, P0, r0⟩) h).inv
  have q := e5 u k ((run_inv J (fun o ho => (hos o ho).1) h2).2.2.1 u k (fun o ho => (hos o ho).2) e2)
  rintro rfl
  unfold Denotes at q e4
  rw [q] at e4
  exact hne (Option.some.inj e4)

/-- **C31.** A number keeps its meaning over any history in which no operation was asked to change that number. -/
theorem C31_number_keeps_meaning (s : State) (R : Reachable no s) (u : Nat) (k : Key) (h : Denotes s u k)
    (os : List Op) (hos : ∀ o ∈ os, Proper o ∧ subject o ≠ some u) (t : State) (hr : run s os = some t) : Denotes t u k :=
  (run_inv (reachable_inv R) (fun o ho => (hos o ho).1) hr).2.2.1 u k (fun o ho => (hos o ho).2) h

/-- **C31.** Setting sizes leaves the number of a type with known sizes alone, unless it is asked to make a scalar into an
array. -/
theorem C31_sizes_settled (s : State) (u : Nat) (k : Key) (hu : Denotes s u k) (hk : Known k) (bits arr : Int) (t : State) (v : Nat)
    (h : setSizes s u bits arr false = some (t, v)) : t = s := by
  unfold setSizes at h
  rw [Option.bind_eq_some_iff] at h
  obtain ⟨p, hp, h⟩ := h
  have h1 := (typeByIndex_some hp).1
  unfold Denotes at hu
  rw [hu] at h1
  have e : p.1 = k := (Option.some.inj h1).symm
  have hco : complete p.1 = true := by
    have q1 := hk.1
    have q2 := hk.2
    rw [e]
    simp only [complete, unknownSize, Bool.not_eq_true', Bool.or_eq_false_iff, decide_eq_false_iff_not]
    exact ⟨decide_eq_false (by omega), decide_eq_false q2⟩
  split at h
  · cases h
  · rw [if_pos ⟨hco, rfl⟩] at h
    cases h; rfl

/-- **C31.** A request from a source token gives what the request with the signature gives, with the default size in place of none. -/
theorem C31_token_request (s : State) (R : Reachable no s) (k : Key) (kind : Nat) (hc : kind ≠ cls) (dflt : Int) (f : Nat → Option Bool) :
    makeFromToken s k kind dflt f = makeUlamType s { k with bits := if k.bits = 0 then dflt else k.bits } kind f := by
  have I := reachable_inv R
  have key : makeFromToken s k kind dflt f = (fun k' : Key =>
      if (isDefined s k').isNone ∨ k'.bits = unknownSize ∨ k'.arraySize = unknownSize then
        (makeUlamType s k' kind f).bind fun r => (findRoot r.1 7 r.2).map fun x => (r.1, x)
      else (anyDefinedUTI s k').map fun u => (s, u)) { k with bits := if k.bits = 0 then dflt else k.bits } := rfl
  rw [key]
  generalize ({ k with bits := if k.bits = 0 then dflt else k.bits } : Key) = k'
  dsimp only
  split
  · rename_i h
    cases e : makeUlamType s k' kind f with
    | none => rfl
    | some r =>
      obtain ⟨t, u⟩ := r
      simp only [Option.bind_some]
      have he : ¬ (k'.bits ≠ unknownSize ∧ k'.arraySize ≠ unknownSize ∧ (isDefined s k').isSome) := by
        rintro ⟨h1, h2, h3⟩
        rcases h with h | h | h
        · rw [Option.isNone_iff_eq_none] at h; rw [h] at h3; cases h3
        · exact h1 h
        · exact h2 h
      unfold makeUlamType at e
      dsimp only at e
      rw [if_neg he, if_neg hc] at e
      obtain ⟨J, hv, hk2, _, hr⟩ := enter_spec I e
      have : findRoot t 7 u = some u := by
        have : t.root[u]? = some u := by rw [hr, hv, I.len]; simp
        simp [findRoot, this]
      rw [this]; rfl
  · rename_i h
    simp only [not_or] at h
    unfold makeUlamType
    rw [if_pos ⟨h.2.1, h.2.2, Option.isSome_iff_ne_none.2 (by simpa using h.1)⟩]

/-- **C31.** There are 65536 numbers: once they are used up, a request for a type that has none stops the compiler. -/
theorem C31_limit (s : State) (R : Reachable no s) (hl : s.keys.length = 65536) (k : Key) (kind : Nat) (hc : kind ≠ cls)
    (hn : ∀ u, ¬ Denotes s u k) (f : Nat → Option Bool) : makeUlamType s k kind f = none := by
  have I := reachable_inv R
  cases h : makeUlamType s k kind f with
  | none => rfl
  | some r =>
    obtain ⟨t, u⟩ := r
    unfold makeUlamType at h
    dsimp only at h
    rw [if_neg (by rintro ⟨_, _, q⟩; rw [not_defined I hn] at q; cases q), if_neg hc] at h
    have := (enter_spec I h).2.2.2.1
    omega

/-- **C31** fails for a signature that is not that of a class and still has a class instance number (as made by
NodeTypeDescriptor.cpp:644, with the number of the type referred to): it is looked up with that number, stored without, and so each
request gives another number. -/
theorem C31_instance_number_fails (s : State) (R : Reachable no s) (k : Key) (kind : Nat) (hc : kind ≠ cls) (hp : ¬ Plain k)
    (hn : ∀ u, ¬ Denotes s u k) (hl : s.keys.length + 1 < 65536) (f : Nat → Option Bool) :
    ∃ t t' u u', makeUlamType s k kind f = some (t, u) ∧ makeUlamType t k kind f = some (t', u') ∧ u ≠ u' := by
  have I := reachable_inv R
  obtain ⟨t, h1, J, h2⟩ := make_new I (k := k) (kind := kind) (f := f) (by omega) (fun q => absurd q hc) (.inl (not_defined I hn))
  have hl2 : t.keys.length = s.keys.length + 1 := by rw [h2]; simp
  obtain ⟨t', h3, _, _⟩ := make_new J (k := k) (kind := kind) (f := f) (by omega) (fun q => absurd q hc) (.inl (not_defined J (by
    intro u hu
    rw [h2] at hu
    by_cases q : u < s.keys.length
    · rw [List.getElem?_append_left q] at hu; exact hn u hu
    · by_cases q2 : u = s.keys.length
      · subst q2
        have : storedAs k kind s.keys.length = k := by simpa using hu
        unfold storedAs at this
        rw [if_neg hc] at this
        exact hp (by rw [← this]; rfl)
      · rw [List.getElem?_eq_none (by simp; omega)] at hu; cases hu)))
  exact ⟨t, t', _, _, h1, h3, by omega⟩

/-! ### Examples, and where the full property fails -/

def demoNames (i : Nat) : Nat := i + 100
def demoNo : Key := ⟨100, 0, -1, 0, 0⟩
/-- After the basic types: an `Int` of unknown size (number 21), `Int(5)` (22), a holder (23). -/
def demoOps : List Op :=
  basicOps demoNames ++ [.make ⟨104, -2, -1, 0, 0⟩ 4 fun _ => none, .make ⟨104, 5, -1, 0, 0⟩ 4 fun _ => none, .holder]

theorem demo_reachable {os : List Op} (h : ∀ o ∈ os, Proper o) {s : State} (hr : run empty (basicOps demoNames ++ os) = some s) :
    Reachable demoNo s := by
  obtain ⟨s0, h1, _, ⟨os0, P0, r0⟩, _⟩ := C31_basic_numbers demoNames (fun i j _ _ => by unfold demoNames; omega)
  rw [run_append, h1, Option.bind_some] at hr
  refine ⟨os0 ++ os, fun o ho => ?_, ?_⟩
  · rcases List.mem_append.1 ho with ho | ho
    · exact P0 o ho
    · exact h o ho
  · unfold demoNo
    rw [run_append]
    have : (⟨demoNames 0, 0, -1, 0, 0⟩ : Key) = ⟨100, 0, -1, 0, 0⟩ := rfl
    rw [this] at r0
    rw [r0]; exact hr

/-- **C31** fails when the size of an earlier type becomes known: `Int(5)` has number 22; then the earlier `Int` of unknown size,
number 21, turns out to be `Int(5)`; from then on asking for `Int(5)` gives 21. Both numbers now stand for the same type. -/
theorem C31_same_number_fails : ∃ (s t : State) (os : List Op), Reachable demoNo s ∧ (∀ o ∈ os, Proper o) ∧ run s os = some t ∧
    makeUlamType s ⟨104, 5, -1, 0, 0⟩ 4 (fun _ => none) = some (s, 22) ∧
    makeUlamType t ⟨104, 5, -1, 0, 0⟩ 4 (fun _ => none) = some (t, 21) ∧ Denotes t 22 ⟨104, 5, -1, 0, 0⟩ := by
  obtain ⟨s, hs⟩ : ∃ s, run empty demoOps = some s := Option.isSome_iff_exists.1 (by decide +kernel)
  obtain ⟨t, ht⟩ : ∃ t, run s [.sizes 21 5 (-1) false] = some t := by
    have : ((run empty demoOps).bind fun s => run s [.sizes 21 5 (-1) false]).isSome := by decide +kernel
    rw [hs] at this
    exact Option.isSome_iff_exists.1 this
  have k1 : (run empty demoOps).all (fun s => makeUlamType s ⟨104, 5, -1, 0, 0⟩ 4 (fun _ => none) == some (s, 22)) = true := by
    decide +kernel
  have k2 : ((run empty demoOps).bind fun s => run s [.sizes 21 5 (-1) false]).all
      (fun s => makeUlamType s ⟨104, 5, -1, 0, 0⟩ 4 (fun _ => none) == some (s, 21) && s.keys[22]? == some ⟨104, 5, -1, 0, 0⟩) = true := by
    decide +kernel
  rw [hs] at k1 k2
  rw [Option.bind_some, ht] at k2
  simp only [Option.all_some, beq_iff_eq, Bool.and_eq_true] at k1 k2
  refine ⟨s, t, _, demo_reachable ?_ hs, ?_, ht, k1, k2.1, k2.2⟩
  · intro o ho
    simp only [List.mem_cons, List.not_mem_nil, or_false] at ho
    rcases ho with rfl | rfl | rfl <;> exact ⟨by simp [subject], fun a b q => by cases q⟩
  · intro o ho
    simp only [List.mem_cons, List.not_mem_nil, or_false] at ho
    subst ho
    exact ⟨by simp [subject], fun a b q => by cases q⟩

/-- The hypotheses of the theorems above are met: in the example, number 22 is `Int(5)` and stays so while a holder is made into
`Bool(3)`, and asking again gives 22; `Unsigned(5)` is another number. -/
example : ((run empty demoOps).bind fun s => run s [.fromHolder ⟨106, 3, -1, 0, 0⟩ 6 23 true, .holder]).any (fun t =>
    (makeUlamType t ⟨104, 5, -1, 0, 0⟩ 4 fun _ => none) == some (t, 22) && t.keys[23]? == some ⟨106, 3, -1, 0, 0⟩ &&
    ((makeUlamType t ⟨105, 5, -1, 0, 0⟩ 5 fun _ => none).map (·.2)) == some 25) = true := by decide +kernel

example : (∀ o ∈ [Op.fromHolder ⟨106, 3, -1, 0, 0⟩ 6 23 true, Op.holder], Proper o ∧ ∀ v, subject o = some v → 22 < v) ∧
    Known ⟨104, 5, -1, 0, 0⟩ ∧ Plain ⟨104, 5, -1, 0, 0⟩ ∧ ¬ Plain ⟨104, 32, -1, 4, 2⟩ := by
  refine ⟨?_, ⟨by decide, by decide⟩, rfl, fun h => by cases h⟩
  intro o ho
  simp only [List.mem_cons, List.not_mem_nil, or_false] at ho
  rcases ho with rfl | rfl
  · exact ⟨⟨by simp [subject], fun a b q => by cases q⟩, by simp [subject]⟩
  · exact ⟨⟨by simp [subject], fun a b q => by cases q⟩, by simp [subject]⟩

end Ulam.TypeTable
