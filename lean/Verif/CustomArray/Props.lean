import Verif.CustomArray.Spec
/-! # C102: a subscript on an object of a class is a call of its function `aref` -/
namespace Ulam.CustomArray
open Ulam.CustomArray.Spec

/-- The first class of a list with a function `aref`. -/
def firstAref (l : List Tree) : Option Tree := l.find? fun x => decide (x.info.rets ≠ [])

theorem firstAref_append (a b : List Tree) : firstAref (a ++ b) = (firstAref a).or (firstAref b) := by
  unfold firstAref; rw [List.find?_append]

/-- The type from a class found, or none. -/
def typeOf (void : Nat) : Option Tree → CaType
  | none => .nouti
  | some x => returnLoop void x.info.rets none

theorem returnLoop_ne (void : Nat) (l : List Nat) (r : Option Nat) : returnLoop void l r ≠ .nouti := by
  induction l generalizing r with
  | nil => cases r <;> simp [returnLoop]
  | cons f l ih =>
    unfold returnLoop
    split
    · simp
    · cases r with
      | none => exact ih _
      | some t =>
        dsimp only
        split
        · exact ih _
        · simp

theorem typeOf_or (void : Nat) (a b : Option Tree) :
    typeOf void (a.or b) = match typeOf void a with | .nouti => typeOf void b | t => t := by
  cases a with
  | none => rfl
  | some x =>
    rw [Option.some_or]
    have : typeOf void (some x) ≠ .nouti := returnLoop_ne void _ _
    generalize typeOf void (some x) = y at this ⊢
    cases y <;> first | rfl | exact absurd rfl this

mutual
theorem typeFromGet_eq (void : Nat) : (t : Tree) → typeFromGet void t = typeOf void (firstAref (lineage t))
  | .node c i bases => by
    rw [typeFromGet, lineage, typeFromBases_eq void bases]
    unfold returnType firstAref
    by_cases h : i.rets = []
    · rw [if_pos h, List.find?_cons_of_neg (by simp [Tree.info, h])]
    · rw [if_neg h, List.find?_cons_of_pos (by simp [Tree.info, h])]
      have : returnLoop void i.rets none ≠ .nouti := returnLoop_ne void _ _
      unfold typeOf
      dsimp only [Tree.info]
      generalize returnLoop void i.rets none = y at this ⊢
      cases y <;> first | rfl | exact absurd rfl this
theorem typeFromBases_eq (void : Nat) : (l : List Tree) → typeFromBases void l = typeOf void (firstAref (lineages l))
  | [] => by rw [typeFromBases, lineages]; rfl
  | b :: l => by
    rw [typeFromBases, lineages, firstAref_append, typeOf_or, typeFromGet_eq void b, typeFromBases_eq void l]
    cases typeOf void (firstAref (lineage b)) <;> rfl
end

theorem returnLoop_type (void : Nat) (l : List Nat) (t u : Nat) :
    returnLoop void l (some u) = .type t ↔ t = u ∧ ∀ r ∈ l, r = t ∧ r ≠ void := by
  induction l generalizing u with
  | nil => simp [returnLoop, eq_comm]
  | cons f l ih =>
    unfold returnLoop
    by_cases h : f = void
    · rw [if_pos h]
      constructor
      · intro z; cases z
      · rintro ⟨-, z⟩; exact absurd h (z f (by simp)).2
    · rw [if_neg h]
      dsimp only
      by_cases e : u = f
      · rw [if_pos e, ih]
        subst e
        simp only [List.forall_mem_cons]
        constructor
        · rintro ⟨rfl, z⟩; exact ⟨rfl, ⟨rfl, h⟩, z⟩
        · rintro ⟨rfl, -, z⟩; exact ⟨rfl, z⟩
      · rw [if_neg e]
        constructor
        · intro z; cases z
        · rintro ⟨rfl, z⟩; exact absurd (z f (by simp)).1.symm e

theorem returnLoop_returns (void : Nat) (i : Info) (t : Nat) (h : i.rets ≠ []) :
    returnLoop void i.rets none = .type t ↔ Returns void i t := by
  unfold Returns
  cases e : i.rets with
  | nil => exact absurd e h
  | cons f l =>
    unfold returnLoop
    by_cases hv : f = void
    · rw [if_pos hv]
      constructor
      · intro z; cases z
      · rintro ⟨-, z1, z2⟩; exact absurd (hv ▸ (z2 f (by simp)).symm) z1
    · rw [if_neg hv, returnLoop_type]
      constructor
      · rintro ⟨rfl, z⟩
        refine ⟨by simp, hv, fun r hr => ?_⟩
        rcases List.mem_cons.1 hr with rfl | hr
        · rfl
        · exact (z r hr).1
      · rintro ⟨-, z1, z2⟩
        have := z2 f (by simp)
        subst this
        exact ⟨rfl, fun r hr => ⟨z2 r (List.mem_cons_of_mem _ hr), fun q => z1 (by rw [← z2 r (List.mem_cons_of_mem _ hr)]; exact q)⟩⟩

/-- **C102.** The type of an item is the type all functions `aref` of the nearest class with such functions return. -/
theorem C102_item_type (void : Nat) (t : Tree) (ty : Nat) :
    typeFromGet void t = .type ty ↔ ∃ pre x post, lineage t = pre ++ x :: post ∧ (∀ y ∈ pre, y.info.rets = []) ∧
      Returns void x.info ty := by
  rw [typeFromGet_eq]
  unfold firstAref
  constructor
  · intro h
    cases e : (lineage t).find? fun x => decide (x.info.rets ≠ []) with
    | none => rw [e] at h; cases h
    | some x =>
      rw [e] at h
      obtain ⟨h1, a, b, h2, h3⟩ := List.find?_eq_some_iff_append.1 e
      have h1 : x.info.rets ≠ [] := by simpa using h1
      exact ⟨a, x, b, h2, fun y hy => by simpa using h3 y hy, (returnLoop_returns void x.info ty h1).1 h⟩
  · rintro ⟨a, x, b, h2, h3, h4⟩
    have : (lineage t).find? (fun x => decide (x.info.rets ≠ [])) = some x :=
      List.find?_eq_some_iff_append.2 ⟨by simpa using h4.1, a, b, h2, fun y hy => by simpa using h3 y hy⟩
    rw [this]
    exact (returnLoop_returns void x.info ty h4.1).2 h4

mutual
theorem isCustomArray_eq : (t : Tree) → isCustomArray t = (lineage t).any fun x => decide (x.info.rets ≠ [])
  | .node c i bases => by
    rw [isCustomArray, lineage, List.any_cons, customBases_eq bases]
    by_cases h : i.rets = [] <;> simp [Tree.info, h]
theorem customBases_eq : (l : List Tree) → customBases l = (lineages l).any fun x => decide (x.info.rets ≠ [])
  | [] => by rw [customBases, lineages]; rfl
  | b :: l => by rw [customBases, lineages, List.any_append, isCustomArray_eq b, customBases_eq l]
end

/-- **C102.** A class counts as a custom array exactly when it or an ancestor has a function `aref`, and then there is an answer
to what type an item has: the subscript never waits for one that will not come. -/
theorem C102_custom_iff (void : Nat) (t : Tree) :
    (isCustomArray t = true ↔ ∃ x ∈ lineage t, x.info.rets ≠ []) ∧
    (isCustomArray t = true ↔ typeFromGet void t ≠ .nouti) ∧ subscript void t ≠ .hazy := by
  have h1 : isCustomArray t = true ↔ ∃ x ∈ lineage t, x.info.rets ≠ [] := by
    rw [isCustomArray_eq, List.any_eq_true]
    simp
  have h2 : isCustomArray t = true ↔ typeFromGet void t ≠ .nouti := by
    rw [h1, typeFromGet_eq]
    unfold firstAref
    cases e : (lineage t).find? fun x => decide (x.info.rets ≠ []) with
    | none =>
      constructor
      · rintro ⟨x, hx, h⟩; exact absurd (decide_eq_true h) (List.find?_eq_none.1 e x hx)
      · intro h; exact absurd rfl h
    | some x =>
      constructor
      · intro _; exact returnLoop_ne void _ _
      · intro _; exact ⟨x, List.mem_of_find?_eq_some e, by simpa using List.find?_some e⟩
  refine ⟨h1, h2, ?_⟩
  unfold subscript
  split
  · simp
  · rename_i q
    rw [Decidable.not_not] at q
    have := h2.1 q
    split
    · simp
    · simp
    · rename_i z; exact absurd z this
    · split
      · simp
      · split <;> simp

/-! ## Which function -/

mutual
theorem matchCount_eq : (t : Tree) → matchCount t = ((providers t).map fun x => x.info.hits).sum
  | .node c i bases => by
    rw [matchCount, providers, matchBases_eq bases]
    by_cases h : i.hits = 0
    · rw [if_pos h, if_neg (by omega)]
    · rw [if_neg h, if_pos (by omega)]; simp [Tree.info]
theorem matchBases_eq : (l : List Tree) → matchBases l = ((providersOf l).map fun x => x.info.hits).sum
  | [] => by rw [matchBases, providersOf]; rfl
  | b :: l => by rw [matchBases, providersOf, List.map_append, List.sum_append, matchCount_eq b, matchBases_eq l]
end

mutual
theorem providers_pos : (t : Tree) → ∀ x ∈ providers t, x.info.hits > 0
  | .node c i bases => by
    rw [providers]
    split
    · rename_i h; intro x hx; rw [List.mem_singleton] at hx; rw [hx]; exact h
    · exact providersOf_pos bases
theorem providersOf_pos : (l : List Tree) → ∀ x ∈ providersOf l, x.info.hits > 0
  | [] => by rw [providersOf]; intro x hx; cases hx
  | b :: l => by
    rw [providersOf]
    intro x hx
    rcases List.mem_append.1 hx with hx | hx
    · exact providers_pos b x hx
    · exact providersOf_pos l x hx
end

theorem sum_one (l : List Tree) (h : ∀ x ∈ l, x.info.hits > 0) :
    (l.map fun x => x.info.hits).sum = 1 ↔ ∃ p, l = [p] ∧ p.info.hits = 1 := by
  cases l with
  | nil => simp
  | cons a l =>
    cases l with
    | nil => simp
    | cons b l =>
      have h1 := h a (by simp)
      have h2 := h b (by simp)
      simp only [List.map_cons, List.sum_cons]
      constructor
      · intro z; omega
      · rintro ⟨p, z, -⟩; cases z

/-- **C102.** The subscript becomes a call exactly when an item has a type and a single way leads to a single function. -/
theorem C102_call_iff (void : Nat) (t : Tree) :
    subscript void t = .call ↔ (∃ ty, typeFromGet void t = .type ty) ∧ ∃ p, providers t = [p] ∧ p.info.hits = 1 := by
  have hc := (C102_custom_iff void t).2.1
  rw [← sum_one _ (providers_pos t), ← matchCount_eq]
  unfold subscript
  by_cases c : isCustomArray t = true
  · rw [if_neg (by simp [c])]
    cases e : typeFromGet void t with
    | nouti => exact absurd e (hc.1 c)
    | nav => simp
    | abort => simp
    | type ty =>
      dsimp only
      by_cases h0 : matchCount t = 0
      · rw [if_pos h0]; simp [h0]
      · rw [if_neg h0]
        by_cases h1 : matchCount t > 1
        · rw [if_pos h1]
          constructor
          · intro z; cases z
          · rintro ⟨-, z⟩; omega
        · rw [if_neg h1]
          exact ⟨fun _ => ⟨⟨ty, rfl⟩, by omega⟩, fun _ => rfl⟩
  · rw [if_pos c]
    constructor
    · intro z; cases z
    · rintro ⟨⟨ty, z⟩, -⟩
      exact absurd (hc.2 (by rw [z]; simp)) c

/-- **C102.** When no class is inherited twice, the subscript becomes a call exactly when an item has a type and one class
provides one function for the argument. Missing: classes inherited twice, see below. -/
theorem C102_call_partial (void : Nat) (t : Tree) (hn : ((providers t).map Tree.cls).Nodup) :
    subscript void t = .call ↔ (∃ ty, typeFromGet void t = .type ty) ∧ OneProvider t := by
  rw [C102_call_iff]
  unfold OneProvider
  refine and_congr_right fun _ => ?_
  constructor
  · rintro ⟨p, h, h1⟩
    exact ⟨p, by rw [h]; simp, h1, by rw [h]; simp⟩
  · rintro ⟨p, hp, h1, h2⟩
    cases e : providers t with
    | nil => rw [e] at hp; cases hp
    | cons a l =>
      cases l with
      | nil =>
        rw [e, List.mem_singleton] at hp
        exact ⟨p, by rw [hp], h1⟩
      | cons b l =>
        exfalso
        have ha := h2 a (by rw [e]; simp)
        have hb := h2 b (by rw [e]; simp)
        rw [e] at hn
        simp only [List.map_cons, List.nodup_cons, List.mem_cons, not_or] at hn
        exact hn.1.1 (ha.trans hb.symm)

def bare : Info := ⟨[], 0, 0, false, false⟩
/-- `Int aref(Int)`. -/
def shelf : Tree := .node 5 ⟨[3], 1, 3, false, false⟩ []
/-- Two classes that share the base `shelf`, and a class with both as bases. -/
def joined : Tree := .node 1 bare [.node 2 bare [shelf], .node 3 bare [shelf]]

/-- **C102.** A function inherited by two ways from one class is counted twice and called ambiguous. -/
theorem C102_shared_base_fails : ¬ ∀ (void : Nat) (t : Tree), (∃ ty, typeFromGet void t = .type ty) → OneProvider t →
    subscript void t = .call := by
  intro h
  have e : providers joined = [shelf, shelf] := by rfl
  have := h 4 joined ⟨3, by decide +kernel⟩ ⟨shelf, by rw [e]; simp, rfl, by rw [e]; simp⟩
  exact absurd this (by decide +kernel)

/-- One of the two alone is fine. -/
example : subscript 4 (.node 2 bare [shelf]) = .call ∧ subscript 4 joined = .ambiguous ∧
    typeFromGet 4 (.node 2 bare [shelf]) = .type 3 := by decide +kernel

/-! ## The check -/

theorem checkGetsLoop_ge (void : Nat) (l : List Nat) (s : Option Nat) (p : Nat) : p ≤ (checkGetsLoop void l s p).1 := by
  induction l generalizing s p with
  | nil => exact Nat.le_refl _
  | cons f l ih =>
    unfold checkGetsLoop
    split
    · exact Nat.le_trans (Nat.le_succ _) (ih _ _)
    · cases s with
      | none => exact ih _ _
      | some x =>
        dsimp only
        split
        · exact Nat.le_trans (Nat.le_succ _) (ih _ _)
        · exact ih _ _

theorem checkGetsLoop_zero (void : Nat) (l : List Nat) (s : Nat) :
    ((checkGetsLoop void l (some s) 0).1 = 0 ↔ ∀ r ∈ l, r = s ∧ r ≠ void) ∧
    ((checkGetsLoop void l (some s) 0).1 = 0 → (checkGetsLoop void l (some s) 0).2 = some s) := by
  induction l with
  | nil => simp [checkGetsLoop]
  | cons f l ih =>
    unfold checkGetsLoop
    have ge := fun s => checkGetsLoop_ge void l s (0 + 1)
    by_cases h : f = void
    · rw [if_pos h]
      have := ge (some f)
      refine ⟨⟨fun z => by omega, fun z => absurd h (z f (by simp)).2⟩, fun z => by omega⟩
    · rw [if_neg h]
      dsimp only
      by_cases e : f = s
      · rw [if_neg (by simp [e])]
        subst e
        refine ⟨?_, ih.2⟩
        rw [ih.1]
        simp [h]
      · rw [if_pos e]
        have := ge (some f)
        refine ⟨⟨fun z => by omega, fun z => absurd (z f (by simp)).1 e⟩, fun z => by omega⟩

theorem checkGets_fst (void : Nat) (l : List Nat) : (checkGets void l).1 = (checkGetsLoop void l none 0).1 := by
  unfold checkGets
  split <;> rename_i q <;> rw [q]

/-- **C102.** The check of the functions `aref` of a class counts no problem exactly when they all return the same type and it
is not `Void`, and the type it finds is the one subscripts are given. -/
theorem C102_check_iff (void : Nat) (i : Info) (h : i.rets ≠ []) :
    ((checkGets void i.rets).1 = 0 ↔ ∃ t, Returns void i t) ∧
    (∀ t, (checkGets void i.rets).2 = some t ↔ returnType void i = .type t) := by
  have key : (checkGets void i.rets).1 = 0 ↔ ∃ t, Returns void i t := by
    rw [checkGets_fst]
    unfold Returns
    cases e : i.rets with
    | nil => exact absurd e h
    | cons f l =>
      unfold checkGetsLoop
      by_cases hv : f = void
      · rw [if_pos hv]
        have := checkGetsLoop_ge void l (some f) (0 + 1)
        constructor
        · intro z; omega
        · rintro ⟨t, -, z1, z2⟩
          exact absurd (hv ▸ (z2 f (by simp)).symm) z1
      · rw [if_neg hv]
        dsimp only
        rw [(checkGetsLoop_zero void l f).1]
        constructor
        · intro z
          exact ⟨f, by simp, hv, by simpa using fun r hr => (z r hr).1⟩
        · rintro ⟨t, -, z1, z2⟩ r hr
          have a := z2 f (by simp)
          have b := z2 r (List.mem_cons_of_mem _ hr)
          exact ⟨b.trans a.symm, fun y => z1 (b ▸ y)⟩
  refine ⟨key, fun t => ?_⟩
  unfold returnType
  rw [if_neg h, returnLoop_returns void i t h]
  constructor
  · intro z
    have : (checkGets void i.rets).1 = 0 := by
      unfold checkGets at z ⊢
      split
      · rfl
      · rename_i q; rw [q] at z; cases z
    obtain ⟨u, hu⟩ := key.1 this
    have : (checkGets void i.rets).2 = some u := by
      obtain ⟨-, hv, hr⟩ := hu
      unfold checkGets
      cases e : i.rets with
      | nil => exact absurd e h
      | cons f l =>
        rw [e] at hr
        have hf := hr f (by simp)
        subst hf
        unfold checkGetsLoop
        rw [if_neg hv]
        dsimp only
        have hz := (checkGetsLoop_zero void l f).1.2
          (fun r hr' => ⟨hr r (List.mem_cons_of_mem _ hr'), fun y => hv (by rw [← hr r (List.mem_cons_of_mem _ hr')]; exact y)⟩)
        have hs := (checkGetsLoop_zero void l f).2 hz
        split
        · rename_i q; rw [q] at hs; exact hs
        · rename_i q; rw [q] at hz; cases hz
    rw [this] at z
    cases z
    exact hu
  · rintro ⟨-, hv, hr⟩
    unfold checkGets
    cases e : i.rets with
    | nil => exact absurd e h
    | cons f l =>
      rw [e] at hr
      have hf := hr f (by simp)
      subst hf
      unfold checkGetsLoop
      rw [if_neg hv]
      dsimp only
      have hz := (checkGetsLoop_zero void l f).1.2
        (fun r hr' => ⟨hr r (List.mem_cons_of_mem _ hr'), fun y => hv (by rw [← hr r (List.mem_cons_of_mem _ hr')]; exact y)⟩)
      have hs := (checkGetsLoop_zero void l f).2 hz
      split
      · rename_i q; rw [q] at hs; exact hs
      · rename_i q; rw [q] at hz; cases hz

example : checkGets 4 [3, 3] = (0, some 3) ∧ checkGets 4 [3, 5] = (1, none) ∧ checkGets 4 [4] = (1, none) := by decide +kernel

/-- **C102.** The messages about `aref` functions that return nothing or different types are never shown: a class has the check
fail and no error. -/
theorem C102_check_silent_fails : ¬ ∀ (void : Nat) (flag : Bool) (i : Info),
    (checkTypeFuncs void flag i).1 = false → (checkTypeFuncs void flag i).2 = [] → i.rets = [] := by
  intro h
  exact absurd (h 4 true ⟨[4], 1, 3, false, false⟩ (by decide +kernel) (by decide +kernel)) (by decide)

/-- **C102.** A subscript where the nearest class with functions `aref` has one that returns nothing, first, is not refused: the
compiler stops at a failed assertion. -/
theorem C102_void_aborts_fails (void : Nat) (t : Tree) (c : Nat) (i : Info) (b : List Tree) (l : List Nat) (ht : t = .node c i b)
    (hi : i.rets = void :: l) : subscript void t = .abort := by
  have hc : isCustomArray t = true := (C102_custom_iff void t).1.2 ⟨t, by rw [ht, lineage]; simp, by rw [ht, Tree.info, hi]; simp⟩
  have : typeFromGet void t = .abort := by
    rw [ht, typeFromGet]
    unfold returnType
    rw [if_neg (by rw [hi]; simp), hi]
    unfold returnLoop
    rw [if_pos rfl]
  unfold subscript
  rw [if_neg (by simp [hc]), this]

/-- **C102.** Every message of the check has its reason: a setter, or a flag without a function. -/
theorem C102_messages (void : Nat) (flag : Bool) (i : Info) :
    (.deprecatedSet ∈ (checkTypeFuncs void flag i).2 ↔ i.setter = true) ∧
    (.notFound ∈ (checkTypeFuncs void flag i).2 ↔ i.rets = [] ∧ flag = true) := by
  unfold checkTypeFuncs
  dsimp only
  by_cases h : i.rets = []
  · cases flag <;> cases e : i.setter <;> simp [h]
  · cases flag <;> cases e : i.setter <;> simp [h]

mutual
theorem hasLengthof_eq : (t : Tree) → hasLengthof t = (lineage t).any fun x => x.info.lengthof
  | .node c i bases => by
    rw [hasLengthof, lineage, List.any_cons, lengthofBases_eq bases]
    cases h : i.lengthof <;> simp [Tree.info, h]
theorem lengthofBases_eq : (l : List Tree) → lengthofBases l = (lineages l).any fun x => x.info.lengthof
  | [] => by rw [lengthofBases, lineages]; rfl
  | b :: l => by rw [lengthofBases, lineages, List.any_append, hasLengthof_eq b, lengthofBases_eq l]
end

/-- **C102.** A class has a length exactly when it or an ancestor has a function for it. -/
theorem C102_lengthof (t : Tree) : hasLengthof t = true ↔ ∃ x ∈ lineage t, x.info.lengthof = true := by
  rw [hasLengthof_eq, List.any_eq_true]

example : hasLengthof (.node 1 bare [.node 2 { bare with lengthof := true } []]) = true ∧ hasLengthof joined = false := by
  decide +kernel

end Ulam.CustomArray
