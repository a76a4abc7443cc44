import Verif.Related.Spec
import Verif.Layout.Props
/-! # C78: the generated class information -/
namespace Ulam.Related
open Ulam.Related.Spec Ulam.Walker Ulam.Walker.Spec Ulam.Layout Ulam.Layout.Spec
variable {n : Nat}

theorem toS32_small {q : Nat} (h : q < 2 ^ 31) : toS32 q = q := by
  unfold toS32
  rw [Nat.mod_eq_of_lt (by omega), if_pos h]

theorem packShared_direct (w : World n) (L : Fin n → Class) (c : Fin n) (bp : List (Option Nat)) (m : PosMap n) (off : Nat)
    (bs : List (Fin n)) (j i : Nat) (b : Fin n) (h : bs[j]? = some b) (hb : baseItem w c b = some i) :
    ((packShared w L c bp m off bs).1[j]?).join = (bp[i]?).join := by
  induction bs generalizing off j with
  | nil => simp at h
  | cons x bs ih =>
    cases j with
    | zero =>
      simp only [List.getElem?_cons_zero, Option.some.injEq] at h
      subst h
      simp only [packShared, hb, List.getElem?_cons_zero, Option.join_some]
    | succ j =>
      rw [List.getElem?_cons_succ] at h
      unfold packShared
      cases hx : baseItem w c x with
      | some k => simp only [List.getElem?_cons_succ]; exact ih _ _ h
      | none =>
        simp only
        cases hm : m x with
        | some k => simp only [List.getElem?_cons_succ]; exact ih _ _ h
        | none => simp only [List.getElem?_cons_succ]; exact ih _ _ h

/-- The place in the table of shared bases is the place the compiler's query gives. -/
theorem shared_position {w : World n} {L : Fin n → Class} (ok : Ok w) (ac : Acyclic w) (tb : Tables w L) {c : Fin n}
    (hc : IsClass w c) {p : Packed} (hp : pack w L c = some p) {P : Fin n → Option Packed} (hP : P c = some p) {j : Nat}
    {b : Fin n} (h : (sharedTable w c)[j]? = some b) : relativePosition w P c b = (p.shared[j]?).join := by
  have ha : Ancestor w c b := by
    have := (mem_sharedTable ok tb.shared c b).1 (List.mem_of_getElem? h)
    rwa [hc.deref, hc.root] at this
  obtain ⟨p1, p2, p3, p4, p5⟩ := anc_props tb ha
  have hne : ¬ c = b := by intro q; rw [← q] at ha; exact ac c ha
  unfold relativePosition
  rw [hc.deref, p2, hc.root, p1, if_neg hne, relLoop_found ok P c b (by rw [hc.root, p1]; exact ha), hc.root, hP]
  unfold pack at hp
  cases hb : packBases w L (packMembers (L c).isUnion 0 (L c).members).2 (fun _ => none) (w.table c) with
  | none => simp only [hb] at hp; cases hp
  | some r =>
    obtain ⟨bp, m, off⟩ := r
    simp only [hb, Option.some.injEq] at hp
    subst hp
    cases hi : baseItem w c b with
    | some i =>
      simp only [Option.bind_some]
      exact (packShared_direct w L c bp m off (sharedTable w c) j i b h hi).symm
    | none =>
      simp only
      have hj : sharedItem w c b = some j := by
        unfold sharedItem
        obtain ⟨hl, hv⟩ := List.getElem?_eq_some_iff.1 h
        rw [List.findIdx?_eq_some_iff_getElem]
        refine ⟨hl, ?_, ?_⟩
        · rw [hv]; exact decide_eq_true ⟨p3, rfl⟩
        · intro i hij
          simp only [decide_eq_true_iff]
          rintro ⟨_, q⟩
          have h3 := (anc_props tb (by
            have := (mem_sharedTable ok tb.shared c (sharedTable w c)[i]).1 (List.getElem_mem (by omega))
            rwa [hc.deref, hc.root] at this)).1
          rw [h3, p1, ← hv] at q
          exact absurd ((List.Nodup.getElem_inj_iff (sharedTable_nodup w c)).1 q) (by omega)
      rw [hj]
      rfl

theorem shared_iff {w : World n} {L : Fin n → Class} (ok : Ok w) (tb : Tables w L) {c : Fin n} (hc : IsClass w c) (b : Fin n) :
    b ∈ sharedTable w c ↔ Ancestor w c b := by
  rw [mem_sharedTable ok tb.shared, hc.deref, hc.root]

theorem related_nouti {w : World n} {L : Fin n → Class} (ok : Ok w) (tb : Tables w L) {c : Fin n} (hc : IsClass w c)
    (reg : Fin n → Nat) : related w reg c = (reg c, 0) :: (sharedTable w c).zipIdx.map fun x => (reg x.1, x.2 + 1) := by
  unfold related
  congr 2
  rw [List.filter_eq_self]
  intro x hx
  have h1 : x.1 ∈ sharedTable w c := by
    obtain ⟨b, i⟩ := x
    exact List.fst_mem_of_mem_zipIdx hx
  exact decide_eq_true (anc_props tb ((shared_iff ok tb hc x.1).1 h1)).2.2.1

/-- The case found for a number. -/
theorem lookup_related {w : World n} {L : Fin n → Class} (ok : Ok w) (ac : Acyclic w) (tb : Tables w L) {c : Fin n}
    (hc : IsClass w c) {reg : Fin n → Nat} (hr : Numbers w reg) (rn : Nat) :
    (rn = reg c ∧ (related w reg c).lookup rn = some 0) ∨
    (∃ j b, (sharedTable w c)[j]? = some b ∧ rn = reg b ∧ rn ≠ reg c ∧ (related w reg c).lookup rn = some (j + 1)) ∨
    ((∀ b, SelfOrAncestor w c b → rn ≠ reg b) ∧ (related w reg c).lookup rn = none) := by
  rw [related_nouti ok tb hc]
  by_cases h0 : rn = reg c
  · left; exact ⟨h0, by rw [h0]; simp⟩
  · right
    have hl : ((reg c, 0) :: (sharedTable w c).zipIdx.map fun x => (reg x.1, x.2 + 1)).lookup rn =
        ((sharedTable w c).zipIdx.map fun x => (reg x.1, x.2 + 1)).lookup rn := by
      rw [List.lookup_cons, beq_false_of_ne h0]
    rw [hl]
    have key : ∀ (l : List (Fin n)) (s : Nat), (∀ b ∈ l, rn ≠ reg b) ∧ ((l.zipIdx s).map fun x => (reg x.1, x.2 + 1)).lookup rn = none ∨
        ∃ j b, l[j]? = some b ∧ rn = reg b ∧ ((l.zipIdx s).map fun x => (reg x.1, x.2 + 1)).lookup rn = some (s + j + 1) := by
      intro l
      induction l with
      | nil => intro s; left; exact ⟨fun b h => absurd h (by simp), rfl⟩
      | cons x l ih =>
        intro s
        rw [List.zipIdx_cons, List.map_cons, List.lookup_cons]
        by_cases hx : rn = reg x
        · right
          refine ⟨0, x, rfl, hx, ?_⟩
          rw [hx]; simp
        · rw [beq_false_of_ne hx]
          rcases ih (s + 1) with ⟨h1, h2⟩ | ⟨j, b, h1, h2, h3⟩
          · left
            refine ⟨?_, h2⟩
            intro b hb
            rcases List.mem_cons.1 hb with rfl | hb
            · exact hx
            · exact h1 b hb
          · right
            exact ⟨j + 1, b, h1, h2, by rw [show s + (j + 1) + 1 = s + 1 + j + 1 by omega]; exact h3⟩
    rcases key (sharedTable w c) 0 with ⟨h1, h2⟩ | ⟨j, b, h1, h2, h3⟩
    · right
      refine ⟨?_, h2⟩
      intro b hb
      rcases (Relation.reflTransGen_iff_eq_or_transGen.1 hb) with rfl | hb
      · exact h0
      · exact h1 b ((shared_iff ok tb hc b).2 hb)
    · left
      exact ⟨j, b, h1, h2, h0, by rw [h3]; congr 1; omega⟩

theorem class_of {w : World n} {L : Fin n → Class} (tb : Tables w L) {c b : Fin n} (hc : IsClass w c)
    (h : SelfOrAncestor w c b) : IsClass w b := by
  rcases (Relation.reflTransGen_iff_eq_or_transGen.1 h) with rfl | h
  · exact hc
  · obtain ⟨p1, p2, _, p4, _⟩ := anc_props tb h
    exact ⟨p1, p2, p4⟩

/-- **C78.** The generated position of a class in an object of class `c`, asked by registration number: for the class itself
and for every ancestor, the place the layout gives it; for any other number, the answer "not found". -/
theorem C78_position (w : World n) (L : Fin n → Class) (ok : Ok w) (ac : Acyclic w) (tb : Tables w L) (c : Fin n)
    (hc : IsClass w c) (reg : Fin n → Nat) (hr : Numbers w reg) (P : Fin n → Option Packed) (hP : P c = pack w L c)
    (laid : Laid w P c (2 ^ 31)) (hp : (pack w L c).isSome = true) :
    (∀ b, SelfOrAncestor w c b → ∃ q : Nat, relativePosition w P c b = some q ∧ getRelPos w P reg c (reg b) = q) ∧
    ∀ rn, (∀ b, SelfOrAncestor w c b → rn ≠ reg b) → getRelPos w P reg c rn = -999999 := by
  obtain ⟨p, hp⟩ := Option.isSome_iff_exists.1 hp
  rw [hp] at hP
  constructor
  · intro b hb
    obtain ⟨q, h1, h2⟩ := laid b hb
    refine ⟨q, h1, ?_⟩
    unfold getRelPos
    have cb := class_of tb hc hb
    rcases lookup_related ok ac tb hc hr (reg b) with ⟨k1, k2⟩ | ⟨j, b', k1, k2, k3, k4⟩ | ⟨k1, _⟩
    · rw [k2]
      have := hr _ _ cb.defined hc.defined cb.root hc.root k1
      subst this
      have hz := (C15_query w ok P b b).1 rfl
      rw [h1] at hz
      cases hz
      rfl
    · rw [k4]
      have ha := (shared_iff ok tb hc b').1 (List.mem_of_getElem? k1)
      have cb' := class_of tb hc ha.to_reflTransGen
      have := hr _ _ cb.defined cb'.defined cb.root cb'.root k2
      subst this
      have hs := shared_position ok ac tb hc hp hP k1
      rw [h1] at hs
      simp only [casePosition, Nat.add_one_ne_zero, if_false, hP, Option.bind_some, Nat.add_sub_cancel, ← hs]
      exact toS32_small h2
    · exact absurd rfl (k1 b hb)
  · intro rn h
    unfold getRelPos
    rcases lookup_related ok ac tb hc hr rn with ⟨k1, k2⟩ | ⟨j, b', k1, k2, k3, k4⟩ | ⟨k1, k2⟩
    · exact absurd k1 (h c .refl)
    · exact absurd k2 (h b' ((shared_iff ok tb hc b').1 (List.mem_of_getElem? k1)).to_reflTransGen)
    · rw [k2]

/-- **C78.** The generated test for a related class: true exactly for the number of the class itself or of an ancestor. -/
theorem C78_is (w : World n) (L : Fin n → Class) (ok : Ok w) (ac : Acyclic w) (tb : Tables w L) (c : Fin n)
    (hc : IsClass w c) (reg : Fin n → Nat) (hr : Numbers w reg) (P : Fin n → Option Packed) (hP : P c = pack w L c)
    (laid : Laid w P c (2 ^ 31)) (hp : (pack w L c).isSome = true) (rn : Nat) :
    isRelated w P reg c rn = true ↔ ∃ b, SelfOrAncestor w c b ∧ rn = reg b := by
  obtain ⟨h1, h2⟩ := C78_position w L ok ac tb c hc reg hr P hP laid hp
  unfold isRelated
  rw [decide_eq_true_iff]
  constructor
  · intro h
    by_contra q
    rw [h2 rn fun b hb e => q ⟨b, hb, e⟩] at h
    omega
  · rintro ⟨b, hb, rfl⟩
    obtain ⟨q, _, h3⟩ := h1 b hb
    rw [h3]; omega

/-- **C78.** The generated test for a direct base: true exactly for the number of a declared base. -/
theorem C78_direct (w : World n) (L : Fin n → Class) (ok : Ok w) (ac : Acyclic w) (tb : Tables w L) (c : Fin n)
    (hc : IsClass w c) (reg : Fin n → Nat) (hr : Numbers w reg) (rn : Nat) :
    isDirectBaseClass w reg c rn = true ↔ ∃ b, Base w c b ∧ rn = reg b := by
  unfold isDirectBaseClass
  have back : ∀ b, Base w c b → Ancestor w c b := fun b h => .single h
  rcases lookup_related ok ac tb hc hr rn with ⟨k1, k2⟩ | ⟨j, b', k1, k2, k3, k4⟩ | ⟨k1, k2⟩
  · rw [k2]
    simp only [Bool.false_eq_true, false_iff]
    rintro ⟨b, hb, e⟩
    have cb := class_of tb hc (back b hb).to_reflTransGen
    have := hr _ _ cb.defined hc.defined cb.root hc.root (e.symm.trans k1)
    subst this
    exact ac b (back b hb)
  · rw [k4]
    simp only [k1]
    have ha := (shared_iff ok tb hc b').1 (List.mem_of_getElem? k1)
    have cb' := class_of tb hc ha.to_reflTransGen
    rw [baseItem_isSome c b' hc.defined, cb'.root]
    constructor
    · intro h; exact ⟨b', h, k2⟩
    · rintro ⟨b, hb, e⟩
      have cb := class_of tb hc (back b hb).to_reflTransGen
      have := hr _ _ cb.defined cb'.defined cb.root cb'.root (e.symm.trans k2)
      subst this
      exact hb
  · rw [k2]
    simp only [Bool.false_eq_true, false_iff]
    rintro ⟨b, hb, e⟩
    exact k1 b (back b hb).to_reflTransGen e

theorem direct_iff {w : World n} {L : Fin n → Class} (tb : Tables w L) {c : Fin n} (hc : IsClass w c) (b : Fin n) :
    b ∈ ((w.table c).map (·.base)).filter (fun b => decide (b ≠ w.nouti)) ↔ Base w c b := by
  rw [List.mem_filter, List.mem_map, decide_eq_true_iff]
  constructor
  · rintro ⟨⟨e, he, rfl⟩, h⟩
    exact ⟨hc.defined, e, he, h, tb.rooted c e he⟩
  · rintro ⟨_, e, he, h1, h2⟩
    rw [tb.rooted c e he] at h2
    subst h2
    exact ⟨⟨e, he, rfl⟩, h1⟩

/-- **C78.** The generated enumeration of bases: its first entry is the class itself, the next ones are exactly the declared
bases, up to the generated number of direct bases; all entries are exactly the class and its ancestors, each once, and their
number is the generated number of bases; beyond that the answer is "none". -/
theorem C78_ordered (w : World n) (L : Fin n → Class) (ok : Ok w) (ac : Acyclic w) (tb : Tables w L) (c : Fin n)
    (hc : IsClass w c) (nd : NoDuplicates w c) :
    getOrderedBaseClass w c 0 = some c ∧
    (∀ b, Base w c b ↔ ∃ i, 0 < i ∧ i < numberOfDirectBases w c ∧ getOrderedBaseClass w c i = some b) ∧
    (∀ b, SelfOrAncestor w c b ↔ ∃ i, getOrderedBaseClass w c i = some b) ∧
    (∀ i j b, getOrderedBaseClass w c i = some b → getOrderedBaseClass w c j = some b → i = j) ∧
    ∀ i, (getOrderedBaseClass w c i).isSome = true ↔ i < numberOfBases w c := by
  unfold getOrderedBaseClass orderedBases numberOfDirectBases numberOfBases
  generalize hD : (((w.table c).map (·.base)).filter fun b => decide (b ≠ w.nouti)) = D
  generalize hS : ((sharedTable w c).filter fun b => (baseItem w c b).isNone) = S
  have dN : D.Nodup := by rw [← hD]; exact nd
  have dM : ∀ b, b ∈ D ↔ Base w c b := by intro b; rw [← hD]; exact direct_iff tb hc b
  have sM : ∀ b, b ∈ S ↔ Ancestor w c b ∧ ¬ Base w c b := by
    intro b
    rw [← hS, List.mem_filter, shared_iff ok tb hc]
    constructor
    · rintro ⟨h1, h2⟩
      refine ⟨h1, ?_⟩
      have cb := class_of tb hc h1.to_reflTransGen
      have := baseItem_isSome c b hc.defined
      rw [cb.root] at this
      rw [← this]
      cases hb : baseItem w c b <;> simp [hb] at h2 ⊢
    · rintro ⟨h1, h2⟩
      refine ⟨h1, ?_⟩
      have cb := class_of tb hc h1.to_reflTransGen
      have := baseItem_isSome c b hc.defined
      rw [cb.root] at this
      rw [← this] at h2
      cases hb : baseItem w c b <;> simp [hb] at h2 ⊢
  have sN : S.Nodup := by rw [← hS]; exact (sharedTable_nodup w c).filter _
  have all : (D ++ S).Nodup := List.Nodup.append dN sN fun b h1 h2 => ((sM b).1 h2).2 ((dM b).1 h1)
  have mem : ∀ b, b ∈ D ++ S ↔ Ancestor w c b := by
    intro b
    rw [List.mem_append, dM, sM]
    constructor
    · rintro (h | h)
      · exact .single h
      · exact h.1
    · intro h
      by_cases hb : Base w c b
      · exact .inl hb
      · exact .inr ⟨h, hb⟩
  have whole : (c :: (D ++ S)).Nodup := List.nodup_cons.2 ⟨fun h => ac c ((mem c).1 h), all⟩
  have dLen : (((w.table c).filter fun e => decide (e.base ≠ w.nouti ∧ e.shared > 0)).length) = D.length := by
    rw [← hD, List.filter_map, List.length_map]
    congr 1
    apply List.filter_congr
    intro e he
    simp only [Function.comp, tb.shared c e he, and_true]
  have len : (c :: (D ++ S)).length = (sharedTable w c).length + 1 := by
    rw [List.length_cons]
    congr 1
    refine List.Perm.length_eq ((List.perm_ext_iff_of_nodup all (sharedTable_nodup w c)).2 fun b => ?_)
    rw [mem, shared_iff ok tb hc]
  rw [dLen, List.cons_append]
  refine ⟨rfl, ?_, ?_, ?_, ?_⟩
  · intro b
    rw [← dM, List.mem_iff_getElem?]
    constructor
    · rintro ⟨i, h⟩
      have hi : i < D.length := (List.getElem?_eq_some_iff.1 h).1
      exact ⟨i + 1, by omega, by omega, by rw [List.getElem?_cons_succ, List.getElem?_append_left hi]; exact h⟩
    · rintro ⟨i, h1, h2, h3⟩
      obtain ⟨i, rfl⟩ : ∃ k, i = k + 1 := ⟨i - 1, by omega⟩
      rw [List.getElem?_cons_succ, List.getElem?_append_left (by omega)] at h3
      exact ⟨i, h3⟩
  · intro b
    rw [← List.mem_iff_getElem?, List.mem_cons, mem]
    unfold SelfOrAncestor Ancestor
    rw [Relation.reflTransGen_iff_eq_or_transGen]
  · intro i j b h1 h2
    obtain ⟨a1, a2⟩ := List.getElem?_eq_some_iff.1 h1
    obtain ⟨b1, b2⟩ := List.getElem?_eq_some_iff.1 h2
    exact (List.Nodup.getElem_inj_iff whole).1 (a2.trans b2.symm)
  · intro i
    rw [← len]
    simp

/-- The hypotheses about places hold for every layout of C15. -/
theorem laid_of_layout (w : World n) (L : Fin n → Class) (ok : Ok w) (ac : Acyclic w) (tb : Tables w L) (wf : ∀ x, Wf (L x))
    (c : Fin n) (hc : IsClass w c) (hu : (L c).isUnion = false) (nd : NoDuplicates w c) (bound : Nat) (hb : bound ≤ 2 ^ 32)
    (anc : List (Fin n)) (and : anc.Nodup) (hanc : ∀ a, a ∈ anc ↔ Ancestor w c a)
    (fit : ownBits (L c) + (anc.map fun a => ownBits (L a)).sum < bound) :
    (pack w L c).isSome = true ∧ ∀ P : Fin n → Option Packed, P c = pack w L c → Laid w P c bound := by
  obtain ⟨h1, p, h2, _, _, h3⟩ := C15_layout_partial w L ok ac tb wf c hc.root hc.deref hc.defined hu nd anc and hanc (by omega)
  refine ⟨by rw [h2]; rfl, fun P hP b hb => ?_⟩
  rcases (Relation.reflTransGen_iff_eq_or_transGen.1 hb) with rfl | ha
  · exact ⟨0, (C15_query w ok P b b).1 rfl, by omega⟩
  · obtain ⟨q, k1, _, k3⟩ := (h3 P (hP.trans h2)).2.2 b ha
    exact ⟨q, k1, by omega⟩

theorem vee_class (c : Fin 6) (h : c ≠ 0) : IsClass vee c := ⟨rfl, rfl, by simpa [vee] using h⟩

/-- Class 1 of the diamond: its parts 2, 3 and 4 are at 1, 3 and 6; registration numbers are 10 more than the type. -/
example : getRelPos vee (fun x => pack vee (veeClasses false) x) (fun x => x.val + 10) 1 14 = 6 ∧
    getRelPos vee (fun x => pack vee (veeClasses false) x) (fun x => x.val + 10) 1 15 = -999999 ∧
    isRelated vee (fun x => pack vee (veeClasses false) x) (fun x => x.val + 10) 1 12 = true ∧
    isDirectBaseClass vee (fun x => x.val + 10) 1 12 = true ∧ isDirectBaseClass vee (fun x => x.val + 10) 1 14 = false ∧
    (List.range 6).map (getOrderedBaseClass vee 1) = [some 1, some 2, some 3, some 4, none, none] ∧
    numberOfBases vee 1 = 4 ∧ numberOfDirectBases vee 1 = 3 := by decide +kernel

example : Numbers vee (fun x => x.val + 10) ∧ NoDuplicates vee 1 ∧ (pack vee (veeClasses false) 1).isSome = true ∧
    Laid vee (fun x => pack vee (veeClasses false) x) 1 (2 ^ 31) := by
  have h := laid_of_layout vee (veeClasses false) vee_ok vee_acyclic (vee_tables false) (vee_wf false) 1 (vee_class 1 (by decide)) rfl
    (by unfold NoDuplicates; decide) (2 ^ 31) (by decide) [2, 3, 4] (by decide) vee_anc (by decide)
  exact ⟨fun a b _ _ _ _ e => Fin.ext (by simpa using e), by unfold NoDuplicates; decide, h.1, h.2 _ rfl⟩

end Ulam.Related
