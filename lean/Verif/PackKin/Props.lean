import Verif.Walker.Props
import Verif.PackKin.Spec
/-! # C149: packing a class and its ancestors -/
namespace Ulam.PackKin
open Walker Walker.Spec Spec
variable {n : Nat}

theorem packs_iff (i : Info n) (x : Fin n) : tryToPackAClass i x = .yes ↔ Packs i x := by
  unfold tryToPackAClass Packs
  cases i.complete x <;> cases i.sized x <;> simp

/-- The loop on the list of types met. -/
def packFold (w : World n) (i : Info n) : TBool → List (Fin n) → TBool × List (Fin n)
  | rt, [] => (rt, [])
  | rt, x :: l =>
    if w.defined x then
      if tryToPackAClass i x ≠ .yes then (tryToPackAClass i x, [x])
      else ((packFold w i rt l).1, x :: (packFold w i rt l).2)
    else packFold w i .no l

theorem packLoop_eq (w : World n) (i : Info n) (s : State n) : ∀ rt,
    packLoop w i rt s = packFold w i rt (sightings w false s) := by
  refine walk_induction w false (fun s => ∀ rt, packLoop w i rt s = packFold w i rt (sightings w false s)) ?_ ?_ s
  · intro s h rt
    rw [sightings_none h, packLoop.eq_def]
    split
    · rfl
    · rename_i h2; rw [h] at h2; cases h2
  · intro s r t h ih rt
    rw [sightings_some h, packLoop.eq_def]
    split
    · rename_i h2; rw [h] at h2; cases h2
    · rename_i h2
      rw [h] at h2; cases h2
      unfold packFold
      unfold after at ih ⊢
      cases hd : w.defined r
      · simp only [hd, Bool.false_eq_true, if_false] at ih ⊢
        exact ih _
      · simp only [hd, if_true] at ih ⊢
        rw [ih]

theorem fold_yes (w : World n) (i : Info n) (l : List (Fin n)) : ∀ rt,
    ((packFold w i rt l).1 = .yes ↔ rt = .yes ∧ ∀ x ∈ l, w.defined x = true ∧ Packs i x) := by
  induction l with
  | nil => intro rt; simp [packFold]
  | cons x l ih =>
    intro rt
    unfold packFold
    by_cases hd : w.defined x = true
    · rw [if_pos hd]
      by_cases hp : tryToPackAClass i x = .yes
      · rw [if_neg (fun q => q hp)]
        have := (packs_iff i x).1 hp
        simp [ih, hd, this]
      · rw [if_pos hp]
        exact ⟨fun q => absurd q hp, fun q => absurd ((packs_iff i x).2 (q.2 x (by simp)).2) hp⟩
    · rw [if_neg hd, ih]
      simp [hd]

theorem fold_all (w : World n) (i : Info n) (l : List (Fin n)) (h : ∀ x ∈ l, w.defined x = true → Packs i x) : ∀ rt,
    (packFold w i rt l).2 = l.filter (fun x => w.defined x) ∧
    ((packFold w i rt l).1 = rt ∨ (packFold w i rt l).1 = .no) := by
  induction l with
  | nil => intro rt; simp [packFold]
  | cons x l ih =>
    intro rt
    have ih := ih fun y hy => h y (by simp [hy])
    unfold packFold
    by_cases hd : w.defined x = true
    · have hp := (packs_iff i x).2 (h x (by simp) hd)
      rw [if_pos hd, if_neg (fun q => q hp), List.filter_cons_of_pos (by simpa using hd), (ih rt).1]
      exact ⟨rfl, (ih rt).2⟩
    · rw [if_neg hd, List.filter_cons_of_neg (by simpa using hd)]
      refine ⟨(ih .no).1, .inr ?_⟩
      rcases (ih .no).2 with q | q <;> exact q

theorem fold_stop (w : World n) (i : Info n) (l : List (Fin n)) (h : ∃ x ∈ l, w.defined x = true ∧ ¬ Packs i x) : ∀ rt,
    ∃ pre x, (packFold w i rt l).2 = pre ++ [x] ∧ (packFold w i rt l).1 = tryToPackAClass i x ∧
      x ∈ l ∧ w.defined x = true ∧ ¬ Packs i x ∧ ∀ y ∈ pre, y ∈ l ∧ w.defined y = true ∧ Packs i y := by
  induction l with
  | nil => obtain ⟨x, hx, _⟩ := h; cases hx
  | cons z l ih =>
    intro rt
    unfold packFold
    by_cases hd : w.defined z = true
    · rw [if_pos hd]
      by_cases hp : tryToPackAClass i z = .yes
      · rw [if_neg (fun q => q hp)]
        have hz := (packs_iff i z).1 hp
        obtain ⟨x, hx, h1, h2⟩ := h
        have hx' : x ∈ l := by
          rcases List.mem_cons.1 hx with rfl | q
          · exact absurd hz h2
          · exact q
        obtain ⟨pre, y, e1, e2, e3, e4, e5, e6⟩ := ih ⟨x, hx', h1, h2⟩ rt
        refine ⟨z :: pre, y, by rw [e1]; rfl, e2, by simp [e3], e4, e5, ?_⟩
        intro u hu
        rcases List.mem_cons.1 hu with rfl | q
        · exact ⟨by simp, hd, hz⟩
        · obtain ⟨f1, f2, f3⟩ := e6 u q
          exact ⟨by simp [f1], f2, f3⟩
      · rw [if_pos hp]
        exact ⟨[], z, rfl, rfl, by simp, hd, fun q => hp ((packs_iff i z).2 q), by simp⟩
    · rw [if_neg hd]
      obtain ⟨x, hx, h1, h2⟩ := h
      have hx' : x ∈ l := by
        rcases List.mem_cons.1 hx with rfl | q
        · exact absurd h1 hd
        · exact q
      obtain ⟨pre, y, e1, e2, e3, e4, e5, e6⟩ := ih ⟨x, hx', h1, h2⟩ .no
      refine ⟨pre, y, e1, e2, by simp [e3], e4, e5, fun u hu => ?_⟩
      obtain ⟨f1, f2, f3⟩ := e6 u hu
      exact ⟨by simp [f1], f2, f3⟩

theorem mem_kin {w : World n} (ok : Ok w) (c x : Fin n) :
    (x ∈ sightings w false (init w c) ∧ w.defined x = true) ↔ KinOf w c x := by
  have := mem_classes ok false c x
  unfold classes at this
  rw [List.mem_filter] at this
  exact this

theorem all_defined_iff {w : World n} (ok : Ok w) (c : Fin n) :
    (∀ x ∈ sightings w false (init w c), w.defined x = true) ↔ NoGaps w c := by
  constructor
  · intro h
    refine ⟨h _ ((mem_sightings w false c _).2 .refl), fun x hx e he => h _ ?_⟩
    have hm := ((mem_kin ok c x).2 hx).1
    rw [mem_sightings] at hm ⊢
    exact hm.tail ⟨hx.1, e, he, rfl⟩
  · rintro ⟨h1, h2⟩ x hx
    rw [mem_sightings] at hx
    cases hx with
    | refl => exact h1
    | tail hy e =>
      obtain ⟨hd, en, he, q⟩ := e
      have := h2 _ ((mem_kin ok c _).1 ⟨(mem_sightings w false c _).2 hy, hd⟩) en he
      rwa [q] at this

/-- **C149** (the part that holds). The answer is yes exactly when the class is complete, it and all its ancestors can be
packed, and no place in their tables of bases is empty or names an unknown class. Missing: that the answer is yes whenever
all can be packed, see `C149_answer_fails`. -/
theorem C149_answer_partial (w : World n) (ok : Ok w) (i : Info n) (c : Fin n) :
    (tryToPackAClassHierarchy w i c).1 = .yes ↔
      i.complete c = true ∧ (∀ x, KinOf w c x → Packs i x) ∧ NoGaps w c := by
  unfold tryToPackAClassHierarchy
  cases hc : i.complete c
  · simp
  · simp only [Bool.not_true, Bool.false_eq_true, if_false]
    rw [packLoop_eq, fold_yes, ← all_defined_iff ok]
    constructor
    · rintro ⟨_, h⟩
      exact ⟨trivial, fun x hx => (h x ((mem_kin ok c x).2 hx).1).2, fun x hx => (h x hx).1⟩
    · rintro ⟨_, h1, h2⟩
      exact ⟨rfl, fun x hx => ⟨h2 x hx, h1 x ((mem_kin ok c x).1 ⟨hx, h2 x hx⟩)⟩⟩

/-- **C149** (what does not hold). When the class or an ancestor has no superclass, as the one all classes descend from
has none, the answer is never yes, whatever could be packed. -/
theorem C149_answer_fails (w : World n) (ok : Ok w) (i : Info n) (c x : Fin n) (hx : KinOf w c x) (e : Entry n)
    (he : e ∈ w.table x) (hn : e.base = w.nouti) : (tryToPackAClassHierarchy w i c).1 ≠ .yes := by
  intro h
  have := ((C149_answer_partial w ok i c).1 h).2.2.2 x hx e he
  rw [hn, ok.no_class] at this
  cases this

/-- **C149.** When the class is complete and it and all its ancestors can be packed, each of them is packed once, and nothing
else; and the answer is yes or no, not that it is not known yet. -/
theorem C149_all_packed (w : World n) (ok : Ok w) (i : Info n) (c : Fin n) (hc : i.complete c = true)
    (h : ∀ x, KinOf w c x → Packs i x) :
    (tryToPackAClassHierarchy w i c).2.Nodup ∧
    (∀ x, x ∈ (tryToPackAClassHierarchy w i c).2 ↔ KinOf w c x) ∧
    (tryToPackAClassHierarchy w i c).1 ≠ .hazy := by
  unfold tryToPackAClassHierarchy
  simp only [hc, Bool.not_true, Bool.false_eq_true, if_false]
  rw [packLoop_eq]
  obtain ⟨h1, h2⟩ := fold_all w i (sightings w false (init w c)) (fun x hx hd => h x ((mem_kin ok c x).1 ⟨hx, hd⟩)) .yes
  rw [h1]
  refine ⟨classes_nodup w false c, fun x => mem_classes ok false c x, ?_⟩
  rcases h2 with q | q <;> rw [q] <;> decide

/-- **C149.** When some of them cannot be packed, those tried are packed up to the first that cannot be, which is a class of
the hierarchy, is the last one tried, and gives the answer. -/
theorem C149_stops (w : World n) (ok : Ok w) (i : Info n) (c : Fin n) (hc : i.complete c = true)
    (h : ∃ x, KinOf w c x ∧ ¬ Packs i x) :
    ∃ pre x, (tryToPackAClassHierarchy w i c).2 = pre ++ [x] ∧ KinOf w c x ∧ ¬ Packs i x ∧
      (∀ y ∈ pre, KinOf w c y ∧ Packs i y) ∧
      (tryToPackAClassHierarchy w i c).1 = (if i.complete x then i.packBits x else .hazy) := by
  unfold tryToPackAClassHierarchy
  simp only [hc, Bool.not_true, Bool.false_eq_true, if_false]
  rw [packLoop_eq]
  obtain ⟨z, hz, hp⟩ := h
  have hm := (mem_kin ok c z).2 hz
  obtain ⟨pre, x, e1, e2, e3, e4, e5, e6⟩ := fold_stop w i (sightings w false (init w c)) ⟨z, hm.1, hm.2, hp⟩ .yes
  refine ⟨pre, x, e1, (mem_kin ok c x).1 ⟨e3, e4⟩, e5, fun y hy => ?_, ?_⟩
  · obtain ⟨f1, f2, f3⟩ := e6 y hy
    exact ⟨(mem_kin ok c y).1 ⟨f1, f2⟩, f3⟩
  · rw [e2]
    unfold tryToPackAClass
    unfold Packs at e5
    cases hcx : i.complete x
    · simp
    · cases hs : i.sized x
      · simp [hcx, hs] at e5
      · simp

/-- **C149.** A class that is not complete is not packed, nor are its ancestors. -/
theorem C149_incomplete (w : World n) (i : Info n) (c : Fin n) (hc : i.complete c = false) :
    tryToPackAClassHierarchy w i c = (.hazy, []) := by
  unfold tryToPackAClassHierarchy
  simp [hc]

/-- In the diamond of C13: 2 is not complete, 4 has no size, 6 cannot be packed. -/
def someInfo : Info 8 := ⟨fun x => x ≠ 2, fun x => x ≠ 4, fun x => if x = 6 then .no else .yes⟩

/-- The same with class 2 complete. -/
def allInfo : Info 8 := ⟨fun _ => true, fun x => x ≠ 4, fun x => if x = 6 then .no else .yes⟩

example : tryToPackAClassHierarchy diamond allInfo 1 = (.no, [1, 2, 4, 3]) ∧
    tryToPackAClassHierarchy diamond allInfo 2 = (.yes, [2, 4]) ∧
    tryToPackAClassHierarchy diamond someInfo 1 = (.hazy, [1, 2]) ∧
    tryToPackAClassHierarchy diamond allInfo 6 = (.no, [6]) := by decide +kernel

/-- Class 1, which packs with all its ancestors, has no superclass. -/
example : Ok diamond ∧ KinOf diamond 1 1 ∧ (⟨0, 0⟩ : Entry 8) ∈ diamond.table 1 ∧ allInfo.complete 1 = true ∧
    (∀ x, KinOf diamond 1 x → Packs allInfo x) := by
  refine ⟨diamond_ok, ⟨by decide, .refl⟩, by decide, rfl, fun x hx => ?_⟩
  have h1 := (mem_kin diamond_ok 1 x).2 hx
  have h2 : ∀ y ∈ classes diamond false 1, tryToPackAClass allInfo y = .yes := by decide +kernel
  exact (packs_iff _ _).1 (h2 x (by unfold classes; rw [List.mem_filter]; exact h1))

example : ∃ x, KinOf diamond 1 x ∧ ¬ Packs someInfo x :=
  ⟨2, ⟨by decide, Relation.ReflTransGen.single ⟨by decide, ⟨2, 0⟩, by decide, by decide, by decide⟩⟩, fun h => by
    have := h.1; revert this; decide⟩

end Ulam.PackKin
