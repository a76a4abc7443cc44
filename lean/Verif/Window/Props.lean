import Verif.Window.Model
import Mathlib.Data.List.Nodup
import Mathlib.Tactic.ByContra
import Mathlib.Tactic.SplitIfs
/- Property C34: coordinates and storage of the event window. -/
namespace Ulam.Window

/-- The event window: within Manhattan distance 4. -/
def Diamond (c : Coord) : Prop := c.x.natAbs + c.y.natAbs ≤ 4

instance (c : Coord) : Decidable (Diamond c) := inferInstanceAs (Decidable (_ ≤ _))

/-- Within the square of width 9. -/
def Square (c : Coord) : Prop := -4 ≤ c.x ∧ c.x ≤ 4 ∧ -4 ≤ c.y ∧ c.y ≤ 4

theorem Diamond.square {c : Coord} (h : Diamond c) : Square c := by
  unfold Diamond at h; unfold Square; omega

/-- Property C34: index and coordinates determine each other. -/
theorem C34_index_round_trip (i : Nat) (h : i < 81) : coordToIndex (indexToCoord i) = i ∧ Square (indexToCoord i) := by
  have key : ∀ i < 81, coordToIndex (indexToCoord i) = i ∧ -4 ≤ (indexToCoord i).x ∧ (indexToCoord i).x ≤ 4 ∧
      -4 ≤ (indexToCoord i).y ∧ (indexToCoord i).y ≤ 4 := by decide +kernel
  exact key i h

/-- Property C34: and back. -/
theorem C34_coord_round_trip (c : Coord) (h : Square c) : indexToCoord (coordToIndex c) = c ∧ coordToIndex c < 81 := by
  obtain ⟨x, y⟩ := c
  unfold Square at h
  simp only at h
  have key : ∀ i < (9 : Nat), ∀ j < (9 : Nat), indexToCoord (coordToIndex ⟨(i : Int) - 4, (j : Int) - 4⟩) = ⟨(i : Int) - 4, (j : Int) - 4⟩ ∧
      coordToIndex ⟨(i : Int) - 4, (j : Int) - 4⟩ < 81 := by decide +kernel
  have := key (x + 4).toNat (by omega) (y + 4).toNat (by omega)
  rwa [show ((x + 4).toNat : Int) - 4 = x by omega, show ((y + 4).toNat : Int) - 4 = y by omega] at this

theorem sameKey_iff (a b : Coord) : sameKey a b = true ↔ a = b := by
  obtain ⟨x, y⟩ := a
  obtain ⟨u, v⟩ := b
  simp only [sameKey, less, Coord.mk.injEq]
  constructor
  · intro h
    by_contra hne
    revert h
    simp only [Bool.and_eq_true, Bool.not_eq_true']
    intro ⟨h1, h2⟩
    split_ifs at h1 h2 <;> first | omega | simp at h1 | simp at h2
  · rintro ⟨rfl, rfl⟩
    simp

/-- The keys of the map, in the order of insertion. -/
def keys {α} (m : Sites α) : List Coord := m.map (·.1)

theorem keys_insert {α} (m : Sites α) (c : Coord) (s : α) :
    keys (insert m c s) = if c ∈ keys m then keys m else keys m ++ [c] := by
  unfold insert
  have : (m.any fun e => sameKey e.1 c) = true ↔ c ∈ keys m := by
    simp only [List.any_eq_true, sameKey_iff, keys, List.mem_map]
  by_cases h : c ∈ keys m
  · rw [if_pos (this.mpr h), if_pos h]
  · rw [if_neg (fun h' => h (this.mp h')), if_neg h]
    simp [keys]

theorem keys_init {α} (atom : α) : ∀ (cs : List Coord) (m : Sites α), (keys m ++ cs).Nodup →
    keys (cs.foldl (fun m c => insert m c atom) m) = keys m ++ cs := by
  intro cs
  induction cs with
  | nil => intro m _; simp
  | cons c cs ih =>
    intro m h
    simp only [List.foldl_cons]
    have hc : c ∉ keys m := by
      intro hm
      rw [List.nodup_append] at h
      exact h.2.2 c hm c (by simp) rfl
    have hk := keys_insert m c atom
    rw [if_neg hc] at hk
    rw [ih _ (by rw [hk]; simpa using h), hk]
    simp

theorem initCoords_nodup : initCoords.Nodup := by decide +kernel

theorem initCoords_diamond : ∀ c ∈ initCoords, Diamond c := by decide +kernel

theorem mem_initCoords (c : Coord) : c ∈ initCoords ↔ Diamond c := by
  constructor
  · exact initCoords_diamond c
  · intro h
    obtain ⟨x, y⟩ := c
    unfold Diamond at h
    simp only at h
    have hx : -4 ≤ x ∧ x ≤ 4 := by omega
    have hy : -4 ≤ y ∧ y ≤ 4 := by omega
    have key : ∀ i < (9 : Nat), ∀ j < (9 : Nat), (((i : Int) - 4).natAbs + ((j : Int) - 4).natAbs ≤ 4) →
        (⟨(i : Int) - 4, (j : Int) - 4⟩ : Coord) ∈ initCoords := by decide +kernel
    have := key (x + 4).toNat (by omega) (y + 4).toNat (by omega) (by omega)
    rwa [show ((x + 4).toNat : Int) - 4 = x by omega, show ((y + 4).toNat : Int) - 4 = y by omega] at this

theorem keys_init_eq {α} (atom : α) : keys (init atom) = initCoords := by
  unfold init
  rw [keys_init atom initCoords [] (by simpa [keys] using initCoords_nodup)]
  simp [keys]

/-- Property C34: exactly the coordinates within distance 4 have a site, and there are 41 of them. -/
theorem C34_sites {α} (atom : α) : (keys (init atom)).length = 41 ∧ (keys (init atom)).Nodup ∧
    ∀ c, c ∈ keys (init atom) ↔ Diamond c := by
  rw [keys_init_eq]
  exact ⟨by decide +kernel, initCoords_nodup, mem_initCoords⟩

theorem getSite_some {α} (m : Sites α) (c : Coord) : (∃ v, getSite m c = some v) ↔ c ∈ keys m := by
  unfold getSite keys
  constructor
  · rintro ⟨v, h⟩
    rw [Option.map_eq_some_iff] at h
    obtain ⟨e, he, _⟩ := h
    have h1 := List.find?_some he
    have h2 := List.mem_of_find?_eq_some he
    rw [sameKey_iff] at h1
    rw [List.mem_map]
    exact ⟨e, h2, h1⟩
  · intro h
    rw [List.mem_map] at h
    obtain ⟨e, he, hc⟩ := h
    have : (m.find? fun e => sameKey e.1 c).isSome := by
      rw [List.find?_isSome]
      exact ⟨e, he, by rw [sameKey_iff]; exact hc⟩
    obtain ⟨f, hf⟩ := Option.isSome_iff_exists.mp this
    exact ⟨f.2, by rw [hf]; rfl⟩

theorem storeCoord_keys {α} (m : Sites α) (c : Coord) (v : α) : keys (storeCoord m c v).2 = keys m := by
  unfold storeCoord
  split
  · simp only [keys, List.map_map]
    apply List.map_congr_left
    intro e _
    simp only [Function.comp]
    split <;> rfl
  · rfl

theorem storeCoord_get {α} (m : Sites α) (c d : Coord) (v : α) :
    getSite (storeCoord m c v).2 d = if c = d then (if c ∈ keys m then some v else none) else getSite m d := by
  unfold storeCoord
  have hmem := getSite_some m c
  cases hg : getSite m c with
  | none =>
    simp only
    have hc : c ∉ keys m := fun h => by
      obtain ⟨v, hv⟩ := hmem.mpr h
      rw [hg] at hv; cases hv
    split
    · next h => subst h; simp [hc, hg]
    · rfl
  | some w =>
    simp only
    have hc : c ∈ keys m := hmem.mp ⟨w, hg⟩
    clear hmem
    rw [if_pos hc]
    unfold getSite at hg ⊢
    clear hc
    induction m with
    | nil => simp at hg
    | cons e m ih =>
      simp only [List.map_cons, List.find?_cons]
      simp only [List.find?_cons] at hg
      cases hec : sameKey e.1 c with
      | true =>
        simp only [if_true]
        rw [sameKey_iff] at hec
        cases hed : sameKey e.1 d with
        | true =>
          rw [sameKey_iff] at hed
          rw [if_pos (hec.symm.trans hed)]
          rfl
        | false =>
          have hcd : c ≠ d := fun h => by
            rw [← Bool.not_eq_true, sameKey_iff] at hed
            exact hed (hec.trans h)
          rw [if_neg hcd]
          simp only
          congr 1
          clear ih hg
          induction m with
          | nil => rfl
          | cons f m ih =>
            simp only [List.map_cons, List.find?_cons]
            cases hfc : sameKey f.1 c with
            | true =>
              have hfd : sameKey f.1 d = false := by
                rw [sameKey_iff] at hfc
                rw [← Bool.not_eq_true, sameKey_iff, hfc]
                exact hcd
              simp only [if_true, hfd]
              exact ih
            | false =>
              simp only [Bool.false_eq_true, if_false]
              cases hfd : sameKey f.1 d with
              | true => rfl
              | false => exact ih
      | false =>
        simp only [Bool.false_eq_true, if_false]
        simp only [hec] at hg
        have ih' := ih hg
        cases hed : sameKey e.1 d with
        | true =>
          have hcd : c ≠ d := fun h => by
            rw [sameKey_iff] at hed
            rw [← Bool.not_eq_true, sameKey_iff] at hec
            exact hec (hed.trans h.symm)
          rw [if_neg hcd]
        | false => exact ih'

/-- A window: the sites are those of `init`. -/
def IsWindow {α} (m : Sites α) : Prop := keys m = initCoords

theorem stores_window {α} : ∀ (ops : List (Nat × α)) (m m' : Sites α), IsWindow m → stores m ops = some m' → IsWindow m' := by
  intro ops
  induction ops with
  | nil =>
    intro m m' h hs
    simp only [stores, Option.some.injEq] at hs
    subst hs
    exact h
  | cons o ops ih =>
    obtain ⟨i, v⟩ := o
    intro m m' h hs
    simp only [stores, store] at hs
    cases hv : isValidSite i with
    | none => rw [hv] at hs; simp at hs
    | some c =>
      rw [hv] at hs
      simp only [Option.map_some] at hs
      refine ih _ m' ?_ hs
      unfold IsWindow
      rw [storeCoord_keys]
      exact h

theorem valid_of_diamond {c : Coord} (h : Diamond c) : isValidSite (coordToIndex c) = some c := by
  obtain ⟨h1, h2⟩ := C34_coord_round_trip c h.square
  have hv : isValidCoord c = true := by
    unfold Diamond at h
    simp only [isValidCoord, Bool.and_eq_true, decide_eq_true_eq]
    omega
  simp only [isValidSite, if_pos h2, h1, hv, if_true]

/-- Property C34: in a window after any number of stores, each coordinate within distance 4 has its own
storage: storing succeeds, reading gives what was stored, and no other coordinate is affected. -/
theorem C34_store_load {α} (atom nothing : α) (ops : List (Nat × α)) (m : Sites α)
    (hm : stores (init atom) ops = some m) (c : Coord) (hc : Diamond c) (v : α) :
    ∃ m', store m (coordToIndex c) v = some (true, m') ∧ load nothing m' (coordToIndex c) = some v ∧
      ∀ d, Diamond d → d ≠ c → load nothing m' (coordToIndex d) = load nothing m (coordToIndex d) := by
  have hw : IsWindow m := stores_window ops _ m (keys_init_eq atom) hm
  have hmem : c ∈ keys m := by rw [hw]; exact (mem_initCoords c).mpr hc
  refine ⟨(storeCoord m c v).2, ?_, ?_, fun d hd hdc => ?_⟩
  · simp only [store, valid_of_diamond hc, Option.map_some, Option.some.injEq]
    have : (storeCoord m c v).1 = true := by
      obtain ⟨w, hw⟩ := (getSite_some m c).mpr hmem
      simp only [storeCoord, hw]
    exact Prod.ext this rfl
  · simp only [load, valid_of_diamond hc, Option.map_some, storeCoord_get, if_true, if_pos hmem, Option.getD_some]
  · simp only [load, valid_of_diamond hd, Option.map_some, storeCoord_get, if_neg (Ne.symm hdc)]

/-- Property C34, the part of "exactly the coordinates within distance 4 are valid" that holds: all of
them are.  Missing: others are valid too, see `C34_corner_valid`. -/
theorem C34_valid_partial (c : Coord) (h : Diamond c) : isValidSite (coordToIndex c) = some c := valid_of_diamond h

/-- Property C34 fails: the test adds the coordinates without taking absolute values, so 61 of the 81
indexes pass it, 20 of them outside of the window. -/
theorem C34_corner_valid : ((List.range 81).filter fun i => (isValidSite i).isSome).length = 61 ∧
    ∃ c, ¬ Diamond c ∧ isValidSite (coordToIndex c) = some c :=
  ⟨by decide +kernel, ⟨4, -4⟩, by decide, by decide⟩

/-- At such an index a store reports failure and changes nothing, and a load gives the empty value. -/
theorem C34_corner_absent {α} (atom nothing : α) (ops : List (Nat × α)) (m : Sites α)
    (hm : stores (init atom) ops = some m) (c : Coord) (hc : ¬ Diamond c) (i : Nat) (hi : isValidSite i = some c) (v : α) :
    store m i v = some (false, m) ∧ load nothing m i = some nothing := by
  have hw : IsWindow m := stores_window ops _ m (keys_init_eq atom) hm
  have hmem : c ∉ keys m := by rw [hw, mem_initCoords]; exact hc
  have hg : getSite m c = none := by
    cases h : getSite m c with
    | none => rfl
    | some w => exact absurd ((getSite_some m c).mp ⟨w, h⟩) hmem
  constructor
  · simp only [store, hi, Option.map_some, storeCoord, hg]
  · simp only [load, hi, Option.map_some, hg, Option.getD_none]

/-- Property C34: the comparison the site map is ordered by is a strict total order on coordinates, as
`std::map` demands: otherwise sites could be lost or found twice. -/
theorem C34_site_order (a b c : Coord) : less a a = false ∧ (less a b = true → less b a = false) ∧
    (less a b = true → less b c = true → less a c = true) ∧ (less a b = true ∨ a = b ∨ less b a = true) := by
  have key : ∀ p q : Coord, less p q = true ↔ p.x < q.x ∨ p.x = q.x ∧ p.y < q.y := by
    intro p q
    unfold less
    split_ifs <;> simp <;> omega
  have hf : ∀ p q : Coord, less p q = false ↔ ¬ (p.x < q.x ∨ p.x = q.x ∧ p.y < q.y) := by
    intro p q; rw [← key]; simp
  have he : a = b ↔ a.x = b.x ∧ a.y = b.y := by cases a; cases b; simp
  rw [key, key, key, hf, hf, he]
  simp only [key]
  omega

section Examples
example : less ⟨1, 0⟩ ⟨0, 1⟩ = false ∧ less ⟨0, 1⟩ ⟨1, 0⟩ = true := by decide
example : coordToIndex ⟨0, 0⟩ = 40 ∧ coordToIndex ⟨4, 0⟩ = 36 ∧ indexToCoord 0 = ⟨4, 4⟩ := by decide
example : ((stores (init 0) [(40, 7), (36, 8)]).bind fun m => load 99 m 40) = some 7 := by decide +kernel
end Examples

end Ulam.Window
