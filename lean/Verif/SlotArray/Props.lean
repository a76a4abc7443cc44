import Verif.SlotArray.Spec
import Mathlib.Tactic.Common
/-! # Arrays with a slot for each item in the evaluator: property C145 -/
namespace Ulam.SlotArray
variable {α : Type}

theorem wrap16_id {i : Int} (h : -32768 ≤ i) (h' : i < 32768) : wrap16 i = i := by unfold wrap16; omega

theorem index_bounds {m : Mem α} {p : Ptr} {j : Int} (h : (m.frames p.place).length + m.cur p.place < 30000) (h0 : 0 ≤ index m p + j)
    (h1 : index m p + j ≤ (m.frames p.place).length) : wrap16 (p.slot + j) = p.slot + j := by
  unfold index at *
  apply wrap16_id <;> split at h0 <;> omega

/-- A step of a pointer that stays on the stack or just above it. -/
theorem increment_eq {m : Mem α} {p : Ptr} {j : Int} (h : (m.frames p.place).length + m.cur p.place < 30000) (h0 : 0 ≤ index m p + j)
    (h1 : index m p + j ≤ (m.frames p.place).length) : (increment m p j).1 = { p with slot := p.slot + j } := by
  simp [increment, index_bounds h h0 h1]

theorem index_step (m : Mem α) (p : Ptr) (j : Int) : index m { p with slot := p.slot + j } = index m p + j := by
  unfold index
  by_cases h : p.abs = true <;> simp [h]
  omega

theorem increment_ok {m : Mem α} {p : Ptr} {j : Int} (h : (m.frames p.place).length + m.cur p.place < 30000) (h0 : 0 < index m p + j)
    (h1 : index m p + j < (m.frames p.place).length) : (increment m p j).2 = true := by
  have hw := index_bounds h (by omega) (by omega : index m p + j ≤ _)
  have hs := index_step m p j
  unfold increment
  simp only [hw]
  rcases ha : p.abs with _ | _
  · rw [ha] at hs
    simp only [Bool.false_eq_true, if_false, decide_eq_true_eq]
    omega
  · have : index m p = p.slot := by unfold index; simp [ha]
    simp only [if_true, decide_eq_true_eq]
    omega

theorem target_at (m : Mem α) (p : Ptr) : target m p = at? m p.place (index m p) := rfl

theorem at_some {m : Mem α} {k : Place} {i : Int} (h0 : 0 ≤ i) (h1 : i < (m.frames k).length) : ∃ v, at? m k i = some v := by
  unfold at?
  rw [if_pos h0]
  exact ⟨_, List.getElem?_eq_getElem (by omega)⟩

theorem assign_spec {m : Mem α} {p : Ptr} {v : α} (h0 : 0 ≤ index m p) (h1 : index m p < (m.frames p.place).length) :
    ∃ m', assign m p v = some m' ∧ SameBut m m' p.place (index m p) 1 ∧ at? m' p.place (index m p) = some v := by
  refine ⟨{ m with frames := fun k => if k = p.place then (m.frames k).set (index m p).toNat v else m.frames k },
    by unfold assign; rw [if_pos ⟨h0, h1⟩], ⟨rfl, ?_, ?_⟩, ?_⟩
  · intro k; dsimp only; split <;> simp
  · intro k j hj
    unfold at?
    split
    · dsimp only
      split
      · rename_i hk
        rw [List.getElem?_set_ne]
        rcases hj with hj | hj
        · exact absurd hk hj
        · omega
      · rfl
    · rfl
  · unfold at?
    rw [if_pos h0]
    simp only [if_true]
    rw [List.getElem?_set_self (by omega)]

/-- Property C145, an item within the array is read from its slot. Missing: that no other is read (`C145_read_beyond`, `C145_read_negative_fails`). -/
theorem C145_read_partial (m : Mem α) (p : Ptr) (n : Nat) (h : Lies m p n) (i : Nat) (hi : i < n) :
    ∃ v, read m p n i = .ok v ∧ at? m p.place (index m p + i) = some v := by
  obtain ⟨h1, h2, h3⟩ := h
  obtain ⟨v, hv⟩ := at_some (m := m) (k := p.place) (i := index m p + i) (by omega) (by omega)
  refine ⟨v, ?_, hv⟩
  unfold read
  rw [if_neg (by omega), if_pos (increment_ok h3 (by omega) (by omega)), increment_eq h3 (by omega) (by omega), target_at, index_step, hv]

/-- Property C145, an item beyond the array is not read. -/
theorem C145_read_beyond (m : Mem α) (p : Ptr) (n : Nat) (i : Nat) (hi : n ≤ i) : read m p n i = .error := by
  unfold read; rw [if_pos (by omega)]

/-- Property C145, a store within the array changes this item and nothing else. Missing: that any other is refused (`C145_store_outside_fails`). -/
theorem C145_store_partial (m : Mem α) (p : Ptr) (n : Nat) (h : Lies m p n) (i : Nat) (hi : i < n) (v : α) :
    ∃ m', store m p i v = .ok m' ∧ SameBut m m' p.place (index m p + i) 1 ∧ at? m' p.place (index m p + i) = some v := by
  obtain ⟨h1, h2, h3⟩ := h
  obtain ⟨m', ha, hb, hc⟩ := assign_spec (m := m) (p := { p with slot := p.slot + i }) (v := v) (by rw [index_step]; omega)
    (by rw [index_step]; dsimp only; omega)
  rw [index_step] at hb hc
  refine ⟨m', ?_, hb, hc⟩
  unfold store place
  rw [if_pos (increment_ok h3 (by omega) (by omega)), increment_eq h3 (by omega) (by omega)]
  dsimp only
  rw [ha]

/-- Property C145 fails for stores outside of the array: whatever is in the slots after it, or before, is overwritten, and there is no error. -/
theorem C145_store_outside_fails (m : Mem α) (p : Ptr) (n : Nat) (h : Lies m p n) (i : Int) (_hi : i < 0 ∨ n ≤ i) (h0 : 0 < index m p + i)
    (h1 : index m p + i < (m.frames p.place).length) (v : α) :
    ∃ m', store m p i v = .ok m' ∧ at? m' p.place (index m p + i) = some v := by
  obtain ⟨-, -, h3⟩ := h
  obtain ⟨m', ha, hb, hc⟩ := assign_spec (m := m) (p := { p with slot := p.slot + i }) (v := v) (by rw [index_step]; omega)
    (by rw [index_step]; dsimp only; omega)
  rw [index_step] at hb hc
  refine ⟨m', ?_, hc⟩
  unfold store place
  rw [if_pos (increment_ok h3 (by omega) (by omega)), increment_eq h3 (by omega) (by omega)]
  dsimp only
  rw [ha]

/-- Property C145 fails for negative subscripts: what is in the slots before the array is read. -/
theorem C145_read_negative_fails (m : Mem α) (p : Ptr) (n : Nat) (h : Lies m p n) (i : Int) (hi : i < 0) (h0 : 0 < index m p + i) :
    ∃ v, read m p n i = .ok v ∧ at? m p.place (index m p + i) = some v := by
  obtain ⟨h1, h2, h3⟩ := h
  obtain ⟨v, hv⟩ := at_some (m := m) (k := p.place) (i := index m p + i) (by omega) (by omega)
  refine ⟨v, ?_, hv⟩
  unfold read
  rw [if_neg (by omega), if_pos (increment_ok h3 (by omega) (by omega)), increment_eq h3 (by omega) (by omega), target_at, index_step, hv]

theorem index_same {m m' : Mem α} (h : m'.cur = m.cur) (p : Ptr) : index m' p = index m p := by unfold index; rw [h]

/-- Apart from each other, or the same. -/
def Apart (m : Mem α) (n : Nat) (l r : Ptr) : Prop :=
  l.place ≠ r.place ∨ index m l + n ≤ index m r ∨ index m r + n ≤ index m l ∨ index m l = index m r

theorem copyLoop_spec : ∀ (k : Nat) (m : Mem α) (l r : Ptr), Lies m l k → Lies m r k → Apart m k l r →
    ∃ m', copyLoop k m l r = some m' ∧ SameBut m m' l.place (index m l) k ∧
      ∀ i : Nat, i < k → at? m' l.place (index m l + i) = at? m r.place (index m r + i)
  | 0, m, l, r, _, _, _ => ⟨m, rfl, ⟨rfl, fun _ => rfl, fun _ _ _ => rfl⟩, by omega⟩
  | k + 1, m, l, r, hl, hr, ha => by
    obtain ⟨l1, l2, l3⟩ := hl
    obtain ⟨r1, r2, r3⟩ := hr
    obtain ⟨v, hv⟩ := at_some (m := m) (k := r.place) (i := index m r) (by omega) (by omega)
    obtain ⟨m1, hm1, hs, hv1⟩ := assign_spec (m := m) (p := l) (v := v) (by omega) (by omega)
    obtain ⟨hc, hn, hk⟩ := hs
    have il := index_same hc l
    have ir := index_same hc r
    have nl := hn l.place
    have nr := hn r.place
    have el : (increment m1 l 1).1 = { l with slot := l.slot + 1 } := increment_eq (by rw [hc]; omega) (by omega) (by omega)
    have er : (increment m1 r 1).1 = { r with slot := r.slot + 1 } := increment_eq (by rw [hc]; omega) (by omega) (by omega)
    have jl := index_step m1 l 1
    have jr := index_step m1 r 1
    have cl : m1.cur l.place = m.cur l.place := by rw [hc]
    have cr : m1.cur r.place = m.cur r.place := by rw [hc]
    obtain ⟨m', h1, ⟨h2, h3, h4⟩, h5⟩ := copyLoop_spec k m1 { l with slot := l.slot + 1 } { r with slot := r.slot + 1 }
      ⟨by omega, by dsimp only; omega, by dsimp only; omega⟩ ⟨by omega, by dsimp only; omega, by dsimp only; omega⟩
      (by unfold Apart at ha ⊢; dsimp only; rcases ha with h | h | h | h
          · exact .inl h
          all_goals right; omega)
    refine ⟨m', ?_, ⟨h2.trans hc, fun k' => (h3 k').trans (hn k'), ?_⟩, ?_⟩
    · have okl : ((increment m1 l 1).2 || k == 0) = true := by
        rcases Nat.eq_zero_or_pos k with rfl | hp
        · simp
        · rw [increment_ok (by omega) (by omega) (by omega)]; rfl
      have okr : ((increment m1 r 1).2 || k == 0) = true := by
        rcases Nat.eq_zero_or_pos k with rfl | hp
        · simp
        · rw [increment_ok (by omega) (by omega) (by omega)]; rfl
      simp only [copyLoop, target_at, hv, Option.bind_some, hm1, okl, okr, Bool.and_self, if_true, el, er, h1]
    · intro k' j hj
      rw [h4 k' j (by dsimp only; rcases hj with h | h | h
                      · exact .inl h
                      all_goals right; omega), hk k' j (by rcases hj with h | h | h
                                                           · exact .inl h
                                                           all_goals right; omega)]
    · intro i hi
      rcases i with _ | i
      · rw [h4 l.place _ (by right; left; omega)]
        simpa [hv] using hv1
      · have h6 := h5 i (by omega)
        dsimp only at h6
        rw [show index m l + ((i + 1 : Nat) : Int) = index m1 { l with slot := l.slot + 1 } + i by omega, h6,
          show index m1 { r with slot := r.slot + 1 } + i = index m r + ((i + 1 : Nat) : Int) by omega]
        apply hk
        unfold Apart at ha
        rcases ha with h | h | h | h
        · exact .inl (Ne.symm h)
        all_goals right; omega

/-- Property C145, the copy of an array: its items are those of the other one before, nothing else is changed, and no assertion fails. -/
theorem C145_copy (m : Mem α) (n : Nat) (l r : Ptr) (hl : Lies m l n) (hr : Lies m r n)
    (ha : l.place ≠ r.place ∨ index m l + n ≤ index m r ∨ index m r + n ≤ index m l ∨ index m l = index m r) :
    ∃ m', copy m n l r = some m' ∧ SameBut m m' l.place (index m l) n ∧
      ∀ i : Nat, i < n → at? m' l.place (index m l + i) = at? m r.place (index m r + i) :=
  copyLoop_spec n m l r hl hr ha

/-- A frame with an array of two, and a variable above. -/
def ex : Mem Nat := ⟨fun | .stack => [9, 0, 5, 6, 7] | .evalReturn => [8, 3, 4], fun | .stack => 1 | .evalReturn => 0⟩
example : Lies ex ⟨false, .stack, 1⟩ 2 ∧ Lies ex ⟨false, .evalReturn, 1⟩ 2 := by
  unfold Lies; decide
example : read ex ⟨false, .stack, 1⟩ 2 1 = .ok 6 := by decide
example : ((copy ex 2 ⟨false, .stack, 1⟩ ⟨false, .evalReturn, 1⟩).map fun m => m.frames .stack) = some [9, 0, 3, 4, 7] := by decide
/-- `a[2] = 1` sets the variable. -/
example : (match store ex ⟨false, .stack, 1⟩ 2 1 with | .ok m => m.frames .stack | _ => []) = [9, 0, 5, 6, 1] := by decide
/-- `a[-1] = 1` sets the frame pointer. -/
example : (match store ex ⟨false, .stack, 1⟩ (-1) 1 with | .ok m => m.frames .stack | _ => []) = [9, 1, 5, 6, 7] := by decide

end Ulam.SlotArray
