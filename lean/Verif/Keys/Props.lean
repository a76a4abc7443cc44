import Verif.Keys.Model
import Mathlib.Tactic.SplitIfs
/-
C30: the order on type signatures is a strict total order whose equivalence is
equality, so a table indexed by it keeps types apart.
-/
namespace Ulam.Keys

/-- C30. Nothing is less than itself. -/
theorem C30_irreflexive (a : Key) : lt a a = false := by
  simp [lt]

/-- C30. The order is the lexicographic one on the five fields: less at the first field at which the
two signatures differ. -/
theorem C30_lexicographic (a b : Key) : lt a b = true ↔
    a.typeNameId < b.typeNameId ∨ a.typeNameId = b.typeNameId ∧
    (a.bits < b.bits ∨ a.bits = b.bits ∧
    (a.arraySize < b.arraySize ∨ a.arraySize = b.arraySize ∧
    (a.classInstanceIdx < b.classInstanceIdx ∨ a.classInstanceIdx = b.classInstanceIdx ∧
     a.referenceType < b.referenceType))) := by
  unfold lt
  split_ifs <;> simp <;> omega

/-- C30. Transitive. -/
theorem C30_transitive (a b c : Key) (h1 : lt a b = true) (h2 : lt b c = true) : lt a c = true := by
  rw [C30_lexicographic] at *
  omega

/-- C30. Total, and neither is less exactly when all five fields agree, which is what `==` tests. -/
theorem C30_total (a b : Key) :
    (lt a b = true ∨ a = b ∨ lt b a = true) ∧
    ((lt a b = false ∧ lt b a = false) ↔ a = b) ∧ (eq a b = true ↔ a = b) ∧ ¬ (lt a b = true ∧ lt b a = true) := by
  have hext : a = b ↔ a.typeNameId = b.typeNameId ∧ a.bits = b.bits ∧ a.arraySize = b.arraySize ∧
      a.classInstanceIdx = b.classInstanceIdx ∧ a.referenceType = b.referenceType := by
    obtain ⟨a1, a2, a3, a4, a5⟩ := a
    obtain ⟨b1, b2, b3, b4, b5⟩ := b
    simp
  have hf : ∀ x y : Key, lt x y = false ↔ ¬ lt x y = true := by intro x y; simp
  refine ⟨?_, ?_, ?_, ?_⟩
  · rw [hext, C30_lexicographic, C30_lexicographic]; omega
  · rw [hext, hf, hf, C30_lexicographic, C30_lexicographic]; omega
  · rw [hext]; unfold eq; simp [and_assoc]
  · rw [C30_lexicographic, C30_lexicographic]; omega

/-- Ascending order of a table. -/
def Sorted {α} (m : Table α) : Prop := m.Pairwise (fun p q => lt p.1 q.1 = true)

theorem find_eq_of_sorted {α} (m : Table α) (hs : Sorted m) (x : Key) (v : α) :
    find m x = some v ↔ (x, v) ∈ m := by
  induction m with
  | nil => simp [find]
  | cons p m ih =>
    obtain ⟨k, w⟩ := p
    have hs' := List.pairwise_cons.mp hs
    simp only [find, List.mem_cons, Prod.mk.injEq]
    have t := C30_total k x
    by_cases h1 : lt k x = true
    · rw [if_pos h1, ih hs'.2]
      have : x ≠ k := by
        intro e; subst e; rw [C30_irreflexive] at h1; simp at h1
      simp [this]
    · rw [if_neg h1]
      by_cases h2 : lt x k = true
      · rw [if_pos h2]
        have hne : x ≠ k := by
          intro e; subst e; rw [C30_irreflexive] at h2; simp at h2
        constructor
        · simp
        · rintro (⟨e, _⟩ | hm)
          · exact absurd e hne
          · have h3 := C30_transitive _ _ _ h2 (hs'.1 _ hm)
            rw [C30_irreflexive] at h3; simp at h3
      · rw [if_neg h2]
        have e : k = x := t.2.1.mp ⟨by simpa using h1, by simpa using h2⟩
        subst e
        constructor
        · intro h; injection h with h; exact Or.inl ⟨rfl, h.symm⟩
        · rintro (⟨_, e⟩ | hm)
          · rw [e]
          · have h3 := hs'.1 _ hm
            rw [C30_irreflexive] at h3; simp at h3

theorem insert_mem {α} (m : Table α) (x : Key) (v : α) (p : Key × α) (h : p ∈ insert m x v) : p = (x, v) ∨ p ∈ m := by
  induction m with
  | nil => simpa [insert] using h
  | cons q m ih =>
    obtain ⟨k, w⟩ := q
    simp only [insert] at h
    split_ifs at h
    · rcases List.mem_cons.mp h with e | e
      · simp [e]
      · rcases ih e with e | e <;> simp [e]
    · simpa using h
    · exact Or.inr h

theorem insert_sorted {α} (m : Table α) (hs : Sorted m) (x : Key) (v : α) : Sorted (insert m x v) := by
  induction m with
  | nil => simp [insert, Sorted]
  | cons q m ih =>
    obtain ⟨k, w⟩ := q
    have hs' := List.pairwise_cons.mp hs
    simp only [insert]
    split_ifs with h1 h2
    · refine List.pairwise_cons.mpr ⟨?_, ih hs'.2⟩
      intro p hp
      rcases insert_mem m x v p hp with e | e
      · rw [e]; exact h1
      · exact hs'.1 p e
    · refine List.pairwise_cons.mpr ⟨?_, hs⟩
      intro p hp
      rcases List.mem_cons.mp hp with e | e
      · rw [e]; exact h2
      · exact C30_transitive _ _ _ h2 (hs'.1 p e)
    · exact hs

theorem find_insert {α} (m : Table α) (x : Key) (v : α) (y : Key) :
    find (insert m x v) y = if y = x ∧ find m x = none then some v else find m y := by
  induction m with
  | nil =>
    simp only [insert, find]
    have t := C30_total x y
    split_ifs with h1 h2 h3 h3 h4 <;> simp_all
  | cons q m ih =>
    obtain ⟨k, w⟩ := q
    have t1 := C30_total k x
    have t2 := C30_total k y
    have t3 := C30_total x y
    by_cases h1 : lt k x = true
    · simp only [insert, h1, if_true, find, ih]
      by_cases h2 : lt k y = true
      · simp [h2]
      · have : y ≠ x := by intro e; subst e; exact h2 h1
        simp [h2, this]
    · by_cases h2 : lt x k = true
      · have hi : insert ((k, w) :: m) x v = (x, v) :: (k, w) :: m := by simp [insert, h1, h2]
        rw [hi]
        simp only [find, h1, h2, if_true, Bool.false_eq_true, if_false]
        by_cases e : y = x
        · subst e; simp [C30_irreflexive]
        · simp only [e, false_and, if_false]
          by_cases h3 : lt x y = true
          · simp [h3]
          · have h4 : lt y x = true := by
              rcases t3.1 with h | h | h
              · exact absurd h h3
              · exact absurd h.symm e
              · exact h
            have h5 := C30_transitive _ _ _ h4 h2
            have h6 : lt k y = false := by
              cases h : lt k y with
              | false => rfl
              | true => exact absurd ⟨h, h5⟩ t2.2.2.2
            simp [h3, h4, h5, h6]
      · have e : k = x := t1.2.1.mp ⟨by simpa using h1, by simpa using h2⟩
        subst e
        have hi : insert ((k, w) :: m) k v = (k, w) :: m := by simp [insert, C30_irreflexive]
        rw [hi]
        simp [find, C30_irreflexive]

/-- The requests a table can get. -/
inductive Op (α : Type) where
  | put (k : Key) (v : α)
  | drop (k : Key)

/-- Carrying requests out. -/
def run {α} (m : Table α) : List (Op α) → Table α
  | [] => m
  | .put k v :: os => run (insert m k v) os
  | .drop k :: os => run (erase m k) os

/-- What the table should hold for a signature: the first value put since it was last dropped. -/
def wanted {α} (k : Key) (cur : Option α) : List (Op α) → Option α
  | [] => cur
  | .put k' v :: os => wanted k (if k' = k then (cur.or (some v)) else cur) os
  | .drop k' :: os => wanted k (if k' = k then none else cur) os

theorem erase_mem {α} (m : Table α) (x : Key) (p : Key × α) (h : p ∈ erase m x) : p ∈ m := by
  induction m with
  | nil => simp [erase] at h
  | cons q m ih =>
    obtain ⟨k, w⟩ := q
    simp only [erase] at h
    split_ifs at h
    · rcases List.mem_cons.mp h with e | e
      · simp [e]
      · simp [ih e]
    · exact h
    · exact List.mem_cons_of_mem _ h

theorem erase_sorted {α} (m : Table α) (hs : Sorted m) (x : Key) : Sorted (erase m x) := by
  induction m with
  | nil => simpa [erase] using hs
  | cons q m ih =>
    obtain ⟨k, w⟩ := q
    have hs' := List.pairwise_cons.mp hs
    simp only [erase]
    split_ifs
    · exact List.pairwise_cons.mpr ⟨fun p hp => hs'.1 p (erase_mem m x p hp), ih hs'.2⟩
    · exact hs
    · exact hs'.2

theorem find_erase {α} (m : Table α) (hs : Sorted m) (x y : Key) :
    find (erase m x) y = if y = x then none else find m y := by
  induction m with
  | nil => simp [erase, find]
  | cons q m ih =>
    obtain ⟨k, w⟩ := q
    have hs' := List.pairwise_cons.mp hs
    have t1 := C30_total k x
    have t2 := C30_total k y
    by_cases h1 : lt k x = true
    · simp only [erase, h1, if_true, find, ih hs'.2]
      by_cases h2 : lt k y = true
      · simp [h2]
      · have : y ≠ x := by intro e; subst e; exact h2 h1
        simp [h2, this]
    · by_cases h2 : lt x k = true
      · simp only [erase, h1, h2, if_true, Bool.false_eq_true, if_false]
        by_cases e : y = x
        · subst e; simp [find, h1, h2]
        · simp [e]
      · have e : k = x := t1.2.1.mp ⟨by simpa using h1, by simpa using h2⟩
        subst e
        simp only [erase, h1, Bool.false_eq_true, if_false]
        by_cases e : y = k
        · subst e
          simp only [if_true]
          cases hf : find m y with
          | none => rfl
          | some v =>
            have := hs'.1 _ ((find_eq_of_sorted m hs'.2 y v).mp hf)
            rw [C30_irreflexive] at this; simp at this
        · simp only [e, if_false, find]
          by_cases h3 : lt k y = true
          · simp [h3]
          · have h4 : lt y k = true := by
              rcases t2.1 with h | h | h
              · exact absurd h h3
              · exact absurd h.symm e
              · exact h
            simp only [h3, h4, if_true, Bool.false_eq_true, if_false]
            cases hf : find m y with
            | none => rfl
            | some v =>
              have := hs'.1 _ ((find_eq_of_sorted m hs'.2 y v).mp hf)
              exact absurd this h3

/-- C30. Over any history of insertions and removals the table neither loses nor merges types: what
is found under a signature is exactly what was put under that very signature. -/
theorem C30_table {α} (ops : List (Op α)) (m : Table α) (hs : Sorted m) (k : Key) :
    find (run m ops) k = wanted k (find m k) ops := by
  induction ops generalizing m with
  | nil => rfl
  | cons o os ih =>
    cases o with
    | put k' v =>
      simp only [run, wanted]
      rw [ih _ (insert_sorted m hs k' v), find_insert]
      congr 1
      by_cases e : k = k'
      · subst e
        cases find m k <;> simp
      · have e' : ¬ k' = k := fun h => e h.symm
        simp [e, e']
    | drop k' =>
      simp only [run, wanted]
      rw [ih _ (erase_sorted m hs k'), find_erase m hs]
      congr 1
      by_cases e : k = k'
      · simp [e]
      · have e' : ¬ k' = k := fun h => e h.symm
        simp [e, e']

/-- Two signatures that differ in the reference kind only stay apart. -/
example : let k : Key := ⟨5, 3, -1, 0, 0⟩
    find (run ([] : Table Nat) [.put k 1, .put { k with referenceType := 1 } 2, .put k 3]) k = some 1 := by decide

end Ulam.Keys
