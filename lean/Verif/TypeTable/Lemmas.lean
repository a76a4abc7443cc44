import Verif.TypeTable.Spec
import Verif.Keys.Props
import Mathlib.Tactic.SplitIfs
import Mathlib.Tactic.Tauto
/-! Invariant of the table of type numbers. -/
namespace Ulam.TypeTable
open Ulam.Keys Spec

theorem mem_setInsert (l : List Nat) (x y : Nat) : y ∈ setInsert l x ↔ y = x ∨ y ∈ l := by
  induction l with
  | nil => simp [setInsert]
  | cons a l ih =>
    simp only [setInsert]
    split_ifs with h1 h2
    · simp only [List.mem_cons, ih]; tauto
    · simp only [List.mem_cons]
    · have : a = x := by omega
      subst this
      simp only [List.mem_cons]; tauto

theorem pw_setInsert (l : List Nat) (h : l.Pairwise (· < ·)) (x : Nat) : (setInsert l x).Pairwise (· < ·) := by
  induction l with
  | nil => simp [setInsert]
  | cons a l ih =>
    rw [List.pairwise_cons] at h
    simp only [setInsert]
    split_ifs with h1 h2
    · rw [List.pairwise_cons]
      refine ⟨fun y hy => ?_, ih h.2⟩
      rcases (mem_setInsert l x y).1 hy with rfl | hy
      · exact h1
      · exact h.1 y hy
    · rw [List.pairwise_cons, List.pairwise_cons]
      refine ⟨fun y hy => ?_, h⟩
      rcases List.mem_cons.1 hy with rfl | hy
      · exact h2
      · have := h.1 y hy; omega
    · rw [List.pairwise_cons]; exact h

theorem mem_setErase (l : List Nat) (h : l.Pairwise (· < ·)) (x y : Nat) : y ∈ setErase l x ↔ y ≠ x ∧ y ∈ l := by
  induction l with
  | nil => simp [setErase]
  | cons a l ih =>
    rw [List.pairwise_cons] at h
    simp only [setErase]
    split_ifs with h1 h2
    · simp only [List.mem_cons, ih h.2]
      constructor
      · rintro (rfl | h3)
        · exact ⟨by omega, .inl rfl⟩
        · exact ⟨h3.1, .inr h3.2⟩
      · rintro ⟨h3, rfl | h4⟩
        · exact .inl rfl
        · exact .inr ⟨h3, h4⟩
    · constructor
      · intro hy
        refine ⟨?_, hy⟩
        rcases List.mem_cons.1 hy with rfl | hy
        · omega
        · have := h.1 y hy; omega
      · exact fun hy => hy.2
    · have : a = x := by omega
      subst this
      constructor
      · intro hy
        have := h.1 y hy
        exact ⟨by omega, List.mem_cons_of_mem _ hy⟩
      · rintro ⟨h3, h4⟩
        rcases List.mem_cons.1 h4 with rfl | h4
        · exact absurd rfl h3
        · exact h4

theorem pw_setErase (l : List Nat) (h : l.Pairwise (· < ·)) (x : Nat) : (setErase l x).Pairwise (· < ·) := by
  induction l with
  | nil => simp [setErase]
  | cons a l ih =>
    have h' := h
    rw [List.pairwise_cons] at h
    simp only [setErase]
    split_ifs with h1 h2
    · rw [List.pairwise_cons]
      exact ⟨fun y hy => h.1 y ((mem_setErase l h.2 x y).1 hy).2, ih h.2⟩
    · exact h'
    · exact h.2

theorem find_assign {α} (m : Table α) (hs : Sorted m) (k y : Key) (v : α) :
    find (assign m k v) y = if y = k then some v else find m y := by
  unfold assign
  rw [find_insert, find_erase m hs, find_erase m hs]
  by_cases h : y = k <;> simp [h]

theorem sorted_assign {α} (m : Table α) (hs : Sorted m) (k : Key) (v : α) : Sorted (assign m k v) :=
  insert_sorted _ (erase_sorted m hs k) k v

/-- The set of a signature, empty if there is none. -/
def setOf (s : State) (k : Key) : List Nat := (find s.sets k).getD []

theorem increment_fields (s : State) (k : Key) (u : Nat) :
    (increment s k u).keys = s.keys ∧ (increment s k u).types = s.types ∧ (increment s k u).root = s.root := by
  unfold increment; split <;> exact ⟨rfl, rfl, rfl⟩

theorem increment_sets (s : State) (hs : Sorted s.sets) (k : Key) (u : Nat) (y : Key) :
    find (increment s k u).sets y = if y = k then some (setInsert (setOf s k) u) else find s.sets y := by
  unfold increment setOf
  split
  · rename_i l h
    simp only [find_assign _ hs, h]
    rfl
  · rename_i h
    simp only [find_insert, h]
    by_cases e : y = k <;> simp [e, setInsert]

theorem increment_sorted (s : State) (hs : Sorted s.sets) (k : Key) (u : Nat) : Sorted (increment s k u).sets := by
  unfold increment
  split
  · exact sorted_assign _ hs ..
  · exact insert_sorted _ hs ..

theorem decrement_fields (s : State) (k : Key) (u : Nat) :
    (decrement s k u).1.keys = s.keys ∧ (decrement s k u).1.types = s.types ∧ (decrement s k u).1.root = s.root := by
  unfold decrement
  split
  · dsimp only; split <;> exact ⟨rfl, rfl, rfl⟩
  · exact ⟨rfl, rfl, rfl⟩

theorem decrement_count (s : State) (k : Key) (u : Nat) : (decrement s k u).2 = (setErase (setOf s k) u).length := by
  unfold decrement setOf
  split
  · rename_i l h
    dsimp only
    rw [h]
    split
    · rename_i e; exact e.symm
    · rfl
  · rename_i h; rw [h]; rfl

theorem decrement_sets (s : State) (hs : Sorted s.sets) (k : Key) (u : Nat) (y : Key) :
    find (decrement s k u).1.sets y =
      if y = k then if setErase (setOf s k) u = [] then none else some (setErase (setOf s k) u) else find s.sets y := by
  unfold decrement setOf
  split
  · rename_i l h
    simp only [h, Option.getD_some, List.length_eq_zero_iff]
    by_cases e : setErase l u = []
    · simp only [e, if_true, find_erase _ hs]
    · simp only [e, if_false, find_assign _ hs]
  · rename_i h
    simp only [h, Option.getD_none, setErase, if_true]
    split
    · rename_i e; rw [e, h]
    · rfl

theorem decrement_sorted (s : State) (hs : Sorted s.sets) (k : Key) (u : Nat) : Sorted (decrement s k u).1.sets := by
  unfold decrement
  split
  · dsimp only
    split
    · exact erase_sorted _ hs _
    · exact sorted_assign _ hs ..
  · exact hs

/-- The tables agree. -/
structure Inv (no : Key) (s : State) : Prop where
  len : s.keys.length = s.root.length
  zero : s.keys[0]? = some no
  st : Sorted s.types
  ss : Sorted s.sets
  asc : ∀ k l, find s.sets k = some l → l.Pairwise (· < ·) ∧ l ≠ []
  defd : ∀ k, (find s.types k).isSome = (find s.sets k).isSome
  sound : ∀ k l u, find s.sets k = some l → u ∈ l → k = no ∨ s.keys[u]? = some k
  full : ∀ u k, s.keys[u]? = some k → ∃ l, find s.sets k = some l ∧ u ∈ l

variable {no : Key}

theorem Inv.setOf_asc {s : State} (I : Inv no s) (k : Key) : (setOf s k).Pairwise (· < ·) := by
  unfold setOf
  cases h : find s.sets k with
  | none => exact List.Pairwise.nil
  | some l => exact (I.asc k l h).1

theorem Inv.mem_setOf {s : State} (I : Inv no s) {k : Key} (hk : k ≠ no) (u : Nat) : u ∈ setOf s k ↔ s.keys[u]? = some k := by
  constructor
  · intro h
    unfold setOf at h
    cases e : find s.sets k with
    | none => simp [e] at h
    | some l =>
      rw [e] at h
      rcases I.sound k l u e h with rfl | q
      · exact absurd rfl hk
      · exact q
  · intro h
    obtain ⟨l, e, m⟩ := I.full u k h
    unfold setOf; rw [e]; exact m

theorem Inv.mem_setOf_of {s : State} (I : Inv no s) {k : Key} {u : Nat} (h : s.keys[u]? = some k) : u ∈ setOf s k := by
  obtain ⟨l, e, m⟩ := I.full u k h
  unfold setOf; rw [e]; exact m

theorem Inv.defined {s : State} (I : Inv no s) {u : Nat} {k : Key} (h : s.keys[u]? = some k) : ∃ t, isDefined s k = some t := by
  obtain ⟨l, e, _⟩ := I.full u k h
  have := I.defd k
  rw [e] at this
  exact Option.isSome_iff_exists.1 this

theorem inv_start (no : Key) : Inv no (start no) := by
  have hf : ∀ {α} (v : α) (k : Key), find [(no, v)] k = if k = no then some v else none := by
    intro α v k
    simp only [find]
    have t := C30_total no k
    by_cases e : k = no
    · subst e
      have := C30_irreflexive k
      simp [this]
    · rw [if_neg e]
      split_ifs with h1 h2
      · rfl
      · rfl
      · exact absurd (t.2.1.1 ⟨by simpa using h1, by simpa using h2⟩).symm e
  refine ⟨rfl, rfl, by simp [start, Sorted], by simp [start, Sorted], ?_, ?_, ?_, ?_⟩
  · intro k l h
    simp only [start, hf] at h
    split_ifs at h
    cases h
    simp
  · intro k
    simp only [start, hf]
    split_ifs <;> rfl
  · intro k l u h _
    simp only [start, hf] at h
    split_ifs at h with e
    exact .inl e
  · intro u k h
    simp only [start] at h
    match u, h with
    | 0, h =>
      have : no = k := by simpa using h
      subst this
      exact ⟨[0], by simp only [start, hf, if_true], by simp⟩
    | u + 1, h => simp at h

/-- Giving a signature, and its set, a member: what `enter`, `rekey` and the others end with. -/
theorem inv_put {s : State} (I : Inv no s) (k : Key) (t u : Nat) (keys : List Key) (root : List Nat) (hl : keys.length = root.length)
    (h0 : keys[0]? = some no) (hu : keys[u]? = some k) (other : ∀ v, v ≠ u → keys[v]? = s.keys[v]?)
    (free : s.keys[u]? = none ∨ s.keys[u]? = some no ∨ s.keys[u]? = some k) :
    Inv no { increment s k u with keys := keys, types := insert s.types k t, root := root } := by
  have key : ∀ y, find (increment s k u).sets y = if y = k then some (setInsert (setOf s k) u) else find s.sets y :=
    increment_sets s I.ss k u
  refine ⟨hl, h0, insert_sorted _ I.st _ _, increment_sorted s I.ss k u, ?_, ?_, ?_, ?_⟩
  · intro y l h
    simp only [key] at h
    split_ifs at h
    · cases h
      exact ⟨pw_setInsert _ (I.setOf_asc k) u, fun q => by have := (mem_setInsert (setOf s k) u u).2 (.inl rfl); simp [q] at this⟩
    · exact I.asc y l h
  · intro y
    simp only [key, find_insert]
    have := I.defd y
    by_cases e : y = k
    · subst e
      simp only [true_and, if_true, Option.isSome_some]
      split_ifs with e2
      · rfl
      · exact Option.isSome_iff_ne_none.2 e2
    · simp only [e, false_and, if_false]; exact this
  · intro y l v h hv
    simp only [key] at h
    by_cases e : y = k
    · subst e
      simp only [if_true] at h
      cases h
      rcases (mem_setInsert _ _ _).1 hv with rfl | hv
      · exact .inr hu
      · by_cases e2 : y = no
        · exact .inl e2
        · by_cases e3 : v = u
          · subst e3; exact .inr hu
          · exact .inr ((other v e3).trans ((I.mem_setOf e2 v).1 hv))
    · simp only [e, if_false] at h
      rcases I.sound y l v h hv with q | q
      · exact .inl q
      · by_cases e3 : v = u
        · subst e3
          rcases free with f | f | f
          · rw [f] at q; cases q
          · rw [f] at q; cases q; exact .inl rfl
          · rw [f] at q; cases q; exact absurd rfl e
        · exact .inr ((other v e3).trans q)
  · intro v y h
    simp only [key]
    dsimp only at h
    by_cases e3 : v = u
    · subst e3
      rw [hu] at h
      cases h
      exact ⟨_, if_pos rfl, (mem_setInsert _ _ _).2 (.inl rfl)⟩
    · rw [other v e3] at h
      obtain ⟨l, h1, h2⟩ := I.full v y h
      by_cases e : y = k
      · subst e
        exact ⟨_, if_pos rfl, (mem_setInsert _ _ _).2 (.inr (I.mem_setOf_of h))⟩
      · exact ⟨l, by rw [if_neg e]; exact h1, h2⟩

/-- Insertion of a present signature changes nothing. -/
theorem insert_present {α} (m : Table α) (k : Key) (v : α) (h : (find m k).isSome) : insert m k v = m := by
  induction m with
  | nil => simp [find] at h
  | cons p m ih =>
    obtain ⟨a, w⟩ := p
    simp only [find] at h
    simp only [Keys.insert]
    split_ifs at h ⊢ with h1 h2
    · rw [ih h]
    · cases h
    · rfl

/-- The state of `deleteKey` after the signature lost the number. -/
def dropped (s : State) (k : Key) (u : Nat) : State :=
  let d := decrement s k u
  if d.2 = 0 then { d.1 with types := erase d.1.types k } else d.1

theorem dropped_fields (s : State) (k : Key) (u : Nat) : (dropped s k u).keys = s.keys ∧ (dropped s k u).root = s.root ∧
    (dropped s k u).sets = (decrement s k u).1.sets := by
  have := decrement_fields s k u
  unfold dropped
  dsimp only
  split <;> exact ⟨this.1, this.2.2, rfl⟩

theorem dropped_types (s : State) (hs : Sorted s.types) (k : Key) (u : Nat) (y : Key) :
    find (dropped s k u).types y = if y = k ∧ setErase (setOf s k) u = [] then none else find s.types y := by
  have hf := decrement_fields s k u
  unfold dropped
  dsimp only
  simp only [decrement_count, List.length_eq_zero_iff]
  by_cases e : setErase (setOf s k) u = []
  · simp only [e, if_true, and_true, hf.2.1, find_erase _ hs]
  · simp only [e, if_false, and_false, hf.2.1]

theorem dropped_sortedTypes (s : State) (hs : Sorted s.types) (k : Key) (u : Nat) : Sorted (dropped s k u).types := by
  have hf := decrement_fields s k u
  unfold dropped
  dsimp only
  split
  · dsimp only; rw [hf.2.1]; exact erase_sorted _ hs _
  · rw [hf.2.1]; exact hs

theorem deleteKey_eq {s : State} (I : Inv no s) {k : Key} {u : Nat} (hu : s.keys[u]? = some k) (h0 : u ≠ 0) :
    deleteKey s k u = some (increment { dropped s k u with keys := s.keys.set u no } no u) := by
  have hf := dropped_fields s k u
  have hd : ∃ t, isDefined (dropped s k u) no = some t := by
    obtain ⟨t, ht⟩ := I.defined I.zero
    refine ⟨t, ?_⟩
    unfold isDefined at ht ⊢
    rw [dropped_types s I.st, if_neg, ht]
    rintro ⟨rfl, e⟩
    have := (mem_setErase _ (I.setOf_asc no) u 0).2 ⟨fun q => h0 q.symm, I.mem_setOf_of I.zero⟩
    rw [e] at this; cases this
  obtain ⟨t, ht⟩ := hd
  have hty : typeByIndex (dropped s k u) nouti = some (no, t) := by
    unfold typeByIndex nouti
    rw [hf.1, I.zero]
    simp [ht]
  have hlt : u < (dropped s k u).keys.length := by rw [hf.1]; exact (List.getElem?_eq_some_iff.1 hu).1
  unfold deleteKey
  dsimp only
  change (typeByIndex (dropped s k u) nouti).bind _ = _
  rw [hty]
  simp only [Option.bind_some]
  change (if u < (dropped s k u).keys.length then _ else _) = _
  rw [if_pos hlt]
  simp only [← hf.1]
  rfl

theorem deleteKey_spec {s t : State} (I : Inv no s) {k : Key} {u : Nat} (hu : s.keys[u]? = some k) (h0 : u ≠ 0)
    (h : deleteKey s k u = some t) : Inv no t ∧ t.keys = s.keys.set u no ∧ t.root = s.root := by
  have hlt : u < s.keys.length := (List.getElem?_eq_some_iff.1 hu).1
  rw [deleteKey_eq I hu h0] at h
  cases h
  have hf := dropped_fields s k u
  have hi := increment_fields { dropped s k u with keys := s.keys.set u no } no u
  refine ⟨?_, hi.1, hi.2.2.trans hf.2.1⟩
  have hss : Sorted (dropped s k u).sets := by rw [hf.2.2]; exact decrement_sorted s I.ss k u
  have hsets : ∀ y, find (dropped s k u).sets y =
      if y = k then if setErase (setOf s k) u = [] then none else some (setErase (setOf s k) u) else find s.sets y := by
    intro y; rw [hf.2.2]; exact decrement_sets s I.ss k u y
  have hgo : ∀ y l, find (dropped s k u).sets y = some l → l.Pairwise (· < ·) ∧ l ≠ [] ∧ ∀ v, v ∈ l ↔ v ∈ setOf s y ∧ (y = k → v ≠ u) := by
    intro y l h
    rw [hsets] at h
    split_ifs at h with h1 h2
    · cases h
      subst h1
      refine ⟨pw_setErase _ (I.setOf_asc y) u, h2, fun v => ?_⟩
      rw [mem_setErase _ (I.setOf_asc y)]
      exact ⟨fun q => ⟨q.2, fun _ => q.1⟩, fun q => ⟨q.2 rfl, q.1⟩⟩
    · refine ⟨(I.asc y l h).1, (I.asc y l h).2, fun v => ?_⟩
      unfold setOf; rw [h]
      exact ⟨fun q => ⟨q, fun e => absurd e h1⟩, fun q => q.1⟩
  have hset : ∀ v, setOf { dropped s k u with keys := s.keys.set u no } v = (find (dropped s k u).sets v).getD [] := fun _ => rfl
  have key := increment_sets { dropped s k u with keys := s.keys.set u no } hss no u
  have hno : ∃ l, find (dropped s k u).sets no = some l := by
    rw [hsets]
    by_cases e : no = k
    · subst e
      have := (mem_setErase _ (I.setOf_asc no) u 0).2 ⟨fun q => h0 q.symm, I.mem_setOf_of I.zero⟩
      rw [if_pos rfl, if_neg (fun q => by rw [q] at this; cases this)]
      exact ⟨_, rfl⟩
    · rw [if_neg e]
      obtain ⟨l, q, _⟩ := I.full 0 no I.zero
      exact ⟨l, q⟩
  obtain ⟨ln, hln⟩ := hno
  have ascn := (hgo no ln hln).1
  have hsn : setOf { dropped s k u with keys := s.keys.set u no } no = ln := by rw [hset, hln]; rfl
  rw [hsn] at key
  refine ⟨?_, ?_, ?_, increment_sorted { dropped s k u with keys := s.keys.set u no } hss no u, ?_, ?_, ?_, ?_⟩
  · rw [hi.1, hi.2.2]
    simp only [List.length_set, hf.2.1, I.len]
  · rw [hi.1]
    dsimp only
    rw [List.getElem?_set_ne h0]
    exact I.zero
  · rw [hi.2.1]; exact dropped_sortedTypes s I.st k u
  · intro y l h
    rw [key] at h
    split_ifs at h
    · cases h
      exact ⟨pw_setInsert _ ascn u, fun q => by have := (mem_setInsert ln u u).2 (.inl rfl); simp [q] at this⟩
    · exact ⟨(hgo y l h).1, (hgo y l h).2.1⟩
  · intro y
    rw [key, hi.2.1]
    dsimp only
    rw [dropped_types s I.st]
    by_cases e : y = no
    · subst e
      rw [if_pos rfl]
      have h1 := hsets y
      rw [hln] at h1
      by_cases e2 : y = k
      · subst e2
        rw [if_pos rfl] at h1
        split_ifs at h1 with h2
        rw [if_neg (fun q => h2 q.2)]
        obtain ⟨t, ht⟩ := I.defined I.zero
        unfold isDefined at ht
        rw [ht]; rfl
      · rw [if_neg (fun q => e2 q.1)]
        obtain ⟨t, ht⟩ := I.defined I.zero
        unfold isDefined at ht
        rw [ht]; rfl
    · rw [if_neg e, hsets]
      have := I.defd y
      by_cases e2 : y = k
      · subst e2
        simp only [true_and, if_true]
        split_ifs with h2
        · rfl
        · obtain ⟨t, ht⟩ := I.defined hu
          unfold isDefined at ht
          rw [ht]; rfl
      · simp only [e2, false_and, if_false]; exact this
  · intro y l v h hv
    rw [key] at h
    rw [hi.1]
    dsimp only
    by_cases e : y = no
    · exact .inl e
    · rw [if_neg e] at h
      have h2 := ((hgo y l h).2.2 v).1 hv
      have h3 := (I.mem_setOf e v).1 h2.1
      have h4 : v ≠ u := by
        intro q
        subst q
        rw [hu] at h3
        cases h3
        exact h2.2 rfl rfl
      rw [List.getElem?_set_ne (Ne.symm h4)]
      exact .inr h3
  · intro v y h
    rw [hi.1] at h
    dsimp only at h
    by_cases e : v = u
    · subst e
      rw [List.getElem?_set_self hlt] at h
      cases h
      exact ⟨_, by rw [key, if_pos rfl], (mem_setInsert _ _ _).2 (.inl rfl)⟩
    · rw [List.getElem?_set_ne (Ne.symm e)] at h
      have hm := I.mem_setOf_of h
      by_cases e2 : y = no
      · subst e2
        refine ⟨_, by rw [key, if_pos rfl], (mem_setInsert _ _ _).2 (.inr ?_)⟩
        exact ((hgo y ln hln).2.2 v).2 ⟨hm, fun _ => e⟩
      · have : ∃ l, find (dropped s k u).sets y = some l := by
          rw [hsets]
          by_cases e3 : y = k
          · subst e3
            rw [if_pos rfl]
            have := (mem_setErase _ (I.setOf_asc y) u v).2 ⟨e, hm⟩
            rw [if_neg (fun q => by rw [q] at this; cases this)]
            exact ⟨_, rfl⟩
          · rw [if_neg e3]
            obtain ⟨l, q, _⟩ := I.full v y h
            exact ⟨l, q⟩
        obtain ⟨l, hl⟩ := this
        exact ⟨l, by rw [key, if_neg e2]; exact hl, ((hgo y l hl).2.2 v).2 ⟨hm, fun _ => e⟩⟩

/-- What an operation on number `u` does: the table agrees again, `u` may have another signature, and other numbers keep
theirs. -/
structure Changed (no : Key) (s t : State) (u : Nat) : Prop where
  inv : Inv no t
  len : t.keys.length = s.keys.length
  others : ∀ v, v ≠ u → t.keys[v]? = s.keys[v]?

theorem Changed.rfl {s : State} (I : Inv no s) (u : Nat) : Changed no s s u := ⟨I, _root_.rfl, fun _ _ => _root_.rfl⟩

theorem updateAliasForced_spec {s t : State} {a b : Nat} (h : updateAliasForced s a b = some t) :
    t = { s with root := s.root.set a b } := by
  unfold updateAliasForced at h
  split_ifs at h
  exact (Option.some.inj h).symm

theorem inv_root {s : State} (I : Inv no s) (r : List Nat) (h : r.length = s.root.length) : Inv no { s with root := r } :=
  ⟨I.len.trans h.symm, I.zero, I.st, I.ss, I.asc, I.defd, I.sound, I.full⟩

theorem Changed.root {s t t' : State} {u a b : Nat} (C : Changed no s t u) (h : updateAliasForced t a b = some t') :
    Changed no s t' u := by
  rw [updateAliasForced_spec h]
  exact ⟨inv_root C.inv _ (by simp), C.len, C.others⟩

theorem rekey_spec {s t : State} (I : Inv no s) {old new : Key} {kind u : Nat} (hu : s.keys[u]? = some old) (h0 : u ≠ 0)
    (h : rekey s old new kind u = some t) : Changed no s t u ∧ t.keys[u]? = some new ∧ t.root = s.root := by
  have hlt : u < s.keys.length := (List.getElem?_eq_some_iff.1 hu).1
  unfold rekey at h
  rw [Option.bind_eq_some_iff] at h
  obtain ⟨s1, h1, h⟩ := h
  obtain ⟨I1, k1, r1⟩ := deleteKey_spec I hu h0 h1
  dsimp only at h
  have e2 : (if (isDefined s1 new).isNone = true then ({ s1 with types := insert s1.types new kind } : State) else s1) =
      { s1 with types := insert s1.types new kind } := by
    split_ifs with q
    · rfl
    · rw [insert_present _ _ _ (by unfold isDefined at q; simpa [Option.isSome_iff_ne_none] using q)]
  rw [e2] at h
  split_ifs at h with h3
  have h := Option.some.inj h
  have P := inv_put I1 new kind u (s1.keys.set u new) s1.root (by rw [List.length_set, I1.len])
    (by rw [List.getElem?_set_ne h0]; exact I1.zero) (List.getElem?_set_self h3)
    (fun v hv => List.getElem?_set_ne (Ne.symm hv)) (.inr (.inl (by rw [k1, List.getElem?_set_self hlt])))
  have : t = { increment s1 new u with keys := s1.keys.set u new, types := insert s1.types new kind, root := s1.root } := by
    rw [← h]
    unfold increment
    dsimp only
    split <;> rfl
  rw [← this] at P
  refine ⟨⟨P, ?_, fun v hv => ?_⟩, ?_, ?_⟩
  · rw [this]; simp [k1]
  · rw [this]; dsimp only; rw [List.getElem?_set_ne (Ne.symm hv), k1, List.getElem?_set_ne (Ne.symm hv)]
  · rw [this]; dsimp only; rw [List.getElem?_set_self h3]
  · rw [this]; exact r1

theorem enter_spec {s t : State} (I : Inv no s) {key : Key} {kind v : Nat}
    (h : enter s key kind (s.keys.length % 65536) = some (t, v)) :
    Inv no t ∧ v = s.keys.length ∧ t.keys = s.keys ++ [key] ∧ s.keys.length < 65536 ∧ t.root = s.root ++ [v] := by
  unfold enter at h
  dsimp only at h
  rw [Option.bind_eq_some_iff] at h
  obtain ⟨_, _, h⟩ := h
  rw [Option.map_eq_some_iff] at h
  obtain ⟨t', h1, h2⟩ := h
  cases h2
  unfold initAlias at h1
  split_ifs at h1 with e
  have hi := increment_fields { s with keys := s.keys ++ [key], types := insert s.types key kind } key (s.keys.length % 65536)
  rw [hi.2.2] at e
  dsimp only at e
  rw [← I.len] at e
  rw [e] at h1 ⊢
  have hlt : s.keys.length < 65536 := by omega
  have h1 := Option.some.inj h1
  have : t = { increment s key s.keys.length with keys := s.keys ++ [key], types := insert s.types key kind, root := s.root ++ [s.keys.length] } := by
    rw [← h1]
    unfold increment
    dsimp only
    split <;> rfl
  refine ⟨?_, rfl, by rw [this], hlt, by rw [this]⟩
  rw [this]
  refine inv_put I key kind _ _ _ ?_ ?_ ?_ ?_ ?_
  · simp [I.len]
  · have h0 : 0 < s.keys.length := (List.getElem?_eq_some_iff.1 I.zero).1
    rw [List.getElem?_append_left h0]; exact I.zero
  · simp
  · intro v hv
    by_cases q : v < s.keys.length
    · rw [List.getElem?_append_left q]
    · rw [List.getElem?_eq_none (by simp; omega), List.getElem?_eq_none (by omega)]
  · exact .inl (List.getElem?_eq_none (Nat.le_refl _))

/-- `enter` works while there are numbers left. -/
theorem enter_some {s : State} (I : Inv no s) (key : Key) (kind : Nat) (hlt : s.keys.length < 65536) :
    ∃ t, enter s key kind (s.keys.length % 65536) = some (t, s.keys.length) := by
  have hi := increment_fields { s with keys := s.keys ++ [key], types := insert s.types key kind } key (s.keys.length % 65536)
  unfold enter
  dsimp only
  have : ∃ t, isDefined (increment { s with keys := s.keys ++ [key], types := insert s.types key kind } key (s.keys.length % 65536)) key = some t := by
    unfold isDefined
    rw [hi.2.1]
    dsimp only
    rw [find_insert]
    cases e : find s.types key with
    | none => exact ⟨kind, by simp⟩
    | some t => exact ⟨t, by simp⟩
  obtain ⟨t, ht⟩ := this
  rw [ht, Option.bind_some]
  unfold initAlias
  rw [hi.2.2]
  dsimp only
  rw [← I.len, Nat.mod_eq_of_lt hlt, if_pos rfl]
  exact ⟨_, rfl⟩

end Ulam.TypeTable
