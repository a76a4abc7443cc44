import Verif.SymTab.Spec
import Mathlib.Tactic.Common
/-! # Tables of symbols: property C146 -/
namespace Ulam.SymTab

theorem find_cons (a b : Nat) (t : List (Nat × Nat)) (k : Nat) : find ((a, b) :: t) k = if a = k then some b else find t k := by
  unfold find
  by_cases h : a = k <;> simp [h]

theorem find_erase (t : List (Nat × Nat)) (a k : Nat) : find (erase t a) k = if k = a then none else find t k := by
  induction t with
  | nil => simp [erase, find]
  | cons e t ih =>
    obtain ⟨x, y⟩ := e
    by_cases h : x = a
    · have : erase ((x, y) :: t) a = erase t a := by simp [erase, h]
      rw [this, ih, find_cons]
      split
      · rfl
      · rw [if_neg (by omega)]
    · have : erase ((x, y) :: t) a = (x, y) :: erase t a := by simp [erase, h]
      rw [this, find_cons, find_cons, ih]
      by_cases hk : k = a
      · rw [if_neg (by omega), if_pos hk]
        simp [hk]
      · simp [hk]

theorem find_map (t : List (Nat × Nat)) (a q k : Nat) : find (t.map fun e => if e.1 = a then (e.1, q) else e) k =
    if k = a then (find t k).map fun _ => q else find t k := by
  induction t with
  | nil => simp [find]
  | cons e t ih =>
    obtain ⟨x, y⟩ := e
    rw [List.map_cons, find_cons]
    by_cases h : x = a
    · simp only [h, if_true, find_cons, ih]
      by_cases hk : a = k
      · simp [hk]
      · simp [hk]
    · simp only [h, if_false, find_cons, ih]
      by_cases hk : x = k
      · simp [hk]; omega
      · simp [hk]

theorem isIn_keyed {s : ST} (h : Keyed s) (k : Nat) : isIn s k = some (find s.tab k) := by
  unfold isIn
  rcases hf : find s.tab k with _ | p
  · rfl
  · simp [(h k p hf).1]

theorem add_new {s : ST} {k p : Nat} (h : find s.tab k = none) : add s k p = some { s with tab := (k, p) :: s.tab } := by
  unfold add; rw [h]

/-- Property C146, adding a symbol with a new name: it is found, and the others as before; a name that is there is not accepted. -/
theorem C146_add (s : ST) (hs : Keyed s) (p : Nat) (hp : p < s.next) :
    (find s.tab (s.ids p) = none → ∃ s', add s (s.ids p) p = some s' ∧ Keyed s' ∧
      ∀ k, isIn s' k = some (if k = s.ids p then some p else find s.tab k)) ∧
    (∀ k q, find s.tab k = some q → add s k p = none) := by
  refine ⟨fun h => ?_, fun k q h => by unfold add; rw [h]⟩
  have hk : Keyed { s with tab := (s.ids p, p) :: s.tab } := by
    intro k q hq
    rw [find_cons] at hq
    split at hq
    · obtain rfl := Option.some.inj hq
      rename_i h1
      exact ⟨h1, hp⟩
    · exact hs k q hq
  refine ⟨_, add_new h, hk, fun k => ?_⟩
  rw [isIn_keyed hk, find_cons]
  by_cases h1 : k = s.ids p
  · simp [h1]
  · rw [if_neg (by omega), if_neg h1]

/-- Property C146, taking a symbol out of the table. -/
theorem C146_remove (s : ST) (hs : Keyed s) (k p : Nat) (h : find s.tab k = some p) :
    ∃ s', remove s k = some (p, s') ∧ Keyed s' ∧ ∀ k', isIn s' k' = some (if k' = k then none else find s.tab k') := by
  have hk : Keyed { s with tab := erase s.tab k } := by
    intro k' q hq
    rw [find_erase] at hq
    split at hq
    · exact absurd hq (by simp)
    · exact hs k' q hq
  refine ⟨_, by unfold remove; rw [h]; rfl, hk, fun k' => ?_⟩
  rw [isIn_keyed hk, find_erase]

/-- Property C146, another symbol of the same name in place of one. -/
theorem C146_replace_symbol (s : ST) (hs : Keyed s) (p q : Nat) (h : find s.tab (s.ids p) = some p) (hq : s.ids q = s.ids p) (hn : q < s.next) :
    ∃ s', replaceSym s p q = some s' ∧ Keyed s' ∧ ∀ k, isIn s' k = some (if k = s.ids p then some q else find s.tab k) := by
  have hf := find_map s.tab (s.ids p) q
  have hk : Keyed { s with tab := s.tab.map fun e => if e.1 = s.ids p then (e.1, q) else e } := by
    intro k r hr
    rw [hf k] at hr
    split at hr
    · rename_i h1
      rw [h1, h] at hr
      obtain rfl := Option.some.inj hr
      exact ⟨hq.trans h1.symm, hn⟩
    · exact hs k r hr
  refine ⟨_, by unfold replaceSym; rw [if_pos hq.symm, h]; simp only [if_true], hk, fun k => ?_⟩
  rw [isIn_keyed hk, hf k]
  by_cases h1 : k = s.ids p
  · simp [h1, h]
  · simp [h1]

theorem replaceId_spec {s : ST} {old new p : Nat} (h : find s.tab old = some p) (hn : find s.tab new = none) (_hne : old ≠ new) :
    replaceId s old new p = some { s with tab := (new, p) :: erase s.tab old } := by
  have h1 : find (erase s.tab old) new = none := by rw [find_erase]; split <;> simp_all
  unfold replaceId dropOld
  rw [h]
  simp only [if_true, Option.bind_some, dropNew, h1, add]

/-- Property C146, a new name for a symbol: it is found under this name instead; a symbol that had the name is no more in the table. -/
theorem C146_replace_name (s : ST) (hs : Keyed s) (old new p : Nat) (h : find s.tab old = some p) (hne : old ≠ new) :
    ∃ s', replaceId (setId s p new) old new p = some s' ∧ Keyed s' ∧
      ∀ k, isIn s' k = some (if k = new then some p else if k = old then none else find s.tab k) := by
  have hp := hs old p h
  have h1 : dropOld (setId s p new) old p = some { setId s p new with tab := erase s.tab old } := by
    unfold dropOld; simp only [setId, h, if_true]
  have h2 : ∃ t, dropNew { setId s p new with tab := erase s.tab old } new p = some { setId s p new with tab := t } ∧
      ∀ k, find t k = if k = new then none else if k = old then none else find s.tab k := by
    unfold dropNew
    have hf : find (erase s.tab old) new = find s.tab new := by rw [find_erase, if_neg (Ne.symm hne)]
    rcases hq : find s.tab new with _ | q
    · refine ⟨erase s.tab old, by simp only [hf, hq], fun k => ?_⟩
      rw [find_erase]
      by_cases hk : k = new
      · simp [hk, hq]
      · simp [hk]
    · have hqp : q ≠ p := by rintro rfl; exact hne (hp.1.symm.trans (hs new q hq).1)
      refine ⟨erase (erase s.tab old) new, by simp only [hf, hq, if_pos hqp], fun k => ?_⟩
      rw [find_erase, find_erase]
  obtain ⟨t, h2, ht⟩ := h2
  have hk : Keyed { setId s p new with tab := (new, p) :: t } := by
    intro k q hq
    simp only [find_cons, setId] at hq ⊢
    split at hq
    · obtain rfl := Option.some.inj hq
      rename_i h
      exact ⟨by simp [h], hp.2⟩
    · rw [ht] at hq
      split at hq
      · exact absurd hq (by simp)
      · split at hq
        · exact absurd hq (by simp)
        · have := hs k q hq
          refine ⟨?_, this.2⟩
          rw [if_neg (by rintro rfl; omega)]
          exact this.1
  refine ⟨_, by unfold replaceId; rw [h1, Option.bind_some, h2, Option.bind_some, add_new (by simp [ht])], hk, fun k => ?_⟩
  rw [isIn_keyed hk, find_cons, ht]
  by_cases h3 : k = new
  · simp [h3]
  · rw [if_neg (Ne.symm h3), if_neg h3, if_neg h3]

theorem clone_keyed {s : ST} (hs : Keyed s) (k : Nat) : Keyed { (clone s k).2 with tab := (k, s.next) :: s.tab } := by
  intro k' q hq
  simp only [find_cons, clone] at hq ⊢
  split at hq
  · obtain rfl := Option.some.inj hq
    simp; omega
  · have := hs k' q hq
    refine ⟨?_, by omega⟩
    rw [if_neg (by omega)]
    exact this.1

/-- Property C146, merging another table into one: no assertion fails, what was there stays, and the names that were not get symbols of their own. -/
theorem C146_merge : ∀ (fm : List (Nat × Nat)) (s : ST), Keyed s → (∀ e ∈ fm, e.2 = e.1) →
    ∃ s', merge fm s = some s' ∧ Keyed s' ∧ s.next ≤ s'.next ∧ (∀ k p, find s.tab k = some p → find s'.tab k = some p) ∧
      (∀ k, (find s'.tab k).isSome ↔ (find s.tab k).isSome ∨ k ∈ fm.map (·.1)) ∧
      ∀ k p, find s.tab k = none → find s'.tab k = some p → s.next ≤ p
  | [], s, hs, _ => ⟨s, rfl, hs, Nat.le_refl _, fun _ _ h => h, by simp, by intro k p h h'; rw [h] at h'; exact absurd h' (by simp)⟩
  | (k, i) :: fm, s, hs, he => by
    obtain rfl : i = k := he (k, i) (by simp)
    have he' : ∀ e ∈ fm, e.2 = e.1 := fun e h => he e (by simp [h])
    rcases hf : find s.tab i with _ | p
    · have hk := clone_keyed hs i
      obtain ⟨s', h1, h2, h3, h4, h5, h6⟩ := C146_merge fm _ hk he'
      simp only [clone] at h3 h4 h5 h6
      refine ⟨s', ?_, h2, by omega, ?_, ?_, ?_⟩
      · simp only [merge, isIn_keyed hs, hf, Option.bind_some]
        rw [add_new (by simpa [clone] using hf)]
        exact h1
      · intro k' p hp
        apply h4
        rw [find_cons, if_neg (by rintro rfl; rw [hf] at hp; exact absurd hp (by simp))]
        exact hp
      · intro k'
        rw [h5, find_cons]
        by_cases hh : i = k'
        · simp [hh]
        · rw [if_neg hh]
          simp only [List.map_cons, List.mem_cons]
          constructor
          · rintro (h | h)
            · exact .inl h
            · exact .inr (.inr h)
          · rintro (h | h | h)
            · exact .inl h
            · exact absurd h.symm hh
            · exact .inr h
      · intro k' p hn hp
        by_cases hh : i = k'
        · have := h4 k' s.next (by rw [find_cons, if_pos hh])
          rw [this] at hp
          have := Option.some.inj hp
          omega
        · have := h6 k' p (by rw [find_cons, if_neg hh]; exact hn) hp
          omega
    · obtain ⟨s', h1, h2, h3, h4, h5, h6⟩ := C146_merge fm s hs he'
      refine ⟨s', ?_, h2, h3, h4, ?_, h6⟩
      · simp only [merge, isIn_keyed hs, hf, Option.bind_some]
        exact h1
      · intro k'
        rw [h5]
        simp only [List.map_cons, List.mem_cons]
        constructor
        · rintro (h | h)
          · exact .inl h
          · exact .inr (.inr h)
        · rintro (h | h | h)
          · exact .inl h
          · left; rw [h, hf]; rfl
          · exact .inr h

/-- Property C146, copying a table where there are none of its names is merging it; -/
theorem C146_copy : ∀ (fm : List (Nat × Nat)) (s : ST), Keyed s → (∀ e ∈ fm, e.2 = e.1) → (fm.map (·.1)).Nodup →
    (∀ k ∈ fm.map (·.1), find s.tab k = none) → copy fm s = merge fm s
  | [], _, _, _, _, _ => rfl
  | (k, i) :: fm, s, hs, he, hd, hn => by
    obtain rfl : i = k := he (k, i) (by simp)
    have hf : find s.tab i = none := hn i (by simp)
    have hd' := List.nodup_cons.mp hd
    simp only [copy, merge, isIn_keyed hs, hf, Option.bind_some]
    rw [add_new (by simpa [clone] using hf)]
    refine C146_copy fm _ (clone_keyed hs i) (fun e h => he e (by simp [h])) hd'.2 fun k hk => ?_
    simp only [clone, find_cons]
    rw [if_neg (by rintro rfl; exact hd'.1 hk)]
    exact hn k (by simp only [List.map_cons, List.mem_cons]; exact .inr hk)

/-- and with a name in common an assertion fails. -/
theorem C146_copy_common : ∀ (fm : List (Nat × Nat)) (s : ST) (k p : Nat), k ∈ fm.map (·.1) → find s.tab k = some p → copy fm s = none
  | [], _, _, _, h, _ => absurd h (by simp)
  | (k', i) :: fm, s, k, p, h, hf => by
    rcases h' : find s.tab k' with _ | q
    · simp only [copy]
      rw [add_new (by simpa [clone] using h'), Option.bind_some]
      have hne : k' ≠ k := by rintro rfl; rw [h'] at hf; exact absurd hf (by simp)
      refine C146_copy_common fm _ k p ?_ ?_
      · simp only [List.map_cons, List.mem_cons] at h
        rcases h with h | h
        · exact absurd h.symm hne
        · exact h
      · simp only [clone, find_cons, if_neg hne, hf]
    · simp only [copy]
      unfold add
      simp only [clone, h', Option.bind_none]

/-- Property C146, the arguments of a class instance get the names of the parameters: none is lost, each goes to its own parameter, and nothing
else changes; given that no parameter has a temporary name, as those are no identifiers. -/
theorem C146_rename : ∀ (l : List (Nat × Nat)) (s : ST), Keyed s → (l.map (·.1)).Nodup → (l.map (·.2)).Nodup →
    (∀ a ∈ l.map (·.1), a ∉ l.map (·.2)) → (∀ b ∈ l.map (·.2), find s.tab b = none) →
    ∃ s', rename l s = some s' ∧ Keyed s' ∧ (∀ e ∈ l, find s'.tab e.2 = find s.tab e.1 ∧ find s'.tab e.1 = none) ∧
      ∀ k, k ∉ l.map (·.1) → k ∉ l.map (·.2) → find s'.tab k = find s.tab k
  | [], s, hs, _, _, _, _ => ⟨s, rfl, hs, by simp, fun _ _ _ => rfl⟩
  | (a, b) :: l, s, hs, ha, hb, hd, hn => by
    simp only [List.map_cons, List.nodup_cons] at ha hb
    simp only [List.map_cons, List.mem_cons, forall_eq_or_imp, not_or] at hd hn
    obtain ⟨⟨hab, hal⟩, hd⟩ := hd
    have hd' : ∀ x ∈ l.map (·.1), x ∉ l.map (·.2) := fun x hx => (hd x hx).2
    rcases hf : find s.tab a with _ | p
    · obtain ⟨s', h1, h2, h3, h4⟩ := C146_rename l s hs ha.2 hb.2 hd' hn.2
      have hbl : b ∉ l.map (·.1) := fun h => (hd b h).1 rfl
      refine ⟨s', ?_, h2, ?_, ?_⟩
      · simp only [rename, isIn_keyed hs, hf, Option.bind_some]; exact h1
      · intro e he
        rcases List.mem_cons.mp he with rfl | he
        · exact ⟨by rw [h4 b hbl hb.1, hn.1, hf], by rw [h4 a ha.1 hal, hf]⟩
        · exact h3 e he
      · intro k h5 h6
        simp only [List.map_cons, List.mem_cons, not_or] at h5 h6
        exact h4 k h5.2 h6.2
    · have hbl : b ∉ l.map (·.1) := fun h => (hd b h).1 rfl
      have hp := hs a p hf
      have hk : Keyed { setId s p b with tab := (b, p) :: erase s.tab a } := by
        intro k q hq
        simp only [find_cons, find_erase, setId] at hq ⊢
        split at hq
        · obtain rfl := Option.some.inj hq
          rename_i h
          exact ⟨by simp [h], hp.2⟩
        · split at hq
          · exact absurd hq (by simp)
          · have := hs k q hq
            refine ⟨?_, this.2⟩
            rw [if_neg (by rintro rfl; omega)]
            exact this.1
      have hfd : ∀ k, k ≠ a → k ≠ b → find ((b, p) :: erase s.tab a) k = find s.tab k := by
        intro k h5 h6
        rw [find_cons, find_erase, if_neg (Ne.symm h6), if_neg h5]
      obtain ⟨s', h1, h2, h3, h4⟩ := C146_rename l _ hk ha.2 hb.2 hd' (fun c hc => by
        rw [hfd c (by rintro rfl; exact hal hc) (by rintro rfl; exact hb.1 hc)]
        exact hn.2 c hc)
      refine ⟨s', ?_, h2, ?_, ?_⟩
      · simp only [rename, isIn_keyed hs, hf, Option.bind_some]
        rw [replaceId_spec (s := setId s p b) (p := p) hf hn.1 hab]
        exact h1
      · intro e he
        rcases List.mem_cons.mp he with rfl | he
        · refine ⟨?_, ?_⟩
          · rw [h4 b hbl hb.1, find_cons, if_pos rfl, hf]
          · rw [h4 a ha.1 hal, find_cons, find_erase, if_neg (Ne.symm hab), if_pos rfl]
        · obtain ⟨h5, h6⟩ := h3 e he
          refine ⟨?_, h6⟩
          have hm : e.1 ∈ l.map (·.1) := List.mem_map_of_mem he
          rw [h5, hfd e.1 (by rintro h; exact ha.1 (h ▸ hm)) (by rintro h; exact hbl (h ▸ hm))]
      · intro k h5 h6
        simp only [List.map_cons, List.mem_cons, not_or] at h5 h6
        rw [h4 k h5.2 h6.2, hfd k h5.1 h6.1]

/-- A class instance with two arguments, under the temporary names 100 and 101. -/
def ex : ST := ⟨[(100, 0), (101, 1), (7, 2)], fun p => if p = 0 then 100 else if p = 1 then 101 else 7, 3⟩
example : Keyed ex := by
  intro k p h
  simp only [ex, find_cons] at h ⊢
  split at h
  · obtain rfl := Option.some.inj h; simp_all
  · split at h
    · obtain rfl := Option.some.inj h; simp_all
    · split at h
      · obtain rfl := Option.some.inj h; simp_all
      · simp [find] at h
example : (rename [(100, 5), (101, 6)] ex).map (fun s => (find s.tab 5, find s.tab 6, find s.tab 7, find s.tab 100)) =
    some (some 0, some 1, some 2, none) := by decide
/-- If parameters could have temporary names, an argument would be lost, and the other go to the wrong parameter. -/
example : (rename [(100, 101), (101, 100)] ex).map (fun s => (find s.tab 100, find s.tab 101)) = some (some 0, none) := by decide
example : (merge [(7, 7), (8, 8)] ex).map (fun s => (find s.tab 7, find s.tab 8)) = some (some 2, some 3) := by decide
example : (copy [(7, 7), (8, 8)] ex).isNone := by decide
example : (replaceSym ex 2 2).map (fun s => find s.tab 7) = some (some 2) := by decide

end Ulam.SymTab
