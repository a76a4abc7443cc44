import Verif.UtiMap.Spec
import Mathlib.Tactic.Common
/-! # The types of a class instance in place of those of its template: property C147 -/
namespace Ulam.UtiMap

theorem map_new {m : Map} {a : Nat} (h : find m a = none) (b : Nat) : mapUTI m a b = some (true, (a, b) :: m) := by
  simp [mapUTI, key, insert, h, find]

/-- Property C147, mapping a type that is not mapped: it is then mapped to this, and the others as before. -/
theorem C147_map (m : Map) (a b : Nat) (h : find m a = none) :
    ∃ m', mapUTI m a b = some (true, m') ∧ ∀ k, find m' k = if k = a then some b else find m k :=
  ⟨_, map_new h b, fun k => by
    simp only [find]
    by_cases hk : k = a
    · simp [hk]
    · rw [if_neg (Ne.symm hk), if_neg hk]⟩

/-- Property C147, whatever is mapped remains so, and no assertion fails. -/
theorem C147_kept (m : Map) (a b : Nat) : ∃ r m', mapUTI m a b = some (r, m') ∧ ∀ k u, find m k = some u → find m' k = some u := by
  rcases h : find m (key m a) with _ | x
  · refine ⟨true, (key m a, b) :: m, by simp [mapUTI, insert, h, find], fun k u hk => ?_⟩
    simp only [find]
    rw [if_neg (by rintro rfl; rw [h] at hk; exact absurd hk (by simp))]
    exact hk
  · exact ⟨false, m, by simp [mapUTI, insert, h], fun _ _ hk => hk⟩

/-- Property C147, mapping a type again maps what it is mapped to: the answer is that it was done, but the type itself is mapped as before. -/
theorem C147_again (m : Map) (a b x : Nat) (h : find m a = some x) (hx : find m x = none) :
    ∃ m', mapUTI m a b = some (true, m') ∧ find m' a = some x ∧ find m' x = some b := by
  have hne : x ≠ a := by rintro rfl; rw [h] at hx; exact absurd hx (by simp)
  refine ⟨(x, b) :: m, by simp [mapUTI, key, insert, h, hx, find], ?_, by simp [find]⟩
  simp only [find]
  rw [if_neg hne]
  exact h

theorem requests_spec : ∀ (l : List Nat) (m : Map) (next : Nat), Apart m next →
    ∃ us m' next', requests l m next = some (us, m', next') ∧ Apart m' next' ∧ (∀ k u, find m k = some u → find m' k = some u) ∧
      (∀ k u, find m' k = some u → find m k = some u ∨ (next ≤ u ∧ k ∈ l)) ∧ us.map some = l.map (find m')
  | [], m, next, h => ⟨[], m, next, rfl, h, fun _ _ h => h, fun _ _ h => .inl h, rfl⟩
  | s :: l, m, next, h => by
    rcases hf : find m s with _ | u
    · have hA : Apart ((s, next) :: m) (next + 1) := by
        constructor
        · intro a b u ha hb
          simp only [find] at ha hb
          split at ha
          · split at hb
            · omega
            · have := Option.some.inj ha
              have := h.2 b u hb
              omega
          · split at hb
            · have := Option.some.inj hb
              have := h.2 a u ha
              omega
            · exact h.1 a b u ha hb
        · intro a u ha
          simp only [find] at ha
          split at ha
          · have := Option.some.inj ha; omega
          · have := h.2 a u ha; omega
      obtain ⟨us, m', next', h1, h2, h3, h4, h5⟩ := requests_spec l ((s, next) :: m) (next + 1) hA
      have hs : find m' s = some next := h3 s next (by simp [find])
      refine ⟨next :: us, m', next', ?_, h2, ?_, ?_, ?_⟩
      · simp only [requests, request, hf, map_new hf, Option.bind_some, if_true, h1, Option.map_some]
      · intro k u hk
        apply h3
        simp only [find]
        rw [if_neg (by rintro rfl; rw [hf] at hk; exact absurd hk (by simp))]
        exact hk
      · intro k u hk
        rcases h4 k u hk with h6 | ⟨h6, h7⟩
        · simp only [find] at h6
          split at h6
          · rename_i hsk
            have := Option.some.inj h6
            exact .inr ⟨by omega, by simp [hsk]⟩
          · exact .inl h6
        · exact .inr ⟨by omega, by simp [h7]⟩
      · simp only [List.map_cons, hs, h5]
    · obtain ⟨us, m', next', h1, h2, h3, h4, h5⟩ := requests_spec l m next h
      refine ⟨u :: us, m', next', ?_, h2, h3, ?_, ?_⟩
      · simp only [requests, request, hf, Option.bind_some, h1, Option.map_some]
      · intro k u hk
        rcases h4 k u hk with h6 | ⟨h6, h7⟩
        · exact .inl h6
        · exact .inr ⟨h6, by simp [h7]⟩
      · simp only [List.map_cons, h3 s u hf, h5]

/-- Property C147, in an instance each type to be copied has one copy, whenever and however often it is asked for, and different ones have
different copies; types that were mapped before have what they were mapped to. No assertion fails. -/
theorem C147_requests (l : List Nat) (m : Map) (next : Nat) (h : Apart m next) :
    ∃ us m' next', requests l m next = some (us, m', next') ∧ us.length = l.length ∧
      (∀ (i j : Nat) (a b u v : Nat), l[i]? = some a → us[i]? = some u → l[j]? = some b → us[j]? = some v → (u = v ↔ a = b)) ∧
      (∀ (i a u w : Nat), l[i]? = some a → us[i]? = some u → find m a = some w → u = w) ∧
      ∀ (i a u : Nat), l[i]? = some a → us[i]? = some u → find m a = none → next ≤ u := by
  obtain ⟨us, m', next', h1, h2, h3, h4, h5⟩ := requests_spec l m next h
  have key : ∀ (i a u : Nat), l[i]? = some a → us[i]? = some u → find m' a = some u := by
    intro i a u ha hu
    have := congrArg (fun x => x[i]?) h5
    simpa [ha, hu, eq_comm] using this
  refine ⟨us, m', next', h1, by simpa using congrArg List.length h5, ?_, ?_, ?_⟩
  · intro i j a b u v ha hu hb hv
    have hau := key i a u ha hu
    have hbv := key j b v hb hv
    constructor
    · rintro rfl; exact h2.1 a b u hau hbv
    · rintro rfl; rw [hau] at hbv; exact Option.some.inj hbv
  · intro i a u w ha hu hw
    have := key i a u ha hu
    rw [h3 a w hw] at this
    exact (Option.some.inj this).symm
  · intro i a u ha hu hn
    rcases h4 a u (key i a u ha hu) with h6 | h6
    · rw [hn] at h6; exact absurd h6 (by simp)
    · exact h6.1

theorem find_none {m : Map} {k : Nat} (h : k ∉ m.map (·.1)) : find m k = none := by
  induction m with
  | nil => rfl
  | cons e m ih =>
    simp only [List.map_cons, List.mem_cons, not_or] at h
    obtain ⟨a, b⟩ := e
    simp only [find]
    rw [if_neg (Ne.symm h.1)]
    exact ih h.2

theorem clone_spec (isClass : Nat → Bool) : ∀ (fm m : Map), (fm.map (·.1)).Nodup → (∀ a ∈ fm.map (·.1), find m a = none) →
    ∃ m', cloneMap isClass fm m = some m' ∧ ∀ k, find m' k = if isClass k = false ∧ (find fm k).isSome then find fm k else find m k
  | [], m, _, _ => ⟨m, rfl, by simp [find]⟩
  | (a, b) :: fm, m, hd, hn => by
    have hd' := List.nodup_cons.mp hd
    have hna : find fm a = none := find_none hd'.1
    have ha : find m a = none := hn a (by simp)
    rcases hc : isClass a with _ | _
    · obtain ⟨m', h1, h2⟩ := clone_spec isClass fm ((a, b) :: m) hd'.2 (fun x hx => by
        simp only [find]
        rw [if_neg (by rintro rfl; exact hd'.1 hx)]
        exact hn x (by simp only [List.map_cons, List.mem_cons]; exact .inr hx))
      refine ⟨m', by simp only [cloneMap, hc, Bool.false_eq_true, if_false, map_new ha, Option.bind_some, h1], fun k => ?_⟩
      rw [h2]
      by_cases hk : a = k
      · subst hk
        simp [find, hna, hc]
      · simp [find, hk]
    · obtain ⟨m', h1, h2⟩ := clone_spec isClass fm m hd'.2 (fun x hx => hn x (by simp only [List.map_cons, List.mem_cons]; exact .inr hx))
      refine ⟨m', by simp only [cloneMap, hc, if_true, h1], fun k => ?_⟩
      rw [h2]
      by_cases hk : a = k
      · subst hk
        simp [hc]
      · simp [find, hk]

/-- Property C147, the copy of a map has the types that are no classes as they are, and the others as they were; where none of them was mapped. -/
theorem C147_clone (isClass : Nat → Bool) (fm m : Map) (hd : (fm.map (·.1)).Nodup) (hn : ∀ a ∈ fm.map (·.1), find m a = none) :
    ∃ m', cloneMap isClass fm m = some m' ∧ (∀ k, isClass k = false → k ∈ fm.map (·.1) → find m' k = find fm k) ∧
      ∀ k, (isClass k = true ∨ k ∉ fm.map (·.1)) → find m' k = find m k := by
  obtain ⟨m', h1, h2⟩ := clone_spec isClass fm m hd hn
  refine ⟨m', h1, fun k hc hk => ?_, fun k hk => ?_⟩
  · rw [h2]
    split
    · rfl
    · rename_i h3
      rw [hn k hk]
      simp only [hc, true_and] at h3
      rcases hf : find fm k with _ | x
      · rfl
      · simp [hf] at h3
  · rw [h2]
    rcases hk with hk | hk
    · simp [hk]
    · simp [find_none hk]

example : Apart [(3, 9)] 10 := by
  constructor
  · intro a b u ha hb
    simp only [find] at ha hb
    split at ha <;> split at hb <;> simp_all
  · intro a u ha
    simp only [find] at ha
    split at ha <;> simp_all <;> omega
/-- Requests for 5, 3, 6, 5 where 3 is mapped to 9. -/
example : (requests [5, 3, 6, 5] [(3, 9)] 10).map (·.1) = some [10, 9, 11, 10] := by decide
example : cloneMap (· == 4) [(3, 9), (4, 8)] [] = some [(3, 9)] := by decide
example : mapUTI [(3, 9)] 3 7 = some (true, [(9, 7), (3, 9)]) := by decide

end Ulam.UtiMap
