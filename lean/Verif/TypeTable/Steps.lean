import Verif.TypeTable.Lemmas
/-! Every operation keeps the tables in agreement. -/
namespace Ulam.TypeTable
open Ulam.Keys Spec
variable {no : Key}

/-- What any operation does: the tables agree, and numbers that are not its subject keep their meaning. -/
structure After (no : Key) (s t : State) (o : Option Nat) : Prop where
  inv : Inv no t
  len : s.keys.length ≤ t.keys.length
  keep : ∀ u k, o ≠ some u → s.keys[u]? = some k → t.keys[u]? = some k
  old : ∀ u k, o ≠ some u → u < s.keys.length → t.keys[u]? = some k → s.keys[u]? = some k

theorem After.same {s : State} (I : Inv no s) (o : Option Nat) : After no s s o :=
  ⟨I, Nat.le_refl _, fun _ _ _ h => h, fun _ _ _ _ h => h⟩

theorem Changed.after {s t : State} {u : Nat} (C : Changed no s t u) : After no s t (some u) :=
  ⟨C.inv, Nat.le_of_eq C.len.symm, fun v k hv h => by rw [C.others v (fun q => hv (by rw [q]))]; exact h,
    fun v k hv _ h => by rw [C.others v (fun q => hv (by rw [q]))] at h; exact h⟩

theorem enter_after {s t : State} (I : Inv no s) {key : Key} {kind v : Nat}
    (h : enter s key kind (s.keys.length % 65536) = some (t, v)) : After no s t none := by
  obtain ⟨J, _, hk, _, _⟩ := enter_spec I h
  refine ⟨J, by rw [hk]; simp, fun u k _ q => ?_, fun u k _ hl q => ?_⟩
  · rw [hk, List.getElem?_append_left (List.getElem?_eq_some_iff.1 q).1]; exact q
  · rw [hk, List.getElem?_append_left hl] at q; exact q

theorem make_after {s t : State} (I : Inv no s) {key : Key} {kind v : Nat} {f : Nat → Option Bool}
    (h : makeUlamType s key kind f = some (t, v)) : After no s t none := by
  unfold makeUlamType at h
  dsimp only at h
  split at h
  · rw [Option.map_eq_some_iff] at h
    obtain ⟨_, _, h⟩ := h
    cases h
    exact .same I none
  · split at h
    · split at h
      · exact enter_after I h
      · split at h
        · exact enter_after I h
        · split at h
          · exact enter_after I h
          · rw [Option.bind_eq_some_iff] at h
            obtain ⟨b, _, h⟩ := h
            split at h
            · exact enter_after I h
            · cases h; exact .same I none
    · exact enter_after I h

theorem typeByIndex_some {s : State} {u : Nat} {p : Key × Nat} (h : typeByIndex s u = some p) :
    s.keys[u]? = some p.1 ∧ isDefined s p.1 = some p.2 := by
  unfold typeByIndex at h
  rw [Option.bind_eq_some_iff] at h
  obtain ⟨k, h1, h2⟩ := h
  rw [Option.map_eq_some_iff] at h2
  obtain ⟨t, h3, rfl⟩ := h2
  exact ⟨h1, h3⟩

theorem makeHolder_after {s t : State} (I : Inv no s) {v : Nat} (h : makeHolder s = some (t, v)) :
    After no s t none ∧ v = s.keys.length := by
  unfold makeHolder at h
  dsimp only at h
  rw [Option.bind_eq_some_iff] at h
  obtain ⟨p, hp, h⟩ := h
  obtain ⟨h1, h2⟩ := typeByIndex_some hp
  rw [Option.map_eq_some_iff] at h
  obtain ⟨t', h3, h4⟩ := h
  cases h4
  have hi := increment_fields s p.1 (s.keys.length % 65536)
  unfold initAlias at h3
  split_ifs at h3 with e
  dsimp only at e
  rw [hi.2.2, ← I.len] at e
  rw [e] at h3 ⊢
  have h3 := Option.some.inj h3
  have hi := increment_fields s p.1 s.keys.length
  have : t = { increment s p.1 s.keys.length with
      keys := s.keys ++ [p.1], types := insert s.types p.1 p.2, root := s.root ++ [s.keys.length] } := by
    rw [← h3, insert_present _ _ _ (by unfold isDefined at h2; rw [h2]; rfl)]
    dsimp only
    rw [hi.1, hi.2.1, hi.2.2]
  refine ⟨?_, rfl⟩
  have hk : t.keys = s.keys ++ [p.1] := by rw [this]
  refine ⟨?_, by rw [hk]; simp, fun u k _ q => ?_, fun u k _ hl q => ?_⟩
  · rw [this]
    refine inv_put I p.1 p.2 _ _ _ ?_ ?_ ?_ ?_ ?_
    · simp [I.len]
    · have h0 : 0 < s.keys.length := (List.getElem?_eq_some_iff.1 I.zero).1
      rw [List.getElem?_append_left h0]; exact I.zero
    · simp
    · intro v hv
      by_cases q : v < s.keys.length
      · rw [List.getElem?_append_left q]
      · rw [List.getElem?_eq_none (by simp; omega), List.getElem?_eq_none (by omega)]
    · exact .inl (List.getElem?_eq_none (Nat.le_refl _))
  · rw [hk, List.getElem?_append_left (List.getElem?_eq_some_iff.1 q).1]; exact q
  · rw [hk, List.getElem?_append_left hl] at q; exact q

theorem fromHolder_changed {s t : State} (I : Inv no s) {new : Key} {kind u v : Nat} {c : Bool} (h0 : u ≠ 0)
    (h : makeFromHolder s new kind u c = some (t, v)) : Changed no s t u ∧ v = u ∧ t.keys[u]? = some new := by
  unfold makeFromHolder keyByIndex at h
  rw [Option.bind_eq_some_iff] at h
  obtain ⟨old, hu, h⟩ := h
  split_ifs at h with e
  · rw [Option.bind_eq_some_iff] at h
    obtain ⟨x, _, h⟩ := h
    split_ifs at h
    cases h
    exact ⟨.rfl I u, rfl, by rw [hu, e]⟩
  · rw [Option.bind_eq_some_iff] at h
    obtain ⟨s1, _, h⟩ := h
    rw [Option.bind_eq_some_iff] at h
    obtain ⟨a, _, h⟩ := h
    rw [Option.bind_eq_some_iff] at h
    obtain ⟨s2, h2, h⟩ := h
    rw [Option.map_eq_some_iff] at h
    obtain ⟨s3, h3, h4⟩ := h
    cases h4
    obtain ⟨C, d, _⟩ := rekey_spec I hu h0 h2
    unfold updateAlias at h3
    split_ifs at h3
    · have := updateAliasForced_spec h3
      exact ⟨C.root h3, rfl, by rw [this]; exact d⟩
    · cases h3; exact ⟨C, rfl, d⟩

theorem replace_changed {s t : State} (I : Inv no s) {old new v : Nat} (hne : old ≠ new)
    (h : replaceKeyAndAlias s old new = some (t, v)) : Changed no s t old ∧ v = old ∧ t.keys[old]? = s.keys[new]? := by
  unfold replaceKeyAndAlias at h
  split_ifs at h with hok
  have h0 : old ≠ 0 := by
    have := hok.1
    unfold okUTI nouti at this
    simp only [decide_eq_true_eq] at this
    exact this.2.2
  rw [Option.bind_eq_some_iff] at h
  obtain ⟨n, hn, h⟩ := h
  rw [Option.bind_eq_some_iff] at h
  obtain ⟨k, hk, h⟩ := h
  rw [Option.bind_eq_some_iff] at h
  obtain ⟨s1, h1, h⟩ := h
  unfold keyByIndex at hk
  obtain ⟨I1, k1, r1⟩ := deleteKey_spec I hk h0 h1
  obtain ⟨hn1, _⟩ := typeByIndex_some hn
  dsimp only at h
  split_ifs at h with hl
  rw [Option.map_eq_some_iff] at h
  obtain ⟨s3, h3, h4⟩ := h
  cases h4
  have hi := increment_fields s1 n.1 old
  rw [hi.1] at hl
  have hn' : s1.keys[new]? = some n.1 := by rw [k1, List.getElem?_set_ne hne]; exact hn1
  obtain ⟨ty, hty⟩ := I1.defined hn'
  have hlt : old < s.keys.length := (List.getElem?_eq_some_iff.1 hk).1
  have P := inv_put I1 n.1 ty old (s1.keys.set old n.1) s1.root (by rw [List.length_set, I1.len])
    (by rw [List.getElem?_set_ne h0]; exact I1.zero) (List.getElem?_set_self hl)
    (fun v hv => List.getElem?_set_ne (Ne.symm hv)) (.inr (.inl (by rw [k1, List.getElem?_set_self hlt])))
  have e : ({ increment s1 n.1 old with keys := (increment s1 n.1 old).keys.set old n.1 } : State) =
      { increment s1 n.1 old with keys := s1.keys.set old n.1, types := insert s1.types n.1 ty, root := s1.root } := by
    rw [insert_present _ _ _ (by unfold isDefined at hty; rw [hty]; rfl), hi.1]
    have h2 := hi.2.1
    have h3 := hi.2.2
    rw [← h2, ← h3]
  rw [← e] at P
  have C : Changed no s { increment s1 n.1 old with keys := (increment s1 n.1 old).keys.set old n.1 } old := by
    refine ⟨P, ?_, fun v hv => ?_⟩
    · dsimp only; rw [hi.1, k1]; simp
    · dsimp only; rw [hi.1, List.getElem?_set_ne (Ne.symm hv), k1, List.getElem?_set_ne (Ne.symm hv)]
  refine ⟨C.root h3, rfl, ?_⟩
  rw [updateAliasForced_spec h3]
  dsimp only
  rw [hi.1, List.getElem?_set_self hl, hn1]

theorem cleanup_changed {s t : State} (I : Inv no s) {huti new v : Nat} {c hc : Bool} (h0 : huti ≠ 0)
    (h : cleanupHolder s huti new c hc = some (t, v)) : Changed no s t huti := by
  unfold cleanupHolder at h
  split_ifs at h
  · cases h; exact .rfl I _
  · rw [Option.bind_eq_some_iff] at h
    obtain ⟨p, _, h⟩ := h
    split_ifs at h
    rw [Option.bind_eq_some_iff] at h
    obtain ⟨n, _, h⟩ := h
    rw [Option.bind_eq_some_iff] at h
    obtain ⟨r, h1, h⟩ := h
    rw [Option.map_eq_some_iff] at h
    obtain ⟨s2, h2, h3⟩ := h
    cases h3
    exact (fromHolder_changed I h0 (by rw [h1])).1.root h2

theorem resize_changed {s t : State} (I : Inv no s) {k : Key} {bits arr : Int} {kind u v : Nat} (hu : s.keys[u]? = some k)
    (h0 : u ≠ 0) (h : resize s k bits arr kind u = some (t, v)) :
    Changed no s t u ∧ t.keys[u]? = some { k with bits := bits, arraySize := arr } := by
  unfold resize at h
  split_ifs at h with e
  · cases h
    unfold resized at e
    exact ⟨.rfl I u, by rw [← e]; exact hu⟩
  · rw [Option.bind_eq_some_iff] at h
    obtain ⟨s1, h1, h⟩ := h
    rw [Option.map_eq_some_iff] at h
    obtain ⟨s2, h2, h3⟩ := h
    cases h3
    obtain ⟨C, d, _⟩ := rekey_spec I hu h0 h1
    exact ⟨C.root h2, by rw [updateAliasForced_spec h2]; exact d⟩

theorem setSizes_changed {s t : State} (I : Inv no s) {bits arr : Int} {u v : Nat} {mk : Bool} (h0 : u ≠ 0)
    (h : setSizes s u bits arr mk = some (t, v)) : Changed no s t u := by
  unfold setSizes at h
  rw [Option.bind_eq_some_iff] at h
  obtain ⟨p, hp, h⟩ := h
  obtain ⟨h1, _⟩ := typeByIndex_some hp
  split_ifs at h
  · cases h; exact .rfl I u
  · cases h; exact .rfl I u
  · cases h; exact .rfl I u
  · exact (resize_changed I h1 h0 h).1
  · cases h; exact .rfl I u
  · cases h; exact .rfl I u
  · exact (resize_changed I h1 h0 h).1

/-- Every operation as the compiler uses it. -/
theorem step_after {s t : State} (I : Inv no s) {o : Op} (P : Proper o) {v : Nat} (h : step s o = some (t, v)) :
    After no s t (subject o) := by
  have hs := P.1
  cases o with
  | make k ty f => exact make_after I h
  | holder => exact (makeHolder_after I h).1
  | fromHolder k ty u c => exact (fromHolder_changed I (fun q => hs (by rw [q]; rfl)) h).1.after
  | replace a b => exact (replace_changed I (P.2 a b rfl) h).1.after
  | cleanup a b c hc => exact (cleanup_changed I (fun q => hs (by rw [q]; rfl)) h).after
  | sizes u b a m => exact (setSizes_changed I (fun q => hs (by rw [q]; rfl)) h).after
  | holderSize u b a =>
    simp only [step, setHolderSize] at h
    rw [Option.bind_eq_some_iff] at h
    obtain ⟨p, hp, h⟩ := h
    exact (resize_changed I (typeByIndex_some hp).1 (fun q => hs (by rw [q]; rfl)) h).1.after
  | classSize u b a m c f =>
    simp only [step, setClassSize] at h
    split at h
    · rw [Option.bind_eq_some_iff] at h
      obtain ⟨p, hp, h⟩ := h
      split at h
      · cases h; exact .same I _
      · split at h
        · exact (resize_changed I (typeByIndex_some hp).1 (fun q => hs (by rw [q]; rfl)) h).1.after
        · cases h; exact .same I _
    · cases h; exact .same I _
  | forget u =>
    simp only [step, TypeTable.forget] at h
    rw [Option.bind_eq_some_iff] at h
    obtain ⟨p, hp, h⟩ := h
    rw [Option.map_eq_some_iff] at h
    obtain ⟨s1, h1, h2⟩ := h
    cases h2
    obtain ⟨J, k1, _⟩ := deleteKey_spec I (typeByIndex_some hp).1 (fun q => hs (by rw [q]; rfl)) h1
    exact Changed.after ⟨J, by rw [k1]; simp, fun v hv => by rw [k1, List.getElem?_set_ne (Ne.symm hv)]⟩

theorem run_cons {s : State} {o : Op} {os : List Op} {t : State} (h : run s (o :: os) = some t) :
    ∃ s1 v, step s o = some (s1, v) ∧ run s1 os = some t := by
  simp only [run] at h
  rw [Option.bind_eq_some_iff] at h
  obtain ⟨⟨s1, v⟩, h1, h2⟩ := h
  exact ⟨s1, v, h1, h2⟩

theorem run_append (s : State) (os os' : List Op) : run s (os ++ os') = (run s os).bind fun t => run t os' := by
  induction os generalizing s with
  | nil => rfl
  | cons o os ih =>
    simp only [List.cons_append, run]
    cases step s o with
    | none => rfl
    | some r => simp only [Option.bind_some, ih]

theorem run_inv {s t : State} (I : Inv no s) {os : List Op} (P : ∀ o ∈ os, Proper o) (h : run s os = some t) :
    Inv no t ∧ s.keys.length ≤ t.keys.length ∧
    (∀ u k, (∀ o ∈ os, subject o ≠ some u) → s.keys[u]? = some k → t.keys[u]? = some k) ∧
    (∀ u k, (∀ o ∈ os, subject o ≠ some u) → u < s.keys.length → t.keys[u]? = some k → s.keys[u]? = some k) := by
  induction os generalizing s with
  | nil => cases h; exact ⟨I, Nat.le_refl _, fun _ _ _ q => q, fun _ _ _ _ q => q⟩
  | cons o os ih =>
    obtain ⟨s1, v, h1, h2⟩ := run_cons h
    have A := step_after I (P o (by simp)) h1
    obtain ⟨J, l, kp, od⟩ := ih A.inv (fun o ho => P o (by simp [ho])) h2
    refine ⟨J, Nat.le_trans A.len l, fun u k hq q => ?_, fun u k hq hl q => ?_⟩
    · exact kp u k (fun o ho => hq o (by simp [ho])) (A.keep u k (hq o (by simp)) q)
    · exact A.old u k (hq o (by simp)) hl (od u k (fun o ho => hq o (by simp [ho])) (Nat.lt_of_lt_of_le hl A.len) q)

theorem reachable_inv {s : State} (R : Reachable no s) : Inv no s := by
  obtain ⟨os, P, h⟩ := R
  exact (run_inv (inv_start no) P h).1

/-- The answer when the type is in the table: the least number of the signature. -/
theorem any_least {s : State} (I : Inv no s) {k : Key} (h : (isDefined s k).isSome) :
    ∃ u, anyDefinedUTI s k = some u ∧ s.keys[u]? = some k ∧ ∀ v, s.keys[v]? = some k → u ≤ v := by
  unfold isDefined at h
  rw [I.defd] at h
  obtain ⟨l, hl⟩ := Option.isSome_iff_exists.1 h
  obtain ⟨ha, hne⟩ := I.asc k l hl
  obtain ⟨u, l', rfl⟩ := List.exists_cons_of_ne_nil hne
  rw [List.pairwise_cons] at ha
  have least : ∀ v ∈ u :: l', u ≤ v := by
    intro v hv
    rcases List.mem_cons.1 hv with rfl | hv
    · exact Nat.le_refl _
    · exact Nat.le_of_lt (ha.1 v hv)
  have mem : ∀ v, s.keys[v]? = some k → v ∈ u :: l' := by
    intro v hv
    obtain ⟨l2, e, m⟩ := I.full v k hv
    rw [hl] at e; cases e; exact m
  refine ⟨u, by simp [anyDefinedUTI, hl], ?_, fun v hv => least v (mem v hv)⟩
  rcases I.sound k _ u hl (by simp) with rfl | q
  · have := least 0 (mem 0 I.zero)
    have : u = 0 := by omega
    subst this
    exact I.zero
  · exact q

end Ulam.TypeTable
