import Verif.Templ.Lemmas

/-
C92  The use of a class template binds every parameter.
-/

namespace Ulam.Templ

variable {E : Type}

theorem fits_count : ∀ (ps : List (Param E)), ps.Pairwise (fun p q => p.dflt.isSome → q.dflt.isSome) →
    ∀ k, k ≤ ps.length → (ps.length ≤ k + numDefaults ps ↔ ∀ p ∈ ps.drop k, p.dflt.isSome) := by
  intro ps
  induction ps with
  | nil => intro _ k hk; simp [numDefaults]
  | cons p ps ih =>
    intro hp k hk
    rw [List.pairwise_cons] at hp
    have hle : numDefaults ps ≤ ps.length := List.length_filter_le _ _
    cases hd : p.dflt.isSome with
    | true =>
      have hall : ∀ q ∈ p :: ps, q.dflt.isSome = true := by
        intro q hq
        rcases List.mem_cons.1 hq with rfl | hq
        · exact hd
        · exact hp.1 q hq hd
      have hn : numDefaults (p :: ps) = (p :: ps).length := by
        unfold numDefaults; rw [List.filter_eq_self.2 hall]
      constructor
      · intro _ q hq; exact hall q (List.mem_of_mem_drop hq)
      · intro _; omega
    | false =>
      have hn : numDefaults (p :: ps) = numDefaults ps := by
        unfold numDefaults; rw [List.filter_cons_of_neg (by simp [hd])]
      cases k with
      | zero =>
        simp only [hn, List.length_cons, List.drop_zero]
        constructor
        · intro h; omega
        · intro h; have := h p (List.mem_cons_self ..); rw [hd] at this; cases this
      | succ k =>
        simp only [List.length_cons, Nat.add_le_add_iff_right] at hk
        rw [hn, List.drop_succ_cons, ← ih hp.2 k hk, List.length_cons]
        omega

theorem fits_drop (ps : List (Param E)) (es : List E) :
    Fits ps es ↔ es.length ≤ ps.length ∧ ∀ p ∈ ps.drop es.length, p.dflt.isSome := by
  unfold Fits
  refine and_congr_right fun _ => ⟨fun h p hp => ?_, fun h i p hi hp => ?_⟩
  · obtain ⟨j, hj, rfl⟩ := List.mem_iff_getElem.1 hp
    exact h (es.length + j) _ (by omega) (by rw [List.getElem_drop]; exact List.getElem?_eq_getElem _)
  · refine h p (List.mem_iff_getElem?.2 ⟨i - es.length, ?_⟩)
    rw [List.getElem?_drop, show es.length + (i - es.length) = i by omega]; exact hp

theorem hasDefault_drop {ps : List (Param E)} (hp : ps.Pairwise (fun p q => p.dflt.isSome → q.dflt.isSome))
    {k : Nat} (hk : k < ps.length) : hasDefault ps k = true ↔ ∀ p ∈ ps.drop k, p.dflt.isSome := by
  unfold hasDefault
  rw [List.getElem?_eq_getElem hk, List.drop_eq_getElem_cons hk]
  have h2 : (ps.drop k).Pairwise (fun p q => p.dflt.isSome → q.dflt.isSome) := hp.sublist (List.drop_sublist ..)
  rw [List.drop_eq_getElem_cons hk, List.pairwise_cons] at h2
  constructor
  · intro h p hp'
    rcases List.mem_cons.1 hp' with rfl | hp'
    · exact h
    · exact h2.1 p hp' h
  · intro h; exact h _ (List.mem_cons_self ..)

/-- A use after the template, in full. -/
theorem useSeen_iff {ps : List (Param E)} (hg : Good ps) (ts : List (Tok E)) (b : Block E) :
    useSeen ps ts = some b ↔ ∃ es, Loose ts es ∧ Fits ps es ∧ b = stub ps es := by
  have hdef := fits_count ps hg.trailing
  constructor
  · intro h
    unfold useSeen at h
    dsimp only at h
    split_ifs at h with h1 h2 h3 h4
    · obtain ⟨es, hes⟩ := loose_of_parseRest (some ps) ts ⟨⟨patched ps, []⟩, 0, 0⟩ (by simpa using h2)
      rw [parseRest_loose hes] at h2 h3 h4 h
      have hi := addAll_idx (some ps) es ⟨⟨patched ps, []⟩, 0, 0⟩
      rw [hi] at h3 h4
      simp only [Nat.zero_add] at h3 h4
      rw [addAll_seen ps es 0 0 [] (by omega)] at h
      simp only [Nat.zero_add, List.nil_append, List.drop_zero, Option.some.injEq] at h
      refine ⟨es, hes, (fits_drop ps es).2 ⟨by omega, (hasDefault_drop hg.trailing h3).1 h4⟩, ?_⟩
      rw [← h]
      have e : patched ps = table (ps.take es.length) false ++ table (ps.drop es.length) false := by
        rw [table, table, ← List.map_append, List.take_append_drop]; rfl
      rw [e, fixDefaults_seen, stub, canon_split ps es (by omega)]
      · intro q hq
        rw [Bool.eq_false_iff]
        intro hc
        have := (has_table _ _ _).1 hc
        obtain ⟨r, hr, e⟩ := List.mem_map.1 this
        have hd := hg.names
        rw [← List.take_append_drop es.length ps, List.map_append, List.nodup_append] at hd
        exact hd.2.2 _ (List.mem_map.2 ⟨r, hr, rfl⟩) _ (List.mem_map.2 ⟨q, hq, rfl⟩) e
      · exact hg.names.sublist ((List.drop_sublist ..).map _)
    · obtain ⟨es, hes⟩ := loose_of_parseRest (some ps) ts ⟨⟨patched ps, []⟩, 0, 0⟩ (by simpa using h2)
      rw [parseRest_loose hes] at h2 h3 h
      have hi := addAll_idx (some ps) es ⟨⟨patched ps, []⟩, 0, 0⟩
      rw [hi] at h3
      simp only [Nat.zero_add] at h3
      have hle : es.length ≤ ps.length := by
        by_contra hc
        have := addAll_many ps es ⟨⟨patched ps, []⟩, 0, 0⟩ (by simp) (by simpa using hc)
        simp only at this h2
        omega
      rw [addAll_seen ps es 0 0 [] (by omega)] at h
      simp only [Nat.zero_add, List.nil_append, List.drop_zero, Option.some.injEq] at h
      have hdrop : ps.drop es.length = [] := List.drop_eq_nil_of_le (by omega)
      refine ⟨es, hes, (fits_drop ps es).2 ⟨hle, by rw [hdrop]; intro p hp; cases hp⟩, ?_⟩
      rw [← h, stub, hdrop, List.take_of_length_le (by omega), canon_split ps es hle, hdrop]
      simp [table, canon, patched]
  · rintro ⟨es, hes, hf, rfl⟩
    have hf' := (fits_drop ps es).1 hf
    have hc : ¬ (closes ts && decide (ps.length > 0) && decide (numDefaults ps ≠ ps.length)) = true := by
      intro hc
      simp only [Bool.and_eq_true, decide_eq_true_eq] at hc
      cases hes with
      | nil r =>
        have := (hdef 0 (Nat.zero_le _)).2 (by simpa using hf'.2)
        have hle : numDefaults ps ≤ ps.length := List.length_filter_le _ _
        omega
      | bare => simp [closes] at hc
      | comma => simp [closes] at hc
    unfold useSeen
    rw [if_neg hc]
    dsimp only
    rw [parseRest_loose hes, addAll_seen ps es 0 0 [] (by omega)]
    simp only [Nat.zero_add, List.nil_append, List.drop_zero, gt_iff_lt, Nat.lt_irrefl, if_false]
    split_ifs with h3 h4
    · have e : patched ps = table (ps.take es.length) false ++ table (ps.drop es.length) false := by
        rw [table, table, ← List.map_append, List.take_append_drop]; rfl
      rw [e, fixDefaults_seen, stub, canon_split ps es (by omega)]
      · intro q hq
        rw [Bool.eq_false_iff]
        intro hc
        have := (has_table _ _ _).1 hc
        obtain ⟨r, hr, e⟩ := List.mem_map.1 this
        have hd := hg.names
        rw [← List.take_append_drop es.length ps, List.map_append, List.nodup_append] at hd
        exact hd.2.2 _ (List.mem_map.2 ⟨r, hr, rfl⟩) _ (List.mem_map.2 ⟨q, hq, rfl⟩) e
      · exact hg.names.sublist ((List.drop_sublist ..).map _)
    · exact absurd ((hasDefault_drop hg.trailing h3).2 hf'.2) h4
    · have hdrop : ps.drop es.length = [] := List.drop_eq_nil_of_le (by omega)
      rw [stub, hdrop, List.take_of_length_le (by omega), canon_split ps es hf'.1, hdrop]
      simp [table, canon, patched]

/-- A use before the template, in full. -/
theorem useBefore_iff {ps : List (Param E)} (hg : Good ps) (ts : List (Tok E)) (b : Block E) :
    useBefore ps ts = some b ↔ ∃ es, Loose ts es ∧ Fits ps es ∧ b = stub ps es := by
  have hdef := fits_count ps hg.trailing
  have key : ∀ es : List E, Loose ts es → useBefore ps ts =
      fixUnseen ps ⟨es.mapIdx (fun j _ => ⟨.temp j, false⟩), es.mapIdx (fun j e => ⟨.temp j, some e⟩)⟩ := by
    intro es hes
    unfold useBefore useUnseen
    dsimp only
    rw [parseRest_loose hes, addAll_unseen es 0 [] [] (by intro j _; rfl)]
    simp
  have fixed : ∀ es : List E, es.length ≤ ps.length →
      fixUnseen ps ⟨es.mapIdx (fun j _ => ⟨.temp j, false⟩), es.mapIdx (fun j e => ⟨.temp j, some e⟩)⟩ =
        if ps.length ≤ es.length + numDefaults ps then some (stub ps es) else none := by
    intro es hle
    unfold fixUnseen
    dsimp only
    simp only [List.length_mapIdx]
    obtain ⟨last', hl⟩ := fixLoop_all es ps 0 0 [] [] (by intro s hs; cases hs) (by intro s hs; cases hs) hle
      (by intro q _; rfl) hg.names
    simp only [Nat.zero_add, List.nil_append] at hl
    rw [hl]
    by_cases hc : ps.length ≤ es.length + numDefaults ps
    · rw [if_neg (by omega), if_neg (by omega), if_neg (by simp), if_pos hc]; rfl
    · rw [if_pos (by omega), if_neg hc]
  constructor
  · intro h
    have h0 := h
    unfold useBefore useUnseen at h
    dsimp only at h
    split_ifs at h with h1
    · simp at h
    · obtain ⟨es, hes⟩ := loose_of_parseRest none ts ⟨⟨[], []⟩, 0, 0⟩ (by simpa using h1)
      rw [key es hes] at h0
      by_cases hle : es.length ≤ ps.length
      · rw [fixed es hle] at h0
        split_ifs at h0 with h2
        exact ⟨es, hes, (fits_drop ps es).2 ⟨hle, (hdef _ hle).1 h2⟩, (Option.some.inj h0).symm⟩
      · exfalso
        unfold fixUnseen at h0
        dsimp only at h0
        simp only [List.length_mapIdx] at h0
        rw [if_neg (by omega), if_pos (by omega)] at h0
        cases h0
  · rintro ⟨es, hes, hf, rfl⟩
    have hf' := (fits_drop ps es).1 hf
    rw [key es hes, fixed es hf'.1, if_pos ((hdef _ hf'.1).2 hf'.2)]

/-! ### What the stub says -/

theorem canon_get : ∀ (ps : List (Param E)) (es : List E) (i : Nat),
    (canon ps es)[i]? = (ps[i]?).map (fun p => ⟨.own p.name, (es[i]?).or p.dflt⟩)
  | [], _, _ => by simp [canon]
  | p :: ps, [], 0 => by simp [canon]
  | p :: ps, [], i + 1 => by
    have := canon_get ps [] i
    simpa [canon] using this
  | p :: ps, e :: es, 0 => by simp [canon]
  | p :: ps, e :: es, i + 1 => by
    have := canon_get ps es i
    simpa [canon] using this

theorem canon_length : ∀ (ps : List (Param E)) (es : List E), (canon ps es).length = ps.length
  | [], _ => rfl
  | _ :: ps, [] => by simp [canon, canon_length ps []]
  | _ :: ps, _ :: es => by simp [canon, canon_length ps es]

theorem scopes_sorted (b : Block E) : ∀ (l : List (Node E)) (pushed : Bool),
    l.Pairwise (fun n m => flagOf b n = true → flagOf b m = true) → (pushed = true → ∀ n ∈ l, flagOf b n = true) →
    scopes b pushed l = some (l.map (fun n => (n, if flagOf b n then .inst else .user))) := by
  intro l
  induction l with
  | nil => intro _ _ _; rfl
  | cons n l ih =>
    intro pushed hp hpush
    rw [List.pairwise_cons] at hp
    have e : (pushed || flagOf b n) = flagOf b n := by
      cases pushed with
      | false => rfl
      | true => rw [hpush rfl n (List.mem_cons_self ..)]; rfl
    simp only [scopes]
    rw [e, if_pos rfl, ih (flagOf b n) hp.2 (fun h m hm => hp.1 m hm h)]
    simp

theorem flagOf_stub {ps : List (Param E)} {es : List E} (hg : Good ps)
    {i : Nat} {p : Param E} (hp : ps[i]? = some p) (x : Option E) :
    flagOf (stub ps es) ⟨.own p.name, x⟩ = decide (es.length ≤ i) := by
  have uniq : ∀ j q, ps[j]? = some q → q.name = p.name → j = i := by
    intro j q hq e
    obtain ⟨hj, rfl⟩ := List.getElem?_eq_some_iff.1 hq
    obtain ⟨hi, rfl⟩ := List.getElem?_eq_some_iff.1 hp
    exact (List.Nodup.getElem_inj_iff hg.names (hi := by simpa using hj) (hj := by simpa using hi)).1 (by simpa using e)
  rw [Bool.eq_iff_iff, decide_eq_true_eq]
  simp only [flagOf, stub, List.any_append, Bool.or_eq_true, List.any_eq_true, Bool.and_eq_true, beq_iff_eq]
  constructor
  · rintro (⟨s, hs, h1, h2⟩ | ⟨s, hs, h1, h2⟩)
    · simp only [table, List.mem_map] at hs
      obtain ⟨q, _, rfl⟩ := hs
      cases h2
    · simp only [table, List.mem_map] at hs
      obtain ⟨q, hq, rfl⟩ := hs
      obtain ⟨j, hj⟩ := List.mem_iff_getElem?.1 hq
      rw [List.getElem?_drop] at hj
      have := uniq _ q hj (Name.own.inj h1)
      omega
  · intro h
    right
    refine ⟨⟨.own p.name, true⟩, List.mem_map.2 ⟨p, List.mem_iff_getElem?.2 ⟨i - es.length, ?_⟩, rfl⟩, rfl, rfl⟩
    rw [List.getElem?_drop, show es.length + (i - es.length) = i by omega]; exact hp

theorem given_of {ps : List (Param E)} {es : List E} (hf : Fits ps es) {i : Nat} {p : Param E}
    (hp : ps[i]? = some p) : ∃ e, (es[i]?).or p.dflt = some e ∧
      given ps es i = some (e, if es.length ≤ i then .inst else .user) := by
  unfold given
  by_cases h : es.length ≤ i
  · rw [List.getElem?_eq_none h, hp]
    obtain ⟨e, he⟩ := Option.isSome_iff_exists.1 (hf.2 i p h hp)
    exact ⟨e, by simp [he], by simp [he, h]⟩
  · rw [List.getElem?_eq_getElem (Nat.lt_of_not_le h)]
    exact ⟨_, rfl, by simp [h]⟩

theorem bound_stub {ps : List (Param E)} {es : List E} (hg : Good ps) (hf : Fits ps es) :
    Bound ps es (stub ps es) := by
  have nodes : ∀ n ∈ (stub ps es).nodes, ∃ (i : Nat) (p : Param E), ps[i]? = some p ∧ n = ⟨.own p.name, (es[i]?).or p.dflt⟩ := by
    intro n hn
    obtain ⟨i, hi⟩ := List.mem_iff_getElem?.1 hn
    simp only [stub] at hi
    rw [canon_get, Option.map_eq_some_iff] at hi
    obtain ⟨p, hp, rfl⟩ := hi
    exact ⟨i, p, hp, rfl⟩
  have uniq : ∀ (i j : Nat) (p q : Param E), ps[i]? = some p → ps[j]? = some q → q.name = p.name → j = i := by
    intro i j p q hp hq e
    obtain ⟨hj, rfl⟩ := List.getElem?_eq_some_iff.1 hq
    obtain ⟨hi, rfl⟩ := List.getElem?_eq_some_iff.1 hp
    exact (List.Nodup.getElem_inj_iff hg.names (hi := by simpa using hj) (hj := by simpa using hi)).1 (by simpa using e)
  refine ⟨canon_length ps es, fun i p hp => ?_, fun l hl => ?_⟩
  · obtain ⟨e, h1, h2⟩ := given_of hf hp
    exact ⟨_, e, _, by simp only [stub]; rw [canon_get, hp]; rfl, rfl, h1, h2⟩
  · have hpw : (stub ps es).nodes.Pairwise
        (fun n m => flagOf (stub ps es) n = true → flagOf (stub ps es) m = true) := by
      rw [List.pairwise_iff_getElem]
      intro i j hi hj hij
      have h1 : (canon ps es)[i]? = some _ := List.getElem?_eq_getElem hi
      have h2 : (canon ps es)[j]? = some _ := List.getElem?_eq_getElem hj
      rw [canon_get, Option.map_eq_some_iff] at h1 h2
      obtain ⟨p, hp, e1⟩ := h1
      obtain ⟨q, hq, e2⟩ := h2
      rw [← e1, ← e2, flagOf_stub hg hp, flagOf_stub hg hq]
      simp only [decide_eq_true_eq]
      omega
    refine ⟨_, scopes_sorted _ l false (hpw.sublist hl) (by simp), by simp [List.map_map, Function.comp_def], ?_⟩
    intro n s hn i p hp hname
    obtain ⟨m, hm, e⟩ := List.mem_map.1 hn
    obtain ⟨rfl, rfl⟩ := Prod.mk.inj e
    obtain ⟨j, q, hq, rfl⟩ := nodes m (hl.subset hm)
    have : j = i := uniq i j p q hp hq (Name.own.inj hname)
    subst this
    rw [hp] at hq
    obtain rfl := Option.some.inj hq
    obtain ⟨e, _, h2⟩ := given_of hf hp
    rw [flagOf_stub hg hp]
    refine ⟨e, ?_⟩
    rw [h2]
    by_cases h : es.length ≤ j <;> simp [h]

/-! ### C92 -/

/-- **C92** Parameter lists the parser accepts: the names differ, and after a parameter
with a default value all have one. -/
theorem C92_parameters (ts : List (PTok E)) (ps : List (Param E)) (h : parseParams [] ts = some ps) : Good ps := by
  have key : ∀ (qs : List (Param E)) (ts : List (PTok E)),
      (qs.map (·.name)).Nodup → qs.Pairwise (fun p q => p.dflt.isSome → q.dflt.isSome) →
      parseParams qs ts = some ps → Good ps := by
    have ext : ∀ (qs : List (Param E)) (p : Param E), (qs.map (·.name)).Nodup →
        qs.Pairwise (fun p q => p.dflt.isSome → q.dflt.isSome) →
        ¬ (qs.any (fun q => q.name == p.name)) = true → ¬ (needsDefault qs && p.dflt.isNone) = true →
        ((qs ++ [p]).map (·.name)).Nodup ∧ (qs ++ [p]).Pairwise (fun p q => p.dflt.isSome → q.dflt.isSome) := by
      intro qs p h1 h2 h3 h4
      constructor
      · rw [List.map_append, List.nodup_append]
        refine ⟨h1, by simp, ?_⟩
        intro a ha b hb e
        obtain ⟨q, hq, rfl⟩ := List.mem_map.1 ha
        simp only [List.map_cons, List.map_nil, List.mem_singleton] at hb
        subst hb
        exact h3 (List.any_eq_true.2 ⟨q, hq, by simp [e]⟩)
      · rw [List.pairwise_append]
        refine ⟨h2, by simp, ?_⟩
        intro a ha b hb hs
        obtain rfl := List.mem_singleton.1 hb
        obtain ⟨l, x, rfl⟩ : ∃ l x, qs = l ++ [x] := by
          rcases List.eq_nil_or_concat qs with rfl | ⟨l, x, e⟩
          · cases ha
          · exact ⟨l, x, by simpa using e⟩
        have hx : x.dflt.isSome = true := by
          rcases List.mem_append.1 ha with ha | ha
          · exact (List.pairwise_append.1 h2).2.2 a ha x (by simp) hs
          · rw [← List.mem_singleton.1 ha]; exact hs
        simp only [needsDefault, List.getLast?_append, List.getLast?_singleton, Option.some_or, hx, Bool.true_and] at h4
        cases hb : b.dflt with
        | some _ => rfl
        | none => simp [hb] at h4
    intro qs ts
    induction qs, ts using parseParams.induct with
    | case1 qs => intro _ _ h; simp [parseParams] at h
    | case2 qs r he => intro _ _ h; rw [parseParams, if_pos he] at h; cases h
    | case3 qs r he =>
      intro h1 h2 h
      rw [parseParams, if_neg he] at h
      obtain rfl := Option.some.inj h
      exact ⟨h1, h2, by intro e; simp [e] at he⟩
    | case4 qs p r hc => intro _ _ h; rw [parseParams, if_pos hc] at h; cases h
    | case5 qs p r hc hn => intro _ _ h; rw [parseParams, if_neg hc, if_pos hn] at h; cases h
    | case6 qs p r hc hn ih =>
      intro h1 h2 h
      rw [parseParams, if_neg hc, if_neg hn] at h
      obtain ⟨g1, g2⟩ := ext qs p h1 h2 hc hn
      exact ih g1 g2 h
    | case7 qs p r hr hc =>
      intro _ _ h
      rw [parseParams, if_pos hc] at h
      · cases h
      · exact hr
    | case8 qs p r hr hc hn =>
      intro _ _ h
      rw [parseParams, if_neg hc, if_pos hn] at h
      · cases h
      · exact hr
    | case9 qs p r hr hc hn ih =>
      intro h1 h2 h
      rw [parseParams, if_neg hc, if_neg hn] at h
      · obtain ⟨g1, g2⟩ := ext qs p h1 h2 hc hn
        exact ih g1 g2 h
      · exact hr
    | case10 qs t r h1 h2 h3 =>
      intro _ _ h
      rw [parseParams] at h
      · cases h
      · exact h1
      · exact h2
      · exact h3
  exact key [] ts (by simp) List.Pairwise.nil h

theorem good_step : ∀ (p : Param E) (r qs : List (Param E)), Good (qs ++ p :: r) →
    (qs.any (fun q => q.name == p.name)) = false ∧ (needsDefault qs && p.dflt.isNone) = false := by
  intro p r qs hg
  constructor
  · rw [Bool.eq_false_iff]
    intro h
    obtain ⟨q, hq, e⟩ := List.any_eq_true.1 h
    have hd := hg.names
    rw [List.map_append, List.nodup_append] at hd
    exact hd.2.2 _ (List.mem_map.2 ⟨q, hq, rfl⟩) p.name (by simp) (by simpa using e)
  · rcases List.eq_nil_or_concat qs with rfl | ⟨l, x, e⟩
    · rfl
    · rw [List.concat_eq_append] at e
      subst e
      simp only [needsDefault, List.getLast?_append, List.getLast?_singleton, Option.some_or]
      have := (List.pairwise_append.1 hg.trailing).2.2 x (by simp) p (by simp)
      cases hx : x.dflt.isSome with
      | false => rfl
      | true =>
        have := this hx
        cases hp : p.dflt with
        | some _ => rfl
        | none => rw [hp] at this; cases this

theorem parse_ptext : ∀ (ps qs : List (Param E)), ps ≠ [] → Good (qs ++ ps) →
    parseParams qs (ptext ps) = some (qs ++ ps) := by
  intro ps
  induction ps with
  | nil => intro _ h; exact absurd rfl h
  | cons p r ih =>
    intro qs _ hg
    obtain ⟨h1, h2⟩ := good_step p r qs hg
    cases r with
    | nil =>
      simp only [ptext]
      rw [parseParams, h1, h2]
      · simp [parseParams]
      · intro r h; cases h
    | cons q r =>
      simp only [ptext]
      rw [parseParams, h1, h2]
      have := ih (qs ++ [p]) (by simp) (by simpa using hg)
      simpa using this

/-- **C92** Parameter lists like this are accepted, parameter by parameter. -/
theorem C92_parameters_accepted (ps : List (Param E)) (hg : Good ps) : parseParams [] (ptext ps) = some ps := by
  have := parse_ptext ps [] hg.nonempty (by simpa using hg)
  simpa using this

/-- **C92** fails to insist on commas between parameters: without any, the list is read
all the same; and a comma before the closing parenthesis is let pass (it is refused
after an argument). -/
theorem C92_parameter_commas_fails (ps : List (Param E)) (hg : Good ps) :
    parseParams [] (ps.map .param ++ [.close]) = some ps ∧
    parseParams [] (ps.flatMap (fun p => [.param p, .comma]) ++ [.close]) = some ps := by
  have k1 : ∀ (ps qs : List (Param E)), qs ++ ps ≠ [] → Good (qs ++ ps) →
      parseParams qs (ps.map .param ++ [.close]) = some (qs ++ ps) := by
    intro ps
    induction ps with
    | nil => intro qs h _; simp only [List.append_nil] at h ⊢; simp [parseParams, h]
    | cons p r ih =>
      intro qs _ hg
      obtain ⟨h1, h2⟩ := good_step p r qs hg
      simp only [List.map_cons, List.cons_append]
      rw [parseParams, h1, h2]
      · have := ih (qs ++ [p]) (by simp) (by simpa using hg)
        simpa using this
      · intro r' h; cases r <;> simp at h
  have k2 : ∀ (ps qs : List (Param E)), qs ++ ps ≠ [] → Good (qs ++ ps) →
      parseParams qs (ps.flatMap (fun p => [.param p, .comma]) ++ [.close]) = some (qs ++ ps) := by
    intro ps
    induction ps with
    | nil => intro qs h _; simp only [List.append_nil] at h ⊢; simp [parseParams, h]
    | cons p r ih =>
      intro qs _ hg
      obtain ⟨h1, h2⟩ := good_step p r qs hg
      simp only [List.flatMap_cons, List.cons_append, List.nil_append]
      rw [parseParams, h1, h2]
      have := ih (qs ++ [p]) (by simp) (by simpa using hg)
      simpa using this
  have e : ps = [] ++ ps := rfl
  have hn : [] ++ ps ≠ [] := hg.nonempty
  exact ⟨k1 ps [] hn hg, k2 ps [] hn hg⟩

/-- **C92** A use after the template is accepted exactly when it is a list of
arguments that fit the parameters, and then every parameter stands for its argument in
the scope of the user, or for its default value in the scope of the instance. -/
theorem C92_after {ps : List (Param E)} (hg : Good ps) (ts : List (Tok E)) :
    ((∃ b, useSeen ps ts = some b) ↔ ∃ es, Loose ts es ∧ Fits ps es) ∧
    ∀ b es, useSeen ps ts = some b → Loose ts es → Bound ps es b := by
  refine ⟨⟨?_, ?_⟩, ?_⟩
  · rintro ⟨b, h⟩
    obtain ⟨es, h1, h2, _⟩ := (useSeen_iff hg ts b).1 h
    exact ⟨es, h1, h2⟩
  · rintro ⟨es, h1, h2⟩
    exact ⟨_, (useSeen_iff hg ts _).2 ⟨es, h1, h2, rfl⟩⟩
  · intro b es h hl
    obtain ⟨fs, h1, h2, rfl⟩ := (useSeen_iff hg ts b).1 h
    rw [loose_unique hl h1]
    exact bound_stub hg h2

/-- **C92** The same for a use before the template. -/
theorem C92_before {ps : List (Param E)} (hg : Good ps) (ts : List (Tok E)) :
    ((∃ b, useBefore ps ts = some b) ↔ ∃ es, Loose ts es ∧ Fits ps es) ∧
    ∀ b es, useBefore ps ts = some b → Loose ts es → Bound ps es b := by
  refine ⟨⟨?_, ?_⟩, ?_⟩
  · rintro ⟨b, h⟩
    obtain ⟨es, h1, h2, _⟩ := (useBefore_iff hg ts b).1 h
    exact ⟨es, h1, h2⟩
  · rintro ⟨es, h1, h2⟩
    exact ⟨_, (useBefore_iff hg ts _).2 ⟨es, h1, h2, rfl⟩⟩
  · intro b es h hl
    obtain ⟨fs, h1, h2, rfl⟩ := (useBefore_iff hg ts b).1 h
    rw [loose_unique hl h1]
    exact bound_stub hg h2

/-- **C92** It does not matter whether the template or its use comes first: the stub is
the same, symbol by symbol and node by node. -/
theorem C92_order {ps : List (Param E)} (hg : Good ps) (ts : List (Tok E)) :
    useSeen ps ts = useBefore ps ts := by
  apply Option.ext
  intro b
  rw [useSeen_iff hg, useBefore_iff hg]

/-- **C92** (partial: that nothing else is accepted fails, see `C92_commas_fails`.) A
list of arguments with commas between them is read as these arguments. -/
theorem C92_text_partial (es : List E) : Loose (text es) es ∧ ∀ fs, Loose (text es) fs → fs = es :=
  ⟨loose_text es, fun _ h => (loose_unique (loose_text es) h).symm⟩

/-- **C92** fails to insist on commas: without any comma the arguments are read all the same. -/
theorem C92_commas_fails {ps : List (Param E)} (hg : Good ps) (es : List E) (hf : Fits ps es) :
    ∃ b, useSeen ps (es.map .expr ++ [.close]) = some b ∧ useSeen ps (text es) = some b := by
  have h : ∀ es : List E, Loose (es.map .expr ++ [.close]) es := by
    intro es
    induction es with
    | nil => exact Loose.nil []
    | cons e es ih => exact Loose.bare ih
  exact ⟨stub ps es, (useSeen_iff hg _ _).2 ⟨es, h es, hf, rfl⟩, (useSeen_iff hg _ _).2 ⟨es, loose_text es, hf, rfl⟩⟩

/-! ### Examples -/

/-- Parameters `Int a, Int b = 20, Int c = 30`. -/
def exParams : List (Param Nat) := [⟨1, none⟩, ⟨2, some 20⟩, ⟨3, some 30⟩]

example : parseParams [] [.param ⟨1, none⟩, .comma, .param ⟨2, some 20⟩, .comma, .param ⟨3, some 30⟩, .close] =
    some exParams := rfl

theorem exGood : Good exParams := C92_parameters
  [.param ⟨1, none⟩, .comma, .param ⟨2, some 20⟩, .comma, .param ⟨3, some 30⟩, .close] _ rfl

example : (useSeen exParams (text [7, 8])).map (fun b => b.nodes.map (fun n => n.expr)) =
    some [some 7, some 8, some 30] := by decide
example : (useBefore exParams (text [7, 8])).isSome = true ∧ (useSeen exParams (text ([] : List Nat))) = none := by
  constructor <;> rfl
example : Fits exParams [7, 8] := by
  refine ⟨by decide, ?_⟩
  intro i p hi hp
  match i, hp with
  | 2, hp => simp only [exParams] at hp; cases hp; rfl
  | 0, _ => simp at hi
  | 1, _ => simp at hi
  | i + 3, hp => simp [exParams] at hp
example : parseParams [] [.param ⟨1, some 5⟩, .comma, .param ⟨2, (none : Option Nat)⟩, .close] = none := rfl

end Ulam.Templ
