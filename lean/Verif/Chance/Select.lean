import Verif.Chance.Cats
/-! # C45, C43: `SelectorServices` -/
namespace Ulam.Chance
open Spec

theorem oddsOf_possible (n m : Nat) (b : Bool) (h : (oddsOf n m).Possible b) : b = true → 0 < n := by
  obtain ⟨r, _, hr⟩ := (Rand.possible_bind _ _ _).1 h
  change decide (r < n) = b at hr
  intro hb; rw [hb] at hr; simp at hr; omega

theorem oddsOf_safe (n m : Nat) (h : 0 < m) : (oddsOf n m).Safe := (C60_odds n m h).1

/-- What `check` with weight 1 leaves: the choice, and whether the value must still be compared. -/
theorem check_one (s : Selector) (k v : Int) : (check s k v 1).Safe ∧ ∀ p, (check s k v 1).Possible p → 0 < p.1.c ∧
    (p.2 = false → (p.1.k = satI 16 k ∧ p.1.v = v ∧ (0 < s.c → s.v = v)) ∨ (p.1.k = s.k ∧ p.1.v = s.v ∧ s.v = v ∧ 0 < s.c)) ∧
    (p.2 = true → p.1 = s ∧ s.v ≠ v ∧ 0 < s.c) := by
  unfold check
  rw [if_neg (by omega)]
  have e1 : satU 16 (1 : Int).toNat = 1 := by decide
  simp only [e1]
  by_cases hc : s.c = 0
  · rw [if_pos hc]
    refine ⟨trivial, fun p hp => ?_⟩
    change _ = p at hp
    subst hp
    refine ⟨by simp [take], fun _ => Or.inl ⟨rfl, rfl, fun h => by omega⟩, fun h => by simp at h⟩
  · rw [if_neg hc]
    by_cases hv : s.v = v
    · rw [if_pos hv]
      have hpos : 0 < satU 16 (s.c + 1) := by unfold satU; omega
      refine ⟨Rand.safe_bind _ _ (oddsOf_safe _ _ hpos) fun _ _ => trivial, fun p hp => ?_⟩
      obtain ⟨b, _, hq⟩ := (Rand.possible_bind _ _ _).1 hp
      change _ = p at hq
      subst hq
      cases b
      · exact ⟨hpos, fun _ => Or.inr ⟨rfl, rfl, hv, by omega⟩, fun h => by simp at h⟩
      · exact ⟨hpos, fun _ => Or.inl ⟨rfl, rfl, fun _ => hv⟩, fun h => by simp at h⟩
    · rw [if_neg hv]
      refine ⟨trivial, fun p hp => ?_⟩
      change _ = p at hp
      subst hp
      exact ⟨by simp only; omega, fun h => by simp at h, fun _ => ⟨rfl, hv, by omega⟩⟩

/-- One `minimize`: the better of the old choice and the pair offered. -/
theorem minimize_step (s : Selector) (k v : Int) : (minimize s k v).Safe ∧ ∀ t, (minimize s k v).Possible t → 0 < t.c ∧
    ((t.k = satI 16 k ∧ t.v = v ∧ (0 < s.c → v ≤ s.v)) ∨ (t.k = s.k ∧ t.v = s.v ∧ 0 < s.c ∧ s.v ≤ v)) := by
  obtain ⟨h1, h2⟩ := check_one s k v
  refine ⟨Rand.safe_bind _ _ h1 fun _ _ => trivial, fun t ht => ?_⟩
  obtain ⟨p, hp, hq⟩ := (Rand.possible_bind _ _ _).1 ht
  change _ = t at hq
  obtain ⟨hc, hf, ht'⟩ := h2 p hp
  obtain ⟨q, b⟩ := p
  simp only at hc hf ht' hq
  cases b
  · simp only [Bool.false_and] at hq
    subst hq
    refine ⟨hc, ?_⟩
    rcases hf rfl with ⟨a, b, c⟩ | ⟨a, b, c, d⟩
    · exact Or.inl ⟨a, b, fun h => by rw [c h]⟩
    · exact Or.inr ⟨a, b, d, by rw [c]⟩
  · obtain ⟨rfl, hne, hpos⟩ := ht' rfl
    simp only [Bool.true_and, decide_eq_true_eq] at hq
    by_cases hlt : v < q.v
    · rw [if_pos hlt] at hq
      subst hq
      exact ⟨hc, Or.inl ⟨rfl, rfl, fun _ => by omega⟩⟩
    · rw [if_neg hlt] at hq
      subst hq
      exact ⟨hc, Or.inr ⟨rfl, rfl, hpos, by omega⟩⟩

theorem maximize_step (s : Selector) (k v : Int) : (maximize s k v).Safe ∧ ∀ t, (maximize s k v).Possible t → 0 < t.c ∧
    ((t.k = satI 16 k ∧ t.v = v ∧ (0 < s.c → s.v ≤ v)) ∨ (t.k = s.k ∧ t.v = s.v ∧ 0 < s.c ∧ v ≤ s.v)) := by
  obtain ⟨h1, h2⟩ := check_one s k v
  refine ⟨Rand.safe_bind _ _ h1 fun _ _ => trivial, fun t ht => ?_⟩
  obtain ⟨p, hp, hq⟩ := (Rand.possible_bind _ _ _).1 ht
  change _ = t at hq
  obtain ⟨hc, hf, ht'⟩ := h2 p hp
  obtain ⟨q, b⟩ := p
  simp only at hc hf ht' hq
  cases b
  · simp only [Bool.false_and] at hq
    subst hq
    refine ⟨hc, ?_⟩
    rcases hf rfl with ⟨a, b, c⟩ | ⟨a, b, c, d⟩
    · exact Or.inl ⟨a, b, fun h => by rw [c h]⟩
    · exact Or.inr ⟨a, b, d, by rw [c]⟩
  · obtain ⟨rfl, hne, hpos⟩ := ht' rfl
    simp only [Bool.true_and, decide_eq_true_eq] at hq
    by_cases hlt : v > q.v
    · rw [if_pos hlt] at hq
      subst hq
      exact ⟨hc, Or.inl ⟨rfl, rfl, fun _ => by omega⟩⟩
    · rw [if_neg hlt] at hq
      subst hq
      exact ⟨hc, Or.inr ⟨rfl, rfl, hpos, by omega⟩⟩

theorem runMin_inv (es : List (Int × Int)) : ∀ (s : Selector) (seen : List (Int × Int)),
    (0 < s.c ∧ (∃ p ∈ seen, s.k = satI 16 p.1 ∧ s.v = p.2 ∧ ∀ q ∈ seen, p.2 ≤ q.2)) ∨ (s.c = 0 ∧ seen = []) →
    (runMin s es).Safe ∧ ∀ t, (runMin s es).Possible t →
      (0 < t.c ∧ (∃ p ∈ seen ++ es, t.k = satI 16 p.1 ∧ t.v = p.2 ∧ ∀ q ∈ seen ++ es, p.2 ≤ q.2)) ∨ (t.c = 0 ∧ seen ++ es = []) := by
  induction es with
  | nil =>
    intro s seen h
    refine ⟨trivial, fun t ht => ?_⟩
    change s = t at ht
    subst ht
    simpa using h
  | cons e es ih =>
    intro s seen h
    obtain ⟨k, v⟩ := e
    obtain ⟨h1, h2⟩ := minimize_step s k v
    have step : ∀ t, (minimize s k v).Possible t →
        (0 < t.c ∧ (∃ p ∈ seen ++ [(k, v)], t.k = satI 16 p.1 ∧ t.v = p.2 ∧ ∀ q ∈ seen ++ [(k, v)], p.2 ≤ q.2)) := by
      intro t ht
      obtain ⟨hc, ho⟩ := h2 t ht
      refine ⟨hc, ?_⟩
      rcases ho with ⟨a, b, c⟩ | ⟨a, b, c, d⟩
      · refine ⟨(k, v), by simp, a, b, fun q hq => ?_⟩
        rcases List.mem_append.1 hq with hq | hq
        · rcases h with ⟨h0, p, hp, _, hpv, hmin⟩ | ⟨_, h0⟩
          · have := hmin q hq
            have := c h0
            simp only; omega
          · rw [h0] at hq; simp at hq
        · simp at hq; subst hq; exact le_refl _
      · rcases h with ⟨h0, p, hp, hpk, hpv, hmin⟩ | ⟨h0, _⟩
        · refine ⟨p, by simp [hp], by rw [a, hpk], by rw [b, hpv], fun q hq => ?_⟩
          rcases List.mem_append.1 hq with hq | hq
          · exact hmin q hq
          · simp at hq; subst hq; simp only; omega
        · omega
    have ih' : ∀ t, (minimize s k v).Possible t → _ := fun t ht => ih t (seen ++ [(k, v)]) (Or.inl (step t ht))
    refine ⟨Rand.safe_bind _ _ h1 fun t ht => (ih' t ht).1, fun u hu => ?_⟩
    obtain ⟨t, ht, hq⟩ := (Rand.possible_bind _ _ _).1 hu
    have := (ih' t ht).2 u hq
    simpa using this

theorem runMax_inv (es : List (Int × Int)) : ∀ (s : Selector) (seen : List (Int × Int)),
    (0 < s.c ∧ (∃ p ∈ seen, s.k = satI 16 p.1 ∧ s.v = p.2 ∧ ∀ q ∈ seen, q.2 ≤ p.2)) ∨ (s.c = 0 ∧ seen = []) →
    (runMax s es).Safe ∧ ∀ t, (runMax s es).Possible t →
      (0 < t.c ∧ (∃ p ∈ seen ++ es, t.k = satI 16 p.1 ∧ t.v = p.2 ∧ ∀ q ∈ seen ++ es, q.2 ≤ p.2)) ∨ (t.c = 0 ∧ seen ++ es = []) := by
  induction es with
  | nil =>
    intro s seen h
    refine ⟨trivial, fun t ht => ?_⟩
    change s = t at ht
    subst ht
    simpa using h
  | cons e es ih =>
    intro s seen h
    obtain ⟨k, v⟩ := e
    obtain ⟨h1, h2⟩ := maximize_step s k v
    have step : ∀ t, (maximize s k v).Possible t →
        (0 < t.c ∧ (∃ p ∈ seen ++ [(k, v)], t.k = satI 16 p.1 ∧ t.v = p.2 ∧ ∀ q ∈ seen ++ [(k, v)], q.2 ≤ p.2)) := by
      intro t ht
      obtain ⟨hc, ho⟩ := h2 t ht
      refine ⟨hc, ?_⟩
      rcases ho with ⟨a, b, c⟩ | ⟨a, b, c, d⟩
      · refine ⟨(k, v), by simp, a, b, fun q hq => ?_⟩
        rcases List.mem_append.1 hq with hq | hq
        · rcases h with ⟨h0, p, hp, _, hpv, hmin⟩ | ⟨_, h0⟩
          · have := hmin q hq
            have := c h0
            simp only; omega
          · rw [h0] at hq; simp at hq
        · simp at hq; subst hq; exact le_refl _
      · rcases h with ⟨h0, p, hp, hpk, hpv, hmin⟩ | ⟨h0, _⟩
        · refine ⟨p, by simp [hp], by rw [a, hpk], by rw [b, hpv], fun q hq => ?_⟩
          rcases List.mem_append.1 hq with hq | hq
          · exact hmin q hq
          · simp at hq; subst hq; simp only; omega
        · omega
    have ih' : ∀ t, (maximize s k v).Possible t → _ := fun t ht => ih t (seen ++ [(k, v)]) (Or.inl (step t ht))
    refine ⟨Rand.safe_bind _ _ h1 fun t ht => (ih' t ht).1, fun u hu => ?_⟩
    obtain ⟨t, ht, hq⟩ := (Rand.possible_bind _ _ _).1 hu
    have := (ih' t ht).2 u hq
    simpa using this

theorem satI_16 (k : Int) (h : -32768 ≤ k ∧ k ≤ 32767) : satI 16 k = k := by
  unfold satI; norm_num; omega

theorem inv_to_answer {t : Selector} {es : List (Int × Int)} {R : Int → Int → Prop} (hne : es ≠ [])
    (hk : ∀ p ∈ es, -32768 ≤ p.1 ∧ p.1 ≤ 32767)
    (h : (0 < t.c ∧ (∃ p ∈ [] ++ es, t.k = satI 16 p.1 ∧ t.v = p.2 ∧ ∀ q ∈ [] ++ es, R p.2 q.2)) ∨ (t.c = 0 ∧ [] ++ es = [])) :
    ∃ p ∈ es, selectedKey t = some p.1 ∧ selectedValue t = some p.2 ∧ ∀ q ∈ es, R p.2 q.2 := by
  rcases h with ⟨h0, p, hp, h1, h2, h3⟩ | ⟨_, h0⟩
  · have hp' : p ∈ es := by simpa using hp
    refine ⟨p, hp', ?_, ?_, fun q hq => h3 q (by simpa using hq)⟩
    · unfold selectedKey; rw [if_pos h0, h1, satI_16 _ (hk p hp')]
    · unfold selectedValue; rw [if_pos h0, h2]
  · exact absurd (by simpa using h0) hne

/-- **C45** (partial: for keys that fit the key type, `Int(16)`). After a reset and any nonempty sequence of `minimize` calls, whatever is
drawn, nothing fails, the selected value is the least of the values offered, and the selected key was offered with a value attaining
it. -/
theorem C45_minimize_partial (s : Selector) (es : List (Int × Int)) (hne : es ≠ []) (hk : ∀ p ∈ es, -32768 ≤ p.1 ∧ p.1 ≤ 32767) :
    (runMin (resetSelector s) es).Safe ∧ ∀ t, (runMin (resetSelector s) es).Possible t →
      ∃ p ∈ es, selectedKey t = some p.1 ∧ selectedValue t = some p.2 ∧ ∀ q ∈ es, p.2 ≤ q.2 := by
  obtain ⟨h1, h2⟩ := runMin_inv es (resetSelector s) [] (Or.inr ⟨rfl, rfl⟩)
  exact ⟨h1, fun t ht => inv_to_answer hne hk (h2 t ht)⟩

/-- **C45**, the same for `maximize`. -/
theorem C45_maximize_partial (s : Selector) (es : List (Int × Int)) (hne : es ≠ []) (hk : ∀ p ∈ es, -32768 ≤ p.1 ∧ p.1 ≤ 32767) :
    (runMax (resetSelector s) es).Safe ∧ ∀ t, (runMax (resetSelector s) es).Possible t →
      ∃ p ∈ es, selectedKey t = some p.1 ∧ selectedValue t = some p.2 ∧ ∀ q ∈ es, q.2 ≤ p.2 := by
  obtain ⟨h1, h2⟩ := runMax_inv es (resetSelector s) [] (Or.inr ⟨rfl, rfl⟩)
  exact ⟨h1, fun t ht => inv_to_answer (R := fun a b => b ≤ a) hne hk (h2 t ht)⟩

example : ∃ t, (runMin (resetSelector ⟨7, 0, 0⟩) [(1, 5), (2, -3), (3, -3)]).Possible t ∧ selectedKey t = some 3 :=
  ⟨⟨2, 3, -3⟩, ⟨0, by decide, rfl⟩, by decide⟩

/-- **C45**, the value for all keys: it is the least (greatest) of the values offered. -/
theorem C45_value (s : Selector) (es : List (Int × Int)) (hne : es ≠ []) :
    (∀ t, (runMin (resetSelector s) es).Possible t → ∃ p ∈ es, selectedValue t = some p.2 ∧ ∀ q ∈ es, p.2 ≤ q.2) ∧
    (∀ t, (runMax (resetSelector s) es).Possible t → ∃ p ∈ es, selectedValue t = some p.2 ∧ ∀ q ∈ es, q.2 ≤ p.2) := by
  constructor
  · intro t ht
    rcases (runMin_inv es (resetSelector s) [] (Or.inr ⟨rfl, rfl⟩)).2 t ht with ⟨h0, p, hp, _, h2, h3⟩ | ⟨_, h0⟩
    · exact ⟨p, by simpa using hp, by unfold selectedValue; rw [if_pos h0, h2], fun q hq => h3 q (by simpa using hq)⟩
    · exact absurd (by simpa using h0) hne
  · intro t ht
    rcases (runMax_inv es (resetSelector s) [] (Or.inr ⟨rfl, rfl⟩)).2 t ht with ⟨h0, p, hp, _, h2, h3⟩ | ⟨_, h0⟩
    · exact ⟨p, by simpa using hp, by unfold selectedValue; rw [if_pos h0, h2], fun q hq => h3 q (by simpa using hq)⟩
    · exact absurd (by simpa using h0) hne

/-- **C45 fails** for keys that do not fit: a key above 32767 is answered as 32767, which was never offered. -/
theorem C45_large_key_fails (s : Selector) (k v : Int) (hk : 32767 < k) (t : Selector)
    (ht : (runMin (resetSelector s) [(k, v)]).Possible t) : selectedKey t = some 32767 ∧ ∀ p ∈ [(k, v)], p.1 ≠ 32767 := by
  refine ⟨?_, by simp; omega⟩
  rcases (runMin_inv [(k, v)] (resetSelector s) [] (Or.inr ⟨rfl, rfl⟩)).2 t ht with ⟨h0, p, hp, h1, _⟩ | ⟨_, h0⟩
  · simp at hp
    subst hp
    unfold selectedKey
    rw [if_pos h0, h1]
    unfold satI
    norm_num; omega
  · simp at h0

/-- No selection before the first call. -/
theorem C45_nothing_selected (s : Selector) : selectedKey (resetSelector s) = none ∧ selectedValue (resetSelector s) = none := ⟨rfl, rfl⟩

/-! ### How ties are broken -/

theorem minimize_tie (s : Selector) (k : Int) (hc : 0 < s.c) (hb : s.c + 1 ≤ 65535) (f : Selector → ℚ) :
    (minimize s k s.v).expect f = (f ⟨s.c + 1, satI 16 k, s.v⟩ + s.c * f ⟨s.c + 1, s.k, s.v⟩) / (s.c + 1) := by
  unfold minimize check
  rw [if_neg (by omega)]
  have e1 : satU 16 (1 : Int).toNat = 1 := by decide
  have e2 : satU 16 (s.c + 1) = s.c + 1 := by unfold satU; omega
  simp only [e1, e2]
  rw [if_neg (by omega)]
  simp only [if_true]
  unfold oddsOf create
  rw [if_neg (by omega)]
  simp only [Rand.bind]
  rw [Rand.expect_draw_split 1 s.c (f ⟨s.c + 1, satI 16 k, s.v⟩) (f ⟨s.c + 1, s.k, s.v⟩) _ _ (by omega)]
  · push_cast; ring
  · intro r hr; simp [hr, Rand.expect, take]
  · intro r hr; simp [show ¬ r < 1 by omega, show r ≠ 0 by omega, Rand.expect]

theorem runMin_ties (u : Int) (ks : List Int) : ∀ s : Selector, 0 < s.c → s.v = u → s.c + ks.length ≤ 65535 →
    (runMin s (ks.map fun k => (k, u))).Safe ∧
    ∀ t, (runMin s (ks.map fun k => (k, u))).Possible t → t.c = s.c + ks.length ∧ t.v = u := by
  induction ks with
  | nil => intro s _ hv _; exact ⟨trivial, fun t ht => by change s = t at ht; subst ht; exact ⟨rfl, hv⟩⟩
  | cons k ks ih =>
    intro s hc hv hb
    simp only [List.length_cons] at hb
    have hsafe := (minimize_step s k u).1
    have hst : ∀ t, (minimize s k u).Possible t → t.c = s.c + 1 ∧ t.v = u := by
      intro t ht
      unfold minimize check at ht
      rw [if_neg (by omega)] at ht
      have e1 : satU 16 (1 : Int).toNat = 1 := by decide
      have e2 : satU 16 (s.c + 1) = s.c + 1 := by unfold satU; omega
      simp only [e1, e2] at ht
      rw [if_neg (by omega), if_pos hv] at ht
      obtain ⟨p, hp, hq⟩ := (Rand.possible_bind _ _ _).1 ht
      obtain ⟨b, _, hr⟩ := (Rand.possible_bind _ _ _).1 hp
      change _ = p at hr
      subst hr
      change _ = t at hq
      subst hq
      cases b
      · exact ⟨rfl, hv⟩
      · exact ⟨rfl, rfl⟩
    have ih' : ∀ t, (minimize s k u).Possible t → _ := fun t ht =>
      ih t (by rw [(hst t ht).1]; omega) (hst t ht).2 (by rw [(hst t ht).1]; omega)
    refine ⟨Rand.safe_bind _ _ hsafe fun t ht => (ih' t ht).1, fun w hw => ?_⟩
    obtain ⟨t, ht, hq⟩ := (Rand.possible_bind _ _ _).1 hw
    have := (ih' t ht).2 w hq
    rw [(hst t ht).1] at this
    simp only [List.length_cons]
    exact ⟨by omega, this.2⟩

theorem runMin_append (s : Selector) (a b : List (Int × Int)) : runMin s (a ++ b) = (runMin s a).bind fun t => runMin t b := by
  induction a generalizing s with
  | nil => rfl
  | cons e es ih => simp [runMin, ih, Rand.bind_assoc]

/-- The documentation of the class says that ties are broken "randomly but fairly among the winners" (SelectorServices.ulam:8). They are
not: the count is not restarted when a new minimum is found. After `n + 1` values that tie at `u`, two keys that tie at a smaller value
`v` are not chosen with probability 1/2 each; the second is chosen with probability only 1/(n + 2). -/
theorem C45_fair_ties_fails (s : Selector) (k0 : Int) (ks : List Int) (u v b c : Int) (hv : v < u) (hbc : b ≠ c)
    (hb : -32768 ≤ b ∧ b ≤ 32767) (hc : -32768 ≤ c ∧ c ≤ 32767) (hn : ks.length ≤ 65533) :
    (runMin (resetSelector s) (((k0 :: ks).map fun k => (k, u)) ++ [(b, v), (c, v)])).prob (fun t => selectedKey t = some c) =
      1 / (ks.length + 2 : ℚ) := by
  have h0 : runMin (resetSelector s) ((k0 :: ks).map fun k => (k, u)) = runMin ⟨1, satI 16 k0, u⟩ (ks.map fun k => (k, u)) := by
    simp only [List.map_cons, runMin]
    rfl
  rw [runMin_append, h0]
  unfold Rand.prob
  rw [Rand.expect_bind]
  obtain ⟨hs, hp⟩ := runMin_ties u ks ⟨1, satI 16 k0, u⟩ (by simp) rfl (by simp only; omega)
  rw [Rand.expect_congr _ _ (fun _ => 1 / (ks.length + 2 : ℚ))]
  · exact Rand.expect_const _ hs _
  · intro t ht
    obtain ⟨h1, h2⟩ := hp t ht
    simp only at h1
    have hb1 : minimize t b v = .done ⟨t.c, b, v⟩ := by
      unfold minimize check
      rw [if_neg (by omega)]
      simp only
      rw [if_neg (by omega), if_neg (by rw [h2]; omega)]
      simp only [Rand.bind, Bool.true_and, decide_eq_true_eq]
      rw [if_pos (by rw [h2]; exact hv)]
      unfold take
      rw [satI_16 b hb]
    simp only [runMin]
    rw [hb1]
    simp only [Rand.bind]
    rw [Rand.expect_bind]
    have := minimize_tie ⟨t.c, b, v⟩ c (by simp only; omega) (by simp only; omega)
    simp only at this
    rw [this, satI_16 c hc, h1]
    simp only [Rand.expect, selectedKey]
    rw [if_pos (by rw [if_pos (by omega)]), if_neg (by rw [if_pos (by omega)]; intro h; exact hbc (Option.some.inj h))]
    push_cast
    ring

/-! ### C43 for `count` -/

theorem keyShare_cons (i j : Int) (w : Nat) (h : List (Int × Nat)) : keyShare i ((j, w) :: h) = (if j = i then w else 0) + keyShare i h := by
  unfold keyShare
  by_cases e : j = i
  · simp [e]
  · simp [e]

theorem keyTotal_cons (j : Int) (w : Nat) (h : List (Int × Nat)) : keyTotal ((j, w) :: h) = w + keyTotal h := by simp [keyTotal]

theorem count_eq (s : Selector) (k : Int) (w : Nat) (hk : -32768 ≤ k ∧ k ≤ 32767) (hv : 0 < s.c → s.v = 1) (hb : s.c + w ≤ 65535) (f : Selector → ℚ) :
    (count s k w).Safe ∧ (∀ t, (count s k w).Possible t → t.c = s.c + w ∧ (0 < t.c → t.v = 1)) ∧
    (count s k w).expect f * (s.c + w) = w * f ⟨s.c + w, k, 1⟩ + s.c * f ⟨s.c + w, s.k, s.v⟩ := by
  unfold count check
  by_cases hw : w = 0
  · subst hw
    rw [if_pos (by simp)]
    refine ⟨trivial, fun t ht => ?_, by simp [Rand.bind, Rand.expect]; ring⟩
    change s = t at ht
    subst ht
    exact ⟨rfl, hv⟩
  · rw [if_neg (by omega)]
    have e1 : satU 16 (w : Int).toNat = w := by unfold satU; simp; omega
    simp only [e1]
    by_cases hc : s.c = 0
    · rw [if_pos hc]
      refine ⟨trivial, fun t ht => ?_, ?_⟩
      · change _ = t at ht
        subst ht
        simp [take, hc]
      · simp only [Rand.bind, Rand.expect, take, satI_16 k hk, hc]
        simp; ring
    · rw [if_neg hc, if_pos (hv (by omega))]
      have e2 : satU 16 (s.c + w) = s.c + w := by unfold satU; omega
      simp only [e2]
      refine ⟨Rand.safe_bind _ _ (Rand.safe_bind _ _ (oddsOf_safe _ _ (by omega)) fun _ _ => trivial) fun _ _ => trivial, fun t ht => ?_, ?_⟩
      · obtain ⟨p, hp, hq⟩ := (Rand.possible_bind _ _ _).1 ht
        obtain ⟨b, _, hr⟩ := (Rand.possible_bind _ _ _).1 hp
        change _ = p at hr
        subst hr
        change _ = t at hq
        subst hq
        cases b
        · exact ⟨rfl, fun _ => hv (by omega)⟩
        · exact ⟨rfl, fun _ => rfl⟩
      · unfold oddsOf create
        rw [if_neg (by omega)]
        simp only [Rand.bind]
        rw [Rand.expect_draw_split w s.c (f ⟨s.c + w, k, 1⟩) (f ⟨s.c + w, s.k, s.v⟩) _ _ (by omega)]
        · have : ((s.c : ℚ) + w) ≠ 0 := by positivity
          field_simp
        · intro r hr; simp [hr, Rand.expect, take, satI_16 k hk]
        · intro r hr; simp [show ¬ r < w by omega, Rand.expect]

def keyIs (i : Int) (s : Selector) : ℚ := if s.k = i then 1 else 0

theorem count_law (i : Int) (es : List (Int × Nat)) : ∀ s : Selector, (∀ p ∈ es, -32768 ≤ p.1 ∧ p.1 ≤ 32767) → (0 < s.c → s.v = 1) →
    s.c + keyTotal es ≤ 65535 →
    (runCount s es).Safe ∧ (∀ t, (runCount s es).Possible t → t.c = s.c + keyTotal es) ∧
    (runCount s es).expect (keyIs i) * (s.c + keyTotal es) = s.c * keyIs i s + keyShare i es := by
  induction es with
  | nil =>
    intro s _ _ _
    refine ⟨trivial, fun t ht => ?_, ?_⟩
    · change s = t at ht; subst ht; rfl
    · simp [runCount, Rand.expect, keyTotal, keyShare]; ring
  | cons e es ih =>
    intro s hk hv hb
    obtain ⟨k, w⟩ := e
    rw [keyTotal_cons] at hb
    have hk1 := hk (k, w) (List.mem_cons_self ..)
    simp only at hk1
    have hkt : ∀ p ∈ es, -32768 ≤ p.1 ∧ p.1 ≤ 32767 := fun p hp => hk p (List.mem_cons_of_mem _ hp)
    obtain ⟨h1, h2, h3⟩ := count_eq s k w hk1 hv (by omega) (fun t => (runCount t es).expect (keyIs i))
    have ih' : ∀ t, (count s k w).Possible t → _ := fun t ht => ih t hkt (h2 t ht).2 (by rw [(h2 t ht).1]; omega)
    refine ⟨Rand.safe_bind _ _ h1 fun t ht => (ih' t ht).1, fun u hu => ?_, ?_⟩
    · obtain ⟨t, ht, hq⟩ := (Rand.possible_bind _ _ _).1 hu
      rw [(ih' t ht).2.1 u hq, (h2 t ht).1, keyTotal_cons]; omega
    · simp only [runCount]
      rw [Rand.expect_bind, keyTotal_cons, keyShare_cons]
      by_cases hz : s.c + w = 0
      · have hc : s.c = 0 := by omega
        have hw : w = 0 := by omega
        subst hw
        have hcnt : count s k (0 : Nat) = .done s := by unfold count check; rw [if_pos (by simp)]; rfl
        rw [hcnt]
        simp only [Rand.expect]
        have := (ih s hkt hv (by omega)).2.2
        rw [hc] at this ⊢
        simpa using this
      · have hz' : ((s.c : ℚ) + w) ≠ 0 := by exact_mod_cast hz
        have a := (ih ⟨s.c + w, k, 1⟩ hkt (fun _ => rfl) (by simp only; omega)).2.2
        have b : s.c ≠ 0 → (runCount ⟨s.c + w, s.k, s.v⟩ es).expect (keyIs i) * (((s.c + w : Nat) : ℚ) + keyTotal es) =
            ((s.c + w : Nat) : ℚ) * keyIs i s + keyShare i es := fun h0 =>
          (ih ⟨s.c + w, s.k, s.v⟩ hkt (fun _ => hv (by omega)) (by simp only; omega)).2.2
        simp only at a
        push_cast at a b ⊢
        have ka : keyIs i ⟨s.c + w, k, 1⟩ = if k = i then 1 else 0 := rfl
        rw [ka] at a
        apply mul_right_cancel₀ hz'
        by_cases h0 : s.c = 0
        · rw [h0] at h3 a ⊢
          simp only [Nat.cast_zero, zero_mul, add_zero, zero_add] at h3 a ⊢
          split_ifs at a ⊢ <;> linear_combination (w + keyTotal es : ℚ) * h3 + w * a
        · have b := b h0
          split_ifs at a ⊢ <;> linear_combination (s.c + w + keyTotal es : ℚ) * h3 + w * a + s.c * b

/-- **C43**, for `SelectorServices.count`: after a reset and any calls with keys that fit `Int(16)` and weights adding up to at most 65535
(and more than 0), the key selected is `i` with probability exactly the weight counted for it over the total weight. -/
theorem C43_count (s : Selector) (es : List (Int × Nat)) (i : Int) (hk : ∀ p ∈ es, -32768 ≤ p.1 ∧ p.1 ≤ 32767)
    (hb : keyTotal es ≤ 65535) :
    (runCount (resetSelector s) es).Safe ∧
    (0 < keyTotal es → (runCount (resetSelector s) es).prob (fun t => selectedKey t = some i) = keyShare i es / keyTotal es) ∧
    (keyTotal es = 0 → ∀ t, (runCount (resetSelector s) es).Possible t → selectedKey t = none) := by
  obtain ⟨h1, h2, h3⟩ := count_law i es (resetSelector s) hk (fun h => by simp [resetSelector] at h) (by simpa [resetSelector] using hb)
  have hr : (resetSelector s).c = 0 := rfl
  refine ⟨h1, fun ht => ?_, fun ht t htt => ?_⟩
  · unfold Rand.prob
    rw [Rand.expect_congr _ _ (keyIs i)]
    · have h0 : ((keyTotal es : Nat) : ℚ) ≠ 0 := by exact_mod_cast (by omega : keyTotal es ≠ 0)
      rw [eq_div_iff h0]
      rw [hr] at h3
      simpa using h3
    · intro t htt
      have hc := h2 t htt
      unfold keyIs selectedKey
      have e0 : t.c > 0 := by omega
      by_cases e : t.k = i <;> simp [e, e0]
  · have hc := h2 t htt
    unfold selectedKey
    rw [if_neg (by omega)]

example : keyTotal [(3, 2), (-5, 0), (8, 4)] = 6 ∧ keyShare 8 [(3, 2), (-5, 0), (8, 4)] = 4 := by decide

end Ulam.Chance
