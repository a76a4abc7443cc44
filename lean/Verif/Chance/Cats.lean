import Verif.Chance.Hits
import Mathlib.Tactic.LinearCombination
/-! # C43, C44: the categories of `WindowScanner` -/
namespace Ulam.Chance
open Spec

/-- A call of `categorize` after the maximum was noted: not chosen, and chosen. -/
def weighed (s : Scanner) (c w : Nat) : Scanner := { s with weights := put s.weights c (s.weights c + w) }
def sited (s : Scanner) (sn c w : Nat) : Scanner := { weighed s c w with sites := put s.sites c sn }

theorem categorize_eq (s : Scanner) (sn c w : Nat) (hc : c < s.inUse) (hw : (noteMax s c w).weights c + w < 2 ^ 32)
    (hp : 0 < (noteMax s c w).weights c + w) :
    categorize s sn c w = .draw ((noteMax s c w).weights c + w) fun r =>
      if r < w then .done (sited (noteMax s c w) sn c w, sn) else .done (weighed (noteMax s c w) c w, (noteMax s c w).sites c) := by
  unfold categorize
  rw [if_neg (by omega)]
  simp only
  generalize noteMax s c w = s at *
  have e : satU 32 (s.weights c + w) = s.weights c + w := by unfold satU; omega
  simp only [e, put_apply, if_true]
  rw [if_neg (by omega)]
  unfold create
  rw [if_neg (by omega)]
  simp only [Rand.bind]
  congr 1
  funext r
  by_cases h : r < w
  · simp [h, sited, weighed, put_apply]
  · simp [h, weighed]

theorem categorize_zero (s : Scanner) (sn c w : Nat) (hc : c < s.inUse) (hp : (noteMax s c w).weights c + w = 0) :
    categorize s sn c w = .done (weighed (noteMax s c w) c w, 63) := by
  unfold categorize
  rw [if_neg (by omega)]
  simp only
  generalize noteMax s c w = s at *
  have e : satU 32 (s.weights c + w) = s.weights c + w := by unfold satU; omega
  simp only [e, put_apply, if_true]
  rw [if_pos hp]
  rfl

theorem noteMax_other (s : Scanner) (c c' w : Nat) (h : c' ≠ c) :
    (noteMax s c w).weights c' = s.weights c' ∧ (noteMax s c w).sites c' = s.sites c' ∧ (noteMax s c w).maxes c' = s.maxes c' ∧
    (noteMax s c w).isMax = s.isMax ∧ (noteMax s c w).inUse = s.inUse := by
  unfold noteMax
  split_ifs <;> simp [put_apply, h]

theorem noteMax_sites (s : Scanner) (c w : Nat) : (noteMax s c w).sites = s.sites ∧ (noteMax s c w).isMax = s.isMax ∧
    (noteMax s c w).inUse = s.inUse := by
  unfold noteMax
  split_ifs <;> simp

/-- A call never fails for a category in use, and leaves the other categories alone. -/
theorem categorize_other (s : Scanner) (sn c w : Nat) (hc : c < s.inUse) :
    (categorize s sn c w).Safe ∧ ∀ p, (categorize s sn c w).Possible p → p.1.isMax = s.isMax ∧ p.1.inUse = s.inUse ∧
      ∀ c', c' ≠ c → p.1.weights c' = s.weights c' ∧ p.1.sites c' = s.sites c' ∧ p.1.maxes c' = s.maxes c' := by
  unfold categorize
  rw [if_neg (by omega)]
  have hn := noteMax_other s c
  have hs := noteMax_sites s c w
  simp only
  split
  · refine ⟨trivial, fun p hp => ?_⟩
    change _ = p at hp
    subst hp
    refine ⟨hs.2.1, hs.2.2, fun c' hc' => ?_⟩
    obtain ⟨h1, h2, h3, _⟩ := hn c' w hc'
    simp [put_apply, hc', h1, h2, h3]
  · rename_i h0
    refine ⟨Rand.safe_bind _ _ (create_safe _ (by omega)) fun _ _ => trivial, fun p hp => ?_⟩
    obtain ⟨r, _, hq⟩ := (Rand.possible_bind _ _ _).1 hp
    change _ = p at hq
    subst hq
    simp only
    split
    · refine ⟨hs.2.1, hs.2.2, fun c' hc' => ?_⟩
      obtain ⟨h1, h2, h3, _⟩ := hn c' w hc'
      simp [put_apply, hc', h1, h2, h3]
    · refine ⟨hs.2.1, hs.2.2, fun c' hc' => ?_⟩
      obtain ⟨h1, h2, h3, _⟩ := hn c' w hc'
      simp [put_apply, hc', h1, h2, h3]

theorem callsOf_cons (c sn c' w : Nat) (es : List (Nat × Nat × Nat)) :
    callsOf c ((sn, c', w) :: es) = if c' = c then (sn, w) :: callsOf c es else callsOf c es := by
  unfold callsOf
  by_cases h : c' = c <;> simp [h]

theorem runCat_safe (es : List (Nat × Nat × Nat)) : ∀ s : Scanner, (∀ e ∈ es, e.2.1 < s.inUse) →
    (runCat s es).Safe ∧ ∀ t, (runCat s es).Possible t → t.isMax = s.isMax ∧ t.inUse = s.inUse := by
  induction es with
  | nil => intro s _; exact ⟨trivial, fun t ht => by change s = t at ht; subst ht; exact ⟨rfl, rfl⟩⟩
  | cons e es ih =>
    intro s h
    obtain ⟨sn, c, w⟩ := e
    have hc : c < s.inUse := h _ (List.mem_cons_self ..)
    obtain ⟨h1, h2⟩ := categorize_other s sn c w hc
    have ht : ∀ p, (categorize s sn c w).Possible p → ∀ e ∈ es, e.2.1 < p.1.inUse := by
      intro p hp e he; rw [(h2 p hp).2.1]; exact h e (List.mem_cons_of_mem _ he)
    refine ⟨Rand.safe_bind _ _ h1 fun p hp => (ih p.1 (ht p hp)).1, fun t htt => ?_⟩
    obtain ⟨p, hp, hq⟩ := (Rand.possible_bind _ _ _).1 htt
    have := (ih p.1 (ht p hp)).2 t hq
    exact ⟨this.1.trans (h2 p hp).1, this.2.trans (h2 p hp).2.1⟩

/-- Whether the site of a category is `i`. -/
def siteIs (c i : Nat) (s : Scanner) : ℚ := if s.sites c = i then 1 else 0

/-- What the law says for a category whose total weight is `W` and whose site is `i` with probability `x`, after the calls `h`. -/
def Law (W : Nat) (x : ℚ) (i : Nat) (h : List (Nat × Nat)) (E : ℚ) : Prop := E * (W + total h) = W * x + share i h

/-- The law of a category's site, with the history that counts. -/
theorem cat_law (c i : Nat) (es : List (Nat × Nat × Nat)) : ∀ s : Scanner, (∀ e ∈ es, e.2.1 < s.inUse) →
    s.weights c + total (callsOf c es) < 2 ^ 32 →
    (s.isMax c = false → Law (s.weights c) (siteIs c i s) i (callsOf c es) ((runCat s es).expect (siteIs c i))) ∧
    (s.isMax c = true → match since (s.maxes c) (callsOf c es) with
      | none => Law (s.weights c) (siteIs c i s) i (callsOf c es) ((runCat s es).expect (siteIs c i))
      | some l => (runCat s es).expect (siteIs c i) * total l = share i l) := by
  induction es with
  | nil =>
    intro s _ _
    have : Law (s.weights c) (siteIs c i s) i (callsOf c []) ((runCat s []).expect (siteIs c i)) := by
      simp [Law, callsOf, total, share, runCat, Rand.expect, mul_comm]
    exact ⟨fun _ => this, fun _ => this⟩
  | cons e es ih =>
    intro s hin hb
    obtain ⟨sn, c', w⟩ := e
    have hc' : c' < s.inUse := hin _ (List.mem_cons_self ..)
    have htl : ∀ e ∈ es, e.2.1 < s.inUse := fun e he => hin e (List.mem_cons_of_mem _ he)
    obtain ⟨hs, ho⟩ := categorize_other s sn c' w hc'
    simp only [runCat]
    rw [Rand.expect_bind]
    by_cases hcc : c' = c
    · subst hcc
      rw [callsOf_cons, if_pos rfl] at hb ⊢
      rw [total_cons] at hb
      have w1 : (weighed s c' w).weights c' = s.weights c' + w := by simp [weighed, put_apply]
      have w2 : (sited s sn c' w).weights c' = s.weights c' + w := by simp [sited, weighed, put_apply]
      have x1 : siteIs c' i (weighed s c' w) = siteIs c' i s := rfl
      have x2 : siteIs c' i (sited s sn c' w) = if sn = i then 1 else 0 := by simp [sited, siteIs, put_apply]
      -- without a new maximum: the two continuations obey the law; then so does the whole
      have glue : (noteMax s c' w) = s →
          Law (s.weights c' + w) (siteIs c' i (sited s sn c' w)) i (callsOf c' es) ((runCat (sited s sn c' w) es).expect (siteIs c' i)) →
          Law (s.weights c' + w) (siteIs c' i (weighed s c' w)) i (callsOf c' es) ((runCat (weighed s c' w) es).expect (siteIs c' i)) →
          Law (s.weights c') (siteIs c' i s) i ((sn, w) :: callsOf c' es)
            ((categorize s sn c' w).expect fun p => (runCat p.1 es).expect (siteIs c' i)) := by
        intro hn ha hb'
        rw [x2] at ha
        rw [x1] at hb'
        by_cases hz : s.weights c' + w = 0
        · rw [categorize_zero s sn c' w hc' (by rw [hn]; exact hz), hn]
          simp only [Rand.expect]
          have h1 : s.weights c' = 0 := by omega
          have h2 : w = 0 := by omega
          unfold Law at hb' ⊢
          rw [total_cons, share_cons]
          simpa [h1, h2] using hb'
        · have hz' : ((s.weights c' : ℚ) + w) ≠ 0 := by exact_mod_cast hz
          have hst : ((categorize s sn c' w).expect fun p => (runCat p.1 es).expect (siteIs c' i)) * (s.weights c' + w) =
              w * (runCat (sited s sn c' w) es).expect (siteIs c' i) + s.weights c' * (runCat (weighed s c' w) es).expect (siteIs c' i) := by
            rw [categorize_eq s sn c' w hc' (by rw [hn]; omega) (by rw [hn]; omega), hn]
            rw [Rand.expect_draw_split w (s.weights c') ((runCat (sited s sn c' w) es).expect (siteIs c' i))
              ((runCat (weighed s c' w) es).expect (siteIs c' i)) _ _ (by omega)]
            · field_simp
            · intro r hr; simp only [hr, if_true, Rand.expect]
            · intro r hr; simp only [show ¬ r < w by omega, if_false, Rand.expect]
          unfold Law at ha hb' ⊢
          rw [total_cons, share_cons]
          generalize (runCat (sited s sn c' w) es).expect (siteIs c' i) = X at *
          generalize (runCat (weighed s c' w) es).expect (siteIs c' i) = Y at *
          generalize ((categorize s sn c' w).expect fun p => (runCat p.1 es).expect (siteIs c' i)) = Z at *
          push_cast at *
          apply mul_right_cancel₀ hz'
          split_ifs at ha ⊢ <;> linear_combination (s.weights c' + w + total (callsOf c' es) : ℚ) * hst + w * ha + s.weights c' * hb'
      have iw := ih (weighed s c' w) htl (by rw [w1]; omega)
      have is := ih (sited s sn c' w) htl (by rw [w2]; omega)
      refine ⟨fun hm => ?_, fun hm => ?_⟩
      · have hn : noteMax s c' w = s := by simp [noteMax, hm]
        refine glue hn ?_ ?_
        · have := is.1 hm; rwa [w2] at this
        · have := iw.1 hm; rwa [w1] at this
      · simp only [since]
        by_cases hw : s.maxes c' < w
        · rw [if_pos hw]
          simp only
          have hn : noteMax s c' w = { s with maxes := put s.maxes c' w, weights := put s.weights c' 0 } := by
            simp [noteMax, hm, show ¬ w < s.maxes c' by omega, hw]
          have he : (categorize s sn c' w).expect (fun p => (runCat p.1 es).expect (siteIs c' i)) =
              (runCat (sited (noteMax s c' w) sn c' w) es).expect (siteIs c' i) := by
            have hz : (noteMax s c' w).weights c' = 0 := by rw [hn]; simp [put_apply]
            rw [categorize_eq s sn c' w hc' (by rw [hz]; omega) (by rw [hz]; omega), hz]
            have hw0 : (w : ℚ) ≠ 0 := by exact_mod_cast (by omega : w ≠ 0)
            rw [Rand.expect_draw_split w 0 ((runCat (sited (noteMax s c' w) sn c' w) es).expect (siteIs c' i)) 
              ((runCat (weighed (noteMax s c' w) c' w) es).expect (siteIs c' i)) _ _ (by omega)]
            · simp [hw0]
            · intro r hr; simp only [hr, if_true, Rand.expect]
            · intro r hr; simp only [show ¬ r < w by omega, if_false, Rand.expect]
          rw [he]
          have k1 : (sited (noteMax s c' w) sn c' w).weights c' = w := by rw [hn]; simp [sited, weighed, put_apply]
          have k2 : (sited (noteMax s c' w) sn c' w).maxes c' = w := by rw [hn]; simp [sited, weighed, put_apply]
          have k3 : siteIs c' i (sited (noteMax s c' w) sn c' w) = if sn = i then 1 else 0 := by rw [hn]; simp [sited, siteIs, put_apply]
          have := (ih (sited (noteMax s c' w) sn c' w) (by rw [hn]; exact htl) (by rw [k1]; omega)).2 (by rw [hn]; exact hm)
          rw [k1, k2, k3] at this
          cases hq : since w (callsOf c' es) with
          | none =>
            rw [hq] at this
            simp only [Option.getD_none]
            unfold Law at this
            rw [total_cons, share_cons]
            push_cast at this ⊢
            split_ifs at this ⊢ <;> linear_combination this
          | some l =>
            rw [hq] at this
            simpa using this
        · rw [if_neg hw]
          have hn : noteMax s c' w = s := by
            unfold noteMax
            simp [hw]
          have a := is.2 hm
          have b := iw.2 hm
          have m1 : (sited s sn c' w).maxes = s.maxes := rfl
          have m2 : (weighed s c' w).maxes = s.maxes := rfl
          rw [m1] at a
          rw [m2] at b
          cases hq : since (s.maxes c') (callsOf c' es) with
          | none =>
            rw [hq] at a b
            simp only at a b ⊢
            rw [w2] at a
            rw [w1] at b
            exact glue hn a b
          | some l =>
            rw [hq] at a b
            simp only at a b ⊢
            have hcon : ∀ p, (categorize s sn c' w).Possible p → (runCat p.1 es).expect (siteIs c' i) * total l = share i l := by
              intro p hp
              by_cases hz : s.weights c' + w = 0
              · rw [categorize_zero s sn c' w hc' (by rw [hn]; exact hz), hn] at hp
                change _ = p at hp
                rw [← hp]; exact b
              · rw [categorize_eq s sn c' w hc' (by rw [hn]; omega) (by rw [hn]; omega), hn] at hp
                obtain ⟨r, _, hr⟩ := hp
                simp only at hr
                split at hr
                · change _ = p at hr; rw [← hr]; exact a
                · change _ = p at hr; rw [← hr]; exact b
            rw [mul_comm, ← Rand.expect_mul, Rand.expect_congr _ _ (fun _ => (share i l : ℚ)) (fun p hp => by rw [mul_comm]; exact hcon p hp)]
            exact Rand.expect_const _ hs _
    · rw [callsOf_cons, if_neg hcc] at hb ⊢
      have hcc' : c ≠ c' := fun h => hcc h.symm
      have key : ∀ p, (categorize s sn c' w).Possible p → siteIs c i p.1 = siteIs c i s := by
        intro p hp; unfold siteIs; rw [((ho p hp).2.2 c hcc').2.1]
      have avg : ∀ (A B : ℚ), (∀ p, (categorize s sn c' w).Possible p → (runCat p.1 es).expect (siteIs c i) * A = B) →
          ((categorize s sn c' w).expect fun p => (runCat p.1 es).expect (siteIs c i)) * A = B := by
        intro A B h
        rw [mul_comm, ← Rand.expect_mul, Rand.expect_congr _ _ (fun _ => B) (fun p hp => by rw [mul_comm]; exact h p hp)]
        exact Rand.expect_const _ hs _
      have hi : ∀ p, (categorize s sn c' w).Possible p → _ := fun p hp =>
        ih p.1 (by rw [(ho p hp).2.1]; exact htl) (by rw [((ho p hp).2.2 c hcc').1]; exact hb)
      refine ⟨fun hm => avg _ _ fun p hp => ?_, fun hm => ?_⟩
      · have := (hi p hp).1 (by rw [(ho p hp).1]; exact hm)
        rw [((ho p hp).2.2 c hcc').1, key p hp] at this
        exact this
      · have hi2 : ∀ p, (categorize s sn c' w).Possible p → _ := fun p hp => (hi p hp).2 (by rw [(ho p hp).1]; exact hm)
        cases hq : since (s.maxes c) (callsOf c es) with
        | none =>
          refine avg _ _ fun p hp => ?_
          have := hi2 p hp
          rw [((ho p hp).2.2 c hcc').1, ((ho p hp).2.2 c hcc').2.2, key p hp, hq] at this
          exact this
        | some l =>
          refine avg _ _ fun p hp => ?_
          have := hi2 p hp
          rw [((ho p hp).2.2 c hcc').2.2, hq] at this
          exact this

theorem prob_site (t : Rand Scanner) (c i : Nat) : t.prob (fun s => s.sites c = i) = t.expect (siteIs c i) := by
  unfold Rand.prob
  congr 1
  funext s
  unfold siteIs
  by_cases h : s.sites c = i <;> simp [h]

theorem noteMax_weights_zero (s : Scanner) (c w : Nat) (h : s.weights c = 0) : (noteMax s c w).weights c = 0 := by
  unfold noteMax
  split_ifs <;> simp [h, put_apply]

/-- Calls without weight leave an empty category empty. -/
theorem runCat_zero (c : Nat) (es : List (Nat × Nat × Nat)) : ∀ s : Scanner, (∀ e ∈ es, e.2.1 < s.inUse) → s.weights c = 0 →
    total (callsOf c es) = 0 → ∀ t, (runCat s es).Possible t → t.sites c = s.sites c := by
  induction es with
  | nil => intro s _ _ _ t ht; change s = t at ht; rw [ht]
  | cons e es ih =>
    intro s hin hw hb t ht
    obtain ⟨sn, c', w⟩ := e
    have hc' : c' < s.inUse := hin _ (List.mem_cons_self ..)
    obtain ⟨_, ho⟩ := categorize_other s sn c' w hc'
    obtain ⟨p, hp, hq⟩ := (Rand.possible_bind _ _ _).1 ht
    have htl : ∀ e ∈ es, e.2.1 < p.1.inUse := by
      intro e he; rw [(ho p hp).2.1]; exact hin e (List.mem_cons_of_mem _ he)
    rw [callsOf_cons] at hb
    by_cases hcc : c' = c
    · subst hcc
      rw [if_pos rfl, total_cons] at hb
      have hz := noteMax_weights_zero s c' w hw
      rw [categorize_zero s sn c' w hc' (by omega)] at hp
      change _ = p at hp
      subst hp
      rw [ih _ htl (by simp [weighed, put_apply, hz]; omega) (by omega) t hq]
      show (noteMax s c' w).sites c' = _
      rw [(noteMax_sites s c' w).1]
    · rw [if_neg hcc] at hb
      have := (ho p hp).2.2 c (fun h => hcc h.symm)
      rw [ih _ htl (by rw [this.1]; exact hw) hb t hq, this.2.1]

/-- **C43**, for `WindowScanner`: after `initScan`, any calls of `categorize` for categories in use do not fail; a category that is not a
maximum category, given some weight (less than 2^32 in all), then holds each site with probability exactly the weight given for it over
the total weight; a category given no weight holds 63. -/
theorem C43_categorize (s : Scanner) (es : List (Nat × Nat × Nat)) (c i : Nat) (hin : ∀ e ∈ es, e.2.1 < s.inUse)
    (hm : s.isMax c = false) (hb : total (callsOf c es) < 2 ^ 32) :
    (runCat (initScan s) es).Safe ∧
    (total (callsOf c es) > 0 → (runCat (initScan s) es).prob (fun t => t.sites c = i) = share i (callsOf c es) / total (callsOf c es)) ∧
    (total (callsOf c es) = 0 → ∀ t, (runCat (initScan s) es).Possible t → t.sites c = 63) := by
  refine ⟨(runCat_safe es (initScan s) hin).1, fun ht => ?_, fun ht t htt => ?_⟩
  · have := (cat_law c i es (initScan s) hin (by simpa [initScan] using hb)).1 hm
    rw [prob_site]
    unfold Law at this
    have h0 : ((total (callsOf c es) : Nat) : ℚ) ≠ 0 := by exact_mod_cast (by omega : total (callsOf c es) ≠ 0)
    rw [eq_div_iff h0]
    simpa [initScan] using this
  · exact runCat_zero c es (initScan s) hin rfl ht t htt

/-- **C43**, the answer of `categorize`: it is the site the category now holds, or 63 if it has been given no weight. -/
theorem C43_categorize_answer (s : Scanner) (sn c w : Nat) (hc : c < s.inUse) (p : Scanner × Nat)
    (hp : (categorize s sn c w).Possible p) : p.2 = if p.1.weights c = 0 then 63 else p.1.sites c := by
  unfold categorize at hp
  rw [if_neg (by omega)] at hp
  simp only at hp
  split at hp
  · rename_i h
    change _ = p at hp
    rw [← hp]
    simp only
    rw [if_pos h]
  · rename_i h
    obtain ⟨r, _, hq⟩ := (Rand.possible_bind _ _ _).1 hp
    change _ = p at hq
    rw [← hq]
    by_cases hr : r < w
    · simp only [hr, if_true]; rw [if_neg h]
    · simp only [hr, if_false]; rw [if_neg h]

/-- **C43**, categories: `allocateCategory` answers the first 32 times, each time the next number, and fails from then on; the category
is a maximum category exactly if `allocateMaxCategory` made it, and the others keep their kind. -/
theorem C43_allocate (s : Scanner) :
    (s.inUse < 32 → ∃ t u, allocateCategory s = some (t, s.inUse) ∧ allocateMaxCategory s = some (u, s.inUse) ∧
      t.inUse = s.inUse + 1 ∧ u.inUse = s.inUse + 1 ∧ t.isMax s.inUse = false ∧ u.isMax s.inUse = true ∧
      ∀ c, c ≠ s.inUse → t.isMax c = s.isMax c ∧ u.isMax c = s.isMax c) ∧
    (32 ≤ s.inUse → allocateCategory s = none ∧ allocateMaxCategory s = none) := by
  refine ⟨fun h => ?_, fun h => ?_⟩
  · have e : satU 5 s.inUse = s.inUse := by unfold satU; omega
    have ea : allocateCategory s = some ({ s with isMax := put s.isMax s.inUse false, inUse := s.inUse + 1 }, s.inUse) := by
      unfold allocateCategory; rw [if_neg (by omega), e]
    refine ⟨_, _, ea, by unfold allocateMaxCategory; rw [ea]; rfl, rfl, rfl, by simp [put_apply], by simp [put_apply], fun c hc => ?_⟩
    simp [put_apply, hc]
  · have ea : allocateCategory s = none := by unfold allocateCategory; rw [if_pos (by omega)]
    exact ⟨ea, by unfold allocateMaxCategory; rw [ea]; rfl⟩

example : callsOf 1 [(4, 1, 2), (5, 0, 9), (6, 1, 6)] = [(4, 2), (6, 6)] ∧
    total (callsOf 1 [(4, 1, 2), (5, 0, 9), (6, 1, 6)]) = 8 ∧ share 6 (callsOf 1 [(4, 1, 2), (5, 0, 9), (6, 1, 6)]) = 6 := by
  decide

/-! ### C44: maximum categories -/

theorem since_none (m : Nat) (h : List (Nat × Nat)) (hle : ∀ p ∈ h, p.2 ≤ m) : since m h = none := by
  induction h with
  | nil => rfl
  | cons p h ih =>
    obtain ⟨sn, w⟩ := p
    have := hle (sn, w) (List.mem_cons_self ..)
    simp only at this
    simp only [since]
    rw [if_neg (by omega)]
    exact ih fun p hp => hle p (List.mem_cons_of_mem _ hp)

theorem since_sorted (M : Nat) (h : List (Nat × Nat)) : ∀ m, m < M → h.Pairwise (fun a b => a.2 ≤ b.2) → (∀ p ∈ h, p.2 ≤ M) →
    (∃ p ∈ h, p.2 = M) → since m h = some (h.filter fun p => p.2 = M) := by
  induction h with
  | nil => intro m _ _ _ ⟨p, hp, _⟩; simp at hp
  | cons p h ih =>
    intro m hm hs hle hex
    obtain ⟨sn, w⟩ := p
    rw [List.pairwise_cons] at hs
    have hw : w ≤ M := hle (sn, w) (List.mem_cons_self ..)
    have htl : ∀ p ∈ h, p.2 ≤ M := fun p hp => hle p (List.mem_cons_of_mem _ hp)
    simp only [since]
    by_cases he : w = M
    · subst he
      rw [if_pos hm, since_none w h htl]
      have : h.filter (fun p => decide (p.2 = w)) = h := by
        rw [List.filter_eq_self]
        intro p hp
        have h1 := hs.1 p hp
        have h2 := htl p hp
        simp only at h1
        simp; omega
      simp [this]
    · have hex' : ∃ p ∈ h, p.2 = M := by
        obtain ⟨p, hp, hq⟩ := hex
        rcases List.mem_cons.1 hp with rfl | hp
        · exact absurd hq he
        · exact ⟨p, hp, hq⟩
      have hf : ((sn, w) :: h).filter (fun p => decide (p.2 = M)) = h.filter fun p => decide (p.2 = M) := by simp [he]
      rw [hf]
      by_cases hmw : m < w
      · rw [if_pos hmw, ih w (by omega) hs.2 htl hex']; rfl
      · rw [if_neg hmw]; exact ih m hm hs.2 htl hex'

theorem total_ofWeight (M : Nat) (h : List (Nat × Nat)) : total (h.filter fun p => p.2 = M) = ofWeight M h * M := by
  induction h with
  | nil => simp [total, ofWeight]
  | cons p h ih =>
    unfold ofWeight at *
    by_cases e : p.2 = M
    · simp only [List.filter_cons, e, decide_true, if_true, List.length_cons]
      rw [show p = (p.1, p.2) from rfl, total_cons, ih, e]; ring
    · simp only [List.filter_cons, e, decide_false]; exact ih

theorem share_ofWeight (M i : Nat) (h : List (Nat × Nat)) : share i (h.filter fun p => p.2 = M) = ofWeightAt M i h * M := by
  induction h with
  | nil => simp [share, ofWeightAt]
  | cons p h ih =>
    unfold ofWeightAt at *
    by_cases e : p.2 = M
    · simp only [List.filter_cons, e, decide_true, if_true, true_and]
      rw [show p = (p.1, p.2) from rfl, share_cons, ih]
      by_cases e2 : p.1 = i
      · simp [e2, e]; ring
      · simp [e2]
    · simp only [List.filter_cons, e, decide_false, false_and]; exact ih

theorem noteMax_max (s : Scanner) (c w : Nat) (h : s.isMax c = true) : (noteMax s c w).maxes c = max (s.maxes c) w := by
  unfold noteMax
  rw [if_pos h]
  split_ifs
  · omega
  · simp [put_apply]; omega
  · omega

theorem categorize_max (s : Scanner) (sn c w : Nat) (hc : c < s.inUse) (h : s.isMax c = true) (p : Scanner × Nat)
    (hp : (categorize s sn c w).Possible p) : p.1.maxes c = max (s.maxes c) w := by
  unfold categorize at hp
  rw [if_neg (by omega)] at hp
  simp only at hp
  have := noteMax_max s c w h
  split at hp
  · change _ = p at hp
    rw [← hp]; exact this
  · obtain ⟨r, _, hq⟩ := (Rand.possible_bind _ _ _).1 hp
    change _ = p at hq
    rw [← hq]
    by_cases hr : r < w
    · simp only [hr, if_true]; exact this
    · simp only [hr, if_false]; exact this

/-- The maximum noted is the greatest weight given, or what was noted before. -/
theorem runCat_max (c : Nat) (es : List (Nat × Nat × Nat)) : ∀ s : Scanner, (∀ e ∈ es, e.2.1 < s.inUse) → s.isMax c = true →
    ∀ t, (runCat s es).Possible t → t.maxes c = ((callsOf c es).map Prod.snd).foldl max (s.maxes c) := by
  induction es with
  | nil => intro s _ _ t ht; change s = t at ht; rw [ht]; rfl
  | cons e es ih =>
    intro s hin hm t ht
    obtain ⟨sn, c', w⟩ := e
    have hc' : c' < s.inUse := hin _ (List.mem_cons_self ..)
    obtain ⟨_, ho⟩ := categorize_other s sn c' w hc'
    obtain ⟨p, hp, hq⟩ := (Rand.possible_bind _ _ _).1 ht
    have htl : ∀ e ∈ es, e.2.1 < p.1.inUse := by
      intro e he; rw [(ho p hp).2.1]; exact hin e (List.mem_cons_of_mem _ he)
    rw [ih p.1 htl (by rw [(ho p hp).1]; exact hm) t hq, callsOf_cons]
    by_cases hcc : c' = c
    · subst hcc
      rw [if_pos rfl, categorize_max s sn c' w hc' hm p hp]; rfl
    · rw [if_neg hcc, ((ho p hp).2.2 c (fun h => hcc h.symm)).2.2]

theorem foldl_max (l : List Nat) : ∀ m M, m ≤ M → (∀ x ∈ l, x ≤ M) → (M ∈ l ∨ m = M) → l.foldl max m = M := by
  induction l with
  | nil => intro m M _ _ h; simpa using h
  | cons a l ih =>
    intro m M hm hl h
    have ha := hl a (List.mem_cons_self ..)
    refine ih (max m a) M (by omega) (fun x hx => hl x (List.mem_cons_of_mem _ hx)) ?_
    rcases h with h | h
    · rcases List.mem_cons.1 h with h | h
      · right; omega
      · left; exact h
    · right; omega

/-- **C44** (partial: the weights of the scan must come in nondecreasing order, and the category must not have seen a greater weight in
an earlier scan). The site picked in a maximum category then always carries the greatest weight `M` given in the scan, the choice among
the calls with that weight is uniform, and `getMax` answers `M`. Without these conditions the claim is false; see below. -/
theorem C44_max_partial (s : Scanner) (es : List (Nat × Nat × Nat)) (c M : Nat) (hin : ∀ e ∈ es, e.2.1 < s.inUse)
    (hm : s.isMax c = true) (hold : s.maxes c < M) (hb : total (callsOf c es) < 2 ^ 32)
    (hs : (callsOf c es).Pairwise (fun a b => a.2 ≤ b.2)) (hle : ∀ p ∈ callsOf c es, p.2 ≤ M) (hex : ∃ p ∈ callsOf c es, p.2 = M) :
    (runCat (initScan s) es).Safe ∧
    (∀ t, (runCat (initScan s) es).Possible t → (t.sites c, M) ∈ callsOf c es ∧ getMax t c = M) ∧
    ∀ i, (runCat (initScan s) es).prob (fun t => t.sites c = i) = ofWeightAt M i (callsOf c es) / ofWeight M (callsOf c es) := by
  have hsafe := runCat_safe es (initScan s) hin
  have hsince : since ((initScan s).maxes c) (callsOf c es) = some ((callsOf c es).filter fun p => p.2 = M) :=
    since_sorted M _ _ hold hs hle hex
  have hprob : ∀ i, (runCat (initScan s) es).prob (fun t => t.sites c = i) = ofWeightAt M i (callsOf c es) / ofWeight M (callsOf c es) := by
    intro i
    have := (cat_law c i es (initScan s) hin (by simpa [initScan] using hb)).2 hm
    rw [hsince] at this
    simp only at this
    rw [total_ofWeight, share_ofWeight] at this
    rw [prob_site]
    obtain ⟨p, hp, hq⟩ := hex
    have h1 : 0 < ofWeight M (callsOf c es) := List.length_pos_of_mem (List.mem_filter.2 ⟨hp, by simpa using hq⟩)
    have h2 : ((ofWeight M (callsOf c es) : Nat) : ℚ) ≠ 0 := by exact_mod_cast (by omega : ofWeight M (callsOf c es) ≠ 0)
    have h3 : (M : ℚ) ≠ 0 := by exact_mod_cast (by omega : M ≠ 0)
    rw [eq_div_iff h2]
    apply mul_right_cancel₀ h3
    push_cast at this
    linear_combination this
  refine ⟨hsafe.1, fun t ht => ⟨?_, ?_⟩, hprob⟩
  · have hpos := Rand.prob_pos _ (fun u => u.sites c = t.sites c) t ht rfl
    rw [hprob] at hpos
    have : ofWeightAt M (t.sites c) (callsOf c es) ≠ 0 := by
      intro h0; rw [h0] at hpos; simp at hpos
    unfold ofWeightAt at this
    obtain ⟨p, hp⟩ := List.exists_mem_of_length_pos (Nat.pos_of_ne_zero this)
    rw [List.mem_filter] at hp
    obtain ⟨hp1, hp2⟩ := hp
    simp only [decide_eq_true_eq] at hp2
    rw [← hp2.1, ← hp2.2]
    exact hp1
  · have h1 := (hsafe.2 t ht).1
    unfold getMax
    rw [h1, if_pos (show (initScan s).isMax c = true from hm), runCat_max c es (initScan s) hin hm t ht]
    refine foldl_max _ _ _ (by show s.maxes c ≤ M; omega) ?_ (Or.inl ?_)
    · intro x hx
      obtain ⟨p, hp, rfl⟩ := List.mem_map.1 hx
      exact hle p hp
    · obtain ⟨p, hp, hq⟩ := hex
      exact List.mem_map.2 ⟨p, hp, hq⟩

example : ∃ s : Scanner, s.isMax 0 = true ∧ s.maxes 0 < 7 ∧ s.inUse = 1 ∧
    (callsOf 0 [(4, 0, 2), (5, 0, 7), (6, 0, 7)]).Pairwise (fun a b => a.2 ≤ b.2) ∧
    ofWeightAt 7 5 (callsOf 0 [(4, 0, 2), (5, 0, 7), (6, 0, 7)]) = 1 ∧ ofWeight 7 (callsOf 0 [(4, 0, 2), (5, 0, 7), (6, 0, 7)]) = 2 :=
  ⟨⟨fun _ => 63, fun _ => 0, fun _ => true, fun _ => 0, 1⟩, rfl, by decide, rfl, by decide, by decide, by decide⟩

/-- **C44 fails.** The greatest weight comes first, a smaller one after it: the site with the smaller weight is picked with probability
v/(u+v), as in an ordinary category. (WindowScanner.ulam:109 adds `weight`, not the `w` made 0 at 100.) -/
theorem C44_smaller_later_fails (s : Scanner) (c a b u v : Nat) (hc : c < s.inUse) (hm : s.isMax c = true) (hab : a ≠ b) (hv : 0 < v)
    (huv : v < u) (hb : u + v < 2 ^ 32) :
    (runCat (initScan s) [(a, c, u), (b, c, v)]).prob (fun t => t.sites c = b) = (v : ℚ) / (u + v) := by
  have hin : ∀ e ∈ [(a, c, u), (b, c, v)], e.2.1 < s.inUse := by
    intro e he
    rcases List.mem_cons.1 he with rfl | he
    · exact hc
    · rcases List.mem_cons.1 he with rfl | he
      · exact hc
      · simp at he
  have hcalls : callsOf c [(a, c, u), (b, c, v)] = [(a, u), (b, v)] := by simp [callsOf]
  have ht : total [(a, u), (b, v)] = u + v := by simp [total]
  have hsh : share b [(a, u), (b, v)] = v := by simp [share, hab]
  have := (cat_law c b [(a, c, u), (b, c, v)] (initScan s) hin (by rw [hcalls, ht]; simpa [initScan] using hb)).2 hm
  rw [hcalls] at this
  rw [prob_site]
  have h0 : ((u : ℚ) + v) ≠ 0 := by positivity
  rw [eq_div_iff h0]
  by_cases hold : s.maxes c < u
  · have e : since ((initScan s).maxes c) [(a, u), (b, v)] = some [(a, u), (b, v)] := by
      show since (s.maxes c) _ = _
      simp only [since]
      rw [if_pos hold, if_neg (by omega)]; rfl
    rw [e] at this
    simp only at this
    rw [ht, hsh] at this
    push_cast at this
    exact this
  · have e : since ((initScan s).maxes c) [(a, u), (b, v)] = none := by
      show since (s.maxes c) _ = _
      simp only [since]
      rw [if_neg hold, if_neg (by omega)]
    rw [e] at this
    simp only [Law] at this
    rw [ht, hsh] at this
    have hw : (initScan s).weights c = 0 := rfl
    rw [hw] at this
    push_cast at this
    simpa using this

/-- **C44 fails** after an earlier scan of the same category: `initScan` keeps the greatest weight seen (WindowScanner.ulam:70-75 does
not touch `mMaxes`). If no weight of the new scan is greater, the category behaves like an ordinary one, even if the weights rise, and
`getMax` still answers the old maximum. -/
theorem C44_stale_maximum_fails (s : Scanner) (es : List (Nat × Nat × Nat)) (c i : Nat) (hin : ∀ e ∈ es, e.2.1 < s.inUse)
    (hm : s.isMax c = true) (hold : ∀ p ∈ callsOf c es, p.2 ≤ s.maxes c) (hb : total (callsOf c es) < 2 ^ 32)
    (hp : 0 < total (callsOf c es)) :
    (runCat (initScan s) es).prob (fun t => t.sites c = i) = share i (callsOf c es) / total (callsOf c es) ∧
    ∀ t, (runCat (initScan s) es).Possible t → getMax t c = s.maxes c := by
  have e : since ((initScan s).maxes c) (callsOf c es) = none := since_none _ _ hold
  have := (cat_law c i es (initScan s) hin (by simpa [initScan] using hb)).2 hm
  rw [e] at this
  refine ⟨?_, fun t ht => ?_⟩
  · simp only [Law] at this
    rw [prob_site]
    have h0 : ((total (callsOf c es) : Nat) : ℚ) ≠ 0 := by exact_mod_cast (by omega : total (callsOf c es) ≠ 0)
    rw [eq_div_iff h0]
    simpa [initScan] using this
  · unfold getMax
    rw [((runCat_safe es (initScan s) hin).2 t ht).1, if_pos (show (initScan s).isMax c = true from hm),
      runCat_max c es (initScan s) hin hm t ht]
    refine foldl_max _ _ _ (le_refl _) ?_ (Or.inr rfl)
    intro x hx
    obtain ⟨p, hp, rfl⟩ := List.mem_map.1 hx
    exact hold p hp

/-- Sites 1 and 2 with weights 1 and 3, after a scan whose greatest weight was 3: site 1 is picked one time in four. -/
example (s : Scanner) (hc : 0 < s.inUse) (hm : s.isMax 0 = true) (h : s.maxes 0 = 3) :
    (runCat (initScan s) [(1, 0, 1), (2, 0, 3)]).prob (fun t => t.sites 0 = 1) = 1 / 4 := by
  have := (C44_stale_maximum_fails s [(1, 0, 1), (2, 0, 3)] 0 1 (by simp [hc]) hm (by simp [callsOf, h]) (by decide) (by decide)).1
  rw [this, show share 1 (callsOf 0 [(1, 0, 1), (2, 0, 3)]) = 1 from by decide, show total (callsOf 0 [(1, 0, 1), (2, 0, 3)]) = 4 from by decide]
  norm_num

end Ulam.Chance
