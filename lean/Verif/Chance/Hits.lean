import Verif.Chance.Random
import Mathlib.Tactic.ByContra
import Mathlib.Tactic.Push
import Mathlib.Data.List.Nodup
/-! # C43: weighted selection by `WindowServices` -/
namespace Ulam.Chance
open Spec

theorem share_cons (i j w : Nat) (h : List (Nat × Nat)) : share i ((j, w) :: h) = (if j = i then w else 0) + share i h := by
  unfold share
  by_cases e : j = i
  · simp [e]
  · simp [e]

theorem total_cons (j w : Nat) (h : List (Nat × Nat)) : total ((j, w) :: h) = w + total h := by simp [total]

/-- The state after a hit that is not chosen, and after one that is. -/
def counted (s : Services) (slot w : Nat) : Services := { s with hitCount := put s.hitCount slot (s.hitCount slot + w) }
def picked (s : Services) (slot w : Nat) : Services := { counted s slot w with chosen := put s.chosen slot s.current }

theorem hit_eq (s : Services) (slot w : Nat) (hw : 0 < w) (hc : s.hitCount slot + w ≤ 255) :
    hit s slot w = .draw (s.hitCount slot + w) fun r => if r < w then .done (picked s slot w, true) else .done (counted s slot w, false) := by
  have e : satU 8 (satU 32 (s.hitCount slot + w)) = s.hitCount slot + w := by
    unfold satU; omega
  unfold hit
  simp only [e]
  unfold create
  have : put s.hitCount slot (s.hitCount slot + w) slot = s.hitCount slot + w := by simp [put]
  rw [this, if_neg (by omega)]
  simp only [Rand.bind, counted, picked]

theorem hit_expect (s : Services) (slot w : Nat) (hw : 0 < w) (hc : s.hitCount slot + w ≤ 255) (f : Services × Bool → ℚ) :
    (hit s slot w).expect f = (w * f (picked s slot w, true) + s.hitCount slot * f (counted s slot w, false)) / (s.hitCount slot + w) := by
  rw [hit_eq s slot w hw hc]
  refine Rand.expect_draw_split _ _ _ _ _ _ (by omega) ?_ ?_
  · intro r hr; rw [if_pos hr]; rfl
  · intro r hr; rw [if_neg (by omega)]; rfl

theorem hit_possible (s : Services) (slot w : Nat) (hw : 0 < w) (hc : s.hitCount slot + w ≤ 255) (p : Services × Bool)
    (h : (hit s slot w).Possible p) : p = (picked s slot w, true) ∨ p = (counted s slot w, false) := by
  rw [hit_eq s slot w hw hc] at h
  obtain ⟨r, _, hr⟩ := h
  simp only at hr
  split at hr
  · exact Or.inl hr.symm
  · exact Or.inr hr.symm

theorem hit_safe (s : Services) (slot w : Nat) (hw : 0 < w) (hc : s.hitCount slot + w ≤ 255) : (hit s slot w).Safe := by
  rw [hit_eq s slot w hw hc]
  refine ⟨by omega, fun r _ => ?_⟩
  simp only
  split <;> trivial

/-- The weights fit the counters, from a given state on. -/
def Fits (s : Services) (site : Nat) (es : List Ev) : Prop := ∀ slot, s.hitCount slot + total (hitsOf slot site es) ≤ 255

theorem positive_tail {e : Ev} {es : List Ev} (h : Positive (e :: es)) : Positive es := fun sl w hm => h sl w (List.mem_cons_of_mem _ hm)

theorem put_apply {β : Type} (f : Nat → β) (i j : Nat) (x : β) : put f i x j = if j = i then x else f j := rfl

theorem fits_hit {s : Services} {slot w : Nat} {es : List Ev} (h : Fits s s.current (.hit slot w :: es)) :
    s.hitCount slot + w ≤ 255 ∧ Fits (counted s slot w) s.current es ∧ Fits (picked s slot w) s.current es := by
  have h1 := h slot
  simp only [hitsOf, if_true, total_cons] at h1
  have h2 : Fits (counted s slot w) s.current es := by
    intro sl
    have := h sl
    simp only [hitsOf] at this
    simp only [counted, put_apply]
    by_cases e : sl = slot
    · subst e; rw [if_pos rfl]; simp only [if_true, total_cons] at this; omega
    · rw [if_neg e]; rw [if_neg (fun q => e q.symm)] at this; exact this
  exact ⟨by omega, h2, h2⟩

open Classical in
/-- The law of the pick of a slot, from any state. -/
theorem pick_law (slot i : Nat) (es : List Ev) : ∀ s : Services, Positive es → Fits s s.current es →
    s.hitCount slot + total (hitsOf slot s.current es) > 0 →
    (runEv s es).expect (fun t => if t.chosen slot = i then 1 else 0) =
      (s.hitCount slot * (if s.chosen slot = i then 1 else 0) + share i (hitsOf slot s.current es)) /
        (s.hitCount slot + total (hitsOf slot s.current es)) := by
  induction es with
  | nil =>
    intro s _ _ h
    simp only [hitsOf, total, share, List.map_nil, List.sum_nil, Nat.add_zero, List.filter_nil] at h ⊢
    have : (s.hitCount slot : ℚ) ≠ 0 := by positivity
    simp only [runEv, Rand.expect]
    field_simp
    simp
  | cons e es ih =>
    intro s hp hf ht
    cases e with
    | move j =>
      simp only [runEv, hitsOf] at ht ⊢
      exact ih { s with current := j } (positive_tail hp) (fun sl => by have := hf sl; simpa [hitsOf] using this) ht
    | hit sl w =>
      have hw := hp sl w (by simp)
      obtain ⟨h1, h2, h3⟩ := fits_hit hf
      simp only [runEv]
      rw [Rand.expect_bind, hit_expect s sl w hw h1]
      simp only
      have pc : (picked s sl w).current = s.current := rfl
      have cc : (counted s sl w).current = s.current := rfl
      by_cases q : sl = slot
      · subst q
        have e1 : (picked s sl w).hitCount sl = s.hitCount sl + w := by simp [picked, counted, put]
        have e2 : (counted s sl w).hitCount sl = s.hitCount sl + w := by simp [counted, put]
        have e3 : (picked s sl w).chosen sl = s.current := by simp [picked, put]
        have e4 : (counted s sl w).chosen sl = s.chosen sl := by simp [counted]
        rw [ih (picked s sl w) (positive_tail hp) h3 (by rw [e1]; omega), ih (counted s sl w) (positive_tail hp) h2 (by rw [e2]; omega)]
        simp only [hitsOf, if_true, total_cons, share_cons, pc, cc, e1, e2, e3, e4]
        generalize total (hitsOf sl s.current es) = T
        generalize share i (hitsOf sl s.current es) = S
        generalize s.hitCount sl = c
        have a1 : ((c : ℚ) + w) ≠ 0 := by positivity
        have a2 : ((c : ℚ) + w + T) ≠ 0 := by positivity
        push_cast
        split_ifs <;> field_simp <;> ring
      · have q' : ¬ slot = sl := fun h => q h.symm
        have e1 : (picked s sl w).hitCount slot = s.hitCount slot := by simp [picked, counted, put, q']
        have e2 : (counted s sl w).hitCount slot = s.hitCount slot := by simp [counted, put, q']
        have e3 : (picked s sl w).chosen slot = s.chosen slot := by simp [picked, put, counted, q']
        have e4 : (counted s sl w).chosen slot = s.chosen slot := by simp [counted]
        simp only [hitsOf, if_neg q] at ht ⊢
        rw [ih (picked s sl w) (positive_tail hp) h3 (by rw [e1]; exact ht), ih (counted s sl w) (positive_tail hp) h2 (by rw [e2]; exact ht)]
        simp only [pc, cc, e1, e2, e3, e4]
        have a1 : ((s.hitCount sl : ℚ) + w) ≠ 0 := by positivity
        field_simp
        ring

/-- Hits never fail, and count all the weight. -/
theorem runEv_possible (es : List Ev) : ∀ s : Services, Positive es → Fits s s.current es →
    (runEv s es).Safe ∧ ∀ t, (runEv s es).Possible t → ∀ slot, t.hitCount slot = s.hitCount slot + total (hitsOf slot s.current es) := by
  induction es with
  | nil =>
    intro s _ _
    refine ⟨trivial, fun t ht slot => ?_⟩
    change s = t at ht
    subst ht
    simp [hitsOf, total]
  | cons e es ih =>
    intro s hp hf
    cases e with
    | move j =>
      have := ih { s with current := j } (positive_tail hp) (fun sl => by have := hf sl; simpa [hitsOf] using this)
      simpa [runEv, hitsOf] using this
    | hit sl w =>
      have hw := hp sl w (by simp)
      obtain ⟨h1, h2, h3⟩ := fits_hit hf
      have i1 := ih (picked s sl w) (positive_tail hp) h3
      have i2 := ih (counted s sl w) (positive_tail hp) h2
      simp only [runEv]
      have key : ∀ slot, (counted s sl w).hitCount slot + total (hitsOf slot s.current es) =
          s.hitCount slot + total (hitsOf slot s.current (.hit sl w :: es)) := by
        intro slot
        simp only [counted, put_apply, hitsOf]
        by_cases q : slot = sl
        · subst q; simp [total_cons]; omega
        · rw [if_neg q, if_neg (fun h => q h.symm)]
      refine ⟨Rand.safe_bind _ _ (hit_safe s sl w hw h1) ?_, ?_⟩
      · intro p hpp
        rcases hit_possible s sl w hw h1 p hpp with rfl | rfl
        · exact i1.1
        · exact i2.1
      · intro t ht slot
        obtain ⟨p, hpp, htt⟩ := (Rand.possible_bind _ _ _).1 ht
        rcases hit_possible s sl w hw h1 p hpp with rfl | rfl
        · exact (i1.2 t htt slot).trans (key slot)
        · exact (i2.2 t htt slot).trans (key slot)

/-- **C43.** For `WindowServices`: after a reset, any sequence of moves and hits with positive weights, the weights of each slot adding
up to at most 255, does not fail; a slot with hits then picks each site with probability exactly the weight reported for it over the
total weight; a slot without hits answers 63. -/
theorem C43_hit (s : Services) (es : List Ev) (slot i : Nat) (hp : Positive es)
    (hf : ∀ slot, total (hitsOf slot 63 es) ≤ 255) :
    (runEv (resetServices s) es).Safe ∧
    (total (hitsOf slot 63 es) > 0 → (runEv (resetServices s) es).prob (fun t => getPick t slot = i) =
      share i (hitsOf slot 63 es) / total (hitsOf slot 63 es)) ∧
    (total (hitsOf slot 63 es) = 0 → ∀ t, (runEv (resetServices s) es).Possible t → getPick t slot = 63) := by
  have hf' : Fits (resetServices s) (resetServices s).current es := by
    intro sl; have := hf sl; simpa [resetServices] using this
  obtain ⟨h1, h2⟩ := runEv_possible es _ hp hf'
  refine ⟨h1, fun ht => ?_, fun ht t htt => ?_⟩
  · have := pick_law slot i es (resetServices s) hp hf' (by simpa [resetServices] using ht)
    unfold Rand.prob
    rw [Rand.expect_congr _ _ (fun t => if t.chosen slot = i then 1 else 0), this]
    · simp [resetServices]
    · intro t htt
      have hc := h2 t htt slot
      have : t.hitCount slot ≠ 0 := by rw [hc]; simp [resetServices]; omega
      simp [getPick, this]
  · have hc := h2 t htt slot
    have : t.hitCount slot = 0 := by rw [hc]; simpa [resetServices] using ht
    simp [getPick, this]

example : Positive [.move 3, .hit 0 2, .move 7, .hit 0 1, .hit 1 5] ∧
    share 3 (hitsOf 0 63 [.move 3, .hit 0 2, .move 7, .hit 0 1, .hit 1 5]) = 2 ∧
    total (hitsOf 0 63 [.move 3, .hit 0 2, .move 7, .hit 0 1, .hit 1 5]) = 3 := by
  refine ⟨?_, by decide, by decide⟩
  intro sl w h; simp at h; omega

/-- **C43** fails when the weights add up to more than the counter holds: a hit of weight 255 or more after a full counter is always
the pick, however much weight was reported before. -/
theorem C43_full_counter_fails (s : Services) (slot w : Nat) (hs : s.hitCount slot = 255) (hw : 255 ≤ w) (p : Services × Bool)
    (h : (hit s slot w).Possible p) : getPick p.1 slot = s.current := by
  unfold hit at h
  obtain ⟨r, hr, hq⟩ := (Rand.possible_bind _ _ _).1 h
  rw [create_possible] at hr
  have e : satU 8 (satU 32 (s.hitCount slot + w)) = 255 := by unfold satU; omega
  simp only [e, put_apply, if_true] at hr hq
  rw [if_pos (by omega)] at hq
  change _ = p at hq
  rw [← hq]
  simp [getPick, put_apply]

/-! ### A whole scan -/

theorem runEv_append (s : Services) (a b : List Ev) : runEv s (a ++ b) = (runEv s a).bind fun t => runEv t b := by
  induction a generalizing s with
  | nil => rfl
  | cons e es ih =>
    cases e with
    | move j => simp [runEv, ih]
    | hit sl w => simp [runEv, ih, Rand.bind_assoc]

theorem hitIf_eq (c : Bool) (slot : Nat) (s : Services) : hitIf c slot s = runEv s (if c then [.hit slot 1] else []) := by
  unfold hitIf
  cases c <;> rfl

theorem scanBody_eq (types : Nat → Int) (e : Int) (t : Nat → Int) (j : Nat) (s : Services) :
    scanBody types e t j s = runEv s (if types j < 0 then [] else
        (if isHit e (types j) (t 0) then [Ev.hit 0 1] else []) ++ ((if isHit e (types j) (t 1) then [Ev.hit 1 1] else []) ++
        ((if isHit e (types j) (t 2) then [Ev.hit 2 1] else []) ++ (if isHit e (types j) (t 3) then [Ev.hit 3 1] else [])))) := by
  unfold scanBody
  by_cases h : types j < 0
  · simp [h, runEv]
  · simp only [h, if_false]
    simp only [hitIf_eq, runEv_append]

theorem runEv_keeps_current (es : List Ev) (h : ∀ i, .move i ∉ es) : ∀ s t, (runEv s es).Possible t → t.current = s.current := by
  induction es with
  | nil => intro s t ht; change s = t at ht; rw [ht]
  | cons e es ih =>
    intro s t ht
    cases e with
    | move i => exact absurd (by simp) (h i)
    | hit sl w =>
      simp only [runEv] at ht
      obtain ⟨p, hp, ht2⟩ := (Rand.possible_bind _ _ _).1 ht
      rw [ih (fun i hi => h i (List.mem_cons_of_mem _ hi)) p.1 t ht2]
      unfold hit at hp
      obtain ⟨r, _, hq⟩ := (Rand.possible_bind _ _ _).1 hp
      simp only at hq
      split at hq <;> (change _ = p at hq; rw [← hq])

/-- What one visit of the loop reports. -/
def visit (types : Nat → Int) (e : Int) (t : Nat → Int) (j : Nat) : List Ev :=
  if types j < 0 then [] else
    (if isHit e (types j) (t 0) then [Ev.hit 0 1] else []) ++ ((if isHit e (types j) (t 1) then [Ev.hit 1 1] else []) ++
    ((if isHit e (types j) (t 2) then [Ev.hit 2 1] else []) ++ (if isHit e (types j) (t 3) then [Ev.hit 3 1] else [])))

/-- What the loop does from site `j` on. -/
def scanEvents (types : Nat → Int) (e : Int) (t : Nat → Int) (j : Nat) : Nat → List Ev
  | 0 => [.move j]
  | n + 1 => .move j :: (visit types e t j ++ scanEvents types e t (j + 1) n)

theorem visit_no_move (types : Nat → Int) (e : Int) (t : Nat → Int) (j i : Nat) : .move i ∉ visit types e t j := by
  unfold visit
  intro h
  split at h
  · simp at h
  · simp only [List.mem_append] at h
    rcases h with h | h | h | h <;> (split at h <;> simp at h)

theorem scanLoop_same (first last : Nat) (types : Nat → Int) (e : Int) (t : Nat → Int) (hl : last ≤ 61) :
    ∀ (n j fuel : Nat) (s : Services), last + 1 - j = n → n < fuel → j ≤ 62 →
      (s.current = 63 ∧ j = first ∨ s.current + 1 = j ∧ s.current ≤ last) →
      Rand.Same (scanLoop first last types e t fuel s) (runEv s (scanEvents types e t j n)) := by
  intro n
  induction n with
  | zero =>
    intro j fuel s hn hf hj hs
    obtain ⟨fuel, rfl⟩ : ∃ k, fuel = k + 1 := ⟨fuel - 1, by omega⟩
    have hx : next first last s = ({ s with current := j }, none) := by
      unfold next
      rcases hs with ⟨h1, h2⟩ | ⟨h1, h2⟩
      · simp only [h1, if_true, ← h2]; rw [if_pos (by omega)]
      · have : satU 6 (s.current + 1) = j := by unfold satU; omega
        simp only [show s.current ≠ 63 by omega, if_false, h2, if_true, this]
        rw [if_pos (by omega)]
    unfold scanLoop
    rw [hx]
    exact Rand.Same.refl _
  | succ n ih =>
    intro j fuel s hn hf hj hs
    obtain ⟨fuel, rfl⟩ : ∃ k, fuel = k + 1 := ⟨fuel - 1, by omega⟩
    have hx : next first last s = ({ s with current := j }, some j) := by
      unfold next
      rcases hs with ⟨h1, h2⟩ | ⟨h1, h2⟩
      · simp only [h1, if_true, ← h2]; rw [if_neg (by omega)]
      · have : satU 6 (s.current + 1) = j := by unfold satU; omega
        simp only [show s.current ≠ 63 by omega, if_false, h2, if_true, this]
        rw [if_neg (by omega)]
    unfold scanLoop
    rw [hx]
    simp only [scanEvents, runEv]
    rw [runEv_append, scanBody_eq]
    refine Rand.same_bind _ _ _ fun a ha => ?_
    have hc : a.current = j := runEv_keeps_current _ (fun i => visit_no_move types e t j i) _ _ ha
    exact ih (j + 1) fuel a (by omega) (by omega) (by omega) (Or.inr ⟨by rw [hc], by rw [hc]; omega⟩)

theorem isHit_iff (e a t : Int) (ha : 0 ≤ a) : isHit e a t = true ↔ Wanted e a t := by
  unfold isHit Wanted
  simp only [Bool.or_eq_true, Bool.and_eq_true, beq_iff_eq, bne_iff_ne]
  constructor
  · rintro (((h | h) | h) | h)
    · exact Or.inl h
    · exact Or.inr (Or.inl h)
    · exact Or.inr (Or.inr (Or.inl h))
    · exact Or.inr (Or.inr (Or.inr ⟨by omega, h⟩))
  · rintro (h | h | h | h)
    · exact Or.inl (Or.inl (Or.inl h))
    · exact Or.inl (Or.inl (Or.inr h))
    · exact Or.inl (Or.inr h)
    · exact Or.inr h.2

theorem hitsOf_append_visit (types : Nat → Int) (e : Int) (t : Nat → Int) (j slot : Nat) (h : slot < 4) (rest : List Ev) :
    hitsOf slot j (visit types e t j ++ rest) =
      (if 0 ≤ types j ∧ Wanted e (types j) (t slot) then [(j, 1)] else []) ++ hitsOf slot j rest := by
  unfold visit
  by_cases hn : types j < 0
  · rw [if_pos hn, if_neg (by omega)]; rfl
  · rw [if_neg hn]
    have hw : (0 ≤ types j ∧ Wanted e (types j) (t slot)) ↔ isHit e (types j) (t slot) = true := by
      rw [isHit_iff e _ _ (by omega)]; exact ⟨fun h => h.2, fun h => ⟨by omega, h⟩⟩
    simp only [hw]
    match slot, h with
    | 0, _ | 1, _ | 2, _ | 3, _ => 
      cases isHit e (types j) (t 0) <;> cases isHit e (types j) (t 1) <;> cases isHit e (types j) (t 2) <;>
        cases isHit e (types j) (t 3) <;> simp [hitsOf]
    | n + 4, h => omega

theorem hitsOf_scanEvents (types : Nat → Int) (e : Int) (t : Nat → Int) (slot : Nat) (h : slot < 4) (n : Nat) : ∀ j site,
    hitsOf slot site (scanEvents types e t j n) =
      ((List.range' j n).filter fun i => decide (0 ≤ types i ∧ Wanted e (types i) (t slot))).map fun i => (i, 1) := by
  induction n with
  | zero => intro j site; rfl
  | succ n ih =>
    intro j site
    simp only [scanEvents, hitsOf]
    rw [hitsOf_append_visit types e t j slot h, ih, List.range'_succ]
    by_cases c : 0 ≤ types j ∧ Wanted e (types j) (t slot)
    · simp [c]
    · simp only [c, if_false, List.nil_append]
      rw [List.filter_cons_of_neg (by simpa using c)]

theorem hitsOf_scanEvents_other (types : Nat → Int) (e : Int) (t : Nat → Int) (slot : Nat) (h : 4 ≤ slot) (n : Nat) : ∀ j site,
    hitsOf slot site (scanEvents types e t j n) = [] := by
  induction n with
  | zero => intro j site; rfl
  | succ n ih =>
    intro j site
    simp only [scanEvents, hitsOf]
    have : ∀ rest, hitsOf slot j rest = [] → hitsOf slot j (visit types e t j ++ rest) = [] := by
      intro rest hr
      unfold visit
      split
      · exact hr
      · cases isHit e (types j) (t 0) <;> cases isHit e (types j) (t 1) <;> cases isHit e (types j) (t 2) <;>
          cases isHit e (types j) (t 3) <;>
          simp [hitsOf, hr, show ¬ (0 = slot) by omega, show ¬ (1 = slot) by omega, show ¬ (2 = slot) by omega, show ¬ (3 = slot) by omega]
    exact this _ (ih _ _)

theorem scanEvents_positive (types : Nat → Int) (e : Int) (t : Nat → Int) (n : Nat) : ∀ j, Positive (scanEvents types e t j n) := by
  induction n with
  | zero => intro j sl w h; simp [scanEvents] at h
  | succ n ih =>
    intro j sl w h
    simp only [scanEvents, List.mem_cons, List.mem_append] at h
    rcases h with h | h | h
    · cases h
    · unfold visit at h
      split at h
      · simp at h
      · simp only [List.mem_append] at h
        rcases h with h | h | h | h <;> (split at h <;> simp at h <;> omega)
    · exact ih _ sl w h

theorem total_map_one (l : List Nat) : total (l.map fun i => (i, 1)) = l.length := by
  induction l with
  | nil => rfl
  | cons a l ih => simp only [List.map_cons, total_cons, ih, List.length_cons]; omega

theorem share_map_one (i : Nat) (l : List Nat) (h : l.Nodup) : share i (l.map fun j => (j, 1)) = if i ∈ l then 1 else 0 := by
  induction l with
  | nil => rfl
  | cons a l ih =>
    rw [List.nodup_cons] at h
    rw [List.map_cons, share_cons, ih h.2]
    by_cases e : a = i
    · subst e; simp [h.1]
    · have e' : ¬ i = a := fun q => e q.symm
      simp [e, e']

/-- **C43**, for a whole scan: for each of the four types asked for, the site picked is any one of the sites wanted, each with the same
probability (63 if there are none), the hits are as many as the sites, and the scan says whether there were any. The sites scanned are
those from `first` to `last` whose type is known. -/
theorem C43_scan (s : Services) (first last : Nat) (types : Nat → Int) (e : Int) (t : Nat → Int) (slot i : Nat)
    (hl : last ≤ 61) (hf : first ≤ 62) (hslot : slot < 4) (ht : ∀ k, k < 4 → -4 ≤ t k) :
    let w := wantedSites first last types e (t slot)
    (scan first last types e t s).Safe ∧
    (w ≠ [] → (scan first last types e t s).prob (fun p => getPick p.1 slot = i) = if i ∈ w then 1 / (w.length : ℚ) else 0) ∧
    ∀ p, (scan first last types e t s).Possible p → p.1.hitCount slot = w.length ∧ (w = [] → getPick p.1 slot = 63) ∧
      (p.2 = true ↔ ∃ k, k < 4 ∧ wantedSites first last types e (t k) ≠ []) := by
  intro w
  obtain ⟨n, hn⟩ : ∃ n, last + 1 - first = n := ⟨_, rfl⟩
  have hsame := scanLoop_same first last types e t hl n first 65 (resetServices s) hn (by omega) hf (Or.inl ⟨rfl, rfl⟩)
  have hh : ∀ k, k < 4 → hitsOf k 63 (scanEvents types e t first n) = (wantedSites first last types e (t k)).map fun i => (i, 1) := by
    intro k hk; rw [hitsOf_scanEvents types e t k hk]; unfold wantedSites; rw [hn]
  have hlen : ∀ t, (wantedSites first last types e t).length ≤ 62 := by
    intro t
    unfold wantedSites
    refine (List.length_filter_le _ _).trans ?_
    simp; omega
  have hfit : ∀ k, total (hitsOf k 63 (scanEvents types e t first n)) ≤ 255 := by
    intro k
    by_cases hk : k < 4
    · rw [hh k hk, total_map_one]; have := hlen (t k); omega
    · rw [hitsOf_scanEvents_other types e t k (by omega)]; simp [total]
  have hpos := scanEvents_positive types e t n first
  have hfit' : Fits (resetServices s) (resetServices s).current (scanEvents types e t first n) := by
    intro sl; have := hfit sl; simpa [resetServices] using this
  obtain ⟨r1, r2⟩ := runEv_possible _ _ hpos hfit'
  obtain ⟨c1, c2, c3⟩ := C43_hit s (scanEvents types e t first n) slot i hpos hfit
  have hx : scan first last types e t s = (scanLoop first last types e t 65 (resetServices s)).bind fun s =>
      .done (s, decide (s.hitCount 0 + s.hitCount 1 + s.hitCount 2 + s.hitCount 3 > 0)) := by
    unfold scan
    rw [if_neg]
    have := ht 0 (by omega); have := ht 1 (by omega); have := ht 2 (by omega); have := ht 3 (by omega)
    omega
  have hnd : w.Nodup := by
    show (wantedSites first last types e (t slot)).Nodup
    unfold wantedSites
    exact List.Nodup.filter _ (List.nodup_range' (step := 1))
  refine ⟨?_, ?_, ?_⟩
  · rw [hx, Rand.safe_bind_iff]
    exact ⟨hsame.safe.2 r1, fun _ _ => trivial⟩
  · intro hw
    have hpos2 : 0 < w.length := List.length_pos_iff.2 hw
    have := c2 (by rw [hh slot hslot, total_map_one]; exact hpos2)
    unfold Rand.prob at this ⊢
    rw [hx, Rand.expect_bind, hsame.expect]
    have e1 : (w.map fun i => (i, 1)) = hitsOf slot 63 (scanEvents types e t first n) := (hh slot hslot).symm
    rw [← e1, total_map_one, share_map_one _ _ hnd] at this
    simp only [Rand.expect]
    rw [this]
    split <;> simp
  · intro p hp
    rw [hx] at hp
    obtain ⟨u, hu, hq⟩ := (Rand.possible_bind _ _ _).1 hp
    change _ = p at hq
    subst hq
    have hu' := (hsame.possible u).1 hu
    have hcount : ∀ k, k < 4 → u.hitCount k = (wantedSites first last types e (t k)).length := by
      intro k hk
      rw [r2 u hu' k]
      have : (resetServices s).current = 63 := rfl
      rw [this, hh k hk, total_map_one]
      simp [resetServices]
    refine ⟨hcount slot hslot, fun hw => ?_, ?_⟩
    · have : u.hitCount slot = 0 := by
        rw [hcount slot hslot]; exact List.length_eq_zero_iff.2 hw
      simp [getPick, this]
    · simp only [decide_eq_true_eq]
      rw [hcount 0 (by omega), hcount 1 (by omega), hcount 2 (by omega), hcount 3 (by omega)]
      constructor
      · intro h
        by_contra hc
        push Not at hc
        have h0 := List.length_eq_zero_iff.2 (hc 0 (by omega)); have h1 := List.length_eq_zero_iff.2 (hc 1 (by omega))
        have h2 := List.length_eq_zero_iff.2 (hc 2 (by omega)); have h3 := List.length_eq_zero_iff.2 (hc 3 (by omega))
        omega
      · rintro ⟨k, hk, hne⟩
        have := List.length_pos_iff.2 hne
        match k, hk with
        | 0, _ => omega
        | 1, _ => omega
        | 2, _ => omega
        | 3, _ => omega
        | k + 4, h => omega

example : wantedSites 1 12 (fun i => if i % 4 = 0 then 7 else 3) 3 7 = [4, 8, 12] := by decide +kernel

end Ulam.Chance
