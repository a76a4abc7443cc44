import Verif.Stdlib.Spec
import Mathlib.Tactic.SplitIfs
import Mathlib.Tactic.IntervalCases
/-! # C47, C48, C62, C63: colors, saved event windows, points, telomeres -/
namespace Ulam.Stdlib
open Spec

/-! ### C47 -/

theorem satU_le (b x : Nat) : satU b x ≤ 2 ^ b - 1 := by unfold satU; omega

theorem mix_bounds (a b p : Nat) (ha : a ≤ 255) (hb : b ≤ 255) (hp : p ≤ 100) :
    Mid a b (mix a b p) ∧ 100 * mix a b p ≤ a * p + b * (100 - p) ∧ a * p + b * (100 - p) < 100 * mix a b p + 100 := by
  have h1 : min a b * p + min a b * (100 - p) = min a b * 100 := by rw [← Nat.mul_add]; congr 1; omega
  have h2 : max a b * p + max a b * (100 - p) = max a b * 100 := by rw [← Nat.mul_add]; congr 1; omega
  have l1 : min a b * p ≤ a * p := Nat.mul_le_mul_right _ (by omega)
  have l2 : min a b * (100 - p) ≤ b * (100 - p) := Nat.mul_le_mul_right _ (by omega)
  have u1 : a * p ≤ max a b * p := Nat.mul_le_mul_right _ (by omega)
  have u2 : b * (100 - p) ≤ max a b * (100 - p) := Nat.mul_le_mul_right _ (by omega)
  unfold mix satU Mid
  generalize a * p = A at *
  generalize b * (100 - p) = B at *
  generalize min a b * p = C at *
  generalize min a b * (100 - p) = D at *
  generalize max a b * p = E at *
  generalize max a b * (100 - p) = F at *
  omega

/-- **C47.** `between`: each channel lies between those of the two colors, is the weighted mean rounded down, and nothing wraps; 0 percent
gives the channels of the second color, 100 percent or more the first color; the alpha is always that of the first. -/
theorem C47_between (a b : Color) (p : Nat) (ha : Valid a) (hb : Valid b) :
    let c := between a b p
    let q := min p 100
    Valid c ∧ c.alpha = a.alpha ∧ Mid a.red b.red c.red ∧ Mid a.green b.green c.green ∧ Mid a.blue b.blue c.blue ∧
    c.red = (a.red * q + b.red * (100 - q)) / 100 ∧ c.green = (a.green * q + b.green * (100 - q)) / 100 ∧
    c.blue = (a.blue * q + b.blue * (100 - q)) / 100 ∧
    (p = 0 → c = { b with alpha := a.alpha }) ∧ (100 ≤ p → c = a) := by
  intro c q
  obtain ⟨a0, a1, a2, a3⟩ := ha
  obtain ⟨b0, b1, b2, b3⟩ := hb
  have hq : (if p > 100 then 100 else p) = q := by show _ = min p 100; split <;> omega
  have hc : c = { a with red := mix a.red b.red q, green := mix a.green b.green q, blue := mix a.blue b.blue q } := by
    show between a b p = _
    unfold between
    simp only [hq]
  have hq100 : q ≤ 100 := by show min p 100 ≤ 100; omega
  obtain ⟨r1, r2, r3⟩ := mix_bounds a.red b.red q a1 b1 hq100
  obtain ⟨g1, g2, g3⟩ := mix_bounds a.green b.green q a2 b2 hq100
  obtain ⟨l1, l2, l3⟩ := mix_bounds a.blue b.blue q a3 b3 hq100
  rw [hc]
  unfold Valid
  simp only
  refine ⟨⟨a0, by unfold Mid at r1; omega, by unfold Mid at g1; omega, by unfold Mid at l1; omega⟩, trivial, r1, g1, l1, by omega, by omega, by omega, ?_, ?_⟩
  · intro h
    have : q = 0 := by show min p 100 = 0; omega
    rw [this]
    unfold mix satU
    cases b
    simp only [Color.mk.injEq, true_and] at *
    omega
  · intro h
    have : q = 100 := by show min p 100 = 100; omega
    rw [this]
    unfold mix satU
    cases a
    simp only [Color.mk.injEq, true_and] at *
    omega

/-- **C47**, `between` moves from the second color to the first as the percentage grows. -/
theorem C47_between_monotone (a b : Color) (p q : Nat) (hpq : p ≤ q) (ha : Valid a) (hb : Valid b) :
    ∀ ch ∈ [Color.red, Color.green, Color.blue],
      (ch b ≤ ch a → ch (between a b p) ≤ ch (between a b q)) ∧ (ch a ≤ ch b → ch (between a b q) ≤ ch (between a b p)) := by
  have mono : ∀ x y p q : Nat, p ≤ q → q ≤ 100 → y ≤ x → x * p + y * (100 - p) ≤ x * q + y * (100 - q) := by
    intro x y p q h1 h2 h3
    obtain ⟨d, rfl⟩ : ∃ d, q = p + d := ⟨q - p, by omega⟩
    have e : y * (100 - p) = y * (100 - (p + d)) + y * d := by rw [← Nat.mul_add]; congr 1; omega
    have := Nat.mul_le_mul_right d h3
    rw [e, Nat.mul_add]; omega
  have key : ∀ x y x' y' : Nat, x' = (x * min p 100 + y * (100 - min p 100)) / 100 → y' = (x * min q 100 + y * (100 - min q 100)) / 100 →
      (y ≤ x → x' ≤ y') ∧ (x ≤ y → y' ≤ x') := by
    rintro x y _ _ rfl rfl
    refine ⟨fun h => Nat.div_le_div_right (mono _ _ _ _ (by omega) (by omega) h), fun h => ?_⟩
    have := mono y x (100 - min q 100) (100 - min p 100) (by omega) (by omega) h
    rw [show 100 - (100 - min q 100) = min q 100 by omega, show 100 - (100 - min p 100) = min p 100 by omega] at this
    refine Nat.div_le_div_right ?_
    omega
  obtain ⟨_, _, _, _, _, p1, p2, p3, _⟩ := C47_between a b p ha hb
  obtain ⟨_, _, _, _, _, q1, q2, q3, _⟩ := C47_between a b q ha hb
  intro ch hch
  simp only [List.mem_cons, List.not_mem_nil, or_false] at hch
  rcases hch with rfl | rfl | rfl
  · exact key _ _ _ _ p1 q1
  · exact key _ _ _ _ p2 q2
  · exact key _ _ _ _ p3 q3

/-- **C47**, `modify`: from the color itself (with alpha 255) to white. -/
theorem C47_modify (c : Color) (p : Nat) (h : Valid c) :
    (modify c 0 = { c with alpha := 255 }) ∧ modify c 100 = ⟨255, 255, 255, 255⟩ ∧
    (modify c p).alpha = 255 ∧ c.red ≤ (modify c p).red ∧ c.green ≤ (modify c p).green ∧ c.blue ≤ (modify c p).blue ∧
    Valid (modify c p) := by
  have hw : ofRgb 255 255 255 = ⟨255, 255, 255, 255⟩ := by decide
  have hv : Valid ⟨255, 255, 255, 255⟩ := by unfold Valid; simp
  unfold modify
  rw [hw]
  have h0 := C47_between ⟨255, 255, 255, 255⟩ c 0 hv h
  have h1 := C47_between ⟨255, 255, 255, 255⟩ c 100 hv h
  have hp := C47_between ⟨255, 255, 255, 255⟩ c p hv h
  simp only at h0 h1 hp
  obtain ⟨c0, c1, c2, c3⟩ := h
  refine ⟨h0.2.2.2.2.2.2.2.2.1 trivial, h1.2.2.2.2.2.2.2.2.2 (le_refl _), hp.2.1, ?_, ?_, ?_, hp.1⟩
  · have := hp.2.2.1; unfold Mid at this; omega
  · have := hp.2.2.2.1; unfold Mid at this; omega
  · have := hp.2.2.2.2.1; unfold Mid at this; omega

/-- **C47**, `dimmer`: no channel grows, each one above 0 shrinks (to 7/10, rounded down), nothing wraps, alpha is 255. -/
theorem C47_dimmer (c : Color) (h : Valid c) :
    Valid (dimmer c) ∧ (dimmer c).alpha = 255 ∧
    (dimmer c).red = 7 * c.red / 10 ∧ (dimmer c).green = 7 * c.green / 10 ∧ (dimmer c).blue = 7 * c.blue / 10 ∧
    (0 < c.red → (dimmer c).red < c.red) ∧ (0 < c.green → (dimmer c).green < c.green) ∧ (0 < c.blue → (dimmer c).blue < c.blue) := by
  obtain ⟨h0, h1, h2, h3⟩ := h
  have key : ∀ x ≤ 255, satU 8 (70 * x / 100) ≤ 255 ∧ satU 8 (70 * x / 100) = 7 * x / 10 ∧ (0 < x → satU 8 (70 * x / 100) < x) := by
    intro x hx
    unfold satU
    omega
  obtain ⟨r1, r2, r3⟩ := key _ h1
  obtain ⟨g1, g2, g3⟩ := key _ h2
  obtain ⟨b1, b2, b3⟩ := key _ h3
  exact ⟨⟨Nat.le_refl 255, r1, g1, b1⟩, rfl, r2, g2, b2, r3, g3, b3⟩

/-- **C47**, `dimmer` again and again ends in black. -/
theorem C47_dimmer_ends_black (c : Color) (h : Valid c) (n : Nat) (hn : 255 < n) : Nat.iterate dimmer n c = ⟨255, 0, 0, 0⟩ := by
  have key : ∀ n c, Valid c → 0 < n → (Nat.iterate dimmer n c).alpha = 255 ∧ (Nat.iterate dimmer n c).red ≤ c.red - n ∧
      (Nat.iterate dimmer n c).green ≤ c.green - n ∧ (Nat.iterate dimmer n c).blue ≤ c.blue - n := by
    intro n
    induction n with
    | zero => intro c _ h; omega
    | succ n ih =>
      intro c hc _
      have d := C47_dimmer c hc
      rw [Function.iterate_succ_apply]
      by_cases hn : n = 0
      · subst hn
        simp only [Function.iterate_zero, id]
        refine ⟨d.2.1, ?_, ?_, ?_⟩ <;> omega
      · have := ih (dimmer c) d.1 (by omega)
        refine ⟨this.1, ?_, ?_, ?_⟩ <;> omega
  have := key n c h (by omega)
  obtain ⟨h0, h1, h2, h3⟩ := h
  generalize Nat.iterate dimmer n c = d at *
  cases d
  simp only [Color.mk.injEq] at *
  omega

/-- **C47**, `brighter` of a color that is not black: no channel shrinks, each one below 255 grows, nothing wraps, alpha is 255.
Missing: black, for which it is false of the alpha (`C47_brighter_black_fails`). -/
theorem C47_brighter_partial (c : Color) (h : Valid c) (hb : ¬ (c.red = 0 ∧ c.green = 0 ∧ c.blue = 0)) :
    Valid (brighter c) ∧ (brighter c).alpha = 255 ∧
    (c.red < 255 → c.red < (brighter c).red) ∧ (c.green < 255 → c.green < (brighter c).green) ∧ (c.blue < 255 → c.blue < (brighter c).blue) ∧
    (c.red = 255 → (brighter c).red = 255) ∧ (c.green = 255 → (brighter c).green = 255) ∧ (c.blue = 255 → (brighter c).blue = 255) := by
  obtain ⟨h0, h1, h2, h3⟩ := h
  unfold brighter Valid
  rw [if_neg hb]
  simp only
  have key : ∀ x ≤ 255, brighterChannel x ≤ 255 ∧ (x < 255 → x < brighterChannel x) ∧ (x = 255 → brighterChannel x = 255) := by
    intro x hx
    unfold brighterChannel satU
    split <;> omega
  obtain ⟨r1, r2, r3⟩ := key _ h1
  obtain ⟨g1, g2, g3⟩ := key _ h2
  obtain ⟨b1, b2, b3⟩ := key _ h3
  exact ⟨⟨by omega, r1, g1, b1⟩, trivial, r2, g2, b2, r3, g3, b3⟩

/-- **C47**, `brighter` again and again ends in white, as its comment says ("non pure color (non zero rgb) will eventually return
white"), from black too. -/
theorem C47_brighter_ends_white (c : Color) (h : Valid c) (n : Nat) (hn : 255 < n) : Nat.iterate brighter n c = ⟨255, 255, 255, 255⟩ := by
  have key : ∀ n c, Valid c → ¬ (c.red = 0 ∧ c.green = 0 ∧ c.blue = 0) → 0 < n →
      (Nat.iterate brighter n c).alpha = 255 ∧ min 255 (c.red + n) ≤ (Nat.iterate brighter n c).red ∧
      min 255 (c.green + n) ≤ (Nat.iterate brighter n c).green ∧ min 255 (c.blue + n) ≤ (Nat.iterate brighter n c).blue ∧
      Valid (Nat.iterate brighter n c) := by
    intro n
    induction n with
    | zero => intro c _ _ h; omega
    | succ n ih =>
      intro c hc hb _
      have d := C47_brighter_partial c hc hb
      have hc' := hc
      obtain ⟨h0, h1, h2, h3⟩ := hc'
      rw [Function.iterate_succ_apply]
      by_cases hn : n = 0
      · subst hn
        simp only [Function.iterate_zero, id]
        refine ⟨d.2.1, ?_, ?_, ?_, d.1⟩ <;> omega
      · have := ih (brighter c) d.1 (by omega) (by omega)
        refine ⟨this.1, ?_, ?_, ?_, this.2.2.2.2⟩ <;> omega
  have done : ∀ d : Color, d.alpha = 255 ∧ 255 ≤ d.red ∧ 255 ≤ d.green ∧ 255 ≤ d.blue ∧ Valid d → d = ⟨255, 255, 255, 255⟩ := by
    intro d hd
    obtain ⟨a, b, c, e, f⟩ := hd
    unfold Valid at f
    cases d
    simp only [Color.mk.injEq] at *
    omega
  by_cases hb : c.red = 0 ∧ c.green = 0 ∧ c.blue = 0
  · obtain ⟨m, rfl⟩ : ∃ m, n = m + 1 := ⟨n - 1, by omega⟩
    rw [Function.iterate_succ_apply]
    have e : brighter c = ⟨0, 3, 3, 3⟩ := by unfold brighter; rw [if_pos hb]; decide
    rw [e]
    have := key m ⟨0, 3, 3, 3⟩ (by unfold Valid; simp) (by simp) (by omega)
    simp only at this
    exact done _ ⟨this.1, by omega, by omega, by omega, this.2.2.2.2⟩
  · have := key n c h hb (by omega)
    exact done _ ⟨this.1, by omega, by omega, by omega, this.2.2.2.2⟩

/-- **C47 fails** for black: `brighter` of opaque black is a grey that is fully transparent (ColorUtils.ulam:73 builds it with
`color(Unsigned)`, alpha 0), whatever the alpha was. -/
theorem C47_brighter_black_fails (a : Nat) : brighter ⟨a, 0, 0, 0⟩ = ⟨0, 3, 3, 3⟩ := by
  unfold brighter; rw [if_pos ⟨rfl, rfl, rfl⟩]; decide

/-- **C47**: what the comment of `brighter` says about blue ("applying brighter to blue will always return blue, brighter",
ColorUtils.ulam:67) is false: the other two channels grow too. -/
theorem C47_brighter_blue_fails (a b : Nat) (h : 0 < b) : (brighter ⟨a, 0, 0, b⟩).red = 4 ∧ (brighter ⟨a, 0, 0, b⟩).green = 4 := by
  have e : brighterChannel 0 = 4 := by decide
  unfold brighter
  rw [if_neg (by simp; omega)]
  exact ⟨e, e⟩

/-- **C47**, `color`: the four bytes of the number, none lost. -/
theorem C47_color (hex : Nat) (h : hex < 2 ^ 32) :
    Valid (ofHex hex) ∧ (((ofHex hex).alpha * 256 + (ofHex hex).red) * 256 + (ofHex hex).green) * 256 + (ofHex hex).blue = hex := by
  unfold ofHex satU Valid
  simp only
  omega

example : between ⟨255, 10, 200, 0⟩ ⟨0, 20, 100, 255⟩ 30 = ⟨255, 17, 130, 178⟩ ∧ dimmer ⟨0, 100, 1, 255⟩ = ⟨255, 70, 0, 178⟩ ∧
    brighter ⟨0, 100, 0, 200⟩ = ⟨255, 142, 4, 255⟩ := by decide

/-! ### C48 -/

theorem lastIndex_eq (rad : Nat) : lastIndex rad + 1 = sitesWithin rad := by unfold lastIndex sitesWithin; ring

theorem saveLoop_spec {α : Type} (w : Window α) : ∀ n i (buf : Nat → α), (∀ k, i ≤ k → k < i + n → w.usable (w.sym k) = true ∧ k < 41) →
    ∃ f, saveLoop w n i buf = some f ∧ ∀ j, f j = if i ≤ j ∧ j < i + n then w.place (w.sym j) else buf j := by
  intro n
  induction n with
  | zero => intro i buf _; exact ⟨buf, rfl, fun j => by rw [if_neg (by omega)]⟩
  | succ n ih =>
    intro i buf h
    obtain ⟨u1, u2⟩ := h i (le_refl _) (by omega)
    unfold saveLoop
    simp only [u1, u2, decide_true, Bool.and_self, if_true]
    obtain ⟨f, h1, h2⟩ := ih (i + 1) (fun j => if j = i then w.place (w.sym i) else buf j) fun k a b => h k (by omega) (by omega)
    refine ⟨f, h1, fun j => ?_⟩
    rw [h2]
    by_cases e : j = i
    · subst e
      rw [if_neg (by omega), if_pos rfl, if_pos (by omega)]
    · by_cases c : i + 1 ≤ j ∧ j < i + 1 + n
      · rw [if_pos c, if_pos (by omega)]
      · rw [if_neg c, if_neg e, if_neg (by omega)]

theorem restoreLoop_spec {α : Type} (b : Buffer α) : ∀ n i (w : Window α),
    (∀ k, i ≤ k → k < i + n → w.usable (w.sym k) = true ∧ k < 41) → (∀ k l, k < i + n → l < i + n → w.sym k = w.sym l → k = l) →
    ∃ v, restoreLoop b n i w = some v ∧ v.usable = w.usable ∧ v.sym = w.sym ∧ v.base = w.base ∧
      (∀ k, i ≤ k → k < i + n → v.place (w.sym k) = b.site k) ∧
      ∀ j, (∀ k, i ≤ k → k < i + n → w.sym k ≠ j) → v.place j = w.place j := by
  intro n
  induction n with
  | zero => intro i w _ _; exact ⟨w, rfl, rfl, rfl, rfl, fun k a b => by omega, fun _ _ => rfl⟩
  | succ n ih =>
    intro i w h hinj
    obtain ⟨u1, u2⟩ := h i (le_refl _) (by omega)
    unfold restoreLoop
    simp only [u1, u2, decide_true, Bool.and_self, if_true]
    obtain ⟨v, h1, h2, h3, h4, h5, h6⟩ := ih (i + 1) { w with place := fun j => if j = w.sym i then b.site i else w.place j }
      (fun k a b => h k (by omega) (by omega)) (fun k l a c e => hinj k l (by omega) (by omega) e)
    refine ⟨v, h1, h2, h3, h4, fun k a c => ?_, fun j hj => ?_⟩
    · by_cases e : k = i
      · subst e
        rw [h6 (w.sym k)]
        · simp
        · intro l a c e
          have := hinj l k (by omega) (by omega) e
          omega
      · exact h5 k (by omega) (by omega)
    · rw [h6 j fun k a c => hj k (by omega) (by omega)]
      simp only
      rw [if_neg]
      intro e
      exact hj i (le_refl _) (by omega) e.symm

/-- **C48.** Save an event window `w`, restore it later into `v`, any atoms having changed, with the same symmetry and the same usable
sites: within the saved radius the atoms are those saved, all others are left as they are, and so it is for the base layer. Each layer
is touched only if it was saved. Missing: another symmetry at the time of restoring (`C48_symmetry_fails`). -/
theorem C48_restore_partial {α : Type} (w v : Window α) (buf : Buffer α) (eventLayer baseLayer : Bool) (rad : Nat) (hr : rad ≤ 4)
    (hs : v.sym = w.sym) (hu : v.usable = w.usable) (hinj : ∀ k l, k < 41 → l < 41 → w.sym k = w.sym l → k = l)
    (hw : ∀ j, Within w rad j → w.usable j = true) :
    ∃ b u, save w buf eventLayer baseLayer rad = some b ∧ restore v b = some u ∧
      (∀ j, Within w rad j → eventLayer = true → u.place j = w.place j) ∧
      (∀ j, ¬ Within w rad j ∨ eventLayer = false → u.place j = v.place j) ∧
      u.base = (if baseLayer then w.base else v.base) ∧ u.sym = v.sym ∧ u.usable = v.usable := by
  have hlast : lastIndex rad + 1 ≤ 41 := by unfold lastIndex; interval_cases rad <;> omega
  have husable : ∀ k, 0 ≤ k → k < 0 + (lastIndex rad + 1) → w.usable (w.sym k) = true ∧ k < 41 := fun k _ hk =>
    ⟨hw _ ⟨k, by rw [← lastIndex_eq]; omega, rfl⟩, by omega⟩
  cases eventLayer
  · refine ⟨_, _, rfl, rfl, fun j _ h => by simp at h, fun j _ => rfl, ?_, rfl, rfl⟩
    cases baseLayer <;> rfl
  · obtain ⟨f, h1, h2⟩ := saveLoop_spec w (lastIndex rad + 1) 0 buf.site husable
    have hsave : save w buf true baseLayer rad =
        some { site := f, base := if baseLayer then w.base else buf.base, radius := rad, eventStored := true, baseStored := baseLayer } := by
      unfold save
      simp only [if_true, h1, Option.map_some]
    obtain ⟨u, r1, r2, r3, r4, r5, r6⟩ := restoreLoop_spec
      { site := f, base := if baseLayer then w.base else buf.base, radius := rad, eventStored := true, baseStored := baseLayer }
      (lastIndex rad + 1) 0 v (by rw [hs, hu]; exact husable) (by rw [hs]; exact fun k l a b e => hinj k l (by omega) (by omega) e)
    refine ⟨_, { u with base := if baseLayer then (if baseLayer then w.base else buf.base) else u.base }, hsave, by unfold restore; simp only [if_true, r1, Option.map_some], fun j hj _ => ?_, fun j hj => ?_, ?_, r3, r2⟩
    · obtain ⟨k, hk, rfl⟩ := hj
      rw [← lastIndex_eq] at hk
      have := r5 k (by omega) (by omega)
      rw [hs] at this
      simp only
      rw [this]
      simp only
      rw [h2, if_pos (by omega)]
    · rcases hj with hj | hj
      · simp only
        refine r6 j fun k a b e => hj ⟨k, by rw [← lastIndex_eq]; omega, ?_⟩
        rw [← hs]; exact e
      · simp at hj
    · simp only
      rw [r4]
      cases baseLayer <;> rfl

/-- A window of 41 places, all usable, turned by some symmetry (here: exchange of places 1 and 2). -/
example : ∃ w : Window Nat, (∀ k l, k < 41 → l < 41 → w.sym k = w.sym l → k = l) ∧ (∀ j, Within w 4 j → w.usable j = true) ∧
    Within w 1 1 ∧ ¬ Within w 1 7 := by
  refine ⟨⟨fun j => 10 * j, fun j => decide (j < 41), fun k => if k = 1 then 2 else if k = 2 then 1 else k, 0⟩, ?_, ?_, ?_, ?_⟩
  · intro k l _ _ h; simp only at h; split_ifs at h <;> omega
  · rintro j ⟨k, hk, rfl⟩; simp only [sitesWithin] at *; split_ifs <;> simp <;> omega
  · exact ⟨2, by decide, rfl⟩
  · rintro ⟨k, hk, h⟩; simp only [sitesWithin] at *; split_ifs at h <;> omega

/-- **C48**, if the symmetry is another one at the time of the restoring: the atoms are put back by site number, so that the atom saved
from the place of site `k` goes to the place that site `k` has now. -/
theorem C48_other_symmetry {α : Type} (w v : Window α) (buf : Buffer α) (baseLayer : Bool) (rad : Nat) (hr : rad ≤ 4)
    (hinj : ∀ k l, k < 41 → l < 41 → v.sym k = v.sym l → k = l)
    (hw : ∀ j, Within w rad j → w.usable j = true) (hv : ∀ j, Within v rad j → v.usable j = true) :
    ∃ b u, save w buf true baseLayer rad = some b ∧ restore v b = some u ∧
      ∀ k, k < sitesWithin rad → u.place (v.sym k) = w.place (w.sym k) := by
  have hlast : lastIndex rad + 1 ≤ 41 := by unfold lastIndex; interval_cases rad <;> omega
  obtain ⟨f, h1, h2⟩ := saveLoop_spec w (lastIndex rad + 1) 0 buf.site fun k _ hk =>
    ⟨hw _ ⟨k, by rw [← lastIndex_eq]; omega, rfl⟩, by omega⟩
  have hsave : save w buf true baseLayer rad =
      some { site := f, base := if baseLayer then w.base else buf.base, radius := rad, eventStored := true, baseStored := baseLayer } := by
    unfold save
    simp only [if_true, h1, Option.map_some]
  obtain ⟨u, r1, r2, r3, r4, r5, r6⟩ := restoreLoop_spec
    { site := f, base := if baseLayer then w.base else buf.base, radius := rad, eventStored := true, baseStored := baseLayer }
    (lastIndex rad + 1) 0 v (fun k _ hk => ⟨hv _ ⟨k, by rw [← lastIndex_eq]; omega, rfl⟩, by omega⟩)
    (fun k l a b e => hinj k l (by omega) (by omega) e)
  refine ⟨_, { u with base := if baseLayer then (if baseLayer then w.base else buf.base) else u.base }, hsave, by unfold restore; simp only [if_true, r1, Option.map_some], fun k hk => ?_⟩
  rw [← lastIndex_eq] at hk
  simp only
  rw [r5 k (by omega) (by omega)]
  simp only
  rw [h2, if_pos (by omega)]

/-- **C48 fails** if the symmetry changed in between: wherever site `k` now lies at another place, which held another atom, that place is
not put back. -/
theorem C48_symmetry_fails {α : Type} (w v : Window α) (buf : Buffer α) (baseLayer : Bool) (rad k : Nat) (hr : rad ≤ 4)
    (hinj : ∀ k l, k < 41 → l < 41 → v.sym k = v.sym l → k = l)
    (hw : ∀ j, Within w rad j → w.usable j = true) (hv : ∀ j, Within v rad j → v.usable j = true) (hk : k < sitesWithin rad)
    (hne : w.place (w.sym k) ≠ w.place (v.sym k)) :
    ∃ b u, save w buf true baseLayer rad = some b ∧ restore v b = some u ∧ u.place (v.sym k) ≠ w.place (v.sym k) := by
  obtain ⟨b, u, h1, h2, h3⟩ := C48_other_symmetry w v buf baseLayer rad hr hinj hw hv
  exact ⟨b, u, h1, h2, by rw [h3 k hk]; exact hne⟩

/-! ### C62 -/

theorem satI16 (x : Int) : satI 16 x = max (-32768) (min x 32767) := by unfold satI; norm_num

/-- **C62.** `manhattanDistance` is the distance along the axes if no coordinate differs by more than 32767. -/
theorem C62_manhattan_exact (p q : Point) (hx : (p.x - q.x).natAbs ≤ 32767) (hy : (p.y - q.y).natAbs ≤ 32767) :
    p.manhattanDistance q = gridDistance p q := by
  unfold Point.manhattanDistance Point.absDiff Point.toUnsigned gridDistance
  simp only [satI16]
  split_ifs <;> omega

/-- **C62**, and for all points it is a metric: 0 exactly for equal points, symmetric, and the triangle inequality holds. -/
theorem C62_manhattan_metric (p q r : Point) :
    (p.manhattanDistance q = 0 ↔ p = q) ∧ p.manhattanDistance q = q.manhattanDistance p ∧
    p.manhattanDistance r ≤ p.manhattanDistance q + q.manhattanDistance r := by
  have e : ∀ p q : Point, p.manhattanDistance q = min (p.x - q.x).natAbs 32767 + min (p.y - q.y).natAbs 32767 := by
    intro p q
    have one : ∀ a b : Int, satI 16 (if a ≥ b then a - b else b - a) = ((min (a - b).natAbs 32767 : Nat) : Int) := by
      intro a b
      rw [satI16]
      split <;> omega
    unfold Point.manhattanDistance Point.absDiff Point.toUnsigned
    simp only [one]
    omega
  have tri : ∀ a b c : Int, min (a - c).natAbs 32767 ≤ min (a - b).natAbs 32767 + min (b - c).natAbs 32767 := by intro a b c; omega
  rw [e, e, e, e]
  refine ⟨?_, ?_, ?_⟩
  · cases p; cases q
    simp only [Point.mk.injEq]
    omega
  · omega
  · have := tri p.x q.x r.x
    have := tri p.y q.y r.y
    omega

/-- **C62**, farther apart than that, the distance answered is too small. -/
theorem C62_far_fails (p q : Point) (h : 32767 < p.x - q.x) : p.manhattanDistance q < gridDistance p q := by
  unfold Point.manhattanDistance Point.absDiff Point.toUnsigned gridDistance
  simp only [satI16]
  split_ifs <;> omega

example : (⟨30000, 0⟩ : Point).manhattanDistance ⟨-30000, 5⟩ = 32772 := by decide

/-- **C62**, sums, differences and opposites: exact in each coordinate that the result can be held in, the nearest possible otherwise;
always in the plane. -/
theorem C62_arithmetic (p q : Point) :
    InPlane (p.add q) ∧ InPlane (p.sub q) ∧ InPlane p.neg ∧
    (-32768 ≤ p.x + q.x → p.x + q.x ≤ 32767 → (p.add q).x = p.x + q.x) ∧ (-32768 ≤ p.y + q.y → p.y + q.y ≤ 32767 → (p.add q).y = p.y + q.y) ∧
    (-32768 ≤ p.x - q.x → p.x - q.x ≤ 32767 → (p.sub q).x = p.x - q.x) ∧ (-32768 ≤ p.y - q.y → p.y - q.y ≤ 32767 → (p.sub q).y = p.y - q.y) ∧
    (InPlane p → -32768 < p.x → p.neg.x = -p.x) ∧ (InPlane p → -32768 < p.y → p.neg.y = -p.y) ∧
    ∀ r, InPlane r → |(p.add q).x - (p.x + q.x)| ≤ |r.x - (p.x + q.x)| ∧ |(p.add q).y - (p.y + q.y)| ≤ |r.y - (p.y + q.y)| := by
  unfold InPlane Point.add Point.sub Point.neg Point.make
  simp only [satI16]
  refine ⟨by omega, by omega, by omega, by omega, by omega, by omega, by omega, by omega, by omega, fun r hr => ?_⟩
  constructor
  · rcases abs_cases (max (-32768) (min (max (-32768) (min (p.x + q.x) 32767)) 32767) - (p.x + q.x)) with h | h <;>
      rcases abs_cases (r.x - (p.x + q.x)) with h' | h' <;> omega
  · rcases abs_cases (max (-32768) (min (max (-32768) (min (p.y + q.y) 32767)) 32767) - (p.y + q.y)) with h | h <;>
      rcases abs_cases (r.y - (p.y + q.y)) with h' | h' <;> omega

/-- **C62**, the box: `clamp` answers a point of the box, the point itself if it is in it, and twice is as once; `contains` says whether
a point lies in the box from the origin. -/
theorem C62_boxes (p below above : Point) (h : below.x ≤ above.x ∧ below.y ≤ above.y) :
    (below.x ≤ (p.clamp below above).x ∧ (p.clamp below above).x ≤ above.x ∧ below.y ≤ (p.clamp below above).y ∧ (p.clamp below above).y ≤ above.y) ∧
    (below.x ≤ p.x ∧ p.x ≤ above.x ∧ below.y ≤ p.y ∧ p.y ≤ above.y → p.clamp below above = p) ∧
    (p.clamp below above).clamp below above = p.clamp below above ∧
    (above.contains p = true ↔ (0 ≤ p.x ∧ p.x < above.x) ∧ (0 ≤ p.y ∧ p.y < above.y)) := by
  have e : ∀ p : Point, p.clamp below above = ⟨min (max p.x below.x) above.x, min (max p.y below.y) above.y⟩ := by
    intro p
    unfold Point.clamp Point.max Point.min
    simp only [Point.mk.injEq]
    constructor <;> (split_ifs <;> omega)
  rw [e, e]
  refine ⟨by simp only; omega, ?_, ?_, ?_⟩
  · intro h2
    cases p
    simp only [Point.mk.injEq] at *
    omega
  · simp only [Point.mk.injEq]; omega
  · unfold Point.contains
    split_ifs <;> simp <;> omega

/-- **C62**, `squaredLength` is x² + y². Missing: the one point where that is 2^31 (`C62_squared_length_fails`). -/
theorem C62_squared_length_partial (p : Point) (h : InPlane p) (hne : ¬ (p.x = -32768 ∧ p.y = -32768)) :
    (p.squaredLength : Int) = p.x * p.x + p.y * p.y := by
  obtain ⟨⟨h1, h2⟩, h3, h4⟩ := h
  unfold Point.squaredLength Point.dot Point.toUnsigned
  have a1 : p.x * p.x ≤ 32768 * 32768 := by nlinarith
  have a2 : p.y * p.y ≤ 32768 * 32768 := by nlinarith
  have a3 : 0 ≤ p.x * p.x := mul_self_nonneg _
  have a4 : 0 ≤ p.y * p.y := mul_self_nonneg _
  have a5 : p.x * p.x + p.y * p.y < 2147483648 := by
    by_cases e : p.x = -32768
    · have : -32768 < p.y := by omega
      have : p.y * p.y ≤ 32767 * 32767 := by nlinarith
      omega
    · have : -32768 < p.x := by omega
      have : p.x * p.x ≤ 32767 * 32767 := by nlinarith
      omega
  unfold satI
  norm_num
  omega

theorem C62_squared_length_fails : ((⟨-32768, -32768⟩ : Point).squaredLength : Int) ≠ (-32768) * (-32768) + (-32768) * (-32768) := by decide

/-- **C62**, `squaredDistance` is exact as long as the differences fit (and are not both -32768). -/
theorem C62_squared_distance (p q : Point) (hx : (p.x - q.x).natAbs ≤ 32767) (hy : (p.y - q.y).natAbs ≤ 32767) :
    (p.squaredDistance q : Int) = squareDistance p q := by
  have e : p.sub q = ⟨p.x - q.x, p.y - q.y⟩ := by
    unfold Point.sub Point.make
    simp only [satI16, Point.mk.injEq]
    omega
  unfold Point.squaredDistance squareDistance
  rw [e]
  exact C62_squared_length_partial _ ⟨⟨by simp only; omega, by simp only; omega⟩, by simp only; omega, by simp only; omega⟩ (by simp only; omega)

/-- **C62**, directions: the eight neighbors are the eight points around the origin, each once; opposite directions are opposite points;
the corners lie at distance 4; and each is in the direction of the neighbor. -/
theorem C62_directions :
    (∀ p : Point, p ≠ ⟨0, 0⟩ → |p.x| ≤ 1 → |p.y| ≤ 1 → ∃ d, d < 8 ∧ Point.neighbor d = p) ∧
    (∀ d e, d < 8 → e < 8 → Point.neighbor d = Point.neighbor e → d = e) ∧
    (∀ d, d < 8 → Point.neighbor ((d + 4) % 8) = (Point.neighbor d).neg ∧ Point.corner ((d + 4) % 8) = (Point.corner d).neg ∧
      (Point.corner d).length = 4 ∧ ∃ k : Int, 0 < k ∧ Point.corner d = ⟨k * (Point.neighbor d).x, k * (Point.neighbor d).y⟩) := by
  refine ⟨?_, ?_, ?_⟩
  · rintro ⟨x, y⟩ h1 h2 h3
    simp only [ne_eq, Point.mk.injEq] at h1 h2 h3
    rw [abs_le] at h2 h3
    obtain ⟨a, b⟩ := h2
    obtain ⟨c, d⟩ := h3
    interval_cases x <;> interval_cases y
    · exact ⟨5, by decide, by decide⟩
    · exact ⟨6, by decide, by decide⟩
    · exact ⟨7, by decide, by decide⟩
    · exact ⟨4, by decide, by decide⟩
    · exact absurd ⟨rfl, rfl⟩ h1
    · exact ⟨0, by decide, by decide⟩
    · exact ⟨3, by decide, by decide⟩
    · exact ⟨2, by decide, by decide⟩
    · exact ⟨1, by decide, by decide⟩
  · intro d e hd he
    interval_cases d <;> interval_cases e <;> decide
  · intro d hd
    interval_cases d
    · exact ⟨by decide, by decide, by decide, 4, by decide, by decide⟩
    · exact ⟨by decide, by decide, by decide, 2, by decide, by decide⟩
    · exact ⟨by decide, by decide, by decide, 4, by decide, by decide⟩
    · exact ⟨by decide, by decide, by decide, 2, by decide, by decide⟩
    · exact ⟨by decide, by decide, by decide, 4, by decide, by decide⟩
    · exact ⟨by decide, by decide, by decide, 2, by decide, by decide⟩
    · exact ⟨by decide, by decide, by decide, 4, by decide, by decide⟩
    · exact ⟨by decide, by decide, by decide, 2, by decide, by decide⟩

/-- **C62**, `take(a, b)` has the x of `a` and the y of `b`. -/
theorem C62_take (p a b : Point) : p.take a b = ⟨a.x, b.y⟩ := rfl

/-- **C62**, `area`: the product of the sizes, unless a coordinate is -32768. -/
theorem C62_area (p : Point) (h : InPlane p) (hx : p.x ≠ -32768) (hy : p.y ≠ -32768) : p.area = p.x.natAbs * p.y.natAbs := by
  obtain ⟨⟨h1, h2⟩, h3, h4⟩ := h
  have e : p.abs = ⟨(p.x.natAbs : Int), (p.y.natAbs : Int)⟩ := by
    unfold Point.abs
    simp only [satI16, Point.mk.injEq]
    constructor <;> (split_ifs <;> omega)
  unfold Point.area Point.toUnsigned
  rw [e]
  simp only
  rw [← Int.natCast_mul]; rfl

/-! ### C63 -/

/-- What a member can still become: 2^(steps left). -/
def worth (width : Nat) : Site → Nat
  | .cell a => 2 ^ (2 ^ width - 1 - a)
  | _ => 0

def worths (width : Nat) (w : List Site) : Nat := (w.map (worth width)).sum

/-- All ages fit their type. -/
def AgesFit (width : Nat) (w : List Site) : Prop := ∀ a, .cell a ∈ w → a ≤ 2 ^ width - 1

theorem sum_set (l : List Nat) (i x y : Nat) (h : l[i]? = some y) : (l.set i x).sum + y = l.sum + x := by
  induction l generalizing i with
  | nil => simp at h
  | cons a l ih =>
    cases i with
    | zero =>
      simp at h
      subst h
      simp [List.set]; omega
    | succ i =>
      simp at h
      have := ih i h
      simp [List.set]; omega

theorem worths_set (width : Nat) (w : List Site) (i : Nat) (s t : Site) (h : w[i]? = some s) :
    worths width (w.set i t) + worth width s = worths width w + worth width t := by
  unfold worths
  rw [List.map_set]
  exact sum_set _ _ _ _ (by simp [h])

theorem colony_eq (w : List Site) : colony w = (w.map fun s => if isCell s then 1 else 0).sum := by
  unfold colony
  induction w with
  | nil => rfl
  | cons s w ih =>
    rw [List.filter_cons, List.map_cons, List.sum_cons, ← ih]
    cases h : isCell s
    · simp
    · simp; omega

theorem colony_set (w : List Site) (i : Nat) (s t : Site) (h : w[i]? = some s) :
    colony (w.set i t) + (if isCell s then 1 else 0) = colony w + (if isCell t then 1 else 0) := by
  rw [colony_eq, colony_eq, List.map_set]
  exact sum_set _ _ _ _ (by simp [h])

/-- One `dup`: nothing changes, or there is one more member, and what the members are worth together stays the same. -/
theorem dup_step (width : Nat) (w v : List Site) (i j : Nat) (b : Bool) (hf : AgesFit width w) (h : dup width w i j = some (v, b)) :
    AgesFit width v ∧ worths width v = worths width w ∧ (v = w ∨ (b = true ∧ colony v = colony w + 1 ∧ w[j]? = some .empty)) := by
  unfold dup at h
  split at h
  · rename_i age hi
    split at h
    · rename_i hage
      split at h
      · cases h; exact ⟨hf, rfl, Or.inl rfl⟩
      · split at h
        · cases h; exact ⟨hf, rfl, Or.inl rfl⟩
        · rename_i hj1 hj2
          push Not at hj2
          have hij : i ≠ j := by rintro rfl; rw [hi] at hj2; cases hj2
          have hsat : satU width (age + 1) = age + 1 := by unfold satU; omega
          rw [hsat] at h
          cases h
          have hj' : (w.set i (.cell (age + 1)))[j]? = some .empty := by
            rw [List.getElem?_set_ne hij]; exact hj2
          refine ⟨?_, ?_, Or.inr ⟨rfl, ?_, hj2⟩⟩
          · intro a ha
            rcases List.mem_or_eq_of_mem_set ha with ha | ha
            · rcases List.mem_or_eq_of_mem_set ha with ha | ha
              · exact hf a ha
              · cases ha; omega
            · cases ha; omega
          · have e1 := worths_set width w i _ (.cell (age + 1)) hi
            have e2 := worths_set width _ j _ (.cell (age + 1)) hj'
            simp only [worth] at e1 e2
            have e3 : 2 ^ (2 ^ width - 1 - age) = 2 ^ (2 ^ width - 1 - (age + 1)) + 2 ^ (2 ^ width - 1 - (age + 1)) := by
              rw [show 2 ^ width - 1 - age = (2 ^ width - 1 - (age + 1)) + 1 by omega, pow_succ]; ring
            omega
          · have e1 := colony_set w i _ (.cell (age + 1)) hi
            have e2 := colony_set _ j _ (.cell (age + 1)) hj'
            simp [isCell] at e1 e2
            omega
    · cases h; exact ⟨hf, rfl, Or.inl rfl⟩
  · cases h

theorem runDup_inv (width : Nat) (es : List (Nat × Nat)) : ∀ w, AgesFit width w →
    AgesFit width (runDup width w es) ∧ worths width (runDup width w es) = worths width w ∧ colony w ≤ colony (runDup width w es) := by
  induction es with
  | nil => intro w h; exact ⟨h, rfl, le_refl _⟩
  | cons e es ih =>
    intro w h
    obtain ⟨i, j⟩ := e
    unfold runDup
    cases hd : dup width w i j with
    | none => exact ih w h
    | some p =>
      obtain ⟨v, b⟩ := p
      obtain ⟨s1, s2, s3⟩ := dup_step width w v i j b h hd
      obtain ⟨t1, t2, t3⟩ := ih v s1
      refine ⟨t1, t2.trans s2, le_trans ?_ t3⟩
      rcases s3 with rfl | ⟨_, h, _⟩
      · exact le_refl _
      · omega

theorem worths_grown (width : Nat) (w : List Site) (h : Grown width w) : worths width w = colony w := by
  rw [colony_eq]
  unfold worths
  congr 1
  refine List.map_congr_left fun s hs => ?_
  cases s with
  | cell a => simp [worth, isCell, h a hs]
  | _ => rfl

theorem colony_le_worths (width : Nat) (w : List Site) : colony w ≤ worths width w := by
  rw [colony_eq]
  unfold worths
  induction w with
  | nil => simp
  | cons s w ih =>
    simp only [List.map_cons, List.sum_cons]
    have : (if isCell s then 1 else 0) ≤ worth width s := by
      cases s with
      | cell a => simp only [isCell, if_true, worth]; exact Nat.one_le_two_pow
      | _ => simp [isCell]
    omega

/-- **C63.** From one member of age 0, whatever calls of `dup` are made by whichever members, the colony never shrinks, never has more
than 2^(2^width − 1) members, and has exactly that many when no member can grow any more. Missing: the documented size, which is another one
(`C63_documented_size_fails`). -/
theorem C63_colony_size_partial (width : Nat) (w : List Site) (es : List (Nat × Nat)) (hw : w.filter isCell = [.cell 0]) :
    let v := runDup width w es
    1 ≤ colony v ∧ colony v ≤ 2 ^ (2 ^ width - 1) ∧ (Grown width v → colony v = 2 ^ (2 ^ width - 1)) := by
  intro v
  have hf : AgesFit width w := by
    intro a ha
    have : Site.cell a ∈ w.filter isCell := List.mem_filter.2 ⟨ha, rfl⟩
    rw [hw] at this
    simp at this
    omega
  have hworth : worths width w = 2 ^ (2 ^ width - 1) := by
    have : ∀ l : List Site, worths width l = worths width (l.filter isCell) := by
      intro l
      unfold worths
      induction l with
      | nil => rfl
      | cons s l ih =>
        rw [List.filter_cons, List.map_cons, List.sum_cons, ih]
        cases s <;> simp [isCell, worth]
    rw [this, hw]
    simp [worths, worth]
  have hcol : colony w = 1 := by unfold colony; rw [hw]; rfl
  obtain ⟨_, h2, h3⟩ := runDup_inv width es w hf
  change worths width v = worths width w at h2
  change colony w ≤ colony v at h3
  refine ⟨by omega, ?_, fun hg => ?_⟩
  · have := colony_le_worths width v; omega
  · have := worths_grown width v hg; omega

/-- Two bits of age: a colony of 8, grown in 7 steps on 8 sites. -/
example : colony (runDup 2 (.cell 0 :: List.replicate 7 .empty) [(0, 1), (0, 2), (1, 3), (0, 4), (1, 5), (2, 6), (3, 7)]) = 8 ∧
    2 ^ (2 ^ 2 - 1) = 8 := by decide

/-- **C63**, `dup` itself: it answers false exactly if the member is not too old and the site is not a live and empty one, and then, or
if the member is too old, nothing changes. -/
theorem C63_dup_answer (width : Nat) (w : List Site) (i j a : Nat) (hi : w[i]? = some (.cell a)) (ha : a < 2 ^ width) :
    (a < 2 ^ width - 1 ∧ w[j]? ≠ some .empty → dup width w i j = some (w, false)) ∧
    (a = 2 ^ width - 1 → dup width w i j = some (w, true)) ∧
    (a < 2 ^ width - 1 ∧ w[j]? = some .empty → ∃ v, dup width w i j = some (v, true) ∧ v[i]? = some (.cell (a + 1)) ∧
      v[j]? = some (.cell (a + 1)) ∧ ∀ k, k ≠ i → k ≠ j → v[k]? = w[k]?) := by
  unfold dup
  rw [hi]
  simp only
  refine ⟨fun ⟨h1, h2⟩ => ?_, fun h => ?_, fun ⟨h1, h2⟩ => ?_⟩
  · rw [if_pos h1]
    split
    · rfl
    · simp [h2]
  · rw [if_neg (by omega)]
  · have hij : i ≠ j := by rintro rfl; rw [hi] at h2; cases h2
    have hsat : satU width (a + 1) = a + 1 := by unfold satU; omega
    rw [if_pos h1, if_neg (by rw [h2]; simp), if_neg (by rw [h2]; simp), hsat]
    refine ⟨_, rfl, ?_, ?_, fun k hki hkj => ?_⟩
    · rw [List.getElem?_set_ne (fun h => hij h.symm), List.getElem?_set_self]
      exact (List.getElem?_eq_some_iff.1 hi).1
    · rw [List.getElem?_set_self]
      rw [List.length_set]
      exact (List.getElem?_eq_some_iff.1 h2).1
    · rw [List.getElem?_set_ne (fun h => hkj h.symm), List.getElem?_set_ne (fun h => hki h.symm)]

/-- **C63**: the documentation (Telomere.ulam:7-8: "a colony containing 2**(2**(width-1)) atoms") is wrong for all widths from 2 on. -/
theorem C63_documented_size_fails (width : Nat) (h : 2 ≤ width) : 2 ^ (2 ^ (width - 1)) < 2 ^ (2 ^ width - 1) := by
  refine Nat.pow_lt_pow_right (by omega) ?_
  obtain ⟨k, rfl⟩ : ∃ k, width = k + 2 := ⟨width - 2, by omega⟩
  have : 0 < 2 ^ k := Nat.two_pow_pos k
  rw [show k + 2 - 1 = k + 1 by omega, pow_succ, pow_succ, pow_succ]
  omega

end Ulam.Stdlib
