import Mathlib.Analysis.SpecialFunctions.Trigonometric.Inverse
import Mathlib.Analysis.Real.Pi.Bounds
/-!
# Angles whose cosine has a rational square (lemmas)
-/
namespace Ulam.Storage
open Real

/-- Degrees. -/
noncomputable def deg (x : ℝ) : ℝ := x * π / 180

theorem cos_near {x lo hi : ℝ} (h0 : 0 ≤ lo) (h1 : lo ≤ x) (h2 : x ≤ hi) (h3 : hi ≤ 1) :
    1 - hi ^ 2 / 2 - hi ^ 4 * (5 / 96) ≤ cos x ∧ cos x ≤ 1 - lo ^ 2 / 2 + hi ^ 4 * (5 / 96) := by
  have hx : |x| ≤ 1 := by rw [abs_of_nonneg (by linarith)]; linarith
  have hb := cos_bound hx
  rw [abs_of_nonneg (by linarith : 0 ≤ x), abs_le] at hb
  have p4 : x ^ 4 ≤ hi ^ 4 := pow_le_pow_left₀ (by linarith) h2 4
  have p2 : x ^ 2 ≤ hi ^ 2 := pow_le_pow_left₀ (by linarith) h2 2
  have q2 : lo ^ 2 ≤ x ^ 2 := pow_le_pow_left₀ h0 h1 2
  constructor <;> linarith [hb.1, hb.2]

theorem deg_le {a lo hi : ℝ} (ha : 0 ≤ a) (h1 : lo * 180 ≤ a * 3.1415) (h2 : a * 3.1416 ≤ hi * 180) : lo ≤ deg a ∧ deg a ≤ hi := by
  have := pi_gt_d4
  have := pi_lt_d4
  unfold deg
  constructor
  · rw [le_div_iff₀ (by norm_num)]; nlinarith
  · rw [div_le_iff₀ (by norm_num)]; nlinarith

theorem cos_deg_double (a : ℝ) : cos (deg (2 * a)) = 2 * cos (deg a) ^ 2 - 1 := by
  rw [← cos_two_mul]; congr 1; unfold deg; ring

theorem cos_deg_compl (a : ℝ) : cos (deg (180 - a)) = - cos (deg a) := by
  rw [← cos_pi_sub]; congr 1; unfold deg; ring

theorem cos16 : 0.96 < cos (deg 16) := by
  obtain ⟨a, b⟩ := deg_le (a := 16) (lo := 0.27) (hi := 0.2793) (by norm_num) (by norm_num) (by norm_num)
  have := (cos_near (by norm_num) a b (by norm_num)).1
  norm_num at this ⊢; linarith

theorem cos18 : cos (deg 18) < 0.96 := by
  obtain ⟨a, b⟩ := deg_le (a := 18) (lo := 0.314) (hi := 0.315) (by norm_num) (by norm_num) (by norm_num)
  have := (cos_near (by norm_num) a b (by norm_num)).2
  norm_num at this ⊢; linarith

theorem cos36' : 0.807 < cos (deg 36) := by
  have e : deg 36 = π / 5 := by unfold deg; ring
  rw [e, cos_pi_div_five]
  have : (2.23 : ℝ) < √5 := by rw [Real.lt_sqrt (by norm_num)]; norm_num
  norm_num at this ⊢; linarith

theorem cos36 : 0.8 < cos (deg 36) := lt_trans (by norm_num) cos36'

theorem cos38 : cos (deg 38) < 0.8 := by
  obtain ⟨a, b⟩ := deg_le (a := 38) (lo := 0.663) (hi := 0.6633) (by norm_num) (by norm_num) (by norm_num)
  have := (cos_near (by norm_num) a b (by norm_num)).2
  norm_num at this ⊢; linarith

theorem cos52 : 0.6 < cos (deg 52) := by
  obtain ⟨a, b⟩ := deg_le (a := 26) (lo := 0.4537) (hi := 0.4538) (by norm_num) (by norm_num) (by norm_num)
  have h := (cos_near (by norm_num) a b (by norm_num)).1
  have h' : (0.8946 : ℝ) ≤ cos (deg 26) := by norm_num at h ⊢; linarith
  rw [show (52 : ℝ) = 2 * 26 by norm_num, cos_deg_double]
  norm_num at h' ⊢; nlinarith

theorem cos54 : cos (deg 54) < 0.6 := by
  obtain ⟨a, b⟩ := deg_le (a := 27) (lo := 0.4712) (hi := 0.4713) (by norm_num) (by norm_num) (by norm_num)
  have h := cos_near (by norm_num) a b (by norm_num)
  have h1 : cos (deg 27) ≤ 0.892 := by have := h.2; norm_num at this ⊢; linarith
  have h2 : 0 ≤ cos (deg 27) := by have := h.1; norm_num at this; linarith
  rw [show (54 : ℝ) = 2 * 27 by norm_num, cos_deg_double]
  norm_num at h1 ⊢; nlinarith

theorem cos72 : 0.28 < cos (deg 72) := by
  have h := cos36'
  rw [show (72 : ℝ) = 2 * 36 by norm_num, cos_deg_double]
  norm_num at h ⊢; nlinarith

theorem cos74 : cos (deg 74) < 0.28 := by
  obtain ⟨a, b⟩ := deg_le (a := 18.5) (lo := 0.3228) (hi := 0.3229) (by norm_num) (by norm_num) (by norm_num)
  have h := cos_near (by norm_num) a b (by norm_num)
  have h1 : cos (deg 18.5) ≤ 0.9485 := by have := h.2; norm_num at this ⊢; linarith
  have h2 : 0.9 ≤ cos (deg 18.5) := by have := h.1; norm_num at this ⊢; linarith
  have h3 : cos (deg 37) ≤ 0.7994 ∧ 0 ≤ cos (deg 37) := by
    rw [show (37 : ℝ) = 2 * 18.5 by norm_num, cos_deg_double]
    constructor <;> norm_num at h1 h2 ⊢ <;> nlinarith
  rw [show (74 : ℝ) = 2 * 37 by norm_num, cos_deg_double]
  norm_num at h3 ⊢; nlinarith [h3.1, h3.2]

/-- Between two numbers of degrees up to 90, by the cosine of the double. -/
theorem between_deg {a c : ℝ} (h0 : 0 ≤ a) (h9 : a + 1 ≤ 90) (hc0 : 0 ≤ c) (hc1 : c ≤ 1)
    (h1 : cos (deg (2 * (a + 1))) < 2 * c ^ 2 - 1) (h2 : 2 * c ^ 2 - 1 < cos (deg (2 * a))) :
    deg a < arccos c ∧ arccos c < deg (a + 1) := by
  rw [cos_deg_double] at h1 h2
  have hpi := pi_pos
  have d0 : 0 ≤ deg a := by unfold deg; positivity
  have d1 : deg (a + 1) ≤ π / 2 := by
    unfold deg; rw [div_le_div_iff₀ (by norm_num) (by norm_num)]; nlinarith
  have d01 : deg a ≤ deg (a + 1) := by
    unfold deg; rw [div_le_div_iff_of_pos_right (by norm_num)]; nlinarith
  have c0 : 0 ≤ cos (deg a) := cos_nonneg_of_mem_Icc ⟨by linarith, by linarith⟩
  have c1 : 0 ≤ cos (deg (a + 1)) := cos_nonneg_of_mem_Icc ⟨by linarith, by linarith⟩
  have e1 : cos (deg (a + 1)) < c := lt_of_pow_lt_pow_left₀ 2 hc0 (by linarith)
  have e2 : c < cos (deg a) := lt_of_pow_lt_pow_left₀ 2 c0 (by linarith)
  constructor
  · have := arccos_lt_arccos (by linarith) e2 (cos_le_one _)
    rwa [arccos_cos d0 (by linarith)] at this
  · have := arccos_lt_arccos (by linarith [neg_one_le_cos (deg (a+1))]) e1 hc1
    rwa [arccos_cos (by linarith) (by linarith)] at this

/-- Whole degrees below an angle: number, numerator and denominator of the square of the cosine. -/
def acutes : List (Nat × Nat × Nat) :=
  [(8, 49, 50), (18, 9, 10), (26, 4, 5), (36, 16, 25), (53, 9, 25), (63, 1, 5), (71, 1, 10), (81, 1, 50)]

theorem acute_deg {a p q : Nat} (h : (a, p, q) ∈ acutes) {c : ℝ} (hc : 0 ≤ c) (e : c ^ 2 * q = p) :
    deg a < arccos c ∧ arccos c < deg (a + 1) := by
  have go : ∀ b : ℝ, 0 ≤ b → b + 1 ≤ 90 → c ^ 2 ≤ 1 → cos (deg (2 * (b + 1))) < 2 * c ^ 2 - 1 → 2 * c ^ 2 - 1 < cos (deg (2 * b)) →
      deg b < arccos c ∧ arccos c < deg (b + 1) := fun b h0 h9 h1 h2 h3 =>
    between_deg h0 h9 hc (by nlinarith) h2 h3
  have h18 := cos18; have h16 := cos16; have h36 := cos36; have h38 := cos38
  have h52 := cos52; have h54 := cos54; have h72 := cos72; have h74 := cos74
  have k1 := cos_deg_compl 18; have k2 := cos_deg_compl 16; have k3 := cos_deg_compl 36; have k4 := cos_deg_compl 38
  have k5 := cos_deg_compl 52; have k6 := cos_deg_compl 54; have k7 := cos_deg_compl 72; have k8 := cos_deg_compl 74
  norm_num at h18 h16 h36 h38 h52 h54 h72 h74 k1 k2 k3 k4 k5 k6 k7 k8
  simp only [acutes, List.mem_cons, Prod.mk.injEq, List.not_mem_nil, or_false] at h
  rcases h with ⟨rfl, rfl, rfl⟩ | ⟨rfl, rfl, rfl⟩ | ⟨rfl, rfl, rfl⟩ | ⟨rfl, rfl, rfl⟩ | ⟨rfl, rfl, rfl⟩ | ⟨rfl, rfl, rfl⟩ |
      ⟨rfl, rfl, rfl⟩ | ⟨rfl, rfl, rfl⟩ <;> push_cast at e
  all_goals
    refine go _ (by norm_num) (by norm_num) (by linarith) ?_ ?_ <;> norm_num <;> linarith

end Ulam.Storage
