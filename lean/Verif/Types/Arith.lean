import Verif.Types.Lemmas
/-! # Helper lemmas for result sizes -/
namespace Ulam.Types
open Spec

/-- Operand kinds arithmetic accepts. -/
def Operand (b : Base) : Prop := b = .int ∨ b = .unsigned ∨ b = .unary ∨ b = .quark

theorem wordSize_eq {n : Nat} (h1 : 1 ≤ n) (h2 : n ≤ 64) : wordSize n = if n ≤ 32 then 32 else 64 := by
  unfold wordSize
  split <;> split <;> omega

theorem log2_le_self {n : Nat} (h1 : 1 ≤ n) : Nat.log2 n + 1 ≤ n := by
  have : Nat.log2 n < n := (Nat.log2_lt (by omega)).2 Nat.lt_two_pow_self
  omega

theorem log2_small {n : Nat} (h1 : 1 ≤ n) (h2 : n ≤ 64) : Nat.log2 n ≤ 6 := by
  have : Nat.log2 n < 7 := (Nat.log2_lt (by omega)).2 (by omega)
  omega

theorem SignRange_mono {s : Sign} {a b : Nat} {x : Int} (h : a ≤ b) (hx : SignRange s a x) : SignRange s b x := by
  cases s
  · have := ipow_le (show a - 1 ≤ b - 1 by omega)
    simp only [SignRange] at *; omega
  · have := ipow_le h
    simp only [SignRange] at *; omega

theorem unsigned_signed {a : Nat} {x : Int} (hx : SignRange .unsigned a x) : SignRange .signed (a + 1) x := by
  simp only [SignRange] at *
  have : (0 : Int) < 2 ^ a := by positivity
  simp only [Nat.add_sub_cancel]
  omega

theorem calc_op {b : Base} {n : Nat} {x : Int} (hb : Operand b) (h1 : 1 ≤ n) (h2 : n ≤ 64) (hx : InRange b n x) :
    ∃ bs ws sg, calcBitsizeForResult b n = some (bs, ws, sg) ∧ SignRange sg bs x ∧ 1 ≤ bs ∧ bs ≤ ws ∧
      (ws = if b = .quark ∨ n ≤ 32 then 32 else 64) ∧ (sg = .unsigned ↔ b = .unsigned ∨ b = .unary) ∧
      (sg = .unsigned → (SignRange .signed (bitsizeToInt b n) x ∨ (bitsizeToInt b n = ws ∧ bs = ws))) ∧
      (ws = 32 ∨ ws = 64) ∧ (sg = .signed → ws = 64 → 33 ≤ bs) := by
  have hw := wordSize_eq h1 h2
  have hw' : wordSize n = 32 ∨ wordSize n = 64 := by rw [hw]; split <;> simp
  rcases hb with rfl | rfl | rfl | rfl
  · refine ⟨_, _, _, rfl, hx, h1, ?_, ?_, by simp, by simp, hw', ?_⟩
    · rw [hw]; split <;> omega
    · rw [hw]; simp
    · intro _ h; rw [hw] at h; split at h <;> omega
  · refine ⟨_, _, _, rfl, hx, h1, ?_, ?_, by simp, ?_, hw', by simp⟩
    · rw [hw]; split <;> omega
    · rw [hw]; simp
    · intro _
      simp only [bitsizeToInt]
      split
      · right; constructor; rfl
        have : wordSize n ≥ n := by rw [hw]; split <;> omega
        omega
      · left; exact unsigned_signed hx
  · have hl := log2_le_self h1
    have hs := log2_small h1 h2
    have hr : SignRange .unsigned (Nat.log2 n + 1) x := by
      have := (log_lt_iff (k := Nat.log2 n + 1) h1).1 (by omega)
      simp only [SignRange, InRange] at *; omega
    refine ⟨_, _, _, rfl, hr, by omega, ?_, ?_, by simp, ?_, hw', by simp⟩
    · rw [hw]; split <;> omega
    · rw [hw]; simp
    · intro _
      have hu := unsigned_signed hr
      simp only [bitsizeToInt]
      left
      rw [if_neg (by rw [hw]; split <;> omega)]
      exact hu
  · exact ⟨_, _, _, rfl, hx, by omega, by omega, by simp, by simp, by simp, by simp, by simp⟩

theorem add_range {s : Sign} {M : Nat} {x y : Int} (h1 : 1 ≤ M) (hx : SignRange s M x) (hy : SignRange s M y) :
    SignRange s (M + 1) (x + y) := by
  cases s <;> simp only [SignRange, Nat.add_sub_cancel] at *
  · have : (2 : Int) ^ M = 2 * 2 ^ (M - 1) := by exact_mod_cast pow_pred h1
    omega
  · have : (2 : Int) ^ (M + 1) = 2 * 2 ^ M := by rw [pow_succ]; ring
    omega

theorem sub_range {s : Sign} {M : Nat} {x y : Int} (h1 : 1 ≤ M) (hx : SignRange s M x) (hy : SignRange s M y)
    (hs : s = .unsigned → y ≤ x) : SignRange s (M + 1) (x - y) := by
  cases s <;> simp only [SignRange, Nat.add_sub_cancel] at hx hy ⊢
  · have : (2 : Int) ^ M = 2 * 2 ^ (M - 1) := by exact_mod_cast pow_pred h1
    omega
  · have := hs rfl
    have : (2 : Int) ^ (M + 1) = 2 * 2 ^ M := by rw [pow_succ]; ring
    omega

theorem mul_range {s : Sign} {a b : Nat} {x y : Int} (ha : 1 ≤ a) (hb : 1 ≤ b) (hx : SignRange s a x)
    (hy : SignRange s b y) : SignRange s (a + b) (x * y) := by
  cases s <;> simp only [SignRange] at *
  · obtain ⟨c, rfl⟩ : ∃ c, a = c + 1 := ⟨a - 1, by omega⟩
    obtain ⟨d, rfl⟩ : ∃ d, b = d + 1 := ⟨b - 1, by omega⟩
    simp only [Nat.add_sub_cancel] at *
    have he : c + 1 + (d + 1) - 1 = c + d + 1 := by omega
    have hc : (0 : Int) < 2 ^ c := by positivity
    have hd : (0 : Int) < 2 ^ d := by positivity
    rw [he, pow_succ, pow_add]
    generalize (2 : Int) ^ c = C at *
    generalize (2 : Int) ^ d = D at *
    have hxa : |x| ≤ C := abs_le.2 ⟨by omega, by omega⟩
    have hya : |y| ≤ D := abs_le.2 ⟨by omega, by omega⟩
    have hm : |x * y| ≤ C * D := by
      rw [abs_mul]; exact mul_le_mul hxa hya (abs_nonneg _) (by omega)
    have hCD : 0 < C * D := Int.mul_pos hc hd
    have := abs_le.1 hm
    constructor <;> linarith [this.1, this.2]
  · refine ⟨Int.mul_nonneg hx.1 hy.1, ?_⟩
    rw [pow_add]
    have ha : (0 : Int) < 2 ^ a := by positivity
    calc x * y ≤ 2 ^ a * y := Int.mul_le_mul_of_nonneg_right (by omega) hy.1
      _ < 2 ^ a * 2 ^ b := Int.mul_lt_mul_of_pos_left hy.2 ha

theorem div_range {s : Sign} {M : Nat} {x y : Int} (hx : SignRange s M x) (hy : SignRange s M y)
    (hd : ¬ (s = .signed ∧ x = -(2 : Int) ^ (M - 1) ∧ y = -1)) : SignRange s M (x.tdiv y) := by
  have hle : (x.tdiv y).natAbs ≤ x.natAbs := by
    rw [Int.natAbs_tdiv]; exact Nat.div_le_self _ _
  have hdiv : ∀ a b : Nat, a.div b = a / b := fun _ _ => rfl
  have hp : (0 : Int) < 2 ^ (M - 1) := by positivity
  cases s <;> simp only [SignRange] at *
  · refine ⟨by omega, ?_⟩
    by_contra hcon
    have hxe : x = -(2 : Int) ^ (M - 1) := by omega
    have hqe : (x.tdiv y).natAbs = x.natAbs := by omega
    rw [Int.natAbs_tdiv, hdiv] at hqe
    have hx0 : 0 < x.natAbs := by omega
    have hy1 : y.natAbs = 1 := by
      rcases Nat.lt_or_ge y.natAbs 2 with h | h
      · rcases Nat.lt_or_ge y.natAbs 1 with h' | h'
        · have : y.natAbs = 0 := by omega
          rw [this, Nat.div_zero] at hqe; omega
        · omega
      · have := Nat.div_lt_self hx0 h
        omega
    have : y = 1 ∨ y = -1 := by omega
    rcases this with rfl | rfl
    · rw [Int.tdiv_one] at hcon; omega
    · exact hd ⟨by trivial, hxe, rfl⟩
  · refine ⟨Int.tdiv_nonneg hx.1 hy.1, ?_⟩
    have := Int.tdiv_nonneg hx.1 hy.1
    omega

theorem rem_range {s : Sign} {M : Nat} {x y : Int} (hx : SignRange s M x) : SignRange s M (x.tmod y) := by
  have hle : (x.tmod y).natAbs ≤ x.natAbs := by
    rw [Int.natAbs_tmod]; exact Nat.mod_le _ _
  cases s <;> simp only [SignRange] at *
  · refine ⟨by omega, ?_⟩
    rcases Int.le_total 0 x with h | h
    · have := Int.tmod_nonneg y h; omega
    · have : x.tmod y ≤ 0 := by
        have h1 := Int.tmod_nonneg y (show 0 ≤ -x by omega)
        rw [Int.neg_tmod] at h1; omega
      have hp : (0 : Int) < 2 ^ (M - 1) := by positivity
      omega
  · have := Int.tmod_nonneg y hx.1
    omega

theorem calc_pair {lb rb : Base} {ln rn : Nat} {x y : Int} (hl : Operand lb) (hr : Operand rb)
    (l1 : 1 ≤ ln) (l2 : ln ≤ 64) (r1 : 1 ≤ rn) (r2 : rn ≤ 64) (hx : InRange lb ln x) (hy : InRange rb rn y) :
    ∃ a b w, resultBitsizeCalc lb ln rb rn = some (a, b, w) ∧ 1 ≤ a ∧ 1 ≤ b ∧
      (w = if (lb = .quark ∨ ln ≤ 32) ∧ (rb = .quark ∨ rn ≤ 32) then 32 else 64) ∧
      (max a b < w → SignRange (resultSign lb rb) (max a b) x ∧ SignRange (resultSign lb rb) (max a b) y) ∧
      (a + b < w → SignRange (resultSign lb rb) a x ∧ SignRange (resultSign lb rb) b y) := by
  obtain ⟨la, lw, ls, e1, rx, la1, lalw, elw, lsg, lconv, lw2, lwide⟩ := calc_op hl l1 l2 hx
  obtain ⟨ra, rw', rs, e2, ry, ra1, rarw, erw, rsg, rconv, rw2, rwide⟩ := calc_op hr r1 r2 hy
  have hw : (if lw ≠ rw' then (if lw > rw' then lw else rw') else lw) =
      if (lb = .quark ∨ ln ≤ 32) ∧ (rb = .quark ∨ rn ≤ 32) then 32 else 64 := by
    rw [elw, erw]
    by_cases p : lb = .quark ∨ ln ≤ 32 <;> by_cases q : rb = .quark ∨ rn ≤ 32 <;> simp [p, q]
  generalize (if (lb = .quark ∨ ln ≤ 32) ∧ (rb = .quark ∨ rn ≤ 32) then 32 else 64) = W at hw
  have hWm : W = max lw rw' := by
    rw [← hw]; split <;> (try split) <;> omega
  have hsg : resultSign lb rb = if ls = .unsigned ∧ rs = .unsigned then .unsigned else .signed := by
    simp only [resultSign, lsg, rsg]
  have hbi : ∀ {b : Base} {n : Nat}, Operand b → 1 ≤ n → n ≤ 64 → 1 ≤ bitsizeToInt b n := by
    intro b n hb h1 h2
    have : 1 ≤ wordSize n := by rw [wordSize_eq h1 h2]; split <;> omega
    rcases hb with rfl | rfl | rfl | rfl <;> simp only [bitsizeToInt] <;> split <;> omega
  unfold resultBitsizeCalc
  rw [e1, e2, hsg]
  cases ls <;> cases rs
  · exact ⟨la, ra, W, by simp [hw], la1, ra1, rfl,
      fun _ => ⟨SignRange_mono (Nat.le_max_left _ _) rx, SignRange_mono (Nat.le_max_right _ _) ry⟩, fun _ => ⟨rx, ry⟩⟩
  · have hwide := lwide rfl
    refine ⟨la, bitsizeToInt rb rn, W, by simp [hw], la1, hbi hr r1 r2, rfl, ?_, ?_⟩
    · intro hlt
      refine ⟨SignRange_mono (Nat.le_max_left _ _) rx, ?_⟩
      rcases rconv rfl with h | ⟨h3, h4⟩
      · exact SignRange_mono (Nat.le_max_right _ _) h
      · exact SignRange_mono (by omega) (unsigned_signed ry)
    · intro hlt
      refine ⟨rx, ?_⟩
      rcases rconv rfl with h | ⟨h3, h4⟩
      · exact h
      · exfalso; omega
  · have hwide := rwide rfl
    refine ⟨bitsizeToInt lb ln, ra, W, by simp [hw], hbi hl l1 l2, ra1, rfl, ?_, ?_⟩
    · intro hlt
      refine ⟨?_, SignRange_mono (Nat.le_max_right _ _) ry⟩
      rcases lconv rfl with h | ⟨h3, h4⟩
      · exact SignRange_mono (Nat.le_max_left _ _) h
      · exact SignRange_mono (by omega) (unsigned_signed rx)
    · intro hlt
      refine ⟨?_, ry⟩
      rcases lconv rfl with h | ⟨h3, h4⟩
      · exact h
      · exfalso; omega
  · exact ⟨la, ra, W, by simp [hw], la1, ra1, rfl,
      fun _ => ⟨SignRange_mono (Nat.le_max_left _ _) rx, SignRange_mono (Nat.le_max_right _ _) ry⟩, fun _ => ⟨rx, ry⟩⟩

end Ulam.Types
