import Verif.Arith.Spec
import Verif.Oper.Props
/-! # Helper lemmas for arithmetic -/
namespace Ulam.Arith
open Ulam.Types hiding Sized
open Ulam.Types.Spec Spec Ulam.Oper
open Ulam.Oper.Spec (Value Within)
open Ulam.Cast (makeImmediate makeImmediateLong make32 make64 word_cases nearest_exact nearest_self number_inj inRange_iff lo hi)
open Ulam.Cast.Spec (Sized Scalar Carried Nearest)
open Ulam.Packed (Bits getData getDataLong putData putDataLong readBits readBits_lt writeBits)

theorem low_high {b : Base} (hb : Numeric b) {t : Nat} (t1 : 1 ≤ t) : lo b t ≤ 0 ∧ 0 ≤ hi b t := by
  have h1 : (1 : Int) ≤ 2 ^ (t - 1) := by exact_mod_cast Nat.one_le_two_pow
  have h2 : (1 : Int) ≤ 2 ^ t := by exact_mod_cast Nat.one_le_two_pow
  rcases hb with rfl | rfl | rfl <;> simp only [lo, hi] <;> omega

/-- The nearest number is the clamped one. -/
theorem nearest_iff {b : Base} (hb : Numeric b) {t : Nat} (t1 : 1 ≤ t) {v w : Int} :
    Nearest b t v w ↔ w = max (lo b t) (min (hi b t) v) := by
  obtain ⟨h1, h2⟩ := low_high hb t1
  constructor
  · rintro ⟨hin, hn⟩
    rw [inRange_iff hb] at hin
    have e1 := hn (max (lo b t) (min (hi b t) v)) ((inRange_iff hb t _).mpr (by omega))
    omega
  · rintro rfl
    refine ⟨(inRange_iff hb t _).mpr (by omega), fun u hu => ?_⟩
    rw [inRange_iff hb] at hu
    omega

/-- Two values nearest to one number are the same bits. -/
theorem nearest_raw {b : Base} (hb : b = .int ∨ b = .unsigned) {t : Nat} (t1 : 1 ≤ t) {v : Int} {x y : Nat}
    (hx : x < 2 ^ t) (hy : y < 2 ^ t) (nx : Nearest b t v (number b t x)) (ny : Nearest b t v (number b t y)) : x = y := by
  have hn : Numeric b := by rcases hb with h | h <;> simp [Numeric, h]
  rw [nearest_iff hn t1] at nx ny
  exact number_inj hb hx hy (nx.trans ny.symm)

/-- Clamping to a type and then to a smaller one of its kind is clamping to the smaller one. -/
theorem nearest_trans {b : Base} (hb : Numeric b) {s t : Nat} (s1 : 1 ≤ s) (hst : s ≤ t) {v w u : Int}
    (h1 : Nearest b t v w) (h2 : Nearest b s w u) : Nearest b s v u := by
  rw [nearest_iff hb (by omega)] at h1 h2 ⊢
  obtain ⟨a, c⟩ := low_high hb s1
  have e1 : (2 : Int) ^ (s - 1) ≤ 2 ^ (t - 1) := by
    exact_mod_cast Nat.pow_le_pow_right (by decide : 0 < 2) (by omega : s - 1 ≤ t - 1)
  have e2 : (2 : Int) ^ s ≤ 2 ^ t := by exact_mod_cast Nat.pow_le_pow_right (by decide : 0 < 2) hst
  have e3 : lo b t ≤ lo b s ∧ hi b s ≤ hi b t := by
    rcases hb with rfl | rfl | rfl <;> simp only [lo, hi] <;> omega
  omega

theorem dataOf_eq {n : Nat} (n1 : 1 ≤ n) (n2 : n ≤ 64) (b : Bits) : dataOf n b = some (readBits b (96 - n) n) := by
  unfold dataOf
  rcases word_cases n1 n2 with ⟨w1, w2⟩ | ⟨w1, w2⟩
  · rw [w2, if_pos rfl, (getWord n2).1 w1]
  · rw [w2, if_neg (by decide), if_pos rfl, (getWord n2).2]

theorem immediate_eq {t : Ty} (n1 : 1 ≤ t.bits) (n2 : t.bits ≤ 64) (v : Nat) :
    immediate t v = some (writeBits (fun _ => false) (96 - t.bits) t.bits v) := by
  unfold immediate
  rcases word_cases n1 n2 with ⟨w1, w2⟩ | ⟨w1, w2⟩
  · rw [w2, if_pos (by decide)]
    simp [makeImmediate, putData, show t.bits ≤ 32 by omega, show 96 - t.bits + t.bits ≤ 96 by omega]
  · rw [w2, if_neg (by decide)]
    simp [makeImmediateLong, putDataLong, n2, show 96 - t.bits + t.bits ≤ 96 by omega]

/-- An immediate read with any length: the value, as far as the length and the type go. -/
theorem immediate_read {t : Ty} (n1 : 1 ≤ t.bits) (n2 : t.bits ≤ 64) (v : Nat) {len : Nat} (hl : len ≤ 96) :
    ∃ b, immediate t v = some b ∧ readBits b (96 - len) len = v % 2 ^ t.bits % 2 ^ len := by
  refine ⟨_, immediate_eq n1 n2 v, ?_⟩
  rw [Packed.readBits_eq]
  refine ⟨Nat.mod_lt _ (by positivity), fun j hj => ?_⟩
  rw [Nat.testBit_mod_two_pow, Nat.testBit_mod_two_pow]
  simp only [writeBits]
  by_cases h : len - 1 - j < t.bits
  · rw [if_pos (by omega)]
    rw [show 96 - t.bits + t.bits - 1 - (96 - len + j) = len - 1 - j by omega]
    simp [h, show len - 1 - j < len by omega]
  · rw [if_neg (by omega)]
    simp [h]

theorem exact_numeric {t : Ty} (h : t.base = .int ∨ t.base = .unsigned) : Numeric t.base := by
  rcases h with h | h <;> simp [Numeric, h]

/-- The type arithmetic is computed in. -/
theorem arithType_cases {op : Op} {l r t : Ty} (hl : Scalar l) (hr : Scalar r) (h : arithType op l r = .ty t) :
    Scalar t ∧ (t.base = .int ∨ t.base = .unsigned) ∧ numeric l = true ∧ numeric r = true ∧
    resultBitsize op l.base l.bits r.base r.bits = some t.bits ∧
    t.base = (if asUnsigned l && asUnsigned r then .unsigned else .int) := by
  unfold arithType at h
  split at h
  · simp at h
  · split at h
    · simp at h
    · rename_i hn
      simp only [Bool.not_eq_true, Bool.not_eq_false', Bool.and_eq_true] at hn
      split at h
      · simp at h
      · have ho : ∀ {t : Ty}, numeric t = true → Types.Operand t.base := by
          intro t h
          rcases number_base h with k | k | k <;> simp [Types.Operand, k]
        obtain ⟨n, e, n1, n2⟩ := C09_result_size_within_word op l.base r.base l.bits r.bits (ho hn.1) (ho hn.2)
          hl.2.2.1 hl.2.2.2.1 hr.2.2.1 hr.2.2.2.1
        have n3 : n ≤ 64 := n2.trans (by split <;> decide)
        rw [e] at h
        simp only [Typed.ty.injEq] at h
        subst h
        refine ⟨scalar_scalar (by split <;> simp [Sized]) n1 n3, ?_, hn.1, hn.2, e, rfl⟩
        simp only [scalar]
        split <;> simp

/-- The final type is of the same kind and no larger. -/
theorem finalType_ok {op : Op} {l r t : Ty} (hl : Scalar l) (hr : Scalar r) (h : arithType op l r = .ty t) :
    Scalar (finalType op t l r) ∧ (finalType op t l r).base = t.base ∧ (finalType op t l r).bits ≤ t.bits := by
  obtain ⟨hs, hb, nl, nr, e, eb⟩ := arithType_cases hl hr h
  have hsz : Sized t.base := by rcases hb with h | h <;> simp [Sized, h]
  have a := log2_small hl.2.2.2.1
  have c := log2_small hr.2.2.2.1
  have l1 := hl.2.2.1
  have l2 := hl.2.2.2.1
  have r1 := hr.2.2.1
  have r2 := hr.2.2.2.1
  have key : ∀ s : Ty, s = l ∨ s = r → op = .div ∨ op = .rem → 1 ≤ convertSize t.base s ∧ convertSize t.base s ≤ t.bits := by
    intro s hs' hop
    have e' : resultBitsize .div l.base l.bits r.base r.bits = some t.bits := by
      rcases hop with rfl | rfl <;> exact e
    rw [eb]
    rcases word_cases l1 l2 with ⟨q, q'⟩ | ⟨q, q'⟩ <;> rcases word_cases r1 r2 with ⟨p, p'⟩ | ⟨p, p'⟩ <;>
      rcases number_base nl with k | k | k <;> rcases number_base nr with k' | k' | k' <;>
      rw [k, k'] at e' <;>
      simp [resultBitsize, resultBitsizeCalc, calcBitsizeForResult, bitsizeToInt, q', p'] at e' <;>
      rcases hs' with rfl | rfl <;>
      simp [asUnsigned, k, k', convertSize, bitsizeToInt, bitsizeToUnsigned, q', p'] <;>
      (repeat' split at e') <;> (repeat' split) <;> omega
  cases op with
  | div =>
    obtain ⟨k1, k2⟩ := key l (Or.inl rfl) (Or.inl rfl)
    exact ⟨scalar_scalar hsz k1 (k2.trans hs.2.2.2.1), rfl, k2⟩
  | rem =>
    obtain ⟨k1, k2⟩ := key r (Or.inr rfl) (Or.inr rfl)
    exact ⟨scalar_scalar hsz k1 (k2.trans hs.2.2.2.1), rfl, k2⟩
  | add => exact ⟨hs, rfl, le_refl _⟩
  | sub => exact ⟨hs, rfl, le_refl _⟩
  | mul => exact ⟨hs, rfl, le_refl _⟩

end Ulam.Arith
