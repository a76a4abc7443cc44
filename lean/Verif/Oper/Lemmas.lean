import Verif.Oper.Spec
import Verif.Cast.Props
/-! # Helper lemmas for operators -/
namespace Ulam.Oper
open Ulam.Types hiding Sized
open Ulam.Types.Spec Spec
open Ulam.Cast (Ext Res makeImmediate makeImmediateLong cast evalCast genCast runGen Evaluable make32 make64 word_cases not_void
  nearest_exact number_inj)
open Ulam.Cast.Spec (Sized Scalar Carried Nearest)
open Ulam.Packed (Bits getData getDataLong putData putDataLong readBits getData_eq getDataLong_eq readBits_lt)

/-- The low bits of a longer read. -/
theorem readBits_low (b : Bits) (pos k n : Nat) : readBits b pos (k + n) % 2 ^ n = readBits b (pos + k) n := by
  induction n with
  | zero => simp [readBits, Nat.mod_one]
  | succ n ih =>
    have e : readBits b pos (k + (n + 1)) = 2 * readBits b pos (k + n) + (b (pos + (k + n))).toNat := rfl
    have e' : readBits b (pos + k) (n + 1) = 2 * readBits b (pos + k) n + (b (pos + k + n)).toNat := rfl
    rw [e, e', ← ih, Nat.add_assoc]
    generalize readBits b pos (k + n) = x
    have hb : (b (pos + (k + n))).toNat < 2 := by cases b (pos + (k + n)) <;> simp
    generalize (b (pos + (k + n))).toNat = c at hb ⊢
    rw [Nat.pow_succ, Nat.mul_comm (2 ^ n) 2, Nat.mod_mul]
    have e1 : (2 * x + c) / 2 = x := by omega
    have e2 : (2 * x + c) % 2 = c := by omega
    rw [e1, e2]
    omega

theorem readBits_tail (b : Bits) {w n : Nat} (h : n ≤ w) (hw : w ≤ 96) :
    readBits b (96 - w) w % 2 ^ n = readBits b (96 - n) n := by
  have := readBits_low b (96 - w) (w - n) n
  rw [show w - n + n = w by omega, show 96 - w + (w - n) = 96 - n by omega] at this
  exact this

/-- The evaluator's cast between sized kinds, as `cast` itself. -/
theorem cast_ok {ext : Ext} {cnt : Nat} {valid : Nat → Bool} (hx : Cast.Spec.Faithful ext cnt valid) {dst frm : Ty}
    (ht : Scalar dst) (hf : Scalar frm) (h1 : Sized dst.base) (h2 : Sized frm.base) (b : Bits) :
    ∃ b', cast ext cnt dst frm b = .ok b' ∧
      Carried valid dst.base dst.bits (readBits b' (96 - dst.bits) dst.bits) frm.base frm.bits
        (readBits b (96 - frm.bits) frm.bits) := by
  have := Cast.C67_evaluated_partial hx dst frm ht hf (Or.inl ⟨h1, h2⟩) b
  unfold evalCast at this
  rw [if_neg (not_void hf)] at this
  exact this

/-- There and back: the data the constant is compared with. -/
theorem back32 {lib : Lib} {cnt : Nat} {valid : Nat → Bool} (hx : Faithful lib cnt valid) {dst ty : Ty}
    (ht : Scalar dst) (hf : Scalar ty) (h1 : Sized dst.base) (h2 : Sized ty.base) (hb : ty.bits ≤ 32) (data : Nat) :
    ∃ c m, forthBack lib cnt dst ty data = some c ∧ m < 2 ^ dst.bits ∧
      Carried valid dst.base dst.bits m ty.base ty.bits (data % 2 ^ ty.bits) ∧
      Carried valid ty.base ty.bits (c % 2 ^ ty.bits) dst.base dst.bits m := by
  obtain ⟨b, e, e'⟩ := make32 ty data hb
  obtain ⟨b1, e1, c1⟩ := cast_ok hx.ext ht hf h1 h2 b
  obtain ⟨b2, e2, c2⟩ := cast_ok hx.ext hf ht h2 h1 b1
  rw [e'] at c1
  refine ⟨readBits b2 (96 - 32) 32, _, ?_, readBits_lt _ _ _, c1, ?_⟩
  · unfold forthBack
    simp only [e, e1, e2]
    exact getData_eq _ (by decide) (by decide)
  · rw [readBits_tail b2 hb (by decide)]; exact c2

theorem back64 {lib : Lib} {cnt : Nat} {valid : Nat → Bool} (hx : Faithful lib cnt valid) {dst ty : Ty}
    (ht : Scalar dst) (hf : Scalar ty) (h1 : Sized dst.base) (h2 : Sized ty.base) (data : Nat) :
    ∃ c m, forthBackLong lib cnt dst ty data = some c ∧ m < 2 ^ dst.bits ∧
      Carried valid dst.base dst.bits m ty.base ty.bits (data % 2 ^ ty.bits) ∧
      Carried valid ty.base ty.bits (c % 2 ^ ty.bits) dst.base dst.bits m := by
  have hb := hf.2.2.2.1
  obtain ⟨b, e, e'⟩ := make64 ty data hb
  obtain ⟨b1, e1, c1⟩ := cast_ok hx.ext ht hf h1 h2 b
  obtain ⟨b2, e2, c2⟩ := cast_ok hx.ext hf ht h2 h1 b1
  rw [e'] at c1
  refine ⟨readBits b2 (96 - 64) 64, _, ?_, readBits_lt _ _ _, c1, ?_⟩
  · unfold forthBackLong
    simp only [e, e1, e2]
    exact getDataLong_eq _ (by decide) (by decide)
  · rw [readBits_tail b2 hb (by decide)]; exact c2

theorem word_or (n t : Nat) (n1 : 1 ≤ n) (n2 : n ≤ 64) (t1 : 1 ≤ t) (t2 : t ≤ 64) :
    ∃ w, (w = 32 ∨ w = 64) ∧ n ≤ w ∧ t ≤ w ∧
      ∀ lib cnt dst ty uval, dst.bits = t → ty.bits = n →
        fitsInBits lib cnt dst ty uval = fitsWord lib cnt w dst ty uval := by
  rcases word_cases n1 n2 with ⟨a, a'⟩ | ⟨a, a'⟩ <;> rcases word_cases t1 t2 with ⟨c, c'⟩ | ⟨c, c'⟩
  · exact ⟨32, Or.inl rfl, a, c, fun lib cnt dst ty u h h' => by simp [fitsInBits, h, h', a', c']⟩
  · exact ⟨64, Or.inr rfl, by omega, t2,
      fun lib cnt dst ty u h h' => by simp [fitsInBits, h, h', a', c']⟩
  · exact ⟨64, Or.inr rfl, n2, by omega, fun lib cnt dst ty u h h' => by simp [fitsInBits, h, h', a', c']⟩
  · exact ⟨64, Or.inr rfl, n2, t2, fun lib cnt dst ty u h h' => by simp [fitsInBits, h, h', a', c']⟩

/-- The data the test starts from: the constant itself, or a `Unary` put in order. -/
def start (lib : Lib) (cnt w : Nat) (ty : Ty) (uval : Nat) : Nat :=
  if ty.base = .unary then lib.ext ⟨.unary, .unary, w⟩ (uval % 2 ^ w) ty.bits ty.bits cnt else uval % 2 ^ w

theorem fitsWord_eq {lib : Lib} {cnt : Nat} {valid : Nat → Bool} (hx : Faithful lib cnt valid) {dst ty : Ty}
    (ht : Scalar dst) (hf : Scalar ty) (h1 : Sized dst.base) (h2 : Numeric ty.base ∨ ty.base = .bits) {w : Nat}
    (hw : w = 32 ∨ w = 64) (hn : ty.bits ≤ w) (uval : Nat) :
    ∃ c m x, fitsWord lib cnt w dst ty uval = some x ∧ m < 2 ^ dst.bits ∧ c < 2 ^ ty.bits ∧
      Carried valid dst.base dst.bits m ty.base ty.bits (start lib cnt w ty uval % 2 ^ ty.bits) ∧
      Carried valid ty.base ty.bits c dst.base dst.bits m ∧
      x = compared .eq ty.base ty.bits (start lib cnt w ty uval % 2 ^ ty.bits) ty.base ty.bits c := by
  have hs : Sized ty.base := by
    rcases h2 with h | h
    · rcases h with h | h | h <;> simp [Sized, h]
    · simp [Sized, h]
  have n1 := hf.2.2.1
  obtain ⟨c, m, e, hm, c1, c2⟩ : ∃ c m, (if w = 32 then forthBack lib cnt dst ty else forthBackLong lib cnt dst ty)
        (start lib cnt w ty uval) = some c ∧ m < 2 ^ dst.bits ∧
      Carried valid dst.base dst.bits m ty.base ty.bits (start lib cnt w ty uval % 2 ^ ty.bits) ∧
      Carried valid ty.base ty.bits (c % 2 ^ ty.bits) dst.base dst.bits m := by
    rcases hw with rfl | rfl
    · exact back32 hx ht hf h1 hs hn _
    · exact back64 hx ht hf h1 hs _
  refine ⟨c % 2 ^ ty.bits, m, lib.cbool w (lib.cmp .eq ty.base w (start lib cnt w ty uval) c ty.bits) 1, ?_, hm,
    Nat.mod_lt _ (by positivity), c1, c2, ?_⟩
  · unfold fitsWord
    rcases h2 with (h | h | h) | h <;> simp only [start, h] at e ⊢ <;>
      simp only [reduceCtorEq, if_true, if_false] at e ⊢ <;> rw [e] <;> rfl
  · rw [hx.cbool w 1 hw (le_refl 1) (by omega), pow_one]
    rw [hx.cmp .eq ty.base w ty.bits (h2.elim Or.inl fun h => Or.inr ⟨Or.inr h, Or.inl rfl⟩) hw n1 hn]
    generalize compared .eq ty.base ty.bits (start lib cnt w ty uval % 2 ^ ty.bits) ty.base ty.bits (c % 2 ^ ty.bits) = z
    cases z <;> decide

/-- Numbers between 0 and a value are nearer than it: the clamp cannot be undone. -/
theorem nearest_range {b : Base} (hb : Numeric b) {t : Nat} (t1 : 1 ≤ t) {v w : Int} (h : Nearest b t v w) :
    (0 ≤ w ∧ w ≤ v) ∨ (v ≤ w ∧ w ≤ 0) ∨ w = v := by
  have h0 : InRange b t 0 := by
    have h1 : (1 : Int) ≤ 2 ^ (t - 1) := by exact_mod_cast Nat.one_le_two_pow
    have h2 : (1 : Int) ≤ 2 ^ t := by exact_mod_cast Nat.one_le_two_pow
    rcases hb with rfl | rfl | rfl <;> simp only [InRange] <;> omega
  obtain ⟨hin, hn⟩ := h
  by_cases hv : InRange b t v
  · right; right; exact nearest_exact hv ⟨hin, hn⟩
  · have e0 := hn 0 h0
    have lohi := (Cast.inRange_iff hb t w).mp hin
    have lohi0 := (Cast.inRange_iff hb t 0).mp h0
    have lohiv := mt (Cast.inRange_iff hb t v).mpr hv
    have r1 := hn (Cast.lo b t) ((Cast.inRange_iff hb t _).mpr (by omega))
    have r2 := hn (Cast.hi b t) ((Cast.inRange_iff hb t _).mpr (by omega))
    omega

theorem in_between {b : Base} (hb : Numeric b) {n : Nat} (n1 : 1 ≤ n) {v w : Int} (hv : InRange b n v)
    (h : (0 ≤ w ∧ w ≤ v) ∨ (v ≤ w ∧ w ≤ 0)) : InRange b n w := by
  have h1 : (1 : Int) ≤ 2 ^ (n - 1) := by exact_mod_cast Nat.one_le_two_pow
  have h2 : (1 : Int) ≤ 2 ^ n := by exact_mod_cast Nat.one_le_two_pow
  rcases hb with rfl | rfl | rfl <;> simp only [InRange] at hv ⊢ <;> omega

end Ulam.Oper
