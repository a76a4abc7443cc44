import Verif.Cast.Spec
import Verif.Types.Lemmas
import Verif.Packed.Props
/-! # Helper lemmas for casts -/
namespace Ulam.Cast
open Ulam.Types Ulam.Types.Spec Spec
open Ulam.Packed (Bits getData getDataLong putData putDataLong readBits)

theorem word32 {l : Nat} (h1 : 1 ≤ l) : wordSize l ≤ 32 ↔ l ≤ 32 := by
  unfold wordSize; split <;> omega

theorem word_cases {l : Nat} (h1 : 1 ≤ l) (h2 : l ≤ 64) :
    (l ≤ 32 ∧ wordSize l = 32) ∨ (32 < l ∧ wordSize l = 64) := by
  unfold wordSize; split <;> omega

theorem write_read (len v : Nat) (h : len ≤ 96) :
    readBits (Packed.writeBits (fun _ => false) (96 - len) len v) (96 - len) len = v % 2 ^ len := by
  rw [Packed.readBits_eq]
  refine ⟨Nat.mod_lt _ (by positivity), fun j hj => ?_⟩
  simp only [Packed.writeBits]
  rw [if_pos (by omega), Nat.testBit_mod_two_pow]
  rw [show 96 - len + len - 1 - (96 - len + j) = len - 1 - j by omega]
  simp [show len - 1 - j < len by omega]

/-- What a stored value of a type reads as. -/
theorem make32 (t : Ty) (v : Nat) (h : t.bits ≤ 32) :
    ∃ b, makeImmediate t v = .ok b ∧ readBits b (96 - t.bits) t.bits = v % 2 ^ t.bits := by
  unfold makeImmediate putData
  rw [if_pos (by omega)]
  exact ⟨_, rfl, write_read _ _ (by omega)⟩

theorem make64 (t : Ty) (v : Nat) (h : t.bits ≤ 64) :
    ∃ b, makeImmediateLong t v = .ok b ∧ readBits b (96 - t.bits) t.bits = v % 2 ^ t.bits := by
  unfold makeImmediateLong putDataLong
  rw [if_pos (by omega)]
  exact ⟨_, rfl, write_read _ _ (by omega)⟩

/-- The word both sides of the compiler convert in. -/
def theWord (dst frm : Ty) : Nat := if dst.bits ≤ 32 ∧ frm.bits ≤ 32 then 32 else 64

/-- The data the evaluator stores. -/
def outcome (ext : Ext) (cnt : Nat) (dst frm : Ty) (raw : Nat) : Option Nat :=
  match (if theWord dst frm = 32 then how32 else how64) dst.base frm.base with
  | .bad => none
  | .keep => some raw
  | .call => some (ext ⟨frm.base, dst.base, theWord dst frm⟩ raw frm.bits dst.bits cnt)

theorem scalar_base {dst frm : Ty} (ht : Scalar dst) (hf : Scalar frm) : baseSafeCast dst frm = true := by
  obtain ⟨a1, a2, -⟩ := ht
  obtain ⟨b1, b2, -⟩ := hf
  simp [baseSafeCast, checkArrayCast, a1, b1, b2]

theorem not_void {t : Ty} (h : Scalar t) : t.base ≠ .void := by
  obtain ⟨-, -, -, -, h | h⟩ := h
  · rcases h with h | h | h | h | h <;> simp [h]
  · simp [h.1]

/-- The evaluator's two paths, put together. -/
theorem evalCast_eq (ext : Ext) (cnt : Nat) {dst frm : Ty} (ht : Scalar dst) (hf : Scalar frm) (b : Bits)
    (hs : ¬ (dst.base = .string ∧ 32 < frm.bits)) :
    match outcome ext cnt dst frm (readBits b (96 - frm.bits) frm.bits) with
    | some v => ∃ b', evalCast ext cnt dst frm b = .ok b' ∧ readBits b' (96 - dst.bits) dst.bits = v % 2 ^ dst.bits
    | none => evalCast ext cnt dst frm b = .fail := by
  have hbase := scalar_base ht hf
  have hv := not_void ht
  have hv' := not_void hf
  obtain ⟨-, -, t1, t2, tk⟩ := ht
  obtain ⟨-, -, f1, f2, fk⟩ := hf
  have g32 : frm.bits ≤ 32 → getData b (96 - frm.bits) frm.bits = some (readBits b (96 - frm.bits) frm.bits) := by
    intro h; unfold getData; rw [if_pos (by omega)]
  have g64 : getDataLong b (96 - frm.bits) frm.bits = some (readBits b (96 - frm.bits) frm.bits) := by
    unfold getDataLong; rw [if_pos (by omega)]
  unfold evalCast cast
  rw [if_neg hv', hbase]
  simp only [Bool.not_true, Bool.false_eq_true, if_false]
  rw [if_neg hv]
  by_cases hw : dst.bits ≤ 32 ∧ frm.bits ≤ 32
  · have e : theWord dst frm = 32 := by simp [theWord, hw]
    rw [if_pos ((word32 t1).2 hw.1), if_pos ((word32 f1).2 hw.2)]
    unfold castTo32 outcome
    rw [g32 hw.2, e]
    simp only [if_true]
    cases how32 dst.base frm.base with
    | bad => rfl
    | keep => exact make32 _ _ hw.1
    | call => exact make32 _ _ hw.1
  · have e : theWord dst frm = 64 := by simp only [theWord, if_neg hw]
    have hstr : dst.base ≠ .string := by
      intro h
      rcases tk with h' | h'
      · rcases h' with h' | h' | h' | h' | h' <;> rw [h] at h' <;> simp at h'
      · exact hs ⟨h, by omega⟩
    have h64 : castTo64 ext cnt dst frm b = (if wordSize dst.bits ≤ 32 then
        (if wordSize frm.bits ≤ 32 then castTo32 ext cnt dst frm b
          else if wordSize frm.bits ≤ 64 then castTo64 ext cnt dst frm b else .abort)
        else if wordSize dst.bits ≤ 64 then castTo64 ext cnt dst frm b else .fail) := by
      rcases word_cases t1 t2 with ⟨a, a'⟩ | ⟨a, a'⟩ <;> rcases word_cases f1 f2 with ⟨c, c'⟩ | ⟨c, c'⟩ <;>
        simp [a', c']
      exact absurd ⟨a, c⟩ hw
    rw [← h64]
    unfold castTo64 outcome
    rw [if_neg hstr]
    have hd : (if wordSize frm.bits ≤ 32 then getData b (96 - frm.bits) frm.bits
        else if wordSize frm.bits ≤ 64 then getDataLong b (96 - frm.bits) frm.bits else none) =
        some (readBits b (96 - frm.bits) frm.bits) := by
      rcases word_cases f1 f2 with ⟨c, c'⟩ | ⟨c, c'⟩
      · simp [c', g32 c]
      · simp [c', g64]
    rw [hd, e]
    have hstore : ∀ v, ∃ b', (if dst.base = .bits then makeImmediateLong dst v
        else if wordSize dst.bits ≤ 32 then makeImmediate dst v
        else if wordSize dst.bits ≤ 64 then makeImmediateLong dst v else .abort) = .ok b' ∧
        readBits b' (96 - dst.bits) dst.bits = v % 2 ^ dst.bits := by
      intro v
      by_cases hbt : dst.base = .bits
      · rw [if_pos hbt]; exact make64 _ _ t2
      · rw [if_neg hbt]
        rcases word_cases t1 t2 with ⟨a, a'⟩ | ⟨a, a'⟩
        · rw [if_pos (by omega)]; exact make32 _ _ a
        · rw [if_neg (by omega), if_pos (by omega)]; exact make64 _ _ t2
    simp only [show (64 : Nat) ≠ 32 by decide, if_false]
    cases how64 dst.base frm.base with
    | bad => rfl
    | keep => exact hstore _
    | call => exact hstore _

theorem castMethod_eq {dst frm : Ty} (ht : Scalar dst) (hf : Scalar frm) :
    castMethod dst frm = ⟨frm.base, dst.base, theWord dst frm⟩ := by
  obtain ⟨-, -, t1, t2, -⟩ := ht
  obtain ⟨-, -, f1, f2, -⟩ := hf
  unfold castMethod theWord
  rcases word_cases t1 t2 with ⟨a, a'⟩ | ⟨a, a'⟩ <;> rcases word_cases f1 f2 with ⟨c, c'⟩ | ⟨c, c'⟩ <;>
    simp [a', c'] <;> omega

theorem genCast_eq (ex c : Bool) {dst frm : Ty} (ht : Scalar dst) (hf : Scalar frm) (hs : dst.base = .string → frm.base = .bits)
    (hne : dst ≠ frm) : genCast ex c dst frm = .call ⟨frm.base, dst.base, theWord dst frm⟩ frm.bits dst.bits := by
  have hb : (dst.base ≠ frm.base) ∨ (dst.bits ≠ frm.bits) := by
    by_contra h
    push_neg at h
    apply hne
    obtain ⟨a1, a2, -⟩ := ht
    obtain ⟨b1, b2, -⟩ := hf
    cases dst; cases frm
    simp_all
  have hn : needsACast ex c dst frm = true := by
    unfold needsACast
    rw [if_neg hne]
    rcases hb with hb | hb <;> simp [hb]
  unfold genCast
  rw [hn]
  simp only [Bool.not_true, Bool.false_eq_true, if_false]
  rw [if_neg (not_void ht), if_neg (fun h => h.2 (hs h.1)), castMethod_eq ht hf]

theorem nearest_self {b : Base} {t : Nat} {v : Int} (h : InRange b t v) : Nearest b t v v :=
  ⟨h, fun u _ => by simp⟩

theorem nearest_exact {b : Base} {t : Nat} {v w : Int} (h : InRange b t v) (hn : Nearest b t v w) : w = v := by
  have := hn.2 v h
  simp at this
  omega

theorem number_inj {b : Base} {n r r' : Nat} (hb : b = .int ∨ b = .unsigned) (h : r < 2 ^ n) (h' : r' < 2 ^ n)
    (e : number b n r = number b n r') : r = r' := by
  have hc : ((2 ^ n : Nat) : Int) = 2 ^ n := by simp
  rcases hb with rfl | rfl
  · simp only [number, twos] at e
    split at e <;> split at e <;> omega
  · simpa [number] using e

end Ulam.Cast
