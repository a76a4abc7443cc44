import Verif.Immed.Model
import Verif.BaseCopy.Lemmas
import Mathlib.Tactic.Ring
namespace Ulam.Immed
open Ulam.BaseCopy (rd wr num bitsOf)

theorem num_lt (l : List Bool) : num l < 2 ^ l.length := by
  induction l with
  | nil => simp [num]
  | cons b l ih =>
    simp only [num, List.length_cons, Nat.pow_succ]
    split <;> omega

theorem num_append (a b : List Bool) : num (a ++ b) = num a * 2 ^ b.length + num b := by
  induction a with
  | nil => simp [num]
  | cons x a ih =>
    simp only [List.cons_append, num, ih, List.length_append, Nat.pow_add]
    split <;> ring

theorem bitsOf_length (n v : Nat) : (bitsOf n v).length = n := by
  induction n with
  | zero => rfl
  | succ n ih => simp [bitsOf, ih]

theorem num_bitsOf (n v : Nat) : num (bitsOf n v) = v % 2 ^ n := by
  induction n with
  | zero => simp [bitsOf, num, Nat.mod_one]
  | succ n ih =>
    simp only [bitsOf, num, ih, bitsOf_length, Nat.pow_succ, Nat.mod_mul, decide_eq_true_eq]
    split
    · rename_i h; rw [h]; omega
    · rename_i h
      have : v / 2 ^ n % 2 = 0 := by omega
      rw [this]; omega

theorem num_inj {a b : List Bool} (hl : a.length = b.length) (h : num a = num b) : a = b := by
  induction a generalizing b with
  | nil => cases b with
    | nil => rfl
    | cons => simp at hl
  | cons x a ih => cases b with
    | nil => simp at hl
    | cons y b =>
      have hl' : a.length = b.length := by simpa using hl
      have h1 := num_lt a
      have h2 := num_lt b
      simp only [num] at h
      rw [hl'] at h h1
      cases x <;> cases y <;> simp at h
      · rw [ih hl' h]
      · omega
      · omega
      · rw [ih hl' h]

theorem rd_all (st : List Bool) (n : Nat) (h : st.length = n) : rd st 0 n = st := by
  subst h; simp [rd]

theorem wr_all (st v : List Bool) (h : v.length = st.length) : wr st 0 v = v := by
  simp [wr, h]

/-- The word sizes that matter. -/
theorem wordSize_cases (l : Nat) :
    (l = 0 ∧ wordSize l = 0) ∨ (0 < l ∧ l ≤ 32 ∧ wordSize l = 32) ∨
      (32 < l ∧ l ≤ 64 ∧ wordSize l = 64) ∨ (64 < l ∧ l ≤ 96 ∧ wordSize l = 96) ∨
      (96 < l ∧ 96 < wordSize l) := by
  unfold wordSize
  split <;> omega

theorem item_small (t : Ty) (h : t.bits ≤ 64) :
    ∃ w, (itemMeth t).max = some w ∧ t.bits ≤ w ∧ (itemType t).width = w := by
  unfold itemMeth itemType methFor typeFor
  rcases wordSize_cases t.bits with h' | h' | h' | h' | h'
  · exact ⟨32, by simp [h'.2, Meth.max], by omega, by simp [h'.2, CType.width]⟩
  · exact ⟨32, by simp [h'.2.2, Meth.max], by omega, by simp [h'.2.2, CType.width]⟩
  · exact ⟨64, by simp [h'.2.2, Meth.max], by omega, by simp [h'.2.2, CType.width]⟩
  · omega
  · omega

theorem whole_small (t : Ty) (h : total t ≤ 64) :
    ∃ w, (wholeMeth t).max = some w ∧ total t ≤ w ∧ (tmpType t).width = w := by
  unfold wholeMeth tmpType methFor typeFor
  rcases wordSize_cases (total t) with h' | h' | h' | h' | h'
  · exact ⟨32, by simp [h'.2, Meth.max], by omega, by simp [h'.2, CType.width]⟩
  · exact ⟨32, by simp [h'.2.2, Meth.max], by omega, by simp [h'.2.2, CType.width]⟩
  · exact ⟨64, by simp [h'.2.2, Meth.max], by omega, by simp [h'.2.2, CType.width]⟩
  · omega
  · omega

/-- More than 64 bits: a vector of exactly the bits of the value, but 96 bits for
quarks of 65 to 96. -/
theorem whole_large (t : Ty) (hb : t.bits ≤ 64) (h : 64 < total t) :
    (tmpType t).width = if t.kind = .quark ∧ total t ≤ 96 then 96 else total t := by
  have hne : wordSize (total t) ≠ wordSize t.bits := by
    rcases wordSize_cases t.bits with h1 | h1 | h1 | h1 | h1 <;>
      rcases wordSize_cases (total t) with h2 | h2 | h2 | h2 | h2 <;> omega
  unfold tmpType typeFor
  rcases wordSize_cases (total t) with h' | h' | h' | h' | h'
  · omega
  · omega
  · omega
  · rw [h'.2.2] at hne ⊢
    simp only [hne]
    cases hk : t.kind <;> simp [CType.width, h'.2.1]
  · rw [if_neg (by omega), if_neg (by omega), if_neg (by omega), if_neg hne]
    rw [if_neg (by omega)]
    rfl

theorem readItem_eq (t : Ty) (st : List Bool) (i : Nat) (hb : t.bits ≤ 64)
    (hi : i * t.bits + t.bits ≤ st.length) :
    readItem t st i = some (num (rd st (i * t.bits) t.bits)) := by
  obtain ⟨w, h1, h2, h3⟩ := item_small t hb
  have hl := num_lt (rd st (i * t.bits) t.bits)
  rw [BaseCopy.rd_length _ _ _ hi] at hl
  have : 2 ^ t.bits ≤ 2 ^ w := Nat.pow_le_pow_right (by omega) h2
  simp only [readItem, readLen, h1, if_pos (And.intro h2 hi), Option.map_some, h3]
  rw [Nat.mod_eq_of_lt (by omega)]

theorem writeItem_eq (t : Ty) (st : List Bool) (v i : Nat) (hb : t.bits ≤ 64)
    (hi : i * t.bits + t.bits ≤ st.length) :
    writeItem t st v i = some (wr st (i * t.bits) (bitsOf t.bits v)) := by
  obtain ⟨w, h1, h2, h3⟩ := item_small t hb
  simp only [writeItem, writeLen, h1, if_pos (And.intro h2 hi)]

theorem wr_drop (st : List Bool) (p : Nat) (v : List Bool) (h : p + v.length ≤ st.length) :
    (wr st p v).drop p = v ++ st.drop (p + v.length) := by
  unfold wr
  have ht : (st.take p).length = p := by simp; omega
  rw [List.append_assoc, List.drop_append, ht]
  simp

theorem wr_take (st : List Bool) (p : Nat) (v : List Bool) (h : p + v.length ≤ st.length) :
    (wr st p v).take (p + v.length) = st.take p ++ v := by
  unfold wr
  have ht : (st.take p).length = p := by simp; omega
  rw [List.take_append_of_le_length (by simp; omega), List.take_of_length_le (by simp)]

end Ulam.Immed
