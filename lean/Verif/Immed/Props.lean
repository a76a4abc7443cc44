import Verif.Immed.Lemmas
import Verif.Immed.Spec
namespace Ulam.Immed
open Ulam.BaseCopy (rd wr num bitsOf)

/-! ## C125: whole values -/

/-- `read` gives the number that all the bits make, and it fits the C++ type. -/
theorem C125_read_partial (t : Ty) (st : List Bool) (ht : Sized t) (ho : ¬ Odd t)
    (hs : st.length = t.bits * t.arr.getD 1) :
    read t st = some (num st) ∧ num st < 2 ^ (tmpType t).width := by
  change st.length = total t at hs
  have hl := num_lt st
  by_cases h : total t ≤ 64
  · obtain ⟨w, h1, h2, h3⟩ := whole_small t h
    have hp : 2 ^ total t ≤ 2 ^ w := Nat.pow_le_pow_right (by omega) h2
    rw [hs] at hl
    refine ⟨?_, by rw [h3]; omega⟩
    simp only [read, if_pos h, readLen, h1, if_pos (And.intro h2 (show 0 + total t ≤ st.length by omega)),
      Option.map_some, h3, rd_all st _ hs]
    rw [Nat.mod_eq_of_lt (by omega)]
  · have hw : (tmpType t).width = total t := by
      rw [whole_large t ht.1 (by omega)]
      split
      · rename_i hq
        have : total t = 96 := by
          by_cases h96 : total t = 96
          · exact h96
          · exact absurd ⟨hq.1, by omega, by omega⟩ ho
        omega
      · rfl
    refine ⟨?_, by rw [hw, ← hs]; exact hl⟩
    simp only [read, if_neg h, readVec, hw]
    rw [if_pos (by omega), rd_all st _ hs]

/-- `write(v)` changes the storage to the bits of the number, and what is read
afterwards is the number as far as the bits go. -/
theorem C125_write_partial (t : Ty) (st : List Bool) (v : Nat) (ht : Sized t) (ho : ¬ Odd t)
    (hs : st.length = t.bits * t.arr.getD 1) :
    ∃ st', write t st v = some st' ∧ st'.length = st.length ∧
      num st' = v % 2 ^ st.length ∧ read t st' = some (v % 2 ^ st.length) := by
  have hs0 := hs
  change st.length = total t at hs
  have hr : (bitsOf (total t) v).length = t.bits * t.arr.getD 1 := bitsOf_length _ _
  have hread := (C125_read_partial t (bitsOf (total t) v) ht ho hr).1
  rw [num_bitsOf] at hread
  refine ⟨bitsOf (total t) v, ?_, by rw [bitsOf_length, hs], by rw [num_bitsOf, hs],
    by rw [hread, hs]⟩
  by_cases h : total t ≤ 64
  · obtain ⟨w, h1, h2, h3⟩ := whole_small t h
    simp only [write, if_pos h, writeLen, h1,
      if_pos (And.intro h2 (show 0 + total t ≤ st.length by omega))]
    rw [wr_all _ _ (by rw [bitsOf_length, hs])]
  · have hw : (if t.kind = .str then total t else (tmpType t).width) = total t := by
      split
      · rfl
      · rw [whole_large t ht.1 (by omega)]
        split
        · rename_i hq
          have : total t = 96 := by
            by_cases h96 : total t = 96
            · exact h96
            · exact absurd ⟨hq.1, by omega, by omega⟩ ho
          omega
        · rfl
    simp only [write, if_neg h, writeVec, hw]
    rw [if_pos (by omega), wr_all _ _ (by rw [bitsOf_length, hs])]

/-- The full claim is false: for every array of quarks of 65 to 95 bits the code
reads and writes 96 bits of a vector that has fewer. -/
theorem C125_quark_fails (t : Ty) (st : List Bool) (v : Nat) (ht : Sized t) (ho : Odd t)
    (hs : st.length = t.bits * t.arr.getD 1) : read t st = none ∧ write t st v = none := by
  change st.length = total t at hs
  obtain ⟨h1, h2, h3⟩ := ho
  have hw := whole_large t ht.1 h2
  rw [if_pos ⟨h1, by omega⟩] at hw
  constructor
  · simp only [read, if_neg (show ¬ total t ≤ 64 by omega), readVec, hw]
    rw [if_neg (by omega)]
  · simp only [write, if_neg (show ¬ total t ≤ 64 by omega), writeVec, hw, h1]
    simp; omega

/-! ## C126: items -/

/-- `readArrayItem` gives the number in the bits of the item. -/
theorem C126_read (t : Ty) (n i : Nat) (st : List Bool) (ht : Sized t)
    (hs : st.length = t.bits * n) (hi : i < n) :
    readItem t st i = some (num ((st.drop (i * t.bits)).take t.bits)) := by
  refine readItem_eq t st i ht.1 ?_
  have : (i + 1) * t.bits ≤ n * t.bits := Nat.mul_le_mul_right _ hi
  rw [Nat.add_mul] at this
  rw [hs, Nat.mul_comm t.bits n]
  omega

/-- `writeArrayItem` changes the one item to the value, as far as its bits go, and
no other item. -/
theorem C126_write (t : Ty) (n i v : Nat) (st : List Bool) (ht : Sized t)
    (hs : st.length = t.bits * n) (hi : i < n) :
    ∃ st', writeItem t st v i = some st' ∧ st'.length = st.length ∧
      readItem t st' i = some (v % 2 ^ t.bits) ∧
      (∀ j < n, j ≠ i → readItem t st' j = readItem t st j) ∧
      ∀ k, ¬(i * t.bits ≤ k ∧ k < (i + 1) * t.bits) → st'[k]? = st[k]? := by
  have fit : ∀ j < n, j * t.bits + t.bits ≤ st.length := by
    intro j hj
    have : (j + 1) * t.bits ≤ n * t.bits := Nat.mul_le_mul_right _ hj
    rw [Nat.add_mul] at this
    rw [hs, Nat.mul_comm t.bits n]
    omega
  have hbl := bitsOf_length t.bits v
  have hfi := fit i hi
  have hlen := BaseCopy.wr_length st (i * t.bits) (bitsOf t.bits v) (by omega)
  have hget := fun k => BaseCopy.wr_get st (i * t.bits) (bitsOf t.bits v) k (by omega)
  refine ⟨_, writeItem_eq t st v i ht.1 hfi, hlen, ?_, ?_, ?_⟩
  · rw [readItem_eq _ _ _ ht.1 (by omega)]
    congr 1
    rw [← num_bitsOf]
    congr 1
    apply List.ext_getElem?
    intro k
    rw [BaseCopy.rd_get]
    by_cases hk : k < t.bits
    · rw [if_pos hk, hget, if_pos (by omega)]; congr 1; omega
    · rw [if_neg hk, List.getElem?_eq_none (by omega)]
  · intro j hj hne
    rw [readItem_eq _ _ _ ht.1 (by rw [hlen]; exact fit j hj), readItem_eq _ _ _ ht.1 (fit j hj)]
    congr 2
    apply List.ext_getElem?
    intro k
    rw [BaseCopy.rd_get, BaseCopy.rd_get]
    by_cases hk : k < t.bits
    · rw [if_pos hk, if_pos hk, hget, if_neg]
      rw [hbl]
      rcases Nat.lt_or_gt_of_ne hne with h | h
      · have : (j + 1) * t.bits ≤ i * t.bits := Nat.mul_le_mul_right _ h
        rw [Nat.add_mul] at this
        omega
      · have : (i + 1) * t.bits ≤ j * t.bits := Nat.mul_le_mul_right _ h
        rw [Nat.add_mul] at this
        omega
    · rw [if_neg hk, if_neg hk]
  · intro k hk
    rw [hget, if_neg]
    rw [hbl]
    rw [Nat.add_mul] at hk
    omega

theorem join_num (b : Nat) : ∀ (n : Nat) (st : List Bool) (xs : List Nat), st.length = b * n →
    xs.length = n → (∀ i (h : i < xs.length), xs[i] = num (rd st (i * b) b)) →
    num st = join b xs := by
  intro n
  induction n with
  | zero =>
    intro st xs hs hx _
    cases xs with
    | nil =>
      have : st = [] := List.length_eq_zero_iff.1 (by simpa using hs)
      subst this; rfl
    | cons => simp at hx
  | succ n ih =>
    intro st xs hs hx h
    cases xs with
    | nil => simp at hx
    | cons x xs =>
      have hx' : xs.length = n := by simpa using hx
      have hs' : (st.drop b).length = b * n := by
        rw [List.length_drop, hs, Nat.mul_add]; omega
      have h0 := h 0 (by simp)
      simp only [List.getElem_cons_zero, rd, Nat.zero_mul, List.drop_zero] at h0
      have hrest := ih (st.drop b) xs hs' hx' (by
        intro i hi
        have := h (i + 1) (by simpa using hi)
        simp only [List.getElem_cons_succ] at this
        rw [this]
        unfold rd
        rw [List.drop_drop]
        congr 3
        ring)
      rw [join, ← hrest, hx', ← hs', h0, ← num_append, List.take_append_drop]

/-- The whole value is the items one after another. -/
theorem C126_join (t : Ty) (n : Nat) (st : List Bool) (xs : List Nat) (ht : Sized t)
    (hs : st.length = t.bits * n) (hx : xs.length = n)
    (h : ∀ i (hi : i < xs.length), readItem t st i = some xs[i]) :
    num st = join t.bits xs := by
  refine join_num t.bits n st xs hs hx fun i hi => ?_
  have := h i hi
  rw [C126_read t n i st ht hs (by omega)] at this
  injection this with this
  rw [← this]; rfl

/-! ## C127: constructors -/

theorem foldlM_range_succ {α : Type} (f : α → Nat → Option α) (n : Nat) (a : α) :
    (List.range (n + 1)).foldlM f a = ((List.range n).foldlM f a).bind fun x => f x n := by
  rw [List.range_succ, List.foldlM_append]
  simp only [List.foldlM_cons, List.foldlM_nil]
  cases (List.range n).foldlM f a with
  | none => rfl
  | some x =>
    show (f x n).bind some = f x n
    simp

/-- The constructor of a String array of up to three items from a 64-bit number
holds that number, as far as its bits go. -/
theorem C127_string (n dl : Nat) (st : List Bool) (hs : st.length = 18 * n) :
    ∃ st', strFromLong n dl st = some st' ∧ st'.length = st.length ∧
      num st' = dl % 2 ^ (18 * n) := by
  have key : ∀ k ≤ n, ∃ s, (List.range k).foldlM
      (fun s i => writeItem ⟨.str, 18, some n⟩ s ((dl >>> (18 * i)) % 2 ^ 32 % 2 ^ 18) (n - i - 1))
        st = some s ∧ s.length = st.length ∧ num (s.drop ((n - k) * 18)) = dl % 2 ^ (18 * k) := by
    intro k
    induction k with
    | zero =>
      intro _
      refine ⟨st, rfl, rfl, ?_⟩
      rw [List.drop_of_length_le (by omega)]
      simp [num, Nat.mod_one]
    | succ k ih =>
      intro hk
      obtain ⟨s, h1, h2, h3⟩ := ih (by omega)
      have hfit : (n - k - 1) * 18 + 18 ≤ s.length := by omega
      have hw := writeItem_eq ⟨.str, 18, some n⟩ s ((dl >>> (18 * k)) % 2 ^ 32 % 2 ^ 18)
        (n - k - 1) (by show 18 ≤ 64; decide) hfit
      refine ⟨_, by rw [foldlM_range_succ, h1, Option.bind_some, hw], ?_, ?_⟩
      · rw [BaseCopy.wr_length _ _ _ (by rw [bitsOf_length]; exact hfit), h2]
      · have e : n - (k + 1) = n - k - 1 := by omega
        have e2 : (n - k - 1) * 18 + 18 = (n - k) * 18 := by omega
        simp only at *
        rw [e, wr_drop _ _ _ (by rw [bitsOf_length]; exact hfit), bitsOf_length, e2, num_append,
          h3, num_bitsOf]
        have hl : (s.drop ((n - k) * 18)).length = 18 * k := by
          rw [List.length_drop, h2, hs]; omega
        rw [hl, Nat.mul_add, Nat.pow_add, Nat.mod_mul, Nat.shiftRight_eq_div_pow]
        have : dl / 2 ^ (18 * k) % 2 ^ 32 % 2 ^ 18 % 2 ^ 18 = dl / 2 ^ (18 * k) % 2 ^ (18 * 1) := by
          rw [Nat.mod_mod, Nat.mod_mod_of_dvd _ (by decide : (2 : Nat) ^ 18 ∣ 2 ^ 32)]
        rw [this]; ring
  obtain ⟨s, h1, h2, h3⟩ := key n (Nat.le_refl _)
  refine ⟨s, h1, h2, ?_⟩
  rw [Nat.sub_self, Nat.zero_mul, List.drop_zero] at h3
  exact h3

/-- The default constructor of a quark array puts the default into every item. -/
theorem C127_quark (bits n dq : Nat) (st : List Bool) (hb : bits ≤ 64)
    (hs : st.length = bits * n) :
    ∃ st', quarkDefault bits n dq st = some st' ∧ st'.length = st.length ∧
      ∀ i < n, readItem ⟨.quark, bits, some n⟩ st' i = some (dq % 2 ^ bits) := by
  have hsz : Sized ⟨.quark, bits, some n⟩ := ⟨hb, fun h => by cases h⟩
  have key : ∀ k ≤ n, ∃ s, (List.range k).foldlM
      (fun s j => writeItem ⟨.quark, bits, some n⟩ s dq j) st = some s ∧ s.length = st.length ∧
      ∀ i < k, readItem ⟨.quark, bits, some n⟩ s i = some (dq % 2 ^ bits) := by
    intro k
    induction k with
    | zero => intro _; exact ⟨st, rfl, rfl, by omega⟩
    | succ k ih =>
      intro hk
      obtain ⟨s, h1, h2, h3⟩ := ih (by omega)
      obtain ⟨s', w1, w2, w3, w4, _⟩ := C126_write ⟨.quark, bits, some n⟩ n k dq s hsz
        (by rw [h2, hs]) (by omega)
      refine ⟨s', by rw [foldlM_range_succ, h1, Option.bind_some, w1], by rw [w2, h2], ?_⟩
      intro i hi
      by_cases hik : i = k
      · subst hik; exact w3
      · rw [w4 i (by omega) hik]; exact h3 i (by omega)
  exact key n (Nat.le_refl _)

/-! ## C128: declarations and calls of `read` -/

/-- The copy constructor calls what the struct declares. -/
theorem C128_copy (t : Ty) : copyCall t ∈ immShapes t := by
  unfold copyCall immShapes
  by_cases h : total t ≤ 64
  · simp [h, Nat.not_lt.2 h]
  · simp [h, Nat.lt_of_not_le h]

/-- The constructor from a reference calls what the struct for references
declares, for scalars and for arrays of primitives of up to 64 bits. -/
theorem C128_ref_partial (t : Ty) (ht : Sized t)
    (h : t.arr = none ∨ (t.kind ≠ .quark ∧ t.bits * t.arr.getD 1 ≤ 64)) :
    refCall t ∈ refShapes t := by
  have ht' : t.kind ≠ .quark → t.bits * t.arr.getD 1 ≤ 64 := by
    intro _
    rcases h with h | h
    · rw [h]; simpa using ht.1
    · exact h.2
  unfold refCall refShapes total
  cases hk : t.kind with
  | prim => simp only; rw [if_neg (by have := ht' (by simp [hk]); omega)]; simp
  | str => simp only; rw [if_neg (by have := ht' (by simp [hk]); omega)]; simp
  | quark =>
    rcases h with h | h
    · simp [h]
    · exact absurd hk h.1

/-- The full claim is false: in all other cases the method that the constructor
calls is not declared. -/
theorem C128_ref_fails (t : Ty) (n : Nat) (hn : t.arr = some n)
    (h : t.kind = .quark ∨ 64 < t.bits * n) : refCall t ∉ refShapes t := by
  unfold refCall refShapes total
  cases hk : t.kind with
  | prim => simp [hn, hk] at h ⊢; omega
  | str => simp [hn, hk] at h ⊢; omega
  | quark => simp [hn]

/-- And the method declared for references to quark arrays of up to 64 bits leaves
the variable that it is to fill as it is, whatever the storage holds. -/
theorem C128_fill_fails (t : Ty) (st : List Bool) (pos var v : Nat)
    (h : t.bits * t.arr.getD 1 ≤ 64) (hv : refFill t st pos var = some v) : v = var := by
  unfold refFill at hv
  have hm : wholeMeth t = .word ∨ wholeMeth t = .long := by
    change total t ≤ 64 at h
    unfold wholeMeth methFor
    rcases wordSize_cases (total t) with h' | h' | h' | h' | h'
    · simp [h'.2]
    · simp [h'.2.2]
    · simp [h'.2.2]
    · omega
    · omega
  rcases hm with hm | hm <;> rw [hm] at hv <;> simp only [Option.map_eq_some_iff] at hv <;>
    obtain ⟨_, _, rfl⟩ := hv <;> rfl

/-! ## Cases -/

/-- Unsigned(5)[3]. -/
def exA : Ty := ⟨.prim, 5, some 3⟩
def exS : List Bool := [1,0,1,1,0, 0,0,0,1,1, 1,1,1,1,1].map (· == 1)
example : Sized exA ∧ ¬ Odd exA ∧ exS.length = exA.bits * exA.arr.getD 1 := by
  simp [Sized, Odd, exA, exS]
example : read exA exS = some (22 * 1024 + 3 * 32 + 31) := by decide
example : readItem exA exS 1 = some 3 := by decide
example : (writeItem exA exS 9 1).bind (read exA) = some (22 * 1024 + 9 * 32 + 31) := by decide
example : join 5 [22, 3, 31] = 22 * 1024 + 3 * 32 + 31 := by decide
/-- Quark of 40 bits, two of them: 80 bits. -/
example : Sized ⟨.quark, 40, some 2⟩ ∧ Odd ⟨.quark, 40, some 2⟩ := by
  simp [Sized, Odd, total]
example : tmpType ⟨.quark, 40, some 2⟩ = .bv96 := by decide
example : tmpType ⟨.prim, 40, some 2⟩ = .bv 80 := by decide
example : Sized ⟨.quark, 48, some 2⟩ ∧ ¬ Odd ⟨.quark, 48, some 2⟩ := by
  simp [Sized, Odd, total]
example : (strFromLong 2 (5 * 2 ^ 18 + 7) (List.replicate 36 false)).map num =
    some (5 * 2 ^ 18 + 7) := by decide +kernel
example : (quarkDefault 3 4 5 (List.replicate 12 false)).map num =
    some (5 * 512 + 5 * 64 + 5 * 8 + 5) := by decide
example : refCall ⟨.prim, 8, some 3⟩ ∈ refShapes ⟨.prim, 8, some 3⟩ := by decide
example : refFill ⟨.quark, 8, some 3⟩ (List.replicate 24 true) 0 0 = some 0 := by decide

end Ulam.Immed
