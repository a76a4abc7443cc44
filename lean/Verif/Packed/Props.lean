import Verif.Packed.Spec
import Mathlib.Tactic.Ring
import Mathlib.Tactic.Linarith
/- Properties C33 (items are independent), C56 (subscripts) and C57 (copies of arrays). -/
namespace Ulam.Packed

/-! ### Numbers in bits -/

theorem readBits_lt (b : Bits) (pos len : Nat) : readBits b pos len < 2 ^ len := by
  induction len with
  | zero => simp [readBits]
  | succ n ih =>
    simp only [readBits, Nat.pow_succ]
    have : (b (pos + n)).toNat ≤ 1 := by cases b (pos + n) <;> simp
    omega

theorem readBits_holds (b : Bits) (pos len : Nat) : Holds b pos len (readBits b pos len) := by
  refine ⟨readBits_lt b pos len, ?_⟩
  induction len with
  | zero => intro j hj; omega
  | succ n ih =>
    intro j hj
    simp only [readBits]
    by_cases hjn : j = n
    · subst hjn
      rw [show j + 1 - 1 - j = 0 by omega]
      rw [Nat.testBit_zero]
      cases b (pos + j) <;> simp <;> omega
    · rw [ih j (by omega), show n + 1 - 1 - j = (n - 1 - j) + 1 by omega, Nat.testBit_succ]
      congr 1
      cases b (pos + n) <;> simp <;> omega

theorem Holds.unique {b : Bits} {pos len v w : Nat} (h : Holds b pos len v) (h' : Holds b pos len w) : v = w := by
  apply Nat.eq_of_testBit_eq
  intro i
  by_cases hi : i < len
  · have h1 := h.2 (len - 1 - i) (by omega)
    have h2 := h'.2 (len - 1 - i) (by omega)
    rw [show len - 1 - (len - 1 - i) = i by omega] at h1 h2
    rw [← h1, ← h2]
  · rw [Nat.testBit_lt_two_pow (Nat.lt_of_lt_of_le h.1 (Nat.pow_le_pow_right (by decide) (by omega))),
      Nat.testBit_lt_two_pow (Nat.lt_of_lt_of_le h'.1 (Nat.pow_le_pow_right (by decide) (by omega)))]

theorem readBits_eq {b : Bits} {pos len v : Nat} : readBits b pos len = v ↔ Holds b pos len v :=
  ⟨fun h => h ▸ readBits_holds b pos len, fun h => (readBits_holds b pos len).unique h⟩

theorem Holds.congr {b b' : Bits} {pos len v : Nat} (h : Holds b pos len v)
    (hb : ∀ j, pos ≤ j → j < pos + len → b' j = b j) : Holds b' pos len v :=
  ⟨h.1, fun j hj => by rw [hb _ (by omega) (by omega)]; exact h.2 j hj⟩

theorem writeBits_holds (b : Bits) (pos len v : Nat) (hv : v < 2 ^ len) : Holds (writeBits b pos len v) pos len v := by
  refine ⟨hv, fun j hj => ?_⟩
  simp only [writeBits]
  rw [if_pos (by omega)]
  congr 1
  omega

theorem writeBits_other (b : Bits) (pos len v i : Nat) (h : i < pos ∨ pos + len ≤ i) : writeBits b pos len v i = b i := by
  simp only [writeBits]
  rw [if_neg (by omega)]

theorem getData_eq (b : Bits) {pos len : Nat} (h : len ≤ 32) (h' : pos + len ≤ 96) :
    getData b pos len = some (readBits b pos len) := if_pos ⟨h, h'⟩

theorem getDataLong_eq (b : Bits) {pos len : Nat} (h : len ≤ 64) (h' : pos + len ≤ 96) :
    getDataLong b pos len = some (readBits b pos len) := if_pos ⟨h, h'⟩

theorem putData_eq (b : Bits) {pos len : Nat} (v : Nat) (h : len ≤ 32) (h' : pos + len ≤ 96) :
    putData b pos len v = some (writeBits b pos len v) := if_pos ⟨h, h'⟩

theorem putDataLong_eq (b : Bits) {pos len : Nat} (v : Nat) (h : len ≤ 64) (h' : pos + len ≤ 96) :
    putDataLong b pos len v = some (writeBits b pos len v) := if_pos ⟨h, h'⟩

/-! ### Places of items -/

theorem mul_le_of_lt {i n : Nat} (h : i < n) (b : Nat) : i * b + b ≤ n * b := by
  calc i * b + b = (i + 1) * b := by ring
    _ ≤ n * b := Nat.mul_le_mul_right _ h

theorem items_apart {i k b : Nat} (h : i ≠ k) : i * b + b ≤ k * b ∨ k * b + b ≤ i * b := by
  rcases Nat.lt_or_gt_of_ne h with h | h
  · exact .inl (mul_le_of_lt h b)
  · exact .inr (mul_le_of_lt h b)

theorem scalarPtr_placed {t : Ty} {p : Ptr} (h : Placed t p) (hn : 0 < t.n) :
    scalarPtr t p = some ⟨p.pos, t.bits, packable (t.n * t.bits), true⟩ := by
  have h1 := h.inside
  have h2 := mul_le_of_lt hn t.bits
  have h3 := h.pos0
  simp only [scalarPtr, makePtr]
  rw [if_neg (by omega), if_pos (by omega), Nat.mul_comm]

theorem increment_item {t : Ty} {p : Ptr} (h : Placed t p) (pk : Pack) (sc : Bool) {i : Nat} (hi : i ≤ t.n) :
    increment ⟨p.pos, t.bits, pk, sc⟩ i =
      (⟨p.pos + i * t.bits, t.bits, pk, sc⟩, decide (p.pos + i * t.bits < 96)) := by
  have h1 := h.inside
  have h2 : i * t.bits ≤ t.n * t.bits := Nat.mul_le_mul_right _ hi
  have h3 : (((p.pos : Int) + (t.bits : Int) * (i : Int)) % 256).toNat = p.pos + i * t.bits := by
    have : (p.pos : Int) + (t.bits : Int) * (i : Int) = ((p.pos + i * t.bits : Nat) : Int) := by
      rw [Int.mul_comm]; push_cast; rfl
    rw [this]
    omega
  simp only [increment, h3]

theorem item_lt {t : Ty} {p : Ptr} (h : Placed t p) (hb : 0 < t.bits) {i : Nat} (hi : i < t.n) :
    p.pos + i * t.bits < 96 := by
  have h1 := h.inside
  have h2 := mul_le_of_lt hi t.bits
  omega

/-- Reading at a subscript of the array gives the item. -/
theorem getValAt_item {t : Ty} {p : Ptr} (h : Placed t p) (hb : 0 < t.bits) (hb' : t.bits ≤ 64) (b : Bits) {i : Nat}
    (hi : i < t.n) : getValAt t p b i = some (readBits b (p.pos + i * t.bits) t.bits) := by
  have h1 := h.inside
  have h2 := mul_le_of_lt hi t.bits
  simp only [getValAt, scalarPtr_placed h (by omega), Option.bind_some, increment_item h _ _ (Nat.le_of_lt hi)]
  rw [if_pos (by simpa using item_lt h hb hi)]
  simp only [getAt, getData, getDataLong]
  by_cases h32 : t.bits ≤ 32
  · rw [if_pos h32, if_pos ⟨h32, by omega⟩]
  · rw [if_neg h32, if_pos hb', if_pos ⟨hb', by omega⟩]

theorem getValAt_iff {t : Ty} {p : Ptr} (h : Placed t p) (hb : 0 < t.bits) (hb' : t.bits ≤ 64) (b : Bits) {i : Nat}
    (hi : i < t.n) (v : Nat) : getValAt t p b i = some v ↔ Item t p.pos b i v := by
  rw [getValAt_item h hb hb' b hi, Option.some.injEq, readBits_eq]
  rfl

theorem storeSub_item {t : Ty} {p : Ptr} (h : Placed t p) (hb : 0 < t.bits) {i : Nat} (hi : i < t.n) :
    storeSub t p i = .ok ⟨p.pos + i * t.bits, t.bits, packable (t.n * t.bits), true⟩ := by
  simp only [storeSub, scalarPtr_placed h (by omega), increment_item h _ _ (Nat.le_of_lt hi)]
  rw [if_pos (by simpa using item_lt h hb hi)]

theorem putItem_eq (cls : Bool) (q : Ptr) (data b : Bits) (v : Nat) (hl : q.len ≤ 64) (hp : q.pos + q.len ≤ 96)
    (hd : Holds data (immPos cls q.len) q.len v) : putItem cls q data b = some (writeBits b q.pos q.len v) := by
  have hi : immPos cls q.len + q.len ≤ 96 := by
    unfold immPos
    cases cls <;> simp <;> omega
  simp only [putItem]
  by_cases h32 : q.len ≤ 32
  · rw [if_pos h32]
    rw [getData_eq _ h32 (hi), Option.bind_some, putData_eq _ _ h32 (hp), readBits_eq.mpr hd]
  · rw [if_neg h32, if_pos hl]
    rw [getDataLong_eq _ hl (hi), Option.bind_some, putDataLong_eq _ _ hl (hp), readBits_eq.mpr hd]

/-- What a store to item `i` should do: the item has the new value, all other items and all other bits
stay. -/
def Stored (t : Ty) (pos : Nat) (b b' : Bits) (i v : Nat) : Prop :=
  Item t pos b' i v ∧ (∀ k, k < t.n → k ≠ i → ∀ w, Item t pos b' k w ↔ Item t pos b k w) ∧
    ∀ j, j < pos ∨ pos + t.n * t.bits ≤ j → b' j = b j

theorem stored_write (t : Ty) (pos : Nat) (b : Bits) (i v : Nat) (hi : i < t.n) (hv : v < 2 ^ t.bits) :
    Stored t pos b (writeBits b (pos + i * t.bits) t.bits v) i v := by
  refine ⟨writeBits_holds _ _ _ _ hv, fun k hk hki w => ?_, fun j hj => ?_⟩
  · have hap := items_apart (b := t.bits) hki
    constructor
    · intro h
      exact h.congr fun j h1 h2 => (writeBits_other _ _ _ _ _ (by omega)).symm
    · intro h
      exact h.congr fun j h1 h2 => writeBits_other _ _ _ _ _ (by omega)
  · have := mul_le_of_lt hi t.bits
    exact writeBits_other _ _ _ _ _ (by omega)

/-- Property C33, for arrays of at most 64 bits, in a variable on a stack or in the event window: storing
at a subscript in range succeeds, the item read back is the value stored, the other items and all bits
outside of the array stay.  (Arrays of 65 to 71 bits: `C33_window_packed` and `C33_stack_clobbered`.) -/
theorem C33_items_independent_partial (t : Ty) (p : Ptr) (h : Placed t p) (hb : 0 < t.bits) (htot : t.n * t.bits ≤ 64)
    (data b : Bits) (i v : Nat) (hi : i < t.n) (hd : Holds data (immPos t.cls t.bits) t.bits v) :
    ∃ q b', storeSub t p i = .ok q ∧ stackAssign t q data b = some b' ∧ windowAssign t q data b = some b' ∧
      Stored t p.pos b b' i v ∧ getValAt t p b' i = some v ∧
      ∀ k, k < t.n → k ≠ i → getValAt t p b' k = getValAt t p b k := by
  have hb' : t.bits ≤ 64 := by have := mul_le_of_lt hi t.bits; omega
  have hin : p.pos + i * t.bits + t.bits ≤ 96 := by
    have h1 := h.inside
    have h2 := mul_le_of_lt hi t.bits
    omega
  have hst := stored_write t p.pos b i v hi hd.1
  have hpk : packable (t.n * t.bits) = .loadable := by simp [packable, htot]
  have hput := putItem_eq t.cls ⟨p.pos + i * t.bits, t.bits, .loadable, true⟩ data b v hb' hin hd
  refine ⟨_, _, storeSub_item h hb hi, ?_, ?_, hst, ?_, fun k hk hki => ?_⟩
  · simp only [hpk, stackAssign, putDataIntoAtom]
    exact hput
  · simp only [hpk, windowAssign, putDataIntoAtom]
    exact hput
  · exact (getValAt_iff h hb hb' _ hi v).mpr hst.1
  · rw [getValAt_item h hb hb' b hk]
    exact (getValAt_iff h hb hb' _ hk _).mpr ((hst.2.1 k hk hki _).mpr (readBits_holds _ _ _))

/-- Property C33, for arrays of 65 to 71 bits that are members of an atom in the event window. -/
theorem C33_window_packed (t : Ty) (p : Ptr) (h : Placed t p) (hb : 0 < t.bits) (hb' : t.bits ≤ 64)
    (htot : 64 < t.n * t.bits) (htot' : t.n * t.bits ≤ 71)
    (data b : Bits) (i v : Nat) (hi : i < t.n) (hd : Holds data (immPos t.cls t.bits) t.bits v) :
    ∃ q b', storeSub t p i = .ok q ∧ windowAssign t q data b = some b' ∧
      Stored t p.pos b b' i v ∧ getValAt t p b' i = some v ∧
      ∀ k, k < t.n → k ≠ i → getValAt t p b' k = getValAt t p b k := by
  have hin : p.pos + i * t.bits + t.bits ≤ 96 := by
    have h1 := h.inside
    have h2 := mul_le_of_lt hi t.bits
    omega
  have hst := stored_write t p.pos b i v hi hd.1
  have hpk : packable (t.n * t.bits) = .packed := by simp [packable, htot', Nat.not_le.mpr htot]
  have hput := putItem_eq t.cls ⟨p.pos + i * t.bits, t.bits, .packed, true⟩ data b v hb' hin hd
  refine ⟨_, _, storeSub_item h hb hi, ?_, hst, ?_, fun k hk hki => ?_⟩
  · simp only [hpk, windowAssign, putDataIntoAtom, if_true]
    exact hput
  · exact (getValAt_iff h hb hb' _ hi v).mpr hst.1
  · rw [getValAt_item h hb hb' b hk]
    exact (getValAt_iff h hb hb' _ hk _).mpr ((hst.2.1 k hk hki _).mpr (readBits_holds _ _ _))

/-- Property C33 fails for every array variable of 65 to 71 bits on a stack: storing one item replaces the
whole array by the item (CallStack.cpp:123-126). -/
theorem C33_stack_clobbered (t : Ty) (p : Ptr) (h : Placed t p) (hb : 0 < t.bits)
    (htot : 64 < t.n * t.bits) (htot' : t.n * t.bits ≤ 71) (data b : Bits) (i : Nat) (hi : i < t.n) :
    ∃ q, storeSub t p i = .ok q ∧ stackAssign t q data b = some data := by
  have hpk : packable (t.n * t.bits) = .packed := by simp [packable, htot', Nat.not_le.mpr htot]
  refine ⟨_, storeSub_item h hb hi, ?_⟩
  simp only [hpk, stackAssign, if_true]

/-- In particular item 0 of `Int(10) a[7]`, all ones, is 0 after storing 5 to item 6. -/
theorem C33_stack_clobbered_witness : ∃ (t : Ty) (p q : Ptr) (data b b' : Bits), Placed t p ∧
    Holds data (immPos t.cls t.bits) t.bits 5 ∧ storeSub t p 6 = .ok q ∧ stackAssign t q data b = some b' ∧
    getValAt t p b 0 = some 1023 ∧ getValAt t p b' 0 = some 0 := by
  refine ⟨⟨10, 7, false⟩, ⟨26, 70, .packed, false⟩, ⟨86, 10, .packed, true⟩, writeBits (fun _ => false) 86 10 5,
    fun _ => true, writeBits (fun _ => false) 86 10 5, ⟨by decide, by decide, by decide, by decide, rfl⟩,
    writeBits_holds _ _ _ _ (by decide), by decide, rfl, by decide, by decide⟩

/-! ### C56 -/

/-- Property C56: reading never succeeds at a subscript beyond the array, and succeeds at all in range. -/
theorem C56_read_range (t : Ty) (p : Ptr) (h : Placed t p) (hb : 0 < t.bits) (hb' : t.bits ≤ 64) (b : Bits) (i : Nat) :
    (i < t.n → ∃ v, readSub t p b i = .ok v ∧ Item t p.pos b i v) ∧ (t.n ≤ i → readSub t p b i = .refused) := by
  constructor
  · intro hi
    refine ⟨_, ?_, readBits_holds _ _ _⟩
    simp only [readSub]
    rw [if_neg (by omega), getValAt_item h hb hb' b hi]
  · intro hi
    simp only [readSub]
    rw [if_pos (by omega)]

/-- Property C56 holds for stores only into arrays at the very end of the value (variables of primitive
type are there), and for subscripts that do not overflow the u8 position.  Missing: members of classes, where
`C56_store_beyond` shows that a neighbour is overwritten, and large subscripts (`C56_store_wraps`). -/
theorem C56_store_range_partial (t : Ty) (p : Ptr) (h : Placed t p) (hend : p.pos + t.n * t.bits = 96)
    (hb : 0 < t.bits) (hn : 0 < t.n) (i : Nat) (hi : p.pos + i * t.bits < 256) :
    (∃ q, storeSub t p i = .ok q) ↔ i < t.n := by
  have h3 : (((p.pos : Int) + (t.bits : Int) * (i : Int)) % 256).toNat = p.pos + i * t.bits := by
    have : (p.pos : Int) + (t.bits : Int) * (i : Int) = ((p.pos + i * t.bits : Nat) : Int) := by
      rw [Int.mul_comm]; push_cast; rfl
    rw [this]
    omega
  simp only [storeSub, scalarPtr_placed h hn, increment, h3]
  constructor
  · rintro ⟨q, hq⟩
    by_contra hge
    have : t.n * t.bits ≤ i * t.bits := Nat.mul_le_mul_right _ (by omega)
    rw [if_neg (by simp; omega)] at hq
    exact absurd hq (by simp)
  · intro hlt
    have := mul_le_of_lt hlt t.bits
    exact ⟨_, by rw [if_pos (by simp; omega)]⟩

/-- Property C56 fails: `a` being two 4 bit items at bits 25 to 32 of an atom, the store `a[3] = 5` is
accepted and changes the bits 37 to 40, which are another member's. -/
theorem C56_store_beyond : ∃ (t : Ty) (p q : Ptr) (data b b' : Bits), Placed t p ∧
    Holds data (immPos t.cls t.bits) t.bits 5 ∧ t.n ≤ 3 ∧ storeSub t p 3 = .ok q ∧ windowAssign t q data b = some b' ∧
    ∃ j, p.pos + t.n * t.bits ≤ j ∧ b' j ≠ b j := by
  refine ⟨⟨4, 2, false⟩, ⟨25, 8, .loadable, false⟩, ⟨37, 4, .loadable, true⟩, writeBits (fun _ => false) 92 4 5,
    fun _ => false, writeBits (fun _ => false) 37 4 5, ⟨by decide, by decide, by decide, by decide, rfl⟩,
    writeBits_holds _ _ _ _ (by decide), by decide, by decide, ?_, 38, by decide, by decide⟩
  have h : readBits (writeBits (fun _ => false) 92 4 5) 92 4 = 5 := by decide
  simp [windowAssign, putDataIntoAtom, putItem, getData, putData, immPos, h]

/-- Property C56 fails: the position is a u8, so storing at subscript 64 of an array of 4 bit items is
storing at subscript 0. -/
theorem C56_store_wraps (t : Ty) (p : Ptr) (h : Placed t p) (hb : t.bits = 4) (hn : 0 < t.n) :
    storeSub t p 64 = storeSub t p 0 := by
  have := scalarPtr_placed h hn
  have h1 := h.inside
  have e : ∀ q : Ptr, q.len = 4 → increment q 64 = increment q 0 := by
    intro q hq
    have e : ((q.pos : Int) + (q.len : Int) * 64) % 256 = ((q.pos : Int) + (q.len : Int) * 0) % 256 := by
      rw [hq]; omega
    simp only [increment, e]
  simp only [storeSub, this]
  rw [e _ hb]

/-- Property C56 fails: a negative subscript reads the bits before the array. -/
theorem C56_read_negative : ∃ (t : Ty) (p : Ptr) (b : Bits), Placed t p ∧ readSub t p b (-1) = .ok 9 ∧
    Holds b (p.pos - t.bits) t.bits 9 := by
  refine ⟨⟨4, 2, false⟩, ⟨33, 8, .loadable, false⟩, writeBits (fun _ => false) 29 4 9,
    ⟨by decide, by decide, by decide, by decide, rfl⟩, by decide, writeBits_holds _ _ _ _ (by decide)⟩

/-! ### C57 -/

/-- The items of the array at `pos'` in `b'` are those at `pos` in `b`. -/
def SameItems (t : Ty) (pos : Nat) (b : Bits) (pos' : Nat) (b' : Bits) : Prop :=
  ∀ i v, i < t.n → (Item t pos' b' i v ↔ Item t pos b i v)

theorem Placed.flat {t : Ty} {p : Ptr} {i : Nat} (_ : Placed t p) (hi : i < t.n) {j : Nat} (hj : j < t.bits) :
    i * t.bits + j < t.n * t.bits := by
  have := mul_le_of_lt hi t.bits
  omega

/-- Bit by bit equality of two ranges. -/
def SameBits (len pos : Nat) (b : Bits) (pos' : Nat) (b' : Bits) : Prop := ∀ j, j < len → b' (pos' + j) = b (pos + j)

theorem SameBits.items {t : Ty} {pos pos' : Nat} {b b' : Bits} (h : SameBits (t.n * t.bits) pos b pos' b') :
    SameItems t pos b pos' b' := by
  intro i v hi
  have hle := mul_le_of_lt hi t.bits
  constructor
  · intro hit
    refine ⟨hit.1, fun j hj => ?_⟩
    rw [← hit.2 j hj, Nat.add_assoc, Nat.add_assoc, h (i * t.bits + j) (by omega)]
  · intro hit
    refine ⟨hit.1, fun j hj => ?_⟩
    rw [← hit.2 j hj, Nat.add_assoc, Nat.add_assoc, h (i * t.bits + j) (by omega)]

theorem write_read_same (b r : Bits) (pos pos' len : Nat) :
    SameBits len pos b pos' (writeBits r pos' len (readBits b pos len)) := by
  intro j hj
  have h1 := (writeBits_holds r pos' len _ (readBits_lt b pos len)).2 j hj
  rw [h1, (readBits_holds b pos len).2 j hj]

/-- Property C57 for primitive arrays of at most 64 bits: the copy of an array that is a member of a class
to a variable has the same items and changes no other bit of the variable.  Missing: arrays of classes and
wide arrays, see `C57_quark_array` and `C57_wide_items`. -/
theorem C57_copy_partial (t : Ty) (lp rp : Ptr) (hl : Placed t lp) (hr : Placed t rp) (hcls : t.cls = false)
    (htot : t.n * t.bits ≤ 64) (src dst : Bits) :
    ∃ d, copyArray t lp rp src dst = some d ∧ SameItems t rp.pos src lp.pos d ∧
      ∀ j, j < lp.pos ∨ lp.pos + t.n * t.bits ≤ j → d j = dst j := by
  have hpk : packable (t.n * t.bits) = .loadable := by simp [packable, htot]
  have hri := hr.inside
  have hli := hl.inside
  have hg : getArray t rp src =
      some (writeBits (fun _ => false) (96 - t.n * t.bits) (t.n * t.bits) (readBits src rp.pos (t.n * t.bits))) := by
    simp only [getArray, hr.pack, hpk, hr.len]
    by_cases h32 : t.n * t.bits ≤ 32
    · rw [if_pos h32]
      rw [getData_eq _ h32 (hri), Option.bind_some, putData_eq _ _ h32 (by omega)]
    · rw [if_neg h32, if_pos htot]
      rw [getDataLong_eq _ htot (hri), Option.bind_some, putDataLong_eq _ _ htot (by omega)]
  have hp := putItem_eq t.cls lp (writeBits (fun _ => false) (96 - t.n * t.bits) (t.n * t.bits)
    (readBits src rp.pos (t.n * t.bits))) dst (readBits src rp.pos (t.n * t.bits)) (by rw [hl.len]; exact htot)
    (by rw [hl.len]; exact hli) (by
      rw [hl.len, hcls]
      exact writeBits_holds _ _ _ _ (readBits_lt _ _ _))
  refine ⟨writeBits dst lp.pos (t.n * t.bits) (readBits src rp.pos (t.n * t.bits)), ?_, ?_, ?_⟩
  · simp only [copyArray, hg, Option.bind_some, stackAssign, hl.pack, hpk, putDataIntoAtom, hp, hl.len]
  · exact (write_read_same src dst rp.pos lp.pos (t.n * t.bits)).items
  · intro j hj
    exact writeBits_other _ _ _ _ _ hj

/-- One step of the two loops: copying the bits of one item. -/
theorem getLoop_spec (t : Ty) (p : Ptr) (h : Placed t p) (hb32 : t.bits ≤ 32) (data : Bits) :
    ∀ (k : Nat) (r : Bits), k ≤ t.n →
      (∀ j, j < (t.n - k) * t.bits → r (96 - t.n * t.bits + j) = data (p.pos + j)) →
      ∃ r', getLoop t (t.n * t.bits) data k ⟨p.pos + (t.n - k) * t.bits, t.bits, packable (t.n * t.bits), true⟩ r = some r' ∧
        SameBits (t.n * t.bits) p.pos data (96 - t.n * t.bits) r' ∧
        ∀ j, j < 96 - t.n * t.bits → r' j = r j := by
  intro k
  induction k with
  | zero =>
    intro r _ hr
    exact ⟨r, rfl, fun j hj => hr j (by simpa using hj), fun _ _ => rfl⟩
  | succ k ih =>
    intro r hk hr
    have hin := h.inside
    have hi : t.n - (k + 1) < t.n := by omega
    have hle := mul_le_of_lt hi t.bits
    have hrj : rjPos t (t.n - (k + 1)) = 96 - t.n * t.bits + (t.n - (k + 1)) * t.bits := by
      simp only [rjPos]
      rw [show t.n - (t.n - (k + 1)) = k + 1 by omega, Nat.sub_mul, Nat.mul_comm t.bits]
      have : (k + 1) * t.bits ≤ t.n * t.bits := Nat.mul_le_mul_right _ hk
      omega
    have hstep : (t.n - k) * t.bits = (t.n - (k + 1)) * t.bits + t.bits := by
      rw [show t.n - k = (t.n - (k + 1)) + 1 by omega]; ring
    simp only [getLoop]
    rw [if_pos hb32]
    rw [getData_eq _ hb32 (by omega), Option.bind_some, putData_eq _ _ hb32 (by rw [hrj]; omega)]
    simp only [Option.bind_some]
    have hinc : (increment ⟨p.pos + (t.n - (k + 1)) * t.bits, t.bits, packable (t.n * t.bits), true⟩ 1).1 =
        ⟨p.pos + (t.n - k) * t.bits, t.bits, packable (t.n * t.bits), true⟩ := by
      simp only [increment, Ptr.mk.injEq, and_self, and_true]
      rw [Int.mul_one]
      have h2 : (t.n - k) * t.bits ≤ t.n * t.bits := Nat.mul_le_mul_right _ (by omega)
      omega
    rw [hinc, hrj]
    obtain ⟨r', h1, h2, h3⟩ := ih (writeBits r (96 - t.n * t.bits + (t.n - (k + 1)) * t.bits) t.bits
      (readBits data (p.pos + (t.n - (k + 1)) * t.bits) t.bits)) (by omega) (by
        intro j hj
        by_cases hlow : j < (t.n - (k + 1)) * t.bits
        · rw [writeBits_other _ _ _ _ _ (by omega)]
          exact hr j hlow
        · have := write_read_same data r (p.pos + (t.n - (k + 1)) * t.bits)
            (96 - t.n * t.bits + (t.n - (k + 1)) * t.bits) t.bits (j - (t.n - (k + 1)) * t.bits) (by omega)
          rw [show 96 - t.n * t.bits + (t.n - (k + 1)) * t.bits + (j - (t.n - (k + 1)) * t.bits) =
            96 - t.n * t.bits + j by omega,
            show p.pos + (t.n - (k + 1)) * t.bits + (j - (t.n - (k + 1)) * t.bits) = p.pos + j by omega] at this
          exact this)
    refine ⟨r', h1, h2, fun j hj => ?_⟩
    rw [h3 j hj, writeBits_other _ _ _ _ _ (by omega)]

theorem putLoop_spec (t : Ty) (p : Ptr) (h : Placed t p) (hb64 : t.bits ≤ 64) (data : Bits) :
    ∀ (k : Nat) (r : Bits), k ≤ t.n →
      (∀ j, j < (t.n - k) * t.bits → r (p.pos + j) = data (96 - t.n * t.bits + j)) →
      ∃ r', putLoop t data k ⟨p.pos + (t.n - k) * t.bits, t.bits, packable (t.n * t.bits), true⟩ r = some r' ∧
        SameBits (t.n * t.bits) (96 - t.n * t.bits) data p.pos r' ∧
        ∀ j, j < p.pos ∨ p.pos + t.n * t.bits ≤ j → r' j = r j := by
  intro k
  induction k with
  | zero =>
    intro r _ hr
    exact ⟨r, rfl, fun j hj => hr j (by simpa using hj), fun _ _ => rfl⟩
  | succ k ih =>
    intro r hk hr
    have hin := h.inside
    have hi : t.n - (k + 1) < t.n := by omega
    have hle := mul_le_of_lt hi t.bits
    have hrj : rjPos t (t.n - (k + 1)) = 96 - t.n * t.bits + (t.n - (k + 1)) * t.bits := by
      simp only [rjPos]
      rw [show t.n - (t.n - (k + 1)) = k + 1 by omega, Nat.sub_mul, Nat.mul_comm t.bits]
      have : (k + 1) * t.bits ≤ t.n * t.bits := Nat.mul_le_mul_right _ hk
      omega
    have hstep : (t.n - k) * t.bits = (t.n - (k + 1)) * t.bits + t.bits := by
      rw [show t.n - k = (t.n - (k + 1)) + 1 by omega]; ring
    have hone : (if t.bits ≤ 32 then (getData data (rjPos t (t.n - (k + 1))) t.bits).bind
          (putData r (p.pos + (t.n - (k + 1)) * t.bits) t.bits)
        else if t.bits ≤ 64 then (getDataLong data (rjPos t (t.n - (k + 1))) t.bits).bind
          (putDataLong r (p.pos + (t.n - (k + 1)) * t.bits) t.bits)
        else some r) = some (writeBits r (p.pos + (t.n - (k + 1)) * t.bits) t.bits
          (readBits data (96 - t.n * t.bits + (t.n - (k + 1)) * t.bits) t.bits)) := by
      rw [hrj]
      by_cases h32 : t.bits ≤ 32
      · rw [if_pos h32]
        rw [getData_eq _ h32 (by omega), Option.bind_some, putData_eq _ _ h32 (by omega)]
      · rw [if_neg h32, if_pos hb64]
        rw [getDataLong_eq _ hb64 (by omega), Option.bind_some, putDataLong_eq _ _ hb64 (by omega)]
    simp only [putLoop, hone, Option.bind_some]
    have hinc : (increment ⟨p.pos + (t.n - (k + 1)) * t.bits, t.bits, packable (t.n * t.bits), true⟩ 1).1 =
        ⟨p.pos + (t.n - k) * t.bits, t.bits, packable (t.n * t.bits), true⟩ := by
      simp only [increment, Ptr.mk.injEq, and_self, and_true]
      rw [Int.mul_one]
      have h2 : (t.n - k) * t.bits ≤ t.n * t.bits := Nat.mul_le_mul_right _ (by omega)
      omega
    rw [hinc]
    obtain ⟨r', h1, h2, h3⟩ := ih (writeBits r (p.pos + (t.n - (k + 1)) * t.bits) t.bits
      (readBits data (96 - t.n * t.bits + (t.n - (k + 1)) * t.bits) t.bits)) (by omega) (by
        intro j hj
        by_cases hlow : j < (t.n - (k + 1)) * t.bits
        · rw [writeBits_other _ _ _ _ _ (by omega)]
          exact hr j hlow
        · have := write_read_same data r (96 - t.n * t.bits + (t.n - (k + 1)) * t.bits)
            (p.pos + (t.n - (k + 1)) * t.bits) t.bits (j - (t.n - (k + 1)) * t.bits) (by omega)
          rw [show 96 - t.n * t.bits + (t.n - (k + 1)) * t.bits + (j - (t.n - (k + 1)) * t.bits) =
            96 - t.n * t.bits + j by omega,
            show p.pos + (t.n - (k + 1)) * t.bits + (j - (t.n - (k + 1)) * t.bits) = p.pos + j by omega] at this
          exact this)
    refine ⟨r', h1, h2, fun j hj => ?_⟩
    rw [h3 j hj, writeBits_other _ _ _ _ _ (by omega)]

/-- Property C57 for arrays of 65 to 71 bits with items of at most 32 bits (also of classes): item by item. -/
theorem C57_copy_packed_partial (t : Ty) (lp rp : Ptr) (hl : Placed t lp) (hr : Placed t rp) (hn : 0 < t.n)
    (hb : t.bits ≤ 32) (htot : 64 < t.n * t.bits) (htot' : t.n * t.bits ≤ 71) (src dst : Bits) :
    ∃ d, copyArray t lp rp src dst = some d ∧ SameItems t rp.pos src lp.pos d ∧
      ∀ j, j < lp.pos ∨ lp.pos + t.n * t.bits ≤ j → d j = dst j := by
  have hpk : packable (t.n * t.bits) = .packed := by simp [packable, htot', Nat.not_le.mpr htot]
  obtain ⟨r, h1, h2, -⟩ := getLoop_spec t rp hr hb src t.n (fun _ => false) (Nat.le_refl _) (by
    intro j hj; simp at hj)
  obtain ⟨d, h3, h4, h5⟩ := putLoop_spec t lp hl (by omega) r t.n dst (Nat.le_refl _) (by
    intro j hj; simp at hj)
  simp only [Nat.sub_self, Nat.zero_mul, Nat.add_zero] at h1 h3
  have hg : getArray t rp src = some r := by
    simp only [getArray, hr.pack, hpk, scalarPtr_placed hr hn, Option.bind_some, hr.len]
    rw [hpk] at h1
    exact h1
  refine ⟨d, ?_, ?_, h5⟩
  · simp only [copyArray, hg, Option.bind_some, stackAssign, hl.pack, hpk, hl.arr, putDataIntoAtom, putArray,
      scalarPtr_placed hl hn, Bool.false_eq_true, if_false]
    rw [hpk] at h3
    exact h3
  · refine SameBits.items fun j hj => ?_
    rw [h4 j hj, h2 j hj]

/-- Property C57 fails: an array of two 33 bit items (66 bits) cannot be copied, the compiler aborts: the
test at UlamValue.cpp:627 is on the length of the array instead of the item. -/
theorem C57_wide_items (src dst : Bits) (cls : Bool) (lp rp : Ptr) (_hl : Placed ⟨33, 2, cls⟩ lp)
    (hr : Placed ⟨33, 2, cls⟩ rp) : copyArray ⟨33, 2, cls⟩ lp rp src dst = none := by
  have hs := scalarPtr_placed hr Nat.zero_lt_two
  have hp : rp.pack = .packed := hr.pack
  have hlen : rp.len = 66 := hr.len
  simp only [copyArray, getArray, hp, hs, Option.bind_some, hlen, getLoop]
  rfl

/-- Property C57 fails: copying an array of two 4 bit quarks gives zeros.  The copy is put at the right end
of the temporary (UlamValue.cpp:600) but an array of classes is taken from bit 25 (UlamValue.cpp:776). -/
theorem C57_quark_array : ∃ (t : Ty) (lp rp : Ptr) (src dst d : Bits), Placed t lp ∧ Placed t rp ∧ t.cls = true ∧
    copyArray t lp rp src dst = some d ∧ getValAt t rp src 0 = some 15 ∧ getValAt t lp d 0 = some 0 := by
  refine ⟨⟨4, 2, true⟩, ⟨25, 8, .loadable, false⟩, ⟨30, 8, .loadable, false⟩, fun _ => true, fun _ => false,
    writeBits (fun _ => false) 25 8 0, ⟨by decide, by decide, by decide, by decide, rfl⟩,
    ⟨by decide, by decide, by decide, by decide, rfl⟩, rfl, ?_, by decide, by decide⟩
  have h1 : readBits (fun _ => true) 30 8 = 255 := by decide
  have h2 : readBits (writeBits (fun _ => false) 88 8 255) 25 8 = 0 := by decide
  simp [copyArray, getArray, stackAssign, putDataIntoAtom, putItem, getData, putData, immPos, h1, h2]

section Examples

/-- Three items of 5 bits at the end of the value; storing 21 in the middle. -/
example : Placed ⟨5, 3, false⟩ ⟨81, 15, .loadable, false⟩ := ⟨by decide, by decide, by decide, by decide, rfl⟩
example : arrayPtr ⟨5, 3, false⟩ 0 = some ⟨81, 15, .loadable, false⟩ := by decide
example : storeSub ⟨5, 3, false⟩ ⟨81, 15, .loadable, false⟩ 1 = .ok ⟨86, 5, .loadable, true⟩ := by decide
example : ((stackAssign ⟨5, 3, false⟩ ⟨86, 5, .loadable, true⟩ (writeBits (fun _ => false) 91 5 21) (fun _ => true)).bind
    fun b => (getValAt ⟨5, 3, false⟩ ⟨81, 15, .loadable, false⟩ b 1).bind fun x =>
      (getValAt ⟨5, 3, false⟩ ⟨81, 15, .loadable, false⟩ b 2).map fun y => (x, y)) = some (21, 31) := by decide
/-- A packed array of 7 items of 10 bits in an atom. -/
example : Placed ⟨10, 7, false⟩ ⟨25, 70, .packed, false⟩ := ⟨by decide, by decide, by decide, by decide, rfl⟩

end Examples

end Ulam.Packed
