import Verif.VarInit.Spec
import Verif.Packed.Props
import Mathlib.Tactic.ByContra
import Mathlib.Tactic.Ring
/-! # Properties of local variables of the evaluator (C134, C135) -/
namespace Ulam.VarInit
open Ulam.Packed Ulam.VarInit.Spec

/-! ### Bits -/

theorem write_read (b iv : Bits) (pos p len j : Nat) (h : j < len) :
    writeBits b pos len (readBits iv p len) (pos + j) = iv (p + j) := by
  have h1 := (readBits_holds iv p len).2 j h
  rw [h1]
  unfold writeBits
  rw [if_pos (by omega)]
  congr 1
  omega

theorem write_zero (pos len i : Nat) : writeBits clear pos len 0 i = false := by
  unfold writeBits
  split
  · simp
  · rfl

theorem read_mod (iv : Bits) (p len : Nat) (h : len ≤ 32) : readBits iv p len % 2 ^ 32 = readBits iv p len :=
  Nat.mod_eq_of_lt (Nat.lt_of_lt_of_le (readBits_lt iv p len) (Nat.pow_le_pow_right (by decide) h))

theorem together_iff (t : VTy) : Together t ↔ packFit t ≠ .unpacked := by
  unfold Together packFit packable VTy.total count
  constructor
  · intro ⟨h, h'⟩
    rw [if_neg h]
    split
    · simp
    · rename_i h64
      first | (rw [if_pos h']; simp) | simp
  · intro h
    by_cases he : t.kind = .element
    · rw [if_pos he] at h; exact absurd rfl h
    · rw [if_neg he] at h
      refine ⟨he, ?_⟩
      by_contra hc
      rw [if_neg (by omega), if_neg hc] at h
      exact h rfl

theorem loadable_iff (t : VTy) : packFit t = .loadable ↔ t.kind ≠ .element ∧ t.bits * count t ≤ 64 := by
  unfold packFit packable VTy.total count
  constructor
  · intro h
    by_cases he : t.kind = .element
    · rw [if_pos he] at h; cases h
    · rw [if_neg he] at h
      refine ⟨he, ?_⟩
      by_contra hc
      rw [if_neg hc] at h
      split at h <;> cases h
  · intro ⟨h, h'⟩
    rw [if_neg h, if_pos h']

theorem slots_together {t : VTy} (h : Together t) : slotsNeeded t = 1 := by
  have := (together_iff t).1 h
  unfold slotsNeeded
  cases hp : packFit t <;> simp_all

theorem slots_apart {t : VTy} (h : ¬ Together t) : slotsNeeded t = count t := by
  have : packFit t = .unpacked := by
    by_contra hc
    exact h ((together_iff t).2 hc)
  unfold slotsNeeded
  rw [this]
  rfl

theorem fill_spec (f : Nat → Option Bits) (g : Nat → Bits) (n : Nat) (h : ∀ j, j < n → f j = some (g j)) :
    fill f n = some ((List.range n).map g) := by
  induction n with
  | zero => rfl
  | succ n ih =>
    unfold fill
    rw [ih fun j hj => h j (by omega), h n (by omega)]
    simp [List.range_succ]

/-! ### Items of variables -/

theorem item_apart {t : VTy} (h : ¬ Together t) {slots : List Bits} {i : Nat} {s : Bits} (hs : slots[i]? = some s)
    {val : Nat → Bool} (hv : ∀ j, j < t.bits → s ((if t.kind = .prim then 96 - t.bits else 25) + j) = val j) :
    ItemIs t slots i val := by
  refine ⟨s, ?_, ?_⟩
  · unfold slotOf; rw [if_neg h]; exact hs
  · intro j hj
    unfold posOf
    rw [if_neg h, if_neg h]
    exact hv j hj

theorem item_together {t : VTy} (h : Together t) {i : Nat} {s : Bits} {val : Nat → Bool}
    (hv : ∀ j, j < t.bits → s ((if t.kind = .prim then 96 - t.bits * count t else 25) + i * t.bits + j) = val j) :
    ItemIs t [s] i val := by
  refine ⟨s, ?_, ?_⟩
  · unfold slotOf; rw [if_pos h]; rfl
  · intro j hj
    unfold posOf
    rw [if_pos h, if_pos h]
    exact hv j hj

theorem item_in {b n i j : Nat} (hi : i < n) (hj : j < b) : i * b + j < b * n := by
  have h := mul_le_of_lt hi b
  rw [Nat.mul_comm b n]
  omega

/-! ### The values made -/

theorem immediate (t : VTy) (iv : Bits) (p : Nat) (h : t.total ≤ 64) :
    ∃ s, (if t.total ≤ 32 then makeImmediate t (readBits iv p t.total % 2 ^ 32)
        else if t.total ≤ 64 then makeImmediateLong t (readBits iv p t.total) else none) = some s ∧
      ∀ j, j < t.total → s ((if t.kind = .prim then 96 - t.total else 25) + j) = iv (p + j) := by
  have hc : (if t.cls then 25 else 96 - t.total) = if t.kind = .prim then 96 - t.total else 25 := by
    unfold VTy.cls
    cases t.kind <;> rfl
  have hle : (if t.kind = .prim then 96 - t.total else 25) + t.total ≤ 96 := by split <;> omega
  by_cases h32 : t.total ≤ 32
  · rw [if_pos h32, read_mod iv p _ h32]
    unfold makeImmediate
    rw [if_pos h32, hc, putData_eq _ _ h32 hle]
    exact ⟨_, rfl, fun j hj => write_read _ _ _ _ _ _ hj⟩
  · rw [if_neg h32, if_pos h]
    unfold makeImmediateLong
    rw [if_pos h, hc, putDataLong_eq _ _ h hle]
    exact ⟨_, rfl, fun j hj => write_read _ _ _ _ _ _ hj⟩

theorem scalar_total (t : VTy) : t.scalar.total = t.bits := by simp [VTy.total, VTy.scalar]

/-- The value made of one item: of its bits, zeros elsewhere. -/
theorem immediate_item (t : VTy) (v : Nat) (h : t.bits ≤ 64) :
    (if t.bits ≤ 32 then makeImmediate t.scalar v else if t.bits ≤ 64 then makeImmediateLong t.scalar v else none) =
      some (writeBits clear (if t.kind = .prim then 96 - t.bits else 25) t.bits v) := by
  have hc : (if t.scalar.cls then 25 else 96 - t.bits) = if t.kind = .prim then 96 - t.bits else 25 := by
    unfold VTy.cls VTy.scalar
    cases t.kind <;> rfl
  have hle : (if t.kind = .prim then 96 - t.bits else 25) + t.bits ≤ 96 := by split <;> omega
  by_cases h32 : t.bits ≤ 32
  · rw [if_pos h32]
    unfold makeImmediate
    rw [scalar_total, if_pos h32, hc, putData_eq _ _ h32 hle]
  · rw [if_neg h32, if_pos h]
    unfold makeImmediateLong
    rw [scalar_total, if_pos h, hc, putDataLong_eq _ _ h hle]

theorem default_atom (t : VTy) (dv : Bits) (ha : t.bits ≤ 71) (hp : t.kind ≠ .prim) :
    ∃ s, makeDefaultAtom t.scalar dv = some s ∧ (∀ j, j < t.bits → s (25 + j) = standard t dv j) ∧
      (t.kind ≠ .element → ∀ k, 25 + t.bits ≤ k → s k = false) := by
  unfold makeDefaultAtom
  rw [scalar_total]
  by_cases he : t.kind = .element
  · have : t.scalar.kind = .element := he
    rw [if_pos this, if_pos this]
    dsimp only
    rw [if_neg (by rw [this]; simp)]
    refine ⟨_, if_pos (by omega), ?_, fun h => absurd he h⟩
    intro j hj
    rw [if_pos (by omega)]
    simp only [standard, he]
    rfl
  · have : t.scalar.kind ≠ .element := he
    rw [if_neg this, if_neg this]
    dsimp only
    rw [if_neg (by omega)]
    refine ⟨_, if_pos (by omega), ?_, ?_⟩
    · intro j hj
      rw [if_pos (by omega), show 25 + j - 25 = j by omega]
      unfold standard
      cases hk : t.kind <;> simp_all
    · intro _ k hk
      rw [if_neg (by omega)]
      rfl

/-! ### The default of a packed array -/

theorem default_loop (len b d : Nat) (hd : d < 2 ^ b) (hlen : len ≤ 64) : ∀ k j acc i, 0 < j → (j + k) * b ≤ len + b →
    ((defaultLoop len b d k j acc).testBit i = true ↔
      acc.testBit i = true ∨ ∃ j', j ≤ j' ∧ j' < j + k ∧ (d <<< (len - j' * b)).testBit i = true) := by
  intro k
  induction k with
  | zero =>
    intro j acc i _ _
    simp only [defaultLoop, Nat.add_zero]
    constructor
    · exact Or.inl
    · rintro (h | ⟨j', h1, h2, _⟩)
      · exact h
      · omega
  | succ k ih =>
    intro j acc i hj hl
    have hjb : 1 * b ≤ j * b := Nat.mul_le_mul_right _ hj
    have hjl : j * b ≤ len := by
      have h1 : (j + 1) * b ≤ (j + (k + 1)) * b := Nat.mul_le_mul_right _ (by omega)
      have h2 : (j + 1) * b = j * b + b := by ring
      omega
    have hmod : (d <<< (len - j * b)) % 2 ^ 64 = d <<< (len - j * b) := by
      apply Nat.mod_eq_of_lt
      rw [Nat.shiftLeft_eq]
      calc d * 2 ^ (len - j * b) < 2 ^ b * 2 ^ (len - j * b) := (Nat.mul_lt_mul_right (Nat.two_pow_pos _)).2 hd
        _ = 2 ^ (b + (len - j * b)) := by rw [Nat.pow_add]
        _ ≤ 2 ^ 64 := Nat.pow_le_pow_right (by decide) (by omega)
    unfold defaultLoop
    rw [hmod, ih (j + 1) _ i (by omega) (by rw [show j + 1 + k = j + (k + 1) by omega]; exact hl), Nat.testBit_or, Bool.or_eq_true]
    constructor
    · rintro ((h | h) | ⟨j', h1, h2, h3⟩)
      · exact .inl h
      · exact .inr ⟨j, Nat.le_refl _, by omega, h⟩
      · exact .inr ⟨j', by omega, by omega, h3⟩
    · rintro (h | ⟨j', h1, h2, h3⟩)
      · exact .inl (.inl h)
      · by_cases he : j' = j
        · subst he; exact .inl (.inr h3)
        · exact .inr ⟨j', by omega, by omega, h3⟩

/-- Each item of the packed default is the default of the class. -/
theorem default_array (t : VTy) (d n : Nat) (hn : t.arr = some n) (hd : d < 2 ^ t.bits) (hlen : t.total ≤ 64) (i c : Nat)
    (hi : i < n) (hc : c < t.bits) : (defaultAsPackedArray t d).testBit ((n - 1 - i) * t.bits + c) = d.testBit c := by
  have htot : t.total = n * t.bits := by simp [VTy.total, hn, Nat.mul_comm]
  unfold defaultAsPackedArray
  by_cases h0 : d = 0
  · rw [if_pos h0, h0]; simp
  rw [if_neg h0]
  dsimp only
  rw [show t.arr.getD 1 = n by rw [hn]; rfl, if_pos (by omega), Nat.mod_eq_of_lt hd]
  rw [Bool.eq_iff_iff, default_loop t.total t.bits d hd hlen (n - 1) 1 d _ (by omega)
    (by rw [show 1 + (n - 1) = n by omega, htot]; omega)]
  have key : ∀ j', 1 ≤ j' → j' ≤ n → ((d <<< (n * t.bits - j' * t.bits)).testBit ((n - 1 - i) * t.bits + c) = true ↔
      j' = i + 1 ∧ d.testBit c = true) := by
    intro j' h1 h2
    rw [← Nat.sub_mul, Nat.testBit_shiftLeft]
    rcases Nat.lt_trichotomy j' (i + 1) with h | h | h
    · have h3 : (n - 1 - i + 1) * t.bits ≤ (n - j') * t.bits := Nat.mul_le_mul_right _ (by omega)
      have h4 : (n - 1 - i + 1) * t.bits = (n - 1 - i) * t.bits + t.bits := by ring
      rw [decide_eq_false (by omega)]
      simp only [Bool.false_and]
      constructor
      · intro h; cases h
      · intro h'; omega
    · rw [show n - j' = n - 1 - i by omega, decide_eq_true (by omega), show (n - 1 - i) * t.bits + c - (n - 1 - i) * t.bits = c by omega]
      simp [h]
    · have h3 : (n - j' + 1) * t.bits ≤ (n - 1 - i) * t.bits := Nat.mul_le_mul_right _ (by omega)
      have h4 : (n - j' + 1) * t.bits = (n - j') * t.bits + t.bits := by ring
      rw [Nat.testBit_lt_two_pow (Nat.lt_of_lt_of_le hd (Nat.pow_le_pow_right (by decide) (by omega)))]
      simp only [Bool.and_false]
      constructor
      · intro h; cases h
      · intro h'; omega
  have hlast := key n (by omega) (Nat.le_refl _)
  rw [Nat.sub_self, Nat.shiftLeft_zero] at hlast
  rw [hlast, htot]
  constructor
  · rintro (h | ⟨j', h1, h2, h3⟩)
    · exact h.2
    · exact ((key j' h1 (by omega)).1 h3).2
  · intro h
    by_cases he : n = i + 1
    · exact .inl ⟨he, h⟩
    · exact .inr ⟨i + 1, by omega, by omega, (key (i + 1) (by omega) (by omega)).2 ⟨rfl, h⟩⟩

/-! ### C134: variables without an initial value -/

/-- The items of an array that share one slot are where the pointers to them point. -/
theorem C134_place (t : VTy) (n i : Nat) (hn : t.arr = some n) (ht : Together t) (hi : i < n) :
    ∃ p q, arrayPtr ⟨t.bits, n, t.cls⟩ 0 = some p ∧ scalarPtr ⟨t.bits, n, t.cls⟩ p = some q ∧
      (increment q i).1.pos = posOf t i ∧ (increment q i).1.len = t.bits ∧ ((increment q i).2 = false → t.bits = 0) := by
  have htot : t.bits * n ≤ 71 := by have := ht.2; unfold count at this; rw [hn] at this; exact this
  have hc : count t = n := by unfold count; rw [hn]; rfl
  have hcls : t.cls = true ↔ t.kind ≠ .prim := by unfold VTy.cls; cases t.kind <;> simp
  obtain ⟨p, hp, hpos, hpl⟩ : ∃ p, arrayPtr ⟨t.bits, n, t.cls⟩ 0 = some p ∧
      p.pos = (if t.kind = .prim then 96 - t.bits * n else 25) ∧ Placed ⟨t.bits, n, t.cls⟩ p := by
    unfold arrayPtr makePtr
    dsimp only
    rw [if_pos rfl]
    by_cases hk : t.kind = .prim
    · have : t.cls ≠ true := fun h => hcls.1 h hk
      rw [if_neg this, if_pos (by omega), if_pos hk]
      refine ⟨_, rfl, rfl, ?_, ?_, ?_, ?_, rfl⟩
      · dsimp only; rw [Nat.mul_comm n]; omega
      · dsimp only; omega
      · dsimp only; rw [Nat.mul_comm]
      · dsimp only; rw [Nat.mul_comm]
    · rw [if_pos (hcls.2 hk), if_neg hk]
      refine ⟨_, rfl, rfl, ?_, ?_, ?_, ?_, rfl⟩
      · dsimp only; rw [Nat.mul_comm n]; omega
      · dsimp only; omega
      · dsimp only; rw [Nat.mul_comm]
      · dsimp only; rw [Nat.mul_comm]
  refine ⟨p, _, hp, scalarPtr_placed hpl (by dsimp only; omega), ?_, ?_, ?_⟩
  · rw [show ((⟨t.bits, n, t.cls⟩ : Ty).bits) = t.bits from rfl] at *
    have := increment_item hpl (packable (n * t.bits)) true (i := i) (by dsimp only; omega)
    dsimp only at this ⊢
    rw [this]
    dsimp only
    unfold posOf
    rw [if_pos ht, if_pos ht, hpos, hc]
  · have := increment_item hpl (packable (n * t.bits)) true (i := i) (by dsimp only; omega)
    dsimp only at this ⊢
    rw [this]
  · have := increment_item hpl (packable (n * t.bits)) true (i := i) (by dsimp only; omega)
    dsimp only at this ⊢
    rw [this]
    dsimp only
    intro h
    have h1 := of_decide_eq_false h
    have h2 := hpl.inside
    have h3 := mul_le_of_lt hi t.bits
    dsimp only at h2
    omega

theorem not_uneval {t : VTy} (ha : Allowed t) (dv : Bits) (init : Option Bits) :
    declare t dv init = if t.kind = .prim then setupPrimitive t init else setupClass t dv init := by
  have h1 := ha.rest
  unfold declare
  rw [if_neg (by omega)]
  by_cases hk : t.kind = .prim
  · have := (ha.prim hk).2
    rw [if_neg (by rintro ⟨_, _, h⟩; omega)]
  · rw [if_neg (by
      rintro ⟨hb, _, h⟩
      exact hk (ha.bitsTy hb))]

/-- The arrays for which the evaluator keeps the items in one slot without treating them as one number. -/
def Between (t : VTy) : Prop := t.kind ≠ .element ∧ 64 < t.bits * count t ∧ t.bits * count t ≤ 71

theorem replicate_get {b : Bits} {n i : Nat} (h : i < n) : (List.replicate n b)[i]? = some b := by
  rw [List.getElem?_replicate, if_pos h]

/-- A new variable without an initial value: every item is zeros, or the default of its class, unless the type is an array of
classes of 65 to 71 bits altogether. -/
theorem C134_default_partial (t : VTy) (dv : Bits) (ha : Allowed t) (h0 : 0 < count t)
    (hb : t.kind ≠ .prim → t.arr ≠ none → ¬ Between t) :
    ∃ slots, declare t dv none = .ok slots ∧ slots.length = slotsNeeded t ∧ ∀ i, i < count t → ItemIs t slots i (standard t dv) := by
  rw [not_uneval ha]
  by_cases hk : t.kind = .prim
  · rw [if_pos hk]
    have hz : ∀ j, standard t dv j = false := by intro j; unfold standard; rw [hk]
    obtain ⟨hb0, hb64⟩ := ha.prim hk
    unfold setupPrimitive
    by_cases hl : packFit t = .loadable
    · rw [if_pos hl]
      dsimp only
      obtain ⟨hne, hle⟩ := (loadable_iff t).1 hl
      have ht : Together t := ⟨hne, by omega⟩
      have him := immediate t clear 0 hle
      have hr : readBits clear 0 t.total = 0 := by
        rw [readBits_eq]; exact ⟨Nat.two_pow_pos _, fun j _ => by simp [clear]⟩
      rw [hr] at him
      obtain ⟨s, h1, h2⟩ := him
      rw [Nat.zero_mod] at h1 ⊢
      rw [h1]
      refine ⟨_, rfl, (slots_together ht).symm, ?_⟩
      intro i hi
      apply item_together ht
      intro j hj
      rw [if_pos hk, hz]
      have := h2 (i * t.bits + j) (item_in hi hj)
      rw [if_pos hk] at this
      rw [Nat.add_assoc]
      exact this
    · rw [if_neg hl, immediate_item t 0 hb64]
      dsimp only
      refine ⟨_, rfl, by rw [List.length_replicate], ?_⟩
      intro i hi
      by_cases ht : Together t
      · rw [slots_together ht]
        apply item_together ht
        intro j _
        rw [hz]
        exact write_zero _ _ _
      · rw [slots_apart ht]
        apply item_apart ht (replicate_get hi)
        intro j _
        rw [hz]
        exact write_zero _ _ _
  · rw [if_neg hk]
    obtain ⟨s, h1, h2, h3⟩ := default_atom t dv ha.rest hk
    unfold setupClass
    cases harr : t.arr with
    | none =>
      dsimp only
      have hts : t.scalar = t := by unfold VTy.scalar; rw [← harr]
      rw [hts] at h1
      rw [h1]
      have hc1 : count t = 1 := by unfold count; rw [harr]; rfl
      have hs1 : slotsNeeded t = 1 := by
        by_cases ht : Together t
        · exact slots_together ht
        · rw [slots_apart ht, hc1]
      refine ⟨_, rfl, hs1.symm, ?_⟩
      intro i hi
      have : i = 0 := by omega
      subst this
      by_cases ht : Together t
      · apply item_together ht
        intro j hj
        rw [if_neg hk, Nat.zero_mul]
        exact h2 j hj
      · apply item_apart ht rfl
        intro j hj
        rw [if_neg hk]
        exact h2 j hj
    | some n =>
      dsimp only
      have hcn : count t = n := by unfold count; rw [harr]; rfl
      by_cases hl : packFit t = .loadable
      · rw [if_pos hl]
        obtain ⟨hne, hle⟩ := (loadable_iff t).1 hl
        have ht : Together t := ⟨hne, by omega⟩
        have hbits : t.bits ≤ 64 := by
          have : t.bits * 1 ≤ t.bits * count t := Nat.mul_le_mul_left _ h0
          omega
        have hpd : packedDefaultClass t dv = some (readBits dv 0 t.bits) := by
          unfold packedDefaultClass
          rw [if_pos]
          rw [loadable_iff]
          refine ⟨hne, ?_⟩
          simp only [VTy.scalar, count, Option.getD_none]
          omega
        rw [hpd]
        dsimp only
        have hd := readBits_lt dv 0 t.bits
        have htot : t.total = t.bits * n := by unfold VTy.total; rw [harr]; rfl
        have hle' : t.total ≤ 64 := hle
        have harray := default_array t _ n harr hd hle'
        have hbit : ∀ s : Bits, (∀ k, k < t.total → s (25 + k) = (defaultAsPackedArray t (readBits dv 0 t.bits)).testBit (t.total - 1 - k)) →
            ∀ i, i < count t → ItemIs t [s] i (standard t dv) := by
          intro s hs i hi
          apply item_together ht
          intro j hj
          have hin := item_in hi hj
          rw [if_neg hk, Nat.add_assoc, hs _ (by rw [htot, ← hcn]; exact hin)]
          have hb1 := (readBits_holds dv 0 t.bits).2 j hj
          rw [Nat.zero_add] at hb1
          have hst : standard t dv j = dv j := by
            unfold standard
            cases hkk : t.kind <;> simp_all
          rw [hst, hb1, ← harray i (t.bits - 1 - j) (by omega) (by omega)]
          congr 1
          rw [htot, ← hcn]
          have e1 : (count t - 1 - i + (i + 1)) * t.bits = t.bits * count t := by
            rw [show count t - 1 - i + (i + 1) = count t by omega, Nat.mul_comm]
          have e2 : (count t - 1 - i + (i + 1)) * t.bits = (count t - 1 - i) * t.bits + i * t.bits + t.bits := by ring
          omega
        by_cases h32 : t.total ≤ 32
        · rw [if_pos h32]
          unfold makeImmediateClass
          rw [if_pos h32, putData_eq _ _ h32 (by omega)]
          refine ⟨_, rfl, (slots_together ht).symm, hbit _ ?_⟩
          intro k hkk
          unfold writeBits
          rw [if_pos (by omega), Nat.testBit_mod_two_pow, decide_eq_true (by omega), Bool.true_and]
          congr 1
          omega
        · rw [if_neg h32, if_pos hle']
          unfold makeImmediateLongClass
          rw [if_pos hle', putDataLong_eq _ _ hle' (by omega)]
          refine ⟨_, rfl, (slots_together ht).symm, hbit _ ?_⟩
          intro k hkk
          unfold writeBits
          rw [if_pos (by omega)]
          congr 1
          omega
      · rw [if_neg hl, h1]
        dsimp only
        refine ⟨_, rfl, by rw [List.length_replicate], ?_⟩
        have ht : ¬ Together t := by
          intro ht
          apply hb hk (by rw [harr]; simp)
          refine ⟨ht.1, ?_, ht.2⟩
          by_contra hc
          exact hl ((loadable_iff t).2 ⟨ht.1, by omega⟩)
        intro i hi
        rw [slots_apart ht]
        apply item_apart ht (replicate_get hi)
        intro j hj
        rw [if_neg hk]
        exact h2 j hj

/-- In an array of classes of 65 to 71 bits altogether all items but the first are zeros, whatever the default of the class. -/
theorem C134_default_fails (t : VTy) (dv : Bits) (ha : Allowed t) (n : Nat) (hn : t.arr = some n) (hk : t.kind ≠ .prim)
    (hb : Between t) (h0 : 0 < t.bits) :
    ∃ slots, declare t dv none = .ok slots ∧ (∀ i, 0 < i → i < n → ItemIs t slots i fun _ => false) ∧
      ∀ i j, 0 < i → i < n → j < t.bits → dv j = true → ¬ ItemIs t slots i (standard t dv) := by
  rw [not_uneval ha, if_neg hk]
  obtain ⟨s, h1, h2, h3⟩ := default_atom t dv ha.rest hk
  have ht : Together t := ⟨hb.1, hb.2.2⟩
  have hl : packFit t ≠ .loadable := by
    intro hl
    have := ((loadable_iff t).1 hl).2
    have := hb.2.1
    omega
  unfold setupClass
  rw [hn]
  dsimp only
  rw [if_neg hl, h1, slots_together ht]
  have hz : ∀ i, 0 < i → i < n → ItemIs t [s] i fun _ => false := by
    intro i hi _
    apply item_together ht
    intro j _
    rw [if_neg hk]
    apply h3 hb.1
    have : 1 * t.bits ≤ i * t.bits := Nat.mul_le_mul_right _ hi
    omega
  refine ⟨_, rfl, hz, ?_⟩
  intro i j hi hin hj hd ⟨s', h4, h5⟩
  obtain ⟨s'', h6, h7⟩ := hz i hi hin
  have e : s' = s'' := by
    have := h4.symm.trans h6
    exact Option.some.inj this
  subst e
  have h8 := h5 j hj
  rw [h7 j hj] at h8
  have : standard t dv j = dv j := by
    unfold standard
    have := hb.1
    cases hkk : t.kind <;> simp_all
  rw [this, hd] at h8
  cases h8

/-! ### C135: variables with an initial value -/

/-- The types whose initial values the evaluator sets up as given. -/
def Fine (t : VTy) : Prop :=
  match t.kind, t.arr with
  | .prim, _ => ¬ Between t
  | .element, none => True
  | _, none => t.bits ≤ 64
  | .element, some _ => False
  | _, some _ => t.bits ≤ 64 ∧ 71 < t.bits * count t

theorem fill_items (t : VTy) (iv : Bits) (h : t.bits ≤ 64) (k : Nat) :
    fill (fun j => if t.bits ≤ 32 then makeImmediate t.scalar (itemInit t iv j)
        else if t.bits ≤ 64 then makeImmediateLong t.scalar (itemInit t iv j) else none) k =
      some ((List.range k).map fun j =>
        writeBits clear (if t.kind = .prim then 96 - t.bits else 25) t.bits (readBits iv (j * t.bits) t.bits)) := by
  apply fill_spec
  intro j _
  exact immediate_item t _ h

/-- Items in slots of their own hold what is read of the initial value. -/
theorem items_apart_given (t : VTy) (iv : Bits) (ht : ¬ Together t) (i : Nat) (hi : i < count t) :
    ItemIs t ((List.range (slotsNeeded t)).map fun j =>
        writeBits clear (if t.kind = .prim then 96 - t.bits else 25) t.bits (readBits iv (j * t.bits) t.bits)) i
      fun j => iv (i * t.bits + j) := by
  rw [slots_apart ht]
  refine item_apart ht (s := writeBits clear (if t.kind = .prim then 96 - t.bits else 25) t.bits (readBits iv (i * t.bits) t.bits)) ?_ ?_
  · rw [List.getElem?_map, List.getElem?_range hi]
    rfl
  · intro j hj
    exact write_read _ _ _ _ _ _ hj

/-- A new variable with an initial value: item `i` is the `i`-th of the initial value. -/
theorem C135_given_partial (t : VTy) (dv iv : Bits) (ha : Allowed t) (hf : Fine t) :
    ∃ slots, declare t dv (some iv) = .ok slots ∧ slots.length = slotsNeeded t ∧ ∀ i, i < count t → ItemIs t slots i (given t iv i) := by
  rw [not_uneval ha]
  have hgiv : t.kind ≠ .element → ∀ i, given t iv i = fun j => iv (i * t.bits + j) := by
    intro h i
    unfold given
    rw [if_neg h]
  by_cases hk : t.kind = .prim
  · rw [if_pos hk]
    obtain ⟨hb0, hb64⟩ := ha.prim hk
    have hg := hgiv (by rw [hk]; simp)
    have hnb : ¬ Between t := by unfold Fine at hf; rw [hk] at hf; exact hf
    unfold setupPrimitive
    by_cases hl : packFit t = .loadable
    · rw [if_pos hl]
      dsimp only
      obtain ⟨hne, hle⟩ := (loadable_iff t).1 hl
      have ht : Together t := ⟨hne, by omega⟩
      obtain ⟨s, h1, h2⟩ := immediate t iv 0 hle
      rw [h1]
      refine ⟨_, rfl, (slots_together ht).symm, ?_⟩
      intro i hi
      apply item_together ht
      intro j hj
      have := h2 (i * t.bits + j) (item_in hi hj)
      rw [if_pos hk] at this ⊢
      rw [hg, Nat.add_assoc]
      rw [Nat.zero_add] at this
      exact this
    · rw [if_neg hl]
      dsimp only
      have ht : ¬ Together t := by
        intro ht
        apply hnb
        refine ⟨ht.1, ?_, ht.2⟩
        by_contra hc
        exact hl ((loadable_iff t).2 ⟨ht.1, by omega⟩)
      rw [fill_items t iv hb64]
      refine ⟨_, rfl, by simp, ?_⟩
      intro i hi
      rw [hg]
      exact items_apart_given t iv ht i hi
  · rw [if_neg hk]
    unfold setupClass
    cases harr : t.arr with
    | none =>
      dsimp only
      have hc1 : count t = 1 := by unfold count; rw [harr]; rfl
      have htot : t.total = t.bits := by unfold VTy.total; rw [harr]; simp
      by_cases he : t.kind = .element
      · have hl : packFit t ≠ .loadable := fun h => ((loadable_iff t).1 h).1 he
        have ht : ¬ Together t := fun h => h.1 he
        rw [if_neg hl]
        have hsz : sizeof t = 96 := by unfold sizeof; rw [if_pos he, harr]; rfl
        rw [hsz]
        unfold putDataBig
        rw [if_pos (by omega)]
        refine ⟨_, rfl, by rw [slots_apart ht, hc1]; rfl, ?_⟩
        intro i hi
        have : i = 0 := by omega
        subst this
        apply item_apart ht rfl
        intro j hj
        have := ha.rest
        rw [if_neg hk]
        rw [if_pos (by omega)]
        unfold given
        rw [if_pos he]
        congr 1
      · have h64 : t.bits ≤ 64 := by
          unfold Fine at hf
          rw [harr] at hf
          cases hkk : t.kind <;> simp_all
        have hl : packFit t = .loadable := (loadable_iff t).2 ⟨he, by rw [hc1]; omega⟩
        have ht : Together t := ⟨he, by rw [hc1]; omega⟩
        rw [if_pos hl]
        unfold makeImmediateLong
        rw [if_pos (by omega), if_pos (by unfold VTy.cls; cases hkk : t.kind <;> simp_all),
          putDataLong_eq _ _ (by omega) (by omega)]
        refine ⟨_, rfl, (slots_together ht).symm, ?_⟩
        intro i hi
        have : i = 0 := by omega
        subst this
        apply item_together ht
        intro j hj
        rw [if_neg hk, hgiv he, htot, Nat.zero_mul]
        exact write_read _ _ _ _ _ _ hj
    | some n =>
      dsimp only
      have he : t.kind ≠ .element := by
        intro he
        unfold Fine at hf
        rw [he, harr] at hf
        exact hf
      obtain ⟨h64, h71⟩ : t.bits ≤ 64 ∧ 71 < t.bits * count t := by
        unfold Fine at hf
        rw [harr] at hf
        cases hkk : t.kind <;> simp_all
      have hl : packFit t ≠ .loadable := by
        intro hl
        have := ((loadable_iff t).1 hl).2
        omega
      have ht : ¬ Together t := by
        intro ht
        have := ht.2
        omega
      rw [if_neg hl, fill_items t iv h64]
      refine ⟨_, rfl, by simp, ?_⟩
      intro i hi
      rw [hgiv he]
      exact items_apart_given t iv ht i hi

/-- An initialised array of primitives of 65 to 71 bits altogether: its last item is the first of the initial values and all
others are zeros. -/
theorem C135_primitives_fails (t : VTy) (dv iv : Bits) (ha : Allowed t) (n : Nat) (hn : t.arr = some n) (hk : t.kind = .prim)
    (hb : Between t) :
    ∃ slots, declare t dv (some iv) = .ok slots ∧ ItemIs t slots (n - 1) (given t iv 0) ∧
      ∀ i, i < n - 1 → ItemIs t slots i fun _ => false := by
  obtain ⟨hb0, hb64⟩ := ha.prim hk
  have ht : Together t := ⟨hb.1, hb.2.2⟩
  have hcn : count t = n := by unfold count; rw [hn]; rfl
  have h71 := hb.2.2
  rw [hcn] at h71
  have hn0 : 0 < n := by
    have := hb.2.1
    rw [hcn] at this
    rcases Nat.eq_zero_or_pos n with h | h
    · rw [h] at this; omega
    · exact h
  have hl : packFit t ≠ .loadable := by
    intro hl
    have := ((loadable_iff t).1 hl).2
    have := hb.2.1
    omega
  have hend : (n - 1) * t.bits + t.bits = t.bits * n := by
    rw [Nat.mul_comm t.bits, ← Nat.succ_mul]
    congr 1
    omega
  rw [not_uneval ha, if_pos hk]
  unfold setupPrimitive
  rw [if_neg hl]
  dsimp only
  rw [fill_items t iv hb64, slots_together ht]
  refine ⟨_, rfl, ?_, ?_⟩
  · apply item_together ht
    intro j hj
    rw [if_pos hk, hcn, if_pos hk]
    have := write_read clear iv (96 - t.bits) (0 * t.bits) t.bits j hj
    unfold given
    rw [if_neg (by rw [hk]; simp)]
    rw [show 96 - t.bits * n + (n - 1) * t.bits + j = 96 - t.bits + j by omega]
    exact this
  · intro i hi
    apply item_together ht
    intro j hj
    rw [if_pos hk, hcn, if_pos hk]
    have h1 := mul_le_of_lt hi t.bits
    exact (writeBits_other _ _ _ _ _ (.inl (by omega))).trans rfl

/-- An initialised transient of 65 to 71 bits is put 25 bits too far to the left: its first 25 bits are lost. -/
theorem C135_transient_fails (t : VTy) (dv iv : Bits) (ha : Allowed t) (hn : t.arr = none) (hk : t.kind = .transient)
    (hb : 64 < t.bits) :
    ∃ slots, declare t dv (some iv) = .ok slots ∧
      ItemIs t slots 0 fun j => if 25 + j < t.bits then given t iv 0 (25 + j) else false := by
  have h71 := ha.rest
  have hc1 : count t = 1 := by unfold count; rw [hn]; rfl
  have hk' : t.kind ≠ .element := by rw [hk]; simp
  have ht : Together t := ⟨hk', by rw [hc1]; omega⟩
  have hl : packFit t ≠ .loadable := by
    intro hl
    have := ((loadable_iff t).1 hl).2
    rw [hc1] at this
    omega
  rw [not_uneval ha, if_neg (by rw [hk]; simp)]
  unfold setupClass
  rw [hn]
  dsimp only
  have hsz : sizeof t = t.bits := by unfold sizeof VTy.total; rw [if_neg hk', hn]; simp
  rw [if_neg hl, hsz]
  unfold putDataBig
  rw [if_pos (by omega)]
  refine ⟨_, rfl, ?_⟩
  apply item_together ht
  intro j hj
  have hkp : t.kind ≠ .prim := by rw [hk]; simp
  rw [if_neg hkp, Nat.zero_mul, Nat.add_zero]
  unfold given
  rw [if_neg hk', Nat.zero_mul]
  by_cases h : 25 + j < t.bits
  · rw [if_pos h, if_pos (by omega)]
    congr 1
    omega
  · rw [if_neg h, if_neg (by omega)]
    rfl

/-- An initialised array of classes (not elements) of at most 64 bits altogether stops the compiler. -/
theorem C135_classes_fails (t : VTy) (dv iv : Bits) (ha : Allowed t) (n : Nat) (hn : t.arr = some n) (hk : t.kind ≠ .prim)
    (he : t.kind ≠ .element) (h64 : t.bits * n ≤ 64) : declare t dv (some iv) = .abort := by
  rw [not_uneval ha, if_neg hk]
  have hl : packFit t = .loadable := (loadable_iff t).2 ⟨he, by unfold count; rw [hn]; exact h64⟩
  unfold setupClass
  rw [hn]
  dsimp only
  rw [if_pos hl]
  cases packedDefaultClass t dv <;> rfl

/-- In an initialised array of elements, item `i` is not the `i`-th initial value but the bits from `i` times the size on, as if
the elements had no type and were next to each other. -/
theorem C135_elements_fails (t : VTy) (dv iv : Bits) (ha : Allowed t) (n : Nat) (hn : t.arr = some n) (hk : t.kind = .element)
    (h64 : t.bits ≤ 64) :
    ∃ slots, declare t dv (some iv) = .ok slots ∧ ∀ i, i < n → ItemIs t slots i fun j => iv (i * t.bits + j) := by
  have hl : packFit t ≠ .loadable := fun h => ((loadable_iff t).1 h).1 hk
  have ht : ¬ Together t := fun h => h.1 hk
  rw [not_uneval ha, if_neg (by rw [hk]; simp)]
  unfold setupClass
  rw [hn]
  dsimp only
  rw [if_neg hl, fill_items t iv h64]
  refine ⟨_, rfl, ?_⟩
  intro i hi
  exact items_apart_given t iv ht i (by unfold count; rw [hn]; exact hi)

/-! ### Examples -/

/-- Three quarks of 10 bits, with default 0b1000000001. -/
def threeQuarks : VTy := ⟨.quark, 10, some 3, false⟩
/-- Ten unsigned numbers of 7 bits. -/
def tenSevens : VTy := ⟨.prim, 7, some 10, false⟩
/-- Three quarks of 23 bits. -/
def wideQuarks : VTy := ⟨.quark, 23, some 3, false⟩

example : Allowed threeQuarks ∧ 0 < count threeQuarks ∧ ¬ Between threeQuarks := by
  refine ⟨⟨?_, by decide, by decide⟩, by decide, ?_⟩
  · intro h; cases h
  · rintro ⟨_, h, _⟩; revert h; decide

example : Allowed tenSevens ∧ Between tenSevens ∧ ¬ Fine tenSevens := by
  refine ⟨⟨fun _ => by decide, by decide, by decide⟩, ⟨by decide, by decide, by decide⟩, ?_⟩
  intro h
  exact h ⟨by decide, by decide, by decide⟩

example : Allowed wideQuarks ∧ Between wideQuarks := by
  refine ⟨⟨?_, by decide, by decide⟩, by decide, by decide, by decide⟩
  intro h; cases h

example : Fine ⟨.prim, 33, some 5, false⟩ ∧ Fine ⟨.element, 40, none, false⟩ ∧ Fine ⟨.quark, 32, some 5, false⟩ :=
  ⟨fun h => absurd h.2.2 (by decide), trivial, by decide, by decide⟩

/-- The default 0b1000000001 in each of the three quarks: the first and the last bits of the items at 25, 35 and 45. -/
example : (match declare threeQuarks (fun i => i == 0 || i == 9) none with
    | .ok [s] => (List.range 96).filter s
    | _ => []) = [25, 34, 35, 44, 45, 54] := by decide +kernel

/-- Ten sevens initialised with ones only in the first: they end up in the last. -/
example : (match declare tenSevens clear (some fun i => decide (i < 7)) with
    | .ok [s] => (List.range 96).filter s
    | _ => []) = [89, 90, 91, 92, 93, 94, 95] := by decide +kernel

end Ulam.VarInit
