import Verif.ConstSlot.Model
import Verif.VarInit.Props
/-! # Properties of the constants of the evaluator (C136) -/
namespace Ulam.ConstSlot
open Ulam.Packed Ulam.VarInit Ulam.VarInit.Spec

/-- The folded value of a list of initialisers: the last one is repeated, and without any all is zero. -/
def Folded (t : VTy) (value : Bits) : Init → Prop
  | .nothing => ∀ i j, i < count t → j < t.bits → value (i * t.bits + j) = false
  | .list vals =>
    (vals = [] → ∀ i j, i < count t → j < t.bits → value (i * t.bits + j) = false) ∧
      ∀ i, i < count t → vals ≠ [] → ∃ v, vals[min i (vals.length - 1)]? = some v ∧ Holds value (i * t.bits) t.bits v

/-- The folded value of an empty list for a class: the default in every item. -/
def FoldedDefault (t : VTy) (value dv : Bits) : Prop :=
  ∀ i j, i < count t → j < t.bits → given t value i j = standard t dv j

theorem loadable_class (t : VTy) (value : Bits) (h : t.total ≤ 64) :
    ∃ s, (if t.total ≤ 32 then makeImmediateClass (readBits value 0 t.total % 2 ^ 32) t.total
        else if t.total ≤ 64 then makeImmediateLongClass (readBits value 0 t.total) t.total else none) = some s ∧
      ∀ j, j < t.total → s (25 + j) = value j := by
  by_cases h32 : t.total ≤ 32
  · rw [if_pos h32, read_mod _ _ _ h32]
    unfold makeImmediateClass
    rw [if_pos h32, putData_eq _ _ h32 (by omega)]
    exact ⟨_, rfl, fun j hj => by rw [write_read _ _ _ _ _ _ hj, Nat.zero_add]⟩
  · rw [if_neg h32, if_pos h]
    unfold makeImmediateLongClass
    rw [if_pos h, putDataLong_eq _ _ h (by omega)]
    exact ⟨_, rfl, fun j hj => by rw [write_read _ _ _ _ _ _ hj, Nat.zero_add]⟩

theorem item_value (t : VTy) (v : Nat) (h : t.bits ≤ 64) :
    itemValue t v = some (writeBits clear (if t.kind = .prim then 96 - t.bits else 25) t.bits v) := immediate_item t v h

theorem immediate_class (value : Bits) (p b : Nat) (h : b ≤ 64) :
    (if b ≤ 32 then makeImmediateClass (readBits value p b) b else if b ≤ 64 then makeImmediateLongClass (readBits value p b) b
      else none) = some (writeBits clear 25 b (readBits value p b)) := by
  by_cases h32 : b ≤ 32
  · rw [if_pos h32]
    unfold makeImmediateClass
    rw [if_pos h32, putData_eq _ _ h32 (by omega)]
  · rw [if_neg h32, if_pos h]
    unfold makeImmediateLongClass
    rw [if_pos h, putDataLong_eq _ _ h (by omega)]

theorem const_item (t : VTy) (value : Bits) (j : Nat) (ha : Allowed t) (hk : t.kind ≠ .prim) (hq : t.kind = .quark → t.bits ≤ 64) :
    ∃ s, constItem t value j = some s ∧ (∀ k, k < t.bits → s (25 + k) = given t value j k) ∧
      (t.kind ≠ .element → ∀ k, 25 + t.bits ≤ k → s k = false) := by
  have h71 := ha.rest
  unfold constItem given
  cases hkk : t.kind with
  | prim => exact absurd hkk hk
  | quark =>
    dsimp only
    rw [immediate_class _ _ _ (hq hkk)]
    refine ⟨_, rfl, ?_, ?_⟩
    · intro k hk'
      rw [if_neg (by simp)]
      exact write_read _ _ _ _ _ _ hk'
    · intro _ k hk'
      exact (writeBits_other _ _ _ _ _ (.inr (by omega))).trans rfl
  | element =>
    dsimp only
    unfold putDataBig
    rw [if_pos (by omega)]
    refine ⟨_, rfl, ?_, fun h => absurd rfl h⟩
    intro k hk'
    rw [if_pos (by omega), if_pos rfl]
    show value (j * 96 + (25 + k - 0)) = value (96 * j + 25 + k)
    congr 1
    omega
  | transient =>
    dsimp only
    by_cases h64 : t.bits ≤ 64
    · have := immediate_class value (j * t.bits) t.bits h64
      by_cases h32 : t.bits ≤ 32
      · rw [if_pos h32] at this ⊢
        rw [this]
        refine ⟨_, rfl, ?_, ?_⟩
        · intro k hk'
          rw [if_neg (by simp)]
          exact write_read _ _ _ _ _ _ hk'
        · intro _ k hk'
          exact (writeBits_other _ _ _ _ _ (.inr (by omega))).trans rfl
      · rw [if_neg h32, if_pos h64] at this ⊢
        rw [this]
        refine ⟨_, rfl, ?_, ?_⟩
        · intro k hk'
          rw [if_neg (by simp)]
          exact write_read _ _ _ _ _ _ hk'
        · intro _ k hk'
          exact (writeBits_other _ _ _ _ _ (.inr (by omega))).trans rfl
    · rw [if_neg (by omega), if_neg h64, if_pos h71]
      unfold putDataBig
      rw [if_pos (by omega)]
      refine ⟨_, rfl, ?_, ?_⟩
      · intro k hk'
        rw [if_pos (by omega), if_neg (by simp)]
        congr 1
        omega
      · intro _ k hk'
        rw [if_neg (by omega)]
        rfl

theorem fill_ex (f : Nat → Option Bits) : ∀ n, (∀ j, j < n → ∃ s, f j = some s) →
    ∃ l, fill f n = some l ∧ l.length = n ∧ ∀ j, j < n → l[j]? = f j := by
  intro n
  induction n with
  | zero => intro _; exact ⟨[], rfl, rfl, fun j hj => absurd hj (by omega)⟩
  | succ n ih =>
    intro h
    obtain ⟨l, h1, h2, h3⟩ := ih fun j hj => h j (by omega)
    obtain ⟨s, hs⟩ := h n (by omega)
    refine ⟨l ++ [s], ?_, by simp [h2], ?_⟩
    · unfold fill; rw [h1, hs]; rfl
    · intro j hj
      by_cases hjn : j < n
      · rw [List.getElem?_append_left (by omega)]; exact h3 j hjn
      · rw [show j = n by omega, List.getElem?_append_right (by omega), h2, hs]
        simp

theorem scalar_zero {t : VTy} (h : t.arr = none) : count t = 1 := by unfold count; rw [h]; rfl

/-- Items next to each other read out of one value at 25. -/
theorem loadable_items (t : VTy) (value s : Bits) (ht : Together t) (hk : t.kind ≠ .prim)
    (h : ∀ j, j < t.total → s (25 + j) = value j) (i : Nat) (hi : i < count t) : ItemIs t [s] i (given t value i) := by
  apply item_together ht
  intro j hj
  rw [if_neg hk, Nat.add_assoc, h _ (item_in hi hj)]
  unfold given
  rw [if_neg ht.1]

/-- A single item that is not an element: Together or not, it is in the first slot. -/
theorem item_first {t : VTy} {s : Bits} {val : Nat → Bool}
    (hk : t.kind ≠ .prim) (hv : ∀ j, j < t.bits → s (25 + j) = val j) : ItemIs t [s] 0 val := by
  by_cases ht : Together t
  · apply item_together ht
    intro j hj
    rw [if_neg hk, Nat.zero_mul]
    exact hv j hj
  · apply item_apart ht rfl
    intro j hj
    rw [if_neg hk]
    exact hv j hj

theorem not_loadable_apart {t : VTy} (hl : packFit t ≠ .loadable) (hb : ¬ Between t) : ¬ Together t := by
  intro ht
  apply hb
  refine ⟨ht.1, ?_, ht.2⟩
  by_contra hc
  exact hl ((loadable_iff t).2 ⟨ht.1, by omega⟩)

/-- A constant of a primitive type: item `i` is the `i`-th of the folded value, unless it is an array of 65 to 71 bits
altogether. -/
theorem C136_primitives_partial (t : VTy) (value dv : Bits) (init : Init) (empty : Bool) (idx : Nat) (ha : Allowed t)
    (hk : t.kind = .prim) (hb : ¬ Between t) (hf : Folded t value init) :
    ∃ slots, assignSlots t value dv init empty idx = (.ok slots, idx + slots.length) ∧
      ∀ i, i < count t → ItemIs t slots i (given t value i) := by
  obtain ⟨hb0, hb64⟩ := ha.prim hk
  have hke : t.kind ≠ .element := by rw [hk]; simp
  have hg : ∀ i, given t value i = fun j => value (i * t.bits + j) := by
    intro i; unfold given; rw [if_neg hke]
  unfold assignSlots
  rw [if_pos hk]
  unfold constPrimitive
  by_cases hl : packFit t = .loadable
  · rw [if_pos hl]
    dsimp only
    obtain ⟨hne, hle⟩ := (loadable_iff t).1 hl
    have ht : Together t := ⟨hne, by omega⟩
    obtain ⟨s, h1, h2⟩ := immediate t value 0 hle
    rw [h1, slots_together ht]
    refine ⟨_, rfl, ?_⟩
    intro i hi
    apply item_together ht
    intro j hj
    have := h2 (i * t.bits + j) (item_in hi hj)
    rw [if_pos hk] at this ⊢
    rw [hg, Nat.add_assoc]
    rw [Nat.zero_add] at this
    exact this
  · rw [if_neg hl]
    have ht := not_loadable_apart hl hb
    have hzero : (∀ i j, i < count t → j < t.bits → value (i * t.bits + j) = false) → ∀ i, i < count t →
        ItemIs t (List.replicate (slotsNeeded t) (writeBits clear (if t.kind = .prim then 96 - t.bits else 25) t.bits 0)) i
          (given t value i) := by
      intro hz i hi
      rw [slots_apart ht]
      apply item_apart ht (replicate_get hi)
      intro j hj
      rw [hg]
      show _ = value (i * t.bits + j)
      rw [hz i j hi hj]
      exact write_zero _ _ _
    cases init with
    | nothing =>
      dsimp only
      rw [item_value t 0 hb64]
      dsimp only
      refine ⟨_, by rw [List.length_replicate], ?_⟩
      exact hzero hf
    | list vals =>
      dsimp only
      rw [item_value t 0 hb64]
      dsimp only
      by_cases hn : vals.length = 0
      · rw [if_pos hn]
        refine ⟨_, by rw [List.length_replicate], ?_⟩
        exact hzero (hf.1 (List.length_eq_zero_iff.1 hn))
      · rw [if_neg hn]
        have hne : vals ≠ [] := fun h => hn (by rw [h]; rfl)
        have hidx : ∀ j, (if j < vals.length then j else vals.length - 1) = min j (vals.length - 1) := by
          intro j; split <;> omega
        obtain ⟨l, h1, h2, h3⟩ := fill_ex (fun j => (vals[if j < vals.length then j else vals.length - 1]?).bind (itemValue t))
          (slotsNeeded t) (by
            intro j hj
            rw [slots_apart ht] at hj
            obtain ⟨v, hv, _⟩ := hf.2 j hj hne
            refine ⟨writeBits clear (if t.kind = .prim then 96 - t.bits else 25) t.bits v, ?_⟩
            rw [hidx, hv]
            exact item_value t v hb64)
        rw [h1]
        refine ⟨l, by rw [h2]; rfl, ?_⟩
        intro i hi
        obtain ⟨v, hv, hh⟩ := hf.2 i hi hne
        have h4 := h3 i (by rw [slots_apart ht]; exact hi)
        rw [hidx, hv] at h4
        refine item_apart ht (h4.trans (item_value t v hb64)) ?_
        intro j hj
        rw [hg]
        have h5 := hh.2 j hj
        show _ = value (i * t.bits + j)
        rw [h5]
        exact ((writeBits_holds clear _ t.bits v hh.1).2 j hj)

/-- A constant of a class: item `i` is the `i`-th of the folded value. This leaves out arrays of quarks or transients of 65 to 71
bits altogether, and constants without initialisers that are of quarks of more than 32 bits or of transients. -/
theorem C136_classes_partial (t : VTy) (value dv : Bits) (init : Init) (empty : Bool) (idx : Nat) (ha : Allowed t)
    (hk : t.kind ≠ .prim) (hq : t.kind = .quark → t.bits ≤ 64) (hb : count t ≠ 1 → ¬ Between t)
    (he : empty = true → FoldedDefault t value dv ∧ (packFit t = .loadable ∨ t.kind = .element ∨ t.kind = .quark ∧ t.bits ≤ 32)) :
    ∃ slots, assignSlots t value dv init empty idx = (.ok slots, idx + slots.length) ∧
      ∀ i, i < count t → ItemIs t slots i (given t value i) := by
  have h71 := ha.rest
  unfold assignSlots
  rw [if_neg hk, if_pos (.inr (.inr h71))]
  unfold constClass
  by_cases hl : packFit t = .loadable
  · rw [if_pos hl]
    dsimp only
    obtain ⟨hne, hle⟩ := (loadable_iff t).1 hl
    have ht : Together t := ⟨hne, by omega⟩
    obtain ⟨s, h1, h2⟩ := loadable_class t value hle
    rw [h1, slots_together ht]
    exact ⟨_, rfl, loadable_items t value s ht hk h2⟩
  · rw [if_neg hl]
    -- one slot for each item, whether there is one item or there are many
    have hslots : slotsNeeded t = count t := by
      by_cases hc : count t = 1
      · by_cases ht : Together t
        · rw [slots_together ht, hc]
        · exact slots_apart ht
      · exact slots_apart (not_loadable_apart hl (hb hc))
    have hitem : ∀ (l : List Bits) (val : Nat → Nat → Bool), l.length = count t →
        (∀ i, i < count t → ∃ s, l[i]? = some s ∧ ∀ j, j < t.bits → s (25 + j) = val i j) →
        ∀ i, i < count t → ItemIs t l i (val i) := by
      intro l val hlen h i hi
      by_cases hc : count t = 1
      · have : i = 0 := by omega
        subst this
        obtain ⟨s, h1, h2⟩ := h 0 hi
        match l, hlen with
        | [x], _ =>
          have : x = s := by simpa using h1
          subst this
          exact item_first hk h2
        | [], hlen => rw [hc] at hlen; simp at hlen
        | _ :: _ :: _, hlen => rw [hc] at hlen; simp at hlen
      · obtain ⟨s, h1, h2⟩ := h i hi
        refine item_apart (not_loadable_apart hl (hb hc)) h1 ?_
        intro j hj
        rw [if_neg hk]
        exact h2 j hj
    by_cases hem : empty = true
    · rw [if_pos hem]
      obtain ⟨hfd, hcase⟩ := he hem
      obtain ⟨s, h1, h2⟩ : ∃ s, constDefault t dv = some s ∧ ∀ j, j < t.bits → s (25 + j) = standard t dv j := by
        rcases hcase with h | h | ⟨h, h32⟩
        · exact absurd h hl
        · obtain ⟨s, h1, h2, _⟩ := default_atom t dv h71 hk
          refine ⟨s, ?_, h2⟩
          unfold constDefault
          rw [h]
          exact h1
        · unfold constDefault
          rw [h]
          dsimp only
          rw [read_mod _ _ _ h32]
          unfold makeImmediateLongClass
          rw [if_pos (by omega), putDataLong_eq _ _ (by omega) (by omega)]
          refine ⟨_, rfl, ?_⟩
          intro j hj
          rw [write_read _ _ _ _ _ _ hj, Nat.zero_add]
          unfold standard
          rw [h]
      rw [h1]
      dsimp only
      refine ⟨_, by rw [List.length_replicate], ?_⟩
      apply hitem _ (given t value) (by rw [List.length_replicate, hslots])
      intro i hi
      refine ⟨s, by rw [hslots]; exact replicate_get hi, ?_⟩
      intro j hj
      rw [h2 j hj, hfd i j hi hj]
    · rw [if_neg hem]
      obtain ⟨l, h1, h2, h3⟩ := fill_ex (constItem t value) (slotsNeeded t)
        (fun j _ => by obtain ⟨s, h, _⟩ := const_item t value j ha hk hq; exact ⟨s, h⟩)
      rw [h1]
      refine ⟨l, by rw [h2]; rfl, ?_⟩
      apply hitem l (given t value) (by rw [h2, hslots])
      intro i hi
      obtain ⟨s, h4, h5, _⟩ := const_item t value i ha hk hq
      exact ⟨s, by rw [h3 i (by rw [hslots]; exact hi), h4], h5⟩

/-- A constant array of primitives of 65 to 71 bits altogether: its last item is the first of the initialisers, the others are
zeros. -/
theorem C136_primitives_fails (t : VTy) (value dv : Bits) (v : Nat) (vals : List Nat) (empty : Bool) (idx : Nat) (ha : Allowed t)
    (n : Nat) (hn : t.arr = some n) (hk : t.kind = .prim) (hb : Between t) (hf : Folded t value (.list (v :: vals))) :
    ∃ slots, assignSlots t value dv (.list (v :: vals)) empty idx = (.ok slots, idx + 1) ∧
      ItemIs t slots (n - 1) (given t value 0) ∧ ∀ i, i < n - 1 → ItemIs t slots i fun _ => false := by
  obtain ⟨hb0, hb64⟩ := ha.prim hk
  have ht : Together t := ⟨hb.1, hb.2.2⟩
  have hcn : count t = n := by unfold count; rw [hn]; rfl
  have h71 := hb.2.2
  have h64 := hb.2.1
  rw [hcn] at h71 h64
  have hn0 : 0 < n := by
    rcases Nat.eq_zero_or_pos n with h | h
    · rw [h] at h64; omega
    · exact h
  have hl : packFit t ≠ .loadable := by
    intro hl
    have := ((loadable_iff t).1 hl).2
    rw [hcn] at this
    omega
  have hend : (n - 1) * t.bits + t.bits = t.bits * n := by
    rw [Nat.mul_comm t.bits, ← Nat.succ_mul]
    congr 1
    omega
  unfold assignSlots
  rw [if_pos hk]
  unfold constPrimitive
  rw [if_neg hl]
  dsimp only
  rw [item_value t 0 hb64]
  dsimp only
  rw [if_neg (by simp), slots_together ht]
  have hfill : fill (fun j => ((v :: vals)[if j < (v :: vals).length then j else (v :: vals).length - 1]?).bind (itemValue t)) 1 =
      some [writeBits clear (if t.kind = .prim then 96 - t.bits else 25) t.bits v] := by
    unfold fill fill
    rw [if_pos (by simp)]
    simp only [List.getElem?_cons_zero, Option.bind_some]
    rw [item_value t v hb64]
    rfl
  rw [hfill]
  obtain ⟨w, hw, hh⟩ := hf.2 0 (by omega) (by simp)
  rw [Nat.zero_min] at hw
  have hvw : v = w := by simpa using hw
  subst hvw
  refine ⟨_, rfl, ?_, ?_⟩
  · apply item_together ht
    intro j hj
    rw [if_pos hk, hcn, if_pos hk, show 96 - t.bits * n + (n - 1) * t.bits + j = 96 - t.bits + j by omega]
    unfold given
    rw [if_neg hb.1]
    exact ((writeBits_holds clear _ t.bits v hh.1).2 j hj).trans (hh.2 j hj).symm
  · intro i hi
    apply item_together ht
    intro j hj
    have h1 := mul_le_of_lt hi t.bits
    rw [if_pos hk, hcn, if_pos hk]
    exact (writeBits_other _ _ _ _ _ (.inl (by omega))).trans rfl

/-- A constant array of quarks or transients of 65 to 71 bits altogether: all items but the first are zeros. -/
theorem C136_classes_fails (t : VTy) (value dv : Bits) (init : Init) (idx : Nat) (ha : Allowed t) 
    (hk : t.kind ≠ .prim) (hq : t.kind = .quark → t.bits ≤ 64) (hb : Between t) :
    ∃ slots, assignSlots t value dv init false idx = (.ok slots, idx + 1) ∧ ItemIs t slots 0 (given t value 0) ∧
      ∀ i, 0 < i → i < count t → ItemIs t slots i fun _ => false := by
  have ht : Together t := ⟨hb.1, hb.2.2⟩
  have hl : packFit t ≠ .loadable := by
    intro hl
    have := ((loadable_iff t).1 hl).2
    have := hb.2.1
    omega
  unfold assignSlots
  rw [if_neg hk, if_pos (.inr (.inr ha.rest))]
  unfold constClass
  rw [if_neg hl, if_neg (by simp), slots_together ht]
  obtain ⟨s, h1, h2, h3⟩ := const_item t value 0 ha hk hq
  have hfill : fill (constItem t value) 1 = some [s] := by
    unfold fill fill
    rw [h1]
    rfl
  rw [hfill]
  refine ⟨_, rfl, ?_, ?_⟩
  · apply item_together ht
    intro j hj
    rw [if_neg hk, Nat.zero_mul]
    exact h2 j hj
  · intro i hi _
    apply item_together ht
    intro j _
    rw [if_neg hk]
    apply h3 hb.1
    have : 1 * t.bits ≤ i * t.bits := Nat.mul_le_mul_right _ hi
    omega

/-- A constant array of quarks of more than 32 bits without initialisers: of the default only the last 32 bits remain, the
bits before are zeros. -/
theorem C136_default_fails (t : VTy) (value dv : Bits) (init : Init) (idx : Nat) (n : Nat)
    (hn : t.arr = some n) (hk : t.kind = .quark) (h64 : t.bits ≤ 64) (h32 : 32 < t.bits) (hb : 71 < t.bits * n) :
    ∃ slots, assignSlots t value dv init true idx = (.ok slots, idx + n) ∧
      ∀ i, i < n → ItemIs t slots i fun j => if j < t.bits - 32 then false else standard t dv j := by
  have hcn : count t = n := by unfold count; rw [hn]; rfl
  have hkp : t.kind ≠ .prim := by rw [hk]; simp
  have ht : ¬ Together t := by
    intro ht
    have := ht.2
    rw [hcn] at this
    omega
  have hl : packFit t ≠ .loadable := by
    intro hl
    have := ((loadable_iff t).1 hl).2
    rw [hcn] at this
    omega
  unfold assignSlots
  rw [if_neg hkp, if_pos (.inr (.inl hk))]
  unfold constClass
  rw [if_neg hl, if_pos rfl, slots_apart ht, hcn]
  unfold constDefault
  rw [hk]
  dsimp only
  unfold makeImmediateLongClass
  rw [if_pos h64, putDataLong_eq _ _ h64 (by omega)]
  dsimp only
  refine ⟨_, rfl, ?_⟩
  intro i hi
  apply item_apart ht (replicate_get hi)
  intro j hj
  rw [if_neg hkp]
  unfold writeBits
  rw [if_pos (by omega), Nat.testBit_mod_two_pow]
  have hst : standard t dv j = dv j := by unfold standard; rw [hk]
  have hh := (readBits_holds dv 0 t.bits).2 j hj
  rw [Nat.zero_add] at hh
  by_cases h : j < t.bits - 32
  · rw [if_pos h, decide_eq_false (by omega), Bool.false_and]
  · rw [if_neg h, decide_eq_true (by omega), Bool.true_and, hst, hh]
    congr 1
    omega

/-! ### Examples -/

/-- Five numbers of 33 bits given by two initialisers. -/
example : (match (assignSlots ⟨.prim, 33, some 5, false⟩ clear clear (.list [6, 9]) false 3) with
    | (.ok l, k) => (l.map fun s => (List.range 96).filter s, k)
    | _ => ([], 0)) = ([[93, 94], [92, 95], [92, 95], [92, 95], [92, 95]], 8) := by decide +kernel

/-- Two elements of 10 bits: each has its type, and a value at 25. -/
example : (match (assignSlots ⟨.element, 10, some 2, false⟩ (fun i => i == 3 || i == 26 || i == 99 || i == 127) clear .nothing false 1) with
    | (.ok l, k) => (l.map fun s => (List.range 96).filter s, k)
    | _ => ([], 0)) = ([[3, 26], [3, 31]], 3) := by decide +kernel

/-- Three quarks of 40 bits with default 1 in the first and the last bit: the first is lost. -/
example : (match (assignSlots ⟨.quark, 40, some 3, false⟩ clear (fun i => i == 0 || i == 39) .nothing true 1) with
    | (.ok l, k) => (l.map fun s => (List.range 96).filter s, k)
    | _ => ([], 0)) = ([[64], [64], [64]], 4) := by decide +kernel

example : Allowed ⟨.quark, 32, some 5, false⟩ ∧ ¬ Between ⟨.quark, 32, some 5, false⟩ := by
  refine ⟨⟨?_, by decide, by decide⟩, ?_⟩
  · intro h; cases h
  · rintro ⟨_, _, h⟩; revert h; decide

/-- Initialisers and their folded value: 6 and 9, twice, in 33 bits each. -/
example : Folded ⟨.prim, 33, some 3, false⟩ (fun i => i == 30 || i == 31 || i == 62 || i == 65 || i == 95 || i == 98) (.list [6, 9]) := by
  refine ⟨fun h => (by cases h), ?_⟩
  intro i hi _
  have hi3 : i < 3 := hi
  have h0 : ∀ k : Fin 3, ∃ v, ([6, 9] : List Nat)[min k.val 1]? = some v ∧
      v < 2 ^ 33 ∧ ∀ j : Fin 33, (fun i => i == 30 || i == 31 || i == 62 || i == 65 || i == 95 || i == 98) (k.val * 33 + j.val) = v.testBit (33 - 1 - j.val) := by
    intro k
    match k with
    | 0 => exact ⟨6, rfl, by decide, by decide +kernel⟩
    | 1 => exact ⟨9, rfl, by decide, by decide +kernel⟩
    | 2 => exact ⟨9, rfl, by decide, by decide +kernel⟩
  obtain ⟨v, h1, h2, h3⟩ := h0 ⟨i, hi3⟩
  exact ⟨v, h1, h2, fun j hj => h3 ⟨j, hj⟩⟩

end Ulam.ConstSlot
