import Verif.ElemType.Model
import Mathlib.Data.Fintype.Card
import Mathlib.Data.Finset.Card
import Mathlib.Order.Interval.Finset.Nat
import Mathlib.Tactic.ByContra
import Mathlib.Tactic.Ring
import Mathlib.Tactic.Push
namespace Ulam.ElemType

theorem highIdx_le (c : Nat) : ∀ i, highIdx c i ≤ i
  | 0 => by simp [highIdx]
  | i + 1 => by
    simp only [highIdx]; split
    · have := highIdx_le c i; omega
    · omega

theorem highIdx_pos (c : Nat) : ∀ i, 1 ≤ i → 1 ≤ highIdx c i
  | 0, h => by omega
  | i + 1, _ => by
    simp only [highIdx]; split
    · next h => exact highIdx_pos c i (by omega)
    · omega

theorem spread_lt (c b : Nat) : ∀ i k t, t < 2 ^ (k * b) → spread c b (2 ^ b - 1) i t < 2 ^ ((k + i) * b)
  | 0, k, t, h => by simpa [spread] using h
  | i + 1, k, t, h => by
    simp only [spread]
    have hs : (t <<< b) % u32Range < 2 ^ ((k + 1) * b) := by
      refine Nat.lt_of_le_of_lt (Nat.mod_le _ _) ?_
      rw [Nat.shiftLeft_eq, Nat.add_mul, Nat.one_mul, Nat.pow_add]
      exact Nat.mul_lt_mul_of_pos_right h (Nat.two_pow_pos b)
    have hb : 2 ^ b - 1 < 2 ^ ((k + 1) * b) := by
      have h1 : 2 ^ b ≤ 2 ^ ((k + 1) * b) :=
        Nat.pow_le_pow_right (by omega) (by rw [Nat.add_mul, Nat.one_mul]; omega)
      have := Nat.two_pow_pos b
      omega
    have : k + (i + 1) = (k + 1) + i := by omega
    rw [this]
    apply spread_lt
    split
    · exact Nat.or_lt_two_pow hs hb
    · exact hs

theorem tryType_lt (c : Nat) : tryType c < 65536 := by
  unfold tryType
  have h := spread_lt c (typeBits / highIdx c 31) (highIdx c 31) 0 0 (Nat.two_pow_pos _)
  have h2 : 2 ^ ((0 + highIdx c 31) * (typeBits / highIdx c 31)) ≤ 2 ^ 16 := by
    apply Nat.pow_le_pow_right (by omega)
    rw [Nat.zero_add, Nat.mul_comm]
    exact Nat.div_mul_le_self _ _
  exact Nat.lt_of_lt_of_le h h2

theorem mod_two_pow_succ (c i : Nat) : c % 2 ^ (i + 1) = c % 2 ^ i + 2 ^ i * (c.testBit i).toNat := by
  rw [Nat.pow_succ, Nat.mod_mul]
  congr 2
  rw [Nat.testBit_eq_decide_div_mod_eq]
  have := Nat.mod_lt (c / 2 ^ i) (show 2 > 0 by omega)
  by_cases h : c / 2 ^ i % 2 = 1
  · simp [h]
  · have h0 : c / 2 ^ i % 2 = 0 := by omega
    simp [h0]

theorem spread_one (c : Nat) : ∀ i t, (t + 1) * 2 ^ i ≤ u32Range →
    spread c 1 1 i t = t * 2 ^ i + c % 2 ^ i
  | 0, t, _ => by simp [spread, Nat.mod_one]
  | i + 1, t, h => by
    simp only [spread]
    have hp : 2 ^ (i + 1) = 2 * 2 ^ i := by rw [Nat.pow_succ]; omega
    have hpos := Nat.two_pow_pos i
    rw [hp] at h
    have h' : (2 * t + 2) * 2 ^ i ≤ u32Range := by
      have : (2 * t + 2) * 2 ^ i = (t + 1) * (2 * 2 ^ i) := by ring
      omega
    have hlt : 2 * t + 2 ≤ u32Range := Nat.le_trans (Nat.le_mul_of_pos_right _ hpos) h'
    have hs : (t <<< 1) % u32Range = 2 * t := by
      rw [Nat.shiftLeft_eq, Nat.mod_eq_of_lt] <;> omega
    rw [hs, mod_two_pow_succ]
    have hor : (2 * t) ||| 1 = 2 * t + 1 := by
      have := Nat.shiftLeft_add_eq_or_of_lt (i := 1) (b := 1) (by omega) t
      rw [Nat.shiftLeft_eq] at this
      have e : t * 2 ^ 1 = 2 * t := by omega
      rw [e] at this; exact this.symm
    rw [hor, hp]
    cases hb : c.testBit i
    · simp only [Bool.toNat_false, Bool.false_eq_true, if_false]
      rw [spread_one c i (2 * t) (Nat.le_trans (Nat.mul_le_mul_right _ (by omega)) h')]
      ring
    · simp only [Bool.toNat_true, if_true]
      rw [spread_one c i (2 * t + 1) (by simpa using h')]
      ring

theorem highIdx_top (t : Nat) (h : t < 65536) : ∀ k, highIdx (65536 + t) (16 + k) = 16
  | 0 => by
    have : (65536 + t).testBit 16 = true := by
      have := Nat.testBit_two_pow_add_eq t 16
      rw [Nat.testBit_lt_two_pow (x := t) (i := 16) (by omega)] at this
      simpa using this
    simp [highIdx, this]
  | k + 1 => by
    have hz : (65536 + t).testBit (16 + k + 1) = false := by
      apply Nat.testBit_lt_two_pow
      have : 2 ^ 17 ≤ 2 ^ (16 + k + 1) := Nat.pow_le_pow_right (by omega) (by omega)
      omega
    have : 16 + (k + 1) = (16 + k) + 1 := by omega
    rw [this]
    simp only [highIdx, hz, and_true]
    rw [if_pos (by omega)]
    exact highIdx_top t h k

/-- Every 16-bit number is tried, at counter 65536 and on. -/
theorem tryType_top (t : Nat) (h : t < 65536) : tryType (65536 + t) = t := by
  unfold tryType
  have : highIdx (65536 + t) 31 = 16 := highIdx_top t h 15
  rw [this]
  show spread (65536 + t) 1 1 16 0 = t
  rw [spread_one _ _ _ (by decide)]
  omega

/-- A type that may be handed out. -/
def okType (t : Nat) : Prop := 0 < t ∧ t < 65535

instance (t : Nat) : Decidable (okType t) := inferInstanceAs (Decidable (_ ∧ _))

/-- Everything the retry loop keeps true: known types are usable, distinct, and every usable type
tried at some counter value up to the present one is known. -/
structure Inv (counter : Nat) (known : List Nat) : Prop where
  bound : counter < 131072
  good : ∀ t ∈ known, okType t
  nodup : known.Nodup
  tried : ∀ c, 2 < c → c ≤ counter → okType (tryType c) → tryType c ∈ known

theorem okType_iff (c : Nat) : okType (tryType c) ↔ ¬ (tryType c = emptyType ∨ tryType c = undefinedType) := by
  have := tryType_lt c
  unfold okType emptyType undefinedType
  omega

theorem makeAType_some : ∀ (fuel c : Nat) (known : List Nat), Inv c known →
    (∃ t, okType t ∧ t ∉ known) → 2 ≤ c → 131072 - c ≤ fuel →
    ∃ t c', makeAType fuel c known = some (t, c', t :: known) ∧
      okType t ∧ t ∉ known ∧ 2 ≤ c' ∧ Inv c' (t :: known)
  | 0, c, known, inv, _, _, hf => by have := inv.bound; omega
  | fuel + 1, c, known, inv, ⟨u, hu, hun⟩, h2, hf => by
    have hcb := inv.bound
    have hlt : c < 65536 + u := by
      by_contra hge
      have htop : tryType (65536 + u) = u := tryType_top u (by have := hu.2; omega)
      have := inv.tried (65536 + u) (by omega) (by omega) (by rw [htop]; exact hu)
      rw [htop] at this
      exact hun this
    have hu2 := hu.2
    have hmod : (c + 1) % u32Range = c + 1 := Nat.mod_eq_of_lt (by unfold u32Range; omega)
    simp only [makeAType, hmod]
    have hty := tryType_lt (c + 1)
    rw [Nat.mod_eq_of_lt hty]
    by_cases hc : tryType (c + 1) = emptyType ∨ tryType (c + 1) = undefinedType ∨ tryType (c + 1) ∈ known
    · rw [if_pos hc]
      refine makeAType_some fuel (c + 1) known ⟨by omega, inv.good, inv.nodup, ?_⟩ ⟨u, hu, hun⟩ (by omega) (by omega)
      intro d hd hd' hok
      by_cases e : d = c + 1
      · subst e
        rcases hc with h | h | h
        · exact absurd (Or.inl h) ((okType_iff _).mp hok)
        · exact absurd (Or.inr h) ((okType_iff _).mp hok)
        · exact h
      · exact inv.tried d hd (by omega) hok
    · rw [if_neg hc]
      have hok : okType (tryType (c + 1)) := (okType_iff _).mpr (fun h => hc (by rcases h with h | h <;> simp [h]))
      have hnk : tryType (c + 1) ∉ known := fun h => hc (Or.inr (Or.inr h))
      refine ⟨_, _, rfl, hok, hnk, by omega, ⟨by omega, ?_, ?_, ?_⟩⟩
      · intro t ht
        rcases List.mem_cons.mp ht with rfl | h
        · exact hok
        · exact inv.good t h
      · exact List.nodup_cons.mpr ⟨hnk, inv.nodup⟩
      · intro d hd hd' hokd
        by_cases e : d = c + 1
        · subst e; exact List.mem_cons_self ..
        · exact List.mem_cons_of_mem _ (inv.tried d hd (by omega) hokd)

/-- When every usable type is known no counter value will do. -/
theorem makeAType_none (known : List Nat) (hall : ∀ t, okType t → t ∈ known) :
    ∀ fuel c, makeAType fuel c known = none
  | 0, _ => rfl
  | fuel + 1, c => by
    simp only [makeAType]
    rw [Nat.mod_eq_of_lt (tryType_lt _), if_pos]
    · exact makeAType_none known hall fuel _
    · by_cases h : okType (tryType ((c + 1) % u32Range))
      · exact Or.inr (Or.inr (hall _ h))
      · rw [okType_iff] at h
        rcases Classical.not_not.mp h with h | h <;> simp [h]

/-- Distinct usable types: at most 65534 of them, and all of them when there are that many. -/
theorem usable_card (known : List Nat) (hg : ∀ t ∈ known, okType t) (hn : known.Nodup) :
    known.length ≤ 65534 ∧ (known.length = 65534 → ∀ t, okType t → t ∈ known) ∧
    (known.length < 65534 → ∃ t, okType t ∧ t ∉ known) := by
  classical
  have hsub : known.toFinset ⊆ Finset.Ico 1 65535 := by
    intro t ht
    have := hg t (List.mem_toFinset.mp ht)
    rw [Finset.mem_Ico]
    exact ⟨this.1, this.2⟩
  have hcard : known.toFinset.card = known.length := List.toFinset_card_of_nodup hn
  have hI : (Finset.Ico 1 65535).card = 65534 := by rw [Nat.card_Ico]
  have hle := Finset.card_le_card hsub
  refine ⟨by omega, ?_, ?_⟩
  · intro he t ht
    have := Finset.eq_of_subset_of_card_le hsub (by omega)
    have hm : t ∈ Finset.Ico 1 65535 := Finset.mem_Ico.mpr ⟨ht.1, ht.2⟩
    rw [← this] at hm
    exact List.mem_toFinset.mp hm
  · intro hlt
    by_contra hno
    push Not at hno
    have : Finset.Ico 1 65535 ⊆ known.toFinset := by
      intro t ht
      rw [Finset.mem_Ico] at ht
      exact List.mem_toFinset.mpr (hno t ⟨ht.1, ht.2⟩)
    have := Finset.card_le_card this
    omega

/-- The generator's invariant between calls. -/
structure GInv (g : Gen) : Prop where
  inv : Inv g.counter g.known
  two : 2 ≤ g.counter
  count : g.next = g.known.length
  keys : g.byType.map (·.1) = g.known

theorem ginv_init : GInv Gen.init where
  inv := ⟨by decide, by simp [Gen.init], by simp [Gen.init], by
    intro c h1 h2; simp only [Gen.init] at h2; omega⟩
  two := by decide
  count := rfl
  keys := rfl

theorem lookup_none_of_not_mem {l : List (Nat × Nat)} {k : Nat} (h : k ∉ l.map (·.1)) : l.lookup k = none := by
  induction l with
  | nil => rfl
  | cons a l ih =>
    simp only [List.map_cons, List.mem_cons, not_or] at h
    obtain ⟨x, y⟩ := a
    simp only [List.lookup_cons]
    have : (k == x) = false := by simpa using h.1
    rw [this]
    exact ih h.2

theorem makeNextType_ok (g : Gen) (cuti : Nat) (hg : GInv g) (hn : g.next < 65534) :
    ∃ t g', makeNextType g cuti = .ok t g' ∧ GInv g' ∧ okType t ∧ t ∉ g.known ∧
      g'.known = t :: g.known ∧ g'.byType = (t, cuti) :: g.byType ∧ g'.next = g.next + 1 := by
  have hc := hg.count
  obtain ⟨t, c', hm, hok, hnk, h2, hinv⟩ := makeAType_some u32Range g.counter g.known
    hg.inv ((usable_card g.known hg.inv.good hg.inv.nodup).2.2 (by omega)) hg.two (by
      unfold u32Range; omega)
  have hnone : g.byType.lookup t = none := lookup_none_of_not_mem (by rw [hg.keys]; exact hnk)
  refine ⟨t, ⟨g.next + 1, c', (g.next, t) :: g.sequential, t :: g.known, (t, cuti) :: g.byType⟩,
    ?_, ?_, hok, hnk, rfl, rfl, rfl⟩
  · unfold makeNextType
    rw [if_pos (by unfold emptyType; omega), hm]
    simp [hnone]
  · exact ⟨hinv, h2, by simp [hc], by simp [hg.keys]⟩

theorem makeNextType_exhausted (g : Gen) (cuti : Nat) (hg : GInv g) (hn : g.next = 65534) :
    makeNextType g cuti = .neverEnds := by
  have hc := hg.count
  unfold makeNextType
  rw [if_pos (by unfold emptyType; omega),
    makeAType_none g.known ((usable_card g.known hg.inv.good hg.inv.nodup).2.1 (by omega))]

theorem requests_ok : ∀ (cs : List Nat) (g : Gen), GInv g → g.next + cs.length ≤ 65534 →
    ∃ ts g', requests g cs = some (ts, g') ∧ GInv g' ∧ g'.known = ts.reverse ++ g.known ∧
      ts.length = cs.length ∧ g'.byType = (ts.zip cs).reverse ++ g.byType ∧ g'.next = g.next + cs.length
  | [], g, hg, _ => ⟨[], g, rfl, hg, rfl, rfl, rfl, rfl⟩
  | c :: cs, g, hg, hn => by
    simp only [List.length_cons] at hn
    obtain ⟨t, g1, h1, hg1, _, _, hk, hb, hnx⟩ := makeNextType_ok g c hg (by omega)
    obtain ⟨ts, g', h2, hg', hk', hl, hb', hnx'⟩ := requests_ok cs g1 hg1 (by omega)
    refine ⟨t :: ts, g', ?_, hg', ?_, by simp [hl], ?_, ?_⟩
    · simp [requests, h1, h2]
    · rw [hk', hk]; simp
    · rw [hb', hb]; simp
    · rw [hnx', hnx]; simp only [List.length_cons]; omega

theorem lookup_of_mem {l : List (Nat × Nat)} {k v : Nat} (hn : (l.map (·.1)).Nodup) (h : (k, v) ∈ l) :
    l.lookup k = some v := by
  induction l with
  | nil => simp at h
  | cons a l ih =>
    obtain ⟨x, y⟩ := a
    simp only [List.map_cons, List.nodup_cons] at hn
    rcases List.mem_cons.mp h with e | e
    · injection e with e1 e2; subst e1; subst e2; simp [List.lookup_cons]
    · have hne : k ≠ x := by
        intro e'; subst e'
        exact hn.1 (List.mem_map.mpr ⟨_, e, rfl⟩)
      simp only [List.lookup_cons]
      have : (k == x) = false := by simpa using hne
      rw [this]
      exact ih hn.2 e

end Ulam.ElemType
