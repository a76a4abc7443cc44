import Verif.Oper.Lemmas
/-! # Properties C68 (constants fit where their values do) and C69 (operators work on the operands' values) -/
namespace Ulam.Oper
open Ulam.Types hiding Sized
open Ulam.Types.Spec Spec
open Ulam.Cast (Ext Res cast evalCast genCast runGen Evaluable word_cases not_void nearest_exact nearest_self number_inj)
open Ulam.Cast.Spec (Sized Scalar Carried Nearest)
open Ulam.Packed (Bits getData getDataLong readBits getData_eq getDataLong_eq readBits_lt)

/-! ## C68 -/

theorem mod_mod_word {u n w : Nat} (h : n ≤ w) : u % 2 ^ w % 2 ^ n = u % 2 ^ n :=
  Nat.mod_mod_of_dvd _ (Nat.pow_dvd_pow 2 h)

/-- The number the test starts from is the constant's. -/
theorem start_number {lib : Lib} {cnt : Nat} {valid : Nat → Bool} (hx : Faithful lib cnt valid) {ty : Ty} (hf : Scalar ty)
    (hn : Numeric ty.base) {w : Nat} (hw : w = 32 ∨ w = 64) (hb : ty.bits ≤ w) {u : Nat}
    (hu : ty.base = .unary → u < 2 ^ ty.bits) :
    number ty.base ty.bits (start lib cnt w ty u % 2 ^ ty.bits) = number ty.base ty.bits (u % 2 ^ ty.bits) := by
  unfold start
  split
  · rename_i h
    have hu := hu h
    have huw : u < 2 ^ w := hu.trans_le (Nat.pow_le_pow_right (by decide) hb)
    rw [Nat.mod_eq_of_lt huw, Nat.mod_eq_of_lt hu]
    have := hx.ext ⟨.unary, .unary, w⟩ (Or.inl ⟨by simp [Sized], by simp [Sized], hw⟩) ty.bits ty.bits u hf.2.2.1 hb
      hf.2.2.1 hb hu
    rw [h]
    exact nearest_exact (number_range (by simp [Numeric]) hf.2.2.1 hu) this
  · rw [mod_mod_word hb]

/-- C68: a numeric constant is accepted as a numeric type exactly when the type has its number. -/
theorem C68_numeric {lib : Lib} {cnt : Nat} {valid : Nat → Bool} (hx : Faithful lib cnt valid) {dst ty : Ty}
    (ht : Scalar dst) (hf : Scalar ty) (h1 : Numeric dst.base) (h2 : Numeric ty.base) {u : Nat}
    (hu : ty.base = .unary → u < 2 ^ ty.bits) :
    ∃ x, constSafe lib cnt dst ty u = some x ∧
      (x = true ↔ InRange dst.base dst.bits (number ty.base ty.bits (u % 2 ^ ty.bits))) := by
  have hs : Sized dst.base := by rcases h1 with h | h | h <;> simp [Sized, h]
  obtain ⟨w, hw, wn, wt, ew⟩ := word_or ty.bits dst.bits hf.2.2.1 hf.2.2.2.1 ht.2.2.1 ht.2.2.2.1
  obtain ⟨c, m, x, e, hm, hc, c1, c2, ex⟩ := fitsWord_eq hx ht hf hs (Or.inl h2) hw wn u
  refine ⟨x, ?_, ?_⟩
  · rw [← e, ← ew lib cnt dst ty u rfl rfl]
    unfold constSafe
    rcases h1 with h | h | h <;> rcases h2 with h' | h' | h' <;> simp [h, h', Cast.scalar_base ht hf]
  · have es := start_number hx hf h2 hw wn hu
    have c1' : Nearest dst.base dst.bits (number ty.base ty.bits (u % 2 ^ ty.bits)) (number dst.base dst.bits m) := by
      rw [← es]
      rcases h1 with h | h | h <;> rcases h2 with h' | h' | h' <;> rw [h, h'] at c1 ⊢ <;> exact c1
    have c2' : Nearest ty.base ty.bits (number dst.base dst.bits m) (number ty.base ty.bits c) := by
      rcases h1 with h | h | h <;> rcases h2 with h' | h' | h' <;> rw [h, h'] at c2 ⊢ <;> exact c2
    have ex' : x = decide (number ty.base ty.bits (u % 2 ^ ty.bits) = number ty.base ty.bits c) := by
      rw [ex, ← es]
      rcases h2 with h | h | h <;> simp [compared, rel, h]
    have hv := number_range h2 hf.2.2.1 (Nat.mod_lt u (Nat.two_pow_pos ty.bits))
    generalize number ty.base ty.bits (u % 2 ^ ty.bits) = v at *
    rw [ex', decide_eq_true_iff]
    constructor
    · intro h
      rcases nearest_range h1 ht.2.2.1 c1' with r | r | r
      · have := nearest_exact (in_between h2 hf.2.2.1 hv (Or.inl r)) c2'
        rw [h, this]; exact c1'.1
      · have := nearest_exact (in_between h2 hf.2.2.1 hv (Or.inr r)) c2'
        rw [h, this]; exact c1'.1
      · rw [← r]; exact c1'.1
    · intro h
      have r := nearest_exact h c1'
      rw [r] at c2'
      exact (nearest_exact hv c2').symm

/-- C68: an `Int`, `Unsigned` or `Bits` constant is accepted as `Bits` exactly when its bits fit. -/
theorem C68_bits {lib : Lib} {cnt : Nat} {valid : Nat → Bool} (hx : Faithful lib cnt valid) {dst ty : Ty}
    (ht : Scalar dst) (hf : Scalar ty) (h1 : dst.base = .bits)
    (h2 : ty.base = .int ∨ ty.base = .unsigned ∨ ty.base = .bits) (u : Nat) :
    ∃ x, constSafe lib cnt dst ty u = some x ∧ (x = true ↔ u % 2 ^ ty.bits < 2 ^ dst.bits) := by
  have hs : Sized dst.base := by simp [Sized, h1]
  have h2' : Numeric ty.base ∨ ty.base = .bits := by
    rcases h2 with h | h | h <;> simp [Numeric, h]
  obtain ⟨w, hw, wn, wt, ew⟩ := word_or ty.bits dst.bits hf.2.2.1 hf.2.2.2.1 ht.2.2.1 ht.2.2.2.1
  obtain ⟨c, m, x, e, hm, hc, c1, c2, ex⟩ := fitsWord_eq hx ht hf hs h2' hw wn u
  refine ⟨x, ?_, ?_⟩
  · rw [← e, ← ew lib cnt dst ty u rfl rfl]
    unfold constSafe
    rcases h2 with h' | h' | h' <;> simp [h1, h', Cast.scalar_base ht hf]
  · have es : start lib cnt w ty u % 2 ^ ty.bits = u % 2 ^ ty.bits := by
      unfold start
      rw [if_neg (by rcases h2 with h | h | h <;> simp [h]), mod_mod_word wn]
    rw [es] at c1 ex
    have c1' : m = u % 2 ^ ty.bits % 2 ^ dst.bits := by
      rcases h2 with h | h | h <;> rw [h1, h] at c1 <;> exact c1
    have c2' : c = m % 2 ^ ty.bits := by
      rcases h2 with h | h | h <;> rw [h1, h] at c2 <;> exact c2
    have hv := Nat.mod_lt u (Nat.two_pow_pos ty.bits)
    generalize u % 2 ^ ty.bits = raw at *
    have ex' : x = true ↔ raw = c := by
      rw [ex]
      rcases h2 with h | h | h
      · simp only [compared, h, rel]
        simp only [reduceCtorEq, or_self, and_self, if_false, decide_eq_true_iff]
        exact ⟨fun h' => number_inj (Or.inl rfl) hv hc h', fun h' => by rw [h']⟩
      · simp [compared, h, rel, number]
      · simp [compared, h, rel]
    have hmr : m ≤ raw := c1' ▸ Nat.mod_le _ _
    have hcm : c = m := by rw [c2', Nat.mod_eq_of_lt (by omega)]
    rw [ex', hcm, c1']
    constructor
    · intro h; rw [h]; exact Nat.mod_lt _ (Nat.two_pow_pos _)
    · intro h; exact (Nat.mod_eq_of_lt h).symm

/-- The two sides agree on what an operand becomes, given what the cast means. -/
theorem operands_carried {lib : Lib} {cnt : Nat} {valid : Nat → Bool} (hx : Faithful lib cnt valid) {t : Ty} {o : Operand}
    (ht : Scalar t) (hf : Scalar o.ty) (h1 : Sized t.base) (h2 : Sized o.ty.base) (b : Bits) :
    ∃ b' r, evalOperand lib cnt t o b = some b' ∧
      genOperand lib cnt t o (readBits b (96 - o.ty.bits) o.ty.bits) = some r ∧ r < 2 ^ t.bits ∧
      Carried valid t.base t.bits (readBits b' (96 - t.bits) t.bits) o.ty.base o.ty.bits
        (readBits b (96 - o.ty.bits) o.ty.bits) ∧
      Carried valid t.base t.bits r o.ty.base o.ty.bits (readBits b (96 - o.ty.bits) o.ty.bits) := by
  have hr := readBits_lt b (96 - o.ty.bits) o.ty.bits
  by_cases he : o.ty = t
  · have hc := Cast.carried_same valid ht (he ▸ hr)
    refine ⟨b, _, if_pos he, if_pos he, he ▸ hr, ?_, ?_⟩ <;> rw [he] <;> exact hc
  · obtain ⟨b', e1, c1⟩ := Cast.C67_evaluated_partial hx.ext t o.ty ht hf (Or.inl ⟨h1, h2⟩) b
    obtain ⟨r, e2, c2⟩ := Cast.C67_generated_partial hx.ext t o.ty ht hf (Or.inl (Or.inl ⟨h1, h2⟩)) false o.const.isSome _ hr
    refine ⟨b', r, ?_, ?_, ?_, c1, c2⟩
    · unfold evalOperand; rw [if_neg he, e1]
    · unfold genOperand; rw [if_neg he, e2]
    · rw [Cast.genCast_eq _ _ ht hf (fun h => by rcases h1 with k | k | k | k | k <;> rw [h] at k <;> simp at k)
        (fun h => he h.symm)] at e2
      simp only [runGen, Option.some.injEq] at e2
      rw [← e2]
      exact Nat.mod_lt _ (Nat.two_pow_pos _)

/-- What an accepted operand carries: its value (a `Unary` constant as fewer `Bits` is the exception, see
`C68_unary_bits_fails`). -/
theorem safe_preserved {lib : Lib} {cnt : Nat} {valid : Nat → Bool} (hx : Faithful lib cnt valid) {t : Ty} {o : Operand}
    (ht : Scalar t) (hf : Scalar o.ty) (h1 : Sized t.base) (hs : safeTo lib cnt t o = some true)
    (hu : t.base = .bits → o.ty.base = .unary → o.ty.bits ≤ t.bits) {raw raw' : Nat} (hv : Value o raw)
    (hc : Carried valid t.base t.bits raw' o.ty.base o.ty.bits raw) :
    Preserved t.base t.bits raw' o.ty.base o.ty.bits raw := by
  unfold safeTo at hs
  cases hco : o.const with
  | none =>
    rw [hco] at hs
    simp only [Option.some.injEq] at hs
    exact Cast.carried_preserved ht hf hs hv.1 hc
  | some u =>
    rw [hco] at hs
    simp only at hs
    obtain ⟨hraw, huu⟩ := hv.2 u hco
    have plain : constSafe lib cnt t o.ty u = some (safeCast t o.ty) →
        Preserved t.base t.bits raw' o.ty.base o.ty.bits raw := by
      intro e
      rw [e] at hs
      simp only [Option.some.injEq] at hs
      exact Cast.carried_preserved ht hf hs hv.1 hc
    by_cases hb : t.base = .bool ∨ o.ty.base = .bool
    · apply plain; unfold constSafe; rw [if_pos (by tauto)]
    · have hsized : Sized o.ty.base := by
        obtain ⟨-, -, -, -, k | k⟩ := hf
        · exact k
        · exfalso
          have hts : t.base ≠ .string := by intro h; rcases h1 with a | a | a | a | a <;> rw [h] at a <;> simp at a
          have e : constSafe lib cnt t o.ty u = some (safeCast t o.ty) := by
            rcases h1 with a | a | a | a | a <;> simp [constSafe, a, k.1]
          rw [e] at hs
          simp only [Option.some.injEq] at hs
          unfold safeCast at hs
          rw [Bool.and_eq_true] at hs
          have := hs.2
          rcases h1 with a | a | a | a | a <;>
            simp [a, k.1, intFrom, unsignedFrom, unaryFrom, boolFrom, bitsFrom] at this
      push Not at hb
      have num : Numeric t.base → Numeric o.ty.base → Preserved t.base t.bits raw' o.ty.base o.ty.bits raw := by
        intro n1 n2
        obtain ⟨x, e, hx'⟩ := C68_numeric hx ht hf n1 n2 huu
        rw [e] at hs
        have hin := hx'.mp (Option.some.inj hs)
        rw [← hraw] at hin
        rcases n1 with a | a | a <;> rcases n2 with a' | a' | a' <;> rw [a, a'] at hc hin ⊢ <;>
          exact nearest_exact hin hc
      have tobits : t.base = .bits → raw < 2 ^ t.bits → Preserved t.base t.bits raw' o.ty.base o.ty.bits raw := by
        intro a hlt
        have : raw' = raw % 2 ^ t.bits := by
          rcases hsized with k | k | k | k | k <;> rw [a, k] at hc <;> exact hc
        rw [a]
        simp only [Preserved]
        rw [this, Nat.mod_eq_of_lt hlt]
      have frombits : o.ty.base = .bits → t.base ≠ .bits → Preserved t.base t.bits raw' o.ty.base o.ty.bits raw := by
        intro k a
        apply plain
        unfold constSafe
        rcases h1 with h | h | h | h | h <;> simp [h, k] <;> simp [h] at a
      rcases h1 with a | a | a | a | a
      · rcases hsized with k | k | k | k | k
        · exact num (by simp [Numeric, a]) (by simp [Numeric, k])
        · exact num (by simp [Numeric, a]) (by simp [Numeric, k])
        · exact num (by simp [Numeric, a]) (by simp [Numeric, k])
        · exact absurd k hb.2
        · exact frombits k (by simp [a])
      · rcases hsized with k | k | k | k | k
        · exact num (by simp [Numeric, a]) (by simp [Numeric, k])
        · exact num (by simp [Numeric, a]) (by simp [Numeric, k])
        · exact num (by simp [Numeric, a]) (by simp [Numeric, k])
        · exact absurd k hb.2
        · exact frombits k (by simp [a])
      · rcases hsized with k | k | k | k | k
        · exact num (by simp [Numeric, a]) (by simp [Numeric, k])
        · exact num (by simp [Numeric, a]) (by simp [Numeric, k])
        · exact num (by simp [Numeric, a]) (by simp [Numeric, k])
        · exact absurd k hb.2
        · exact frombits k (by simp [a])
      · exact absurd a hb.1
      · have bits3 : (o.ty.base = .int ∨ o.ty.base = .unsigned ∨ o.ty.base = .bits) →
            Preserved t.base t.bits raw' o.ty.base o.ty.bits raw := by
          intro k
          obtain ⟨x, e, hx'⟩ := C68_bits hx ht hf a k u
          rw [e] at hs
          have := hx'.mp (Option.some.inj hs)
          exact tobits a (by rw [hraw]; exact this)
        rcases hsized with k | k | k | k | k
        · exact bits3 (Or.inl k)
        · exact bits3 (Or.inr (Or.inl k))
        · exact tobits a (hv.1.trans_le (Nat.pow_le_pow_right (by decide) (hu a k)))
        · exact absurd k hb.2
        · exact bits3 (Or.inr (Or.inr k))

theorem sized_of_safe {lib : Lib} {cnt : Nat} {t : Ty} {o : Operand} (hf : Scalar o.ty) (h1 : Sized t.base)
    (hs : safeTo lib cnt t o = some true) : Sized o.ty.base := by
  obtain ⟨-, -, -, -, k | k⟩ := hf
  · exact k
  · exfalso
    have e : safeTo lib cnt t o = some (safeCast t o.ty) := by
      unfold safeTo
      cases o.const with
      | none => rfl
      | some u => rcases h1 with a | a | a | a | a <;> simp [constSafe, a, k.1]
    rw [e] at hs
    simp only [Option.some.injEq] at hs
    unfold safeCast at hs
    rw [Bool.and_eq_true] at hs
    have := hs.2
    rcases h1 with a | a | a | a | a <;>
      simp [a, k.1, intFrom, unsignedFrom, unaryFrom, boolFrom, bitsFrom] at this

/-- C68 (missing: a `Unary` constant as fewer `Bits`, see `C68_unary_bits_fails`): an accepted constant keeps its value, in
the evaluator and in the generated program. -/
theorem C68_kept_partial {lib : Lib} {cnt : Nat} {valid : Nat → Bool} (hx : Faithful lib cnt valid) {t : Ty} {o : Operand}
    (ht : Scalar t) (hf : Scalar o.ty) (h1 : Sized t.base) (hs : safeTo lib cnt t o = some true)
    (hu : t.base = .bits → o.ty.base = .unary → o.ty.bits ≤ t.bits) (b : Bits)
    (hv : Value o (readBits b (96 - o.ty.bits) o.ty.bits)) :
    ∃ b' r, evalOperand lib cnt t o b = some b' ∧
      genOperand lib cnt t o (readBits b (96 - o.ty.bits) o.ty.bits) = some r ∧ r < 2 ^ t.bits ∧
      Preserved t.base t.bits (readBits b' (96 - t.bits) t.bits) o.ty.base o.ty.bits
        (readBits b (96 - o.ty.bits) o.ty.bits) ∧
      Preserved t.base t.bits r o.ty.base o.ty.bits (readBits b (96 - o.ty.bits) o.ty.bits) := by
  obtain ⟨b', r, e1, e2, e3, c1, c2⟩ := operands_carried hx ht hf h1 (sized_of_safe hf h1 hs) b
  exact ⟨b', r, e1, e2, e3, safe_preserved hx ht hf h1 hs hu hv c1, safe_preserved hx ht hf h1 hs hu hv c2⟩

/-! ## C69 -/

theorem word_ok {n : Nat} (n1 : 1 ≤ n) (n2 : n ≤ 64) : (wordSize n = 32 ∨ wordSize n = 64) ∧ n ≤ wordSize n := by
  rcases word_cases n1 n2 with h | h <;> omega

theorem log2_small {n : Nat} (h : n ≤ 64) : Nat.log2 n ≤ 6 := by
  rcases Nat.eq_zero_or_pos n with rfl | hp
  · decide
  · have : Nat.log2 n < 7 := (Nat.log2_lt (by omega)).mpr (by omega)
    omega

/-- Sizes of the common type. -/
theorem size_ok {l r : Ty} (hl : Scalar l) (hr : Scalar r) (h1 : numeric l = true) (h2 : numeric r = true) :
    ∃ n, resultBitsize .div l.base l.bits r.base r.bits = some n ∧ 1 ≤ n ∧ n ≤ 64 := by
  obtain ⟨-, -, l1, l2, -⟩ := hl
  obtain ⟨-, -, r1, r2, -⟩ := hr
  have a := log2_small l2
  have c := log2_small r2
  unfold numeric at h1 h2
  rcases word_cases l1 l2 with ⟨q, q'⟩ | ⟨q, q'⟩ <;> rcases word_cases r1 r2 with ⟨p, p'⟩ | ⟨p, p'⟩ <;>
    cases hb : l.base <;> rw [hb] at h1 <;> simp at h1 <;>
    cases hb' : r.base <;> rw [hb'] at h2 <;> simp at h2 <;>
    refine ⟨_, rfl, ?_, ?_⟩ <;> simp [bitsizeToInt, q', p'] <;> (repeat' split) <;> omega

theorem scalar_scalar {b : Base} {n : Nat} (hb : Sized b) (n1 : 1 ≤ n) (n2 : n ≤ 64) : Scalar (scalar b n) :=
  ⟨rfl, rfl, n1, n2, Or.inl hb⟩

theorem bitwise_size {l r : Ty} (hl : Scalar l) (hr : Scalar r) :
    1 ≤ bitwiseBitsize l.base l.bits r.base r.bits ∧ bitwiseBitsize l.base l.bits r.base r.bits ≤ 64 ∧
    l.bits ≤ bitwiseBitsize l.base l.bits r.base r.bits ∧ r.bits ≤ bitwiseBitsize l.base l.bits r.base r.bits := by
  have nq : ∀ {t : Ty}, Scalar t → t.base ≠ .quark := by
    intro t h
    obtain ⟨-, -, -, -, k | k⟩ := h
    · rcases k with k | k | k | k | k <;> simp [k]
    · simp [k.1]
  have e : ∀ {t : Ty}, Scalar t → (calcBitsizeForResultInBits t.base t.bits).1 = t.bits := by
    intro t h
    have := nq h
    unfold calcBitsizeForResultInBits
    cases hb : t.base <;> simp_all
  obtain ⟨-, -, l1, l2, -⟩ := id hl
  obtain ⟨-, -, r1, r2, -⟩ := id hr
  unfold bitwiseBitsize
  simp only [e hl, e hr]
  split <;> omega

theorem safe_of_both {lib : Lib} {cnt : Nat} {l r : Operand} {x : Typed} {t : Ty} (h : bothSafe lib cnt l r x = .ty t) :
    x = .ty t ∧ safeTo lib cnt t l = some true ∧ safeTo lib cnt t r = some true := by
  unfold bothSafe at h
  cases x with
  | reject => simp at h
  | abort => simp at h
  | ty t' =>
    simp only at h
    split at h <;> simp at h
    subst h
    exact ⟨rfl, by assumption, by assumption⟩

/-- What the common type of a comparison is. -/
theorem cmpType_cases {op : Cmp} {l r t : Ty} (hl : Scalar l) (hr : Scalar r) (h : cmpType op l r = .ty t) :
    Scalar t ∧
    ((t.base = .bits ∧ (l.base = .bits ∨ r.base = .bits) ∧ l.bits ≤ t.bits ∧ r.bits ≤ t.bits ∧ (op = .eq ∨ op = .ne)) ∨
     (t.base = .bool ∧ l.base = .bool ∧ r.base = .bool ∧ (op = .eq ∨ op = .ne)) ∨
     ((t.base = .int ∨ t.base = .unsigned) ∧ numeric l = true ∧ numeric r = true)) := by
  have ho : orderType l r = .ty t → Scalar t ∧ ((t.base = .int ∨ t.base = .unsigned) ∧ numeric l = true ∧ numeric r = true) := by
    intro h
    unfold orderType at h
    split at h
    · simp at h
    · split at h
      · simp at h
      · rename_i hn
        simp only [Bool.not_eq_true, Bool.not_eq_false', Bool.and_eq_true] at hn
        obtain ⟨n, e, n1, n2⟩ := size_ok hl hr hn.1 hn.2
        split at h
        · simp at h
        · rw [e] at h
          simp only [Typed.ty.injEq] at h
          subst h
          refine ⟨scalar_scalar (by split <;> simp [Sized]) n1 n2, ?_, hn⟩
          simp only [scalar]
          split <;> simp
  have he : (op = .eq ∨ op = .ne) → equalType l r = .ty t → Scalar t ∧
    ((t.base = .bits ∧ (l.base = .bits ∨ r.base = .bits) ∧ l.bits ≤ t.bits ∧ r.bits ≤ t.bits ∧ (op = .eq ∨ op = .ne)) ∨
     (t.base = .bool ∧ l.base = .bool ∧ r.base = .bool ∧ (op = .eq ∨ op = .ne)) ∨
     ((t.base = .int ∨ t.base = .unsigned) ∧ numeric l = true ∧ numeric r = true)) := by
    intro hop h
    unfold equalType at h
    split at h
    · rename_i hb
      split at h
      · simp at h
      · simp only [Typed.ty.injEq] at h
        subst h
        obtain ⟨b1, b2, b3, b4⟩ := bitwise_size hl hr
        exact ⟨scalar_scalar (by simp [Sized]) b1 b2, Or.inl ⟨rfl, hb, b3, b4, hop⟩⟩
    · split at h
      · rename_i hb
        split at h
        · simp at h
        · simp only [Typed.ty.injEq] at h
          subst h
          exact ⟨scalar_scalar (by simp [Sized]) (by decide) (by decide), Or.inr (Or.inl ⟨rfl, hb.1, hb.2, hop⟩)⟩
      · obtain ⟨a, b⟩ := ho h
        exact ⟨a, Or.inr (Or.inr b)⟩
  cases op
  · obtain ⟨a, b⟩ := ho h; exact ⟨a, Or.inr (Or.inr b)⟩
  · obtain ⟨a, b⟩ := ho h; exact ⟨a, Or.inr (Or.inr b)⟩
  · obtain ⟨a, b⟩ := ho h; exact ⟨a, Or.inr (Or.inr b)⟩
  · obtain ⟨a, b⟩ := ho h; exact ⟨a, Or.inr (Or.inr b)⟩
  · exact he (Or.inl rfl) h
  · exact he (Or.inr rfl) h

theorem number_base {t : Ty} (h : numeric t = true) : Numeric t.base := by
  unfold numeric at h
  cases hb : t.base <;> rw [hb] at h <;> simp at h <;> simp [Numeric]

/-- Comparing what was preserved is comparing the values themselves. -/
theorem compared_preserved {op : Cmp} {l r t : Ty} {x y x' y' : Nat}
    (h : (t.base = .bits ∧ (l.base = .bits ∨ r.base = .bits) ∧ l.bits ≤ t.bits ∧ r.bits ≤ t.bits ∧ (op = .eq ∨ op = .ne)) ∨
     (t.base = .bool ∧ l.base = .bool ∧ r.base = .bool ∧ (op = .eq ∨ op = .ne)) ∨
     ((t.base = .int ∨ t.base = .unsigned) ∧ numeric l = true ∧ numeric r = true))
    (px : Preserved t.base t.bits x' l.base l.bits x) (py : Preserved t.base t.bits y' r.base r.bits y) :
    compared op t.base t.bits x' t.base t.bits y' = compared op l.base l.bits x r.base r.bits y := by
  rcases h with ⟨a, b, -⟩ | ⟨a, b, c, -⟩ | ⟨a, b, c⟩
  · rw [a] at px py ⊢
    simp only [Preserved] at px py
    simp [compared, b, px, py]
  · rw [a, b] at px
    rw [a, c] at py
    rw [a, b, c]
    simp only [Preserved] at px py
    simp [compared, px, py]
  · have nb : ∀ {t : Ty}, numeric t = true → t.base ≠ .bits ∧ t.base ≠ .bool := by
      intro t h
      rcases number_base h with k | k | k <;> simp [k]
    have e : compared op l.base l.bits x r.base r.bits y = rel op (number l.base l.bits x) (number r.base r.bits y) := by
      unfold compared
      rw [if_neg (by have := nb b; have := nb c; tauto), if_neg (by have := nb b; tauto)]
    rw [e]
    rcases a with a | a <;> rw [a] at px py ⊢ <;> simp only [Preserved] at px py <;>
      simp only [compared, reduceCtorEq, or_self, and_self, if_false, px, py]

theorem getWord {b : Bits} {n : Nat} (n2 : n ≤ 64) :
    (n ≤ 32 → getData b (96 - n) n = some (readBits b (96 - n) n)) ∧
    getDataLong b (96 - n) n = some (readBits b (96 - n) n) :=
  ⟨fun h => getData_eq _ h (by omega), getDataLong_eq _ n2 (by omega)⟩

/-- C69: an accepted comparison compares the operands' own values - numbers, truth values or bits - and the evaluator and
the generated program agree on it. -/
theorem C69_compare {lib : Lib} {cnt : Nat} {valid : Nat → Bool} (hx : Faithful lib cnt valid) {op : Cmp} {l r : Operand}
    {t : Ty} (hl : Scalar l.ty) (hr : Scalar r.ty) (h : checkCompare lib cnt op l r = .ty t) (bl br : Bits)
    (vl : Value l (readBits bl (96 - l.ty.bits) l.ty.bits)) (vr : Value r (readBits br (96 - r.ty.bits) r.ty.bits)) :
    let x := readBits bl (96 - l.ty.bits) l.ty.bits
    let y := readBits br (96 - r.ty.bits) r.ty.bits
    let z := (compared op l.ty.base l.ty.bits x r.ty.base r.ty.bits y).toNat
    evalCompare lib cnt op t l r bl br = some z ∧ genCompare lib cnt op t l r x y = some z := by
  obtain ⟨ht, sl, sr⟩ := safe_of_both h
  obtain ⟨hs, hcase⟩ := cmpType_cases hl hr ht
  have h1 : Sized t.base := by rcases hcase with ⟨a, -⟩ | ⟨a, -⟩ | ⟨a | a, -⟩ <;> simp [Sized, a]
  have hp : Provided op t.base := by
    rcases hcase with ⟨a, -, -, -, o⟩ | ⟨a, -, -, o⟩ | ⟨a | a, -⟩
    · exact Or.inr ⟨Or.inr a, o⟩
    · exact Or.inr ⟨Or.inl a, o⟩
    · exact Or.inl (Or.inl a)
    · exact Or.inl (Or.inr (Or.inl a))
  have hu : ∀ o : Operand, o = l ∨ o = r → t.base = .bits → o.ty.base = .unary → o.ty.bits ≤ t.bits := by
    intro o ho a _
    rcases hcase with ⟨-, -, b1, b2, -⟩ | ⟨a', -⟩ | ⟨a' | a', -⟩
    · rcases ho with rfl | rfl <;> assumption
    · rw [a] at a'; simp at a'
    · rw [a] at a'; simp at a'
    · rw [a] at a'; simp at a'
  obtain ⟨bl', xl, e1, e2, e3, p1, p2⟩ := C68_kept_partial hx hs hl h1 sl (hu l (Or.inl rfl)) bl vl
  obtain ⟨br', xr, f1, f2, f3, q1, q2⟩ := C68_kept_partial hx hs hr h1 sr (hu r (Or.inr rfl)) br vr
  obtain ⟨ww, wn⟩ := word_ok hs.2.2.1 hs.2.2.2.1
  have key : ∀ x y, x < 2 ^ t.bits → y < 2 ^ t.bits → lib.cmp op t.base (wordSize t.bits) x y t.bits % 2 ^ 1 =
      (compared op t.base t.bits x t.base t.bits y).toNat := by
    intro x y hx' hy'
    rw [pow_one, hx.cmp op t.base _ _ hp ww hs.2.2.1 wn, Nat.mod_eq_of_lt hx', Nat.mod_eq_of_lt hy']
  refine ⟨?_, ?_⟩
  · have hk : cmpKnows op t.base = true := by
      rcases hcase with ⟨a, -, -, -, o | o⟩ | ⟨a, -, -, -⟩ | ⟨a | a, -⟩ <;> rw [a] <;> first | rfl | (rw [o]; rfl)
    unfold evalCompare
    rw [e1, f1]
    simp only [hk, Bool.not_true, Bool.false_eq_true, if_false]
    have k := key _ _ (readBits_lt bl' (96 - t.bits) t.bits) (readBits_lt br' (96 - t.bits) t.bits)
    rw [compared_preserved hcase p1 q1] at k
    rcases word_cases hs.2.2.1 hs.2.2.2.1 with ⟨w1, w2⟩ | ⟨w1, w2⟩
    · rw [w2] at k ⊢
      rw [if_pos rfl, (getWord hs.2.2.2.1).1 w1, (getWord hs.2.2.2.1).1 w1]
      exact congrArg some k
    · rw [w2] at k ⊢
      rw [if_neg (by decide), if_pos rfl, (getWord hs.2.2.2.1).2, (getWord hs.2.2.2.1).2]
      exact congrArg some k
  · unfold genCompare
    rw [e2, f2]
    have k := key _ _ e3 f3
    rw [compared_preserved hcase p2 q2] at k
    rcases hcase with ⟨a, -⟩ | ⟨a, -⟩ | ⟨a | a, -⟩ <;> rw [a] at k ⊢ <;> exact congrArg some k

/-- C69: an accepted bitwise operator works on the operands' own bits, padded with zeros, and the evaluator and the
generated program agree on it. -/
theorem C69_bitwise {lib : Lib} {cnt : Nat} {valid : Nat → Bool} (hx : Faithful lib cnt valid) {op : Bitw} {l r : Operand}
    {t : Ty} (hl : Scalar l.ty) (hr : Scalar r.ty) (h : checkBitwise lib cnt l r = .ty t) (bl br : Bits)
    (vl : Value l (readBits bl (96 - l.ty.bits) l.ty.bits)) (vr : Value r (readBits br (96 - r.ty.bits) r.ty.bits)) :
    let x := readBits bl (96 - l.ty.bits) l.ty.bits
    let y := readBits br (96 - r.ty.bits) r.ty.bits
    t = scalar .bits (max l.ty.bits r.ty.bits) ∧
    evalBitwise lib cnt op t l r bl br = some (bitwise op x y) ∧ genBitwise lib cnt op t l r x y = some (bitwise op x y) := by
  obtain ⟨ht, sl, sr⟩ := safe_of_both h
  obtain ⟨b1, b2, b3, b4⟩ := bitwise_size hl hr
  have et : t = scalar .bits (bitwiseBitsize l.ty.base l.ty.bits r.ty.base r.ty.bits) := by
    unfold bitwType at ht
    split at ht
    · simp at ht
    · split at ht
      · simp at ht
      · simpa using ht.symm
  have em : bitwiseBitsize l.ty.base l.ty.bits r.ty.base r.ty.bits = max l.ty.bits r.ty.bits := by
    apply le_antisymm _ (by omega)
    have nq : ∀ {t : Ty}, Scalar t → (calcBitsizeForResultInBits t.base t.bits).1 = t.bits := by
      intro t h
      obtain ⟨-, -, -, -, k | k⟩ := h
      · rcases k with k | k | k | k | k <;> simp [k, calcBitsizeForResultInBits]
      · simp [k.1, calcBitsizeForResultInBits]
    unfold bitwiseBitsize
    simp only [nq hl, nq hr]
    split <;> omega
  have hs : Scalar t := by rw [et]; exact scalar_scalar (by simp [Sized]) b1 b2
  have hb : t.base = .bits := by rw [et]; rfl
  have hbl : l.ty.bits ≤ t.bits := by rw [et]; exact b3
  have hbr : r.ty.bits ≤ t.bits := by rw [et]; exact b4
  have h1 : Sized t.base := by simp [Sized, hb]
  obtain ⟨bl', xl, e1, e2, e3, p1, p2⟩ := C68_kept_partial hx hs hl h1 sl (fun _ _ => hbl) bl vl
  obtain ⟨br', xr, f1, f2, f3, q1, q2⟩ := C68_kept_partial hx hs hr h1 sr (fun _ _ => hbr) br vr
  obtain ⟨ww, wn⟩ := word_ok hs.2.2.1 hs.2.2.2.1
  rw [hb] at p1 p2 q1 q2
  simp only [Preserved] at p1 p2 q1 q2
  have key : lib.bitw op .bits (wordSize t.bits) (readBits bl (96 - l.ty.bits) l.ty.bits)
      (readBits br (96 - r.ty.bits) r.ty.bits) t.bits % 2 ^ t.bits =
      bitwise op (readBits bl (96 - l.ty.bits) l.ty.bits) (readBits br (96 - r.ty.bits) r.ty.bits) := by
    rw [hx.bitw op _ _ ww hs.2.2.1 wn, Nat.mod_eq_of_lt (p2 ▸ e3), Nat.mod_eq_of_lt (q2 ▸ f3)]
  refine ⟨by rw [et, em], ?_, ?_⟩
  · unfold evalBitwise
    rw [e1, f1]
    simp only [hb]
    rcases word_cases hs.2.2.1 hs.2.2.2.1 with ⟨w1, w2⟩ | ⟨w1, w2⟩
    · rw [w2] at key ⊢
      rw [if_pos rfl, (getWord hs.2.2.2.1).1 w1, (getWord hs.2.2.2.1).1 w1, p1, q1]
      exact congrArg some key
    · rw [w2] at key ⊢
      rw [if_neg (by decide), if_pos rfl, (getWord hs.2.2.2.1).2, (getWord hs.2.2.2.1).2, p1, q1]
      exact congrArg some key
  · unfold genBitwise
    rw [e2, f2]
    simp only [hb]
    rw [p2, q2, key]

/-- What the operand of a logical operator says. -/
def verdict (t : Ty) (raw : Nat) : Bool := truth t.base t.bits raw

theorem bool_size {t : Ty} (n : Nat) : safeCast (scalar .bool 1) t = safeCast (scalar .bool n) t := rfl

theorem bool_safe {lib : Lib} {cnt : Nat} {valid : Nat → Bool} (hx : Faithful lib cnt valid) {o : Operand}
    (hf : Scalar o.ty) (hs : safeCast (scalar .bool 1) o.ty = true) {n : Nat} (n1 : 1 ≤ n) (n2 : n ≤ 64) (b : Bits) :
    ∃ b' r, evalOperand lib cnt (scalar .bool n) o b = some b' ∧
      genOperand lib cnt (scalar .bool n) o (readBits b (96 - o.ty.bits) o.ty.bits) = some r ∧ r < 2 ^ n ∧
      truth .bool n (readBits b' (96 - n) n) = verdict o.ty (readBits b (96 - o.ty.bits) o.ty.bits) ∧
      truth .bool n r = verdict o.ty (readBits b (96 - o.ty.bits) o.ty.bits) := by
  have hs' : safeCast (scalar .bool n) o.ty = true := hs
  have ht : Scalar (scalar .bool n) := scalar_scalar (by simp [Sized]) n1 n2
  have hk : o.ty.base = .bool ∨ o.ty.base = .unsigned ∨ o.ty.base = .unary := by
    unfold safeCast at hs
    rw [Bool.and_eq_true] at hs
    have := hs.2
    simp only [scalar] at this
    cases hb : o.ty.base <;> rw [hb] at this <;> simp [boolFrom] at this <;> simp
  have h2 : Sized o.ty.base := by rcases hk with k | k | k <;> simp [Sized, k]
  obtain ⟨b', r, e1, e2, e3, c1, c2⟩ := operands_carried hx ht hf (by simp [Sized, scalar]) h2 b
  have hr := readBits_lt b (96 - o.ty.bits) o.ty.bits
  refine ⟨b', r, e1, e2, e3, ?_, ?_⟩
  · have := c1
    unfold verdict
    rcases hk with k | k | k <;> rw [k] at this ⊢ <;> exact this
  · have := c2
    unfold verdict
    rcases hk with k | k | k <;> rw [k] at this ⊢ <;> exact this

/-- C69 (missing in the evaluator: more than 32 bits, see `C69_wide_logical_fails`): an accepted `&&` or `||` combines the
operands' truths and takes the right operand only when it matters. -/
theorem C69_logical_partial {lib : Lib} {cnt : Nat} {valid : Nat → Bool} (hx : Faithful lib cnt valid) {op : Logic}
    {l r : Operand} {t : Ty} (hl : Scalar l.ty) (hr : Scalar r.ty) (h : checkLogical l r = .ty t) (bl br : Bits) :
    let x := readBits bl (96 - l.ty.bits) l.ty.bits
    let y := readBits br (96 - r.ty.bits) r.ty.bits
    let z := logical op (verdict l.ty x) (verdict r.ty y)
    (t.bits ≤ 32 → ∃ v, evalLogical lib cnt op t l r bl br = some (v, z.2) ∧ truth .bool t.bits v = z.1) ∧
    ∃ v, genLogical lib cnt op t l r x y = some (v, z.2) ∧ truth .bool t.bits v = z.1 := by
  have hh : (safeCast (scalar .bool 1) l.ty = true ∧ safeCast (scalar .bool 1) r.ty = true) ∧
      ∃ n, t = scalar .bool n ∧ 1 ≤ n ∧ n ≤ 64 := by
    unfold checkLogical at h
    split at h
    · simp at h
    · split at h
      · simp at h
      · split at h
        · rename_i hs
          rw [Bool.and_eq_true] at hs
          simp only [Typed.ty.injEq] at h
          obtain ⟨-, -, l1, l2, -⟩ := hl
          obtain ⟨-, -, r1, r2, -⟩ := hr
          exact ⟨hs, _, h.symm, by split <;> omega, by split <;> omega⟩
        · simp at h
  obtain ⟨⟨sl, sr⟩, n, rfl, n1, n2⟩ := hh
  obtain ⟨bl', xl, e1, e2, e3, p1, p2⟩ := bool_safe hx hl sl n1 n2 bl
  obtain ⟨br', xr, f1, f2, f3, q1, q2⟩ := bool_safe hx hr sr n1 n2 br
  obtain ⟨ww, wn⟩ := word_ok n1 n2
  intro x y z
  have hzero : truth .bool n 0 = false := by
    have : ones n 0 = 0 := by simpa using ones_full n 0 (by omega)
    simp [truth, this]
  constructor
  · intro h32
    have h32 : n ≤ 32 := h32
    have hg : getData bl' (96 - (scalar .bool n).bits) (scalar .bool n).bits = some (readBits bl' (96 - n) n) :=
      (getWord n2).1 h32
    have hc : lib.cbool 32 (readBits bl' (96 - n) n) (scalar .bool n).bits = verdict l.ty x := by
      show lib.cbool 32 (readBits bl' (96 - n) n) n = _
      rw [hx.cbool 32 n (Or.inl rfl) n1 h32, Nat.mod_eq_of_lt (readBits_lt _ _ _), p1]
    have p1' : truth .bool n (readBits bl' (96 - n) n) = verdict l.ty x := p1
    have q1' : truth .bool n (readBits br' (96 - n) n) = verdict r.ty y := q1
    have hz : z = logical op (verdict l.ty x) (verdict r.ty y) := rfl
    clear_value z
    have hg' : getData br' (96 - (scalar .bool n).bits) (scalar .bool n).bits = some (readBits br' (96 - n) n) :=
      (getWord n2).1 h32
    unfold evalLogical
    rw [e1]
    simp only [hg, hc, f1, hg']
    change ∃ v, _ ∧ truth .bool n v = z.1
    generalize verdict l.ty x = p at *
    generalize verdict r.ty y = q at *
    subst hz
    cases op <;> cases p <;> simp [logical, p1', q1', scalar]
  · have hc : lib.cbool (wordSize (scalar .bool n).bits) xl (scalar .bool n).bits = verdict l.ty x := by
      show lib.cbool (wordSize n) xl n = _
      rw [hx.cbool _ n ww n1 wn, Nat.mod_eq_of_lt e3, p2]
    have p2' : truth .bool n xl = verdict l.ty x := p2
    have q2' : truth .bool n xr = verdict r.ty y := q2
    have hz : z = logical op (verdict l.ty x) (verdict r.ty y) := rfl
    clear_value z
    unfold genLogical
    rw [e2]
    simp only [hc, f2]
    change ∃ v, _ ∧ truth .bool n v = z.1
    have f2' : genOperand lib cnt (scalar .bool n) r y = some xr := f2
    generalize verdict l.ty x = p at *
    generalize verdict r.ty y = q at *
    subst hz
    cases op <;> cases p <;> simp [logical, p2', q2', hzero, f2']

/-! ### Which comparisons of numbers are accepted -/

theorem within_int {s : Ty} (h : numeric s = true) (n1 : 1 ≤ s.bits) (n2 : s.bits ≤ 64) {w : Nat}
    (hw : w = 32 ∨ w = 64) (hle : s.bits ≤ w) :
    Within s .int w ↔ (s.base = .unsigned → s.bits < w) := by
  have hp : ∀ a b : Nat, a ≤ b → (2 : Int) ^ a ≤ 2 ^ b := fun a b h => by
    exact_mod_cast Nat.pow_le_pow_right (by decide : 0 < 2) h
  have h31 : (2 : Int) ^ 31 ≤ 2 ^ (w - 1) := hp _ _ (by omega)
  have e31 : (2 : Int) ^ 31 = 2147483648 := by norm_num
  unfold Within
  rcases number_base h with k | k | k <;> rw [k]
  · simp only [reduceCtorEq, false_implies, iff_true, InRange]
    intro v hv
    have := hp (s.bits - 1) (w - 1) (by omega)
    omega
  · simp only [true_implies, InRange]
    constructor
    · intro hv
      by_contra hc
      have e : s.bits = w := by omega
      have e2 : (2 : Int) ^ w = 2 * 2 ^ (w - 1) := by
        have : w = (w - 1) + 1 := by omega
        conv_lhs => rw [this, pow_succ]
        ring
      have := hv (2 ^ (w - 1)) ⟨by omega, by rw [e]; omega⟩
      omega
    · intro hlt v hv
      have := hp s.bits (w - 1) (by omega)
      omega
  · simp only [reduceCtorEq, false_implies, iff_true, InRange]
    intro v hv
    omega

/-- C69: two numbers that are not constants may be compared exactly when both are unsigned, or when every value of both
is a number of `Int` with the larger of the two word sizes. -/
theorem C69_mixed_sign (lib : Lib) (cnt : Nat) (op : Cmp) {l r : Ty} (hl : Scalar l) (hr : Scalar r)
    (nl : numeric l = true) (nr : numeric r = true) :
    (∃ t, checkCompare lib cnt op ⟨l, none⟩ ⟨r, none⟩ = .ty t) ↔
    ((l.base ≠ .int ∧ r.base ≠ .int) ∨
      Within l .int (if l.bits ≤ 32 ∧ r.bits ≤ 32 then 32 else 64) ∧
      Within r .int (if l.bits ≤ 32 ∧ r.bits ≤ 32 then 32 else 64)) := by
  obtain ⟨la, lr, l1, l2, -⟩ := id hl
  obtain ⟨ra, rr, r1, r2, -⟩ := id hr
  have hw : (if l.bits ≤ 32 ∧ r.bits ≤ 32 then 32 else 64) = 32 ∨ (if l.bits ≤ 32 ∧ r.bits ≤ 32 then 32 else 64) = 64 := by
    split <;> simp
  rw [within_int nl l1 l2 hw (by split <;> omega), within_int nr r1 r2 hw (by split <;> omega)]
  have e : cmpType op l r = orderType l r := by
    have : equalType l r = orderType l r := by
      unfold equalType
      rcases number_base nl with k | k | k <;> rcases number_base nr with k' | k' | k' <;> simp [k, k']
    cases op <;> simp [cmpType, this]
  obtain ⟨n, hn, n1, n2⟩ := size_ok hl hr nl nr
  have eo : orderType l r = .ty (scalar (if asUnsigned l && asUnsigned r then .unsigned else .int) n) := by
    unfold orderType
    rw [hn]
    rcases number_base nl with k | k | k <;> rcases number_base nr with k' | k' | k' <;>
      simp [k, k', nl, nr, la, ra]
  have ex : ∀ x, (∃ t, bothSafe lib cnt ⟨l, none⟩ ⟨r, none⟩ (.ty x) = .ty t) ↔
      (safeCast x l = true ∧ safeCast x r = true) := by
    intro x
    simp only [bothSafe, safeTo]
    cases safeCast x l <;> cases safeCast x r <;> simp
  unfold checkCompare
  rw [e, eo, ex]
  have a := log2_small l2
  have c := log2_small r2
  have hbase : ∀ b m (s : Ty), s.arr = -1 → s.alt = .notRef → baseSafeCast (scalar b m) s = true := by
    intro b m s h1 h2
    simp [baseSafeCast, checkArrayCast, h1, h2, scalar]
  unfold safeCast
  rw [hbase _ _ _ la lr, hbase _ _ _ ra rr]
  rcases word_cases l1 l2 with ⟨q, q'⟩ | ⟨q, q'⟩ <;> rcases word_cases r1 r2 with ⟨p, p'⟩ | ⟨p, p'⟩ <;>
    rcases number_base nl with k | k | k <;> rcases number_base nr with k' | k' | k' <;>
    rw [k, k'] at hn ⊢ <;>
    simp [resultBitsize, resultBitsizeCalc, calcBitsizeForResult, bitsizeToInt, q', p'] at hn <;>
    simp [asUnsigned, k, k', scalar, intFrom, unsignedFrom] <;>
    (repeat' split at hn) <;> (repeat' split) <;> omega

/-! ### The conditional expression -/

theorem safe_sized {t s : Ty} (hf : Scalar s) (h1 : Sized t.base) (hs : safeCast t s = true) : Sized s.base :=
  sized_of_safe (lib := ⟨fun _ _ _ _ _ => 0, fun _ _ _ _ _ _ => 0, fun _ _ _ _ _ _ => 0, fun _ _ _ => true⟩) (cnt := 0)
    (o := ⟨s, none⟩) hf h1 (by simp [safeTo, hs])

/-- What the type of a conditional expression is. -/
theorem ternType_cases {l r t : Ty} (hl : Scalar l) (hr : Scalar r) (h : ternType l r = .ty t) :
    Scalar t ∧ ((l = t ∧ r = t) ∨ Sized t.base) := by
  unfold ternType at h
  split at h
  · rename_i e
    simp only [Typed.ty.injEq] at h
    subst h
    exact ⟨hl, Or.inl ⟨rfl, e.symm⟩⟩
  · split at h
    · split at h
      · simp at h
      · simp only [Typed.ty.injEq] at h
        subst h
        obtain ⟨b1, b2, -⟩ := bitwise_size hl hr
        exact ⟨scalar_scalar (by simp [Sized]) b1 b2, Or.inr (by simp [Sized, scalar])⟩
    · split at h
      · simp at h
      · have num : ∀ n, resultBitsize .div l.base l.bits r.base r.bits = some n → numeric l = true ∧ numeric r = true := by
          intro n e
          obtain ⟨-, -, -, -, k⟩ := hl
          obtain ⟨-, -, -, -, k'⟩ := hr
          unfold numeric
          cases hb : l.base <;> cases hb' : r.base <;>
            simp [hb, hb', Sized, resultBitsize, resultBitsizeCalc, calcBitsizeForResult] at k k' e ⊢
        cases hn : resultBitsize .div l.base l.bits r.base r.bits with
        | none => rw [hn] at h; simp at h
        | some n =>
          rw [hn] at h
          obtain ⟨nl, nr⟩ := num n hn
          obtain ⟨n', hn', n1, n2⟩ := size_ok hl hr nl nr
          rw [hn] at hn'
          cases hn'
          simp only at h
          split at h <;> simp only [Typed.ty.injEq] at h <;> subst h
          · have : Sized l.base := by rcases number_base nl with k | k | k <;> simp [Sized, k]
            exact ⟨scalar_scalar this n1 n2, Or.inr this⟩
          · have : Sized (if asUnsigned l && asUnsigned r then Base.unsigned else .int) := by split <;> simp [Sized]
            exact ⟨scalar_scalar this n1 n2, Or.inr this⟩

theorem truth_one {x : Nat} (h : x < 2 ^ 1) : truth .bool 1 x = decide (x ≠ 0) := by
  have : x = 0 ∨ x = 1 := by omega
  rcases this with rfl | rfl <;> decide

/-- A branch of the type, or safe for it, keeps its value. -/
theorem branch_kept {lib : Lib} {cnt : Nat} {valid : Nat → Bool} (hx : Faithful lib cnt valid) {t : Ty} {o : Operand}
    (ht : Scalar t) (ho : Scalar o.ty) (hc : o.ty = t ∨ (Sized t.base ∧ safeCast t o.ty = true)) (b : Bits) :
    ∃ b' v, evalOperand lib cnt t o b = some b' ∧
      genOperand lib cnt t o (readBits b (96 - o.ty.bits) o.ty.bits) = some v ∧
      Kept t (readBits b' (96 - t.bits) t.bits) o.ty (readBits b (96 - o.ty.bits) o.ty.bits) ∧
      Kept t v o.ty (readBits b (96 - o.ty.bits) o.ty.bits) := by
  by_cases he : o.ty = t
  · refine ⟨b, _, if_pos he, if_pos he, ?_, ?_⟩ <;> unfold Kept <;> rw [if_pos he]
    rw [he]
  · obtain ⟨h1, hs⟩ := hc.resolve_left he
    obtain ⟨b', v, e1, e2, -, c1, c2⟩ := operands_carried hx ht ho h1 (safe_sized ho h1 hs) b
    refine ⟨b', v, e1, e2, ?_, ?_⟩ <;> unfold Kept <;> rw [if_neg he]
    · exact Cast.carried_preserved ht ho hs (readBits_lt _ _ _) c1
    · exact Cast.carried_preserved ht ho hs (readBits_lt _ _ _) c2

/-- C69 (missing: pairs of branches the compiler refuses or stops at although one type holds both, see
`C69_ternary_unary_fails` and `C69_ternary_bool_fails`): an accepted `c ? a : b` has the value of `a` when `c` is true and
of `b` when it is not, in the evaluator and in the generated program. -/
theorem C69_ternary_partial {lib : Lib} {cnt : Nat} {valid : Nat → Bool} (hx : Faithful lib cnt valid) {c l r : Operand}
    {t : Ty} (hc : Scalar c.ty) (hl : Scalar l.ty) (hr : Scalar r.ty) (h : checkTernary c.ty l.ty r.ty = .ty t)
    (bc bl br : Bits) :
    let z := readBits bc (96 - c.ty.bits) c.ty.bits
    let x := readBits bl (96 - l.ty.bits) l.ty.bits
    let y := readBits br (96 - r.ty.bits) r.ty.bits
    ∃ v v', evalTernary lib cnt t c l r bc bl br = some v ∧ genTernary lib cnt t c l r z x y = some v' ∧
      if truth c.ty.base c.ty.bits z then Kept t v l.ty x ∧ Kept t v' l.ty x else Kept t v r.ty y ∧ Kept t v' r.ty y := by
  unfold checkTernary at h
  split at h
  · simp at h
  · rename_i hcond
    have hsc : safeCast (scalar .bool 1) c.ty = true := by
      by_cases e : c.ty = scalar .bool 1
      · rw [e]; decide
      · simp only [e, ne_eq, not_false_eq_true, true_and, Bool.not_eq_true, Bool.not_eq_false'] at hcond
        exact hcond
    cases ht : ternType l.ty r.ty with
    | reject => rw [ht] at h; simp at h
    | abort => rw [ht] at h; simp at h
    | ty t' =>
      rw [ht] at h
      simp only at h
      split at h
      · simp at h
      · rename_i s1
        split at h
        · simp at h
        · rename_i s2
          simp only [Typed.ty.injEq] at h
          subst h
          obtain ⟨hst, hcase⟩ := ternType_cases hl hr ht
          have pl : l.ty = t' ∨ (Sized t'.base ∧ safeCast t' l.ty = true) := by
            rcases hcase with k | k
            · exact Or.inl k.1
            · by_cases e : l.ty = t'
              · exact Or.inl e
              · simp only [e, ne_eq, not_false_eq_true, true_and, Bool.not_eq_true, Bool.not_eq_false'] at s1
                exact Or.inr ⟨k, s1⟩
          have pr : r.ty = t' ∨ (Sized t'.base ∧ safeCast t' r.ty = true) := by
            rcases hcase with k | k
            · exact Or.inl k.2
            · by_cases e : r.ty = t'
              · exact Or.inl e
              · simp only [e, ne_eq, not_false_eq_true, true_and, Bool.not_eq_true, Bool.not_eq_false'] at s2
                exact Or.inr ⟨k, s2⟩
          obtain ⟨bc', zc, c1, c2, c3, c4, c5⟩ := bool_safe hx hc hsc (n := 1) (by decide) (by decide) bc
          obtain ⟨bl', xl, d1, d2, d3, d4⟩ := branch_kept hx hst hl pl bl
          obtain ⟨br', xr, f1, f2, f3, f4⟩ := branch_kept hx hst hr pr br
          intro z x y
          have hb : lib.cbool 32 zc 1 = truth c.ty.base c.ty.bits z := by
            rw [hx.cbool 32 1 (Or.inl rfl) (by decide) (by decide), Nat.mod_eq_of_lt c3, c5]; rfl
          have hg : getData bc' (96 - 1) 1 = some (readBits bc' (96 - 1) 1) := (getWord (by decide)).1 (by decide)
          have hz : decide (readBits bc' (96 - 1) 1 = 0) = !truth c.ty.base c.ty.bits z := by
            have := c4
            rw [truth_one (readBits_lt _ _ _)] at this
            rw [show truth c.ty.base c.ty.bits z = verdict c.ty z from rfl, ← this]
            simp
          unfold evalTernary genTernary
          rw [c1, c2]
          simp only [hg, hb, d1, f1]
          rw [d2, f2]
          cases htr : truth c.ty.base c.ty.bits z
          · rw [htr] at hz
            simp only [Bool.not_false, decide_eq_true_eq] at hz
            refine ⟨_, xr, by rw [if_pos hz]; rfl, rfl, ?_⟩
            simpa using ⟨f3, f4⟩
          · rw [htr] at hz
            simp only [Bool.not_true, decide_eq_false_iff_not] at hz
            refine ⟨_, xl, by rw [if_neg hz]; rfl, rfl, ?_⟩
            simpa using ⟨d3, d4⟩

/-- C69, negative: of two different `Unary` sizes only `Unary(1)` with `Unary(2)` is accepted, although the larger of the
two types has all values of both. -/
theorem C69_ternary_unary_fails {m n : Nat} (m1 : 1 ≤ m) (m2 : m ≤ 64) (n1 : 1 ≤ n) (n2 : n ≤ 64) (hmn : m ≠ n) :
    Within (scalar .unary m) .unary (max m n) ∧ Within (scalar .unary n) .unary (max m n) ∧
    ((∃ t, checkTernary (scalar .bool 1) (scalar .unary m) (scalar .unary n) = .ty t) ↔ max m n ≤ 2) := by
  refine ⟨fun v hv => ⟨hv.1, hv.2.trans (by exact_mod_cast le_max_left m n)⟩,
    fun v hv => ⟨hv.1, hv.2.trans (by exact_mod_cast le_max_right m n)⟩, ?_⟩
  have key : ∀ m : Fin 65, ∀ n : Fin 65, 1 ≤ m.1 → 1 ≤ n.1 → m.1 ≠ n.1 →
      ((match checkTernary (scalar .bool 1) (scalar .unary m.1) (scalar .unary n.1) with
        | .ty _ => true | _ => false) = decide (max m.1 n.1 ≤ 2)) := by decide +kernel
  have := key ⟨m, by omega⟩ ⟨n, by omega⟩ m1 n1 hmn
  simp only at this
  constructor
  · rintro ⟨t, e⟩
    rw [e] at this
    simpa using this.symm
  · intro h
    cases e : checkTernary (scalar .bool 1) (scalar .unary m) (scalar .unary n) with
    | ty t => exact ⟨t, rfl⟩
    | reject => rw [e] at this; simp [h] at this
    | abort => rw [e] at this; simp [h] at this

/-- C69, negative: two `Bool` branches of different sizes - and a `String` beside a number - stop the compiler with a
failed assertion, neither accepted nor refused. -/
theorem C69_ternary_bool_fails : (∀ m n : Nat, m ≠ n →
      checkTernary (scalar .bool 1) (scalar .bool m) (scalar .bool n) = .abort) ∧
    ∀ n : Nat, checkTernary (scalar .bool 1) (scalar .string 18) (scalar .int n) = .abort := by
  constructor
  · intro m n h
    simp [checkTernary, ternType, h, scalar, resultBitsize, resultBitsizeCalc, calcBitsizeForResult]
  · intro n
    simp [checkTernary, ternType, scalar, resultBitsize, resultBitsizeCalc, calcBitsizeForResult]

/-! ### A library that does what the names say -/

/-- The reference library. -/
def refLib (valid : Nat → Bool) : Lib where
  ext := Cast.refExt valid
  cmp := fun op b _ x y n => (compared op b n (x % 2 ^ n) b n (y % 2 ^ n)).toNat
  bitw := fun op _ _ x y n => bitwise op (x % 2 ^ n) (y % 2 ^ n)
  cbool := fun _ x n => truth .bool n (x % 2 ^ n)

/-- The assumption on the library can be met. -/
theorem refLib_faithful (cnt : Nat) (valid : Nat → Bool) : Faithful (refLib valid) cnt valid where
  ext := Cast.refExt_faithful cnt valid
  cmp := by
    intro op b w n _ _ _ _ x y
    simp only [refLib]
    cases compared op b n (x % 2 ^ n) b n (y % 2 ^ n) <;> rfl
  bitw := by
    intro op w n _ _ _ x y
    have h : 0 < 2 ^ n := Nat.two_pow_pos n
    simp only [refLib]
    apply Nat.mod_eq_of_lt
    cases op
    · exact lt_of_le_of_lt Nat.and_le_left (Nat.mod_lt _ h)
    · exact Nat.or_lt_two_pow (Nat.mod_lt _ h) (Nat.mod_lt _ h)
    · exact Nat.xor_lt_two_pow (Nat.mod_lt _ h) (Nat.mod_lt _ h)
  cbool := by
    intro w n _ _ _ x
    rfl

/-- C68, negative: `(Unary(3)) (Bits(3)) 4u`, a constant whose only set bit is the top one, is accepted where `Bits(1)` is
asked for - its number is 1 - and arrives as 0. -/
theorem C68_unary_bits_fails : ∃ (lib : Lib) (o : Operand) (t : Ty), Faithful lib 0 (fun _ => true) ∧ Scalar o.ty ∧
    Scalar t ∧ Value o 4 ∧ safeTo lib 0 t o = some true ∧ genOperand lib 0 t o 4 = some 0 := by
  refine ⟨refLib fun _ => true, ⟨scalar .unary 3, some 4⟩, scalar .bits 1, refLib_faithful _ _, by decide, by decide, ?_,
    by decide +kernel, by decide +kernel⟩
  exact ⟨by decide, fun u h => by simp at h; subst h; exact ⟨by decide, fun _ => by decide⟩⟩

/-- C69, negative: a `Bool` of more than 32 bits cannot be an operand of `&&` or `||` in a constant expression: the
evaluator stops with a failed assertion, while the generated program computes the value. -/
theorem C69_wide_logical_fails {lib : Lib} {cnt n : Nat} (h : 32 < n) (op : Logic) (b : Bits) :
    checkLogical ⟨scalar .bool n, none⟩ ⟨scalar .bool n, none⟩ = .ty (scalar .bool n) ∧
    evalLogical lib cnt op (scalar .bool n) ⟨scalar .bool n, none⟩ ⟨scalar .bool n, none⟩ b b = none ∧
    ∀ x, genLogical lib cnt op (scalar .bool n) ⟨scalar .bool n, none⟩ ⟨scalar .bool n, none⟩ x x ≠ none := by
  refine ⟨?_, ?_, ?_⟩
  · simp [checkLogical, scalar, safeCast, baseSafeCast, checkArrayCast, boolFrom]
  · have : getData b (96 - (scalar .bool n).bits) (scalar .bool n).bits = none := by
      unfold getData
      rw [if_neg (by simp [scalar]; omega)]
    simp [evalLogical, evalOperand, this]
  · intro x
    cases op <;> simp [genLogical, genOperand] <;> split <;> simp

/-! ### Cases -/

/-- `Int(8) x < Unsigned(8) y` with `x = -1`, `y = 255`: true, in `Int(9)`. -/
example : checkCompare (refLib fun _ => true) 0 .lt ⟨scalar .int 8, none⟩ ⟨scalar .unsigned 8, none⟩ = .ty (scalar .int 9) ∧
    genCompare (refLib fun _ => true) 0 .lt (scalar .int 9) ⟨scalar .int 8, none⟩ ⟨scalar .unsigned 8, none⟩ 255 255
      = some 1 := by decide +kernel

/-- `Int(32)` with `Unsigned(32)`: refused; `Int(33)` with `Unsigned(32)`: accepted. -/
example : checkCompare (refLib fun _ => true) 0 .lt ⟨scalar .int 32, none⟩ ⟨scalar .unsigned 32, none⟩ = .reject ∧
    checkCompare (refLib fun _ => true) 0 .lt ⟨scalar .int 33, none⟩ ⟨scalar .unsigned 32, none⟩ = .ty (scalar .int 33) := by
  decide +kernel

/-- The `Int(32)` constant 5 beside an `Unsigned(32)` is refused: the common type is `Int(32)`, not safe for the other. -/
example : checkCompare (refLib fun _ => true) 0 .eq ⟨scalar .int 32, some 5⟩ ⟨scalar .unsigned 32, none⟩ = .reject := by
  decide +kernel

/-- `Int(4)` minus one and `Unsigned(6)` 9, bit by bit: `001111 & 001001`. -/
example : checkBitwise (refLib fun _ => true) 0 ⟨scalar .int 4, none⟩ ⟨scalar .unsigned 6, none⟩ = .ty (scalar .bits 6) ∧
    genBitwise (refLib fun _ => true) 0 .and (scalar .bits 6) ⟨scalar .int 4, none⟩ ⟨scalar .unsigned 6, none⟩ 15 9
      = some 9 := by decide +kernel

/-- `Bool(3)` with two bits set is true: the right operand of `||` does not count. -/
example : checkLogical ⟨scalar .bool 3, none⟩ ⟨scalar .bool 1, none⟩ = .ty (scalar .bool 3) ∧
    genLogical (refLib fun _ => true) 0 .or (scalar .bool 3) ⟨scalar .bool 3, none⟩ ⟨scalar .bool 1, none⟩ 3 0
      = some (3, false) := by decide +kernel

/-- `c ? Int(8) : Unsigned(9)` works in `Int(10)`. -/
example : checkTernary (scalar .bool 3) (scalar .int 8) (scalar .unsigned 9) = .ty (scalar .int 10) ∧
    genTernary (refLib fun _ => true) 0 (scalar .int 10) ⟨scalar .bool 3, none⟩ ⟨scalar .int 8, none⟩
      ⟨scalar .unsigned 9, none⟩ 5 255 511 = some 1023 := by decide +kernel

/-- The `Int(32)` constant 7 fits `Unsigned(3)`, 8 does not, -1 does not. -/
example : safeTo (refLib fun _ => true) 0 (scalar .unsigned 3) ⟨scalar .int 32, some 7⟩ = some true ∧
    safeTo (refLib fun _ => true) 0 (scalar .unsigned 3) ⟨scalar .int 32, some 8⟩ = some false ∧
    safeTo (refLib fun _ => true) 0 (scalar .unsigned 3) ⟨scalar .int 32, some (2 ^ 32 - 1)⟩ = some false := by
  decide +kernel

end Ulam.Oper
