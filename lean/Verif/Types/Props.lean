import Verif.Types.Arith
/-!
# C07-C11: implicit casts, result sizes and literal sizes
-/
namespace Ulam.Types
open Spec

/-- C07: whenever an implicit cast is accepted, every stored value of the source type has a counterpart of the
destination type carrying the same number (numeric destination), truth (`Bool`) or bits (`Bits`). -/
theorem C07_implicit_cast_preserves (dst frm : Ty) (ht : 1 ≤ dst.bits) (hf : 1 ≤ frm.bits)
    (h : safeCast dst frm = true) (raw : Nat) (hr : raw < 2 ^ width frm.base frm.bits) :
    ∃ raw', raw' < 2 ^ dst.bits ∧
      Preserved dst.base dst.bits raw' frm.base (width frm.base frm.bits) raw := by
  obtain ⟨tb, t, ta, tr⟩ := dst
  obtain ⟨fb, n, fa, fr⟩ := frm
  simp only at ht hf hr ⊢
  unfold safeCast at h
  rw [Bool.and_eq_true] at h
  have h := h.2
  simp only at h
  have num : ∀ {tb fb : Base} (_ : Numeric tb) (_ : Numeric fb), numFrom tb t fb n = true → raw < 2 ^ n →
      ∃ raw', raw' < 2 ^ t ∧ number tb t raw' = number fb n raw := by
    intro tb fb ht' hf' hc hr
    exact number_surj ht' ht ((numFrom_iff ht' hf' ht hf).1 hc _ (number_range hf' hf hr))
  cases tb <;> simp only [Bool.false_eq_true] at h
  · cases fb <;> simp only [intFrom, Bool.false_eq_true] at h
    · exact num (.inl rfl) (.inl rfl) (by simpa [numFrom, intFrom] using h) hr
    · exact num (.inl rfl) (.inr (.inl rfl)) (by simpa [numFrom, intFrom] using h) hr
    · exact num (.inl rfl) (.inr (.inr rfl)) (by simpa [numFrom, intFrom] using h) hr
    · simp only [width] at hr ⊢
      simp only [decide_eq_true_eq] at h
      obtain ⟨h1, h2⟩ := twos_range (n := 32) (by omega) hr
      have := ipow_le (show 32 - 1 ≤ t - 1 by omega)
      exact twos_surj (v := twos 32 raw) ht (by omega) (by omega)
  · cases fb <;> simp only [unsignedFrom, Bool.false_eq_true] at h
    · exact num (.inr (.inl rfl)) (.inr (.inl rfl)) (by simpa [numFrom, unsignedFrom] using h) hr
    · exact num (.inr (.inl rfl)) (.inr (.inr rfl)) (by simpa [numFrom, unsignedFrom] using h) hr
  · cases fb <;> simp only [unaryFrom, Bool.false_eq_true] at h
    · exact num (.inr (.inr rfl)) (.inr (.inl rfl)) (by simpa [numFrom, unaryFrom] using h) hr
    · exact num (.inr (.inr rfl)) (.inr (.inr rfl)) (by simpa [numFrom, unaryFrom] using h) hr
  · have hrec : truth fb (width fb n) raw = truth fb n raw ∧ (fb = .bool ∨ number fb n raw = (truth fb n raw).toNat) := by
      cases fb <;> simp [boolFrom] at h
      · subst h
        simp only [width] at hr ⊢
        have hc : raw = 0 ∨ raw = 1 := by omega
        rcases hc with rfl | rfl <;> simp [number, truth]
      · subst h
        simp only [width] at hr ⊢
        have hc : raw = 0 ∨ raw = 1 := by omega
        rcases hc with rfl | rfl <;> simp [number, truth, ones]
      · simp [width]
    have hw : width fb n = n := by
      cases fb <;> simp [boolFrom] at h <;> rfl
    rw [hw]
    suffices ∃ raw', raw' < 2 ^ t ∧ truth .bool t raw' = truth fb n raw by
      obtain ⟨r, h1, h2⟩ := this
      refine ⟨r, h1, ?_⟩
      rcases hrec.2 with rfl | h3
      · exact h2
      · cases fb <;> simp [boolFrom] at h <;> simp only [Preserved, h2] <;> exact h3
    cases hb : truth fb n raw
    · refine ⟨0, Nat.two_pow_pos _, ?_⟩
      have : ones t 0 = 0 := by simpa using ones_full t 0 (by omega)
      simp [truth, this]
    · refine ⟨2 ^ t - 1, by have := Nat.two_pow_pos t; omega, ?_⟩
      simp only [truth, ones_full t t (le_refl _)]
      simp; omega
  · simp only [Preserved]
    refine ⟨raw, ?_, rfl⟩
    have hw : width fb n ≤ t := by
      cases fb <;> simp [bitsFrom] at h <;> simpa [width] using h
    exact lt_of_lt_of_le hr (Nat.pow_le_pow_right (by omega) hw)

example : safeCast ⟨.int, 5, -1, .notRef⟩ ⟨.unary, 8, -1, .notRef⟩ = true := by decide
example : safeCast ⟨.bits, 32, -1, .notRef⟩ ⟨.quark, 12, -1, .notRef⟩ = true := by decide

/-- C07: between `Int`, `Unsigned` and `Unary` scalars the rule is exact: a cast is implicit if and only if every value
of the source is a value of the destination. -/
theorem C07_numeric_cast_exact (tb fb : Base) (t n : Nat) (ht : Numeric tb) (hf : Numeric fb)
    (h1 : 1 ≤ t) (hn : 1 ≤ n) :
    safeCast ⟨tb, t, -1, .notRef⟩ ⟨fb, n, -1, .notRef⟩ = true ↔
      ∀ raw, raw < 2 ^ n → ∃ raw', raw' < 2 ^ t ∧ number tb t raw' = number fb n raw := by
  have e : safeCast ⟨tb, t, -1, .notRef⟩ ⟨fb, n, -1, .notRef⟩ = numFrom tb t fb n := by
    rcases ht with rfl | rfl | rfl <;> simp [safeCast, baseSafeCast, checkArrayCast, numFrom]
  rw [e, numFrom_iff ht hf h1 hn]
  constructor
  · intro h raw hr
    exact number_surj ht h1 (h _ (number_range hf hn hr))
  · intro h v hv
    obtain ⟨raw, hr, rfl⟩ := number_surj hf hn hv
    obtain ⟨raw', hr', e⟩ := h raw hr
    rw [← e]
    exact number_range ht h1 hr'

example : safeCast ⟨.int, 4, -1, .notRef⟩ ⟨.unary, 8, -1, .notRef⟩ = false := by decide

/-- C07: array casts are accepted only between equal array sizes, and a constant reference never becomes a
non-constant one. -/
theorem C07_arrays_and_references (dst frm : Ty) (h : safeCast dst frm = true) :
    dst.arr = frm.arr ∧ ¬ (frm.alt = .constRef ∧ dst.alt = .ref) := by
  unfold safeCast baseSafeCast checkArrayCast at h
  simp only [Bool.and_eq_true, Bool.not_eq_true', Bool.and_eq_false_iff, decide_eq_false_iff_not] at h
  obtain ⟨⟨h1, h2⟩, -⟩ := h
  refine ⟨?_, by tauto⟩
  split at h1
  · omega
  · simpa using h1

/-- The five sized primitive types. -/
def Sized (b : Base) : Prop := b = .int ∨ b = .unsigned ∨ b = .unary ∨ b = .bool ∨ b = .bits

/-- C08: every sized primitive type casts implicitly to itself. -/
theorem C08_reflexive (a : Ty) (h : Sized a.base) : safeCast a a = true := by
  obtain ⟨b, n, ar, al⟩ := a
  have : baseSafeCast ⟨b, n, ar, al⟩ ⟨b, n, ar, al⟩ = true := by
    cases al <;> simp [baseSafeCast, checkArrayCast]
  unfold safeCast
  rw [this]
  rcases h with h | h | h | h | h <;> simp only at h <;> subst h <;>
    simp [intFrom, unsignedFrom, unaryFrom, boolFrom, bitsFrom]

/-- C08 (missing: from `Unary` or `Bool` through another type to `Bits`, and dropping a constant reference through a value): implicit
casts compose, so an intermediate variable makes no rejected cast acceptable. -/
theorem C08_transitive_partial (a b c : Ty) (ha : 1 ≤ a.bits) (hb : 1 ≤ b.bits) (hc : 1 ≤ c.bits)
    (h1 : safeCast b a = true) (h2 : safeCast c b = true)
    (hu : ¬ ((a.base = .unary ∨ a.base = .bool) ∧ c.base = .bits)) (hr : ¬ (a.alt = .constRef ∧ c.alt = .ref)) :
    safeCast c a = true := by
  have p1 := C07_arrays_and_references b a h1
  have p2 := C07_arrays_and_references c b h2
  have hbase : baseSafeCast c a = true := by
    have : c.arr = a.arr := by rw [p2.1, p1.1]
    simp [baseSafeCast, checkArrayCast, this]
    tauto
  obtain ⟨ab, an, aa, ar⟩ := a
  obtain ⟨bb, bn, ba, br⟩ := b
  obtain ⟨cb, cn, ca, cr⟩ := c
  unfold safeCast at h1 h2 ⊢
  rw [Bool.and_eq_true] at h1 h2 ⊢
  refine ⟨hbase, ?_⟩
  replace h1 := h1.2
  replace h2 := h2.2
  simp only at h1 h2 ha hb hc hu ⊢
  -- three numeric types: inclusion of ranges is transitive
  have num : ∀ {x y z : Base}, Numeric x → Numeric y → Numeric z → numFrom y bn x an = true →
      numFrom z cn y bn = true → numFrom z cn x an = true := by
    intro x y z hx hy hz e1 e2
    rw [numFrom_iff hz hx hc ha]
    rw [numFrom_iff hy hx hb ha] at e1
    rw [numFrom_iff hz hy hc hb] at e2
    exact fun v hv => e2 v (e1 v hv)
  have nI : Numeric .int := .inl rfl
  have nU : Numeric .unsigned := .inr (.inl rfl)
  have nY : Numeric .unary := .inr (.inr rfl)
  -- casts to Bool come from one-bit types
  cases cb <;> cases bb <;> simp only [intFrom, unsignedFrom, unaryFrom, boolFrom, bitsFrom, Bool.false_eq_true] at h2 <;>
    cases ab <;> simp only [intFrom, unsignedFrom, unaryFrom, boolFrom, bitsFrom, Bool.false_eq_true] at h1 ⊢ <;>
    first
    | (exact num nI nI nI h1 h2) | (exact num nU nI nI h1 h2) | (exact num nY nI nI h1 h2)
    | (exact num nU nU nI h1 h2) | (exact num nY nU nI h1 h2) | (exact num nU nY nI h1 h2) | (exact num nY nY nI h1 h2)
    | (exact num nU nU nU h1 h2) | (exact num nY nU nU h1 h2) | (exact num nU nY nU h1 h2) | (exact num nY nY nU h1 h2)
    | (exact num nU nU nY h1 h2) | (exact num nY nU nY h1 h2) | (exact num nU nY nY h1 h2) | (exact num nY nY nY h1 h2)
    | (exact absurd ⟨.inl rfl, rfl⟩ hu) | (exact absurd ⟨.inr rfl, rfl⟩ hu)
    | (simp only [decide_eq_true_eq, unsignedMax] at *; omega)
    | skip
  · -- Unary(n) -> Unsigned(1) -> Bool
    simp only [decide_eq_true_eq] at *
    subst h2
    have : Nat.log2 an < 1 := by omega
    have := (Nat.log2_lt (by omega)).1 this
    omega
  · -- Unsigned(n) -> Unary(1) -> Bool
    have h1' : bn ≥ 2 ^ an - 1 := of_decide_eq_true h1
    have h2' : bn = 1 := of_decide_eq_true h2
    rw [decide_eq_true_eq]
    by_contra hne
    have : 2 ^ 2 ≤ 2 ^ an := Nat.pow_le_pow_right (by omega) (by omega)
    omega
  · -- Unsigned(n) -> Unary(m) -> Bits
    have h1' : bn ≥ 2 ^ an - 1 := of_decide_eq_true h1
    have h2' : cn ≥ bn := of_decide_eq_true h2
    rw [decide_eq_true_eq]
    have : an < 2 ^ an := Nat.lt_two_pow_self
    omega

example : safeCast ⟨.int, 9, -1, .notRef⟩ ⟨.unsigned, 8, -1, .notRef⟩ = true ∧
    safeCast ⟨.bits, 16, -1, .notRef⟩ ⟨.int, 9, -1, .notRef⟩ = true := by decide

/-- C08, negative: `Unary(8)` casts to `Unsigned(4)` and that to `Bits(4)`, yet `Unary(8)` to `Bits(4)` is rejected. -/
theorem C08_not_transitive :
    ∃ a b c : Ty, safeCast b a = true ∧ safeCast c b = true ∧ safeCast c a = false :=
  ⟨⟨.unary, 8, -1, .notRef⟩, ⟨.unsigned, 4, -1, .notRef⟩, ⟨.bits, 4, -1, .notRef⟩, by decide⟩

/-- C08, negative: `Bool(3)` casts to `Bool(1)` and that to `Bits(1)`, yet `Bool(3)` to `Bits(1)` is rejected. -/
theorem C08_not_transitive_bool :
    ∃ a b c : Ty, a.base = .bool ∧ safeCast b a = true ∧ safeCast c b = true ∧ safeCast c a = false :=
  ⟨⟨.bool, 3, -1, .notRef⟩, ⟨.bool, 1, -1, .notRef⟩, ⟨.bits, 1, -1, .notRef⟩, by decide⟩

/-- C09 (missing: a negative difference of two unsigned operands, and the most negative number divided by -1): below the
word size the type given to an arithmetic result holds the exact result of every operand pair. -/
theorem C09_result_fits_partial (op : Op) (lb rb : Base) (ln rn : Nat) (hl : Operand lb) (hr : Operand rb)
    (l1 : 1 ≤ ln) (l2 : ln ≤ 64) (r1 : 1 ≤ rn) (r2 : rn ≤ 64) (r : Nat)
    (h : resultBitsize op lb ln rb rn = some r)
    (hcap : r < if (lb = .quark ∨ ln ≤ 32) ∧ (rb = .quark ∨ rn ≤ 32) then 32 else 64)
    (x y : Int) (hx : InRange lb ln x) (hy : InRange rb rn y)
    (hsub : op = .sub → resultSign lb rb = .unsigned → y ≤ x)
    (hdiv : op = .div → ¬ (resultSign lb rb = .signed ∧ x = -(2 : Int) ^ (r - 1) ∧ y = -1)) :
    SignRange (resultSign lb rb) r (exact op x y) := by
  obtain ⟨a, b, w, e, a1, b1, hw, hmax, hsum⟩ := calc_pair hl hr l1 l2 r1 r2 hx hy
  rw [← hw] at hcap
  unfold resultBitsize at h
  rw [e] at h
  simp only [Option.map_some, Option.some.injEq] at h
  have hmx : (if a > b then a else b) = max a b := by split <;> omega
  cases op <;> simp only [hmx] at h <;> simp only [exact]
  · rw [if_neg (by split at h <;> omega)] at h
    obtain ⟨p, q⟩ := hmax (by omega)
    subst h; exact add_range (by omega) p q
  · rw [if_neg (by split at h <;> omega)] at h
    obtain ⟨p, q⟩ := hmax (by omega)
    subst h; exact sub_range (by omega) p q (hsub rfl)
  · rw [if_neg (by split at h <;> omega)] at h
    obtain ⟨p, q⟩ := hsum (by omega)
    subst h; exact mul_range a1 b1 p q
  · rw [if_neg (by split at h <;> omega)] at h
    obtain ⟨p, q⟩ := hmax (by omega)
    subst h; exact div_range p q (hdiv rfl)
  · rw [if_neg (by split at h <;> omega)] at h
    obtain ⟨p, q⟩ := hmax (by omega)
    subst h; exact rem_range p

example : resultBitsize .mul .int 5 .unsigned 6 = some 12 := by decide
example : InRange .int 5 (-16) ∧ InRange .unsigned 6 63 := by simp [InRange]

/-- C09: a result size exists for all numeric operands, and never exceeds the operands' word size. -/
theorem C09_result_size_within_word (op : Op) (lb rb : Base) (ln rn : Nat) (hl : Operand lb) (hr : Operand rb)
    (l1 : 1 ≤ ln) (l2 : ln ≤ 64) (r1 : 1 ≤ rn) (r2 : rn ≤ 64) :
    ∃ r, resultBitsize op lb ln rb rn = some r ∧ 1 ≤ r ∧
      r ≤ if (lb = .quark ∨ ln ≤ 32) ∧ (rb = .quark ∨ rn ≤ 32) then 32 else 64 := by
  have inh : ∀ (b : Base) (n : Nat), Operand b → InRange b n 0 := by
    intro b n hb
    rcases hb with rfl | rfl | rfl | rfl <;> simp [InRange]
  obtain ⟨a, b, w, e, a1, b1, hw, -, -⟩ := calc_pair hl hr l1 l2 r1 r2 (inh lb ln hl) (inh rb rn hr)
  unfold resultBitsize
  rw [e, ← hw]
  have hw1 : 1 ≤ w := by rw [hw]; split <;> omega
  refine ⟨_, rfl, ?_, ?_⟩
  · cases op <;> simp only <;> repeat' split
    all_goals omega
  · cases op <;> simp only <;> repeat' split
    all_goals omega

/-- C09, negative: the difference of two `Unsigned(3)` is typed `Unsigned(4)`, which cannot hold 0 - 1. -/
theorem C09_unsigned_difference_does_not_fit :
    resultBitsize .sub .unsigned 3 .unsigned 3 = some 4 ∧ resultSign .unsigned .unsigned = .unsigned ∧
      InRange .unsigned 3 0 ∧ InRange .unsigned 3 1 ∧ ¬ SignRange .unsigned 4 (exact .sub 0 1) := by
  refine ⟨by decide, by decide, by simp [InRange], by simp [InRange], by simp [SignRange, exact]⟩

/-- C09, negative: `Int(5)` divided by `Int(5)` is typed `Int(5)`, which cannot hold (-16)/(-1). -/
theorem C09_quotient_does_not_fit :
    resultBitsize .div .int 5 .int 5 = some 5 ∧ resultSign .int .int = .signed ∧
      InRange .int 5 (-16) ∧ InRange .int 5 (-1) ∧ ¬ SignRange .signed 5 (exact .div (-16) (-1)) := by
  refine ⟨by decide, by decide, by simp [InRange], by simp [InRange], by simp [SignRange, exact]⟩

/-- C10 (missing: shift amounts of 31 to 63 bits, where the size computation goes wrong): for a right operand of at most
30 bits, or at least as wide as the word, the result size is positive and either the word size or wide enough for every
value and every shift amount. -/
theorem C10_shift_left_size_partial (lb rb : Base) (ln rn : Nat) (l1 : 1 ≤ ln) (r1 : 1 ≤ rn)
    (hq : lb ≠ .quark) (hq' : rb ≠ .quark) (hs : rn ≤ 30 ∨ (rn ≥ wordSize ln ∧ rn ≥ wordSize rn)) :
    ∃ r : Nat, shiftLeftBitsize lb ln rb rn = .val r ∧
      (r = max (wordSize ln) (wordSize rn) ∨
        ∀ x k, x < 2 ^ ln → k < 2 ^ rn → x * 2 ^ k < 2 ^ r) := by
  have cb : ∀ (b : Base) (n : Nat), b ≠ .quark → calcBitsizeForResultInBits b n = (n, wordSize n) := by
    intro b n h; cases b <;> simp_all [calcBitsizeForResultInBits]
  unfold shiftLeftBitsize
  rw [cb lb ln hq, cb rb rn hq']
  simp only
  have hw : (if wordSize ln ≠ wordSize rn then (if wordSize ln > wordSize rn then wordSize ln else wordSize rn)
      else wordSize ln) = max (wordSize ln) (wordSize rn) := by
    split <;> (try split) <;> omega
  rw [hw]
  generalize hW : max (wordSize ln) (wordSize rn) = W
  split
  · rename_i hge
    refine ⟨W, ?_, Or.inl rfl⟩
    rw [if_pos (by omega)]
  · rename_i hlt
    have h30 : rn ≤ 30 := by omega
    have hsh : shl1 rn = .val (2 ^ rn) := by simp [shl1]; omega
    rw [hsh]
    simp only
    by_cases hc : (ln : Int) + 2 ^ rn ≥ W
    · exact ⟨W, by rw [if_pos hc], Or.inl rfl⟩
    · refine ⟨ln + 2 ^ rn, by rw [if_neg hc]; simp, Or.inr ?_⟩
      intro x k hx hk
      rw [pow_add]
      calc x * 2 ^ k ≤ x * 2 ^ (2 ^ rn) := Nat.mul_le_mul_left _ (Nat.pow_le_pow_right (by omega) (by omega))
        _ < 2 ^ ln * 2 ^ (2 ^ rn) := Nat.mul_lt_mul_of_pos_right hx (by positivity)

example : shiftLeftBitsize .bits 4 .unsigned 2 = .val 8 := by decide

/-- C10, negative: with a 31-bit shift amount the computed size is negative. -/
theorem C10_negative_size : shiftLeftBitsize .bits 8 .unsigned 31 = .val (-2147483640) := by decide

/-- C10, negative: shifting a value wider than 32 bits by a plain `Unsigned` (32 bits) is undefined behaviour in the
compiler. -/
theorem C10_undefined_shift (ln : Nat) (h1 : 33 ≤ ln) (h2 : ln ≤ 64) :
    shiftLeftBitsize .bits ln .unsigned 32 = .ub := by
  have hw : wordSize ln = 64 := by rw [wordSize_eq (by omega) h2, if_neg (by omega)]
  have hw2 : wordSize 32 = 32 := by decide
  unfold shiftLeftBitsize calcBitsizeForResultInBits
  simp [hw, hw2, shl1]

/-- Smallest positive size at which a number fits. -/
def IsLeastSize (b : Base) (v : Int) (n : Nat) : Prop :=
  1 ≤ n ∧ InRange b n v ∧ ∀ m, 1 ≤ m → InRange b m v → n ≤ m

/-- C11: an unsigned literal gets the least number of bits that holds it (zero gets one bit). -/
theorem C11_unsigned_least (v : Nat) : IsLeastSize .unsigned v (unsignedLiteralBits v) := by
  unfold IsLeastSize unsignedLiteralBits InRange
  refine ⟨by omega, ⟨by omega, ?_⟩, ?_⟩
  · exact_mod_cast (Nat.lt_log2_self : v < 2 ^ (Nat.log2 v + 1))
  · intro m hm h
    by_cases h0 : v = 0
    · subst h0; simpa using hm
    · have h2 : v < 2 ^ m := by exact_mod_cast h.2
      have := (Nat.log2_lt h0).2 h2
      omega

/-- C11: every signed literal fits the size it is given. -/
theorem C11_signed_fits (v : Int) (h1 : -(2 : Int) ^ 63 ≤ v) (h2 : v < (2 : Int) ^ 63) :
    1 ≤ intLiteralBits v ∧ intLiteralBits v ≤ 64 ∧ InRange .int (intLiteralBits v) v := by
  refine ⟨by unfold intLiteralBits; omega, by unfold intLiteralBits; omega, ?_⟩
  have hl : v.natAbs < 2 ^ (Nat.log2 v.natAbs + 1) := Nat.lt_log2_self
  have hl' : (v.natAbs : Int) < (2 : Int) ^ (Nat.log2 v.natAbs + 1) := by exact_mod_cast hl
  unfold InRange intLiteralBits
  by_cases hc : Nat.log2 v.natAbs + 1 + 1 ≤ 64
  · have : max 1 (min 64 (Nat.log2 v.natAbs + 1 + 1)) - 1 = Nat.log2 v.natAbs + 1 := by omega
    simp only [this]
    omega
  · have : max 1 (min 64 (Nat.log2 v.natAbs + 1 + 1)) - 1 = 63 := by omega
    simp only [this]
    exact ⟨h1, h2⟩

/-- C11 (missing: zero and negative powers of two, which get one bit too many): a signed literal that is neither zero
nor a negative power of two gets the least number of bits that holds it. -/
theorem C11_signed_least_partial (v : Int) (h1 : -(2 : Int) ^ 63 ≤ v) (h2 : v < (2 : Int) ^ 63) (h0 : v ≠ 0)
    (hp : ∀ k : Nat, v ≠ -(2 : Int) ^ k) : IsLeastSize .int v (intLiteralBits v) := by
  obtain ⟨f1, -, f3⟩ := C11_signed_fits v h1 h2
  refine ⟨f1, f3, ?_⟩
  intro m hm h
  unfold intLiteralBits
  have hlt : v.natAbs < 2 ^ (m - 1) := by
    have hc : ((2 ^ (m - 1) : Nat) : Int) = 2 ^ (m - 1) := by simp
    have := hp (m - 1)
    unfold InRange at h
    omega
  have := (Nat.log2_lt (show v.natAbs ≠ 0 by omega)).2 hlt
  omega

example : intLiteralBits (-5) = 4 ∧ intLiteralBits 127 = 8 := by decide

/-- C11, negative: -8 fits in `Int(4)` but its literal type is `Int(5)`. -/
theorem C11_signed_not_least : intLiteralBits (-8) = 5 ∧ InRange .int 4 (-8) := by
  refine ⟨by decide, by simp [InRange]⟩

/-- C11: a unary literal up to 64 gets exactly as many bits as its value. -/
theorem C11_unary_least (v : Nat) (h1 : 1 ≤ v) (h : v ≤ 64) : IsLeastSize .unary v (unaryLiteralBits v) := by
  unfold IsLeastSize unaryLiteralBits InRange
  rw [if_neg (by omega)]
  exact ⟨h1, ⟨by omega, by omega⟩, fun m _ h => by omega⟩

end Ulam.Types
