import Verif.Cast.Lemmas
import Verif.Types.Props
import Mathlib.Tactic.IntervalCases
/-! # Property C67: a cast means the same at compile time and in the generated program, and what the language says -/
namespace Ulam.Cast
open Ulam.Types hiding Sized
open Ulam.Types.Spec Spec
open Ulam.Packed (Bits readBits)

/-- The casts the evaluator can do: between sized kinds, a `String` to a `Bool` of one word, `Bits` of one word to `String`,
and `String` to itself. -/
def Evaluable (dst frm : Ty) : Prop :=
  (Sized dst.base ∧ Sized frm.base) ∨ (dst.base = .bool ∧ frm.base = .string ∧ dst.bits ≤ 32) ∨
    (dst.base = .string ∧ frm.base = .bits ∧ frm.bits ≤ 32) ∨ (dst.base = .string ∧ frm.base = .string)

theorem carried_ext {ext : Ext} {cnt : Nat} {valid : Nat → Bool} (hx : Faithful ext cnt valid) {dst frm : Ty}
    (ht : Scalar dst) (hf : Scalar frm) (hp : Provided ⟨frm.base, dst.base, theWord dst frm⟩) {raw : Nat}
    (hr : raw < 2 ^ frm.bits) :
    Carried valid dst.base dst.bits
      (ext ⟨frm.base, dst.base, theWord dst frm⟩ raw frm.bits dst.bits cnt % 2 ^ dst.bits) frm.base frm.bits raw := by
  obtain ⟨-, -, t1, t2, -⟩ := ht
  obtain ⟨-, -, f1, f2, -⟩ := hf
  refine hx _ hp _ _ _ f1 ?_ t1 ?_ hr <;> simp only [theWord] <;> split <;> omega

theorem provided_sized {dst frm : Ty} (h : Sized dst.base ∧ Sized frm.base) :
    Provided ⟨frm.base, dst.base, theWord dst frm⟩ :=
  Or.inl ⟨h.2, h.1, by simp only [theWord]; split <;> simp⟩

theorem carried_same (valid : Nat → Bool) {t : Ty} (h : Scalar t) {raw : Nat} (hr : raw < 2 ^ t.bits) :
    Carried valid t.base t.bits raw t.base t.bits raw := by
  obtain ⟨-, -, t1, t2, h | h⟩ := h
  · rcases h with h | h | h | h | h <;> rw [h]
    · exact nearest_self (number_range (Or.inl rfl) t1 hr)
    · exact nearest_self (number_range (Or.inr (Or.inl rfl)) t1 hr)
    · exact nearest_self (number_range (Or.inr (Or.inr rfl)) t1 hr)
    · simp [Carried]
    · simp [Carried, Nat.mod_eq_of_lt hr]
  · rw [h.1]; simp [Carried]

/-- The evaluator's data, by kinds: either the library call or the operand's own low bits, and the latter only where that
is what the cast means. -/
theorem outcome_carried {ext : Ext} {cnt : Nat} {valid : Nat → Bool} (hx : Faithful ext cnt valid) {dst frm : Ty}
    (ht : Scalar dst) (hf : Scalar frm) (he : Evaluable dst frm) {raw : Nat} (hr : raw < 2 ^ frm.bits) :
    ∃ v, outcome ext cnt dst frm raw = some v ∧
      Carried valid dst.base dst.bits (v % 2 ^ dst.bits) frm.base frm.bits raw := by
  have hsame : dst.base = .string → frm.base = .string → raw % 2 ^ dst.bits = raw := by
    intro a b
    apply Nat.mod_eq_of_lt
    obtain ⟨-, -, -, -, h | h⟩ := ht
    · rcases h with h | h | h | h | h <;> rw [a] at h <;> simp at h
    obtain ⟨-, -, -, -, h' | h'⟩ := hf
    · rcases h' with h' | h' | h' | h' | h' <;> rw [b] at h' <;> simp at h'
    rw [h.2, ← h'.2]; exact hr
  rcases he with he | he | he | he
  · have hc := carried_ext hx ht hf (provided_sized he) hr
    unfold outcome
    obtain ⟨h1, h2⟩ := he
    generalize theWord dst frm = w at hc ⊢
    rcases h1 with h1 | h1 | h1 | h1 | h1 <;> rcases h2 with h2 | h2 | h2 | h2 | h2 <;> rw [h1, h2] at hc ⊢ <;>
      by_cases hw : w = 32 <;> simp only [hw, if_true, if_false, how32, how64] at hc ⊢ <;>
      first
        | exact ⟨_, rfl, hc⟩
        | exact ⟨_, rfl, rfl⟩
  · have hw : theWord dst frm = 32 := by
      obtain ⟨-, -, -, -, h' | h'⟩ := hf
      · rcases h' with h' | h' | h' | h' | h' <;> rw [he.2.1] at h' <;> simp at h'
      simp only [theWord]; rw [if_pos (by omega)]
    have hc := carried_ext hx ht hf (by rw [he.1, he.2.1, hw]; exact Or.inr (Or.inl rfl)) hr
    unfold outcome
    rw [hw] at hc ⊢
    rw [he.1, he.2.1] at hc ⊢
    exact ⟨_, rfl, hc⟩
  · have hw : theWord dst frm = 32 := by
      obtain ⟨-, -, -, -, h' | h'⟩ := ht
      · rcases h' with h' | h' | h' | h' | h' <;> rw [he.1] at h' <;> simp at h'
      simp only [theWord]; rw [if_pos (by omega)]
    unfold outcome
    rw [hw, he.1, he.2.1]
    exact ⟨_, rfl, rfl⟩
  · have hw : theWord dst frm = 32 := by
      obtain ⟨-, -, -, -, h | h⟩ := ht
      · rcases h with h | h | h | h | h <;> rw [he.1] at h <;> simp at h
      obtain ⟨-, -, -, -, h' | h'⟩ := hf
      · rcases h' with h' | h' | h' | h' | h' <;> rw [he.2] at h' <;> simp at h'
      simp only [theWord]; rw [if_pos (by omega)]
    unfold outcome
    have e := hsame he.1 he.2
    rw [hw, he.1, he.2]
    exact ⟨_, rfl, by simp only [Carried]; exact e⟩

theorem evaluable_word {dst frm : Ty} (hf : Scalar frm) (he : Evaluable dst frm) : ¬ (dst.base = .string ∧ 32 < frm.bits) := by
  rintro ⟨h, h'⟩
  rcases he with he | he | he | he
  · rcases he.1 with a | a | a | a | a <;> rw [h] at a <;> simp at a
  · rw [h] at he; simp at he
  · omega
  · obtain ⟨-, -, -, -, a | a⟩ := hf
    · rcases a with a | a | a | a | a <;> rw [he.2] at a <;> simp at a
    · omega

/-- C67 (missing: `String` to `Bits`, `String` to a `Bool` over one word, `Bits` over one word to `String`): the evaluator
casts every value, and the value it leaves is what the cast means. -/
theorem C67_evaluated_partial {ext : Ext} {cnt : Nat} {valid : Nat → Bool} (hx : Faithful ext cnt valid) (dst frm : Ty)
    (ht : Scalar dst) (hf : Scalar frm) (he : Evaluable dst frm) (b : Bits) :
    ∃ b', evalCast ext cnt dst frm b = .ok b' ∧
      Carried valid dst.base dst.bits (readBits b' (96 - dst.bits) dst.bits) frm.base frm.bits
        (readBits b (96 - frm.bits) frm.bits) := by
  obtain ⟨v, hv, hc⟩ := outcome_carried hx ht hf he (Packed.readBits_lt b (96 - frm.bits) frm.bits)
  have := evalCast_eq ext cnt ht hf b (evaluable_word hf he)
  rw [hv] at this
  obtain ⟨b', h1, h2⟩ := this
  exact ⟨b', h1, by rw [h2]; exact hc⟩

/-- The casts whose generated function the library provides. -/
def Callable (dst frm : Ty) : Prop :=
  Evaluable dst frm ∨ (dst.base = .bits ∧ frm.base = .string ∧ dst.bits ≤ 32)

/-- C67 (missing: `String` with `Bits` or `Bool` over one word): the generated program's cast is what the cast means,
explicit or not, constant or not. -/
theorem C67_generated_partial {ext : Ext} {cnt : Nat} {valid : Nat → Bool} (hx : Faithful ext cnt valid) (dst frm : Ty)
    (ht : Scalar dst) (hf : Scalar frm) (he : Callable dst frm) (ex c : Bool) (raw : Nat) (hr : raw < 2 ^ frm.bits) :
    ∃ r, runGen ext cnt dst raw (genCast ex c dst frm) = some r ∧
      Carried valid dst.base dst.bits r frm.base frm.bits raw := by
  by_cases hne : dst = frm
  · subst hne
    refine ⟨raw, ?_, carried_same valid ht hr⟩
    simp [genCast, needsACast, runGen]
  · have str18 : ∀ {t : Ty}, Scalar t → t.base = .string → t.bits = 18 := by
      intro t h h'
      obtain ⟨-, -, -, -, a | a⟩ := h
      · rcases a with a | a | a | a | a <;> rw [h'] at a <;> simp at a
      · exact a.2
    have hs : dst.base = .string → frm.base = .bits := by
      intro h
      rcases he with (he | he | he | he) | he
      · rcases he.1 with a | a | a | a | a <;> rw [h] at a <;> simp at a
      · rw [h] at he; simp at he
      · exact he.2.1
      · exfalso
        apply hne
        have b1 := str18 ht he.1
        have b2 := str18 hf he.2
        obtain ⟨a1, a2, -⟩ := ht
        obtain ⟨c1, c2, -⟩ := hf
        cases dst; cases frm; simp_all
      · rw [h] at he; simp at he
    rw [genCast_eq ex c ht hf hs hne]
    refine ⟨_, rfl, carried_ext hx ht hf ?_ hr⟩
    rcases he with (he | he | he | he) | he
    · exact provided_sized he
    · have := str18 hf he.2.1
      have hw : theWord dst frm = 32 := by simp only [theWord]; rw [if_pos (by omega)]
      rw [hw, he.1, he.2.1]; exact Or.inr (Or.inl rfl)
    · have := str18 ht he.1
      have hw : theWord dst frm = 32 := by simp only [theWord]; rw [if_pos (by omega)]
      rw [hw, he.1, he.2.1]; exact Or.inr (Or.inr (Or.inl rfl))
    · have := hs he.1; rw [he.2] at this; simp at this
    · have := str18 hf he.2.1
      have hw : theWord dst frm = 32 := by simp only [theWord]; rw [if_pos (by omega)]
      rw [hw, he.1, he.2.1]; exact Or.inr (Or.inr (Or.inr rfl))

/-- C67 (missing: casts of a `Bool` or `Unary` to its own type, see `C67_redundant_fails`): evaluator and generated program
leave the same bits. -/
theorem C67_same_bits_partial {ext : Ext} {cnt : Nat} {valid : Nat → Bool} (hx : Faithful ext cnt valid) (dst frm : Ty)
    (ht : Scalar dst) (hf : Scalar frm) (he : Evaluable dst frm)
    (hd : dst = frm → dst.base ≠ .bool ∧ dst.base ≠ .unary) (ex c : Bool) (b : Bits) :
    ∃ b', evalCast ext cnt dst frm b = .ok b' ∧
      runGen ext cnt dst (readBits b (96 - frm.bits) frm.bits) (genCast ex c dst frm) =
        some (readBits b' (96 - dst.bits) dst.bits) := by
  have hr := Packed.readBits_lt b (96 - frm.bits) frm.bits
  obtain ⟨b', h1, h2⟩ := C67_evaluated_partial hx dst frm ht hf he b
  obtain ⟨r, h3, h4⟩ := C67_generated_partial hx dst frm ht hf (Or.inl he) ex c _ hr
  refine ⟨b', h1, ?_⟩
  rw [h3]
  have hr' := Packed.readBits_lt b' (96 - dst.bits) dst.bits
  generalize hraw : readBits b (96 - frm.bits) frm.bits = raw at *
  generalize hraw' : readBits b' (96 - dst.bits) dst.bits = raw' at *
  by_cases hne : dst = frm
  · subst hne
    have hn := hd rfl
    have hrr : r = raw := by
      have : genCast ex c dst dst = .same := by simp [genCast, needsACast]
      rw [this] at h3
      simpa [runGen] using h3.symm
    subst hrr
    obtain ⟨-, -, t1, t2, k | k⟩ := ht
    · rcases k with k | k | k | k | k
      · rw [k] at h2
        have hrg := number_range (b := .int) (Or.inl rfl) t1 hr
        rw [number_inj (Or.inl rfl) hr' hr (nearest_exact hrg h2)]
      · rw [k] at h2
        have hrg := number_range (b := .unsigned) (Or.inr (Or.inl rfl)) t1 hr
        rw [number_inj (Or.inr rfl) hr' hr (nearest_exact hrg h2)]
      · exact absurd k hn.2
      · exact absurd k hn.1
      · rw [k] at h2
        simp only [Carried] at h2
        rw [h2, Nat.mod_eq_of_lt hr]
    · rw [k.1] at h2
      simp only [Carried] at h2
      rw [h2]
  · -- the same call, or bits that are determined
    have e := evalCast_eq ext cnt ht hf b (evaluable_word hf he)
    have hdet : ∀ {x y : Nat}, frm.base = .bits ∨ dst.base = .bits → Carried valid dst.base dst.bits x frm.base frm.bits raw →
        Carried valid dst.base dst.bits y frm.base frm.bits raw → x = y := by
      intro x y h hx hy
      rcases h with h | h
      · rw [h] at hx hy; simp only [Carried] at hx hy; rw [hx, hy]
      · rw [h] at hx hy
        have : ∀ z, Carried valid .bits dst.bits z frm.base frm.bits raw → z = raw % 2 ^ dst.bits := by
          intro z hz
          cases hb : frm.base <;> rw [hb] at hz <;> exact hz
        rw [this _ hx, this _ hy]
    by_cases hbits : frm.base = .bits ∨ dst.base = .bits
    · rw [hdet hbits h4 h2]
    · have hcall : outcome ext cnt dst frm raw =
          some (ext ⟨frm.base, dst.base, theWord dst frm⟩ raw frm.bits dst.bits cnt) := by
        unfold outcome
        push Not at hbits
        rcases he with he | he | he | he
        · obtain ⟨k1, k2⟩ := he
          generalize theWord dst frm = w
          rcases k1 with k1 | k1 | k1 | k1 | k1 <;> rcases k2 with k2 | k2 | k2 | k2 | k2 <;>
            first
              | exact absurd k1 hbits.2
              | exact absurd k2 hbits.1
              | (rw [k1, k2]; by_cases hw : w = 32 <;> simp [hw, how32, how64])
        · have hw : theWord dst frm = 32 := by
            obtain ⟨-, -, -, -, h' | h'⟩ := hf
            · rcases h' with h' | h' | h' | h' | h' <;> rw [he.2.1] at h' <;> simp at h'
            simp only [theWord]; rw [if_pos (by omega)]
          rw [hw, he.1, he.2.1]; rfl
        · exact absurd he.2.1 hbits.1
        · exfalso
          apply hne
          have b1 : dst.bits = 18 := by
            obtain ⟨-, -, -, -, h' | h'⟩ := ht
            · rcases h' with h' | h' | h' | h' | h' <;> rw [he.1] at h' <;> simp at h'
            · exact h'.2
          have b2 : frm.bits = 18 := by
            obtain ⟨-, -, -, -, h' | h'⟩ := hf
            · rcases h' with h' | h' | h' | h' | h' <;> rw [he.2] at h' <;> simp at h'
            · exact h'.2
          obtain ⟨a1, a2, -⟩ := ht
          obtain ⟨c1, c2, -⟩ := hf
          cases dst; cases frm; simp_all
      rw [hraw, hcall] at e
      obtain ⟨b'', e1, e2⟩ := e
      rw [h1] at e1
      injection e1 with e1
      subst e1
      rw [hraw'] at e2
      have hs : dst.base = .string → frm.base = .bits := by
        intro h
        rcases he with he | he | he | he
        · rcases he.1 with a | a | a | a | a <;> rw [h] at a <;> simp at a
        · rw [h] at he; simp at he
        · exact he.2.1
        · exfalso
          apply hne
          have b1 : dst.bits = 18 := by
            obtain ⟨-, -, -, -, h' | h'⟩ := ht
            · rcases h' with h' | h' | h' | h' | h' <;> rw [he.1] at h' <;> simp at h'
            · exact h'.2
          have b2 : frm.bits = 18 := by
            obtain ⟨-, -, -, -, h' | h'⟩ := hf
            · rcases h' with h' | h' | h' | h' | h' <;> rw [he.2] at h' <;> simp at h'
            · exact h'.2
          obtain ⟨a1, a2, -⟩ := ht
          obtain ⟨c1, c2, -⟩ := hf
          cases dst; cases frm; simp_all
      rw [genCast_eq ex c ht hf hs hne] at h3
      simp only [runGen, Option.some.injEq] at h3
      rw [← h3, e2]

/-- What a cast carries is what the implicit cast should preserve. -/
theorem carried_preserved {valid : Nat → Bool} {dst frm : Ty} (ht : Scalar dst) (hf : Scalar frm)
    (h : safeCast dst frm = true) {raw raw' : Nat} (hr : raw < 2 ^ frm.bits)
    (hc : Carried valid dst.base dst.bits raw' frm.base frm.bits raw) :
    Preserved dst.base dst.bits raw' frm.base frm.bits raw := by
  obtain ⟨tb, t, ta, tr⟩ := dst
  obtain ⟨fb, n, fa, fr⟩ := frm
  obtain ⟨a1, a2, t1, -, tk⟩ := ht
  obtain ⟨b1, b2, f1, -, fk⟩ := hf
  simp only at a1 a2 b1 b2 t1 f1 hr hc tk fk ⊢
  subst a1 a2 b1 b2
  have num : Numeric tb → Numeric fb → Nearest tb t (number fb n raw) (number tb t raw') →
      number tb t raw' = number fb n raw := by
    intro hn hn' hc
    obtain ⟨r, hr2, e⟩ := (C07_numeric_cast_exact tb fb t n hn hn' t1 f1).1 h raw hr
    exact nearest_exact (e ▸ number_range hn t1 hr2) hc
  have hh := h
  unfold safeCast at hh
  rw [Bool.and_eq_true] at hh
  have hh := hh.2
  simp only at hh
  have one : ∀ x : Nat, x < 2 ^ 1 → ones 1 x = x ∧ x < 2 := by
    intro x hx
    have : x < 2 := by simpa using hx
    interval_cases x <;> decide
  rcases tk with tk | tk
  · rcases tk with rfl | rfl | rfl | rfl | rfl <;> rcases fk with (rfl | rfl | rfl | rfl | rfl) | ⟨rfl, -⟩ <;>
      simp only [intFrom, unsignedFrom, unaryFrom, boolFrom, bitsFrom, Bool.false_eq_true, decide_eq_true_eq] at hh <;>
      simp only [Carried] at hc <;> simp only [Preserved]
    all_goals first
      | exact num (by simp [Numeric]) (by simp [Numeric]) hc
      | exact hc
      | (rw [hc]; exact Nat.mod_eq_of_lt (Nat.lt_of_lt_of_le hr (Nat.pow_le_pow_right (by decide) hh)))
      | (subst hh
         obtain ⟨h1, h2⟩ := one raw hr
         rw [hc]
         simp only [number, h1]
         interval_cases raw <;> decide)
  · obtain ⟨rfl, -⟩ := tk
    simp at hh

/-- C67: an implicit cast of a primitive value loses nothing, neither in the evaluator nor in the generated program. -/
theorem C67_implicit_preserves {ext : Ext} {cnt : Nat} {valid : Nat → Bool} (hx : Faithful ext cnt valid) (dst frm : Ty)
    (ht : Scalar dst) (hf : Scalar frm) (h : safeCast dst frm = true) (c : Bool) (b : Bits) :
    ∃ b' r, evalCast ext cnt dst frm b = .ok b' ∧
      runGen ext cnt dst (readBits b (96 - frm.bits) frm.bits) (genCast false c dst frm) = some r ∧
      Preserved dst.base dst.bits (readBits b' (96 - dst.bits) dst.bits) frm.base frm.bits
        (readBits b (96 - frm.bits) frm.bits) ∧
      Preserved dst.base dst.bits r frm.base frm.bits (readBits b (96 - frm.bits) frm.bits) := by
  have hr := Packed.readBits_lt b (96 - frm.bits) frm.bits
  have he : Evaluable dst frm := by
    left
    have hh := h
    unfold safeCast at hh
    rw [Bool.and_eq_true] at hh
    have hh := hh.2
    obtain ⟨-, -, -, -, tk | tk⟩ := ht
    · obtain ⟨-, -, -, -, fk | fk⟩ := hf
      · exact ⟨tk, fk⟩
      · rcases tk with e | e | e | e | e <;> rw [e, fk.1] at hh <;>
          simp [intFrom, unsignedFrom, unaryFrom, boolFrom, bitsFrom] at hh
    · rw [tk.1] at hh; simp at hh
  obtain ⟨b', h1, h2⟩ := C67_evaluated_partial hx dst frm ht hf he b
  obtain ⟨r, h3, h4⟩ := C67_generated_partial hx dst frm ht hf (Or.inl he) false c _ hr
  exact ⟨b', r, h1, h3, carried_preserved ht hf h hr h2, carried_preserved ht hf h hr h4⟩

/-! ## A library as assumed -/

/-- Coding a number of a type. -/
def enc (b : Base) (t : Nat) (v : Int) : Nat :=
  match b with
  | .int => if 0 ≤ v then v.toNat else (v + 2 ^ t).toNat
  | .unary => 2 ^ v.toNat - 1
  | _ => v.toNat

/-- Least and greatest number of a type. -/
def lo (b : Base) (t : Nat) : Int := match b with | .int => -(2 : Int) ^ (t - 1) | _ => 0
def hi (b : Base) (t : Nat) : Int :=
  match b with | .int => (2 : Int) ^ (t - 1) - 1 | .unary => t | _ => (2 : Int) ^ t - 1

/-- A conversion library that does what the names say. -/
def refExt (valid : Nat → Bool) : Ext := fun f raw n t _ =>
  let all := fun b : Bool => if b then 2 ^ t - 1 else 0
  let sat := fun v : Int => enc f.dst t (max (lo f.dst t) (min (hi f.dst t) v))
  match f.src, f.dst with
  | .bits, _ | _, .bits => raw
  | .string, .string => raw
  | .string, .bool => all (valid raw)
  | .bool, .bool => all (truth .bool n raw)
  | _, .bool => all (decide (number f.src n raw ≠ 0))
  | .bool, _ => sat (truth .bool n raw).toNat
  | _, _ => sat (number f.src n raw)

theorem inRange_iff {b : Base} (hb : Numeric b) (t : Nat) (v : Int) : InRange b t v ↔ lo b t ≤ v ∧ v ≤ hi b t := by
  rcases hb with rfl | rfl | rfl <;> simp only [InRange, lo, hi] <;> omega

theorem enc_number {b : Base} (hb : Numeric b) {t : Nat} (t1 : 1 ≤ t) {v : Int} (h : InRange b t v) :
    number b t (enc b t v) = v ∧ enc b t v < 2 ^ t := by
  have hp := pow_pred t1
  have hpi : (2 : Int) ^ t = 2 * 2 ^ (t - 1) := by exact_mod_cast hp
  have hc : ((2 ^ (t - 1) : Nat) : Int) = 2 ^ (t - 1) := by simp
  have hc' : ((2 ^ t : Nat) : Int) = 2 ^ t := by simp
  rcases hb with rfl | rfl | rfl
  · obtain ⟨h0, h2⟩ := h
    simp only [enc, number]
    split
    · unfold twos; rw [if_pos (by omega)]; omega
    · unfold twos; rw [if_neg (by omega)]; omega
  · obtain ⟨h0, h2⟩ := h
    simp only [enc, number]
    omega
  · obtain ⟨h0, h2⟩ := h
    simp only [enc, number]
    have : 2 ^ v.toNat ≤ 2 ^ t := Nat.pow_le_pow_right (by omega) (by omega)
    have := Nat.one_le_two_pow (n := v.toNat)
    rw [ones_full _ _ (by omega)]
    omega

theorem sat_nearest {b : Base} (hb : Numeric b) {t : Nat} (t1 : 1 ≤ t) (v : Int) :
    Nearest b t v (number b t (enc b t (max (lo b t) (min (hi b t) v)) % 2 ^ t)) := by
  have hlh : lo b t ≤ hi b t := by
    have h1 : (1 : Int) ≤ 2 ^ (t - 1) := by exact_mod_cast Nat.one_le_two_pow
    have h2 : (1 : Int) ≤ 2 ^ t := by exact_mod_cast Nat.one_le_two_pow
    rcases hb with rfl | rfl | rfl <;> simp only [lo, hi] <;> omega
  have hin : InRange b t (max (lo b t) (min (hi b t) v)) := by rw [inRange_iff hb]; omega
  obtain ⟨h1, h2⟩ := enc_number hb t1 hin
  rw [Nat.mod_eq_of_lt h2, h1]
  refine ⟨hin, fun u hu => ?_⟩
  rw [inRange_iff hb] at hu
  omega

theorem all_truth {t : Nat} (t1 : 1 ≤ t) (b : Bool) : truth .bool t ((if b then 2 ^ t - 1 else 0) % 2 ^ t) = b := by
  have h1 := Nat.one_le_two_pow (n := t)
  cases b
  · have : ones t 0 = 0 := by simpa using ones_full t 0 (by omega)
    simp [truth, this]
  · rw [if_pos rfl, Nat.mod_eq_of_lt (by omega)]
    simp only [truth, ones_full t t (le_refl _)]
    simp; omega

/-- The assumption on the library can be met. -/
theorem refExt_faithful (cnt : Nat) (valid : Nat → Bool) : Faithful (refExt valid) cnt valid := by
  rintro ⟨src, dst, w⟩ hp n t raw n1 nw t1 tw hr
  simp only at nw tw ⊢
  rcases hp with ⟨h1, h2, -⟩ | hp | hp | hp
  · simp only at h1 h2
    rcases h1 with rfl | rfl | rfl | rfl | rfl <;> rcases h2 with rfl | rfl | rfl | rfl | rfl <;>
      simp only [refExt, Carried] <;>
      first
        | exact sat_nearest (by simp [Numeric]) t1 _
        | exact all_truth t1 _
        | rfl
  · injection hp with h1 h2 h3; subst h1 h2 h3; exact all_truth t1 _
  · injection hp with h1 h2 h3; subst h1 h2 h3; rfl
  · injection hp with h1 h2 h3; subst h1 h2 h3; rfl

/-! ## Where it fails -/

/-- C67, negative: an accepted explicit cast of a `Bool(3)` to `Bool(3)` changes the value's bits in the evaluator and not
in the generated program: `(Bits(3)) (Bool(3)) b` is 7 at compile time and 3 at run time. -/
theorem C67_redundant_fails : ∃ (ext : Ext) (t : Ty) (b : Bits), Faithful ext 0 (fun _ => true) ∧ Scalar t ∧
    explicitlyCastable t t = true ∧ readBits b 93 3 = 3 ∧
    (∃ b', evalCast ext 0 t t b = .ok b' ∧ readBits b' 93 3 = 7) ∧
    runGen ext 0 t 3 (genCast true false t t) = some 3 := by
  refine ⟨refExt (fun _ => true), ⟨.bool, 3, -1, .notRef⟩, fun i => decide (i = 94 ∨ i = 95), refExt_faithful _ _,
    by decide, by decide, by decide, ⟨_, rfl, by decide⟩, by decide⟩

/-- C67, negative: `String` to `Bits` is an accepted explicit cast, and the generated program has it, but the evaluator has
not, whatever the string and the library. -/
theorem C67_string_to_bits_fails (ext : Ext) (cnt n : Nat) (h1 : 1 ≤ n) (h2 : n ≤ 32) (b : Bits) :
    explicitlyCastable ⟨.bits, n, -1, .notRef⟩ ⟨.string, 18, -1, .notRef⟩ = true ∧
    evalCast ext cnt ⟨.bits, n, -1, .notRef⟩ ⟨.string, 18, -1, .notRef⟩ b = .fail ∧
    genCast true false ⟨.bits, n, -1, .notRef⟩ ⟨.string, 18, -1, .notRef⟩ = .call ⟨.string, .bits, 32⟩ 18 n := by
  have ht : Scalar ⟨.bits, n, -1, .notRef⟩ := ⟨rfl, rfl, h1, by simp only; omega, Or.inl (by simp [Sized])⟩
  have hf : Scalar ⟨.string, 18, -1, .notRef⟩ := by decide
  have hw : theWord ⟨.bits, n, -1, .notRef⟩ ⟨.string, 18, -1, .notRef⟩ = 32 := by simp [theWord]; omega
  refine ⟨by simp [explicitlyCastable], ?_, ?_⟩
  · have := evalCast_eq ext cnt ht hf b (by simp)
    unfold outcome at this
    rw [hw] at this
    exact this
  · rw [genCast_eq _ _ ht hf (by simp) (by simp), hw]

/-- C67, negative: casting a `String` to a `Bool` of more than 32 bits is accepted but the evaluator cannot do it. -/
theorem C67_string_to_bool_fails (ext : Ext) (cnt n : Nat) (h1 : 32 < n) (h2 : n ≤ 64) (b : Bits) :
    explicitlyCastable ⟨.bool, n, -1, .notRef⟩ ⟨.string, 18, -1, .notRef⟩ = true ∧
    evalCast ext cnt ⟨.bool, n, -1, .notRef⟩ ⟨.string, 18, -1, .notRef⟩ b = .fail := by
  have ht : Scalar ⟨.bool, n, -1, .notRef⟩ := ⟨rfl, rfl, by simp only; omega, h2, Or.inl (by simp [Sized])⟩
  have hf : Scalar ⟨.string, 18, -1, .notRef⟩ := by decide
  have hw : theWord ⟨.bool, n, -1, .notRef⟩ ⟨.string, 18, -1, .notRef⟩ = 64 := by simp [theWord]; omega
  refine ⟨by simp [explicitlyCastable], ?_⟩
  have := evalCast_eq ext cnt ht hf b (by simp)
  unfold outcome at this
  rw [hw] at this
  exact this

/-- C67, negative: casting `Bits` of more than 32 bits to `String` is accepted, and the evaluator aborts on it. -/
theorem C67_bits_to_string_fails (ext : Ext) (cnt n : Nat) (h1 : 32 < n) (h2 : n ≤ 64) (b : Bits) :
    explicitlyCastable ⟨.string, 18, -1, .notRef⟩ ⟨.bits, n, -1, .notRef⟩ = true ∧
    (match evalCast ext cnt ⟨.string, 18, -1, .notRef⟩ ⟨.bits, n, -1, .notRef⟩ b with | .abort => True | _ => False) := by
  have hw : wordSize n = 64 := by
    rcases word_cases (l := n) (by omega) h2 with h | h
    · omega
    · exact h.2
  have e18 : wordSize 18 = 32 := rfl
  refine ⟨by simp [explicitlyCastable], ?_⟩
  simp [evalCast, cast, baseSafeCast, checkArrayCast, hw, e18, castTo64]

/-! ## Concrete cases -/

/-- The hypotheses are met, e.g. by narrowing `Int(8)` to `Unsigned(4)`: -1 becomes 0. -/
example : Scalar ⟨.unsigned, 4, -1, .notRef⟩ ∧ Scalar ⟨.int, 8, -1, .notRef⟩ ∧
    Evaluable ⟨.unsigned, 4, -1, .notRef⟩ ⟨.int, 8, -1, .notRef⟩ ∧
    ∃ b', evalCast (refExt fun _ => true) 0 ⟨.unsigned, 4, -1, .notRef⟩ ⟨.int, 8, -1, .notRef⟩ (fun _ => true) = .ok b' ∧
      readBits b' 92 4 = 0 :=
  ⟨by decide, by decide, Or.inl ⟨by decide, by decide⟩, _, rfl, by decide⟩

/-- From one word to two and back: 200 as `Unsigned(40)` is 127 as `Int(8)`. -/
example : runGen (refExt fun _ => true) 0 ⟨.int, 8, -1, .notRef⟩ 200
    (genCast true false ⟨.int, 8, -1, .notRef⟩ ⟨.unsigned, 40, -1, .notRef⟩) = some 127 ∧
    castMethod ⟨.int, 8, -1, .notRef⟩ ⟨.unsigned, 40, -1, .notRef⟩ = ⟨.unsigned, .int, 64⟩ := by decide +kernel

/-- An implicit cast: `Unary(3)` to `Unsigned(2)`. -/
example : safeCast ⟨.unsigned, 2, -1, .notRef⟩ ⟨.unary, 3, -1, .notRef⟩ = true ∧
    runGen (refExt fun _ => true) 0 ⟨.unsigned, 2, -1, .notRef⟩ 5
      (genCast false false ⟨.unsigned, 2, -1, .notRef⟩ ⟨.unary, 3, -1, .notRef⟩) = some 2 := by decide +kernel

end Ulam.Cast
