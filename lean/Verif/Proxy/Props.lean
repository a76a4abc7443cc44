import Verif.Proxy.Spec
import Verif.Arith.Lemmas
import Verif.Types.Lemmas
import Verif.Strings.Props
import Mathlib.Tactic.Linarith
import Mathlib.Tactic.IntervalCases
import Mathlib.Tactic.Push
/-!
# Constants of types and sizes of types: C75-C77
-/
namespace Ulam.Proxy
open Ulam.Types Ulam.Types.Spec Ulam.Oper Ulam.Arith
open Ulam.Proxy.Spec
open Ulam.Packed (Bits readBits)
open Ulam.Strings (UPool uGetData uStringLength uValidIndex)

theorem word_le {n : Nat} (h1 : 1 ≤ n) (h2 : n ≤ 64) : (wordSize n ≤ 32 ↔ n ≤ 32) := by
  rw [wordSize_eq h1 h2]
  split <;> omega

/-- Two's complement digits of a number in range read back as the number. -/
theorem twos_mod {n : Nat} {v : Int} (h1 : 1 ≤ n) (hl : -(2 : Int) ^ (n - 1) ≤ v) (hu : v < (2 : Int) ^ (n - 1)) :
    twos n (v % 2 ^ n).toNat = v := by
  have hp : (2 : Int) ^ n = 2 * 2 ^ (n - 1) := by exact_mod_cast pow_pred h1
  have hpos : (0 : Int) < 2 ^ (n - 1) := by positivity
  have hc : (((2 : Nat) ^ n : Nat) : Int) = 2 ^ n := by simp
  unfold twos
  by_cases h : 0 ≤ v
  · rw [Int.emod_eq_of_lt h (by omega), if_pos (by zify; rw [Int.toNat_of_nonneg h]; omega)]
    omega
  · have e : v % 2 ^ n = v + 2 ^ n := by
      rw [← Int.add_emod_right, Int.emod_eq_of_lt (by omega) (by omega)]
    rw [e, if_neg (by zify; rw [Int.toNat_of_nonneg (by omega)]; omega)]
    omega

theorem toNat_mod {a b : Nat} (h : a ≤ b) (v : Int) : (v % 2 ^ b).toNat % 2 ^ a = (v % 2 ^ a).toNat := by
  have hb : (0 : Int) ≤ v % 2 ^ b := Int.emod_nonneg _ (by positivity)
  have ha : (0 : Int) ≤ v % 2 ^ a := Int.emod_nonneg _ (by positivity)
  zify
  rw [Int.toNat_of_nonneg hb, Int.toNat_of_nonneg ha]
  exact Int.emod_emod_of_dvd v (pow_dvd_pow 2 h)

theorem eval_eq {t : Ty} (h1 : 1 ≤ t.bits) (h2 : t.bits ≤ 64)
    (hb : Numeric t.base ∨ t.base = .bool ∨ t.base = .bits ∨ (t.base = .string ∧ t.bits ≤ 32)) (u : Nat) :
    evalTerminal t u = some (u % 2 ^ t.bits) := by
  unfold evalTerminal
  obtain ⟨b, e1, e2⟩ := immediate_read h1 h2 u (len := t.bits) (by omega)
  obtain ⟨b', e1', e2'⟩ := immediate_read h1 h2 (u % 2 ^ 32) (len := t.bits) (by omega)
  rw [Nat.mod_mod] at e2 e2'
  by_cases hw : t.bits ≤ 32
  · rw [if_pos ((word_le h1 h2).2 hw)]
    rw [Nat.mod_mod_of_dvd _ (pow_dvd_pow 2 hw)] at e2'
    rcases hb with (h | h | h) | h | h | ⟨h, _⟩ <;>
      (simp only [h, e1']; simp only [Option.map_some, e2'])
  · rw [if_neg (fun q => hw ((word_le h1 h2).1 q))]
    rcases hb with (h | h | h) | h | h | ⟨h, h'⟩
    all_goals first | omega | (simp only [h, e1]; simp only [Option.map_some, e2])

theorem gen_holds {lib : Lib} (hf : Faithful lib) (pool : UPool) {t : Ty} (h1 : 1 ≤ t.bits) (h2 : t.bits ≤ 64) {u : Nat}
    (hb : t.base = .int ∨ ((t.base = .unsigned ∨ t.base = .unary ∨ t.base = .bool ∨ t.base = .bits) ∧ u < 2 ^ t.bits)) :
    ∃ g, genTerminal lib pool t u = some g ∧ Holds t.base t.bits (u % 2 ^ t.bits) g := by
  have hw : (if wordSize t.bits ≤ 32 then 32 else 64) = (if t.bits ≤ 32 then 32 else 64) := by
    have := word_le h1 h2
    by_cases h : t.bits ≤ 32
    · rw [if_pos (this.2 h), if_pos h]
    · rw [if_neg (fun q => h (this.1 q)), if_neg h]
  have hwn : t.bits ≤ (if t.bits ≤ 32 then 32 else 64) := by split <;> omega
  have hwc : (if t.bits ≤ 32 then 32 else 64) = 32 ∨ (if t.bits ≤ 32 then 32 else 64) = 64 := by split <;> simp
  unfold genTerminal Holds
  rw [hw]
  generalize (if t.bits ≤ 32 then 32 else 64) = w at hwn hwc ⊢
  rcases hb with h | ⟨h, hu⟩
  · have hm : u % 2 ^ w % 2 ^ t.bits = u % 2 ^ t.bits := Nat.mod_mod_of_dvd _ (pow_dvd_pow 2 hwn)
    have hr := twos_range h1 (Nat.mod_lt u (by positivity : 0 < 2 ^ t.bits))
    have hpw : (2 : Int) ^ (t.bits - 1) ≤ 2 ^ (w - 1) := pow_le_pow_right₀ (by norm_num) (by omega)
    have hcs : lib.cs w .int (u % 2 ^ w) t.bits = twos t.bits (u % 2 ^ t.bits) := by
      have := hf w .int t.bits (u % 2 ^ w) (.inl rfl) hwc h1 hwn (.inl rfl)
      rw [hm] at this
      exact this (lt_of_lt_of_le hr.2 hpw)
    have hv : twos w (twos t.bits (u % 2 ^ t.bits) % 2 ^ w).toNat = twos t.bits (u % 2 ^ t.bits) :=
      twos_mod (by omega) (by linarith [hr.1]) (by linarith [hr.2])
    have hl : (twos t.bits (u % 2 ^ t.bits) % 2 ^ w).toNat % 2 ^ t.bits = u % 2 ^ t.bits := by
      rw [toNat_mod hwn]
      unfold twos
      have hlt := Nat.mod_lt u (by positivity : 0 < 2 ^ t.bits)
      split
      · have : (((u % 2 ^ t.bits : Nat) : Int) % 2 ^ t.bits).toNat = u % 2 ^ t.bits % 2 ^ t.bits := by
          have e : (((u % 2 ^ t.bits : Nat) : Int) % 2 ^ t.bits) = ((u % 2 ^ t.bits % 2 ^ t.bits : Nat) : Int) := by push_cast; rfl
          rw [e, Int.toNat_natCast]
        rw [this, Nat.mod_mod]
      · have e : ((((u % 2 ^ t.bits : Nat) : Int) - 2 ^ t.bits) % 2 ^ t.bits) = ((u % 2 ^ t.bits % 2 ^ t.bits : Nat) : Int) := by
          rw [Int.sub_emod_right]; push_cast; rfl
        rw [e, Int.toNat_natCast, Nat.mod_mod]
    refine ⟨(lib.cs w .int (u % 2 ^ w) t.bits % 2 ^ w).toNat, by simp [h], ?_, ?_⟩
    · have q : lib.cs w .int (u % 2 ^ w) t.bits % 2 ^ w < 2 ^ w := Int.emod_lt_of_pos _ (by positivity)
      have q0 : 0 ≤ lib.cs w .int (u % 2 ^ w) t.bits % 2 ^ w := Int.emod_nonneg _ (by positivity)
      zify
      rw [Int.toNat_of_nonneg q0]
      exact q
    · simp only [h, number, hcs]
      exact ⟨hv, hl⟩
  · have hlt : u < 2 ^ w := lt_of_lt_of_le hu (Nat.pow_le_pow_right (by norm_num) hwn)
    refine ⟨u % 2 ^ w, ?_, Nat.mod_lt _ (by positivity), ?_⟩
    · rcases h with h | h | h | h <;> simp [h]
    · rw [Nat.mod_eq_of_lt hlt, Nat.mod_eq_of_lt hu]
      rcases h with h | h | h | h <;> simp [h]

/-! ## Closed forms of the limits -/

theorem max_int {n : Nat} (h1 : 1 ≤ n) (h2 : n ≤ 64) : typeMax .int n = 2 ^ (n - 1) - 1 := by
  simp only [typeMax, signedMax, ctorWord, nOnes]
  split_ifs <;> first | omega | simp_all

theorem max_ones {b : Base} {n : Nat} (h1 : 1 ≤ n) (hb : b = .unsigned ∨ b = .string ∨ b = .unary ∨ b = .bool) :
    typeMax b n = 2 ^ n - 1 := by
  rcases hb with rfl | rfl | rfl | rfl <;> simp only [typeMax, unsignedMaxOf, ctorWord, nOnes] <;>
    split_ifs <;> first | omega | simp_all

theorem min_int {n : Nat} (h1 : 1 ≤ n) (h2 : n ≤ 64) : typeMin .int n = -(2 : Int) ^ (n - 1) := by
  have hs : signExtend (nOnes (n - 1) + 1) n = -(2 : Int) ^ (n - 1) := by
    have hp := pow_pred h1
    have e : nOnes (n - 1) + 1 = 2 ^ (n - 1) := by
      have : 0 < 2 ^ (n - 1) := by positivity
      unfold nOnes; omega
    unfold signExtend
    rw [e, Nat.mod_eq_of_lt (by have : 0 < 2 ^ (n - 1) := by positivity
                                omega), if_pos (le_refl _)]
    have : (2 : Int) ^ n = 2 * 2 ^ (n - 1) := by exact_mod_cast hp
    rw [this]; push_cast; ring
  simp only [typeMin, signedMin, ctorWord]
  rw [if_neg (by omega : ¬ n = 0), hs]
  split_ifs with h3 h4 h5
  · rw [h4]
  · rfl
  · rw [h5]
  · rfl

/-! ## C75 -/

/-- The setting of C75: a scalar numeric type, asked for its own limits. -/
def Plain (s : Subject) : Prop := s.ty.arr = -1 ∧ 1 ≤ s.ty.bits ∧ s.ty.bits ≤ 64 ∧ s.classid = false

theorem greatest_max {b : Base} {n : Nat} (hb : Numeric b) (h1 : 1 ≤ n) (h2 : n ≤ 64) :
    Greatest b n (typeMax b n) ∧ typeMax b n < 2 ^ n := by
  have hpos : 0 < 2 ^ (n - 1) := by positivity
  have hp := pow_pred h1
  have hpi : (2 : Int) ^ n = 2 * 2 ^ (n - 1) := by exact_mod_cast hp
  have hc : (((2 : Nat) ^ (n - 1) : Nat) : Int) = 2 ^ (n - 1) := by simp
  have hlt : typeMax b n < 2 ^ n := by
    rcases hb with rfl | rfl | rfl
    · rw [max_int h1 h2]; omega
    · rw [max_ones h1 (.inl rfl)]; omega
    · rw [max_ones h1 (.inr (.inr (.inl rfl)))]; omega
  refine ⟨⟨hlt, fun r hr => ?_⟩, hlt⟩
  rcases hb with rfl | rfl | rfl
  · rw [max_int h1 h2]
    have h := (twos_range h1 hr).2
    simp only [number]
    have e : twos n (2 ^ (n - 1) - 1) = 2 ^ (n - 1) - 1 := by
      unfold twos
      rw [if_pos (by omega), Nat.cast_sub (by omega)]
      push_cast
      rfl
    omega
  · rw [max_ones h1 (.inl rfl)]
    simp only [number]
    exact_mod_cast Nat.le_sub_one_of_lt hr
  · rw [max_ones h1 (.inr (.inr (.inl rfl)))]
    simp only [number]
    rw [ones_full n n (le_refl n)]
    exact_mod_cast ones_le n r

/-- C75. For every numeric type of 1 to 64 bits `T.maxof` is a constant of type `T`; the evaluator's value is the
greatest number of the type and the generated program's register holds the same value. -/
theorem C75_max (lib : Lib) (hf : Faithful lib) (pool : UPool) (s : Subject) (h : Plain s) (hb : Numeric s.ty.base) :
    ∃ u r g, setConstantValue .maxof s = .const u ∧ constantType .maxof s = s.ty ∧
      evalProxy pool .maxof s u = some r ∧ genTerminal lib pool s.ty u = some g ∧
      Greatest s.ty.base s.ty.bits r ∧ Holds s.ty.base s.ty.bits r g := by
  obtain ⟨ha, h1, h2, hc⟩ := h
  obtain ⟨hg, hlt⟩ := greatest_max hb h1 h2
  obtain ⟨g, g1, g2⟩ := gen_holds hf pool h1 h2 (u := typeMax s.ty.base s.ty.bits)
    (by rcases hb with h | h | h
        · exact .inl h
        · exact .inr ⟨.inl h, hlt⟩
        · exact .inr ⟨.inr (.inl h), hlt⟩)
  refine ⟨typeMax s.ty.base s.ty.bits, typeMax s.ty.base s.ty.bits % 2 ^ s.ty.bits, g, ?_, rfl, ?_, g1, ?_, g2⟩
  · have : isMinMaxAllowed s.ty = true := by
      rcases hb with h | h | h <;> simp [isMinMaxAllowed, h, isScalar, ha]
    simp [setConstantValue, this, hc]
  · simp only [evalProxy, constantType]
    exact eval_eq h1 h2 (.inl hb) _
  · rw [Nat.mod_eq_of_lt hlt]; exact hg

/-- C75. Likewise `T.minof` and the least number. -/
theorem C75_min (lib : Lib) (hf : Faithful lib) (pool : UPool) (s : Subject) (h : Plain s) (hb : Numeric s.ty.base) :
    ∃ u r g, setConstantValue .minof s = .const u ∧ constantType .minof s = s.ty ∧
      evalProxy pool .minof s u = some r ∧ genTerminal lib pool s.ty u = some g ∧
      Least s.ty.base s.ty.bits r ∧ Holds s.ty.base s.ty.bits r g := by
  obtain ⟨ha, h1, h2, _⟩ := h
  have hal : isMinMaxAllowed s.ty = true := by
    rcases hb with h | h | h <;> simp [isMinMaxAllowed, h, isScalar, ha]
  have hset : setConstantValue .minof s = .const (toU64 (typeMin s.ty.base s.ty.bits)) := by
    simp [setConstantValue, hal]
  have hpos : (0 : Nat) < 2 ^ s.ty.bits := by positivity
  by_cases hi : s.ty.base = .int
  · obtain ⟨g, g1, g2⟩ := gen_holds hf pool h1 h2 (u := toU64 (typeMin s.ty.base s.ty.bits)) (.inl hi)
    refine ⟨_, _, g, hset, rfl, eval_eq h1 h2 (.inl hb) _, g1, ⟨Nat.mod_lt _ hpos, fun r hr => ?_⟩, g2⟩
    rw [hi, min_int h1 h2]
    unfold toU64
    rw [toNat_mod h2]
    simp only [number]
    rw [twos_mod h1 (le_refl _) (by have : (0 : Int) < 2 ^ (s.ty.bits - 1) := by positivity
                                    omega)]
    exact (twos_range h1 hr).1
  · have h0 : toU64 (typeMin s.ty.base s.ty.bits) = 0 := by
      rcases hb with h | h | h
      · exact absurd h hi
      · simp [h, typeMin, toU64]
      · simp [h, typeMin, toU64]
    obtain ⟨g, g1, g2⟩ := gen_holds hf pool h1 h2 (u := toU64 (typeMin s.ty.base s.ty.bits))
      (by rw [h0]
          rcases hb with h | h | h
          · exact .inl h
          · exact .inr ⟨.inl h, hpos⟩
          · exact .inr ⟨.inr (.inl h), hpos⟩)
    refine ⟨_, _, g, hset, rfl, eval_eq h1 h2 (.inl hb) _, g1, ⟨Nat.mod_lt _ hpos, fun r hr => ?_⟩, g2⟩
    rw [h0, Nat.zero_mod]
    rcases hb with h | h | h
    · exact absurd h hi
    · rw [h]; simp [number]
    · rw [h]
      have : ones s.ty.bits 0 = 0 := by simpa using ones_full s.ty.bits 0 (Nat.zero_le _)
      simp [number, this]

/-- C75. For every `Bool(n)`: `maxof` is true with every bit set, `minof` is false with every bit clear. -/
theorem C75_bool (lib : Lib) (hf : Faithful lib) (pool : UPool) (s : Subject) (h : Plain s) (hb : s.ty.base = .bool) :
    (∃ u r g, setConstantValue .maxof s = .const u ∧ constantType .maxof s = s.ty ∧
      evalProxy pool .maxof s u = some r ∧ genTerminal lib pool s.ty u = some g ∧
      r = 2 ^ s.ty.bits - 1 ∧ truth .bool s.ty.bits r = true ∧ Holds .bool s.ty.bits r g) ∧
    (∃ u r g, setConstantValue .minof s = .const u ∧ constantType .minof s = s.ty ∧
      evalProxy pool .minof s u = some r ∧ genTerminal lib pool s.ty u = some g ∧
      r = 0 ∧ truth .bool s.ty.bits r = false ∧ Holds .bool s.ty.bits r g) := by
  obtain ⟨ha, h1, h2, hc⟩ := h
  have hal : isMinMaxAllowed s.ty = true := by simp [isMinMaxAllowed, hb, isScalar, ha]
  have hpos : (0 : Nat) < 2 ^ s.ty.bits := by positivity
  have e := eval_eq h1 h2 (.inr (.inl hb))
  constructor
  · have hm : typeMax s.ty.base s.ty.bits = 2 ^ s.ty.bits - 1 := max_ones h1 (by simp [hb])
    obtain ⟨g, g1, g2⟩ := gen_holds hf pool h1 h2 (u := 2 ^ s.ty.bits - 1) (.inr ⟨by simp [hb], by omega⟩)
    have hmod : (2 ^ s.ty.bits - 1) % 2 ^ s.ty.bits = 2 ^ s.ty.bits - 1 := Nat.mod_eq_of_lt (by omega)
    rw [hmod, hb] at g2
    refine ⟨2 ^ s.ty.bits - 1, 2 ^ s.ty.bits - 1, g, by simp [setConstantValue, hal, hc, hm], rfl, ?_, g1, rfl, ?_, g2⟩
    · exact (e _).trans (by rw [hmod])
    · simp only [truth, ones_full _ _ (le_refl _)]
      simp; omega
  · obtain ⟨g, g1, g2⟩ := gen_holds hf pool h1 h2 (u := 0) (.inr ⟨by simp [hb], hpos⟩)
    rw [Nat.zero_mod, hb] at g2
    refine ⟨0, 0, g, by simp [setConstantValue, hal, hb, typeMin, toU64], rfl, ?_, g1, rfl, ?_, g2⟩
    · exact (e 0).trans (by rw [Nat.zero_mod])
    · have : ones s.ty.bits 0 = 0 := by simpa using ones_full s.ty.bits 0 (Nat.zero_le _)
      simp [truth, this]

/-- C75 (partly: `String` is let through, see `C75_string_fails`). Nothing else has limits: arrays, `Bits`, `Void`, atoms and classes are refused. -/
theorem C75_refused_partial (s : Subject) (w : Of) (hw : w = .maxof ∨ w = .minof) :
    setConstantValue w s = .reject ↔
      ¬ (s.ty.arr = -1 ∧ (Numeric s.ty.base ∨ s.ty.base = .bool ∨ s.ty.base = .string)) := by
  obtain ⟨⟨b, n, a, r⟩, _, _, _, _, _⟩ := s
  rcases hw with rfl | rfl <;> simp only [setConstantValue, isMinMaxAllowed, isScalar, Numeric] <;> cases b <;> simp

/-- The reference library. -/
def refLib : Lib := ⟨fun _ b x n => number b n (x % 2 ^ n)⟩

theorem refLib_faithful : Faithful refLib := fun _ _ _ _ _ _ _ _ _ _ => rfl

example : Plain ⟨{ base := .int, bits := 5 }, false, 0, none, false, none⟩ ∧
    setConstantValue .minof ⟨{ base := .int, bits := 5 }, false, 0, none, false, none⟩ = .const (2 ^ 64 - 16) ∧
    evalTerminal { base := .int, bits := 5 } (2 ^ 64 - 16) = some 16 ∧
    genTerminal refLib .new { base := .int, bits := 5 } (2 ^ 64 - 16) = some (2 ^ 32 - 16) := by
  refine ⟨⟨rfl, by decide, by decide, rfl⟩, by decide +kernel, ?_, by decide +kernel⟩
  rw [eval_eq (by decide) (by decide) (.inl (.inl rfl))]
  decide

/-- C75 fails for `String`, which is let through: `String.minof` is index 0, which no string has, and generating code for
it fails an assertion, whatever strings the program has. `String.maxof` is index `2^18 - 1`: the same unless there is such
a string. -/
theorem C75_string_fails (lib : Lib) (pool : UPool) :
    ∃ s : Subject, s.ty = scalar .string 18 ∧
      (∃ u, setConstantValue .minof s = .const u ∧ evalProxy pool .minof s u = some 0 ∧
        genTerminal lib pool s.ty u = none) ∧
      (uGetData pool (2 ^ 18 - 1) = none → ∃ u, setConstantValue .maxof s = .const u ∧
        evalProxy pool .maxof s u = some (2 ^ 18 - 1) ∧ genTerminal lib pool s.ty u = none) := by
  refine ⟨⟨scalar .string 18, false, 0, none, false, none⟩, rfl, ⟨0, by decide, ?_, by simp [genTerminal, scalar, stringIdx]⟩,
    fun h => ⟨2 ^ 18 - 1, by decide, ?_, ?_⟩⟩
  · simp only [evalProxy, constantType]
    rw [eval_eq (by decide) (by decide) (.inr (.inr (.inr ⟨rfl, by decide⟩)))]; rfl
  · simp only [evalProxy, constantType]
    rw [eval_eq (by decide) (by decide) (.inr (.inr (.inr ⟨rfl, by decide⟩)))]; rfl
  · have : stringIdx (2 ^ 18 - 1) = 2 ^ 18 - 1 := by decide
    simp only [genTerminal, scalar, this, h]
    simp

/-- C75. The limit of class ids, `T.classidof.maxof`, is an `Unsigned` at least as great as every registration number
below the table's size, and the bits `T.classidof.sizeof` names can hold it. -/
theorem C75_classid (pool : UPool) (s : Subject) (h : s.ty = scalar .unsigned 32) (hc : s.classid = true) :
    ∃ u v m k, setConstantValue .maxof s = .const u ∧ evalProxy pool .maxof s u = some m ∧
      setConstantValue .sizeof s = .const v ∧ evalProxy pool .sizeof s v = some k ∧
      (∀ reg, reg < maxRegistry → reg ≤ m) ∧ m < 2 ^ k := by
  have e : ∀ u, evalTerminal (scalar .unsigned 32) u = some (u % 2 ^ 32) := fun u =>
    eval_eq (t := scalar .unsigned 32) (by decide) (by decide) (.inl (.inr (.inl rfl))) u
  have hk : classIdBits = 10 := by decide
  refine ⟨1000, classIdBits, 1000, 10, ?_, ?_, ?_, ?_, ?_, by decide⟩
  · simp [setConstantValue, h, hc, isMinMaxAllowed, isScalar, scalar, maxRegistry]
  · simp only [evalProxy, constantType, h, e]; rfl
  · simp [setConstantValue, hc]
  · simp only [evalProxy, constantType, e, hk]; rfl
  · intro r hr
    have : maxRegistry = 1000 := rfl
    omega

/-- C75. `T.classidof` of a class is its registration number, in the evaluator and in the generated program; of anything
else it is refused. -/
theorem C75_classidof (lib : Lib) (pool : UPool) (s : Subject) (h : s.reg < 2 ^ 32) :
    (s.ty.base = .cls ∨ s.ty.base = .quark → setConstantValue .classidof s = .const s.reg ∧
      evalProxy pool .classidof s s.reg = some s.reg ∧
      genTerminal lib pool (constantType .classidof s) s.reg = some s.reg) ∧
    (¬ (s.ty.base = .cls ∨ s.ty.base = .quark) → setConstantValue .classidof s = .reject) := by
  refine ⟨fun q => ⟨by simp [setConstantValue, q], ?_, ?_⟩, fun q => by simp [setConstantValue, q]⟩
  · simp only [evalProxy, constantType]
    rw [eval_eq (t := scalar .unsigned 32) (by decide) (by decide) (.inl (.inr (.inl rfl))) s.reg]
    simp only [scalar]
    rw [Nat.mod_eq_of_lt h]
  · have e : genTerminal lib pool (constantType .classidof s) s.reg = some (s.reg % 2 ^ 32) := by
      simp only [constantType]; rfl
    rw [e, Nat.mod_eq_of_lt h]

example : ∃ s : Subject, s.reg < 2 ^ 32 ∧ s.ty.base = .cls ∧ setConstantValue .classidof s = .const 7 :=
  ⟨⟨{ base := .cls, bits := 71 }, true, 7, none, false, none⟩, by decide, rfl, by decide⟩

/-! ## C76 -/

theorem u32_eval (u : Nat) : evalTerminal (scalar .unsigned 32) u = some (u % 2 ^ 32) :=
  eval_eq (t := scalar .unsigned 32) (by decide) (by decide) (.inl (.inr (.inl rfl))) u

theorem u32_gen (lib : Lib) (pool : UPool) (u : Nat) : genTerminal lib pool (scalar .unsigned 32) u = some (u % 2 ^ 32) := rfl

/-- C76 (partly: totals below `2^31` bits, see `C76_sizeof_fails`). `T.sizeof` is an `Unsigned` constant: the bits of one
item (96 for an element, which takes up an atom) times the number of items, in the evaluator and in the generated program. -/
theorem C76_sizeof_partial (lib : Lib) (pool : UPool) (s : Subject) (hc : s.classid = false) (k : Nat)
    (hk : (s.ty.arr = -1 ∧ k = 1) ∨ s.ty.arr = k) (n : Nat) (hn : n = if s.element then 96 else s.ty.bits)
    (hlt : n * k < 2 ^ 31) :
    setConstantValue .sizeof s = .const (n * k) ∧ constantType .sizeof s = scalar .unsigned 32 ∧
      evalProxy pool .sizeof s (n * k) = some (n * k) ∧ genTerminal lib pool (constantType .sizeof s) (n * k) = some (n * k) := by
  have hi : items s.ty = k := by
    unfold items
    rcases hk with ⟨h, rfl⟩ | h
    · rw [h]; rfl
    · rw [h, if_pos (by omega)]; simp
  have hm : n * k % 2 ^ 32 = n * k := Nat.mod_eq_of_lt (by omega)
  refine ⟨?_, rfl, ?_, ?_⟩
  · simp only [setConstantValue, hc, getSizeof, getTotalBitSize, times, hi]
    cases he : s.element
    · rw [he, if_neg (by decide)] at hn
      subst hn
      simpa using hlt
    · rw [he, if_pos rfl] at hn
      subst hn
      simpa using hlt
  · simp only [evalProxy, constantType]
    rw [u32_eval, hm]
  · simp only [constantType]
    rw [u32_gen, hm]

example : ∃ s : Subject, s.classid = false ∧ s.ty = { base := .unsigned, bits := 3, arr := 5 } ∧
    setConstantValue .sizeof s = .const 15 := ⟨⟨{ base := .unsigned, bits := 3, arr := 5 }, false, 0, none, false, none⟩, rfl, rfl, by decide⟩

/-- C76. `lengthof` an array is its number of items. -/
theorem C76_lengthof (lib : Lib) (pool : UPool) (s : Subject) (k : Nat) (hk : s.ty.arr = k) (h31 : k < 2 ^ 31) :
    setConstantValue .lengthof s = .const k ∧ constantType .lengthof s = scalar .unsigned 32 ∧
      evalProxy pool .lengthof s k = some k ∧ genTerminal lib pool (constantType .lengthof s) k = some k := by
  have hsc : isScalar s.ty = false := by simp [isScalar, hk]
  have hm : k % 2 ^ 32 = k := Nat.mod_eq_of_lt (by omega)
  refine ⟨by simp [setConstantValue, hsc, hk], rfl, ?_, ?_⟩
  · simp only [evalProxy, hsc, constantType, u32_eval, hm]
    cases s.string <;> simp
  · simp only [constantType]
    rw [u32_gen, hm]

/-- C76. `lengthof` a scalar: refused, but for a `String`, and for a custom array class, which must define `alengthof`;
that function is then called. -/
theorem C76_lengthof_scalar (s : Subject) (h : s.ty.arr = -1) (hb : s.ty.base ≠ .string) :
    setConstantValue .lengthof s = if s.custom = some true then .call else .reject := by
  simp only [setConstantValue, isScalar, h, hb]
  rcases s.custom with _ | _ | _ <;> simp

open Ulam.Strings Ulam.Strings.Spec in
theorem uRun_offs : ∀ (ss : List Bytes) (p : UPool) (idxs : List Nat) (p' : UPool), uRun p ss = some (idxs, p') →
    p'.offs.length ≤ p.offs.length + ss.length
  | [], p, idxs, p', h => by
    simp only [uRun, Option.some.injEq, Prod.mk.injEq] at h
    rw [← h.2]; simp
  | s :: ss, p, idxs, p', h => by
    simp only [uRun] at h
    split at h
    · exact absurd h (by simp)
    · next d _ =>
      obtain ⟨x, hx, e⟩ := Option.map_eq_some_iff.1 h
      have ih := uRun_offs ss _ _ _ hx
      simp only [Prod.mk.injEq] at e
      rw [← e.2]
      have : (uGetIndex p d).2.offs.length ≤ p.offs.length + 1 := by
        unfold uGetIndex
        split <;> simp
      simp only [List.length_cons]
      omega

open Ulam.Strings Ulam.Strings.Spec in
/-- C76. `lengthof` a constant string, for every program with fewer than `2^18` strings: the number of its characters, the
same as the run-time function gives. -/
theorem C76_lengthof_string (lib : Lib) (ind : Nat) (ss : List Bytes) (h : Fits ss) (hn : ss.length < 2 ^ 18) :
    ∃ idxs p A, uRun .new ss = some (idxs, p) ∧ idxs.length = ss.length ∧ cInit (emitEntries ind p) = some A ∧
      ∀ i (hi : i < ss.length) (u : Nat), idxs[i]? = some u → ∀ s : Subject, s.ty = scalar .string 18 → s.string = some u →
        ∀ tmp, evalProxy p .lengthof s tmp = some ss[i].length ∧
          genTerminal lib p (constantType .lengthof s) ss[i].length = some ss[i].length ∧
          genGetStringLength A p.offs u = some ss[i].length := by
  obtain ⟨idxs, p, A, r1, r2, r3, _, _, r6, _⟩ := C19_table ind ss h
  refine ⟨idxs, p, A, r1, r2, r3, ?_⟩
  intro i hi u hu s hs hst tmp
  obtain ⟨o, k1, k2, _, k4, _, _, k7⟩ := r6 i hi u hu
  obtain ⟨hv, hl, ht⟩ := h
  rw [← total_eq] at ht
  obtain ⟨idxs', p', ext, h1, h2, h3, h4⟩ := uRun_inv ss .new [] uinv_new hv (by simpa using hl)
    (by simp only [total]; omega) (by simp)
  rw [List.nil_append] at h2 h3 h4
  rw [r1] at h1
  obtain ⟨rfl, rfl⟩ := Prod.mk.injEq .. ▸ Option.some.injEq .. ▸ h1
  have hext : ext.length ≤ ss.length := by
    have := uRun_offs ss _ _ _ r1
    rw [h2.offs] at this
    simp only [List.length_cons, offsets_length, UPool.new, List.length_nil] at this
    omega
  have hul : u ≤ ext.length := by
    obtain ⟨lu, eu⟩ := List.getElem?_eq_some_iff.1 hu
    have := h4.get hi lu
    simp only [List.get_eq_getElem, eu] at this
    have := (List.getElem?_eq_some_iff.1 this.2).1
    omega
  have hrun : ext.length < p.running := by
    rw [h2.running]
    have : ∀ l : List Bytes, l.length ≤ total l := by
      intro l
      induction l with
      | nil => simp [total]
      | cons a l ih => simp only [total, List.length_cons]; omega
    have := this ext
    omega
  have hidx : stringIdx u = u := Nat.mod_eq_of_lt (by omega)
  have hlen := (hv ss[i] (List.getElem_mem hi)).1
  refine ⟨?_, ?_, k7⟩
  · simp only [evalProxy, hst, hs, hidx]
    have hvi : uValidIndex p u = true := by simp [uValidIndex, uPoolSize, k2]; omega
    simp only [isScalar, scalar, hvi, k4, Option.bind_some, constantType]
    have e := u32_eval ss[i].length
    rw [Nat.mod_eq_of_lt (by omega)] at e
    simpa [scalar] using e
  · simp only [constantType, u32_gen]
    rw [Nat.mod_eq_of_lt (by omega)]


example : ∃ ss, Ulam.Strings.Fits ss ∧ ss.length < 2 ^ 18 ∧ ss = [[97, 98]] :=
  ⟨_, ⟨by unfold Ulam.Strings.Spec.Valid; decide, by decide, by decide⟩, by decide, rfl⟩

/-! ## C77 -/

/-- A size expression of a numeric type of at most 32 bits, and its value; the value is below `2^31`. -/
def Size (sz : Ty) (raw : Nat) : Prop :=
  Numeric sz.base ∧ 1 ≤ sz.bits ∧ sz.bits ≤ 32 ∧ raw < 2 ^ sz.bits ∧ number sz.base sz.bits raw < 2 ^ 31

theorem size_value {lib : Lib} (hf : Faithful lib) {sz : Ty} {raw : Nat} (h : Size sz raw) :
    lib.cs 32 sz.base (sizeData sz raw) sz.bits = number sz.base sz.bits raw := by
  obtain ⟨hb, h1, h2, hr, hv⟩ := h
  have e : sizeData sz raw = raw := by
    unfold sizeData
    rw [if_pos ((word_le h1 (by omega)).2 h2)]
  rw [e]
  have := hf 32 sz.base sz.bits raw hb (.inl rfl) h1 h2 (.inr hr)
  rw [Nat.mod_eq_of_lt hr] at this
  exact this hv

/-- C77 (partly: the size expression has at most 32 bits and is below `2^31`, see `C77_wide_fails`). `T(e)` is accepted
exactly when `e` is between 1 and the largest size of `T` (64; 8192 for `Bits`), and has that many bits; of an even number a
`Bool` gets one less. -/
theorem C77_bits_partial (lib : Lib) (hf : Faithful lib) (b : Base) (sz : Ty) (raw : Nat) (h : Size sz raw) (t : Ty) :
    declareScalar lib b sz raw = some t ↔
      1 ≤ number sz.base sz.bits raw ∧ number sz.base sz.bits raw ≤ maxBits b ∧ t.base = b ∧ t.arr = -1 ∧ t.alt = .notRef ∧
        (t.bits : Int) = number sz.base sz.bits raw - (if b = .bool ∧ number sz.base sz.bits raw % 2 = 0 then 1 else 0) := by
  have e := size_value hf h
  obtain ⟨tb, tn, ta, tr⟩ := t
  unfold declareScalar bitsInParen
  rw [e]
  generalize number sz.base sz.bits raw = v
  by_cases hb : b = .bits
  · subst hb
    have hm : maxBits .bits = 8192 := rfl
    rw [hm]
    simp only [ne_eq, not_true_eq_false, false_and, if_false, true_and, reduceCtorEq, setSizes]
    by_cases h1 : v > 8192
    · rw [if_pos h1]
      constructor
      · intro q; simp at q
      · intro q; push_cast at q; omega
    · rw [if_neg h1]
      by_cases h2 : v < 0
      · rw [if_pos h2]
        constructor
        · intro q; simp at q
        · intro q; omega
      · rw [if_neg h2]
        simp only [show (-1 : Int) < 0 from by decide, and_true, if_true, one_mul, if_neg h2]
        by_cases h3 : v ≤ 0
        · rw [if_pos h3]
          constructor
          · intro q; simp at q
          · intro q; omega
        · rw [if_neg h3, if_neg (by rw [Nat.mod_eq_of_lt (by omega)]; omega)]
          simp only [Option.some.injEq, Ty.mk.injEq, Nat.cast_ofNat]
          constructor
          · rintro ⟨rfl, rfl, rfl, rfl⟩
            exact ⟨by omega, by omega, rfl, rfl, rfl, by omega⟩
          · rintro ⟨_, _, rfl, rfl, rfl, q⟩
            exact ⟨rfl, by omega, rfl, rfl⟩
  · have hm : maxBits b = 64 := by cases b <;> first | rfl | exact absurd rfl hb
    rw [hm]
    simp only [ne_eq, hb, not_false_eq_true, false_and, if_false, true_and, setSizes]
    by_cases h1 : v > 64
    · rw [if_pos h1]
      constructor
      · intro q; simp at q
      · intro q; push_cast at q; omega
    · rw [if_neg h1]
      have key : ∀ c : Int, (c = 0 ∨ (c = 1 ∧ v % 2 = 0)) →
          ((match (if v - c < 0 then none else some (v - c)) with
            | none => none
            | some n =>
              if n ≤ 0 ∧ (-1 : Int) < 0 then none
              else if n > 0 ∧ ((if (-1 : Int) < 0 then 1 else (-1 : Int).toNat) * (if n < 0 then 0 else n.toNat)) % 2 ^ 32 > 8192
                then none else some { base := b, bits := n.toNat, arr := -1 }) = some (⟨tb, tn, ta, tr⟩ : Ty) ↔
            1 ≤ v ∧ v ≤ ((64 : Nat) : Int) ∧ tb = b ∧ ta = -1 ∧ tr = .notRef ∧ (tn : Int) = v - c) := by
        intro c hc
        by_cases h2 : v - c < 0
        · rw [if_pos h2]
          constructor
          · intro q; simp at q
          · intro q; omega
        · rw [if_neg h2]
          simp only [show (-1 : Int) < 0 from by decide, and_true, if_true, one_mul, if_neg h2]
          by_cases h3 : v - c ≤ 0
          · rw [if_pos h3]
            constructor
            · intro q; simp at q
            · intro q; omega
          · rw [if_neg h3, if_neg (by rw [Nat.mod_eq_of_lt (by omega)]; omega)]
            simp only [Option.some.injEq, Ty.mk.injEq, Nat.cast_ofNat]
            constructor
            · rintro ⟨rfl, rfl, rfl, rfl⟩
              exact ⟨by omega, by omega, rfl, rfl, rfl, by omega⟩
            · rintro ⟨_, _, rfl, rfl, rfl, q⟩
              exact ⟨rfl, by omega, rfl, rfl⟩
      by_cases h2 : b = .bool ∧ v % 2 = 0
      · have := key 1 (.inr ⟨rfl, h2.2⟩)
        rw [if_pos h2, if_pos h2]
        exact this
      · have := key 0 (.inl rfl)
        rw [if_neg h2, if_neg h2]
        rw [show v - 0 = v from by omega] at this ⊢
        exact this

example : Size (scalar .unsigned 6) 40 ∧ declareScalar refLib .bool (scalar .unsigned 6) 40 = some { base := .bool, bits := 39 } := by
  refine ⟨⟨.inr (.inl rfl), by decide, by decide, by decide, by decide⟩, by decide +kernel⟩

/-- C77 (partly: as above, and totals below `2^32` bits, see `C77_total_fails`; and not `-2`, see `C77_unknown_fails`).
`T[e]` is accepted exactly when `e` is not negative and `e` items of `T` have at most 8192 bits; it has `e` items of
`T`. -/
theorem C77_items_partial (lib : Lib) (hf : Faithful lib) (elt sz : Ty) (raw : Nat) (h : Size sz raw) (he : 1 ≤ elt.bits)
    (hs : number sz.base sz.bits raw ≠ -2) (hm : elt.bits * (number sz.base sz.bits raw).toNat < 2 ^ 32) (t : Ty) :
    (declareArray lib elt sz raw = .ty t ↔
      0 ≤ number sz.base sz.bits raw ∧ elt.bits * number sz.base sz.bits raw ≤ 8192 ∧
        t = { base := elt.base, bits := elt.bits, arr := number sz.base sz.bits raw }) ∧
    (declareArray lib elt sz raw = .reject ↔
      ¬ (0 ≤ number sz.base sz.bits raw ∧ elt.bits * number sz.base sz.bits raw ≤ 8192)) := by
  have e := size_value hf h
  have hn : numeric sz = true := by
    rcases h.1 with q | q | q <;> simp [numeric, q]
  unfold declareArray
  rw [e, hn]
  generalize number sz.base sz.bits raw = v at hs hm
  simp only [Bool.not_true, Bool.false_eq_true, if_false, hs]
  by_cases h1 : v < 0
  · rw [if_pos h1]
    refine ⟨⟨fun q => by simp at q, fun q => by omega⟩, ⟨fun _ q => by omega, fun _ => rfl⟩⟩
  · rw [if_neg h1]
    obtain ⟨k, rfl⟩ : ∃ k : Nat, v = k := ⟨v.toNat, by omega⟩
    simp only [Int.toNat_natCast] at hm
    have hb : ¬ ((elt.bits : Int) ≤ 0 ∧ ((k : Int) < 0)) := by omega
    simp only [setSizes, if_neg hb, show ¬ ((k : Int) < 0) by omega, show ¬ ((elt.bits : Int) < 0) by omega, if_false,
      Int.toNat_natCast, show ((elt.bits : Int) > 0) by omega, true_and, and_false]
    rw [Nat.mul_comm k, Nat.mod_eq_of_lt hm]
    have hz : (elt.bits : Int) * k ≤ 8192 ↔ elt.bits * k ≤ 8192 := by exact_mod_cast Iff.rfl
    rw [hz]
    by_cases h2 : elt.bits * k > 8192
    · rw [if_pos h2]
      refine ⟨⟨fun q => by simp at q, fun q => by omega⟩, ⟨fun _ q => by omega, fun _ => rfl⟩⟩
    · rw [if_neg h2]
      refine ⟨⟨fun q => ⟨by omega, by omega, ?_⟩, fun q => ?_⟩, ⟨fun q => by simp at q, fun q => absurd ⟨by omega, by omega⟩ q⟩⟩
      · simp only [Declared.ty.injEq] at q
        exact q.symm
      · rw [q.2.2]

example : Size (scalar .int 8) 7 ∧ declareArray refLib (scalar .unsigned 5) (scalar .int 8) 7 =
    .ty { base := .unsigned, bits := 5, arr := 7 } := by
  refine ⟨⟨.inl rfl, by decide, by decide, by decide, by decide⟩, by decide +kernel⟩

/-- C77 fails for large arrays: the limit is compared with the total in 32 bits. Every array whose total wraps to at most
8192 is accepted. -/
theorem C77_total_fails (lib : Lib) (hf : Faithful lib) (elt sz : Ty) (raw k : Nat) (h : Size sz raw) (he : 1 ≤ elt.bits)
    (hk : number sz.base sz.bits raw = k) (hw : elt.bits * k % 2 ^ 32 ≤ 8192) :
    declareArray lib elt sz raw = .ty { base := elt.base, bits := elt.bits, arr := k } := by
  have e := size_value hf h
  have hn : numeric sz = true := by
    rcases h.1 with q | q | q <;> simp [numeric, q]
  unfold declareArray
  rw [e, hn, hk]
  have hb : ¬ ((elt.bits : Int) ≤ 0 ∧ ((k : Int) < 0)) := by omega
  simp only [Bool.not_true, Bool.false_eq_true, if_false, show ¬ ((k : Int) = -2) by omega, show ¬ ((k : Int) < 0) by omega,
    setSizes, show ¬ ((elt.bits : Int) < 0) by omega, Int.toNat_natCast, show ((elt.bits : Int) > 0) by omega, true_and,
    Nat.mul_comm k]
  rw [if_neg (by omega), if_neg (by omega)]

/-- Such an array: `Unsigned(64)[67108865]`, of `2^32 + 64` bits. C76 fails for it: the total is computed in `s32`, where
the product overflows. -/
theorem C76_sizeof_fails (lib : Lib) (hf : Faithful lib) :
    ∃ t, declareArray lib (scalar .unsigned 64) (scalar .unsigned 27) 67108865 = .ty t ∧
      ∀ s : Subject, s.ty = t → s.classid = false → s.element = false → setConstantValue .sizeof s = .undef := by
  refine ⟨{ base := .unsigned, bits := 64, arr := 67108865 },
    C77_total_fails lib hf _ _ _ 67108865 ⟨.inr (.inl rfl), by decide, by decide, by decide, by decide⟩ (by decide) rfl (by decide),
    fun s hs hc hel => ?_⟩
  simp only [setConstantValue, hc, getSizeof, hel, getTotalBitSize, hs, items, times]
  decide

/-- C77 fails for size expressions of more than 32 bits: only the low 32 bits of the value count, so with any library
sizes that differ by `2^32` declare the same type. -/
theorem C77_wide_fails (lib : Lib) (b : Base) (elt sz : Ty) (h1 : 33 ≤ sz.bits) (h2 : sz.bits ≤ 64) (raw : Nat) :
    declareScalar lib b sz (raw + 2 ^ 32) = declareScalar lib b sz raw ∧
    declareArray lib elt sz (raw + 2 ^ 32) = declareArray lib elt sz raw := by
  have e : sizeData sz (raw + 2 ^ 32) = sizeData sz raw := by
    unfold sizeData
    have hw : ¬ wordSize sz.bits ≤ 32 := fun q => by have := (word_le (by omega) h2).1 q; omega
    rw [if_neg hw, if_neg hw, Nat.add_mod_right]
  unfold declareScalar declareArray bitsInParen
  rw [e]
  exact ⟨rfl, rfl⟩

/-- C77 fails for `-2` items, the number that stands for a size not yet known: no error is reported. -/
theorem C77_unknown_fails (lib : Lib) (hf : Faithful lib) (elt sz : Ty) (raw : Nat) (h : Size sz raw)
    (hs : number sz.base sz.bits raw = -2) : declareArray lib elt sz raw = .unknown := by
  have e := size_value hf h
  have hn : numeric sz = true := by
    rcases h.1 with q | q | q <;> simp [numeric, q]
  unfold declareArray
  rw [e, hn, hs]
  simp

example : Size (scalar .int 4) 14 ∧ number .int 4 14 = -2 :=
  ⟨⟨.inl rfl, by decide, by decide, by decide, by decide⟩, by decide⟩

end Ulam.Proxy
