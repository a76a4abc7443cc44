import Verif.Dm.Model
import Verif.Types.Spec
import Mathlib.Tactic.SplitIfs
import Mathlib.Tactic.Ring
/-! # C113 - C115: data members and their initial values -/
namespace Ulam.Dm
open Ulam.Types (Base wordSize)
open Ulam.Types.Spec (ones number truth)

/-! ### C115: sizes -/

/-- What a data member may be: in a transient anything but a single quark of more than 64 bits; in an element or a quark, moreover,
no element and no transient, no single number of more than 64 bits, and no array of quarks of more than the 71 bits an element has. -/
def Allowed (cls : Cls) (t : MemberType) : Prop :=
  ¬ (t.cls = .quark ∧ t.scalar = true ∧ t.total > 64) ∧
  (cls ≠ .transient → t.cls ≠ .element ∧ t.cls ≠ .transient ∧
    ¬ (t.cls = .notAClass ∧ t.scalar = true ∧ t.numeric = true ∧ t.total > 64) ∧
    ¬ (t.cls = .quark ∧ t.scalar = false ∧ t.total > 71))

/-- **C115.** The check of sizes reports nothing exactly for the members that are allowed, and never more than one error. -/
theorem C115_sizes (cls : Cls) (t : MemberType) : (sizeErrors cls t = 0 ↔ Allowed cls t) ∧ sizeErrors cls t ≤ 1 := by
  obtain ⟨c, n, s, k⟩ := t
  unfold sizeErrors Allowed
  cases cls <;> cases c <;> cases s <;> cases k <;> by_cases h1 : n > 64 <;> by_cases h2 : n > 71 <;> simp_all <;> (try split_ifs) <;> omega

example : Allowed .element ⟨.quark, 71, false, false⟩ ∧ ¬ Allowed .element ⟨.quark, 72, false, false⟩ ∧
    Allowed .transient ⟨.element, 96, true, false⟩ ∧ Allowed .quark ⟨.notAClass, 70, true, false⟩ := by
  simp [Allowed]

/-! ### C114: the value -/

/-- What is taken of the library: a conversion to the same type leaves the bits; a true `Bool` is all ones and a false one zero; a
number converted to `Unary` has as many ones, at most all. -/
structure Lib.Good (L : Lib) : Prop where
  int : ∀ w n v, 0 < n → n ≤ w → v < 2 ^ n → L.intToInt w v n n % 2 ^ n = v
  uns : ∀ w n v, 0 < n → n ≤ w → v < 2 ^ n → L.unsToUns w v n n % 2 ^ n = v
  bits : ∀ w n v, 0 < n → n ≤ w → v < 2 ^ n → L.unsToBits w v n n % 2 ^ n = v
  bool : ∀ w n b, 0 < n → n ≤ w → L.cboolToBool w b n % 2 ^ n = if b then 2 ^ n - 1 else 0
  unary : ∀ w n v, 0 < n → n ≤ w → v < 2 ^ n → L.unsToUnary w v n n % 2 ^ n = 2 ^ (min v n) - 1

/-- A library as it is taken to be. -/
def demoLib : Lib where
  intToInt := fun _ v _ _ => v
  unsToUns := fun _ v _ _ => v
  cboolToBool := fun _ b n => if b then 2 ^ n - 1 else 0
  unsToUnary := fun _ v _ n => 2 ^ (min v n) - 1
  unsToBits := fun _ v _ _ => v

theorem pred_lt_two_pow {k n : Nat} (h : k ≤ n) : 2 ^ k - 1 < 2 ^ n := by
  have := Nat.pow_le_pow_right (n := 2) (by decide) h
  have := Nat.two_pow_pos k
  omega

theorem demo_good : demoLib.Good where
  int := fun _ _ v _ _ h => Nat.mod_eq_of_lt h
  uns := fun _ _ v _ _ h => Nat.mod_eq_of_lt h
  bits := fun _ _ v _ _ h => Nat.mod_eq_of_lt h
  bool := fun _ n b _ _ => by
    unfold demoLib
    dsimp only
    split
    · exact Nat.mod_eq_of_lt (pred_lt_two_pow le_rfl)
    · exact Nat.zero_mod _
  unary := fun _ n v _ _ _ => Nat.mod_eq_of_lt (pred_lt_two_pow (Nat.min_le_right _ _))

theorem ones_pred (k : Nat) : ∀ n, k ≤ n → ones n (2 ^ k - 1) = k := by
  have zero : ∀ n, ones n 0 = 0 := by
    intro n
    induction n with
    | zero => rfl
    | succ n ih => simp [ones, ih]
  induction k with
  | zero => intro n _; exact zero n
  | succ k ih =>
    intro n h
    obtain ⟨m, rfl⟩ : ∃ m, n = m + 1 := ⟨n - 1, by omega⟩
    have hp := Nat.two_pow_pos k
    have e1 : (2 ^ (k + 1) - 1) % 2 = 1 := by rw [Nat.pow_succ]; omega
    have e2 : (2 ^ (k + 1) - 1) / 2 = 2 ^ k - 1 := by rw [Nat.pow_succ]; omega
    rw [ones, e1, e2, ih m (by omega)]
    omega

theorem word_le {n : Nat} (h : n ≤ 64) : wordSize n ≤ 64 := by unfold wordSize; split <;> omega

theorem word_cases {n : Nat} (h : n ≤ 64) : (wordSize n ≤ 32 ∧ n ≤ 32) ∨ (¬ wordSize n ≤ 32 ∧ wordSize n ≤ 64) := by
  unfold wordSize
  split <;> omega

/-- A fold in which everything went well: the initial value is of the member's type. -/
structure Fine (x : Value) : Prop where
  pos : 0 < x.bits
  le : x.bits ≤ 64
  src : x.srcBits = x.bits
  lt : x.val < 2 ^ x.bits
  ready : x.ready = false
  folded : x.folded = .ok
  status : x.status = .normal
  forecast : x.forecast = .clear

theorem fold_fine (L : Lib) {x : Value} (F : Fine x) : fold L x =
    match updateConstant L x.base x.bits x.bits x.val with
    | .ok r => some { ok := true, lab := .ok, stored := some (r % 2 ^ x.bits) }
    | .unknown => some { ok := false, lab := .ok, errs := 1 }
    | .abort => none := by
  unfold fold evaluated
  rw [F.ready, F.folded, F.status, F.forecast, if_pos (word_le F.le), F.src]
  simp
  rfl

theorem update_eq (L : Lib) {x : Value} (F : Fine x) : ∃ w, x.bits ≤ w ∧ updateConstant L x.base x.bits x.bits x.val =
    match convert L w x.base x.bits x.bits x.val with
    | some r => .ok r
    | none => .unknown := by
  have hlt := F.lt
  unfold updateConstant
  rcases word_cases F.le with ⟨h1, h2⟩ | ⟨h1, h2⟩
  · refine ⟨32, h2, ?_⟩
    have : x.val % 2 ^ 32 = x.val := Nat.mod_eq_of_lt (Nat.lt_of_lt_of_le hlt (Nat.pow_le_pow_right (by decide) h2))
    rw [if_pos h1, this, ite_self]
    rfl
  · exact ⟨64, F.le, by rw [if_neg h1, if_pos h2]; rfl⟩

/-- **C114 (partial: for `Int`, `Unsigned`, `Bits` and `String`; for `Bool` and `Unary` see below).** The initial value of a data
member is stored bit by bit as its expression evaluates. -/
theorem C114_kept_partial (L : Lib) (G : L.Good) (x : Value) (F : Fine x)
    (h : x.base = .int ∨ x.base = .unsigned ∨ x.base = .bits ∨ x.base = .string) :
    fold L x = some { ok := true, lab := .ok, stored := some x.val } := by
  obtain ⟨w, hw, e⟩ := update_eq L F
  rw [fold_fine L F, e]
  rcases h with h | h | h | h <;> rw [h] <;> simp only [convert]
  · rw [G.int w _ _ F.pos hw F.lt]
  · rw [G.uns w _ _ F.pos hw F.lt]
  · rw [G.bits w _ _ F.pos hw F.lt]
  · rw [Nat.mod_eq_of_lt F.lt]

example : fold demoLib ⟨.int, 7, false, .ok, .normal, 100, 7, .clear⟩ = some { ok := true, lab := .ok, stored := some 100 } ∧
    Fine ⟨.int, 7, false, .ok, .normal, 100, 7, .clear⟩ := ⟨by decide, by constructor <;> decide⟩

theorem fold_bool (L : Lib) (G : L.Good) {x : Value} (F : Fine x) (h : x.base = .bool) :
    fold L x = some { ok := true, lab := .ok, stored := some (if x.val ≠ 0 then 2 ^ x.bits - 1 else 0) } := by
  obtain ⟨w, hw, e⟩ := update_eq L F
  rw [fold_fine L F, e, h]
  simp only [convert]
  rw [G.bool w _ _ F.pos hw]
  simp

theorem fold_unary (L : Lib) (G : L.Good) {x : Value} (F : Fine x) (h : x.base = .unary) :
    fold L x = some { ok := true, lab := .ok, stored := some (2 ^ (min x.val x.bits) - 1) } := by
  obtain ⟨w, hw, e⟩ := update_eq L F
  rw [fold_fine L F, e, h]
  simp only [convert]
  rw [G.unary w _ _ F.pos hw F.lt]

theorem truth_all {n : Nat} (h : 0 < n) : truth .bool n (2 ^ n - 1) = true := by
  unfold truth
  dsimp only
  rw [ones_pred n n le_rfl]
  simp; omega

theorem truth_zero (n : Nat) : truth .bool n 0 = false := by
  unfold truth
  dsimp only
  have := ones_pred 0 n (Nat.zero_le _)
  simp only [Nat.pow_zero, Nat.sub_self] at this
  rw [this]; simp

/-- **C114 (partial: for values without stray bits).** A `Bool` data member is true from the start exactly if its initial value is,
provided a false initial value has no bit set. -/
theorem C114_bool_partial (L : Lib) (G : L.Good) (x : Value) (F : Fine x) (hb : x.base = .bool)
    (h : truth .bool x.bits x.val = true ∨ x.val = 0) :
    ∃ r, fold L x = some { ok := true, lab := .ok, stored := some r } ∧ truth .bool x.bits r = truth .bool x.bits x.val := by
  refine ⟨_, fold_bool L G F hb, ?_⟩
  by_cases h0 : x.val = 0
  · rw [if_neg (by simpa using h0), h0]
  · rw [if_pos h0, truth_all F.pos]
    rcases h with h | h
    · rw [h]
    · exact absurd h h0

example : fold demoLib ⟨.bool, 3, false, .ok, .normal, 6, 3, .clear⟩ = some { ok := true, lab := .ok, stored := some 7 } ∧
    truth .bool 3 6 = true := ⟨by decide, by decide⟩

/-- **C114 (finding).** A `Bool` that is false because less than half of its bits are set makes the data member true. -/
theorem C114_bool_fails (L : Lib) (G : L.Good) (x : Value) (F : Fine x) (hb : x.base = .bool) (h0 : x.val ≠ 0)
    (h : truth .bool x.bits x.val = false) :
    ∃ r, fold L x = some { ok := true, lab := .ok, stored := some r } ∧ truth .bool x.bits r = true :=
  ⟨_, fold_bool L G F hb, by rw [if_pos h0]; exact truth_all F.pos⟩

example : truth .bool 3 1 = false ∧ Fine ⟨.bool, 3, false, .ok, .normal, 1, 3, .clear⟩ := ⟨by decide, by constructor <;> decide⟩

/-- **C114 (partial: for 0, 1 and the greatest value).** A `Unary` data member starts with its initial value. -/
theorem C114_unary_partial (L : Lib) (G : L.Good) (x : Value) (F : Fine x) (hb : x.base = .unary) (k : Nat)
    (hv : x.val = 2 ^ k - 1) (h : k ≤ 1 ∨ k = x.bits) :
    ∃ r, fold L x = some { ok := true, lab := .ok, stored := some r } ∧ number .unary x.bits r = k := by
  have hp := F.pos
  refine ⟨_, fold_unary L G F hb, ?_⟩
  have hk : k ≤ x.bits := by omega
  have hm : min x.val x.bits = k := by
    rcases h with h | h
    · have : k = 0 ∨ k = 1 := by omega
      rcases this with rfl | rfl <;> simp at hv <;> omega
    · have := Nat.lt_two_pow_self (n := k)
      omega
  rw [hm]
  unfold number
  dsimp only
  rw [ones_pred k _ hk]

example : fold demoLib ⟨.unary, 3, false, .ok, .normal, 1, 3, .clear⟩ = some { ok := true, lab := .ok, stored := some 1 } := by decide

/-- **C114 (finding).** A `Unary` data member does not start with its initial value otherwise. The value is in the format of `Unary`
already, `k` ones, but these are taken for a binary number and made `Unary` again: the member starts with `2^k - 1`, or the greatest
value if that is less. -/
theorem C114_unary_fails (L : Lib) (G : L.Good) (x : Value) (F : Fine x) (hb : x.base = .unary) (k : Nat)
    (hv : x.val = 2 ^ k - 1) (h1 : 2 ≤ k) (h2 : k < x.bits) :
    ∃ r, fold L x = some { ok := true, lab := .ok, stored := some r } ∧
      number .unary x.bits r = (min (2 ^ k - 1) x.bits : Nat) ∧ number .unary x.bits r ≠ number .unary x.bits x.val := by
  refine ⟨_, fold_unary L G F hb, ?_⟩
  have e : number .unary x.bits (2 ^ min x.val x.bits - 1) = (min (2 ^ k - 1) x.bits : Nat) := by
    unfold number
    dsimp only
    rw [ones_pred _ _ (Nat.min_le_right _ _), hv]
  have e2 : number .unary x.bits x.val = k := by
    unfold number
    dsimp only
    rw [hv, ones_pred _ _ (by omega)]
  refine ⟨e, ?_⟩
  rw [e, e2]
  have := Nat.lt_two_pow_self (n := k)
  have h3 : k + 1 < 2 ^ k := by
    obtain ⟨j, rfl⟩ : ∃ j, k = j + 2 := ⟨k - 2, by omega⟩
    have := Nat.lt_two_pow_self (n := j)
    rw [Nat.pow_add]
    omega
  intro q
  have q : min (2 ^ k - 1) x.bits = k := by exact_mod_cast q
  omega

example : fold demoLib ⟨.unary, 3, false, .ok, .normal, 3, 3, .clear⟩ = some { ok := true, lab := .ok, stored := some 7 } ∧
    number .unary 3 3 = 2 ∧ number .unary 3 7 = 3 := ⟨by decide, by decide, by decide⟩

/-- **C114.** A fold that is not refused with an error, waited for or aborted leaves a value for a member that had none, and it does
so only for an initial value that may be cast to the member's type; where it fails nothing is stored. -/
theorem C114_outcome (L : Lib) (x : Value) (o : FoldOut) (h : fold L x = some o) :
    (o.ok = true → o.errs = 0 ∧ o.waits = 0 ∧ o.lab = .ok ∧
      (x.ready = false → o.stored.isSome ∧ x.folded = .ok ∧ x.forecast = .clear ∧ x.status ≠ .error ∧ x.status ≠ .notReady)) ∧
    (o.ok = false → o.stored = none ∧ o.errs + o.waits = 1 ∧ (o.lab = .nav → o.errs = 1) ∧ (o.lab = .hzy → o.waits = 1 ∧ o.again = true)) := by
  unfold fold at h
  split at h
  · rename_i hr
    cases h
    exact ⟨fun _ => ⟨rfl, rfl, rfl, fun q => by rw [hr] at q; cases q⟩, fun q => by cases q⟩
  rename_i hr
  split at h
  · cases h
    refine ⟨fun q => by (dsimp only at q; cases q), fun _ => ⟨rfl, ?_, fun q => by (dsimp only at q; cases q), fun q => by (dsimp only at q; cases q)⟩⟩
    dsimp only
    split <;> rfl
  rename_i hf
  push Not at hf
  split at h
  · cases h
  split at h
  · cases h; simp
  rename_i hs1
  split at h
  · cases h; simp
  rename_i hs2
  split at h
  · cases h; simp
  · cases h; simp
  · rename_i hc
    split at h
    · cases h; simp_all
    · cases h; simp
    · cases h

/-- **C114 (finding).** An initial value that cannot be evaluated counts as 0: nothing is reported. -/
theorem C114_unevaluable_fails (L : Lib) (G : L.Good) (x : Value) (F : Fine { x with status := .normal, val := 0 })
    (hs : x.status = .unevaluable) (h : x.base = .int ∨ x.base = .unsigned ∨ x.base = .bits ∨ x.base = .string) :
    fold L x = some { ok := true, lab := .ok, stored := some 0 } := by
  have := C114_kept_partial L G _ F h
  have e : fold L x = fold L { x with status := .normal, val := 0 } := by
    unfold fold evaluated
    have h1 := F.le
    have h2 := F.ready
    have h3 := F.folded
    dsimp only at h1 h2 h3
    rw [hs, h2, h3]
    simp [word_le h1]
  rw [e, this]

example : fold demoLib ⟨.unsigned, 5, false, .ok, .unevaluable, 9, 5, .clear⟩ = some { ok := true, lab := .ok, stored := some 0 } := by
  decide

/-- **C114 (finding).** A data member of more than 64 bits that is no number is allowed, but the compiler aborts if it is given an
initial value. -/
theorem C114_big_fails (L : Lib) (x : Value) (hb : x.bits > 64) (hr : x.ready = false) (hf : x.folded = .ok) (hs : x.status = .normal)
    (cls : Cls) : Allowed cls ⟨.notAClass, x.bits, true, false⟩ ∧ fold L x = none := by
  refine ⟨⟨by simp, fun _ => by simp⟩, ?_⟩
  unfold fold evaluated
  have : ¬ wordSize x.bits ≤ 64 := by unfold wordSize; split <;> omega
  rw [hr, hf, hs, if_neg this]
  simp

/-! ### C113: labelling -/

/-- **C113.** A data member that is accepted has been accepted as a variable; it shadows none of an ancestor's; it has no initial value
in a union of quarks; a single initial value is constant and of an accepted type, and if it is not a class it is folded; and its size
is allowed. -/
theorem C113_accepted (L : Lib) (m : Member) (o : Out) (h : label L m = some o) (hr : o.ret = .ok) :
    m.base = .ok ∧ m.unshadowed = .yes ∧ (m.union = true → m.init = none) ∧ (m.complete = true → Allowed m.cls m.type) ∧
    ∀ i, m.init = some i → m.scalar = true → i.const = .yes ∧ i.lab ≠ .nav ∧ i.lab ≠ .hzy ∧
      (m.hasInit = true → i.cls = false → i.value.ready = false → o.stored.isSome ∧ i.value.forecast = .clear) := by
  have hend : ∀ s, (ending m s).ret = .ok → (m.complete = true → Allowed m.cls m.type) ∧ (ending m s).stored = s := by
    intro s q
    unfold ending at q ⊢
    by_cases hc : m.complete = true ∧ sizeErrors m.cls m.type ≠ 0
    · rw [if_pos hc] at q; cases q
    · rw [if_neg hc]
      refine ⟨fun hm => ((C115_sizes _ _).1).1 ?_, rfl⟩
      by_contra hne
      exact hc ⟨hm, hne⟩
  unfold label at h
  split at h
  · rename_i hb
    cases h
    exact absurd hr hb
  rename_i hb
  push Not at hb
  split at h
  · cases h; cases hr
  rename_i hu
  have hu : m.union = true → m.init = none := by
    intro q
    rw [q] at hu
    cases hi : m.init with
    | none => rfl
    | some i => rw [hi] at hu; simp at hu
  split at h
  · cases h; cases hr
  · cases h; cases hr
  rename_i hs
  split at h
  · rename_i hi
    cases h
    exact ⟨hb, hs, hu, (hend _ hr).1, fun i q => by rw [hi] at q; cases q⟩
  rename_i i hi
  split at h
  · rename_i hsc
    cases h
    exact ⟨hb, hs, hu, (hend _ hr).1, fun j q q2 => by rw [q2] at hsc; simp at hsc⟩
  split at h
  · cases h; cases hr
  · cases h; cases hr
  rename_i hc
  split at h
  · cases h; cases hr
  rename_i hn
  split at h
  · cases h; cases hr
  rename_i hz
  unfold folding at h
  split at h
  · split at h
    · cases h
    rename_i f hf
    split at h
    · rename_i hok
      cases h
      have C := (C114_outcome L i.value f hf).1 hok
      refine ⟨hb, hs, hu, (hend _ hr).1, fun j q _ => ?_⟩
      rw [hi] at q
      cases q
      refine ⟨hc, hn, hz, fun _ _ q3 => ?_⟩
      rw [(hend _ hr).2]
      exact ⟨(C.2.2.2 q3).1, (C.2.2.2 q3).2.2.1⟩
    · split at h
      · cases h; cases hr
      · cases h; cases hr
  · rename_i hcond
    cases h
    refine ⟨hb, hs, hu, (hend _ hr).1, fun j q _ => ?_⟩
    rw [hi] at q
    cases q
    refine ⟨hc, hn, hz, fun q1 q2 q3 => ?_⟩
    rw [q1, q2, q3] at hcond
    simp at hcond

/-- **C113.** Whatever comes of it, constants are no longer asked for afterwards (the flag for that is off); a member that is refused
was reported, and one that is waited for gets another round: provided that held when it was labelled as a variable. -/
theorem C113_outcome (L : Lib) (m : Member) (o : Out) (h : label L m = some o) (h1 : m.base = .nav → m.errs > 0)
    (h2 : m.base = .hzy → m.again = true) :
    o.flag = false ∧ (o.ret = .nav → o.errs > 0) ∧ (o.ret = .hzy → o.again = true) ∧ (o.ret = .nouti → m.base = .nouti) := by
  have hend : ∀ s, (ending m s).flag = false ∧ ((ending m s).ret = .nav → (ending m s).errs > 0) ∧
      ((ending m s).ret = .hzy → (ending m s).again = true) ∧ ((ending m s).ret = .nouti → m.base = .nouti) := by
    intro s
    unfold ending
    split
    · rename_i q
      exact ⟨rfl, fun _ => (by dsimp only; omega), fun q => (by cases q), fun q => (by cases q)⟩
    · exact ⟨rfl, fun q => (by cases q), fun q => (by cases q), fun q => (by cases q)⟩
  unfold label at h
  split at h
  · cases h
    exact ⟨rfl, fun q => (by have := h1 q; unfold stop; dsimp only; omega), fun q => (by have := h2 q; simp [stop, this]), fun q => q⟩
  split at h
  · cases h; simp [stop]
  split at h
  · cases h; simp [stop]
  · cases h; simp [stop]
  split at h
  · cases h; exact hend _
  split at h
  · cases h; exact hend _
  split at h
  · cases h; simp [stop]
  · cases h; simp [stop]
  split at h
  · cases h; simp [stop]
  split at h
  · cases h; simp [stop]
  rename_i i hin _ _ _ _ _
  unfold folding at h
  split at h
  · split at h
    · cases h
    rename_i f hf
    split at h
    · cases h; exact hend _
    · rename_i hok
      have C := (C114_outcome L i.value f hf).2 (by simpa using hok)
      split at h
      · rename_i hnav
        cases h
        refine ⟨rfl, fun _ => ?_, fun q => (by cases q), fun q => (by cases q)⟩
        have : f.errs = 1 := by
          rcases hnav with q | q
          · exact C.2.2.1 q
          · unfold fold at hf
            by_cases hrd : i.value.ready = true
            · rw [if_pos hrd] at hf; cases hf; exact absurd rfl hok
            · rw [if_neg hrd, if_pos (by rw [q]; decide)] at hf
              cases hf
              dsimp only
              rw [if_pos q]
        dsimp only; omega
      · cases h; simp [stop]
  · cases h; exact hend _

/-- A data member `Int(7) m = 100` of an element. -/
def demoMember : Member :=
  { base := .ok, errs := 0, waits := 0, again := false, union := false, unshadowed := .yes, scalar := true, complete := true
    cls := .element, type := ⟨.notAClass, 7, true, true⟩, hasInit := true
    init := some { const := .yes, lab := .ok, cls := false, value := ⟨.int, 7, false, .ok, .normal, 100, 7, .clear⟩ } }

example : label demoLib demoMember = some ⟨.ok, .ok, 0, 0, false, false, some 100⟩ ∧
    label demoLib { demoMember with union := true } = some ⟨.nav, .nav, 1, 0, false, false, none⟩ ∧
    label demoLib { demoMember with unshadowed := .hazy } = some ⟨.hzy, .hzy, 0, 1, true, false, none⟩ ∧
    label demoLib { demoMember with type := ⟨.element, 96, true, false⟩ } = some ⟨.nav, .nav, 1, 0, false, false, some 100⟩ :=
  ⟨by decide, by decide, by decide, by decide⟩

/-- **C113.** One that is in order is accepted without any message. -/
theorem C113_ok (L : Lib) (m : Member) (hb : m.base = .ok) (hs : m.unshadowed = .yes) (hu : m.union = true → m.init = none)
    (ha : Allowed m.cls m.type)
    (hi : ∀ i, m.init = some i → m.scalar = true → i.const = .yes ∧ i.lab = .ok ∧
      (m.hasInit = true → i.cls = false → i.value.ready = false → ∃ f, fold L i.value = some f ∧ f.ok = true)) :
    ∃ o, label L m = some o ∧ o.ret = .ok ∧ o.errs = m.errs ∧ o.waits = m.waits ∧ o.again = m.again := by
  have hend : ∀ s, (ending m s).ret = .ok ∧ (ending m s).errs = m.errs ∧ (ending m s).waits = m.waits ∧ (ending m s).again = m.again := by
    intro s
    unfold ending
    rw [if_neg (by rw [((C115_sizes _ _).1).2 ha]; simp)]
    exact ⟨rfl, rfl, rfl, rfl⟩
  unfold label
  rw [if_neg (by simp [hb])]
  rw [if_neg (by cases q : m.union <;> simp; exact hu q)]
  rw [hs]
  dsimp only
  cases hin : m.init with
  | none => exact ⟨_, rfl, hend _⟩
  | some i =>
    dsimp only
    split
    · exact ⟨_, rfl, hend _⟩
    rename_i hsc
    obtain ⟨c1, c2, c3⟩ := hi i hin (by simpa using hsc)
    rw [c1, c2]
    simp only [reduceCtorEq, if_false]
    unfold folding
    split
    · rename_i hcond
      simp only [Bool.and_eq_true, Bool.not_eq_true'] at hcond
      obtain ⟨f, e1, e2⟩ := c3 hcond.1.1 hcond.2 hcond.1.2
      rw [e1]
      dsimp only
      rw [if_pos e2]
      exact ⟨_, rfl, hend _⟩
    · exact ⟨_, rfl, hend _⟩

/-- **C113.** The initial value is accepted for the member's type exactly if it is forecast to fit and is no explicit cast to a reference;
it is refused with a message otherwise, or waited for. -/
theorem C113_cast (f : Forecast) (e c : Bool) (r : Forecast × Nat × Nat) (h : safeToCastTo f e c = some r) :
    (r.1 = .clear ↔ f = .clear ∧ e = false) ∧ (r.1 = .clear → c = true ∧ r.2 = (0, 0)) ∧ (r.1 = .bad → r.2.1 = 1) ∧
    (r.1 = .hazy → r.2.2 = 1 ∧ f = .hazy) := by
  unfold safeToCastTo at h
  cases f <;> cases e <;> cases c <;> simp at h <;> subst h <;> simp

example : safeToCastTo .clear true true = some (.bad, 1, 0) := rfl

end Ulam.Dm
