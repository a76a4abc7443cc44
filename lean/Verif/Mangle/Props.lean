import Verif.Mangle.Lemmas
/-! # Mangled names are unambiguous (C02, C03, C04) -/
namespace Ulam.Mangle
open Ulam.Leximited Spec

/-! ## C02 -/

/-- **C02** Mangled names of non-class types are read back uniquely, even in front of other text: two types of legal
shape have the same name only if they have the same base, array size, bit size and reference mark. -/
theorem C02_mangled_type_prefix_free (k k' : Shape) (c c' : Code) (r s : Str) (h1 : Legal k) (h2 : Legal k')
    (h : mangledType k c ++ r = mangledType k' c' ++ s) : k = k' ∧ c = c' ∧ r = s :=
  mangledType_prefix h1 h2 h

/-- **C02** The same for complete names. -/
theorem C02_mangled_name_injective (k k' : Shape) (c c' : Code) (h1 : Legal k) (h2 : Legal k')
    (h : mangledName k c = mangledName k' c') : k = k' ∧ c = c' := by
  unfold mangledName at h
  have := mangledType_prefix (r := []) (s := []) h1 h2 (by simpa using List.append_cancel_left h)
  exact ⟨this.1, this.2.1⟩

/-- **C02** Class types: same name only if same class name and same shape. -/
theorem C02_class_type_prefix_free (k k' : Shape) (a b : Str) (r s : Str) (h1 : Legal k) (h2 : Legal k')
    (ha : a.length < 2 ^ 32) (hb : b.length < 2 ^ 32)
    (h : mangledClassType k a ++ r = mangledClassType k' b ++ s) : k = k' ∧ a = b ∧ r = s := by
  unfold mangledClassType at h
  simp only [List.append_assoc] at h
  obtain ⟨e, h⟩ := shape_prefix h1 h2 h
  obtain ⟨e', h⟩ := lexStr_prefix_free' _ _ _ _ ha hb h
  exact ⟨e, e', h⟩

/-- **C02** A class type (whose name starts with a capital) never has the name of a non-class type. -/
theorem C02_class_type_differs (k k' : Shape) (c : Code) (d : Char) (t : Str) (h1 : Legal k) (h2 : Legal k')
    (hd : 'A' ≤ d ∧ d ≤ 'Z') (hl : (d :: t).length < 2 ^ 32) : mangledType k c ≠ mangledClassType k' (d :: t) := by
  intro h
  unfold mangledType mangledClassType at h
  obtain ⟨-, h⟩ := shape_prefix h1 h2 h
  have h' : lexStr [c.char] ++ [] = lexStr (d :: t) ++ [] := by simpa using h
  obtain ⟨e, -⟩ := lexStr_prefix_free' _ _ _ _ (by simp) hl h'
  simp only [List.cons.injEq] at e
  rw [← e.1] at hd
  exact code_lower c hd

/-- The shape restriction is needed: an array of unknown size (-2) gets the name of a scalar. -/
theorem C02_unknown_size_collides :
    mangledType ⟨false, -2, 8⟩ .int = mangledType ⟨false, -1, 8⟩ .int := by rfl

example : Legal ⟨true, 3, 12⟩ ∧ Legal ⟨false, -1, 32⟩ := by simp [Legal]
example : mangledType ⟨true, 3, 12⟩ .unsigned = "r132121u".toList := by
  simp [mangledType, shapeText, lexS_eq, lexStr, header, dec, digitCount, lexU, digit, Code.char]

/-! ## C04 -/

/-- **C04** Every template argument list with ready values has a key. -/
theorem C04_key_exists (pool : Nat → List Nat) (isRef : Bool) (args : List Arg) (h : ∀ a ∈ args, WF pool a) :
    ∃ t, instanceKey pool isRef args = some t := by
  have : ∃ t, concatM (args.map (argText pool)) = some t := by
    apply concatM_total
    intro x hx
    rw [List.mem_map] at hx
    obtain ⟨a, ha, rfl⟩ := hx
    exact argText_total pool (h a ha)
  obtain ⟨t, ht⟩ := this
  exact ⟨_, by unfold instanceKey; rw [ht]; rfl⟩

/-- **C04** (partial: class-valued arguments must have fewer than 8 bits, see `C04_class_values_collide`, and string
arguments must not be empty, see `C04_string_arrays_collide`.) Two argument
lists have the same key exactly when they have the same length and, position by position, the same types and values. -/
theorem C04_key_iff_same_arguments_partial (pool : Nat → List Nat) (isRef : Bool) (as bs : List Arg)
    (ha : ∀ a ∈ as, WF pool a ∧ Small pool a) (hb : ∀ b ∈ bs, WF pool b ∧ Small pool b) :
    instanceKey pool isRef as = instanceKey pool isRef bs ↔ List.Forall₂ (SameArg pool) as bs := by
  constructor
  · intro h
    obtain ⟨t, ht⟩ := C04_key_exists pool isRef as (fun a q => (ha a q).1)
    have hu : instanceKey pool isRef bs = some t := by rw [← h]; exact ht
    exact (instanceKey_prefix pool (r := []) (s := []) ha hb ht hu rfl).2.1
  · intro h
    exact instanceKey_same pool isRef h (fun a q => (ha a q).1)

/-- **C04** (partial: class-valued arguments must have fewer than 8 bits, arrays of strings no empty item.) When the two
argument lists have the same types position by position, as for two instances of one template whose parameter types do not
depend on its other parameters, scalar string arguments may also be empty. -/
theorem C04_key_iff_same_types_partial (pool : Nat → List Nat) (isRef : Bool) (as bs : List Arg)
    (hT : List.Forall₂ SameType as bs) (ha : ∀ a ∈ as, WF pool a ∧ SmallItems pool a)
    (hb : ∀ b ∈ bs, WF pool b ∧ SmallItems pool b) :
    instanceKey pool isRef as = instanceKey pool isRef bs ↔ List.Forall₂ (SameArg pool) as bs := by
  constructor
  · intro h
    have tot : ∀ cs : List Arg, (∀ c ∈ cs, WF pool c) → ∃ t, concatM (cs.map (argText pool)) = some t := by
      intro cs hcs
      apply concatM_total
      intro x hx
      rw [List.mem_map] at hx
      obtain ⟨a, hmem, rfl⟩ := hx
      exact argText_total pool (hcs a hmem)
    obtain ⟨t, ht⟩ := tot as (fun a q => (ha a q).1)
    obtain ⟨u, hu⟩ := tot bs (fun b q => (hb b q).1)
    unfold instanceKey at h
    rw [ht, hu, hT.length_eq] at h
    simp only [Option.map_some, Option.some.injEq] at h
    have := List.append_cancel_left h
    subst this
    exact argsText_sameType pool as bs t hT ha hb ht hu
  · intro h
    exact instanceKey_same pool isRef h (fun a q => (ha a q).1)

/-- **C04** The key of a reference to an instance is never the key of the instance. -/
theorem C04_reference_key_differs (pool : Nat → List Nat) (as bs : List Arg)
    (ha : ∀ a ∈ as, WF pool a) : instanceKey pool true as ≠ instanceKey pool false bs := by
  intro h
  obtain ⟨t, ht⟩ := C04_key_exists pool true as ha
  have hu := h ▸ ht
  unfold instanceKey at ht hu
  rw [Option.map_eq_some_iff] at ht hu
  obtain ⟨t', -, rfl⟩ := ht
  obtain ⟨u', -, hu⟩ := hu
  simp only [if_true, if_false, Bool.false_eq_true, List.nil_append, List.singleton_append, List.cons_append] at hu
  exact lexU_head_ne_r _ _ _ hu

/-- **C04** fails for class-valued arguments of 8 bits: two different values of the same class give the same key, so the
second instance is taken for the first. -/
theorem C04_class_values_collide (pool : Nat → List Nat) : ∃ a b, WF pool a ∧ WF pool b ∧ ¬ SameArg pool a b ∧
    instanceKey pool false [a] = instanceKey pool false [b] := by
  refine ⟨.cls ⟨false, -1, 8⟩ [true, false, false, false, false, false, false, false],
    .cls ⟨false, -1, 8⟩ [true, false, false, false, false, true, true, true], ?_, ?_, ?_, ?_⟩
  · simp [WF, Legal]
  · simp [WF, Legal]
  · intro h; cases h
  · rfl

/-- **C04** fails for arrays of strings with an empty item: `{"", "a"}` and `{"a", ""}` give the same key. -/
theorem C04_string_arrays_collide : ∃ (pool : Nat → List Nat) (a b : Arg), WF pool a ∧ WF pool b ∧
    ¬ SameArg pool a b ∧ instanceKey pool false [a] = instanceKey pool false [b] := by
  refine ⟨fun i => if i = 1 then [1, 97, 0] else [0], .prim ⟨false, 2, 18⟩ .string [1, 2],
    .prim ⟨false, 2, 18⟩ .string [2, 1], ?_, ?_, ?_, rfl⟩
  · refine ⟨by simp [Legal], rfl, by simp [ValueCode], by decide, by decide, rfl, by simp, ?_⟩
    intro _ i hi
    simp only [List.mem_cons, List.not_mem_nil, or_false] at hi
    rcases hi with rfl | rfl
    · exact ⟨[97], rfl, by simp, by simp⟩
    · exact ⟨[], rfl, by simp, by simp⟩
  · refine ⟨by simp [Legal], rfl, by simp [ValueCode], by decide, by decide, rfl, by simp, ?_⟩
    intro _ i hi
    simp only [List.mem_cons, List.not_mem_nil, or_false] at hi
    rcases hi with rfl | rfl
    · exact ⟨[], rfl, by simp, by simp⟩
    · exact ⟨[97], rfl, by simp, by simp⟩
  · intro h
    cases h with
    | prim h => simp [meaning] at h

/-- A pool with the string `"ab"` at index 1. -/
def examplePool : Nat → List Nat := fun i => if i = 1 then [2, 97, 98, 0] else [0]

/-- Three arguments: `Int(8) = -3`, a two-item `Bool(3)` array, the string `"ab"`. -/
def exampleArgs : List Arg :=
  [.prim ⟨false, -1, 8⟩ .int [253], .prim ⟨false, 2, 3⟩ .bool [7, 0], .prim ⟨false, -1, 18⟩ .string [1]]

example : ∀ a ∈ exampleArgs, WF examplePool a ∧ Small examplePool a := by
  intro a ha
  simp only [exampleArgs, List.mem_cons, List.not_mem_nil, or_false] at ha
  rcases ha with rfl | rfl | rfl
  · simp [WF, Small, Legal, ValueCode, count]
  · simp [WF, Small, Legal, ValueCode, count]
  · refine ⟨⟨by simp [Legal], rfl, by simp [ValueCode], by decide, by decide, rfl, by simp, ?_⟩, by intro _ i hi; simp at hi; subst hi; simp [examplePool]⟩
    intro _ i hi
    simp only [List.mem_singleton] at hi
    subst hi
    exact ⟨[97, 98], rfl, by simp, by simp⟩

/-! ## C03 -/

/-- **C03** (partial: class-valued template arguments of the parameter types must have fewer than 8 bits and
string arguments must not be empty.) Functions with
the same generated name have the same name and, parameter by parameter, the same types. -/
theorem C03_mangled_function_injective_partial (pool : Nat → List Nat) (isTemplate : Str → Bool) (f g : Str)
    (ps qs : List PTy) (hf : f.length ≤ 255) (hg : g.length ≤ 255)
    (hp : ∀ p ∈ ps, WFTy pool isTemplate p ∧ SmallTy pool p)
    (hq : ∀ q ∈ qs, WFTy pool isTemplate q ∧ SmallTy pool q) (t : Str)
    (h1 : mangledFunction pool isTemplate f ps = some t) (h2 : mangledFunction pool isTemplate g qs = some t) :
    f = g ∧ List.Forall₂ (SameTy pool) ps qs := by
  unfold mangledFunction at h1 h2
  rw [Option.map_eq_some_iff] at h1 h2
  obtain ⟨t1, e1, rfl⟩ := h1
  obtain ⟨t2, e2, h⟩ := h2
  simp only [List.append_assoc] at h
  have h := List.append_cancel_left h
  obtain ⟨e, h⟩ := lexStr_prefix_free' _ _ _ _ (by omega) (by omega) h
  obtain ⟨hn, h⟩ := lexU_prefix_free' _ _ _ _ h
  obtain ⟨m, -⟩ := paramsText_prefix pool isTemplate ps qs t1 t2 [] [] hn.symm hp hq e1 e2 (by simpa using h.symm)
  exact ⟨e.symm, m⟩

/-- **C03** Every function whose parameter types are well formed has a generated name. -/
theorem C03_name_exists (pool : Nat → List Nat) (isTemplate : Str → Bool) (f : Str) (ps : List PTy)
    (hp : ∀ p ∈ ps, WFTy pool isTemplate p) : ∃ t, mangledFunction pool isTemplate f ps = some t := by
  have : ∃ t, concatM (ps.map (paramText pool isTemplate)) = some t := by
    apply concatM_total
    intro x hx
    rw [List.mem_map] at hx
    obtain ⟨p, hmem, rfl⟩ := hx
    cases p with
    | prim k c => exact ⟨_, rfl⟩
    | cls k name args =>
      have hw := hp _ hmem
      obtain ⟨u, hu⟩ := C04_key_exists pool k.ref args hw.2.2.2.1
      simp only [paramText]
      cases isTemplate name
      · exact ⟨_, rfl⟩
      · rw [if_pos rfl, hu]; exact ⟨_, rfl⟩
  obtain ⟨t, ht⟩ := this
  exact ⟨_, by unfold mangledFunction; rw [ht]; rfl⟩

/-- **C03** fails for classes that differ in a class-valued argument of 8 bits: two overloads get the same name. -/
theorem C03_overloads_collide (pool : Nat → List Nat) : ∃ p q : PTy, WFTy pool (fun _ => true) p ∧
    WFTy pool (fun _ => true) q ∧ ¬ SameTy pool p q ∧
    mangledFunction pool (fun _ => true) "f".toList [p] = mangledFunction pool (fun _ => true) "f".toList [q] := by
  refine ⟨.cls ⟨false, -1, 0⟩ "T".toList [.cls ⟨false, -1, 8⟩ [true, false, false, false, false, false, false, false]],
    .cls ⟨false, -1, 0⟩ "T".toList [.cls ⟨false, -1, 8⟩ [true, false, false, false, false, true, true, true]],
    ?_, ?_, ?_, ?_⟩
  · refine ⟨by simp [Legal], by simp, ⟨'T', [], rfl, by decide, by decide⟩, by simp [WF, Legal], by simp⟩
  · refine ⟨by simp [Legal], by simp, ⟨'T', [], rfl, by decide, by decide⟩, by simp [WF, Legal], by simp⟩
  · intro h
    cases h with
    | cls h => cases h with
      | cons h _ => cases h
  · simp only [mangledFunction, List.map_cons, paramText, if_true]
    have : instanceKey pool false [.cls ⟨false, -1, 8⟩ [true, false, false, false, false, false, false, false]] =
        instanceKey pool false [.cls ⟨false, -1, 8⟩ [true, false, false, false, false, true, true, true]] := rfl
    rw [this]
    rfl

example : WFTy examplePool (fun n => n == "Pair".toList) (.cls ⟨true, -1, 26⟩ "Pair".toList exampleArgs) := by
  refine ⟨by simp [Legal], by decide, ⟨'P', "air".toList, rfl, by decide, by decide⟩, ?_, by simp⟩
  intro a ha
  simp only [exampleArgs, List.mem_cons, List.not_mem_nil, or_false] at ha
  rcases ha with rfl | rfl | rfl
  · simp [WF, Legal, ValueCode, count]
  · simp [WF, Legal, ValueCode, count]
  · refine ⟨by simp [Legal], rfl, by simp [ValueCode], by decide, by decide, rfl, by simp, ?_⟩
    intro _ i hi
    simp only [List.mem_singleton] at hi
    subst hi
    exact ⟨[97, 98], rfl, by simp, by simp⟩

end Ulam.Mangle
