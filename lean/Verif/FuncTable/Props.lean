import Verif.FuncTable.Lemmas
import Mathlib.Data.List.Pairwise
/-! # C101: signatures are unique and agree on what they return -/
namespace Ulam.FuncTable
open Ulam.FuncTable.Spec Ulam.Walker.Spec
variable {n : Nat}

/-! ## While parsing -/

/-- **C101.** The key of a function while parsing tells its parameters apart: two functions with parameters have the same key
exactly when their parameters have, one by one, the same number of a type, the same mark for a reference without a type, and,
where the type is unknown, are of the same function. -/
theorem C101_parse_key (k : Consts) (ps qs : List Param) (hp : ps ≠ []) (hq : qs ≠ []) :
    utiKey k ps = utiKey k qs ↔ ps.map denotes = qs.map denotes := by
  unfold utiKey
  rw [if_neg (fun z => hp (List.length_eq_zero_iff.1 z)), if_neg (fun z => hq (List.length_eq_zero_iff.1 z))]
  exact ⟨items_inj ps qs, items_denote ps qs⟩

/-- **C101.** A function without parameters has the key of one with a single parameter of type `Void`, and of no other. -/
theorem C101_parse_key_none (k : Consts) (qs : List Param) :
    utiKey k [] = utiKey k qs ↔ qs = [] ∨ qs.map denotes = [(k.void, false, none)] := by
  by_cases h : qs = []
  · subst h; simp
  · have e : utiKey k [] = utiKey k [.known k.void] := by simp [utiKey, item]
    rw [e, C101_parse_key k _ _ (by simp) h]
    constructor
    · intro z; exact .inr z.symm
    · rintro (z | z)
      · exact absurd z h
      · exact z.symm

example : utiKey ⟨4⟩ [.known 12, .hazy 3 77] = ",12,3-77".toList ∧ utiKey ⟨4⟩ [.unset 12 true] = ",12r".toList := by decide +kernel

/-- **C101.** A function is added exactly when none with its key is there; then nothing else changes, and otherwise nothing
changes and the one in the way is named. So no key is ever there twice. -/
theorem C101_overload {α : Type} (m : Names α) (key : List Char) (f : α) (h : (m.map Prod.fst).Nodup) :
    ((overloadFunction m key f).2.1.map Prod.fst).Nodup ∧
    ((overloadFunction m key f).1 = true ↔ ∀ g, (key, g) ∉ m) ∧
    ((overloadFunction m key f).1 = true → ∀ e, e ∈ (overloadFunction m key f).2.1 ↔ e ∈ m ∨ e = (key, f)) ∧
    ((overloadFunction m key f).1 = false → (overloadFunction m key f).2.1 = m ∧
      ∃ g, (overloadFunction m key f).2.2 = some g ∧ (key, g) ∈ m) := by
  unfold overloadFunction isDefined
  cases e : m.find? fun e => e.1 = key with
  | none =>
    have hn : ∀ g, (key, g) ∉ m := fun g hg => by simpa using List.find?_eq_none.1 e _ hg
    refine ⟨?_, ⟨fun _ => hn, fun _ => rfl⟩, fun _ x => ?_, fun z => (nomatch z)⟩
    · simp only [Option.map_none, List.map_append, List.map_cons, List.map_nil]
      rw [List.nodup_append]
      refine ⟨h, by simp, ?_⟩
      intro a ha b hb
      rw [List.mem_singleton] at hb
      subst hb
      rintro rfl
      obtain ⟨⟨x, g⟩, hx, rfl⟩ := List.mem_map.1 ha
      exact hn g hx
    · simp
  | some x =>
    have hm := List.mem_of_find?_eq_some e
    have hk : x.1 = key := by simpa using List.find?_some e
    have hx : (key, x.2) ∈ m := by rw [← hk]; exact hm
    refine ⟨h, ⟨fun z => (nomatch z), fun z => absurd hx (z x.2)⟩, fun z => (nomatch z), fun _ => ⟨rfl, x.2, rfl, hx⟩⟩

/-! ## After labelling -/

/-- A class that belongs to the hierarchy of `c`. -/
def InHierarchy (w : Walker.World n) (c x : Fin n) : Prop := w.defined x = true ∧ SelfOrAncestor w (w.root c) x

/-- **C101.** Of a class that is not written `{ }` the check shows no error exactly when all functions of the class and its
ancestors that are called in the same way return the same type, and in none of these classes the first of several functions
called in the same way is one that is not virtual. -/
theorem C101_accepted_iff (w : Walker.World n) (ok : Ok w) (blk : Fin n → Block)
    (hb : ∀ x, (blk x).empty = true → (blk x).funs = []) (c : Fin n) (hc : (blk c).empty = false) :
    checkClass w blk c = [] ↔
      (∀ x y, InHierarchy w c x → InHierarchy w c y → ∀ f ∈ (blk x).funs, ∀ g ∈ (blk y).funs, SameSignature f g → f.ret = g.ret) ∧
      (∀ x, InHierarchy w c x → Excused (blk x).funs) := by
  have hm : ∀ x, x ∈ Walker.classes w false c ↔ InHierarchy w c x := Walker.mem_classes ok false c
  unfold checkClass
  rw [if_pos (by simp [hc]), checkWalk_nil blk hb _ _ [] (inv_nil _), retErrs_nil _ [] (fun f hf => by cases hf), List.nil_append]
  simp only [true_and]
  constructor
  · rintro ⟨h1, h2⟩
    refine ⟨fun x y hx hy f hf g hg q => ?_, fun x hx => ((checkMatching_nil _ (hb x)).1 (h1 x ((hm x).2 hx))).2⟩
    exact h2 f (List.mem_flatMap.2 ⟨x, (hm x).2 hx, hf⟩) g (List.mem_flatMap.2 ⟨y, (hm y).2 hy, hg⟩) q
  · rintro ⟨h1, h2⟩
    refine ⟨fun x hx => (checkMatching_nil _ (hb x)).2 ⟨fun f hf g hg => ?_, h2 x ((hm x).1 hx)⟩, fun f hf g hg => ?_⟩
    · exact h1 x x ((hm x).1 hx) ((hm x).1 hx) f hf g hg
    · obtain ⟨x, hx, hf⟩ := List.mem_flatMap.1 hf
      obtain ⟨y, hy, hg⟩ := List.mem_flatMap.1 hg
      exact h1 x y ((hm x).1 hx) ((hm y).1 hy) f hf g hg

/-- **C101.** In a class accepted so, no two functions that are not virtual are called in the same way when none of that
signature is virtual. Missing: the same with virtual ones among them, see below. -/
theorem C101_no_duplicates_partial (b : Block) (hb : b.empty = true → b.funs = []) (h : checkMatching b = [])
    (hv : ∀ f ∈ b.funs, f.virt = false) : Distinct b.funs := by
  have h2 := ((checkMatching_nil b hb).1 h).2
  have key : ∀ m : Nat, ∀ pre suf, suf.length = m → b.funs = pre ++ suf → (∀ f ∈ pre, ∀ g ∈ suf, ¬ SameSignature f g) →
      Distinct suf := by
    intro m
    induction m with
    | zero => intro pre suf hl _ _; rw [List.length_eq_zero_iff.1 hl]; exact List.Pairwise.nil
    | succ m ih =>
      intro pre suf hl e hd
      cases suf with
      | nil => cases hl
      | cons f suf =>
        have hf : ∀ g ∈ suf, ¬ SameSignature f g := by
          intro g hg q
          have := h2 pre f suf e (fun p hp => hd p hp f (by simp)) ⟨g, hg, q⟩
          rw [hv f (by rw [e]; simp)] at this
          cases this
        refine List.Pairwise.cons hf (ih (pre ++ [f]) suf (by simpa using hl) (by rw [e]; simp) ?_)
        intro p hp g hg
        rcases List.mem_append.1 hp with hp | hp
        · exact hd p hp g (List.mem_cons_of_mem _ hg)
        · rw [List.mem_singleton.1 hp]; exact hf g hg
  exact key _ [] b.funs rfl rfl (fun f hf => by cases hf)

/-- **C101.** Conversely a class whose functions are all called in different ways is accepted by this check, and distinct
functions are not mistaken for each other whatever their return types are. -/
theorem C101_distinct_accepted (b : Block) (hb : b.empty = true → b.funs = []) (h : Distinct b.funs) : checkMatching b = [] := by
  refine (checkMatching_nil b hb).2 ⟨?_, ?_⟩
  · intro f hf g hg q
    by_cases e : f = g
    · rw [e]
    · haveI : Std.Symm fun f g => ¬ SameSignature f g := ⟨fun a b hab z => hab ⟨z.1.symm, z.2.symm⟩⟩
      exact absurd q (List.Pairwise.forall (R := fun f g => ¬ SameSignature f g) h hf hg e)
  · rintro pre f suf e - ⟨g, hg, q⟩
    unfold Distinct at h
    rw [e, List.pairwise_append] at h
    exact absurd q ((List.pairwise_cons.1 h.2.1).1 g hg)

/-- **C101.** Whether return types are found to differ does not depend on the order in which the functions are listed. -/
theorem C101_returns_order (l l' : List Fun) (h : l.Perm l') :
    (checkReturns ⟨[], []⟩ l).errs = [] ↔ (checkReturns ⟨[], []⟩ l').errs = [] := by
  have a : ∀ l, (checkReturns ⟨[], []⟩ l).errs = [] ↔ Agree l := by
    intro l
    rw [(checkReturns_spec l _ [] (inv_nil _)).1, List.nil_append, retErrs_nil _ [] (fun f hf => by cases hf), List.nil_append]
  rw [a, a]
  unfold Agree
  simp only [h.mem_iff]

/-- `virtual Int f(Int)`, and `Int f(Int)`. -/
def virt : Fun := ⟨7, [3], 3, true⟩
def plain : Fun := { virt with virt := false }

/-- **C101.** Two functions of one class that are called in the same way are not found when the first is virtual. -/
theorem C101_no_duplicates_fails : ¬ ∀ b : Block, b.empty = false → checkMatching b = [] → Distinct b.funs := by
  intro h
  have := h ⟨false, [virt, virt]⟩ rfl (by decide +kernel)
  unfold Distinct at this
  rw [List.pairwise_cons] at this
  exact this.1 virt (by simp) ⟨rfl, rfl⟩

/-- **C101.** Whether a second definition is found depends on the order of the table, which is the order of numbers of types
written in decimal. -/
theorem C101_duplicate_order_fails : ¬ ∀ l l' : List Fun, l.Perm l' →
    (checkMatching ⟨false, l⟩ = [] ↔ checkMatching ⟨false, l'⟩ = []) := by
  intro h
  have h := h [virt, plain] [plain, virt] (List.Perm.swap ..)
  exact absurd (h.1 (by decide +kernel)) (by decide +kernel)

/-- Class 1 has the bases 2 and 3. -/
def two : Walker.World 4 where
  nouti := 0
  root := id
  deref := id
  defined := fun c => decide (c ≠ 0)
  table := fun c => if c = 1 then [⟨2, 0⟩, ⟨3, 0⟩] else []
  name := fun c => c

def blocks (own : Block) : Fin 4 → Block := fun c =>
  if c = 1 then own else if c = 2 then ⟨false, [plain]⟩ else if c = 3 then ⟨false, [{ plain with ret := 9 }]⟩ else ⟨true, []⟩

theorem two_ok : Ok two := ⟨fun _ => rfl, rfl⟩

/-- **C101.** Two bases that disagree on what a signature returns are found out when the class has a member of its own, and
not when it is written `{ }`. -/
theorem C101_empty_class_fails : ¬ ∀ (w : Walker.World 4) (_ : Ok w) (blk : Fin 4 → Block)
    (_ : ∀ x, (blk x).empty = true → (blk x).funs = []) (c : Fin 4), checkClass w blk c = [] →
      ∀ x y, InHierarchy w c x → InHierarchy w c y → ∀ f ∈ (blk x).funs, ∀ g ∈ (blk y).funs, SameSignature f g → f.ret = g.ret := by
  intro h
  have h := h two two_ok (blocks ⟨true, []⟩) (by decide +kernel) 1 (by decide +kernel) 2 3
    ⟨by decide, .single ⟨by decide, ⟨2, 0⟩, by decide, by decide, rfl⟩⟩
    ⟨by decide, .single ⟨by decide, ⟨3, 0⟩, by decide, by decide, rfl⟩⟩ plain (by decide) { plain with ret := 9 } (by decide) ⟨rfl, rfl⟩
  exact absurd h (by decide)

/-- With a member of its own the same class is refused. -/
example : checkClass two (blocks ⟨false, []⟩) 1 = [.returns { plain with ret := 9 } 3] ∨
    checkClass two (blocks ⟨false, []⟩) 1 = [.returns plain 9] := by decide +kernel

/-- The hypotheses of `C101_accepted_iff` are met. -/
example : (∀ x, (blocks ⟨false, []⟩ x).empty = true → (blocks ⟨false, []⟩ x).funs = []) ∧ (blocks ⟨false, []⟩ 1).empty = false ∧
    ∃ f ∈ (blocks ⟨false, []⟩ 2).funs, f.ret = 3 := by decide +kernel

end Ulam.FuncTable
