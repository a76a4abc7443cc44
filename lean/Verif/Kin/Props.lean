import Verif.Walker.Props
import Verif.Kin.Spec
/-! # C148: whether a class or an ancestor is a stub; the numbers of a class and its ancestors -/
namespace Ulam.Kin
open Walker Walker.Spec Spec
variable {n : Nat}

theorem stubLoop_eq (w : World n) (f : Flags n) (c : Fin n) (s : State n) :
    stubLoop w f c s = match (sightings w false s).find? fun x => w.defined x && f.stub x with
      | none => some false
      | some x => if !f.template c || f.stubForTemplate x then some true else none := by
  refine walk_induction w false (fun s => stubLoop w f c s =
    match (sightings w false s).find? fun x => w.defined x && f.stub x with
      | none => some false
      | some x => if !f.template c || f.stubForTemplate x then some true else none) ?_ ?_ s
  · intro s h
    rw [sightings_none h, stubLoop.eq_def]
    split
    · rfl
    · rename_i h2; rw [h] at h2; cases h2
  · intro s r t h ih
    rw [sightings_some h, stubLoop.eq_def]
    split
    · rename_i h2; rw [h] at h2; cases h2
    · rename_i h2
      rw [h] at h2; cases h2
      rw [List.find?_cons]
      unfold after at ih ⊢
      cases hd : w.defined r
      · simp [hd] at ih ⊢; exact ih
      · cases hs : f.stub r
        · simp [hd] at ih ⊢; exact ih
        · simp

theorem bitsLoop_none {w : World n} {s : State n} (h : getNextBase w s = none) (reg : Fin n → Nat) (bits : Nat → Bool) :
    bitsLoop w reg bits s = bits := by
  rw [bitsLoop.eq_def]
  split
  · rfl
  · rename_i h2; rw [h] at h2; cases h2

theorem bitsLoop_some {w : World n} {s t : State n} {r : Fin n} (h : getNextBase w s = some (r, t)) (reg : Fin n → Nat)
    (bits : Nat → Bool) :
    bitsLoop w reg bits s = if w.defined r then
      bitsLoop w reg (fun i => if i = reg r then true else bits i) (addAncestorPairsOf w false r w.nouti t)
    else bitsLoop w reg bits t := by
  rw [bitsLoop.eq_def]
  split
  · rename_i h2; rw [h] at h2; cases h2
  · rename_i h2; rw [h] at h2; cases h2; rfl

theorem bitsLoop_iff (w : World n) (reg : Fin n → Nat) (i : Nat) (s : State n) : ∀ bits : Nat → Bool,
    (bitsLoop w reg bits s i = true ↔ bits i = true ∨ ∃ x ∈ sightings w false s, w.defined x = true ∧ reg x = i) := by
  refine walk_induction w false (fun s => ∀ bits : Nat → Bool,
    (bitsLoop w reg bits s i = true ↔ bits i = true ∨ ∃ x ∈ sightings w false s, w.defined x = true ∧ reg x = i)) ?_ ?_ s
  · intro s h bits
    rw [sightings_none h, bitsLoop_none h]
    simp
  · intro s r t h ih bits
    rw [sightings_some h, bitsLoop_some h]
    unfold after at ih ⊢
    cases hd : w.defined r
    · simp only [hd, Bool.false_eq_true, if_false] at ih ⊢
      rw [ih]; simp [hd]
    · simp only [hd, if_true] at ih ⊢
      rw [ih]
      by_cases e : i = reg r
      · simp [e, hd]
      · have e' : ¬ reg r = i := fun q => e q.symm
        simp [e, e', hd]

theorem mem_kin {w : World n} (ok : Ok w) (c x : Fin n) :
    (x ∈ sightings w false (init w c) ∧ w.defined x = true) ↔ KinOf w c x := by
  have := mem_classes ok false c x
  unfold classes at this
  rw [List.mem_filter] at this
  exact this

/-- **C148.** The answer is no exactly when neither the class nor an ancestor is a stub; it is yes only when one is; and the
assertion fails only for a template with a stub among its kin that is not a stub for a template. -/
theorem C148_stub_found (w : World n) (ok : Ok w) (f : Flags n) (c : Fin n) :
    (hasClassAStubInHierarchy w f c = some false ↔ ¬ HasStub w f.stub c) ∧
    (hasClassAStubInHierarchy w f c = some true → HasStub w f.stub c) ∧
    (hasClassAStubInHierarchy w f c = none → f.template c = true ∧
      ∃ x, KinOf w c x ∧ f.stub x = true ∧ f.stubForTemplate x = false) := by
  unfold hasClassAStubInHierarchy
  rw [stubLoop_eq]
  cases hf : (sightings w false (init w c)).find? fun x => w.defined x && f.stub x with
  | none =>
    rw [List.find?_eq_none] at hf
    refine ⟨⟨fun _ => ?_, fun _ => rfl⟩, fun q => (by cases q), fun q => (by cases q)⟩
    rintro ⟨x, hk, hs⟩
    have hm := (mem_kin ok c x).2 hk
    exact hf x hm.1 (by simp [hm.2, hs])
  | some x =>
    have hp := List.find?_some hf
    have hm := List.mem_of_find?_eq_some hf
    rw [Bool.and_eq_true] at hp
    have hk := (mem_kin ok c x).1 ⟨hm, hp.1⟩
    dsimp only
    cases ht : f.template c <;> cases hx : f.stubForTemplate x <;>
      simp only [Bool.not_false, Bool.not_true, Bool.or_false, Bool.or_true, if_true, Bool.false_eq_true, if_false]
    case true.false =>
      exact ⟨⟨fun q => (by cases q), fun q => absurd ⟨x, hk, hp.2⟩ q⟩, fun q => (by cases q),
        fun _ => ⟨trivial, x, hk, hp.2, hx⟩⟩
    all_goals
      exact ⟨⟨fun q => (by cases q), fun q => absurd ⟨x, hk, hp.2⟩ q⟩, fun _ => ⟨x, hk, hp.2⟩, fun q => (by cases q)⟩

/-- **C148.** For a class that is no template, and for a template whose stubs are all stubs for templates, no assertion
fails, and the answer is yes exactly when the class or an ancestor is a stub. -/
theorem C148_stub_decided (w : World n) (ok : Ok w) (f : Flags n) (c : Fin n)
    (h : f.template c = true → ∀ x, KinOf w c x → f.stub x = true → f.stubForTemplate x = true) :
    (hasClassAStubInHierarchy w f c = some true ↔ HasStub w f.stub c) ∧
    (hasClassAStubInHierarchy w f c = some false ↔ ¬ HasStub w f.stub c) := by
  obtain ⟨h1, h2, h3⟩ := C148_stub_found w ok f c
  refine ⟨⟨h2, fun hs => ?_⟩, h1⟩
  cases e : hasClassAStubInHierarchy w f c with
  | none =>
    obtain ⟨t, x, k, s, q⟩ := h3 e
    rw [h t x k s] at q; cases q
  | some b =>
    cases b with
    | false => exact absurd hs (h1.1 e)
    | true => rfl

/-- In the diamond of C13, class 4, an ancestor of 1 on two ways, is a stub for a template; class 6 is a stub that is not. -/
def someFlags : Flags 8 := ⟨fun x => x = 4 ∨ x = 6, fun x => x = 4, fun x => x = 1 ∨ x = 6⟩

example : hasClassAStubInHierarchy diamond someFlags 1 = some true ∧ hasClassAStubInHierarchy diamond someFlags 3 = some true ∧
    hasClassAStubInHierarchy diamond someFlags 6 = none ∧ hasClassAStubInHierarchy diamond someFlags 0 = some false := by
  decide +kernel

example : Ok diamond ∧ HasStub diamond someFlags.stub 1 := by
  refine ⟨diamond_ok, ((C148_stub_found diamond diamond_ok someFlags 1).2.1 (by decide +kernel))⟩

/-- **C148.** If the numbers of known classes differ, the bits set from an empty vector, at the numbers of known classes, are
those of the class and its ancestors; no other bit is set; and bits set before stay set. -/
theorem C148_bits (w : World n) (ok : Ok w) (reg : Fin n → Nat) (c : Fin n) :
    (∀ bits i, buildIsBitVectorByRegNum w reg c bits i = true ↔ bits i = true ∨ ∃ x, KinOf w c x ∧ reg x = i) ∧
    ((∀ x y, w.defined x = true → w.defined y = true → reg x = reg y → x = y) →
      ∀ b, w.defined b = true →
        (buildIsBitVectorByRegNum w reg c (fun _ => false) (reg b) = true ↔ SelfOrAncestor w (w.root c) b)) := by
  have key : ∀ bits i, buildIsBitVectorByRegNum w reg c bits i = true ↔ bits i = true ∨ ∃ x, KinOf w c x ∧ reg x = i := by
    intro bits i
    unfold buildIsBitVectorByRegNum
    rw [bitsLoop_iff]
    refine or_congr Iff.rfl ⟨?_, ?_⟩
    · rintro ⟨x, h1, h2, h3⟩
      exact ⟨x, (mem_kin ok c x).1 ⟨h1, h2⟩, h3⟩
    · rintro ⟨x, h1, h2⟩
      have := (mem_kin ok c x).2 h1
      exact ⟨x, this.1, this.2, h2⟩
  refine ⟨key, fun inj b hb => ?_⟩
  rw [key]
  constructor
  · rintro (h | ⟨x, hk, e⟩)
    · cases h
    · rw [← inj x b hk.1 hb e]; exact hk.2
  · exact fun h => .inr ⟨b, ⟨hb, h⟩, rfl⟩

example : (∀ x y, diamond.defined x = true → diamond.defined y = true → x.val = y.val → x = y) ∧
    (List.range 8).map (buildIsBitVectorByRegNum diamond (fun x => x.val) 3 fun _ => false) =
      [false, false, false, true, true, false, false, false] :=
  ⟨fun _ _ _ _ e => Fin.ext e, by decide +kernel⟩

/-- **C148.** With different numbers for different classes, the bit of another class is set exactly when the class is a
subclass of it. -/
theorem C148_bits_subclass (w : World n) (ok : Ok w) (ac : Acyclic w) (reg : Fin n → Nat) (c b : Fin n)
    (inj : ∀ x y, w.defined x = true → w.defined y = true → reg x = reg y → x = y)
    (hc : w.root (w.deref c) = c) (hb : w.root (w.deref b) = b) (hr : w.root c = c) (db : w.defined b = true) (ne : b ≠ c) :
    buildIsBitVectorByRegNum w reg c (fun _ => false) (reg b) = isClassASubclassOf w c b := by
  rw [Bool.eq_iff_iff, (C148_bits w ok reg c).2 inj b db, C14_subclass_iff_ancestor w ok ac, hc, hb, hr]
  unfold SelfOrAncestor Ancestor
  rw [Relation.reflTransGen_iff_eq_or_transGen]
  exact ⟨fun h => h.resolve_left ne, .inr⟩

example : Ok diamond ∧ Acyclic diamond ∧ diamond.root (diamond.deref 1) = 1 ∧ diamond.root (diamond.deref 4) = 4 ∧
    buildIsBitVectorByRegNum diamond (fun x => x.val) 1 (fun _ => false) 4 = true ∧
    buildIsBitVectorByRegNum diamond (fun x => x.val) 1 (fun _ => false) 6 = false :=
  ⟨diamond_ok, diamond_acyclic, by decide +kernel⟩

theorem mappedLoop_eq (w : World n) (map : Fin n → Nat → Option Nat) (a : Nat) (s : State n) :
    mappedLoop w map a s = (sightings w false s).findSome? fun x => if w.defined x then map x a else none := by
  refine walk_induction w false (fun s => mappedLoop w map a s =
    (sightings w false s).findSome? fun x => if w.defined x then map x a else none) ?_ ?_ s
  · intro s h
    rw [sightings_none h, mappedLoop.eq_def]
    split
    · rfl
    · rename_i h2; rw [h] at h2; cases h2
  · intro s r t h ih
    rw [sightings_some h, mappedLoop.eq_def]
    split
    · rename_i h2; rw [h] at h2; cases h2
    · rename_i h2
      rw [h] at h2; cases h2
      rw [List.findSome?_cons]
      unfold after at ih ⊢
      cases hd : w.defined r
      · simp only [hd, Bool.false_eq_true, if_false] at ih ⊢; exact ih
      · simp only [hd, if_true] at ih ⊢
        cases hm : map r a
        · exact ih
        · rfl

/-- **C148.** A type is found mapped exactly when the class or an ancestor maps it, and to what one of them maps it to; what
the class itself maps it to goes first. -/
theorem C148_mapped (w : World n) (ok : Ok w) (map : Fin n → Nat → Option Nat) (c : Fin n) (a : Nat) :
    (∀ u, hasMappedUTI w map c a = some u → ∃ x, KinOf w c x ∧ map x a = some u) ∧
    (hasMappedUTI w map c a = none ↔ ∀ x, KinOf w c x → map x a = none) ∧
    (∀ u, w.defined (w.root c) = true → map (w.root c) a = some u → hasMappedUTI w map c a = some u) := by
  unfold hasMappedUTI
  rw [mappedLoop_eq]
  refine ⟨fun u h => ?_, ?_, fun u hd hm => ?_⟩
  · obtain ⟨x, hx, e⟩ := List.exists_of_findSome?_eq_some h
    split at e
    · rename_i hd; exact ⟨x, (mem_kin ok c x).1 ⟨hx, hd⟩, e⟩
    · cases e
  · rw [List.findSome?_eq_none_iff]
    constructor
    · intro h x hk
      have hx := (mem_kin ok c x).2 hk
      simpa [hx.2] using h x hx.1
    · intro h x hx
      split
      · rename_i hd; exact h x ((mem_kin ok c x).1 ⟨hx, hd⟩)
      · rfl
  · have h1 : getNextBase w (init w c) = some (w.root c, ⟨[], {w.root c}⟩) := by
      simp [getNextBase, init, getNextBasePair]
    rw [sightings_some h1, List.findSome?_cons]
    simp [hd, hm]

/-- In the diamond, 4 maps type 9 to 20, 3 maps it to 30 and 10 to 31, 1 maps nothing. -/
def someMap : Fin 8 → Nat → Option Nat := fun x a =>
  if x = 4 ∧ a = 9 then some 20 else if x = 3 ∧ a = 9 then some 30 else if x = 3 ∧ a = 10 then some 31 else none

example : hasMappedUTI diamond someMap 1 9 = some 20 ∧ hasMappedUTI diamond someMap 3 9 = some 30 ∧
    hasMappedUTI diamond someMap 1 10 = some 31 ∧ hasMappedUTI diamond someMap 2 10 = none := by decide +kernel

end Ulam.Kin
