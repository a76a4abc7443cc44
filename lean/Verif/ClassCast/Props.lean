import Verif.ClassCast.Spec
import Verif.Walker.Props
import Mathlib.Tactic.ByContra
/-! # C99: which class types stand for which -/
namespace Ulam.ClassCast
open Ulam.ClassCast.Spec
open Ulam.Walker.Spec (Ok Acyclic Ancestor SelfOrAncestor)
variable {n : Nat}

theorem subOf_iff {w : World n} (ok : Classes w) (t u : Ty n) :
    subOf w t u = true ↔ ∃ c b, t.base = .cls c ∧ u.base = .cls b ∧ u.arr = none ∧ Ancestor w.h c b := by
  obtain ⟨tb, ta, tr⟩ := t
  obtain ⟨ub, ua, ur⟩ := u
  unfold subOf
  split
  · rename_i h
    simp only [deref, Ty.mk.injEq, and_true] at h
    obtain ⟨h1, h2⟩ := h
    subst h1
    constructor
    · intro q; cases q
    · rintro ⟨c, b, h3, h4, h5, h6⟩
      dsimp only at h3 h4
      rw [h3] at h4
      cases h4
      exact absurd h6 (ok.acyclic c)
  · cases tb <;> cases ub <;> cases ua <;> simp
    rename_i c b _
    rw [Walker.subclass_init ok.ok c b, ok.root, ok.root]

theorem self_iff {w : World n} (c b : Fin n) : SelfOrAncestor w.h c b ↔ c = b ∨ Ancestor w.h c b := by
  rw [SelfOrAncestor, Ancestor, Relation.reflTransGen_iff_eq_or_transGen]
  constructor
  · rintro (h | h)
    · exact Or.inl h.symm
    · exact Or.inr h
  · rintro (h | h)
    · exact Or.inl h.symm
    · exact Or.inr h

theorem not_both {w : World n} (ok : Classes w) {c b : Fin n} (h : Ancestor w.h c b) : ¬ Ancestor w.h b c :=
  fun q => ok.acyclic c (h.trans q)

theorem not_self {w : World n} (ok : Classes w) {c : Fin n} : ¬ Ancestor w.h c c := ok.acyclic c

theorem baseSafe_iff (t f : Ty n) : baseSafe t f = true ↔ t.arr = f.arr ∧ KeepsConst t f := by
  unfold baseSafe KeepsConst
  split
  · rename_i h; simp [h]
  · rename_i h; split <;> simp_all

theorem subOf_cls {w : World n} (ok : Classes w) (c b : Fin n) (a : Option Nat) (x y : Alt) :
    subOf w ⟨.cls c, a, x⟩ ⟨.cls b, none, y⟩ = true ↔ Ancestor w.h c b := by
  rw [subOf_iff ok]
  constructor
  · rintro ⟨c', b', h1, h2, -, h⟩
    cases h1; cases h2; exact h
  · intro h; exact ⟨c, b, rfl, rfl, rfl, h⟩

theorem subOf_plain {w : World n} (ok : Classes w) (c b : Fin n) : subOf w (plain c) (plain b) = true ↔ Ancestor w.h c b :=
  subOf_cls ok c b none .plain .plain

/-- Between scalar class types, the forecast. -/
theorem classSafe_scalar {w : World n} (ok : Classes w) (c b : Fin n) (x y : Alt) :
    classSafe w b ⟨.cls b, none, x⟩ ⟨.cls c, none, y⟩ = true ↔
      SelfOrAncestor w.h c b ∧ ¬ (y = .constRef ∧ x = .ref) := by
  unfold classSafe
  have h1 := baseSafe_iff (n := n) ⟨.cls b, none, x⟩ ⟨.cls c, none, y⟩
  have h2 := subOf_cls ok c b none .plain .plain
  have h3 := subOf_cls ok b c none .plain .plain
  rw [self_iff]
  simp only [KeepsConst, true_and] at h1
  by_cases k : y = .constRef ∧ x = .ref
  · rw [if_pos (by rw [h1]; exact fun q => q k)]
    simp [k]
  · rw [if_neg (by rw [h1]; exact fun q => q k)]
    by_cases e : c = b
    · subst e
      simp [k, deref, plain, same]
    · simp only [deref, plain, same, refOf] at *
      by_cases a : Ancestor w.h c b
      · simp [h2.2 a, a, k]
      · have : subOf w ⟨.cls c, none, .plain⟩ ⟨.cls b, none, .plain⟩ = false := by
          rw [Bool.eq_false_iff]; exact fun q => a (h2.1 q)
        simp [this, a, e]

/-- A cast node between scalar class types makes no objection of its own. -/
theorem castNode_scalar (w : World n) (c b : Fin n) (x y : Alt) (k : Bool) :
    castNode w false k ⟨.cls b, none, x⟩ ⟨.cls c, none, y⟩ = true := by
  simp [castNode, kindsChecked, kindOf, arraysChecked, isAtom]

/-- **C99.** A value or reference of a scalar class type is implicitly converted exactly to its own class and to its
ancestors, and never from a constant reference to a reference that may be written. -/
theorem C99_implicit {w : World n} (ok : Classes w) (t f : Ty n) (b : Fin n) (ht : Scalar t b) :
    implicitly w t f = true ↔ ∃ c, Scalar f c ∧ SelfOrAncestor w.h c b ∧ KeepsConst t f := by
  obtain ⟨tb, ta, x⟩ := t
  obtain ⟨fb, fa, y⟩ := f
  obtain ⟨h1, h2⟩ := ht
  dsimp only at h1 h2
  subst h1 h2
  unfold implicitly safeCast KeepsConst Scalar
  rw [Bool.and_eq_true]
  dsimp only
  cases fa with
  | some k =>
    constructor
    · rintro ⟨q, -⟩
      simp [classSafe, baseSafe] at q
    · rintro ⟨c, ⟨-, q⟩, -⟩; cases q
  | none =>
    cases fb with
    | cls c =>
      rw [classSafe_scalar ok]
      constructor
      · rintro ⟨⟨q1, q2⟩, -⟩
        exact ⟨c, ⟨rfl, rfl⟩, q1, q2⟩
      · rintro ⟨c', ⟨e, -⟩, q1, q2⟩
        cases e
        refine ⟨⟨q1, q2⟩, ?_⟩
        unfold makeCastingNode
        simp only [castNode_scalar]
        split
        · rfl
        · rename_i ne
          simp only [kindOf]
          cases w.kind c <;> dsimp only
          · simp only [reduceCtorEq, ↓reduceIte]
            split
            · rfl
            · rename_i ns
              split
              · rename_i sb
                rw [subOf_cls ok] at sb ns
                rcases (self_iff c b).1 q1 with e | a
                · subst e; exact absurd sb (not_self ok)
                · exact absurd a ns
              · split
                · rfl
                · rename_i _ nr
                  rw [subOf_cls ok] at ns
                  rcases (self_iff c b).1 q1 with e | a
                  · subst e
                    exfalso
                    apply nr
                    simp only [same, decide_eq_true_eq, Ty.mk.injEq, true_and] at ne
                    simp only [refOf, isReference, deref, same, decide_true, Bool.and_true, Bool.or_eq_true, decide_eq_true_eq]
                    by_cases p : x = .plain
                    · left; intro q; exact ne (q.trans p.symm)
                    · right; exact p
                  · exact absurd a ns
    | _ =>
      constructor
      · rintro ⟨q, -⟩
        simp [classSafe, baseSafe, subOf, refOf, same, deref, plain] at q
      · rintro ⟨c, ⟨q, -⟩, -⟩; cases q

/-! A hierarchy for the examples: element 1 and transient 2 inherit the quark 3, transient 4 inherits transient 2; 0 is no
class. -/
def family : World 5 where
  h := { nouti := 0, root := id, deref := id, defined := fun c => decide (c ≠ 0),
         table := fun c => if c = 1 then [⟨3, 0⟩] else if c = 2 then [⟨3, 0⟩] else if c = 4 then [⟨2, 0⟩] else [], name := fun c => c.val }
  kind := fun c => if c = 3 then .quark else if c = 2 ∨ c = 4 then .transient else .element
  size := fun c => if c = 3 then 8 else if c = 2 then 100 else 70

theorem family_classes : Classes family := by
  refine ⟨⟨by decide, by decide⟩, ?_, by decide⟩
  have up : ∀ x y : Fin 5, Walker.Spec.Base family.h x y → (if x = 4 then 0 else x.val) < (if y = 4 then 0 else y.val) := by
    unfold Walker.Spec.Base; decide
  intro x h
  have : ∀ y, Ancestor family.h x y → (if x = 4 then 0 else x.val) < (if y = 4 then 0 else y.val) := by
    intro y hy
    induction hy with
    | single q => exact up _ _ q
    | tail _ q ih => exact ih.trans (up _ _ q)
  exact absurd (this x h) (Nat.lt_irrefl _)

theorem family_kinds : Kinds family := by unfold Kinds Walker.Spec.Base; decide

example : implicitly family (plain 3) (plain 4) = true ∧ implicitly family ⟨.cls 2, none, .ref⟩ ⟨.cls 4, none, .ref⟩ = true ∧
    implicitly family (plain 4) (plain 2) = false ∧ implicitly family ⟨.cls 3, none, .ref⟩ ⟨.cls 1, none, .constRef⟩ = false := by
  decide +kernel

/-- **C99.** An array of a class is implicitly converted to arrays of the same class and size only. -/
theorem C99_implicit_array {w : World n} (ok : Classes w) (t f : Ty n) (b : Fin n) (k : Nat) (ht : t.base = .cls b)
    (ha : t.arr = some k) :
    implicitly w t f = true ↔ f.base = .cls b ∧ f.arr = some k ∧ KeepsConst t f := by
  obtain ⟨tb, ta, x⟩ := t
  obtain ⟨fb, fa, y⟩ := f
  dsimp only at ht ha
  subst ht ha
  dsimp only
  unfold implicitly safeCast
  dsimp only
  rw [Bool.and_eq_true]
  constructor
  · rintro ⟨q1, q2⟩
    have hb : baseSafe (⟨.cls b, some k, x⟩ : Ty n) ⟨fb, fa, y⟩ = true := by
      by_contra q
      rw [classSafe, if_pos q] at q1
      cases q1
    rw [baseSafe_iff] at hb
    refine ⟨?_, hb.1.symm, hb.2⟩
    by_contra ne
    have r : refOf (⟨.cls b, some k, x⟩ : Ty n) ⟨fb, fa, y⟩ = false := by
      simp only [refOf, same, deref, Ty.mk.injEq, Bool.and_eq_false_iff, decide_eq_false_iff_not]
      right; intro q; exact ne q.1.symm
    have cn : castNode w false false ⟨.cls b, some k, x⟩ ⟨fb, fa, y⟩ = false := by
      obtain ⟨e, -⟩ := hb
      dsimp only at e
      subst e
      simp [castNode, arraysChecked, r]
    unfold makeCastingNode at q2
    rw [if_neg (by simp only [same, decide_eq_true_eq]; intro q; injection q with q; exact ne q)] at q2
    simp only [cn, Bool.and_false] at q2
    revert q2
    cases kindOf w ⟨fb, fa, y⟩ with
    | none => dsimp only; split <;> (try split) <;> simp
    | some kd => cases kd <;> simp
  · rintro ⟨rfl, rfl, q⟩
    have hb : baseSafe (⟨.cls b, some k, x⟩ : Ty n) ⟨.cls b, some k, y⟩ = true := (baseSafe_iff _ _).2 ⟨rfl, q⟩
    by_cases e : y = x
    · subst e
      refine ⟨?_, ?_⟩
      · rw [classSafe, if_neg (by simp [hb]), if_pos rfl]
      · rw [makeCastingNode, if_pos (by simp [same])]
    · have r1 : refOf (⟨.cls b, some k, y⟩ : Ty n) ⟨.cls b, some k, x⟩ = true := by
        simp only [refOf, isReference, deref, same, decide_true, Bool.and_true, Bool.or_eq_true, decide_eq_true_eq]
        by_cases p : x = .plain
        · left; intro q; exact e (q.trans p.symm)
        · right; exact p
      have r2 : refOf (⟨.cls b, some k, x⟩ : Ty n) ⟨.cls b, some k, y⟩ = true := by
        simp only [refOf, isReference, deref, same, decide_true, Bool.and_true, Bool.or_eq_true, decide_eq_true_eq] at r1 ⊢
        exact r1.symm
      have s1 : subOf w (⟨.cls b, some k, .plain⟩ : Ty n) (plain b) = false := by
        rw [Bool.eq_false_iff]; exact fun q => not_self ok ((subOf_cls ok b b (some k) .plain .plain).1 q)
      have s2 : ∀ u z, subOf w u (⟨.cls b, some k, z⟩ : Ty n) = false := by
        intro u z
        rw [Bool.eq_false_iff]; intro q
        obtain ⟨_, _, _, _, h, _⟩ := (subOf_iff ok _ _).1 q
        cases h
      have cn : castNode w false false ⟨.cls b, some k, x⟩ ⟨.cls b, some k, y⟩ = true := by
        simp [castNode, kindsChecked, kindOf, arraysChecked, isAtom, r2]
      refine ⟨?_, ?_⟩
      · rw [classSafe, if_neg (by simp [hb]), if_neg (by simp [e])]
        simp [deref, s1, s2, r1, same, plain]
      · rw [makeCastingNode, if_neg (by simp [same, e])]
        simp only [cn, s2, r1, kindOf]
        cases w.kind b <;> simp

example : implicitly family ⟨.cls 3, some 2, .ref⟩ ⟨.cls 3, some 2, .plain⟩ = true ∧
    implicitly family ⟨.cls 3, some 2, .ref⟩ ⟨.cls 3, some 2, .constRef⟩ = false ∧
    implicitly family ⟨.cls 3, some 2, .plain⟩ ⟨.cls 1, some 2, .plain⟩ = false := by decide +kernel

/-- **C99.** The forecast alone says otherwise: it calls an array of a subclass safe to convert to an array of the superclass
(so it matches such a parameter), although the conversion is then refused. -/
theorem C99_array_forecast_fails {w : World n} (ok : Classes w) (c b : Fin n) (k : Nat) (x : Alt) (h : Ancestor w.h c b) :
    safeCast w ⟨.cls b, some k, x⟩ ⟨.cls c, some k, .plain⟩ = true ∧
      implicitly w ⟨.cls b, some k, x⟩ ⟨.cls c, some k, .plain⟩ = false := by
  refine ⟨?_, ?_⟩
  · unfold safeCast classSafe
    have s := (subOf_cls ok c b (some k) .plain .plain).2 h
    simp [baseSafe, deref, plain, s]
  · rw [Bool.eq_false_iff]
    intro q
    have := ((C99_implicit_array ok _ _ b k rfl rfl).1 q).1
    cases this
    exact not_self ok h

example : safeCast family ⟨.cls 3, some 2, .plain⟩ ⟨.cls 1, some 2, .plain⟩ = true := by decide +kernel

/-- **C99.** A cast expression between scalar class types is accepted exactly for the same class, for an ancestor, and for
a descendant when the operand is a reference; constness stays. -/
theorem C99_explicit {w : World n} (ok : Classes w) (t f : Ty n) (b c : Fin n) (ht : Scalar t b) (hf : Scalar f c) :
    explicitly w t f = true ↔
      KeepsConst t f ∧ (SelfOrAncestor w.h c b ∨ (Ancestor w.h b c ∧ (f.alt = .ref ∨ f.alt = .constRef))) := by
  obtain ⟨tb, ta, x⟩ := t
  obtain ⟨fb, fa, y⟩ := f
  obtain ⟨h1, h2⟩ := ht
  obtain ⟨h3, h4⟩ := hf
  dsimp only at h1 h2 h3 h4
  subst h1 h2 h3 h4
  have ce : classExplicit w b ⟨.cls b, none, x⟩ ⟨.cls c, none, y⟩ = true ↔
      ¬ (y = .constRef ∧ x = .ref) ∧ (SelfOrAncestor w.h c b ∨ (Ancestor w.h b c ∧ (y = .ref ∨ y = .constRef))) := by
    have h1 := baseSafe_iff (n := n) ⟨.cls b, none, x⟩ ⟨.cls c, none, y⟩
    simp only [KeepsConst, true_and] at h1
    rw [self_iff]
    unfold classExplicit
    by_cases k : y = .constRef ∧ x = .ref
    · rw [if_pos (by rw [h1]; exact fun q => q k)]
      simp [k]
    · rw [if_neg (by rw [h1]; exact fun q => q k)]
      rw [show deref (⟨.cls c, none, y⟩ : Ty n) = plain c from rfl]
      dsimp only
      by_cases a : Ancestor w.h b c
      · rw [if_pos ((subOf_plain ok b c).2 a)]
        have := not_both ok a
        have : c ≠ b := fun e => not_self ok (e ▸ a)
        simp_all [isAltRef]
      · rw [if_neg (fun q => a ((subOf_plain ok b c).1 q))]
        by_cases a2 : Ancestor w.h c b
        · rw [if_pos ((subOf_plain ok c b).2 a2)]
          simp_all
        · rw [if_neg (fun q => a2 ((subOf_plain ok c b).1 q))]
          simp_all [same, plain]
  unfold explicitly castNode KeepsConst
  rw [← ce]
  simp only [kindsChecked, kindOf, arraysChecked, explicitlyCastable, kindExplicit, isAtom]
  cases w.kind b <;> simp

example : explicitly family ⟨.cls 1, none, .ref⟩ ⟨.cls 3, none, .ref⟩ = true ∧ explicitly family (plain 1) (plain 3) = false ∧
    explicitly family (plain 1) (plain 2) = false ∧ explicitly family (plain 3) (plain 2) = true ∧
    explicitly family ⟨.cls 1, none, .ref⟩ ⟨.cls 3, none, .constRef⟩ = false := by decide +kernel

/-- **C99.** No cast expression to an array of a class is accepted, not even to the type the operand already has, although
that conversion is fine when left unsaid. -/
theorem C99_array_explicit_fails (w : World n) (t f : Ty n) (b : Fin n) (k : Nat) (ht : t.base = .cls b) (ha : t.arr = some k)
    (ok : Classes w) : explicitly w t f = false ∧ implicitly w t t = true := by
  obtain ⟨tb, ta, x⟩ := t
  obtain ⟨fb, fa, y⟩ := f
  dsimp only at ht ha
  subst ht ha
  refine ⟨?_, (C99_implicit_array ok _ _ b k rfl rfl).2 ⟨rfl, rfl, fun q => by rw [q.1] at q; exact absurd q.2 (by decide)⟩⟩
  rw [Bool.eq_false_iff]
  intro q
  simp only [explicitly, castNode, Bool.and_eq_true] at q
  obtain ⟨⟨-, q2⟩, q3⟩ := q
  cases fa with
  | none => simp [arraysChecked] at q2
  | some m =>
    simp only [arraysChecked, refOf, same, deref, Bool.and_eq_true, decide_eq_true_eq, Ty.mk.injEq, Option.some.injEq, and_true] at q2
    obtain ⟨⟨-, e, -⟩, rfl⟩ := q2
    subst e
    have s1 : subOf w (⟨.cls b, some k, .plain⟩ : Ty n) (plain b) = false := by
      rw [Bool.eq_false_iff]; exact fun q => not_self ok ((subOf_cls ok b b (some k) .plain .plain).1 q)
    have s2 : subOf w (plain b) (⟨.cls b, some k, .plain⟩ : Ty n) = false := by
      rw [Bool.eq_false_iff]; intro q
      obtain ⟨_, _, _, _, h, _⟩ := (subOf_iff ok _ _).1 q
      cases h
    have : classExplicit w b ⟨.cls b, some k, x⟩ ⟨.cls b, some k, y⟩ = false := by
      unfold classExplicit
      split
      · rfl
      · rw [show deref (⟨.cls b, some k, y⟩ : Ty n) = ⟨.cls b, some k, .plain⟩ from rfl]
        dsimp only
        rw [if_neg (by simp [s2]), if_neg (by simp [s1])]
        simp [same, plain]
    simp only [explicitlyCastable, kindExplicit, this, isAtom] at q3
    revert q3
    cases w.kind b <;> simp

/-- **C99.** Elements and atoms, and nothing else, are implicitly converted to `Atom`. -/
theorem C99_to_atom (w : World n) (t f : Ty n) (ht : ScalarAtom t) :
    implicitly w t f = true ↔
      f.arr = none ∧ KeepsConst t f ∧ (f.base = .atom ∨ ∃ c, f.base = .cls c ∧ w.kind c = .element) := by
  obtain ⟨tb, ta, x⟩ := t
  obtain ⟨fb, fa, y⟩ := f
  obtain ⟨h1, h2⟩ := ht
  dsimp only at h1 h2
  subst h1 h2
  have hb := baseSafe_iff (n := n) ⟨.atom, none, x⟩ ⟨fb, fa, y⟩
  unfold implicitly safeCast atomSafe
  dsimp only at hb ⊢
  by_cases b : baseSafe (⟨.atom, none, x⟩ : Ty n) ⟨fb, fa, y⟩ = true
  · rw [if_neg (by simp [b])]
    obtain ⟨e, q⟩ := hb.1 b
    subst e
    cases fb with
    | cls c =>
      cases h : w.kind c <;>
        simp [kindOf, isAtom, makeCastingNode, castNode, kindsChecked, arraysChecked, h, q]
    | _ => simp [kindOf, isAtom, makeCastingNode, castNode, kindsChecked, arraysChecked, q]
  · rw [if_pos b]
    constructor
    · intro q; simp at q
    · rintro ⟨q1, q2, -⟩; exact absurd (hb.2 ⟨q1.symm, q2⟩) b

/-- **C99.** A cast expression to `Atom` takes atoms, elements and references to quarks. -/
theorem C99_explicit_to_atom (w : World n) (t f : Ty n) (ht : ScalarAtom t) :
    explicitly w t f = true ↔
      f.arr = none ∧ KeepsConst t f ∧ (f.base = .atom ∨
        ∃ c, f.base = .cls c ∧ (w.kind c = .element ∨ (w.kind c = .quark ∧ (f.alt = .ref ∨ f.alt = .constRef)))) := by
  obtain ⟨tb, ta, x⟩ := t
  obtain ⟨fb, fa, y⟩ := f
  obtain ⟨h1, h2⟩ := ht
  dsimp only at h1 h2
  subst h1 h2
  have hb := baseSafe_iff (n := n) ⟨.atom, none, x⟩ ⟨fb, fa, y⟩
  unfold explicitly castNode explicitlyCastable atomExplicit
  dsimp only at hb ⊢
  by_cases b : baseSafe (⟨.atom, none, x⟩ : Ty n) ⟨fb, fa, y⟩ = true
  · rw [if_neg (by simp [b])]
    obtain ⟨e, q⟩ := hb.1 b
    subst e
    cases fb with
    | cls c =>
      cases h : w.kind c <;> cases y <;>
        simp [kindOf, isAtom, kindsChecked, arraysChecked, h, isAltRef, isReference, q]
    | _ => simp [kindOf, isAtom, kindsChecked, arraysChecked, q]
  · rw [if_pos b]
    constructor
    · intro q; simp at q
    · rintro ⟨q1, q2, -⟩; exact absurd (hb.2 ⟨q1.symm, q2⟩) b

example : implicitly family ⟨.atom, none, .ref⟩ ⟨.cls 1, none, .ref⟩ = true ∧
    implicitly family ⟨.atom, none, .ref⟩ ⟨.cls 3, none, .ref⟩ = false ∧
    explicitly family ⟨.atom, none, .ref⟩ ⟨.cls 3, none, .ref⟩ = true ∧
    explicitly family ⟨.atom, none, .plain⟩ (plain 3) = false ∧
    explicitly family ⟨.atom, none, .ref⟩ ⟨.cls 2, none, .ref⟩ = false := by decide +kernel

/-- **C99.** From `Atom`, a cast expression to an element is always accepted, to a quark when constness stays, to a
transient never; no conversion from `Atom` to a class is implicit. -/
theorem C99_from_atom {w : World n} (ok : Classes w) (t f : Ty n) (b : Fin n) (ht : Scalar t b) (hf : ScalarAtom f) :
    (explicitly w t f = true ↔ w.kind b = .element ∨ (w.kind b = .quark ∧ KeepsConst t f)) ∧ implicitly w t f = false := by
  refine ⟨?_, ?_⟩
  · have hb := baseSafe_iff t f
    obtain ⟨tb, ta, x⟩ := t
    obtain ⟨fb, fa, y⟩ := f
    obtain ⟨h1, h2⟩ := ht
    obtain ⟨h3, h4⟩ := hf
    dsimp only at h1 h2 h3 h4
    subst h1 h2 h3 h4
    rw [← and_iff_right (a := (none : Option Nat) = none) rfl (b := KeepsConst _ _), ← hb]
    cases h : w.kind b <;> cases q : baseSafe (⟨.cls b, none, x⟩ : Ty n) ⟨.atom, none, y⟩ <;>
      simp [explicitly, castNode, explicitlyCastable, kindExplicit, classExplicit, kindOf, isAtom, kindsChecked,
        arraysChecked, h, q]
  · rw [Bool.eq_false_iff]
    intro q
    obtain ⟨c, h, -⟩ := (C99_implicit ok t f b ht).1 q
    have h := h.1
    rw [hf.1] at h
    cases h

/-- **C99.** A cast expression from `Bits` to a class is accepted exactly for a quark or a transient of the same size that
is no reference, and nothing else primitive is cast to a class. -/
theorem C99_from_primitive (w : World n) (t f : Ty n) (b : Fin n) (ht : Scalar t b) (ha : f.arr = none)
    (hc : kindOf w f = none) (hn : f.base ≠ .atom) :
    explicitly w t f = true ↔
      f.base = .bits (w.size b) ∧ (w.kind b = .quark ∨ w.kind b = .transient) ∧ t.alt = .plain := by
  have hb := baseSafe_iff t f
  obtain ⟨tb, ta, x⟩ := t
  obtain ⟨fb, fa, y⟩ := f
  obtain ⟨h1, h2⟩ := ht
  dsimp only at h1 h2 ha hn
  subst h1 h2 ha
  unfold KeepsConst at hb
  cases fb with
  | cls c => cases hc
  | atom => exact absurd rfl hn
  | bits m =>
    cases h : w.kind b <;> cases x <;> cases y <;>
      simp_all [explicitly, castNode, explicitlyCastable, kindExplicit, classExplicit, kindOf, isAtom, kindsChecked,
        arraysChecked, isReference, isAltRef] <;> exact eq_comm
  | _ => simp [explicitly, castNode, kindsChecked, kindOf]

example : explicitly family (plain 3) ⟨.bits 8, none, .plain⟩ = true ∧ explicitly family (plain 3) ⟨.bits 9, none, .plain⟩ = false ∧
    explicitly family (plain 1) ⟨.bits 70, none, .plain⟩ = false ∧ explicitly family (plain 3) ⟨.number, none, .plain⟩ = false := by
  decide +kernel

/-- **C99.** No implicit conversion drops `constant`, and of the cast expressions only those from `Atom` to an element
can. -/
theorem C99_constness (w : World n) (t f : Ty n) :
    (implicitly w t f = true → KeepsConst t f) ∧
      (explicitly w t f = true → KeepsConst t f ∨ (f.base = .atom ∧ ∃ b, t.base = .cls b ∧ w.kind b = .element)) := by
  refine ⟨fun q => ?_, fun q => ?_⟩
  · simp only [implicitly, Bool.and_eq_true] at q
    have : baseSafe t f = true := by
      by_contra b
      have q := q.1
      unfold safeCast at q
      cases h : t.base <;> simp only [h] at q
      · rw [classSafe, if_pos b] at q; cases q
      · rw [atomSafe, if_pos b] at q; cases q
      all_goals cases q
    exact ((baseSafe_iff t f).1 this).2
  · by_cases b : baseSafe t f = true
    · exact Or.inl ((baseSafe_iff t f).1 b).2
    · right
      simp only [explicitly, castNode, Bool.and_eq_true] at q
      obtain ⟨⟨q1, q2⟩, q3⟩ := q
      have q3 : explicitlyCastable w t f = true := by
        revert q3; cases explicitlyCastable w t f <;> simp
      unfold explicitlyCastable at q3
      cases h : t.base <;> simp only [h] at q3
      · rename_i c
        unfold kindExplicit at q3
        rw [classExplicit, if_pos b] at q3
        cases hk : w.kind c <;> simp only [hk] at q3
        · exact ⟨by simpa [isAtom] using q3, c, rfl, hk⟩
        · exfalso
          simp only [Bool.false_eq_true, ↓reduceIte] at q3
          cases hf : f.base <;> simp only [hf] at q3 <;> try cases q3
          rename_i m
          simp only [kindsChecked, kindOf, h, hk, hf] at q1
          simp only [true_or, if_true, Bool.and_eq_true, decide_eq_true_eq, Bool.not_eq_true', isReference, decide_eq_false_iff_not, not_not] at q1
          apply b
          rw [baseSafe_iff]
          refine ⟨?_, fun z => by rw [q1.2] at z; exact absurd z.2 (by decide)⟩
          cases ht : t.arr <;> cases hfa : f.arr <;> simp_all [arraysChecked, refOf, same, deref]
        · simp at q3
      · rw [atomExplicit, if_pos b] at q3; cases q3
      all_goals cases q3

/-- **C99.** That exception is real: through a cast expression a constant reference to an atom becomes a reference to an
element that may be written. -/
theorem C99_constness_fails (w : World n) (b : Fin n) (h : w.kind b = .element) :
    explicitly w ⟨.cls b, none, .ref⟩ ⟨.atom, none, .constRef⟩ = true := by
  simp [explicitly, castNode, explicitlyCastable, kindExplicit, kindsChecked, kindOf, arraysChecked, isAtom, h]

example : explicitly family ⟨.cls 1, none, .ref⟩ ⟨.atom, none, .constRef⟩ = true ∧
    explicitly family ⟨.cls 3, none, .ref⟩ ⟨.atom, none, .constRef⟩ = false := by decide +kernel

/-- **C99.** What is converted implicitly may also be cast, for scalars. -/
theorem C99_implicit_explicit {w : World n} (ok : Classes w) (t f : Ty n) (ht : t.arr = none) (h : implicitly w t f = true) :
    explicitly w t f = true := by
  cases e : t.base with
  | cls b =>
    obtain ⟨c, h1, h2, h3⟩ := (C99_implicit ok t f b ⟨e, ht⟩).1 h
    exact (C99_explicit ok t f b c ⟨e, ht⟩ h1).2 ⟨h3, Or.inl h2⟩
  | atom =>
    obtain ⟨h1, h2, h3⟩ := (C99_to_atom w t f ⟨e, ht⟩).1 h
    refine (C99_explicit_to_atom w t f ⟨e, ht⟩).2 ⟨h1, h2, ?_⟩
    rcases h3 with h3 | ⟨c, h3, h4⟩
    · exact Or.inl h3
    · exact Or.inr ⟨c, h3, Or.inl h4⟩
  | _ => simp [implicitly, safeCast, e] at h

/-- **C99.** Implicit conversion orders the classes: everything to itself, through a third class when to it and from it,
and both ways only for one class. -/
theorem C99_order {w : World n} (ok : Classes w) (a b c : Fin n) :
    implicitly w (plain a) (plain a) = true ∧
      (implicitly w (plain b) (plain a) = true → implicitly w (plain c) (plain b) = true → implicitly w (plain c) (plain a) = true) ∧
      (implicitly w (plain b) (plain a) = true → implicitly w (plain a) (plain b) = true → a = b) := by
  have key : ∀ x y, implicitly w (plain y) (plain x) = true ↔ SelfOrAncestor w.h x y := by
    intro x y
    rw [C99_implicit ok _ _ y ⟨rfl, rfl⟩]
    constructor
    · rintro ⟨z, ⟨h, -⟩, h2, -⟩; cases h; exact h2
    · intro h; exact ⟨x, ⟨rfl, rfl⟩, h, fun q => absurd q.1 (by simp [plain])⟩
  rw [key, key, key, key, key]
  refine ⟨Relation.ReflTransGen.refl, fun h1 h2 => h1.trans h2, fun h1 h2 => ?_⟩
  rcases (self_iff a b).1 h1 with e | p
  · exact e
  · rcases (self_iff b a).1 h2 with e | q
    · exact e.symm
    · exact absurd q (not_both ok p)

/-! ## Evaluation -/

/-- An element is nobody's ancestor. -/
theorem no_element {w : World n} (kd : Kinds w) {c b : Fin n} (h : Ancestor w.h c b) : w.kind b ≠ .element := by
  intro e
  have : ∃ x, Walker.Spec.Base w.h x b := by
    cases h with
    | single q => exact ⟨_, q⟩
    | tail _ q => exact ⟨_, q⟩
  obtain ⟨x, q⟩ := this
  rcases kd x b q with h | ⟨-, h⟩ <;> rw [e] at h <;> cases h

/-- **C99.** A conversion of a class value that was accepted is carried out, and gives a value of the type asked for,
provided the evaluator holds values of that size: 64 bits for a quark, 71 for a transient. -/
theorem C99_eval_partial {w : World n} (ok : Classes w) (kd : Kinds w) (e : Bool) (b c : Fin n) (v : Val n) (hv : v.ty = plain c)
    (acc : implicitly w (plain b) v.ty = true ∨ explicitly w (plain b) v.ty = true)
    (hq : w.kind b = .quark → w.size b ≤ 64) (ht : w.kind b = .transient → w.size b ≤ 71) :
    ∃ r, evalCast w e (plain b) v = .value r ∧ r.ty = plain b := by
  have hs : SelfOrAncestor w.h c b := by
    rw [hv] at acc
    rcases acc with h | h
    · obtain ⟨z, ⟨h, -⟩, h2, -⟩ := (C99_implicit ok _ _ b ⟨rfl, rfl⟩).1 h
      cases h; exact h2
    · rcases ((C99_explicit ok (plain b) (plain c) b c ⟨rfl, rfl⟩ ⟨rfl, rfl⟩).1 h).2 with h | ⟨-, h | h⟩
      · exact h
      all_goals cases h
  rcases (self_iff c b).1 hs with rfl | a
  · refine ⟨v, ?_, hv⟩
    cases h : w.kind c <;>
      simp [evalCast, typeCast, plain, h, elementCast, quarkCast, quarkFrom, transientCast, hv]
  · have ne : plain c ≠ plain b := by
      intro q
      simp only [plain, Ty.mk.injEq, Base.cls.injEq, and_true] at q
      subst q; exact not_self ok a
    have s := (subOf_plain ok c b).2 a
    cases h : w.kind b
    · exact absurd h (no_element kd a)
    · refine ⟨⟨plain b, none⟩, ?_, rfl⟩
      have hc : (plain c).base ≠ .atom := by simp [plain]
      have : typeCast w (plain b) v = .value ⟨plain b, none⟩ := by
        have : typeCast w (plain b) v = quarkCast w b (plain b) v := by simp [typeCast, plain, h]
        rw [this, quarkCast, quarkFrom, hv, if_neg hc]
        dsimp only
        rw [if_neg ne, if_pos s, if_pos (hq h)]
      simp [evalCast, this]
    · refine ⟨⟨plain b, some b⟩, ?_, rfl⟩
      have : typeCast w (plain b) v = .value ⟨plain b, some b⟩ := by
        have : typeCast w (plain b) v = transientCast w b (plain b) v := by simp [typeCast, plain, h]
        have z := ht h
        rw [this, transientCast, hv, if_neg ne, if_pos s, if_neg (by omega)]
      simp [evalCast, this]

example : evalCast family true (plain 3) ⟨plain 4, none⟩ = .value ⟨plain 3, none⟩ := by decide +kernel

/-- **C99.** The size matters: an accepted conversion to a transient base class of more than 71 bits aborts the compiler. -/
theorem C99_eval_transient_fails {w : World n} (ok : Classes w) (e : Bool) (b c : Fin n) (v : Val n) (hv : v.ty = plain c)
    (a : Ancestor w.h c b) (hk : w.kind b = .transient) (hs : w.size b > 71) :
    implicitly w (plain b) v.ty = true ∧ evalCast w e (plain b) v = .abort := by
  refine ⟨?_, ?_⟩
  · rw [hv]
    exact (C99_implicit ok _ _ b ⟨rfl, rfl⟩).2 ⟨c, ⟨rfl, rfl⟩, (self_iff c b).2 (Or.inr a), fun q => absurd q.1 (by simp [plain])⟩
  · have ne : plain c ≠ plain b := by
      intro q
      simp only [plain, Ty.mk.injEq, Base.cls.injEq, and_true] at q
      subst q; exact not_self ok a
    have : typeCast w (plain b) v = .abort := by
      have : typeCast w (plain b) v = transientCast w b (plain b) v := by simp [typeCast, plain, hk]
      rw [this, transientCast, hv, if_neg ne, if_pos ((subOf_plain ok c b).2 a), if_pos hs]
    simp [evalCast, this]

example : implicitly family (plain 2) (plain 4) = true ∧ evalCast family false (plain 2) ⟨plain 4, none⟩ = .abort := by
  decide +kernel

/-- **C99.** Casting an atom to an element or a quark gives a value exactly when the atom is of that element, or of one that
inherits from that quark; otherwise the cast is reported as not evaluable. -/
theorem C99_eval_atom {w : World n} (ok : Classes w) (kd : Kinds w) (e : Bool) (b x : Fin n) (v : Val n)
    (hv : v.ty = ⟨.atom, none, .plain⟩) (hx : v.eff = some x) (hk : w.kind x = .element)
    (hb : w.kind b ≠ .transient) (hq : w.kind b = .quark → w.size b ≤ 64) :
    (SelfOrAncestor w.h x b → ∃ r, evalCast w e (plain b) v = .value r ∧ r.ty = plain b) ∧
      (¬ SelfOrAncestor w.h x b → evalCast w e (plain b) v = .unevaluable) := by
  cases h : w.kind b
  · have : typeCast w (plain b) v = if x = b then .value { v with ty := plain b } else .unevaluable := by
      simp [typeCast, elementCast, plain, h, hv, hx, deref]
    refine ⟨fun s => ?_, fun s => ?_⟩
    · rcases (self_iff x b).1 s with rfl | a
      · exact ⟨{ v with ty := plain x }, by simp [evalCast, this], rfl⟩
      · exact absurd h (no_element kd a)
    · have ne : x ≠ b := fun q => s ((self_iff x b).2 (Or.inl q))
      simp [evalCast, this, ne]
  · have ne : x ≠ b := by rintro rfl; rw [hk] at h; cases h
    have np : plain x ≠ plain b := by simp [plain, ne]
    have t0 : typeCast w (plain b) v = quarkCast w b (plain b) v := by simp [typeCast, plain, h]
    have qf : quarkFrom v = some (plain x) := by simp [quarkFrom, hv, hx]
    refine ⟨fun s => ?_, fun s => ?_⟩
    · rcases (self_iff x b).1 s with q | a
      · exact absurd q ne
      · refine ⟨⟨plain b, none⟩, ?_, rfl⟩
        have : typeCast w (plain b) v = .value ⟨plain b, none⟩ := by
          rw [t0, quarkCast, qf]
          dsimp only
          rw [if_neg np, if_pos ((subOf_plain ok x b).2 a), if_pos (hq h)]
        simp [evalCast, this]
    · have : typeCast w (plain b) v = .unevaluable := by
        rw [t0, quarkCast, qf]
        dsimp only
        rw [if_neg np, if_neg (fun q => s ((self_iff x b).2 (Or.inr ((subOf_plain ok x b).1 q))))]
        simp [hv]
      simp [evalCast, this]
  · exact absurd h hb

example : evalCast family true (plain 3) ⟨⟨.atom, none, .plain⟩, some 1⟩ = .value ⟨plain 3, none⟩ ∧
    evalCast family true (plain 0) ⟨⟨.atom, none, .plain⟩, some 1⟩ = .unevaluable := by decide +kernel

/-- **C99.** An element made an `Atom` and cast back is of the same element, and of no other. -/
theorem C99_atom_round_trip (w : World n) (e : Bool) (c b : Fin n) (v : Val n) (hv : v.ty = plain c)
    (he : v.eff = none ∨ v.eff = some c) (hk : w.kind c = .element) (hb : w.kind b = .element) :
    ∃ r, evalCast w e ⟨.atom, none, .plain⟩ v = .value r ∧ r.ty = ⟨.atom, none, .plain⟩ ∧
      evalCast w e (plain b) r = if c = b then .value ⟨plain b, some c⟩ else .unevaluable := by
  refine ⟨⟨⟨.atom, none, .plain⟩, some c⟩, ?_, rfl, ?_⟩
  · rcases he with he | he <;>
      simp [evalCast, typeCast, atomCast, hv, plain, hk, he, deref]
  · by_cases q : c = b
    · subst q
      simp [evalCast, typeCast, elementCast, plain, hk, deref]
    · simp [evalCast, typeCast, elementCast, plain, hb, deref, q]

example : evalCast family true ⟨.atom, none, .plain⟩ ⟨plain 1, none⟩ = .value ⟨⟨.atom, none, .plain⟩, some 1⟩ := by
  decide +kernel

/-- **C99.** Taking the value of a reference as one of its own class or of an ancestor always succeeds: the object referred to
is of a class that has all of them. -/
theorem C99_from_reference {w : World n} (ok : Classes w) (f : Ty n) (b c x : Fin n) (v : Val n) (hf : Scalar f c)
    (hr : f.alt ≠ .plain) (hv : v.eff = some x) (hx : SelfOrAncestor w.h x c)
    (acc : implicitly w (plain b) f = true) :
    ∃ r, evalFromRef w (plain b) f v = .value r ∧ r.ty = plain b := by
  obtain ⟨z, h0, h2, -⟩ := (C99_implicit ok _ _ b ⟨rfl, rfl⟩).1 acc
  have : z = c := by have := h0.1; rw [hf.1] at this; cases this; rfl
  subst this
  unfold evalFromRef
  split
  · exact ⟨v, rfl, by assumption⟩
  · split
    · exact ⟨_, rfl, rfl⟩
    · rename_i nr
      rcases (self_iff z b).1 h2 with rfl | a
      · exfalso
        apply nr
        obtain ⟨fb, fa, y⟩ := f
        obtain ⟨h1, h3⟩ := hf
        dsimp only at h1 h3 hr
        subst h1 h3
        simp [refOf, isReference, same, deref, plain, hr]
      · have : subOf w (plain x) (plain b) = true := (subOf_plain ok x b).2 (by
          rcases (self_iff x z).1 hx with rfl | q
          · exact a
          · exact q.trans a)
        simp only [hv, this, if_true]
        exact ⟨_, rfl, rfl⟩

example : evalFromRef family (plain 3) ⟨.cls 2, none, .ref⟩ ⟨plain 4, some 4⟩ = .value ⟨plain 3, some 4⟩ := by decide +kernel

/-- **C99.** A cast expression from a reference down to a subclass is accepted even when the result is to be a value, not a
reference; when the object is not of that class, the evaluator does not report the failure but aborts the compiler. -/
theorem C99_downcast_value_fails {w : World n} (ok : Classes w) (b c x : Fin n) (v : Val n) (h : Ancestor w.h b c)
    (hv : v.ty ≠ plain b) (he : v.eff = some x) (hx : ¬ Ancestor w.h x b) :
    explicitly w (plain b) ⟨.cls c, none, .ref⟩ = true ∧ evalFromRef w (plain b) ⟨.cls c, none, .ref⟩ v = .abort := by
  refine ⟨?_, ?_⟩
  · exact (C99_explicit ok _ _ b c ⟨rfl, rfl⟩ ⟨rfl, rfl⟩).2 ⟨fun q => absurd q.1 (by simp), Or.inr ⟨h, Or.inl rfl⟩⟩
  · have nb : c ≠ b := by rintro rfl; exact not_self ok h
    have ns : subOf w (plain x) (plain b) = false := by
      rw [Bool.eq_false_iff]; exact fun q => hx ((subOf_plain ok x b).1 q)
    unfold evalFromRef
    rw [if_neg hv, if_neg (by simp [refOf, same, deref, plain, nb])]
    simp [he, ns]

example : explicitly family (plain 1) ⟨.cls 3, none, .ref⟩ = true ∧
    evalFromRef family (plain 1) ⟨.cls 3, none, .ref⟩ ⟨plain 2, some 2⟩ = .abort := by decide +kernel

/-- **C99.** The rules of inheritance the compiler checks are the ones used above. -/
theorem C99_kinds (w : World n) : Kinds w ↔ ∀ c b, Walker.Spec.Base w.h c b → mayInherit (w.kind c) (w.kind b) = true := by
  unfold Kinds
  refine forall_congr' fun c => forall_congr' fun b => imp_congr_right fun _ => ?_
  cases w.kind c <;> cases w.kind b <;> simp [mayInherit]

example : Kinds family ∧ Classes family := ⟨family_kinds, family_classes⟩

/-- **C99.** A cast expression on a constant is accepted as on anything else, except that it never gives a reference. -/
theorem C99_constant_operand (w : World n) (t f : Ty n) :
    castNode w true true t f = true ↔ explicitly w t f = true ∧ t.alt ≠ .ref ∧ t.alt ≠ .constRef := by
  unfold explicitly castNode isAltRef
  cases kindsChecked w t f <;> cases arraysChecked t f <;> cases explicitlyCastable w t f <;> simp

example : castNode family true true (plain 3) (plain 1) = true ∧
    castNode family true true ⟨.cls 3, none, .ref⟩ (plain 1) = false := by decide +kernel

end Ulam.ClassCast
