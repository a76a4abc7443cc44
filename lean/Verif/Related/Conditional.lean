import Verif.Related.Props
/-! # C79: `is` and `as` -/
namespace Ulam.Related
open Ulam.Related.Spec Ulam.Walker Ulam.Walker.Spec Ulam.Layout Ulam.Layout.Spec
variable {n : Nat}

/-- The two tests made for a class: the same, or a subclass. -/
theorem same_or_sub {w : World n} (ok : Ok w) (ac : Acyclic w) (a r : Fin n) (ha : w.deref a = a) (hr : w.deref r = r) :
    (same w a r || isClassASubclassOf w a r) = true ↔ SelfOrAncestor w (w.root a) (w.root r) := by
  rw [Bool.or_eq_true, C14_subclass_iff_ancestor w ok ac, ha, hr]
  unfold same SelfOrAncestor Ancestor
  rw [decide_eq_true_iff, Relation.reflTransGen_iff_eq_or_transGen]
  constructor
  · rintro (h | h)
    · exact .inl h.symm
    · exact .inr h
  · rintro (h | h)
    · exact .inl h.symm
    · exact .inr h

/-- **C79.** `x is T` in the evaluator: true exactly when `T` is the class of the object, or an ancestor of it, whether the
object is held in a class variable, in an atom, or reached by a reference to one of its parts. -/
theorem C79_is (e : Env n) (ok : Ok e.w) (ac : Acyclic e.w) (p : Ptr n) (v : Stored n) (k r : Fin n) (hk : Denotes e p v k)
    (deref2 : ∀ t, e.w.deref (e.w.deref t) = e.w.deref t) (nouti : k ≠ e.w.nouti) (hr : e.w.deref r = r) :
    evalIs e p v r = true ↔ SelfOrAncestor e.w k (e.w.root r) := by
  have kk : (same e.w k r || isClassASubclassOf e.w k r) = true ↔ SelfOrAncestor e.w k (e.w.root r) := by
    rw [same_or_sub ok ac k r hk.cls.deref hr, hk.cls.root]
  unfold evalIs
  generalize hl : (if p.eff = e.w.nouti then (if e.atom v.type then v.eff else v.type) else p.eff) = leff
  have hleff : e.w.root leff = k ∧ e.w.deref leff = leff := by
    rcases hk.object with h | ⟨h, h' | h'⟩
    · rw [h, if_neg nouti] at hl
      subst hl
      exact ⟨hk.cls.root, hk.cls.deref⟩
    · rw [if_pos h, if_pos h'.1] at hl
      subst hl
      rw [h'.2]
      exact ⟨hk.cls.root, hk.cls.deref⟩
    · rw [if_pos h, h'.1] at hl
      simp only [Bool.false_eq_true, if_false] at hl
      subst hl
      exact ⟨h'.2, hk.value_class⟩
  have leffTest : (same e.w leff r || isClassASubclassOf e.w leff r) = true ↔ SelfOrAncestor e.w k (e.w.root r) := by
    rw [same_or_sub ok ac leff r hleff.2 hr, hleff.1]
  simp only
  generalize hu : (if wild e.w leff v.type = true then v.type else p.target) = luti
  by_cases ha : e.atom luti = true
  · rw [if_pos ha]
    have hv : v.eff = k := by
      split at hu
      · subst hu; exact hk.value (.inr ha)
      · subst hu; exact hk.value (.inl ha)
    rw [hv, decide_eq_true nouti, Bool.true_and]
    exact kk
  · rw [if_neg ha]
    have hup : SelfOrAncestor e.w k (cls e.w luti) := by
      split at hu
      · rename_i hw
        subst hu
        have h1 : e.w.root (e.w.deref leff) = e.w.root (e.w.deref v.type) := of_decide_eq_true hw
        unfold cls
        rw [← h1, hleff.2, hleff.1]
        exact .refl
      · subst hu
        exact hk.part.resolve_left ha
    have h2 := same_or_sub ok ac (e.w.deref luti) r (deref2 luti) hr
    rw [Bool.or_assoc, Bool.or_eq_true, h2, leffTest]
    constructor
    · rintro (h | h)
      · exact Relation.ReflTransGen.trans hup h
      · exact h
    · exact .inr

/-- What `asLeft` gives for an object of class `k` whose pointer names the class. -/
theorem asLeft_denotes (e : Env n) (p : Ptr n) (v : Stored n) (k : Fin n) (hk : Denotes e p v k) (nouti : k ≠ e.w.nouti)
    (he : p.eff = k ∨ e.atom p.target = true ∨ e.atom v.type = true) :
    (asLeft e p v).2.1 = k ∧ e.atom (asLeft e p v).1 = false ∧ SelfOrAncestor e.w k (cls e.w (asLeft e p v).1) := by
  have kc : SelfOrAncestor e.w k (cls e.w k) := by unfold cls; rw [hk.cls.deref, hk.cls.root]; exact .refl
  unfold asLeft
  by_cases ha : (e.atom p.target || e.atom v.type) = true
  · rw [if_pos ha]
    have hv := hk.value (by simpa using ha)
    by_cases hp : p.eff = e.w.nouti
    · rw [if_neg (by simpa using hp), if_pos (by rw [hv]; exact nouti), hv]
      exact ⟨rfl, hk.not_atom, kc⟩
    · have hpk : p.eff = k := hk.object.resolve_right fun h => hp h.1
      rw [if_pos hp, hpk]
      exact ⟨rfl, hk.not_atom, kc⟩
  · rw [if_neg ha]
    simp only [Bool.or_eq_true, not_or, Bool.not_eq_true] at ha
    refine ⟨?_, ha.1, ?_⟩
    · rcases he with h | h | h
      · exact h
      · rw [ha.1] at h; cases h
      · rw [ha.2] at h; cases h
    · exact hk.part.resolve_left (by rw [ha.1]; exact Bool.false_ne_true)

/-- **C79.** Partial: `x as T` in the evaluator, for a quark or an element `T`: true exactly when `T` is the class of the object or an
ancestor of it; left undecided only for an unrelated quark and a transient of more than 71 bits.

Missing: `T` a transient, see `C79_transient_fails`. -/
theorem C79_as_partial (e : Env n) (L : Fin n → Class) (ok : Ok e.w) (ac : Acyclic e.w) (tb : Tables e.w L)
    (kl : ∀ c, IsClass e.w c → e.kind c = (L c).kind) (kr : ∀ c, e.kind (e.w.root c) = e.kind c)
    (p : Ptr n) (v : Stored n) (k r : Fin n) (hk : Denotes e p v k)
    (he : p.eff = k ∨ e.atom p.target = true ∨ e.atom v.type = true) (nouti : k ≠ e.w.nouti)
    (hr : e.w.deref r = r) (hq : e.kind r ≠ .transient) :
    match evalAs e p v r with
    | some b => b = true ↔ SelfOrAncestor e.w k (e.w.root r)
    | none => ¬ SelfOrAncestor e.w k (e.w.root r) ∧ e.kind r = .quark ∧ e.kind (asLeft e p v).1 = .transient ∧
        e.big (asLeft e p v).1 = true := by
  obtain ⟨a1, a2, a3⟩ := asLeft_denotes e p v k hk nouti he
  unfold evalAs
  rw [a1]
  generalize (asLeft e p v).1 = luti at a2 a3 ⊢
  unfold asTest
  have kk : (same e.w k r || isClassASubclassOf e.w k r) = true ↔ SelfOrAncestor e.w k (e.w.root r) := by
    rw [same_or_sub ok ac k r hk.cls.deref hr, hk.cls.root]
  cases hkr : e.kind r with
  | transient => exact absurd hkr hq
  | quark =>
    have hw : wild e.w k r = same e.w k r := by unfold wild same; rw [hk.cls.deref, hr]
    simp only [decide_eq_true nouti, Bool.true_and, hw, a2]
    by_cases h1 : same e.w k r = true
    · rw [if_pos h1]
      simp only [true_iff]
      exact kk.1 (by rw [h1]; rfl)
    · rw [if_neg h1]
      by_cases h2 : isClassASubclassOf e.w luti r = true
      · rw [if_pos h2]
        simp only [true_iff]
        rw [C14_subclass_iff_ancestor e.w ok ac, hr] at h2
        exact Relation.ReflTransGen.trans a3 h2.to_reflTransGen
      · rw [if_neg h2]
        by_cases h3 : isClassASubclassOf e.w k r = true
        · rw [if_pos h3]
          simp only [true_iff]
          exact kk.1 (by rw [h3]; simp)
        · rw [if_neg h3]
          have hn : ¬ SelfOrAncestor e.w k (e.w.root r) := by
            rw [← kk]; simp [h1, h3]
          simp only [Bool.false_eq_true, if_false]
          by_cases h4 : e.kind luti = .transient ∧ e.big luti = true
          · rw [if_pos h4]
            exact ⟨hn, trivial, h4⟩
          · rw [if_neg h4]
            simp only [Bool.false_eq_true, false_iff]
            exact hn
  | element =>
    simp only [a2, Bool.false_eq_true, if_false, if_neg nouti]
    unfold same
    rw [decide_eq_true_iff, hk.cls.root]
    unfold SelfOrAncestor
    rw [Relation.reflTransGen_iff_eq_or_transGen]
    constructor
    · intro h; exact .inl h.symm
    · rintro (h | h)
      · exact h.symm
      · exfalso
        obtain ⟨p1, p2, _, p4, p5⟩ := anc_props tb (show Ancestor e.w k (e.w.root r) from h)
        rw [← kl _ ⟨p1, p2, p4⟩, kr r] at p5
        exact p5 hkr

/-- **C79.** Whenever `x as T` holds in the evaluator, `T` is the class of the object or an ancestor of it, for every kind of
class. -/
theorem C79_as_sound (e : Env n) (ok : Ok e.w) (ac : Acyclic e.w) (p : Ptr n) (v : Stored n) (k r : Fin n)
    (hk : Denotes e p v k) (he : p.eff = k ∨ e.atom p.target = true ∨ e.atom v.type = true) (nouti : k ≠ e.w.nouti)
    (hr : e.w.deref r = r) (h : evalAs e p v r = some true) : SelfOrAncestor e.w k (e.w.root r) := by
  obtain ⟨a1, a2, a3⟩ := asLeft_denotes e p v k hk nouti he
  unfold evalAs at h
  rw [a1] at h
  generalize (asLeft e p v).1 = luti at a2 a3 h
  have kk : (same e.w k r || isClassASubclassOf e.w k r) = true ↔ SelfOrAncestor e.w k (e.w.root r) := by
    rw [same_or_sub ok ac k r hk.cls.deref hr, hk.cls.root]
  have hw : wild e.w k r = same e.w k r := by unfold wild same; rw [hk.cls.deref, hr]
  have hsub : isClassASubclassOf e.w luti r = true → SelfOrAncestor e.w k (e.w.root r) := by
    intro h2
    rw [C14_subclass_iff_ancestor e.w ok ac, hr] at h2
    exact Relation.ReflTransGen.trans a3 h2.to_reflTransGen
  unfold asTest at h
  cases hkr : e.kind r with
  | transient =>
    simp only [hkr, Option.some.injEq] at h
    exact hsub h
  | element =>
    simp only [hkr, a2, Bool.false_eq_true, if_false, if_neg nouti, Option.some.injEq] at h
    exact kk.1 (by rw [h]; rfl)
  | quark =>
    simp only [hkr, decide_eq_true nouti, Bool.true_and, hw, a2] at h
    by_cases h1 : same e.w k r = true
    · exact kk.1 (by rw [h1]; rfl)
    · rw [if_neg h1] at h
      by_cases h2 : isClassASubclassOf e.w luti r = true
      · exact hsub h2
      · rw [if_neg h2] at h
        by_cases h3 : isClassASubclassOf e.w k r = true
        · exact kk.1 (by rw [h3]; simp)
        · rw [if_neg h3] at h
          simp only [Bool.false_eq_true, if_false] at h
          split at h <;> cases h

/-- **C79.** What is missing above: `t as T`, where `T` is the very class of the transient `t` (or the class a reference to
it was declared with), is false in the evaluator, although it should hold. -/
theorem C79_transient_fails (e : Env n) (ok : Ok e.w) (ac : Acyclic e.w) (p : Ptr n) (v : Stored n) (k r : Fin n)
    (hk : Denotes e p v k) (hr : e.w.deref r = r) (ht : e.kind r = .transient)
    (ha : e.atom p.target = false) (hv : e.atom v.type = false) (hp : cls e.w p.target = e.w.root r) :
    evalAs e p v r = some false ∧ SelfOrAncestor e.w k (e.w.root r) := by
  refine ⟨?_, by rw [← hp]; exact hk.part.resolve_left (by rw [ha]; exact Bool.false_ne_true)⟩
  unfold evalAs asLeft asTest
  simp only [ha, hv, Bool.or_false, Bool.false_eq_true, if_false, ht, Option.some.injEq]
  rw [← Bool.not_eq_true, C14_subclass_iff_ancestor e.w ok ac, hr]
  unfold cls at hp
  rw [hp]
  exact ac _

/-- What the library is assumed to do for an atom: find the class of its element type. -/
def Faithful (e : Env n) (elt : Fin n → Nat) (lookup : Lookup n) : Prop :=
  ∀ c, IsClass e.w c → e.kind c = .element → lookup (elt c) = some c

/-- Element types tell elements apart (C35). -/
def ElementTypes (e : Env n) (elt : Fin n → Nat) : Prop :=
  ∀ a b, IsClass e.w a → IsClass e.w b → e.kind a = .element → e.kind b = .element → elt a = elt b → a = b

/-- The object of class `k` can be held by the left side `l`. -/
def Holds (e : Env n) (l : Left n) (k : Fin n) : Prop :=
  match l with
  | .atom => e.kind k = .element
  | .object t => t = k
  | .reference t => SelfOrAncestor e.w k (cls e.w t)

/-- **C79.** The test in the generated code, for `is` and for `as`: true exactly when `T` is the class of the object or an
ancestor of it. -/
theorem C79_generated (e : Env n) (L : Fin n → Class) (ok : Ok e.w) (ac : Acyclic e.w) (tb : Tables e.w L)
    (kl : ∀ c, IsClass e.w c → e.kind c = (L c).kind) (reg elt : Fin n → Nat) (hreg : Numbers e.w reg)
    (lookup : Lookup n) (hl : Faithful e elt lookup) (helt : ElementTypes e elt) (l : Left n) (k r : Fin n) (hk : IsClass e.w k)
    (hr : IsClass e.w r) (hP : e.P k = pack e.w L k) (laid : Laid e.w e.P k (2 ^ 31)) (hp : (pack e.w L k).isSome = true)
    (hh : Holds e l k) : generated e reg elt lookup l k r = true ↔ SelfOrAncestor e.w k r := by
  have key : isRelated e.w e.P reg k (reg r) = true ↔ SelfOrAncestor e.w k r := by
    rw [C78_is e.w L ok ac tb k hk reg hreg e.P hP laid hp]
    constructor
    · rintro ⟨b, hb, h2⟩
      have cb := class_of tb hk hb
      rw [hreg r b hr.defined cb.defined hr.root cb.root h2]
      exact hb
    · intro h; exact ⟨r, h, rfl⟩
  unfold generated
  cases l with
  | object t =>
    simp only [Holds] at hh
    subst hh
    exact key
  | reference t => exact key
  | atom =>
    simp only [Holds] at hh
    by_cases he : e.kind r = .element
    · simp only [if_pos he, decide_eq_true_iff]
      constructor
      · intro h
        rw [helt r k hr hk he hh h]
        exact .refl
      · intro h
        rcases (Relation.reflTransGen_iff_eq_or_transGen.1 h) with h | h
        · rw [h]
        · exfalso
          have h5 := (anc_props tb (show Ancestor e.w k r from h)).2.2.2.2
          rw [← kl r hr] at h5
          exact h5 he
    · simp only [if_neg he, hl k hk hh]
      exact key

/-- Kinds along inheritance. -/
theorem anc_kind {e : Env n} (kr : KindRules e) {a b : Fin n} (h : Ancestor e.w a b) :
    e.kind b ≠ .element ∧ (e.kind b = .transient → e.kind a = .transient) := by
  induction h with
  | single h =>
    rcases kr _ _ h with h | ⟨h1, h2⟩
    · rw [h]; exact ⟨by decide, by intro q; cases q⟩
    · rw [h2]; exact ⟨by decide, fun _ => h1⟩
  | tail _ h ih =>
    rcases kr _ _ h with h | ⟨h1, h2⟩
    · rw [h]; exact ⟨by decide, by intro q; cases q⟩
    · rw [h2]; exact ⟨by decide, fun _ => ih.2 h1⟩

/-- **C79.** A right side refused for its kind could never hold: no object that the left side can hold has `T` as its class
or among its ancestors. -/
theorem C79_refused (e : Env n) (kr : KindRules e) (kc : ∀ t, e.kind (cls e.w t) = e.kind t) (l : Left n) (k r : Fin n)
    (hh : Holds e l k) (hr : cls e.w r = r) (h : accepted e l r = false) : ¬ SelfOrAncestor e.w k r := by
  intro hs
  have up : ∀ b, SelfOrAncestor e.w k b → k = b ∨ Ancestor e.w k b := by
    intro b hb
    rcases (Relation.reflTransGen_iff_eq_or_transGen.1 hb) with h | h
    · exact .inl h.symm
    · exact .inr h
  have hrk : e.kind r ≠ .transient ∨ e.kind k = .transient := by
    by_cases q : e.kind r = .transient
    · right
      rcases up r hs with rfl | h
      · exact q
      · exact (anc_kind kr h).2 q
    · exact .inl q
  have hre : e.kind r ≠ .element ∨ k = r := by
    by_cases q : e.kind r = .element
    · rcases up r hs with h | h
      · exact .inr h
      · exact absurd q (anc_kind kr h).1
    · exact .inl q
  unfold accepted at h
  cases l with
  | atom =>
    simp only [Holds] at hh
    simp only [bne_eq_false_iff_eq] at h
    rcases hrk with q | q
    · exact q h
    · rw [hh] at q; cases q
  | object t =>
    simp only [Holds] at hh
    subst hh
    cases hk : e.kind t with
    | element =>
      simp only [hk, bne_eq_false_iff_eq] at h
      rcases hrk with q | q
      · exact q h
      · rw [hk] at q; cases q
    | transient =>
      simp only [hk, bne_eq_false_iff_eq] at h
      rcases hre with q | q
      · exact q h
      · rw [← q, hk] at h; cases h
    | quark =>
      simp only [hk, beq_eq_false_iff_ne] at h
      rcases up r hs with q | q
      · rw [← q] at h; exact h hk
      · cases hkr : e.kind r with
        | quark => exact h hkr
        | element => exact (anc_kind kr q).1 hkr
        | transient =>
          have := (anc_kind kr q).2 hkr
          rw [hk] at this; cases this
  | reference t =>
    simp only [Holds] at hh
    cases hk : e.kind t with
    | quark => simp only [hk] at h; cases h
    | element =>
      simp only [hk, bne_eq_false_iff_eq] at h
      rcases up _ hh with q | q
      · rcases hrk with z | z
        · exact z h
        · rw [q, kc t, hk] at z; cases z
      · exact (anc_kind kr q).1 (by rw [kc t]; exact hk)
    | transient =>
      simp only [hk, bne_eq_false_iff_eq] at h
      rcases hre with z | z
      · exact z h
      · rcases up _ hh with q | q
        · rw [← z, q, kc t, hk] at h; cases h
        · have := (anc_kind kr q).2 (by rw [kc t]; exact hk)
          rw [z, h] at this; cases this


/-! ## A sample -/

/-- Element 1 inherits quarks 2 and 3, both inherit quark 4; transient 5 inherits 4; 6 is `1&`, 7 is `2&`, 8 is `Atom`,
9 is `4&`. -/
def zoo : World 10 where
  nouti := 0
  root := id
  deref := fun x => if x = 6 then 1 else if x = 7 then 2 else if x = 9 then 4 else x
  defined := fun x => x ≠ 0 ∧ x.val < 6
  table := fun x => if x = 1 then [⟨0, 1⟩, ⟨2, 1⟩, ⟨3, 1⟩] else if x = 2 then [⟨4, 1⟩]
    else if x = 3 then [⟨0, 1⟩, ⟨4, 1⟩] else if x = 5 then [⟨4, 1⟩] else [⟨0, 1⟩]
  name := fun x => x

/-- Class `x` has one member of `x` bits. -/
def zooClasses : Fin 10 → Class := fun x =>
  ⟨if x = 1 then .element else if x = 5 then .transient else .quark, false, [⟨false, x.val, none⟩], [⟨false, x.val, none⟩]⟩

def zooEnv : Env 10 where
  w := zoo
  P := fun x => pack zoo zooClasses x
  kind := fun x => (zooClasses (zoo.deref x)).kind
  atom := fun x => x = 8
  isRef := fun x => x = 6 ∨ x = 7 ∨ x = 9
  alt := fun x => x = 6 ∨ x = 7 ∨ x = 9
  big := fun _ => false

theorem zoo_ok : Ok zoo := ⟨fun _ => rfl, rfl⟩

theorem zoo_acyclic : Acyclic zoo := by
  have up : ∀ x y : Fin 10, Base zoo x y → x < y ∨ x = 5 ∧ y = 4 := by
    unfold Base; decide +kernel
  have four : ∀ y, ¬ Base zoo 4 y := by unfold Base; decide +kernel
  have anc4 : ∀ x, Ancestor zoo 4 x → False := by
    intro x h
    obtain ⟨y, hy, _⟩ := Relation.TransGen.head'_iff.1 h
    exact four y hy
  intro x h
  have : ∀ y, Ancestor zoo x y → x < y ∨ y = 4 := by
    intro y hy
    induction hy with
    | single h => rcases up _ _ h with h | h
                  · exact .inl h
                  · exact .inr h.2
    | tail _ h ih =>
      rcases ih with ih | ih
      · rcases up _ _ h with h | h
        · exact .inl (Nat.lt_trans ih h)
        · exact .inr h.2
      · subst ih; exact absurd h (four _)
  rcases this x h with h1 | h1
  · exact absurd h1 (Nat.lt_irrefl _)
  · subst h1; exact anc4 _ h

theorem zoo_tables : Tables zoo zooClasses :=
  ⟨fun _ _ _ => rfl, by decide, by decide, by decide, by decide⟩

theorem zoo_wf (x : Fin 10) : Wf (zooClasses x) := by
  refine ⟨fun m h1 h2 => ?_, (fun h => by cases h), List.Perm.refl _⟩
  simp only [zooClasses, List.mem_singleton] at h1
  rw [h1] at h2; cases h2

theorem zoo_class (c : Fin 10) (h : c ≠ 0 ∧ c.val < 6) : IsClass zoo c :=
  ⟨rfl, by revert h; revert c; decide, by simpa [zoo] using h⟩

theorem zoo_anc (c a : Fin 10) (h : c ≠ 0 ∧ c.val < 6) : a ∈ sharedTable zoo c ↔ Ancestor zoo c a :=
  shared_iff zoo_ok zoo_tables (zoo_class c h) a

theorem zoo_soa (c a : Fin 10) (h : c ≠ 0 ∧ c.val < 6) : SelfOrAncestor zoo c a ↔ a = c ∨ a ∈ sharedTable zoo c := by
  rw [zoo_anc c a h]
  exact Relation.reflTransGen_iff_eq_or_transGen

theorem zoo_table1 : sharedTable zoo 1 = [2, 3, 4] := by decide +kernel
theorem zoo_table2 : sharedTable zoo 2 = [4] := by decide +kernel
theorem zoo_table5 : sharedTable zoo 5 = [4] := by decide +kernel

/-- A `2&` to the part of an object of class 1, which starts at 25. -/
example : Denotes zooEnv ⟨7, 1, 26⟩ ⟨1, 1⟩ 1 ∧ evalIs zooEnv ⟨7, 1, 26⟩ ⟨1, 1⟩ 1 = true ∧
    evalIs zooEnv ⟨7, 1, 26⟩ ⟨1, 1⟩ 3 = true ∧ evalIs zooEnv ⟨7, 1, 26⟩ ⟨1, 1⟩ 5 = false ∧
    evalAs zooEnv ⟨7, 1, 26⟩ ⟨1, 1⟩ 4 = some true ∧ evalAs zooEnv ⟨7, 1, 26⟩ ⟨1, 1⟩ 1 = some true := by
  refine ⟨⟨zoo_class 1 (by decide), rfl, rfl, .inl rfl, .inr ?_, fun _ => rfl⟩, by decide +kernel⟩
  exact (zoo_soa 1 2 (by decide)).2 (.inr (by rw [zoo_table1]; decide))

/-- An atom that holds an element of class 1. -/
example : Denotes zooEnv ⟨8, 0, 0⟩ ⟨8, 1⟩ 1 ∧ evalIs zooEnv ⟨8, 0, 0⟩ ⟨8, 1⟩ 4 = true ∧
    evalAs zooEnv ⟨8, 0, 0⟩ ⟨8, 1⟩ 1 = some true ∧ evalAs zooEnv ⟨8, 0, 0⟩ ⟨8, 1⟩ 5 = some false :=
  ⟨⟨zoo_class 1 (by decide), rfl, rfl, .inr ⟨rfl, .inl ⟨rfl, rfl⟩⟩, .inl rfl, fun _ => rfl⟩, by decide +kernel⟩

/-- A transient of class 5: `is` holds, `as` does not. -/
example : Denotes zooEnv ⟨5, 5, 25⟩ ⟨5, 5⟩ 5 ∧ evalIs zooEnv ⟨5, 5, 25⟩ ⟨5, 5⟩ 5 = true ∧
    evalAs zooEnv ⟨5, 5, 25⟩ ⟨5, 5⟩ 5 = some false ∧ evalAs zooEnv ⟨5, 5, 25⟩ ⟨5, 5⟩ 4 = some true :=
  ⟨⟨zoo_class 5 (by decide), rfl, rfl, .inl rfl, .inr .refl, fun _ => rfl⟩, by decide +kernel⟩

theorem zoo_kinds : KindRules zooEnv := by
  unfold KindRules Base; decide +kernel

example : accepted zooEnv (.object 2) 1 = false ∧ Holds zooEnv (.object 2) 2 ∧ accepted zooEnv (.reference 7) 1 = true ∧
    accepted zooEnv .atom 5 = false ∧ Holds zooEnv .atom 1 := ⟨rfl, rfl, rfl, rfl, rfl⟩

theorem zoo_laid1 : Laid zooEnv.w zooEnv.P 1 12 :=
  (laid_of_layout zoo zooClasses zoo_ok zoo_acyclic zoo_tables zoo_wf 1 (zoo_class 1 (by decide)) rfl
    (by unfold NoDuplicates; decide) 12 (by decide) [2, 3, 4] (by decide)
    (fun a => by rw [← zoo_anc 1 a (by decide), zoo_table1]) (by decide)).2 _ rfl

/-- The generated code for an atom that holds an element of class 1. -/
example : Faithful zooEnv (fun x => x.val * 7) (fun t => if t = 7 then some 1 else none) ∧
    ElementTypes zooEnv (fun x => x.val * 7) ∧
    generated zooEnv (fun x => x.val + 10) (fun x => x.val * 7) (fun t => if t = 7 then some 1 else none) .atom 1 4 = true ∧
    generated zooEnv (fun x => x.val + 10) (fun x => x.val * 7) (fun t => if t = 7 then some 1 else none) .atom 1 1 = true ∧
    generated zooEnv (fun x => x.val + 10) (fun x => x.val * 7) (fun t => if t = 7 then some 1 else none) (.reference 7) 1 3 = true ∧
    generated zooEnv (fun x => x.val + 10) (fun x => x.val * 7) (fun t => if t = 7 then some 1 else none) (.object 5) 5 3 = false := by
  have one : ∀ c : Fin 10, IsClass zooEnv.w c → zooEnv.kind c = .element → c = 1 := by
    intro c h1 h2
    have h3 := h1.defined
    have h4 := h1.deref
    revert h2 h3 h4
    clear h1
    revert c
    decide +kernel
  refine ⟨?_, ?_, by decide +kernel⟩
  · intro c h1 h2
    rw [one c h1 h2]; rfl
  · intro a b h1 h2 h3 h4 _
    rw [one a h1 h3, one b h2 h4]

end Ulam.Related
