import Verif.Dispatch.Spec
import Verif.Virtual.Props
import Verif.Related.Pointers
/-! # C86: a call of a virtual function runs the function of the object's own class -/
namespace Ulam.Dispatch
open Ulam.Dispatch.Spec Ulam.Walker Ulam.Walker.Spec Ulam.Related Ulam.Related.Spec Ulam.Virtual Ulam.Virtual.Spec
variable {n : Nat}

theorem hasSuper_first (l : Lhs n) : hasSuper l = (first l).super := by
  induction l with
  | name => rfl
  | member _ _ ih => exact ih
  | base _ _ ih => exact ih
  | call _ _ ih => exact ih

theorem hasReference_first (e : Env n) (l : Lhs n) : hasReference e l = e.isRef (first l).type := by
  induction l with
  | name => rfl
  | member _ _ ih => exact ih
  | base _ _ ih => exact ih
  | call _ _ ih => exact ih

theorem hasSymbol_iff (l : Lhs n) : hasSymbol l = true ↔ ∀ l' t, l ≠ .base l' t := by
  cases l <;> simp [hasSymbol]

/-- The flag is set exactly for left sides that begin with a reference. -/
theorem useEff_iff (e : Env n) (l : Lhs n) : useEff e l = true ↔ ByReference e l := by
  unfold useEff ByReference
  rw [hasSuper_first, hasReference_first, ← hasSymbol_iff]
  cases (first l).super <;> cases hasSymbol l <;> cases e.isRef (first l).type <;> simp

/-- Looking up the table by the object's class does not depend on what the pointer was made to. -/
theorem tableClass_eff (e : Env n) (p : Ptr n) (h : p.eff ≠ e.w.nouti) : tableClass e true p = p.eff := by
  unfold tableClass
  by_cases q : p.eff = p.target
  · simp [h, q]
  · simp [h, q]

theorem tableClass_target (e : Env n) (p : Ptr n) : tableClass e false p = p.target := by
  simp [tableClass]

theorem retarget_eff (e : Env n) (p p1 : Ptr n) (f : Option (Sym n)) (h : retarget e p f = some p1) : p1.eff = p.eff := by
  cases f with
  | none => cases h; rfl
  | some s =>
    unfold retarget at h
    dsimp only at h
    cases ha : s.alt with
    | as =>
      rw [ha] at h
      cases h; rfl
    | ref =>
      rw [ha] at h
      dsimp only at h
      split_ifs at h with h1
      cases h; rfl
    | no =>
      rw [ha] at h
      dsimp only at h
      split_ifs at h with h1
      · simp only [Option.bind_eq_bind, Option.bind_eq_some_iff] at h
        obtain ⟨q, _, pos, _, h⟩ := h
        cases h; rfl
      · cases h; rfl

/-- **C86.** A call on `self`, on a reference, or on anything reached through one, other than through a class named, uses the
table of the object's class: whatever the name of the variable finds in the current scope. -/
theorem C86_by_reference (e : Env n) (l : Lhs n) (p p1 : Ptr n) (k : Fin n) (found : Option (Sym n)) (hk : IsClass e.w k)
    (real : k ≠ e.w.nouti) (heff : p.eff = k) (hl : ByReference e l) (h : retarget e p found = some p1) :
    symbolOf e.w (tableClass e (useEff e l) p1) = k := by
  rw [(useEff_iff e l).2 hl]
  have := retarget_eff e p p1 found h
  rw [tableClass_eff e p1 (by rw [this, heff]; exact real), this, heff]
  exact cls_self hk

/-- The pointer kept where the name found does no harm: still at the place of a part, and of the object's class if the left
side is an object of that class. -/
theorem retarget_harmless (e : Env n) (ok : Ok e.w) (ac : Acyclic e.w) (sd : Settled e.w) (l : Lhs n) (p : Ptr n) (start : Nat)
    (o : Object e p.eff start) (hp : Points e p start) (found : Option (Sym n)) (hh : Harmless e l p start found) :
    ∃ p1, retarget e p found = some p1 ∧ Points e p1 start ∧ p1.eff = p.eff ∧
      (found = none ∨ cls e.w p.target = p.eff → ¬ ByReference e l → cls e.w p1.target = cls e.w p.target) ∧
      (p.target ≠ e.w.nouti → p1.target ≠ e.w.nouti) := by
  cases found with
  | none => exact ⟨p, rfl, hp, rfl, fun _ _ => rfl, id⟩
  | some s =>
    obtain ⟨hb, hs, hm⟩ := hh
    have keep : some s = none ∨ cls e.w p.target = p.eff → cls e.w p.target = p.eff := fun h => by
      rcases h with h | h
      · cases h
      · exact h
    have object : foundType e p s = p.eff → ∃ p1, (do
          let q ← rel e (foundType e p s) p.target
          let pos ← setPos (p.pos - q)
          some (⟨foundType e p s, p.eff, pos⟩ : Ptr n)) = some p1 ∧ Points e p1 start ∧ p1.eff = p.eff ∧
        (some s = none ∨ cls e.w p.target = p.eff → ¬ ByReference e l → cls e.w p1.target = cls e.w p.target) ∧
        (p.target ≠ e.w.nouti → p1.target ≠ e.w.nouti) := by
      intro hf
      obtain ⟨q, hq, hpos⟩ := hp
      have hfit : start ≤ 96 := by
        obtain ⟨q0, _, h4⟩ := o.laid _ .refl
        omega
      refine ⟨⟨p.eff, p.eff, start⟩, ?_, ⟨0, ?_, rfl⟩, rfl, fun h4 _ => ?_, fun _ => o.real⟩
      · rw [hf, show rel e p.eff p.target = some q from hq]
        simp only [Option.bind_eq_bind, Option.bind_some]
        rw [setPos_nat start _ (by omega) hfit]
        rfl
      · unfold Layout.relativePosition; rw [if_pos rfl]
      · exact (cls_self o.cls).trans (keep h4).symm
    unfold retarget
    dsimp only
    cases ha : s.alt with
    | as =>
      rw [ha] at hm
      exact ⟨_, rfl, hm.2.2.1, rfl, fun h1 h2 => (hm.2.2.2 h2).trans (keep h1).symm, fun _ => hm.2.1⟩
    | ref =>
      rw [ha] at hm
      dsimp only
      rw [if_neg (by rw [hm.1]; decide)]
      exact ⟨_, rfl, hm.2.2.1, rfl, fun h1 h2 => (hm.2.2.2 h2).trans (keep h1).symm, fun _ => hm.2.1⟩
    | no =>
      rw [ha] at hm
      dsimp only
      by_cases h3 : isClassASubclassOf e.w (foundType e p s) p.target = true
      · rw [if_pos h3]
        apply object
        unfold foundType at h3 ⊢
        split_ifs at h3 ⊢ with h1
        · rfl
        · rcases hm with hm | hm | hm
          · exact absurd hm h1
          · rw [C14_subclass_iff_ancestor e.w ok ac] at h3
            exact absurd h3 hm
          · exact hm
      · rw [if_neg h3]
        exact ⟨p, rfl, hp, rfl, fun _ _ => rfl, id⟩

theorem meant_name (w : World n) (k : Fin n) (v : Var n) : meant w k (.name v) = if v.super then cls w v.type else k := rfl

/-- **C86**, restricted to calls in which what the name of the object finds in the current scope does no harm, and which are
not on a reference returned by a function called on a variable: the evaluator and the generated code use the table of the
class meant, and the pointer handed to the function is still at the place of a part of the object. -/
theorem C86_class_partial (e : Env n) (ok : Ok e.w) (ac : Acyclic e.w) (sd : Settled e.w)
    (d2 : ∀ t, e.w.deref (e.w.deref t) = e.w.deref t) (l : Lhs n) (p : Ptr n) (k : Fin n) (start : Nat) (g : Gives e l p k start)
    (found : Option (Sym n)) (hh : Harmless e l p start found)
    (hcall : ∀ l' t, l = .call l' t → e.isRef t = true → ByReference e l) :
    ∃ p1, retarget e p found = some p1 ∧ symbolOf e.w (tableClass e (useEff e l) p1) = meant e.w k l ∧
      symbolOf e.w (genClass e true k l) = meant e.w k l ∧ Points e p1 start ∧ p1.eff = k ∧
      (p.target ≠ e.w.nouti → p1.target ≠ e.w.nouti) := by
  have hkc : symbolOf e.w k = k := cls_self g.object.cls
  have hder : ∀ t, symbolOf e.w (e.w.deref t) = cls e.w t := fun t => by unfold symbolOf cls; rw [d2]
  obtain ⟨p1, h1, h2, h3, h4, h5⟩ := retarget_harmless e ok ac sd l p start (by rw [g.eff]; exact g.object) g.place found hh
  refine ⟨p1, h1, ?_, ?_, h2, h3.trans g.eff, h5⟩
  · by_cases hb : ByReference e l
    · rw [C86_by_reference e l p p1 k found g.object.cls g.object.real g.eff hb h1]
      cases l with
      | name v => rw [meant_name, if_neg (by rw [show v.super = false from hb.2.1]; decide)]
      | member => rfl
      | base l t => exact absurd rfl (hb.1 l t)
      | call => rfl
    · rw [show useEff e l = false by rw [Bool.eq_false_iff]; exact fun h => hb ((useEff_iff e l).1 h), tableClass_target]
      have hp := g.part
      cases l with
      | name v =>
        obtain ⟨_, b, c⟩ := hp
        rw [meant_name]
        by_cases hs : v.super = true
        · rw [if_pos hs, ← b hs]
          refine h4 (.inl ?_) hb
          cases found with
          | none => rfl
          | some s => exact absurd hs (by rw [hh.2.1 v rfl]; decide)
        · rw [if_neg hs]
          have hr : e.isRef v.type = false := by
            rw [Bool.eq_false_iff]
            exact fun h => hb ⟨fun _ _ h => (by cases h), by rw [Bool.eq_false_iff]; exact hs, h⟩
          obtain ⟨c1, c2⟩ := c (by rw [Bool.eq_false_iff]; exact hs) hr
          exact (h4 (.inr (c2.trans g.eff.symm)) hb).trans c2
      | member l v => exact (h4 (.inr (hp.2.2.2.2.trans g.eff.symm)) hb).trans hp.2.2.2.2
      | base l t =>
        refine (h4 (.inl ?_) hb).trans hp
        cases found with
        | none => rfl
        | some s => exact absurd rfl (hh.1 l t)
      | call l t =>
        rcases hp with hp | hp
        · exact absurd (hcall l t rfl hp) hb
        · exact (h4 (.inr (hp.2.trans g.eff.symm)) hb).trans hp.2
  · have hp := g.part
    cases l with
    | name v =>
      obtain ⟨a, b, c⟩ := hp
      rw [meant_name]
      unfold genClass
      dsimp only
      by_cases h : v.self = true
      · rw [if_pos h, if_neg (by rw [(a h).1]; decide), hkc]
      · rw [if_neg h]
        by_cases hs : v.super = true
        · rw [if_pos hs, if_pos hs, hder]
        · rw [if_neg hs, if_neg hs]
          by_cases hr : e.isRef v.type = true
          · rw [if_pos (by rw [hr]; rfl), hkc]
          · rw [if_neg (by simpa using hr), hder]
            exact (c (by simpa using hs) (by simpa using hr)).1
    | member l v =>
      change symbolOf e.w (genClass e true k (.member l v)) = k
      unfold genClass
      dsimp only
      rw [if_neg (by rw [hp.1]; decide), if_neg (by rw [hp.2.1]; decide), if_neg (by rw [hp.2.2.1]; decide), hder]
      exact hp.2.2.2.1
    | base l t => exact hder t
    | call l t =>
      change symbolOf e.w (genClass e true k (.call l t)) = k
      unfold genClass
      dsimp only
      by_cases hr : e.isRef t = true
      · rw [if_pos (by rw [hr]; rfl), hkc]
      · rw [if_neg (by simpa using hr), hder]
        rcases hp with hp | hp
        · exact absurd hp hr
        · exact hp.1

/-- The function of a class in the finished tables, from its declaration. -/
theorem declared (P : Program n) (L : Virtual.Spec.Legal P) (cs : List (Fin n)) (hcs : ∀ c ∈ cs, P.w.defined c = true) (m : Nat)
    (st : St n) (hr : Runs P cs m st) (a : Fin n) (ha : P.w.defined a = true) (hd : (st.cls a).max.isSome = true) (s : Nat)
    (h : Declares P a s) : ∃ g, findFunc st a s = some g ∧ ∃ d ∈ P.decls a, d.sig = s ∧ g.pure = d.pure := by
  obtain ⟨G, _, _⟩ := (hr.inv L hcs).good a ha hd
  obtain ⟨g, hg⟩ := (C16_override_keeps_slot P L cs hcs m st hr a ha hd s).1.1 h
  obtain ⟨d, h1, h2, h3⟩ := (forall2_find G.funcs s).1 g hg
  exact ⟨g, hg, d, h1, h2, h3.2.1⟩

/-- **C86**, with the restrictions of `C86_class_partial` and the one of `C16_most_specific_partial`, that the function begins
in one class seen from the class meant. A function `s`, found in a class `x`, called on an object of class `k`: the function
that runs is that of a class `a` with no more specific one between the class meant and it, the generated code uses the same
one, and in it `self` is the part of class `a` in the same object; if that function is pure the call is an error. -/
theorem C86_runs_partial (P : Program n) (L : Virtual.Spec.Legal P) (cs : List (Fin n)) (hcs : ∀ c ∈ cs, P.w.defined c = true) (m : Nat)
    (st : St n) (hr : Runs P cs m st) (e : Env n) (hw : e.w = P.w) (sd : Settled e.w)
    (d2 : ∀ t, e.w.deref (e.w.deref t) = e.w.deref t) (l : Lhs n) (p : Ptr n) (k : Fin n) (start : Nat) (g : Gives e l p k start)
    (tt : p.target ≠ e.w.nouti) (found : Option (Sym n)) (hh : Harmless e l p start found)
    (hcall : ∀ l' t, l = .call l' t → e.isRef t = true → ByReference e l)
    (c : Fin n) (hc : c = meant e.w k l) (hkc : SelfOrAncestor P.w k c) (hdone : (st.cls c).max.isSome = true)
    (x : Fin n) (hx : SelfOrAncestor P.w c x) (s : Nat) (hv : IsVirtual P x s) (one : OneBeginning P c s) :
    ∃ f o a, findFunc st x s = some f ∧ Begins P o s ∧ MostSpecific P c o s a ∧
      dispatch st (symbolOf e.w (genClass e true k l)) f = some a ∧
      ((∀ d ∈ P.decls a, d.sig = s → d.pure = true) → evalCall e st f x l p found = .error) ∧
      ((∀ d ∈ P.decls a, d.sig = s → d.pure = false) → ∃ p1 p2, evalCall e st f x l p found = .runs a p1 ∧
        selfPtr e p1 a = some p2 ∧ Points e p2 start ∧ p2.eff = k ∧ cls e.w p2.target = a) := by
  have ok : Ok e.w := by rw [hw]; exact L.ok
  have ac : Acyclic e.w := by rw [hw]; exact L.acyclic
  have hdef : ∀ y, SelfOrAncestor P.w k y → P.w.defined y = true := by
    intro y hy
    rcases soa_cases hy with q | q
    · rw [q, ← hw]; exact g.object.cls.defined
    · exact L.anc_defined q
  have hcd := hdef c hkc
  have hdone' : ∀ y, SelfOrAncestor P.w c y → (st.cls y).max.isSome = true := by
    intro y hy
    rcases soa_cases hy with q | q
    · rw [q]; exact hdone
    · exact ((hr.inv L hcs).good c hcd hdone).2.2 y q
  obtain ⟨p1, r1, r2, r3, r4, r5, r6⟩ := C86_class_partial e ok ac sd d2 l p k start g found hh hcall
  obtain ⟨f, o, a, f1, f2, f3, f4, f5⟩ := C16_most_specific_partial P L cs hcs m st hr c hcd hdone x hx s hv one
  have hka : SelfOrAncestor P.w k a := hkc.trans f5.1
  obtain ⟨ga, ga1, d, gd1, gd2, gd3⟩ := declared P L cs hcs m st hr a (hdef a hka) (hdone' a f5.1) s f5.2.2.1
  have hsig : f.sig = s := by
    have := List.find?_some f1
    simpa using this
  have hvirt : ga.virt = true := by
    refine ((C16_override_keeps_slot P L cs hcs m st hr a (hdef a hka) (hdone' a f5.1) s).2 ga ga1).1.2 ⟨f5.2.2.1, ?_⟩
    obtain ⟨b, hb1, hb2⟩ := f3.1.2
    exact ⟨b, f5.2.1.trans hb1, hb2⟩
  have heval : evalCall e st f x l p found = if ga.pure then .error else .runs a p1 := by
    unfold evalCall
    rw [r1]
    dsimp only
    rw [r2, ← hc, f4]
    dsimp only
    have hent : enter e a p1 = .runs a p1 := by unfold enter; rw [if_neg (r6 tt)]
    by_cases hxa : x = a
    · rw [if_neg (by simpa using hxa)]
      subst hxa
      rw [f1] at ga1
      cases ga1
      rw [hent]
    · rw [if_pos hxa, hsig, ga1]
      dsimp only
      rw [hvirt, hent]
      rfl
  have hac : cls e.w a = a := by
    obtain ⟨h1, h2⟩ := L.rooted a (hdef a hka)
    unfold cls
    rw [hw, h2, h1]
  refine ⟨f, o, a, f1, f3, f5, by rw [r3, ← hc]; exact f4, fun hp => ?_, fun hp => ?_⟩
  · rw [heval, gd3, hp d gd1 gd2]; rfl
  · obtain ⟨p2, s1, s2, s3, s4⟩ := C80_self e ok sd d2 p1 start (by rw [r5]; exact g.object) r4 a
      (by rw [r5, hac, hw]; exact hka)
    exact ⟨p1, p2, by rw [heval, gd3, hp d gd1 gd2]; rfl, s1, s2, s3.trans r5, s4.trans hac⟩

/-! ### Where the evaluator goes wrong -/

/-- **C86.** The full claim fails for a reference returned by a function called on a variable that is no reference: the
evaluator uses the table of the class declared, the generated code that of the object. -/
theorem C86_returned_fails (e : Env n) (l : Lhs n) (t : Fin n) (p : Ptr n) (k : Fin n) (hk : IsClass e.w k)
    (hl : e.isRef (first l).type = false) (ht : e.isRef t = true) :
    symbolOf e.w (tableClass e (useEff e (.call l t)) p) = cls e.w p.target ∧ symbolOf e.w (genClass e true k (.call l t)) = k := by
  have hu : useEff e (.call l t) = false := by
    rw [Bool.eq_false_iff]
    intro h
    have := ((useEff_iff e _).1 h).2.2
    rw [show first (Lhs.call l t) = first l from rfl, hl] at this
    cases this
  refine ⟨by rw [hu, tableClass_target]; rfl, ?_⟩
  unfold genClass
  dsimp only
  rw [ht]
  exact cls_self hk

/-- **C86.** The full claim fails for a data member `m` of a variable, if in the current scope `m` is also a variable, of a
class that inherits from the member's: the function of that class is run on the member. -/
theorem C86_capture_fails (e : Env n) (l : Lhs n) (v : Var n) (p p1 : Ptr n) (s : Sym n) (hl : e.isRef (first l).type = false)
    (hs : s.alt = .no) (ha : e.atom s.type = false) (hsub : isClassASubclassOf e.w s.type p.target = true)
    (h : retarget e p (some s) = some p1) :
    symbolOf e.w (tableClass e (useEff e (.member l v)) p1) = cls e.w s.type := by
  have hu : useEff e (.member l v) = false := by
    rw [Bool.eq_false_iff]
    intro h
    have := ((useEff_iff e _).1 h).2.2
    rw [show first (Lhs.member l v) = first l from rfl, hl] at this
    cases this
  rw [hu, tableClass_target]
  have hf : foundType e p s = s.type := by unfold foundType; rw [if_neg (by rw [ha]; decide)]
  unfold retarget at h
  dsimp only at h
  rw [hs] at h
  dsimp only at h
  rw [hf, if_pos hsub] at h
  simp only [Option.bind_eq_bind, Option.bind_eq_some_iff] at h
  obtain ⟨q, _, pos, _, h⟩ := h
  cases h
  rfl

/-- **C86.** The full claim fails for a reference parameter with the name of the variable passed to it: its storage type was
not set, and no virtual function called on it is run. -/
theorem C86_parameter_fails (e : Env n) (st : St n) (f : Func n) (own : Fin n) (l : Lhs n) (p : Ptr n) (s : Sym n)
    (hs : s.alt = .ref) (hn : s.storage = e.w.nouti) (c : Fin n) (q : Ptr n) : evalCall e st f own l p (some s) ≠ .runs c q := by
  intro h
  unfold evalCall at h
  have hent : ∀ a, enter e a { p with target := s.storage } = .aborts := fun a => by unfold enter; rw [if_pos hn]
  have hre : retarget e p (some s) = if s.super then none else some { p with target := s.storage } := by
    unfold retarget
    dsimp only
    rw [hs]
  rw [hre] at h
  by_cases hsup : s.super = true
  · rw [if_pos hsup] at h
    cases h
  · rw [if_neg hsup] at h
    dsimp only at h
    simp only [hent] at h
    split at h
    · cases h
    · split at h
      · split at h
        · cases h
        · split at h
          · cases h
          · split at h <;> cases h
      · split at h <;> cases h

/-- **C86.** The full claim fails in the block of an `as`, for a variable of class `k` and a base class that is not at its
start: the pointer is made to the whole object, but its position stays that of the part. -/
theorem C86_as_fails (e : Env n) (p : Ptr n) (s : Sym n) (start q : Nat) (hs : s.alt = .as) (hk : s.storage = p.eff)
    (hr : rel e p.eff p.target = some q) (hq : q ≠ 0) (hp : p.pos = start + q) :
    ∃ p1, retarget e p (some s) = some p1 ∧ p1 = ⟨p.eff, p.eff, start + q⟩ ∧ ¬ Points e p1 start := by
  refine ⟨⟨p.eff, p.eff, start + q⟩, ?_, rfl, ?_⟩
  · unfold retarget
    dsimp only
    rw [hs, hk, hp]
  · rintro ⟨q', h1, h2⟩
    unfold Layout.relativePosition at h1
    rw [if_pos rfl] at h1
    cases h1
    dsimp only at h2
    omega

/-! ### The sample: an element of class 1, which inherits from 2, 3 and 4 -/

/-- Function 10 begins in 4; 2 and 1 override it. Function 11 begins in 4, where it is pure, and 1 overrides it. -/
def zooP : Program 10 where
  w := zoo
  decls := fun x => if x = 4 then [⟨10, true, false, false⟩, ⟨11, true, true, false⟩] else if x = 2 then [⟨10, false, false, false⟩]
    else if x = 1 then [⟨10, false, false, false⟩, ⟨11, false, false, false⟩] else []

theorem zooP_legal : Virtual.Spec.Legal zooP where
  ok := zoo_ok
  acyclic := zoo_acyclic
  bases := by decide
  rooted := by decide
  once := by decide

def zooRun : Option (St 10) := passes zoo [1, 2, 3, 4, 5] 9 (Virtual.start zooP.decls)

theorem zoo_done : (zooRun.map fun st => (st.errors, (st.cls 1).max.isSome, (st.cls 2).max.isSome, (st.cls 4).max.isSome)) =
    some (0, true, true, true) := by decide +kernel

/-- The tables of the sample. -/
def zooSt : St 10 := zooRun.getD ⟨fun _ => ⟨[], [], [], [], false, none⟩, 0⟩

theorem zoo_runs : Runs zooP [1, 2, 3, 4, 5] 9 zooSt ∧ (zooSt.cls 1).max.isSome = true ∧ (zooSt.cls 2).max.isSome = true ∧
    (zooSt.cls 4).max.isSome = true := by
  have h := zoo_done
  unfold zooSt
  cases hr : zooRun with
  | none => rw [hr] at h; cases h
  | some st =>
    rw [hr] at h
    simp only [Option.map_some, Option.some.injEq, Prod.mk.injEq] at h
    exact ⟨⟨hr, h.1⟩, h.2⟩

/-- A call of function `s` found in class `x`. -/
def zooCall (x : Fin 10) (s : Nat) (l : Lhs 10) (p : Ptr 10) (found : Option (Sym 10)) : Option (Outcome 10) :=
  (findFunc zooSt x s).map fun f => evalCall zooEnv zooSt f x l p found

/-- A reference `2& r`. -/
def zooRef : Lhs 10 := .name ⟨7, false, false⟩

theorem zoo_gives : Gives zooEnv zooRef ⟨7, 1, 26⟩ 1 25 := by
  refine ⟨zoo_object1, rfl, ⟨1, zoo_rel.2.2.2.2, rfl⟩, fun h => ?_, fun h => ?_, fun _ h => ?_⟩ <;> revert h <;> decide

theorem zoo_one : OneBeginning zooP 1 10 := by
  have h : ∀ o, Begins zooP o 10 → o = 4 := by
    intro o ho
    by_contra hn
    obtain ⟨d, hd, hs⟩ := ho.1.1
    have h12 : o = 1 ∨ o = 2 := by
      revert hd
      unfold zooP
      dsimp only
      split_ifs <;> simp_all
    refine ho.2 4 ?_ ⟨⟨⟨10, true, false, false⟩, by decide, rfl⟩, 4, .refl, ⟨10, true, false, false⟩, by decide, rfl, rfl⟩
    have b24 : Base zoo 2 4 := by unfold Base; decide
    have b12 : Base zoo 1 2 := by unfold Base; decide
    rcases h12 with rfl | rfl
    · exact .tail (.single b12) b24
    · exact .single b24
  intro o o' _ h1 _ h2
  rw [h o h1, h o' h2]

/-- All hypotheses of the theorem hold for `r.f()`, with `r` a `2&` to an element of class 1, and `f` found in class 4. -/
example : ∃ f o a, findFunc zooSt 4 10 = some f ∧ Begins zooP o 10 ∧ MostSpecific zooP 1 o 10 a ∧
    dispatch zooSt (symbolOf zooEnv.w (genClass zooEnv true 1 zooRef)) f = some a ∧
    ((∀ d ∈ zooP.decls a, d.sig = 10 → d.pure = true) → evalCall zooEnv zooSt f 4 zooRef ⟨7, 1, 26⟩ none = .error) ∧
    ((∀ d ∈ zooP.decls a, d.sig = 10 → d.pure = false) → ∃ p1 p2, evalCall zooEnv zooSt f 4 zooRef ⟨7, 1, 26⟩ none = .runs a p1 ∧
      selfPtr zooEnv p1 a = some p2 ∧ Points zooEnv p2 25 ∧ p2.eff = 1 ∧ cls zooEnv.w p2.target = a) :=
  C86_runs_partial zooP zooP_legal [1, 2, 3, 4, 5] (by decide) 9 zooSt zoo_runs.1 zooEnv rfl zoo_settled zoo_deref zooRef
    ⟨7, 1, 26⟩ 1 25 zoo_gives (by decide) none trivial (fun _ _ h => by cases h) 1 (by decide) .refl zoo_runs.2.1 4
    ((zoo_soa 1 4 (by decide)).2 (.inr (by rw [zoo_table1]; decide))) 10
    ⟨⟨⟨10, true, false, false⟩, by decide, rfl⟩, 4, .refl, ⟨10, true, false, false⟩, by decide, rfl, rfl⟩ zoo_one

/-- The same call runs the function of class 1; on its part of class 2, named, that of class 2; a pure one is an error; and the
variable `x` of class 1 found by its name makes no difference. -/
example : zooCall 4 10 zooRef ⟨7, 1, 26⟩ none = some (.runs 1 ⟨7, 1, 26⟩) ∧
    zooCall 4 10 (.base zooRef 2) ⟨2, 1, 26⟩ none = some (.runs 2 ⟨2, 1, 26⟩) ∧
    zooCall 4 11 zooRef ⟨7, 1, 26⟩ none = some (.runs 1 ⟨7, 1, 26⟩) ∧
    zooCall 4 11 (.base zooRef 2) ⟨2, 1, 26⟩ none = some .error ∧
    zooCall 4 10 zooRef ⟨7, 1, 26⟩ (some ⟨.no, 1, 0, false⟩) = some (.runs 1 ⟨1, 1, 25⟩) := by decide +kernel

/-- A variable found by name that does no harm: the one referred to. -/
example : Harmless zooEnv zooRef ⟨7, 1, 26⟩ 25 (some ⟨.no, 1, 0, false⟩) :=
  ⟨fun _ _ h => (by cases h), fun v h => (by cases h; rfl), .inr (.inr rfl)⟩

/-- What goes wrong: `x.g().f()` with `g` returning a `2&` to an element of class 1 runs the function of class 2; `x.m.f()` with
`m` of class 2 and another `m`, of class 1, in scope, that of class 1; `f` called on the parameter `x` to which `x` was passed
aborts; and in the block of an `as`, in the function of class 1, `self` is at 26, not at 25. -/
example : zooCall 4 10 (.call (.name ⟨1, false, false⟩) 7) ⟨7, 1, 26⟩ none = some (.runs 2 ⟨7, 1, 26⟩) ∧
    zooCall 4 10 (.member (.name ⟨1, false, false⟩) ⟨2, false, false⟩) ⟨2, 2, 30⟩ (some ⟨.no, 1, 0, false⟩) =
      some (.runs 1 ⟨1, 2, 29⟩) ∧
    zooCall 4 10 zooRef ⟨7, 1, 26⟩ (some ⟨.ref, 7, 0, false⟩) = some .aborts ∧
    zooCall 4 10 zooRef ⟨7, 1, 26⟩ (some ⟨.as, 7, 1, false⟩) = some (.runs 1 ⟨1, 1, 26⟩) ∧
    selfPtr zooEnv ⟨1, 1, 26⟩ 1 = some ⟨1, 1, 26⟩ := by decide +kernel

end Ulam.Dispatch
