import Verif.Related.Conditional
import Mathlib.Tactic.SplitIfs
/-! # C80: pointers to parts of objects -/
namespace Ulam.Related
open Ulam.Related.Spec Ulam.Walker Ulam.Walker.Spec Ulam.Layout Ulam.Layout.Spec
variable {n : Nat}

theorem baseItem_congr {w : World n} (c : Fin n) {b b' : Fin n} (h : w.root b = w.root b') : baseItem w c b = baseItem w c b' := by
  unfold baseItem; rw [h]

theorem sharedItem_congr {w : World n} (c : Fin n) {b b' : Fin n} (h : w.root b = w.root b') : sharedItem w c b = sharedItem w c b' := by
  unfold sharedItem; rw [h]

/-- The place depends only on the classes named. -/
theorem relativePosition_congr {w : World n} (ok : Ok w) (P : Fin n → Option Packed) {c c' b b' : Fin n} (hc : cls w c = cls w c')
    (hb : cls w b = cls w b') : relativePosition w P c b = relativePosition w P c' b' := by
  unfold cls at hc hb
  by_cases h : SelfOrAncestor w (w.root (w.deref c)) (w.root (w.deref b))
  · unfold relativePosition
    rw [← hc, ← hb]
    by_cases hs : w.root (w.deref c) = w.root (w.deref b)
    · rw [if_pos hs, if_pos hs]
    · rw [if_neg hs, if_neg hs]
      have ha : Ancestor w (w.root (w.deref c)) (w.root (w.deref b)) := by
        rcases (Relation.reflTransGen_iff_eq_or_transGen.1 h) with q | q
        · exact absurd q.symm hs
        · exact q
      rw [relLoop_found ok P _ _ ha, relLoop_found ok P (w.deref c') (w.deref b') (by rw [← hc, ← hb]; exact ha), ← hc,
        baseItem_congr _ hb, sharedItem_congr _ hb]
  · rw [(C15_query w ok P c b).2 h, (C15_query w ok P c' b').2 (by rw [← hc, ← hb]; exact h)]

theorem related_of_some {w : World n} (ok : Ok w) {P : Fin n → Option Packed} {c b : Fin n} {q : Nat}
    (h : relativePosition w P c b = some q) : SelfOrAncestor w (cls w c) (cls w b) := by
  by_contra hn
  rw [(C15_query w ok P c b).2 hn] at h
  cases h

theorem setPos_nat (q : Nat) (x : Int) (h : x = q) (hq : q ≤ 96) : setPos x = some q := by
  unfold setPos
  have : x % 2 ^ 32 = q := by rw [h]; omega
  rw [this, if_pos (by omega)]
  simp

theorem makePos_nat (q : Nat) (x : Int) (h : x = q) (h0 : 0 < q) (hq : q ≤ 96) : makePos x = some q := by
  unfold makePos
  have : x % 2 ^ 32 = q := by rw [h]; omega
  rw [this, if_neg (by omega), if_pos (by omega)]
  simp

theorem cls_self {w : World n} {k : Fin n} (h : IsClass w k) : cls w k = k := by
  unfold cls; rw [h.deref, h.root]

theorem place (e : Env n) (ok : Ok e.w) {k : Fin n} {start : Nat} (o : Object e k start) {t : Fin n}
    (cc : cls e.w (cls e.w t) = cls e.w t)
    (h : SelfOrAncestor e.w k (cls e.w t)) : ∃ q, rel e k t = some q ∧ start + q ≤ 96 := by
  obtain ⟨q, h1, h2⟩ := o.laid _ h
  refine ⟨q, ?_, h2⟩
  unfold rel
  rw [← h1]
  exact relativePosition_congr ok e.P rfl cc.symm

theorem sub_iff {w : World n} (ok : Ok w) (ac : Acyclic w) {k t : Fin n} (hk : IsClass w k) :
    isClassASubclassOf w k t = true ↔ Ancestor w k (cls w t) := by
  rw [C14_subclass_iff_ancestor w ok ac, hk.deref, hk.root]; rfl

/-- **C80.** A cast to a base class, or back: from a pointer to a part, to a pointer to the part of the class (or reference)
cast to, in the same object. -/
theorem C80_cast (e : Env n) (ok : Ok e.w) (ac : Acyclic e.w) (rf : Refs e) (st : Settled e.w)
    (d2 : ∀ t, e.w.deref (e.w.deref t) = e.w.deref t) (p : Ptr n) (start : Nat)
    (o : Object e p.eff start) (hp : Points e p start) (node tobe : Fin n) (hn : cls e.w node = cls e.w p.target)
    (ht : SelfOrAncestor e.w p.eff (cls e.w tobe)) :
    ∃ p', castRef e p node tobe = some p' ∧ Points e p' start ∧ p'.eff = p.eff ∧ cls e.w p'.target = cls e.w tobe := by
  obtain ⟨q, hq, hpos⟩ := hp
  have hnq : rel e p.eff node = some q := by
    unfold rel; rw [← hq]; exact relativePosition_congr ok e.P rfl hn
  obtain ⟨a, ha, hfit⟩ := place e ok o (st tobe) ht
  have cd : cls e.w (e.w.deref tobe) = cls e.w tobe := by unfold cls; rw [d2]
  have ha' : rel e p.eff (e.w.deref tobe) = some a := by
    rw [← ha]; exact relativePosition_congr ok e.P rfl cd
  unfold castRef
  by_cases h1 : same e.w node tobe = true
  · rw [if_pos h1]
    refine ⟨p, rfl, ⟨q, hq, hpos⟩, rfl, ?_⟩
    rw [← hn]
    exact rf.alias_class _ _ (of_decide_eq_true h1)
  · rw [if_neg h1]
    by_cases h2 : ((e.isRef node || e.isRef tobe) && wild e.w node tobe) = true
    · rw [if_pos h2]
      rw [Bool.and_eq_true] at h2
      have hw : cls e.w node = cls e.w tobe := of_decide_eq_true h2.2
      refine ⟨_, rfl, ⟨q, ?_, hpos⟩, rfl, rfl⟩
      rw [← hnq]; exact relativePosition_congr ok e.P rfl hw.symm
    · rw [if_neg h2]
      have hdiff : cls e.w node ≠ cls e.w tobe := by
        intro q
        rw [Bool.and_eq_true, not_and] at h2
        by_cases hr : (e.isRef node || e.isRef tobe) = true
        · exact h2 hr (decide_eq_true q)
        · simp only [Bool.or_eq_true, not_or, Bool.not_eq_true] at hr
          unfold cls at q
          rw [rf.only_refs _ hr.1, rf.only_refs _ hr.2] at q
          exact h1 (decide_eq_true q)
      simp only [if_neg o.real]
      by_cases h3 : isClassASubclassOf e.w p.eff (e.w.deref tobe) = true
      · rw [if_pos h3, ha', hnq]
        simp only [Option.bind_eq_bind, Option.bind_some]
        rw [setPos_nat (start + a) _ (by omega) hfit]
        exact ⟨_, rfl, ⟨a, ha, rfl⟩, rfl, rfl⟩
      · rw [if_neg h3]
        have heq : cls e.w tobe = p.eff := by
          rw [sub_iff ok ac o.cls, cd] at h3
          rcases (Relation.reflTransGen_iff_eq_or_transGen.1 ht) with h | h
          · exact h
          · exact absurd h h3
        have hna : Ancestor e.w p.eff (cls e.w node) := by
          have h := related_of_some ok hnq
          rw [cls_self o.cls] at h
          rcases (Relation.reflTransGen_iff_eq_or_transGen.1 h) with h | h
          · exact absurd (h.trans heq.symm) hdiff
          · exact h
        have h4 : isClassASubclassOf e.w (e.w.deref tobe) node = true := by
          rw [C14_subclass_iff_ancestor e.w ok ac]
          have h5 : e.w.root (e.w.deref (e.w.deref tobe)) = p.eff := by rw [d2]; exact heq
          rw [h5]; exact hna
        rw [if_pos h4]
        have h6 : rel e (e.w.deref tobe) node = some q := by
          rw [← hnq]
          exact relativePosition_congr ok e.P (by rw [cd, heq, cls_self o.cls]) rfl
        have hz : a = 0 := by
          have := (C15_query e.w ok e.P p.eff tobe).1 (by
            show cls e.w tobe = cls e.w p.eff
            rw [heq, cls_self o.cls])
          unfold rel at ha
          rw [this] at ha; cases ha; rfl
        rw [h6]
        simp only [Option.bind_eq_bind, Option.bind_some]
        rw [setPos_nat start _ (by omega) (by omega)]
        exact ⟨_, rfl, ⟨a, ha, by simp [hz]⟩, rfl, rfl⟩

/-- **C80.** `self`, in a function of the class (or of a base of the class) of the object. -/
theorem C80_self (e : Env n) (ok : Ok e.w) (st : Settled e.w) (d2 : ∀ t, e.w.deref (e.w.deref t) = e.w.deref t)
    (p : Ptr n) (start : Nat) (o : Object e p.eff start) (hp : Points e p start) (t : Fin n)
    (ht : SelfOrAncestor e.w p.eff (cls e.w t)) :
    ∃ p', selfPtr e p t = some p' ∧ Points e p' start ∧ p'.eff = p.eff ∧ cls e.w p'.target = cls e.w t := by
  obtain ⟨q, hq, hpos⟩ := hp
  obtain ⟨a, ha, hfit⟩ := place e ok o (st t) ht
  unfold selfPtr
  simp only [if_neg o.real]
  by_cases h1 : wild e.w p.target t = true
  · rw [if_pos h1]
    exact ⟨_, rfl, ⟨q, hq, hpos⟩, rfl, of_decide_eq_true h1⟩
  · rw [if_neg h1]
    have hb : (if p.target ≠ p.eff then rel e p.eff p.target else some 0) = some q := by
      by_cases h2 : p.target = p.eff
      · rw [if_neg (by simpa using h2)]
        rw [h2] at hq
        rw [(C15_query e.w ok e.P p.eff p.eff).1 rfl] at hq
        exact hq
      · rw [if_pos h2]; exact hq
    rw [hb, ha]
    simp only [Option.bind_eq_bind, Option.bind_some]
    rw [setPos_nat (start + a) _ (by omega) hfit]
    have cd : cls e.w (e.w.deref t) = cls e.w t := by unfold cls; rw [d2]
    refine ⟨_, rfl, ⟨a, ?_, rfl⟩, rfl, cd⟩
    rw [← ha]; exact relativePosition_congr ok e.P rfl cd

/-- **C80.** The part of a base class selected by its name. -/
theorem C80_select (e : Env n) (ok : Ok e.w) (ac : Acyclic e.w) (st : Settled e.w) (d2 : ∀ t, e.w.deref (e.w.deref t) = e.w.deref t)
    (p : Ptr n) (start : Nat) (o : Object e p.eff start) (hp : Points e p start) (t : Fin n)
    (ht : SelfOrAncestor e.w p.eff (cls e.w t)) :
    ∃ p', selectBase e p t = some p' ∧ Points e p' start ∧ p'.eff = p.eff ∧ cls e.w p'.target = cls e.w t := by
  obtain ⟨q, hq, hpos⟩ := hp
  obtain ⟨a, ha, hfit⟩ := place e ok o (st t) ht
  unfold selectBase
  rw [if_neg o.real]
  have hb : (if isClassASubclassOf e.w p.eff p.target = true then rel e p.eff p.target else some 0) = some q := by
    by_cases h2 : isClassASubclassOf e.w p.eff p.target = true
    · rw [if_pos h2]; exact hq
    · rw [if_neg h2]
      rw [sub_iff ok ac o.cls] at h2
      have h := related_of_some ok hq
      rw [cls_self o.cls] at h
      rcases (Relation.reflTransGen_iff_eq_or_transGen.1 h) with h | h
      · rw [(C15_query e.w ok e.P p.eff p.target).1 (by show cls e.w p.target = cls e.w p.eff; rw [h, cls_self o.cls])] at hq
        exact hq
      · exact absurd h h2
  rw [ha, hb]
  simp only [Option.bind_eq_bind, Option.bind_some]
  rw [setPos_nat (start + a) _ (by omega) hfit]
  have cd : cls e.w (e.w.deref t) = cls e.w t := by unfold cls; rw [d2]
  refine ⟨_, rfl, ⟨a, ?_, rfl⟩, rfl, cd⟩
  rw [← ha]; exact relativePosition_congr ok e.P rfl cd

/-- **C80.** Where `super` points: at the place the superclass would have if the object were of the class of the part. -/
theorem C80_super_place (e : Env n) (p : Ptr n) (start q : Nat) (hp : Points e p start)
    (t : Fin n) (ht : rel e p.target t = some q) (hfit : start + q ≤ 96) : superPtr e p t = some ⟨t, p.eff, start + q⟩ := by
  obtain ⟨a, ha, hpos⟩ := hp
  unfold superPtr
  have ha' : rel e p.eff p.target = some a := ha
  rw [ht, ha']
  simp only [Option.bind_eq_bind, Option.bind_some]
  rw [setPos_nat (start + q) _ (by omega) hfit]
  rfl

/-- **C80.** Partial: `super` in a function of the class of the object itself.

Missing: a function of a base of that class, see `C80_super_fails`. -/
theorem C80_super_partial (e : Env n) (ok : Ok e.w) (st : Settled e.w) (p : Ptr n) (start : Nat) (o : Object e p.eff start)
    (hp : Points e p start) (t : Fin n) (hown : cls e.w p.target = p.eff) (ht : SelfOrAncestor e.w p.eff (cls e.w t)) :
    ∃ p', superPtr e p t = some p' ∧ Points e p' start ∧ p'.eff = p.eff ∧ p'.target = t := by
  obtain ⟨a, ha, hfit⟩ := place e ok o (st t) ht
  have h : rel e p.target t = some a := by
    rw [← ha]; exact relativePosition_congr ok e.P (by rw [hown, cls_self o.cls]) rfl
  exact ⟨_, C80_super_place e p start a hp t h hfit, ⟨a, ha, rfl⟩, rfl, rfl⟩

/-- **C80.** An atom cast to a class, or a reference to a class, related to the element it holds: the part is counted from
the first bit after the header, if the value is an atom; from where the pointer is, if the atom is a name for an element. -/
theorem C80_cast_atom (e : Env n) (ok : Ok e.w) (st : Settled e.w) (d2 : ∀ t, e.w.deref (e.w.deref t) = e.w.deref t)
    (p : Ptr n) (v : Stored n) (start : Nat) (hs : start = p.pos + if e.atom v.type then 25 else 0)
    (o : Object e v.eff start) (tobe : Fin n) (ht : SelfOrAncestor e.w v.eff (cls e.w tobe)) :
    ∃ p', castAtom e p v tobe = some p' ∧ Points e p' start ∧ p'.eff = v.eff ∧ p'.target = tobe := by
  obtain ⟨a, ha, hfit⟩ := place e ok o (st tobe) ht
  have cd : cls e.w (e.w.deref tobe) = cls e.w tobe := by unfold cls; rw [d2]
  have ha' : rel e v.eff (e.w.deref tobe) = some a := by
    rw [← ha]; exact relativePosition_congr ok e.P rfl cd
  unfold castAtom
  rw [ha']
  simp only
  rw [setPos_nat (start + a) _ (by rw [hs]; split_ifs <;> push_cast <;> omega) hfit]
  exact ⟨_, rfl, ⟨a, ha, rfl⟩, rfl, rfl⟩

/-- **C80.** Partial: `as` from a pointer to a part of an object that is not stored as an atom, to a quark or a transient.

Missing: an element (`C80_as_element_fails`), and objects stored in atoms (`C80_as_atom_fails`, with `C80_as_atom_partial`). -/
theorem C80_as_partial (e : Env n) (ok : Ok e.w) (ac : Acyclic e.w) (st : Settled e.w) (p : Ptr n) (v : Stored n) (start : Nat)
    (h0 : 0 < start) (o : Object e p.eff start) (hp : Points e p start) (ha : e.atom p.target = false) (hv : e.atom v.type = false)
    (r : Fin n) (hr : e.kind r ≠ .element) (ht : SelfOrAncestor e.w p.eff (cls e.w r)) :
    ∃ p', asPtr e p v r = some p' ∧ Points e p' start ∧ p'.eff = p.eff ∧ p'.target = r := by
  obtain ⟨q, hq, hpos⟩ := hp
  obtain ⟨a, hra, hfit⟩ := place e ok o (st r) ht
  have part : ∀ t x, rel e p.eff t = some x → (if e.kind r ≠ .element ∧ isClassASubclassOf e.w p.eff t = true then rel e p.eff t else some 0) = some x := by
    intro t x hx
    by_cases h2 : isClassASubclassOf e.w p.eff t = true
    · rw [if_pos ⟨hr, h2⟩]; exact hx
    · rw [if_neg (fun h => h2 h.2)]
      rw [sub_iff ok ac o.cls] at h2
      have h := related_of_some ok hx
      rw [cls_self o.cls] at h
      rcases (Relation.reflTransGen_iff_eq_or_transGen.1 h) with h | h
      · unfold rel at hx
        rw [(C15_query e.w ok e.P p.eff t).1 (by show cls e.w t = cls e.w p.eff; rw [h, cls_self o.cls])] at hx
        exact hx
      · exact absurd h h2
  unfold asPtr asLeft
  simp only [ha, hv, Bool.or_false, Bool.false_eq_true, if_false, if_neg o.real]
  rw [part r a hra, part p.target q hq]
  simp only [Option.bind_eq_bind, Option.bind_some, Bool.false_and, Bool.false_eq_true, if_false]
  rw [makePos_nat (start + a) _ (by omega) (by omega) hfit]
  exact ⟨_, rfl, ⟨a, hra, rfl⟩, rfl, rfl⟩

/-- **C80.** `as` to an element, from a pointer to a part: the position stays where it is, which is wrong unless the part is at
the start of the object. -/
theorem C80_as_element_fails (e : Env n) (ok : Ok e.w) (p : Ptr n) (v : Stored n) (start q : Nat) (h0 : 0 < start)
    (o : Object e p.eff start) (hpos : p.pos = start + q) (ha : e.atom p.target = false)
    (hv : e.atom v.type = false) (r : Fin n) (hr : e.kind r = .element) (hown : cls e.w r = p.eff) (hfit : start + q ≤ 96) :
    asPtr e p v r = some ⟨r, p.eff, start + q⟩ ∧ (Points e ⟨r, p.eff, start + q⟩ start ↔ q = 0) := by
  have hz : relativePosition e.w e.P p.eff r = some 0 :=
    (C15_query e.w ok e.P p.eff r).1 (by show cls e.w r = cls e.w p.eff; rw [hown, cls_self o.cls])
  constructor
  · unfold asPtr asLeft
    simp only [ha, hv, Bool.or_false, Bool.false_eq_true, if_false, if_neg o.real, hr, ne_eq, not_true_eq_false, false_and]
    simp only [Option.bind_eq_bind, Option.bind_some, Bool.false_and, Bool.false_eq_true, if_false]
    rw [makePos_nat (start + q) _ (by omega) (by omega) hfit]
    rfl
  · unfold Points
    simp only [hz, Option.some.injEq]
    constructor
    · rintro ⟨x, h1, h2⟩; omega
    · rintro rfl; exact ⟨0, rfl, rfl⟩

/-- **C80.** Partial: `as` from an atom that holds an object of class `k`. The atom is a variable (position 0).

Missing: see `C80_as_atom_fails`. -/
theorem C80_as_atom_partial (e : Env n) (ok : Ok e.w) (ac : Acyclic e.w) (st : Settled e.w) (p : Ptr n) (v : Stored n) (k : Fin n)
    (hk : Denotes e p v k) (o : Object e k 25) (ha : e.atom p.target = true) (hpos : p.pos = 0)
    (r : Fin n) (hr : e.kind r = .element → cls e.w r = k) (ht : SelfOrAncestor e.w k (cls e.w r)) :
    ∃ p', asPtr e p v r = some p' ∧ Points e p' 25 ∧ p'.eff = k ∧ p'.target = r := by
  obtain ⟨a, hra, hfit⟩ := place e ok o (st r) ht
  have hv := hk.value (.inl ha)
  have hl : asLeft e p v = (k, k, true) := by
    unfold asLeft
    rw [ha, Bool.true_or, if_pos rfl]
    by_cases hp : p.eff = e.w.nouti
    · rw [if_neg (by simpa using hp), if_pos (by rw [hv]; exact o.real), hv]
    · rw [if_pos hp, hk.object.resolve_right fun h => hp h.1]
  have hself : cls e.w r = k → a = 0 := by
    intro h
    unfold rel at hra
    rw [(C15_query e.w ok e.P k r).1 (by show cls e.w r = cls e.w k; rw [h, cls_self o.cls])] at hra
    cases hra; rfl
  have part : (if e.kind r ≠ .element ∧ isClassASubclassOf e.w k r = true then rel e k r else some 0) = some a := by
    by_cases h1 : e.kind r = .element
    · rw [if_neg (fun h => h.1 h1), hself (hr h1)]
    · by_cases h2 : isClassASubclassOf e.w k r = true
      · rw [if_pos ⟨h1, h2⟩]; exact hra
      · rw [if_neg (fun h => h2 h.2)]
        rw [sub_iff ok ac o.cls] at h2
        rcases (Relation.reflTransGen_iff_eq_or_transGen.1 ht) with h | h
        · rw [hself h]
        · exact absurd h h2
  have part2 : (if e.kind r ≠ .element ∧ isClassASubclassOf e.w k k = true then rel e k k else some 0) = some 0 := by
    rw [if_neg]
    rintro ⟨_, h⟩
    rw [sub_iff ok ac o.cls, cls_self o.cls] at h
    exact ac k h
  unfold asPtr
  simp only [hl, if_neg o.real]
  rw [part, part2]
  simp only [Option.bind_eq_bind, Option.bind_some, Bool.true_or, Bool.true_and, hpos, beq_self_eq_true, if_true]
  rw [makePos_nat (25 + a) _ (by push_cast; omega) (by omega) hfit]
  exact ⟨_, rfl, ⟨a, hra, rfl⟩, rfl, rfl⟩

/-- **C80.** `as` from a reference to a part of an object stored in an atom: the place of the part is added, but the place of
the part the reference is to is not taken off. -/
theorem C80_as_atom_fails (e : Env n) (ok : Ok e.w) (ac : Acyclic e.w) (p : Ptr n) (v : Stored n) (start q a : Nat)
    (h0 : 0 < start) (o : Object e p.eff start) (hpos : p.pos = start + q)
    (hv : e.atom v.type = true) (r : Fin n) (hr : e.kind r ≠ .element) (hra : rel e p.eff r = some a)
    (hfit : start + q + a ≤ 96) :
    asPtr e p v r = some ⟨r, p.eff, start + q + a⟩ ∧ (Points e ⟨r, p.eff, start + q + a⟩ start ↔ q = 0) := by
  have hl : asLeft e p v = (p.eff, p.eff, true) := by
    unfold asLeft
    rw [hv, Bool.or_true, if_pos rfl, if_pos o.real]
  have part : (if e.kind r ≠ .element ∧ isClassASubclassOf e.w p.eff r = true then rel e p.eff r else some 0) = some a := by
    by_cases h2 : isClassASubclassOf e.w p.eff r = true
    · rw [if_pos ⟨hr, h2⟩]; exact hra
    · rw [if_neg (fun h => h2 h.2)]
      rw [sub_iff ok ac o.cls] at h2
      have h := related_of_some ok hra
      rw [cls_self o.cls] at h
      rcases (Relation.reflTransGen_iff_eq_or_transGen.1 h) with h | h
      · unfold rel at hra
        rw [(C15_query e.w ok e.P p.eff r).1 (by show cls e.w r = cls e.w p.eff; rw [h, cls_self o.cls])] at hra
        exact hra
      · exact absurd h h2
  have part2 : (if e.kind r ≠ .element ∧ isClassASubclassOf e.w p.eff p.eff = true then rel e p.eff p.eff else some 0) = some 0 := by
    rw [if_neg]
    rintro ⟨_, h⟩
    rw [sub_iff ok ac o.cls, cls_self o.cls] at h
    exact ac _ h
  constructor
  · unfold asPtr
    simp only [hl, if_neg o.real]
    rw [part, part2]
    have hz : (p.pos == 0) = false := by rw [beq_eq_false_iff_ne]; omega
    simp only [Option.bind_eq_bind, Option.bind_some, hz, Bool.and_false, Bool.false_eq_true, if_false]
    rw [makePos_nat (start + q + a) _ (by omega) (by omega) hfit]
    rfl
  · unfold Points
    have : relativePosition e.w e.P p.eff r = some a := hra
    simp only [this, Option.some.injEq]
    constructor
    · rintro ⟨x, h1, h2⟩; omega
    · rintro rfl; exact ⟨a, rfl, rfl⟩

/-- **C80.** Partial: a data member of class `d` in an object reached by a pointer to a part: at its offset in the part of `d`.

Missing: references to a part of an object that is not an element, when `d` is not the class of the part
(`C80_member_fails`). -/
theorem C80_member_partial (e : Env n) (ok : Ok e.w) (ac : Acyclic e.w) (p : Ptr n) (start q a off : Nat) (h0 : 0 < start)
    (o : Object e p.eff start) (hq : rel e p.eff p.target = some q) (hpos : p.pos = start + q) (hat : e.atom p.target = false)
    (d : Fin n) (hd : rel e p.eff d = some a) (hfit : start + a + off ≤ 96)
    (ok' : e.alt p.target = false ∨ wild e.w p.target d = true ∨ (e.kind p.eff = .element ∧ start = 25)) :
    memberPos e p d off = some (start + a + off) := by
  have self0 : ∀ t x, rel e p.eff t = some x → cls e.w t = p.eff → x = 0 := by
    intro t x hx h
    unfold rel at hx
    rw [(C15_query e.w ok e.P p.eff t).1 (by show cls e.w t = cls e.w p.eff; rw [h, cls_self o.cls])] at hx
    cases hx; rfl
  have same_place : ∀ t t' x x', rel e p.eff t = some x → rel e p.eff t' = some x' → cls e.w t = cls e.w t' → x = x' := by
    intro t t' x x' h1 h2 h3
    have : rel e p.eff t = rel e p.eff t' := relativePosition_congr ok e.P rfl h3
    rw [h1, h2] at this
    cases this; rfl
  have part : (if isClassASubclassOf e.w p.eff d = true then rel e p.eff d else some 0) = some a := by
    by_cases h2 : isClassASubclassOf e.w p.eff d = true
    · rw [if_pos h2]; exact hd
    · rw [if_neg h2]
      rw [sub_iff ok ac o.cls] at h2
      have h := related_of_some ok hd
      rw [cls_self o.cls] at h
      rcases (Relation.reflTransGen_iff_eq_or_transGen.1 h) with h | h
      · rw [self0 d a hd h]
      · exact absurd h h2
  unfold memberPos
  simp only [hat, Bool.false_eq_true, if_false, if_neg o.real, part]
  by_cases hc : (e.alt p.target && !wild e.w p.target d && decide (p.eff ≠ e.w.nouti)) = true
  · simp only [if_pos hc]
    simp only [Bool.and_eq_true, Bool.not_eq_true', decide_eq_true_iff] at hc
    have hk : e.kind p.eff = .element ∧ start = 25 := by
      rcases ok' with h | h | h
      · rw [h] at hc; cases hc.1.1
      · rw [h] at hc; cases hc.1.2
      · exact h
    rw [if_pos hk.1]
    by_cases hw : wild e.w d p.eff = true
    · rw [if_pos hw]
      have := self0 d a hd (by rw [show cls e.w d = cls e.w p.eff from of_decide_eq_true hw, cls_self o.cls])
      exact makePos_nat _ _ (by push_cast; omega) (by omega) hfit
    · rw [if_neg hw, if_pos (show wild e.w p.eff p.eff = true from decide_eq_true rfl)]
      exact makePos_nat _ _ (by push_cast; omega) (by omega) hfit
  · simp only [if_neg hc]
    by_cases hw : wild e.w d p.target = true
    · rw [if_pos hw]
      have := same_place d p.target a q hd hq (of_decide_eq_true hw)
      exact makePos_nat _ _ (by omega) (by omega) hfit
    · rw [if_neg hw]
      have hb : (if wild e.w p.eff p.target = true then some 0 else rel e p.eff p.target) = some q := by
        by_cases h3 : wild e.w p.eff p.target = true
        · rw [if_pos h3, self0 p.target q hq (by rw [← show cls e.w p.eff = cls e.w p.target from of_decide_eq_true h3, cls_self o.cls])]
        · rw [if_neg h3]; exact hq
      rw [hb]
      exact makePos_nat _ _ (by omega) (by omega) hfit

/-- **C80.** What is missing above: the place of the part the reference is to is not taken off. -/
theorem C80_member_fails (e : Env n) (ok : Ok e.w) (ac : Acyclic e.w) (p : Ptr n) (start q a off : Nat) (h0 : 0 < start)
    (o : Object e p.eff start) (hpos : p.pos = start + q) (hat : e.atom p.target = false)
    (d : Fin n) (hd : rel e p.eff d = some a) (hfit : start + q + a + off ≤ 96)
    (halt : e.alt p.target = true) (hw : wild e.w p.target d = false) (hk : e.kind p.eff ≠ .element) :
    memberPos e p d off = some (start + q + a + off) := by
  have self0 : cls e.w d = p.eff → a = 0 := by
    intro h
    unfold rel at hd
    rw [(C15_query e.w ok e.P p.eff d).1 (by show cls e.w d = cls e.w p.eff; rw [h, cls_self o.cls])] at hd
    cases hd; rfl
  unfold memberPos
  simp only [hat, Bool.false_eq_true, if_false, if_neg o.real, halt, hw, Bool.not_false, Bool.and_self,
    decide_eq_true o.real, if_pos, if_neg hk]
  by_cases hx : wild e.w d p.eff = true
  · rw [if_pos hx]
    have := self0 (by rw [show cls e.w d = cls e.w p.eff from of_decide_eq_true hx, cls_self o.cls])
    exact makePos_nat _ _ (by omega) (by omega) hfit
  · rw [if_neg hx, if_pos (show wild e.w p.eff p.eff = true from decide_eq_true rfl)]
    have h2 : isClassASubclassOf e.w p.eff d = true := by
      rw [sub_iff ok ac o.cls]
      have h := related_of_some ok hd
      rw [cls_self o.cls] at h
      rcases (Relation.reflTransGen_iff_eq_or_transGen.1 h) with h | h
      · exact absurd (decide_eq_true (show cls e.w d = cls e.w p.eff by rw [h, cls_self o.cls])) hx
      · exact h
    rw [if_pos h2, hd]
    exact makePos_nat _ _ (by push_cast; omega) (by omega) hfit


/-! ## The sample -/

theorem zoo_refs : Refs zooEnv := by
  refine ⟨fun a b h => ?_, by decide⟩
  have : a = b := h
  rw [this]

theorem zoo_settled : Settled zooEnv.w := by unfold Settled; decide

theorem zoo_deref : ∀ t, zooEnv.w.deref (zooEnv.w.deref t) = zooEnv.w.deref t := by decide

/-- An element of class 1 in an atom: its state starts at 25. -/
theorem zoo_object1 : Object zooEnv 1 25 := by
  refine ⟨zoo_class 1 (by decide), by decide, fun b hb => ?_⟩
  obtain ⟨q, h1, h2⟩ := zoo_laid1 b hb
  exact ⟨q, h1, by omega⟩

theorem zoo_rel : rel zooEnv 1 2 = some 1 ∧ rel zooEnv 1 3 = some 3 ∧ rel zooEnv 1 4 = some 6 ∧ rel zooEnv 2 4 = some 2 ∧
    rel zooEnv 1 7 = some 1 := by decide +kernel

/-- From a `2&` to an element of class 1: casts, `self`, a base by name, and members. -/
example : Points zooEnv ⟨7, 1, 26⟩ 25 ∧ castRef zooEnv ⟨7, 1, 26⟩ 7 9 = some ⟨9, 1, 31⟩ ∧
    castRef zooEnv ⟨7, 1, 26⟩ 7 6 = some ⟨6, 1, 25⟩ ∧ selfPtr zooEnv ⟨2, 1, 26⟩ 3 = some ⟨3, 1, 28⟩ ∧
    selectBase zooEnv ⟨7, 1, 26⟩ 4 = some ⟨4, 1, 31⟩ ∧ memberPos zooEnv ⟨7, 1, 26⟩ 4 2 = some 33 ∧
    asPtr zooEnv ⟨7, 1, 26⟩ ⟨1, 1⟩ 4 = some ⟨4, 1, 31⟩ ∧ castAtom zooEnv ⟨8, 0, 0⟩ ⟨8, 1⟩ 7 = some ⟨7, 1, 26⟩ ∧
    asPtr zooEnv ⟨8, 0, 0⟩ ⟨8, 1⟩ 4 = some ⟨4, 1, 31⟩ ∧ superPtr zooEnv ⟨1, 1, 25⟩ 2 = some ⟨2, 1, 26⟩ :=
  ⟨⟨1, zoo_rel.2.2.2.2, rfl⟩, by decide +kernel⟩

/-- **C80.** `super` in a function of a base of the class of the object: class 2 is at 26 in an element of class 1, and its
superclass 4 at 31, but `super` is at 27, inside the part of class 2. -/
theorem C80_super_fails : ∃ (e : Env 10) (p p' : Ptr 10) (t : Fin 10), Ok e.w ∧ Acyclic e.w ∧ Settled e.w ∧ Object e p.eff 25 ∧
    Points e p 25 ∧ Base e.w p.target t ∧ SelfOrAncestor e.w p.eff t ∧ superPtr e p t = some p' ∧ ¬ Points e p' 25 ∧
    rel e p.eff t = some 6 ∧ p'.pos = 27 := by
  refine ⟨zooEnv, ⟨2, 1, 26⟩, ⟨4, 1, 27⟩, 4, zoo_ok, zoo_acyclic, zoo_settled, zoo_object1, ⟨1, zoo_rel.1, rfl⟩, ?_, ?_,
    by decide +kernel, ?_, zoo_rel.2.2.1, rfl⟩
  · unfold Base; decide +kernel
  · exact (zoo_soa 1 4 (by decide)).2 (.inr (by rw [zoo_table1]; decide))
  · rintro ⟨q, h1, h2⟩
    have h3 : relativePosition zooEnv.w zooEnv.P 1 4 = some 6 := zoo_rel.2.2.1
    rw [h3] at h1
    cases h1
    revert h2
    decide

/-- The hypotheses of the theorems on what `as` and data members miss: a `2&` to an element, to an element in an atom, and to
a `2` in a `2`-like quark. -/
example : asPtr zooEnv ⟨7, 1, 26⟩ ⟨1, 1⟩ 1 = some ⟨1, 1, 26⟩ ∧ asPtr zooEnv ⟨7, 1, 26⟩ ⟨8, 1⟩ 4 = some ⟨4, 1, 32⟩ ∧
    ¬ Points zooEnv ⟨1, 1, 26⟩ 25 ∧ ¬ Points zooEnv ⟨4, 1, 32⟩ 25 := by
  refine ⟨by decide +kernel, by decide +kernel, ?_, ?_⟩
  · exact fun h => absurd ((C80_as_element_fails zooEnv zoo_ok ⟨7, 1, 26⟩ ⟨1, 1⟩ 25 1 (by decide) zoo_object1 rfl rfl rfl 1
      rfl rfl (by decide)).2.1 h) (by decide)
  · exact fun h => absurd ((C80_as_atom_fails zooEnv zoo_ok zoo_acyclic ⟨7, 1, 26⟩ ⟨8, 1⟩ 25 1 6 (by decide) zoo_object1 rfl rfl 4
      (by decide) zoo_rel.2.2.1 (by decide)).2.1 h) (by decide)

/-- The same classes with 1 a quark. -/
def zooQuark : Env 10 := { zooEnv with kind := fun _ => .quark }

/-- A member of class 4, by a `2&` to an object of class 1: at 31 + 2, the evaluator says 32 + 2. -/
example : memberPos zooQuark ⟨7, 1, 26⟩ 4 2 = some 34 ∧ rel zooQuark 1 4 = some 6 ∧ rel zooQuark 1 2 = some 1 :=
  ⟨C80_member_fails zooQuark zoo_ok zoo_acyclic ⟨7, 1, 26⟩ 25 1 6 2 (by decide)
    ⟨zoo_object1.cls, zoo_object1.real, zoo_object1.laid⟩ rfl rfl 4 zoo_rel.2.2.1 (by decide) rfl (by decide) (by decide),
    zoo_rel.2.2.1, zoo_rel.1⟩

end Ulam.Related
