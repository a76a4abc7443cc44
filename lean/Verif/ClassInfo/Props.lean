import Verif.ClassInfo.Lemmas
/-! # C132: the information on data members -/
namespace Ulam.ClassInfo
open Walker Walker.Spec Layout Layout.Spec Related Related.Spec ClassInfo.Spec
variable {n : Nat}

/-- A class of which objects can be laid out: it and its ancestors have layouts, and the bits fit. -/
structure Good (w : World n) (L : Fin n → Class) (c : Fin n) (anc : List (Fin n)) : Prop where
  ok : Ok w
  ac : Acyclic w
  tb : Tables w L
  wf : ∀ x, Wf (L x)
  cls : IsClass w c
  nd : NoDuplicates w c
  no_union : (L c).isUnion = false
  nodup : anc.Nodup
  mem_anc : ∀ a, a ∈ anc ↔ Ancestor w c a
  laid : ∀ a, Ancestor w c a → (pack w L a).isSome = true
  fit : ownBits (L c) + (anc.map fun a => ownBits (L a)).sum < 2 ^ 32

theorem place {w : World n} {L : Fin n → Class} {c : Fin n} {anc : List (Fin n)} (g : Good w L c anc) (b : Fin n)
    (hb : SelfOrAncestor w c b) : ∃ p rel, pack w L b = some p ∧ p.members.length = (L b).members.length ∧
      relativePosition w (fun x => pack w L x) c b = some rel ∧ rel + ownBits (L b) ≤ totalBits w L c ∧
      totalBits w L c < 2 ^ 32 ∧ (b = c → rel = 0) ∧ (b ≠ c → ownBits (L c) ≤ rel) := by
  obtain ⟨h1, p, h2, h4, _, h3⟩ := C15_layout_partial w L g.ok g.ac g.tb g.wf c g.cls.root g.cls.deref g.cls.defined g.no_union g.nd
    anc g.nodup g.mem_anc g.fit
  have hf := g.fit
  rcases Relation.reflTransGen_iff_eq_or_transGen.1 hb with rfl | ha
  · exact ⟨p, 0, h2, h4, (C15_query w g.ok _ b b).1 rfl, by omega, by omega, fun _ => rfl, fun h => absurd rfl h⟩
  · obtain ⟨q, k1, k2, k3⟩ := (h3 (fun x => pack w L x) h2).2.2 b ha
    obtain ⟨p', hp'⟩ := Option.isSome_iff_exists.1 (g.laid b ha)
    refine ⟨p', q, hp', ?_, k1, k3, by omega, fun h => ?_, fun _ => k2⟩
    · rw [pack_members hp', packMembers_length]
    · subst h; exact absurd ha (g.ac b)

/-- The cases, their number, and what they stand for. -/
theorem whole {w : World n} {L : Fin n → Class} {c : Fin n} {anc : List (Fin n)} (g : Good w L c anc) :
    ∃ r, classInfo w L (fun x => pack w L x) c = some r ∧ r.1.map (·.number) = List.range r.2 ∧
      (r.1.map fun x => (x.owner, x.member)).Nodup ∧
      (∀ b i, (b, i) ∈ r.1.map (fun x => (x.owner, x.member)) ↔ SelfOrAncestor w c b ∧ i < (L b).members.length) ∧
      ∀ x ∈ r.1, ∃ m rel, Has w L c x.owner x.member m ∧ relativePosition w (fun x => pack w L x) c x.owner = some rel ∧
        x.pos = rel + offset (L x.owner) x.member ∧ x.pos + size m ≤ totalBits w L c := by
  have hord := C78_ordered w L g.ok g.ac g.tb c g.cls g.nd
  have hmem : ∀ b, b ∈ orderedBases w c ↔ SelfOrAncestor w c b := by
    intro b
    rw [hord.2.2.1 b, List.mem_iff_getElem?]; rfl
  have hnd : (orderedBases w c).Nodup := by
    rw [List.nodup_iff_injective_getElem]
    intro i j hij
    have h1 : getOrderedBaseClass w c i.1 = some ((orderedBases w c)[i.1]) := List.getElem?_eq_getElem i.2
    have h2 : getOrderedBaseClass w c j.1 = some ((orderedBases w c)[j.1]) := List.getElem?_eq_getElem j.2
    simp only [Fin.getElem_fin] at hij
    rw [← hij] at h2
    exact Fin.ext (hord.2.2.2.1 _ _ _ h1 h2)
  obtain ⟨r, h1, h2⟩ := classInfo_right w L (fun x => pack w L x) c
    (fun b hb => (anc_props g.tb ((shared_iff g.ok g.tb g.cls b).1 hb)).2.2.1)
    (fun b hb => by
      obtain ⟨p, rel, h1, h2, h3, _⟩ := place g b ((hmem b).1 hb)
      exact ⟨p, rel, h1, h2, h3⟩)
  have hw : ∀ b i, (b, i) ∈ r.1.map (fun x => (x.owner, x.member)) ↔ SelfOrAncestor w c b ∧ i < (L b).members.length := by
    intro b i
    rw [h2.what, mem_entries, hmem]
  refine ⟨r, h1, ?_, ?_, hw, ?_⟩
  · rw [h2.number, h2.count, List.range_eq_range', Nat.zero_add]
  · rw [h2.what]; exact entries_nodup L _ hnd
  · intro x hx
    obtain ⟨p, off, rel, e1, e2, e3, e4⟩ := h2.pos x hx
    obtain ⟨hs, hi⟩ := (hw x.owner x.member).1 (List.mem_map_of_mem (f := fun x : Case n => (x.owner, x.member)) hx)
    obtain ⟨p', rel', f1, _, f3, f4, f5, _⟩ := place g x.owner hs
    rw [f3] at e3
    cases e3
    have hm : (L x.owner).members[x.member]? = some ((L x.owner).members[x.member]) := List.getElem?_eq_getElem hi
    obtain ⟨o1, o2⟩ := offset_eq (L x.owner) (g.wf _) (by omega) x.member _ hm
    rw [pack_members e1, o1] at e2
    cases e2
    refine ⟨_, _, ⟨hs, hm⟩, f3, ?_, ?_⟩
    · rw [e4, Nat.mod_eq_of_lt (by omega)]; omega
    · rw [e4, Nat.mod_eq_of_lt (by omega)]; omega

theorem find_iff {r : List (Case n)} {cnt : Nat} (h : r.map (·.number) = List.range cnt) (k : Nat) (x : Case n) :
    r.find? (fun x => decide (x.number = k)) = some x ↔ x ∈ r ∧ x.number = k := by
  constructor
  · intro hf
    exact ⟨List.mem_of_find?_eq_some hf, by simpa using List.find?_some hf⟩
  · rintro ⟨hx, rfl⟩
    have hn : (r.map (·.number)).Nodup := by rw [h]; exact List.nodup_range
    cases hf : r.find? (fun y => decide (y.number = x.number)) with
    | none => have := List.find?_eq_none.1 hf x hx; simp at this
    | some y =>
      have hy := List.mem_of_find?_eq_some hf
      have he : y.number = x.number := by simpa using List.find?_some hf
      rw [List.inj_on_of_nodup_map hn hy hx he]

/-- **C132.** The numbers below the generated count are those for which there is an answer. Each answer is about a data
member that objects of the class have, with the place that the layout gives it; and each data member the objects have is the
answer for exactly one number. The numbers of the cases of the switch are different. -/
theorem C132_info (w : World n) (L : Fin n → Class) (c : Fin n) (anc : List (Fin n)) (g : Good w L c anc) :
    ∃ cnt, getCount w L (fun x => pack w L x) c = some cnt ∧
      (∀ r, classInfo w L (fun x => pack w L x) c = some r → (r.1.map (·.number)).Nodup) ∧
      (∀ k, (getInfo w L (fun x => pack w L x) c k).isSome = true ↔ k < cnt) ∧
      (∀ k x, getInfo w L (fun x => pack w L x) c k = some x → ∃ m rel, Has w L c x.owner x.member m ∧
        relativePosition w (fun x => pack w L x) c x.owner = some rel ∧ x.pos = rel + offset (L x.owner) x.member ∧
        x.pos + size m ≤ totalBits w L c) ∧
      ∀ b i m, Has w L c b i m → ∃ k x, getInfo w L (fun x => pack w L x) c k = some x ∧ x.owner = b ∧ x.member = i ∧
        ∀ k' x', getInfo w L (fun x => pack w L x) c k' = some x' → x'.owner = b → x'.member = i → k' = k := by
  obtain ⟨r, h1, h2, h3, h4, h5⟩ := whole g
  have hi : ∀ k x, getInfo w L (fun x => pack w L x) c k = some x ↔ x ∈ r.1 ∧ x.number = k := by
    intro k x
    unfold getInfo
    rw [h1, Option.bind_some, find_iff h2]
  refine ⟨r.2, by unfold getCount; rw [h1]; rfl, ?_, ?_, ?_, ?_⟩
  · intro r' hr
    rw [h1] at hr
    cases hr
    rw [h2]; exact List.nodup_range
  · intro k
    rw [Option.isSome_iff_exists, ← List.mem_range, ← h2, List.mem_map]
    simp only [hi]
  · intro k x hx
    exact h5 x ((hi k x).1 hx).1
  · rintro b i m ⟨hs, hm⟩
    obtain ⟨x, hx, he⟩ := List.mem_map.1 ((h4 b i).2 ⟨hs, (List.getElem?_eq_some_iff.1 hm).1⟩)
    cases he
    refine ⟨x.number, x, (hi _ _).2 ⟨hx, rfl⟩, rfl, rfl, ?_⟩
    intro k' x' hx' e1 e2
    obtain ⟨g1, g2⟩ := (hi _ _).1 hx'
    have : x' = x := List.inj_on_of_nodup_map h3 g1 hx (by simp only [e1, e2])
    rw [← g2, this]

/-- **C132.** If none of the ancestors is a union, the bits of different answers are different, and each bit of the object
belongs to one of them. -/
theorem C132_partition (w : World n) (L : Fin n → Class) (c : Fin n) (anc : List (Fin n)) (g : Good w L c anc)
    (hu : ∀ b, Ancestor w c b → (L b).isUnion = false) :
    (∀ k k' x x' m m' q, getInfo w L (fun x => pack w L x) c k = some x → getInfo w L (fun x => pack w L x) c k' = some x' →
      Has w L c x.owner x.member m → Has w L c x'.owner x'.member m' →
      Covers x.pos (size m) q → Covers x'.pos (size m') q → k = k') ∧
    ∀ q, q < totalBits w L c → ∃ k x m, getInfo w L (fun x => pack w L x) c k = some x ∧
      Has w L c x.owner x.member m ∧ Covers x.pos (size m) q := by
  obtain ⟨r, h1, h2, h3, h4, h5⟩ := whole g
  have hi : ∀ k x, getInfo w L (fun x => pack w L x) c k = some x ↔ x ∈ r.1 ∧ x.number = k := by
    intro k x
    unfold getInfo
    rw [h1, Option.bind_some, find_iff h2]
  have hu' : ∀ b, SelfOrAncestor w c b → (L b).isUnion = false := by
    intro b hb
    rcases Relation.reflTransGen_iff_eq_or_transGen.1 hb with rfl | ha
    · exact g.no_union
    · exact hu b ha
  obtain ⟨t1, p, t2, t4, _, t3⟩ := C15_layout_partial w L g.ok g.ac g.tb g.wf c g.cls.root g.cls.deref g.cls.defined g.no_union g.nd
    anc g.nodup g.mem_anc g.fit
  obtain ⟨own1, own2, _⟩ := t3 (fun x => pack w L x) t2
  -- in a class, the members are apart
  have apart : ∀ b, SelfOrAncestor w c b → ∀ i j m, i < j → j < (L b).members.length → (L b).members[i]? = some m →
      offset (L b) i + size m ≤ offset (L b) j := by
    intro b hb i j m hij hj hm
    obtain ⟨p', rel', f1, _, f3, f4, f5, _⟩ := place g b hb
    have c12 := C12_members_disjoint (L b) (g.wf b) (hu' b hb) (by omega)
    have hj' : (L b).members[j]? = some ((L b).members[j]) := List.getElem?_eq_getElem hj
    exact c12.2.2.2.1 i j _ _ m hij (offset_eq (L b) (g.wf b) (by omega) i m hm).1 hm
      (offset_eq (L b) (g.wf b) (by omega) j _ hj').1
  -- the bits of a member are bits of its class
  have inside : ∀ x ∈ r.1, ∀ m q, Has w L c x.owner x.member m → Covers x.pos (size m) q →
      (x.owner = c → q < ownBits (L c)) ∧ (x.owner ≠ c → ownBits (L c) ≤ q ∧
        Owns w L (fun x => pack w L x) p c (.ancestor x.owner) q) := by
    intro x hx m q hm hq
    obtain ⟨m', rel, g1, g2, g3, g4⟩ := h5 x hx
    obtain ⟨p', rel', f1, _, f3, f4, f5, f6, f7⟩ := place g x.owner hm.1
    rw [g2] at f3
    cases f3
    have o2 := (offset_eq (L x.owner) (g.wf _) (by omega) x.member m hm.2).2
    obtain ⟨q1, q2⟩ := hq
    constructor
    · intro e
      have := f6 e
      rw [e] at o2
      rw [e] at g3
      omega
    · intro e
      have := f7 e
      refine ⟨by omega, ?_, rel, g2, ⟨by omega, by omega⟩⟩
      rcases Relation.reflTransGen_iff_eq_or_transGen.1 hm.1 with h | h
      · exact absurd h e
      · exact h
  constructor
  · intro k k' x x' m m' q hk hk' hm hm' hq hq'
    obtain ⟨hx, rfl⟩ := (hi k x).1 hk
    obtain ⟨hx', rfl⟩ := (hi k' x').1 hk'
    have ho : x.owner = x'.owner := by
      obtain ⟨a1, a2⟩ := inside x hx m q hm hq
      obtain ⟨b1, b2⟩ := inside x' hx' m' q hm' hq'
      by_cases e : x.owner = c
      · by_cases e' : x'.owner = c
        · rw [e, e']
        · have := a1 e; have := (b2 e').1; omega
      · by_cases e' : x'.owner = c
        · have := b1 e'; have := (a2 e).1; omega
        · have := own2 q _ _ (a2 e).2 (b2 e').2
          exact Owner.ancestor.inj this
    obtain ⟨_, rel, g1, g2, g3, g4⟩ := h5 x hx
    obtain ⟨_, rel', g1', g2', g3', g4'⟩ := h5 x' hx'
    rw [← ho, g2] at g2'
    cases g2'
    rw [← ho] at g3' hm'
    obtain ⟨q1, q2⟩ := hq
    obtain ⟨q1', q2'⟩ := hq'
    have hmem : x.member = x'.member := by
      rcases Nat.lt_trichotomy x.member x'.member with h | h | h
      · have := apart x.owner hm.1 _ _ m h (List.getElem?_eq_some_iff.1 hm'.2).1 hm.2
        omega
      · exact h
      · have := apart x.owner hm.1 _ _ m' h (List.getElem?_eq_some_iff.1 hm.2).1 hm'.2
        omega
    rw [List.inj_on_of_nodup_map h3 hx hx' (by simp only [ho, hmem])]
  · intro q hq
    -- the class that has the bit, and its member
    have hcls : ∃ b, SelfOrAncestor w c b ∧ ∃ rel, relativePosition w (fun x => pack w L x) c b = some rel ∧
        Covers rel (ownBits (L b)) q := by
      by_cases hc : q < ownBits (L c)
      · exact ⟨c, .refl, 0, (C15_query w g.ok _ c c).1 rfl, Nat.zero_le _, by omega⟩
      · obtain ⟨o, ho⟩ := (own1 q).2 hq
        cases o with
        | member i =>
          obtain ⟨q', m, e1, e2, e3⟩ := ho
          have o2 := offset_eq (L c) (g.wf c) (by have := g.fit; omega) i m e2
          rw [pack_members t2, o2.1] at e1
          cases e1
          exact absurd (by have := o2.2; obtain ⟨_, e4⟩ := e3; omega) hc
        | ancestor a =>
          obtain ⟨ha, rel, e1, e2⟩ := ho
          exact ⟨a, ha.to_reflTransGen, rel, e1, e2⟩
    obtain ⟨b, hb, rel, e1, e2, e3⟩ := hcls
    obtain ⟨p', rel', f1, _, f3, f4, f5, _⟩ := place g b hb
    rw [e1] at f3
    cases f3
    have c12 := C12_members_disjoint (L b) (g.wf b) (hu' b hb) (by omega)
    rw [myBits_eq (L b) (g.wf b) (by omega)] at c12
    obtain ⟨i, off, m, d1, d2, d3, d4⟩ := c12.2.2.2.2 (q - rel) (by omega)
    rw [(offset_eq (L b) (g.wf b) (by omega) i m d2).1] at d1
    cases d1
    obtain ⟨x, hx, he⟩ := List.mem_map.1 ((h4 b i).2 ⟨hb, (List.getElem?_eq_some_iff.1 d2).1⟩)
    cases he
    obtain ⟨_, rel', g1, g2, g3, g4⟩ := h5 x hx
    rw [e1] at g2
    cases g2
    exact ⟨x.number, x, m, (hi _ _).2 ⟨hx, rfl⟩, ⟨hb, d2⟩, by omega, by omega⟩

/-! ## A case: the diamond of `Verif/Layout/Props.lean` -/

theorem vee_good : Good vee (veeClasses false) 1 [2, 3, 4] :=
  ⟨vee_ok, vee_acyclic, vee_tables false, vee_wf false, vee_class 1 (by decide), by unfold NoDuplicates; decide, rfl, by decide,
    vee_anc, fun a ha => by
      have := (vee_anc a).2 ha
      simp only [List.mem_cons, List.not_mem_nil, or_false] at this
      rcases this with rfl | rfl | rfl <;> decide +kernel, by decide⟩

example : classInfo vee (veeClasses false) (fun x => pack vee (veeClasses false) x) 1 =
    some ([⟨0, 1, 0, 0⟩, ⟨1, 2, 0, 1⟩, ⟨2, 3, 0, 3⟩, ⟨3, 4, 0, 6⟩], 4) := by decide +kernel

example : ∀ b, Ancestor vee 1 b → (veeClasses false b).isUnion = false := fun _ _ => rfl

end Ulam.ClassInfo
