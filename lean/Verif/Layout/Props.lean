import Verif.Layout.Lemmas
/-! # C12, C15: layout of data members and of base classes -/
namespace Ulam.Layout
open Walker Walker.Spec Spec
variable {n : Nat}

/-! ## C12 -/

def sampleMembers : List Member := [⟨false, 3, none⟩, ⟨true, 40, some 2⟩, ⟨false, 5, some 4⟩, ⟨false, 0, none⟩]

/-- A transient with an array of elements among its members; the symbol table has another order. -/
def sampleTransient : Class := ⟨.transient, false, sampleMembers, sampleMembers.reverse⟩

/-- A union. -/
def sampleUnion : Class := ⟨.quark, true, [⟨false, 3, none⟩, ⟨false, 5, some 4⟩], [⟨false, 5, some 4⟩, ⟨false, 3, none⟩]⟩

theorem sampleTransient_wf : Wf sampleTransient :=
  ⟨fun _ _ _ => rfl, fun h => (nomatch h), List.reverse_perm _⟩

theorem sampleUnion_wf : Wf sampleUnion := by
  refine ⟨fun m h1 h2 => ?_, fun _ => rfl, List.Perm.swap _ _ _⟩
  simp only [sampleUnion, List.mem_cons, List.not_mem_nil, or_false] at h1
  rcases h1 with rfl | rfl <;> cases h2

/-- **C12.** Outside unions each member begins where the previous one ends, the first at 0 and the last one ends at the size
of the class's own data: the ranges are disjoint, in declaration order, inside the size, without gaps. -/
theorem C12_members_disjoint (k : Class) (wf : Wf k) (hu : k.isUnion = false) (fit : ownBits k < 2 ^ 32) :
    (packMembers k.isUnion 0 k.members).1.length = k.members.length ∧
    (packMembers k.isUnion 0 k.members).2 = myBits k ∧
    (∀ (i p : Nat) (m : Member), (packMembers k.isUnion 0 k.members).1[i]? = some p → k.members[i]? = some m → p + size m ≤ myBits k) ∧
    (∀ (i j p q : Nat) (m : Member), i < j → (packMembers k.isUnion 0 k.members).1[i]? = some p → k.members[i]? = some m →
      (packMembers k.isUnion 0 k.members).1[j]? = some q → p + size m ≤ q) ∧
    (∀ x, x < myBits k → ∃ (i p : Nat) (m : Member), (packMembers k.isUnion 0 k.members).1[i]? = some p ∧ k.members[i]? = some m ∧
      Covers p (size m) x) := by
  have hown : ownBits k = (k.members.map size).sum := by unfold ownBits; rw [hu]; rfl
  rw [myBits_eq k wf fit, hu, packMembers_eq 0 k.members (by rw [← hown]; omega), Nat.zero_add, ← hown]
  have hlen := starts_length 0 (k.members.map size)
  refine ⟨by simpa using hlen, rfl, ?_, ?_, ?_⟩
  · intro i p m h1 h2
    have hi : i < k.members.length := by
      by_contra q
      rw [List.getElem?_eq_none (by omega)] at h2; cases h2
    have h3 := starts_get 0 (k.members.map size) i (by simpa using hi)
    rw [h1, Option.some.injEq] at h3
    have h4 : ((k.members.map size).take (i + 1)).sum = ((k.members.map size).take i).sum + size m := by
      rw [List.take_succ, List.getElem?_map, h2]; simp
    have h5 := List.take_append_drop (i + 1) (k.members.map size)
    have h6 : (k.members.map size).sum = ((k.members.map size).take (i + 1)).sum + ((k.members.map size).drop (i + 1)).sum := by
      rw [← List.sum_append, h5]
    rw [hown]; omega
  · intro i j p q m hij h1 h2 h3
    have hj : j < (k.members.map size).length := by
      by_contra r
      rw [List.getElem?_eq_none (by rw [hlen]; omega)] at h3; cases h3
    have e1 := starts_get 0 (k.members.map size) i (by omega)
    have e2 := starts_get 0 (k.members.map size) j hj
    rw [h1, Option.some.injEq] at e1
    rw [h3, Option.some.injEq] at e2
    have h4 : ((k.members.map size).take (i + 1)).sum = ((k.members.map size).take i).sum + size m := by
      rw [List.take_succ, List.getElem?_map, h2]; simp
    have h5 : (k.members.map size).take j = (k.members.map size).take (i + 1) ++ ((k.members.map size).take j).drop (i + 1) := by
      conv => lhs; rw [← List.take_append_drop (i + 1) ((k.members.map size).take j)]
      rw [List.take_take, Nat.min_eq_left (by omega)]
    have h6 : ((k.members.map size).take j).sum = ((k.members.map size).take (i + 1)).sum + (((k.members.map size).take j).drop (i + 1)).sum := by
      conv => lhs; rw [h5]
      rw [List.sum_append]
    omega
  · intro x hx
    obtain ⟨i, q, s, h1, h2, h3⟩ := (starts_cover 0 (k.members.map size) x).2 ⟨by omega, by omega⟩
    rw [List.getElem?_map, Option.map_eq_some_iff] at h2
    obtain ⟨m, h4, rfl⟩ := h2
    exact ⟨i, q, m, h1, h4, h3⟩

example : Wf sampleTransient ∧ ownBits sampleTransient < 2 ^ 32 ∧
    (packMembers sampleTransient.isUnion 0 sampleTransient.members).1 = [0, 3, 195, 215] ∧ myBits sampleTransient = 215 :=
  ⟨sampleTransient_wf, by decide +kernel⟩

/-- **C12.** In a union all members begin at 0 and fit in the size, which is that of the largest one. -/
theorem C12_union (k : Class) (wf : Wf k) (hu : k.isUnion = true) (fit : ownBits k < 2 ^ 32) :
    (packMembers k.isUnion 0 k.members).1 = List.replicate k.members.length 0 ∧
    (∀ m ∈ k.members, size m ≤ myBits k) ∧ (k.members ≠ [] → ∃ m ∈ k.members, myBits k = size m) := by
  have hown : ownBits k = (k.members.map size).foldr max 0 := by unfold ownBits; rw [hu]; rfl
  rw [myBits_eq k wf fit, hu, packMembers_union, hown]
  refine ⟨rfl, fun m hm => le_foldr_max (List.mem_map_of_mem hm), ?_⟩
  intro h
  generalize k.members = l at h
  clear hown
  induction l with
  | nil => exact absurd rfl h
  | cons m l ih =>
    simp only [List.map_cons, List.foldr_cons]
    by_cases hl : l = []
    · subst hl; exact ⟨m, by simp, by simp⟩
    · obtain ⟨x, h1, h2⟩ := ih hl
      rw [h2]
      rcases Nat.le_total (size m) (size x) with q | q
      · exact ⟨x, by simp [h1], by omega⟩
      · exact ⟨m, by simp, by omega⟩

example : Wf sampleUnion ∧ sampleUnion.isUnion = true ∧ ownBits sampleUnion < 2 ^ 32 ∧ myBits sampleUnion = 20 :=
  ⟨sampleUnion_wf, by decide +kernel⟩

/-! ## C15 -/

/-- Which part of an object of class `c`, laid out as `p`, owns bit `x`. The place of an ancestor is the answer to a query. -/
def Owns (w : World n) (L : Fin n → Class) (P : Fin n → Option Packed) (p : Packed) (c : Fin n) (o : Owner n) (x : Nat) : Prop :=
  match o with
  | .member i => ∃ q m, p.members[i]? = some q ∧ (L c).members[i]? = some m ∧ Covers q (size m) x
  | .ancestor a => Ancestor w c a ∧ ∃ q, relativePosition w P c a = some q ∧ Covers q (ownBits (L a)) x

theorem anc_props {w : World n} {L : Fin n → Class} (tb : Tables w L) {c a : Fin n} (h : Ancestor w c a) :
    w.root a = a ∧ w.deref a = a ∧ a ≠ w.nouti ∧ w.defined a = true ∧ (L a).kind ≠ .element := by
  obtain ⟨x, _, _, _, e, he, h1, h2⟩ := (ancestor_iff _ _).1 h
  have hr := tb.rooted x e he
  rw [hr] at h2
  subst h2
  exact ⟨hr, tb.no_reference x e he, h1, tb.known x e he h1, tb.no_element x e he h1⟩

theorem baseItem_direct {w : World n} {L : Fin n → Class} (tb : Tables w L) (c b : Fin n) (hb : w.root b = b) :
    (baseItem w c b = none ↔ b ∉ direct w (w.table c)) ∧
    ∀ i, baseItem w c b = some i → ∃ e, (w.table c)[i]? = some e ∧ e.base = b ∧ e.base ≠ w.nouti := by
  constructor
  · unfold baseItem direct
    rw [List.findIdx?_eq_none_iff, List.mem_filter, List.mem_map]
    constructor
    · rintro h ⟨⟨e, he, rfl⟩, h2⟩
      have := h e he
      rw [decide_eq_false_iff_not] at this
      exact this ⟨of_decide_eq_true h2, rfl⟩
    · intro h e he
      rw [decide_eq_false_iff_not]
      rintro ⟨h1, h2⟩
      rw [tb.rooted c e he, hb] at h2
      exact h ⟨⟨e, he, h2⟩, by rw [decide_eq_true_iff, ← h2]; exact h1⟩
  · intro i h
    unfold baseItem at h
    rw [List.findIdx?_eq_some_iff_getElem] at h
    obtain ⟨hi, h1, _⟩ := h
    have h2 := of_decide_eq_true h1
    refine ⟨(w.table c)[i], List.getElem?_eq_getElem hi, ?_, h2.1⟩
    have := h2.2
    rwa [tb.rooted c _ (List.getElem_mem hi), hb] at this

/-- **C15.** The layout of a class that is not a union: it exists; the parts owned by its data members and by its ancestors,
each placed where the compiler's query says, are disjoint, and together fill exactly the size computed for the class. -/
theorem C15_layout_partial (w : World n) (L : Fin n → Class) (ok : Ok w) (ac : Acyclic w) (tb : Tables w L) (wf : ∀ x, Wf (L x))
    (c : Fin n) (hc : w.root c = c) (hc' : w.deref c = c) (hd : w.defined c = true) (hu : (L c).isUnion = false) (nd : NoDuplicates w c)
    (anc : List (Fin n)) (and : anc.Nodup) (hanc : ∀ a, a ∈ anc ↔ Ancestor w c a)
    (fit : ownBits (L c) + (anc.map fun a => ownBits (L a)).sum < 2 ^ 32) :
    totalBits w L c = ownBits (L c) + (anc.map fun a => ownBits (L a)).sum ∧
    ∃ p, pack w L c = some p ∧ p.members.length = (L c).members.length ∧ p.stop = totalBits w L c ∧
      ∀ P : Fin n → Option Packed, P c = some p →
        (∀ x, (∃ o, Owns w L P p c o x) ↔ x < totalBits w L c) ∧
        (∀ x o o', Owns w L P p c o x → Owns w L P p c o' x → o = o') ∧
        ∀ a, Ancestor w c a → ∃ q, relativePosition w P c a = some q ∧ ownBits (L c) ≤ q ∧ q + ownBits (L a) ≤ totalBits w L c := by
  have hS : ∀ y, y ∈ sharedTable w c ↔ Ancestor w c y := by
    intro y; rw [mem_sharedTable ok tb.shared, hc', hc]
  have hperm : (sharedTable w c).Perm anc :=
    (List.perm_ext_iff_of_nodup (sharedTable_nodup w c) and).2 fun y => by rw [hS, hanc]
  have hown : ∀ a ∈ anc, ownBits (L a) ≤ (anc.map fun a => ownBits (L a)).sum := fun a ha =>
    le_sum (List.mem_map_of_mem (f := fun a => ownBits (L a)) ha)
  have hbase : ∀ a, Ancestor w c a → baseBits L a = ownBits (L a) := by
    intro a ha
    unfold baseBits
    rw [if_neg (anc_props tb ha).2.2.2.2, myBits_eq _ (wf a)]
    have := hown a ((hanc a).2 ha); omega
  have hmapSum : ∀ l : List (Fin n), (∀ a ∈ l, Ancestor w c a) → (l.map (baseBits L)) = l.map fun a => ownBits (L a) :=
    fun l hl => List.map_congr_left fun a ha => hbase a (hl a ha)
  have hshared : ((sharedTable w c).map (baseBits L)).sum = (anc.map fun a => ownBits (L a)).sum := by
    rw [hmapSum _ fun a ha => (hS a).1 ha]
    exact sum_perm (hperm.map _)
  have htotal : totalBits w L c = ownBits (L c) + (anc.map fun a => ownBits (L a)).sum := by
    unfold totalBits sharedBits
    rw [foldl_add (baseBits L) _ 0 (by rw [hshared]; omega), hshared, myBits_eq _ (wf c) (by omega), Nat.zero_add]
    exact Nat.mod_eq_of_lt fit
  refine ⟨htotal, ?_⟩
  have hmem : ownBits (L c) = ((L c).members.map size).sum := by unfold ownBits; rw [hu]; rfl
  -- direct and indirect bases
  have hdirect : ∀ b ∈ direct w (w.table c), Ancestor w c b := by
    intro b hb
    unfold direct at hb
    rw [List.mem_filter, List.mem_map] at hb
    obtain ⟨⟨e, he, rfl⟩, h2⟩ := hb
    exact Relation.TransGen.single ⟨hd, e, he, of_decide_eq_true h2, tb.rooted c e he⟩
  have hitem : ∀ a, Ancestor w c a → (baseItem w c a = none ↔ a ∉ direct w (w.table c)) := fun a ha =>
    (baseItem_direct tb c a (anc_props tb ha).1).1
  have hperm2 : (direct w (w.table c) ++ (sharedTable w c).filter fun b => (baseItem w c b).isNone).Perm anc := by
    refine (List.perm_ext_iff_of_nodup ?_ and).2 fun a => ?_
    · refine List.Nodup.append nd ((sharedTable_nodup w c).filter _) ?_
      intro a h1 h2
      rw [List.mem_filter, Option.isNone_iff_eq_none] at h2
      exact (hitem a (hdirect a h1)).1 h2.2 h1
    · rw [hanc, List.mem_append, List.mem_filter, hS, Option.isNone_iff_eq_none]
      constructor
      · rintro (h | h)
        · exact hdirect a h
        · exact h.1
      · intro h
        by_cases ha : a ∈ direct w (w.table c)
        · exact .inl ha
        · exact .inr ⟨h, (hitem a h).2 ha⟩
  generalize hN : ((sharedTable w c).filter fun b => (baseItem w c b).isNone) = N at hperm2
  have hsum2 : ((direct w (w.table c)).map (baseBits L)).sum + (N.map (baseBits L)).sum = (anc.map fun a => ownBits (L a)).sum := by
    rw [← List.sum_append, ← List.map_append, hmapSum _ fun a ha => (hanc a).1 (hperm2.mem_iff.1 ha)]
    exact sum_perm (hperm2.map _)
  have hpm := packMembers_eq 0 (L c).members (by rw [← hmem]; omega)
  rw [Nat.zero_add, ← hmem] at hpm
  obtain ⟨bp, m, e1, e2, e3⟩ := packBases_ok w L (ownBits (L c)) (fun _ => none) (w.table c) nd (fun _ _ => rfl) (by omega)
  have hps := packShared_ok w L c bp m (ownBits (L c) + ((direct w (w.table c)).map (baseBits L)).sum) (sharedTable w c)
    (sharedTable_nodup w c) (fun b h1 h2 => by
      rw [e2, (posIn_none _ _ _ _).2 ((hitem b ((hS b).1 h1)).1 h2)]; rfl) (by rw [hN]; omega)
  rw [hN] at hps
  obtain ⟨s1, s2⟩ := hps
  generalize hsh : packShared w L c bp m (ownBits (L c) + ((direct w (w.table c)).map (baseBits L)).sum) (sharedTable w c) = sh at s1 s2
  refine ⟨⟨starts 0 ((L c).members.map size), bp, sh.1, sh.2⟩, ?_, ?_, ?_, ?_⟩
  · unfold pack
    rw [hu, hpm]
    simp only [e1, hsh]
  · simp [starts_length]
  · simp only
    rw [s1, htotal]; omega
  · intro P hP
    have hpos : ∀ a, Ancestor w c a → relativePosition w P c a =
        posIn (baseBits L) (ownBits (L c)) (direct w (w.table c) ++ N) a := by
      intro a ha
      obtain ⟨p1, p2, p3, p4, p5⟩ := anc_props tb ha
      have hne : ¬ c = a := by
        intro q; rw [← q] at ha; exact ac c ha
      unfold relativePosition
      rw [hc', p2, hc, p1, if_neg hne, relLoop_found ok P c a (by rw [hc, p1]; exact ha), hc, hP, posIn_append]
      cases hb : baseItem w c a with
      | some i =>
        obtain ⟨e, k1, k2, k3⟩ := (baseItem_direct tb c a p1).2 i hb
        have hin : a ∈ direct w (w.table c) := by
          by_contra q
          rw [(hitem a ha).2 q] at hb; cases hb
        simp only [Option.bind_some]
        rw [e3 i e k1 k3, k2]
        cases hq : posIn (baseBits L) (ownBits (L c)) (direct w (w.table c)) a with
        | none => exact absurd hin ((posIn_none _ _ _ _).1 hq)
        | some q => rfl
      | none =>
        have hin := (hitem a ha).1 hb
        simp only
        rw [(posIn_none _ _ _ _).2 hin, Option.none_or]
        have hsh : ∃ j, sharedItem w c a = some j ∧ (sharedTable w c)[j]? = some a := by
          cases hj : sharedItem w c a with
          | none =>
            exfalso
            unfold sharedItem at hj
            rw [List.findIdx?_eq_none_iff] at hj
            have := hj a ((hS a).2 ha)
            rw [decide_eq_false_iff_not] at this
            exact this ⟨p3, rfl⟩
          | some j =>
            unfold sharedItem at hj
            rw [List.findIdx?_eq_some_iff_getElem] at hj
            obtain ⟨hi, h1, _⟩ := hj
            have h2 := of_decide_eq_true h1
            refine ⟨j, rfl, ?_⟩
            rw [List.getElem?_eq_getElem hi]
            congr 1
            have h3 := anc_props tb ((hS _).1 (List.getElem_mem hi))
            rw [← h3.1, h2.2, p1]
        obtain ⟨j, j1, j2⟩ := hsh
        rw [j1]
        simp only [Option.bind_some]
        rw [s2 j a j2, hb]
    have hcovA : ∀ x, (∃ a, Owns w L P ⟨starts 0 ((L c).members.map size), bp, sh.1, sh.2⟩ c (.ancestor a) x) ↔ ownBits (L c) ≤ x ∧ x < totalBits w L c := by
      intro x
      rw [htotal, ← hsum2, ← List.sum_append, ← List.map_append, ← posIn_cover _ _ _ (hperm2.nodup_iff.2 and)]
      constructor
      · rintro ⟨a, h1, q, h2, h3⟩
        rw [hpos a h1] at h2
        exact ⟨a, q, h2, by rw [hbase a h1]; exact h3⟩
      · rintro ⟨a, q, h2, h3⟩
        have ha : Ancestor w c a := by
          rw [← hanc, ← hperm2.mem_iff]
          by_contra r
          rw [(posIn_none _ _ _ _).2 r] at h2; cases h2
        exact ⟨a, ha, q, by rw [hpos a ha]; exact h2, by rw [← hbase a ha]; exact h3⟩
    have hcovM : ∀ x, (∃ i, Owns w L P ⟨starts 0 ((L c).members.map size), bp, sh.1, sh.2⟩ c (.member i) x) ↔ x < ownBits (L c) := by
      intro x
      have := starts_cover 0 ((L c).members.map size) x
      rw [Nat.zero_add, ← hmem] at this
      constructor
      · rintro ⟨i, q, mm, h1, h2, h3⟩
        exact (this.1 ⟨i, q, size mm, h1, by rw [List.getElem?_map, h2]; rfl, h3⟩).2
      · intro h
        obtain ⟨i, q, s, h1, h2, h3⟩ := this.2 ⟨Nat.zero_le _, h⟩
        rw [List.getElem?_map, Option.map_eq_some_iff] at h2
        obtain ⟨mm, h4, rfl⟩ := h2
        exact ⟨i, q, mm, h1, h4, h3⟩
    refine ⟨?_, ?_, ?_⟩
    · intro x
      constructor
      · rintro ⟨o, ho⟩
        cases o with
        | member i => have := (hcovM x).1 ⟨i, ho⟩; omega
        | ancestor a => exact ((hcovA x).1 ⟨a, ho⟩).2
      · intro h
        by_cases hx : x < ownBits (L c)
        · obtain ⟨i, hi⟩ := (hcovM x).2 hx
          exact ⟨_, hi⟩
        · obtain ⟨a, ha⟩ := (hcovA x).2 ⟨by omega, h⟩
          exact ⟨_, ha⟩
    · intro x o o' h1 h2
      cases o with
      | member i =>
        cases o' with
        | member j =>
          obtain ⟨q, mm, a1, a2, a3⟩ := h1
          obtain ⟨r, mm', b1, b2, b3⟩ := h2
          rw [starts_unique 0 ((L c).members.map size) x i j q r (size mm) (size mm') a1 (by rw [List.getElem?_map, a2]; rfl) a3 b1
            (by rw [List.getElem?_map, b2]; rfl) b3]
        | ancestor a =>
          have k1 := (hcovM x).1 ⟨i, h1⟩
          have k2 := (hcovA x).1 ⟨a, h2⟩
          omega
      | ancestor a =>
        cases o' with
        | member j =>
          have k1 := (hcovM x).1 ⟨j, h2⟩
          have k2 := (hcovA x).1 ⟨a, h1⟩
          omega
        | ancestor b =>
          obtain ⟨a0, q, a1, a2⟩ := h1
          obtain ⟨b0, r, b1, b2⟩ := h2
          rw [hpos a a0] at a1
          rw [hpos b b0] at b1
          rw [← hbase a a0] at a2
          rw [← hbase b b0] at b2
          rw [posIn_unique _ _ _ x a b q r a1 a2 b1 b2]
    · intro a ha
      rw [hpos a ha]
      cases hq : posIn (baseBits L) (ownBits (L c)) (direct w (w.table c) ++ N) a with
      | none => exact absurd (hperm2.mem_iff.2 ((hanc a).2 ha)) ((posIn_none _ _ _ _).1 hq)
      | some q =>
        have := posIn_bound _ _ _ _ _ hq
        rw [List.map_append, List.sum_append, hsum2, hbase a ha] at this
        exact ⟨q, rfl, this.1, by rw [htotal]; exact this.2⟩

/-- A diamond over 4: class 1 inherits 2 and 3, both inherit 4. -/
def vee : World 6 where
  nouti := 0
  root := id
  deref := id
  defined := fun x => x ≠ 0
  table := fun x => if x = 1 then [⟨0, 1⟩, ⟨2, 1⟩, ⟨3, 1⟩] else if x = 2 then [⟨4, 1⟩] else if x = 3 then [⟨0, 1⟩, ⟨4, 1⟩] else [⟨0, 1⟩]
  name := fun x => x

/-- Class `x` has one member of `x` bits. -/
def veeClasses (isUnion : Bool) : Fin 6 → Class := fun x =>
  ⟨.quark, isUnion && decide (x = 1), [⟨false, x.val, none⟩], [⟨false, x.val, none⟩]⟩

theorem vee_ok : Ok vee := ⟨fun _ => rfl, rfl⟩

theorem vee_acyclic : Acyclic vee := by
  have up : ∀ x y : Fin 6, Base vee x y → x < y := by
    unfold Base; decide
  intro x h
  have : ∀ y, Ancestor vee x y → x < y := by
    intro y hy
    induction hy with
    | single h => exact up _ _ h
    | tail _ h ih => exact Nat.lt_trans ih (up _ _ h)
  exact absurd (this x h) (Nat.lt_irrefl _)

theorem vee_tables (u : Bool) : Tables vee (veeClasses u) :=
  ⟨fun _ _ _ => rfl, fun _ _ _ => rfl, fun c e _ h => by simpa [vee] using h, by decide, fun _ _ _ _ h => by cases h⟩

theorem vee_wf (u : Bool) (x : Fin 6) : Wf (veeClasses u x) := by
  refine ⟨fun m h1 h2 => ?_, fun _ => rfl, List.Perm.refl _⟩
  simp only [veeClasses, List.mem_singleton] at h1
  rw [h1] at h2; cases h2

theorem vee_anc (a : Fin 6) : a ∈ [(2 : Fin 6), 3, 4] ↔ Ancestor vee 1 a := by
  have h := mem_sharedTable vee_ok (vee_tables true).shared 1 a
  have e : sharedTable vee 1 = [2, 3, 4] := by decide +kernel
  rw [e] at h
  exact h

/-- The hypotheses of `C15_layout_partial` hold for the diamond, whose parts lie at 1, 3 and 6 in 10 bits. -/
example : totalBits vee (veeClasses false) 1 = 10 ∧ (pack vee (veeClasses false) 1).map (fun p => (p.members, p.bases, p.shared, p.stop)) =
      some ([0], [none, some 1, some 3], [some 1, some 3, some 6], 10) ∧
    ∃ p, pack vee (veeClasses false) 1 = some p ∧ ∀ P : Fin 6 → Option Packed, P 1 = some p →
      ∀ x, (∃ o, Owns vee (veeClasses false) P p 1 o x) ↔ x < 10 := by
  have ht : totalBits vee (veeClasses false) 1 = 10 := by decide +kernel
  refine ⟨ht, by decide +kernel, ?_⟩
  obtain ⟨_, p, h1, _, _, h2⟩ := C15_layout_partial vee (veeClasses false) vee_ok vee_acyclic (vee_tables false) (vee_wf false) 1 rfl rfl
    rfl rfl (by unfold NoDuplicates; decide) [2, 3, 4] (by decide) vee_anc (by decide)
  rw [ht] at h2
  exact ⟨p, h1, fun P hP => (h2 P hP).1⟩

/-- **C15.** What is missing above: in a union the bases are placed over the members. Here class 1 is a union with a member of
one bit; its base 2 is at the same place, although the size has room for both. -/
theorem C15_union_overlaps_bases : ∃ (w : World 6) (L : Fin 6 → Class) (c a : Fin 6) (p : Packed), Ok w ∧ Acyclic w ∧ Tables w L ∧
    (∀ x, Wf (L x)) ∧ NoDuplicates w c ∧ (L c).isUnion = true ∧ pack w L c = some p ∧ Ancestor w c a ∧
    Owns w L (fun x => pack w L x) p c (.member 0) 0 ∧ Owns w L (fun x => pack w L x) p c (.ancestor a) 0 ∧
    totalBits w L c = 10 ∧ p.stop = 9 := by
  have hp : pack vee (veeClasses true) 1 = some ⟨[0], [none, some 0, some 2], [some 0, some 2, some 5], 9⟩ := by
    unfold pack
    have h1 : packMembers (veeClasses true 1).isUnion 0 (veeClasses true 1).members = ([0], 0) := by decide
    have h2 : sharedTable vee 1 = [2, 3, 4] := by decide +kernel
    rw [h1, h2]
    rfl
  have ha : Ancestor vee 1 2 := (vee_anc 2).1 (by simp)
  refine ⟨vee, veeClasses true, 1, 2, _, vee_ok, vee_acyclic, vee_tables true, vee_wf true, by unfold NoDuplicates; decide, rfl, hp, ha, ?_, ?_, by decide +kernel, rfl⟩
  · exact ⟨0, _, rfl, rfl, Nat.le_refl _, by decide⟩
  · refine ⟨ha, 0, ?_, Nat.le_refl _, by decide⟩
    unfold relativePosition
    rw [if_neg (by decide), show vee.deref 1 = 1 from rfl, show vee.deref 2 = 2 from rfl, relLoop_found vee_ok _ 1 2 ha]
    rw [show vee.root 1 = 1 from rfl, hp]
    rfl

/-- **C15.** A class that lists a base twice gets no layout (the compiler reports an error), and no other class is refused for
that reason. -/
theorem C15_duplicate_refused (w : World n) (L : Fin n → Class) (c : Fin n) (h : ¬ NoDuplicates w c) : pack w L c = none := by
  unfold pack
  cases hb : packBases w L (packMembers (L c).isUnion 0 (L c).members).2 (fun _ => none) (w.table c) with
  | none => simp only [hb]
  | some r => exact absurd (packBases_dup w L _ _ _ (by rw [hb]; simp)).1 h

example : ∃ w : World 6, ¬ NoDuplicates w 1 := ⟨{ vee with table := fun _ => [⟨2, 1⟩, ⟨2, 1⟩] }, by unfold NoDuplicates; decide⟩

/-- **C15.** The query for the place of `b` in `c` answers 0 for `c` itself and "no" for everything that is not an ancestor. -/
theorem C15_query (w : World n) (ok : Ok w) (P : Fin n → Option Packed) (c b : Fin n) :
    (w.root (w.deref b) = w.root (w.deref c) → relativePosition w P c b = some 0) ∧
    (¬ SelfOrAncestor w (w.root (w.deref c)) (w.root (w.deref b)) → relativePosition w P c b = none) := by
  unfold relativePosition
  refine ⟨fun h => by rw [if_pos h.symm], fun h => ?_⟩
  rw [if_neg (by intro q; rw [q] at h; exact h .refl)]
  refine relLoop_none ok P _ _ ?_
  intro y hy
  simp only [init, List.mem_singleton] at hy
  subst hy
  exact fun q => h q.to_reflTransGen

example : relativePosition vee (fun x => pack vee (veeClasses false) x) 1 4 = some 6 ∧
    relativePosition vee (fun x => pack vee (veeClasses false) x) 1 5 = none ∧
    relativePosition vee (fun x => pack vee (veeClasses false) x) 2 1 = none := by decide +kernel

end Ulam.Layout
