import Verif.ClassInfo.Model
import Verif.ClassInfo.Spec
import Verif.Related.Props
/-! # Helper lemmas for the information on data members -/
namespace Ulam.ClassInfo
open Walker Walker.Spec Layout Layout.Spec Related Related.Spec
variable {n : Nat}

/-- The members of a list of classes. -/
def entries (L : Fin n → Class) (l : List (Fin n)) : List (Fin n × Nat) :=
  l.flatMap fun b => (List.range (L b).members.length).map fun i => (b, i)

theorem mem_entries (L : Fin n → Class) (l : List (Fin n)) (b : Fin n) (i : Nat) :
    (b, i) ∈ entries L l ↔ b ∈ l ∧ i < (L b).members.length := by
  simp only [entries, List.mem_flatMap, List.mem_map, List.mem_range, Prod.mk.injEq]
  constructor
  · rintro ⟨a, ha, j, hj, rfl, rfl⟩; exact ⟨ha, hj⟩
  · rintro ⟨hb, hi⟩; exact ⟨b, hb, i, hi, rfl, rfl⟩

theorem entries_nodup (L : Fin n → Class) (l : List (Fin n)) (nd : l.Nodup) : (entries L l).Nodup := by
  induction l with
  | nil => exact List.nodup_nil
  | cons b l ih =>
    rw [List.nodup_cons] at nd
    unfold entries at ih ⊢
    rw [List.flatMap_cons]
    refine List.Nodup.append ?_ (ih nd.2) ?_
    · exact (List.nodup_range).map fun x y h => (Prod.mk.inj h).2
    · intro x h1 h2
      obtain ⟨a, i⟩ := x
      have h3 := (mem_entries L l a i).1 h2
      rw [List.mem_map] at h1
      obtain ⟨j, _, h4⟩ := h1
      cases h4
      exact nd.1 h3.1

/-- What is known of cases that stand for `es` and are numbered from `k`. -/
structure Right (w : World n) (P : Fin n → Option Packed) (c : Fin n) (k : Nat) (es : List (Fin n × Nat))
    (r : List (Case n) × Nat) : Prop where
  what : r.1.map (fun x => (x.owner, x.member)) = es
  number : r.1.map (·.number) = List.range' k es.length
  count : r.2 = k + es.length
  pos : ∀ x ∈ r.1, ∃ p off rel, P x.owner = some p ∧ p.members[x.member]? = some off ∧
    relativePosition w P c x.owner = some rel ∧ x.pos = (off + rel) % 2 ^ 32

theorem Right.append {w : World n} {P : Fin n → Option Packed} {c : Fin n} {k : Nat} {es fs : List (Fin n × Nat)}
    {r s : List (Case n) × Nat} (h1 : Right w P c k es r) (h2 : Right w P c r.2 fs s) :
    Right w P c k (es ++ fs) (r.1 ++ s.1, s.2) := by
  refine ⟨by rw [List.map_append, h1.what, h2.what], ?_, ?_, ?_⟩
  · rw [List.map_append, h1.number, h2.number, h1.count, List.length_append, List.range'_append_1]
  · simp only
    rw [h2.count, h1.count, List.length_append]; omega
  · intro x hx
    rcases List.mem_append.1 hx with hx | hx
    · exact h1.pos x hx
    · exact h2.pos x hx

theorem ofMembers_right (w : World n) (P : Fin n → Option Packed) (c b : Fin n) (p : Packed) (rel : Nat)
    (hp : P b = some p) (hr : relativePosition w P c b = some rel) (ms : List Member) (i k : Nat)
    (hl : p.members.length = i + ms.length) :
    ∃ r, ofMembers w P c b i k ms = some r ∧ Right w P c k ((List.range' i ms.length).map fun i => (b, i)) r := by
  induction ms generalizing i k with
  | nil => exact ⟨_, rfl, rfl, rfl, rfl, fun x hx => by cases hx⟩
  | cons m ms ih =>
    rw [List.length_cons] at hl
    obtain ⟨r, h1, h2⟩ := ih (i + 1) (k + 1) (by omega)
    have ho : p.members[i]? = some (p.members[i]'(by omega)) := List.getElem?_eq_getElem _
    refine ⟨(⟨k, b, i, (p.members[i]'(by omega) + rel) % 2 ^ 32⟩ :: r.1, r.2), ?_, ?_⟩
    · simp only [ofMembers, hp, Option.bind_some, ho, hr, h1, Option.map_some]
    · have h3 := h2.number
      have h4 := h2.count
      rw [List.length_map, List.length_range'] at h3 h4
      refine ⟨?_, ?_, ?_, ?_⟩
      · rw [List.map_cons, h2.what, List.length_cons, List.range'_succ, List.map_cons]
      · rw [List.map_cons, h3, List.length_map, List.length_range', List.length_cons, List.range'_succ]
      · simp only [List.length_map, List.length_range', List.length_cons]
        rw [h4]; omega
      · intro x hx
        rcases List.mem_cons.1 hx with rfl | hx
        · exact ⟨p, _, rel, hp, ho, hr, rfl⟩
        · exact h2.pos x hx

theorem ofClasses_right (w : World n) (L : Fin n → Class) (P : Fin n → Option Packed) (c : Fin n) (l : List (Fin n)) (k : Nat)
    (h : ∀ b ∈ l, ∃ p rel, P b = some p ∧ p.members.length = (L b).members.length ∧ relativePosition w P c b = some rel) :
    ∃ r, ofClasses w L P c k l = some r ∧ Right w P c k (entries L l) r := by
  induction l generalizing k with
  | nil => exact ⟨_, rfl, rfl, rfl, rfl, fun x hx => by cases hx⟩
  | cons b l ih =>
    obtain ⟨p, rel, h1, h2, h3⟩ := h b (List.mem_cons_self ..)
    obtain ⟨r, r1, r2⟩ := ofMembers_right w P c b p rel h1 h3 (L b).members 0 k (by omega)
    obtain ⟨s, s1, s2⟩ := ih r.2 fun a ha => h a (List.mem_cons_of_mem _ ha)
    refine ⟨(r.1 ++ s.1, s.2), ?_, ?_⟩
    · simp only [ofClasses, r1, Option.bind_some, s1, Option.map_some]
    · have : entries L (b :: l) = (List.range' 0 (L b).members.length).map (fun i => (b, i)) ++ entries L l := by
        rw [← List.range_eq_range']; rfl
      rw [this]
      exact r2.append s2

theorem classInfo_right (w : World n) (L : Fin n → Class) (P : Fin n → Option Packed) (c : Fin n)
    (hn : ∀ b ∈ sharedTable w c, b ≠ w.nouti)
    (h : ∀ b ∈ orderedBases w c, ∃ p rel, P b = some p ∧ p.members.length = (L b).members.length ∧
      relativePosition w P c b = some rel) :
    ∃ r, classInfo w L P c = some r ∧ Right w P c 0 (entries L (orderedBases w c)) r := by
  have hf : ((sharedTable w c).filter fun b => decide (b ≠ w.nouti) && (baseItem w c b).isNone) =
      (sharedTable w c).filter fun b => (baseItem w c b).isNone := by
    apply List.filter_congr
    intro b hb
    simp [hn b hb]
  unfold orderedBases at h ⊢
  unfold classInfo
  rw [hf]
  generalize (((w.table c).map (·.base)).filter fun b => decide (b ≠ w.nouti)) = D at h ⊢
  generalize ((sharedTable w c).filter fun b => (baseItem w c b).isNone) = S at h ⊢
  obtain ⟨p, rel, h1, h2, h3⟩ := h c (by simp)
  obtain ⟨r, r1, r2⟩ := ofMembers_right w P c c p rel h1 h3 (L c).members 0 0 (by omega)
  obtain ⟨s, s1, s2⟩ := ofClasses_right w L P c D r.2 fun a ha => h a (by simp [ha])
  obtain ⟨t, t1, t2⟩ := ofClasses_right w L P c S s.2 fun a ha => h a (by simp [ha])
  refine ⟨(r.1 ++ s.1 ++ t.1, t.2), ?_, ?_⟩
  · simp only [r1, Option.bind_some, s1, t1, Option.map_some]
  · have : entries L (c :: D ++ S) = (List.range' 0 (L c).members.length).map (fun i => (c, i)) ++ entries L D ++ entries L S := by
      rw [← List.range_eq_range']
      simp [entries, List.flatMap_append]
    rw [this]
    exact (r2.append s2).append t2

/-- The place of a member among the members. -/
theorem offset_eq (k : Class) (wf : Wf k) (fit : ownBits k < 2 ^ 32) (i : Nat) (m : Member) (h : k.members[i]? = some m) :
    (packMembers k.isUnion 0 k.members).1[i]? = some (ClassInfo.Spec.offset k i) ∧
      ClassInfo.Spec.offset k i + size m ≤ ownBits k := by
  have hi : i < k.members.length := (List.getElem?_eq_some_iff.1 h).1
  unfold ClassInfo.Spec.offset
  cases hu : k.isUnion with
  | true =>
    rw [packMembers_union]
    refine ⟨by simp [hi], ?_⟩
    unfold ownBits
    rw [hu]
    simp only [if_true, Nat.zero_add]
    exact le_foldr_max (List.mem_map_of_mem (f := size) (List.mem_of_getElem? h))
  | false =>
    have hown : ownBits k = (k.members.map size).sum := by unfold ownBits; rw [hu]; rfl
    have e := starts_get 0 (k.members.map size) i (by simpa using hi)
    rw [← List.map_take, Nat.zero_add] at e
    have c12 := C12_members_disjoint k wf hu fit
    rw [hu, packMembers_eq 0 k.members (by rw [← hown]; omega), myBits_eq k wf fit] at c12
    rw [packMembers_eq 0 k.members (by rw [← hown]; omega)]
    refine ⟨by simpa using e, ?_⟩
    simpa using c12.2.2.1 i _ m e h

theorem pack_members {w : World n} {L : Fin n → Class} {c : Fin n} {p : Packed} (h : pack w L c = some p) :
    p.members = (packMembers (L c).isUnion 0 (L c).members).1 := by
  unfold pack at h
  cases hb : packBases w L (packMembers (L c).isUnion 0 (L c).members).2 (fun _ => none) (w.table c) with
  | none => simp only [hb] at h; cases h
  | some r => simp only [hb, Option.some.injEq] at h; rw [← h]

theorem packMembers_length (u : Bool) (off : Nat) (ms : List Member) : (packMembers u off ms).1.length = ms.length := by
  induction ms generalizing off with
  | nil => rfl
  | cons m ms ih => simp [packMembers, ih]

end Ulam.ClassInfo
