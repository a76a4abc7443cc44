import Verif.Default.Lemmas
import Mathlib.Algebra.BigOperators.Group.Finset.Basic
import Mathlib.Algebra.Order.BigOperators.Group.Finset
/-! # C64, C65: default values and initialization lists -/
namespace Ulam.Default
open Walker Walker.Spec Layout Layout.Spec Spec
variable {n : Nat}

/-! ## A sample program -/

/-- Classes 1 to 4 are the diamond of C15, class `x` with one member of `x` bits; class 5 is an element with a member of three
bits, an object and an array of two objects of class 1. -/
def sampleL : Fin 6 → Class := fun x =>
  if x = 5 then ⟨.element, false, [⟨false, 3, none⟩, ⟨false, 10, none⟩, ⟨false, 10, some 2⟩],
    [⟨false, 10, none⟩, ⟨false, 3, none⟩, ⟨false, 10, some 2⟩]⟩
  else ⟨.quark, false, [⟨false, x.val, none⟩], [⟨false, x.val, none⟩]⟩

/-- The members of classes 2 and 4 have initial values 10 and 1111. -/
def sample : Prog 6 where
  w := vee
  L := sampleL
  init := fun x =>
    if x = 5 then [.plain, .object 1, .object 1] else if x = 2 then [.value (fun y => y == 0)] else if x = 4 then [.value (fun _ => true)] else [.plain]
  header := fun _ y => y % 3 == 0
  empty := 5

theorem sum_le_all (f : Fin n → Nat) (l : List (Fin n)) (nd : l.Nodup) : (l.map f).sum ≤ ((List.finRange n).map f).sum := by
  rw [← List.sum_toFinset f nd, ← List.sum_toFinset f (List.nodup_finRange n)]
  exact Finset.sum_le_sum_of_subset fun x _ => by simp

theorem sample_checked : Checked sample where
  ok := vee_ok
  acyclic := vee_acyclic
  tables := ⟨fun _ _ _ => rfl, fun _ _ _ => rfl, fun c e _ h => by simpa [sample, vee] using h, by decide, by decide⟩
  wf := by
    intro x
    refine ⟨?_, by revert x; decide, ?_⟩
    · revert x; decide
    · show (sampleL x).table.Perm (sampleL x).members
      unfold sampleL
      split
      · exact List.Perm.swap _ _ _
      · exact List.Perm.refl _
  typed := by
    intro x
    have hi : ∀ i : Nat, (sample.init x)[i]? ≠ some Init.atom := by
      intro i h
      have := List.mem_of_getElem? h
      simp only [sample] at this
      split_ifs at this <;> simp at this
    refine ⟨?_, fun i m _ h => absurd h (hi i)⟩
    simp only [sample, sampleL]
    split_ifs <;> rfl

theorem sample_laid (x : Fin 6) (hx : x ≠ 0) : Laid sample x where
  root := rfl
  deref := rfl
  defined := by simpa [sample, vee] using hx
  no_union := by revert x; decide
  nodup := by unfold NoDuplicates; revert x; decide
  fit := by
    intro anc nd _
    have h1 := sum_le_all (fun a => ownBits (sample.L a)) anc nd
    have h2 : ((List.finRange 6).map fun a => ownBits (sample.L a)).sum = 43 := by decide
    have h3 : ∀ x, ownBits (sample.L x) ≤ 33 := by decide
    have := h3 x
    omega

/-! ## C64 -/

/-- **C64.** In the default value of a class, each data member of the class and of its ancestors holds its initial value, or the
default of its class for each of its items, or zeros, at the position given to the member; the parts of the ancestors are where
the compiler's query says. An element begins with its type. Nothing else is set, and every bit belongs to a member. -/
theorem C64_default (G : Prog n) (ch : Checked G) (c : Fin n) (la : Laid G c) (las : ∀ a, Ancestor G.w c a → Laid G a) (v : Bits)
    (h : Is G c v) :
    (∀ (a : Fin n) (i pos : Nat) (m : Member) (ini : Init n), At G c a i pos m → (G.init a)[i]? = some ini →
      ∀ x, x < size m → Wanted G m ini x (v (pos + x))) ∧
    ((G.L c).kind = .element → ∀ x, x < 25 → v x = G.header c x) ∧
    (∀ y, (if (G.L c).kind = .element then 25 else 0) + totalBits G.w G.L c ≤ y → v y = false) ∧
    ∀ y, (if (G.L c).kind = .element then 25 else 0) ≤ y → y < (if (G.L c).kind = .element then 25 else 0) + totalBits G.w G.L c →
      ∃ a i pos m, At G c a i pos m ∧ Covers pos (size m) y := by
  obtain ⟨f, h⟩ := h
  cases f with
  | zero => cases h
  | succ f =>
    obtain ⟨p, hp, s1, s2, s3, s4⟩ := step G ch c la f v h
    refine ⟨?_, s1, s4, ?_⟩
    · rintro a i pos m ini ⟨p', q, r, h1, h2, h3, h4, h5⟩ hi x hx
      rcases h4 with ⟨rfl, rfl⟩ | ⟨g1, g2⟩
      · rw [hp] at h1; cases h1
        rw [h5]
        exact s2 i q m ini x h2 h3 hi hx
      · obtain ⟨pa, hpa, f1, f2, _⟩ := layout G ch a (las a g1)
        rw [hpa] at h1; cases h1
        have hlt : q + x < ownBits (G.L a) := by
          rw [f1] at h2
          have := (starts_cover 0 ((G.L a).members.map size) (q + x)).1 ⟨i, q, size m, h2, by rw [List.getElem?_map, h3]; rfl, ⟨by omega, by omega⟩⟩
          omega
        obtain ⟨u, u1, u2⟩ := s3 a r (q + x) g1 g2 hlt
        have hpos : pos + x = firstBit (G.L c) + r + (q + x) := by rw [h5]; unfold firstBit; omega
        rw [hpos, u2]
        cases f with
        | zero => cases u1
        | succ f =>
          obtain ⟨p2, hp2, _, t2, _, _⟩ := step G ch a (las a g1) f u u1
          rw [hpa] at hp2; cases hp2
          have := t2 i q m ini x h2 h3 hi hx
          unfold firstBit at this
          rwa [if_neg (anc_props ch.tables g1).2.2.2.2, Nat.zero_add] at this
    · intro y hy1 hy2
      obtain ⟨p0, hp0, e1, e2, e3, e4, e5, e6, e7⟩ := layout G ch c la
      obtain ⟨o, ho⟩ := (e6 (y - if (G.L c).kind = .element then 25 else 0)).2 (by omega)
      cases o with
      | member i =>
        obtain ⟨q, m, k1, k2, k3⟩ := ho
        unfold Covers at k3
        exact ⟨c, i, _, m, ⟨p0, q, 0, hp0, k1, k2, .inl ⟨rfl, rfl⟩, rfl⟩, by omega, by omega⟩
      | ancestor a =>
        obtain ⟨ha, q, k1, k2⟩ := ho
        unfold Covers at k2
        obtain ⟨pa, hpa, f1, f2, _⟩ := layout G ch a (las a ha)
        obtain ⟨i, z, s, z1, z2, z3⟩ := (starts_cover 0 ((G.L a).members.map size) (y - (if (G.L c).kind = .element then 25 else 0) - q)).2
          ⟨Nat.zero_le _, by rw [← f2]; omega⟩
        rw [List.getElem?_map, Option.map_eq_some_iff] at z2
        obtain ⟨m, z4, rfl⟩ := z2
        unfold Covers at z3
        exact ⟨a, i, _, m, ⟨pa, z, q, hpa, by rw [f1]; exact z1, z4, .inr ⟨ha, k1⟩, rfl⟩, by omega, by omega⟩

/-- The element of the sample: type, three zeros, and three times 0 10 000 1111. -/
example : Checked sample ∧ Laid sample 5 ∧ (default sample 4 5).map (fun v => (List.range 60).map v) =
    some ((List.range 25).map (fun x => x % 3 == 0) ++ [false, false, false] ++
      [false, true, false, false, false, false, true, true, true, true] ++ [false, true, false, false, false, false, true, true, true, true] ++
      [false, true, false, false, false, false, true, true, true, true] ++
      [false, false]) :=
  ⟨sample_checked, sample_laid 5 (by decide), by decide +kernel⟩

/-- **C64.** The default value is unique, and exists if no class has, by members and ancestors, a part of its own class. -/
theorem C64_exists (G : Prog n) (ch : Checked G) (all : ∀ c d, Needs G c d → Laid G d) (wf : WellFounded fun d c => Needs G c d)
    (c : Fin n) (la : Laid G c) : ∃! v, Is G c v := by
  have ex : ∀ c, Laid G c → ∃ v, Is G c v := by
    intro c
    induction c using wf.induction with
    | _ c ih =>
      intro la
      have hf : ∀ d, ∃ f, Needs G c d → ∃ u, default G f d = some u := by
        intro d
        by_cases hd : Needs G c d
        · obtain ⟨u, f, hu⟩ := ih d hd (all c d hd)
          exact ⟨f, fun _ => ⟨u, hu⟩⟩
        · exact ⟨0, fun h => absurd h hd⟩
      choose F hF using hf
      obtain ⟨v, hv⟩ := default_total G ch c la (Finset.univ.sup F) fun d hd => by
        obtain ⟨u, hu⟩ := hF d hd
        exact ⟨u, default_mono G _ _ (Finset.le_sup (Finset.mem_univ d)) d u hu⟩
      exact ⟨v, _, hv⟩
  obtain ⟨v, hv⟩ := ex c la
  exact ⟨v, hv, fun u hu => is_unique hu hv⟩

example : ∃! v, Is sample 5 v := by
  have up : ∀ x y : Fin 6, Base vee x y → x < y := by
    unfold Base; decide
  have up' : ∀ x y, Ancestor vee x y → x < y := by
    intro x y hy
    induction hy with
    | single h => exact up _ _ h
    | tail _ h ih => exact Nat.lt_trans ih (up _ _ h)
  have no : ∀ (x y : Fin 6), Base vee x y → x ≠ 5 := by
    unfold Base; decide
  have no' : ∀ y, ¬ Ancestor vee 5 y := by
    intro y hy
    rcases (Relation.TransGen.head'_iff.1 hy) with ⟨z, h, _⟩
    exact no _ _ h rfl
  have mem : ∀ (x d : Fin 6) (i : Nat), ((sample.init x)[i]? = some (.object d) ∨ (sample.init x)[i]? = some .atom ∧ d = sample.empty) →
      x = 5 ∧ d = 1 := by
    intro x d i h
    have h' : Init.object d ∈ sample.init x ∨ Init.atom ∈ sample.init x := by
      rcases h with h | h
      · exact .inl (List.mem_of_getElem? h)
      · exact .inr (List.mem_of_getElem? h.1)
    simp only [sample] at h'
    split_ifs at h' with h5
    · simp at h'; exact ⟨h5, h'⟩
    all_goals simp at h'
  refine C64_exists sample sample_checked ?_ ?_ 5 (sample_laid 5 (by decide))
  · rintro c d (⟨i, m, h1, h2, h3⟩ | h)
    · obtain ⟨_, rfl⟩ := mem _ _ _ h3
      exact sample_laid 1 (by decide)
    · refine sample_laid d ?_
      rintro rfl
      exact absurd (up' _ _ h) (by simp)
  · -- 5 needs 1, and ancestors have larger numbers
    refine Subrelation.wf (r := InvImage (· < ·) fun x : Fin 6 => if x = 5 then 10 else 9 - x.val) ?_ (InvImage.wf _ Nat.lt_wfRel.wf)
    intro d c h
    unfold InvImage
    rcases h with ⟨i, m, h1, h2, h3⟩ | h
    · obtain ⟨rfl, rfl⟩ := mem _ _ _ h3; decide
    · have h1 := up' _ _ h
      have h2 : c ≠ 5 := by rintro rfl; exact no' _ h
      have h3 : d ≠ 5 := by
        rintro rfl
        rcases (Relation.TransGen.tail'_iff.1 h) with ⟨z, _, hz⟩
        have : ∀ z : Fin 6, ¬ Base vee z 5 := by unfold Base; decide
        exact this z hz
      show (if d = 5 then 10 else 9 - d.val) < (if c = 5 then 10 else 9 - c.val)
      rw [if_neg h2, if_neg h3]
      have := c.isLt
      have := d.isLt
      have : c.val < d.val := h1
      omega

/-- **C64.** A class that contains an object of its own class, directly or through members and ancestors, gets no default
value: the compiler reports an error and stops instead of looping. -/
theorem C64_contains_itself (G : Prog n) (ch : Checked G) (all : ∀ c, c ≠ G.w.nouti → Laid G c) (nn : ∀ c d, Contains G c d → c ≠ G.w.nouti)
    (c : Fin n) (h : Relation.TransGen (Contains G) c c) (v : Bits) : ¬ Is G c v := by
  have own : ∀ (a : Fin n) (f : Nat) (v : Bits), Laid G a → default G (f + 1) a = some v → ∀ (i : Nat) (m : Member) (d : Fin n),
      (G.L a).members[i]? = some m → size m ≠ 0 → ((G.init a)[i]? = some (.object d) ∨ (G.init a)[i]? = some .atom ∧ d = G.empty) →
      ∃ u, default G f d = some u := by
    intro a f v la h i m d h1 h2 h3
    obtain ⟨p, hp, e1, e2, e3, e4, e5, e6, e7⟩ := layout G ch a la
    have hm := le_sum (List.mem_map_of_mem (f := size) (List.mem_of_getElem? h1))
    have hcs : classSize G a ≠ 0 := by
      unfold classSize bitsPerAtom
      split <;> omega
    rw [default_succ, if_neg hcs, hp] at h
    simp only at h
    split at h
    · cases h
    · rename_i d1 hd1
      refine buildMembers_needs G _ _ _ _ _ _ _ ?_ ?_ hd1 i m d h1 h2 h3
      · rw [e1, starts_length]; simp
      · intro m' hm'
        have := le_sum (List.mem_map_of_mem (f := size) hm'); omega
  have one : ∀ (c d : Fin n) (f : Nat) (v : Bits), Contains G c d → default G (f + 1) c = some v → ∃ u, default G f d = some u := by
    rintro c d f v hcd hv
    have lc := all c (nn c d hcd)
    obtain ⟨a, ha, i, m, h1, h2, h3⟩ := hcd
    rcases ha with rfl | ha
    · exact own _ f v lc hv i m d h1 h2 h3
    · obtain ⟨p, hp, s1, s2, s3, s4⟩ := step G ch c lc f v hv
      obtain ⟨_, _, _, _, _, _, _, _, e7⟩ := layout G ch c lc
      have la : Laid G a := all a (anc_props ch.tables ha).2.2.1
      obtain ⟨_, _, _, f2, _⟩ := layout G ch a la
      obtain ⟨_, q, hq, _⟩ := e7 a ha
      have hm := le_sum (List.mem_map_of_mem (f := size) (List.mem_of_getElem? h1))
      obtain ⟨u, u1, _⟩ := s3 a q 0 ha hq (by omega)
      cases f with
      | zero => cases u1
      | succ f =>
        obtain ⟨u', hu'⟩ := own a f u la u1 i m d h1 h2 h3
        exact ⟨u', default_mono G f (f + 1) (by omega) d u' hu'⟩
  have many : ∀ (c d : Fin n), Relation.TransGen (Contains G) c d → ∀ f v, default G f c = some v → ∃ g, g < f ∧ ∃ u, default G g d = some u := by
    intro c d hcd
    induction hcd with
    | single h =>
      intro f v hv
      cases f with
      | zero => cases hv
      | succ f => obtain ⟨u, hu⟩ := one _ _ f v h hv; exact ⟨f, by omega, u, hu⟩
    | tail _ h ih =>
      intro f v hv
      obtain ⟨g, hg, u, hu⟩ := ih f v hv
      cases g with
      | zero => cases hu
      | succ g => obtain ⟨u', hu'⟩ := one _ _ g u h hu; exact ⟨g, by omega, u', hu'⟩
  rintro ⟨f, hf⟩
  induction f using Nat.strongRecOn generalizing v with
  | ind f ih =>
    obtain ⟨g, hg, u, hu⟩ := many c c h f v hf
    exact ih g hg u hu

/-- Class 3, an ancestor of class 1, has an object of class 1. -/
def loop : Prog 6 := { sample with init := fun x => if x = 3 then [.object 1] else sample.init x }

example : Contains loop 1 1 ∧ ∀ f, f < 5 → (default loop f 1).isNone :=
  ⟨⟨3, .inr ((vee_anc 3).1 (by decide)), 0, ⟨false, 3, none⟩, rfl, by decide, .inl rfl⟩, by decide +kernel⟩

/-! ## C65 -/

/-- **C65.** An object with an initialization list: the members named have the values given, nested lists meaning changes to the
bits of that member, and all other bits are those of the default value. No bit is given twice. -/
theorem C65_list (G : Prog n) (ch : Checked G) (d : Fin n) (ld : Laid G d) (l : Inits n) (hr : Resolved G d l) (f : Nat) (r : Bits)
    (h : initObject G f d l = some r) : ∃ u ws, Is G d u ∧ Placed G d l u ws ∧ Apart ws ∧ ∀ y, Result ws u y (r y) := by
  unfold initObject at h
  split at h
  · cases h
  · rename_i u hu
    rw [Option.map_eq_some_iff] at h
    obtain ⟨⟨r', k⟩, h1, rfl⟩ := h
    obtain ⟨ws, w1, w2, _, w4⟩ := sound G ch l d ld hr u u zero r' k (fun _ _ => rfl) h1
    refine ⟨u, ws, ⟨f, hu⟩, w1, w2, fun y => ?_⟩
    show Result ws u y (r' y)
    rw [w4]; exact apply_result ws u w2 y

/-- For class 1 of the sample: the inherited member of class 4, then the one of class 1. -/
def innerInits : Inits 6 := .cons 4 0 (.bits fun x => x == 1) (.cons 1 0 (.bits fun _ => true) .nil)

/-- For element 5: such a list for its object, then a value for its first member. -/
def sampleInits : Inits 6 := .cons 5 1 (.list 1 innerInits) (.cons 5 0 (.bits fun x => x == 2) .nil)

theorem inner_resolved : Resolved sample 1 innerInits :=
  ⟨.inr ((vee_anc 4).1 (by decide)), by decide, sample_laid 4 (by decide), trivial, .inl rfl, by decide, sample_laid 1 (by decide), trivial, trivial⟩

theorem sample_resolved : Resolved sample 5 sampleInits :=
  ⟨.inl rfl, by decide, sample_laid 5 (by decide), ⟨sample_laid 1 (by decide), inner_resolved⟩, .inl rfl, by decide, sample_laid 5 (by decide),
    trivial, trivial⟩

theorem inner_place : place sample 1 4 0 = some (6, 4) ∧ place sample 1 1 0 = some (0, 1) := by
  have h4 := (vee_anc 4).1 (by decide)
  obtain ⟨p, hp⟩ : ∃ p, pack vee sampleL 1 = some p := ⟨_, rfl⟩
  have r4 : relativePosition sample.w (pack sample.w sample.L) 1 4 = some 6 := by
    rw [rel_eq sample sample_checked 1 (sample_laid 1 (by decide)) p hp 4 h4]
    cases hp
    decide +kernel
  have r1 := rel_self sample 1
  exact ⟨by unfold place; rw [r4]; decide +kernel, by unfold place; rw [r1]; decide +kernel⟩

theorem outer_place : place sample 5 5 1 = some (28, 10) ∧ place sample 5 5 0 = some (25, 3) := by
  have r1 := rel_self sample 5
  exact ⟨by unfold place; rw [r1]; decide +kernel, by unfold place; rw [r1]; decide +kernel⟩

/-- One item of known place. -/
theorem initList_bits {d a : Fin n} {i pos len : Nat} {v : Bits} {rest : Inits n} {G : Prog n} (h : place G d a i = some (pos, len)) (u k : Bits) :
    initList G d (.cons a i (.bits v) rest) u k = if allZeros pos len k then
      initList G d rest (copyBV v 0 pos len u) (copyBV (fun _ => true) 0 pos len k) else none := by
  simp only [initList, initMember, h]
  by_cases hz : allZeros pos len k <;> simp [hz]

theorem initList_list {d a d' : Fin n} {i pos len : Nat} {l rest : Inits n} {G : Prog n} (h : place G d a i = some (pos, len)) (u k : Bits) :
    initList G d (.cons a i (.list d' l) rest) u k = if allZeros pos len k then
      match initList G d' l (copyBV u pos 0 len zero) zero with
      | none => none
      | some r => initList G d rest (copyBV r.1 0 pos len u) (copyBV (fun _ => true) 0 pos len k) else none := by
  simp only [initList, initMember, h]
  by_cases hz : allZeros pos len k
  · simp only [hz, if_true]
    cases initList G d' l (copyBV u pos 0 len zero) zero <;> rfl
  · simp [hz]

/-- The bits after the type: the first member is 001, the object is 1 10 000 0100, the rest is as in the default. -/
example : Laid sample 5 ∧ Resolved sample 5 sampleInits ∧ Distinct sampleInits ∧
    (initObject sample 4 5 sampleInits).map (fun v => (List.range 24).map fun x => v (x + 25)) =
      some [false, false, true, true, true, false, false, false, false, false, true, false, false,
        false, true, false, false, false, false, true, true, true, true, false] := by
  refine ⟨sample_laid 5 (by decide), sample_resolved, ⟨by decide, ⟨by decide, trivial, by simp [names], trivial, trivial⟩, by simp [names],
    trivial, trivial⟩, ?_⟩
  unfold initObject sampleInits innerInits
  simp only [initList_list outer_place.1, initList_bits outer_place.2, initList_bits inner_place.1, initList_bits inner_place.2, initList]
  decide +kernel

/-- **C65.** A list in which no member is named twice, at any level, is accepted. -/
theorem C65_accepted (G : Prog n) (ch : Checked G) (d : Fin n) (ld : Laid G d) (l : Inits n) (hr : Resolved G d l) (hd : Distinct l)
    (f : Nat) (u : Bits) (hu : default G f d = some u) : ∃ r, initObject G f d l = some r := by
  obtain ⟨ws, w1, w2⟩ := placed_exists G ch l d ld hr hd u
  obtain ⟨r, k, h⟩ := complete G ch w1 hr w2 u zero (fun _ _ => rfl) (fun _ _ _ _ => rfl)
  refine ⟨r, ?_⟩
  unfold initObject
  rw [hu]
  simp only
  rw [h]; rfl

/-- **C65.** A list that names a member (of some bits) twice is refused, also if the values are the same. -/
theorem C65_refused (G : Prog n) (ch : Checked G) (d : Fin n) (ld : Laid G d) (l : Inits n) (hr : Resolved G d l) (f : Nat)
    (j k : Nat) (hjk : j ≠ k) (a : Fin n) (i : Nat) (hj : (names l)[j]? = some (a, i)) (hk : (names l)[k]? = some (a, i))
    (m : Member) (hm : (G.L a).members[i]? = some m) (hs : size m ≠ 0) : initObject G f d l = none := by
  cases h : initObject G f d l with
  | none => rfl
  | some r =>
    exfalso
    obtain ⟨u, ws, _, w1, w2, _⟩ := C65_list G ch d ld l hr f r h
    obtain ⟨pos, m1, v, g1, g2⟩ := (names_placed w1 j).1 a i hj
    obtain ⟨pos', m2, v', g3, g4⟩ := (names_placed w1 k).1 a i hk
    obtain ⟨rfl, rfl⟩ := at_unique ch g1 g3
    obtain ⟨_, _, _, _, _, hm1, _⟩ := g1
    rw [hm] at hm1; cases hm1
    obtain ⟨lj, hlj⟩ := List.getElem?_eq_some_iff.1 g2
    obtain ⟨lk, hlk⟩ := List.getElem?_eq_some_iff.1 g4
    have hp := List.pairwise_iff_getElem.1 w2
    rcases Nat.lt_or_gt_of_ne hjk with q | q
    · have := hp j k lj lk q
      rw [hlj, hlk] at this
      exact this pos (Nat.le_refl _) (by show pos < pos + size m; omega) (Nat.le_refl _) (by show pos < pos + size m; omega)
    · have := hp k j lk lj q
      rw [hlj, hlk] at this
      exact this pos (Nat.le_refl _) (by show pos < pos + size m; omega) (Nat.le_refl _) (by show pos < pos + size m; omega)

example : (names (.cons 4 0 (.bits zero) innerInits) : List (Fin 6 × Nat)) = [(4, 0), (4, 0), (1, 0)] ∧
    initObject sample 3 1 (.cons 4 0 (.bits zero) innerInits) = none :=
  ⟨rfl, C65_refused sample sample_checked 1 (sample_laid 1 (by decide)) (.cons 4 0 (.bits zero) innerInits) ⟨.inr ((vee_anc 4).1 (by decide)), by decide, sample_laid 4 (by decide),
    trivial, inner_resolved⟩ 3 0 1 (by decide) 4 0 rfl rfl ⟨false, 4, none⟩ rfl (by decide)⟩

/-- **C65.** A list of values for an array of `k` items: each item has its value, the last one standing for all items left; no
other bit changes. -/
theorem C65_array (len k : Nat) (items : List Bits) (h0 : 0 < items.length) (hk : items.length ≤ k) (bv : Bits) :
    (∀ j x v, j < k → x < len → items[min j (items.length - 1)]? = some v → arrayValue len k items bv (j * len + x) = v x) ∧
    ∀ y, k * len ≤ y → arrayValue len k items bv y = bv y := by
  obtain ⟨a1, a2, a3⟩ := arrayItems_get len items 0 bv
  obtain ⟨b1, b2, b3⟩ := repeatLast_get len items.length k h0 (arrayItems len 0 items bv)
  unfold arrayValue
  refine ⟨?_, ?_⟩
  · intro j x v hj hx hv
    by_cases h : j < items.length
    · rw [Nat.min_eq_left (by omega)] at hv
      rw [b1 j x h hx]
      have := a1 j v x hv hx
      rwa [Nat.zero_add] at this
    · rw [Nat.min_eq_right (by omega)] at hv
      rw [b2 j x (by omega) hj hx]
      have := a1 _ v x hv hx
      rwa [Nat.zero_add] at this
  · intro y hy
    have : items.length * len ≤ y := Nat.le_trans (Nat.mul_le_mul_right len hk) hy
    rw [b3 y this hy, a3 y (by rwa [Nat.zero_add])]

example : (List.range 9).map (arrayValue 2 4 [fun x => x == 0, fun x => x == 1] fun _ => true) =
    [true, false, false, true, false, true, false, true, true] := by decide

/-- **C65.** Lists for the items of an array of objects of class `d`: each changes the bits its item has (the default of the
class), and items left are copies of the last item with a list. -/
theorem C65_class_array (G : Prog n) (ch : Checked G) (d : Fin n) (ld : Laid G d) (len k : Nat) (ls : List (Inits n)) (h0 : 0 < ls.length)
    (hk : ls.length ≤ k) (hr : ∀ l ∈ ls, Resolved G d l) (bv r : Bits) (h : classArray G d len k ls bv = some r) :
    (∀ (j : Nat) (l : Inits n), ls[j]? = some l → ∃ ws, Placed G d l (window bv (j * len) len) ws ∧ Apart ws ∧
      ∀ x, x < len → Result ws (window bv (j * len) len) x (r (j * len + x))) ∧
    (∀ j x, ls.length ≤ j → j < k → x < len → r (j * len + x) = r ((ls.length - 1) * len + x)) ∧
    ∀ y, k * len ≤ y → r y = bv y := by
  unfold classArray at h
  rw [Option.map_eq_some_iff] at h
  obtain ⟨r1, h1, rfl⟩ := h
  obtain ⟨a1, a2, a3⟩ := classItems_get G ch d ld len ls hr 0 bv r1 h1
  obtain ⟨b1, b2, b3⟩ := repeatLast_get len ls.length k h0 r1
  refine ⟨?_, ?_, ?_⟩
  · intro j l hl
    obtain ⟨ws, w1, w2, w3⟩ := a1 j l hl
    simp only [Nat.zero_add] at w1 w3
    refine ⟨ws, w1, w2, fun x hx => ?_⟩
    have hj : j < ls.length := by
      by_contra q
      rw [List.getElem?_eq_none (by omega)] at hl; cases hl
    rw [b1 j x hj hx]; exact w3 x hx
  · intro j x h1 h2 hx
    rw [b2 j x h1 h2 hx, b1 (ls.length - 1) x (by omega) hx]
  · intro y hy
    have : ls.length * len ≤ y := Nat.le_trans (Nat.mul_le_mul_right len hk) hy
    rw [b3 y this hy, a3 y (by rwa [Nat.zero_add])]

/-- Three objects of class 1 of the sample, zero before, with one list. -/
example : Laid sample 1 ∧ (∀ l ∈ [innerInits], Resolved sample 1 l) ∧
    (classArray sample 1 10 3 [innerInits] zero).map (fun v => ((List.range 31).filter v)) = some [0, 7, 10, 17, 20, 27] := by
  refine ⟨sample_laid 1 (by decide), by simp [inner_resolved], ?_⟩
  unfold classArray innerInits
  simp only [classItems, initList_bits inner_place.1, initList_bits inner_place.2, initList]
  decide +kernel

end Ulam.Default
