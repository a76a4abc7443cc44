import Verif.Default.Spec
import Mathlib.Data.List.Pairwise
import Mathlib.Tactic.Linarith
import Mathlib.Tactic.ByContra
/-! # Lemmas on default values -/
namespace Ulam.Default
open Walker Walker.Spec Layout Layout.Spec Spec
variable {n : Nat}

/-! ## Positions -/

theorem filter_index {α : Type} (P : α → Bool) (l : List α) (nd : (l.filter P).Nodup) (i j : Nat) (x : α) (hx : P x = true)
    (h1 : l[i]? = some x) (h2 : l[j]? = some x) : i = j := by
  induction l generalizing i j with
  | nil => simp at h1
  | cons y l ih =>
    have nd' : (l.filter P).Nodup := by
      rw [List.filter_cons] at nd
      split at nd
      · exact (List.nodup_cons.1 nd).2
      · exact nd
    have key : ∀ k : Nat, l[k]? = some x → y = x → False := by
      intro k hk hy
      subst hy
      rw [List.filter_cons_of_pos hx] at nd
      exact (List.nodup_cons.1 nd).1 (List.mem_filter.2 ⟨List.mem_of_getElem? hk, hx⟩)
    cases i with
    | zero =>
      rw [List.getElem?_cons_zero, Option.some.injEq] at h1
      cases j with
      | zero => rfl
      | succ j => rw [List.getElem?_cons_succ] at h2; exact (key j h2 h1).elim
    | succ i =>
      rw [List.getElem?_cons_succ] at h1
      cases j with
      | zero => rw [List.getElem?_cons_zero, Option.some.injEq] at h2; exact (key i h1 h2).elim
      | succ j => rw [List.getElem?_cons_succ] at h2; rw [ih nd' i j h1 h2]

theorem pack_members {w : World n} {L : Fin n → Class} {c : Fin n} {p : Packed} (h : pack w L c = some p) :
    p.members = (packMembers (L c).isUnion 0 (L c).members).1 := by
  unfold pack at h
  simp only at h
  split at h
  · cases h
  · cases h; rfl

/-- The ancestors of a class as a list. -/
theorem anc_list (G : Prog n) (ch : Checked G) (c : Fin n) (la : Laid G c) :
    (sharedTable G.w c).Nodup ∧ ∀ a, a ∈ sharedTable G.w c ↔ Ancestor G.w c a :=
  ⟨sharedTable_nodup _ _, fun a => by rw [mem_sharedTable ch.ok ch.tables.shared, la.deref, la.root]⟩

theorem layout (G : Prog n) (ch : Checked G) (c : Fin n) (la : Laid G c) :
    ∃ p, pack G.w G.L c = some p ∧ p.members = starts 0 ((G.L c).members.map size) ∧
      ownBits (G.L c) = ((G.L c).members.map size).sum ∧ ownBits (G.L c) < 2 ^ 32 ∧ ownBits (G.L c) ≤ totalBits G.w G.L c ∧
      (∀ x o o', Owns G.w G.L (pack G.w G.L) p c o x → Owns G.w G.L (pack G.w G.L) p c o' x → o = o') ∧
      (∀ x, (∃ o, Owns G.w G.L (pack G.w G.L) p c o x) ↔ x < totalBits G.w G.L c) ∧
      ∀ a, Ancestor G.w c a → baseBits G.L a = ownBits (G.L a) ∧ ∃ q, relativePosition G.w (pack G.w G.L) c a = some q ∧ ownBits (G.L c) ≤ q ∧
        q + ownBits (G.L a) ≤ totalBits G.w G.L c := by
  obtain ⟨h1, h2⟩ := anc_list G ch c la
  have fit := la.fit _ h1 fun a h => (h2 a).1 h
  obtain ⟨t, p, e1, e2, e3, e4⟩ := C15_layout_partial G.w G.L ch.ok ch.acyclic ch.tables ch.wf c la.root la.deref la.defined la.no_union
    la.nodup _ h1 h2 fit
  obtain ⟨k1, k2, k3⟩ := e4 (pack G.w G.L) e1
  have hown : ownBits (G.L c) = ((G.L c).members.map size).sum := by unfold ownBits; rw [la.no_union]; rfl
  refine ⟨p, e1, ?_, hown, by omega, by omega, k2, k1, ?_⟩
  · rw [pack_members e1, la.no_union, packMembers_eq 0 _ (by rw [← hown]; omega)]
  · intro a ha
    refine ⟨?_, k3 a ha⟩
    unfold baseBits
    rw [if_neg (anc_props ch.tables ha).2.2.2.2, myBits_eq _ (ch.wf a)]
    have := le_sum (List.mem_map_of_mem (f := fun a => ownBits (G.L a)) ((h2 a).2 ha)); omega

theorem base_ancestor (G : Prog n) (ch : Checked G) (c : Fin n) (la : Laid G c) (e : Entry n) (he : e ∈ G.w.table c)
    (hn : e.base ≠ G.w.nouti) : Ancestor G.w c e.base :=
  Relation.TransGen.single ⟨la.defined, e, he, hn, ch.tables.rooted c e he⟩

theorem rel_eq (G : Prog n) (ch : Checked G) (c : Fin n) (la : Laid G c) (p : Packed) (hp : pack G.w G.L c = some p) (a : Fin n)
    (ha : Ancestor G.w c a) : relativePosition G.w (pack G.w G.L) c a =
      match baseItem G.w c a with
      | some i => (p.bases[i]?).join
      | none => match sharedItem G.w c a with
        | some i => (p.shared[i]?).join
        | none => some 0 := by
  obtain ⟨p1, p2, p3, p4, p5⟩ := anc_props ch.tables ha
  have hne : ¬ c = a := by
    intro q; rw [← q] at ha; exact ch.acyclic c ha
  unfold relativePosition
  rw [la.deref, p2, la.root, p1, if_neg hne, relLoop_found ch.ok (pack G.w G.L) c a (by rw [la.root, p1]; exact ha), la.root, hp]
  rfl

theorem base_pos (G : Prog n) (ch : Checked G) (c : Fin n) (la : Laid G c) (p : Packed) (hp : pack G.w G.L c = some p) (i : Nat)
    (e : Entry n) (he : (G.w.table c)[i]? = some e) (hn : e.base ≠ G.w.nouti) :
    (p.bases[i]?).join = relativePosition G.w (pack G.w G.L) c e.base ∧ ∃ k, baseItem G.w c e.base = some k := by
  have ha := base_ancestor G ch c la e (List.mem_of_getElem? he) hn
  have hr := (anc_props ch.tables ha).1
  rw [rel_eq G ch c la p hp e.base ha]
  have hd := baseItem_direct ch.tables c e.base hr
  cases hb : baseItem G.w c e.base with
  | none =>
    exfalso
    refine hd.1.1 hb ?_
    unfold direct
    rw [List.mem_filter, List.mem_map]
    exact ⟨⟨e, List.mem_of_getElem? he, rfl⟩, by simp [hn]⟩
  | some k =>
    obtain ⟨e', k1, k2, k3⟩ := hd.2 k hb
    have nd := la.nodup
    unfold NoDuplicates at nd
    have : i = k := filter_index _ _ nd i k e.base (by simp [hn])
      (by rw [List.getElem?_map, he]; rfl) (by rw [List.getElem?_map, k1, ← k2]; rfl)
    subst this
    exact ⟨rfl, _, rfl⟩

theorem shared_pos (G : Prog n) (ch : Checked G) (c : Fin n) (la : Laid G c) (p : Packed) (hp : pack G.w G.L c = some p) (j : Nat)
    (b : Fin n) (hb : (sharedTable G.w c)[j]? = some b) (hn : baseItem G.w c b = none) :
    Ancestor G.w c b ∧ (p.shared[j]?).join = relativePosition G.w (pack G.w G.L) c b := by
  obtain ⟨h1, h2⟩ := anc_list G ch c la
  have ha := (h2 b).1 (List.mem_of_getElem? hb)
  refine ⟨ha, ?_⟩
  obtain ⟨p1, p2, p3, p4, p5⟩ := anc_props ch.tables ha
  rw [rel_eq G ch c la p hp b ha, hn]
  simp only
  cases hj : sharedItem G.w c b with
  | none =>
    exfalso
    unfold sharedItem at hj
    rw [List.findIdx?_eq_none_iff] at hj
    have := hj b ((h2 b).2 ha)
    rw [decide_eq_false_iff_not] at this
    exact this ⟨p3, rfl⟩
  | some k =>
    unfold sharedItem at hj
    rw [List.findIdx?_eq_some_iff_getElem] at hj
    obtain ⟨hi, q1, _⟩ := hj
    have q2 := of_decide_eq_true q1
    have h3 := anc_props ch.tables ((h2 _).1 (List.getElem_mem hi))
    have h4 : (sharedTable G.w c)[k]? = some b := by
      rw [List.getElem?_eq_getElem hi]
      congr 1
      rw [← h3.1, q2.2, p1]
    have : j = k := filter_index (fun _ => true) _ (by simpa using h1) j k b rfl hb h4
    rw [this]

/-- The indirect ancestors are in the table of shared bases. -/
theorem shared_item (G : Prog n) (ch : Checked G) (c : Fin n) (la : Laid G c) (a : Fin n) (ha : Ancestor G.w c a) :
    ∃ j : Nat, (sharedTable G.w c)[j]? = some a :=
  List.mem_iff_getElem?.1 (((anc_list G ch c la).2 a).2 ha)

/-! ## Writing -/

theorem copyBV_in (src : Bits) (frm pos len : Nat) (dest : Bits) (x : Nat) (h : Covers pos len x) :
    copyBV src frm pos len dest x = src (frm + (x - pos)) := if_pos h

theorem copyBV_out (src : Bits) (frm pos len : Nat) (dest : Bits) (x : Nat) (h : ¬ Covers pos len x) :
    copyBV src frm pos len dest x = dest x := if_neg h

theorem asArray_get (s k : Nat) (v : Bits) (x : Nat) : asArray s k 0 v x = if x < s * k then v (x % s) else false := by
  unfold asArray
  induction k with
  | zero => simp [zero]
  | succ k ih =>
    rw [List.range_succ, List.foldl_append, List.foldl_cons, List.foldl_nil, Nat.zero_add]
    by_cases h : Covers (k * s) s x
    · rw [copyBV_in _ _ _ _ _ _ h]
      unfold Covers at h
      have h1 : x < s * (k + 1) := by rw [Nat.mul_add, Nat.mul_comm s k]; omega
      rw [if_pos h1]
      congr 1
      have h2 : x = (x - k * s) + s * k := by rw [Nat.mul_comm s k]; omega
      conv => rhs; rw [h2]
      rw [Nat.add_mul_mod_self_left, Nat.mod_eq_of_lt (by omega), Nat.zero_add]
    · rw [copyBV_out _ _ _ _ _ _ h, ih]
      unfold Covers at h
      have e : s * (k + 1) = k * s + s := by rw [Nat.mul_add, Nat.mul_comm s k]; omega
      rw [e, Nat.mul_comm s k]
      by_cases h1 : x < k * s
      · rw [if_pos h1, if_pos (by omega)]
      · rw [if_neg h1, if_neg (by omega)]

/-- `Wanted` relative to the defaults at hand; `keep` is the bit a member without initial value finds. -/
def WantedBy (G : Prog n) (dv : Fin n → Option Bits) (m : Member) (ini : Init n) (x : Nat) (keep b : Bool) : Prop :=
  match ini with
  | .plain => b = keep
  | .value v => b = v x
  | .object d => ∃ u, dv d = some u ∧ b = u (x % item m)
  | .atom => ∃ u, dv G.empty = some u ∧ b = u (x % 96)

theorem size_eq (m : Member) : size m = item m * m.count := rfl

theorem buildMember_ok (G : Prog n) (dv : Fin n → Option Bits) (hd : Nat) (m : Member) (pos : Nat) (ini : Init n) (dst r : Bits)
    (fit : size m < 2 ^ 32) (at96 : ini = .atom → item m = 96) (h : buildMember G dv hd m pos ini dst = some r) :
    (∀ y, ¬ Covers (hd + pos) (size m) y → r y = dst y) ∧
    ∀ x, x < size m → WantedBy G dv m ini x (dst (hd + pos + x)) (r (hd + pos + x)) := by
  unfold buildMember at h
  rw [sizeof_eq m fit] at h
  split at h
  · rename_i h0
    cases h
    exact ⟨fun _ _ => rfl, fun x hx => by omega⟩
  · rename_i h0
    have hc : 0 < m.count := by
      rcases Nat.eq_zero_or_pos m.count with q | q
      · rw [size_eq, q] at h0; simp at h0
      · exact q
    have hin : ∀ x, x < size m → Covers (pos + hd) (size m) (hd + pos + x) := fun x hx => ⟨by omega, by omega⟩
    have hout : ∀ y, ¬ Covers (hd + pos) (size m) y → ¬ Covers (pos + hd) (size m) y := fun y h => by rwa [Nat.add_comm pos hd]
    have hsub : ∀ x, hd + pos + x - (pos + hd) = x := fun x => by omega
    cases ini with
    | plain => cases h; exact ⟨fun _ _ => rfl, fun _ _ => rfl⟩
    | value v =>
      cases h
      refine ⟨fun y hy => copyBV_out _ _ _ _ _ _ (hout y hy), fun x hx => ?_⟩
      show _ = v x
      rw [copyBV_in _ _ _ _ _ _ (hin x hx), hsub, Nat.zero_add]
    | object d =>
      simp only at h
      split at h
      · cases h
      · rename_i u hu
        cases h
        refine ⟨fun y hy => copyBV_out _ _ _ _ _ _ (hout y hy), fun x hx => ⟨u, hu, ?_⟩⟩
        rw [copyBV_in _ _ _ _ _ _ (hin x hx), hsub, Nat.zero_add, asArray_get, if_pos hc]
        show (if x < item m * m.count then u (x % item m) else false) = _
        exact if_pos hx
    | atom =>
      simp only at h
      split at h
      · cases h
      · rename_i u hu
        cases h
        refine ⟨fun y hy => copyBV_out _ _ _ _ _ _ (hout y hy), fun x hx => ⟨u, hu, ?_⟩⟩
        rw [copyBV_in _ _ _ _ _ _ (hin x hx), hsub, Nat.zero_add, asArray_get]
        rw [size_eq, at96 rfl] at hx
        exact if_pos hx

theorem buildMembers_ok (G : Prog n) (dv : Fin n → Option Bits) (hd : Nat) (ms : List Member) (is : List (Init n)) (off : Nat) (dst r : Bits)
    (hl : is.length = ms.length) (fit : off + (ms.map size).sum < 2 ^ 32)
    (at96 : ∀ (i : Nat) (m : Member), ms[i]? = some m → is[i]? = some .atom → item m = 96)
    (h : buildMembers G dv hd ms (starts off (ms.map size)) is dst = some r) :
    (∀ y, ¬ Covers (hd + off) (ms.map size).sum y → r y = dst y) ∧
    ∀ (i q : Nat) (m : Member) (ini : Init n) (x : Nat), (starts off (ms.map size))[i]? = some q → ms[i]? = some m → is[i]? = some ini →
      x < size m → WantedBy G dv m ini x (dst (hd + q + x)) (r (hd + q + x)) := by
  induction ms generalizing off is dst with
  | nil =>
    have : r = dst := by cases is <;> (simp only [buildMembers] at h; exact (Option.some.inj h).symm)
    subst this
    exact ⟨fun _ _ => rfl, fun i q m ini x _ h2 => by simp at h2⟩
  | cons m ms ih =>
    cases is with
    | nil => simp at hl
    | cons a is =>
      rw [List.map_cons, List.sum_cons] at fit ⊢
      rw [List.map_cons] at h
      simp only [starts, buildMembers] at h
      split at h
      · cases h
      · rename_i d hdst
        obtain ⟨b1, b2⟩ := buildMember_ok G dv hd m off a dst d (by omega) (fun e => at96 0 m rfl (by rw [e]; rfl)) hdst
        obtain ⟨c1, c2⟩ := ih is (off + size m) d (by simpa using hl) (by omega) (fun i m' => by
          have := at96 (i + 1) m'; simpa using this) h
        refine ⟨?_, ?_⟩
        · intro y hy
          unfold Covers at hy
          rw [c1 y (by unfold Covers; omega), b1 y (by unfold Covers; omega)]
        · intro i q m' ini x h1 h2 h3 hx
          cases i with
          | zero =>
            simp only [starts, List.getElem?_cons_zero, Option.some.injEq] at h1 h2 h3
            subst h1 h2 h3
            have := b2 x hx
            rwa [c1 _ (by unfold Covers; omega)]
          | succ i =>
            simp only [starts, List.getElem?_cons_succ] at h1 h2 h3
            have hq : off + size m ≤ q := by
              have := (starts_cover (off + size m) (ms.map size) (q)).1 ⟨i, q, size m', h1, by rw [List.getElem?_map, h2]; rfl, ⟨Nat.le_refl _, by omega⟩⟩
              omega
            have := c2 i q m' ini x h1 h2 h3 hx
            rwa [b1 _ (by unfold Covers; omega)] at this

/-! ## Sequences of writes -/

/-- Writes of bits: position, length, bits. -/
def apply : List (Nat × Nat × Bits) → Bits → Bits
  | [], d => d
  | p :: ps, d => apply ps (copyBV p.2.2 0 p.1 p.2.1 d)

theorem apply_append (l1 l2 : List (Nat × Nat × Bits)) (d : Bits) : apply (l1 ++ l2) d = apply l2 (apply l1 d) := by
  induction l1 generalizing d with
  | nil => rfl
  | cons p l ih => simp only [List.cons_append, apply, ih]

theorem apply_out (ws : List (Nat × Nat × Bits)) (d : Bits) (y : Nat) (h : ∀ p ∈ ws, ¬ Covers p.1 p.2.1 y) : apply ws d y = d y := by
  induction ws generalizing d with
  | nil => rfl
  | cons p ws ih =>
    simp only [apply]
    rw [ih _ fun q hq => h q (by simp [hq]), copyBV_out _ _ _ _ _ _ (h p (by simp))]

theorem apply_in (ws : List (Nat × Nat × Bits)) (d : Bits) (y : Nat) (b : Bool) (h : ∃ p ∈ ws, Covers p.1 p.2.1 y)
    (hb : ∀ p ∈ ws, Covers p.1 p.2.1 y → p.2.2 (y - p.1) = b) : apply ws d y = b := by
  induction ws generalizing d with
  | nil => obtain ⟨p, h, _⟩ := h; cases h
  | cons p ws ih =>
    simp only [apply]
    by_cases hw : ∃ q ∈ ws, Covers q.1 q.2.1 y
    · exact ih _ hw fun q hq => hb q (by simp [hq])
    · push Not at hw
      rw [apply_out ws _ y hw]
      obtain ⟨q, h1, h2⟩ := h
      rcases List.mem_cons.1 h1 with rfl | h1
      · rw [copyBV_in _ _ _ _ _ _ h2, Nat.zero_add]; exact hb q (by simp) h2
      · exact absurd h2 (hw q h1)

theorem buildBases_ok (G : Prog n) (dv : Fin n → Option Bits) (hd : Nat) (es : List (Entry n)) (ps : List (Option Nat)) (dst r : Bits)
    (hl : ps.length = es.length) (h : buildBases G dv hd es ps dst = some r) :
    ∃ ws, r = apply ws dst ∧
      (∀ p ∈ ws, ∃ (i : Nat) (e : Entry n) (q : Nat), es[i]? = some e ∧ e.base ≠ G.w.nouti ∧ ps[i]? = some (some q) ∧
        p.1 = hd + q ∧ p.2.1 = baseBits G.L e.base ∧ dv e.base = some p.2.2) ∧
      ∀ (i : Nat) (e : Entry n), es[i]? = some e → e.base ≠ G.w.nouti →
        ∃ p ∈ ws, ∃ q, ps[i]? = some (some q) ∧ p.1 = hd + q ∧ p.2.1 = baseBits G.L e.base ∧ dv e.base = some p.2.2 := by
  induction es generalizing ps dst with
  | nil =>
    have : r = dst := by cases ps <;> (simp only [buildBases] at h; exact (Option.some.inj h).symm)
    exact ⟨[], this, by simp, by simp⟩
  | cons e es ih =>
    cases ps with
    | nil => simp at hl
    | cons p ps =>
      simp only [buildBases] at h
      have hl' : ps.length = es.length := by simpa using hl
      split at h
      · rename_i hn
        obtain ⟨ws, h1, h2, h3⟩ := ih ps dst hl' h
        refine ⟨ws, h1, ?_, ?_⟩
        · intro x hx
          obtain ⟨i, e', q, k⟩ := h2 x hx
          exact ⟨i + 1, e', q, by simpa using k⟩
        · intro i e' he hn'
          cases i with
          | zero => rw [List.getElem?_cons_zero, Option.some.injEq] at he; rw [← he] at hn'; exact absurd hn hn'
          | succ i => simpa using h3 i e' (by simpa using he) hn'
      · rename_i hn
        split at h
        · rename_i u q hu
          obtain ⟨ws, h1, h2, h3⟩ := ih ps _ hl' h
          refine ⟨(hd + q, baseBits G.L e.base, u) :: ws, h1, ?_, ?_⟩
          · intro x hx
            rcases List.mem_cons.1 hx with rfl | hx
            · exact ⟨0, e, q, rfl, hn, rfl, rfl, rfl, hu⟩
            · obtain ⟨i, e', q', k⟩ := h2 x hx
              exact ⟨i + 1, e', q', by simpa using k⟩
          · intro i e' he hn'
            cases i with
            | zero =>
              rw [List.getElem?_cons_zero, Option.some.injEq] at he
              subst he
              exact ⟨_, List.mem_cons_self, q, rfl, rfl, rfl, hu⟩
            | succ i =>
              obtain ⟨x, hx, k⟩ := h3 i e' (by simpa using he) hn'
              exact ⟨x, List.mem_cons_of_mem _ hx, by simpa using k⟩
        · cases h

theorem buildShared_ok (G : Prog n) (dv : Fin n → Option Bits) (hd : Nat) (c : Fin n) (bs : List (Fin n)) (ps : List (Option Nat))
    (dst r : Bits) (hl : ps.length = bs.length) (h : buildShared G dv hd c bs ps dst = some r) :
    ∃ ws, r = apply ws dst ∧
      (∀ p ∈ ws, ∃ (i : Nat) (b : Fin n) (q : Nat), bs[i]? = some b ∧ baseItem G.w c b = none ∧ ps[i]? = some (some q) ∧
        p.1 = hd + q ∧ p.2.1 = baseBits G.L b ∧ dv b = some p.2.2) ∧
      ∀ (i : Nat) (b : Fin n), bs[i]? = some b → baseItem G.w c b = none →
        ∃ p ∈ ws, ∃ q, ps[i]? = some (some q) ∧ p.1 = hd + q ∧ p.2.1 = baseBits G.L b ∧ dv b = some p.2.2 := by
  induction bs generalizing ps dst with
  | nil =>
    have : r = dst := by cases ps <;> (simp only [buildShared] at h; exact (Option.some.inj h).symm)
    exact ⟨[], this, by simp, by simp⟩
  | cons e es ih =>
    cases ps with
    | nil => simp at hl
    | cons p ps =>
      simp only [buildShared] at h
      have hl' : ps.length = es.length := by simpa using hl
      split at h
      · rename_i hn
        obtain ⟨ws, h1, h2, h3⟩ := ih ps dst hl' h
        refine ⟨ws, h1, ?_, ?_⟩
        · intro x hx
          obtain ⟨i, e', q, k⟩ := h2 x hx
          exact ⟨i + 1, e', q, by simpa using k⟩
        · intro i e' he hn'
          cases i with
          | zero => rw [List.getElem?_cons_zero, Option.some.injEq] at he; rw [he, hn'] at hn; simp at hn
          | succ i => simpa using h3 i e' (by simpa using he) hn'
      · rename_i hn
        have hn : baseItem G.w c e = none := by simpa using hn
        split at h
        · rename_i u q hu
          obtain ⟨ws, h1, h2, h3⟩ := ih ps _ hl' h
          refine ⟨(hd + q, baseBits G.L e, u) :: ws, h1, ?_, ?_⟩
          · intro x hx
            rcases List.mem_cons.1 hx with rfl | hx
            · exact ⟨0, e, q, rfl, hn, rfl, rfl, rfl, hu⟩
            · obtain ⟨i, e', q', k⟩ := h2 x hx
              exact ⟨i + 1, e', q', by simpa using k⟩
          · intro i e' he hn'
            cases i with
            | zero =>
              rw [List.getElem?_cons_zero, Option.some.injEq] at he
              subst he
              exact ⟨_, List.mem_cons_self, q, rfl, rfl, rfl, hu⟩
            | succ i =>
              obtain ⟨x, hx, k⟩ := h3 i e' (by simpa using he) hn'
              exact ⟨x, List.mem_cons_of_mem _ hx, by simpa using k⟩
        · cases h

theorem packBases_length (w : World n) (L : Fin n → Class) (off : Nat) (m : PosMap n) (es : List (Entry n)) (bp : List (Option Nat))
    (m' : PosMap n) (o : Nat) (h : packBases w L off m es = some (bp, m', o)) : bp.length = es.length := by
  induction es generalizing off m bp m' o with
  | nil => simp only [packBases, Option.some.injEq, Prod.mk.injEq] at h; rw [← h.1]; rfl
  | cons e es ih =>
    simp only [packBases] at h
    split at h
    · rw [Option.map_eq_some_iff] at h
      obtain ⟨⟨b1, b2, b3⟩, h1, h2⟩ := h
      cases h2
      simp [ih _ _ _ _ _ h1]
    · split at h
      · cases h
      · rw [Option.map_eq_some_iff] at h
        obtain ⟨⟨b1, b2, b3⟩, h1, h2⟩ := h
        cases h2
        simp [ih _ _ _ _ _ h1]

theorem packShared_length (w : World n) (L : Fin n → Class) (c : Fin n) (bp : List (Option Nat)) (m : PosMap n) (off : Nat)
    (bs : List (Fin n)) : (packShared w L c bp m off bs).1.length = bs.length := by
  induction bs generalizing off with
  | nil => rfl
  | cons b bs ih =>
    simp only [packShared]
    split
    · simp [ih]
    · split <;> simp [ih]

theorem pack_lengths {w : World n} {L : Fin n → Class} {c : Fin n} {p : Packed} (h : pack w L c = some p) :
    p.bases.length = (w.table c).length ∧ p.shared.length = (sharedTable w c).length := by
  unfold pack at h
  simp only at h
  split at h
  · cases h
  · rename_i bp m off hb
    cases h
    exact ⟨packBases_length _ _ _ _ _ _ _ _ hb, packShared_length _ _ _ _ _ _ _⟩

/-! ## One class -/

theorem default_succ (G : Prog n) (f : Nat) (c : Fin n) : default G (f + 1) c =
    if classSize G c = 0 then some zero
    else match pack G.w G.L c with
      | none => none
      | some p =>
        match buildMembers G (default G f) (firstBit (G.L c)) (G.L c).members p.members (G.init c)
            (if (G.L c).kind = .element then copyBV (G.header c) 0 0 25 zero else zero) with
        | none => none
        | some d1 =>
          match buildBases G (default G f) (firstBit (G.L c)) (G.w.table c) p.bases d1 with
          | none => none
          | some d2 => buildShared G (default G f) (firstBit (G.L c)) c (sharedTable G.w c) p.shared d2 := rfl

theorem join_some {α : Type} {o : Option (Option α)} {x : α} (h : o.join = some x) : o = some (some x) := by
  cases o with
  | none => cases h
  | some y => cases y with
    | none => cases h
    | some z => cases h; rfl

theorem step (G : Prog n) (ch : Checked G) (c : Fin n) (la : Laid G c) (f : Nat) (v : Bits) (h : default G (f + 1) c = some v) :
    ∃ p, pack G.w G.L c = some p ∧
      ((G.L c).kind = .element → ∀ x, x < 25 → v x = G.header c x) ∧
      (∀ (i q : Nat) (m : Member) (ini : Init n) (x : Nat), p.members[i]? = some q → (G.L c).members[i]? = some m →
        (G.init c)[i]? = some ini → x < size m → Wanted G m ini x (v (firstBit (G.L c) + q + x))) ∧
      (∀ (a : Fin n) (q y : Nat), Ancestor G.w c a → relativePosition G.w (pack G.w G.L) c a = some q → y < ownBits (G.L a) →
        ∃ u, default G f a = some u ∧ v (firstBit (G.L c) + q + y) = u y) ∧
      ∀ y, firstBit (G.L c) + totalBits G.w G.L c ≤ y → v y = false := by
  obtain ⟨p, hp, e1, e2, e3, e4, e5, e6, e7⟩ := layout G ch c la
  refine ⟨p, hp, ?_⟩
  have hmem : ∀ (i q : Nat) (m : Member) (x : Nat), p.members[i]? = some q → (G.L c).members[i]? = some m → x < size m →
      q + x < ownBits (G.L c) := by
    intro i q m x h1 h2 h3
    rw [e1] at h1
    have := (starts_cover 0 ((G.L c).members.map size) (q + x)).1 ⟨i, q, size m, h1, by rw [List.getElem?_map, h2]; rfl, ⟨by omega, by omega⟩⟩
    rw [e2]; omega
  rw [default_succ] at h
  by_cases h0 : classSize G c = 0
  · rw [if_pos h0] at h
    cases h
    unfold classSize bitsPerAtom at h0
    have hk : ¬ (G.L c).kind = .element := by
      intro q; rw [if_pos q] at h0; cases h0
    rw [if_neg hk] at h0
    refine ⟨fun q => absurd q hk, ?_, ?_, fun _ _ => rfl⟩
    · intro i q m ini x h1 h2 _ h3
      have := hmem i q m x h1 h2 h3; omega
    · intro a q y ha h1 h2
      obtain ⟨_, q', h3, h4, h5⟩ := e7 a ha
      omega
  · rw [if_neg h0, hp] at h
    simp only at h
    split at h
    · cases h
    · rename_i d1 hd1
      split at h
      · cases h
      · rename_i d2 hd2
        generalize hhd : firstBit (G.L c) = hd at *
        generalize hd0 : (if (G.L c).kind = .element then copyBV (G.header c) 0 0 25 zero else zero) = d0 at hd1
        have hz : ∀ y, hd ≤ y → d0 y = false := by
          intro y hy
          rw [← hd0]
          split
          · rename_i hk
            unfold firstBit at hhd
            rw [if_pos hk] at hhd
            exact copyBV_out _ _ _ _ _ _ (by unfold Covers; omega)
          · rfl
        rw [e1] at hd1
        obtain ⟨m1, m2⟩ := buildMembers_ok G (default G f) hd (G.L c).members (G.init c) 0 d0 d1 (ch.typed c).all (by rw [← e2]; omega)
          (ch.typed c).atom hd1
        obtain ⟨l1, l2⟩ := pack_lengths hp
        obtain ⟨wb, b1, b2, b3⟩ := buildBases_ok G (default G f) hd _ _ d1 d2 l1 hd2
        obtain ⟨wsh, s1, s2, s3⟩ := buildShared_ok G (default G f) hd c _ _ d2 v l2 h
        rw [b1, ← apply_append] at s1
        have anc_w : ∀ x ∈ wb ++ wsh, ∃ a q, Ancestor G.w c a ∧ relativePosition G.w (pack G.w G.L) c a = some q ∧ x.1 = hd + q ∧
            x.2.1 = ownBits (G.L a) ∧ default G f a = some x.2.2 := by
          intro x hx
          rcases List.mem_append.1 hx with hx | hx
          · obtain ⟨i, e, q, k1, k2, k3, k4, k5, k6⟩ := b2 x hx
            have ha := base_ancestor G ch c la e (List.mem_of_getElem? k1) k2
            refine ⟨e.base, q, ha, ?_, k4, by rw [k5, (e7 _ ha).1], k6⟩
            rw [← (base_pos G ch c la p hp i e k1 k2).1, k3]; rfl
          · obtain ⟨i, b, q, k1, k2, k3, k4, k5, k6⟩ := s2 x hx
            obtain ⟨ha, hq⟩ := shared_pos G ch c la p hp i b k1 k2
            refine ⟨b, q, ha, ?_, k4, by rw [k5, (e7 _ ha).1], k6⟩
            rw [← hq, k3]; rfl
        have w_anc : ∀ a q, Ancestor G.w c a → relativePosition G.w (pack G.w G.L) c a = some q → ∃ x ∈ wb ++ wsh, x.1 = hd + q ∧
            x.2.1 = ownBits (G.L a) ∧ default G f a = some x.2.2 := by
          intro a q ha hq
          cases hb : baseItem G.w c a with
          | some i =>
            obtain ⟨e, k1, k2, k3⟩ := (baseItem_direct ch.tables c a (anc_props ch.tables ha).1).2 i hb
            obtain ⟨x, x1, q', x2, x3, x4, x5⟩ := b3 i e k1 k3
            have hpos := (base_pos G ch c la p hp i e k1 k3).1
            rw [x2, k2, hq] at hpos
            cases hpos
            rw [k2] at x4 x5
            exact ⟨x, List.mem_append_left _ x1, x3, by rw [x4, (e7 a ha).1], x5⟩
          | none =>
            obtain ⟨j, hj⟩ := shared_item G ch c la a ha
            obtain ⟨x, x1, q', x2, x3, x4, x5⟩ := s3 j a hj hb
            have hpos := (shared_pos G ch c la p hp j a hj hb).2
            rw [x2, hq] at hpos
            cases hpos
            exact ⟨x, List.mem_append_right _ x1, x3, by rw [x4, (e7 a ha).1], x5⟩
        -- bits that no base writes
        have low : ∀ y, y < hd + ownBits (G.L c) ∨ hd + totalBits G.w G.L c ≤ y → v y = d1 y := by
          intro y hy
          rw [s1]
          apply apply_out
          intro x hx
          obtain ⟨a, q, k1, k2, k3, k4, k5⟩ := anc_w x hx
          obtain ⟨_, q', k6, k7, k8⟩ := e7 a k1
          rw [k2] at k6; cases k6
          unfold Covers
          rw [k3, k4]; omega
        refine ⟨?_, ?_, ?_, ?_⟩
        · intro hk x hx
          have h25 : hd = 25 := by rw [← hhd]; unfold firstBit; rw [if_pos hk]
          rw [low x (.inl (by omega)), m1 x (by unfold Covers; omega), ← hd0, if_pos hk, copyBV_in _ _ _ _ _ _ ⟨by omega, by omega⟩]
          congr 1; omega
        · intro i q m ini x h1 h2 h3 hx
          have hlt := hmem i q m x h1 h2 hx
          rw [e1] at h1
          have := m2 i q m ini x h1 h2 h3 hx
          rw [low _ (.inl (by omega))]
          cases ini with
          | plain =>
            show d1 _ = false
            rw [← hz (hd + q + x) (by omega)]; exact this
          | value w => exact this
          | object d => obtain ⟨u, u1, u2⟩ := this; exact ⟨u, ⟨f, u1⟩, u2⟩
          | atom => obtain ⟨u, u1, u2⟩ := this; exact ⟨u, ⟨f, u1⟩, u2⟩
        · intro a q y ha hq hy
          obtain ⟨x, x1, x2, x3, x4⟩ := w_anc a q ha hq
          refine ⟨x.2.2, x4, ?_⟩
          rw [s1]
          refine apply_in _ _ _ _ ⟨x, x1, ?_⟩ ?_
          · unfold Covers; rw [x2, x3]; omega
          · intro z hz' hc
            obtain ⟨b, r, k1, k2, k3, k4, k5⟩ := anc_w z hz'
            unfold Covers at hc
            rw [k3, k4] at hc
            have : a = b := by
              have := e5 (q + y) (.ancestor a) (.ancestor b) ⟨ha, q, hq, ⟨by omega, by omega⟩⟩ ⟨k1, r, k2, ⟨by omega, by omega⟩⟩
              cases this; rfl
            subst this
            rw [hq] at k2; cases k2
            rw [x4] at k5
            rw [Option.some.inj k5, k3]
            rw [Nat.add_sub_cancel_left]
        · intro y hy
          rw [low y (.inr hy), m1 y (by unfold Covers; rw [Nat.add_zero, ← e2]; omega)]
          exact hz y (by omega)

/-! ## The answer does not depend on the depth of the recursion -/

theorem buildMember_mono (G : Prog n) (dv dv' : Fin n → Option Bits) (hm : ∀ d v, dv d = some v → dv' d = some v) (hd : Nat) (m : Member)
    (pos : Nat) (ini : Init n) (dst r : Bits) (h : buildMember G dv hd m pos ini dst = some r) : buildMember G dv' hd m pos ini dst = some r := by
  unfold buildMember at h ⊢
  split at h
  · rename_i q; rw [if_pos q]; exact h
  · rename_i q
    rw [if_neg q]
    cases ini with
    | plain => exact h
    | value v => exact h
    | object d =>
      simp only at h ⊢
      split at h
      · cases h
      · rename_i u hu; rw [hm _ _ hu]; exact h
    | atom =>
      simp only at h ⊢
      split at h
      · cases h
      · rename_i u hu; rw [hm _ _ hu]; exact h

theorem buildMembers_mono (G : Prog n) (dv dv' : Fin n → Option Bits) (hm : ∀ d v, dv d = some v → dv' d = some v) (hd : Nat) (ms : List Member)
    (ps : List Nat) (is : List (Init n)) (dst r : Bits) (h : buildMembers G dv hd ms ps is dst = some r) :
    buildMembers G dv' hd ms ps is dst = some r := by
  induction ms generalizing ps is dst with
  | nil => exact h
  | cons m ms ih =>
    cases ps with
    | nil => exact h
    | cons p ps =>
      cases is with
      | nil => exact h
      | cons i is =>
        simp only [buildMembers] at h ⊢
        split at h
        · cases h
        · rename_i d hdst
          rw [buildMember_mono G dv dv' hm _ _ _ _ _ _ hdst]
          exact ih _ _ _ h

theorem buildBases_mono (G : Prog n) (dv dv' : Fin n → Option Bits) (hm : ∀ d v, dv d = some v → dv' d = some v) (hd : Nat) (es : List (Entry n))
    (ps : List (Option Nat)) (dst r : Bits) (h : buildBases G dv hd es ps dst = some r) : buildBases G dv' hd es ps dst = some r := by
  induction es generalizing ps dst with
  | nil => exact h
  | cons m ms ih =>
    cases ps with
    | nil => exact h
    | cons p ps =>
      simp only [buildBases] at h ⊢
      split at h
      · rename_i q; rw [if_pos q]; exact ih _ _ h
      · rename_i q
        rw [if_neg q]
        split at h
        · rename_i u r hu; rw [hm _ _ hu]; exact ih _ _ h
        · cases h

theorem buildShared_mono (G : Prog n) (dv dv' : Fin n → Option Bits) (hm : ∀ d v, dv d = some v → dv' d = some v) (hd : Nat) (c : Fin n)
    (es : List (Fin n)) (ps : List (Option Nat)) (dst r : Bits) (h : buildShared G dv hd c es ps dst = some r) :
    buildShared G dv' hd c es ps dst = some r := by
  induction es generalizing ps dst with
  | nil => exact h
  | cons m ms ih =>
    cases ps with
    | nil => exact h
    | cons p ps =>
      simp only [buildShared] at h ⊢
      split at h
      · rename_i q; rw [if_pos q]; exact ih _ _ h
      · rename_i q
        rw [if_neg q]
        split at h
        · rename_i u r hu; rw [hm _ _ hu]; exact ih _ _ h
        · cases h

theorem default_mono (G : Prog n) (f g : Nat) (hfg : f ≤ g) (c : Fin n) (v : Bits) (h : default G f c = some v) : default G g c = some v := by
  induction f generalizing g c v with
  | zero => cases h
  | succ f ih =>
    cases g with
    | zero => omega
    | succ g =>
      have hm : ∀ d v, default G f d = some v → default G g d = some v := fun d v => ih g (by omega) d v
      rw [default_succ] at h ⊢
      split at h
      · rename_i q; rw [if_pos q]; exact h
      · rename_i q
        rw [if_neg q]
        cases hp : pack G.w G.L c with
        | none => rw [hp] at h; cases h
        | some p =>
          rw [hp] at h
          simp only at h ⊢
          split at h
          · cases h
          · rename_i d1 h1
            rw [buildMembers_mono G _ _ hm _ _ _ _ _ _ h1]
            simp only
            split at h
            · cases h
            · rename_i d2 h2
              rw [buildBases_mono G _ _ hm _ _ _ _ _ h2]
              exact buildShared_mono G _ _ hm _ _ _ _ _ _ h

theorem is_unique {G : Prog n} {c : Fin n} {u v : Bits} (hu : Is G c u) (hv : Is G c v) : u = v := by
  obtain ⟨f, hf⟩ := hu
  obtain ⟨g, hg⟩ := hv
  have h1 := default_mono G f (max f g) (Nat.le_max_left _ _) c u hf
  have h2 := default_mono G g (max f g) (Nat.le_max_right _ _) c v hg
  rw [h1] at h2
  exact Option.some.inj h2

/-! ## Success -/

theorem buildMembers_total (G : Prog n) (dv : Fin n → Option Bits) (hd : Nat) (ms : List Member) (ps : List Nat) (is : List (Init n)) (dst : Bits)
    (fit : ∀ m ∈ ms, size m < 2 ^ 32)
    (h : ∀ (i : Nat) (m : Member) (d : Fin n), ms[i]? = some m → size m ≠ 0 → (is[i]? = some (.object d) ∨ is[i]? = some .atom ∧ d = G.empty) →
      ∃ u, dv d = some u) : ∃ r, buildMembers G dv hd ms ps is dst = some r := by
  induction ms generalizing ps is dst with
  | nil => exact ⟨dst, rfl⟩
  | cons m ms ih =>
    cases ps with
    | nil => exact ⟨dst, rfl⟩
    | cons p ps =>
      cases is with
      | nil => exact ⟨dst, rfl⟩
      | cons i is =>
        simp only [buildMembers]
        have hone : ∃ d, buildMember G dv hd m p i dst = some d := by
          unfold buildMember
          rw [sizeof_eq m (fit m (by simp))]
          split
          · exact ⟨_, rfl⟩
          · rename_i hs
            cases i with
            | plain => exact ⟨_, rfl⟩
            | value v => exact ⟨_, rfl⟩
            | object d =>
              obtain ⟨u, hu⟩ := h 0 m d rfl hs (.inl rfl)
              simp only [hu]; exact ⟨_, rfl⟩
            | atom =>
              obtain ⟨u, hu⟩ := h 0 m G.empty rfl hs (.inr ⟨rfl, rfl⟩)
              simp only [hu]; exact ⟨_, rfl⟩
        obtain ⟨d, hd'⟩ := hone
        rw [hd']
        exact ih _ _ _ (fun m' hm => fit m' (by simp [hm])) fun i m' d h1 h2 h3 => h (i + 1) m' d (by simpa using h1) h2 (by simpa using h3)

theorem buildBases_total (G : Prog n) (dv : Fin n → Option Bits) (hd : Nat) (es : List (Entry n)) (ps : List (Option Nat)) (dst : Bits)
    (h : ∀ (i : Nat) (e : Entry n), es[i]? = some e → e.base ≠ G.w.nouti → (∃ u, dv e.base = some u) ∧ ∃ q, (ps[i]?).join = some q) :
    ∃ r, buildBases G dv hd es ps dst = some r := by
  induction es generalizing ps dst with
  | nil => exact ⟨dst, rfl⟩
  | cons e es ih =>
    cases ps with
    | nil => exact ⟨dst, rfl⟩
    | cons p ps =>
      have h' : ∀ (i : Nat) (e : Entry n), es[i]? = some e → e.base ≠ G.w.nouti → (∃ u, dv e.base = some u) ∧ ∃ q, (ps[i]?).join = some q :=
        fun i e h1 h2 => by simpa using h (i + 1) e (by simpa using h1) h2
      simp only [buildBases]
      split
      · exact ih _ _ h'
      · rename_i hn
        obtain ⟨⟨u, hu⟩, q, hq⟩ := h 0 e rfl hn
        rw [List.getElem?_cons_zero] at hq
        have hq : p = some q := hq
        rw [hu, hq]
        exact ih _ _ h'

theorem buildShared_total (G : Prog n) (dv : Fin n → Option Bits) (hd : Nat) (c : Fin n) (es : List (Fin n)) (ps : List (Option Nat)) (dst : Bits)
    (h : ∀ (i : Nat) (b : Fin n), es[i]? = some b → baseItem G.w c b = none → (∃ u, dv b = some u) ∧ ∃ q, (ps[i]?).join = some q) :
    ∃ r, buildShared G dv hd c es ps dst = some r := by
  induction es generalizing ps dst with
  | nil => exact ⟨dst, rfl⟩
  | cons e es ih =>
    cases ps with
    | nil => exact ⟨dst, rfl⟩
    | cons p ps =>
      have h' : ∀ (i : Nat) (b : Fin n), es[i]? = some b → baseItem G.w c b = none → (∃ u, dv b = some u) ∧ ∃ q, (ps[i]?).join = some q :=
        fun i e h1 h2 => by simpa using h (i + 1) e (by simpa using h1) h2
      simp only [buildShared]
      split
      · exact ih _ _ h'
      · rename_i hn
        obtain ⟨⟨u, hu⟩, q, hq⟩ := h 0 e rfl (by simpa using hn)
        rw [List.getElem?_cons_zero] at hq
        have hq : p = some q := hq
        rw [hu, hq]
        exact ih _ _ h'

theorem default_total (G : Prog n) (ch : Checked G) (c : Fin n) (la : Laid G c) (f : Nat) (h : ∀ d, Needs G c d → ∃ u, default G f d = some u) :
    ∃ v, default G (f + 1) c = some v := by
  obtain ⟨p, hp, e1, e2, e3, e4, e5, e6, e7⟩ := layout G ch c la
  rw [default_succ]
  split
  · exact ⟨_, rfl⟩
  · rw [hp]
    simp only
    obtain ⟨d1, h1⟩ := buildMembers_total G (default G f) (firstBit (G.L c)) (G.L c).members p.members (G.init c)
      (if (G.L c).kind = .element then copyBV (G.header c) 0 0 25 zero else zero) (fun m hm => by
        have := le_sum (List.mem_map_of_mem (f := size) hm); omega) fun i m d k1 k2 k3 => h d (.inl ⟨i, m, k1, k2, k3⟩)
    rw [h1]
    simp only
    obtain ⟨d2, h2⟩ := buildBases_total G (default G f) (firstBit (G.L c)) (G.w.table c) p.bases d1 (fun i e k1 k2 => by
      have ha := base_ancestor G ch c la e (List.mem_of_getElem? k1) k2
      refine ⟨h _ (.inr ha), ?_⟩
      rw [(base_pos G ch c la p hp i e k1 k2).1]
      obtain ⟨_, q, hq, _⟩ := e7 _ ha
      exact ⟨q, hq⟩)
    rw [h2]
    simp only
    exact buildShared_total G (default G f) (firstBit (G.L c)) c _ _ d2 (fun i b k1 k2 => by
      obtain ⟨ha, hq⟩ := shared_pos G ch c la p hp i b k1 k2
      refine ⟨h _ (.inr ha), ?_⟩
      rw [hq]
      obtain ⟨_, q, hq, _⟩ := e7 _ ha
      exact ⟨q, hq⟩)

theorem buildMembers_needs (G : Prog n) (dv : Fin n → Option Bits) (hd : Nat) (ms : List Member) (ps : List Nat) (is : List (Init n)) (dst r : Bits)
    (hl : ps.length = ms.length) (fit : ∀ m ∈ ms, size m < 2 ^ 32) (h : buildMembers G dv hd ms ps is dst = some r) (i : Nat) (m : Member) (d : Fin n)
    (h1 : ms[i]? = some m) (h2 : size m ≠ 0) (h3 : is[i]? = some (.object d) ∨ is[i]? = some .atom ∧ d = G.empty) : ∃ u, dv d = some u := by
  induction ms generalizing ps is dst i with
  | nil => simp at h1
  | cons x ms ih =>
    cases ps with
    | nil => simp at hl
    | cons p ps =>
      cases is with
      | nil => simp at h3
      | cons y is =>
        simp only [buildMembers] at h
        split at h
        · cases h
        · rename_i d' hd'
          cases i with
          | zero =>
            simp only [List.getElem?_cons_zero, Option.some.injEq] at h1 h3
            subst h1
            unfold buildMember at hd'
            rw [sizeof_eq x (fit x (by simp)), if_neg h2] at hd'
            rcases h3 with rfl | ⟨rfl, rfl⟩
            · simp only at hd'
              split at hd'
              · cases hd'
              · rename_i u hu; exact ⟨u, hu⟩
            · simp only at hd'
              split at hd'
              · cases hd'
              · rename_i u hu; exact ⟨u, hu⟩
          | succ i => exact ih ps is d' (by simpa using hl) (fun m hm => fit m (by simp [hm])) h i (by simpa using h1) (by simpa using h3)

/-! ## Initialization lists -/

theorem allZeros_iff (pos len : Nat) (mask : Bits) : allZeros pos len mask = true ↔ ∀ y, Covers pos len y → mask y = false := by
  unfold allZeros
  rw [List.all_eq_true]
  constructor
  · rintro h y ⟨h1, h2⟩
    have := h (y - pos) (List.mem_range.2 (by omega))
    rw [show pos + (y - pos) = y by omega] at this
    simpa using this
  · intro h x hx
    rw [h (pos + x) ⟨by omega, by have := List.mem_range.1 hx; omega⟩]; rfl

theorem rel_self (G : Prog n) (d : Fin n) : relativePosition G.w (pack G.w G.L) d d = some 0 := by
  unfold relativePosition; rw [if_pos rfl]

theorem place_at (G : Prog n) (ch : Checked G) (d a : Fin n) (i pos : Nat) (m : Member) (la : Laid G a) (h : At G d a i pos m) :
    place G d a i = some (pos, size m) := by
  obtain ⟨p, q, r, h1, h2, h3, h4, h5⟩ := h
  obtain ⟨p', hp, e1, e2, e3, _⟩ := layout G ch a la
  have fit : size m < 2 ^ 32 := by
    have := le_sum (List.mem_map_of_mem (f := size) (List.mem_of_getElem? h3)); omega
  have hr : (relativePosition G.w (pack G.w G.L) d a).getD 0 = r := by
    rcases h4 with ⟨rfl, rfl⟩ | ⟨_, h4⟩
    · rw [rel_self]; rfl
    · rw [h4]; rfl
  unfold place
  rw [h1]
  simp only
  rw [h2, h3]
  simp only
  rw [hr, sizeof_eq m fit, h5]
  unfold firstBit
  congr 2; omega

theorem at_exists (G : Prog n) (ch : Checked G) (d a : Fin n) (i : Nat) (ld : Laid G d) (la : Laid G a) (h : d = a ∨ Ancestor G.w d a)
    (hi : i < (G.L a).members.length) : ∃ pos m, At G d a i pos m := by
  obtain ⟨p, hp, e1, e2, e3, _⟩ := layout G ch a la
  obtain ⟨p', hp', _, _, _, _, _, _, e7⟩ := layout G ch d ld
  have hq : i < p.members.length := by rw [e1, starts_length]; simpa using hi
  have hr : ∃ r, (d = a ∧ r = 0 ∨ Ancestor G.w d a ∧ relativePosition G.w (pack G.w G.L) d a = some r) := by
    rcases h with rfl | h
    · exact ⟨0, .inl ⟨rfl, rfl⟩⟩
    · obtain ⟨_, r, hr, _⟩ := e7 a h
      exact ⟨r, .inr ⟨h, hr⟩⟩
  obtain ⟨r, hr⟩ := hr
  exact ⟨_, _, p, p.members[i], r, hp, List.getElem?_eq_getElem hq, List.getElem?_eq_getElem hi, hr, rfl⟩

theorem apply_result (ws : List (Nat × Nat × Bits)) (d : Bits) (ap : Apart ws) (y : Nat) : Result ws d y (apply ws d y) := by
  by_cases h : ∃ p ∈ ws, Covers p.1 p.2.1 y
  · obtain ⟨p, h1, h2⟩ := h
    refine .inl ⟨p, h1, h2.1, h2.2, ?_⟩
    refine apply_in ws d y _ ⟨p, h1, h2⟩ ?_
    intro q hq hc
    unfold Apart at ap
    by_cases e : p = q
    · rw [e]
    · exfalso
      haveI : Std.Symm fun p q : Nat × Nat × Bits => ∀ y, p.1 ≤ y → y < p.1 + p.2.1 → q.1 ≤ y → y < q.1 + q.2.1 → False :=
        ⟨fun a b h y h1 h2 h3 h4 => h y h3 h4 h1 h2⟩
      exact List.Pairwise.forall ap h1 hq e y h2.1 h2.2 hc.1 hc.2
  · push Not at h
    exact .inr ⟨h, apply_out ws d y h⟩

/-- What is known after a list went through. -/
def Sound (G : Prog n) (l : Inits n) : Prop :=
  ∀ (d : Fin n), Laid G d → Resolved G d l → ∀ (u bv mask r k : Bits), (∀ y, mask y = false → bv y = u y) →
    initList G d l bv mask = some (r, k) →
    ∃ ws, Placed G d l u ws ∧ Apart ws ∧ (∀ p ∈ ws, ∀ y, Covers p.1 p.2.1 y → mask y = false) ∧ r = apply ws bv

theorem window_eq (u bv mask : Bits) (pos len : Nat) (h : ∀ y, mask y = false → bv y = u y) (hz : ∀ y, Covers pos len y → mask y = false) :
    copyBV bv pos 0 len zero = window u pos len := by
  funext x
  unfold window
  by_cases hx : x < len
  · rw [copyBV_in _ _ _ _ _ _ ⟨by omega, by omega⟩, if_pos hx, Nat.sub_zero]
    exact h _ (hz _ ⟨by omega, by omega⟩)
  · rw [copyBV_out _ _ _ _ _ _ (by unfold Covers; omega), if_neg hx]; rfl

/-- One item, then the rest. -/
theorem sound_cons (G : Prog n) (d : Fin n) (ld : Laid G d) (rest : Inits n) (hr : Resolved G d rest) (ih : Sound G rest)
    (u bv mask r k v : Bits) (pos len : Nat) (ag : ∀ y, mask y = false → bv y = u y) (hz : ∀ y, Covers pos len y → mask y = false)
    (h : initList G d rest (copyBV v 0 pos len bv) (copyBV (fun _ => true) 0 pos len mask) = some (r, k)) :
    ∃ ws, Placed G d rest u ws ∧ Apart ((pos, len, v) :: ws) ∧
      (∀ p ∈ ((pos, len, v) :: ws : List (Nat × Nat × Bits)), ∀ y, Covers p.1 p.2.1 y → mask y = false) ∧ r = apply ((pos, len, v) :: ws) bv := by
  have hmask : ∀ y, copyBV (fun _ => true) 0 pos len mask y = false → ¬ Covers pos len y ∧ mask y = false := by
    intro y hy
    by_cases hc : Covers pos len y
    · rw [copyBV_in _ _ _ _ _ _ hc] at hy; cases hy
    · rw [copyBV_out _ _ _ _ _ _ hc] at hy; exact ⟨hc, hy⟩
  obtain ⟨ws, w1, w2, w3, w4⟩ := ih d ld hr u _ _ r k (fun y hy => by
    obtain ⟨q1, q2⟩ := hmask y hy
    rw [copyBV_out _ _ _ _ _ _ q1]; exact ag y q2) h
  refine ⟨ws, w1, ?_, ?_, w4⟩
  · refine List.pairwise_cons.2 ⟨?_, w2⟩
    intro q hq y h1 h2 h3 h4
    exact (hmask y (w3 q hq y ⟨h3, h4⟩)).1 ⟨h1, h2⟩
  · intro p hp
    rcases List.mem_cons.1 hp with rfl | hp
    · exact hz
    · intro y hy; exact (hmask y (w3 p hp y hy)).2

theorem sound (G : Prog n) (ch : Checked G) (l : Inits n) : Sound G l := by
  refine Inits.rec (motive_1 := fun v => ∀ d l, v = .list d l → Sound G l) (motive_2 := Sound G) ?_ ?_ ?_ ?_ l
  · intro v d l h; cases h
  · intro d l ih d' l' h; cases h; exact ih
  · intro d ld hr u bv mask r k ag h
    simp only [initList, Option.some.injEq, Prod.mk.injEq] at h
    exact ⟨[], .nil d u, .nil, by simp, h.1.symm⟩
  · intro a i v rest ihv ih d ld hr u bv mask r k ag h
    obtain ⟨r1, r2, r3, r4, r5⟩ := hr
    obtain ⟨pos, m, hat⟩ := at_exists G ch d a i ld r3 r1 r2
    have hpl := place_at G ch d a i pos m r3 hat
    cases v with
    | bits v =>
      simp only [initList, initMember, hpl] at h
      split at h
      · cases h
      · rename_i bv' mask' hm
        split at hm
        · rename_i hz
          rw [allZeros_iff] at hz
          cases hm
          obtain ⟨ws, w1, w2, w3, w4⟩ := sound_cons G d ld rest r5 ih u bv mask r k v pos (size m) ag hz h
          exact ⟨_, .bits hat w1, w2, w3, w4⟩
        · cases hm
    | list d' l' =>
      simp only [initList, initMember, hpl] at h
      split at h
      · cases h
      · rename_i bv' mask' hm
        split at hm
        · rename_i hz
          rw [allZeros_iff] at hz
          split at hm
          · cases hm
          · rename_i r' k' hs
            cases hm
            rw [window_eq u bv mask pos (size m) ag hz] at hs
            obtain ⟨ld', hr'⟩ := r4
            obtain ⟨ws', v1, v2, v3, v4⟩ := ihv d' l' rfl d' ld' hr' _ _ _ r' k' (fun _ _ => rfl) hs
            obtain ⟨ws, w1, w2, w3, w4⟩ := sound_cons G d ld rest r5 ih u bv mask r k r' pos (size m) ag hz h
            refine ⟨_, .list hat v1 v2 ?_ w1, w2, w3, w4⟩
            intro y
            rw [v4]
            exact apply_result _ _ v2 y
        · cases hm

theorem complete (G : Prog n) (ch : Checked G) {d : Fin n} {l : Inits n} {u : Bits} {ws : List (Nat × Nat × Bits)} (h : Placed G d l u ws)
    (hr : Resolved G d l) (ap : Apart ws) (bv mask : Bits) (ag : ∀ y, mask y = false → bv y = u y)
    (hm : ∀ p ∈ ws, ∀ y, Covers p.1 p.2.1 y → mask y = false) : ∃ r k, initList G d l bv mask = some (r, k) := by
  have rest_ok : ∀ (pos len : Nat) (v : Bits) (ws : List (Nat × Nat × Bits)) (u bv mask : Bits), Apart ((pos, len, v) :: ws) →
      (∀ y, mask y = false → bv y = u y) → (∀ p ∈ ((pos, len, v) :: ws : List (Nat × Nat × Bits)), ∀ y, Covers p.1 p.2.1 y → mask y = false) →
      (∀ y, copyBV (fun _ => true) 0 pos len mask y = false → copyBV v 0 pos len bv y = u y) ∧
      ∀ p ∈ ws, ∀ y, Covers p.1 p.2.1 y → copyBV (fun _ => true) 0 pos len mask y = false := by
    intro pos len v ws u bv mask ap ag hm
    refine ⟨?_, ?_⟩
    · intro y hy
      by_cases hc : Covers pos len y
      · rw [copyBV_in _ _ _ _ _ _ hc] at hy; cases hy
      · rw [copyBV_out _ _ _ _ _ _ hc] at hy ⊢; exact ag y hy
    · intro p hp y hy
      have : ¬ Covers pos len y := fun hc => (List.pairwise_cons.1 ap).1 p hp y hc.1 hc.2 hy.1 hy.2
      rw [copyBV_out _ _ _ _ _ _ this]
      exact hm p (List.mem_cons_of_mem _ hp) y hy
  induction h generalizing bv mask with
  | nil d u => exact ⟨bv, mask, rfl⟩
  | @bits d a i pos m v u rest ws hat _ ih =>
    obtain ⟨r1, r2, r3, r4, r5⟩ := hr
    simp only [initList, initMember, place_at G ch d a i pos m r3 hat]
    rw [if_pos ((allZeros_iff _ _ _).2 (hm _ List.mem_cons_self))]
    obtain ⟨q1, q2⟩ := rest_ok pos (size m) v ws u bv mask ap ag hm
    exact ih r5 (List.pairwise_cons.1 ap).2 _ _ q1 q2
  | @list d a d' i pos m l rest u r ws ws' hat _ ap' hres _ ih' ih =>
    obtain ⟨r1, r2, r3, ⟨_, r4⟩, r5⟩ := hr
    have hz := hm _ List.mem_cons_self
    simp only at hz
    obtain ⟨r', k', hs⟩ := ih' r4 ap' (window u pos (size m)) zero (fun _ _ => rfl) (fun _ _ _ _ => rfl)
    simp only [initList, initMember, place_at G ch d a i pos m r3 hat]
    rw [if_pos ((allZeros_iff _ _ _).2 hz), window_eq u bv mask pos (size m) ag hz, hs]
    simp only
    obtain ⟨q1, q2⟩ := rest_ok pos (size m) r' ws u bv mask (by
      refine List.pairwise_cons.2 ⟨(List.pairwise_cons.1 ap).1, (List.pairwise_cons.1 ap).2⟩) ag (by
      intro p hp
      rcases List.mem_cons.1 hp with rfl | hp
      · exact hz
      · exact hm p (List.mem_cons_of_mem _ hp))
    exact ih r5 (List.pairwise_cons.1 ap).2 _ _ q1 q2

theorem names_placed {G : Prog n} {d : Fin n} {l : Inits n} {u : Bits} {ws : List (Nat × Nat × Bits)} (h : Placed G d l u ws) (j : Nat) :
    (∀ a i, (names l)[j]? = some (a, i) → ∃ pos m v, At G d a i pos m ∧ ws[j]? = some (pos, size m, v)) ∧
    ∀ p, ws[j]? = some p → ∃ a i pos m v, (names l)[j]? = some (a, i) ∧ At G d a i pos m ∧ p = (pos, size m, v) := by
  induction h generalizing j with
  | nil d u => simp [names]
  | @bits d a i pos m v u rest ws hat _ ih =>
    cases j with
    | zero =>
      simp only [names, List.getElem?_cons_zero, Option.some.injEq]
      refine ⟨fun a' i' h => ?_, fun p h => ⟨a, i, pos, m, v, rfl, hat, h.symm⟩⟩
      cases h; exact ⟨pos, m, v, hat, rfl⟩
    | succ j => simpa only [names, List.getElem?_cons_succ] using ih j
  | @list d a d' i pos m l rest u r ws ws' hat _ ap' hres _ ih' ih =>
    cases j with
    | zero =>
      simp only [names, List.getElem?_cons_zero, Option.some.injEq]
      refine ⟨fun a' i' h => ?_, fun p h => ⟨a, i, pos, m, r, rfl, hat, h.symm⟩⟩
      cases h; exact ⟨pos, m, r, hat, rfl⟩
    | succ j => simpa only [names, List.getElem?_cons_succ] using ih j

theorem at_unique {G : Prog n} {c a : Fin n} {i pos pos' : Nat} {m m' : Member} (ch : Checked G) (h : At G c a i pos m) (h' : At G c a i pos' m') :
    pos = pos' ∧ m = m' := by
  obtain ⟨p, q, r, h1, h2, h3, h4, h5⟩ := h
  obtain ⟨p', q', r', k1, k2, k3, k4, k5⟩ := h'
  rw [h1] at k1; cases k1
  rw [h2] at k2; cases k2
  rw [h3] at k3; cases k3
  have : r = r' := by
    rcases h4 with ⟨rfl, rfl⟩ | ⟨g1, g2⟩ <;> rcases k4 with ⟨e, rfl⟩ | ⟨g3, g4⟩
    · rfl
    · exact absurd g3 (ch.acyclic _)
    · subst e; exact absurd g1 (ch.acyclic _)
    · rw [g2] at g4; exact Option.some.inj g4
  rw [h5, k5, this]; exact ⟨rfl, rfl⟩

/-- Members of different name have no bit in common. -/
theorem members_apart (G : Prog n) (ch : Checked G) (c a b : Fin n) (lc : Laid G c) (la : Laid G a) (lb : Laid G b) (i j pos pos' : Nat)
    (m m' : Member) (h : At G c a i pos m) (h' : At G c b j pos' m') (y : Nat) (hy : Covers pos (size m) y) (hy' : Covers pos' (size m') y) :
    a = b ∧ i = j := by
  obtain ⟨p, hp, e1, e2, e3, e4, e5, e6, e7⟩ := layout G ch c lc
  have key : ∀ (a : Fin n) (i pos : Nat) (m : Member), Laid G a → At G c a i pos m → Covers pos (size m) y →
      ∃ q s, firstBit (G.L c) + s = y ∧
        (c = a ∧ p.members[i]? = some q ∧ (G.L c).members[i]? = some m ∧ Covers q (size m) s ∧ Owns G.w G.L (pack G.w G.L) p c (.member i) s ∨
         ∃ r, s = r + q ∧ Ancestor G.w c a ∧ relativePosition G.w (pack G.w G.L) c a = some r ∧ q < ownBits (G.L a) ∧
           Owns G.w G.L (pack G.w G.L) p c (.ancestor a) s ∧
           ∃ z, (starts 0 ((G.L a).members.map size))[i]? = some z ∧ (G.L a).members[i]? = some m ∧ Covers z (size m) q) := by
    intro a i pos m la hat hc
    obtain ⟨p', q, r, h1, h2, h3, h4, h5⟩ := hat
    have h5 : pos = firstBit (G.L c) + r + q := h5
    unfold Covers at hc
    rcases h4 with ⟨rfl, rfl⟩ | ⟨g1, g2⟩
    · rw [hp] at h1; cases h1
      refine ⟨q, y - firstBit (G.L c), by omega, .inl ⟨rfl, h2, h3, ⟨by omega, by omega⟩, q, m, h2, h3, ⟨by omega, by omega⟩⟩⟩
    · obtain ⟨pa, hpa, f1, f2, _⟩ := layout G ch a la
      rw [hpa] at h1; cases h1
      rw [f1] at h2
      have hlt := (starts_cover 0 ((G.L a).members.map size) (y - firstBit (G.L c) - r)).1
        ⟨i, q, size m, h2, by rw [List.getElem?_map, h3]; rfl, ⟨by omega, by omega⟩⟩
      refine ⟨y - firstBit (G.L c) - r, y - firstBit (G.L c), by omega, .inr ⟨r, by omega, g1, g2, by omega,
        ⟨g1, r, g2, ⟨by omega, by omega⟩⟩, q, h2, h3, ⟨by omega, by omega⟩⟩⟩
  obtain ⟨q, s, s1, k⟩ := key a i pos m la h hy
  obtain ⟨q', s', s1', k'⟩ := key b j pos' m' lb h' hy'
  have : s' = s := by omega
  subst this
  rcases k with ⟨rfl, _, _, _, o⟩ | ⟨r, x1, x2, x3, x4, o, z, z1, z2, z3⟩ <;>
    rcases k' with ⟨rfl, _, _, _, o'⟩ | ⟨r', x1', x2', x3', x4', o', z', z1', z2', z3'⟩
  · have := e5 _ _ _ o o'; cases this; exact ⟨rfl, rfl⟩
  · have := e5 _ _ _ o o'; cases this
  · have := e5 _ _ _ o o'; cases this
  · have := e5 _ _ _ o o'; cases this
    rw [x3] at x3'; cases x3'
    have : q' = q := by omega
    subst this
    refine ⟨rfl, ?_⟩
    exact starts_unique 0 _ q' i j z z' (size m) (size m') z1 (by rw [List.getElem?_map, z2]; rfl) z3 z1'
      (by rw [List.getElem?_map, z2']; rfl) z3'

theorem resolved_names {G : Prog n} {d : Fin n} {l : Inits n} (hr : Resolved G d l) {a : Fin n} {i : Nat} (h : (a, i) ∈ names l) : Laid G a := by
  have key : ∀ l : Inits n, Resolved G d l → (a, i) ∈ names l → Laid G a := by
    intro l
    refine Inits.rec (motive_1 := fun _ => True) (motive_2 := fun l => Resolved G d l → (a, i) ∈ names l → Laid G a) ?_ ?_ ?_ ?_ l
    · intros; trivial
    · intros; trivial
    · intro _ h; simp [names] at h
    · intro b j v rest _ ih hr h
      obtain ⟨r1, r2, r3, r4, r5⟩ := hr
      simp only [names, List.mem_cons, Prod.mk.injEq] at h
      rcases h with ⟨rfl, rfl⟩ | h
      · exact r3
      · exact ih r5 h
  exact key l hr h

theorem placed_exists (G : Prog n) (ch : Checked G) (l : Inits n) :
    ∀ (d : Fin n), Laid G d → Resolved G d l → Distinct l → ∀ u, ∃ ws, Placed G d l u ws ∧ Apart ws := by
  refine Inits.rec (motive_1 := fun v => ∀ d' l', v = .list d' l' → ∀ (d : Fin n), Laid G d → Resolved G d l' → Distinct l' → ∀ u, ∃ ws, Placed G d l' u ws ∧ Apart ws)
    (motive_2 := fun l => ∀ (d : Fin n), Laid G d → Resolved G d l → Distinct l → ∀ u, ∃ ws, Placed G d l u ws ∧ Apart ws) ?_ ?_ ?_ ?_ l
  · intro v d l h; cases h
  · intro d l ih d' l' h; cases h; exact ih
  · intro d _ _ _ u; exact ⟨[], .nil d u, .nil⟩
  · intro a i v rest ihv ih d ld hr hdist u
    obtain ⟨r1, r2, r3, r4, r5⟩ := hr
    obtain ⟨d1, d2, d3⟩ := hdist
    obtain ⟨pos, m, hat⟩ := at_exists G ch d a i ld r3 r1 r2
    obtain ⟨ws, w1, w2⟩ := ih d ld r5 d3 u
    have hap : ∀ v, Apart ((pos, size m, v) :: ws) := by
      intro v
      refine List.pairwise_cons.2 ⟨?_, w2⟩
      intro q hq y h1 h2 h3 h4
      obtain ⟨j, hj⟩ := List.mem_iff_getElem?.1 hq
      obtain ⟨b, i', pos', m', v', g1, g2, g3⟩ := (names_placed w1 j).2 q hj
      rw [g3] at h3 h4
      have hmem := List.mem_of_getElem? g1
      obtain ⟨rfl, rfl⟩ := members_apart G ch d a b ld r3 (resolved_names r5 hmem) i i' pos pos' m m' hat g2 y ⟨h1, h2⟩ ⟨h3, h4⟩
      exact d1 hmem
    cases v with
    | bits v => exact ⟨_, .bits hat w1, hap v⟩
    | list d' l' =>
      obtain ⟨r6, r7⟩ := r4
      obtain ⟨ws', v1, v2⟩ := ihv d' l' rfl d' r6 r7 d2 (window u pos (size m))
      exact ⟨_, .list hat v1 v2 (fun y => apply_result ws' (window u pos (size m)) v2 y) w1, hap _⟩

/-! ## Arrays -/

theorem item_disjoint {len i j x : Nat} (h : i ≠ j) (hx : x < len) : ¬ Covers (i * len) len (j * len + x) := by
  rintro ⟨h1, h2⟩
  rcases Nat.lt_or_gt_of_ne h with q | q
  · have := Nat.mul_le_mul_right len (Nat.succ_le_of_lt q)
    rw [Nat.succ_mul] at this; omega
  · have := Nat.mul_le_mul_right len (Nat.succ_le_of_lt q)
    rw [Nat.succ_mul] at this; omega

theorem item_in {len j x : Nat} (hx : x < len) : Covers (j * len) len (j * len + x) := ⟨by omega, by omega⟩

theorem item_below {len j k y : Nat} (h : j < k) (hy : k * len ≤ y) : ¬ Covers (j * len) len y := by
  rintro ⟨h1, h2⟩
  have := Nat.mul_le_mul_right len (Nat.succ_le_of_lt h)
  rw [Nat.succ_mul] at this; omega

theorem copy_item (v bv : Bits) (len j x : Nat) (hx : x < len) : copyBV v 0 (j * len) len bv (j * len + x) = v x := by
  rw [copyBV_in _ _ _ _ _ _ (item_in hx)]
  congr 1; omega

theorem arrayItems_get (len : Nat) (items : List Bits) (i : Nat) (bv : Bits) :
    (∀ j v x, items[j]? = some v → x < len → arrayItems len i items bv ((i + j) * len + x) = v x) ∧
    (∀ j x, j < i → x < len → arrayItems len i items bv (j * len + x) = bv (j * len + x)) ∧
    ∀ y, (i + items.length) * len ≤ y → arrayItems len i items bv y = bv y := by
  induction items generalizing i bv with
  | nil => simp [arrayItems]
  | cons w ws ih =>
    obtain ⟨h1, h2, h3⟩ := ih (i + 1) (copyBV w 0 (i * len) len bv)
    simp only [arrayItems]
    refine ⟨?_, ?_, ?_⟩
    · intro j v x hj hx
      cases j with
      | zero =>
        rw [List.getElem?_cons_zero, Option.some.injEq] at hj
        rw [show i + 0 = i from rfl, h2 i x (by omega) hx, copy_item _ _ _ _ _ hx, hj]
      | succ j =>
        rw [show i + (j + 1) = i + 1 + j by omega]
        exact h1 j v x (by simpa using hj) hx
    · intro j x hj hx
      rw [h2 j x (by omega) hx, copyBV_out _ _ _ _ _ _ (item_disjoint (by omega) hx)]
    · intro y hy
      rw [List.length_cons] at hy
      rw [h3 y (by rw [show i + 1 + ws.length = i + (ws.length + 1) by omega]; exact hy),
        copyBV_out _ _ _ _ _ _ (item_below (k := i + (ws.length + 1)) (by omega) hy)]

theorem repeatLast_get (len m k : Nat) (hn : 0 < m) (bv : Bits) :
    (∀ j x, j < m → x < len → repeatLast len m k bv (j * len + x) = bv (j * len + x)) ∧
    (∀ j x, m ≤ j → j < k → x < len → repeatLast len m k bv (j * len + x) = bv ((m - 1) * len + x)) ∧
    ∀ y, m * len ≤ y → k * len ≤ y → repeatLast len m k bv y = bv y := by
  unfold repeatLast
  split
  · rename_i hk
    have hlast : ∀ x, x < len → copyBV bv ((m - 1) * len) 0 len zero x = bv ((m - 1) * len + x) := by
      intro x hx
      rw [copyBV_in _ _ _ _ _ _ ⟨by omega, by omega⟩]; rfl
    generalize copyBV bv ((m - 1) * len) 0 len zero = last at hlast
    have key : ∀ s, (∀ j x, m ≤ j → j < m + s → x < len →
        (List.range s).foldl (fun d j => copyBV last 0 ((m + j) * len) len d) bv (j * len + x) = last x) ∧
        (∀ j x, (j < m ∨ m + s ≤ j) → x < len →
        (List.range s).foldl (fun d j => copyBV last 0 ((m + j) * len) len d) bv (j * len + x) = bv (j * len + x)) ∧
        ∀ y, (m + s) * len ≤ y → (List.range s).foldl (fun d j => copyBV last 0 ((m + j) * len) len d) bv y = bv y := by
      intro s
      induction s with
      | zero => exact ⟨fun j x h1 h2 => by omega, fun _ _ _ _ => rfl, fun _ _ => rfl⟩
      | succ s ih =>
        obtain ⟨i1, i2, i3⟩ := ih
        rw [List.range_succ, List.foldl_append, List.foldl_cons, List.foldl_nil]
        refine ⟨?_, ?_, ?_⟩
        · intro j x h1 h2 hx
          by_cases e : m + s = j
          · subst e; exact copy_item _ _ _ _ _ hx
          · rw [copyBV_out _ _ _ _ _ _ (item_disjoint e hx)]
            exact i1 j x h1 (by omega) hx
        · intro j x h1 hx
          rw [copyBV_out _ _ _ _ _ _ (item_disjoint (by omega) hx)]
          exact i2 j x (by omega) hx
        · intro y hy
          rw [copyBV_out _ _ _ _ _ _ (item_below (k := m + (s + 1)) (by omega) hy)]
          exact i3 y (Nat.le_trans (Nat.mul_le_mul_right len (by omega)) hy)
    obtain ⟨k1, k2, k3⟩ := key (k - m)
    refine ⟨fun j x h hx => k2 j x (.inl h) hx, ?_, ?_⟩
    · intro j x h1 h2 hx
      rw [k1 j x h1 (by omega) hx]; exact hlast x hx
    · intro y _ hy
      exact k3 y (by rw [show m + (k - m) = k by omega]; exact hy)
  · rename_i hk
    exact ⟨fun _ _ _ _ => rfl, fun j x h1 h2 => by omega, fun _ _ _ => rfl⟩

theorem classItems_get (G : Prog n) (ch : Checked G) (d : Fin n) (ld : Laid G d) (len : Nat) (ls : List (Inits n))
    (hr : ∀ l ∈ ls, Resolved G d l) (i : Nat) (bv r : Bits) (h : classItems G d len i ls bv = some r) :
    (∀ (j : Nat) (l : Inits n), ls[j]? = some l → ∃ ws, Placed G d l (window bv ((i + j) * len) len) ws ∧ Apart ws ∧
      ∀ x, x < len → Result ws (window bv ((i + j) * len) len) x (r ((i + j) * len + x))) ∧
    (∀ j x, j < i → x < len → r (j * len + x) = bv (j * len + x)) ∧
    ∀ y, (i + ls.length) * len ≤ y → r y = bv y := by
  induction ls generalizing i bv with
  | nil =>
    simp only [classItems, Option.some.injEq] at h
    subst h
    simp
  | cons l ls ih =>
    simp only [classItems] at h
    split at h
    · cases h
    · rename_i r1 h1
      rw [window_eq bv bv zero _ len (fun _ _ => rfl) (fun _ _ => rfl)] at h1
      obtain ⟨ws, w1, w2, _, w4⟩ := sound G ch l d ld (hr l (by simp)) _ _ zero r1.1 r1.2 (fun _ _ => rfl) h1
      obtain ⟨k1, k2, k3⟩ := ih (fun l hl => hr l (by simp [hl])) (i + 1) _ h
      refine ⟨?_, ?_, ?_⟩
      · intro j l' hl
        cases j with
        | zero =>
          rw [List.getElem?_cons_zero, Option.some.injEq] at hl
          subst hl
          refine ⟨ws, w1, w2, fun x hx => ?_⟩
          rw [show i + 0 = i from rfl, k2 i x (by omega) hx, copy_item _ _ _ _ _ hx, w4]
          exact apply_result _ _ w2 x
        | succ j =>
          obtain ⟨ws', v1, v2, v3⟩ := k1 j l' (by simpa using hl)
          have hw : window (copyBV r1.1 0 (i * len) len bv) ((i + 1 + j) * len) len = window bv ((i + (j + 1)) * len) len := by
            funext x
            unfold window
            rw [show i + (j + 1) = i + 1 + j by omega]
            by_cases hx : x < len
            · rw [if_pos hx, if_pos hx, copyBV_out _ _ _ _ _ _ (item_disjoint (by omega) hx)]
            · rw [if_neg hx, if_neg hx]
          rw [hw] at v1 v3
          rw [show i + 1 + j = i + (j + 1) by omega] at v3
          exact ⟨ws', v1, v2, v3⟩
      · intro j x hj hx
        rw [k2 j x (by omega) hx, copyBV_out _ _ _ _ _ _ (item_disjoint (by omega) hx)]
      · intro y hy
        rw [List.length_cons] at hy
        rw [k3 y (by rw [show i + 1 + ls.length = i + (ls.length + 1) by omega]; exact hy),
          copyBV_out _ _ _ _ _ _ (item_below (k := i + (ls.length + 1)) (by omega) hy)]

end Ulam.Default
