import Verif.Virtual.Search
/-! # Building the table of one class -/
namespace Ulam.Virtual
open Ulam.Walker Ulam.Walker.Spec Spec
variable {n : Nat}

/-- A function symbol after its class is done. -/
def FuncOK (P : Program n) (c : Fin n) (d : Decl) (f : Func n) : Prop :=
  f.sig = d.sig ∧ f.pure = d.pure ∧ f.must = d.must ∧ (f.virt = true ↔ IsVirtual P c d.sig) ∧
  (f.virt = true → ∃ o, f.orig = some o ∧ SelfOrAncestor P.w c o ∧ Begins P o d.sig ∧ (own P o)[f.vidx]? = some d.sig)

/-- `e` is function `s` of class `e.ofClass`, for slot `i` of `y`. -/
def EntryIs (P : Program n) (y : Fin n) (i s : Nat) (e : VTEntry n) : Prop :=
  e.orig = y ∧ e.vidx = i ∧ e.func = (e.ofClass, s) ∧ ∃ d ∈ P.decls e.ofClass, d.sig = s ∧ d.pure = e.pure

/-- The list of entries a class begins. -/
def OwnedOK (P : Program n) (c : Fin n) (sigs : List Nat) (l : List (VTEntry n)) : Prop :=
  l.length = sigs.length ∧ ∀ i s, sigs[i]? = some s → ∃ e, l[i]? = some e ∧ e.ofClass = c ∧ EntryIs P c i s e

/-- An entry inherited by `c`, when `c` does not declare the function. -/
def Inherited (P : Program n) (c y : Fin n) (s : Nat) (e : VTEntry n) : Prop :=
  Ancestor P.w c e.ofClass ∧ SelfOrAncestor P.w e.ofClass y ∧
  (¬ Conflict P c s → ∀ b, Ancestor P.w c b → Ancestor P.w b e.ofClass → ¬ Declares P b s)

/-- A class that is done. -/
structure Good (P : Program n) (st : St n) (c : Fin n) : Prop where
  max : (st.cls c).max = some (st.cls c).vtable.length
  inited : (st.cls c).inited = true
  funcs : List.Forall₂ (FuncOK P c) (P.decls c) (st.cls c).funcs
  owned : OwnedOK P c (own P c) (st.cls c).owned
  keys : ∀ y, (startOf (st.cls c) y).isSome = true ↔ SelfOrAncestor P.w c y
  slots : ∀ y t, startOf (st.cls c) y = some t → ∀ i s, (own P y)[i]? = some s →
    ∃ e, (st.cls c).vtable[t + i]? = some e ∧ EntryIs P y i s e ∧
      (Declares P c s → e.ofClass = c) ∧ (¬ Declares P c s → Inherited P c y s e)
  cover : ∀ idx, idx < (st.cls c).vtable.length → ∃ y t i, startOf (st.cls c) y = some t ∧ idx = t + i ∧ i < (own P y).length

theorem forall2_find {P : Program n} {c : Fin n} {ds : List Decl} {fs : List (Func n)} (h : List.Forall₂ (FuncOK P c) ds fs)
    (s : Nat) :
    (∀ f, fs.find? (fun f => f.sig = s) = some f → ∃ d ∈ ds, d.sig = s ∧ FuncOK P c d f) ∧
    ((∃ d ∈ ds, d.sig = s) → (fs.find? (fun f => f.sig = s)).isSome = true) := by
  induction h with
  | nil =>
    refine ⟨fun f h => ?_, fun ⟨d, hd, _⟩ => absurd hd List.not_mem_nil⟩
    cases h
  | @cons d f ds fs h1 _ ih =>
    by_cases hs : f.sig = s
    · rw [List.find?_cons_of_pos (by simpa using hs)]
      refine ⟨fun g hg => ?_, fun _ => rfl⟩
      cases hg
      exact ⟨d, by simp, h1.1.symm.trans hs, h1⟩
    · rw [List.find?_cons_of_neg (by simpa using hs)]
      refine ⟨fun g hg => ?_, fun ⟨d', hd, e⟩ => ?_⟩
      · obtain ⟨d', k1, k2⟩ := ih.1 g hg
        exact ⟨d', by simp [k1], k2⟩
      · rcases List.mem_cons.1 hd with rfl | hd
        · exact absurd (h1.1.trans e) hs
        · exact ih.2 ⟨d', hd, e⟩

theorem Good.find {P : Program n} {st : St n} {b : Fin n} (h : Good P st b) {s : Nat} {f : Func n}
    (hf : findFunc st b s = some f) : ∃ d ∈ P.decls b, d.sig = s ∧ FuncOK P b d f := (forall2_find h.funcs s).1 f hf

theorem Good.knows {P : Program n} {st : St n} {b : Fin n} (h : Good P st b) (s : Nat) : Knows P st b s := by
  refine ⟨fun f hf => ?_, fun hd => (forall2_find h.funcs s).2 hd⟩
  obtain ⟨d, _, h2, h3⟩ := h.find hf
  rw [← h2]; exact h3.2.2.2.1

theorem mem_own {P : Program n} {c : Fin n} {i s : Nat} (h : (own P c)[i]? = some s) : Begins P c s := by
  have := List.mem_of_getElem? h
  unfold own at this
  rw [List.mem_filter] at this
  simpa using this.2

theorem Good.own_lt {P : Program n} {st : St n} {b : Fin n} (h : Good P st b) : (st.cls b).owned.length = (own P b).length := h.owned.1

/-! ### Inheriting the entries of the bases -/

theorem inherit_spec {P : Program n} (L : Legal P) {c y : Fin n} (hc : P.w.defined c = true) {st : St n}
    (G : ∀ b, Ancestor P.w c b → Good P st b) (hy : Ancestor P.w c y) {i s : Nat} (hs : (own P y)[i]? = some s) {e : VTEntry n}
    (he : e.ofClass = y) (hi : EntryIs P y i s e) :
    EntryIs P y i s (inherit P.w st c y e) ∧ Inherited P c y s (inherit P.w st c y e) := by
  have hb := mem_own hs
  have hfs : e.func.2 = s := by rw [hi.2.2.1]
  unfold inherit
  rw [hfs]
  have below : ¬ Conflict P c s → ∀ b, Ancestor P.w c b → IsVirtual P b s → SelfOrAncestor P.w b y := by
    intro hq b hb' hv
    obtain ⟨o', h1, h2⟩ := begins_somewhere L b s hv
    have : o' = y := by
      by_contra hne
      exact hq ⟨o', y, Relation.TransGen.trans_left hb' h1, h2, hy, hb, hne⟩
    rw [← this]; exact h1
  rcases findOverride_spec L hc (fun b hb' => (G b hb').knows s) with ⟨h1, h2⟩ | ⟨a, h1, h2, h3, h4⟩
  · exact absurd hb.1 (h2 y hy)
  · rw [h1]
    dsimp only
    have hsub := sub_iff L (L.anc_defined h2) (L.anc_defined hy)
    split
    · rename_i hcond
      refine ⟨⟨hi.1, hi.2.1, rfl, ?_⟩, h2, (hsub.1 hcond.2).to_reflTransGen, fun hq b hb' hba hbd => ?_⟩
      · obtain ⟨f, hf⟩ := Option.isSome_iff_exists.1 (((G a h2).knows s).2 h3.1)
        obtain ⟨d, k1, k2, k3⟩ := (G a h2).find hf
        exact ⟨d, k1, k2, by simp [hf, k3.2.1]⟩
      · exact h4 b hb' (h3.up hba.to_reflTransGen hbd) hba
    · rename_i hcond
      refine ⟨hi, by rw [he]; exact hy, by rw [he]; exact .refl, fun hq b hb' hba hbd => ?_⟩
      rw [he] at hba
      have hay : a = y := by
        by_contra hne
        rcases soa_cases (below hq a h2 h3) with q | q
        · exact hne q.symm
        · exact hcond ⟨hne, hsub.2 q⟩
      rw [← hay] at hba
      exact h4 b hb' (h3.up hba.to_reflTransGen hbd) hba

/-- What the loop over the ancestors has collected. -/
structure Collected (P : Program n) (st : St n) (c : Fin n) (l : List (Fin n)) (a : List (VTEntry n) × List (Fin n × Nat)) : Prop where
  keys : ∀ y, (a.2.find? fun p => p.1 = y).isSome = true ↔ y ∈ l
  slots : ∀ y t, (a.2.find? fun p => p.1 = y).map (·.2) = some t → t + (own P y).length ≤ a.1.length ∧
    ∀ i s, (own P y)[i]? = some s → ∃ e, a.1[t + i]? = some e ∧ EntryIs P y i s e ∧ Inherited P c y s e
  cover : ∀ idx, idx < a.1.length → ∃ y t i, (a.2.find? fun p => p.1 = y).map (·.2) = some t ∧ idx = t + i ∧ i < (own P y).length
  len : a.1.length = (l.map fun b => (st.cls b).owned.length).sum

theorem collect {P : Program n} (L : Legal P) {c : Fin n} (hc : P.w.defined c = true) {st : St n}
    (G : ∀ b, Ancestor P.w c b → Good P st b) (l : List (Fin n)) (hn : l.Nodup) (hl : ∀ b ∈ l, Ancestor P.w c b) :
    Collected P st c l (l.foldl (initStep P.w st c) ([], [])) := by
  induction l using List.reverseRecOn with
  | nil => exact ⟨by simp, by simp, by simp, rfl⟩
  | append_singleton l b ih =>
    rw [List.foldl_append, List.foldl_cons, List.foldl_nil]
    have hn' := List.nodup_append.1 hn
    have ih := ih hn'.1 fun x hx => hl x (by simp [hx])
    generalize l.foldl (initStep P.w st c) ([], []) = a at ih
    have hbl : b ∉ l := fun q => hn'.2.2 b q b (by simp) rfl
    have hb : Ancestor P.w c b := hl b (by simp)
    have hnk : (a.2.find? fun p => p.1 = b).isSome = false := by
      rw [Bool.eq_false_iff]; exact fun q => hbl ((ih.keys b).1 q)
    have hnone : (a.2.find? fun p => p.1 = b) = none := by simpa using hnk
    unfold initStep
    rw [hnk]
    simp only [Bool.false_eq_true, if_false]
    have fnd : ∀ y, ((a.2 ++ [(b, a.1.length)]).find? fun p => p.1 = y) =
        if y = b then some (b, a.1.length) else a.2.find? fun p => p.1 = y := by
      intro y
      rw [List.find?_append]
      by_cases hyb : y = b
      · subst hyb; rw [hnone]; simp
      · rw [if_neg hyb]
        have : (List.find? (fun p => decide (p.1 = y)) [(b, a.1.length)]) = none := by
          simp [Ne.symm hyb]
        rw [this, Option.or_none]
    have hlen : (st.cls b).owned.length = (own P b).length := (G b hb).own_lt
    refine ⟨?_, ?_, ?_, ?_⟩
    · intro y
      dsimp only
      rw [fnd]
      by_cases hyb : y = b
      · simp [hyb]
      · rw [if_neg hyb, ih.keys]; simp [hyb]
    · intro y t ht
      dsimp only at ht ⊢
      rw [fnd] at ht
      rw [List.length_append, List.length_map]
      by_cases hyb : y = b
      · rw [if_pos hyb] at ht
        have ht : a.1.length = t := by simpa using ht
        subst ht
        subst hyb
        refine ⟨by omega, fun i s hs => ?_⟩
        obtain ⟨e, k1, k2, k3⟩ := (G y hb).owned.2 i s hs
        refine ⟨inherit P.w st c y e, ?_, inherit_spec L hc G hb hs k2 k3⟩
        rw [List.getElem?_append_right (Nat.le_add_right _ _), Nat.add_sub_cancel_left, List.getElem?_map, k1]
        rfl
      · rw [if_neg hyb] at ht
        obtain ⟨i1, i2⟩ := ih.slots y t ht
        refine ⟨by omega, fun i s hs => ?_⟩
        obtain ⟨e, k1, k2⟩ := i2 i s hs
        have hlt : i < (own P y).length := (List.getElem?_eq_some_iff.1 hs).1
        exact ⟨e, by rw [List.getElem?_append_left (by omega)]; exact k1, k2⟩
    · intro idx hidx
      dsimp only at hidx ⊢
      rw [List.length_append, List.length_map] at hidx
      by_cases hlt : idx < a.1.length
      · obtain ⟨y, t, i, h1, h2⟩ := ih.cover idx hlt
        refine ⟨y, t, i, ?_, h2⟩
        rw [fnd, if_neg]
        · exact h1
        · rintro rfl; rw [hnone] at h1; cases h1
      · refine ⟨b, a.1.length, idx - a.1.length, ?_, by omega, by omega⟩
        rw [fnd]; simp
    · dsimp only
      rw [List.length_append, List.length_map, ih.len]
      simp

/-! ### The declarations of the class -/

open Classical in
/-- The signatures begun by `c` among the declarations `l`. -/
noncomputable def ownOf (P : Program n) (c : Fin n) (l : List Decl) : List Nat := (l.map (·.sig)).filter fun s => decide (Begins P c s)

/-- The state of class `c` after the declarations `pre`; `st0` is the state before. -/
structure Mid (P : Program n) (st0 : St n) (c : Fin n) (pre post : List Decl) (x : St n × Nat) : Prop where
  others : ∀ y, y ≠ c → x.1.cls y = st0.cls y
  inited : (x.1.cls c).inited = true
  funcs : ∃ F, (x.1.cls c).funcs = F ++ post.map fresh ∧ List.Forall₂ (FuncOK P c) pre F
  count : x.2 = (ownOf P c pre).length
  owned : OwnedOK P c (ownOf P c pre) (x.1.cls c).owned
  keys : ∀ y, (startOf (x.1.cls c) y).isSome = true ↔ SelfOrAncestor P.w c y
  base : ∃ base, startOf (x.1.cls c) c = some base ∧ (x.1.cls c).vtable.length = base + x.2 ∧
    (∀ i s, (ownOf P c pre)[i]? = some s → ∃ e, (x.1.cls c).vtable[base + i]? = some e ∧ EntryIs P c i s e ∧ e.ofClass = c) ∧
    (∀ y t, y ≠ c → startOf (x.1.cls c) y = some t → t + (own P y).length ≤ base ∧
      ∀ i s, (own P y)[i]? = some s → ∃ e, (x.1.cls c).vtable[t + i]? = some e ∧ EntryIs P y i s e ∧
        ((∃ d ∈ pre, d.sig = s) → e.ofClass = c) ∧ ((¬ ∃ d ∈ pre, d.sig = s) → Inherited P c y s e)) ∧
    (∀ idx, idx < base → ∃ y t i, y ≠ c ∧ startOf (x.1.cls c) y = some t ∧ idx = t + i ∧ i < (own P y).length)

theorem virt_alone {P : Program n} (L : Legal P) {c : Fin n} {d : Decl} (hd : d ∈ P.decls c)
    (ha : ∀ b, Ancestor P.w c b → ¬ IsVirtual P b d.sig) :
    (IsVirtual P c d.sig ↔ d.virt = true) ∧ (Begins P c d.sig ↔ d.virt = true) := by
  have h1 : IsVirtual P c d.sig ↔ d.virt = true := by
    constructor
    · rintro ⟨_, a, h1, d', k1, k2, k3⟩
      rcases soa_cases h1 with q | q
      · subst q
        have : d' = d := by
          by_contra hne
          obtain ⟨i, hi⟩ := List.getElem?_of_mem k1
          obtain ⟨j, hj⟩ := List.getElem?_of_mem hd
          have hi' : ((P.decls a).map (·.sig))[i]? = some d.sig := by rw [List.getElem?_map, hi, Option.map_some, k2]
          have hj' : ((P.decls a).map (·.sig))[j]? = some d.sig := by rw [List.getElem?_map, hj, Option.map_some]
          have hij : i = j := by
            have := (List.nodup_iff_getElem?_ne_getElem?.1 (L.once a))
            by_contra hne'
            rcases Nat.lt_or_gt_of_ne hne' with q | q
            · exact this i j q (List.getElem?_eq_some_iff.1 hj').1 (hi'.trans hj'.symm)
            · exact this j i q (List.getElem?_eq_some_iff.1 hi').1 (hj'.trans hi'.symm)
          rw [hij, hj] at hi; cases hi; exact hne rfl
        rw [← this]; exact k3
      · exact absurd ⟨⟨d', k1, k2⟩, a, .refl, d', k1, k2, k3⟩ (ha a q)
    · intro hv
      exact ⟨⟨d, hd, rfl⟩, c, .refl, d, hd, rfl, hv⟩
  exact ⟨h1, fun h => h1.1 h.1, fun h => ⟨h1.2 h, ha⟩⟩

theorem update_append {k : ClassSt n} {vidx : Nat} {func : Fin n × Nat} {kin orig : Fin n} {pure : Bool} {t : Nat}
    (h1 : startOf k orig = some t) (h2 : k.vtable.length = t + vidx) (h3 : k.owned.length = vidx) :
    updateVTable k vidx func kin orig pure =
      some { k with vtable := k.vtable ++ [⟨func, kin, orig, vidx, pure⟩], owned := k.owned ++ [⟨func, kin, orig, vidx, pure⟩] } := by
  unfold updateVTable
  rw [h1]
  dsimp only
  have : k.vtable[t + vidx]? = none := List.getElem?_eq_none (by omega)
  rw [this]
  simp [h2, h3]

theorem update_set {k : ClassSt n} {vidx : Nat} {func : Fin n × Nat} {kin orig : Fin n} {pure : Bool} {t : Nat} {e : VTEntry n}
    (h1 : startOf k orig = some t) (h2 : k.vtable[t + vidx]? = some e) (h3 : e.orig = orig) (h4 : e.vidx = vidx) :
    updateVTable k vidx func kin orig pure =
      some { k with vtable := k.vtable.set (t + vidx) { e with func := func, ofClass := kin, pure := pure } } := by
  unfold updateVTable
  rw [h1]
  dsimp only
  rw [h2]
  simp [h3, h4]

theorem setFunc_at {k : ClassSt n} {F : List (Func n)} {d : Decl} {post : List Decl} {f : Func n}
    (hF : ∀ g ∈ F, g.sig ≠ d.sig) (hp : ∀ g ∈ post, g.sig ≠ d.sig) (hf : f.sig = d.sig)
    (hk : k.funcs = F ++ (d :: post).map fresh) : (setFunc k f).funcs = (F ++ [f]) ++ post.map fresh := by
  have id1 : ∀ l : List (Func n), (∀ g ∈ l, g.sig ≠ d.sig) → l.map (fun g => if g.sig = f.sig then f else g) = l := by
    intro l hl
    induction l with
    | nil => rfl
    | cons g l ih =>
      rw [List.map_cons, ih fun x hx => hl x (by simp [hx]), if_neg]
      rw [hf]; exact hl g (by simp)
  unfold setFunc
  dsimp only
  rw [hk, List.map_append, id1 F hF, List.map_cons, List.map_cons, id1 (post.map fresh) ?_, if_pos]
  · simp
  · rw [hf]; rfl
  · intro g hg
    obtain ⟨d', h1, h2⟩ := List.mem_map.1 hg
    rw [← h2]; exact hp d' h1

theorem ownOf_snoc {P : Program n} {c : Fin n} (pre : List Decl) (d : Decl) :
    (Begins P c d.sig → ownOf P c (pre ++ [d]) = ownOf P c pre ++ [d.sig]) ∧
    (¬ Begins P c d.sig → ownOf P c (pre ++ [d]) = ownOf P c pre) := by
  unfold ownOf
  constructor
  · intro h; simp [h]
  · intro h; simp [h]

theorem startOf_setFunc (k : ClassSt n) (f : Func n) (o : Fin n) : startOf (setFunc k f) o = startOf k o := rfl

end Ulam.Virtual
