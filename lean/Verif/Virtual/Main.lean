import Verif.Virtual.Build
/-! # The tables of all classes -/
namespace Ulam.Virtual
open Ulam.Walker Ulam.Walker.Spec Spec
variable {n : Nat}

theorem good_congr {P : Program n} {st st' : St n} {b : Fin n} (e : st'.cls b = st.cls b) (h : Good P st b) : Good P st' b := by
  obtain ⟨h1, h2, h3, h4, h5, h6, h7⟩ := h
  refine ⟨?_, ?_, ?_, ?_, ?_, ?_, ?_⟩ <;> rw [e] <;> assumption

theorem anc_ne {P : Program n} (L : Legal P) {c b : Fin n} (h : Ancestor P.w c b) : b ≠ c := by
  rintro rfl; exact L.acyclic _ h

theorem fresh_sig {d : Decl} : (fresh d : Func n).sig = d.sig := rfl

/-- The function of class `o`, where it begins, has the slot of `o`. -/
theorem begin_slot {P : Program n} {st : St n} {o : Fin n} (G : Good P st o) {s : Nat} (hb : Begins P o s) {g : Func n}
    (hg : findFunc st o s = some g) : (own P o)[g.vidx]? = some s := by
  obtain ⟨d, _, h2, h3⟩ := G.find hg
  subst h2
  obtain ⟨o', _, h5, h6, h7⟩ := h3.2.2.2.2 (h3.2.2.2.1.2 hb.1)
  have : o' = o := by
    rcases soa_cases h5 with q | q
    · exact q
    · exact absurd h6.1 (hb.2 o' q)
  rw [← this]; exact h7

/-- A declaration that reports no conflict: the class goes on as specified. -/
theorem step_ok {P : Program n} (L : Legal P) {c : Fin n} (hc : P.w.defined c = true) {st0 : St n}
    (G0 : ∀ b, Ancestor P.w c b → Good P st0 b) {pre post : List Decl} {d : Decl} (hdecl : P.decls c = pre ++ d :: post)
    {x : St n × Nat} (M : Mid P st0 c pre (d :: post) x) (hq : ¬ Conflict P c d.sig) :
    ∃ x', calcFunction P.w c (fresh d) x = some x' ∧ Mid P st0 c (pre ++ [d]) post x' ∧
      ((d.must = true ∧ Begins P c d.sig) → x'.1.errors = x.1.errors + 1) ∧
      (¬ (d.must = true ∧ Begins P c d.sig) → x'.1.errors = x.1.errors) := by
  have G : ∀ b, Ancestor P.w c b → Good P x.1 b := fun b hb => good_congr (M.others b (anc_ne L hb)) (G0 b hb)
  have K : ∀ b, Ancestor P.w c b → Knows P x.1 b d.sig := fun b hb => (G b hb).knows _
  have hdm : d ∈ P.decls c := by rw [hdecl]; simp
  obtain ⟨F, hF1, hF2⟩ := M.funcs
  have hnod := L.once c
  rw [hdecl] at hnod
  simp only [List.map_append, List.map_cons] at hnod
  have hn1 := List.nodup_append.1 hnod
  have hpreN : ∀ g ∈ pre, g.sig ≠ d.sig := fun g hg q =>
    hn1.2.2 g.sig (List.mem_map.2 ⟨g, hg, rfl⟩) d.sig (by simp) q
  have hpostN : ∀ g ∈ post, g.sig ≠ d.sig := fun g hg q =>
    (List.nodup_cons.1 hn1.2.1).1 (List.mem_map.2 ⟨g, hg, q⟩)
  have hFN : ∀ g ∈ F, g.sig ≠ d.sig := by
    intro g hg
    obtain ⟨i, hi⟩ := List.getElem?_of_mem hg
    have hlt : i < F.length := (List.getElem?_eq_some_iff.1 hi).1
    have hlt' : i < pre.length := by rw [List.Forall₂.length_eq hF2]; exact hlt
    have := (List.forall₂_iff_get.1 hF2).2 i hlt' hlt
    simp only [List.get_eq_getElem] at this
    have hgi : F[i] = g := by rw [List.getElem?_eq_getElem hlt] at hi; exact Option.some.inj hi
    rw [hgi] at this
    rw [this.1]
    exact hpreN _ (List.getElem_mem hlt')
  have hsnoc := ownOf_snoc (P := P) (c := c) pre d
  obtain ⟨base, hb1, hb2, hb3, hb4, hb5⟩ := M.base
  rcases findOverride_spec L hc K with ⟨f1, f2⟩ | ⟨a, f1, f2, f3, f4⟩
  · -- a function not met above
    have hva := virt_alone L hdm f2
    have hplan : plan P.w x.1 c (fresh d) = ⟨d.virt, none, c, false, 0⟩ := by
      unfold plan; rw [fresh_sig, f1]; rfl
    have notown : ∀ y i, y ≠ c → startOf (x.1.cls c) y = some i → d.sig ∉ own P y := by
      intro y i hy hs hm
      have hsa := (M.keys y).1 (by rw [hs]; rfl)
      rcases soa_cases hsa with q | q
      · exact hy q
      · obtain ⟨j, hj⟩ := List.getElem?_of_mem hm
        exact f2 y q (mem_own hj).1
    have inh : ∀ y t, y ≠ c → startOf (x.1.cls c) y = some t → ∀ (i s : Nat), (own P y)[i]? = some s →
        ((∃ d' ∈ pre ++ [d], d'.sig = s) ↔ ∃ d' ∈ pre, d'.sig = s) := by
      intro y t hy hs i s his
      constructor
      · rintro ⟨d', h1, h2⟩
        rcases List.mem_append.1 h1 with h1 | h1
        · exact ⟨d', h1, h2⟩
        · rw [List.mem_singleton] at h1; subst h1; subst h2
          exact absurd (List.mem_of_getElem? his) (notown y t hy hs)
      · rintro ⟨d', h1, h2⟩; exact ⟨d', by simp [h1], h2⟩
    cases hv : d.virt with
    | false =>
      have hnb : ¬ Begins P c d.sig := fun q => by rw [hva.2.1 q] at hv; cases hv
      have hnv : ¬ IsVirtual P c d.sig := fun q => by rw [hva.1.1 q] at hv; cases hv
      refine ⟨x, ?_, ?_, fun h => absurd h.2 hnb, fun _ => rfl⟩
      · unfold calcFunction; rw [hplan, hv]; rfl
      · rw [hv] at hplan
        refine ⟨M.others, M.inited, ⟨F ++ [fresh d], by rw [hF1]; simp, ?_⟩, by rw [hsnoc.2 hnb]; exact M.count,
          by rw [hsnoc.2 hnb]; exact M.owned, M.keys, base, hb1, hb2, by rw [hsnoc.2 hnb]; exact hb3, ?_, hb5⟩
        · refine List.rel_append (R := FuncOK P c) hF2 (.cons ⟨rfl, rfl, rfl, ?_, fun h => ?_⟩ .nil)
          · refine ⟨fun h => ?_, fun h => absurd h hnv⟩
            rw [show (fresh d : Func n).virt = d.virt from rfl, hv] at h; cases h
          · rw [show (fresh d : Func n).virt = d.virt from rfl, hv] at h; cases h
        · intro y t hy hs
          obtain ⟨k1, k2⟩ := hb4 y t hy hs
          refine ⟨k1, fun i s his => ?_⟩
          rw [inh y t hy hs i s his]
          exact k2 i s his
    | true =>
      have hbg : Begins P c d.sig := hva.2.2 hv
      rw [hv] at hplan
      generalize hf' : ({ (fresh d : Func n) with virt := true, vidx := x.2, orig := some c } : Func n) = f'
      have hkf := setFunc_at (k := x.1.cls c) (f := f') hFN hpostN (by rw [← hf']; rfl) hF1
      have hup := update_append (k := setFunc (x.1.cls c) f') (vidx := x.2) (func := (c, d.sig)) (kin := c) (orig := c)
        (pure := d.pure) (t := base) hb1 hb2 (by rw [M.count]; exact M.owned.1)
      have hcalc : calcFunction P.w c (fresh d) x = some (⟨(x.1.set c { setFunc (x.1.cls c) f' with
            vtable := (x.1.cls c).vtable ++ [⟨(c, d.sig), c, c, x.2, d.pure⟩],
            owned := (x.1.cls c).owned ++ [⟨(c, d.sig), c, c, x.2, d.pure⟩] }).cls,
            x.1.errors + 0 + (if d.must && !false then 1 else 0)⟩, x.2 + 1) := by
        unfold calcFunction
        rw [hplan]
        simp only [if_true, show (fresh d : Func n).orig = none from rfl, Option.isSome_none, Bool.false_eq_true, if_false,
          Option.getD_none]
        rw [hf', show (fresh d : Func n).pure = d.pure from rfl, show (fresh d : Func n).sig = d.sig from rfl, hup]
        rfl
      refine ⟨_, hcalc, ?_, fun h => by simp [h.1], fun h => ?_⟩
      · have hset : ∀ k : ClassSt n, (x.1.set c k).cls c = k := fun k => by unfold St.set; simp
        have hst : ∀ (k : ClassSt n) y, y ≠ c → (x.1.set c k).cls y = x.1.cls y := fun k y hy => by
          unfold St.set; simp [Function.update_of_ne hy]
        have newE : EntryIs P c x.2 d.sig ⟨(c, d.sig), c, c, x.2, d.pure⟩ := ⟨rfl, rfl, rfl, d, hdm, rfl, rfl⟩
        refine ⟨fun y hy => (hst _ y hy).trans (M.others y hy), ?_, ?_, ?_, ?_, ?_, ?_⟩
        all_goals dsimp only
        · rw [hset]; exact M.inited
        · rw [hset]
          refine ⟨F ++ [f'], hkf, List.rel_append (R := FuncOK P c) hF2 (.cons ?_ .nil)⟩
          subst hf'
          refine ⟨rfl, rfl, rfl, ⟨fun _ => hbg.1, fun _ => rfl⟩, fun _ => ⟨c, rfl, .refl, hbg, ?_⟩⟩
          dsimp only
          have : own P c = ownOf P c pre ++ d.sig :: ownOf P c post := by
            unfold own ownOf; rw [hdecl]; simp [hbg]
          rw [this, M.count, List.getElem?_append_right (Nat.le_refl _)]
          simp
        · rw [hsnoc.1 hbg, List.length_append, M.count]; rfl
        · rw [hset, hsnoc.1 hbg]
          refine ⟨by simp [M.owned.1], fun i s his => ?_⟩
          dsimp only
          by_cases hlt : i < (ownOf P c pre).length
          · rw [List.getElem?_append_left hlt] at his
            obtain ⟨e, k1, k2⟩ := M.owned.2 i s his
            exact ⟨e, by rw [List.getElem?_append_left (by rw [M.owned.1]; exact hlt)]; exact k1, k2⟩
          · have hi : i = x.2 := by
              have := (List.getElem?_eq_some_iff.1 his).1
              rw [List.length_append] at this
              simp only [List.length_singleton] at this
              rw [M.count]; omega
            subst hi
            rw [M.count, List.getElem?_append_right (Nat.le_refl _)] at his
            simp only [Nat.sub_self, List.getElem?_cons_zero, Option.some.injEq] at his
            subst his
            refine ⟨_, ?_, rfl, newE⟩
            rw [List.getElem?_append_right (by rw [M.owned.1, M.count]), M.owned.1, M.count]
            simp
        · intro y; rw [hset]; exact M.keys y
        · rw [hset]
          refine ⟨base, hb1, by simp [hb2]; omega, fun i s his => ?_, fun y t hy hs => ?_, hb5⟩
          · rw [hsnoc.1 hbg] at his
            by_cases hlt : i < (ownOf P c pre).length
            · rw [List.getElem?_append_left hlt] at his
              obtain ⟨e, k1, k2⟩ := hb3 i s his
              refine ⟨e, ?_, k2⟩
              dsimp only
              rw [List.getElem?_append_left (by rw [hb2, M.count]; omega)]; exact k1
            · have hi : i = x.2 := by
                have := (List.getElem?_eq_some_iff.1 his).1
                rw [List.length_append] at this
                simp only [List.length_singleton] at this
                rw [M.count]; omega
              subst hi
              rw [M.count, List.getElem?_append_right (Nat.le_refl _)] at his
              simp only [Nat.sub_self, List.getElem?_cons_zero, Option.some.injEq] at his
              subst his
              refine ⟨_, ?_, newE, rfl⟩
              dsimp only
              rw [List.getElem?_append_right (by rw [hb2]), hb2]
              simp
          · obtain ⟨k1, k2⟩ := hb4 y t hy hs
            refine ⟨k1, fun i s his => ?_⟩
            rw [inh y t hy hs i s his]
            obtain ⟨e, g1, g2⟩ := k2 i s his
            have hlt : i < (own P y).length := (List.getElem?_eq_some_iff.1 his).1
            refine ⟨e, ?_, g2⟩
            dsimp only
            rw [List.getElem?_append_left (by omega)]; exact g1
      · have : d.must = false := by
          rw [Bool.eq_false_iff]; exact fun q => h ⟨q, hbg⟩
        simp [this]
  · -- an override
    have he := findOriginating_no_error L hc K hq
    rcases (findOriginating_quiet L hc K he).1 with ⟨_, _, h⟩ | ⟨o, o1, o2, o3, o4, o5⟩
    · exact absurd f3 (h a ((mem_ancestors L false hc a).2 f2))
    have ho : Ancestor P.w c o := (mem_ancestors L false hc o).1 o3
    have hob : Begins P o d.sig := by
      refine ⟨o4, fun z hz hv => ?_⟩
      have := o5 z ((mem_ancestors L false hc z).2 (ho.trans hz)) hv
      exact L.acyclic o (Relation.TransGen.trans_left hz this)
    obtain ⟨g, hg, _⟩ := (K o ho).yes o4
    rw [hg] at o2
    have hslot := begin_slot (G o ho) hob hg
    have hplan : plan P.w x.1 c (fresh d) = ⟨true, some g.vidx, o, true, 0⟩ := by
      unfold plan; rw [fresh_sig, f1]; dsimp only; rw [o1, o2]; dsimp only; rw [he]
    have hnb : ¬ Begins P c d.sig := fun q => q.2 a f2 f3
    have hv : IsVirtual P c d.sig := f3.up f2.to_reflTransGen ⟨d, hdm, rfl⟩
    have hoc := anc_ne L ho
    obtain ⟨t, ht⟩ := Option.isSome_iff_exists.1 ((M.keys o).2 ho.to_reflTransGen)
    obtain ⟨hlen, hent⟩ := hb4 o t hoc ht
    obtain ⟨e, e1, e2, _⟩ := hent _ _ hslot
    generalize hf' : ({ (fresh d : Func n) with virt := true, vidx := g.vidx, orig := some o } : Func n) = f'
    have hkf := setFunc_at (k := x.1.cls c) (f := f') hFN hpostN (by rw [← hf']; rfl) hF1
    have hup := update_set (k := setFunc (x.1.cls c) f') (vidx := g.vidx) (func := (c, d.sig)) (kin := c) (orig := o)
        (pure := d.pure) (t := t) (e := e) ht e1 e2.1 e2.2.1
    have hcalc : calcFunction P.w c (fresh d) x = some (⟨(x.1.set c { setFunc (x.1.cls c) f' with
          vtable := (x.1.cls c).vtable.set (t + g.vidx) { e with func := (c, d.sig), ofClass := c, pure := d.pure } }).cls,
          x.1.errors + 0 + (if d.must && !true then 1 else 0)⟩, x.2) := by
      unfold calcFunction
      rw [hplan]
      simp only [if_true, show (fresh d : Func n).orig = none from rfl, Option.isSome_none, Bool.false_eq_true, if_false,
        Option.getD_some, Option.isSome_some]
      rw [hf', show (fresh d : Func n).pure = d.pure from rfl, show (fresh d : Func n).sig = d.sig from rfl, hup]
      rfl
    refine ⟨_, hcalc, ?_, fun h => absurd h.2 hnb, fun h => by simp⟩
    have hset : ∀ k : ClassSt n, (x.1.set c k).cls c = k := fun k => by unfold St.set; simp
    have hst : ∀ (k : ClassSt n) y, y ≠ c → (x.1.set c k).cls y = x.1.cls y := fun k y hy => by
      unfold St.set; simp [Function.update_of_ne hy]
    have hltb : t + g.vidx < base := by
      have := (List.getElem?_eq_some_iff.1 hslot).1
      omega
    have hold : ∀ j, j ≠ t + g.vidx → ∀ q, ((x.1.cls c).vtable.set (t + g.vidx) q)[j]? = (x.1.cls c).vtable[j]? := by
      intro j hj q
      rw [List.getElem?_set_ne (Ne.symm hj)]
    refine ⟨fun y hy => (hst _ y hy).trans (M.others y hy), ?_, ?_, ?_, ?_, ?_, ?_⟩
    all_goals dsimp only
    · rw [hset]; exact M.inited
    · rw [hset]
      refine ⟨F ++ [f'], hkf, List.rel_append (R := FuncOK P c) hF2 (.cons ?_ .nil)⟩
      subst hf'
      exact ⟨rfl, rfl, rfl, ⟨fun _ => hv, fun _ => rfl⟩, fun _ => ⟨o, rfl, ho.to_reflTransGen, hob, hslot⟩⟩
    · rw [hsnoc.2 hnb]; exact M.count
    · rw [hset, hsnoc.2 hnb]; exact M.owned
    · intro y; rw [hset]; exact M.keys y
    · rw [hset]
      refine ⟨base, hb1, by simp [hb2], fun i s his => ?_, fun y t' hy hs => ?_, hb5⟩
      · rw [hsnoc.2 hnb] at his
        obtain ⟨e', k1, k2⟩ := hb3 i s his
        exact ⟨e', by dsimp only; rw [hold _ (by omega)]; exact k1, k2⟩
      · replace hs : startOf (x.1.cls c) y = some t' := hs
        obtain ⟨k1, k2⟩ := hb4 y t' hy hs
        refine ⟨k1, fun i s his => ?_⟩
        obtain ⟨e', g1, g2, g3, g4⟩ := k2 i s his
        by_cases hj : t' + i = t + g.vidx
        · -- the slot being replaced
          rw [hj, e1] at g1; cases g1
          have hyo : y = o := g2.1.symm.trans e2.1
          have hi : i = g.vidx := g2.2.1.symm.trans e2.2.1
          subst hyo; subst hi
          rw [hslot] at his; cases his
          refine ⟨{ e with func := (c, d.sig), ofClass := c, pure := d.pure }, ?_, ⟨e2.1, e2.2.1, rfl, d, hdm, rfl, rfl⟩,
            fun _ => rfl, fun h => absurd ⟨d, by simp, rfl⟩ h⟩
          dsimp only
          rw [hj, List.getElem?_set_self (by rw [hb2]; omega)]
        · refine ⟨e', by dsimp only; rw [hold _ hj]; exact g1, g2, ?_, ?_⟩
          · rintro ⟨d', h1, h2⟩
            rcases List.mem_append.1 h1 with h1 | h1
            · exact g3 ⟨d', h1, h2⟩
            · exfalso
              rw [List.mem_singleton] at h1; subst h1; subst h2
              have hsa := (M.keys y).1 (by rw [hs]; rfl)
              rcases soa_cases hsa with q | q
              · exact hy q
              · have hyo : y = o := by
                  by_contra hne
                  exact hq ⟨y, o, q, mem_own his, ho, hob, hne⟩
                subst hyo
                rw [ht] at hs; cases hs
                -- the same function has one slot
                have hnd : (own P y).Nodup := by unfold own; exact (L.once y).filter _
                have := (List.nodup_iff_getElem?_ne_getElem?.1 hnd)
                rcases Nat.lt_or_gt_of_ne (show i ≠ g.vidx by omega) with q | q
                · exact this i g.vidx q (List.getElem?_eq_some_iff.1 hslot).1 (his.trans hslot.symm)
                · exact this g.vidx i q (List.getElem?_eq_some_iff.1 his).1 (hslot.trans his.symm)
          · intro h
            exact g4 fun ⟨d', h1, h2⟩ => h ⟨d', by simp [h1], h2⟩

/-- A declaration with a conflict reports it. -/
theorem step_conflict {P : Program n} (L : Legal P) {c : Fin n} (hc : P.w.defined c = true) {st0 : St n}
    (G0 : ∀ b, Ancestor P.w c b → Good P st0 b) {pre post : List Decl} {d : Decl} {x x' : St n × Nat}
    (M : Mid P st0 c pre (d :: post) x) (hq : Conflict P c d.sig) (h : calcFunction P.w c (fresh d) x = some x') :
    x.1.errors < x'.1.errors := by
  have G : ∀ b, Ancestor P.w c b → Good P x.1 b := fun b hb => good_congr (M.others b (anc_ne L hb)) (G0 b hb)
  have K : ∀ b, Ancestor P.w c b → Knows P x.1 b d.sig := fun b hb => (G b hb).knows _
  have he : 0 < (findOriginating P.w x.1 c d.sig).errors := by
    rcases Nat.eq_zero_or_pos (findOriginating P.w x.1 c d.sig).errors with q | q
    · exact absurd hq (findOriginating_quiet L hc K q).2
    · exact q
  have hp : (plan P.w x.1 c (fresh d)).virt = true ∧ (plan P.w x.1 c (fresh d)).errors = (findOriginating P.w x.1 c d.sig).errors := by
    rcases findOverride_spec L hc K with ⟨_, f2⟩ | ⟨a, f1, _⟩
    · obtain ⟨o, _, h1, h2, _⟩ := hq
      exact absurd h2.1 (f2 o h1)
    · unfold plan
      rw [fresh_sig, f1]
      dsimp only
      split <;> exact ⟨rfl, rfl⟩
  unfold calcFunction at h
  dsimp only at h
  rw [hp.1, if_pos rfl] at h
  split at h
  · cases h
  · split at h
    · cases h
    · cases h
      dsimp only [St.set]
      rw [hp.2]
      omega

theorem errors_mono {w : World n} {c : Fin n} {f : Func n} {x x' : St n × Nat} (h : calcFunction w c f x = some x') :
    x.1.errors ≤ x'.1.errors := by
  unfold calcFunction at h
  dsimp only at h
  split at h
  · split at h
    · cases h
    · split at h
      · cases h
      · cases h
        dsimp only [St.set]
        omega
  · cases h; exact Nat.le_refl _

theorem errors_mono_list {w : World n} {c : Fin n} {fs : List (Func n)} {x x' : St n × Nat} (h : calcFunctions w c fs x = some x') :
    x.1.errors ≤ x'.1.errors := by
  induction fs generalizing x with
  | nil => cases h; exact Nat.le_refl _
  | cons f fs ih =>
    unfold calcFunctions at h
    split at h
    · cases h
    · rename_i y hy
      exact Nat.le_trans (errors_mono hy) (ih h)

/-- All declarations of a class with nothing to report. -/
theorem steps_ok {P : Program n} (L : Legal P) {c : Fin n} (hc : P.w.defined c = true) {st0 : St n}
    (G0 : ∀ b, Ancestor P.w c b → Good P st0 b) (post pre : List Decl) (hdecl : P.decls c = pre ++ post)
    {x : St n × Nat} (M : Mid P st0 c pre post x) (hq : ∀ d ∈ post, ¬ Conflict P c d.sig) :
    ∃ x', calcFunctions P.w c (post.map fresh) x = some x' ∧ Mid P st0 c (P.decls c) [] x' ∧
      (x'.1.errors = x.1.errors ↔ ∀ d ∈ post, ¬ (d.must = true ∧ Begins P c d.sig)) := by
  induction post generalizing pre x with
  | nil =>
    rw [List.append_nil] at hdecl
    exact ⟨x, rfl, by rw [hdecl]; exact M, by simp⟩
  | cons d post ih =>
    obtain ⟨y, h1, h2, h3, h4⟩ := step_ok L hc G0 hdecl M (hq d (by simp))
    obtain ⟨x', k1, k2, k3⟩ := ih (pre ++ [d]) (by rw [hdecl]; simp) h2 fun d' hd' => hq d' (by simp [hd'])
    refine ⟨x', ?_, k2, ?_⟩
    · rw [List.map_cons]
      unfold calcFunctions
      rw [h1]; exact k1
    · have hm := errors_mono_list k1
      by_cases hd : d.must = true ∧ Begins P c d.sig
      · have := h3 hd
        refine ⟨fun h => by omega, fun h => absurd hd (h d (by simp))⟩
      · have := h4 hd
        rw [← this, k3]
        refine ⟨fun h d' hd' => ?_, fun h d' hd' => h d' (by simp [hd'])⟩
        rcases List.mem_cons.1 hd' with rfl | hd'
        · exact hd
        · exact h d' hd'

/-- If the declarations of a class report nothing, there was nothing to report. -/
theorem steps_quiet {P : Program n} (L : Legal P) {c : Fin n} (hc : P.w.defined c = true) {st0 : St n}
    (G0 : ∀ b, Ancestor P.w c b → Good P st0 b) (post pre : List Decl) (hdecl : P.decls c = pre ++ post)
    {x x' : St n × Nat} (M : Mid P st0 c pre post x) (h : calcFunctions P.w c (post.map fresh) x = some x')
    (he : x'.1.errors = x.1.errors) : ∀ d ∈ post, ¬ Conflict P c d.sig := by
  induction post generalizing pre x with
  | nil => simp
  | cons d post ih =>
    rw [List.map_cons] at h
    unfold calcFunctions at h
    split at h
    · cases h
    · rename_i y hy
      have m1 := errors_mono hy
      have m2 := errors_mono_list h
      have hnc : ¬ Conflict P c d.sig := by
        intro hq
        have := step_conflict L hc G0 M hq hy
        omega
      obtain ⟨y', h1, h2, _, _⟩ := step_ok L hc G0 hdecl M hnc
      rw [hy] at h1; cases h1
      intro d' hd'
      rcases List.mem_cons.1 hd' with rfl | hd'
      · exact hnc
      · exact ih (pre ++ [d]) (by rw [hdecl]; simp) h2 h (by omega) d' hd'

/-! ### A class -/

theorem quiet_iff {P : Program n} {c : Fin n} :
    Quiet P c ↔ (∀ d ∈ P.decls c, ¬ Conflict P c d.sig) ∧ ∀ d ∈ P.decls c, ¬ (d.must = true ∧ Begins P c d.sig) := by
  constructor
  · intro h
    refine ⟨fun d hd ⟨o, o', a1, a2, a3, a4, a5⟩ => a5 (h.one d.sig ⟨d, hd, rfl⟩ o o' a1 a2 a3 a4), fun d hd hm => ?_⟩
    exact h.overrides d hd hm.1 hm.2.1 hm.2
  · rintro ⟨h1, h2⟩
    refine ⟨fun s hs o o' a1 a2 a3 a4 => ?_, fun d hd hm _ hb => h2 d hd ⟨hm, hb⟩⟩
    obtain ⟨d, hd, rfl⟩ := hs
    by_contra hne
    exact h1 d hd ⟨o, o', a1, a2, a3, a4, hne⟩

/-- Nothing done yet about the class. -/
def Untouched (P : Program n) (st : St n) (c : Fin n) : Prop := st.cls c = (start P.decls).cls c

theorem init_ok {P : Program n} (L : Legal P) {c : Fin n} (hc : P.w.defined c = true) {st : St n}
    (G0 : ∀ b, Ancestor P.w c b → Good P st b) (hu : Untouched P st c) :
    ∃ st1, initVTable P.w st c ((ancestors P.w false c).map fun b => (st.cls b).owned.length).sum = some st1 ∧
      st1.errors = st.errors ∧ Mid P st c [] (P.decls c) (st1, 0) := by
  have hC := collect L hc G0 (ancestors P.w false c) (ancestors_nodup ..) fun b hb => (mem_ancestors L false hc b).1 hb
  have hv : (st.cls c).vtable = [] := by rw [hu]; rfl
  have hs : (st.cls c).starts = [] := by rw [hu]; rfl
  have hi : (st.cls c).inited = false := by rw [hu]; rfl
  unfold initVTable
  rw [hi, hv, hs]
  simp only [Bool.false_eq_true, if_false]
  generalize (ancestors P.w false c).foldl (initStep P.w st c) ([], []) = a at hC
  rw [if_pos hC.len]
  have hck : (a.2.find? fun p => p.1 = c).isSome = false := by
    rw [Bool.eq_false_iff]
    exact fun q => L.acyclic c ((mem_ancestors L false hc c).1 ((hC.keys c).1 q))
  have hnone : (a.2.find? fun p => p.1 = c) = none := by simpa using hck
  rw [hck]
  simp only [Bool.false_eq_true, if_false]
  refine ⟨_, rfl, rfl, ?_⟩
  have hset : ∀ k : ClassSt n, (st.set c k).cls c = k := fun k => by unfold St.set; simp
  have hst : ∀ (k : ClassSt n) y, y ≠ c → (st.set c k).cls y = st.cls y := fun k y hy => by
    unfold St.set; simp [Function.update_of_ne hy]
  have fnd : ∀ y, ((a.2 ++ [(c, a.1.length)]).find? fun p => p.1 = y) =
      if y = c then some (c, a.1.length) else a.2.find? fun p => p.1 = y := by
    intro y
    rw [List.find?_append]
    by_cases hyb : y = c
    · subst hyb; rw [hnone]; simp
    · rw [if_neg hyb]
      have : (List.find? (fun p => decide (p.1 = y)) [(c, a.1.length)]) = none := by
        simp [Ne.symm hyb]
      rw [this, Option.or_none]
  refine ⟨fun y hy => hst _ y hy, by rw [hset], ⟨[], ?_, .nil⟩, rfl, ?_, ?_, ?_⟩
  all_goals dsimp only
  · rw [hset]; dsimp only; rw [hu]; rfl
  · rw [hset]; dsimp only
    refine ⟨by rw [hu]; rfl, fun i s h => ?_⟩
    simp [ownOf] at h
  · intro y
    rw [hset]
    unfold startOf
    dsimp only
    rw [fnd, Option.isSome_map]
    by_cases hy : y = c
    · rw [if_pos hy, hy]; exact ⟨fun _ => .refl, fun _ => rfl⟩
    · rw [if_neg hy, hC.keys, mem_ancestors L false hc]
      exact ⟨fun h => h.to_reflTransGen, fun h => (soa_cases h).resolve_left hy⟩
  · rw [hset]
    refine ⟨a.1.length, ?_, rfl, fun i s h => ?_, fun y t hy h => ?_, fun idx h => ?_⟩
    · unfold startOf; dsimp only; rw [fnd]; simp
    · simp [ownOf] at h
    · unfold startOf at h
      dsimp only at h
      rw [fnd, if_neg hy] at h
      obtain ⟨k1, k2⟩ := hC.slots y t h
      refine ⟨k1, fun i s his => ?_⟩
      obtain ⟨e, g1, g2, g3⟩ := k2 i s his
      exact ⟨e, g1, g2, fun h => by simp at h, fun _ => g3⟩
    · obtain ⟨y, t, i, h1, h2⟩ := hC.cover idx h
      have hy : y ≠ c := by
        rintro rfl; rw [hnone] at h1; cases h1
      refine ⟨y, t, i, hy, ?_, h2⟩
      unfold startOf; dsimp only
      rw [fnd, if_neg hy]; exact h1

/-- After all declarations, the class is done. -/
theorem mid_good {P : Program n} {c : Fin n} {st0 : St n} {x : St n × Nat} (M : Mid P st0 c (P.decls c) [] x) (m : Nat)
    (hm : m = (x.1.cls c).vtable.length) : Good P (x.1.set c { x.1.cls c with max := some m }) c := by
  have hset : ∀ k : ClassSt n, (x.1.set c k).cls c = k := fun k => by unfold St.set; simp
  obtain ⟨F, hF1, hF2⟩ := M.funcs
  obtain ⟨base, hb1, hb2, hb3, hb4, hb5⟩ := M.base
  have hown : ownOf P c (P.decls c) = own P c := rfl
  refine ⟨?_, ?_, ?_, ?_, ?_, ?_, ?_⟩
  all_goals rw [hset]
  all_goals dsimp only
  · rw [hm]
  · exact M.inited
  · rw [hF1]; simpa using hF2
  · exact M.owned
  · exact M.keys
  · intro y t ht i s his
    replace ht : startOf (x.1.cls c) y = some t := ht
    by_cases hy : y = c
    · subst hy
      rw [hb1] at ht; cases ht
      obtain ⟨e, g1, g2, g3⟩ := hb3 i s (by rw [hown]; exact his)
      refine ⟨e, g1, g2, fun _ => g3, fun h => absurd (mem_own his).1.1 h⟩
    · obtain ⟨e, g1, g2, g3, g4⟩ := (hb4 y t hy ht).2 i s his
      exact ⟨e, g1, g2, g3, g4⟩
  · intro idx h
    by_cases hlt : idx < base
    · obtain ⟨y, t, i, _, h1, h2⟩ := hb5 idx hlt
      exact ⟨y, t, i, h1, h2⟩
    · refine ⟨c, base, idx - base, hb1, by omega, ?_⟩
      rw [← hown, ← M.count]; omega

theorem initVTable_errors {w : World n} {st st1 : St n} {c : Fin n} {m : Nat} (h : initVTable w st c m = some st1) :
    st1.errors = st.errors := by
  unfold initVTable at h
  dsimp only at h
  split at h
  · cases h; rfl
  · split at h
    · cases h; rfl
    · cases h

theorem calcClass_errors {w : World n} {st st' : St n} {c : Fin n} (h : calcClass w st c = some st') : st.errors ≤ st'.errors := by
  unfold calcClass at h
  dsimp only at h
  split at h
  · cases h; exact Nat.le_refl _
  · split at h
    · split at h
      · split at h
        · split at h
          · cases h
          · rename_i st1 h1
            split at h
            · cases h
            · rename_i st2 o h2
              cases h
              have := errors_mono_list h2
              have h3 := initVTable_errors h1
              dsimp only [St.set] at this ⊢
              omega
        · cases h
      · cases h; exact Nat.le_refl _
    · cases h

/-- The state as long as nothing is reported: classes are done, with everything above them, or untouched. -/
structure Inv (P : Program n) (st : St n) : Prop where
  good : ∀ c, P.w.defined c = true → (st.cls c).max.isSome = true → Good P st c ∧ Quiet P c ∧
    ∀ b, Ancestor P.w c b → (st.cls b).max.isSome = true
  rest : ∀ c, P.w.defined c = true → (st.cls c).max.isSome = false → Untouched P st c

theorem bases_of {P : Program n} (L : Legal P) {c : Fin n} (hc : P.w.defined c = true) (b : Fin n) :
    b ∈ ((P.w.table c).filter fun e => e.base ≠ P.w.nouti).map (fun e => P.w.root e.base) ↔ Base P.w c b := by
  simp only [List.mem_map, List.mem_filter, ne_eq, decide_not, Bool.not_eq_true', decide_eq_false_iff_not]
  constructor
  · rintro ⟨e, ⟨h1, h2⟩, h3⟩; exact ⟨hc, e, h1, h2, h3⟩
  · rintro ⟨_, e, h1, h2, h3⟩; exact ⟨e, ⟨h1, h2⟩, h3⟩

/-- All bases of `c` are done. -/
def Ready (P : Program n) (st : St n) (c : Fin n) : Prop := ∀ b, Base P.w c b → (st.cls b).max.isSome = true

/-- One class: nothing happens if it is done or not ready; otherwise it gets done, without error exactly if there is nothing
to report. -/
theorem class_step {P : Program n} (L : Legal P) {st : St n} (I : Inv P st) (c : Fin n) (hc : P.w.defined c = true) :
    (((st.cls c).max.isSome = true ∨ ¬ Ready P st c) → calcClass P.w st c = some st) ∧
    ((st.cls c).max.isSome = false → Ready P st c →
      (Quiet P c → ∃ st', calcClass P.w st c = some st' ∧ st'.errors = st.errors) ∧
      (∀ st', calcClass P.w st c = some st' → st'.errors = st.errors → Quiet P c ∧ Inv P st' ∧
        (st'.cls c).max.isSome = true ∧ ∀ y, y ≠ c → st'.cls y = st.cls y)) := by
  have hdef : (((P.w.table c).filter fun e => e.base ≠ P.w.nouti).map fun e => P.w.root e.base).all (fun b => P.w.defined b) = true := by
    rw [List.all_eq_true]
    intro b hb
    exact L.anc_defined (.single ((bases_of L hc b).1 hb))
  have hready : (((P.w.table c).filter fun e => e.base ≠ P.w.nouti).map fun e => P.w.root e.base).all
      (fun b => (st.cls b).max.isSome) = true ↔ Ready P st c := by
    rw [List.all_eq_true]
    exact ⟨fun h b hb => h b ((bases_of L hc b).2 hb), fun h b hb => h b ((bases_of L hc b).1 hb)⟩
  refine ⟨fun h => ?_, fun hm hr => ?_⟩
  · unfold calcClass
    dsimp only
    rcases h with h | h
    · rw [if_pos h]
    · by_cases hd : (st.cls c).max.isSome = true
      · rw [if_pos hd]
      · rw [if_neg hd, if_pos hdef, if_neg (fun q => h (hready.1 q))]
  · have hanc : ∀ b, Ancestor P.w c b → (st.cls b).max.isSome = true := by
      intro b hb
      obtain ⟨d, h1, h2⟩ := Relation.TransGen.head'_iff.1 hb
      rcases soa_cases h2 with q | q
      · rw [q]; exact hr d h1
      · exact (I.good d (L.anc_defined (.single h1)) (hr d h1)).2.2 b q
    have G0 : ∀ b, Ancestor P.w c b → Good P st b := fun b hb => (I.good b (L.anc_defined hb) (hanc b hb)).1
    have hu := I.rest c hc hm
    obtain ⟨st1, i1, i2, M⟩ := init_ok L hc G0 hu
    have hf1 : (st1.cls c).funcs = (P.decls c).map fresh := by
      obtain ⟨F, h1, h2⟩ := M.funcs
      cases h2; simpa using h1
    have hin : (ancestors P.w false c).all (fun b => (st.cls b).inited) = true := by
      rw [List.all_eq_true]
      exact fun b hb => (G0 b ((mem_ancestors L false hc b).1 hb)).inited
    have hcalc : calcClass P.w st c = match calcFunctions P.w c ((P.decls c).map fresh) (st1, 0) with
        | none => none
        | some (st2, owned) => some (st2.set c { st2.cls c with
            max := some (((ancestors P.w false c).map fun b => (st.cls b).owned.length).sum + owned) }) := by
      unfold calcClass
      dsimp only
      rw [if_neg (by rw [hm]; simp), if_pos hdef, if_pos (hready.2 hr), if_pos hin, i1]
      dsimp only
      rw [hf1]
      rfl
    have hlen : ∀ x' : St n × Nat, calcFunctions P.w c ((P.decls c).map fresh) (st1, 0) = some x' →
        Mid P st c (P.decls c) [] x' → startOf (x'.1.cls c) c = startOf (st1.cls c) c →
        ((ancestors P.w false c).map fun b => (st.cls b).owned.length).sum + x'.2 = (x'.1.cls c).vtable.length := by
      intro x' _ M' hs
      obtain ⟨base, hb1, hb2, _⟩ := M'.base
      obtain ⟨base0, hb1', hb2', _⟩ := M.base
      rw [hs, hb1'] at hb1; cases hb1
      have h0 : (st1.cls c).vtable.length = ((ancestors P.w false c).map fun b => (st.cls b).owned.length).sum := by
        have := i1
        unfold initVTable at this
        dsimp only at this
        rw [if_neg (by rw [hu]; simp [start])] at this
        split at this
        · rename_i hl
          cases this
          unfold St.set
          simp [hl]
        · cases this
      dsimp only at hb2'
      omega
    have hstarts : ∀ (fs : List (Func n)) (x x' : St n × Nat), calcFunctions P.w c fs x = some x' →
        (x'.1.cls c).starts = (x.1.cls c).starts := by
      intro fs
      induction fs with
      | nil => intro x x' h; cases h; rfl
      | cons f fs ih =>
        intro x x' h
        unfold calcFunctions at h
        split at h
        · cases h
        · rename_i y hy
          rw [ih y x' h]
          unfold calcFunction at hy
          dsimp only at hy
          split at hy
          · split at hy
            · cases hy
            · split at hy
              · cases hy
              · rename_i k' hk'
                cases hy
                unfold St.set
                simp only [Function.update_self]
                unfold updateVTable at hk'
                split at hk'
                · cases hk'
                · dsimp only at hk'
                  split at hk'
                  · split at hk'
                    · cases hk'; rfl
                    · cases hk'
                  · split at hk'
                    · cases hk'; rfl
                    · cases hk'
          · cases hy; rfl
    refine ⟨fun hQ => ?_, fun st' h he => ?_⟩
    · obtain ⟨q1, q2⟩ := quiet_iff.1 hQ
      obtain ⟨x', k1, k2, k3⟩ := steps_ok L hc G0 (P.decls c) [] rfl M q1
      rw [hcalc, k1]
      refine ⟨_, rfl, ?_⟩
      have := k3.2 q2
      dsimp only [St.set] at this ⊢
      rw [this, i2]
    · rw [hcalc] at h
      cases h2 : calcFunctions P.w c ((P.decls c).map fresh) (st1, 0) with
      | none => rw [h2] at h; cases h
      | some x' =>
        rw [h2] at h
        obtain ⟨st2, k⟩ := x'
        dsimp only at h
        cases h
        have he' : st2.errors = st1.errors := by
          dsimp only [St.set] at he; rw [he, i2]
        have q1 := steps_quiet L hc G0 (P.decls c) [] rfl M h2 he'
        obtain ⟨x', k1, k2, k3⟩ := steps_ok L hc G0 (P.decls c) [] rfl M q1
        rw [h2] at k1; cases k1
        have hQ : Quiet P c := quiet_iff.2 ⟨q1, k3.1 he'⟩
        have hs : startOf (st2.cls c) c = startOf (st1.cls c) c := by
          have := hstarts _ _ _ h2
          unfold startOf; dsimp only at this; rw [this]
        have hg := mid_good k2 _ (hlen _ h2 k2 hs)
        dsimp only at hg
        have hset : ∀ k : ClassSt n, (st2.set c k).cls c = k := fun k => by unfold St.set; simp
        have hst : ∀ (k : ClassSt n) y, y ≠ c → (st2.set c k).cls y = st.cls y := fun k y hy => by
          unfold St.set; simp only [Function.update_of_ne hy]; exact k2.others y hy
        refine ⟨hQ, ⟨fun y hy hym => ?_, fun y hy hym => ?_⟩, by rw [hset]; rfl, hst _⟩
        · by_cases hyc : y = c
          · subst hyc
            exact ⟨hg, hQ, fun b hb => by rw [hst _ b (anc_ne L hb)]; exact hanc b hb⟩
          · rw [hst _ y hyc] at hym
            obtain ⟨g1, g2, g3⟩ := I.good y hy hym
            refine ⟨good_congr (hst _ y hyc) g1, g2, fun b hb => ?_⟩
            by_cases hbc : b = c
            · subst hbc; rw [hset]; rfl
            · rw [hst _ b hbc]; exact g3 b hb
        · by_cases hyc : y = c
          · subst hyc; rw [hset] at hym; cases hym
          · rw [hst _ y hyc] at hym
            unfold Untouched
            rw [hst _ y hyc]
            exact I.rest y hy hym

end Ulam.Virtual
