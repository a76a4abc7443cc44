import Verif.Virtual.Spec
import Verif.Walker.Props
/-! # Lemmas on the walk over the ancestors, in depth-first order in particular -/
namespace Ulam.Virtual
open Ulam.Walker Ulam.Walker.Spec Spec
variable {n : Nat}

/-- The walk from `walker.addAncestorsOf(c)`. -/
abbrev fromBases (w : World n) (b : Bool) (c : Fin n) : State n := addAncestorPairsOf w b c w.nouti ⟨[], ∅⟩

theorem trans_edge {w : World n} (ok : Ok w) {c x : Fin n} (hx : w.defined x = true) :
    Relation.TransGen (Edge w) c x ↔ Ancestor w c x := by
  constructor
  · intro h
    obtain ⟨d, e, h⟩ := Relation.TransGen.head'_iff.1 h
    have hs := (edge_base ok d x hx).1 h
    obtain ⟨hc, en, h1, h2⟩ := e
    by_cases hn : en.base = w.nouti
    · exfalso
      have hd : w.defined d = false := by rw [← h2, hn]; exact ok.no_class
      rcases Relation.ReflTransGen.cases_head hs with q | ⟨z, ⟨hz, _⟩, _⟩
      · rw [q, hx] at hd; cases hd
      · rw [hz] at hd; cases hd
    · exact Relation.TransGen.head' ⟨hc, en, h1, hn, h2⟩ hs
  · intro h
    obtain ⟨d, ⟨hc, en, h1, _, h2⟩, h⟩ := Relation.TransGen.head'_iff.1 h
    exact Relation.TransGen.head' ⟨hc, en, h1, h2⟩ ((edge_base ok d x hx).2 h)

theorem no_cycle {w : World n} (ok : Ok w) (ac : Acyclic w) (x : Fin n) : ¬ Relation.TransGen (Edge w) x x := by
  intro h
  have hx : w.defined x = true := by
    obtain ⟨_, e, _⟩ := Relation.TransGen.head'_iff.1 h
    exact e.1
  exact ac x ((trans_edge ok hx).1 h)

theorem Spec.Legal.anc_defined {P : Program n} (L : Legal P) {c x : Fin n} (h : Ancestor P.w c x) : P.w.defined x = true := by
  obtain ⟨d, _, hd, e, h1, h2, h3⟩ := Relation.TransGen.tail'_iff.1 h
  rw [← h3]; exact L.bases d hd e h1 h2

theorem mem_ancestors {P : Program n} (L : Legal P) (b : Bool) {c : Fin n} (hc : P.w.defined c = true) (x : Fin n) :
    x ∈ ancestors P.w b c ↔ Ancestor P.w c x := by
  unfold ancestors
  rw [List.mem_filter]
  obtain ⟨_, h2, h3, h4⟩ := sightings_facts P.w b (fromBases P.w b c)
  constructor
  · rintro ⟨hx, hd⟩
    obtain ⟨_, y, hy, hr⟩ := h2 x hx
    rw [add_bases] at hy
    rcases hy with hy | ⟨_, e, he, h⟩
    · cases hy
    · exact (trans_edge L.ok hd).1 (Relation.TransGen.head' ⟨hc, e, he, by rw [h]⟩ hr)
  · intro h
    have hd := L.anc_defined h
    refine ⟨?_, hd⟩
    have h := (trans_edge L.ok hd).2 h
    have key : ∀ z, Relation.TransGen (Edge P.w) c z → z ∈ sightings P.w b (fromBases P.w b c) := by
      intro z hz
      have hs : (fromBases P.w b c).seen = ∅ := by rw [add_seen]
      induction hz with
      | single e =>
        obtain ⟨_, en, k1, k2⟩ := e
        have := h3 (en.base, P.w.nouti) ((add_bases ..).2 (.inr ⟨rfl, en, k1, rfl⟩))
        rw [k2, hs] at this
        simpa using this
      | tail _ e ih =>
        have := h4 _ ih _ e
        rw [hs] at this
        simpa using this
    exact key x h

theorem ancestors_nodup (w : World n) (b : Bool) (c : Fin n) : (ancestors w b c).Nodup :=
  (sightings_facts w b _).1.filter _

theorem sub_iff {P : Program n} (L : Legal P) {a b : Fin n} (ha : P.w.defined a = true) (hb : P.w.defined b = true) :
    isClassASubclassOf P.w a b = true ↔ Ancestor P.w a b := by
  rw [C14_subclass_iff_ancestor P.w L.ok L.acyclic, (L.rooted a ha).2, (L.rooted b hb).2, (L.rooted a ha).1, (L.rooted b hb).1]

/-! ### Depth-first order -/

theorem push_front (w : World n) (c : Fin n) (s : State n) :
    addAncestorPairsOf w false c w.nouti s = ⟨(w.table c).map (fun e => (e.base, w.nouti)) ++ s.bases, s.seen⟩ := by
  have key : ∀ (l : List (Entry n)) (q : List (Fin n × Fin n)),
      l.foldl (fun q e => (e.base, w.nouti) :: q) q = (l.reverse.map fun e => (e.base, w.nouti)) ++ q := by
    intro l
    induction l with
    | nil => intro q; rfl
    | cons e l ih => intro q; rw [List.foldl_cons, ih]; simp
  unfold addAncestorPairsOf
  simp [key]

/-- The stack entries pushed on meeting `r`. -/
def pushed (w : World n) (r : Fin n) : List (Fin n × Fin n) :=
  if w.defined r then (w.table r).map fun e => (e.base, w.nouti) else []

theorem after_df (w : World n) (r : Fin n) (q : List (Fin n × Fin n)) (seen : Finset (Fin n)) :
    after w false r ⟨q, seen⟩ = ⟨pushed w r ++ q, seen⟩ := by
  unfold after pushed
  split
  · rw [push_front]
  · rfl

theorem s_nil (w : World n) (seen : Finset (Fin n)) : sightings w false ⟨[], seen⟩ = [] := sightings_none rfl

theorem s_seen {w : World n} {r : Fin n × Fin n} {q : List (Fin n × Fin n)} {seen : Finset (Fin n)} (h : w.root r.1 ∈ seen) :
    sightings w false ⟨r :: q, seen⟩ = sightings w false ⟨q, seen⟩ := by
  have e : getNextBase w ⟨r :: q, seen⟩ = getNextBase w ⟨q, seen⟩ := by
    unfold getNextBase
    obtain ⟨r1, r2⟩ := r
    simp only [getNextBasePair]
    rw [if_pos h]
  cases h2 : getNextBase w ⟨q, seen⟩ with
  | none => rw [sightings_none h2, sightings_none (e.trans h2)]
  | some x =>
    obtain ⟨y, t⟩ := x
    rw [sightings_some h2, sightings_some (e.trans h2)]

theorem s_new {w : World n} {r : Fin n × Fin n} {q : List (Fin n × Fin n)} {seen : Finset (Fin n)} (h : w.root r.1 ∉ seen) :
    sightings w false ⟨r :: q, seen⟩ =
      w.root r.1 :: sightings w false ⟨pushed w (w.root r.1) ++ q, insert (w.root r.1) seen⟩ := by
  have e : getNextBase w ⟨r :: q, seen⟩ = some (w.root r.1, ⟨q, insert (w.root r.1) seen⟩) := by
    unfold getNextBase
    obtain ⟨r1, r2⟩ := r
    simp only [getNextBasePair]
    rw [if_neg h]
    rfl
  rw [sightings_some e, after_df]

/-- The stack below is not touched until the stack above is used up. -/
theorem s_append (w : World n) (q1 q2 : List (Fin n × Fin n)) (seen : Finset (Fin n)) :
    sightings w false ⟨q1 ++ q2, seen⟩ = sightings w false ⟨q1, seen⟩ ++
      sightings w false ⟨q2, seen ∪ (sightings w false ⟨q1, seen⟩).toFinset⟩ := by
  generalize hk : n - seen.card = k
  induction k using Nat.strongRecOn generalizing q1 q2 seen with
  | ind k ih =>
    induction q1 with
    | nil => rw [s_nil]; simp
    | cons r q1 ihq =>
      by_cases hr : w.root r.1 ∈ seen
      · rw [List.cons_append, s_seen hr, s_seen hr, ihq]
      · rw [List.cons_append, s_new hr, s_new hr]
        have hlt : n - (insert (w.root r.1) seen).card < k := hk ▸ fuel_lt hr rfl
        rw [← List.append_assoc, ih _ hlt _ _ _ rfl, List.cons_append]
        congr 2
        congr 2
        ext z
        simp only [Finset.mem_union, Finset.mem_insert, List.mem_toFinset, List.mem_cons]
        tauto

/-- Everything reachable from `x` has been seen. -/
def Closed (w : World n) (seen : Finset (Fin n)) (x : Fin n) : Prop := ∀ z, Relation.TransGen (Edge w) x z → z ∈ seen

theorem pushed_edge {w : World n} {r : Fin n} {y : Fin n × Fin n} (h : y ∈ pushed w r) : Edge w r (w.root y.1) := by
  unfold pushed at h
  split at h
  · rename_i hd
    obtain ⟨e, h1, h2⟩ := List.mem_map.1 h
    exact ⟨hd, e, h1, by rw [← h2]⟩
  · cases h

theorem edge_pushed {w : World n} {r y : Fin n} (h : Edge w r y) : ∃ x ∈ pushed w r, w.root x.1 = y := by
  obtain ⟨hd, e, h1, h2⟩ := h
  unfold pushed
  rw [if_pos hd]
  exact ⟨_, List.mem_map.2 ⟨e, h1, rfl⟩, h2⟩

/-- What the depth-first walk guarantees about order: after `x` come first only classes reachable from `x`, until all of
them have been seen. -/
def Ordered (w : World n) (seen : Finset (Fin n)) (S : List (Fin n)) : Prop :=
  ∀ pre x suf, S = pre ++ x :: suf → ∃ A suf', suf = A ++ suf' ∧ (∀ z ∈ A, Relation.TransGen (Edge w) x z) ∧
    ∀ z, Relation.TransGen (Edge w) x z → z ∈ seen ∨ z ∈ pre ∨ z ∈ A

theorem dfs {w : World n} (ok : Ok w) (ac : Acyclic w) (q : List (Fin n × Fin n)) (seen : Finset (Fin n))
    (H : ∀ x ∈ seen, Closed w seen x ∨ ∀ z ∈ q, Relation.TransGen (Edge w) x (w.root z.1)) :
    (∀ y ∈ q, ∀ z, Relation.ReflTransGen (Edge w) (w.root y.1) z → z ∈ seen ∨ z ∈ sightings w false ⟨q, seen⟩) ∧
    Ordered w seen (sightings w false ⟨q, seen⟩) := by
  generalize hk : n - seen.card = k
  induction k using Nat.strongRecOn generalizing q seen with
  | ind k ih =>
    induction q with
    | nil =>
      rw [s_nil]
      refine ⟨fun y hy => absurd hy List.not_mem_nil, fun pre x suf h => ?_⟩
      cases pre <;> cases h
    | cons r q ihq =>
      have Hq : ∀ x ∈ seen, Closed w seen x ∨ ∀ z ∈ q, Relation.TransGen (Edge w) x (w.root z.1) := by
        intro x hx
        rcases H x hx with h | h
        · exact .inl h
        · exact .inr fun z hz => h z (List.mem_cons_of_mem _ hz)
      by_cases hr : w.root r.1 ∈ seen
      · rw [s_seen hr]
        obtain ⟨i1, i2⟩ := ihq Hq
        refine ⟨fun y hy z hz => ?_, i2⟩
        rcases List.mem_cons.1 hy with rfl | hy
        · rcases H _ hr with h | h
          · rcases Relation.reflTransGen_iff_eq_or_transGen.1 hz with e | hz
            · rw [e]; exact .inl hr
            · exact .inl (h z hz)
          · exact absurd (h y (List.mem_cons_self ..)) (no_cycle ok ac _)
        · exact i1 y hy z hz
      · generalize hR : w.root r.1 = R at hr
        have hlt : n - (insert R seen).card < k := hk ▸ fuel_lt hr rfl
        have Hr : ∀ x ∈ insert R seen, Closed w (insert R seen) x ∨
            ∀ z ∈ pushed w R, Relation.TransGen (Edge w) x (w.root z.1) := by
          intro x hx
          rcases Finset.mem_insert.1 hx with rfl | hx
          · exact .inr fun z hz => .single (pushed_edge hz)
          · rcases H x hx with h | h
            · exact .inl fun z hz => Finset.mem_insert_of_mem (h z hz)
            · refine .inr fun z hz => ?_
              have := h r (List.mem_cons_self ..)
              rw [hR] at this
              exact this.tail (pushed_edge hz)
        obtain ⟨a1, a2⟩ := ih _ hlt (pushed w R) _ Hr rfl
        have hnew := s_new (w := w) (r := r) (q := q) (seen := seen) (by rw [hR]; exact hr)
        rw [hR, s_append] at hnew
        generalize hSr : sightings w false ⟨pushed w R, insert R seen⟩ = Sr at a1 a2 hnew
        have hSrR : ∀ z ∈ Sr, Relation.TransGen (Edge w) R z := by
          intro z hz
          rw [← hSr] at hz
          obtain ⟨_, y, hy, h⟩ := (sightings_facts w false _).2.1 z hz
          exact Relation.TransGen.head' (pushed_edge hy) h
        have closeR : ∀ z, Relation.TransGen (Edge w) R z → z ∈ seen ∨ z ∈ Sr := by
          intro z hz
          obtain ⟨d, e, h⟩ := Relation.TransGen.head'_iff.1 hz
          obtain ⟨x, hx, hxd⟩ := edge_pushed e
          rw [← hxd] at h
          rcases a1 x hx z h with h | h
          · rcases Finset.mem_insert.1 h with rfl | h
            · exact absurd hz (no_cycle ok ac _)
            · exact .inl h
          · exact .inr h
        have hlt2 : n - (insert R seen ∪ Sr.toFinset).card < k := by
          refine Nat.lt_of_le_of_lt ?_ hlt
          exact Nat.sub_le_sub_left (Finset.card_le_card Finset.subset_union_left) n
        have H2 : ∀ x ∈ insert R seen ∪ Sr.toFinset, Closed w (insert R seen ∪ Sr.toFinset) x ∨
            ∀ z ∈ q, Relation.TransGen (Edge w) x (w.root z.1) := by
          have cl : ∀ x, (x = R ∨ Relation.TransGen (Edge w) R x) → Closed w (insert R seen ∪ Sr.toFinset) x := by
            intro x hx z hz
            have : Relation.TransGen (Edge w) R z := by
              rcases hx with rfl | hx
              · exact hz
              · exact hx.trans hz
            rcases closeR z this with h | h
            · simp [h]
            · simp [h]
          intro x hx
          rcases Finset.mem_union.1 hx with hx | hx
          · rcases Finset.mem_insert.1 hx with rfl | hx
            · exact .inl (cl _ (.inl rfl))
            · rcases Hq x hx with h | h
              · exact .inl fun z hz => by simp [h z hz]
              · exact .inr h
          · exact .inl (cl _ (.inr (hSrR x (List.mem_toFinset.1 hx))))
        obtain ⟨b1, b2⟩ := ih _ hlt2 q _ H2 rfl
        rw [hnew]
        generalize sightings w false ⟨q, insert R seen ∪ Sr.toFinset⟩ = Sq at b1 b2 ⊢
        constructor
        · intro y hy z hz
          rcases List.mem_cons.1 hy with rfl | hy
          · rw [hR] at hz
            rcases Relation.reflTransGen_iff_eq_or_transGen.1 hz with e | hz
            · right; simp [e]
            · rcases closeR z hz with h | h
              · exact .inl h
              · right; simp [h]
          · rcases b1 y hy z hz with h | h
            · simp only [Finset.mem_union, Finset.mem_insert, List.mem_toFinset] at h
              simp only [List.mem_cons, List.mem_append]
              tauto
            · right; simp [h]
        · intro pre x suf e
          cases pre with
          | nil =>
            simp only [List.nil_append, List.cons.injEq] at e
            obtain ⟨e1, e2⟩ := e
            subst e1
            refine ⟨Sr, Sq, e2.symm, hSrR, fun z hz => ?_⟩
            rcases closeR z hz with h | h
            · exact .inl h
            · exact .inr (.inr h)
          | cons p pre =>
            simp only [List.cons_append, List.cons.injEq] at e
            obtain ⟨e1, e2⟩ := e
            subst e1
            rcases List.append_eq_append_iff.1 e2 with ⟨as, h1, h2⟩ | ⟨bs, h1, h2⟩
            · -- `x` in the later part
              obtain ⟨A, suf', k1, k2, k3⟩ := b2 as x suf h2
              refine ⟨A, suf', k1, k2, fun z hz => ?_⟩
              have := k3 z hz
              rw [h1]
              simp only [Finset.mem_union, Finset.mem_insert, List.mem_toFinset, List.mem_cons, List.mem_append] at this ⊢
              tauto
            · cases bs with
              | nil =>
                simp only [List.append_nil, List.nil_append] at h1 h2
                obtain ⟨A, suf', k1, k2, k3⟩ := b2 [] x suf h2.symm
                refine ⟨A, suf', k1, k2, fun z hz => ?_⟩
                have := k3 z hz
                rw [← h1]
                simp only [Finset.mem_union, Finset.mem_insert, List.mem_toFinset, List.mem_cons, List.not_mem_nil] at this ⊢
                tauto
              | cons b bs =>
                simp only [List.cons_append, List.cons.injEq] at h2
                obtain ⟨h2, h3⟩ := h2
                subst h2
                obtain ⟨A, suf', k1, k2, k3⟩ := a2 pre x bs h1
                refine ⟨A, suf' ++ Sq, by rw [h3, k1, List.append_assoc], k2, fun z hz => ?_⟩
                have := k3 z hz
                simp only [Finset.mem_insert, List.mem_cons] at this ⊢
                tauto

/-- The ancestors in depth-first order: after a class come first only its own ancestors, until all have been met. -/
theorem ancestors_ordered {P : Program n} (L : Legal P) {c : Fin n} {pre suf : List (Fin n)} {x o : Fin n}
    (h : ancestors P.w false c = pre ++ x :: suf) (ho : Ancestor P.w x o) :
    o ∈ pre ∨ ∃ A suf', suf = A ++ suf' ∧ o ∈ A ∧ ∀ z ∈ A, Ancestor P.w x z := by
  unfold ancestors at h
  rw [push_front] at h
  obtain ⟨_, hO⟩ := dfs L.ok L.acyclic ((P.w.table c).map (fun e => (e.base, P.w.nouti)) ++ []) ∅ (fun x hx => by simp at hx)
  obtain ⟨l1, l2, e1, e2, e3⟩ := List.filter_eq_append_iff.1 h
  obtain ⟨m1, m2, f1, f2, f3, f4⟩ := List.filter_eq_cons_iff.1 e3
  have e : sightings P.w false ⟨(P.w.table c).map (fun e => (e.base, P.w.nouti)) ++ [], ∅⟩ = (l1 ++ m1) ++ x :: m2 := by
    rw [e1, f1, List.append_assoc]
  obtain ⟨A, suf', k1, k2, k3⟩ := hO _ _ _ e
  have hod := L.anc_defined ho
  rcases k3 o ((trans_edge L.ok hod).2 ho) with h | h | h
  · simp at h
  · left
    rcases List.mem_append.1 h with h | h
    · rw [← e2]; exact List.mem_filter.2 ⟨h, hod⟩
    · exact absurd hod (f2 o h)
  · right
    refine ⟨A.filter fun x => P.w.defined x, suf'.filter fun x => P.w.defined x, ?_, List.mem_filter.2 ⟨h, hod⟩, ?_⟩
    · rw [← f4, k1, List.filter_append]
    · intro z hz
      obtain ⟨hz1, hz2⟩ := List.mem_filter.1 hz
      exact (trans_edge L.ok hz2).1 (k2 z hz1)

end Ulam.Virtual
