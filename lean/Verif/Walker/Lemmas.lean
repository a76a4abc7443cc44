import Verif.Walker.Spec
/-! # Helper lemmas for walking base classes -/
namespace Ulam.Walker
open Spec
variable {n : Nat}

theorem add_bases (w : World n) (b : Bool) (c h : Fin n) (s : State n) (x : Fin n × Fin n) :
    x ∈ (addAncestorPairsOf w b c h s).bases ↔ x ∈ s.bases ∨ (x.2 = h ∧ ∃ e ∈ w.table c, e.base = x.1) := by
  have h1 : ∀ (l : List (Entry n)) (q : List (Fin n × Fin n)),
      x ∈ l.foldl (fun q e => q ++ [(e.base, h)]) q ↔ x ∈ q ∨ (x.2 = h ∧ ∃ e ∈ l, e.base = x.1) := by
    intro l
    induction l with
    | nil => intro q; simp
    | cons e l ih =>
      intro q
      rw [List.foldl_cons, ih, List.mem_append, List.mem_singleton]
      obtain ⟨x1, x2⟩ := x
      simp only [Prod.mk.injEq, List.mem_cons, exists_eq_or_imp]
      tauto
  have h2 : ∀ (l : List (Entry n)) (q : List (Fin n × Fin n)),
      x ∈ l.foldl (fun q e => (e.base, h) :: q) q ↔ x ∈ q ∨ (x.2 = h ∧ ∃ e ∈ l, e.base = x.1) := by
    intro l
    induction l with
    | nil => intro q; simp
    | cons e l ih =>
      intro q
      rw [List.foldl_cons, ih, List.mem_cons]
      obtain ⟨x1, x2⟩ := x
      simp only [Prod.mk.injEq, List.mem_cons, exists_eq_or_imp]
      tauto
  unfold addAncestorPairsOf
  split
  · exact h1 _ _
  · simp only [h2, List.mem_reverse]

/-- Edges the walker follows (including the empty superclass). -/
def Edge (w : World n) (x y : Fin n) : Prop := w.defined x = true ∧ ∃ e ∈ w.table x, w.root e.base = y

theorem next_none {w : World n} {s : State n} (e : getNextBase w s = none) : ∀ b ∈ s.bases, w.root b.1 ∈ s.seen := by
  obtain ⟨q, seen⟩ := s
  unfold getNextBase at e
  simp only [Option.map_eq_none_iff] at e ⊢
  induction q with
  | nil => intro b hb; cases hb
  | cons b q ih =>
    obtain ⟨b, h⟩ := b
    simp only [getNextBasePair] at e
    split at e
    · rename_i hs
      intro c hc
      rcases List.mem_cons.1 hc with rfl | hc
      · exact hs
      · exact ih e c hc
    · cases e

theorem next_some {w : World n} {s t : State n} {r : Fin n} (e : getNextBase w s = some (r, t)) :
    (∃ b ∈ s.bases, w.root b.1 = r) ∧ (∀ b ∈ t.bases, b ∈ s.bases) ∧
    ∀ b ∈ s.bases, w.root b.1 ∈ s.seen ∨ w.root b.1 = r ∨ b ∈ t.bases := by
  obtain ⟨q, seen⟩ := s
  unfold getNextBase at e
  rw [Option.map_eq_some_iff] at e
  obtain ⟨⟨⟨r', h⟩, s'⟩, e1, e2⟩ := e
  cases e2
  simp only at e1 ⊢
  induction q with
  | nil => cases e1
  | cons b q ih =>
    obtain ⟨b, hb⟩ := b
    simp only [getNextBasePair] at e1
    split at e1
    · rename_i hs
      obtain ⟨⟨c, h1, h2⟩, h3, h4⟩ := ih e1
      refine ⟨⟨c, by simp [h1], h2⟩, fun x hx => by simp [h3 x hx], ?_⟩
      intro x hx
      rcases List.mem_cons.1 hx with rfl | hx
      · exact .inl hs
      · exact h4 x hx
    · cases e1
      refine ⟨⟨(b, h), by simp, rfl⟩, fun x hx => by simp [hx], ?_⟩
      intro x hx
      rcases List.mem_cons.1 hx with rfl | hx
      · exact .inr (.inl rfl)
      · exact .inr (.inr hx)

/-- Walker state after meeting `r`. -/
def after (w : World n) (b : Bool) (r : Fin n) (t : State n) : State n :=
  if w.defined r then addAncestorPairsOf w b r w.nouti t else t

theorem after_seen (w : World n) (b : Bool) (r : Fin n) (t : State n) : (after w b r t).seen = t.seen := by
  unfold after; split
  · exact add_seen ..
  · rfl

theorem after_bases (w : World n) (b : Bool) (r : Fin n) (t : State n) (x : Fin n × Fin n) (h : x ∈ (after w b r t).bases) :
    x ∈ t.bases ∨ Edge w r (w.root x.1) := by
  unfold after at h
  split at h
  · rename_i hd
    rw [add_bases] at h
    rcases h with h | ⟨_, e, h1, h2⟩
    · exact .inl h
    · exact .inr ⟨hd, e, h1, by rw [h2]⟩
  · exact .inl h

theorem after_old (w : World n) (b : Bool) (r : Fin n) (t : State n) (x : Fin n × Fin n) (h : x ∈ t.bases) :
    x ∈ (after w b r t).bases := by
  unfold after
  split
  · rw [add_bases]; exact .inl h
  · exact h

theorem after_new (w : World n) (b : Bool) (r : Fin n) (t : State n) (y : Fin n) (h : Edge w r y) :
    ∃ x ∈ (after w b r t).bases, w.root x.1 = y := by
  obtain ⟨hd, e, h1, h2⟩ := h
  refine ⟨(e.base, w.nouti), ?_, h2⟩
  unfold after
  rw [if_pos hd, add_bases]
  exact .inr ⟨rfl, e, h1, rfl⟩

theorem sightings_none {w : World n} {b : Bool} {s : State n} (h : getNextBase w s = none) : sightings w b s = [] := by
  rw [sightings.eq_def]
  split
  · rfl
  · rename_i h2; rw [h] at h2; cases h2

theorem sightings_some {w : World n} {b : Bool} {s t : State n} {r : Fin n} (h : getNextBase w s = some (r, t)) :
    sightings w b s = r :: sightings w b (after w b r t) := by
  rw [sightings.eq_def]
  split
  · rename_i h2; rw [h] at h2; cases h2
  · rename_i h2
    rw [h] at h2; cases h2
    unfold after
    split <;> rfl

/-- Induction along the walk. -/
theorem walk_induction (w : World n) (b : Bool) (P : State n → Prop)
    (h0 : ∀ s, getNextBase w s = none → P s)
    (h1 : ∀ s r t, getNextBase w s = some (r, t) → P (after w b r t) → P s) (s : State n) : P s := by
  generalize hk : n - s.seen.card = k
  induction k using Nat.strongRecOn generalizing s with
  | ind k ih =>
    cases h : getNextBase w s with
    | none => exact h0 s h
    | some x =>
      obtain ⟨r, t⟩ := x
      have := getNextBase_some h
      refine h1 s r t h (ih _ ?_ _ rfl)
      rw [after_seen, ← hk]
      exact fuel_lt this.1 this.2

theorem sightings_facts (w : World n) (b : Bool) (s : State n) :
    (sightings w b s).Nodup ∧
    (∀ x ∈ sightings w b s, x ∉ s.seen ∧ ∃ y ∈ s.bases, Relation.ReflTransGen (Edge w) (w.root y.1) x) ∧
    (∀ y ∈ s.bases, w.root y.1 ∈ s.seen ∨ w.root y.1 ∈ sightings w b s) ∧
    (∀ x ∈ sightings w b s, ∀ y, Edge w x y → y ∈ s.seen ∨ y ∈ sightings w b s) := by
  refine walk_induction w b (fun s => (sightings w b s).Nodup ∧
    (∀ x ∈ sightings w b s, x ∉ s.seen ∧ ∃ y ∈ s.bases, Relation.ReflTransGen (Edge w) (w.root y.1) x) ∧
    (∀ y ∈ s.bases, w.root y.1 ∈ s.seen ∨ w.root y.1 ∈ sightings w b s) ∧
    (∀ x ∈ sightings w b s, ∀ y, Edge w x y → y ∈ s.seen ∨ y ∈ sightings w b s)) ?_ ?_ s
  · intro s h
    rw [sightings_none h]
    exact ⟨List.nodup_nil, by simp, fun y hy => .inl (next_none h y hy), by simp⟩
  · intro s r t h ih
    obtain ⟨i1, i2, i3, i4⟩ := ih
    rw [sightings_some h]
    obtain ⟨g1, g2⟩ := getNextBase_some h
    obtain ⟨⟨b0, f1, f1'⟩, f2, f3⟩ := next_some h
    rw [after_seen, g2] at i2 i3 i4
    refine ⟨?_, ?_, ?_, ?_⟩
    · rw [List.nodup_cons]
      exact ⟨fun hr => (i2 r hr).1 (Finset.mem_insert_self _ _), i1⟩
    · intro x hx
      rcases List.mem_cons.1 hx with rfl | hx
      · exact ⟨g1, b0, f1, by rw [f1']⟩
      · obtain ⟨k1, y, k2, k3⟩ := i2 x hx
        refine ⟨fun q => k1 (Finset.mem_insert_of_mem q), ?_⟩
        rcases after_bases w b r t y k2 with q | q
        · exact ⟨y, f2 y q, k3⟩
        · exact ⟨b0, f1, by rw [f1']; exact Relation.ReflTransGen.head q k3⟩
    · intro y hy
      rcases f3 y hy with q | q | q
      · exact .inl q
      · exact .inr (by rw [q]; simp)
      · rcases i3 y (after_old w b r t y q) with k | k
        · rcases Finset.mem_insert.1 k with k | k
          · exact .inr (by rw [k]; simp)
          · exact .inl k
        · exact .inr (by simp [k])
    · intro x hx y hxy
      have fin : (y ∈ insert r s.seen ∨ y ∈ sightings w b (after w b r t)) → y ∈ s.seen ∨ y ∈ r :: sightings w b (after w b r t) := by
        intro k
        rcases k with k | k
        · rcases Finset.mem_insert.1 k with k | k
          · exact .inr (by rw [k]; simp)
          · exact .inl k
        · exact .inr (by simp [k])
      rcases List.mem_cons.1 hx with rfl | hx
      · obtain ⟨z, z1, z2⟩ := after_new w b x t y hxy
        have := i3 z z1
        rw [z2] at this
        exact fin this
      · exact fin (i4 x hx y hxy)

theorem mem_sightings (w : World n) (b : Bool) (c x : Fin n) :
    x ∈ sightings w b (init w c) ↔ Relation.ReflTransGen (Edge w) (w.root c) x := by
  obtain ⟨_, h2, h3, h4⟩ := sightings_facts w b (init w c)
  constructor
  · intro hx
    obtain ⟨_, y, hy, h⟩ := h2 x hx
    simp only [init, List.mem_singleton] at hy
    subst hy; exact h
  · intro h
    induction h with
    | refl =>
      have := h3 (c, w.nouti) (by simp [init])
      simpa [init] using this
    | tail _ e ih =>
      have := h4 _ ih _ e
      simpa [init] using this

/-- From a class, the walker's edges and the declared bases lead to the same classes. -/
theorem edge_base {w : World n} (ok : Ok w) (c x : Fin n) (hx : w.defined x = true) :
    Relation.ReflTransGen (Edge w) c x ↔ SelfOrAncestor w c x := by
  constructor
  · intro h
    induction h using Relation.ReflTransGen.head_induction_on with
    | refl => exact .refl
    | head e h ih =>
      rename_i a d
      obtain ⟨hd, en, h1, h2⟩ := e
      by_cases hn : en.base = w.nouti
      · exfalso
        have hd' : w.defined d = false := by rw [← h2, hn]; exact ok.no_class
        rcases Relation.ReflTransGen.cases_head h with h | ⟨z, ⟨hz, _⟩, _⟩
        · rw [h, hx] at hd'; cases hd'
        · rw [hz] at hd'; cases hd'
      · exact Relation.ReflTransGen.head ⟨hd, en, h1, hn, h2⟩ ih
  · intro h
    induction h with
    | refl => exact .refl
    | tail _ e ih =>
      obtain ⟨hd, en, h1, _, h2⟩ := e
      exact (ih hd).tail ⟨hd, en, h1, h2⟩

theorem mem_classes {w : World n} (ok : Ok w) (b : Bool) (c x : Fin n) :
    x ∈ classes w b c ↔ w.defined x = true ∧ SelfOrAncestor w (w.root c) x := by
  unfold classes
  rw [List.mem_filter, mem_sightings]
  constructor
  · rintro ⟨h1, h2⟩; exact ⟨h2, (edge_base ok _ _ h2).1 h1⟩
  · rintro ⟨h1, h2⟩; exact ⟨(edge_base ok _ _ h1).2 h2, h1⟩

theorem classes_nodup (w : World n) (b : Bool) (c : Fin n) : (classes w b c).Nodup :=
  (sightings_facts w b (init w c)).1.filter _

theorem baseItem_isSome {w : World n} (x b : Fin n) (hx : w.defined x = true) :
    (baseItem w x b).isSome = true ↔ Base w x (w.root b) := by
  unfold baseItem Base
  rw [List.findIdx?_isSome, List.any_eq_true]
  constructor
  · rintro ⟨e, h1, h2⟩
    have := of_decide_eq_true h2
    exact ⟨hx, e, h1, this.1, this.2⟩
  · rintro ⟨_, e, h1, h2, h3⟩
    exact ⟨e, h1, decide_eq_true ⟨h2, h3⟩⟩

theorem subclassLoop_eq (w : World n) (b : Fin n) (s : State n) :
    subclassLoop w b s = (sightings w false s).any fun x => w.defined x && (baseItem w x b).isSome := by
  refine walk_induction w false (fun s => subclassLoop w b s =
    (sightings w false s).any fun x => w.defined x && (baseItem w x b).isSome) ?_ ?_ s
  · intro s h
    rw [sightings_none h, subclassLoop.eq_def]
    split
    · rfl
    · rename_i h2; rw [h] at h2; cases h2
  · intro s r t h ih
    rw [sightings_some h, subclassLoop.eq_def]
    split
    · rename_i h2; rw [h] at h2; cases h2
    · rename_i h2
      rw [h] at h2; cases h2
      rw [List.any_cons, ← ih]
      unfold after
      cases hd : w.defined r <;> simp

theorem ancestor_iff {w : World n} (c b : Fin n) :
    Ancestor w c b ↔ ∃ x, w.defined x = true ∧ SelfOrAncestor w c x ∧ Base w x b := by
  unfold Ancestor SelfOrAncestor
  constructor
  · intro h
    obtain ⟨x, h1, h2⟩ := Relation.TransGen.tail'_iff.1 h
    exact ⟨x, h2.1, h1, h2⟩
  · rintro ⟨x, _, h1, h2⟩
    exact Relation.TransGen.tail' h1 h2

theorem subclass_init {w : World n} (ok : Ok w) (c b : Fin n) :
    subclassLoop w b (init w c) = true ↔ Ancestor w (w.root c) (w.root b) := by
  rw [subclassLoop_eq, List.any_eq_true, ancestor_iff]
  constructor
  · rintro ⟨x, h1, h2⟩
    rw [Bool.and_eq_true] at h2
    refine ⟨x, h2.1, ?_, (baseItem_isSome x b h2.1).1 h2.2⟩
    exact (edge_base ok _ _ h2.1).1 ((mem_sightings w false c x).1 h1)
  · rintro ⟨x, h1, h2, h3⟩
    refine ⟨x, (mem_sightings w false c x).2 ((edge_base ok _ _ h1).2 h2), ?_⟩
    rw [Bool.and_eq_true]
    exact ⟨h1, (baseItem_isSome x b h1).2 h3⟩

/-- Searches that go on to the end are folds over the classes of the walk. -/
theorem nameLoop_eq (w : World n) (id : Nat) (s : State n) : ∀ (k : Nat) (p : Fin n),
    nameLoop w id k p s = ((sightings w false s).filter fun x => w.defined x).foldl
      (fun acc x => if w.name x = id then (acc.1 + 1, x) else acc) (k, p) := by
  refine walk_induction w false (fun s => ∀ (k : Nat) (p : Fin n),
    nameLoop w id k p s = ((sightings w false s).filter fun x => w.defined x).foldl
      (fun acc x => if w.name x = id then (acc.1 + 1, x) else acc) (k, p)) ?_ ?_ s
  · intro s h k p
    rw [sightings_none h, nameLoop.eq_def]
    split
    · rfl
    · rename_i h2; rw [h] at h2; cases h2
  · intro s r t h ih k p
    rw [sightings_some h, nameLoop.eq_def]
    split
    · rename_i h2; rw [h] at h2; cases h2
    · rename_i h2
      rw [h] at h2; cases h2
      unfold after at ih ⊢
      cases hd : w.defined r
      · rw [hd] at ih
        simp only [Bool.false_eq_true, if_false] at ih ⊢
        rw [ih, List.filter_cons_of_neg (by simp [hd])]
      · rw [hd] at ih
        simp only [if_true] at ih ⊢
        rw [List.filter_cons_of_pos (by simp [hd]), List.foldl_cons]
        split
        · rw [ih]
        · rw [ih]

theorem sharedLoop_eq (w : World n) (s : State n) : ∀ (m : Counts n) (k : Nat),
    sharedLoop w m k s = ((sightings w false s).filter fun x => w.defined x).foldl
      (fun acc x => ((findDirectSharedBases w x acc.1).1, acc.2 + (findDirectSharedBases w x acc.1).2)) (m, k) := by
  refine walk_induction w false (fun s => ∀ (m : Counts n) (k : Nat),
    sharedLoop w m k s = ((sightings w false s).filter fun x => w.defined x).foldl
      (fun acc x => ((findDirectSharedBases w x acc.1).1, acc.2 + (findDirectSharedBases w x acc.1).2)) (m, k)) ?_ ?_ s
  · intro s h k p
    rw [sightings_none h, sharedLoop.eq_def]
    split
    · rfl
    · rename_i h2; rw [h] at h2; cases h2
  · intro s r t h ih m k
    rw [sightings_some h, sharedLoop.eq_def]
    split
    · rename_i h2; rw [h] at h2; cases h2
    · rename_i h2
      rw [h] at h2; cases h2
      unfold after at ih ⊢
      cases hd : w.defined r
      · rw [hd] at ih
        simp only [Bool.false_eq_true, if_false] at ih ⊢
        rw [ih, List.filter_cons_of_neg (by simp [hd])]
      · rw [hd] at ih
        simp only [if_true] at ih ⊢
        rw [List.filter_cons_of_pos (by simp [hd]), List.foldl_cons, ih]

theorem findDirect_count (w : World n) (x : Fin n) (m : Counts n) (y : Fin n) :
    (findDirectSharedBases w x m).1 y = m y + sharedIn w y x := by
  unfold findDirectSharedBases sharedIn
  have : ∀ (l : List (Entry n)) (m : Counts n) (k : Nat), (l.foldl (fun acc e =>
    if e.base ≠ w.nouti ∧ e.shared > 0 then (Function.update acc.1 (w.root e.base) (acc.1 (w.root e.base) + 1), acc.2 + 1)
    else acc) (m, k)).1 y =
      m y + (l.filter fun e => decide (e.base ≠ w.nouti ∧ e.shared > 0 ∧ w.root e.base = y)).length := by
    intro l
    induction l with
    | nil => intro m k; simp
    | cons e l ih =>
      intro m k
      rw [List.foldl_cons]
      by_cases h : e.base ≠ w.nouti ∧ e.shared > 0
      · rw [if_pos h, ih]
        by_cases hy : w.root e.base = y
        · rw [List.filter_cons_of_pos (by simp [h, hy]), hy]
          simp; omega
        · rw [List.filter_cons_of_neg (by simp [hy])]
          rw [Function.update_of_ne (fun q => hy q.symm)]
      · rw [if_neg h, ih, List.filter_cons_of_neg (by simp; intro a b; exact absurd ⟨a, b⟩ h)]
  exact this _ _ _

theorem sharedFold_count (w : World n) (l : List (Fin n)) (m : Counts n) (k : Nat) (y : Fin n) :
    (l.foldl (fun acc x => ((findDirectSharedBases w x acc.1).1, acc.2 + (findDirectSharedBases w x acc.1).2)) (m, k)).1 y =
      m y + (l.map (sharedIn w y)).sum := by
  induction l generalizing m k with
  | nil => simp
  | cons x l ih =>
    rw [List.foldl_cons, ih, findDirect_count, List.map_cons, List.sum_cons]; exact Nat.add_assoc _ _ _

theorem pair_facts {w : World n} {q : List (Fin n × Fin n)} {seen : Finset (Fin n)} {r hd : Fin n} {t : State n}
    (e : getNextBasePair w q seen = some ((r, hd), t)) :
    (∃ b ∈ q, w.root b.1 = r ∧ b.2 = hd) ∧ ∀ b ∈ t.bases, b ∈ q := by
  induction q with
  | nil => cases e
  | cons b q ih =>
    obtain ⟨b, h'⟩ := b
    simp only [getNextBasePair] at e
    split at e
    · obtain ⟨⟨b0, h1, h2⟩, h3⟩ := ih e
      exact ⟨⟨b0, by simp [h1], h2⟩, fun x hx => by simp [h3 x hx]⟩
    · cases e
      exact ⟨⟨_, List.mem_cons_self, rfl, rfl⟩, fun x hx => by simp [hx]⟩

/-- The head kept with each entry does not influence which types are met. -/
theorem pair_sim {w : World n} (q q' : List (Fin n × Fin n)) (seen : Finset (Fin n)) (hq : q.map Prod.fst = q'.map Prod.fst) :
    (getNextBasePair w q seen = none ∧ getNextBasePair w q' seen = none) ∨
    ∃ r hd hd' t t', getNextBasePair w q seen = some ((r, hd), t) ∧ getNextBasePair w q' seen = some ((r, hd'), t') ∧
      t.bases.map Prod.fst = t'.bases.map Prod.fst ∧ t.seen = t'.seen := by
  induction q generalizing q' with
  | nil =>
    cases q' with
    | nil => exact .inl ⟨rfl, rfl⟩
    | cons _ _ => cases hq
  | cons b q ih =>
    cases q' with
    | nil => cases hq
    | cons b' q' =>
      obtain ⟨b, h⟩ := b
      obtain ⟨b', h'⟩ := b'
      simp only [List.map_cons, List.cons.injEq] at hq
      obtain ⟨rfl, hq⟩ := hq
      simp only [getNextBasePair]
      split
      · exact ih q' hq
      · exact .inr ⟨_, _, _, _, _, rfl, rfl, hq, rfl⟩

theorem add_fst (w : World n) (c h h' : Fin n) (s s' : State n) (e : s.bases.map Prod.fst = s'.bases.map Prod.fst) :
    (addAncestorPairsOf w false c h s).bases.map Prod.fst = (addAncestorPairsOf w false c h' s').bases.map Prod.fst := by
  unfold addAncestorPairsOf
  simp only [Bool.false_eq_true, if_false]
  generalize (w.table c).reverse = l
  obtain ⟨q, _⟩ := s
  obtain ⟨q', _⟩ := s'
  simp only at e ⊢
  induction l generalizing q q' with
  | nil => exact e
  | cons x l ih =>
    rw [List.foldl_cons, List.foldl_cons]
    exact ih _ _ (by simp [e])

theorem subclassLoop_some {w : World n} {a : Fin n} {s t : State n} {r : Fin n} (h : getNextBase w s = some (r, t)) :
    subclassLoop w a s = if w.defined r then
      (if (baseItem w r a).isSome then true else subclassLoop w a (addAncestorPairsOf w false r w.nouti t))
    else subclassLoop w a t := by
  rw [subclassLoop.eq_def]
  split
  · rename_i q; rw [h] at q; cases q
  · rename_i q; rw [h] at q; cases q; rfl

theorem nearest_isSome (w : World n) (a : Fin n) (s s' : State n) (e : s.bases.map Prod.fst = s'.bases.map Prod.fst)
    (f : s.seen = s'.seen) : (nearestLoop w a s).isSome = subclassLoop w a s' := by
  generalize hk : n - s.seen.card = k
  induction k using Nat.strongRecOn generalizing s s' with
  | ind k ih =>
    rw [nearestLoop.eq_def]
    rcases pair_sim (w := w) s.bases s'.bases s.seen e with ⟨h1, h2⟩ | ⟨r, hd, hd', t, t', h1, h2, h3, h4⟩
    · have g : getNextBase w s' = none := by unfold getNextBase; rw [← f, h2]; rfl
      split
      · rw [subclassLoop.eq_def]
        split
        · rfl
        · rename_i q; rw [g] at q; cases q
      · rename_i q; rw [h1] at q; cases q
    · have g : getNextBase w s' = some (r, t') := by unfold getNextBase; rw [← f, h2]; rfl
      obtain ⟨g1, g2⟩ := getNextBasePair_some h1
      have lt : n - t.seen.card < k := hk ▸ fuel_lt g1 g2
      rw [subclassLoop_some g]
      split
      · rename_i q; rw [h1] at q; cases q
      · rename_i q
        rw [h1] at q
        cases q
        cases hdr : w.defined r
        · simp only [Bool.false_eq_true, if_false]
          exact ih _ lt t t' h3 h4 rfl
        · simp only [if_true]
          cases hb : (baseItem w r a).isSome
          · simp only [Bool.false_eq_true, if_false]
            refine ih _ (by rw [add_seen]; exact lt) _ _ (add_fst w r _ _ t t' h3) ?_ rfl
            rw [add_seen, add_seen, h4]
          · rfl

theorem nearest_head (w : World n) (a r0 : Fin n) (hr : r0 ≠ w.nouti) (s : State n)
    (inv : ∀ b ∈ s.bases, b.2 = r0 ∨ (b.2 = w.nouti ∧ w.root b.1 = r0)) (z : Fin n) (hz : nearestLoop w a s = some z) : z = r0 := by
  generalize hk : n - s.seen.card = k
  induction k using Nat.strongRecOn generalizing s with
  | ind k ih =>
    rw [nearestLoop.eq_def] at hz
    split at hz
    · cases hz
    · rename_i r hd t h1
      obtain ⟨g1, g2⟩ := getNextBasePair_some h1
      have lt : n - t.seen.card < k := hk ▸ fuel_lt g1 g2
      obtain ⟨⟨b0, p1, p2, p3⟩, p4⟩ := pair_facts h1
      have hhead : (if hd = w.nouti then r else hd) = r0 := by
        rcases inv b0 p1 with q | ⟨q1, q2⟩
        · rw [if_neg (by rw [← p3, q]; exact hr), ← p3, q]
        · rw [if_pos (by rw [← p3, q1]), ← p2, q2]
      rw [hhead] at hz
      split at hz
      · split at hz
        · cases hz; rfl
        · refine ih _ (by rw [add_seen]; exact lt) _ ?_ hz rfl
          intro b hb
          rw [add_bases] at hb
          rcases hb with hb | hb
          · exact inv b (p4 b hb)
          · exact .inl hb.1
      · exact ih _ lt t (fun b hb => inv b (p4 b hb)) hz rfl

end Ulam.Walker
