import Verif.Walker.Lemmas
/-! # C13, C14: the walk over base classes and the subclass test -/
namespace Ulam.Walker
open Spec
variable {n : Nat}

/-- A diamond: 1 inherits 2 and 3 (and has no superclass entry), which both inherit 4, 3 shared; 5 is an alias of 4 and is
what 3 names; 6 is another class. -/
def diamond : World 8 where
  nouti := 0
  root := fun x => if x = 5 then 4 else x
  deref := fun x => if x = 7 then 1 else x
  defined := fun x => x = 1 ∨ x = 2 ∨ x = 3 ∨ x = 4 ∨ x = 6
  table := fun x => if x = 1 then [⟨0, 0⟩, ⟨2, 0⟩, ⟨3, 0⟩] else if x = 2 then [⟨4, 1⟩] else if x = 3 then [⟨0, 0⟩, ⟨5, 1⟩] else []
  name := fun x => if x = 4 then 2 else x

theorem diamond_ok : Ok diamond := ⟨by decide, by decide⟩

theorem diamond_acyclic : Acyclic diamond := by
  have up : ∀ x y : Fin 8, Base diamond x y → x < y := by
    unfold Base; decide
  intro x h
  have : ∀ y, Ancestor diamond x y → x < y := by
    intro y hy
    induction hy with
    | single h => exact up _ _ h
    | tail _ h ih => exact Nat.lt_trans ih (up _ _ h)
  exact absurd (this x h) (Nat.lt_irrefl _)

/-- **C13.** The walk is defined for every graph (it terminates), and the classes it handles are the class it starts from
and each of its ancestors, once each, the start first; in both search orders, and also on cyclic graphs. -/
theorem C13_visits_each_ancestor_once (w : World n) (ok : Ok w) (breadth : Bool) (c : Fin n) :
    (classes w breadth c).Nodup ∧
    (∀ x, x ∈ classes w breadth c ↔ w.defined x = true ∧ SelfOrAncestor w (w.root c) x) ∧
    (w.defined (w.root c) = true → (classes w breadth c).head? = some (w.root c)) := by
  refine ⟨classes_nodup w breadth c, mem_classes ok breadth c, fun hd => ?_⟩
  unfold classes
  have : getNextBase w (init w c) = some (w.root c, ⟨[], {w.root c}⟩) := by
    simp [getNextBase, init, getNextBasePair]
  rw [sightings_some this, List.filter_cons_of_pos hd]
  rfl

/-- **C13.** Every class after the first is a declared base of a class handled before it, so a walk stopped early has only
seen what its handled part accounts for. -/
theorem C13_only_through_bases (w : World n) (ok : Ok w) (breadth : Bool) (c : Fin n) (pre suf : List (Fin n)) (x : Fin n)
    (h : classes w breadth c = pre ++ x :: suf) (hp : pre ≠ []) : ∃ y ∈ pre, Base w y x := by
  have key : ∀ s : State n, ∀ pre suf, sightings w breadth s = pre ++ x :: suf →
      (∃ b ∈ s.bases, w.root b.1 = x) ∨ ∃ y ∈ pre, Edge w y x := by
    refine walk_induction w breadth (fun s => ∀ pre suf, sightings w breadth s = pre ++ x :: suf →
      (∃ b ∈ s.bases, w.root b.1 = x) ∨ ∃ y ∈ pre, Edge w y x) ?_ ?_
    · intro s h pre suf e
      rw [sightings_none h] at e
      cases pre <;> cases e
    · intro s r t hg ih pre suf e
      rw [sightings_some hg] at e
      cases pre with
      | nil =>
        rw [List.nil_append, List.cons.injEq] at e
        obtain ⟨e, _⟩ := e
        subst e
        exact .inl (next_some hg).1
      | cons p pre =>
        rw [List.cons_append, List.cons.injEq] at e
        obtain ⟨e1, e2⟩ := e
        subst e1
        rcases ih pre suf e2 with ⟨b, h1, h2⟩ | ⟨y, h1, h2⟩
        · rcases after_bases w breadth r t b h1 with q | q
          · exact .inl ⟨b, (next_some hg).2.1 b q, h2⟩
          · exact .inr ⟨r, by simp, h2 ▸ q⟩
        · exact .inr ⟨y, by simp [h1], h2⟩
  have hx : w.defined x = true := by
    have : x ∈ classes w breadth c := by rw [h]; simp
    exact ((mem_classes ok breadth c x).1 this).1
  have hne : x ≠ w.root c ∨ w.defined (w.root c) = false := by
    by_cases hd : w.defined (w.root c) = true
    · refine .inl fun e => ?_
      have h1 := (C13_visits_each_ancestor_once w ok breadth c).2.2 hd
      have h2 := classes_nodup w breadth c
      cases pre with
      | nil => exact hp rfl
      | cons p pre =>
        rw [h, List.cons_append, List.head?_cons, Option.some.injEq] at h1
        rw [h, List.cons_append, List.nodup_cons] at h2
        exact h2.1 (by rw [h1, e]; simp)
    · exact .inr (by simpa using hd)
  unfold classes at h
  rw [List.filter_eq_append_iff] at h
  obtain ⟨l1, l2, e, f1, f2⟩ := h
  rw [List.filter_eq_cons_iff] at f2
  obtain ⟨m1, m2, e2, f3, _, _⟩ := f2
  rw [e2] at e
  rcases key (init w c) (l1 ++ m1) m2 (by rw [e]; simp) with ⟨b, h1, h2⟩ | ⟨y, h1, h2⟩
  · simp only [init, List.mem_singleton] at h1
    subst h1
    rcases hne with hne | hne
    · exact absurd h2.symm hne
    · rw [h2, hx] at hne; cases hne
  · obtain ⟨hy, en, k1, k2⟩ := h2
    refine ⟨y, ?_, hy, en, k1, ?_, k2⟩
    · rw [← f1, List.mem_filter]
      refine ⟨?_, hy⟩
      rcases List.mem_append.1 h1 with q | q
      · exact q
      · exact absurd hy (f3 y q)
    · intro e
      rw [e] at k2
      rw [← k2, ok.no_class] at hx
      cases hx

example : classes diamond true 1 = [1, 2, 3, 4] ∧ classes diamond false 1 = [1, 2, 4, 3] := by decide +kernel

/-- **C14.** The subclass test answers yes exactly for proper ancestors. References are looked through on both sides. -/
theorem C14_subclass_iff_ancestor (w : World n) (ok : Ok w) (ac : Acyclic w) (c b : Fin n) :
    isClassASubclassOf w c b = true ↔ Ancestor w (w.root (w.deref c)) (w.root (w.deref b)) := by
  unfold isClassASubclassOf
  split
  · rename_i h
    rw [h]
    exact ⟨fun q => (nomatch q), fun q => absurd q (ac _)⟩
  · exact subclass_init ok _ _

example : Ok diamond ∧ Acyclic diamond ∧ isClassASubclassOf diamond 7 5 = true ∧ isClassASubclassOf diamond 4 1 = false ∧
    isClassASubclassOf diamond 1 6 = false := ⟨diamond_ok, diamond_acyclic, by decide +kernel⟩

/-- **C14.** The test is a strict order: no class is its own subclass, and subclasses of subclasses are subclasses. -/
theorem C14_strict_order (w : World n) (ok : Ok w) (ac : Acyclic w) :
    (∀ c, isClassASubclassOf w c c = false) ∧
    ∀ a b c, isClassASubclassOf w a b = true → isClassASubclassOf w b c = true → isClassASubclassOf w a c = true := by
  refine ⟨fun c => ?_, fun a b c h1 h2 => ?_⟩
  · rw [Bool.eq_false_iff]
    exact fun h => ac _ ((C14_subclass_iff_ancestor w ok ac c c).1 h)
  · rw [C14_subclass_iff_ancestor w ok ac] at h1 h2 ⊢
    exact h1.trans h2

/-- **C14.** The direct ancestor test answers yes exactly for declared bases of a known class. -/
theorem C14_direct_ancestor (w : World n) (c b : Fin n) :
    isDirectAncestorOf w c b = true ↔ Base w (w.deref c) (w.root (w.deref b)) := by
  unfold isDirectAncestorOf
  split
  · rename_i h; exact baseItem_isSome _ _ h
  · rename_i h; exact ⟨fun q => (nomatch q), fun q => absurd q.1 h⟩

example : isDirectAncestorOf diamond 3 4 = true ∧ isDirectAncestorOf diamond 1 4 = false := by decide +kernel

theorem nameFold_count (w : World n) (id : Nat) (l : List (Fin n)) (k : Nat) (p : Fin n) :
    (l.foldl (fun acc x => if w.name x = id then (acc.1 + 1, x) else acc) (k, p)).1 =
      k + (l.filter fun x => decide (w.name x = id)).length ∧
    ((l.foldl (fun acc x => if w.name x = id then (acc.1 + 1, x) else acc) (k, p)).2 ∈
      (l.filter fun x => decide (w.name x = id)) ∨
     ((l.filter fun x => decide (w.name x = id)) = [] ∧
      (l.foldl (fun acc x => if w.name x = id then (acc.1 + 1, x) else acc) (k, p)).2 = p)) := by
  induction l generalizing k p with
  | nil => simp
  | cons x l ih =>
    rw [List.foldl_cons]
    by_cases h : w.name x = id
    · rw [if_pos h, List.filter_cons_of_pos (by simp [h])]
      obtain ⟨h1, h2⟩ := ih (k + 1) x
      refine ⟨by rw [h1, List.length_cons]; omega, ?_⟩
      rcases h2 with h2 | ⟨h2, h3⟩
      · exact .inl (List.mem_cons_of_mem _ h2)
      · exact .inl (by rw [h3]; simp)
    · rw [if_neg h, List.filter_cons_of_neg (by simp [h])]
      exact ih k p

/-- **C14.** Looking for an ancestor by name: the count is the number of different classes of that name among the class and
its ancestors; when it is not 0 the class returned is one of them, and when it is 0 the caller's value is left alone. So a
count of 1 names the only such class. -/
theorem C14_by_name (w : World n) (ok : Ok w) (c : Fin n) (id : Nat) (p : Fin n) :
    ∃ l : List (Fin n), l.Nodup ∧
      (∀ x, x ∈ l ↔ w.defined x = true ∧ SelfOrAncestor w (w.root (w.deref c)) x ∧ w.name x = id) ∧
      (findAncestorByName w c id p).1 = l.length ∧
      ((findAncestorByName w c id p).2 ∈ l ∨ (l = [] ∧ (findAncestorByName w c id p).2 = p)) := by
  refine ⟨(classes w false (w.deref c)).filter fun x => decide (w.name x = id), (classes_nodup w false _).filter _, ?_, ?_⟩
  · intro x
    rw [List.mem_filter, mem_classes ok, decide_eq_true_iff, and_assoc]
  · unfold findAncestorByName
    rw [nameLoop_eq]
    obtain ⟨h1, h2⟩ := nameFold_count w id (classes w false (w.deref c)) 0 p
    refine ⟨?_, h2⟩
    rw [Nat.zero_add] at h1
    exact h1

example : findAncestorByName diamond 1 2 0 = (2, 4) ∧ findAncestorByName diamond 1 3 0 = (1, 3) ∧
    findAncestorByName diamond 1 6 0 = (0, 0) := by decide +kernel

/-- **C14.** The tally of shared bases counts, for every type, its shared declarations in the class and all its ancestors,
each class once. -/
theorem C14_shared_tally (w : World n) (ok : Ok w) (c y : Fin n) (m : Counts n) :
    ∃ l : List (Fin n), l.Nodup ∧ (∀ x, x ∈ l ↔ w.defined x = true ∧ SelfOrAncestor w (w.root (w.deref c)) x) ∧
      (findSharedBases w c m).1 y = m y + (l.map (sharedIn w y)).sum := by
  refine ⟨classes w false (w.deref c), classes_nodup w false _, mem_classes ok false _, ?_⟩
  unfold findSharedBases
  rw [sharedLoop_eq]
  exact sharedFold_count w _ m 0 y

example : (findSharedBases diamond 1 fun _ => 0).1 4 = 2 ∧ (findSharedBases diamond 1 fun _ => 0).2 = 2 := by decide +kernel

/-- **C14.** The search for the base nearest to an ancestor succeeds exactly for proper ancestors; the class it returns is
always the one it started from. -/
theorem C14_nearest (w : World n) (ok : Ok w) (c a : Fin n) :
    (Ancestor w (w.root c) (w.root a) → findNearest w c a = some (w.root c)) ∧
    (¬ Ancestor w (w.root c) (w.root a) → findNearest w c a = none) := by
  have h1 : (findNearest w c a).isSome = subclassLoop w a (init w c) := nearest_isSome w a _ _ rfl rfl
  have h2 := subclass_init ok c a
  constructor
  · intro h
    rw [h2.2 h, Option.isSome_iff_exists] at h1
    obtain ⟨z, hz⟩ := h1
    rw [hz]
    by_cases hn : w.root c = w.nouti
    · exfalso
      obtain ⟨x, hx, h3, h4⟩ := (ancestor_iff _ _).1 h
      have hd : w.defined (w.root c) = false := by
        have : w.root c = w.root w.nouti := by rw [← hn, ok.root_root]
        rw [this]; exact ok.no_class
      rcases Relation.ReflTransGen.cases_head h3 with q | ⟨_, q, _⟩
      · rw [q, hx] at hd; cases hd
      · rw [q.1] at hd; cases hd
    · refine congrArg some (nearest_head w a (w.root c) hn (init w c) ?_ z hz)
      intro b hb
      simp only [init, List.mem_singleton] at hb
      subst hb
      exact .inr ⟨rfl, rfl⟩
  · intro h
    have : (findNearest w c a).isSome = false := by
      rw [h1, Bool.eq_false_iff]; exact fun q => h (h2.1 q)
    simpa using this

example : findNearest diamond 1 4 = some 1 ∧ findNearest diamond 2 3 = none := by decide +kernel

end Ulam.Walker
