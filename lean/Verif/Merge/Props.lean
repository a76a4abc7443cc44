import Verif.Merge.Model
import Verif.Mangle.Props
import Mathlib.Tactic.SplitIfs
import Mathlib.Tactic.ByContra
import Mathlib.Order.Lattice
import Mathlib.Data.Nat.Init

/-
C93  Uses of a template with the same arguments are one class.
-/

namespace Ulam.Merge

variable {K : Type} [DecidableEq K]

/-- The use stands for a class that is no stub any more. -/
def Done (s : St K) (u : Nat) : Prop := u ∈ s.entries ∧ s.stub (s.sym u) = false

/-- What holds at any time. -/
structure Inv (s : St K) : Prop where
  /-- The owner of a text is an instance with these arguments, and no stub. -/
  own : ∀ k o, (k, o) ∈ s.owners → o ∈ s.entries ∧ s.key o = some k ∧ s.sym o = o ∧ s.stub o = false ∧ s.alias o = o
  /-- One owner for each text. -/
  uniq : ∀ k o o', (k, o) ∈ s.owners → (k, o') ∈ s.owners → o = o'
  /-- An instance has its own symbol or that of the owner. -/
  syms : ∀ u ∈ s.entries, (s.sym u = u ∧ s.alias u = u) ∨
    ∃ k, s.key u = some k ∧ (k, s.sym u) ∈ s.owners ∧ s.alias u = s.sym u
  /-- Only owners are no stubs. -/
  stubs : ∀ u ∈ s.entries, s.stub u = false → ∃ k, (k, u) ∈ s.owners
  /-- What is no instance has no alias. -/
  out : ∀ u, u ∉ s.entries → s.key u = none ∧ s.sym u = u ∧ s.alias u = u

theorem findOwner_some {l : List (K × Nat)} {k : K} {o : Nat} (h : findOwner l k = some o) : (k, o) ∈ l := by
  unfold findOwner at h
  rw [Option.map_eq_some_iff] at h
  obtain ⟨⟨k', o'⟩, h1, rfl⟩ := h
  have h2 := List.find?_some h1
  have h3 := List.mem_of_find?_eq_some h1
  simp only [beq_iff_eq] at h2
  subst h2
  exact h3

theorem findOwner_none {l : List (K × Nat)} {k : K} (h : findOwner l k = none) (o : Nat) : (k, o) ∉ l := by
  unfold findOwner at h
  rw [Option.map_eq_none_iff, List.find?_eq_none] at h
  intro hm
  exact h _ hm (by simp)

theorem inv_start : Inv (start K) where
  own := by intro k o h; cases h
  uniq := by intro k o o' h; cases h
  syms := by intro u h; cases h
  stubs := by intro u h; cases h
  out := by intro u _; exact ⟨rfl, rfl, rfl⟩

theorem inv_add (s : St K) (u : Nat) (h : Inv s) : Inv (add s u) := by
  unfold add
  split_ifs with hu
  · exact h
  obtain ⟨o1, o2, o3⟩ := h.out u hu
  constructor
  · intro k o ho
    obtain ⟨h1, h2, h3, h4, h5⟩ := h.own k o ho
    have hne : o ≠ u := fun e => hu (e ▸ h1)
    exact ⟨List.mem_append_left _ h1, h2, h3, by simp only [put, hne, if_false]; exact h4, h5⟩
  · exact h.uniq
  · intro x hx
    rcases List.mem_append.1 hx with hx | hx
    · exact h.syms x hx
    · rw [List.mem_singleton.1 hx]; exact Or.inl ⟨o2, o3⟩
  · intro x hx hs
    by_cases e : x = u
    · simp [put, e] at hs
    · simp only [put, e, if_false] at hs
      rcases List.mem_append.1 hx with hx | hx
      · exact h.stubs x hx hs
      · exact absurd (List.mem_singleton.1 hx) e
  · intro x hx
    exact h.out x (fun hx' => hx (List.mem_append_left _ hx'))

theorem inv_know (s : St K) (u : Nat) (k : K) (h : Inv s) : Inv (know s u k) := by
  unfold know
  split_ifs with hu
  · cases hk : s.key u with
    | some _ => exact h
    | none =>
      constructor
      · intro k' o ho
        obtain ⟨h1, h2, h3⟩ := h.own k' o ho
        have hne : o ≠ u := by intro e; rw [e, hk] at h2; cases h2
        exact ⟨h1, by simp only [put, hne, if_false]; exact h2, h3⟩
      · exact h.uniq
      · intro x hx
        rcases h.syms x hx with g | ⟨k', g1, g2⟩
        · exact Or.inl g
        · have hne : x ≠ u := by intro e; rw [e, hk] at g1; cases g1
          exact Or.inr ⟨k', by simp only [put, hne, if_false]; exact g1, g2⟩
      · exact h.stubs
      · intro x hx
        obtain ⟨g1, g2⟩ := h.out x hx
        have hne : x ≠ u := by intro e; exact hx (e ▸ hu)
        exact ⟨by simp only [put, hne, if_false]; exact g1, g2⟩
  · exact h

theorem visit_keep (s : St K) (u : Nat) (r : Bool) :
    (visit s u r).entries = s.entries ∧ (visit s u r).key = s.key := by
  unfold visit
  split
  · split
    · split
      · exact ⟨rfl, rfl⟩
      · split
        · exact ⟨rfl, rfl⟩
        · split <;> exact ⟨rfl, rfl⟩
    · exact ⟨rfl, rfl⟩
  · exact ⟨rfl, rfl⟩

/-- What a visit does, case by case. -/
theorem visit_cases (s : St K) (u : Nat) (r : Bool) (h : Inv s) :
    visit s u r = s ∨
    (∃ k o, u ∈ s.entries ∧ s.sym u = u ∧ s.stub u = true ∧ s.key u = some k ∧ (k, o) ∈ s.owners ∧ visit s u r = merge s u o) ∨
    (∃ k, u ∈ s.entries ∧ s.sym u = u ∧ s.stub u = true ∧ s.key u = some k ∧ (∀ o, (k, o) ∉ s.owners) ∧ r = true ∧
      visit s u r = { s with owners := s.owners ++ [(k, u)], stub := put s.stub u false }) := by
  by_cases hu : u ∈ s.entries
  · by_cases hs : s.stub (s.sym u) = true
    · have hsym : s.sym u = u := by
        rcases h.syms u hu with g | ⟨k, _, g2, _⟩
        · exact g.1
        · have := (h.own _ _ g2).2.2.2.1; rw [this] at hs; cases hs
      cases hk : s.key u with
      | none => left; simp [visit, hu, hs, hk]
      | some k =>
        cases ho : findOwner s.owners k with
        | some o =>
          right; left
          exact ⟨k, o, hu, hsym, hsym ▸ hs, rfl, findOwner_some ho, by simp [visit, hu, hs, hk, ho]⟩
        | none =>
          cases r with
          | false => left; simp [visit, hu, hs, hk, ho]
          | true =>
            right; right
            exact ⟨k, hu, hsym, hsym ▸ hs, rfl, findOwner_none ho, rfl, by simp [visit, hu, hs, hk, ho]⟩
    · left; simp [visit, hu, hs]
  · left; simp [visit, hu]

theorem inv_visit (s : St K) (u : Nat) (r : Bool) (h : Inv s) : Inv (visit s u r) := by
  rcases visit_cases s u r h with e | ⟨k, o, hu, hsym, hstub, hk, ho, e⟩ | ⟨k, hu, hsym, hstub, hk, hno, _, e⟩
  · rw [e]; exact h
  · rw [e]
    have own : ∀ k' o', (k', o') ∈ s.owners → o' ≠ u := by
      intro k' o' h' e
      have := (h.own _ _ h').2.2.2.1
      rw [e, hstub] at this; cases this
    constructor
    · intro k' o' h'
      have hne := own k' o' h'
      obtain ⟨h1, h2, h3, h4, h5⟩ := h.own k' o' h'
      exact ⟨h1, h2, by simp only [merge, put, hne, if_false]; exact h3, h4, by simp only [merge, put, hne, if_false]; exact h5⟩
    · exact h.uniq
    · intro x hx
      by_cases hxu : x = u
      · subst hxu
        exact Or.inr ⟨k, hk, by simp only [merge, put, if_true]; exact ho, by simp [merge, put]⟩
      · simp only [merge, put, hxu, if_false]
        exact h.syms x hx
    · exact h.stubs
    · intro x hx
      have hxu : x ≠ u := fun e => hx (e ▸ hu)
      simp only [merge, put, hxu, if_false]
      exact h.out x hx
  · rw [e]
    have hal : s.alias u = u := by
      rcases h.syms u hu with g | ⟨k', _, g2, _⟩
      · exact g.2
      · have := (h.own _ _ g2).2.2.2.1; rw [hsym, hstub] at this; cases this
    constructor
    · intro k' o' h'
      rcases List.mem_append.1 h' with h' | h'
      · obtain ⟨h1, h2, h3, h4, h5⟩ := h.own k' o' h'
        refine ⟨h1, h2, h3, ?_, h5⟩
        simp only [put]
        split_ifs
        · rfl
        · exact h4
      · obtain ⟨rfl, rfl⟩ := Prod.mk.inj (List.mem_singleton.1 h')
        exact ⟨hu, hk, hsym, by simp [put], hal⟩
    · intro k' o1 o2 h1 h2
      rcases List.mem_append.1 h1 with g1 | g1 <;> rcases List.mem_append.1 h2 with g2 | g2
      · exact h.uniq k' o1 o2 g1 g2
      · have e := (Prod.mk.inj (List.mem_singleton.1 g2)).1; subst e; exact absurd g1 (hno o1)
      · have e := (Prod.mk.inj (List.mem_singleton.1 g1)).1; subst e; exact absurd g2 (hno o2)
      · rw [(Prod.mk.inj (List.mem_singleton.1 g1)).2, (Prod.mk.inj (List.mem_singleton.1 g2)).2]
    · intro x hx
      rcases h.syms x hx with g | ⟨k', g1, g2, g3⟩
      · exact Or.inl g
      · exact Or.inr ⟨k', g1, List.mem_append_left _ g2, g3⟩
    · intro x hx hs
      by_cases hxu : x = u
      · subst hxu; exact ⟨k, by simp⟩
      · simp only [put, hxu, if_false] at hs
        obtain ⟨k', g⟩ := h.stubs x hx hs
        exact ⟨k', List.mem_append_left _ g⟩
    · exact h.out

theorem inv_step (s : St K) (e : Ev K) (h : Inv s) : Inv (step s e) := by
  cases e with
  | add u => exact inv_add s u h
  | know u k => exact inv_know s u k h
  | visit u r => exact inv_visit s u r h

theorem inv_run (h : List (Ev K)) : ∀ s : St K, Inv s → Inv (run s h) := by
  induction h with
  | nil => intro s hs; exact hs
  | cons e h ih => intro s hs; exact ih _ (inv_step s e hs)

theorem done_owner {s : St K} (h : Inv s) {u : Nat} (hd : Done s u) :
    ∃ k, s.key u = some k ∧ (k, s.sym u) ∈ s.owners ∧ s.alias u = s.sym u := by
  rcases h.syms u hd.1 with g | g
  · obtain ⟨hu, hs⟩ := hd
    rw [g.1] at hs
    obtain ⟨k, hk⟩ := h.stubs u hu hs
    exact ⟨k, (h.own k u hk).2.1, by rw [g.1]; exact hk, by rw [g.1, g.2]⟩
  · exact g

/-! ### C93 -/

/-- **C93** At any time, in any history: two uses that stand for full classes stand for
the same class exactly when their arguments have the same text; the type of either has
the type of the class for its root, found in at most two steps. -/
theorem C93_same_class (h : List (Ev K)) (a b : Nat) (ha : Done (run (start K) h) a) (hb : Done (run (start K) h) b) :
    ((run (start K) h).sym a = (run (start K) h).sym b ↔ (run (start K) h).key a = (run (start K) h).key b) ∧
    root (run (start K) h).alias maxChain a = some ((run (start K) h).sym a) := by
  have hi := inv_run h _ (inv_start (K := K))
  obtain ⟨k, k1, k2, k3⟩ := done_owner hi ha
  obtain ⟨l, l1, l2, _⟩ := done_owner hi hb
  refine ⟨⟨fun e => ?_, fun e => ?_⟩, ?_⟩
  · rw [e] at k2
    have h1 := (hi.own _ _ k2).2.1
    have h2 := (hi.own _ _ l2).2.1
    rw [h1] at h2
    rw [k1, l1, h2]
  · rw [k1, l1] at e
    obtain rfl := Option.some.inj e
    exact hi.uniq _ _ _ k2 l2
  · have hr := (hi.own _ _ k2).2.2.2.2
    simp only [maxChain, root]
    rw [k3, hr]
    by_cases e1 : (run (start K) h).sym a = a
    · rw [if_pos e1, e1]
    · rw [if_neg e1, if_pos rfl]

/-- **C93** With the texts of argument lists, for arguments as in C04: two uses that
stand for full classes stand for the same class exactly when their arguments
are the same, position by position.  Partial as C04 is. -/
theorem C93_same_arguments_partial (h : List (Ev (Option Leximited.Str))) (pool : Nat → List Nat)
    (args : Nat → List Mangle.Arg)
    (hk : ∀ u k, (run (start _) h).key u = some k → k = Mangle.instanceKey pool false (args u))
    (a b : Nat) (ha : Done (run (start _) h) a) (hb : Done (run (start _) h) b)
    (wa : ∀ x ∈ args a, Mangle.Spec.WF pool x ∧ Mangle.Spec.Small pool x)
    (wb : ∀ x ∈ args b, Mangle.Spec.WF pool x ∧ Mangle.Spec.Small pool x) :
    (run (start _) h).sym a = (run (start _) h).sym b ↔ List.Forall₂ (Mangle.Spec.SameArg pool) (args a) (args b) := by
  have hi := inv_run h _ (inv_start (K := Option Leximited.Str))
  obtain ⟨k, k1, _, _⟩ := done_owner hi ha
  obtain ⟨l, l1, _, _⟩ := done_owner hi hb
  rw [(C93_same_class h a b ha hb).1, k1, l1, hk a k k1, hk b l l1,
    ← Ulam.Mangle.C04_key_iff_same_arguments_partial pool false (args a) (args b) wa wb]
  exact ⟨fun e => Option.some.inj e, fun e => congrArg some e⟩

/-- **C93** Once a use stands for a full class it does so for good. -/
theorem C93_stable (h g : List (Ev K)) (a : Nat) (ha : Done (run (start K) h) a) :
    Done (run (start K) (h ++ g)) a ∧ (run (start K) (h ++ g)).sym a = (run (start K) h).sym a ∧
    (run (start K) (h ++ g)).key a = (run (start K) h).key a := by
  have key : ∀ (g : List (Ev K)) (s : St K), Inv s → Done s a →
      Done (run s g) a ∧ (run s g).sym a = s.sym a ∧ (run s g).key a = s.key a := by
    intro g
    induction g with
    | nil => intro s _ hd; exact ⟨hd, rfl, rfl⟩
    | cons e g ih =>
      intro s hi hd
      have one : Done (step s e) a ∧ (step s e).sym a = s.sym a ∧ (step s e).key a = s.key a := by
        obtain ⟨k, k1, k2, k3⟩ := done_owner hi hd
        have ho := hi.own _ _ k2
        cases e with
        | add u =>
          simp only [step, add]
          split_ifs with hu
          · exact ⟨hd, rfl, rfl⟩
          · have hne : s.sym a ≠ u := fun e => hu (e ▸ ho.1)
            exact ⟨⟨List.mem_append_left _ hd.1, by simp only [put, hne, if_false]; exact hd.2⟩, rfl, rfl⟩
        | know u k' =>
          simp only [step, know]
          split_ifs with hu
          · cases hk : s.key u with
            | some _ => exact ⟨hd, rfl, rfl⟩
            | none =>
              have hne : a ≠ u := by intro e; rw [e, hk] at k1; cases k1
              exact ⟨hd, rfl, by simp [put, hne]⟩
          · exact ⟨hd, rfl, rfl⟩
        | visit u r =>
          simp only [step]
          rcases visit_cases s u r hi with e | ⟨k', o, hu, hsym, hstub, hk, _, e⟩ | ⟨k', hu, hsym, hstub, hk, hno, _, e⟩
          · rw [e]; exact ⟨hd, rfl, rfl⟩
          · have hne : a ≠ u := by
              intro e'; have := hd.2; rw [e', hsym, hstub] at this; cases this
            rw [e]
            simp only [Done, merge, put, hne, if_false]
            exact ⟨hd, trivial, trivial⟩
          · rw [e]
            refine ⟨⟨hd.1, ?_⟩, rfl, rfl⟩
            simp only [put]
            split_ifs
            · rfl
            · exact hd.2
      obtain ⟨d1, d2, d3⟩ := ih _ (inv_step s e hi) one.1
      exact ⟨d1, d2.trans one.2.1, d3.trans one.2.2⟩
  have := key g _ (inv_run h _ (inv_start (K := K))) ha
  rw [run, List.foldl_append]
  exact this

/-- **C93** A round of the compiler settles every use whose arguments are known and whose
base classes are far enough. -/
theorem C93_settled (h : List (Ev K)) (ready : Nat → Bool) (us : List Nat) (u : Nat) (hu : u ∈ us)
    (hin : u ∈ (run (start K) h).entries) (hk : ((run (start K) h).key u).isSome) (hr : ready u = true) :
    Done (instantiate ready us (run (start K) h)) u := by
  have asRun : ∀ (us : List Nat) (s : St K), instantiate ready us s = run s (us.map (fun u => .visit u (ready u))) := by
    intro us
    induction us with
    | nil => intro s; rfl
    | cons x us ih => intro s; exact ih _
  obtain ⟨p, q, rfl⟩ := List.append_of_mem hu
  rw [asRun, List.map_append, List.map_cons]
  have e : (p.map (fun u => Ev.visit u (ready u)) ++ Ev.visit u (ready u) :: q.map (fun u => Ev.visit u (ready u)) : List (Ev K)) =
      (p.map (fun u => Ev.visit u (ready u)) ++ [Ev.visit u (ready u)]) ++ q.map (fun u => Ev.visit u (ready u)) := by simp
  rw [e, ← show run (start K) (h ++ _) = run (run (start K) h) _ from List.foldl_append, ← List.append_assoc]
  apply (C93_stable _ _ u _).1
  rw [← List.append_assoc]
  set h' := h ++ p.map (fun u => Ev.visit u (ready u)) with hh'
  have keep : u ∈ (run (start K) h').entries ∧ ((run (start K) h').key u).isSome := by
    have : ∀ (l : List Nat) (s : St K), (u ∈ s.entries ∧ (s.key u).isSome) →
        (u ∈ (run s (l.map (fun u => Ev.visit u (ready u)))).entries ∧
          ((run s (l.map (fun u => Ev.visit u (ready u)))).key u).isSome) := by
      intro l
      induction l with
      | nil => intro s hs; exact hs
      | cons x l ih =>
        intro s hs
        refine ih _ ?_
        simp only [step]
        rw [(visit_keep s x (ready x)).1, (visit_keep s x (ready x)).2]
        exact hs
    rw [hh', run, List.foldl_append]
    exact this p _ ⟨hin, hk⟩
  have hi := inv_run h' _ (inv_start (K := K))
  rw [run, List.foldl_append]
  change Done (visit (run (start K) h') u (ready u)) u
  generalize run (start K) h' = s at keep hi
  by_cases hd : s.stub (s.sym u) = true
  · obtain ⟨k, hk⟩ := Option.isSome_iff_exists.1 keep.2
    have hsym : s.sym u = u := by
      rcases hi.syms u keep.1 with g | ⟨k, _, g2, _⟩
      · exact g.1
      · have := (hi.own _ _ g2).2.2.2.1; rw [this] at hd; cases hd
    unfold visit
    rw [if_pos keep.1, if_pos hd, hk]
    dsimp only
    cases ho : findOwner s.owners k with
    | some o =>
      refine ⟨keep.1, ?_⟩
      simp only [merge, put, if_true]
      exact (hi.own _ _ (findOwner_some ho)).2.2.2.1
    | none =>
      dsimp only
      rw [if_pos hr]
      exact ⟨keep.1, by simp [put, hsym]⟩
  · unfold visit
    rw [if_pos keep.1, if_neg hd]
    exact ⟨keep.1, by simpa using hd⟩

/-! ### How many uses of an instance are let pass -/

theorem countP_put (p q : Nat → Bool) (u : Nat) : ∀ l : List Nat, l.Nodup → u ∈ l → p u = false → q u = true →
    (∀ x ∈ l, x ≠ u → q x = p x) → l.countP q = l.countP p + 1 := by
  intro l
  induction l with
  | nil => intro _ h; cases h
  | cons x l ih =>
    intro hn hu hp hq heq
    rw [List.nodup_cons] at hn
    by_cases hx : x = u
    · subst hx
      have : l.countP q = l.countP p := by
        rw [List.countP_eq_length_filter, List.countP_eq_length_filter]
        congr 1
        exact List.filter_congr (fun y hy => heq y (List.mem_cons_of_mem _ hy) (fun e => hn.1 (e ▸ hy)))
      rw [List.countP_cons_of_pos hq, List.countP_cons_of_neg (by simp [hp]), this]
    · have h1 := ih hn.2 ((List.mem_cons.1 hu).resolve_left (Ne.symm hx)) hp hq
        (fun y hy => heq y (List.mem_cons_of_mem _ hy))
      have h2 := heq x (List.mem_cons_self ..) hx
      rw [List.countP_cons, List.countP_cons, h1, h2]
      omega

/-- The uses are listed once, and the count of an instance is the number of uses with its symbol. -/
structure Counted (s : St K) : Prop where
  once : s.entries.Nodup
  count : ∀ o ∈ s.entries, s.sym o = o → s.count o = s.entries.countP (fun x => s.sym x == o)
  new : ∀ u, u ∉ s.entries → s.count u = 1

theorem counted_start : Counted (start K) where
  once := List.nodup_nil
  count := by intro o h; cases h
  new := fun _ _ => rfl

theorem sym_in {s : St K} (h : Inv s) {x : Nat} (hx : x ∈ s.entries) : s.sym x ∈ s.entries := by
  rcases h.syms x hx with g | ⟨k, _, g, _⟩
  · rw [g.1]; exact hx
  · exact (h.own _ _ g).1

theorem counted_step (s : St K) (e : Ev K) (hi : Inv s) (h : Counted s) : Counted (step s e) := by
  cases e with
  | add u =>
    simp only [step, add]
    split_ifs with hu
    · exact h
    · have hsu := (hi.out u hu).2.1
      constructor
      · rw [List.nodup_append]
        refine ⟨h.once, by simp, ?_⟩
        intro a ha b hb e
        rw [List.mem_singleton.1 hb] at e
        exact hu (e ▸ ha)
      · intro o ho hso
        dsimp only at ho hso ⊢
        rw [List.countP_append]
        by_cases e : o = u
        · subst e
          have h0 : s.entries.countP (fun x => s.sym x == o) = 0 := by
            rw [List.countP_eq_zero]
            intro x hx hc
            rw [beq_iff_eq] at hc
            exact hu (hc ▸ sym_in hi hx)
          rw [h0, h.new o hu]
          simp [hsu]
        · have ho' : o ∈ s.entries := (List.mem_append.1 ho).resolve_right (fun h' => e (List.mem_singleton.1 h'))
          rw [h.count o ho' hso]
          simp [hsu, Ne.symm e]
      · intro x hx
        exact h.new x (fun h' => hx (List.mem_append_left _ h'))
  | know u k =>
    simp only [step, know]
    split
    · split
      · exact h
      · exact ⟨h.once, h.count, h.new⟩
    · exact h
  | visit u r =>
    simp only [step]
    rcases visit_cases s u r hi with e | ⟨k, o, hu, hsym, hstub, hk, ho, e⟩ | ⟨k, hu, hsym, hstub, hk, hno, _, e⟩
    · rw [e]; exact h
    · rw [e]
      have hown := hi.own _ _ ho
      have hou : o ≠ u := by intro e'; rw [e', hstub] at hown; cases hown.2.2.2.1
      constructor
      · exact h.once
      · intro o' ho' hso
        simp only [merge] at ho' hso ⊢
        have hou' : o' ≠ u := by
          intro e'
          subst e'
          simp only [put, if_true] at hso
          exact hou hso
        have hso' : s.sym o' = o' := by simpa [put, hou'] using hso
        by_cases e' : o' = o
        · subst e'
          simp only [put, if_true]
          rw [h.count o' ho' hso']
          symm
          refine countP_put _ _ u s.entries h.once hu ?_ ?_ ?_
          · rw [hsym]; simp [Ne.symm hou]
          · simp
          · intro x _ hx; simp [hx]
        · simp only [put, e', if_false]
          rw [h.count o' ho' hso']
          rw [List.countP_eq_length_filter, List.countP_eq_length_filter]
          congr 1
          refine List.filter_congr fun x hx => ?_
          by_cases hxu : x = u
          · subst hxu
            simp only [if_true, hsym]
            rw [Bool.eq_iff_iff, beq_iff_eq, beq_iff_eq]
            exact ⟨fun e => absurd e.symm hou', fun e => absurd e.symm e'⟩
          · simp [hxu]
      · intro x hx
        have hxo : x ≠ o := fun e => hx (e ▸ hown.1)
        simp only [merge, put, hxo, if_false]
        exact h.new x hx
    · rw [e]
      exact ⟨h.once, h.count, h.new⟩

theorem counted_run (h : List (Ev K)) : ∀ s : St K, Inv s → Counted s → Counted (run s h) := by
  induction h with
  | nil => intro s _ hs; exact hs
  | cons e h ih => intro s hi hs; exact ih _ (inv_step s e hi) (counted_step s e hi hs)

/-- Number of uses with these arguments. -/
def uses (s : St K) (k : K) : Nat := s.entries.countP (fun x => decide (s.key x = some k))

theorem uses_step (s : St K) (e : Ev K) (hi : Inv s) (k : K) : uses s k ≤ uses (step s e) k := by
  cases e with
  | add u =>
    simp only [step, add]
    split
    · exact Nat.le_refl _
    · unfold uses
      dsimp only
      rw [List.countP_append]
      omega
  | know u k' =>
    simp only [step, know]
    split
    · split
      · exact Nat.le_refl _
      · rename_i hk
        refine List.countP_mono_left fun x _ hx => ?_
        have hxu : x ≠ u := by
          intro e; subst e
          rw [decide_eq_true_eq, hk] at hx
          cases hx
        simpa [put, hxu] using hx
    · exact Nat.le_refl _
  | visit u r =>
    simp only [step]
    unfold uses
    rw [(visit_keep s u r).1, (visit_keep s u r).2]

theorem uses_run (g : List (Ev K)) : ∀ (s : St K), Inv s → ∀ k, uses s k ≤ uses (run s g) k := by
  induction g with
  | nil => intro s _ k; exact Nat.le_refl _
  | cons e g ih => intro s hi k; exact Nat.le_trans (uses_step s e hi k) (ih _ (inv_step s e hi) k)

/-- **C93** With at most nine uses of each instance nothing is refused, whatever the
order of events. -/
theorem C93_accepted_partial (h : List (Ev K)) (hk : ∀ k, uses (run (start K) h) k ≤ 9) :
    (run (start K) h).errs = 0 := by
  have key : ∀ (g : List (Ev K)) (s : St K), Inv s → Counted s → (∀ k, uses (run s g) k ≤ 9) → (run s g).errs = s.errs := by
    intro g
    induction g with
    | nil => intro s _ _ _; rfl
    | cons e g ih =>
      intro s hi hc hu
      have hi' := inv_step s e hi
      have hc' := counted_step s e hi hc
      have h1 := ih (step s e) hi' hc' hu
      refine h1.trans ?_
      cases e with
      | add u =>
        simp only [step, add]
        split <;> rfl
      | know u k =>
        simp only [step, know]
        split
        · split <;> rfl
        · rfl
      | visit u r =>
        have h9 : ∀ k, uses (visit s u r) k ≤ 9 := fun k => Nat.le_trans (uses_run g _ hi' k) (hu k)
        simp only [step] at hc' ⊢
        rcases visit_cases s u r hi with e | ⟨k, o, hu, hsym, hstub, hk, ho, e⟩ | ⟨k, hu, hsym, hstub, hk, hno, _, e⟩
        · rw [e]
        · have hi2 := inv_visit s u r hi
          rw [e] at h9 hc' hi2 ⊢
          have hown := hi.own _ _ ho
          have hou : o ≠ u := by intro e'; rw [e', hstub] at hown; cases hown.2.2.2.1
          have hcnt := hc'.count o hown.1 (by simp only [merge, put, hou, if_false]; exact hown.2.2.1)
          have hle : (merge s u o).count o ≤ 9 := by
            rw [hcnt]
            refine Nat.le_trans (List.countP_mono_left fun x hx hsx => ?_) (h9 k)
            rw [beq_iff_eq] at hsx
            have hown2 := hi2.own k o ho
            rw [decide_eq_true_eq]
            rcases hi2.syms x hx with g | ⟨k', g1, g2, _⟩
            · have : x = o := g.1.symm.trans hsx
              rw [this]; exact hown2.2.1
            · rw [hsx] at g2
              have := (hi2.own k' o g2).2.1
              rw [hown2.2.1] at this
              rw [g1, this]
          have hno : tooCommon u (s.count o + 1) = false := by
            have : (merge s u o).count o = s.count o + 1 := by simp [merge, put]
            rw [this] at hle
            unfold tooCommon
            by_cases h100 : u > 100
            · have : ¬ s.count o + 1 ≥ u / 10 := by omega
              simp [this]
            · simp [h100]
          simp only [merge, hno]
          rfl
        · rw [e]
  exact key h _ inv_start counted_start hk

/-- The uses `us 0`, …, `us n`, all with the arguments `k`, and a round of the compiler. -/
def manyUses (us : Nat → Nat) (k : K) (n : Nat) : List (Ev K) :=
  (List.range (n + 1)).map (fun i => .add (us i)) ++ (List.range (n + 1)).map (fun i => .know (us i) k) ++
    (List.range (n + 1)).map (fun i => .visit (us i) true)

theorem run_append (s : St K) (g h : List (Ev K)) : run s (g ++ h) = run (run s g) h := List.foldl_append

/-- **C93** fails for many uses: however large the numbers of the types before them, when
uses of one instance follow each other with fewer than nine types made in between, so
many of them are taken for a circular definition. -/
theorem C93_too_common_fails (us : Nat → Nat) (k : K) (hup : ∀ i, us i < us (i + 1)) (hnear : ∀ i, us (i + 1) ≤ us i + 9)
    (n : Nat) (hn : us 0 ≤ n) (hn' : 101 ≤ n) : 0 < (run (start K) (manyUses us k n)).errs := by
  have hmono : ∀ i j, i < j → us i < us j := by
    intro i j hij
    induction j with
    | zero => omega
    | succ j ih =>
      have := hup j
      rcases Nat.lt_succ_iff_lt_or_eq.1 hij with h | h
      · have := ih h; omega
      · subst h; exact this
  have hinj : ∀ i j, us i = us j → i = j := by
    intro i j e
    rcases Nat.lt_trichotomy i j with h | h | h
    · have := hmono i j h; omega
    · exact h
    · have := hmono j i h; omega
  have hlow : ∀ i, i ≤ us i := by
    intro i
    induction i with
    | zero => omega
    | succ i ih => have := hup i; omega
  have hhigh : ∀ i, us i ≤ us 0 + 9 * i := by
    intro i
    induction i with
    | zero => omega
    | succ i ih => have := hnear i; omega
  -- after the uses have been added
  have h1 : ∀ m, (run (start K) ((List.range m).map (fun i => Ev.add (us i)))) =
      ⟨(List.range m).map us, fun _ => none, id, id,
        fun x => decide (∃ i, i < m ∧ us i = x), fun _ => 1, [], 0⟩ := by
    intro m
    induction m with
    | zero => simp [run, start]
    | succ m ih =>
      rw [List.range_succ, List.map_append, run_append, ih]
      have hnot : us m ∉ (List.range m).map us := by
        intro h
        obtain ⟨i, hi, e⟩ := List.mem_map.1 h
        have := hinj i m e
        rw [List.mem_range] at hi
        omega
      simp only [List.map_cons, List.map_nil, run, List.foldl_cons, List.foldl_nil, step, add]
      rw [if_neg hnot]
      simp only [List.map_append, List.map_cons, List.map_nil, St.mk.injEq, true_and, and_true]
      funext x
      simp only [put]
      split_ifs with hx
      · subst hx
        exact (decide_eq_true ⟨m, by omega, rfl⟩).symm
      · rw [decide_eq_decide]
        constructor
        · rintro ⟨i, hi, e⟩; exact ⟨i, by omega, e⟩
        · rintro ⟨i, hi, e⟩
          refine ⟨i, ?_, e⟩
          rcases Nat.lt_succ_iff_lt_or_eq.1 hi with h | h
          · exact h
          · subst h; exact absurd e.symm hx
  -- after their arguments are known
  have h2 : ∀ m, m ≤ n + 1 → (run (run (start K) ((List.range (n + 1)).map (fun i => Ev.add (us i))))
      ((List.range m).map (fun i => Ev.know (us i) k))) =
      ⟨(List.range (n + 1)).map us, fun x => if ∃ i, i < m ∧ us i = x then some k else none, id, id,
        fun x => decide (∃ i, i < n + 1 ∧ us i = x), fun _ => 1, [], 0⟩ := by
    intro m
    induction m with
    | zero => intro _; rw [h1]; simp [run]
    | succ m ih =>
      intro hm
      rw [List.range_succ (n := m), List.map_append, run_append, ih (by omega)]
      have hin : us m ∈ (List.range (n + 1)).map us := List.mem_map.2 ⟨m, List.mem_range.2 (by omega), rfl⟩
      have hnone : (if ∃ i, i < m ∧ us i = us m then some k else none) = none := by
        rw [if_neg]
        rintro ⟨i, hi, e⟩
        have := hinj i m e
        omega
      simp only [List.map_cons, List.map_nil, run, List.foldl_cons, List.foldl_nil, step, know]
      rw [if_pos hin, hnone]
      simp only [St.mk.injEq, true_and, and_true]
      funext x
      simp only [put]
      by_cases hx : x = us m
      · rw [if_pos hx, if_pos ⟨m, by omega, hx.symm⟩]
      · rw [if_neg hx]
        by_cases hy : ∃ i, i < m ∧ us i = x
        · rw [if_pos hy]
          obtain ⟨i, hi, e⟩ := hy
          rw [if_pos ⟨i, by omega, e⟩]
        · rw [if_neg hy, if_neg]
          rintro ⟨i, hi, e⟩
          rcases Nat.lt_succ_iff_lt_or_eq.1 hi with h | h
          · exact hy ⟨i, h, e⟩
          · subst h; exact hx e.symm
  -- the visits
  let s0 : St K := run (run (start K) ((List.range (n + 1)).map (fun i => Ev.add (us i))))
      ((List.range (n + 1)).map (fun i => Ev.know (us i) k))
  have e0 : s0 = _ := h2 (n + 1) (Nat.le_refl _)
  have h3 : ∀ m, 1 ≤ m → m ≤ n + 1 →
      (∀ x, (run s0 ((List.range m).map (fun i => Ev.visit (us i) true))).key x = s0.key x) ∧
      (run s0 ((List.range m).map (fun i => Ev.visit (us i) true))).entries = s0.entries ∧
      (run s0 ((List.range m).map (fun i => Ev.visit (us i) true))).owners = [(k, us 0)] ∧
      (run s0 ((List.range m).map (fun i => Ev.visit (us i) true))).count (us 0) = m ∧
      (∀ i, m ≤ i → i < n + 1 → (run s0 ((List.range m).map (fun i => Ev.visit (us i) true))).sym (us i) = us i ∧
        (run s0 ((List.range m).map (fun i => Ev.visit (us i) true))).stub (us i) = true) ∧
      (2 ≤ m → tooCommon (us (m - 1)) m = true → 0 < (run s0 ((List.range m).map (fun i => Ev.visit (us i) true))).errs) := by
    intro m hm1
    induction m, hm1 using Nat.le_induction with
    | base =>
      intro _
      have hin : us 0 ∈ s0.entries := by rw [e0]; exact List.mem_map.2 ⟨0, List.mem_range.2 (by omega), rfl⟩
      have hstub : s0.stub (s0.sym (us 0)) = true := by
        rw [e0]; exact decide_eq_true ⟨0, by omega, rfl⟩
      have hkey : s0.key (us 0) = some k := by
        rw [e0]; exact if_pos ⟨0, by omega, rfl⟩
      have hown : findOwner s0.owners k = none := by rw [e0]; rfl
      have hv : run s0 ((List.range 1).map (fun i => Ev.visit (us i) true)) =
          { s0 with owners := s0.owners ++ [(k, us 0)], stub := put s0.stub (us 0) false } := by
        simp only [List.range_one, List.map_cons, List.map_nil, run, List.foldl_cons, List.foldl_nil, step, visit]
        rw [if_pos hin, if_pos hstub, hkey]
        dsimp only
        rw [hown]
        rfl
      rw [hv]
      refine ⟨fun _ => rfl, rfl, by rw [e0]; rfl, by rw [e0], ?_, fun h => by omega⟩
      intro i hi hin'
      have hne : us i ≠ us 0 := fun e => by have := hinj i 0 e; omega
      constructor
      · rw [e0]; rfl
      · simp only [put, hne, if_false]
        rw [e0]; exact decide_eq_true ⟨i, by omega, rfl⟩
    | succ m hm ih =>
      intro hmn
      obtain ⟨g1, g2, g3, g4, g5, _⟩ := ih (by omega)
      rw [List.range_succ (n := m), List.map_append, run_append]
      generalize run s0 ((List.range m).map (fun i => Ev.visit (us i) true)) = s at g1 g2 g3 g4 g5 ⊢
      have hin : us m ∈ s.entries := by
        rw [g2, e0]; exact List.mem_map.2 ⟨m, List.mem_range.2 (by omega), rfl⟩
      obtain ⟨hsym, hstub⟩ := g5 m (Nat.le_refl _) (by omega)
      have hkey : s.key (us m) = some k := by
        rw [g1, e0]; exact if_pos ⟨m, by omega, rfl⟩
      have hown : findOwner s.owners k = some (us 0) := by rw [g3]; simp [findOwner]
      have hv : run s (List.map (fun i => Ev.visit (us i) true) [m]) = merge s (us m) (us 0) := by
        simp only [List.map_cons, List.map_nil, run, List.foldl_cons, List.foldl_nil, step, visit]
        rw [if_pos hin, hsym, if_pos hstub, hkey]
        dsimp only
        rw [hown]
      rw [hv]
      refine ⟨g1, g2, g3, by simp [merge, put, g4], ?_, ?_⟩
      · intro i hi hin'
        have hne : us i ≠ us m := fun e => by have := hinj i m e; omega
        obtain ⟨a, b⟩ := g5 i (by omega) hin'
        exact ⟨by simp only [merge, put, hne, if_false]; exact a, b⟩
      · intro _ ht
        rw [Nat.add_sub_cancel] at ht
        simp only [merge, g4, ht, if_true]
        omega
  have hend := (h3 (n + 1) (by omega) (Nat.le_refl _)).2.2.2.2.2 (by omega) (by
    rw [Nat.add_sub_cancel]
    have a := hlow n
    have b := hhigh n
    unfold tooCommon
    rw [Bool.and_eq_true, decide_eq_true_eq, decide_eq_true_eq]
    omega)
  unfold manyUses
  rw [run_append, run_append]
  exact hend

/-! ### Examples -/

/-- Three uses, two of them with the same argument. -/
def exHistory : List (Ev Nat) :=
  [.add 60, .add 61, .add 62, .know 60 5, .visit 60 false, .visit 61 true, .know 61 5, .know 62 7,
   .visit 61 true, .visit 60 true, .visit 62 true]

example : (run (start Nat) exHistory).sym 60 = 61 ∧ (run (start Nat) exHistory).sym 61 = 61 ∧
    (run (start Nat) exHistory).sym 62 = 62 ∧ (run (start Nat) exHistory).errs = 0 := by decide

example : Done (run (start Nat) exHistory) 60 ∧ Done (run (start Nat) exHistory) 62 := by
  unfold Done; decide

/-- A hundred and two uses of one instance in a program with little else. -/
example : 0 < (run (start Nat) (manyUses (fun i => 60 + i) 5 101)).errs :=
  C93_too_common_fails (fun i => 60 + i) 5 (fun i => by omega) (fun i => by omega) 101 (by simp) (by omega)

end Ulam.Merge
