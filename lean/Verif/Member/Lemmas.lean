import Verif.Member.Spec
import Verif.Walker.Lemmas
/-! # Helper lemmas for looking up members -/
namespace Ulam.Member
open Ulam.Walker Ulam.Walker.Spec Ulam.Member.Spec
variable {n : Nat} {α : Type}

theorem findLoop_none {w : World n} {f : Fin n → Option α} {s : State n} (h : getNextBase w s = none) :
    findLoop w f s = none := by
  rw [findLoop.eq_def]
  split
  · rfl
  · rename_i h2; rw [h] at h2; cases h2

/-- One turn of the loop. -/
theorem findLoop_some {w : World n} {f : Fin n → Option α} {s t : State n} {r : Fin n} (h : getNextBase w s = some (r, t)) :
    findLoop w f s =
      if w.defined r = true ∧ (f r).isSome = true then (f r).map fun a => (r, a) else findLoop w f (after w false r t) := by
  rw [findLoop.eq_def]
  split
  · rename_i h2; rw [h] at h2; cases h2
  · rename_i h2
    rw [h] at h2; cases h2
    unfold after
    cases hd : w.defined r
    · simp
    · simp only [if_true]
      cases hf : f r <;> simp

/-- The class found is the first one of the walk that has the name. -/
theorem findLoop_eq (w : World n) (f : Fin n → Option α) (s : State n) :
    findLoop w f s = ((sightings w false s).find? fun x => w.defined x && (f x).isSome).bind
      fun d => (f d).map fun a => (d, a) := by
  refine walk_induction w false (fun s => findLoop w f s =
    ((sightings w false s).find? fun x => w.defined x && (f x).isSome).bind fun d => (f d).map fun a => (d, a)) ?_ ?_ s
  · intro s h
    rw [sightings_none h, findLoop_none h]; rfl
  · intro s r t h ih
    rw [sightings_some h, findLoop_some h, List.find?_cons]
    split
    · rename_i hq
      rw [show (w.defined r && (f r).isSome) = true by simp [hq.1, hq.2]]
      rfl
    · rename_i hq
      rw [show (w.defined r && (f r).isSome) = false by
        rw [Bool.and_eq_false_iff]
        by_contra hn
        simp only [not_or, Bool.not_eq_false] at hn
        exact hq hn]
      exact ih

/-- The walk only goes on from classes that do not have the name. -/
theorem findLoop_path (w : World n) (f : Fin n → Option α) (s : State n) : ∀ d a, findLoop w f s = some (d, a) →
    ∃ y ∈ s.bases, Relation.ReflTransGen (fun p q => Edge w p q ∧ f p = none) (w.root y.1) d := by
  refine walk_induction w false (fun s => ∀ d a, findLoop w f s = some (d, a) →
    ∃ y ∈ s.bases, Relation.ReflTransGen (fun p q => Edge w p q ∧ f p = none) (w.root y.1) d) ?_ ?_ s
  · intro s h d a e
    rw [findLoop_none h] at e; cases e
  · intro s r t h ih d a e
    obtain ⟨⟨b0, f1, f1'⟩, f2, _⟩ := next_some h
    rw [findLoop_some h] at e
    split at e
    · rw [Option.map_eq_some_iff] at e
      obtain ⟨b, _, hb⟩ := e
      cases hb
      exact ⟨b0, f1, by rw [f1']⟩
    · rename_i hq
      obtain ⟨y, h1, h2⟩ := ih d a e
      rcases after_bases w false r t y h1 with q | q
      · exact ⟨y, f2 y q, h2⟩
      · refine ⟨b0, f1, ?_⟩
        rw [f1']
        refine Relation.ReflTransGen.head ⟨q, ?_⟩ h2
        cases hf : f r with
        | none => rfl
        | some b => exact absurd ⟨q.1, by simp [hf]⟩ hq

theorem here_isSome (E : Env n) (d : Fin n) (x : Nat) : (here E false d x).isSome = true ↔ Declares E d x := by
  have hp : ∀ (l : List Sym), (inTable l x).isSome = true ↔ ∃ s ∈ l, s.name = x := by
    intro l
    unfold inTable
    rw [List.find?_isSome]
    simp
  have h0 : inBlock E false d x = isIdInScope (E.tabs d) x := by
    unfold inBlock
    cases isIdInScope (E.tabs d) x <;> simp [Option.filter]
  unfold here Declares
  rw [h0]
  unfold isIdInScope isFuncIdInScope
  simp only [Option.isSome_or, Bool.or_eq_true, hp]
  constructor
  · rintro (((⟨s, h1, h2⟩ | ⟨s, h1, h2⟩) | (⟨s, h1, h2⟩ | ⟨s, h1, h2⟩)) | ⟨s, h1, h2⟩)
    · exact ⟨s, .inl h1, h2⟩
    · exact ⟨s, .inr h1, h2⟩
    · exact ⟨s, .inl h1, h2⟩
    · exact ⟨s, .inr h1, h2⟩
    · exact ⟨s, .inr h1, h2⟩
  · rintro ⟨s, h1 | h1, h2⟩
    · exact .inl (.inl (.inl ⟨s, h1, h2⟩))
    · exact .inl (.inl (.inr ⟨s, h1, h2⟩))

/-- What is found is a symbol of the class with that name. -/
theorem here_mem {E : Env n} {only : Bool} {d : Fin n} {x : Nat} {s : Sym} (h : here E only d x = some s) :
    (s ∈ (E.tabs d).st ∨ s ∈ (E.tabs d).funcs) ∧ s.name = x := by
  have hp : ∀ {l : List Sym} {s}, inTable l x = some s → s ∈ l ∧ s.name = x := by
    intro l s h
    unfold inTable at h
    exact ⟨List.mem_of_find?_eq_some h, by simpa using List.find?_some h⟩
  have h0 : ∀ {s}, inBlock E only d x = some s → (s ∈ (E.tabs d).st ∨ s ∈ (E.tabs d).funcs) ∧ s.name = x := by
    intro s h
    unfold inBlock at h
    rw [Option.filter_eq_some_iff] at h
    have h1 := h.1
    unfold isIdInScope at h1
    rw [Option.or_eq_some_iff] at h1
    rcases h1 with h1 | ⟨_, h1⟩
    · exact ⟨.inl (hp h1).1, (hp h1).2⟩
    · exact ⟨.inr (hp h1).1, (hp h1).2⟩
  unfold here at h
  rw [Option.or_eq_some_iff, Option.or_eq_some_iff] at h
  rcases h with (h | ⟨_, h⟩) | ⟨_, h⟩
  · exact h0 h
  · exact h0 h
  · exact ⟨.inr (hp h).1, (hp h).2⟩

/-- Steps of the walk that lead to a class are steps to declared bases. -/
theorem path_base {w : World n} (ok : Ok w) (P : Fin n → Prop) {a d : Fin n} (hd : w.defined d = true)
    (h : Relation.ReflTransGen (fun p q => Edge w p q ∧ P p) a d) :
    Relation.ReflTransGen (fun p q => Base w p q ∧ P p) a d := by
  induction h using Relation.ReflTransGen.head_induction_on with
  | refl => exact .refl
  | head e h ih =>
    rename_i b c
    obtain ⟨⟨h1, en, h2, h3⟩, h4⟩ := e
    by_cases hn : en.base = w.nouti
    · exfalso
      have hd' : w.defined c = false := by rw [← h3, hn]; exact ok.no_class
      rcases Relation.ReflTransGen.cases_head h with h | ⟨z, ⟨⟨hz, _⟩, _⟩, _⟩
      · rw [h, hd] at hd'; cases hd'
      · rw [hz] at hd'; cases hd'
    · exact Relation.ReflTransGen.head ⟨⟨h1, en, h2, hn, h3⟩, h4⟩ ih

/-- From the bases of a class, the walk meets its proper ancestors. -/
theorem mem_fromBases {w : World n} (ok : Ok w) (c x : Fin n) (hx : w.defined x = true) :
    x ∈ sightings w false (fromBases w c) ↔ Ancestor w c x := by
  have hb : ∀ y, y ∈ (fromBases w c).bases → w.defined c = true ∧ ∃ e ∈ w.table c, e.base = y.1 := by
    intro y hy
    unfold fromBases at hy
    split at hy
    · rename_i hd
      rw [add_bases] at hy
      rcases hy with hy | ⟨_, hy⟩
      · cases hy
      · exact ⟨hd, hy⟩
    · cases hy
  have hs : (fromBases w c).seen = ∅ := by
    unfold fromBases; split
    · rw [add_seen]; rfl
    · rfl
  obtain ⟨_, h2, h3, h4⟩ := sightings_facts w false (fromBases w c)
  rw [hs] at h2 h3 h4
  constructor
  · intro h
    obtain ⟨_, y, hy, hr⟩ := h2 x h
    obtain ⟨hd, e, he, hey⟩ := hb y hy
    have he' : Edge w c (w.root y.1) := ⟨hd, e, he, by rw [hey]⟩
    have h5 := (edge_base ok _ _ hx).1 (Relation.ReflTransGen.head he' hr)
    rcases Relation.ReflTransGen.cases_head h5 with h6 | ⟨z, hz, h6⟩
    · -- the walk came back to the class itself
      subst h6
      have : ¬ e.base = w.nouti := by
        intro hn
        have hd' : w.defined (w.root y.1) = false := by rw [← hey, hn]; exact ok.no_class
        rcases Relation.ReflTransGen.cases_head hr with h | ⟨z, ⟨hz, _⟩, _⟩
        · rw [h, hx] at hd'; cases hd'
        · rw [hz] at hd'; cases hd'
      exact Relation.TransGen.head' ⟨hd, e, he, this, by rw [hey]⟩ ((edge_base ok _ _ hx).1 hr)
    · exact Relation.TransGen.head' hz h6
  · intro h
    obtain ⟨z, hz, h6⟩ := Relation.TransGen.head'_iff.1 h
    obtain ⟨hd, e, he, _, hez⟩ := hz
    have hmem : (e.base, w.nouti) ∈ (fromBases w c).bases := by
      unfold fromBases
      rw [if_pos hd, add_bases]
      exact .inr ⟨rfl, e, he, rfl⟩
    have h7 : z ∈ sightings w false (fromBases w c) := by
      have := h3 _ hmem
      rw [hez] at this
      simpa using this
    have h8 := (edge_base ok _ _ hx).2 h6
    clear h h6
    induction h8 with
    | refl => exact h7
    | tail h e ih =>
      rename_i p q
      have hp : w.defined p = true := e.1
      have := h4 p (ih hp) _ e
      simpa using this

theorem allLoop_eq (w : World n) (f : Fin n → Bool) (s : State n) : ∀ (kin : Finset (Fin n)) (d : Fin n),
    d ∈ allLoop w f kin s ↔ d ∈ kin ∨ (d ∈ sightings w false s ∧ w.defined d = true ∧ f d = true) := by
  refine walk_induction w false (fun s => ∀ (kin : Finset (Fin n)) (d : Fin n),
    d ∈ allLoop w f kin s ↔ d ∈ kin ∨ (d ∈ sightings w false s ∧ w.defined d = true ∧ f d = true)) ?_ ?_ s
  · intro s h kin d
    rw [sightings_none h, allLoop.eq_def]
    split
    · simp
    · rename_i h2; rw [h] at h2; cases h2
  · intro s r t h ih kin d
    rw [sightings_some h, allLoop.eq_def]
    split
    · rename_i h2; rw [h] at h2; cases h2
    · rename_i h2
      rw [h] at h2; cases h2
      have key : ∀ k, d ∈ allLoop w f k (after w false r t) ↔ d ∈ k ∨ (d ∈ sightings w false (after w false r t) ∧
          w.defined d = true ∧ f d = true) := fun k => ih k d
      cases hd : w.defined r with
      | false =>
        have ha : after w false r t = t := by unfold after; rw [if_neg (by simp [hd])]
        rw [ha] at key ⊢
        simp only [Bool.false_eq_true, if_false]
        rw [key, List.mem_cons]
        constructor
        · rintro (h | h)
          · exact .inl h
          · exact .inr ⟨.inr h.1, h.2⟩
        · rintro (h | ⟨h1 | h1, h3⟩)
          · exact .inl h
          · subst h1; rw [hd] at h3; exact absurd h3.1 (by simp)
          · exact .inr ⟨h1, h3⟩
      | true =>
        have ha : after w false r t = addAncestorPairsOf w false r w.nouti t := by unfold after; rw [if_pos hd]
        rw [ha] at key ⊢
        simp only [if_true]
        rw [key, List.mem_cons]
        cases hf : f r with
        | false =>
          simp only [Bool.false_eq_true, if_false]
          constructor
          · rintro (h | h)
            · exact .inl h
            · exact .inr ⟨.inr h.1, h.2⟩
          · rintro (h | ⟨h1 | h1, h3⟩)
            · exact .inl h
            · subst h1; rw [hf] at h3; exact absurd h3.2 (by simp)
            · exact .inr ⟨h1, h3⟩
        | true =>
          simp only [if_true, Finset.mem_insert]
          constructor
          · rintro ((h | h) | h)
            · subst h; exact .inr ⟨.inl rfl, hd, hf⟩
            · exact .inl h
            · exact .inr ⟨.inr h.1, h.2⟩
          · rintro (h | ⟨h1 | h1, h3⟩)
            · exact .inl (.inr h)
            · exact .inl (.inl h1)
            · exact .inr ⟨h1, h3⟩

/-- Appending entries behind the ones waiting leaves the walk over those as it is: it goes to depth first. -/
theorem sightings_append (w : World n) (q : List (Fin n × Fin n)) (s : State n) :
    ∃ rest, sightings w false ⟨s.bases ++ q, s.seen⟩ = sightings w false s ++ rest := by
  refine walk_induction w false (fun s => ∃ rest, sightings w false ⟨s.bases ++ q, s.seen⟩ = sightings w false s ++ rest) ?_ ?_ s
  · intro s h
    exact ⟨_, by rw [sightings_none h]; rfl⟩
  · intro s r t h ih
    have hn : ∀ (b : List (Fin n × Fin n)) (seen : Finset (Fin n)) (r : Fin n) (t : State n),
        getNextBase w ⟨b, seen⟩ = some (r, t) → getNextBase w ⟨b ++ q, seen⟩ = some (r, ⟨t.bases ++ q, t.seen⟩) := by
      intro b seen r t
      unfold getNextBase
      induction b with
      | nil => intro h; cases h
      | cons y b ihb =>
        intro h
        obtain ⟨y1, y2⟩ := y
        simp only [List.cons_append, getNextBasePair] at h ⊢
        split at h
        · rename_i hs; rw [if_pos hs]; exact ihb h
        · rename_i hs; rw [if_neg hs]
          simp only [Option.map_some, Option.some.injEq, Prod.mk.injEq] at h ⊢
          obtain ⟨h1, h2⟩ := h
          subst h2
          exact ⟨h1, rfl⟩
    have hfold : ∀ (l : List (Entry n)) (b : List (Fin n × Fin n)) (hd : Fin n),
        l.foldl (fun q e => (e.base, hd) :: q) (b ++ q) = l.foldl (fun q e => (e.base, hd) :: q) b ++ q := by
      intro l
      induction l with
      | nil => intro b hd; rfl
      | cons e l ihl => intro b hd; exact ihl ((e.base, hd) :: b) hd
    have ha : after w false r ⟨t.bases ++ q, t.seen⟩ = ⟨(after w false r t).bases ++ q, (after w false r t).seen⟩ := by
      unfold after
      split
      · unfold addAncestorPairsOf
        simp only [Bool.false_eq_true, if_false, hfold]
      · rfl
    have h' : getNextBase w ⟨s.bases ++ q, s.seen⟩ = some (r, ⟨t.bases ++ q, t.seen⟩) := hn _ _ _ _ h
    obtain ⟨rest, hr⟩ := ih
    refine ⟨rest, ?_⟩
    rw [sightings_some h, sightings_some h', ha, hr]
    rfl

theorem fromBases_cons {w : World n} {c : Fin n} (hd : w.defined c = true) {e : Entry n} {l : List (Entry n)}
    (ht : w.table c = e :: l) : ∃ q, fromBases w c = ⟨[(e.base, w.nouti)] ++ q, ∅⟩ := by
  have hfold : ∀ (l : List (Entry n)) (b : List (Fin n × Fin n)) (hd : Fin n),
      l.reverse.foldl (fun q e => (e.base, hd) :: q) b = l.map (fun e => (e.base, hd)) ++ b := by
    intro l
    induction l with
    | nil => intro b hd; rfl
    | cons e l ihl => intro b hd; simp [List.foldl_append]
  refine ⟨l.map (fun e => (e.base, w.nouti)), ?_⟩
  unfold fromBases
  rw [if_pos hd]
  unfold addAncestorPairsOf fresh
  simp only [Bool.false_eq_true, if_false, hfold, ht]
  simp

theorem path_mono {r p : Fin n → Fin n → Prop} (h : ∀ a b, r a b → p a b) {a b : Fin n} (hr : Relation.ReflTransGen r a b) :
    Relation.ReflTransGen p a b := by
  induction hr with
  | refl => exact .refl
  | tail _ e ih => exact ih.tail (h _ _ e)

/-- A walk that starts with a class finds the name whenever the class or an ancestor has it, and on the way to what it finds
no class has it. -/
theorem find_init (w : World n) (ok : Ok w) (f : Fin n → Option α) (c : Fin n) :
    ((findLoop w f (init w c)).isSome = true ↔
      ∃ d, w.defined d = true ∧ SelfOrAncestor w (w.root c) d ∧ (f d).isSome = true) ∧
    ∀ d a, findLoop w f (init w c) = some (d, a) → w.defined d = true ∧ f d = some a ∧
      Relation.ReflTransGen (fun p q => Base w p q ∧ f p = none) (w.root c) d := by
  constructor
  · rw [findLoop_eq]
    constructor
    · intro h
      rw [Option.isSome_iff_exists] at h
      obtain ⟨y, h⟩ := h
      rw [Option.bind_eq_some_iff] at h
      obtain ⟨d, h1, _⟩ := h
      have h2 := List.find?_some h1
      simp only [Bool.and_eq_true] at h2
      have h3 := List.mem_of_find?_eq_some h1
      rw [mem_sightings, edge_base ok _ _ h2.1] at h3
      exact ⟨d, h2.1, h3, h2.2⟩
    · rintro ⟨d, h1, h2, h3⟩
      have hs : ((sightings w false (init w c)).find? fun y => w.defined y && (f y).isSome).isSome = true := by
        rw [List.find?_isSome]
        refine ⟨d, ?_, by simp [h1, h3]⟩
        rw [mem_sightings, edge_base ok _ _ h1]; exact h2
      rw [Option.isSome_iff_exists] at hs
      obtain ⟨d', hd'⟩ := hs
      rw [hd']
      have h4 := List.find?_some hd'
      simp only [Bool.and_eq_true] at h4
      simpa using h4.2
  · intro d a h
    have hq := findLoop_path w _ _ d a h
    rw [findLoop_eq, Option.bind_eq_some_iff] at h
    obtain ⟨d', h1, h4⟩ := h
    rw [Option.map_eq_some_iff] at h4
    obtain ⟨a', h4, h5⟩ := h4
    cases h5
    have h2 := List.find?_some h1
    simp only [Bool.and_eq_true] at h2
    refine ⟨h2.1, h4, ?_⟩
    obtain ⟨y, hy, hr⟩ := hq
    have : y = (c, w.nouti) := by simpa [init] using hy
    subst this
    exact path_base ok (fun p => f p = none) h2.1 hr

end Ulam.Member
