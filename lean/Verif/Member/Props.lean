import Verif.Member.Lemmas
import Mathlib.Data.Fin.VecNotation
/-! # C96: what a member name stands for -/
namespace Ulam.Member
open Ulam.Walker Ulam.Walker.Spec Ulam.Member.Spec
variable {n : Nat}

theorem lookup_member {w : World n} {E : Env n} {only : Bool} {ctx c d : Fin n} {x : Nat} {s : Sym} :
    lookup w E only ctx c x = some (.member d s) ↔ (here E only c x = some s ∧ d = c) ∨
      (here E only c x = none ∧ byAncestorOf w E only c x = some (d, s)) := by
  unfold lookup
  cases h : here E only c x with
  | some s' =>
    simp only [Option.some.injEq, Found.member.injEq, reduceCtorEq, false_and, or_false]
    constructor
    · rintro ⟨h1, h2⟩; exact ⟨h2, h1.symm⟩
    · rintro ⟨h1, h2⟩; exact ⟨h2.symm, h1⟩
  | none =>
    cases h2 : byAncestorOf w E only c x with
    | some y =>
      obtain ⟨d', s'⟩ := y
      simp
    | none =>
      simp only [reduceCtorEq, false_and, false_or, and_false, iff_false]
      split
      · rw [Option.map_eq_some_iff]; rintro ⟨a, _, ha⟩; cases ha
      · simp

/-- 1 inherits 2 and 3, and 2 and 3 inherit 4; 0 is no class. -/
def world : World 8 where
  nouti := 0
  root := fun x => x
  deref := fun x => x
  defined := fun x => x = 1 ∨ x = 2 ∨ x = 3 ∨ x = 4
  table := fun x => if x = 1 then [⟨0, 0⟩, ⟨2, 0⟩, ⟨3, 0⟩] else if x = 2 then [⟨4, 1⟩] else if x = 3 then [⟨4, 1⟩] else []
  name := fun x => x

/-- The same with the bases of 1 the other way round. -/
def swapped : World 8 := { world with table := fun x => if x = 1 then [⟨0, 0⟩, ⟨3, 0⟩, ⟨2, 0⟩] else world.table x }

theorem world_ok : Ok world := ⟨by decide, by decide⟩

theorem acyclic_of_up {w : World 8} (up : ∀ x y : Fin 8, Base w x y → x < y) : Acyclic w := by
  intro x h
  have : ∀ y, Ancestor w x y → x < y := by
    intro y hy
    induction hy with
    | single h => exact up _ _ h
    | tail _ h ih => exact Nat.lt_trans ih (up _ _ h)
  exact absurd (this x h) (Nat.lt_irrefl _)

theorem world_acyclic : Acyclic world := acyclic_of_up (by unfold Base; decide)

/-- 4 has a constant 10, a function 11 and a data member 12; 3 has a constant 10 too, and both 2 and 3 a data member 13. -/
def env : Env 8 where
  tabs := fun x => if x = 4 then ⟨[⟨10, .con⟩, ⟨12, .var⟩], [⟨11, .fn⟩]⟩ else if x = 3 then ⟨[⟨10, .con⟩, ⟨13, .var⟩], []⟩
    else if x = 2 then ⟨[⟨13, .var⟩], []⟩ else ⟨[⟨14, .typ⟩], []⟩
  isType := fun x => x == 14
  file := fun _ => [⟨15, .con⟩]

/-- **C96.** A name stands for a member when the class or one of its ancestors declares it, and then only. -/
theorem C96_found (w : World n) (ok : Ok w) (E : Env n) (ctx c : Fin n) (x : Nat) (hc : w.defined c = true) :
    (∃ d s, lookup w E false ctx c x = some (.member d s)) ↔
      ∃ d, w.defined d = true ∧ SelfOrAncestor w c d ∧ Declares E d x := by
  constructor
  · rintro ⟨d, s, h⟩
    rcases lookup_member.1 h with ⟨h1, h2⟩ | ⟨_, h2⟩
    · subst h2
      exact ⟨d, hc, .refl, (here_isSome E d x).1 (by rw [h1]; rfl)⟩
    · unfold byAncestorOf at h2
      rw [findLoop_eq, Option.bind_eq_some_iff] at h2
      obtain ⟨d', h3, h4⟩ := h2
      have hm := List.mem_of_find?_eq_some h3
      have hp := List.find?_some h3
      simp only [Bool.and_eq_true] at hp
      exact ⟨d', hp.1, ((mem_fromBases ok c d' hp.1).1 hm).to_reflTransGen, (here_isSome E d' x).1 hp.2⟩
  · rintro ⟨d, h1, h2, h3⟩
    cases hh : here E false c x with
    | some s => exact ⟨c, s, lookup_member.2 (.inl ⟨hh, rfl⟩)⟩
    | none =>
      have ha : Ancestor w c d := by
        rcases Relation.reflTransGen_iff_eq_or_transGen.1 h2 with h | h
        · subst h
          rw [← here_isSome, hh] at h3; cases h3
        · exact h
      have hs : (byAncestorOf w E false c x).isSome = true := by
        unfold byAncestorOf
        rw [findLoop_eq]
        have : ((sightings w false (fromBases w c)).find? fun y => w.defined y && (here E false y x).isSome).isSome = true := by
          rw [List.find?_isSome]
          exact ⟨d, (mem_fromBases ok c d h1).2 ha, by simp [h1, (here_isSome E d x).2 h3]⟩
        rw [Option.isSome_iff_exists] at this
        obtain ⟨d', hd'⟩ := this
        rw [hd']
        have hp := List.find?_some hd'
        simp only [Bool.and_eq_true] at hp
        simpa using hp.2
      rw [Option.isSome_iff_exists] at hs
      obtain ⟨⟨d', s⟩, hs⟩ := hs
      exact ⟨d', s, lookup_member.2 (.inr ⟨hh, hs⟩)⟩

example : Ok world ∧ lookup world env false 2 1 11 = some (.member 4 ⟨11, .fn⟩) ∧ lookup world env false 2 1 99 = none := by
  refine ⟨world_ok, ?_, ?_⟩ <;> decide +kernel

/-- **C96.** What is found is a symbol of that name which the class it is found in declares, and the classes on the way to it
do not: the class's own members come before inherited ones, and those of a class before those of its ancestors. -/
theorem C96_seen (w : World n) (ok : Ok w) (E : Env n) (ctx c d : Fin n) (x : Nat) (s : Sym) (hc : w.defined c = true)
    (h : lookup w E false ctx c x = some (.member d s)) :
    Seen w E x c d ∧ (s ∈ (E.tabs d).st ∨ s ∈ (E.tabs d).funcs) ∧ s.name = x := by
  rcases lookup_member.1 h with ⟨h1, h2⟩ | ⟨h1, h2⟩
  · subst h2
    exact ⟨⟨hc, (here_isSome E d x).1 (by rw [h1]; rfl), .refl⟩, here_mem h1⟩
  · have hp := findLoop_path w _ _ d s h2
    unfold byAncestorOf at h2
    rw [findLoop_eq, Option.bind_eq_some_iff] at h2
    obtain ⟨d', h3, h4⟩ := h2
    rw [Option.map_eq_some_iff] at h4
    obtain ⟨s', h4, h5⟩ := h4
    cases h5
    have hq := List.find?_some h3
    simp only [Bool.and_eq_true] at hq
    refine ⟨⟨hq.1, (here_isSome E d x).1 hq.2, ?_⟩, here_mem h4⟩
    obtain ⟨y, hy, hr⟩ := hp
    have he : Edge w c (w.root y.1) := by
      unfold fromBases at hy
      rw [if_pos hc, add_bases] at hy
      rcases hy with hy | ⟨_, e, h6, h7⟩
      · cases hy
      · exact ⟨hc, e, h6, by rw [h7]⟩
    have := path_base ok (fun p => here E false p x = none) hq.1 (Relation.ReflTransGen.head ⟨he, h1⟩ hr)
    refine path_mono ?_ this
    rintro a b ⟨h8, h9⟩
    refine ⟨h8, ?_⟩
    rw [← here_isSome, h9]; simp

/-- **C96.** A member the class declares itself is what the name stands for. -/
theorem C96_own (w : World n) (E : Env n) (ctx c : Fin n) (x : Nat) (h : Declares E c x) :
    ∃ s, lookup w E false ctx c x = some (.member c s) := by
  have := (here_isSome E c x).2 h
  rw [Option.isSome_iff_exists] at this
  obtain ⟨s, hs⟩ := this
  exact ⟨s, lookup_member.2 (.inl ⟨hs, rfl⟩)⟩

example : Declares env 3 10 ∧ lookup world env false 1 3 10 = some (.member 3 ⟨10, .con⟩) := by
  refine ⟨⟨⟨10, .con⟩, by decide, rfl⟩, by decide +kernel⟩

/-- **C96.** When only one of the class and its ancestors declares the name, the name stands for that declaration. -/
theorem C96_unique (w : World n) (ok : Ok w) (E : Env n) (ctx c d : Fin n) (x : Nat) (hc : w.defined c = true)
    (hd : w.defined d = true) (h1 : SelfOrAncestor w c d) (h2 : Declares E d x)
    (h : ∀ e, w.defined e = true → SelfOrAncestor w c e → Declares E e x → e = d) :
    ∃ s, lookup w E false ctx c x = some (.member d s) := by
  obtain ⟨d', s, hl⟩ := (C96_found w ok E ctx c x hc).2 ⟨d, hd, h1, h2⟩
  obtain ⟨⟨h3, h4, h5⟩, _⟩ := C96_seen w ok E ctx c d' x s hc hl
  have : d' = d := h d' h3 (path_mono (fun _ _ q => q.1) h5) h4
  subst this
  exact ⟨s, hl⟩

example : lookup world env false 1 1 12 = some (.member 4 ⟨12, .var⟩) ∧ ∀ e, Declares env e 12 → e = 4 := by
  refine ⟨by decide +kernel, ?_⟩
  unfold Declares
  rintro e ⟨s, h1, h2⟩
  revert e s
  have : ∀ e : Fin 8, (∃ s ∈ (env.tabs e).st ++ (env.tabs e).funcs, s.name = 12) → e = 4 := by decide
  intro e s h1 h2
  exact this e ⟨s, List.mem_append.2 h1, h2⟩

/-- **C96.** The superclass and everything above it come before the other bases: if the class does not declare the name and
its superclass or an ancestor of that does, the one found is on that side. -/
theorem C96_superclass_first (w : World n) (ok : Ok w) (E : Env n) (ctx c a : Fin n) (x : Nat) (e : Entry n)
    (l : List (Entry n)) (hc : w.defined c = true) (ht : w.table c = e :: l) (hx : ¬ Declares E c x)
    (ha : w.defined a = true) (h1 : SelfOrAncestor w (w.root e.base) a) (h2 : Declares E a x) :
    ∃ d s, lookup w E false ctx c x = some (.member d s) ∧ SelfOrAncestor w (w.root e.base) d := by
  have hh : here E false c x = none := by
    rw [← here_isSome] at hx
    simpa using hx
  obtain ⟨q, hq⟩ := fromBases_cons hc ht
  obtain ⟨rest, hr⟩ := sightings_append w q ⟨[(e.base, w.nouti)], ∅⟩
  have hi : sightings w false ⟨[(e.base, w.nouti)], ∅⟩ = sightings w false (init w e.base) := rfl
  dsimp only at hr
  rw [← hq, hi] at hr
  have hm : a ∈ sightings w false (init w e.base) := by
    rw [mem_sightings, edge_base ok _ _ ha]; exact h1
  have hs : ((sightings w false (init w e.base)).find? fun y => w.defined y && (here E false y x).isSome).isSome = true := by
    rw [List.find?_isSome]
    exact ⟨a, hm, by simp [ha, (here_isSome E a x).2 h2]⟩
  rw [Option.isSome_iff_exists] at hs
  obtain ⟨d, hd⟩ := hs
  have hp := List.find?_some hd
  simp only [Bool.and_eq_true] at hp
  have hp2 := hp.2
  rw [Option.isSome_iff_exists] at hp2
  obtain ⟨s, hs⟩ := hp2
  refine ⟨d, s, lookup_member.2 (.inr ⟨hh, ?_⟩), ?_⟩
  · unfold byAncestorOf
    rw [findLoop_eq, hr, List.find?_append, hd]
    simp [hs]
  · rw [← edge_base ok _ _ hp.1, ← mem_sightings (b := false)]
    exact List.mem_of_find?_eq_some hd

example : lookup world env false 1 1 13 = some (.member 2 ⟨13, .var⟩) ∧ world.table 3 = [⟨4, 1⟩] ∧
    lookup world env false 1 3 12 = some (.member 4 ⟨12, .var⟩) := by
  refine ⟨?_, ?_, ?_⟩ <;> decide +kernel

/-- **C96.** The search that starts at a given class and its ancestors finds the name whenever one of them declares it, and
what it finds is seen from there. -/
theorem C96_class_or_ancestor (w : World n) (ok : Ok w) (E : Env n) (c : Fin n) (x : Nat) :
    ((byClassOrAncestor w E false c x).isSome = true ↔
      ∃ d, w.defined d = true ∧ SelfOrAncestor w (w.root c) d ∧ Declares E d x) ∧
    ∀ d s, byClassOrAncestor w E false c x = some (d, s) → Seen w E x (w.root c) d ∧
      (s ∈ (E.tabs d).st ∨ s ∈ (E.tabs d).funcs) ∧ s.name = x := by
  obtain ⟨h1, h2⟩ := find_init w ok (fun d => here E false d x) c
  constructor
  · unfold byClassOrAncestor
    rw [h1]
    simp only [here_isSome]
  · intro d s h
    obtain ⟨h3, h4, h5⟩ := h2 d s h
    refine ⟨⟨h3, (here_isSome E d x).1 (by rw [h4]; rfl), path_mono ?_ h5⟩, here_mem h4⟩
    rintro a b ⟨h8, h9⟩
    refine ⟨h8, ?_⟩
    rw [← here_isSome, h9]; simp

example : byClassOrAncestor world env false 1 11 = some (4, ⟨11, .fn⟩) ∧ byClassOrAncestor world env false 3 10 = some (3, ⟨10, .con⟩) := by
  refine ⟨?_, ?_⟩ <;> decide +kernel

/-- **C96.** Function names are looked for in the same way: the class found has functions of that name, no class on the way
has, and one is found whenever the class or an ancestor has one. -/
theorem C96_functions (w : World n) (ok : Ok w) (E : Env n) (c : Fin n) (x : Nat) :
    ((funcInClassOrAncestor w E c x).isSome = true ↔
      ∃ d, w.defined d = true ∧ SelfOrAncestor w (w.root c) d ∧ ∃ s ∈ (E.tabs d).funcs, s.name = x) ∧
    ∀ d s, funcInClassOrAncestor w E c x = some (d, s) → s ∈ (E.tabs d).funcs ∧ s.name = x ∧
      Relation.ReflTransGen (fun a b => Base w a b ∧ ¬ ∃ s ∈ (E.tabs a).funcs, s.name = x) (w.root c) d := by
  have hp : ∀ d, (isFuncIdInScope (E.tabs d) x).isSome = true ↔ ∃ s ∈ (E.tabs d).funcs, s.name = x := by
    intro d
    unfold isFuncIdInScope inTable
    rw [List.find?_isSome]
    simp
  obtain ⟨h1, h2⟩ := find_init w ok (fun d => isFuncIdInScope (E.tabs d) x) c
  constructor
  · unfold funcInClassOrAncestor
    rw [h1]
    simp only [hp]
  · intro d s h
    obtain ⟨_, h4, h5⟩ := h2 d s h
    have h6 : s ∈ (E.tabs d).funcs ∧ s.name = x := by
      unfold isFuncIdInScope inTable at h4
      exact ⟨List.mem_of_find?_eq_some h4, by simpa using List.find?_some h4⟩
    refine ⟨h6.1, h6.2, path_mono ?_ h5⟩
    rintro a b ⟨h8, h9⟩
    refine ⟨h8, ?_⟩
    rw [← hp, h9]; simp

example : funcInClassOrAncestor world env 1 11 = some (4, ⟨11, .fn⟩) ∧ funcInClassOrAncestor world env 1 10 = none := by
  refine ⟨?_, ?_⟩ <;> decide +kernel

/-- **C96.** The check for shadowing accepts a class exactly when no name of one of its data members is declared, as
anything, by a proper ancestor. -/
theorem C96_shadow_exact (w : World n) (ok : Ok w) (E : Env n) (c : Fin n) :
    classOk w E c = true ↔ ∀ s ∈ (E.tabs c).st, s.kind = .var → ∀ d, w.defined d = true → Ancestor w c d →
      ¬ Declares E d s.name := by
  have hn : ∀ x, noShadow w E c x = true ↔ ∀ d, w.defined d = true → Ancestor w c d → ¬ Declares E d x := by
    intro x
    unfold noShadow byAncestorsOf
    rw [decide_eq_true_iff, Finset.eq_empty_iff_forall_notMem]
    constructor
    · intro h d h1 h2 h3
      exact h d ((allLoop_eq w _ _ ∅ d).2 (.inr ⟨(mem_fromBases ok c d h1).2 h2, h1, (here_isSome E d x).2 h3⟩))
    · intro h d hd
      rcases (allLoop_eq w _ _ ∅ d).1 hd with h1 | ⟨h1, h2, h3⟩
      · exact absurd h1 (Finset.notMem_empty _)
      · exact h d h2 ((mem_fromBases ok c d h2).1 h1) ((here_isSome E d x).1 h3)
  unfold classOk
  rw [List.all_eq_true]
  simp only [List.mem_filter, decide_eq_true_eq, and_imp]
  constructor
  · intro h s h1 h2
    exact (hn _).1 (h s h1 h2)
  · intro h s h1 h2
    exact (hn _).2 (h s h1 h2)

example : classOk world env 2 = true ∧ classOk world { env with tabs := fun x => if x = 1 then ⟨[⟨10, .var⟩], []⟩ else env.tabs x } 1
    = false := by
  refine ⟨?_, ?_⟩ <;> decide +kernel

/-- **C96 (partial).** Without cycles, and if each class between `c` and the class found is the base of only one class there,
nothing between them hides what is found. Missing: classes that share a base, see `C96_hidden_fails`. -/
theorem C96_unhidden_partial (w : World n) (ok : Ok w) (ac : Acyclic w) (E : Env n) (ctx c d : Fin n) (x : Nat) (s : Sym)
    (hc : w.defined c = true) (ow : OneWay w c d) (h : lookup w E false ctx c x = some (.member d s)) :
    ¬ Hidden w E x c d := by
  obtain ⟨⟨_, _, hp⟩, _⟩ := C96_seen w ok E ctx c d x s hc h
  have key : ∀ y, Relation.ReflTransGen (Silent w E x) c y → SelfOrAncestor w y d → ¬ Hidden w E x c y := by
    intro y hy
    induction hy with
    | refl =>
      rintro _ ⟨e, _, h2, h3⟩
      exact ac e (Relation.TransGen.trans_left h3 h2)
    | tail h1 h2 ih =>
      rename_i b y
      rintro hyd ⟨e, q1, q2, q3⟩
      obtain ⟨a, q4, q5⟩ := Relation.TransGen.tail'_iff.1 q3
      have hb : SelfOrAncestor w c b := path_mono (fun _ _ q => q.1) h1
      have hab : a = b := ow y a b hyd (q2.trans q4) hb q5 h2.1
      subst hab
      rcases Relation.reflTransGen_iff_eq_or_transGen.1 q4 with q | q
      · subst q; exact h2.2 q1
      · exact ih (Relation.ReflTransGen.head h2.1 hyd) ⟨e, q1, q2, q⟩
  exact key d hp .refl

/-- **C96 (fails).** Of two declarations one of which hides the other, the hidden one may be found: with a shared base, the
walk meets the base on the way of the first class before the second class, which declares the name anew. All classes pass the
check for shadowing, which is only for data members. -/
theorem C96_hidden_fails : ∃ (w : World 8) (E : Env 8) (c d : Fin 8) (s : Sym), Ok w ∧ Acyclic w ∧ (∀ e, classOk w E e = true) ∧
    w.defined c = true ∧ lookup w E false c c s.name = some (.member d s) ∧ Hidden w E s.name c d := by
  refine ⟨world, env, 1, 4, ⟨10, .con⟩, world_ok, world_acyclic, by decide +kernel, rfl, by decide +kernel, 3, ⟨⟨10, .con⟩, by decide, rfl⟩, ?_, ?_⟩
  · exact .single (by unfold Base; decide)
  · exact .single (by unfold Base; decide)

/-- **C96 (fails).** Two bases may declare the same name, neither hiding the other, as data members: the class passes the
check, no ambiguity is reported, and which one the name stands for depends on the order of the bases. -/
theorem C96_ambiguous_fails : ∃ (w v : World 8) (E : Env 8) (c d e : Fin 8) (s : Sym), Ok w ∧ Ok v ∧ Acyclic w ∧ Acyclic v ∧
    (∀ a b, Base w a b ↔ Base v a b) ∧ (∀ a, classOk w E a = true) ∧ s.kind = .var ∧ d ≠ e ∧
    ¬ Ancestor w d e ∧ ¬ Ancestor w e d ∧
    lookup w E false c c s.name = some (.member d s) ∧ lookup v E false c c s.name = some (.member e s) := by
  have hn : ∀ a b : Fin 8, (a = 2 ∨ a = 3) → Ancestor world a b → b = 4 := by
    intro a b ha h
    have h4 : ∀ b, ¬ Base world 4 b := by unfold Base; decide
    have h2 : ∀ b, Base world 2 b → b = 4 := by unfold Base; decide
    have h3 : ∀ b, Base world 3 b → b = 4 := by unfold Base; decide
    have ih : ∀ b, Ancestor world a b → b = 4 := by
      intro b hb
      induction hb with
      | single h => rcases ha with rfl | rfl
                    · exact h2 _ h
                    · exact h3 _ h
      | tail _ h ih => subst ih; exact absurd h (h4 _)
    exact ih b h
  refine ⟨world, swapped, env, 1, 2, 3, ⟨13, .var⟩, world_ok, ⟨by decide, by decide⟩, world_acyclic,
    acyclic_of_up (by unfold Base; decide), by unfold Base; decide, by decide +kernel, rfl, by decide, ?_, ?_, by decide +kernel,
    by decide +kernel⟩
  · intro h; exact absurd (hn 2 3 (.inl rfl) h) (by decide)
  · intro h; exact absurd (hn 3 2 (.inr rfl) h) (by decide)

/-- **C96.** A symbol at the top of a file is only taken when no member has the name, and only for names used in their own
class. -/
theorem C96_file_last (w : World n) (ok : Ok w) (E : Env n) (ctx c : Fin n) (x : Nat) (s : Sym) (hc : w.defined c = true)
    (h : lookup w E false ctx c x = some (.file s)) :
    ctx = c ∧ s ∈ E.file c ∧ s.name = x ∧ ∀ d, w.defined d = true → SelfOrAncestor w c d → ¬ Declares E d x := by
  have hno : ∀ d, w.defined d = true → SelfOrAncestor w c d → ¬ Declares E d x := by
    intro d h1 h2 h3
    obtain ⟨d', s', h4⟩ := (C96_found w ok E ctx c x hc).2 ⟨d, h1, h2, h3⟩
    rw [h] at h4; cases h4
  unfold lookup at h
  split at h
  · cases h
  · split at h
    · cases h
    · split at h
      · rename_i hcc
        rw [Option.map_eq_some_iff] at h
        obtain ⟨a, h1, h2⟩ := h
        cases h2
        unfold inTable at h1
        exact ⟨hcc, List.mem_of_find?_eq_some h1, by simpa using List.find?_some h1, hno⟩
      · cases h

example : lookup world env false 1 1 15 = some (.file ⟨15, .con⟩) ∧ lookup world env false 2 1 15 = none := by
  refine ⟨?_, ?_⟩ <;> decide +kernel

/-- **C96.** While only constants are asked for, a name that cannot be a type's stands for a constant, a function, or
something at the top of the file: never for a data member or a typedef. -/
theorem C96_constants_only (w : World n) (E : Env n) (ctx c d : Fin n) (x : Nat) (s : Sym) (hx : E.isType x = false)
    (h : lookup w E true ctx c x = some (.member d s)) : s.kind = .con ∨ s ∈ (E.tabs d).funcs := by
  have key : ∀ d s, here E true d x = some s → s.kind = .con ∨ s ∈ (E.tabs d).funcs := by
    intro d s h
    have h0 : ∀ {s}, inBlock E true d x = some s → s.kind = .con := by
      intro s h
      unfold inBlock at h
      rw [Option.filter_eq_some_iff] at h
      simpa [hx] using h.2
    unfold here at h
    rw [Option.or_eq_some_iff, Option.or_eq_some_iff] at h
    rcases h with (h | ⟨_, h⟩) | ⟨_, h⟩
    · exact .inl (h0 h)
    · exact .inl (h0 h)
    · unfold isFuncIdInScope inTable at h
      exact .inr (List.mem_of_find?_eq_some h)
  rcases lookup_member.1 h with ⟨h1, h2⟩ | ⟨_, h2⟩
  · subst h2; exact key d s h1
  · unfold byAncestorOf at h2
    rw [findLoop_eq, Option.bind_eq_some_iff] at h2
    obtain ⟨d', _, h4⟩ := h2
    rw [Option.map_eq_some_iff] at h4
    obtain ⟨s', h4, h5⟩ := h4
    cases h5
    exact key d s h4

example : lookup world env true 1 1 10 = some (.member 4 ⟨10, .con⟩) ∧ lookup world env true 1 1 13 = none := by
  refine ⟨?_, ?_⟩ <;> decide +kernel

end Ulam.Member
