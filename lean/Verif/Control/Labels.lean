import Verif.Control.Correct
/- Labels and gotos of the generated code. -/
namespace Ulam.Control

mutual
/-- The labels in the code, each with a mark: true for those of a `which`. -/
def labelsOf : Node → List (Bool × Nat)
  | .label n => [(false, n)]
  | .block ns => labelsIn false ns
  | .ite _ t => labelsOf t
  | .iteElse _ t e => labelsOf t ++ labelsOf e
  | .whil _ b => labelsIn false b
  | .sw _ _ ns => labelsIn true ns
  | _ => []
def labelsIn (sw : Bool) : Nodes → List (Bool × Nat)
  | .nil => []
  | .cons (.label n) ns => (sw, n) :: labelsIn sw ns
  | .cons x ns => labelsOf x ++ labelsIn sw ns
end

mutual
/-- The targets of the gotos in the code: those of `NodeBreakStatement` and `NodeContinueStatement`. -/
def gotosOf : Node → List Nat
  | .brk n => if n = 0 then [] else [n]
  | .cont n => [n]
  | .block ns => gotosIn ns
  | .ite _ t => gotosOf t
  | .iteElse _ t e => gotosOf t ++ gotosOf e
  | .whil _ b => gotosIn b
  | .sw _ _ ns => gotosIn ns
  | _ => []
def gotosIn : Nodes → List Nat
  | .nil => []
  | .cons x ns => gotosOf x ++ gotosIn ns
end

theorem labelsIn_cons (sw : Bool) (x : Node) (ns : Nodes) (hx : ∀ m, x ≠ .label m) :
    labelsIn sw (.cons x ns) = labelsOf x ++ labelsIn sw ns := by
  cases x with
  | label m => exact absurd rfl (hx m)
  | _ => simp [labelsIn]

/-- What is known about the labels `L` and gotos `G` of a piece of code. -/
structure Labs (nd : Bool) (b c : Nat) (p q : PS) (L : List (Bool × Nat)) (G : List Nat) : Prop where
  range : ∀ l ∈ L, p.next < l.2 ∧ l.2 ≤ q.next
  nodup : (L.map (·.2)).Nodup
  gotos : ∀ g ∈ G, g ∈ L.map (·.2) ∨ (g = (nearestContinue p.stack).1 ∧ 0 < c) ∨ (breakTo p.stack = .goto g ∧ 0 < b)
  contIn : 0 < c → (nearestContinue p.stack).1 ∈ G
  brkIn : 0 < b → ∀ g, breakTo p.stack = .goto g → g ∈ G
  used : ∀ l ∈ L, nd = true ∨ l.1 = true → l.2 ∈ G

theorem Labs.none (nd : Bool) (p q : PS) : Labs nd 0 0 p q [] [] := by
  constructor <;> simp

theorem breakTo_shape {a b : List Desc} (h : shape a = shape b) : breakTo a = breakTo b := by
  have := congrFun (tr_shape h) .brk
  exact this

theorem Labs.trans {nd : Bool} {b c b' c' : Nat} {p q r : PS} {L L' G G'} (h : Labs nd b c p q L G)
    (h' : Labs nd b' c' q r L' G') (k : Keeps p q) (k' : Keeps q r) :
    Labs nd (b + b') (c + c') p r (L ++ L') (G ++ G') := by
  have hs := nearestContinue_shape k.shape
  have hb := breakTo_shape k.shape
  have kn := k.next
  have kn' := k'.next
  refine ⟨?_, ?_, ?_, ?_, ?_, ?_⟩
  · intro l hl
    rcases List.mem_append.mp hl with hl | hl
    · have := h.range l hl; omega
    · have := h'.range l hl; omega
  · rw [List.map_append, List.nodup_append]
    refine ⟨h.nodup, h'.nodup, ?_⟩
    intro x hx y hy
    obtain ⟨l, hl, rfl⟩ := List.mem_map.mp hx
    obtain ⟨l', hl', rfl⟩ := List.mem_map.mp hy
    have := h.range l hl
    have := h'.range l' hl'
    omega
  · intro g hg
    rw [List.map_append, List.mem_append]
    rcases List.mem_append.mp hg with hg | hg
    · rcases h.gotos g hg with h1 | ⟨h1, h2⟩ | ⟨h1, h2⟩
      · exact .inl (.inl h1)
      · exact .inr (.inl ⟨h1, by omega⟩)
      · exact .inr (.inr ⟨h1, by omega⟩)
    · rcases h'.gotos g hg with h1 | ⟨h1, h2⟩ | ⟨h1, h2⟩
      · exact .inl (.inr h1)
      · exact .inr (.inl ⟨h1.trans hs, by omega⟩)
      · exact .inr (.inr ⟨hb ▸ h1, by omega⟩)
  · intro hc
    rw [List.mem_append]
    by_cases h0 : 0 < c
    · exact .inl (h.contIn h0)
    · right; rw [← hs]; exact h'.contIn (by omega)
  · intro hbb g hg
    rw [List.mem_append]
    by_cases h0 : 0 < b
    · exact .inl (h.brkIn h0 g hg)
    · right; exact h'.brkIn (by omega) g (hb ▸ hg)
  · intro l hl hu
    rw [List.mem_append]
    rcases List.mem_append.mp hl with hl | hl
    · exact .inl (h.used l hl hu)
    · exact .inr (h'.used l hl hu)

theorem labelsIn_step (sw : Bool) (st : Option Nat) : labelsIn sw (.ofList (stepNodes st)) = [] := by
  cases st <;> simp [stepNodes, Nodes.ofList, labelsIn, labelsOf]

theorem gotosIn_step (st : Option Nat) : gotosIn (.ofList (stepNodes st)) = [] := by
  cases st <;> simp [stepNodes, Nodes.ofList, gotosIn, gotosOf]

/-- A loop around a body. -/
theorem Labs.loop {nd : Bool} {b c : Nat} {p q : PS} {n : Node} (k : Kind) (hk : k ≠ .which) (st : Option Nat)
    (hn : ∀ m, n ≠ .label m)
    (he : Effect b c ((p.push k).sanity nd) q) (hkq : Keeps ((p.push k).sanity nd) q) (hi : Inv p)
    (h : Labs nd b c ((p.push k).sanity nd) q (labelsOf n) (gotosOf n)) :
    Labs nd 0 0 p (loopBody nd q n st).2.pop (labelsIn false (loopBody nd q n st).1) (gotosIn (loopBody nd q n st).1) := by
  have hstk := sanity_push_stack nd p k hk
  have hl : ∀ u, Desc.isLoop ⟨k, p.next + 1, u⟩ = true := by intro u; cases k <;> simp_all [isLoop_eq]
  have hc1 : (nearestContinue ((p.push k).sanity nd).stack).1 = p.next + 1 := by
    rw [hstk]; simp [nearestContinue, hl]
  have hb1 : breakTo ((p.push k).sanity nd).stack = .brk := by rw [hstk]; simp [breakTo, hk]
  have hn1 : ((p.push k).sanity nd).next = p.next + 1 := by rw [sanity_next]; rfl
  have hnq : (loopBody nd q n st).2.pop.next = q.next := loopBody_next nd q n st
  have hkn := hkq.next
  rw [hn1] at hkn
  have hrange := h.range
  rw [hn1] at hrange
  have hgotos := h.gotos
  rw [hc1, hb1] at hgotos
  rw [(loop_effect nd p q k hk b c n st he).2]
  by_cases hlab : base nd + c > 0
  · rw [if_pos hlab]
    have e1 : labelsIn false (.ofList (n :: .label (p.next + 1) :: stepNodes st)) = labelsOf n ++ [(false, p.next + 1)] := by
      simp only [Nodes.ofList]
      rw [labelsIn_cons _ _ _ hn, labelsIn, labelsIn_step]
    have e2 : gotosIn (.ofList (n :: .label (p.next + 1) :: stepNodes st)) = gotosOf n := by
      simp only [Nodes.ofList, gotosIn, gotosIn_step, gotosOf, List.append_nil]
    rw [e1, e2]
    refine ⟨?_, ?_, ?_, by simp, by simp, ?_⟩
    · intro l hl
      rw [hnq]
      rcases List.mem_append.mp hl with hl | hl
      · have := hrange l hl; omega
      · simp only [List.mem_singleton] at hl
        subst hl
        simp only; omega
    · rw [List.map_append, List.nodup_append]
      refine ⟨h.nodup, by simp, ?_⟩
      intro x hx y hy
      obtain ⟨l, hl, rfl⟩ := List.mem_map.mp hx
      simp only [List.map_cons, List.map_nil, List.mem_singleton] at hy
      have := hrange l hl
      omega
    · intro g hg
      left
      rw [List.map_append, List.mem_append]
      rcases hgotos g hg with h1 | ⟨h1, _⟩ | ⟨h1, _⟩
      · exact .inl h1
      · right; simp [h1]
      · simp at h1
    · intro l hl hu
      rcases List.mem_append.mp hl with hl | hl
      · exact h.used l hl hu
      · simp only [List.mem_singleton] at hl
        subst hl
        simp only [Bool.false_eq_true, or_false] at hu
        subst hu
        simp only [base, if_true, Nat.zero_add] at hlab
        have := h.contIn hlab
        rwa [hc1] at this
  · rw [if_neg hlab]
    have e1 : labelsIn false (.ofList (n :: stepNodes st)) = labelsOf n := by
      simp only [Nodes.ofList]
      rw [labelsIn_cons _ _ _ hn, labelsIn_step, List.append_nil]
    have e2 : gotosIn (.ofList (n :: stepNodes st)) = gotosOf n := by
      simp only [Nodes.ofList, gotosIn, gotosIn_step, List.append_nil]
    rw [e1, e2]
    refine ⟨?_, h.nodup, ?_, by simp, by simp, h.used⟩
    · intro l hl
      rw [hnq]
      have := hrange l hl; omega
    · intro g hg
      rcases hgotos g hg with h1 | ⟨h1, h2⟩ | ⟨h1, _⟩
      · exact .inl h1
      · omega
      · simp at h1

def labelsOpt : Option Node → List (Bool × Nat)
  | some n => labelsOf n
  | none => []
def gotosOpt : Option Node → List Nat
  | some n => gotosOf n
  | none => []

theorem parseGroups_not_label (nd : Bool) (num : Nat) (v : Bool) (gs : Groups) (first seen : Bool) (p : PS) (m : Nat) :
    (parseGroups nd num v gs first seen p).1 ≠ some (.label m) := by
  cases gs with
  | nil => simp [parseGroups]
  | cons l ls b gs =>
    simp only [parseGroups]
    split
    · simp
    · simp
    · split
      · split <;> simp
      · simpa using parse_not_label nd b p m

mutual
theorem parse_labs (nd : Bool) : ∀ (s : Stmt) (p : PS), Inv p → Ok p.stack s →
    Labs nd (nBrk s) (nCont s) p (parse nd s p).2 (labelsOf (parse nd s p).1) (gotosOf (parse nd s p).1)
  | .act a, p, _, _ => by simp only [parse, nBrk, nCont, labelsOf, gotosOf]; exact .none nd p p
  | .ret, p, _, _ => by simp only [parse, nBrk, nCont, labelsOf, gotosOf]; exact .none nd p p
  | .brk, p, hi, h => by
    have h' : okBreak p.stack = true := by simpa [Ok, wellFormed, okBreak] using h
    simp only [parse, h', if_true, nBrk, nCont, labelsOf, gotosOf]
    cases hst : p.stack with
    | nil => rw [hst] at h'; simp [okBreak] at h'
    | cons d ds =>
      have hd : 0 < d.num := hi.pos (d.kind, d.num) (by rw [hst]; simp [shape])
      by_cases hk : d.kind = .which
      · have hne : d.num ≠ 0 := by omega
        simp only [nearestBreak, hk, if_true, if_neg hne]
        constructor <;> simp [hst, breakTo, hk]
      · simp only [nearestBreak, if_neg hk, if_true]
        constructor <;> simp [hst, breakTo, hk]
  | .cont, p, hi, h => by
    have h' : hasLoop p.stack = true := by simpa [Ok, wellFormed] using h
    have hne := (nearestContinue_pos p.stack hi.pos).mpr h'
    simp only [parse, if_pos hne, nBrk, nCont, labelsOf, gotosOf]
    constructor <;> simp
  | .block ss, p, hi, h => by
    simp only [parse, nBrk, nCont, labelsOf, gotosOf]
    exact parses_labs nd ss p hi (by simpa [Ok, wellFormed] using h)
  | .ite c t, p, hi, h => by
    simp only [parse, nBrk, nCont, labelsOf, gotosOf]
    exact parse_labs nd t p hi (by simpa [Ok, wellFormed] using h)
  | .iteElse c t e, p, hi, h => by
    simp only [parse, nBrk, nCont, labelsOf, gotosOf]
    have h' : Ok p.stack t ∧ Ok p.stack e := by simpa [Ok, wellFormed] using h
    have k := parse_keeps nd t p
    exact (parse_labs nd t p hi h'.1).trans (parse_labs nd e _ (hi.keeps k) (by unfold Ok; rw [wf_env k]; exact h'.2)) k
      (parse_keeps nd e _)
  | .whil c b, p, hi, h => by
    obtain ⟨h1, h2, _⟩ := sanity_push_loop nd p .whil (by decide)
    have hok : Ok ((p.push .whil).sanity nd).stack b := by
      unfold Ok; rw [h1, h2]; simpa [Ok, wellFormed] using h
    have := Labs.loop .whil (by decide) none (parse_not_label nd b _) (parse_effect nd b _ hok) (parse_keeps nd b _) hi
      (parse_labs nd b _ ((hi.push .whil).keeps (.sanity nd _)) hok)
    simpa only [parse, nBrk, nCont, labelsOf, gotosOf, labelsIn, gotosIn, List.append_nil] using this
  | .forr i c st b, p, hi, h => by
    obtain ⟨h1, h2, _⟩ := sanity_push_loop nd p .forr (by decide)
    have hok : Ok ((p.push .forr).sanity nd).stack b := by
      unfold Ok; rw [h1, h2]; simpa [Ok, wellFormed] using h
    have := Labs.loop .forr (by decide) st (parse_not_label nd b _) (parse_effect nd b _ hok) (parse_keeps nd b _) hi
      (parse_labs nd b _ ((hi.push .forr).keeps (.sanity nd _)) hok)
    cases i <;>
      simpa only [parse, nBrk, nCont, labelsOf, gotosOf, labelsIn, gotosIn, List.append_nil, List.nil_append] using this
  | .which e gs, p, hi, h => by
    have hl : hasLoop (p.push .which).stack = hasLoop p.stack := by
      simp [PS.push, hasLoop, isLoop_eq]
    have hg : groupsOk (hasLoop (p.push .which).stack) gs = true := by rw [hl]; simpa [Ok, wellFormed] using h
    let p1 : PS := { p.push .which with next := (p.push .which).next + 1 }
    have hi1 : Inv p1 := fun x hx => ⟨((hi.push .which) x hx).1, Nat.le_succ_of_le ((hi.push .which) x hx).2⟩
    have eff := parseGroups_effect nd ((p.push .which).next + 1) e.isSome gs true p1 rfl hg
    have hstk : (parseGroups nd ((p.push .which).next + 1) e.isSome gs true false p1).2.stack =
        ⟨.which, p.next + 1, nBrkG gs⟩ :: addCont (nContG gs) p.stack := by
      rw [eff.stack]
      show addBrk _ (addCont _ (⟨.which, p.next + 1, 0⟩ :: p.stack)) = _
      rw [add_which, Nat.zero_add]
    have hlabs : (if nearestBreakIfUsed (parseGroups nd ((p.push .which).next + 1) e.isSome gs true false p1).2.stack > 0
        then [Node.label (nearestBreakIfUsed (parseGroups nd ((p.push .which).next + 1) e.isSome gs true false p1).2.stack)]
        else []) = if nBrkG gs > 0 then [Node.label (p.next + 1)] else [] := by
      rw [hstk, nearestBreakIfUsed_which]
      by_cases hb : nBrkG gs > 0 <;> simp [hb]
    have ih := parseGroups_labs nd ((p.push .which).next + 1) e.isSome gs true p1 hi1 rfl hg
    have kk := parseGroups_keeps nd ((p.push .which).next + 1) e.isSome gs true false p1
    have hnl := parseGroups_not_label nd ((p.push .which).next + 1) e.isSome gs true false p1
    have hc1 : (nearestContinue p1.stack).1 = (nearestContinue p.stack).1 := by
      show (nearestContinue (⟨.which, p.next + 1, 0⟩ :: p.stack)).1 = _
      simp [nearestContinue, isLoop_eq]
    have hb1 : breakTo p1.stack = .goto (p.next + 1) := rfl
    have hn1 : p1.next = p.next + 2 := rfl
    simp only [parse, nBrk, nCont, labelsOf, gotosOf]
    simp only [p1] at hlabs
    rw [hlabs]
    have e1 : labelsIn true (.ofList (chainThen (parseGroups nd ((p.push .which).next + 1) e.isSome gs true false p1).1
        (if nBrkG gs > 0 then [Node.label (p.next + 1)] else []))) =
        labelsOpt (parseGroups nd ((p.push .which).next + 1) e.isSome gs true false p1).1 ++
          (if nBrkG gs > 0 then [(true, p.next + 1)] else []) := by
      cases hq : (parseGroups nd ((p.push .which).next + 1) e.isSome gs true false p1).1 with
      | none => split <;> simp [chainThen, Nodes.ofList, labelsIn, labelsOpt]
      | some n =>
        rw [hq] at hnl
        simp only [chainThen, Nodes.ofList, labelsOpt]
        rw [labelsIn_cons _ _ _ (fun m hm => hnl m (by rw [hm]))]
        split <;> simp [Nodes.ofList, labelsIn]
    have e2 : gotosIn (.ofList (chainThen (parseGroups nd ((p.push .which).next + 1) e.isSome gs true false p1).1
        (if nBrkG gs > 0 then [Node.label (p.next + 1)] else []))) =
        gotosOpt (parseGroups nd ((p.push .which).next + 1) e.isSome gs true false p1).1 := by
      cases hq : (parseGroups nd ((p.push .which).next + 1) e.isSome gs true false p1).1 with
      | none => split <;> simp [chainThen, Nodes.ofList, gotosIn, gotosOpt, gotosOf]
      | some n => split <;> simp [chainThen, Nodes.ofList, gotosIn, gotosOpt, gotosOf]
    have hkn := kk.next
    rw [hn1] at hkn
    simp only [p1] at e1 e2
    rw [e1, e2]
    refine ⟨?_, ?_, ?_, ?_, by simp, ?_⟩
    · intro l hl
      simp only [PS.pop]
      rcases List.mem_append.mp hl with hl | hl
      · have := ih.range l hl
        rw [hn1] at this
        simp only [p1] at this
        omega
      · have hl' : l = (true, p.next + 1) := by
          split at hl
          · simpa using hl
          · simp at hl
        subst hl'
        simp only [p1] at hkn
        simp only
        omega
    · rw [List.map_append, List.nodup_append]
      refine ⟨ih.nodup, by split <;> simp, ?_⟩
      intro x hx y hy
      obtain ⟨l, hl, rfl⟩ := List.mem_map.mp hx
      have := ih.range l hl
      rw [hn1] at this
      have : y = p.next + 1 := by
        split at hy
        · simpa using hy
        · simp at hy
      omega
    · intro g hg
      rw [List.map_append, List.mem_append]
      rcases ih.gotos g hg with h1 | ⟨h1, h2⟩ | ⟨h1, h2⟩
      · exact .inl (.inl h1)
      · exact .inr (.inl ⟨h1.trans hc1, h2⟩)
      · left; right
        rw [hb1, COut.goto.injEq] at h1
        rw [if_pos h2]
        simp [h1]
    · intro hc
      have := ih.contIn hc
      rwa [hc1] at this
    · intro l hl hu
      rcases List.mem_append.mp hl with hl | hl
      · exact ih.used l hl hu
      · split at hl
        · next hb =>
          have := ih.brkIn hb (p.next + 1) hb1
          simp only [List.mem_singleton] at hl
          subst hl
          exact this
        · simp at hl
theorem parses_labs (nd : Bool) : ∀ (ss : Stmts) (p : PS), Inv p →
    wellFormeds (hasLoop p.stack) (!p.stack.isEmpty) ss = true →
    Labs nd (nBrks ss) (nConts ss) p (parses nd ss p).2 (labelsIn false (parses nd ss p).1) (gotosIn (parses nd ss p).1)
  | .nil, p, _, _ => by simp only [parses, nBrks, nConts, labelsIn, gotosIn]; exact .none nd p p
  | .cons s ss, p, hi, h => by
    simp only [wellFormeds, Bool.and_eq_true] at h
    simp only [parses, nBrks, nConts, gotosIn]
    have k := parse_keeps nd s p
    rw [labelsIn_cons _ _ _ (parse_not_label nd s p)]
    exact (parse_labs nd s p hi h.1).trans (parses_labs nd ss _ (hi.keeps k)
      (by rw [hasLoop_shape k.shape, isEmpty_shape k.shape]; exact h.2)) k (parses_keeps nd ss _)
theorem parseGroups_labs (nd : Bool) (num : Nat) (v : Bool) : ∀ (gs : Groups) (first : Bool) (p : PS), Inv p →
    p.stack.isEmpty = false → groupsOk (hasLoop p.stack) gs = true →
    Labs nd (nBrkG gs) (nContG gs) p (parseGroups nd num v gs first false p).2
      (labelsOpt (parseGroups nd num v gs first false p).1) (gotosOpt (parseGroups nd num v gs first false p).1)
  | .nil, first, p, _, _, _ => by
    simp only [parseGroups, nBrkG, nContG, labelsOpt, gotosOpt]; exact .none nd p p
  | .cons l ls b gs, first, p, hi, hne, h => by
    obtain ⟨h1, h2, h3⟩ := groupsOk_parts h
    have k := parse_keeps nd b p
    have eb := parse_labs nd b p hi (by unfold Ok; rw [hne]; simpa using h2)
    simp only [parseGroups, nBrkG, nContG]
    rcases restOfCase_ok num v l ls _ h1 with ⟨_, hl, hr⟩ | ⟨e, es, _, hr⟩
    · obtain rfl : gs = .nil := by cases gs <;> simp_all [Groups.isNil]
      rw [hr]
      simp only [nBrkG, nContG, parseGroups]
      split
      · simpa only [labelsOpt, gotosOpt, labelsOf, gotosOf, Nat.add_zero] using eb
      · simpa only [labelsOpt, gotosOpt, Nat.add_zero] using eb
    · rw [hr]
      simp only [true_or, if_true]
      have ihg := parseGroups_labs nd num v gs false (parse nd b p).2 (hi.keeps k)
        ((isEmpty_shape k.shape).trans hne) (by rw [hasLoop_shape k.shape]; exact h3)
      have := eb.trans ihg k (parseGroups_keeps nd num v gs false false _)
      cases hq : (parseGroups nd num v gs false false (parse nd b p).2).1 with
      | none => rw [hq] at this; simpa only [labelsOpt, gotosOpt, labelsOf, gotosOf, List.append_nil] using this
      | some n => rw [hq] at this; simpa only [labelsOpt, gotosOpt, labelsOf, gotosOf] using this
end

end Ulam.Control
