import Verif.VtGen.Lemmas
/-! # C104: virtual functions in the generated code -/
namespace Ulam.VtGen
open Ulam.Walker Ulam.Walker.Spec Ulam.Virtual Ulam.Virtual.Spec
variable {n : Nat}

/-- Classes have numbers of their own, below the size of the registry (C37), and a class knows where its ancestors are (C15). -/
structure Numbered (P : Program n) (rel : Fin n → Fin n → Option Nat) (reg : Fin n → Nat) (maxreg : Nat) : Prop where
  inj : ∀ a b, P.w.defined a = true → P.w.defined b = true → reg a = reg b → a = b
  lt : ∀ a, P.w.defined a = true → reg a < maxreg
  rel : ∀ c a, P.w.defined c = true → SelfOrAncestor P.w c a → (rel c a).isSome = true

/-- The entry for a function of a class, given whether it is pure. -/
def entryFor (pure : Bool) (a : Fin n) (name : Nat) : Slot n := if pure then .pure else .fn a name

theorem related_defined {P : Program n} (L : Legal P) {c a : Fin n} (hc : P.w.defined c = true) (h : SelfOrAncestor P.w c a) :
    P.w.defined a = true := by
  rcases soa_cases h with q | q
  · rw [q]; exact hc
  · exact L.anc_defined q

theorem own_nodup {P : Program n} (L : Legal P) (c : Fin n) : (own P c).Nodup := by
  unfold own
  exact (L.once c).filter _

theorem starts_mem {k : ClassSt n} {p : Fin n × Nat} (h : p ∈ k.starts) : (startOf k p.1).isSome = true := by
  unfold startOf
  rw [Option.isSome_map, List.find?_isSome]
  exact ⟨p, h, by simp⟩

/-- What is written for a class. -/
theorem gen_spec (P : Program n) (L : Legal P) (cs : List (Fin n)) (hcs : ∀ c ∈ cs, P.w.defined c = true) (m : Nat)
    (st : St n) (hr : Runs P cs m st) (rel : Fin n → Fin n → Option Nat) (reg : Fin n → Nat) (maxreg : Nat)
    (N : Numbered P rel reg maxreg) (name : Nat → Nat) (c : Fin n) (hc : P.w.defined c = true) (hd : (st.cls c).max.isSome = true) :
    if (st.cls c).vtable.length = 0 then gen rel reg maxreg name c (st.cls c) = some none
    else ∃ g, gen rel reg maxreg name c (st.cls c) = some (some g) ∧
      (∀ (i : Nat) (e : VTEntry n), (st.cls c).vtable[i]? = some e → g.table[i]? = some (entryFor e.pure e.ofClass (name e.func.2))) ∧
      g.table.length = (st.cls c).vtable.length ∧ g.starts.length = maxreg ∧
      (∀ o, SelfOrAncestor P.w c o → g.starts[reg o]? = (startOf (st.cls c) o).map (· % 65536)) ∧
      (∀ i, i < maxreg → (∀ o, SelfOrAncestor P.w c o → reg o ≠ i) → g.starts[i]? = some 0) ∧
      g.names = (own P c).map name := by
  obtain ⟨G, -, -⟩ := (hr.inv L hcs).good c hc hd
  obtain ⟨s1, s2, s3, s4⟩ := C16_slots_are_stable P L cs hcs m st hr c hc hd
  have ns : NS st := passes_ns m hr.1 (fun x => by simp [Virtual.start])
  unfold gen
  rw [s4]
  by_cases h0 : (st.cls c).vtable.length = 0
  · rw [if_pos h0]
    dsimp only
    rw [if_pos h0]
  rw [if_neg h0]
  dsimp only
  rw [if_neg h0]
  -- the table
  let e0 : VTEntry n := (st.cls c).vtable[0]'(by omega)
  have ht : table rel name c (st.cls c) (st.cls c).vtable.length =
      some ((List.range (st.cls c).vtable.length).map fun i =>
        (fun e : VTEntry n => entryFor e.pure e.ofClass (name e.func.2)) (((st.cls c).vtable[i]?).getD e0)) := by
    unfold table
    apply collect_some
    intro i hi
    rw [List.mem_range] at hi
    rw [List.getElem?_eq_getElem hi, Option.bind_some, Option.getD_some]
    obtain ⟨o, t, j, k1, k2, k3⟩ := s3 i hi
    obtain ⟨e, k4, -, -, -, k5, -⟩ := s2 o t k1 j _ (List.getElem?_eq_getElem k3)
    rw [← k2, List.getElem?_eq_getElem hi, Option.some.injEq] at k4
    rw [k4]
    unfold slot
    dsimp only
    unfold entryFor
    split
    · rfl
    · rw [if_pos (N.rel c _ hc k5)]
  -- the starts
  have hrel : ∀ p ∈ (st.cls c).starts, SelfOrAncestor P.w c p.1 := fun p hp => (G.keys p.1).1 (starts_mem hp)
  have hs : convert reg (st.cls c).starts [] = some ((st.cls c).starts.map fun p => (reg p.1, p.2)) := by
    rw [convert_eq]
    · simp
    · rw [List.map_nil, List.nil_append]
      have : ((st.cls c).starts.map fun p => reg p.1) = ((st.cls c).starts.map Prod.fst).map reg := by simp
      rw [this]
      refine List.Nodup.map_on ?_ (ns c)
      intro x hx y hy e
      obtain ⟨p, hp, rfl⟩ := List.mem_map.1 hx
      obtain ⟨q, hq, rfl⟩ := List.mem_map.1 hy
      exact N.inj _ _ (related_defined L hc (hrel p hp)) (related_defined L hc (hrel q hq)) e
  have hst : starts reg maxreg (st.cls c) = some ((List.range maxreg).map fun i =>
      ((((st.cls c).starts.map fun p => (reg p.1, p.2)).find? fun x => x.1 == i).map Prod.snd).getD 0 % 65536) := by
    unfold starts
    rw [hs, Option.map_some]
  -- the enumerators
  obtain ⟨t, hstart⟩ := Option.isSome_iff_exists.1 ((s1 c).1 .refl)
  have hen : enumerators name c (st.cls c) = some ((own P c).map name) := by
    unfold enumerators
    rw [hstart, Option.bind_some, G.owned.1]
    have : (own P c).map name = (List.range (own P c).length).map fun i => name (((own P c)[i]?).getD 0) := by
      apply List.ext_getElem
      · simp
      · intro i h1 h2
        simp only [List.getElem_map, List.getElem_range]
        rw [List.getElem?_eq_getElem (by simpa using h1), Option.getD_some]
    rw [this]
    apply collect_some
    intro i hi
    rw [List.mem_range] at hi
    obtain ⟨e, k1, -, -, k2, -⟩ := s2 c t hstart i _ (List.getElem?_eq_getElem hi)
    rw [Nat.add_comm, k1, Option.map_some, k2, List.getElem?_eq_getElem hi, Option.getD_some]
  obtain ⟨v, hv⟩ : ∃ v, (st.cls c).vtable.length = v + 1 := ⟨(st.cls c).vtable.length - 1, by omega⟩
  rw [hv] at ht ⊢
  rw [ht, hst, hen]
  refine ⟨_, rfl, ?_, by simp, by simp, ?_, ?_, rfl⟩
  · intro i e he
    have hi : i < v + 1 := hv ▸ (List.getElem?_eq_some_iff.1 he).1
    dsimp only
    rw [List.getElem?_map, List.getElem?_range hi, Option.map_some, he, Option.getD_some]
  · intro o ho
    have hlt := N.lt o (related_defined L hc ho)
    dsimp only
    rw [List.getElem?_map, List.getElem?_range hlt, Option.map_some, find_start]
    · obtain ⟨q, hq⟩ := Option.isSome_iff_exists.1 ((s1 o).1 ho)
      rw [hq]; rfl
    · intro p hp e
      exact N.inj _ _ (related_defined L hc (hrel p hp)) (related_defined L hc ho) e
  · intro i hi hn
    dsimp only
    rw [List.getElem?_map, List.getElem?_range hi, Option.map_some, find_none]
    · rfl
    · intro x hx
      obtain ⟨p, hp, rfl⟩ := List.mem_map.1 hx
      exact hn p.1 (hrel p hp)

/-- **C104.** For a class whose tables are done, the code is written without a failed assertion; a class without virtual functions
gets none of it, and one that has some gets all of their names, once each. -/
theorem C104_written (P : Program n) (L : Legal P) (cs : List (Fin n)) (hcs : ∀ c ∈ cs, P.w.defined c = true) (m : Nat)
    (st : St n) (hr : Runs P cs m st) (rel : Fin n → Fin n → Option Nat) (reg : Fin n → Nat) (maxreg : Nat)
    (N : Numbered P rel reg maxreg) (name : Nat → Nat) (inj : Function.Injective name) (c : Fin n) (hc : P.w.defined c = true)
    (hd : (st.cls c).max.isSome = true) :
    ∃ r, gen rel reg maxreg name c (st.cls c) = some r ∧
      (r.isSome = true ↔ ∃ o s, SelfOrAncestor P.w c o ∧ Begins P o s) ∧
      ∀ g, r = some g → g.names.Nodup ∧ g.starts.length = maxreg ∧ ∀ x, x ∈ g.names ↔ ∃ s, Begins P c s ∧ x = name s := by
  have key := gen_spec P L cs hcs m st hr rel reg maxreg N name c hc hd
  obtain ⟨s1, s2, s3, s4⟩ := C16_slots_are_stable P L cs hcs m st hr c hc hd
  have hmem : ∀ o s, s ∈ own P o ↔ Begins P o s := by
    intro o s
    unfold own
    simp only [List.mem_filter, decide_eq_true_eq, List.mem_map, and_iff_right_iff_imp]
    intro h
    obtain ⟨d, hd, e⟩ := h.1.1
    exact ⟨d, hd, e⟩
  have hsome : (st.cls c).vtable.length ≠ 0 ↔ ∃ o s, SelfOrAncestor P.w c o ∧ Begins P o s := by
    constructor
    · intro h
      obtain ⟨o, t, i, k1, -, k3⟩ := s3 0 (by omega)
      exact ⟨o, _, (s1 o).2 (by rw [k1]; rfl), (hmem o _).1 (List.getElem_mem k3)⟩
    · rintro ⟨o, s, h1, h2⟩ h
      obtain ⟨t, ht⟩ := Option.isSome_iff_exists.1 ((s1 o).1 h1)
      obtain ⟨i, hi⟩ := List.getElem?_of_mem ((hmem o s).2 h2)
      obtain ⟨e, k, -⟩ := s2 o t ht i s hi
      have := (List.getElem?_eq_some_iff.1 k).1
      omega
  by_cases h0 : (st.cls c).vtable.length = 0
  · rw [if_pos h0] at key
    refine ⟨none, key, ?_, fun g hg => by cases hg⟩
    rw [← hsome]
    simp [h0]
  · rw [if_neg h0] at key
    obtain ⟨g, h1, -, -, h2, -, -, h3⟩ := key
    refine ⟨some g, h1, by rw [← hsome]; simp [h0], ?_⟩
    rintro g' hg
    cases hg
    rw [h3]
    refine ⟨(own_nodup L c).map inj, h2, fun x => ?_⟩
    rw [List.mem_map]
    exact ⟨fun ⟨s, k1, k2⟩ => ⟨s, (hmem c s).1 k1, k2.symm⟩, fun ⟨s, k1, k2⟩ => ⟨s, (hmem c s).2 k1, k2.symm⟩⟩

/-- **C104.** A call of a virtual function, made by a reference or on `self` with an object of class `c`, or with the table of class `c`
named, gets the function of the most specific class that declares it, or the one that fails if that is pure. Missing: tables with
more than 65536 functions, see below; functions that begin in two classes are C16. -/
theorem C104_call_partial (P : Program n) (L : Legal P) (cs : List (Fin n)) (hcs : ∀ c ∈ cs, P.w.defined c = true) (m : Nat)
    (st : St n) (hr : Runs P cs m st) (rel : Fin n → Fin n → Option Nat) (reg : Fin n → Nat) (maxreg : Nat)
    (N : Numbered P rel reg maxreg) (name : Nat → Nat) (inj : Function.Injective name) (c : Fin n) (hc : P.w.defined c = true)
    (hd : (st.cls c).max.isSome = true) (small : (st.cls c).vtable.length ≤ 65536)
    (x : Fin n) (hx : SelfOrAncestor P.w c x) (s : Nat) (hv : IsVirtual P x s) (one : OneBeginning P c s) :
    ∃ f o g go a d, findFunc st x s = some f ∧ f.orig = some o ∧ gen rel reg maxreg name c (st.cls c) = some (some g) ∧
      gen rel reg maxreg name o (st.cls o) = some (some go) ∧ MostSpecific P c o s a ∧ d ∈ P.decls a ∧ d.sig = s ∧
      callEntry reg name g go f = some (entryFor d.pure a (name s)) ∧
      staticEntry name (st.cls c) f = some (entryFor d.pure a (name s)) := by
  obtain ⟨f, o, a, h1, h2, h3, h4, h5⟩ := C16_most_specific_partial P L cs hcs m st hr c hc hd x hx s hv one
  obtain ⟨s1, s2, s3, s4⟩ := C16_slots_are_stable P L cs hcs m st hr c hc hd
  have I := hr.inv L hcs
  have hxd := related_defined L hc hx
  have hxdone : (st.cls x).max.isSome = true := by
    rcases soa_cases hx with q | q
    · rw [q]; exact hd
    · exact (I.good c hc hd).2.2 x q
  obtain ⟨-, hk⟩ := C16_override_keeps_slot P L cs hcs m st hr x hxd hxdone s
  obtain ⟨hk1, hk2⟩ := hk f h1
  obtain ⟨o', k1, k2, k3, k4, -⟩ := hk2 (hk1.2 hv)
  have ho : o' = o := by rw [h2] at k1; cases k1; rfl
  subst ho
  have hco : SelfOrAncestor P.w c o' := hx.trans k2
  have hod := related_defined L hc hco
  have hodone : (st.cls o').max.isSome = true := by
    rcases soa_cases hco with q | q
    · rw [q]; exact hd
    · exact (I.good c hc hd).2.2 o' q
  have hfs : f.sig = s := by
    have := List.find?_some h1
    simpa using this
  obtain ⟨t, ht⟩ := Option.isSome_iff_exists.1 ((s1 o').1 hco)
  obtain ⟨e, e1, e2, e3, e4, e5, e6, d, e7, e8, e9⟩ := s2 o' t ht f.vidx s k4
  have hlt := (List.getElem?_eq_some_iff.1 e1).1
  have hea : e.ofClass = a := by
    unfold dispatch at h4
    rw [h2] at h4
    dsimp only at h4
    rw [ht, Option.bind_some, Nat.add_comm, e1] at h4
    simpa using h4
  subst hea
  have kc := gen_spec P L cs hcs m st hr rel reg maxreg N name c hc hd
  rw [if_neg (by omega)] at kc
  obtain ⟨g, g1, g2, g3, g4, g5, -, -⟩ := kc
  have ko := gen_spec P L cs hcs m st hr rel reg maxreg N name o' hod hodone
  have hol : (st.cls o').vtable.length ≠ 0 := by
    obtain ⟨p1, p2, -⟩ := C16_slots_are_stable P L cs hcs m st hr o' hod hodone
    obtain ⟨t', ht'⟩ := Option.isSome_iff_exists.1 ((p1 o').1 .refl)
    obtain ⟨e', q, -⟩ := p2 o' t' ht' f.vidx s k4
    have := (List.getElem?_eq_some_iff.1 q).1
    omega
  rw [if_neg hol] at ko
  obtain ⟨go, q1, -, -, -, -, -, q2⟩ := ko
  refine ⟨f, o', g, go, e.ofClass, d, h1, h2, g1, q1, h5, e7, e8, ?_, ?_⟩
  · unfold callEntry
    rw [h2]
    dsimp only
    have hidx : enumValue go (name f.sig) = some f.vidx := by
      unfold enumValue
      have hmap : go.names[f.vidx]? = some (name f.sig) := by rw [q2, List.getElem?_map, k4, hfs]; rfl
      obtain ⟨hl, hget⟩ := List.getElem?_eq_some_iff.1 hmap
      rw [if_pos (List.mem_of_getElem? hmap), ← hget, List.Nodup.idxOf_getElem]
      rw [q2]
      exact (own_nodup L o').map inj
    rw [hidx, Option.bind_some]
    unfold lookup getStart
    have hrn := N.lt o' hod
    rw [if_neg (by omega), g5 o' hco, ht, Option.map_some, Option.bind_some, Nat.mod_eq_of_lt (by omega)]
    unfold getEntry
    rw [if_neg (by omega), g2 _ e e1, e4, e9]
  · unfold staticEntry
    rw [h2]
    dsimp only
    rw [ht, Option.bind_some, Nat.add_comm, e1, Option.map_some, e4, e9]
    rfl

/-- **C104.** A start beyond 65535 does not fit: what the program finds for that class is another start. -/
theorem C104_start_fails (P : Program n) (L : Legal P) (cs : List (Fin n)) (hcs : ∀ c ∈ cs, P.w.defined c = true) (m : Nat)
    (st : St n) (hr : Runs P cs m st) (rel : Fin n → Fin n → Option Nat) (reg : Fin n → Nat) (maxreg : Nat)
    (N : Numbered P rel reg maxreg) (name : Nat → Nat) (c : Fin n) (hc : P.w.defined c = true) (hd : (st.cls c).max.isSome = true)
    (o : Fin n) (t : Nat) (ht : startOf (st.cls c) o = some t) (big : 65536 ≤ t) (g : Gen n)
    (hg : gen rel reg maxreg name c (st.cls c) = some (some g)) : ∃ t', getStart g (reg o) = some t' ∧ t' ≠ t := by
  have key := gen_spec P L cs hcs m st hr rel reg maxreg N name c hc hd
  have hco : SelfOrAncestor P.w c o := ((C16_slots_are_stable P L cs hcs m st hr c hc hd).1 o).2 (by rw [ht]; rfl)
  split at key
  · rw [key] at hg; cases hg
  · obtain ⟨g', k1, -, -, k2, k3, -⟩ := key
    rw [k1] at hg
    cases hg
    have := N.lt o (related_defined L hc hco)
    refine ⟨t % 65536, ?_, by omega⟩
    unfold getStart
    rw [if_neg (by omega), k3 o hco, ht]
    rfl

/-- **C104.** For a class that is not related the table of starts has 0, so the look-up is not refused. -/
theorem C104_unrelated (P : Program n) (L : Legal P) (cs : List (Fin n)) (hcs : ∀ c ∈ cs, P.w.defined c = true) (m : Nat)
    (st : St n) (hr : Runs P cs m st) (rel : Fin n → Fin n → Option Nat) (reg : Fin n → Nat) (maxreg : Nat)
    (N : Numbered P rel reg maxreg) (name : Nat → Nat) (c : Fin n) (hc : P.w.defined c = true) (hd : (st.cls c).max.isSome = true)
    (o : Fin n) (hod : P.w.defined o = true) (hn : ¬ SelfOrAncestor P.w c o) (g : Gen n)
    (hg : gen rel reg maxreg name c (st.cls c) = some (some g)) (i : Nat) :
    lookup g (reg o) i = g.table[i]? := by
  have key := gen_spec P L cs hcs m st hr rel reg maxreg N name c hc hd
  split at key
  · rw [key] at hg; cases hg
  · obtain ⟨g', k1, -, -, k2, -, k3, -⟩ := key
    rw [k1] at hg
    cases hg
    have hlt := N.lt o hod
    have h0 := k3 (reg o) hlt (fun a ha e => hn (by
      rw [← N.inj a o (related_defined L hc ha) hod e]; exact ha))
    unfold lookup getStart
    rw [if_neg (by omega), h0, Option.bind_some]
    unfold getEntry
    rw [Nat.zero_add]
    split
    · rename_i h; rw [List.getElem?_eq_none h]
    · rfl

/-! ## A sample -/

/-- The diamond of C16: number `c` for class `c`, every position 0. -/
theorem diamond_numbered : Numbered diamondP (fun _ _ => some 0) (fun c => c.val) 6 :=
  ⟨fun a b _ _ e => Fin.ext e, fun a _ => a.isLt, fun _ _ _ _ => rfl⟩

/-- The code for class 4: function 10 of class 2, function 11 of class 3, functions 12 and 13 of its own. -/
example : ((diamondRun.bind fun st => gen (fun _ _ => some 0) (fun c : Fin 6 => c.val) 6 id 4 (st.cls 4)).map
      (Option.map fun g => (g.table, g.starts, g.names))) =
    some (some ([.fn 2 10, .fn 3 11, .fn 4 12, .fn 4 13], [0, 0, 0, 2, 3, 0], [13])) := by decide +kernel

/-- Function 11, pure in class 1: with an object of class 1 or 4. -/
example : (diamondRun.bind fun st => (findFunc st 1 11).bind fun f =>
      (gen (fun _ _ => some 0) (fun c : Fin 6 => c.val) 6 id 4 (st.cls 4)).join.bind fun g =>
      (gen (fun _ _ => some 0) (fun c : Fin 6 => c.val) 6 id 1 (st.cls 1)).join.map fun go =>
        (callEntry (fun c => c.val) id g go f, callEntry (fun c => c.val) id go go f, staticEntry id (st.cls 4) f)) =
    some (some (.fn 3 11), some .pure, some (.fn 3 11)) := by decide +kernel

end Ulam.VtGen
