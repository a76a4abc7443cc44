import Verif.Virtual.Main
import Mathlib.Data.List.Nodup
/-! # C16: virtual function slots -/
namespace Ulam.Virtual
open Ulam.Walker Ulam.Walker.Spec Spec
variable {n : Nat}

theorem inv_start (P : Program n) : Inv P (start P.decls) :=
  ⟨fun _ _ h => (nomatch h), fun _ _ _ => rfl⟩

theorem pass_errors {w : World n} {cs : List (Fin n)} {st st' : St n} (h : pass w cs st = some st') : st.errors ≤ st'.errors := by
  induction cs generalizing st with
  | nil => cases h; exact Nat.le_refl _
  | cons c cs ih =>
    unfold pass at h
    split at h
    · cases h
    · rename_i st1 h1
      exact Nat.le_trans (calcClass_errors h1) (ih h)

theorem passes_errors {w : World n} {cs : List (Fin n)} {k : Nat} {st st' : St n} (h : passes w cs k st = some st') :
    st.errors ≤ st'.errors := by
  induction k generalizing st with
  | zero => cases h; exact Nat.le_refl _
  | succ k ih =>
    unfold passes at h
    split at h
    · cases h
    · rename_i st1 h1
      split at h
      · cases h; exact pass_errors h1
      · exact Nat.le_trans (pass_errors h1) (ih h)

theorem pass_inv {P : Program n} (L : Legal P) {cs : List (Fin n)} (hcs : ∀ c ∈ cs, P.w.defined c = true) {st st' : St n}
    (h : pass P.w cs st = some st') (I : Inv P st) (he : st'.errors = st.errors) : Inv P st' := by
  induction cs generalizing st with
  | nil => cases h; exact I
  | cons c cs ih =>
    unfold pass at h
    split at h
    · cases h
    · rename_i st1 h1
      have m1 := calcClass_errors h1
      have m2 := pass_errors h
      have e1 : st1.errors = st.errors := by omega
      have hc := hcs c (by simp)
      have I1 : Inv P st1 := by
        have hcl := class_step L I c hc
        by_cases hd : (st.cls c).max.isSome = true ∨ ¬ Ready P st c
        · rw [hcl.1 hd] at h1; cases h1; exact I
        · rw [not_or, not_not] at hd
          exact ((hcl.2 (by simpa using hd.1) hd.2).2 st1 h1 e1).2.1
      exact ih (fun x hx => hcs x (by simp [hx])) h I1 (by omega)

theorem passes_inv {P : Program n} (L : Legal P) {cs : List (Fin n)} (hcs : ∀ c ∈ cs, P.w.defined c = true) {k : Nat} {st st' : St n}
    (h : passes P.w cs k st = some st') (I : Inv P st) (he : st'.errors = st.errors) : Inv P st' := by
  induction k generalizing st with
  | zero => cases h; exact I
  | succ k ih =>
    unfold passes at h
    split at h
    · cases h
    · rename_i st1 h1
      have m1 := pass_errors h1
      split at h
      · cases h; exact pass_inv L hcs h1 I he
      · have m2 := passes_errors h
        exact ih h (pass_inv L hcs h1 I (by omega)) (by omega)

/-- The result of a run on program `P` over the classes `cs`: no assertion failed and nothing was reported. -/
def Runs (P : Program n) (cs : List (Fin n)) (k : Nat) (st : St n) : Prop :=
  passes P.w cs k (start P.decls) = some st ∧ st.errors = 0

theorem Runs.inv {P : Program n} (L : Legal P) {cs : List (Fin n)} (hcs : ∀ c ∈ cs, P.w.defined c = true) {k : Nat} {st : St n}
    (h : Runs P cs k st) : Inv P st := passes_inv L hcs h.1 (inv_start P) h.2

/-! ### Example: a diamond

1 is a base with functions 10 and 11; 2 and 3 inherit it, 2 overrides 10 (without the keyword), 3 overrides 11 and begins 12;
4 inherits 2 and 3 and begins 13 before overriding 12. Type 0 is no type. -/
def diamondP : Program 6 where
  w := { nouti := 0, root := id, deref := id, defined := fun x => x = 1 ∨ x = 2 ∨ x = 3 ∨ x = 4
         table := fun x => if x = 4 then [⟨2, 1⟩, ⟨3, 1⟩] else if x = 2 ∨ x = 3 then [⟨0, 0⟩, ⟨1, 2⟩] else []
         name := fun x => x }
  decls := fun x => if x = 1 then [⟨10, true, false, false⟩, ⟨11, true, true, false⟩]
    else if x = 2 then [⟨10, false, false, true⟩] else if x = 3 then [⟨12, true, false, false⟩, ⟨11, true, false, false⟩]
    else if x = 4 then [⟨13, true, false, false⟩, ⟨12, true, false, false⟩, ⟨14, false, false, false⟩] else []

/-- Numbers that fall along the bases show that there is no cycle. -/
theorem acyclic_of_rank {w : World n} (rank : Fin n → Nat) (h : ∀ x y, Base w x y → rank y < rank x) : Acyclic w := by
  intro x hx
  have : ∀ y, Ancestor w x y → rank y < rank x := by
    intro y hy
    induction hy with
    | single q => exact h _ _ q
    | tail _ q ih => exact Nat.lt_trans (h _ _ q) ih
  exact absurd (this x hx) (Nat.lt_irrefl _)

theorem diamondP_legal : Legal diamondP where
  ok := ⟨fun _ => rfl, by decide⟩
  acyclic := acyclic_of_rank (fun x => x.val) (by unfold Base; decide)
  bases := by decide
  rooted := by decide
  once := by decide

/-- The classes in an order that needs several passes. -/
def diamondRun : Option (St 6) := passes diamondP.w [4, 3, 2, 1] 99 (start diamondP.decls)

theorem diamond_run : ∃ st, diamondRun = some st ∧ st.errors = 0 ∧ (st.cls 4).max = some 4 ∧
    (st.cls 4).vtable.map (fun e => (e.ofClass, e.func.2, e.orig, e.vidx)) =
      [(2, 10, 1, 0), (3, 11, 1, 1), (4, 12, 3, 0), (4, 13, 4, 0)] ∧
    (st.cls 3).vtable.map (fun e => (e.ofClass, e.func.2, e.orig, e.vidx)) = [(1, 10, 1, 0), (3, 11, 1, 1), (3, 12, 3, 0)] := by
  have h : diamondRun.isSome = true := by decide +kernel
  have h2 : (diamondRun.map fun st => (st.errors, (st.cls 4).max)) = some (0, some 4) := by decide +kernel
  have h3 : (diamondRun.map fun st => (st.cls 4).vtable.map (fun e => (e.ofClass, e.func.2, e.orig, e.vidx))) = some
      [(2, 10, 1, 0), (3, 11, 1, 1), (4, 12, 3, 0), (4, 13, 4, 0)] := by decide +kernel
  have h4 : (diamondRun.map fun st => (st.cls 3).vtable.map (fun e => (e.ofClass, e.func.2, e.orig, e.vidx))) = some
      [(1, 10, 1, 0), (3, 11, 1, 1), (3, 12, 3, 0)] := by decide +kernel
  obtain ⟨st, hs⟩ := Option.isSome_iff_exists.1 h
  rw [hs] at h2 h3 h4
  rw [Option.map_some, Option.some.injEq] at h2 h3 h4
  rw [Prod.mk.injEq] at h2
  exact ⟨st, hs, h2.1, h2.2, h3, h4⟩

/-! ### The slots -/

/-- **C16.** The table of a finished class has a region for itself and each of its ancestors, and no other. Slot `i` of the
region of `o` is for the `i`-th virtual function that begins in `o`, whatever else was declared in between, and holds a
function with that signature, declared in the class itself or an ancestor, at or below `o`. Every entry of the table is such
a slot. -/
theorem C16_slots_are_stable (P : Program n) (L : Legal P) (cs : List (Fin n)) (hcs : ∀ c ∈ cs, P.w.defined c = true) (k : Nat)
    (st : St n) (hr : Runs P cs k st) (c : Fin n) (hc : P.w.defined c = true) (hd : (st.cls c).max.isSome = true) :
    (∀ o, SelfOrAncestor P.w c o ↔ (startOf (st.cls c) o).isSome = true) ∧
    (∀ o t, startOf (st.cls c) o = some t → ∀ i s, (own P o)[i]? = some s →
      ∃ e, (st.cls c).vtable[t + i]? = some e ∧ e.orig = o ∧ e.vidx = i ∧ e.func = (e.ofClass, s) ∧
        SelfOrAncestor P.w c e.ofClass ∧ SelfOrAncestor P.w e.ofClass o ∧
        ∃ d ∈ P.decls e.ofClass, d.sig = s ∧ d.pure = e.pure) ∧
    (∀ idx, idx < (st.cls c).vtable.length → ∃ o t i, startOf (st.cls c) o = some t ∧ idx = t + i ∧ i < (own P o).length) ∧
    (st.cls c).max = some (st.cls c).vtable.length := by
  obtain ⟨G, _, _⟩ := (hr.inv L hcs).good c hc hd
  refine ⟨fun o => (G.keys o).symm, fun o t ht i s his => ?_, G.cover, G.max⟩
  obtain ⟨e, h1, ⟨h2, h3, h4, h5⟩, h6, h7⟩ := G.slots o t ht i s his
  have hso := (G.keys o).1 (by rw [ht]; rfl)
  refine ⟨e, h1, h2, h3, h4, ?_, ?_, h5⟩
  · by_cases hdc : Declares P c s
    · rw [h6 hdc]; exact .refl
    · exact (h7 hdc).1.to_reflTransGen
  · by_cases hdc : Declares P c s
    · rw [h6 hdc]; exact hso
    · exact (h7 hdc).2.1

/-- **C16.** Different slots do not share a place in the table. -/
theorem C16_slots_are_apart (P : Program n) (L : Legal P) (cs : List (Fin n)) (hcs : ∀ c ∈ cs, P.w.defined c = true) (k : Nat)
    (st : St n) (hr : Runs P cs k st) (c : Fin n) (hc : P.w.defined c = true) (hd : (st.cls c).max.isSome = true)
    (o o' : Fin n) (t t' i i' : Nat) (h : startOf (st.cls c) o = some t) (h' : startOf (st.cls c) o' = some t')
    (hi : i < (own P o).length) (hi' : i' < (own P o').length) (he : t + i = t' + i') : o = o' ∧ i = i' := by
  obtain ⟨_, h2, _⟩ := C16_slots_are_stable P L cs hcs k st hr c hc hd
  obtain ⟨e, k1, k2, k3, _⟩ := h2 o t h i _ (List.getElem?_eq_getElem hi)
  obtain ⟨e', k1', k2', k3', _⟩ := h2 o' t' h' i' _ (List.getElem?_eq_getElem hi')
  rw [he, k1'] at k1; cases k1
  exact ⟨k2.symm.trans k2', k3.symm.trans k3'⟩

/-- **C16.** The functions of a finished class: virtual exactly as declared or inherited, and the slot of a virtual function
is its place among the functions begun by the class in which it begins; so a function and its overrides have one slot. -/
theorem C16_override_keeps_slot (P : Program n) (L : Legal P) (cs : List (Fin n)) (hcs : ∀ c ∈ cs, P.w.defined c = true) (k : Nat)
    (st : St n) (hr : Runs P cs k st) (c : Fin n) (hc : P.w.defined c = true) (hd : (st.cls c).max.isSome = true) (s : Nat) :
    (Declares P c s ↔ ∃ f, findFunc st c s = some f) ∧
    ∀ f, findFunc st c s = some f → (f.virt = true ↔ IsVirtual P c s) ∧
      (f.virt = true → ∃ o, f.orig = some o ∧ SelfOrAncestor P.w c o ∧ Begins P o s ∧ (own P o)[f.vidx]? = some s ∧
        ∀ b g, Ancestor P.w c b → findFunc st b s = some g → g.virt = true → g.orig = f.orig ∧ g.vidx = f.vidx) := by
  have I := hr.inv L hcs
  obtain ⟨G, Q, A⟩ := I.good c hc hd
  refine ⟨⟨fun h => Option.isSome_iff_exists.1 ((G.knows s).2 h), ?_⟩, ?_⟩
  · rintro ⟨f, hf⟩
    obtain ⟨d, h1, h2, _⟩ := G.find hf
    exact ⟨d, h1, h2⟩
  · intro f hf
    obtain ⟨d, h1, h2, h3⟩ := G.find hf
    subst h2
    refine ⟨h3.2.2.2.1, fun hv => ?_⟩
    obtain ⟨o, k1, k2, k3, k4⟩ := h3.2.2.2.2 hv
    refine ⟨o, k1, k2, k3, k4, fun b g hb hg hgv => ?_⟩
    have hbd := L.anc_defined hb
    obtain ⟨d', j1, j2, j3⟩ := ((I.good b hbd (A b hb)).1).find hg
    obtain ⟨o', m1, m2, m3, m4⟩ := j3.2.2.2.2 hgv
    rw [j2] at m3 m4
    have hco' : Ancestor P.w c o' := Relation.TransGen.trans_left hb m2
    have hoo : o' = o := by
      rcases soa_cases k2 with q | q
      · -- `c` would begin what is virtual above it
        rw [q] at k3
        exact absurd m3.1 (k3.2 o' hco')
      · exact Q.one d.sig ⟨d, h1, rfl⟩ o' o hco' m3 q k3
    subst hoo
    refine ⟨m1.trans k1.symm, ?_⟩
    have hnd : (own P o').Nodup := by unfold own; exact (L.once o').filter _
    have hlt1 := (List.getElem?_eq_some_iff.1 m4).1
    have hlt2 := (List.getElem?_eq_some_iff.1 k4).1
    exact (List.getElem?_inj hlt1 hnd).1 (m4.trans k4.symm)

/-- **C16**, with the restriction that, seen from the class of the object, the function begins in one class only: a call of a
virtual function, through any class, on an object of class `c`, reaches a function with no more specific one between `c` and
it. (Where the function begins in two unrelated ancestors and `c` does not declare it, this can fail: see
`C16_two_beginnings`.) -/
theorem C16_most_specific_partial (P : Program n) (L : Legal P) (cs : List (Fin n)) (hcs : ∀ c ∈ cs, P.w.defined c = true) (k : Nat)
    (st : St n) (hr : Runs P cs k st) (c : Fin n) (hc : P.w.defined c = true) (hd : (st.cls c).max.isSome = true)
    (x : Fin n) (hx : SelfOrAncestor P.w c x) (s : Nat) (hv : IsVirtual P x s) (one : OneBeginning P c s) :
    ∃ f o a, findFunc st x s = some f ∧ f.orig = some o ∧ Begins P o s ∧ dispatch st c f = some a ∧ MostSpecific P c o s a := by
  have I := hr.inv L hcs
  obtain ⟨G, Q, A⟩ := I.good c hc hd
  have hxd : P.w.defined x = true := by
    rcases soa_cases hx with q | q
    · rw [q]; exact hc
    · exact L.anc_defined q
  have hxm : (st.cls x).max.isSome = true := by
    rcases soa_cases hx with q | q
    · rw [q]; exact hd
    · exact A x q
  obtain ⟨o1, o2⟩ := C16_override_keeps_slot P L cs hcs k st hr x hxd hxm s
  obtain ⟨f, hf⟩ := o1.1 hv.1
  obtain ⟨p1, p2⟩ := o2 f hf
  obtain ⟨o, q1, q2, q3, q4, _⟩ := p2 (p1.2 hv)
  have hco : SelfOrAncestor P.w c o := hx.trans q2
  obtain ⟨t, ht⟩ := Option.isSome_iff_exists.1 ((G.keys o).2 hco)
  obtain ⟨e, h1, ⟨_, _, h4, h5⟩, h6, h7⟩ := G.slots o t ht f.vidx s q4
  refine ⟨f, o, e.ofClass, hf, q1, q3, ?_, ?_⟩
  · unfold dispatch
    rw [q1]
    dsimp only
    rw [ht, Option.bind_some, Nat.add_comm, h1]
    rfl
  · have hnc : ¬ Conflict P c s := fun ⟨a, b, a1, a2, a3, a4, a5⟩ => a5 (one a b a1.to_reflTransGen a2 a3.to_reflTransGen a4)
    obtain ⟨d, d1, d2, _⟩ := h5
    by_cases hdc : Declares P c s
    · rw [h6 hdc]
      exact ⟨.refl, hco, hdc, fun b hb hbc => absurd (Relation.TransGen.trans_left hbc hb) (L.acyclic b)⟩
    · obtain ⟨i1, i2, i3⟩ := h7 hdc
      refine ⟨i1.to_reflTransGen, i2, ⟨d, d1, d2⟩, fun b hb hbe hbs => ?_⟩
      rcases soa_cases hb with q | q
      · subst q; exact hdc hbs
      · exact i3 hnc b q hbe hbs

/-! ### What is reported, and that the work gets done -/

theorem pass_progress {P : Program n} (L : Legal P) (hQ : ∀ c, P.w.defined c = true → Quiet P c) {cs : List (Fin n)}
    (hcs : ∀ c ∈ cs, P.w.defined c = true) {st : St n} (I : Inv P st) :
    ∃ st', pass P.w cs st = some st' ∧ st'.errors = st.errors ∧ Inv P st' ∧
      (∀ c, (st.cls c).max.isSome = true → (st'.cls c).max.isSome = true) ∧
      ∀ c ∈ cs, Ready P st c → (st'.cls c).max.isSome = true := by
  induction cs generalizing st with
  | nil => exact ⟨st, rfl, rfl, I, fun _ h => h, by simp⟩
  | cons c cs ih =>
    have hc := hcs c (by simp)
    have hcl := class_step L I c hc
    have step : ∃ st1, calcClass P.w st c = some st1 ∧ st1.errors = st.errors ∧ Inv P st1 ∧
        (∀ y, (st.cls y).max.isSome = true → (st1.cls y).max.isSome = true) ∧ (Ready P st c → (st1.cls c).max.isSome = true) := by
      by_cases hd : (st.cls c).max.isSome = true ∨ ¬ Ready P st c
      · refine ⟨st, hcl.1 hd, rfl, I, fun _ h => h, fun hr => ?_⟩
        rcases hd with h | h
        · exact h
        · exact absurd hr h
      · rw [not_or, not_not] at hd
        have hm : (st.cls c).max.isSome = false := by simpa using hd.1
        obtain ⟨k1, k2⟩ := hcl.2 hm hd.2
        obtain ⟨st1, h1, h2⟩ := k1 (hQ c hc)
        obtain ⟨_, j2, j3, j4⟩ := k2 st1 h1 h2
        refine ⟨st1, h1, h2, j2, fun y hy => ?_, fun _ => j3⟩
        by_cases hyc : y = c
        · subst hyc; exact j3
        · rw [j4 y hyc]; exact hy
    obtain ⟨st1, s1, s2, s3, s4, s5⟩ := step
    obtain ⟨st', t1, t2, t3, t4, t5⟩ := ih (fun x hx => hcs x (by simp [hx])) s3
    refine ⟨st', ?_, t2.trans s2, t3, fun y hy => t4 y (s4 y hy), fun y hy hr => ?_⟩
    · unfold pass; rw [s1]; exact t1
    · rcases List.mem_cons.1 hy with rfl | hy
      · exact t4 y (s5 hr)
      · exact t5 y hy fun b hb => s4 b (hr b hb)

/-- **C16.** If nothing is wrong with the declarations, no assertion fails, nothing is reported, and after as many passes as
the hierarchy is deep every class has its table, whatever the order of the classes. -/
theorem C16_completes (P : Program n) (L : Legal P) (hQ : ∀ c, P.w.defined c = true → Quiet P c) (cs : List (Fin n))
    (hcs : ∀ c, c ∈ cs ↔ P.w.defined c = true) (rank : Fin n → Nat) (hrank : ∀ x y, Base P.w x y → rank y < rank x) (k : Nat) :
    ∃ st, Runs P cs k st ∧ ∀ c, P.w.defined c = true → rank c < k → (st.cls c).max.isSome = true := by
  have key : ∀ k j st, Inv P st → st.errors = 0 → (∀ c, P.w.defined c = true → rank c < j → (st.cls c).max.isSome = true) →
      ∃ st', passes P.w cs k st = some st' ∧ st'.errors = 0 ∧
        ∀ c, P.w.defined c = true → rank c < j + k → (st'.cls c).max.isSome = true := by
    intro k
    induction k with
    | zero => intro j st _ he h; exact ⟨st, rfl, he, h⟩
    | succ k ih =>
      intro j st I he h
      obtain ⟨st1, h1, h2, h3, h4, h5⟩ := pass_progress L hQ (fun c hc => (hcs c).1 hc) I
      have hj : ∀ c, P.w.defined c = true → rank c < j + 1 → (st1.cls c).max.isSome = true := by
        intro c hc hlt
        refine h5 c ((hcs c).2 hc) fun b hb => h b (L.anc_defined (.single hb)) ?_
        have := hrank c b hb
        omega
      unfold passes
      rw [h1]
      dsimp only
      split
      · rename_i hall
        rw [List.all_eq_true] at hall
        exact ⟨st1, rfl, h2.trans he, fun c hc _ => hall c ((hcs c).2 hc)⟩
      · obtain ⟨st', k1, k2, k3⟩ := ih (j + 1) st1 h3 (h2.trans he) hj
        refine ⟨st', k1, k2, fun c hc hlt => k3 c hc (by omega)⟩
  obtain ⟨st, h1, h2, h3⟩ := key k 0 (start P.decls) (inv_start P) rfl (fun c _ h => absurd h (Nat.not_lt_zero _))
  exact ⟨st, ⟨h1, h2⟩, fun c hc hlt => h3 c hc (by omega)⟩

/-- **C16.** If a run reports nothing, no finished class declares a virtual function that begins in two classes above it, and
none declares as override a function that overrides nothing. -/
theorem C16_conflicts_are_reported (P : Program n) (L : Legal P) (cs : List (Fin n)) (hcs : ∀ c ∈ cs, P.w.defined c = true)
    (k : Nat) (st : St n) (hr : Runs P cs k st) (c : Fin n) (hc : P.w.defined c = true) (hd : (st.cls c).max.isSome = true) :
    Quiet P c := ((hr.inv L hcs).good c hc hd).2.1

example : Legal diamondP ∧ (∀ c ∈ ([4, 3, 2, 1] : List (Fin 6)), diamondP.w.defined c = true) ∧
    ∃ st, Runs diamondP [4, 3, 2, 1] 99 st ∧ (st.cls 4).max.isSome = true ∧ IsVirtual diamondP 2 10 ∧
      SelfOrAncestor diamondP.w 4 2 ∧ startOf (st.cls 4) 3 = some 2 := by
  obtain ⟨st, h1, h2, h3, h4, _⟩ := diamond_run
  have hs : (diamondRun.bind fun st => startOf (st.cls 4) 3) = some 2 := by decide +kernel
  rw [h1, Option.bind_some] at hs
  refine ⟨diamondP_legal, by decide, st, ⟨h1, h2⟩, by rw [h3]; rfl, ?_, .single ?_, hs⟩
  · exact ⟨⟨⟨10, false, false, true⟩, by decide, rfl⟩, 1, .single ⟨by decide, ⟨1, 2⟩, by decide, by decide, rfl⟩, ⟨10, true, false, false⟩, by decide, rfl, rfl⟩
  · exact ⟨by decide, ⟨2, 1⟩, by decide, by decide, rfl⟩

/-- The hypotheses of `C16_completes` hold for the diamond. -/
example : (∀ c, diamondP.w.defined c = true → Quiet diamondP c) ∧ (∀ c, c ∈ ([4, 3, 2, 1] : List (Fin 6)) ↔ diamondP.w.defined c = true) ∧
    ∀ x y, Base diamondP.w x y → y.val < x.val := by
  obtain ⟨st, h1, h2, _⟩ := diamond_run
  have hall : (diamondRun.map fun st => decide (∀ c : Fin 6, diamondP.w.defined c = true → (st.cls c).max.isSome = true)) = some true := by
    decide +kernel
  rw [h1, Option.map_some, Option.some.injEq, decide_eq_true_eq] at hall
  refine ⟨fun c hc => ?_, by decide, by unfold Base; decide⟩
  exact C16_conflicts_are_reported diamondP diamondP_legal [4, 3, 2, 1] (by decide) 99 st ⟨h1, h2⟩ c hc (hall c hc)

/-! ### Finding: two beginnings -/

/-- 2 begins function 10, 3 inherits 2 and overrides it; 1 begins a function of the same signature on its own; 4 inherits 1
and 3, and declares nothing. -/
def forked : Program 5 where
  w := { nouti := 0, root := id, deref := id, defined := fun x => x ≠ 0
         table := fun x => if x = 4 then [⟨1, 1⟩, ⟨3, 1⟩] else if x = 3 then [⟨2, 1⟩] else []
         name := fun x => x }
  decls := fun x => if x = 1 ∨ x = 2 ∨ x = 3 then [⟨10, true, false, false⟩] else []

/-- **C16 (finding).** The claim fails for a function that begins in two unrelated ancestors: in `forked` the compiler reports
nothing, class 3 overrides class 2's function, but on an object of class 4 a call of it (through class 2 or 3) reaches the
function of class 2. -/
theorem C16_two_beginnings : Legal forked ∧ ∃ st f g, Runs forked [1, 2, 3, 4] 99 st ∧ findFunc st 2 10 = some f ∧
    findFunc st 3 10 = some g ∧ g.orig = some 2 ∧ dispatch st 3 f = some 3 ∧ dispatch st 4 f = some 2 ∧ dispatch st 4 g = some 2 ∧
    SelfOrAncestor forked.w 4 3 ∧ Ancestor forked.w 3 2 ∧ Declares forked 3 10 ∧ ¬ MostSpecific forked 4 2 10 2 := by
  have hb : Base forked.w 3 2 := ⟨by decide, ⟨2, 1⟩, by decide, by decide, rfl⟩
  have hb4 : Base forked.w 4 3 := ⟨by decide, ⟨3, 1⟩, by decide, by decide, rfl⟩
  have hd : Declares forked 3 10 := ⟨⟨10, true, false, false⟩, by decide, rfl⟩
  refine ⟨⟨⟨fun _ => rfl, by decide⟩, acyclic_of_rank (fun x => x.val) (by unfold Base; decide), by decide, by decide, by decide⟩, ?_⟩
  have h : ((passes forked.w [1, 2, 3, 4] 99 (start forked.decls)).bind fun st =>
      (findFunc st 2 10).bind fun f => (findFunc st 3 10).map fun g =>
        (st.errors, g.orig, dispatch st 3 f, dispatch st 4 f, dispatch st 4 g)) = some (0, some 2, some 3, some 2, some 2) := by
    decide +kernel
  rw [Option.bind_eq_some_iff] at h
  obtain ⟨st, h1, h⟩ := h
  rw [Option.bind_eq_some_iff] at h
  obtain ⟨f, h2, h⟩ := h
  rw [Option.map_eq_some_iff] at h
  obtain ⟨g, h3, h⟩ := h
  simp only [Prod.mk.injEq] at h
  obtain ⟨e1, e2, e3, e4, e5⟩ := h
  refine ⟨st, f, g, ⟨h1, e1⟩, h2, h3, e2, e3, e4, e5, .single hb4, .single hb, hd, fun q => ?_⟩
  exact q.2.2.2 3 (.single hb4) (.single hb) hd

end Ulam.Virtual
