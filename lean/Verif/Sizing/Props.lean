/-
C84: the sizes of classes. C85: classes that contain themselves.
-/
import Verif.Sizing.Rounds
import Mathlib.Data.Fin.VecNotation

namespace Ulam.Sizing

variable {n : Nat}

/-! ### A program -/

/-- A transient (0) with a quark (1), an array of two such and an array of two elements (3); the
quark 1 has 3 bits and the base class 2 of 5 bits; the element has 10 bits. -/
def sample : Prog 4 where
  kind := fun c => if c = 0 then .transient else if c = 3 then .element else .quark
  union := fun _ => false
  members := fun c =>
    if c = 0 then [⟨.cls 1, none⟩, ⟨.cls 1, some 2⟩, ⟨.cls 3, some 2⟩]
    else if c = 1 then [⟨.prim 3, none⟩] else if c = 2 then [⟨.prim 5, none⟩] else [⟨.prim 5, some 2⟩]
  other := fun _ => false
  bases := fun c => if c = 1 then [2] else []
  anc := fun c => if c = 1 then [2] else []
  order := [0, 1, 2, 3]

/-- All that can be known in a round is known. -/
def sampleView : View 4 :=
  ⟨fun _ _ => true, [(.cls 1, 2), (.cls 3, 2), (.prim 5, 2)], []⟩

theorem sample_legal : Legal sample := by
  refine ⟨by decide, by decide, fun c a => ⟨fun h => ?_, fun h => ?_⟩, by decide⟩
  · have : ∀ c a : Fin 4, a ∈ sample.anc c → a ∈ sample.bases c := by decide
    exact .single (this c a h)
  · have h1 : ∀ c a : Fin 4, a ∈ sample.bases c → a ∈ sample.anc c := by decide
    have h2 : ∀ c b a : Fin 4, b ∈ sample.anc c → a ∈ sample.bases b → a ∈ sample.anc c := by decide
    induction h with
    | single h => exact h1 _ _ h
    | tail _ h ih => exact h2 _ _ _ ih h

theorem sample_fits : Fits sample := by
  unfold Fits
  decide

theorem sample_full : Full sample sampleView := by
  refine ⟨fun _ _ _ => rfl, fun a => ⟨fun h => ?_, fun ⟨c, m, hm, h1, h2⟩ => ?_⟩⟩
  · simp only [sampleView, List.mem_cons, List.not_mem_nil, or_false] at h
    rcases h with rfl | rfl | rfl
    · exact ⟨0, ⟨.cls 1, some 2⟩, by decide, rfl, rfl⟩
    · exact ⟨0, ⟨.cls 3, some 2⟩, by decide, rfl, rfl⟩
    · exact ⟨3, ⟨.prim 5, some 2⟩, by decide, rfl, rfl⟩
  · have key : ∀ c : Fin 4, ∀ m ∈ sample.members c, ∀ j ∈ m.count, (m.ty, j) ∈ sampleView.arrays := by
      decide
    have := key c m hm a.2 h2
    rw [h1] at this
    exact this

/-- The own bits and the bits in all of the sample's classes. -/
theorem sample_sized : ∀ c : Fin 4, Sized sample c (![216, 3, 5, 10] c) (![216, 8, 5, 10] c) := by
  have h2 : Sized sample 2 5 5 := Sized.mk 2 (fun _ => 0) (fun _ => 0) fun d hd => by
    exfalso
    rcases hd with ⟨m, hm, e⟩ | hd
    · have : ∀ m ∈ sample.members 2, m = ⟨.prim 5, none⟩ := by decide
      rw [this m hm] at e; cases e
    · exact absurd hd (by revert d; decide)
  have h3 : Sized sample 3 10 10 := Sized.mk 3 (fun _ => 0) (fun _ => 0) fun d hd => by
    exfalso
    rcases hd with ⟨m, hm, e⟩ | hd
    · have : ∀ m ∈ sample.members 3, m = ⟨.prim 5, some 2⟩ := by decide
      rw [this m hm] at e; cases e
    · exact absurd hd (by revert d; decide)
  have h1 : Sized sample 1 3 8 := Sized.mk 1 (fun _ => 5) (fun _ => 5) fun d hd => by
    rcases hd with ⟨m, hm, e⟩ | hd
    · have : ∀ m ∈ sample.members 1, m = ⟨.prim 3, none⟩ := by decide
      rw [this m hm] at e; cases e
    · have : d = 2 := by revert d; decide
      rw [this]; exact h2
  have h0 : Sized sample 0 216 216 := Sized.mk 0 ![0, 3, 5, 10] ![0, 8, 5, 10] fun d hd => by
    have : d = 1 ∨ d = 3 := by
      rcases hd with ⟨m, hm, e⟩ | hd
      · have : ∀ m ∈ sample.members 0, m.ty = .cls 1 ∨ m.ty = .cls 3 := by decide
        rcases this m hm with q | q
        · left; rw [q] at e; simpa using e.symm
        · right; rw [q] at e; simpa using e.symm
      · exact absurd hd (by revert d; decide)
    rcases this with rfl | rfl
    · exact h1
    · exact h3
  intro c
  match c with
  | 0 => exact h0
  | 1 => exact h1
  | 2 => exact h2
  | 3 => exact h3

theorem sample_fine : Fine sample ![2, 1, 0, 0] := by
  refine ⟨?_, ?_, by decide, ?_, by decide⟩
  · rintro c d (⟨m, hm, e⟩ | hd)
    · have key : ∀ c : Fin 4, ∀ m ∈ sample.members c, ∀ d : Fin 4, m.ty = .cls d →
          (![2, 1, 0, 0] : Fin 4 → Nat) d < ![2, 1, 0, 0] c := by decide
      exact key c m hm d e
    · revert c d; decide
  · intro c k t h
    rw [(h.det _ _ (sample_sized c)).2]
    have : ∀ c : Fin 4, ((![216, 8, 5, 10] c : Nat) : Int) ≤ limit (sample.kind c) := by decide
    exact this c
  · intro u d hu
    cases hu

/-! ### C84 -/

/-- C84. The sizing of classes ends. -/
theorem C84_ends (p : Prog n) (vs : List (View n)) (s : St n) : ∃ s', rounds p vs s = some s' :=
  rounds_ends p vs s

/-- C84. After any number of rounds, whatever was known in each, a size that is set is the sum of
the data members (the maximum in a union, a whole atom for an element in a transient) plus the own
bits of every ancestor once; it is within the limit of the kind of class; and the size as a base is
the own bits. Missing for the full claim: products and sums in 32 bits may wrap (`Fits`, see
`C84_wrap_fails`), and an array type must not get its length before its item's size (`Tied`, see
`C84_early_fails`). -/
theorem C84_sum_partial (p : Prog n) (L : Legal p) (F : Fits p) (vs : List (View n))
    (T : ∀ v ∈ vs, Tied v) (s : St n) (h : rounds p vs start = some s) (he : s.err = false)
    (ha : s.abort = false) (c : Fin n) (hc : 0 ≤ s.size c) :
    ∃ k t, Sized p c k t ∧ s.size c = t ∧ (t : Int) ≤ limit (p.kind c) ∧
      (s.base c ≠ UNKNOWN → s.base c = k) := by
  have i := (rounds_good L F vs T _ _ h ⟨he, ha⟩).2 _ inv_start
  obtain ⟨h1, h2, h3⟩ := i.size_ok c hc
  refine ⟨ownOf p c, totOf p c, h1.sized, h2, h2 ▸ h3, fun hb => ?_⟩
  exact (i.base_ok c ((i.base_cases c).resolve_left hb)).2

example : ∃ s, rounds sample [sampleView, sampleView, sampleView] start = some s ∧ s.err = false ∧
    s.abort = false ∧ s.size 0 = 216 ∧ s.size 1 = 8 ∧ s.base 1 = 3 :=
  ⟨_, rfl, by decide +kernel⟩

/-- C84. The pass over the table of classes answers that all is sized only when it is. -/
theorem C84_answer (p : Prog n) (L : Legal p) (F : Fits p) (vs : List (View n))
    (T : ∀ v ∈ vs, Tied v) (s : St n) (h : rounds p vs start = some s) (v : View n) (Tv : Tied v)
    (s' : St n) (h' : round p v s = some (true, s')) (he : s'.err = false) (ha : s'.abort = false)
    (c : Fin n) (hc : c ∈ p.order) : ∃ k t, Sized p c k t ∧ s'.size c = t := by
  have g := round_good L F Tv h' ⟨he, ha⟩
  have i := (rounds_good L F vs T _ _ h g.1).2 _ inv_start
  have i' := g.2 _ i
  unfold round at h'
  rw [show v.early = [] from Tv] at h'
  have cl1 := (pass_good L F _ _ _ _ h' ⟨he, ha⟩).1
  have i1 := (resolveArrays_good v.arrays cl1).2 _ i
  have hd := (pass_true L F _ _ _ _ _ h' ⟨he, ha⟩ i1 rfl).2 c (.inl hc)
  obtain ⟨h1, h2, _⟩ := i'.size_ok c (complete_size i' hd)
  exact ⟨_, _, h1.sized, h2⟩

example : ∃ s s', rounds sample [sampleView, sampleView] start = some s ∧
    round sample sampleView s = some (true, s') ∧ s'.err = false ∧ s'.abort = false :=
  ⟨_, _, rfl, rfl, by decide +kernel⟩

/-- C84. If no class needs itself, the sizes are within the limits and the types are known, every
class gets its size, after as many rounds as its depth of need, without an error. Missing for the
full claim: a class that is a data member of a union must not be an ancestor (`Fine.apart`, see
`C84_union_fails`), and `Fits`, `Tied` as in `C84_sum_partial`. -/
theorem C84_all_partial (p : Prog n) (L : Legal p) (F : Fits p) (rank : Fin n → Nat) (f : Fine p rank)
    (vs : List (View n)) (hv : ∀ v ∈ vs, Tied v ∧ Full p v) (s : St n)
    (h : rounds p vs start = some s) :
    s.err = false ∧ s.abort = false ∧ ∀ c, rank c < vs.length →
      ∃ k t, Sized p c k t ∧ s.size c = t ∧ (p.kind c ≠ .element → s.base c = k) := by
  obtain ⟨w, a⟩ := rounds_all L F f vs hv 0 _ _ well_start (fun c hc => by omega) h
  refine ⟨w.clean.1, w.clean.2, fun c hc => ?_⟩
  have hcc := a c (by omega)
  obtain ⟨h1, h2, _⟩ := w.inv.size_ok c (complete_size w.inv hcc)
  refine ⟨_, _, h1.sized, h2, fun hk => ?_⟩
  exact (w.inv.base_ok c (complete_base w.inv hcc hk)).2

example (s : St 4) (h : rounds sample [sampleView, sampleView, sampleView] start = some s) :
    s.err = false ∧ s.size 0 = 216 := by
  obtain ⟨h1, _, h2⟩ := C84_all_partial sample sample_legal sample_fits _ sample_fine
    [sampleView, sampleView, sampleView]
    (fun v hv => by
      have : v = sampleView := by simpa using hv
      subst this
      exact ⟨rfl, sample_full⟩) s h
  obtain ⟨k, t, q1, q2, _⟩ := h2 0 (by decide)
  refine ⟨h1, ?_⟩
  rw [q2, (q1.det _ _ (sample_sized 0)).2]
  rfl

theorem sized_order {p : Prog n} {l : List (Fin n)} {c : Fin n} {k t : Nat} (h : Sized p c k t) :
    Sized { p with order := l } c k t := by
  induction h with
  | mk c f g _ ih => exact Sized.mk (p := { p with order := l }) c f g ih

/-- C84. The order of the classes in the table, and when what was known, make no difference: two
runs without an error agree on every size both have. -/
theorem C84_order (p : Prog n) (L : Legal p) (F : Fits p) (l : List (Fin n)) (vs vs' : List (View n))
    (T : ∀ v ∈ vs, Tied v) (T' : ∀ v ∈ vs', Tied v) (s s' : St n) (h : rounds p vs start = some s)
    (h' : rounds { p with order := l } vs' start = some s') (he : s.err = false) (ha : s.abort = false)
    (he' : s'.err = false) (ha' : s'.abort = false) (c : Fin n) (hc : 0 ≤ s.size c)
    (hc' : 0 ≤ s'.size c) : s.size c = s'.size c := by
  have L' : Legal { p with order := l } := ⟨L.union_quark, L.base_kind, L.anc_iff, L.anc_once⟩
  obtain ⟨k, t, h1, h2, _⟩ := C84_sum_partial p L F vs T s h he ha c hc
  obtain ⟨k', t', h1', h2', _⟩ := C84_sum_partial _ L' F vs' T' s' h' he' ha' c hc'
  rw [h2, h2', ((sized_order (l := l) h1).det _ _ h1').2]

example : ∃ s s', rounds sample [sampleView, sampleView, sampleView] start = some s ∧
    rounds { sample with order := [3, 2, 1, 0] } [sampleView, sampleView, sampleView] start = some s' ∧
    s.err = false ∧ s.abort = false ∧ s'.err = false ∧ s'.abort = false ∧ 0 ≤ s.size 0 ∧ 0 ≤ s'.size 0 :=
  ⟨_, _, rfl, rfl, by decide +kernel⟩

/-- A quark with one array of 134217728 items of 32 bits. -/
def huge : Prog 1 where
  kind := fun _ => .quark
  union := fun _ => false
  members := fun _ => [⟨.prim 32, some 134217728⟩]
  other := fun _ => false
  bases := fun _ => []
  anc := fun _ => []
  order := [0]

/-- C84 fails for arrays whose bits wrap in 32 bits: a quark with an array of 134217728 numbers of 32
bits is given 0 bits and no error. -/
theorem C84_wrap_fails : Sized huge 0 4294967296 4294967296 ∧ Full huge ⟨fun _ _ => true, [(.prim 32, 134217728)], []⟩ ∧
    ∃ s, rounds huge [⟨fun _ _ => true, [(.prim 32, 134217728)], []⟩] start = some s ∧
      s.size 0 = 0 ∧ s.err = false ∧ s.abort = false := by
  refine ⟨?_, ⟨fun _ _ _ => rfl, fun a => ⟨fun h => ?_, fun ⟨c, m, hm, h1, h2⟩ => ?_⟩⟩, _, rfl, by decide +kernel⟩
  · exact Sized.mk 0 (fun _ => 0) (fun _ => 0) fun d hd => by
      exfalso
      rcases hd with ⟨m, hm, e⟩ | hd
      · have : m = ⟨.prim 32, some 134217728⟩ := by simpa [huge] using hm
        rw [this] at e; cases e
      · cases hd
  · refine ⟨0, ⟨.prim 32, some 134217728⟩, by simp [huge], ?_, ?_⟩ <;> simp_all
  · have : m = ⟨.prim 32, some 134217728⟩ := by simpa [huge] using hm
    subst this
    obtain ⟨a1, a2⟩ := a
    simp only [Option.some.injEq] at h1 h2
    subst h1 h2
    simp

/-- A quark with an array of three quarks of 4 bits. -/
def trio : Prog 2 where
  kind := fun _ => .quark
  union := fun _ => false
  members := fun c => if c = 0 then [⟨.cls 1, some 3⟩] else [⟨.prim 4, none⟩]
  other := fun _ => false
  bases := fun _ => []
  anc := fun _ => []
  order := [0, 1]

theorem trio_sized : Sized trio 0 12 12 := by
  have h1 : Sized trio 1 4 4 := Sized.mk 1 (fun _ => 0) (fun _ => 0) fun d hd => by
    exfalso
    rcases hd with ⟨m, hm, e⟩ | hd
    · have : m = ⟨.prim 4, none⟩ := by simpa [trio] using hm
      rw [this] at e; cases e
    · cases hd
  exact Sized.mk 0 (fun _ => 4) (fun _ => 4) fun d hd => by
    rcases hd with ⟨m, hm, e⟩ | hd
    · have : m = ⟨.cls 1, some 3⟩ := by simpa [trio] using hm
      rw [this] at e
      have : d = 1 := by simpa using e.symm
      rw [this]; exact h1
    · cases hd

/-- C84 fails for an array type that gets its length before the size of its item: the length is
multiplied in twice. An array of three quarks of 4 bits makes 36 bits, not 12. -/
theorem C84_early_fails : Sized trio 0 12 12 ∧
    ∃ s, rounds trio [⟨fun _ _ => true, [], [(.cls 1, 3)]⟩] start = some s ∧
      s.size 0 = 36 ∧ s.err = false ∧ s.abort = false :=
  ⟨trio_sized, _, rfl, by decide +kernel⟩

/-- A union (0) with a quark (2), which is the base of the quark 1. -/
def basedUnion : Prog 3 where
  kind := fun _ => .quark
  union := fun c => decide (c = 0)
  members := fun c => if c = 0 then [⟨.cls 2, none⟩] else if c = 2 then [⟨.prim 4, none⟩] else []
  other := fun _ => false
  bases := fun c => if c = 1 then [2] else []
  anc := fun c => if c = 1 then [2] else []
  order := [0, 1, 2]

/-- C84 fails for a union with a data member whose class is a base class: when the union comes first
in the table, the size of the member as a base is lost, and an assertion fails at the class derived
from it. In the other order all three get their sizes. -/
theorem C84_union_fails :
    (∃ s, rounds basedUnion [⟨fun _ _ => true, [], []⟩] start = some s ∧ s.abort = true ∧ s.err = false) ∧
    ∃ s, rounds { basedUnion with order := [2, 1, 0] } [⟨fun _ _ => true, [], []⟩] start = some s ∧
      s.abort = false ∧ s.err = false ∧ s.size 0 = 4 ∧ s.size 1 = 4 ∧ s.size 2 = 4 :=
  ⟨⟨_, rfl, by decide +kernel⟩, ⟨_, rfl, by decide +kernel⟩⟩

/-! ### C85 -/

/-- C85. A class that needs itself, through data members, arrays or ancestors, never has a size as
long as no error was given. -/
theorem C85_never_sized (p : Prog n) (L : Legal p) (F : Fits p) (vs : List (View n))
    (T : ∀ v ∈ vs, Tied v) (s : St n) (h : rounds p vs start = some s) (he : s.err = false)
    (ha : s.abort = false) (c : Fin n) (hc : Relation.TransGen (Needs p) c c) : s.size c < 0 := by
  by_contra hn
  have i := (rounds_good L F vs T _ _ h ⟨he, ha⟩).2 _ inv_start
  exact (i.size_ok c (by omega)).1.acyclic hc

/-- Two quarks that contain each other; a third contains the first. -/
def ring : Prog 3 where
  kind := fun _ => .quark
  union := fun _ => false
  members := fun c =>
    if c = 0 then [⟨.prim 2, none⟩, ⟨.cls 1, none⟩] else if c = 1 then [⟨.cls 0, none⟩] else [⟨.cls 0, none⟩]
  other := fun _ => false
  bases := fun _ => []
  anc := fun _ => []
  order := [2, 0, 1]

theorem ring_legal : Legal ring := by
  refine ⟨by decide, by decide, fun c a => ⟨fun h => (by cases h), fun h => ?_⟩, by decide⟩
  cases h with
  | single h => cases h
  | tail _ h => cases h

/-- C85. A class that contains itself through data members that are no arrays is reported in the
first round in which the classes it contains do not wait for a base class, an array or a name: the
pass gives an error (or stops at an assertion). `X` are the classes it contains that have no size. -/
theorem C85_reported (p : Prog n) (L : Legal p) (F : Fits p) (vs : List (View n))
    (T : ∀ v ∈ vs, Tied v) (s : St n) (h : rounds p vs start = some s) (he : s.err = false)
    (ha : s.abort = false) (v : View n) (Tv : Tied v) (U : Full p v) (r : Bool × St n)
    (hr : round p v s = some r) (X : Fin n → Prop)
    (hX : ∀ x, X x → (∀ b ∈ p.bases x, 0 ≤ s.size b) ∧
      ∀ m ∈ p.members x, ∀ d, m.ty = .cls d → (m.count = none → X d ∨ 0 ≤ s.size d) ∧
        (m.count ≠ none → complete p s d = true))
    (c : Fin n) (hc : X c) (ho : c ∈ p.order) (hcyc : Relation.TransGen (Contains p) c c) :
    r.2.err = true ∨ r.2.abort = true := by
  by_contra hn
  simp only [not_or, Bool.not_eq_true] at hn
  have i := (rounds_good L F vs T _ _ h ⟨he, ha⟩).2 _ inv_start
  have hd := round_done L F Tv U i hr hn hX hc ho
  have i' := (round_good L F Tv hr hn).2 _ i
  exact (i'.size_ok c (complete_size i' hd)).1.acyclic
    (hcyc.lift id fun x y hxy => .inl ⟨_, hxy, rfl⟩)

example : ∃ r, round ring ⟨fun _ _ => true, [], []⟩ start = some r ∧ r.2.err = true ∧ r.2.abort = false ∧
    r.1 = false :=
  ⟨_, rfl, by decide +kernel⟩

example (r : Bool × St 3) (hr : round ring ⟨fun _ _ => true, [], []⟩ start = some r) :
    r.2.err = true ∨ r.2.abort = true := by
  have F : Fits ring := by unfold Fits; decide
  refine C85_reported ring ring_legal F [] (fun v hv => (by cases hv)) start rfl rfl rfl
    ⟨fun _ _ => true, [], []⟩ rfl
    ⟨fun _ _ _ => rfl, fun a => ⟨fun h => (by cases h), fun ⟨c, m, hm, _, h2⟩ => ?_⟩⟩ r hr (fun _ => True)
    (fun x _ => ⟨fun b hb => (by cases hb), fun m hm d hd => ⟨fun _ => .inl trivial, fun h2 => ?_⟩⟩) 0 trivial
    (by decide) (.tail (.single (b := 1) (by unfold Contains; decide)) (by unfold Contains; decide))
  · exfalso
    have : ∀ c : Fin 3, ∀ m ∈ ring.members c, m.count = none := by decide
    rw [this c m hm] at h2
    cases h2
  · exfalso
    have : ∀ c : Fin 3, ∀ m ∈ ring.members c, m.count = none := by decide
    exact h2 (this x m hm)

/-- A quark with an array of itself. -/
def selfArray : Prog 1 where
  kind := fun _ => .quark
  union := fun _ => false
  members := fun _ => [⟨.cls 0, some 2⟩]
  other := fun _ => false
  bases := fun _ => []
  anc := fun _ => []
  order := [0]

/-- C85 fails for arrays: a quark with an array of two of itself is never reported by the sizing,
however many rounds there are; it only stays without a size. -/
theorem C85_array_fails (vs : List (View 1)) (hv : ∀ v ∈ vs, Tied v ∧ Full selfArray v) :
    Relation.TransGen (Needs selfArray) 0 0 ∧ rounds selfArray vs start = some start := by
  refine ⟨.single (.inl ⟨_, List.mem_singleton.2 rfl, rfl⟩), ?_⟩
  induction vs with
  | nil => rfl
  | cons v vs ih =>
    obtain ⟨T, U⟩ := hv v (List.mem_cons_self ..)
    have hl : ∀ l : List (Ty 1 × Nat), (∀ a ∈ l, a.1 = .cls 0) →
        l.foldl (resolveArray selfArray) start = start := by
      intro l
      induction l with
      | nil => intro _; rfl
      | cons a l ih =>
        intro ha
        obtain ⟨ty, j⟩ := a
        have e : ty = .cls 0 := ha (ty, j) (List.mem_cons_self ..)
        subst e
        have : resolveArray selfArray start (.cls 0, j) = start := by
          simp [resolveArray, start, complete, UNKNOWN]
        rw [List.foldl_cons, this]
        exact ih fun x hx => ha x (List.mem_cons_of_mem _ hx)
    have hr : round selfArray v start = some (false, start) := by
      unfold round
      rw [show v.early = [] from T, hl v.arrays fun a ha => ?_]
      · have ht : v.typed 0 ⟨.cls 0, some 2⟩ = true := U.1 0 _ (List.mem_singleton.2 rfl)
        simp [pass, selfArray, sizeClass, complete, start, UNKNOWN, trySet, blockBits, baseSum, sumMembers,
          typeSize, judge, settle, ht, CYCLE, EMPTY]
      · obtain ⟨c, m, hm, h1, _⟩ := (U.2 a).1 ha
        have : m = ⟨.cls 0, some 2⟩ := by simpa [selfArray] using hm
        rw [← h1, this]
    unfold rounds
    rw [hr]
    exact ih fun v hv' => hv v (List.mem_cons_of_mem _ hv')

end Ulam.Sizing
