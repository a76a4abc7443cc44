import Verif.Scope.Spec
import Mathlib.Tactic.SplitIfs
import Mathlib.Data.List.Pairwise
import Mathlib.Data.List.Infix
import Mathlib.Data.List.Nodup

namespace Ulam.Scope

/-! ### Visible declarations -/

/-- A symbol may be meant at node `no` inside the initial value of `own`. -/
def visible (no : Nat) (own : Option Sym) (s : Sym) : Bool :=
  !s.isLocal || (decide (s.declNo ≤ no) && decide (own ≠ some s))

def tableVis (no : Nat) (own : Option Sym) (t : List Sym) (x : Nat) : Option Sym :=
  t.find? fun s => s.decl.name == x && visible no own s

def firstVis (no : Nat) (own : Option Sym) : List Blk → Nat → Option Sym
  | [], _ => none
  | b :: bs, x =>
    match tableVis no own b.table x with
    | some s => some s
    | none => firstVis no own bs x

def outside (o : Outer) (x : Nat) : Option Sym :=
  match byAncestor o.bases x with
  | some s => some s
  | none => inFile o.file x

def expect (o : Outer) (chain : List Blk) (own : Option Sym) (x no : Nat) : Option Decl :=
  Option.map Sym.decl (match firstVis no own chain x with
    | some s => some s
    | none => outside o x)

def expE (o : Outer) (chain : List Blk) (own : Option Sym) : PExpr → List (Option Decl)
  | .lit => []
  | .ident c => [expect o chain own c.name c.no]
  | .op l r => expE o chain own l ++ expE o chain own r
  | .call e => expE o chain own e

def expS (o : Outer) (chain : List Blk) : PStmts → List (Option Decl)
  | .done => []
  | .var s e rest => expE o chain (some s) e ++ expS o chain rest
  | .con _ rest => expS o chain rest
  | .use e rest => expE o chain none e ++ expS o chain rest
  | .block b body rest => expS o (b :: chain) body ++ expS o chain rest

/-! ### Chains of blocks -/

structure TableOk (L : List Decl) (blk : Nat) (t : List Sym) : Prop where
  loc : ∀ s ∈ t, s.isLocal = true ∧ s.blockNo = blk ∧ s.decl ∈ L ∧ s.decl.kind ≠ .other
  uniq : (t.map (·.decl.name)).Nodup

inductive ChainOk (o : Outer) (L : List Decl) : List Blk → Prop
  | cls : ChainOk o L [classBlk o]
  | cons {b c} : ChainOk o L c → headNo c < b.no → TableOk L b.no b.table →
      ChainOk o L (b :: c)

variable {o : Outer} {L : List Decl}

theorem ChainOk.ne_nil {c} (h : ChainOk o L c) : c ≠ [] := by
  cases h <;> simp

theorem ChainOk.suffix {c S} (h : ChainOk o L c) (hs : S <:+ c) (hne : S ≠ []) :
    ChainOk o L S := by
  induction h with
  | cls =>
    rcases List.suffix_cons_iff.1 hs with e | e
    · subst e; exact .cls
    · exact absurd (List.suffix_nil.1 e) hne
  | cons h1 h2 h3 ih =>
    rcases List.suffix_cons_iff.1 hs with e | e
    · subst e; exact .cons h1 h2 h3
    · exact ih e

theorem ChainOk.head_le {c S} (h : ChainOk o L c) (hs : S <:+ c) (hne : S ≠ []) :
    headNo S ≤ headNo c := by
  induction h with
  | cls =>
    rcases List.suffix_cons_iff.1 hs with e | e
    · subst e; exact Nat.le_refl _
    · exact absurd (List.suffix_nil.1 e) hne
  | cons h1 h2 h3 ih =>
    rcases List.suffix_cons_iff.1 hs with e | e
    · subst e; exact Nat.le_refl _
    · exact Nat.le_trans (ih e) (Nat.le_of_lt h2)

theorem ChainOk.eq_of_head {c S} (h : ChainOk o L c) (hs : S <:+ c) (hne : S ≠ [])
    (hh : headNo c ≤ headNo S) : S = c := by
  cases h with
  | cls =>
    rcases List.suffix_cons_iff.1 hs with e | e
    · exact e
    · exact absurd (List.suffix_nil.1 e) hne
  | cons h1 h2 h3 =>
    rcases List.suffix_cons_iff.1 hs with e | e
    · exact e
    · have := h1.head_le e hne
      exact absurd (Nat.lt_of_le_of_lt (Nat.le_trans hh this) h2) (Nat.lt_irrefl _)

theorem suffixAt_head {c S} (h : ChainOk o L c) (hs : S <:+ c) (hne : S ≠ []) :
    suffixAt c (headNo S) = S := by
  induction h with
  | cls =>
    rcases List.suffix_cons_iff.1 hs with e | e
    · subst e; simp [suffixAt, headNo]
    · exact absurd (List.suffix_nil.1 e) hne
  | @cons b c h1 h2 h3 ih =>
    rcases List.suffix_cons_iff.1 hs with e | e
    · subst e; simp [suffixAt, headNo]
    · have := h1.head_le e hne
      have hb : b.no ≠ headNo S := by omega
      simp only [suffixAt, if_neg hb]
      exact ih e

theorem inTable_some {t : List Sym} {x s} (h : inTable t x = some s) :
    s ∈ t ∧ s.decl.name = x := by
  refine ⟨List.mem_of_find?_eq_some h, ?_⟩
  have := List.find?_some h
  simpa using this

theorem inTable_none {t : List Sym} {x} (h : inTable t x = none) :
    ∀ s ∈ t, s.decl.name ≠ x := by
  intro s hs
  have := List.find?_eq_none.1 h s hs
  simpa using this

theorem tableVis_none_of {t : List Sym} {x no own}
    (h : ∀ s ∈ t, s.decl.name = x → visible no own s = false) : tableVis no own t x = none := by
  refine List.find?_eq_none.2 ?_
  intro s hs
  by_cases e : s.decl.name = x
  · simp [h s hs e]
  · simp [e]

theorem uniq_name {t : List Sym} (h : (t.map (·.decl.name)).Nodup) {s s' : Sym}
    (hs : s ∈ t) (hs' : s' ∈ t) (e : s.decl.name = s'.decl.name) : s = s' := by
  exact List.inj_on_of_nodup_map h hs hs' e

theorem byAncestor_spec {bs : List (List Decl)} {x s} (h : byAncestor bs x = some s) :
    s.isLocal = false ∧ s.decl.name = x ∧ s.decl ∈ bs.flatten := by
  induction bs with
  | nil => simp [byAncestor] at h
  | cons d ds ih =>
    simp only [byAncestor] at h
    split at h
    · rename_i d' hd
      cases h
      refine ⟨rfl, ?_, ?_⟩
      · simpa [outerSym] using List.find?_some hd
      · simp [outerSym, List.mem_of_find?_eq_some hd]
    · obtain ⟨a, b, c⟩ := ih h
      exact ⟨a, b, by simp at c ⊢; exact Or.inr c⟩

theorem outside_spec {x s} (h : outside o x = some s) :
    s.isLocal = false ∧ s.decl.name = x ∧ s.decl ∈ around o := by
  unfold outside at h
  split at h
  · rename_i s' hs
    cases h
    obtain ⟨a, b, c⟩ := byAncestor_spec hs
    exact ⟨a, b, by simp only [around, List.mem_append]; exact Or.inl (Or.inr c)⟩
  · unfold inFile at h
    cases hf : o.file.find? fun d => d.name == x with
    | none => simp [hf] at h
    | some d =>
      simp only [hf, Option.map_some, Option.some.injEq] at h
      subst h
      refine ⟨rfl, by simpa [outerSym] using List.find?_some hf, ?_⟩
      simp [around, outerSym, List.mem_of_find?_eq_some hf]

theorem lookup_eq (bs : List Blk) (x : Nat) :
    lookup o bs x = (match here bs x with | some s => some s | none => outside o x) := by
  unfold lookup outside
  cases here bs x <;> rfl

/-- What a chain finds: a symbol of one of its blocks, in the first block that has the
name. -/
theorem here_spec {S} (h : ChainOk o L S) {x s} (hh : here S x = some s) :
    s.decl.name = x ∧ (s.decl ∈ L ++ around o) ∧
    ((s.isLocal = false ∧ s.decl ∈ around o) ∨
      (s.isLocal = true ∧ s.decl ∈ L ∧ s.decl.kind ≠ .other)) := by
  induction h with
  | cls =>
    simp only [here] at hh
    split at hh
    · rename_i s' hs
      cases hh
      obtain ⟨a, b⟩ := inTable_some hs
      simp only [classBlk, List.mem_map] at a
      obtain ⟨d, hd, e⟩ := a
      subst e
      have hm : d ∈ around o := by simp [around, hd]
      exact ⟨b, List.mem_append.2 (Or.inr hm), Or.inl ⟨rfl, hm⟩⟩
    · cases hh
  | @cons b c h1 h2 h3 ih =>
    simp only [here] at hh
    split at hh
    · rename_i s' hs
      cases hh
      obtain ⟨a, e⟩ := inTable_some hs
      obtain ⟨l1, l2, l3, l4⟩ := h3.loc s a
      exact ⟨e, List.mem_append.2 (Or.inl l3), Or.inr ⟨l1, l3, l4⟩⟩
    · exact ih hh

theorem lookup_spec {S} (h : ChainOk o L S) {x s} (hh : lookup o S x = some s) :
    s.decl.name = x ∧ (s.decl ∈ L ++ around o) ∧
    ((s.isLocal = false ∧ s.decl ∈ around o) ∨
      (s.isLocal = true ∧ s.decl ∈ L ∧ s.decl.kind ≠ .other ∧ here S x = some s)) := by
  rw [lookup_eq] at hh
  cases hr : here S x with
  | some s' =>
    simp only [hr, Option.some.injEq] at hh
    subst hh
    obtain ⟨a, b, c⟩ := here_spec h hr
    refine ⟨a, b, ?_⟩
    rcases c with c | c
    · exact Or.inl c
    · exact Or.inr ⟨c.1, c.2.1, c.2.2, rfl⟩
  | none =>
    simp only [hr] at hh
    obtain ⟨a, b, c⟩ := outside_spec hh
    exact ⟨b, List.mem_append.2 (Or.inr c), Or.inl ⟨a, c⟩⟩

/-- A name that no table has is not visible either. -/
theorem firstVis_none {S : List Blk} {x no own} (h : here S x = none) :
    firstVis no own S x = none := by
  induction S with
  | nil => rfl
  | cons b bs ih =>
    simp only [here] at h
    cases ht : inTable b.table x with
    | some s => simp [ht] at h
    | none =>
      simp only [ht] at h
      have : tableVis no own b.table x = none :=
        tableVis_none_of fun s hs e => absurd e (inTable_none ht s hs)
      simp only [firstVis, this]
      exact ih h

theorem tableVis_of_first {t : List Sym} {x no own s} (h : inTable t x = some s)
    (hv : visible no own s = true) : tableVis no own t x = some s := by
  unfold inTable at h
  unfold tableVis
  induction t with
  | nil => simp at h
  | cons a as ih =>
    simp only [List.find?_cons] at h ⊢
    by_cases e : (a.decl.name == x) = true
    · simp only [e] at h
      cases h
      simp [e, hv]
    · simp only [e] at h ⊢
      simpa using ih h

theorem firstVis_of_here {S : List Blk} {x no own s} (h : here S x = some s)
    (hv : visible no own s = true) : firstVis no own S x = some s := by
  induction S with
  | nil => simp [here] at h
  | cons b bs ih =>
    simp only [here] at h
    cases ht : inTable b.table x with
    | some s' =>
      simp only [ht, Option.some.injEq] at h
      subst h
      simp [firstVis, tableVis_of_first ht hv]
    | none =>
      simp only [ht] at h
      have : tableVis no own b.table x = none :=
        tableVis_none_of fun s hs e => absurd e (inTable_none ht s hs)
      simp only [firstVis, this]
      exact ih h

/-- What is found and may be meant, is meant. -/
theorem expect_of_lookup {S : List Blk} {x no own s} (h : lookup o S x = some s)
    (hv : visible no own s = true) : expect o S own x no = some s.decl := by
  rw [lookup_eq] at h
  unfold expect
  cases hr : here S x with
  | some s' =>
    simp only [hr, Option.some.injEq] at h
    subst h
    simp [firstVis_of_here hr hv]
  | none =>
    simp only [hr] at h
    simp [firstVis_none hr, h]

theorem expect_of_lookup_none {S : List Blk} {x no own} (h : lookup o S x = none) :
    expect o S own x no = none := by
  rw [lookup_eq] at h
  unfold expect
  cases hr : here S x with
  | some s' => simp [hr] at h
  | none =>
    simp only [hr] at h
    simp [firstVis_none hr, h]

/-- Moving out one block past a symbol that is not meant loses nothing. -/
theorem step_out {S} (h : ChainOk o L S) {x s no own} (hl : lookup o S x = some s)
    (hloc : s.isLocal = true) (hv : visible no own s = false) :
    ∃ b S', S = b :: S' ∧ S' ≠ [] ∧ firstVis no own S' x = firstVis no own S x := by
  obtain ⟨hn, -, hc⟩ := lookup_spec h hl
  rcases hc with hc | ⟨-, -, -, hh⟩
  · rw [hc.1] at hloc; cases hloc
  cases h with
  | cls =>
    exfalso
    obtain ⟨-, -, hc⟩ := here_spec (L := L) .cls hh
    simp only [here] at hh
    split at hh
    · rename_i s' hs
      cases hh
      obtain ⟨a, -⟩ := inTable_some hs
      simp only [classBlk, List.mem_map] at a
      obtain ⟨d, -, e⟩ := a
      subst e
      cases hloc
    · cases hh
  | @cons b c h1 h2 h3 =>
    refine ⟨b, c, rfl, h1.ne_nil, ?_⟩
    have : tableVis no own b.table x = none := by
      refine tableVis_none_of fun s' hs' e => ?_
      simp only [here] at hh
      cases ht : inTable b.table x with
      | none => exact absurd e (inTable_none ht s' hs')
      | some s'' =>
        simp only [ht, Option.some.injEq] at hh
        subst hh
        obtain ⟨a, e'⟩ := inTable_some ht
        rw [uniq_name h3.uniq hs' a (e.trans e'.symm)]
        exact hv
    simp only [firstVis, this]

/-- The part of the chain that begins with the block that has the name. -/
theorem here_block {S} (h : ChainOk o L S) {x s} (hh : here S x = some s)
    (hloc : s.isLocal = true) (no : Nat) (own : Option Sym) :
    ∃ b T, (b :: T) <:+ S ∧ b.no = s.blockNo ∧ s ∈ b.table ∧ here (b :: T) x = some s ∧
      firstVis no own (b :: T) x = firstVis no own S x := by
  induction h with
  | cls =>
    exfalso
    simp only [here] at hh
    split at hh
    · rename_i s' hs
      cases hh
      obtain ⟨a, -⟩ := inTable_some hs
      simp only [classBlk, List.mem_map] at a
      obtain ⟨d, -, e⟩ := a
      subst e
      cases hloc
    · cases hh
  | @cons b c h1 h2 h3 ih =>
    cases ht : inTable b.table x with
    | some s' =>
      have hh' := hh
      simp only [here, ht, Option.some.injEq] at hh'
      subst hh'
      obtain ⟨a, -⟩ := inTable_some ht
      exact ⟨b, c, List.suffix_refl _, ((h3.loc _ a).2.1).symm, a, hh, rfl⟩
    | none =>
      simp only [here, ht] at hh
      obtain ⟨b', T, i1, i2, i3, i4, i5⟩ := ih hh
      refine ⟨b', T, i1.trans (List.suffix_cons _ _), i2, i3, i4, ?_⟩
      have : tableVis no own b.table x = none :=
        tableVis_none_of fun s hs e => absurd e (inTable_none ht s hs)
      rw [i5]
      simp only [firstVis, this]

/-! ### One name -/

/-- What holds of a name between two passes. -/
structure OccInv (o : Outer) (L : List Decl) (chain : List Blk) (own : Option Sym) (c : Occ) :
    Prop where
  suf : blockOf chain c <:+ chain
  ne : blockOf chain c ≠ []
  vis : firstVis c.no own (blockOf chain c) c.name = firstVis c.no own chain c.name
  bnd : ∀ s, c.bound = some s → lookup o (blockOf chain c) c.name = some s ∧ s.decl.kind ≠ .other
  con : c.isCon = true → (∃ d ∈ L, d.kind = .con ∧ d.name = c.name) ∨
    ∃ s, c.bound = some s ∧ s.isLocal = false
  bkc : c.isCon = true → ∀ s, c.bound = some s → s.decl.kind = .con
  stv : c.isCon = false → ∀ s, c.bound = some s → s.isLocal = true → c.start = some s.blockNo

/-- A name the pass has not to come back to for its own sake. -/
structure Settled (c : Occ) (s : Sym) : Prop where
  bnd : c.bound = some s
  late : s.isLocal = true → s.declNo ≤ c.no
  kind : s.decl.kind ≠ .other
  kv : c.isCon = false → s.decl.kind = .var

def mu (chain : List Blk) (c : Occ) : Nat :=
  (blockOf chain c).length + if c.isCon then 0 else 1

theorem expect_suffix {chain S : List Blk} {x no own}
    (h : firstVis no own S x = firstVis no own chain x) :
    expect o S own x no = expect o chain own x no := by
  unfold expect; rw [h]

theorem prevNo_cons {b : Blk} {S : List Blk} (h : S ≠ []) : prevNo (b :: S) = some (headNo S) := by
  cases S with
  | nil => exact absurd rfl h
  | cons a as => rfl

/-- Moving out a name whose symbol is not meant. -/
theorem moved {chain : List Blk} (hc : ChainOk o L chain) {own} {c : Occ}
    (hi : OccInv o L chain own c) {s} (hb : c.bound = some s) (hloc : s.isLocal = true)
    (hv : visible c.no own s = false) :
    ∃ p, prevNo (blockOf chain c) = some p ∧
      OccInv o L chain own { c with start := some p, ptr := none, bound := none } ∧
      mu chain { c with start := some p, ptr := none, bound := none } < mu chain c ∧
      (blockOf chain { c with start := some p, ptr := none, bound := none }).length <
        (blockOf chain c).length := by
  obtain ⟨hl, hk⟩ := hi.bnd s hb
  have hS := hc.suffix hi.suf hi.ne
  obtain ⟨b, S', e, hne, hf⟩ := step_out hS hl hloc hv
  have hsuf : S' <:+ chain := by
    have : S' <:+ blockOf chain c := by rw [e]; exact List.suffix_cons _ _
    exact this.trans hi.suf
  refine ⟨headNo S', by rw [e]; exact prevNo_cons hne, ?_, ?_⟩
  · have hbo : blockOf chain { c with start := some (headNo S'), ptr := none, bound := none } = S' := by
      simp only [blockOf]
      exact suffixAt_head hc hsuf hne
    constructor
    · rw [hbo]; exact hsuf
    · rw [hbo]; exact hne
    · rw [hbo]; exact hf.trans hi.vis
    · intro s' h'; cases h'
    · intro hcon
      have hcon' : c.isCon = true := hcon
      rcases hi.con hcon' with h1 | ⟨s', h1, h2⟩
      · exact Or.inl h1
      · rw [hb] at h1
        cases h1
        rw [hloc] at h2; cases h2
    · intro _ s' h'; cases h'
    · intro _ s' h'; cases h'
  · have hbo : blockOf chain { c with start := some (headNo S'), ptr := none, bound := none } = S' := by
      simp only [blockOf]
      exact suffixAt_head hc hsuf hne
    unfold mu
    rw [hbo, e]
    simp only [List.length_cons]
    split_ifs <;> omega

/-- What a pass does to one name. -/
structure Progress (o : Outer) (L : List Decl) (chain : List Blk) (own : Option Sym) (c : Occ)
    (r : Occ × St) : Prop where
  inv : r.2 ≠ .err → OccInv o L chain own r.1
  name : r.2 ≠ .err → r.1.name = c.name
  no : r.2 ≠ .err → r.1.no = c.no
  le : r.2 ≠ .err → mu chain r.1 ≤ mu chain c
  lt : r.2 = .hazy → mu chain r.1 < mu chain c
  fin : r.2 = .ok → ∃ s, Settled r.1 s
  bad : r.2 = .err → usable (expect o chain own c.name c.no) = false
  len : r.2 ≠ .err → (blockOf chain r.1).length ≤ (blockOf chain c).length

theorem usedBefore_spec {chain : List Blk} (hc : ChainOk o L chain) {own} {c c0 : Occ}
    (hi : OccInv o L chain own c) {s} (hb : c.bound = some s)
    (hk : c.isCon = false → s.decl.kind = .var)
    (hn : c.name = c0.name) (hno : c.no = c0.no) (hm : mu chain c ≤ mu chain c0)
    (hlen : (blockOf chain c).length ≤ (blockOf chain c0).length) :
    Progress o L chain own c0 (usedBefore chain c s) := by
  unfold usedBefore
  by_cases h : (s.isLocal && decide (c.no < s.declNo)) = true
  · rw [if_pos h]
    simp only [Bool.and_eq_true, decide_eq_true_eq] at h
    have hv : visible c.no own s = false := by
      simp only [visible, h.1, Bool.not_true, Bool.false_or, Bool.and_eq_false_iff,
        decide_eq_false_iff_not]
      exact Or.inl (by omega)
    obtain ⟨p, hp, hi', hm', hl'⟩ := moved hc hi hb h.1 hv
    simp only [hp]
    have := Nat.lt_of_lt_of_le hm' hm
    exact ⟨fun _ => hi', fun _ => hn, fun _ => hno, fun _ => Nat.le_of_lt this, fun _ => this,
      fun h => by simp at h, fun h => by simp at h, fun _ => by simp only; omega⟩
  · rw [if_neg h]
    simp only [Bool.and_eq_true, decide_eq_true_eq, not_and, Nat.not_lt] at h
    exact ⟨fun _ => hi, fun _ => hn, fun _ => hno, fun _ => hm, fun h => by simp at h,
      fun _ => ⟨s, hb, h, (hi.bnd s hb).2, hk⟩, fun h => by simp at h, fun _ => hlen⟩

/-- A name whose lookup has found a symbol. -/
theorem OccInv.bind {chain : List Blk} (hc : ChainOk o L chain) {own} {c : Occ}
    (hi : OccInv o L chain own c) {s} (hl : lookup o (blockOf chain c) c.name = some s)
    (hk : s.decl.kind ≠ .other) (hbc : c.isCon = true → s.decl.kind = .con)
    (hb0 : c.bound = none) {st : Option Nat}
    (hst : c.isCon = false → s.isLocal = true → st = some s.blockNo) :
    OccInv o L chain own
      { c with start := st, ptr := some (headNo (blockOf chain c)), bound := some s } ∧
    mu chain { c with start := st, ptr := some (headNo (blockOf chain c)), bound := some s } =
      mu chain c ∧
    blockOf chain { c with start := st, ptr := some (headNo (blockOf chain c)), bound := some s } =
      blockOf chain c := by
  have hbo : blockOf chain
      { c with start := st, ptr := some (headNo (blockOf chain c)), bound := some s } =
      blockOf chain c := by
    show suffixAt chain (headNo (blockOf chain c)) = _
    exact suffixAt_head hc hi.suf hi.ne
  refine ⟨⟨?_, ?_, ?_, ?_, ?_, ?_, ?_⟩, ?_, hbo⟩
  · rw [hbo]; exact hi.suf
  · rw [hbo]; exact hi.ne
  · rw [hbo]; exact hi.vis
  · intro s' h'
    cases h'
    rw [hbo]
    exact ⟨hl, hk⟩
  · intro h
    rcases hi.con h with h1 | ⟨s', h1, h2⟩
    · exact Or.inl h1
    · rw [hb0] at h1; cases h1
  · intro h s' h'
    cases h'
    exact hbc h
  · intro h s' h' hl'
    cases h'
    exact hst h hl'
  · unfold mu
    rw [hbo]

theorem become_spec {chain : List Blk} (hc : ChainOk o L chain) {own} {c : Occ}
    (hi : OccInv o L chain own c) {s} (hl : lookup o (blockOf chain c) c.name = some s)
    (hk : s.decl.kind = .con) (hcon : c.isCon = false) :
    Progress o L chain own c (become c s, .hazy) := by
  have hS := hc.suffix hi.suf hi.ne
  obtain ⟨hn, -, hcase⟩ := lookup_spec hS hl
  unfold become
  by_cases hloc : s.isLocal = true
  · simp only [hloc, if_true]
    rcases hcase with h | ⟨-, hL, -, hh⟩
    · rw [hloc] at h; cases h.1
    obtain ⟨b, T, i1, i2, i3, i4, i5⟩ := here_block hS hh hloc c.no own
    have hsuf := i1.trans hi.suf
    have hbo : blockOf chain
        { c with isCon := true, start := some s.blockNo, ptr := none, bound := none } = b :: T := by
      show suffixAt chain s.blockNo = _
      rw [← i2]
      exact suffixAt_head hc hsuf (by simp)
    have hmu : mu chain
        { c with isCon := true, start := some s.blockNo, ptr := none, bound := none } <
        mu chain c := by
      unfold mu
      rw [hbo, hcon]
      have := i1.length_le
      simp at this ⊢
      omega
    refine ⟨fun _ => ⟨?_, ?_, ?_, ?_, ?_, ?_, ?_⟩, fun _ => rfl, fun _ => rfl,
      fun _ => Nat.le_of_lt hmu, fun _ => hmu, fun h => by simp at h, fun h => by simp at h,
      fun _ => by rw [hbo]; exact i1.length_le⟩
    · rw [hbo]; exact hsuf
    · rw [hbo]; simp
    · rw [hbo]; exact i5.trans hi.vis
    · intro s' h'; cases h'
    · intro _; exact Or.inl ⟨s.decl, hL, hk, hn⟩
    · intro _ s' h'; cases h'
    · intro _ s' h'; cases h'
  · simp only [hloc]
    have hloc' : s.isLocal = false := by simpa using hloc
    have hbo : blockOf chain { c with isCon := true, bound := some s } = blockOf chain c := rfl
    have hmu : mu chain { c with isCon := true, bound := some s } < mu chain c := by
      unfold mu
      rw [hbo, hcon]
      simp
    refine ⟨fun _ => ⟨hi.suf, hi.ne, hi.vis, ?_, ?_, ?_, ?_⟩, fun _ => rfl, fun _ => rfl,
      fun _ => Nat.le_of_lt hmu, fun _ => hmu, fun h => by simp at h, fun h => by simp at h,
      fun _ => Nat.le_refl _⟩
    · intro s' h'
      cases h'
      exact ⟨hl, by rw [hk]; decide⟩
    · intro _; exact Or.inr ⟨s, rfl, hloc'⟩
    · intro _ s' h'; cases h'; exact hk
    · intro h; cases h

def ApartL (o : Outer) (L : List Decl) : Prop :=
  ∀ c ∈ L, c.kind = .con → ∀ v ∈ L ++ around o, v.kind = .var → v.name ≠ c.name

theorem visible_outer {no own} {s : Sym} (h : s.isLocal = false) : visible no own s = true := by
  simp [visible, h]

theorem labelOcc_spec {chain : List Blk} (hc : ChainOk o L chain) (ha : ApartL o L) {own} {c : Occ}
    (hi : OccInv o L chain own c) :
    Progress o L chain own c (labelOcc o chain c) := by
  have hS := hc.suffix hi.suf hi.ne
  have hex := expect_suffix (o := o) hi.vis
  have bad0 : lookup o (blockOf chain c) c.name = none →
      usable (expect o chain own c.name c.no) = false := by
    intro h
    rw [← hex, expect_of_lookup_none h]
    rfl
  have bad1 : ∀ s, lookup o (blockOf chain c) c.name = some s → s.decl.kind = .other →
      usable (expect o chain own c.name c.no) = false := by
    intro s h hk
    obtain ⟨-, -, hcase⟩ := lookup_spec hS h
    rcases hcase with h' | h'
    · rw [← hex, expect_of_lookup h (visible_outer h'.1)]
      simp [usable, hk]
    · exact absurd hk h'.2.2.1
  have mkbad : ∀ c' : Occ, usable (expect o chain own c.name c.no) = false →
      Progress o L chain own c (c', .err) := by
    intro c' h
    exact ⟨fun h => absurd rfl h, fun h => absurd rfl h, fun h => absurd rfl h,
      fun h => absurd rfl h, fun h => by simp at h, fun h => by simp at h, fun _ => h,
      fun h => absurd rfl h⟩
  unfold labelOcc
  cases hcon : c.isCon with
  | true =>
    cases hb : c.bound with
    | none =>
      simp only
      cases hl : lookup o (blockOf chain c) c.name with
      | none => exact mkbad _ (bad0 hl)
      | some s =>
        simp only
        by_cases hk : s.decl.kind = .con
        · rw [if_pos hk]
          obtain ⟨hi', hm, hbo⟩ := hi.bind hc hl (by rw [hk]; decide) (fun _ => hk) hb (st := c.start)
            (fun h => by rw [hcon] at h; cases h)
          have := usedBefore_spec (c0 := c) hc hi' rfl (fun h => by
            rw [show c.isCon = false from h] at hcon; cases hcon) rfl rfl (Nat.le_of_eq hm)
            (by rw [hbo])
          rw [hcon] at this
          exact this
        · rw [if_neg hk]
          refine mkbad _ (bad1 s hl ?_)
          rcases hi.con hcon with ⟨d, hd, hdk, hdn⟩ | ⟨s', h1, -⟩
          · obtain ⟨hn, hm, -⟩ := lookup_spec hS hl
            cases hkk : s.decl.kind with
            | con => exact absurd hkk hk
            | other => rfl
            | var => exact absurd (hn.trans hdn.symm) (ha d hd hdk s.decl hm hkk)
          · rw [hb] at h1; cases h1
    | some s =>
      simp only
      exact usedBefore_spec hc hi hb (fun h => by rw [hcon] at h; cases h) rfl rfl (Nat.le_refl _) (Nat.le_refl _)
  | false =>
    cases hb : c.bound with
    | none =>
      simp only
      cases hl : lookup o (blockOf chain c) c.name with
      | none => exact mkbad _ (bad0 hl)
      | some s =>
        simp only
        cases hk : s.decl.kind with
        | other => exact mkbad _ (bad1 s hl hk)
        | con => exact become_spec hc hi hl hk hcon
        | var =>
          obtain ⟨hi', hm, hbo⟩ := hi.bind hc hl (by rw [hk]; decide)
            (fun h => by rw [hcon] at h; cases h) hb (st := some s.blockNo) (fun _ _ => rfl)
          have := usedBefore_spec (c0 := c) hc hi' rfl (fun _ => hk) rfl rfl (Nat.le_of_eq hm)
            (by rw [hbo])
          rw [hcon] at this
          exact this
    | some s =>
      simp only
      obtain ⟨hl, hko⟩ := hi.bnd s hb
      by_cases hk : s.decl.kind = .con
      · rw [if_pos hk]
        exact become_spec hc hi hl hk hcon
      · rw [if_neg hk]
        refine usedBefore_spec hc hi hb (fun _ => ?_) rfl rfl (Nat.le_refl _) (Nat.le_refl _)
        cases hkk : s.decl.kind with
        | con => exact absurd hkk hk
        | other => exact absurd hkk hko
        | var => rfl

/-- A settled name whose symbol is not the one being declared has found what is meant. -/
theorem settled_exact {chain : List Blk} {own} {c : Occ}
    (hi : OccInv o L chain own c) {s} (hs : Settled c s)
    (hown : s.isLocal = true → own ≠ some s) :
    c.bound.map (·.decl) = expect o chain own c.name c.no ∧
      usable (expect o chain own c.name c.no) = true := by
  obtain ⟨hl, hk⟩ := hi.bnd s hs.bnd
  have hv : visible c.no own s = true := by
    cases hloc : s.isLocal with
    | false => exact visible_outer hloc
    | true => simp [visible, hs.late hloc, hown hloc]
  have := expect_of_lookup hl hv
  rw [expect_suffix hi.vis] at this
  rw [this, hs.bnd]
  refine ⟨rfl, ?_⟩
  simp only [usable, bne_iff_ne, ne_eq]
  exact hk

/-- The search of an initial value for the variable itself. -/
theorem checkOcc_spec {chain : List Blk} (hc : ChainOk o L chain) (ha : ApartL o L) {so : Sym}
    {c : Occ} (hi : OccInv o L chain (some so) c) {s} (hs : Settled c s)
    {b : Blk} {T : List Blk} (hch : chain = b :: T) (hso : so ∈ b.table) (hsb : so.blockNo = b.no)
    (hsl : so.decl ∈ L) (hsk : so.decl.kind = .var) (hloco : so.isLocal = true) :
    (checkOcc chain so.decl.name so.blockNo c).2 ≠ .err ∧
    OccInv o L chain (some so) (checkOcc chain so.decl.name so.blockNo c).1 ∧
    (checkOcc chain so.decl.name so.blockNo c).1.name = c.name ∧
    (checkOcc chain so.decl.name so.blockNo c).1.no = c.no ∧
    mu chain (checkOcc chain so.decl.name so.blockNo c).1 ≤ mu chain c ∧
    ((checkOcc chain so.decl.name so.blockNo c).2 = .hazy →
      mu chain (checkOcc chain so.decl.name so.blockNo c).1 < mu chain c) ∧
    ((checkOcc chain so.decl.name so.blockNo c).2 = .ok →
      (checkOcc chain so.decl.name so.blockNo c).1 = c ∧ some so ≠ some s) := by
  have hS := hc.suffix hi.suf hi.ne
  obtain ⟨hl, hk⟩ := hi.bnd s hs.bnd
  obtain ⟨hn, -, hcase⟩ := lookup_spec hS hl
  have same : some so ≠ some s →
      ((c, St.ok) : Occ × St).2 ≠ .err ∧ OccInv o L chain (some so) ((c, St.ok) : Occ × St).1 ∧
      ((c, St.ok) : Occ × St).1.name = c.name ∧ ((c, St.ok) : Occ × St).1.no = c.no ∧
      mu chain ((c, St.ok) : Occ × St).1 ≤ mu chain c ∧
      (((c, St.ok) : Occ × St).2 = .hazy → mu chain ((c, St.ok) : Occ × St).1 < mu chain c) ∧
      (((c, St.ok) : Occ × St).2 = .ok → ((c, St.ok) : Occ × St).1 = c ∧ some so ≠ some s) :=
    fun h => ⟨by simp, hi, rfl, rfl, Nat.le_refl _, fun h => by simp at h, fun _ => ⟨rfl, h⟩⟩
  have hbo : b ∈ chain := by rw [hch]; simp
  have tb : TableOk L b.no b.table ∨ (∀ s ∈ b.table, s.isLocal = false) := by
    cases hc with
    | cls =>
      right
      injection hch with e1 e2
      subst e1
      intro s hs
      simp only [classBlk, List.mem_map] at hs
      obtain ⟨d, -, e⟩ := hs
      subst e; rfl
    | cons h1 h2 h3 =>
      left
      injection hch with e1 e2
      subst e1
      exact h3
  unfold checkOcc
  by_cases hnx : c.name ≠ so.decl.name
  · rw [if_pos hnx]
    refine same ?_
    intro e
    injection e with e
    subst e
    exact hnx hn.symm
  · rw [if_neg hnx]
    have hnx' : c.name = so.decl.name := by simpa using hnx
    simp only [hs.bnd]
    by_cases hloc : s.isLocal = true
    · rw [if_neg (by simp [hloc])]
      rcases hcase with h | ⟨-, hL, -, hh⟩
      · rw [hloc] at h; cases h.1
      have hcon : c.isCon = false := by
        cases hcc : c.isCon with
        | false => rfl
        | true =>
          have := hi.bkc hcc s hs.bnd
          exact absurd (hnx'.symm.trans hn.symm)
            (ha s.decl hL this so.decl (List.mem_append.2 (Or.inl hsl)) hsk)
      rw [hi.stv hcon s hs.bnd hloc]
      simp only [Option.getD_some]
      obtain ⟨b', T', i1, i2, i3, i4, -⟩ := here_block hS hh hloc c.no none
      by_cases hlt : s.blockNo < so.blockNo
      · rw [if_pos hlt]
        refine same ?_
        intro e
        injection e with e
        subst e
        omega
      · rw [if_neg hlt]
        have hfull : b' :: T' = chain := by
          refine hc.eq_of_head (i1.trans hi.suf) (by simp) ?_
          rw [hch]
          simp only [headNo]
          omega
        have hbb : b' = b := by
          rw [hch] at hfull
          injection hfull
        subst hbb
        have hes : s = so := by
          rcases tb with tb | tb
          · exact uniq_name tb.uniq i3 hso (hn.trans hnx')
          · rw [tb s i3] at hloc; cases hloc
        subst hes
        have hv : visible c.no (some s) s = false := by simp [visible, hloc]
        obtain ⟨p, hp, hi', hm, hl'⟩ := moved hc hi hs.bnd hloc hv
        simp only [hp]
        exact ⟨by simp, hi', by simp, by simp, Nat.le_of_lt hm, fun _ => hm,
          fun h => by simp at h⟩
    · have hloc' : s.isLocal = false := by simpa using hloc
      rw [if_pos (by simp [hloc'])]
      refine same ?_
      intro e
      injection e with e
      subst e
      rw [hloco] at hloc'; cases hloc'

/-! ### Trees -/

/-- No name in the expression is that of the variable being declared. -/
def Avoid (own : Option Sym) : PExpr → Prop
  | .lit => True
  | .ident c => ∀ s, own = some s → c.name ≠ s.decl.name
  | .op l r => Avoid own l ∧ Avoid own r
  | .call e => Avoid own e

def InvE (o : Outer) (L : List Decl) (chain : List Blk) (own : Option Sym) : PExpr → Prop
  | .lit => True
  | .ident c => OccInv o L chain own c
  | .op l r => InvE o L chain own l ∧ InvE o L chain own r
  | .call e => InvE o L chain own e ∧ Avoid own e

def SettledE : PExpr → Prop
  | .lit => True
  | .ident c => ∃ s, Settled c s
  | .op l r => SettledE l ∧ SettledE r
  | .call e => SettledE e

def muE (chain : List Blk) : PExpr → Nat
  | .lit => 0
  | .ident c => mu chain c
  | .op l r => muE chain l + muE chain r
  | .call e => muE chain e

theorem join_ne_err {a b : St} (h : St.join a b ≠ .err) : a ≠ .err ∧ b ≠ .err := by
  cases a <;> cases b <;> simp_all [St.join]

theorem join_err {a b : St} (h : St.join a b = .err) : a = .err ∨ b = .err := by
  cases a <;> cases b <;> simp_all [St.join]

theorem join_ok {a b : St} (h : St.join a b = .ok) : a = .ok ∧ b = .ok := by
  cases a <;> cases b <;> simp_all [St.join]

theorem join_hazy {a b : St} (h : St.join a b = .hazy) :
    a ≠ .err ∧ b ≠ .err ∧ (a = .hazy ∨ b = .hazy) := by
  cases a <;> cases b <;> simp_all [St.join]

structure ProgressE (o : Outer) (L : List Decl) (chain : List Blk) (own : Option Sym) (e : PExpr)
    (r : PExpr × St) : Prop where
  inv : r.2 ≠ .err → InvE o L chain own r.1
  exp : r.2 ≠ .err → expE o chain own r.1 = expE o chain own e
  le : r.2 ≠ .err → muE chain r.1 ≤ muE chain e
  lt : r.2 = .hazy → muE chain r.1 < muE chain e
  fin : r.2 = .ok → SettledE r.1
  bad : r.2 = .err → ∃ d ∈ expE o chain own e, usable d = false
  avoid : r.2 ≠ .err → ∀ own', Avoid own' e → Avoid own' r.1

theorem labelE_spec {chain : List Blk} (hc : ChainOk o L chain) (ha : ApartL o L) {own} (e : PExpr)
    (hi : InvE o L chain own e) : ProgressE o L chain own e (labelE o chain e) := by
  induction e with
  | lit =>
    exact ⟨fun _ => trivial, fun _ => rfl, fun _ => Nat.le_refl _, fun h => by simp [labelE] at h,
      fun _ => trivial, fun h => by simp [labelE] at h, fun _ _ _ => trivial⟩
  | ident c =>
    have p := labelOcc_spec hc ha hi
    refine ⟨p.inv, ?_, p.le, p.lt, p.fin, ?_, ?_⟩
    · intro h
      simp only [labelE, expE]
      rw [p.name h, p.no h]
    · intro h
      exact ⟨_, by simp [expE], p.bad h⟩
    · intro h own' hav s hs
      show (labelOcc o chain c).1.name ≠ _
      rw [p.name h]
      exact hav s hs
  | op l r ihl ihr =>
    have pl := ihl hi.1
    have pr := ihr hi.2
    refine ⟨?_, ?_, ?_, ?_, ?_, ?_, ?_⟩
    · intro h
      have h' := join_ne_err h
      exact ⟨pl.inv h'.1, pr.inv h'.2⟩
    · intro h
      have h' := join_ne_err h
      simp only [labelE, expE]
      rw [pl.exp h'.1, pr.exp h'.2]
    · intro h
      have h' := join_ne_err h
      have a := pl.le h'.1
      have b := pr.le h'.2
      simp only [labelE, muE]
      omega
    · intro h
      obtain ⟨h1, h2, h3⟩ := join_hazy h
      have a := pl.le h1
      have b := pr.le h2
      simp only [labelE, muE]
      rcases h3 with h3 | h3
      · have := pl.lt h3; omega
      · have := pr.lt h3; omega
    · intro h
      have h' := join_ok h
      exact ⟨pl.fin h'.1, pr.fin h'.2⟩
    · intro h
      rcases join_err h with h' | h'
      · obtain ⟨d, hd, hu⟩ := pl.bad h'
        exact ⟨d, by simp [expE, hd], hu⟩
      · obtain ⟨d, hd, hu⟩ := pr.bad h'
        exact ⟨d, by simp [expE, hd], hu⟩
    · intro h own' hav
      have h' := join_ne_err h
      exact ⟨pl.avoid h'.1 own' hav.1, pr.avoid h'.2 own' hav.2⟩
  | call e ih =>
    have p := ih hi.1
    exact ⟨fun h => ⟨p.inv h, p.avoid h _ hi.2⟩, p.exp, p.le, p.lt, p.fin, p.bad, p.avoid⟩

/-- Names settled on something other than the variable being declared have found what
is meant. -/
theorem settledE_exact {chain : List Blk} (hc : ChainOk o L chain) {own} (e : PExpr)
    (hi : InvE o L chain own e) (hs : SettledE e) (hav : Avoid own e) :
    boundE e = expE o chain own e ∧ ∀ d ∈ expE o chain own e, usable d = true := by
  induction e with
  | lit => simp [boundE, expE]
  | ident c =>
    obtain ⟨s, hs⟩ := hs
    have hb := (hi.bnd s hs.bnd).1
    have hn := (lookup_spec (hc.suffix hi.suf hi.ne) hb).1
    have := settled_exact hi hs (fun _ h => hav s h hn.symm)
    simp only [boundE, expE, this.1, List.mem_singleton, forall_eq, this.2, and_self]
  | op l r ihl ihr =>
    have a := ihl hi.1 hs.1 hav.1
    have b := ihr hi.2 hs.2 hav.2
    refine ⟨by simp only [boundE, expE, a.1, b.1], ?_⟩
    intro d hd
    simp only [expE, List.mem_append] at hd
    rcases hd with hd | hd
    · exact a.2 d hd
    · exact b.2 d hd
  | call e ih => exact ih hi.1 hs hav

theorem avoid_none (e : PExpr) : Avoid none e := by
  induction e with
  | lit => trivial
  | ident c => intro s h; cases h
  | op l r ihl ihr => exact ⟨ihl, ihr⟩
  | call e ih => exact ih

structure Owner (L : List Decl) (chain : List Blk) (so : Sym) : Prop where
  mem : ∃ b T, chain = b :: T ∧ so ∈ b.table ∧ so.blockNo = b.no
  decl : so.decl ∈ L
  kind : so.decl.kind = .var
  loc : so.isLocal = true

theorem checkE_spec {chain : List Blk} (hc : ChainOk o L chain) (ha : ApartL o L) {so : Sym}
    (ho : Owner L chain so) (e : PExpr) (hi : InvE o L chain (some so) e) (hs : SettledE e) :
    (checkE chain so.decl.name so.blockNo e).2 ≠ .err ∧
    InvE o L chain (some so) (checkE chain so.decl.name so.blockNo e).1 ∧
    expE o chain (some so) (checkE chain so.decl.name so.blockNo e).1 =
      expE o chain (some so) e ∧
    muE chain (checkE chain so.decl.name so.blockNo e).1 ≤ muE chain e ∧
    ((checkE chain so.decl.name so.blockNo e).2 = .hazy →
      muE chain (checkE chain so.decl.name so.blockNo e).1 < muE chain e) ∧
    ((checkE chain so.decl.name so.blockNo e).2 = .ok →
      boundE (checkE chain so.decl.name so.blockNo e).1 = expE o chain (some so) e ∧
      ∀ d ∈ expE o chain (some so) e, usable d = true) := by
  induction e with
  | lit => simp [checkE, InvE, muE, boundE, expE]
  | ident c =>
    obtain ⟨s, hs⟩ := hs
    obtain ⟨b, T, h1, h2, h3⟩ := ho.mem
    obtain ⟨a1, a2, a3, a4, a5, a6, a7⟩ := checkOcc_spec hc ha hi hs h1 h2 h3 ho.decl ho.kind ho.loc
    refine ⟨a1, a2, ?_, a5, a6, ?_⟩
    · simp only [checkE, expE]
      rw [a3, a4]
    · intro h
      obtain ⟨e1, e2⟩ := a7 h
      have := settled_exact hi hs (fun _ => e2)
      simp only [checkE, boundE, expE, e1, this.1, List.mem_singleton, forall_eq, this.2, and_self]
  | op l r ihl ihr =>
    obtain ⟨a1, a2, a3, a4, a5, a6⟩ := ihl hi.1 hs.1
    obtain ⟨b1, b2, b3, b4, b5, b6⟩ := ihr hi.2 hs.2
    refine ⟨?_, ⟨a2, b2⟩, ?_, ?_, ?_, ?_⟩
    · intro h
      rcases join_err h with h' | h'
      · exact a1 h'
      · exact b1 h'
    · simp only [checkE, expE]
      rw [a3, b3]
    · simp only [checkE, muE]; omega
    · intro h
      simp only [checkE, muE]
      rcases (join_hazy h).2.2 with h' | h'
      · have := a5 h'; omega
      · have := b5 h'; omega
    · intro h
      have h' := join_ok h
      obtain ⟨c1, c2⟩ := a6 h'.1
      obtain ⟨d1, d2⟩ := b6 h'.2
      refine ⟨by simp only [checkE, boundE, expE]; rw [c1, d1], ?_⟩
      intro d hd
      simp only [expE, List.mem_append] at hd
      rcases hd with hd | hd
      · exact c2 d hd
      · exact d2 d hd
  | call e ih =>
    have := settledE_exact hc e hi.1 hs hi.2
    exact ⟨by simp [checkE], hi, rfl, Nat.le_refl _, fun h => by simp [checkE] at h, fun _ => this⟩

def InvS (o : Outer) (L : List Decl) (chain : List Blk) : PStmts → Prop
  | .done => True
  | .var s e rest => Owner L chain s ∧ InvE o L chain (some s) e ∧ InvS o L chain rest
  | .con _ rest => InvS o L chain rest
  | .use e rest => InvE o L chain none e ∧ InvS o L chain rest
  | .block b body rest =>
    ChainOk o L (b :: chain) ∧ InvS o L (b :: chain) body ∧ InvS o L chain rest

def muS (chain : List Blk) : PStmts → Nat
  | .done => 0
  | .var _ e rest => muE chain e + muS chain rest
  | .con _ rest => muS chain rest
  | .use e rest => muE chain e + muS chain rest
  | .block b body rest => muS (b :: chain) body + muS chain rest

structure ProgressS (o : Outer) (chain : List Blk) (bd ex : List (Option Decl))
    (inv : Prop) (ex' : List (Option Decl)) (m m' : Nat) (st : St) : Prop where
  inv : st ≠ .err → inv
  exp : st ≠ .err → ex' = ex
  le : st ≠ .err → m' ≤ m
  lt : st = .hazy → m' < m
  fin : st = .ok → bd = ex ∧ ∀ d ∈ ex, usable d = true
  bad : st = .err → ∃ d ∈ ex, usable d = false

theorem ProgressS.both {chain : List Blk} {bd ex ex' bd2 ex2 ex2' : List (Option Decl)}
    {i i2 : Prop} {m m' m2 m2' : Nat} {st st2 : St}
    (a : ProgressS o chain bd ex i ex' m m' st)
    (b : ProgressS o chain bd2 ex2 i2 ex2' m2 m2' st2) :
    ProgressS o chain (bd ++ bd2) (ex ++ ex2) (i ∧ i2) (ex' ++ ex2') (m + m2) (m' + m2')
      (St.join st st2) := by
  refine ⟨?_, ?_, ?_, ?_, ?_, ?_⟩
  · intro h
    have h' := join_ne_err h
    exact ⟨a.inv h'.1, b.inv h'.2⟩
  · intro h
    have h' := join_ne_err h
    rw [a.exp h'.1, b.exp h'.2]
  · intro h
    have h' := join_ne_err h
    have := a.le h'.1
    have := b.le h'.2
    omega
  · intro h
    obtain ⟨h1, h2, h3⟩ := join_hazy h
    have := a.le h1
    have := b.le h2
    rcases h3 with h3 | h3
    · have := a.lt h3; omega
    · have := b.lt h3; omega
  · intro h
    have h' := join_ok h
    obtain ⟨c1, c2⟩ := a.fin h'.1
    obtain ⟨d1, d2⟩ := b.fin h'.2
    refine ⟨by rw [c1, d1], ?_⟩
    intro d hd
    rcases List.mem_append.1 hd with hd | hd
    · exact c2 d hd
    · exact d2 d hd
  · intro h
    rcases join_err h with h' | h'
    · obtain ⟨d, hd, hu⟩ := a.bad h'
      exact ⟨d, List.mem_append.2 (Or.inl hd), hu⟩
    · obtain ⟨d, hd, hu⟩ := b.bad h'
      exact ⟨d, List.mem_append.2 (Or.inr hd), hu⟩

theorem labelUse_spec {chain : List Blk} (hc : ChainOk o L chain) (ha : ApartL o L) (e : PExpr)
    (hi : InvE o L chain none e) :
    ProgressS o chain (boundE (labelE o chain e).1) (expE o chain none e)
      (InvE o L chain none (labelE o chain e).1) (expE o chain none (labelE o chain e).1)
      (muE chain e) (muE chain (labelE o chain e).1) (labelE o chain e).2 := by
  have p := labelE_spec hc ha e hi
  refine ⟨p.inv, p.exp, p.le, p.lt, ?_, p.bad⟩
  intro h
  have h' : (labelE o chain e).2 ≠ .err := by rw [h]; simp
  have := settledE_exact hc _ (p.inv h') (p.fin h) (avoid_none _)
  rw [p.exp h'] at this
  exact this

theorem labelInit_spec {chain : List Blk} (hc : ChainOk o L chain) (ha : ApartL o L) {so : Sym}
    (ho : Owner L chain so) (e : PExpr) (hi : InvE o L chain (some so) e) :
    ProgressS o chain (boundE (labelInit o chain so e).1) (expE o chain (some so) e)
      (InvE o L chain (some so) (labelInit o chain so e).1)
      (expE o chain (some so) (labelInit o chain so e).1)
      (muE chain e) (muE chain (labelInit o chain so e).1) (labelInit o chain so e).2 := by
  have p := labelE_spec hc ha e hi
  unfold labelInit
  simp only
  by_cases h : (labelE o chain e).2 = .ok
  · rw [if_pos h]
    have h' : (labelE o chain e).2 ≠ .err := by rw [h]; simp
    obtain ⟨a1, a2, a3, a4, a5, a6⟩ := checkE_spec hc ha ho _ (p.inv h') (p.fin h)
    rw [p.exp h'] at a3 a6
    have hle := p.le h'
    exact ⟨fun _ => a2, fun _ => a3, fun _ => Nat.le_trans a4 hle,
      fun h => Nat.lt_of_lt_of_le (a5 h) hle, a6, fun h => absurd h a1⟩
  · rw [if_neg h]
    exact ⟨p.inv, p.exp, p.le, p.lt, fun h' => absurd h' h, p.bad⟩

theorem labelS_spec (ha : ApartL o L) (t : PStmts) : ∀ {chain : List Blk}, ChainOk o L chain →
    InvS o L chain t →
    ProgressS o chain (boundS (labelS o chain t).1) (expS o chain t)
      (InvS o L chain (labelS o chain t).1) (expS o chain (labelS o chain t).1)
      (muS chain t) (muS chain (labelS o chain t).1) (labelS o chain t).2 := by
  induction t with
  | done =>
    intro chain hc hi
    exact ⟨fun _ => trivial, fun _ => rfl, fun _ => Nat.le_refl _, fun h => by simp [labelS] at h,
      fun _ => by simp [labelS, boundS, expS], fun h => by simp [labelS] at h⟩
  | var s e rest ih =>
    intro chain hc hi
    have p := (labelInit_spec hc ha hi.1 e hi.2.1).both (ih hc hi.2.2)
    exact ⟨fun h => ⟨hi.1, p.inv h⟩, p.exp, p.le, p.lt, p.fin, p.bad⟩
  | con s rest ih =>
    intro chain hc hi
    have p := ih hc hi
    exact ⟨p.inv, p.exp, p.le, p.lt, p.fin, p.bad⟩
  | use e rest ih =>
    intro chain hc hi
    exact (labelUse_spec hc ha e hi.1).both (ih hc hi.2)
  | block b body rest ihb ih =>
    intro chain hc hi
    have pb := ihb hi.1 hi.2.1
    have p := ProgressS.both (chain := chain) ⟨pb.inv, pb.exp, pb.le, pb.lt, pb.fin, pb.bad⟩
      (ih hc hi.2.2)
    exact ⟨fun h => ⟨hi.1, p.inv h⟩, p.exp, p.le, p.lt, p.fin, p.bad⟩

theorem run_spec (ha : ApartL o L) : ∀ (k : Nat) (t : PStmts), InvS o L [classBlk o] t →
    muS [classBlk o] t < k →
    ((∀ d ∈ expS o [classBlk o] t, usable d = true) →
      ∃ t', run o k t = .accept t' ∧ boundS t' = expS o [classBlk o] t) ∧
    ((∃ d ∈ expS o [classBlk o] t, usable d = false) → run o k t = .reject) := by
  intro k
  induction k with
  | zero => intro t _ h; omega
  | succ k ih =>
    intro t hi hm
    have p := labelS_spec ha t .cls hi
    simp only [run]
    generalize labelS o [classBlk o] t = r at p ⊢
    obtain ⟨t', st⟩ := r
    cases st with
    | ok =>
      simp only
      obtain ⟨p1, p2⟩ := p.fin rfl
      refine ⟨fun _ => ⟨t', rfl, p1⟩, ?_⟩
      rintro ⟨d, hd, hu⟩
      rw [p2 d hd] at hu; cases hu
    | err =>
      simp only
      obtain ⟨d, hd, hu⟩ := p.bad rfl
      refine ⟨fun h => ?_, fun _ => by simp⟩
      rw [h d hd] at hu; cases hu
    | hazy =>
      simp only
      have h1 := p.inv (by simp)
      have h2 := p.exp (by simp)
      have h3 : muS [classBlk o] t' < muS [classBlk o] t := p.lt rfl
      have := ih t' h1 (by omega)
      rw [h2] at this
      exact this

/-! ### What the parser leaves behind -/

theorem parseE_le (t : List Sym) (e : Expr) : ∀ n, n ≤ (parseE t e n).2 := by
  induction e with
  | lit => intro n; simp [parseE]
  | ident sel x => intro n; simp [parseE]
  | op l r ihl ihr =>
    intro n
    have a := ihl n
    have b := ihr (parseE t l n).2
    simp only [parseE]
    omega
  | call e ih =>
    intro n
    have a := ih n
    simp only [parseE]
    omega

theorem parseE_exp (t : List Sym) (chain : List Blk) (own : Option Sym) (env : List Decl)
    (e : Expr) : ∀ n,
    (∀ x m, n ≤ m → m < (parseE t e n).2 → expect o chain own x m = nearest env x) →
    expE o chain own (parseE t e n).1 = resolveE env e := by
  induction e with
  | lit => intro n _; rfl
  | ident sel x =>
    intro n h
    simp only [parseE, expE, resolveE]
    rw [h x n (Nat.le_refl _) (by simp [parseE])]
  | op l r ihl ihr =>
    intro n h
    have a := parseE_le t l n
    have b := parseE_le t r (parseE t l n).2
    simp only [parseE] at h
    simp only [parseE, expE, resolveE]
    rw [ihl n fun x m h1 h2 => h x m h1 (by omega),
      ihr _ fun x m h1 h2 => h x m (by omega) (by omega)]
  | call e ih =>
    intro n h
    simp only [parseE] at h
    simp only [parseE, expE, resolveE]
    exact ih n fun x m h1 h2 => h x m h1 (by omega)

theorem parseE_avoid (t : List Sym) (own : Option Sym) (e : Expr)
    (h : ∀ s, own = some s → s.decl.name ∉ e.names) : ∀ n, Avoid own (parseE t e n).1 := by
  induction e with
  | lit => intro n; trivial
  | ident sel x =>
    intro n s hs e
    have := h s hs
    simp only [Expr.names, List.mem_singleton] at this
    exact this e.symm
  | op l r ihl ihr =>
    intro n
    simp only [Expr.names, List.mem_append, not_or] at h
    exact ⟨ihl (fun s hs => (h s hs).1) n, ihr (fun s hs => (h s hs).2) _⟩
  | call e ih => intro n; exact ih h n

theorem parseE_inv {t : List Sym} {b : Blk} {C : List Blk} {ext : List Sym}
    (hc : ChainOk o L (b :: C)) (hb : TableOk L b.no b.table) (ht : b.table = t ++ ext)
    (own : Option Sym) (e : Expr) (h : ∀ s, own = some s → s.decl.name ∉ e.callNames) :
    ∀ n, InvE o L (b :: C) own (parseE t e n).1 := by
  induction e with
  | lit => intro n; trivial
  | ident sel x =>
    intro n
    simp only [parseE, InvE]
    cases hb' : (if sel then none else inTable t x) with
    | none =>
      refine ⟨?_, ?_, ?_, ?_, ?_, ?_, ?_⟩
      · exact List.suffix_refl _
      · simp [blockOf]
      · simp [blockOf]
      · intro s hs; cases hs
      · intro h; cases h
      · intro h; cases h
      · intro _ s hs; cases hs
    | some s =>
      have hin : inTable t x = some s := by
        cases sel with
        | true => simp at hb'
        | false => simpa using hb'
      have hT : inTable b.table x = some s := by
        unfold inTable at hin ⊢
        rw [ht, List.find?_append, hin]
        rfl
      obtain ⟨hm, hn⟩ := inTable_some hT
      obtain ⟨l1, l2, l3, l4⟩ := hb.loc s hm
      have hbo : blockOf (b :: C) (Occ.mk x n false (some s.blockNo) none (some s)) = b :: C := by
        simp [blockOf, suffixAt, l2]
      simp only [Option.map_some]
      refine ⟨?_, ?_, ?_, ?_, ?_, ?_, ?_⟩
      · rw [hbo]
      · rw [hbo]; simp
      · rw [hbo]
      · intro s' hs'
        cases hs'
        rw [hbo]
        refine ⟨?_, l4⟩
        simp [lookup, here, hT]
      · intro h; cases h
      · intro h; cases h
      · intro _ s' hs' _
        cases hs'
        rfl
  | op l r ihl ihr =>
    intro n
    simp only [Expr.callNames, List.mem_append, not_or] at h
    exact ⟨ihl (fun s hs => (h s hs).1) n, ihr (fun s hs => (h s hs).2) _⟩
  | call e ih =>
    intro n
    simp only [Expr.callNames] at h
    refine ⟨?_, parseE_avoid t own e h n⟩
    refine ih ?_ n
    intro s hs hin
    refine h s hs ?_
    clear ih h
    induction e with
    | lit => exact hin
    | ident sel x => simp [Expr.callNames] at hin
    | op l r i1 i2 =>
      simp only [Expr.callNames, List.mem_append] at hin
      simp only [Expr.names, List.mem_append]
      exact hin.imp i1 i2
    | call e _ => exact hin

theorem parseS_grow (st : Stmts) : ∀ {blk t n p t' n'}, parseS blk st t n = some (p, t', n') →
    n ≤ n' ∧ ∃ ext, t' = t ++ ext ∧
      (∀ s ∈ ext, n < s.declNo ∧ s.declNo < n' ∧ s.isLocal = true ∧ s.blockNo = blk ∧
        s.decl ∈ st.decls ∧ s.decl.kind ≠ .other) ∧
      ((t.map (·.decl.name)).Nodup → (t'.map (·.decl.name)).Nodup) := by
  induction st with
  | done =>
    intro blk t n p t' n' h
    simp only [parseS, Option.some.injEq, Prod.mk.injEq] at h
    obtain ⟨-, rfl, rfl⟩ := h
    exact ⟨Nat.le_refl _, [], by simp, by simp, id⟩
  | var loc x e rest ih =>
    intro blk t n p t' n' h
    simp only [parseS] at h
    cases ht : inTable t x with
    | some s => simp [ht] at h
    | none =>
      simp only [ht] at h
      split at h
      · cases h
      · rename_i r t1 n1 hr
        simp only [Option.some.injEq, Prod.mk.injEq] at h
        obtain ⟨-, rfl, rfl⟩ := h
        obtain ⟨a, ext, b, c, d⟩ := ih hr
        have hle := parseE_le (t ++ [localSym blk (n + 1) .var loc x]) e (n + 2)
        refine ⟨by omega, localSym blk (n + 1) .var loc x :: ext, by simp [b], ?_, ?_⟩
        · intro s hs
          rcases List.mem_cons.1 hs with rfl | hs
          · simp [localSym, Stmts.decls]; omega
          · obtain ⟨c1, c2, c3, c4, c5, c6⟩ := c s hs
            exact ⟨by omega, c2, c3, c4, by simp [Stmts.decls, c5], c6⟩
        · intro hn
          refine d ?_
          rw [List.map_append, List.nodup_append]
          refine ⟨hn, by simp, ?_⟩
          intro a ha b hb
          simp only [List.map_cons, List.map_nil, List.mem_singleton, localSym] at hb
          subst hb
          obtain ⟨s, hs, rfl⟩ := List.mem_map.1 ha
          exact inTable_none ht s hs
  | con loc x rest ih =>
    intro blk t n p t' n' h
    simp only [parseS] at h
    cases ht : inTable t x with
    | some s => simp [ht] at h
    | none =>
      simp only [ht] at h
      split at h
      · cases h
      · rename_i r t1 n1 hr
        simp only [Option.some.injEq, Prod.mk.injEq] at h
        obtain ⟨-, rfl, rfl⟩ := h
        obtain ⟨a, ext, b, c, d⟩ := ih hr
        refine ⟨by omega, localSym blk (n + 1) .con loc x :: ext, by simp [b], ?_, ?_⟩
        · intro s hs
          rcases List.mem_cons.1 hs with rfl | hs
          · simp [localSym, Stmts.decls]; omega
          · obtain ⟨c1, c2, c3, c4, c5, c6⟩ := c s hs
            exact ⟨by omega, c2, c3, c4, by simp [Stmts.decls, c5], c6⟩
        · intro hn
          refine d ?_
          rw [List.map_append, List.nodup_append]
          refine ⟨hn, by simp, ?_⟩
          intro a ha b hb
          simp only [List.map_cons, List.map_nil, List.mem_singleton, localSym] at hb
          subst hb
          obtain ⟨s, hs, rfl⟩ := List.mem_map.1 ha
          exact inTable_none ht s hs
  | use e rest ih =>
    intro blk t n p t' n' h
    simp only [parseS] at h
    split at h
    · cases h
    · rename_i r t1 n1 hr
      simp only [Option.some.injEq, Prod.mk.injEq] at h
      obtain ⟨-, rfl, rfl⟩ := h
      obtain ⟨a, ext, b, c, d⟩ := ih hr
      have hle := parseE_le t e n
      refine ⟨by omega, ext, b, ?_, d⟩
      intro s hs
      obtain ⟨c1, c2, c3, c4, c5, c6⟩ := c s hs
      exact ⟨by omega, c2, c3, c4, c5, c6⟩
  | block body rest ihb ih =>
    intro blk t n p t' n' h
    simp only [parseS] at h
    split at h
    · cases h
    · rename_i r t1 n1 hr
      split at h
      · cases h
      · rename_i r2 t2 n2 hr2
        simp only [Option.some.injEq, Prod.mk.injEq] at h
        obtain ⟨-, rfl, rfl⟩ := h
        have hb := (ihb hr).1
        obtain ⟨a, ext, b, c, d⟩ := ih hr2
        refine ⟨by omega, ext, b, ?_, d⟩
        intro s hs
        obtain ⟨c1, c2, c3, c4, c5, c6⟩ := c s hs
        exact ⟨by omega, c2, c3, c4, by simp [Stmts.decls, c5], c6⟩

theorem find_congr {α : Type} {p q : α → Bool} {l : List α} (h : ∀ a ∈ l, p a = q a) :
    l.find? p = l.find? q := by
  induction l with
  | nil => rfl
  | cons a as ih =>
    simp only [List.find?_cons]
    rw [h a (by simp), ih fun b hb => h b (by simp [hb])]

theorem firstVis_congr {chain : List Blk} {x no no' : Nat} {own own' : Option Sym}
    (h : ∀ b ∈ chain, ∀ s ∈ b.table, s.decl.name = x → visible no own s = visible no' own' s) :
    firstVis no own chain x = firstVis no' own' chain x := by
  induction chain with
  | nil => rfl
  | cons b bs ih =>
    have h1 : tableVis no own b.table x = tableVis no' own' b.table x := by
      refine find_congr fun s hs => ?_
      by_cases e : s.decl.name = x
      · rw [h b (by simp) s hs e]
      · have : (s.decl.name == x) = false := by simpa using e
        rw [this]; rfl
    simp only [firstVis, h1]
    rw [ih fun b' hb' => h b' (by simp [hb'])]

theorem expect_congr {chain : List Blk} {x no no' : Nat} {own own' : Option Sym}
    (h : ∀ b ∈ chain, ∀ s ∈ b.table, s.decl.name = x → visible no own s = visible no' own' s) :
    expect o chain own x no = expect o chain own' x no' := by
  unfold expect
  rw [firstVis_congr h]

theorem visible_early {s : Sym} {no : Nat} {own : Option Sym} (h : s.declNo ≤ no)
    (h' : own ≠ some s) : visible no own s = true := by
  simp [visible, h, h']

theorem visible_late {s : Sym} {no : Nat} {own : Option Sym} (hl : s.isLocal = true)
    (h : no < s.declNo) : visible no own s = false := by
  simp only [visible, hl, Bool.not_true, Bool.false_or, Bool.and_eq_false_iff,
    decide_eq_false_iff_not]
  exact Or.inl (by omega)

/-- No declaration of the blocks has a number in the range. -/
def Gap (C : List Blk) (n n' : Nat) : Prop :=
  ∀ b ∈ C, ∀ s ∈ b.table, s.isLocal = true → s.declNo < n ∨ n' < s.declNo

theorem gap_visible {C : List Blk} {n n' : Nat} (hg : Gap C n n') {b} (hb : b ∈ C) {s : Sym}
    (hs : s ∈ b.table) {m m' : Nat} {own own' : Option Sym} (h1 : n ≤ m) (h2 : m ≤ n')
    (h3 : n ≤ m') (h4 : m' ≤ n') (ho : ∀ s', own = some s' → n ≤ s'.declNo)
    (ho' : ∀ s', own' = some s' → n ≤ s'.declNo) :
    visible m own s = visible m' own' s := by
  cases hl : s.isLocal with
  | false => rw [visible_outer hl, visible_outer hl]
  | true =>
    rcases hg b hb s hs hl with h | h
    · rw [visible_early (by omega), visible_early (by omega)]
      · intro e; have := ho' s e; omega
      · intro e; have := ho s e; omega
    · rw [visible_late hl (by omega), visible_late hl (by omega)]

theorem parseS_main (st : Stmts) : ∀ {blk t n p t' n'}, parseS blk st t n = some (p, t', n') →
    blk < n → (∀ s ∈ t, s.declNo < n) → ∀ {T later C env}, T = t' ++ later →
    (∀ s ∈ later, n' < s.declNo) → ChainOk o L (⟨blk, T⟩ :: C) → TableOk L blk T → Gap C n n' →
    (∀ d ∈ st.decls, d ∈ L) → NoSelfCall st →
    (∀ x, nearest env x = expect o (⟨blk, T⟩ :: C) none x n) →
    expS o (⟨blk, T⟩ :: C) p = resolveS env st ∧ InvS o L (⟨blk, T⟩ :: C) p := by
  induction st with
  | done =>
    intro blk t n p t' n' h
    simp only [parseS, Option.some.injEq, Prod.mk.injEq] at h
    obtain ⟨rfl, -, -⟩ := h
    intros
    exact ⟨rfl, trivial⟩
  | var loc x e rest ih =>
    intro blk t n p t' n' h hbn hsm T later C env hT hlater hc htab hgap hL hns henv
    simp only [parseS] at h
    cases ht : inTable t x with
    | some s => simp [ht] at h
    | none =>
      simp only [ht] at h
      generalize hs : localSym blk (n + 1) .var loc x = s at h
      have hle := parseE_le (t ++ [s]) e (n + 2)
      have hsl : s.isLocal = true := by rw [← hs]; rfl
      have hsno : s.declNo = n + 1 := by rw [← hs]; rfl
      have hsd : s.decl = ⟨x, .var, loc⟩ := by rw [← hs]; rfl
      have hsb : s.blockNo = blk := by rw [← hs]; rfl
      split at h
      · cases h
      · rename_i r t1 n1 hr
        simp only [Option.some.injEq, Prod.mk.injEq] at h
        obtain ⟨rfl, rfl, rfl⟩ := h
        obtain ⟨g1, ext, g2, g3, g4⟩ := parseS_grow rest hr
        have hT' : T = t ++ (s :: (ext ++ later)) := by rw [hT, g2]; simp
        have hmem : s ∈ T := by rw [hT']; simp
        have hTvis : ∀ z ∈ T, z.decl.name ≠ x → ∀ m own, n ≤ m → m ≤ (parseE (t ++ [s]) e (n + 2)).2 →
            (own = none ∨ own = some s) → visible m own z = visible n none z := by
          intro z hz hzx m own h1 h2 ho
          rw [hT'] at hz
          rcases List.mem_append.1 hz with hz | hz
          · have := hsm z hz
            rw [visible_early (by omega), visible_early (by omega) (by simp)]
            rcases ho with rfl | rfl
            · simp
            · intro e; injection e with e; subst e; omega
          · rcases List.mem_cons.1 hz with rfl | hz
            · exact absurd (by rw [hsd]) hzx
            · have hzl := (htab.loc z (by rw [hT']; simp only [List.mem_append, List.mem_cons]; exact Or.inr (Or.inr (List.mem_append.1 hz)))).1
              have : (parseE (t ++ [s]) e (n + 2)).2 < z.declNo := by
                rcases List.mem_append.1 hz with hz | hz
                · exact (g3 z hz).1
                · have := hlater z hz; omega
              rw [visible_late hzl (by omega), visible_late hzl (by omega)]
        have hinit : ∀ y m, n + 2 ≤ m → m < (parseE (t ++ [s]) e (n + 2)).2 →
            expect o (⟨blk, T⟩ :: C) (some s) y m = nearest env y := by
          intro y m h1 h2
          rw [henv y]
          refine expect_congr ?_
          intro b hb z hz hzy
          rcases List.mem_cons.1 hb with rfl | hb
          · by_cases hyx : y = x
            · subst hyx
              have : z = s := uniq_name htab.uniq hz hmem (by rw [hzy, hsd])
              subst this
              rw [visible_late (no := n) hsl (by omega)]
              simp [visible, hsl]
            · exact hTvis z hz (by rw [hzy]; exact hyx) m _ (by omega) (by omega) (Or.inr rfl)
          · refine gap_visible hgap hb hz (by omega) (by omega) (by omega) (by omega) ?_ ?_
            · intro s' e'; injection e' with e'; subst e'; omega
            · intro s' e'; cases e'
        have hrest := ih hr (by omega) (by
            intro z hz
            rcases List.mem_append.1 hz with hz | hz
            · have := hsm z hz; omega
            · simp only [List.mem_singleton] at hz
              subst hz; omega) hT hlater hc htab
          (by
            intro b hb z hz hzl
            rcases hgap b hb z hz hzl with h | h
            · left; omega
            · right; exact h)
          (fun d hd => hL d (by simp [Stmts.decls, hd])) hns.2
          (env := ⟨x, .var, loc⟩ :: env) (by
            intro y
            by_cases hyx : y = x
            · subst hyx
              have h1 : inTable T y = some s := by
                unfold inTable at ht ⊢
                rw [hT', List.find?_append, ht]
                simp [hsd]
              have h2 : here (⟨blk, T⟩ :: C) y = some s := by simp [here, h1]
              have := expect_of_lookup (o := o) (S := ⟨blk, T⟩ :: C) (x := y)
                (no := (parseE (t ++ [s]) e (n + 2)).2) (own := none) (s := s)
                (by simp [lookup, h2]) (visible_early (by omega) (by simp))
              rw [this]
              simp [nearest, hsd]
            · have h1 : nearest (⟨x, .var, loc⟩ :: env) y = nearest env y := by
                have hb : (x == y) = false := by simpa using fun e => hyx e.symm
                simp [nearest, List.find?_cons, hb]
              rw [h1, henv y]
              refine expect_congr ?_
              intro b hb z hz hzy
              rcases List.mem_cons.1 hb with rfl | hb
              · exact (hTvis z hz (by rw [hzy]; exact hyx) _ _ (by omega) (Nat.le_refl _) (Or.inl rfl)).symm
              · refine gap_visible hgap hb hz (by omega) (by omega) (by omega) (by omega) ?_ ?_
                · intro s' e'; cases e'
                · intro s' e'; cases e')
        refine ⟨?_, ?_, ?_, hrest.2⟩
        · simp only [expS, resolveS]
          rw [hrest.1, parseE_exp (t ++ [s]) _ _ env e _ hinit]
        · exact ⟨⟨_, _, rfl, hmem, hsb⟩, by rw [hsd]; exact hL _ (by simp [Stmts.decls]),
            by rw [hsd], hsl⟩
        · refine parseE_inv (t := t ++ [s]) (ext := ext ++ later) hc htab (by simp [hT']) _ e ?_ _
          intro s' e'
          injection e' with e'
          subst e'
          rw [hsd]
          exact hns.1
  | con loc x rest ih =>
    intro blk t n p t' n' h hbn hsm T later C env hT hlater hc htab hgap hL hns henv
    simp only [parseS] at h
    cases ht : inTable t x with
    | some s => simp [ht] at h
    | none =>
      simp only [ht] at h
      generalize hs : localSym blk (n + 1) .con loc x = s at h
      have hsl : s.isLocal = true := by rw [← hs]; rfl
      have hsno : s.declNo = n + 1 := by rw [← hs]; rfl
      have hsd : s.decl = ⟨x, .con, loc⟩ := by rw [← hs]; rfl
      split at h
      · cases h
      · rename_i r t1 n1 hr
        simp only [Option.some.injEq, Prod.mk.injEq] at h
        obtain ⟨rfl, rfl, rfl⟩ := h
        obtain ⟨g1, ext, g2, g3, g4⟩ := parseS_grow rest hr
        have hT' : T = t ++ (s :: (ext ++ later)) := by rw [hT, g2]; simp
        have hrest := ih hr (by omega) (by
            intro z hz
            rcases List.mem_append.1 hz with hz | hz
            · have := hsm z hz; omega
            · simp only [List.mem_singleton] at hz
              subst hz; omega) hT hlater hc htab
          (by
            intro b hb z hz hzl
            rcases hgap b hb z hz hzl with h | h
            · left; omega
            · right; exact h)
          (fun d hd => hL d (by simp [Stmts.decls, hd])) hns
          (env := ⟨x, .con, loc⟩ :: env) (by
            intro y
            by_cases hyx : y = x
            · subst hyx
              have h1 : inTable T y = some s := by
                unfold inTable at ht ⊢
                rw [hT', List.find?_append, ht]
                simp [hsd]
              have h2 : here (⟨blk, T⟩ :: C) y = some s := by simp [here, h1]
              have := expect_of_lookup (o := o) (S := ⟨blk, T⟩ :: C) (x := y)
                (no := n + 3) (own := none) (s := s)
                (by simp [lookup, h2]) (visible_early (by omega) (by simp))
              rw [this]
              simp [nearest, hsd]
            · have h1 : nearest (⟨x, .con, loc⟩ :: env) y = nearest env y := by
                have hb : (x == y) = false := by simpa using fun e => hyx e.symm
                simp [nearest, List.find?_cons, hb]
              rw [h1, henv y]
              refine expect_congr ?_
              intro b hb z hz hzy
              rcases List.mem_cons.1 hb with rfl | hb
              · simp only at hz
                rw [hT'] at hz
                rcases List.mem_append.1 hz with hz | hz
                · have := hsm z hz
                  rw [visible_early (by omega) (by simp), visible_early (by omega) (by simp)]
                · rcases List.mem_cons.1 hz with rfl | hz
                  · rw [hsd] at hzy; exact absurd hzy.symm hyx
                  · have hzl := (htab.loc z (by rw [hT']; simp only [List.mem_append, List.mem_cons]; exact Or.inr (Or.inr (List.mem_append.1 hz)))).1
                    have : n + 3 < z.declNo := by
                      rcases List.mem_append.1 hz with hz | hz
                      · exact (g3 z hz).1
                      · have := hlater z hz; omega
                    rw [visible_late hzl (by omega), visible_late hzl (by omega)]
              · refine gap_visible hgap hb hz (by omega) (by omega) (by omega) (by omega) ?_ ?_
                · intro s' e'; cases e'
                · intro s' e'; cases e')
        exact hrest
  | use e rest ih =>
    intro blk t n p t' n' h hbn hsm T later C env hT hlater hc htab hgap hL hns henv
    simp only [parseS] at h
    have hle := parseE_le t e n
    split at h
    · cases h
    · rename_i r t1 n1 hr
      simp only [Option.some.injEq, Prod.mk.injEq] at h
      obtain ⟨rfl, rfl, rfl⟩ := h
      obtain ⟨g1, ext, g2, g3, g4⟩ := parseS_grow rest hr
      have hT' : T = t ++ (ext ++ later) := by rw [hT, g2]; simp
      have hex : ∀ y m, n ≤ m → m ≤ (parseE t e n).2 →
          expect o (⟨blk, T⟩ :: C) none y m = nearest env y := by
        intro y m h1 h2
        rw [henv y]
        refine expect_congr ?_
        intro b hb z hz hzy
        rcases List.mem_cons.1 hb with rfl | hb
        · simp only at hz
          rw [hT'] at hz
          rcases List.mem_append.1 hz with hz | hz
          · have := hsm z hz
            rw [visible_early (by omega) (by simp), visible_early (by omega) (by simp)]
          · have hzl := (htab.loc z (by rw [hT']; exact List.mem_append.2 (Or.inr hz))).1
            have : (parseE t e n).2 < z.declNo := by
              rcases List.mem_append.1 hz with hz | hz
              · exact (g3 z hz).1
              · have := hlater z hz; omega
            rw [visible_late hzl (by omega), visible_late hzl (by omega)]
        · refine gap_visible hgap hb hz (by omega) (by omega) (by omega) (by omega) ?_ ?_
          · intro s' e'; cases e'
          · intro s' e'; cases e'
      have hrest := ih hr (by omega) (fun z hz => by have := hsm z hz; omega) hT hlater hc htab
          (by
            intro b hb z hz hzl
            rcases hgap b hb z hz hzl with h | h
            · left; omega
            · right; exact h)
          (fun d hd => hL d (by simp [Stmts.decls, hd])) hns
          (env := env) (fun y => (hex y _ hle (Nat.le_refl _)).symm)
      refine ⟨?_, ?_, hrest.2⟩
      · simp only [expS, resolveS]
        rw [hrest.1, parseE_exp t _ _ env e _ fun y m h1 h2 => hex y m h1 (Nat.le_of_lt h2)]
      · exact parseE_inv hc htab hT' none e (fun s hs => by cases hs) _
  | block body rest ihb ih =>
    intro blk t n p t' n' h hbn hsm T later C env hT hlater hc htab hgap hL hns henv
    simp only [parseS] at h
    split at h
    · cases h
    · rename_i rb tb n1 hrb
      split at h
      · cases h
      · rename_i r t2 n2 hr
        simp only [Option.some.injEq, Prod.mk.injEq] at h
        obtain ⟨rfl, rfl, rfl⟩ := h
        obtain ⟨g1, ext, g2, g3, g4⟩ := parseS_grow rest hr
        obtain ⟨k1, kext, k2, k3, k4⟩ := parseS_grow body hrb
        simp only [List.nil_append] at k2
        subst k2
        have hT' : T = t ++ (ext ++ later) := by rw [hT, g2]; simp
        have hTg : ∀ z ∈ T, z.declNo < n ∨ n1 < z.declNo := by
          intro z hz
          rw [hT'] at hz
          rcases List.mem_append.1 hz with hz | hz
          · exact Or.inl (hsm z hz)
          · rcases List.mem_append.1 hz with hz | hz
            · exact Or.inr (g3 z hz).1
            · have := hlater z hz; right; omega
        have hgap' : Gap (⟨blk, T⟩ :: C) n n1 := by
          intro b hb z hz hzl
          rcases List.mem_cons.1 hb with rfl | hb
          · exact hTg z hz
          · rcases hgap b hb z hz hzl with h | h
            · left; exact h
            · right; omega
        have htb : TableOk L n tb := by
          refine ⟨?_, k4 (by simp)⟩
          intro s hs
          obtain ⟨c1, c2, c3, c4, c5, c6⟩ := k3 s hs
          exact ⟨c3, c4, hL _ (by simp [Stmts.decls, c5]), c6⟩
        have hcb : ChainOk o L (⟨n, tb⟩ :: ⟨blk, T⟩ :: C) := .cons hc hbn htb
        have hex : ∀ y m, n ≤ m → m ≤ n1 → expect o (⟨blk, T⟩ :: C) none y m = nearest env y := by
          intro y m h1 h2
          rw [henv y]
          refine expect_congr ?_
          intro b hb z hz hzy
          refine gap_visible hgap' hb hz (by omega) (by omega) (by omega) (by omega) ?_ ?_
          · intro s' e'; cases e'
          · intro s' e'; cases e'
        have hbody := ihb hrb (by omega) (by simp) (T := tb) (later := []) (by simp) (by simp)
          hcb htb
          (by
            intro b hb z hz hzl
            rcases hgap' b hb z hz hzl with h | h
            · left; omega
            · right; exact h)
          (fun d hd => hL d (by simp [Stmts.decls, hd])) hns.1
          (env := env) (by
            intro y
            rw [← hex y (n + 1) (by omega) (by omega)]
            unfold expect
            have : tableVis (n + 1) none tb y = none := by
              refine tableVis_none_of fun s hs _ => ?_
              exact visible_late (k3 s hs).2.2.1 (k3 s hs).1
            simp only [firstVis, this])
        have hrest := ih hr (by omega) (fun z hz => by have := hsm z hz; omega) hT hlater hc htab
          (by
            intro b hb z hz hzl
            rcases hgap b hb z hz hzl with h | h
            · left; omega
            · right; exact h)
          (fun d hd => hL d (by simp [Stmts.decls, hd])) hns.2
          (env := env) (fun y => (hex y _ (by omega) (Nat.le_refl _)).symm)
        refine ⟨?_, hcb, hbody.2, hrest.2⟩
        simp only [expS, resolveS]
        rw [hbody.1, hrest.1]

/-! ### The whole function -/

theorem find_flatten (bs : List (List Decl)) (x : Nat) :
    (byAncestor bs x).map (·.decl) = bs.flatten.find? fun d => d.name == x := by
  induction bs with
  | nil => rfl
  | cons d ds ih =>
    simp only [byAncestor, List.flatten_cons, List.find?_append]
    cases h : d.find? fun d => d.name == x with
    | some e => simp [outerSym]
    | none => simpa using ih

theorem outside_decl (x : Nat) :
    (outside o x).map (·.decl) = nearest (o.bases.flatten ++ o.file) x := by
  unfold outside nearest
  rw [List.find?_append, ← find_flatten]
  cases h : byAncestor o.bases x with
  | some s => simp
  | none =>
    simp only [Option.map_none, Option.none_or]
    unfold inFile
    cases o.file.find? fun d => d.name == x <;> rfl

theorem around_expect (t : List Sym) (n : Nat) (blk : Nat)
    (h : ∀ s ∈ t, s.isLocal = true ∧ n < s.declNo) (x : Nat) :
    nearest (around o) x = expect o (⟨blk, t⟩ :: [classBlk o]) none x n := by
  unfold expect
  have h1 : tableVis n none t x = none :=
    tableVis_none_of fun s hs _ => visible_late (h s hs).1 (h s hs).2
  have h2 : (tableVis n none (classBlk o).table x).map (·.decl) =
      o.members.find? fun d => d.name == x := by
    unfold tableVis classBlk
    simp only [List.find?_map]
    have : ((fun s : Sym => s.decl.name == x && visible n none s) ∘ outerSym o.classNo) =
        fun d => d.name == x := by
      funext d
      simp [outerSym, visible]
    rw [this]
    cases o.members.find? fun d => d.name == x <;> simp [outerSym]
  simp only [firstVis, h1]
  unfold around nearest
  rw [List.append_assoc, List.find?_append, ← h2]
  cases h3 : tableVis n none (classBlk o).table x with
  | some s => simp
  | none =>
    simp only [Option.map_none, Option.none_or]
    exact (outside_decl x).symm

theorem parseFn_main {f : Stmts} {p : PStmts} (h : parseFn o f = some p) (hns : NoSelfCall f) :
    expS o [classBlk o] p = resolveS (around o) f ∧ InvS o f.decls [classBlk o] p := by
  unfold parseFn at h
  split at h
  · cases h
  · rename_i p' t n hp
    simp only [Option.some.injEq] at h
    subst h
    obtain ⟨g1, ext, g2, g3, g4⟩ := parseS_grow f hp
    simp only [List.nil_append] at g2
    subst g2
    have htab : TableOk f.decls (o.classNo + 1) t := by
      refine ⟨?_, g4 (by simp)⟩
      intro s hs
      obtain ⟨c1, c2, c3, c4, c5, c6⟩ := g3 s hs
      exact ⟨c3, c4, c5, c6⟩
    have hc : ChainOk o f.decls (⟨o.classNo + 1, t⟩ :: [classBlk o]) :=
      .cons .cls (by simp [headNo, classBlk]) htab
    have := parseS_main f hp (by omega) (by simp) (T := t) (later := []) (by simp) (by simp) hc htab
      (by
        intro b hb s hs hl
        simp only [List.mem_singleton] at hb
        subst hb
        simp only [classBlk, List.mem_map] at hs
        obtain ⟨d, -, e⟩ := hs
        subst e
        cases hl)
      (fun d hd => hd) hns
      (env := around o) (fun x => around_expect t _ _ (fun s hs => ⟨(g3 s hs).2.2.1, (g3 s hs).1⟩) x)
    refine ⟨?_, hc, this.2, trivial⟩
    simp only [expS, List.append_nil]
    exact this.1

/-! ### The number of passes -/

theorem suffixAt_length (chain : List Blk) (n : Nat) : (suffixAt chain n).length ≤ chain.length := by
  induction chain with
  | nil => simp [suffixAt]
  | cons b bs ih =>
    simp only [suffixAt]
    split
    · exact Nat.le_refl _
    · simp only [List.length_cons]; omega

theorem mu_le (chain : List Blk) (c : Occ) : mu chain c ≤ chain.length + 1 := by
  have : (blockOf chain c).length ≤ chain.length := by
    unfold blockOf
    split
    · exact suffixAt_length _ _
    · split
      · exact suffixAt_length _ _
      · exact Nat.le_refl _
  unfold mu
  split <;> omega

/-! ### Names declared twice -/

theorem inTable_none_iff {t : List Sym} {x : Nat} :
    inTable t x = none ↔ x ∉ t.map (·.decl.name) := by
  unfold inTable
  rw [List.find?_eq_none]
  simp only [beq_iff_eq, List.mem_map, not_exists, not_and]

theorem parseS_dup (st : Stmts) : ∀ blk (t : List Sym) n seen,
    (∀ x, x ∈ seen ↔ x ∈ t.map (·.decl.name)) →
    (parseS blk st t n = none ↔ ¬ NoDup seen st) := by
  have step : ∀ (t : List Sym) (seen : List Nat) (s : Sym),
      (∀ x, x ∈ seen ↔ x ∈ t.map (·.decl.name)) →
      ∀ x, x ∈ s.decl.name :: seen ↔ x ∈ (t ++ [s]).map (·.decl.name) := by
    intro t seen s h x
    rw [List.map_append, List.mem_append, List.mem_cons, h x]
    simp only [List.map_cons, List.map_nil, List.mem_singleton]
    tauto
  induction st with
  | done => intro blk t n seen h; simp [parseS, NoDup]
  | var loc x e rest ih =>
    intro blk t n seen h
    simp only [parseS, NoDup]
    cases ht : inTable t x with
    | some s =>
      have : x ∈ seen := by
        by_contra hx
        rw [h] at hx
        rw [inTable_none_iff.2 hx] at ht
        cases ht
      simp [this]
    | none =>
      have hx : x ∉ seen := fun hh => inTable_none_iff.1 ht ((h x).1 hh)
      have := ih blk (t ++ [localSym blk (n + 1) .var loc x])
        (parseE (t ++ [localSym blk (n + 1) .var loc x]) e (n + 2)).2 (x :: seen)
        (step t seen (localSym blk (n + 1) .var loc x) h)
      simp only [hx, not_false_eq_true, true_and]
      rw [← this]
      split
      · rename_i e'; simp [e']
      · rename_i e'; simp [e']
  | con loc x rest ih =>
    intro blk t n seen h
    simp only [parseS, NoDup]
    cases ht : inTable t x with
    | some s =>
      have : x ∈ seen := by
        by_contra hx
        rw [h] at hx
        rw [inTable_none_iff.2 hx] at ht
        cases ht
      simp [this]
    | none =>
      have hx : x ∉ seen := fun hh => inTable_none_iff.1 ht ((h x).1 hh)
      have := ih blk (t ++ [localSym blk (n + 1) .con loc x]) (n + 3) (x :: seen)
        (step t seen (localSym blk (n + 1) .con loc x) h)
      simp only [hx, not_false_eq_true, true_and]
      rw [← this]
      split
      · rename_i e'; simp [e']
      · rename_i e'; simp [e']
  | use e rest ih =>
    intro blk t n seen h
    simp only [parseS, NoDup]
    rw [← ih blk t (parseE t e n).2 seen h]
    split
    · rename_i e'; simp [e']
    · rename_i e'; simp [e']
  | block body rest ihb ih =>
    intro blk t n seen h
    simp only [parseS, NoDup]
    have hb := ihb n [] (n + 1) [] (by simp)
    split
    · rename_i e'
      have := hb.1 e'
      simp [this]
    · rename_i b tb n1 e'
      have h1 : NoDup [] body := by
        by_contra hh
        rw [hb.2 hh] at e'
        cases e'
      have h2 := ih blk t n1 seen h
      simp only [h1, true_and]
      rw [← h2]
      split
      · rename_i e'; simp [e']
      · rename_i e'; simp [e']

theorem parseFn_dup {f : Stmts} : parseFn o f = none ↔ ¬ NoDup [] f := by
  rw [← parseS_dup f (o.classNo + 1) [] (o.classNo + 2) [] (by simp)]
  unfold parseFn
  split
  · rename_i e; simp [e]
  · rename_i e; simp [e]

end Ulam.Scope
