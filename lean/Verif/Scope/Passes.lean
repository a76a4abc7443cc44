import Verif.Scope.Lemmas
import Mathlib.Tactic.ByContra

/-
The number of passes. All names that are not settled move in the same pass, so the
number of passes depends on how deep blocks are nested, not on how many names there
are.
-/
namespace Ulam.Scope

variable {o : Outer} {L : List Decl}

open Classical in
/-- The passes a name may still need. -/
noncomputable def nu (chain : List Blk) (c : Occ) : Nat :=
  if ∃ s, Settled c s then 0 else mu chain c

noncomputable def nuE (chain : List Blk) : PExpr → Nat
  | .lit => 0
  | .ident c => nu chain c
  | .op l r => max (nuE chain l) (nuE chain r)
  | .call e => nuE chain e

/-- No name in the expression is looked up from the block of the variable `so`. -/
def OutE (chain : List Blk) (so : Sym) : PExpr → Prop
  | .lit => True
  | .ident c => c.name = so.decl.name → (blockOf chain c).length < chain.length
  | .op l r => OutE chain so l ∧ OutE chain so r
  | .call e => OutE chain so e

open Classical in
/-- The passes an initial value may still need. -/
noncomputable def nuI (chain : List Blk) (so : Sym) (e : PExpr) : Nat :=
  if OutE chain so e then nuE chain e else nuE chain e + (chain.length + 2)

noncomputable def nuS (chain : List Blk) : PStmts → Nat
  | .done => 0
  | .var s e rest => max (nuI chain s e) (nuS chain rest)
  | .con _ rest => nuS chain rest
  | .use e rest => max (nuE chain e) (nuS chain rest)
  | .block b body rest => max (nuS (b :: chain) body) (nuS chain rest)

theorem nu_le (chain : List Blk) (c : Occ) : nu chain c ≤ mu chain c := by
  unfold nu; split <;> omega

theorem nuE_le (chain : List Blk) (e : PExpr) : nuE chain e ≤ chain.length + 1 := by
  induction e with
  | lit => simp [nuE]
  | ident c => exact (nu_le chain c).trans (mu_le chain c)
  | op l r ihl ihr => exact max_le ihl ihr
  | call e ih => exact ih

theorem settled_label {chain : List Blk} {c : Occ} {s : Sym} (h : Settled c s) :
    labelOcc o chain c = (c, .ok) := by
  have hu : usedBefore chain c s = (c, .ok) := by
    unfold usedBefore
    refine if_neg ?_
    simp only [Bool.and_eq_true, decide_eq_true_eq, not_and, Nat.not_lt]
    exact h.late
  unfold labelOcc
  rw [h.bnd]
  cases hc : c.isCon with
  | true => exact hu
  | false =>
    simp only
    rw [if_neg (by rw [h.kv hc]; decide)]
    exact hu

theorem settledE_label {chain : List Blk} (e : PExpr) (h : SettledE e) :
    labelE o chain e = (e, .ok) := by
  induction e with
  | lit => rfl
  | ident c =>
    obtain ⟨s, hs⟩ := h
    simp only [labelE, settled_label hs]
  | op l r ihl ihr => simp only [labelE, ihl h.1, ihr h.2, St.join]
  | call e ih =>
    have := ih h
    simp only [labelE, this]

theorem nu_zero {chain : List Blk} {own} {c : Occ} (hi : OccInv o L chain own c)
    (h : nu chain c = 0) : ∃ s, Settled c s := by
  unfold nu at h
  split at h
  · assumption
  · have : 0 < (blockOf chain c).length := List.length_pos_iff.2 hi.ne
    unfold mu at h
    omega

theorem settled_nu {chain : List Blk} {c : Occ} (h : ∃ s, Settled c s) : nu chain c = 0 := by
  unfold nu; exact if_pos h

theorem settledE_nu {chain : List Blk} (e : PExpr) (h : SettledE e) : nuE chain e = 0 := by
  induction e with
  | lit => rfl
  | ident c => exact settled_nu h
  | op l r ihl ihr => simp only [nuE, ihl h.1, ihr h.2, max_self]
  | call e ih => exact ih h

theorem nuE_zero {chain : List Blk} {own} (e : PExpr) (hi : InvE o L chain own e)
    (h : nuE chain e = 0) : SettledE e := by
  induction e with
  | lit => trivial
  | ident c => exact nu_zero hi h
  | op l r ihl ihr =>
    simp only [nuE] at h
    exact ⟨ihl hi.1 (by omega), ihr hi.2 (by omega)⟩
  | call e ih => exact ih hi.1 h

theorem labelE_nu {chain : List Blk} (hc : ChainOk o L chain) (ha : ApartL o L) {own} (e : PExpr)
    (hi : InvE o L chain own e) (h : (labelE o chain e).2 ≠ .err) :
    nuE chain (labelE o chain e).1 ≤ nuE chain e - 1 ∧
      ∀ so, OutE chain so e → OutE chain so (labelE o chain e).1 := by
  induction e with
  | lit => exact ⟨Nat.zero_le _, fun _ h => h⟩
  | ident c =>
    have p := labelOcc_spec hc ha hi
    have h' : (labelOcc o chain c).2 ≠ .err := h
    refine ⟨?_, ?_⟩
    · show nu chain (labelOcc o chain c).1 ≤ nu chain c - 1
      by_cases hs : ∃ s, Settled c s
      · obtain ⟨s, hs⟩ := hs
        rw [settled_label hs, settled_nu ⟨s, hs⟩]
      · have e1 : nu chain c = mu chain c := by unfold nu; exact if_neg hs
        rw [e1]
        cases hst : (labelOcc o chain c).2 with
        | err => exact absurd hst h'
        | ok =>
          rw [settled_nu (p.fin hst)]
          exact Nat.zero_le _
        | hazy =>
          have := p.lt hst
          have := nu_le chain (labelOcc o chain c).1
          omega
    · intro so ho
      show (labelOcc o chain c).1.name = _ → _
      intro hn
      rw [p.name h'] at hn
      have := p.len h'
      have := ho hn
      omega
  | op l r ihl ihr =>
    have h' := join_ne_err h
    obtain ⟨a1, a2⟩ := ihl hi.1 h'.1
    obtain ⟨b1, b2⟩ := ihr hi.2 h'.2
    refine ⟨?_, fun so ho => ⟨a2 so ho.1, b2 so ho.2⟩⟩
    simp only [labelE, nuE]
    omega
  | call e ih => exact ih hi.1 h

/-- A name looked up from the block of a variable with the same name finds it. -/
theorem own_block {chain : List Blk} (hc : ChainOk o L chain) {so : Sym} (ho : Owner L chain so)
    {x : Nat} (hx : x = so.decl.name) : lookup o chain x = some so := by
  obtain ⟨b, T, h1, h2, h3⟩ := ho.mem
  have tb : TableOk L b.no b.table := by
    cases hc with
    | cls =>
      injection h1 with e1 e2
      subst e1
      simp only [classBlk, List.mem_map] at h2
      obtain ⟨d, -, e⟩ := h2
      have := ho.loc
      rw [← e] at this
      cases this
    | cons k1 k2 k3 =>
      injection h1 with e1 e2
      subst e1
      exact k3
  have : inTable b.table x = some so := by
    cases ht : inTable b.table x with
    | none => exact absurd hx.symm (inTable_none ht so h2)
    | some s =>
      obtain ⟨m1, m2⟩ := inTable_some ht
      rw [uniq_name tb.uniq m1 h2 (by rw [m2, hx])]
  rw [h1]
  simp [lookup, here, this]

theorem checkOcc_out {chain : List Blk} (hc : ChainOk o L chain) (ha : ApartL o L) {so : Sym}
    (ho : Owner L chain so) {c : Occ} (hi : OccInv o L chain (some so) c) {s} (hs : Settled c s) :
    ((checkOcc chain so.decl.name so.blockNo c).2 = .ok ↔
      (c.name = so.decl.name → (blockOf chain c).length < chain.length)) ∧
    ((checkOcc chain so.decl.name so.blockNo c).1.name = so.decl.name →
      (blockOf chain (checkOcc chain so.decl.name so.blockNo c).1).length < chain.length) := by
  obtain ⟨b, T, h1, h2, h3⟩ := ho.mem
  obtain ⟨hl, hk⟩ := hi.bnd s hs.bnd
  have hS := hc.suffix hi.suf hi.ne
  obtain ⟨hn, -, hcase⟩ := lookup_spec hS hl
  by_cases hnx : c.name = so.decl.name
  · by_cases hlen : (blockOf chain c).length < chain.length
    · have key : checkOcc chain so.decl.name so.blockNo c = (c, .ok) := by
        unfold checkOcc
        rw [if_neg (by simpa using hnx)]
        simp only [hs.bnd]
        by_cases hloc : s.isLocal = true
        · rw [if_neg (by simp [hloc])]
          rcases hcase with h | ⟨-, hL, -, hh⟩
          · rw [hloc] at h; cases h.1
          have hcon : c.isCon = false := by
            cases hcc : c.isCon with
            | false => rfl
            | true =>
              have := hi.bkc hcc s hs.bnd
              exact absurd (hnx.symm.trans hn.symm)
                (ha s.decl hL this so.decl (List.mem_append.2 (Or.inl ho.decl)) ho.kind)
          rw [hi.stv hcon s hs.bnd hloc]
          simp only [Option.getD_some]
          obtain ⟨b', T', i1, i2, i3, i4, -⟩ := here_block hS hh hloc c.no none
          have hlt : s.blockNo < so.blockNo := by
            by_contra hlt
            have hfull : b' :: T' = chain := by
              refine hc.eq_of_head (i1.trans hi.suf) (by simp) ?_
              rw [h1]
              simp only [headNo]
              omega
            have := i1.length_le
            rw [hfull] at this
            omega
          rw [if_pos hlt]
        · have hloc' : s.isLocal = false := by simpa using hloc
          rw [if_pos (by simp [hloc'])]
      rw [key]
      exact ⟨⟨fun _ _ => hlen, fun _ => rfl⟩, fun _ => hlen⟩
    · have hfull : blockOf chain c = chain := by
        refine hi.suf.eq_of_length ?_
        have := hi.suf.length_le
        omega
      have hes : s = so := by
        rw [hfull, own_block hc ho hnx] at hl
        injection hl with hl
        exact hl.symm
      subst hes
      have hcon : c.isCon = false := by
        cases hcc : c.isCon with
        | false => rfl
        | true =>
          have := hi.bkc hcc s hs.bnd
          rw [ho.kind] at this
          cases this
      have hv : visible c.no (some s) s = false := by simp [visible, ho.loc]
      obtain ⟨p, hp, -, -, hlt⟩ := moved hc hi hs.bnd ho.loc hv
      have key : checkOcc chain s.decl.name s.blockNo c =
          ({ c with start := some p, ptr := none, bound := none }, .hazy) := by
        unfold checkOcc
        rw [if_neg (by simpa using hnx)]
        simp only [hs.bnd]
        rw [if_neg (by simp [ho.loc]), hi.stv hcon s hs.bnd ho.loc]
        simp only [Option.getD_some, Nat.lt_irrefl, if_false, hp]
      rw [key]
      refine ⟨⟨fun h => by simp at h, fun h => absurd (h hnx) hlen⟩, fun _ => ?_⟩
      rw [hfull] at hlt
      exact hlt
  · have key : checkOcc chain so.decl.name so.blockNo c = (c, .ok) := by
      unfold checkOcc
      rw [if_pos (by simpa using hnx)]
    rw [key]
    exact ⟨⟨fun _ h => absurd h hnx, fun _ => rfl⟩, fun h => absurd h hnx⟩

theorem avoid_out {chain : List Blk} {so : Sym} (e : PExpr) (h : Avoid (some so) e) :
    OutE chain so e := by
  induction e with
  | lit => trivial
  | ident c => intro hn; exact absurd hn (h so rfl)
  | op l r ihl ihr => exact ⟨ihl h.1, ihr h.2⟩
  | call e ih => exact ih h

theorem join_ok_iff {a b : St} : St.join a b = .ok ↔ a = .ok ∧ b = .ok := by
  cases a <;> cases b <;> simp [St.join]

theorem checkE_out {chain : List Blk} (hc : ChainOk o L chain) (ha : ApartL o L) {so : Sym}
    (ho : Owner L chain so) (e : PExpr) (hi : InvE o L chain (some so) e) (hs : SettledE e) :
    ((checkE chain so.decl.name so.blockNo e).2 = .ok ↔ OutE chain so e) ∧
    OutE chain so (checkE chain so.decl.name so.blockNo e).1 := by
  induction e with
  | lit => exact ⟨⟨fun _ => trivial, fun _ => rfl⟩, trivial⟩
  | ident c =>
    obtain ⟨s, hs⟩ := hs
    exact checkOcc_out hc ha ho hi hs
  | op l r ihl ihr =>
    obtain ⟨a1, a2⟩ := ihl hi.1 hs.1
    obtain ⟨b1, b2⟩ := ihr hi.2 hs.2
    refine ⟨?_, a2, b2⟩
    simp only [checkE]
    rw [join_ok_iff, a1, b1]
    exact Iff.rfl
  | call e ih =>
    have := avoid_out (chain := chain) e hi.2
    exact ⟨⟨fun _ => this, fun _ => rfl⟩, this⟩

/-- What an initial value is left with when the search finds nothing. -/
theorem checkE_same {chain : List Blk} {x d : Nat} (e : PExpr) (h : (checkE chain x d e).2 = .ok) :
    (checkE chain x d e).1 = e := by
  induction e with
  | lit => rfl
  | ident c =>
    have h : (checkOcc chain x d c).2 = .ok := h
    show PExpr.ident (checkOcc chain x d c).1 = _
    unfold checkOcc at h ⊢
    split at h
    · rename_i h1; rw [if_pos h1]
    · rename_i h1
      rw [if_neg h1]
      split at h
      · cases h
      · rename_i s hb
        skip
        split at h
        · rename_i h2; rw [if_pos h2]
        · rename_i h2
          rw [if_neg h2]
          split at h
          · rename_i h3; rw [if_pos h3]
          · split at h <;> cases h
  | op l r ihl ihr =>
    have h' := join_ok h
    simp only [checkE, ihl h'.1, ihr h'.2]
  | call e ih => rfl

theorem labelInit_nu {chain : List Blk} (hc : ChainOk o L chain) (ha : ApartL o L) {so : Sym}
    (ho : Owner L chain so) (e : PExpr) (hi : InvE o L chain (some so) e)
    (h : (labelInit o chain so e).2 ≠ .err) :
    nuI chain so (labelInit o chain so e).1 ≤ nuI chain so e - 1 := by
  have p := labelE_spec hc ha e hi
  unfold labelInit at h ⊢
  simp only at h ⊢
  by_cases hok : (labelE o chain e).2 = .ok
  · rw [if_pos hok]
    have h' : (labelE o chain e).2 ≠ .err := by rw [hok]; simp
    obtain ⟨-, hout⟩ := labelE_nu hc ha e hi h'
    obtain ⟨c1, c2⟩ := checkE_out hc ha ho _ (p.inv h') (p.fin hok)
    have e1 : nuI chain so (checkE chain so.decl.name so.blockNo (labelE o chain e).1).1 =
        nuE chain (checkE chain so.decl.name so.blockNo (labelE o chain e).1).1 := if_pos c2
    rw [e1]
    by_cases hck : (checkE chain so.decl.name so.blockNo (labelE o chain e).1).2 = .ok
    · rw [checkE_same _ hck, settledE_nu _ (p.fin hok)]
      exact Nat.zero_le _
    · have hno : ¬ OutE chain so e := fun hh => hck (c1.2 (hout so hh))
      have e2 : nuI chain so e = nuE chain e + (chain.length + 2) := if_neg hno
      rw [e2]
      have := nuE_le chain (checkE chain so.decl.name so.blockNo (labelE o chain e).1).1
      omega
  · rw [if_neg hok] at h ⊢
    obtain ⟨hnu, hout⟩ := labelE_nu hc ha e hi h
    have hpos : nuE chain e ≠ 0 := by
      intro hz
      rw [settledE_label e (nuE_zero e hi hz)] at hok
      exact hok rfl
    unfold nuI
    by_cases hh : OutE chain so e
    · rw [if_pos hh, if_pos (hout so hh)]
      exact hnu
    · rw [if_neg hh]
      split <;> omega

theorem labelInit_zero {chain : List Blk} (hc : ChainOk o L chain) (ha : ApartL o L) {so : Sym}
    (ho : Owner L chain so) (e : PExpr) (hi : InvE o L chain (some so) e)
    (h : nuI chain so e = 0) : (labelInit o chain so e).2 = .ok := by
  unfold nuI at h
  split at h
  · rename_i hout
    have hs := nuE_zero e hi h
    unfold labelInit
    simp only [settledE_label e hs, if_true]
    exact (checkE_out hc ha ho e hi hs).1.2 hout
  · omega

theorem labelS_nu (ha : ApartL o L) (t : PStmts) : ∀ {chain : List Blk}, ChainOk o L chain →
    InvS o L chain t →
    ((labelS o chain t).2 ≠ .err → nuS chain (labelS o chain t).1 ≤ nuS chain t - 1) ∧
    (nuS chain t = 0 → (labelS o chain t).2 = .ok) := by
  induction t with
  | done => intro chain _ _; exact ⟨fun _ => Nat.zero_le _, fun _ => rfl⟩
  | var s e rest ih =>
    intro chain hc hi
    obtain ⟨a, b⟩ := ih hc hi.2.2
    refine ⟨?_, ?_⟩
    · intro h
      have h' := join_ne_err h
      have h1 := labelInit_nu hc ha hi.1 e hi.2.1 h'.1
      have h2 := a h'.2
      simp only [labelS, nuS]
      omega
    · intro h
      simp only [nuS] at h
      exact join_ok_iff.2 ⟨labelInit_zero hc ha hi.1 e hi.2.1 (by omega), b (by omega)⟩
  | con s rest ih => intro chain hc hi; exact ih hc hi
  | use e rest ih =>
    intro chain hc hi
    obtain ⟨a, b⟩ := ih hc hi.2
    refine ⟨?_, ?_⟩
    · intro h
      have h' := join_ne_err h
      have h1 := (labelE_nu hc ha e hi.1 h'.1).1
      have h2 := a h'.2
      simp only [labelS, nuS]
      omega
    · intro h
      simp only [nuS] at h
      refine join_ok_iff.2 ⟨?_, b (by omega)⟩
      rw [settledE_label e (nuE_zero e hi.1 (by omega))]
  | block b body rest ihb ih =>
    intro chain hc hi
    obtain ⟨a1, a2⟩ := ihb hi.1 hi.2.1
    obtain ⟨b1, b2⟩ := ih hc hi.2.2
    refine ⟨?_, ?_⟩
    · intro h
      have h' := join_ne_err h
      have h1 := a1 h'.1
      have h2 := b1 h'.2
      simp only [labelS, nuS]
      omega
    · intro h
      simp only [nuS] at h
      exact join_ok_iff.2 ⟨a2 (by omega), b2 (by omega)⟩

theorem run_nu (ha : ApartL o L) : ∀ (k : Nat) (t : PStmts), InvS o L [classBlk o] t →
    nuS [classBlk o] t < k →
    ((∀ d ∈ expS o [classBlk o] t, usable d = true) →
      ∃ t', run o k t = .accept t' ∧ boundS t' = expS o [classBlk o] t) ∧
    ((∃ d ∈ expS o [classBlk o] t, usable d = false) → run o k t = .reject) := by
  intro k
  induction k with
  | zero => intro t _ h; omega
  | succ k ih =>
    intro t hi hm
    have p := labelS_spec ha t .cls hi
    obtain ⟨q1, q2⟩ := labelS_nu ha t .cls hi
    simp only [run]
    generalize labelS o [classBlk o] t = r at p q1 q2 ⊢
    obtain ⟨t', st⟩ := r
    cases st with
    | ok =>
      simp only
      obtain ⟨p1, p2⟩ := p.fin rfl
      refine ⟨fun _ => ⟨t', rfl, p1⟩, ?_⟩
      rintro ⟨d, hd, hu⟩
      rw [p2 d hd] at hu; cases hu
    | err =>
      simp only
      obtain ⟨d, hd, hu⟩ := p.bad rfl
      refine ⟨fun h => ?_, fun _ => by simp⟩
      rw [h d hd] at hu; cases hu
    | hazy =>
      simp only
      have h1 := p.inv (by simp)
      have h2 := p.exp (by simp)
      have h3 : nuS [classBlk o] t' ≤ nuS [classBlk o] t - 1 := q1 (by simp)
      have h4 : nuS [classBlk o] t ≠ 0 := fun h => by have := q2 h; cases this
      have := ih t' h1 (by omega)
      rw [h2] at this
      exact this

theorem nuI_le (chain : List Blk) (so : Sym) (e : PExpr) :
    nuI chain so e ≤ 2 * chain.length + 3 := by
  have := nuE_le chain e
  unfold nuI
  split <;> omega

theorem parseS_nu (st : Stmts) : ∀ {blk t n p t' n'}, parseS blk st t n = some (p, t', n') →
    ∀ chain, nuS chain p ≤ 2 * (chain.length + st.nesting) + 3 := by
  induction st with
  | done =>
    intro blk t n p t' n' h chain
    simp only [parseS, Option.some.injEq, Prod.mk.injEq] at h
    obtain ⟨rfl, -, -⟩ := h
    simp [nuS]
  | var loc x e rest ih =>
    intro blk t n p t' n' h chain
    simp only [parseS] at h
    split at h
    · cases h
    · split at h
      · cases h
      · rename_i r t1 n1 hr
        simp only [Option.some.injEq, Prod.mk.injEq] at h
        obtain ⟨rfl, -, -⟩ := h
        have a := ih hr chain
        have b := nuI_le chain (localSym blk (n + 1) .var loc x)
          (parseE (t ++ [localSym blk (n + 1) .var loc x]) e (n + 2)).1
        simp only [nuS, Stmts.nesting]
        omega
  | con loc x rest ih =>
    intro blk t n p t' n' h chain
    simp only [parseS] at h
    split at h
    · cases h
    · split at h
      · cases h
      · rename_i r t1 n1 hr
        simp only [Option.some.injEq, Prod.mk.injEq] at h
        obtain ⟨rfl, -, -⟩ := h
        simpa only [nuS, Stmts.nesting] using ih hr chain
  | use e rest ih =>
    intro blk t n p t' n' h chain
    simp only [parseS] at h
    split at h
    · cases h
    · rename_i r t1 n1 hr
      simp only [Option.some.injEq, Prod.mk.injEq] at h
      obtain ⟨rfl, -, -⟩ := h
      have a := ih hr chain
      have b := nuE_le chain (parseE t e n).1
      simp only [nuS, Stmts.nesting]
      omega
  | block body rest ihb ih =>
    intro blk t n p t' n' h chain
    simp only [parseS] at h
    split at h
    · cases h
    · rename_i r t1 n1 hr
      split at h
      · cases h
      · rename_i r2 t2 n2 hr2
        simp only [Option.some.injEq, Prod.mk.injEq] at h
        obtain ⟨rfl, -, -⟩ := h
        have a := ihb hr (⟨n, t1⟩ :: chain)
        have b := ih hr2 chain
        simp only [List.length_cons] at a
        simp only [nuS, Stmts.nesting]
        omega

theorem parseFn_nu {f : Stmts} {p : PStmts} (h : parseFn o f = some p) :
    nuS [classBlk o] p ≤ 2 * f.nesting + 7 := by
  unfold parseFn at h
  split at h
  · cases h
  · rename_i p' t n hp
    simp only [Option.some.injEq] at h
    subst h
    have := parseS_nu f hp [⟨o.classNo + 1, t⟩, classBlk o]
    simp only [List.length_cons, List.length_nil] at this
    simp only [nuS]
    omega

end Ulam.Scope
