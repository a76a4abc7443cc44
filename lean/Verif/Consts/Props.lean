import Verif.Consts.Lemmas
import Mathlib.Data.List.Nodup

/-
C91  Named constants get the values their expressions are worth.
-/

namespace Ulam.Consts

variable {O V : Type} {P : Prog O V}

/-- **C91** In an accepted program every constant of a class has a value, and every
value a constant has is what its expression is worth. -/
theorem C91_values [Inhabited V] (hP : Parsed P) {s : State O V} (e : compile P = some s) :
    (∀ n ∈ P.classes, ∃ v, (s n).val = some v) ∧ ∀ n v, (s n).val = some v → Means P n v :=
  ⟨fun n hn => Option.isSome_iff_exists.1 (compile_classes e n hn),
   (compile_inv (Right P) (right_start hP) (fun a n hn h => right_step hP a n hn h) e).1⟩

/-- **C91** The values do not depend on the order of the declarations: two accepted
programs with the same constants in any order give a constant the same value. -/
theorem C91_order [Inhabited V] {Q : Prog O V} (hP : Parsed P) (hQ : Parsed Q)
    (hsem : P.sem = Q.sem) (hbody : P.body = Q.body) {s s' : State O V}
    (e : compile P = some s) (e' : compile Q = some s') (n : Nat) (v v' : V)
    (h : (s n).val = some v) (h' : (s' n).val = some v') : v = v' := by
  have h1 := (C91_values hP e).2 n v h
  have h2 := (C91_values hQ e').2 n v' h'
  have key : ∀ {t : Tree O V} {w : V}, Worth Q t w → Worth P t w := by
    intro t w hw
    induction hw with
    | lit v => exact Worth.lit v
    | ident hb _ hs ih => exact Worth.ident (hbody ▸ hb) ih (hsem ▸ hs)
    | cnst _ ih => exact Worth.cnst ih
    | un _ he ih => exact Worth.un ih (hsem ▸ he)
    | bin _ _ he iha ihb => exact Worth.bin iha ihb (hsem ▸ he)
    | yes _ ht _ ihc iha => exact Worth.yes ihc (hsem ▸ ht) iha
    | no _ ht _ ihc iha => exact Worth.no ihc (hsem ▸ ht) iha
  exact worth_unique h1 (key h2)

/-- **C91** Circular definitions are refused: when each constant of a set mentions a
constant of the set, and one of them belongs to a class, no program with them is
accepted. -/
theorem C91_circular [Inhabited V] (hP : Parsed P) (S : Nat → Prop)
    (hS : ∀ n, S n → ∃ t m, P.body n = some t ∧ S m ∧ Mentions m t)
    (n : Nat) (hn : S n) (hc : n ∈ P.classes) : compile P = none := by
  cases e : compile P with
  | none => rfl
  | some s =>
    exfalso
    have h := compile_inv (P := P) (fun s => ∀ m, S m → (s m).val = none ∧ Stuck S (s m).tree)
      (fun m hm => by
        obtain ⟨t, k, ht, hk, hmen⟩ := hS m hm
        refine ⟨rfl, ?_⟩
        simp only [start, ht, Option.getD_some]
        exact mentions_stuck hk t (hP.fresh m t ht) hmen)
      (fun a k _ h => stuck_step a k h) e
    have h2 := compile_classes e n hc
    rw [(h n hn).1] at h2
    cases h2

/-! ### Which programs are accepted -/

theorem plan_of {vals : Nat → V} (hv : ∀ m v, Means P m v → vals m = v) :
    ∀ (t : Tree O V) (avail : Nat → Nat → Prop) r v, Total P t → Worth P t v → conds t ≤ r →
    (∀ m, Mentions m t → conds t < r ∧ ∀ r', r ≤ r' + conds t → r' ≤ r → avail r' m) →
    Plan P vals avail r t v := by
  intro t
  induction t with
  | lit w =>
    intro avail r v _ hw _ _
    cases hw
    cases r <;> rfl
  | ident n =>
    intro avail r v _ hw _ hm
    obtain ⟨h1, h2⟩ := hm n rfl
    have hb : (P.body n).isSome := by cases hw with | ident hb _ _ => simp [hb]
    have : 0 < r ∧ (P.body n).isSome ∧ avail r n ∧ v = vals n :=
      ⟨by simpa [conds] using h1, hb, h2 r (by simp) (Nat.le_refl _), (hv n v hw).symm⟩
    cases r <;> exact this
  | cnst n c =>
    intro avail r v _ hw _ hm
    obtain ⟨h1, h2⟩ := hm n rfl
    have hw' : Worth P (.ident n) v := by cases hw with | cnst h => exact h
    have hb : (P.body n).isSome := by cases hw' with | ident hb _ _ => simp [hb]
    have : (P.body n).isSome ∧ avail r n ∧ v = vals n :=
      ⟨hb, h2 r (by simp) (Nat.le_refl _), (hv n v hw').symm⟩
    cases r <;> exact this
  | un o a ih =>
    intro avail r v ht hw hc hm
    cases hw with
    | un hx he =>
      have : ∃ x, Plan P vals avail r a x ∧ P.sem.un o x = some v :=
        ⟨_, ih avail r _ ht.1 hx hc hm, he⟩
      cases r <;> exact this
  | bin o a b iha ihb =>
    intro avail r v ht hw hc hm
    simp only [conds] at hc hm
    cases hw with
    | bin hx hy he =>
      have : ∃ x y, Plan P vals avail r a x ∧ Plan P vals avail r b y ∧ P.sem.bin o x y = some v := by
        refine ⟨_, _, iha avail r _ ht.1 hx (by omega) ?_, ihb avail r _ ht.2.1 hy (by omega) ?_, he⟩
        · intro m h
          obtain ⟨h1, h2⟩ := hm m (Or.inl h)
          exact ⟨by omega, fun r' hr' hle => h2 r' (by omega) hle⟩
        · intro m h
          obtain ⟨h1, h2⟩ := hm m (Or.inr h)
          exact ⟨by omega, fun r' hr' hle => h2 r' (by omega) hle⟩
      cases r <;> exact this
  | cond c a b ihc iha ihb =>
    intro avail r v ht hw hc hm
    simp only [conds] at hc hm
    cases r with
    | zero => omega
    | succ r =>
      have worth_of : ∀ t : Tree O V, Total P t → ∃ v, Worth P t v := by
        intro t
        induction t with
        | lit w => intro _; exact ⟨w, Worth.lit w⟩
        | ident n => intro h; exact h
        | cnst n c => intro h; obtain ⟨v, h⟩ := h; exact ⟨v, Worth.cnst h⟩
        | un o a _ => intro h; exact h.2
        | bin o a b _ _ => intro h; exact h.2.2
        | cond c a b ihc iha ihb =>
          intro h
          obtain ⟨x, hx⟩ := ihc h.1
          obtain ⟨y, hy⟩ := iha h.2.1
          obtain ⟨z, hz⟩ := ihb h.2.2
          cases hb : P.sem.truth x with
          | true => exact ⟨y, Worth.yes hx hb hy⟩
          | false => exact ⟨z, Worth.no hx hb hz⟩
      obtain ⟨x, hx⟩ := worth_of c ht.1
      obtain ⟨y, hy⟩ := worth_of a ht.2.1
      obtain ⟨z, hz⟩ := worth_of b ht.2.2
      refine ⟨x, y, z, ihc avail r x ht.1 hx (by omega) ?_, iha avail r y ht.2.1 hy (by omega) ?_,
        ihb avail r z ht.2.2 hz (by omega) ?_, ?_⟩
      · intro m h
        obtain ⟨h1, h2⟩ := hm m (Or.inl h)
        exact ⟨by omega, fun r' hr' hle => h2 r' (by omega) (by omega)⟩
      · intro m h
        obtain ⟨h1, h2⟩ := hm m (Or.inr (Or.inl h))
        exact ⟨by omega, fun r' hr' hle => h2 r' (by omega) (by omega)⟩
      · intro m h
        obtain ⟨h1, h2⟩ := hm m (Or.inr (Or.inr h))
        exact ⟨by omega, fun r' hr' hle => h2 r' (by omega) (by omega)⟩
      · cases hw with
        | yes hx' hb hv' =>
          have := worth_unique hx hx'; subst this
          rw [if_pos hb]; exact worth_unique hv' hy
        | no hx' hb hv' =>
          have := worth_unique hx hx'; subst this
          rw [if_neg (by simp [hb])]; exact worth_unique hv' hz

/-- **C91** Any order of declaration is accepted as long as the definitions do not
build on each other too deeply: with `rank` growing along the references (and
with each `?:` around them) up to the number of rounds, every constant gets its
value.  Partial: the limit on the depth (`C91_limit_fails`), and branches not
taken must be worth something too. -/
theorem C91_any_order_partial [Inhabited V] (hP : Parsed P) (rank : Nat → Nat)
    (h : ∀ n t, P.body n = some t → Total P t ∧ (∃ v, Means P n v) ∧ conds t ≤ rank n ∧
      ∀ m, Mentions m t → rank m + conds t < rank n)
    (hr : ∀ n, (P.body n).isSome → rank n ≤ 100) :
    ∃ s, compile P = some s ∧ ∀ n, (P.body n).isSome → ∃ v, (s n).val = some v ∧ Means P n v := by
  classical
  let vals : Nat → V := fun n => if hx : ∃ v, Means P n v then hx.choose else default
  have hvals : ∀ m v, Means P m v → vals m = v := by
    intro m v hm
    have hx : ∃ v, Means P m v := ⟨v, hm⟩
    simp only [vals, hx, dif_pos]
    exact worth_unique hx.choose_spec hm
  have hS : Scheduled P vals rank := by
    intro n t ht
    obtain ⟨h1, ⟨v, h2⟩, h3, h4⟩ := h n t ht
    have h2' := h2
    cases h2' with
    | @ident _ t' w _ hb hw hs =>
      rw [ht] at hb
      cases hb
      refine ⟨w, plan_of hvals t _ (rank n) w h1 hw h3 ?_, by rw [hvals n v h2]; exact hs⟩
      intro m hm
      have := h4 m hm
      exact ⟨by omega, fun r' hr' _ => Or.inl (by omega)⟩
  obtain ⟨s, e, hs⟩ := compile_plan hP hS hr
  refine ⟨s, e, fun n hn => ⟨vals n, hs n hn, ?_⟩⟩
  exact (C91_values hP e).2 n _ (hs n hn)

/-- **C91** Constants declared before they are used are accepted however many there
are and however long the chains: when every constant mentions only constants met
earlier in a round, and no name stands in a `?:`, all of them get their values. -/
theorem C91_forward [Inhabited V] (hP : Parsed P)
    (h : ∀ n t, P.body n = some t → Total P t ∧ (∃ v, Means P n v) ∧ conds t = 0 ∧
      ∀ m, Mentions m t → Before (P.locals ++ P.classes) m n) :
    ∃ s, compile P = some s ∧ ∀ n, (P.body n).isSome → ∃ v, (s n).val = some v ∧ Means P n v := by
  classical
  let vals : Nat → V := fun n => if hx : ∃ v, Means P n v then hx.choose else default
  have hvals : ∀ m v, Means P m v → vals m = v := by
    intro m v hm
    have hx : ∃ v, Means P m v := ⟨v, hm⟩
    simp only [vals, hx, dif_pos]
    exact worth_unique hx.choose_spec hm
  have hS : Scheduled P vals (fun _ => 1) := by
    intro n t ht
    obtain ⟨h1, ⟨v, h2⟩, h3, h4⟩ := h n t ht
    have h2' := h2
    cases h2' with
    | @ident _ t' w _ hb hw hs =>
      rw [ht] at hb
      cases hb
      refine ⟨w, plan_of hvals t _ 1 w h1 hw (by omega) ?_, by rw [hvals n v h2]; exact hs⟩
      intro m hm
      have := h4 m hm
      refine ⟨by omega, fun r' hr' hle => Or.inr ⟨(by show 1 = r'; omega), ?_⟩⟩
      have hr1 : r' = 1 := by omega
      subst hr1
      simpa [order] using this
  obtain ⟨s, e, hs⟩ := compile_plan hP hS (fun _ _ => by simp [maxRounds])
  refine ⟨s, e, fun n hn => ⟨vals n, hs n hn, ?_⟩⟩
  exact (C91_values hP e).2 n _ (hs n hn)

/-! ### The limit on rounds -/

/-- `constant T c0 = c1; constant T c1 = c2; …; constant T cN = x;` in a class. -/
def chain (sem : Sem O V) (x : V) (N : Nat) : Prog O V where
  sem := sem
  body := fun i => if i < N then some (.ident (i + 1)) else if i = N then some (.lit x) else none
  classes := List.range (N + 1)
  locals := []

theorem chain_parsed (sem : Sem O V) (x : V) (N : Nat) : Parsed (chain sem x N) where
  fresh := by
    intro n t h
    simp only [chain] at h
    split_ifs at h <;> cases h <;> trivial
  listed := by
    intro n
    simp only [chain, List.append_nil, List.mem_range]
    split_ifs <;> simp <;> omega
  once := by simpa [chain] using List.nodup_range

theorem chain_means (sem : Sem O V) (x : V) (N : Nat) (hsto : ∀ n, sem.store n x = some x) :
    ∀ d i, i + d = N → Means (chain sem x N) i x := by
  intro d
  induction d with
  | zero =>
    intro i hi
    refine Worth.ident (t := .lit x) (w := x) ?_ (Worth.lit x) (hsto i)
    simp only [chain]
    rw [if_neg (by omega), if_pos (by omega)]
  | succ d ih =>
    intro i hi
    refine Worth.ident (t := .ident (i + 1)) (w := x) ?_ (ih (i + 1) (by omega)) (hsto i)
    simp only [chain]
    rw [if_pos (by omega)]

/-- A constant of the chain that still waits. -/
def Low (s : State O V) (i : Nat) : Prop :=
  (s i).val = none ∧ ((s i).tree = .ident (i + 1) ∨ (s i).tree = .cnst (i + 1) none)

theorem low_other {N : Nat} {sem : Sem O V} {x : V} (a : Acc O V) (n i : Nat) (h : i ≠ n) (hl : Low a.st i) :
    Low (defStep (chain sem x N) a n).st i := by
  rcases defStep_cases (P := chain sem x N) a n with ⟨-, h2⟩ | ⟨-, h2⟩ | ⟨hb, hv, hc⟩
  · rw [h2]; exact hl
  · rw [h2]; exact hl
  · rcases hc with ⟨e, w, hd, -, -, -⟩ | ⟨w, hd, -, -⟩ | ⟨v, w, -, -, -, hd⟩ <;>
    · rw [hd]; unfold Low; simp only [upd_other _ _ h]; exact hl

theorem low_self {N : Nat} {sem : Sem O V} {x : V} (a : Acc O V) (n : Nat)
    (hl : Low a.st n) (hn : (a.st n).tree = .ident (n + 1) ∨ (a.st (n + 1)).val = none) :
    Low (defStep (chain sem x N) a n).st n := by
  have hlab : (label (chain sem x N) (env a.st) (a.st n).tree).stat ≠ .ok ∧
      ((label (chain sem x N) (env a.st) (a.st n).tree).tree = .ident (n + 1) ∨
       (label (chain sem x N) (env a.st) (a.st n).tree).tree = .cnst (n + 1) none) := by
    rcases hl.2 with h | h
    · rw [h]
      simp only [label, labIdent]
      cases (chain sem x N).body (n + 1) <;> simp
    · rw [h]
      rcases hn with hn | hn
      · rw [h] at hn; cases hn
      · simp [label, labCnst, env, hn]
  rcases defStep_cases (P := chain sem x N) a n with ⟨-, h2⟩ | ⟨-, h2⟩ | ⟨hb, hv, hc⟩
  · rw [h2]; exact hl
  · rw [h2]; exact hl
  · rcases hc with ⟨e, w, hd, -, -, -⟩ | ⟨w, hd, -, -⟩ | ⟨v, w, hok, -, -, hd⟩
    · rw [hd]; unfold Low; simp only [upd_same]; exact ⟨trivial, hlab.2⟩
    · rw [hd]; unfold Low; simp only [upd_same]; exact ⟨trivial, hlab.2⟩
    · exact absurd hok hlab.1

/-- One pass over the chain settles one constant more, at most. -/
theorem low_pass {N : Nat} {sem : Sem O V} {x : V} (k : Nat) : ∀ (m d : Nat) (a : Acc O V),
    (∀ i, (i + k < N ∧ d ≤ i) ∨ i + (k + 1) < N → Low a.st i) →
    ∀ i, i + (k + 1) < N → Low ((List.range' d m).foldl (defStep (chain sem x N)) a).st i := by
  intro m
  induction m with
  | zero => intro d a h i hi; exact h i (Or.inr hi)
  | succ m ih =>
    intro d a h i hi
    rw [List.range'_succ, List.foldl_cons]
    refine ih (d + 1) (defStep _ a d) ?_ i hi
    intro j hj
    by_cases hjd : j = d
    · subst hjd
      rcases hj with ⟨-, hj⟩ | hj
      · omega
      · exact low_self a j (h j (Or.inr hj)) (Or.inr (h (j + 1) (Or.inl ⟨by omega, by omega⟩)).1)
    · refine low_other a d j hjd (h j ?_)
      rcases hj with ⟨h1, h2⟩ | hj
      · exact Or.inl ⟨h1, by omega⟩
      · exact Or.inr hj

theorem low_first [Inhabited V] {N : Nat} {sem : Sem O V} {x : V} : ∀ (m d : Nat) (a : Acc O V),
    (∀ i, i < N → Low a.st i ∧ (d ≤ i → (a.st i).tree = .ident (i + 1))) →
    ∀ i, i < N → Low ((List.range' d m).foldl (defStep (chain sem x N)) a).st i := by
  intro m
  induction m with
  | zero => intro d a h i hi; exact (h i hi).1
  | succ m ih =>
    intro d a h i hi
    rw [List.range'_succ, List.foldl_cons]
    refine ih (d + 1) (defStep _ a d) ?_ i hi
    intro j hj
    by_cases hjd : j = d
    · subst hjd
      exact ⟨low_self a j (h j hj).1 (Or.inl ((h j hj).2 (Nat.le_refl _))), fun h => by omega⟩
    · refine ⟨low_other a d j hjd (h j hj).1, fun hd => ?_⟩
      have ht := (h j hj).2 (by omega)
      rcases defStep_cases (P := chain sem x N) a d with ⟨-, h2⟩ | ⟨-, h2⟩ | ⟨hb, hv, hc⟩
      · rw [h2]; exact ht
      · rw [h2]; exact ht
      · rcases hc with ⟨e, w, hd, -, -, -⟩ | ⟨w, hd, -, -⟩ | ⟨v, w, -, -, -, hd⟩ <;>
        · rw [hd]; simp only [upd_other _ _ hjd]; exact ht

theorem low_loop {N : Nat} {sem : Sem O V} {x : V} : ∀ j p s s', p + j < N →
    (∀ i, i + p < N → Low s i) → loop (chain sem x N) j s = some s' → Low s' 0 := by
  intro j
  induction j with
  | zero =>
    intro p s s' hp h e
    simp only [loop, Option.some.injEq] at e
    rw [← e]; exact h 0 (by omega)
  | succ j ih =>
    intro p s s' hp h e
    have hr : ∀ i, i + (p + 1) < N → Low (round (chain sem x N) (j == 0) s).st i := by
      intro i hi
      have := low_pass (N := N) (sem := sem) (x := x) p (N + 1) 0 ⟨s, 0, 0, false⟩
        (fun i hi => h i (by rcases hi with ⟨hi, -⟩ | hi <;> omega)) i hi
      simpa [round, pass, chain, List.range_eq_range'] using this
    simp only [loop] at e
    split_ifs at e
    · exact ih (p + 1) _ _ (by omega) hr e
    · simp only [Option.some.injEq] at e
      rw [← e]; exact hr 0 (by omega)

/-- **C91 fails** for long chains: more than a hundred and one constants, each defined
by the next, are refused in this order, although each has a value; the same
chain declared the other way round is accepted (`C91_forward`). -/
theorem C91_limit_fails [Inhabited V] (sem : Sem O V) (x : V) (N : Nat) (hN : 101 ≤ N)
    (hsto : ∀ n, sem.store n x = some x) :
    (∀ i ≤ N, Means (chain sem x N) i x) ∧ compile (chain sem x N) = none := by
  refine ⟨fun i hi => chain_means sem x N hsto (N - i) i (by omega), ?_⟩
  cases e : compile (chain sem x N) with
  | none => rfl
  | some s =>
    exfalso
    have hv := compile_classes e 0 (by simp [chain])
    unfold compile at e
    dsimp only at e
    split_ifs at e
    have h0 : ∀ i, i + 0 < N → Low (firstPass (chain sem x N) (start (chain sem x N))).st i := by
      intro i hi
      have := low_first (N := N) (sem := sem) (x := x) (N + 1) 0 ⟨start (chain sem x N), 0, 0, false⟩
        (fun i hi => by
          have : (start (chain sem x N) i).tree = .ident (i + 1) := by
            simp [start, chain, hi]
          exact ⟨⟨rfl, Or.inl this⟩, fun _ => this⟩) i (by omega)
      simpa [firstPass, pass, chain, List.range_eq_range'] using this
    have hl := low_loop maxRounds 0 _ _ (by simp only [maxRounds]; omega) h0 e
    rw [hl.1] at hv
    cases hv

/-- **C91 fails** for constants of the scope of a file: definitions that only name each
other (so that none is worth anything) are accepted, and the constants have no
value. -/
theorem C91_filescope_fails [Inhabited V] (hP : Parsed P) (hc : P.classes = [])
    (h : ∀ n ∈ P.locals, ∃ m, m ∈ P.locals ∧ P.body n = some (.ident m)) :
    ∃ s, compile P = some s ∧ ∀ n ∈ P.locals, (s n).val = none ∧ ¬ ∃ v, Means P n v := by
  -- no constant is worth anything
  have hno : ∀ (t : Tree O V) v, Worth P t v → ∀ n ∈ P.locals, t ≠ .ident n := by
    intro t v hw
    induction hw with
    | lit v => intro n _ e; cases e
    | ident hb _ _ ih =>
      intro n hn e
      rw [← Tree.ident.inj e] at hn
      obtain ⟨m, hm, hbm⟩ := h _ hn
      rw [hb] at hbm
      exact ih m hm (Option.some.inj hbm)
    | cnst _ _ => intro n _ e; cases e
    | un _ _ _ => intro n _ e; cases e
    | bin _ _ _ _ _ => intro n _ e; cases e
    | yes _ _ _ _ _ => intro n _ e; cases e
    | no _ _ _ _ _ => intro n _ e; cases e
  let W : State O V → Prop := fun s => ∀ n ∈ P.locals, (s n).bad = false ∧ (s n).val = none ∧
    ∃ m, m ∈ P.locals ∧ ((s n).tree = .ident m ∨ (s n).tree = .cnst m none)
  have hstep : ∀ (a : Acc O V) n, n ∈ P.locals → (a.errs = 0 ∧ W a.st) →
      ((defStep P a n).errs = 0 ∧ W (defStep P a n).st) := by
    intro a n hn ⟨ha, hw⟩
    obtain ⟨hb, hv, m, hm, ht⟩ := hw n hn
    have hbm : (P.body m).isSome := (hP.listed m).2 (List.mem_append_right _ hm)
    obtain ⟨tm, htm⟩ := Option.isSome_iff_exists.1 hbm
    have hvm := (hw m hm).2.1
    have hl : (label P (env a.st) (a.st n).tree).tree = .cnst m none ∧
        (label P (env a.st) (a.st n).tree).stat = .hzy ∧ (label P (env a.st) (a.st n).tree).errs = 0 := by
      rcases ht with ht | ht
      · rw [ht]; simp [label, labIdent, htm]
      · rw [ht]; simp [label, labCnst, env, hvm, htm]
    rcases defStep_cases (P := P) a n with ⟨q, -⟩ | ⟨q, -⟩ | ⟨-, -, hcases⟩
    · rw [hb] at q; cases q
    · rw [hv] at q; cases q
    · rcases hcases with ⟨e, w, hd, -, -, q | ⟨v, q, -⟩⟩ | ⟨w, hd, -, -⟩ | ⟨v, w, q, -⟩
      · rw [hl.2.1] at q; cases q
      · rw [hl.2.1] at q; cases q
      · rw [hd]
        refine ⟨by show a.errs + _ = 0; rw [ha, hl.2.2], ?_⟩
        intro i hi
        by_cases hin : i = n
        · subst hin
          simp only [upd_same]
          exact ⟨trivial, trivial, m, hm, Or.inr hl.1⟩
        · simp only [upd_other _ _ hin]; exact hw i hi
      · rw [hl.2.1] at q; cases q
  have hpass : ∀ s, W s → (pass P P.locals s).errs = 0 ∧ W (pass P P.locals s).st := fun s hs =>
    foldl_inv (defStep P) (fun a => a.errs = 0 ∧ W a.st) P.locals (fun a b hb hab => hstep a b hb hab) _ ⟨rfl, hs⟩
  have hloop : ∀ k s, W s → ∃ s', loop P k s = some s' ∧ W s' := by
    intro k
    induction k with
    | zero => intro s hs; exact ⟨s, rfl, hs⟩
    | succ k ih =>
      intro s hs
      obtain ⟨h1, h2⟩ := hpass s hs
      have hr : (round P (k == 0) s).errs = 0 ∧ W (round P (k == 0) s).st := by
        unfold round
        rw [hc]
        simp only [pass, List.foldl_nil]
        simp only [pass] at h1 h2
        exact ⟨by simp [h1], h2⟩
      simp only [loop]
      rw [if_neg (by omega)]
      split_ifs
      · exact ih _ hr.2
      · exact ⟨_, rfl, hr.2⟩
  have hstart : W (start P) := by
    intro n hn
    obtain ⟨m, hm, hb⟩ := h n hn
    exact ⟨rfl, rfl, m, hm, Or.inl (by simp [start, hb])⟩
  have hf : (firstPass P (start P)).errs = 0 ∧ W (firstPass P (start P)).st := by
    unfold firstPass
    rw [hc]
    obtain ⟨h1, h2⟩ := hpass _ hstart
    simp only [pass, List.foldl_nil]
    simp only [pass] at h1 h2
    exact ⟨by simp [h1], h2⟩
  obtain ⟨s, hs, hw⟩ := hloop maxRounds _ hf.2
  refine ⟨s, ?_, fun n hn => ⟨(hw n hn).2.1, fun ⟨v, hv⟩ => hno _ v hv n hn rfl⟩⟩
  unfold compile
  dsimp only
  rw [if_neg (by omega)]
  exact hs

/-! ### Examples -/

/-- Additions of numbers below 256; the store refuses anything larger. -/
def exSem : Sem Unit Nat where
  un := fun _ x => some (x + 1)
  bin := fun _ x y => some (x + y)
  truth := fun x => x != 0
  store := fun _ x => if x < 256 then some x else none

/-- `constant U(8) a = b + c; constant U(8) b = c ? c + 1 : 7; constant U(8) c = 5;` -/
def exProg : Prog Unit Nat where
  sem := exSem
  body := fun n => match n with
    | 0 => some (.bin () (.ident 1) (.ident 2))
    | 1 => some (.cond (.ident 2) (.un () (.ident 2)) (.lit 7))
    | 2 => some (.lit 5)
    | _ => none
  classes := [0, 1]
  locals := [2]

example : (compile exProg).map (fun s => ((s 0).val, (s 1).val, (s 2).val)) = some (some 11, some 6, some 5) := by
  decide +kernel

/-- The same constants declared in another order. -/
example : (compile { exProg with classes := [2, 1, 0], locals := [] }).map
    (fun s => ((s 0).val, (s 1).val, (s 2).val)) = some (some 11, some 6, some 5) := by
  decide +kernel

theorem exProg_parsed : Parsed exProg where
  fresh := by
    intro n t h
    match n, h with
    | 0, h => cases h; exact ⟨trivial, trivial⟩
    | 1, h => cases h; exact ⟨trivial, trivial, trivial⟩
    | 2, h => cases h; trivial
  listed := by
    intro n
    match n with
    | 0 => simp [exProg]
    | 1 => simp [exProg]
    | 2 => simp [exProg]
    | n + 3 => simp [exProg]
  once := by decide

theorem exProg_means2 : Means exProg 2 5 := Worth.ident (t := .lit 5) rfl (Worth.lit 5) rfl

theorem exProg_means1 : Means exProg 1 6 :=
  Worth.ident (t := .cond (.ident 2) (.un () (.ident 2)) (.lit 7)) rfl
    (Worth.yes exProg_means2 rfl (Worth.un exProg_means2 rfl)) rfl

theorem exProg_means0 : Means exProg 0 11 :=
  Worth.ident (t := .bin () (.ident 1) (.ident 2)) rfl (Worth.bin exProg_means1 exProg_means2 rfl) rfl

example : ∃ s, compile exProg = some s ∧ ∀ n, (exProg.body n).isSome → ∃ v, (s n).val = some v ∧ Means exProg n v := by
  refine C91_any_order_partial exProg_parsed (fun n => 3 - n - n / 2) ?_ (fun n _ => by omega)
  intro n t h
  match n, h with
  | 0, h =>
    cases h
    refine ⟨⟨⟨6, exProg_means1⟩, ⟨5, exProg_means2⟩, 11, Worth.bin exProg_means1 exProg_means2 rfl⟩, ⟨11, exProg_means0⟩, by decide, ?_⟩
    rintro m (h | h)
    · cases h; decide
    · cases h; decide
  | 1, h =>
    cases h
    refine ⟨⟨⟨5, exProg_means2⟩, ⟨⟨5, exProg_means2⟩, 6, Worth.un exProg_means2 rfl⟩, trivial⟩, ⟨6, exProg_means1⟩, by decide, ?_⟩
    rintro m (h | h | h)
    · cases h; decide
    · cases h; decide
    · cases h
  | 2, h =>
    cases h
    exact ⟨trivial, ⟨5, exProg_means2⟩, by decide, fun m h => h.elim⟩

/-- Two constants of a class that need each other, one of them in a branch not taken. -/
def exCircle : Prog Unit Nat where
  sem := exSem
  body := fun n => match n with
    | 0 => some (.cond (.lit 1) (.lit 3) (.ident 1))
    | 1 => some (.un () (.ident 0))
    | _ => none
  classes := [0, 1]
  locals := []

example : compile exCircle = none :=
  C91_circular (P := exCircle)
    ⟨by
      intro n t h
      match n, h with
      | 0, h => cases h; exact ⟨trivial, trivial, trivial⟩
      | 1, h => cases h; trivial,
     by
      intro n
      match n with
      | 0 => simp [exCircle]
      | 1 => simp [exCircle]
      | n + 2 => simp [exCircle],
     by decide⟩
    (fun n => n < 2)
    (by
      intro n hn
      match n with
      | 0 => exact ⟨_, 1, rfl, by decide, Or.inr (Or.inr rfl)⟩
      | 1 => exact ⟨_, 0, rfl, by decide, rfl⟩
      | n + 2 => omega)
    0 (by decide) (by decide)

/-- A chain declared with the uses after the definitions, as long as one likes. -/
def forward (N : Nat) : Prog Unit Nat where
  sem := exSem
  body := fun i => if i = 0 then some (.lit 9) else if i ≤ N then some (.ident (i - 1)) else none
  classes := List.range (N + 1)
  locals := []

example (N : Nat) : ∃ s, compile (forward N) = some s ∧
    ∀ n, ((forward N).body n).isSome → ∃ v, (s n).val = some v ∧ Means (forward N) n v := by
  have hmean : ∀ n, n ≤ N → Means (forward N) n 9 := by
    intro n
    induction n with
    | zero => intro _; exact Worth.ident (t := .lit 9) (by simp [forward]) (Worth.lit 9) rfl
    | succ n ih =>
      intro hn
      exact Worth.ident (t := .ident n) (by simp [forward, hn]) (ih (by omega)) rfl
  refine C91_forward ⟨?_, ?_, ?_⟩ ?_
  · intro n t h
    simp only [forward] at h
    split_ifs at h <;> cases h <;> trivial
  · intro n
    simp only [forward, List.append_nil, List.mem_range]
    split_ifs <;> simp <;> omega
  · simpa [forward] using List.nodup_range
  · intro n t h
    simp only [forward] at h
    split_ifs at h with h0 h1
    · cases h
      exact ⟨trivial, ⟨9, hmean n (by omega)⟩, rfl, fun m h => h.elim⟩
    · cases h
      refine ⟨⟨9, hmean (n - 1) (by omega)⟩, ⟨9, hmean n h1⟩, rfl, ?_⟩
      intro m hm
      have hm : n - 1 = m := hm
      subst hm
      refine ⟨List.range' 0 n, List.range' (n + 1) (N - n), ?_, by simp; omega⟩
      simp only [forward, List.nil_append, List.range_eq_range']
      have e1 : N + 1 = n + ((N - n) + 1) := by omega
      rw [e1, ← List.range'_append_1, Nat.zero_add, List.range'_succ]

example : compile (chain exSem 9 101) = none := (C91_limit_fails exSem 9 101 (by omega) (fun _ => rfl)).2

/-- `local constant U(8) x = y; local constant U(8) y = x;` -/
def exLocals : Prog Unit Nat where
  sem := exSem
  body := fun n => match n with
    | 0 => some (.ident 1)
    | 1 => some (.ident 0)
    | _ => none
  classes := []
  locals := [0, 1]

example : ∃ s, compile exLocals = some s ∧ ∀ n ∈ exLocals.locals, (s n).val = none ∧ ¬ ∃ v, Means exLocals n v := by
  refine C91_filescope_fails ⟨?_, ?_, by decide⟩ rfl ?_
  · intro n t h
    match n, h with
    | 0, h => cases h; trivial
    | 1, h => cases h; trivial
  · intro n
    match n with
    | 0 => simp [exLocals]
    | 1 => simp [exLocals]
    | n + 2 => simp [exLocals]
  · intro n hn
    match n, hn with
    | 0, _ => exact ⟨1, by decide, rfl⟩
    | 1, _ => exact ⟨0, by decide, rfl⟩
    | n + 2, h => simp [exLocals] at h

/-! ### Unknown names -/

theorem label_unknown {m : Nat} (hm : P.body m = none) {ev : Nat → Option V} (hev : ev m = none) :
    ∀ t : Tree O V, Fresh t → Mentions m t → 0 < (label P ev t).errs := by
  intro t
  induction t with
  | lit v => intro _ h; exact h.elim
  | ident k => intro _ h; cases h; simp [label, labIdent, hm]
  | cnst k c =>
    intro hf h
    cases h
    have hf : c = none := hf
    subst hf
    simp [label, labCnst, hev, hm]
  | un o a ih =>
    intro hf h
    have := ih hf h
    simp only [label, labUn]
    split
    · split <;> simp only <;> omega
    · exact this
    · exact this
  | bin o a b iha ihb =>
    intro hf h
    have hs : 0 < (label P ev a).errs + (label P ev b).errs := by
      rcases h with h | h
      · have := iha hf.1 h; omega
      · have := ihb hf.2 h; omega
    simp only [label, labBin, foldBin]
    split_ifs
    · exact hs
    · exact hs
    · split
      · split <;> simp only <;> omega
      · exact hs
  | cond c a b ihc iha ihb =>
    intro hf h
    have hs : 0 < (label P ev c).errs + (label P ev a).errs + (label P ev b).errs := by
      rcases h with h | h | h
      · have := ihc hf.1 h; omega
      · have := iha hf.2.1 h; omega
      · have := ihb hf.2.2 h; omega
    simp only [label, labCond]
    split <;> exact hs

theorem defStep_other (a : Acc O V) {n k : Nat} (h : n ≠ k) : (defStep P a k).st n = a.st n := by
  unfold defStep
  split_ifs
  · rfl
  · rfl
  · dsimp only
    split
    · exact upd_other _ _ h
    · exact upd_other _ _ h
    · unfold foldDef
      split
      · split <;> exact upd_other _ _ h
      · exact upd_other _ _ h

theorem defStep_unknown {m n : Nat} {t : Tree O V} (hm : P.body m = none) (hf : Fresh t) (hmen : Mentions m t)
    (a : Acc O V) (ha : a.st n = ⟨t, none, false⟩) (hv : (a.st m).val = none) : 0 < (defStep P a n).errs := by
  have := label_unknown (P := P) hm (ev := env a.st) hv t hf hmen
  unfold defStep
  rw [ha]
  simp only [Bool.false_eq_true, if_false, Option.isSome_none]
  split
  · simp only; omega
  · simp only; omega
  · unfold foldDef
    split
    · split <;> simp only <;> omega
    · simp only; omega

theorem fold_unknown {m n : Nat} {t : Tree O V} (hm : P.body m = none) (hf : Fresh t) (hmen : Mentions m t) :
    ∀ (l : List Nat) (a : Acc O V), m ∉ l → a.st n = ⟨t, none, false⟩ → (a.st m).val = none →
      (n ∈ l → 0 < (l.foldl (defStep P) a).errs) ∧
      (n ∉ l → (l.foldl (defStep P) a).st n = ⟨t, none, false⟩ ∧ ((l.foldl (defStep P) a).st m).val = none) := by
  intro l
  induction l with
  | nil => intro a _ h1 h2; exact ⟨fun h => (by cases h), fun _ => ⟨h1, h2⟩⟩
  | cons k l ih =>
    intro a hml h1 h2
    have hmk : m ≠ k := fun e => hml (e ▸ List.mem_cons_self ..)
    have hml' : m ∉ l := fun h => hml (List.mem_cons_of_mem _ h)
    simp only [List.foldl_cons]
    by_cases hk : n = k
    · subst hk
      have h3 := defStep_unknown hm hf hmen a h1 h2
      exact ⟨fun _ => Nat.lt_of_lt_of_le h3 (foldl_mono (P := P) l _).1.errs,
        fun h => absurd (List.mem_cons_self ..) h⟩
    · have := ih (defStep P a k) hml' (by rw [defStep_other a hk]; exact h1) (by rw [defStep_other a hmk]; exact h2)
      exact ⟨fun h => this.1 ((List.mem_cons.1 h).resolve_left hk), fun h => this.2 (fun h' => h (List.mem_cons_of_mem _ h'))⟩

/-- **C91** A constant whose expression mentions a name that is no constant is refused,
also in the scope of a file and in a branch not taken. -/
theorem C91_unknown [Inhabited V] (hP : Parsed P) {n m : Nat} {t : Tree O V} (hn : P.body n = some t)
    (hmen : Mentions m t) (hm : P.body m = none) : compile P = none := by
  have hml : m ∉ P.classes ++ P.locals := fun h => by
    have := (hP.listed m).2 h; rw [hm] at this; cases this
  have hnl : n ∈ P.classes ++ P.locals := (hP.listed n).1 (by rw [hn]; rfl)
  rw [List.mem_append, not_or] at hml
  have hf := hP.fresh n t hn
  have h0 : start P n = ⟨t, none, false⟩ := by simp [start, hn]
  have hc := fold_unknown hm hf hmen P.classes ⟨start P, 0, 0, false⟩ hml.1 h0 rfl
  have herr : 0 < (firstPass P (start P)).errs := by
    simp only [firstPass]
    by_cases h : n ∈ P.classes
    · have := hc.1 h; unfold pass; omega
    · have h2 := hc.2 h
      have hl := (fold_unknown hm hf hmen P.locals
        ⟨(P.classes.foldl (defStep P) ⟨start P, 0, 0, false⟩).st, 0, 0, false⟩ hml.2 h2.1 h2.2).1
        ((List.mem_append.1 hnl).resolve_left h)
      unfold pass; omega
  unfold compile
  simp only
  rw [if_pos herr]

/-- `local constant U(8) x = 1 ? 3 : y;` without any `y`. -/
def exUnknown : Prog Unit Nat where
  sem := exSem
  body := fun n => match n with
    | 0 => some (.cond (.lit 1) (.lit 3) (.ident 1))
    | _ => none
  classes := []
  locals := [0]

example : compile exUnknown = none := by
  refine C91_unknown (n := 0) (m := 1) ⟨?_, ?_, by decide⟩ rfl (Or.inr (Or.inr rfl)) rfl
  · intro n t h
    match n, h with
    | 0, h => cases h; exact ⟨trivial, trivial, trivial⟩
  · intro n
    match n with
    | 0 => simp [exUnknown]
    | n + 1 => simp [exUnknown]

end Ulam.Consts
