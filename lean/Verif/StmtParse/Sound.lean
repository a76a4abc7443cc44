import Verif.StmtParse.Total
import Mathlib.Tactic.Tauto
/- What is accepted is written in the grammar. -/
namespace Ulam.StmtParse

/-- Nothing has been reported in between, and there are tokens left. -/
def Ok (s s' : St) : Prop := s'.errs = s.errs ∧ s'.toks ≠ []

theorem ok_split {a b c : St} (h1 : Le a b) (h2 : Le b c) (h : Ok a c) : Ok a b ∧ Ok b c := by
  have e1 := h1.1; have e2 := h2.1; have e3 := h.1
  refine ⟨⟨by omega, ?_⟩, ⟨by omega, h.2⟩⟩
  intro hn
  have := h2.2
  rw [hn] at this
  exact h.2 (List.suffix_nil.mp this)

theorem not_ok_err {a b : St} (h1 : Le a b) : ¬Ok a b.err := by
  intro h
  have := h1.1; have := h.1
  simp only [St.err] at this
  omega

/-- `t` is what stands between the two states. -/
def Reads (s : St) (t : Tree) (s' : St) : Prop :=
  s.toks = write t ++ s'.toks ∧ good t = true ∧ condsOk t = true ∧ (openEnd t = true → s'.next ≠ some .kElse)

theorem toks_of_next {s : St} {t : Tok} (h : s.next = some t) : s.toks = t :: s.drop.toks := by
  cases hs : s.toks with
  | nil => simp [St.next, hs] at h
  | cons a l => simp [St.next, hs] at h; simp [St.drop, hs, h]

theorem next_of_toks {s : St} {t : Tok} {l} (h : s.toks = t :: l) : s.next = some t := by simp [St.next, h]

theorem pExpr_some {s : St} {e s'} (h : pExpr s = (some e, s')) :
    s.toks = .simp (.ex e) :: s'.toks ∧ s'.asF = (s.asF || e.as != .no) ∧ s'.errs = s.errs := by
  unfold pExpr at h
  split at h
  · rename_i e' r hs
    cases h
    exact ⟨hs, rfl, rfl⟩
  · cases h

theorem pExpr_none {s : St} {s'} (h : pExpr s = (none, s')) : s' = s ∧ ∀ e r, s.toks ≠ .simp (.ex e) :: r := by
  unfold pExpr at h
  split at h
  · cases h
  · rename_i hn
    cases h
    exact ⟨rfl, fun e r he => hn e r he⟩

theorem finish_ok {s : St} (h : Ok s (finish s)) : s.toks = .semi :: (finish s).toks := by
  unfold finish at h ⊢
  by_cases hn : s.next = some .semi
  · rw [if_pos hn]
    exact toks_of_next hn
  · rw [if_neg hn] at h
    exact absurd h (not_ok_err (le_skip _ _))

theorem pSimple_ok {s : St} (h : Ok s (pSimple s).2) : ∃ t, (pSimple s).1 = .one t ∧ Reads s t (pSimple s).2 := by
  unfold pSimple at h ⊢
  split at h
  · rename_i l hs
    refine ⟨.empty, rfl, ?_, rfl, rfl, by simp [openEnd]⟩
    exact finish_ok h
  · rename_i n a l hs
    refine ⟨.simp (.decl n a), rfl, ?_, rfl, rfl, by simp [openEnd]⟩
    have hle := (le_drop s).trans (le_as s.drop (s.asF || a))
    have := finish_ok (ok_split hle (le_finish _) h).2
    simp only [write, List.cons_append, List.nil_append]
    rw [← this]
    simp [St.drop, hs]
  · rename_i n a l hs
    refine ⟨.simp (.ldef n a), rfl, ?_, rfl, rfl, by simp [openEnd]⟩
    have hle := (le_drop s).trans (le_as s.drop (s.asF || a))
    have := finish_ok (ok_split hle (le_finish _) h).2
    simp only [write, List.cons_append, List.nil_append]
    rw [← this]
    simp [St.drop, hs]
  · rename_i l hs
    refine ⟨.ret (pExpr s.drop).1, rfl, ?_, rfl, rfl, by simp [openEnd]⟩
    have hle := (le_drop s).trans (le_pExpr s.drop)
    have := finish_ok (ok_split hle (le_finish _) h).2
    have hd : s.toks = .kRet :: s.drop.toks := toks_of_next (next_of_toks hs)
    cases he : pExpr s.drop with
    | mk o s1 =>
      rw [he] at this
      cases o with
      | some e =>
        have h1 := (pExpr_some he).1
        simp only [write, wOpt, List.cons_append, List.nil_append] at this ⊢
        rw [hd, h1, this]
      | none =>
        have h1 := (pExpr_none he).1
        subst h1
        simp only [write, wOpt, List.cons_append, List.nil_append] at this ⊢
        rw [hd, this]
  · rename_i l hs
    refine ⟨.brk, rfl, ?_, rfl, rfl, by simp [openEnd]⟩
    have := finish_ok (ok_split (le_drop s) (le_finish _) h).2
    rw [toks_of_next (next_of_toks hs), this]
    rfl
  · rename_i l hs
    refine ⟨.cont, rfl, ?_, rfl, rfl, by simp [openEnd]⟩
    have := finish_ok (ok_split (le_drop s) (le_finish _) h).2
    rw [toks_of_next (next_of_toks hs), this]
    rfl
  · rename_i h1 h2 h3 h4 h5 h6
    have hf := finish_ok (ok_split (le_pExpr s) (le_finish _) h).2
    dsimp only
    cases he : pExpr s with
    | mk o s1 =>
      rw [he] at hf
      cases o with
      | some e =>
        refine ⟨.simp (.ex e), rfl, ?_, rfl, rfl, by simp [openEnd]⟩
        rw [(pExpr_some he).1]
        simp only [write, List.cons_append, List.nil_append]
        rw [← hf]
      | none =>
        have := (pExpr_none he).1
        subst this
        exact (h1 _ hf).elim

theorem pInit_ok (s : St) : s.toks = wInit (pInit s).1 ++ (pInit s).2.toks ∧ initOk (pInit s).1 = true := by
  unfold pInit
  split
  · rename_i n a l hs; exact ⟨by simp [wInit, St.drop, hs], rfl⟩
  · rename_i e l hs
    split_ifs with hi
    · exact ⟨by simp [wInit, St.drop, hs], hi⟩
    · exact ⟨by simp [wInit], rfl⟩
  · exact ⟨by simp [wInit], rfl⟩

theorem pOptTo_ok {t : Tok} {s : St} (h : Ok s (pOptTo t s).2) :
    ∃ o, (pOptTo t s).1 = some o ∧ s.toks = wOpt o ++ t :: (pOptTo t s).2.toks ∧
      (pOptTo t s).2.asF = (s.asF || o.any fun e => e.as != .no) := by
  unfold pOptTo at h ⊢
  by_cases hn : s.next = some t
  · rw [if_pos hn]
    exact ⟨none, rfl, toks_of_next hn, by simp [St.drop]⟩
  · rw [if_neg hn] at h ⊢
    have hl := le_pExpr s
    cases he : pExpr s with
    | mk o s1 =>
      rw [he] at h hl
      cases o with
      | none => exact absurd h (not_ok_err hl)
      | some e =>
        dsimp only at h hl ⊢
        by_cases hn : s1.next = some t
        · rw [if_pos hn]
          obtain ⟨h1, h2, -⟩ := pExpr_some he
          exact ⟨some e, rfl, by simp [wOpt, h1, toks_of_next hn], by simp [St.drop, h2]⟩
        · rw [if_neg hn] at h
          exact absurd h (not_ok_err hl)

theorem pParen_ok {o : Bool} {s : St} (h : Ok s (pParen o s).2) :
    ∃ c, (pParen o s).1 = some c ∧ s.toks = .op :: (wOpt c ++ .cp :: (pParen o s).2.toks) ∧
      (o = false → c ≠ none) ∧ (pParen o s).2.asF = (s.asF || c.any fun e => e.as != .no) := by
  unfold pParen at h ⊢
  by_cases hn : s.next = some .op
  · rw [if_neg (by simp [hn])] at h ⊢
    have hl := (le_drop s).trans (le_pExpr s.drop)
    have ht := toks_of_next hn
    cases he : pExpr s.drop with
    | mk o' s1 =>
      rw [he] at h hl
      cases o' with
      | none =>
        dsimp only at h hl ⊢
        split_ifs at h ⊢ with hc
        · simp only [Bool.and_eq_true, decide_eq_true_eq] at hc
          have := (pExpr_none he).1
          subst this
          refine ⟨none, rfl, ?_, by simp [hc.1], by simp [St.drop]⟩
          rw [ht, toks_of_next hc.2]
          rfl
        · exact absurd h (not_ok_err hl)
      | some e =>
        dsimp only at h hl ⊢
        split_ifs at h ⊢ with hc
        · obtain ⟨h1, h2, -⟩ := pExpr_some he
          refine ⟨some e, rfl, ?_, by simp, ?_⟩
          · rw [ht, h1, toks_of_next hc]
            rfl
          · show s1.asF = _
            rw [h2]
            simp [St.drop]
        · exact absurd h (not_ok_err hl)
  · rw [if_pos hn] at h
    exact absurd h (not_ok_err (Le.refl _))

theorem pForHead_ok {s : St} (h : Ok s (pForHead s).2) :
    ∃ i c st, (pForHead s).1 = some (i, c, st) ∧ initOk i = true ∧
      s.toks = .op :: (wInit i ++ .semi :: (wOpt c ++ .semi :: (wOpt st ++ .cp :: (pForHead s).2.toks))) ∧
      ((c.any fun e => e.as != .no) = true → (pForHead s).2.asF = true) := by
  unfold pForHead at h ⊢
  by_cases hn : s.next = some .op
  · rw [if_neg (by simp [hn])] at h ⊢
    have ht := toks_of_next hn
    obtain ⟨hi, hio⟩ := pInit_ok s.drop
    have hl := (le_drop s).trans (le_pInit s.drop)
    generalize pInit s.drop = r at h hi hio hl
    obtain ⟨i, s1⟩ := r
    dsimp only at h hi hio hl ⊢
    by_cases hn1 : s1.next = some .semi
    · rw [if_neg (by simp [hn1])] at h ⊢
      have ht1 := toks_of_next hn1
      have hl2 := hl.trans (le_drop s1)
      have hl3 := le_pOptTo .semi s1.drop
      have hok : Ok s1.drop (pOptTo .semi s1.drop).2 → _ := pOptTo_ok (t := .semi) (s := s1.drop)
      generalize pOptTo .semi s1.drop = r at h hl3 hok
      obtain ⟨_ | c, s2⟩ := r
      · obtain ⟨o, h1, -⟩ := hok (ok_split hl2 hl3 h).2
        cases h1
      · dsimp only at h hl3 hok ⊢
        have hl4 := le_pOptTo .cp s2
        have hok2 : Ok s2 (pOptTo .cp s2).2 → _ := pOptTo_ok (t := .cp) (s := s2)
        generalize pOptTo .cp s2 = r at h hl4 hok2
        have hfin : Ok s r.2 := by
          obtain ⟨_ | st, s3⟩ := r <;> exact h
        obtain ⟨ok1, ok2⟩ := ok_split (hl2.trans hl3) hl4 hfin
        obtain ⟨o2, g1, g2, g3⟩ := hok2 ok2
        obtain ⟨o, h1, h2, h3⟩ := hok (ok_split hl2 hl3 ok1).2
        obtain ⟨_ | st, s3⟩ := r
        · cases g1
        · cases g1
          cases h1
          refine ⟨i, _, _, rfl, hio, ?_, ?_⟩
          · dsimp only at g2 ⊢
            rw [ht, hi, ht1, h2, g2]
          · intro hc
            dsimp only at g3 h3 ⊢
            rw [g3, h3, hc]
            simp
    · rw [if_pos hn1] at h
      exact absurd h (not_ok_err hl)
  · rw [if_pos hn] at h
    exact absurd h (not_ok_err (Le.refl _))

theorem wLabels_append : ∀ a b, wLabels (a ++ b) = wLabels a ++ wLabels b
  | [], b => rfl
  | some e :: a, b => by simp [wLabels, wLabels_append a b]
  | none :: a, b => by simp [wLabels, wLabels_append a b]

theorem labelsOk_mono : ∀ (x : Bool) ls, labelsOk false ls = true → labelsOk x ls = true
  | _, [], _ => rfl
  | x, some _ :: ls, h => labelsOk_mono x ls h
  | _, none :: _, h => by simp [labelsOk] at h

theorem pLabels_ok : ∀ f valued seen acc s ls seen' s', pLabels f valued seen acc s = some (ls, seen', s') →
    Ok s s' → ∃ new, ls = acc ++ new ∧ s.toks = wLabels new ++ s'.toks ∧
      (seen = true → new = [] ∧ seen' = true) ∧ (seen = false → labelsOk seen' new = true) ∧
      (acc.all (fun l => l.all noAs) = true → (s.asF = false ∨ acc = [] ∨ seen = true) →
        ls.all (fun l => l.all noAs) = true ∨ valued = false ∧ ∃ e, ls = [some e] ∧ s'.asF = true)
  | 0, _, _, _, _, _, _, _, h, _ => by cases h
  | f + 1, valued, seen, acc, s, ls, seen', s', h, hok => by
    unfold pLabels at h
    split at h
    · rename_i hn
      have ht := toks_of_next hn
      split at h
      · cases h
        exact absurd hok (not_ok_err (le_drop s))
      · rename_i hseen
        have hl := (le_drop s).trans (le_pExpr s.drop)
        cases he : pExpr s.drop with
        | mk o s1 =>
          rw [he] at h hl
          cases o with
          | none => cases h; exact absurd hok (not_ok_err hl)
          | some e =>
            obtain ⟨h1, h2, -⟩ := pExpr_some he
            dsimp only at h hl
            split_ifs at h with c1 c2 c3 c4
            · cases h; exact absurd hok (not_ok_err hl)
            · cases h; exact absurd hok (not_ok_err (hl.trans (le_drop _)))
            · cases h; exact absurd hok (not_ok_err (hl.trans (le_drop _)))
            · cases h
              have ha : acc = [] := not_not.mp c3
              subst ha
              refine ⟨[some e], rfl, ?_, by simp [hseen], fun _ => rfl, ?_⟩
              · rw [ht, h1, toks_of_next (not_not.mp c1)]; rfl
              · intro _ _
                exact Or.inr ⟨by simpa using c4, e, rfl, c2⟩
            · have hr := le_pLabels _ _ _ _ _ _ h
              obtain ⟨new, g1, g2, g3, g4, g5⟩ := pLabels_ok f _ _ _ _ _ _ _ h
                (ok_split (hl.trans (le_drop _)) hr hok).2
              refine ⟨some e :: new, by simp [g1], ?_, by simp [hseen], ?_, ?_⟩
              · rw [ht, h1, toks_of_next (not_not.mp c1), g2]; rfl
              · intro hs; exact g4 hs
              · intro ha _
                have hf : s1.asF = false := by simpa using c2
                refine g5 ?_ (Or.inl hf)
                rw [h2] at hf
                simp only [Bool.or_eq_false_iff, bne_eq_false_iff_eq] at hf
                rw [List.all_append, ha]
                simp [noAs, hf.2]
    · split_ifs at h with c0 c1 c2
      · cases h; exact absurd hok (not_ok_err (le_drop s))
      · cases h; exact absurd hok (not_ok_err (le_drop s))
      · have hr := le_pLabels _ _ _ _ _ _ h
        obtain ⟨new, g1, g2, g3, g4, g5⟩ := pLabels_ok f _ _ _ _ _ _ _ h
          (ok_split ((le_drop s).trans (le_drop _)) hr hok).2
        obtain ⟨rfl, rfl⟩ := g3 rfl
        refine ⟨[none], by simpa using g1, ?_, by simp [c1], by simp [labelsOk], ?_⟩
        · rw [toks_of_next c0, toks_of_next (not_not.mp c2), g2]; rfl
        · intro ha _
          refine g5 ?_ (Or.inr (Or.inr rfl))
          rw [List.all_append, ha]; rfl
      · cases h
        refine ⟨[], by simp, rfl, by simp, fun _ => rfl, fun ha _ => Or.inl ha⟩

/-- All functions at once. -/
structure AllSound (f : Nat) : Prop where
  st : ∀ s node app s', pStatement f s = some (node, app, s') → Ok s s' →
    ∃ t, Reads s t s' ∧ (node = some t ∧ app = .nil ∨ node = none ∧ app = .one t)
  bl : ∀ s node s', pBlock f s = some (node, s') → Ok s s' → ∃ t, node = some t ∧ Reads s t s' ∧ isBlock t = true
  ss : ∀ s ts s', pStatements f s = some (ts, s') → Ok s s' →
    s.toks = writes ts ++ s'.toks ∧ goods ts = true ∧ condsOks ts = true ∧ s'.next = some .cc
  ab : ∀ s node s', pAsBlock f s = some (node, s') → Ok s s' →
    ∃ t, node = some t ∧ Reads s t s' ∧ (s.next = some .oc → isBlock t = true)
  bd : ∀ c s node s', pBody f c s = some (node, s') → Ok s s' →
    ∃ t, node = some t ∧ Reads s t s' ∧ (s.next = some .oc → isBlock t = true) ∧ (s.asF = true → isAs c = true)
  iff : ∀ s node s', pIf f s = some (node, s') → Ok s s' →
    ∃ t l, node = some t ∧ write t = .kIf :: l ∧ s.toks = l ++ s'.toks ∧ good t = true ∧ condsOk t = true ∧
      (openEnd t = true → s'.next ≠ some .kElse)
  wh : ∀ s node s', pWhile f s = some (node, s') → Ok s s' →
    ∃ t l, node = some t ∧ write t = .kWhile :: l ∧ s.toks = l ++ s'.toks ∧ good t = true ∧ condsOk t = true ∧
      (openEnd t = true → s'.next ≠ some .kElse)
  fo : ∀ s node s', pFor f s = some (node, s') → Ok s s' →
    ∃ t l, node = some t ∧ write t = .kFor :: l ∧ s.toks = l ++ s'.toks ∧ good t = true ∧ condsOk t = true ∧
      (openEnd t = true → s'.next ≠ some .kElse)
  sw : ∀ s node s', pWhich f s = some (node, s') → Ok s s' →
    ∃ t l, node = some t ∧ write t = .kWhich :: l ∧ s.toks = l ++ s'.toks ∧ good t = true ∧ condsOk t = true ∧
      (openEnd t = true → s'.next ≠ some .kElse)
  gr : ∀ v d s gs s', pGroups f v d s = some (gs, s') → Ok s s' →
    s.toks = writeG gs ++ s'.toks ∧ goodG gs = true ∧ condsOkG v gs = true ∧ (d = true → gs = .nil)

theorem single_eq {node : Option Tree} {app : Trees} {t : Tree}
    (h : node = some t ∧ app = .nil ∨ node = none ∧ app = .one t) : single node app = t := by
  rcases h with ⟨rfl, rfl⟩ | ⟨rfl, rfl⟩ <;> rfl

theorem condAs_of {c : Ex} {a : Bool} (h : (a || c.as != .no) = true → isAs (some c) = true) : condAs c = true := by
  cases hc : c.as <;> simp [condAs, isAs, hc] at h ⊢

theorem ctl_sound {s s' : St} {t : Tree} {l : List Tok} {k : Tok} (hn : s.next = some k)
    (h1 : write t = k :: l) (h2 : s.drop.toks = l ++ s'.toks) (h3 : good t = true) (h4 : condsOk t = true)
    (h5 : openEnd t = true → s'.next ≠ some .kElse) : Reads s t s' :=
  ⟨by rw [toks_of_next hn, h1, h2]; rfl, h3, h4, h5⟩

theorem allSound : ∀ f, AllSound f
  | 0 => by constructor <;> intros <;> rename_i h _ <;> cases h
  | f + 1 => by
    have ih := allSound f
    have le := allLe f
    constructor
    · intro s node app s' h hok
      unfold pStatement at h
      split at h
      · obtain ⟨⟨a, s1⟩, h1, h2⟩ := map_some h
        cases h2
        obtain ⟨t, rfl, ht, -⟩ := ih.bl _ _ _ h1 hok
        exact ⟨t, ht, Or.inl ⟨rfl, rfl⟩⟩
      · rename_i hn
        obtain ⟨⟨a, s1⟩, h1, h2⟩ := map_some h
        cases h2
        obtain ⟨t, l, rfl, g1, g2, g3, g4, g5⟩ := ih.iff _ _ _ h1 (ok_split (le_drop s) (le.iff _ _ h1) hok).2
        exact ⟨t, ctl_sound hn g1 g2 g3 g4 g5, Or.inl ⟨rfl, rfl⟩⟩
      · rename_i hn
        obtain ⟨⟨a, s1⟩, h1, h2⟩ := map_some h
        cases h2
        obtain ⟨t, l, rfl, g1, g2, g3, g4, g5⟩ := ih.wh _ _ _ h1 (ok_split (le_drop s) (le.wh _ _ h1) hok).2
        exact ⟨t, ctl_sound hn g1 g2 g3 g4 g5, Or.inl ⟨rfl, rfl⟩⟩
      · rename_i hn
        obtain ⟨⟨a, s1⟩, h1, h2⟩ := map_some h
        cases h2
        obtain ⟨t, l, rfl, g1, g2, g3, g4, g5⟩ := ih.fo _ _ _ h1 (ok_split (le_drop s) (le.fo _ _ h1) hok).2
        exact ⟨t, ctl_sound hn g1 g2 g3 g4 g5, Or.inl ⟨rfl, rfl⟩⟩
      · rename_i hn
        obtain ⟨⟨a, s1⟩, h1, h2⟩ := map_some h
        cases h2
        obtain ⟨t, l, rfl, g1, g2, g3, g4, g5⟩ := ih.sw _ _ _ h1 (ok_split (le_drop s) (le.sw _ _ h1) hok).2
        exact ⟨t, ctl_sound hn g1 g2 g3 g4 g5, Or.inl ⟨rfl, rfl⟩⟩
      · cases h; exact absurd hok (not_ok_err (le_drop s))
      · cases h
        obtain ⟨t, h1, h2⟩ := pSimple_ok hok
        exact ⟨t, h2, Or.inr ⟨rfl, h1⟩⟩
    · intro s node s' h hok
      unfold pBlock at h
      split_ifs at h with c1 c2
      · cases h; exact absurd hok (not_ok_err (Le.refl _))
      · cases h
        refine ⟨_, rfl, ⟨?_, rfl, rfl, by simp [openEnd]⟩, rfl⟩
        rw [toks_of_next (not_not.mp c1), toks_of_next c2]; rfl
      · cases h1 : pStatements f s.drop with
        | none => rw [h1] at h; cases h
        | some q =>
          rw [h1] at h
          obtain ⟨ts, s1⟩ := q
          have hl := (le_drop s).trans (le.ss _ _ h1)
          dsimp only at h hl
          split_ifs at h with c3
          · cases h
            obtain ⟨g1, g2, g3, g4⟩ := ih.ss _ _ _ h1
              (ok_split (le_drop s) (le.ss _ _ h1) (ok_split hl (le_drop s1) hok).1).2
            refine ⟨_, rfl, ⟨?_, g2, g3, by simp [openEnd]⟩, rfl⟩
            rw [toks_of_next (not_not.mp c1), g1, toks_of_next c3]
            simp [write]
          · cases h
            obtain ⟨-, -, -, g4⟩ := ih.ss _ _ _ h1
              (ok_split (le_drop s) (le.ss _ _ h1) (ok_split hl (le_skip .cc s1) hok).1).2
            exact absurd g4 c3
    · intro s ts s' h hok
      unfold pStatements at h
      cases h1 : pStatement f s with
      | none => rw [h1] at h; cases h
      | some q =>
        rw [h1] at h
        obtain ⟨node, app, s1⟩ := q
        have hl := le.st _ _ h1
        have key : ∀ s2, Le s1 s2 → Ok s s2 → ∃ t, Reads s t s1 ∧
            (node = some t ∧ app = .nil ∨ node = none ∧ app = .one t) :=
          fun s2 h2 hk => ih.st _ _ _ _ h1 (ok_split hl h2 hk).1
        cases node with
        | none =>
          dsimp only at h hl
          split_ifs at h with c1
          · obtain ⟨⟨us, s2⟩, h2, h3⟩ := map_some h
            cases h3
            obtain ⟨t, ht, hc⟩ := key _ (le.ss _ _ h2) hok
            rcases hc with ⟨hc, -⟩ | ⟨-, rfl⟩
            · cases hc
            obtain ⟨g1, g2, g3, g4⟩ := ih.ss _ _ _ h2 (ok_split hl (le.ss _ _ h2) hok).2
            refine ⟨?_, by simp [Trees.append, Trees.one, goods, ht.2.1, g2],
              by simp [Trees.append, Trees.one, condsOks, ht.2.2.1, g3], g4⟩
            rw [ht.1, g1]
            simp [Trees.append, Trees.one, writes]
          · cases h
            obtain ⟨t, ht, hc⟩ := key _ (Le.refl _) hok
            rcases hc with ⟨hc, -⟩ | ⟨-, rfl⟩
            · cases hc
            refine ⟨by simp [Trees.one, writes, ht.1], by simp [Trees.one, goods, ht.2.1],
              by simp [Trees.one, condsOks, ht.2.2.1], ?_⟩
            by_contra hne
            apply c1
            refine ⟨hne, ?_⟩
            cases hx : s'.toks with
            | nil => exact absurd hx hok.2
            | cons a l => simp [St.next, hx]
        | some t' =>
          dsimp only at h hl
          split_ifs at h with c1
          · obtain ⟨⟨us, s2⟩, h2, h3⟩ := map_some h
            cases h3
            obtain ⟨t, ht, hc⟩ := key _ (le.ss _ _ h2) hok
            rcases hc with ⟨hc, rfl⟩ | ⟨hc, -⟩
            swap
            · cases hc
            cases hc
            obtain ⟨g1, g2, g3, g4⟩ := ih.ss _ _ _ h2 (ok_split hl (le.ss _ _ h2) hok).2
            refine ⟨?_, by simp [Trees.append, goods, ht.2.1, g2],
              by simp [Trees.append, condsOks, ht.2.2.1, g3], g4⟩
            rw [ht.1, g1]
            simp [Trees.append, writes]
          · cases h
            obtain ⟨t, ht, hc⟩ := key _ (Le.refl _) hok
            rcases hc with ⟨hc, rfl⟩ | ⟨hc, -⟩
            swap
            · cases hc
            cases hc
            exact ⟨by simp [Trees.append, Trees.one, writes, ht.1], by simp [Trees.append, Trees.one, goods, ht.2.1],
              by simp [Trees.append, Trees.one, condsOks, ht.2.2.1], not_not.mp c1⟩
    · intro s node s' h hok
      unfold pAsBlock at h
      split_ifs at h with c1
      · obtain ⟨t, h1, h2, h3⟩ := ih.bl _ _ _ h hok
        exact ⟨t, h1, h2, fun _ => h3⟩
      · obtain ⟨⟨nd, app, s1⟩, h1, h2⟩ := map_some h
        cases h2
        obtain ⟨t, ht, hc⟩ := ih.st _ _ _ _ h1 hok
        exact ⟨t, by rw [single_eq hc], ht, fun hx => absurd hx c1⟩
    · intro c s node s' h hok
      unfold pBody at h
      split_ifs at h with c1 c2 c3 c4
      · cases h; exact absurd hok (not_ok_err (le_as s false))
      · cases h
        refine ⟨_, rfl, ⟨?_, rfl, rfl, by simp [openEnd]⟩, fun _ => rfl, fun _ => by simpa using c2⟩
        rw [toks_of_next c3, toks_of_next c4]; rfl
      · cases h1 : pStatements f (s.drop.setAs false) with
        | none => rw [h1] at h; cases h
        | some q =>
          rw [h1] at h
          obtain ⟨ts, s1⟩ := q
          have hl := ((le_drop s).trans (le_as _ false)).trans (le.ss _ _ h1)
          cases h
          dsimp only at hok hl
          split_ifs at hok with c5
          · rw [if_pos c5]
            obtain ⟨g1, g2, g3, g4⟩ := ih.ss _ _ _ h1
              (ok_split ((le_drop s).trans (le_as _ false)) (le.ss _ _ h1) (ok_split hl (le_drop s1) hok).1).2
            refine ⟨_, rfl, ⟨?_, g2, g3, by simp [openEnd]⟩, fun _ => rfl, fun _ => by simpa using c2⟩
            rw [setAs_toks] at g1
            rw [toks_of_next c3, g1, toks_of_next c5]
            simp [write]
          · exact absurd hok (not_ok_err hl)
      · obtain ⟨⟨nd, app, s1⟩, h1, h2⟩ := map_some h
        cases h2
        obtain ⟨t, ht, hc⟩ := ih.st _ _ _ _ h1 (ok_split (le_as s false) (le.st _ _ h1) hok).2
        exact ⟨t, by rw [single_eq hc], ht, fun hx => absurd hx c3, fun _ => by simpa using c2⟩
      · obtain ⟨t, h1, h2, h3⟩ := ih.ab _ _ _ h hok
        exact ⟨t, h1, h2, h3, fun hx => absurd hx c1⟩
    · intro s node s' h hok
      unfold pIf at h
      have hp := le_pParen false s
      have hq : Ok s (pParen false s).2 → _ := pParen_ok (o := false) (s := s)
      split at h
      · rename_i c s1 he
        rw [he] at hp hq
        cases h1 : pBody f (some c) s1 with
        | none => rw [h1] at h; cases h
        | some q =>
          rw [h1] at h
          have hb := le.bd _ _ _ h1
          obtain ⟨nd, s2⟩ := q
          dsimp only at hb hp hq
          have key : ∀ s3, Le s2 s3 → Ok s s3 → ∃ t, nd = some t ∧ Reads s1 t s2 ∧ condAs c = true ∧
              s.toks = .op :: .simp (.ex c) :: .cp :: s1.toks := by
            intro s3 hl hk
            obtain ⟨ok1, ok2⟩ := ok_split hp (hb.trans hl) hk
            obtain ⟨t, g1, g2, -, g4⟩ := ih.bd _ _ _ _ h1 (ok_split hb hl ok2).1
            obtain ⟨c', q1, q2, -, q4⟩ := hq ok1
            cases q1
            refine ⟨t, g1, g2, condAs_of (a := s.asF) ?_, q2⟩
            intro hx
            apply g4
            rw [q4]
            exact hx
          cases nd with
          | none =>
            cases h
            exact absurd hok (not_ok_err (hp.trans hb))
          | some t' =>
            dsimp only at h
            split_ifs at h with c1
            · cases h2 : pAsBlock f s2.drop with
              | none => rw [h2] at h; cases h
              | some q =>
                rw [h2] at h
                obtain ⟨nd, s3⟩ := q
                have hl3 := (le_drop s2).trans (le.ab _ _ h2)
                have hs3 : s' = s3 := by cases nd <;> cases h <;> rfl
                subst hs3
                obtain ⟨t, g1, g2, g3, g4⟩ := key _ hl3 hok
                obtain ⟨e, k1, k2, -⟩ := ih.ab _ _ _ h2
                  (ok_split (((hp.trans hb).trans (le_drop s2))) (le.ab _ _ h2) hok).2
                cases g1
                subst k1
                cases h
                have hno : openEnd t' = false := by
                  cases ho : openEnd t' with
                  | false => rfl
                  | true => exact absurd c1 (g2.2.2.2 ho)
                refine ⟨_, _, rfl, by rw [write], ?_, by simp [good, g2.2.1, hno, k2.2.1],
                  by simp [condsOk, g3, g2.2.2.1, k2.2.2.1], fun ho => k2.2.2.2 ho⟩
                rw [g4, g2.1, toks_of_next c1, k2.1]
                simp
            · cases h
              obtain ⟨t, g1, g2, g3, g4⟩ := key _ (Le.refl _) hok
              cases g1
              refine ⟨_, _, rfl, by rw [write], ?_, by simp [good, g2.2.1], by simp [condsOk, g3, g2.2.2.1],
                fun _ => c1⟩
              rw [g4, g2.1]
              simp
      · rename_i hx he
        cases h
        rw [he] at hp hq
        obtain ⟨c, q1, -, q3, -⟩ := hq hok
        cases c with
        | none => exact absurd rfl (q3 rfl)
        | some c => exact (hx c (by simpa using q1)).elim
    · intro s node s' h hok
      unfold pWhile at h
      have hp := le_pParen false s
      have hq : Ok s (pParen false s).2 → _ := pParen_ok (o := false) (s := s)
      split at h
      · rename_i c s1 he
        rw [he] at hp hq
        cases h1 : pBody f (some c) s1 with
        | none => rw [h1] at h; cases h
        | some q =>
          rw [h1] at h
          have hb := le.bd _ _ _ h1
          obtain ⟨nd, s2⟩ := q
          dsimp only at hb hp hq
          cases nd with
          | none =>
            cases h
            exact absurd hok (not_ok_err (hp.trans hb))
          | some t' =>
            cases h
            obtain ⟨ok1, ok2⟩ := ok_split hp hb hok
            obtain ⟨t, g1, g2, -, g4⟩ := ih.bd _ _ _ _ h1 ok2
            obtain ⟨c', q1, q2, -, q4⟩ := hq ok1
            cases q1
            cases g1
            have hc : condAs c = true := condAs_of (a := s.asF) (fun hx => g4 (by rw [q4]; exact hx))
            refine ⟨_, _, rfl, by rw [write], ?_, by simp [good, g2.2.1], by simp [condsOk, hc, g2.2.2.1],
              g2.2.2.2⟩
            rw [q2, g2.1]
            simp [wOpt]
      · rename_i hx he
        cases h
        rw [he] at hp hq
        obtain ⟨c, q1, -, q3, -⟩ := hq hok
        cases c with
        | none => exact absurd rfl (q3 rfl)
        | some c => exact (hx c (by simpa using q1)).elim
    · intro s node s' h hok
      unfold pFor at h
      have hp := le_pForHead s
      have hq : Ok s (pForHead s).2 → _ := pForHead_ok (s := s)
      split at h
      · rename_i i c st s1 he
        rw [he] at hp hq
        cases h1 : pBody f c s1 with
        | none => rw [h1] at h; cases h
        | some q =>
          rw [h1] at h
          have hb := le.bd _ _ _ h1
          obtain ⟨nd, s2⟩ := q
          dsimp only at hb hp hq
          cases nd with
          | none =>
            cases h
            exact absurd hok (not_ok_err (hp.trans hb))
          | some t' =>
            cases h
            obtain ⟨ok1, ok2⟩ := ok_split hp hb hok
            obtain ⟨t, g1, g2, -, g4⟩ := ih.bd _ _ _ _ h1 ok2
            obtain ⟨i', c', st', q1, qi, q2, q4⟩ := hq ok1
            cases q1
            cases g1
            have hc : c.all condAs = true := by
              cases c with
              | none => rfl
              | some c =>
                simp only [Option.all_some]
                exact condAs_of (a := false) (fun hx => g4 (q4 (by simpa using hx)))
            refine ⟨_, _, rfl, by rw [write], ?_, by simp [good, qi, g2.2.1], by simp [condsOk, hc, g2.2.2.1],
              g2.2.2.2⟩
            rw [q2, g2.1]
            simp
      · rename_i he
        cases h
        rw [he] at hp hq
        obtain ⟨_, _, _, q1, -⟩ := hq hok
        cases q1
    · intro s node s' h hok
      unfold pWhich at h
      have hp := le_pParen true s
      have hq : Ok s (pParen true s).2 → _ := pParen_ok (o := true) (s := s)
      split at h
      · rename_i e s1 he
        rw [he] at hp hq
        dsimp only at hp hq
        split_ifs at h with c1
        · cases h; exact absurd hok (not_ok_err hp)
        · cases h1 : pGroups f e.isSome false s1.drop with
          | none => rw [h1] at h; cases h
          | some q =>
            rw [h1] at h
            obtain ⟨gs, s2⟩ := q
            have hb := le.gr _ _ _ _ h1
            have hb' := (hp.trans (le_drop s1)).trans hb
            dsimp only at h hb hb'
            split_ifs at h with c2
            · cases h
              obtain ⟨ok1, -⟩ := ok_split hb' (le_drop s2) hok
              obtain ⟨ok2, ok3⟩ := ok_split (hp.trans (le_drop s1)) hb ok1
              obtain ⟨c', q1, q2, -, -⟩ := hq (ok_split hp (le_drop s1) ok2).1
              cases q1
              obtain ⟨g1, g2, g3, -⟩ := ih.gr _ _ _ _ _ h1 ok3
              refine ⟨_, _, rfl, by rw [write], ?_, by simp [good, g2], by simp [condsOk, g3], by simp [openEnd]⟩
              rw [q2, toks_of_next (not_not.mp c1), g1, toks_of_next c2]
              simp
            · cases h; exact absurd hok (not_ok_err hb')
      · rename_i he
        cases h
        rw [he] at hp hq
        obtain ⟨_, q1, -⟩ := hq hok
        cases q1
    · intro v d s gs s' h hok
      unfold pGroups at h
      cases h1 : pLabels f v d [] s with
      | none => rw [h1] at h; cases h
      | some q =>
        rw [h1] at h
        have hp := le_pLabels _ _ _ _ _ _ h1
        obtain ⟨ls, d', s1⟩ := q
        have hq := pLabels_ok _ _ _ _ _ _ _ _ h1
        dsimp only at hp
        cases ls with
        | nil =>
          cases h
          split_ifs at hok with c1
          · rw [if_pos c1]
            obtain ⟨new, g1, g2, -⟩ := hq hok
            rw [List.nil_append] at g1
            subst g1
            exact ⟨by rw [g2]; rfl, rfl, rfl, fun _ => rfl⟩
          · exact absurd hok (not_ok_err hp)
        | cons l ls =>
          dsimp only at h
          split_ifs at h with c1
          · cases h; exact absurd hok (not_ok_err hp)
          · cases h2 : pBody f (labelCond (l :: ls)) s1 with
            | none => rw [h2] at h; cases h
            | some q =>
              rw [h2] at h
              have hb := le.bd _ _ _ h2
              obtain ⟨nd, s2⟩ := q
              dsimp only at hb
              cases nd with
              | none => cases h; exact absurd hok (not_ok_err (hp.trans hb))
              | some b' =>
                obtain ⟨⟨us, s3⟩, h3, h4⟩ := map_some h
                cases h4
                have hg := le.gr _ _ _ _ h3
                obtain ⟨ok1, ok2⟩ := ok_split (hp.trans hb) hg hok
                obtain ⟨ok3, ok4⟩ := ok_split hp hb ok1
                obtain ⟨g1, g2, g3, g4⟩ := ih.gr _ _ _ _ _ h3 ok2
                obtain ⟨b, k1, k2, k3, k4⟩ := ih.bd _ _ _ _ h2 ok4
                cases k1
                obtain ⟨new, n1, n2, n3, n4, n5⟩ := hq ok3
                rw [List.nil_append] at n1
                subst n1
                have hd : d = false := by
                  cases d with
                  | false => rfl
                  | true => exact absurd (n3 rfl).1 (by simp)
                have hlab : labelsOk us.isNil (l :: ls) = true := by
                  cases d' with
                  | false => exact labelsOk_mono _ _ (n4 hd)
                  | true =>
                    have := g4 rfl
                    subst this
                    exact n4 hd
                have has : labelsAs v (l :: ls) = true := by
                  rcases n5 rfl (Or.inr (Or.inl rfl)) with hh | ⟨hv, e, he, ha⟩
                  · simp only [labelsAs, hh, Bool.true_or]
                  · have := k4 ha
                    cases he
                    simp only [labelCond, isAs, beq_iff_eq] at this
                    simp [labelsAs, hv, condAs, this]
                refine ⟨?_, ?_, ?_, ?_⟩
                · rw [n2, k2.1, g1]; simp [writeG]
                · simp [goodG, hlab, k3 (not_not.mp c1), k2.2.1, g2]
                · simp [condsOkG, has, k2.2.2.1, g3]
                · intro hdd; rw [hd] at hdd; cases hdd

end Ulam.StmtParse
