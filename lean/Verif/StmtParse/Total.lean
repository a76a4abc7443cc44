import Verif.StmtParse.Lemmas
import Mathlib.Tactic.Linarith
/- The parser comes to an end on every text. -/
namespace Ulam.StmtParse

@[simp] theorem setAs_toks (s : St) (b : Bool) : (s.setAs b).toks = s.toks := rfl

theorem next_ne_none {s : St} {t : Tok} (h : s.next = some t) : s.toks ≠ [] := by
  intro e; simp [St.next, e] at h

theorem drop_lt {s : St} (h : s.toks ≠ []) : s.drop.toks.length < s.toks.length := by
  cases hs : s.toks with
  | nil => exact absurd hs h
  | cons a l => simp [St.drop, hs]

theorem skipTo_lt (t : Tok) : ∀ l, l ≠ [] → (skipTo t l).length < l.length
  | [], h => absurd rfl h
  | u :: us, _ => by
    unfold skipTo
    have := (skipTo_suffix t us).length_le
    split_ifs <;> simp only [List.length_cons] <;> omega

theorem finish_lt {s : St} (h : s.toks ≠ []) : (finish s).toks.length < s.toks.length := by
  unfold finish
  split_ifs
  · exact drop_lt h
  · exact skipTo_lt _ _ h

theorem pSimple_lt {s : St} (h : s.toks ≠ []) : (pSimple s).2.toks.length < s.toks.length := by
  have hd := drop_lt h
  unfold pSimple
  split
  · exact finish_lt h
  · have := (le_finish (s.drop.setAs (s.asF || ‹Bool›))).len; simp only [setAs_toks] at this ⊢; omega
  · have := (le_finish (s.drop.setAs (s.asF || ‹Bool›))).len; simp only [setAs_toks] at this ⊢; omega
  · have := ((le_pExpr s.drop).trans (le_finish _)).len; simp only at this ⊢; omega
  · have := (le_finish s.drop).len; simp only at this ⊢; omega
  · have := (le_finish s.drop).len; simp only at this ⊢; omega
  · have h1 := le_pExpr s
    by_cases hn : (pExpr s).2.toks = []
    · have := (le_finish (pExpr s).2).len
      rw [hn] at this
      have h2 : 0 < s.toks.length := List.length_pos_iff.mpr h
      simp only [List.length_nil] at this ⊢
      omega
    · have := finish_lt hn
      have := h1.len
      simp only
      omega

theorem pBlock_lt {f : Nat} {s : St} {r} (h : pBlock f s = some r) (hn : s.next = some .oc) :
    r.2.toks.length < s.toks.length := by
  cases f with
  | zero => cases h
  | succ f =>
    have hd := drop_lt (next_ne_none hn)
    unfold pBlock at h
    rw [if_neg (by simp [hn])] at h
    split_ifs at h
    · cases h; have := (le_drop s.drop).len; simp only; omega
    · cases h1 : pStatements f s.drop with
      | none => rw [h1] at h; cases h
      | some q =>
        rw [h1] at h
        obtain ⟨ts, s1⟩ := q
        have := ((allLe f).ss _ _ h1).len
        dsimp only at h this
        split_ifs at h <;> cases h
        · have := (le_drop s1).len; simp only; omega
        · have := (le_skip .cc s1).len; simp only at this ⊢; omega

theorem pStatement_lt {f : Nat} {s : St} {r} (h : pStatement f s = some r) (hn : s.toks ≠ []) :
    r.2.2.toks.length < s.toks.length := by
  cases f with
  | zero => cases h
  | succ f =>
    have hd := drop_lt hn
    have ih := allLe f
    unfold pStatement at h
    split at h
    · rename_i hx
      obtain ⟨a, h1, h2⟩ := map_some h; subst h2
      exact pBlock_lt h1 hx
    · obtain ⟨a, h1, h2⟩ := map_some h; subst h2
      have := (ih.iff _ _ h1).len; simp only at this ⊢; omega
    · obtain ⟨a, h1, h2⟩ := map_some h; subst h2
      have := (ih.wh _ _ h1).len; simp only at this ⊢; omega
    · obtain ⟨a, h1, h2⟩ := map_some h; subst h2
      have := (ih.fo _ _ h1).len; simp only at this ⊢; omega
    · obtain ⟨a, h1, h2⟩ := map_some h; subst h2
      have := (ih.sw _ _ h1).len; simp only at this ⊢; omega
    · cases h; exact hd
    · cases h; exact pSimple_lt hn

theorem pStatement_nil {f : Nat} {s : St} {r} (h : pStatement f s = some r) (hn : s.toks = []) : r.1 = none := by
  cases f with
  | zero => cases h
  | succ f =>
    unfold pStatement at h
    have : s.next = none := by simp [St.next, hn]
    rw [this] at h
    cases h; rfl

theorem pBody_lt {f : Nat} {s : St} {c b s1} (h : pBody f c s = some (some b, s1)) (hn : s.next = some .oc) :
    s1.toks.length < s.toks.length := by
  cases f with
  | zero => cases h
  | succ f =>
    have hd := drop_lt (next_ne_none hn)
    unfold pBody at h
    split at h
    · split_ifs at h
      · cases h
      · cases h
        have := (le_drop s.drop).len; simp only [setAs_toks]; omega
      · cases h1 : pStatements f (s.drop.setAs false) with
        | none => rw [h1] at h; cases h
        | some q =>
          rw [h1] at h
          obtain ⟨ts, s2⟩ := q
          have := ((allLe f).ss _ _ h1).len
          cases h
          simp only [setAs_toks] at this
          have h3 := (le_drop s2).len
          split_ifs
          · omega
          · simp only [St.err]; omega
    · cases f with
      | zero => cases h
      | succ f =>
        unfold pAsBlock at h
        rw [if_pos hn] at h
        exact pBlock_lt h hn

theorem pLabels_total : ∀ f valued seen acc (s : St), s.toks.length + 1 ≤ f → pLabels f valued seen acc s ≠ none
  | 0, _, _, _, _, h => by omega
  | f + 1, valued, seen, acc, s, h => by
    unfold pLabels
    split
    · rename_i hn
      have hd := drop_lt (next_ne_none hn)
      split
      · simp
      · have h1 := (le_pExpr s.drop).len
        generalize pExpr s.drop = q at h1
        obtain ⟨_ | e, s1⟩ := q
        · simp
        · dsimp only at h1 ⊢
          have := (le_drop s1).len
          split_ifs <;> first | simp; done | exact pLabels_total f _ _ _ _ (by omega)
    · split_ifs with h1
      · simp
      · simp
      · have hd := drop_lt (next_ne_none h1)
        have := (le_drop s.drop).len
        exact pLabels_total f _ _ _ _ (by omega)
      · simp

/-- All functions at once. -/
structure AllTotal (f : Nat) : Prop where
  st : ∀ s : St, 4 * s.toks.length + 2 ≤ f → pStatement f s ≠ none
  bl : ∀ s : St, 4 * s.toks.length + 1 ≤ f → pBlock f s ≠ none
  ss : ∀ s : St, 4 * s.toks.length + 3 ≤ f → pStatements f s ≠ none
  ab : ∀ s : St, 4 * s.toks.length + 3 ≤ f → pAsBlock f s ≠ none
  bd : ∀ c (s : St), 4 * s.toks.length + 4 ≤ f → pBody f c s ≠ none
  iff : ∀ s : St, 4 * s.toks.length + 5 ≤ f → pIf f s ≠ none
  wh : ∀ s : St, 4 * s.toks.length + 5 ≤ f → pWhile f s ≠ none
  fo : ∀ s : St, 4 * s.toks.length + 5 ≤ f → pFor f s ≠ none
  sw : ∀ s : St, 4 * s.toks.length + 5 ≤ f → pWhich f s ≠ none
  gr : ∀ v d (s : St), 4 * s.toks.length + 5 ≤ f → pGroups f v d s ≠ none

theorem map_ne_none {α β} {o : Option α} {g : α → β} (h : o ≠ none) : o.map g ≠ none := by
  cases o with
  | none => exact absurd rfl h
  | some a => simp

theorem allTotal : ∀ f, AllTotal f
  | 0 => by constructor <;> intros <;> omega
  | f + 1 => by
    have ih := allTotal f
    have le := allLe f
    constructor
    · intro s h
      unfold pStatement
      split <;> rename_i hn
      · exact map_ne_none (ih.bl _ (by omega))
      · have hd := drop_lt (next_ne_none hn); exact map_ne_none (ih.iff _ (by omega))
      · have hd := drop_lt (next_ne_none hn); exact map_ne_none (ih.wh _ (by omega))
      · have hd := drop_lt (next_ne_none hn); exact map_ne_none (ih.fo _ (by omega))
      · have hd := drop_lt (next_ne_none hn); exact map_ne_none (ih.sw _ (by omega))
      · simp
      · simp
    · intro s h
      unfold pBlock
      split_ifs with h1 h2
      · simp
      · simp
      · have hd := drop_lt (next_ne_none (not_not.mp h1))
        cases h3 : pStatements f s.drop with
        | none => exact absurd h3 (ih.ss _ (by omega))
        | some q => dsimp only; split_ifs <;> simp
    · intro s h
      unfold pStatements
      cases h1 : pStatement f s with
      | none => exact absurd h1 (ih.st _ (by omega))
      | some q =>
        have hl := (le.st _ _ h1).len
        obtain ⟨_ | t, app, s1⟩ := q <;> dsimp only at hl ⊢ <;> split_ifs with h2
        · apply map_ne_none
          apply ih.ss
          have : s.toks ≠ [] := by
            intro hs
            rw [hs] at hl
            have : s1.toks = [] := List.length_eq_zero_iff.mp (by simpa using hl)
            exact h2.2 (by simp [St.next, this])
          have := pStatement_lt h1 this
          dsimp only at this
          omega
        · simp
        · apply map_ne_none
          apply ih.ss
          have : s.toks ≠ [] := fun hs => by have := pStatement_nil h1 hs; cases this
          have := pStatement_lt h1 this
          dsimp only at this
          omega
        · simp
    · intro s h
      unfold pAsBlock
      split_ifs
      · exact ih.bl _ (by omega)
      · exact map_ne_none (ih.st _ (by omega))
    · intro c s h
      unfold pBody
      split_ifs with h1 h2 h3 h4
      · simp
      · simp
      · have hd := drop_lt (next_ne_none h3)
        cases h3 : pStatements f (s.drop.setAs false) with
        | none => exact absurd h3 (ih.ss _ (by simp only [setAs_toks]; omega))
        | some q => simp
      · exact map_ne_none (ih.st _ (by simp only [setAs_toks]; omega))
      · exact ih.ab _ (by omega)
    · intro s h
      unfold pIf
      have hp := (le_pParen false s).len
      split
      · rename_i c s1 he
        rw [he] at hp
        dsimp only at hp
        cases h1 : pBody f (some c) s1 with
        | none => exact absurd h1 (ih.bd _ _ (by omega))
        | some q =>
          have hb := (le.bd _ _ _ h1).len
          obtain ⟨_ | t, s2⟩ := q <;> dsimp only at hb ⊢
          · simp
          · split_ifs
            · have hd := (le_drop s2).len
              cases h2 : pAsBlock f s2.drop with
              | none => exact absurd h2 (ih.ab _ (by omega))
              | some q => obtain ⟨_ | e, s3⟩ := q <;> simp
            · simp
      · simp
    · intro s h
      unfold pWhile
      have hp := (le_pParen false s).len
      split
      · rename_i c s1 he
        rw [he] at hp
        dsimp only at hp
        cases h1 : pBody f (some c) s1 with
        | none => exact absurd h1 (ih.bd _ _ (by omega))
        | some q => obtain ⟨_ | t, s2⟩ := q <;> simp
      · simp
    · intro s h
      unfold pFor
      have hp := (le_pForHead s).len
      split
      · rename_i i c st s1 he
        rw [he] at hp
        dsimp only at hp
        cases h1 : pBody f c s1 with
        | none => exact absurd h1 (ih.bd _ _ (by omega))
        | some q => obtain ⟨_ | t, s2⟩ := q <;> simp
      · simp
    · intro s h
      unfold pWhich
      have hp := (le_pParen true s).len
      split
      · rename_i e s1 he
        rw [he] at hp
        dsimp only at hp
        split_ifs with hoc
        · simp
        · have hd := drop_lt (next_ne_none (not_not.mp hoc))
          cases h1 : pGroups f e.isSome false s1.drop with
          | none => exact absurd h1 (ih.gr _ _ _ (by omega))
          | some q => dsimp only; split_ifs <;> simp
      · simp
    · intro v d s h
      unfold pGroups
      cases h1 : pLabels f v d [] s with
      | none => exact absurd h1 (pLabels_total _ _ _ _ _ (by omega))
      | some q =>
        have hp := (le_pLabels _ _ _ _ _ _ h1).len
        obtain ⟨_ | ⟨l, ls⟩, d', s1⟩ := q <;> dsimp only at hp ⊢
        · simp
        · split_ifs with hoc
          · simp
          · cases h2 : pBody f (labelCond (l :: ls)) s1 with
            | none => exact absurd h2 (ih.bd _ _ (by omega))
            | some q =>
              obtain ⟨_ | t, s2⟩ := q <;> dsimp only
              · simp
              · have := pBody_lt h2 (not_not.mp hoc)
                exact map_ne_none (ih.gr _ _ _ (by omega))

end Ulam.StmtParse
