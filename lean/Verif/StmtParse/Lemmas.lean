import Verif.StmtParse.Spec
import Mathlib.Data.List.Infix
import Mathlib.Tactic.SplitIfs
/- What the parser consumes, and that it comes to an end. -/
namespace Ulam.StmtParse

/-- Later states: no fewer errors, and the tokens left are a last part of the tokens before. -/
def Le (s s' : St) : Prop := s.errs ≤ s'.errs ∧ s'.toks <:+ s.toks

theorem Le.refl (s : St) : Le s s := ⟨Nat.le_refl _, List.suffix_refl _⟩
theorem Le.trans {a b c : St} (h : Le a b) (g : Le b c) : Le a c := ⟨Nat.le_trans h.1 g.1, g.2.trans h.2⟩
theorem Le.len {a b : St} (h : Le a b) : b.toks.length ≤ a.toks.length := h.2.length_le

theorem le_err (s : St) : Le s s.err := ⟨Nat.le_succ _, List.suffix_refl _⟩
theorem le_drop (s : St) : Le s s.drop := ⟨Nat.le_refl _, List.tail_suffix _⟩
theorem le_as (s : St) (b : Bool) : Le s (s.setAs b) := ⟨Nat.le_refl _, List.suffix_refl _⟩

theorem skipTo_suffix (t : Tok) : ∀ l, skipTo t l <:+ l
  | [] => List.suffix_refl _
  | u :: us => by
    unfold skipTo
    split_ifs
    · exact List.suffix_cons _ _
    · exact (skipTo_suffix t us).trans (List.suffix_cons _ _)

theorem le_skip (t : Tok) (s : St) : Le s { s with toks := skipTo t s.toks } := ⟨Nat.le_refl _, skipTo_suffix _ _⟩

theorem le_pExpr (s : St) : Le s (pExpr s).2 := by
  unfold pExpr
  split
  · rename_i e r h
    exact ⟨Nat.le_refl _, by rw [h]; exact List.suffix_cons _ _⟩
  · exact Le.refl _

theorem le_finish (s : St) : Le s (finish s) := by
  unfold finish
  split_ifs
  · exact le_drop _
  · exact (le_skip _ _).trans (le_err _)

theorem le_pSimple (s : St) : Le s (pSimple s).2 := by
  unfold pSimple
  split
  · exact le_finish _
  · exact ((le_drop s).trans (le_as _ _)).trans (le_finish _)
  · exact ((le_drop s).trans (le_as _ _)).trans (le_finish _)
  · exact ((le_drop s).trans (le_pExpr _)).trans (le_finish _)
  · exact (le_drop s).trans (le_finish _)
  · exact (le_drop s).trans (le_finish _)
  · exact (le_pExpr s).trans (le_finish _)

theorem le_pInit (s : St) : Le s (pInit s).2 := by
  unfold pInit
  split
  · exact (le_drop s).trans (le_as _ _)
  · split_ifs
    · exact (le_drop s).trans (le_as _ _)
    · exact Le.refl _
  · exact Le.refl _

theorem le_pOptTo (t : Tok) (s : St) : Le s (pOptTo t s).2 := by
  unfold pOptTo
  split_ifs
  · exact le_drop _
  · have h := le_pExpr s
    generalize pExpr s = r at h
    obtain ⟨_ | e, s1⟩ := r
    · exact h.trans (le_err _)
    · dsimp only at h ⊢
      split_ifs
      · exact h.trans (le_drop _)
      · exact h.trans (le_err _)

theorem le_pParen (o : Bool) (s : St) : Le s (pParen o s).2 := by
  unfold pParen
  split_ifs
  · exact le_err _
  · have h := (le_drop s).trans (le_pExpr s.drop)
    generalize pExpr s.drop = r at h
    obtain ⟨_ | e, s1⟩ := r <;> dsimp only at h ⊢ <;> split_ifs
    all_goals first | exact h.trans (le_drop _) | exact h.trans (le_err _)

theorem le_pForHead (s : St) : Le s (pForHead s).2 := by
  unfold pForHead
  split_ifs
  · exact le_err _
  · dsimp only
    have h := (le_drop s).trans (le_pInit s.drop)
    generalize pInit s.drop = r at h
    obtain ⟨i, s1⟩ := r
    dsimp only at h ⊢
    split_ifs
    · exact h.trans (le_err _)
    · have h2 := (h.trans (le_drop _)).trans (le_pOptTo .semi s1.drop)
      generalize pOptTo .semi s1.drop = r at h2
      obtain ⟨_ | c, s2⟩ := r
      · exact h2
      · dsimp only at h2 ⊢
        have h3 := h2.trans (le_pOptTo .cp s2)
        generalize pOptTo .cp s2 = r at h3
        obtain ⟨_ | c, s3⟩ := r <;> exact h3

theorem le_pLabels : ∀ f valued seen acc s r, pLabels f valued seen acc s = some r → Le s r.2.2
  | 0, _, _, _, _, _, h => by cases h
  | f + 1, valued, seen, acc, s, r, h => by
    unfold pLabels at h
    split at h
    · split at h
      · cases h; exact (le_drop _).trans (le_err _)
      · have h1 := (le_drop s).trans (le_pExpr s.drop)
        generalize pExpr s.drop = q at h h1
        obtain ⟨_ | e, s1⟩ := q
        · cases h; exact h1.trans (le_err _)
        · dsimp only at h h1
          split_ifs at h
          · cases h; exact h1.trans (le_err _)
          · cases h; exact (h1.trans (le_drop _)).trans (le_err _)
          · cases h; exact (h1.trans (le_drop _)).trans (le_err _)
          · cases h; exact h1.trans (le_drop _)
          · exact (h1.trans (le_drop _)).trans (le_pLabels f _ _ _ _ _ h)
    · split_ifs at h
      · cases h; exact (le_drop _).trans (le_err _)
      · cases h; exact (le_drop _).trans (le_err _)
      · exact ((le_drop s).trans (le_drop _)).trans (le_pLabels f _ _ _ _ _ h)
      · cases h; exact Le.refl _

/-- All functions of the parser at once. -/
structure AllLe (f : Nat) : Prop where
  st : ∀ s r, pStatement f s = some r → Le s r.2.2
  bl : ∀ s r, pBlock f s = some r → Le s r.2
  ss : ∀ s r, pStatements f s = some r → Le s r.2
  ab : ∀ s r, pAsBlock f s = some r → Le s r.2
  bd : ∀ c s r, pBody f c s = some r → Le s r.2
  iff : ∀ s r, pIf f s = some r → Le s r.2
  wh : ∀ s r, pWhile f s = some r → Le s r.2
  fo : ∀ s r, pFor f s = some r → Le s r.2
  sw : ∀ s r, pWhich f s = some r → Le s r.2
  gr : ∀ v d s r, pGroups f v d s = some r → Le s r.2

theorem map_some {α β} {o : Option α} {g : α → β} {b : β} (h : o.map g = some b) : ∃ a, o = some a ∧ g a = b := by
  cases o with
  | none => cases h
  | some a => exact ⟨a, rfl, by simpa using h⟩

theorem allLe : ∀ f, AllLe f
  | 0 => by
    constructor <;> intros <;> rename_i h <;> cases h
  | f + 1 => by
    have ih := allLe f
    constructor
    · intro s r h
      unfold pStatement at h
      split at h
      · obtain ⟨a, h1, h2⟩ := map_some h; subst h2; exact ih.bl _ _ h1
      · obtain ⟨a, h1, h2⟩ := map_some h; subst h2; exact (le_drop s).trans (ih.iff _ _ h1)
      · obtain ⟨a, h1, h2⟩ := map_some h; subst h2; exact (le_drop s).trans (ih.wh _ _ h1)
      · obtain ⟨a, h1, h2⟩ := map_some h; subst h2; exact (le_drop s).trans (ih.fo _ _ h1)
      · obtain ⟨a, h1, h2⟩ := map_some h; subst h2; exact (le_drop s).trans (ih.sw _ _ h1)
      · cases h; exact (le_drop s).trans (le_err _)
      · cases h; exact le_pSimple s
    · intro s r h
      unfold pBlock at h
      split_ifs at h
      · cases h; exact le_err _
      · cases h; exact (le_drop _).trans (le_drop _)
      · cases h1 : pStatements f s.drop with
        | none => rw [h1] at h; cases h
        | some q =>
          rw [h1] at h
          obtain ⟨ts, s1⟩ := q
          have := (le_drop s).trans (ih.ss _ _ h1)
          dsimp only at h this
          split_ifs at h
          · cases h; exact this.trans (le_drop _)
          · cases h; exact this.trans (le_skip _ _)
    · intro s r h
      unfold pStatements at h
      cases h1 : pStatement f s with
      | none => rw [h1] at h; cases h
      | some q =>
        rw [h1] at h
        have hl := ih.st _ _ h1
        obtain ⟨_ | t, app, s1⟩ := q <;> dsimp only at h hl <;> split_ifs at h
        · obtain ⟨a, h2, h3⟩ := map_some h; subst h3; exact hl.trans (ih.ss _ a h2)
        · cases h; exact hl
        · obtain ⟨a, h2, h3⟩ := map_some h; subst h3; exact hl.trans (ih.ss _ a h2)
        · cases h; exact hl
    · intro s r h
      unfold pAsBlock at h
      split_ifs at h
      · exact ih.bl _ _ h
      · obtain ⟨a, h2, h3⟩ := map_some h; subst h3; exact ih.st _ _ h2
    · intro c s r h
      unfold pBody at h
      split_ifs at h
      · cases h; exact (le_as s false).trans (le_err _)
      · cases h; exact ((le_drop s).trans (le_drop _)).trans (le_as _ _)
      · cases h1 : pStatements f (s.drop.setAs false) with
        | none => rw [h1] at h; cases h
        | some q =>
          rw [h1] at h
          obtain ⟨ts, s1⟩ := q
          have := ((le_drop s).trans (le_as _ false)).trans (ih.ss _ _ h1)
          cases h
          dsimp only at this ⊢
          split_ifs
          · exact this.trans (le_drop _)
          · exact this.trans (le_err _)
      · obtain ⟨a, h2, h3⟩ := map_some h; subst h3; exact (le_as s false).trans (ih.st _ _ h2)
      · exact ih.ab _ _ h
    · intro s r h
      unfold pIf at h
      have hp := le_pParen false s
      split at h
      · rename_i c s1 he
        rw [he] at hp
        cases h1 : pBody f (some c) s1 with
        | none => rw [h1] at h; cases h
        | some q =>
          rw [h1] at h
          have hb := hp.trans (ih.bd _ _ _ h1)
          obtain ⟨_ | t, s2⟩ := q <;> dsimp only at h hb
          · cases h; exact hb.trans (le_err _)
          · split_ifs at h
            · cases h2 : pAsBlock f s2.drop with
              | none => rw [h2] at h; cases h
              | some q =>
                rw [h2] at h
                have hc := (hb.trans (le_drop _)).trans (ih.ab _ _ h2)
                obtain ⟨_ | e, s3⟩ := q <;> cases h <;> exact hc
            · cases h; exact hb
      · rename_i he
        cases h; rw [he] at hp; exact hp
    · intro s r h
      unfold pWhile at h
      have hp := le_pParen false s
      split at h
      · rename_i c s1 he
        rw [he] at hp
        cases h1 : pBody f (some c) s1 with
        | none => rw [h1] at h; cases h
        | some q =>
          rw [h1] at h
          have hb := hp.trans (ih.bd _ _ _ h1)
          obtain ⟨_ | t, s2⟩ := q <;> dsimp only at h hb
          · cases h; exact hb.trans (le_err _)
          · cases h; exact hb
      · rename_i he
        cases h; rw [he] at hp; exact hp
    · intro s r h
      unfold pFor at h
      have hp := le_pForHead s
      split at h
      · rename_i i c st s1 he
        rw [he] at hp
        cases h1 : pBody f c s1 with
        | none => rw [h1] at h; cases h
        | some q =>
          rw [h1] at h
          have hb := hp.trans (ih.bd _ _ _ h1)
          obtain ⟨_ | t, s2⟩ := q <;> dsimp only at h hb
          · cases h; exact hb.trans (le_err _)
          · cases h; exact hb
      · rename_i he
        cases h; rw [he] at hp; exact hp
    · intro s r h
      unfold pWhich at h
      have hp := le_pParen true s
      split at h
      · rename_i e s1 he
        rw [he] at hp
        split_ifs at h
        · cases h; exact hp.trans (le_err _)
        · cases h1 : pGroups f e.isSome false s1.drop with
          | none => rw [h1] at h; cases h
          | some q =>
            rw [h1] at h
            obtain ⟨gs, s2⟩ := q
            have hb := (hp.trans (le_drop _)).trans (ih.gr _ _ _ _ h1)
            dsimp only at h hb
            split_ifs at h
            · cases h; exact hb.trans (le_drop _)
            · cases h; exact hb.trans (le_err _)
      · rename_i he
        cases h; rw [he] at hp; exact hp
    · intro v d s r h
      unfold pGroups at h
      cases h1 : pLabels f v d [] s with
      | none => rw [h1] at h; cases h
      | some q =>
        rw [h1] at h
        have hp := le_pLabels _ _ _ _ _ _ h1
        obtain ⟨_ | ⟨l, ls⟩, d', s1⟩ := q <;> dsimp only at h hp
        · cases h
          dsimp only
          split_ifs
          · exact hp
          · exact hp.trans (le_err _)
        · split_ifs at h
          · cases h; exact hp.trans (le_err _)
          · cases h2 : pBody f (labelCond (l :: ls)) s1 with
            | none => rw [h2] at h; cases h
            | some q =>
              rw [h2] at h
              have hb := hp.trans (ih.bd _ _ _ h2)
              obtain ⟨_ | t, s2⟩ := q <;> dsimp only at h hb
              · cases h; exact hb.trans (le_err _)
              · obtain ⟨a, h3, h4⟩ := map_some h; subst h4; exact hb.trans (ih.gr _ _ _ a h3)

end Ulam.StmtParse
