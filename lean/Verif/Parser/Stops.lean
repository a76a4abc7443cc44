import Verif.Parser.Main

/-! # Every run of the expression parser ends -/

namespace Ulam.Parser

/-- The function answers, and what it leaves is an end of `ts`. -/
def Conv (F : Nat → Res) (ts : List Tok) : Prop := ∃ out, Runs F out ∧ out.2 <:+ ts

theorem conv_const {F : Nat → Res} {ts out} (h : ∀ f, F (f + 1) = some out) (hs : out.2 <:+ ts) :
    Conv F ts := ⟨out, runs_const h, hs⟩

theorem conv_step {F G : Nat → Res} {ts ts'} (h : ∀ f, F (f + 1) = G f) (hG : Conv G ts')
    (hs : ts' <:+ ts) : Conv F ts := by
  obtain ⟨out, h1, h2⟩ := hG
  exact ⟨out, runs_step h h1, h2.trans hs⟩

theorem conv_bind {F G : Nat → Res} {H : Tree × List Tok → Nat → Res} {ts ts'}
    (h : ∀ f p, G f = some p → F (f + 1) = H p f) (hG : Conv G ts')
    (hH : ∀ p : Tree × List Tok, p.2 <:+ ts' → Conv (H p) ts) : Conv F ts := by
  obtain ⟨p, h1, h2⟩ := hG
  obtain ⟨out, h3, h4⟩ := hH p h2
  exact ⟨out, runs_bind (fun f hf => h f p hf) h1 h3, h4⟩

theorem Conv.mono {F : Nat → Res} {ts ts'} (h : Conv F ts) (hs : ts <:+ ts') : Conv F ts' := by
  obtain ⟨out, h1, h2⟩ := h
  exact ⟨out, h1, h2.trans hs⟩

theorem conv_some {out : Tree × List Tok} {ts} (hs : out.2 <:+ ts) :
    Conv (fun _ => some out) ts := ⟨out, ⟨0, fun _ _ => rfl⟩, hs⟩

/-- All the functions answer on lists shorter than `N`. -/
structure All (N : Nat) : Prop where
  assign : ∀ ts, ts.length < N → Conv (parseAssignExpr · ts) ts
  restAssign : ∀ e ts, ts.length < N → Conv (parseRestOfAssignExpr · e ts) ts
  expr : ∀ ts, ts.length < N → Conv (parseExpression · ts) ts
  restExpr : ∀ e ts, ts.length < N → Conv (parseRestOfExpression · e ts) ts
  question : ∀ e ts, ts.length < N → Conv (makeQuestionColonNode · e ts) ts
  level : ∀ lv ts, ts.length < N → Conv (parseLevel · lv ts) ts
  operand : ∀ lv ts, ts.length < N → Conv (parseOperand · lv ts) ts
  restLevel : ∀ lv e ts, ts.length < N → Conv (parseRestOfLevel · lv e ts) ts
  factor : ∀ ts, ts.length < N → Conv (parseFactor · ts) ts
  restFactor : ∀ e ts, ts.length < N → Conv (parseRestOfFactor · e ts) ts
  select : ∀ e ts, ts.length < N → Conv (parseRestOfMemberSelectExpr · e ts) ts
  ident : ∀ n ts, ts.length < N → Conv (parseIdentExpr · n ts) ts
  call : ∀ n acc ts, ts.length < N → Conv (parseFunctionCall · n acc ts) ts
  lval : ∀ e ts, ts.length < N → Conv (parseRestOfLvalExpr · e ts) ts

theorem suffix_cons {t : Tok} {r : List Tok} : r <:+ t :: r := List.suffix_cons t r

theorem suffix_len {a b : List Tok} (h : a <:+ b) : a.length ≤ b.length := h.length_le

/-- A bracket and what follows it: something is consumed. -/
theorem lval_open {N} (A : All N) (e : Tree) (he : e.isNull = false) (r : List Tok)
    (hr : r.length < N) : Conv (parseRestOfLvalExpr · e (.openSquare :: r)) r := by
  refine conv_bind (G := (parseExpression · r)) (H := fun p f =>
      match p.2 with
      | .closeSquare :: r'' => parseRestOfLvalExpr f (.index e p.1) r''
      | r'' => some (.null, r'')) (fun f p hp => ?_) (A.expr r hr) ?_
  · simp only [parseRestOfLvalExpr, he, hp]
    rfl
  · rintro ⟨i, r'⟩ hs
    dsimp only at hs ⊢
    split
    · rename_i r''
      have h1 : r'' <:+ r := suffix_cons.trans hs
      exact (A.lval _ _ (by have := suffix_len h1; omega)).mono h1
    · exact conv_some hs

theorem lval_square (e : Tree) (he : e.isNull = false) (r : List Tok) :
    Conv (parseRestOfLvalExpr · e (.square :: r)) r :=
  conv_const (out := (.index e .null, r)) (fun f => by simp [parseRestOfLvalExpr, he])
    (List.suffix_refl r)

theorem lval_all {N} (A : All N) (e : Tree) (ts : List Tok) (h : ts.length < N + 1) :
    Conv (parseRestOfLvalExpr · e ts) ts := by
  by_cases he : e.isNull = true
  · exact conv_const (out := (.null, ts)) (fun f => by simp [parseRestOfLvalExpr, he])
      (List.suffix_refl ts)
  have he' : e.isNull = false := by simpa using he
  by_cases h1 : ∃ r, ts = .openSquare :: r
  · obtain ⟨r, rfl⟩ := h1
    exact (lval_open A e he' r (by simpa using h)).mono suffix_cons
  by_cases h2 : ∃ r, ts = .square :: r
  · obtain ⟨r, rfl⟩ := h2
    exact (lval_square e he' r).mono suffix_cons
  exact ⟨_, rule_lval_stop he' (fun r hr => h1 ⟨r, hr⟩) (fun r hr => h2 ⟨r, hr⟩),
    List.suffix_refl ts⟩

theorem ident_all {N} (A : All N) (n : Nat) (ts : List Tok) (h : ts.length < N + 1) :
    Conv (parseIdentExpr · n ts) ts := by
  by_cases h1 : ∃ r, ts = .openParen :: r
  · obtain ⟨r, rfl⟩ := h1
    exact conv_step (fun f => by simp [parseIdentExpr])
      (A.call n [] r (by simpa using h)) suffix_cons
  by_cases h2 : ∃ r, ts = .dot :: r
  · obtain ⟨r, rfl⟩ := h2
    exact ⟨_, rule_identExpr_dot, List.suffix_refl _⟩
  obtain ⟨out, h3, h4⟩ := lval_all A (.ident n) ts h
  exact ⟨out, rule_identExpr_lval (fun r hr => h1 ⟨r, hr⟩) (fun r hr => h2 ⟨r, hr⟩) h3, h4⟩

theorem select_dot {N} (A : All N) (e : Tree) (r : List Tok) (hr : r.length < N) :
    Conv (parseRestOfMemberSelectExpr · e (.dot :: r)) r := by
  by_cases h1 : ∃ n r', r = .ident n :: r'
  · obtain ⟨n, r', rfl⟩ := h1
    have hl : r'.length < N := by simp at hr; omega
    refine conv_bind (G := (parseIdentExpr · n r')) (H := fun p f =>
      if p.1.isNull then some (.null, p.2)
      else parseRestOfMemberSelectExpr f (.member e p.1) p.2) (fun f p hp => ?_)
      (A.ident n r' hl) ?_
    · simp only [parseRestOfMemberSelectExpr, hp]
    · intro p hs
      split
      · exact conv_some (hs.trans suffix_cons)
      · exact (A.select _ _ (by have := suffix_len hs; omega)).mono (hs.trans suffix_cons)
  by_cases h2 : ∃ n r', r = .ofKw n :: r'
  · obtain ⟨n, r', rfl⟩ := h2
    exact conv_step (fun f => by simp [parseRestOfMemberSelectExpr])
      (A.select (.proxy e n) r' (by simp at hr; omega)) suffix_cons
  refine conv_const (out := (.null, r)) (fun f => ?_) (List.suffix_refl r)
  rw [parseRestOfMemberSelectExpr.eq_def]
  dsimp only
  split
  · rename_i heq; cases heq; exact absurd ⟨_, _, rfl⟩ h1
  · rename_i heq; cases heq; exact absurd ⟨_, _, rfl⟩ h2
  · rename_i heq; cases heq; rfl
  · rename_i h; exact absurd rfl (h _)

theorem select_all {N} (A : All N) (e : Tree) (ts : List Tok) (h : ts.length < N + 1) :
    Conv (parseRestOfMemberSelectExpr · e ts) ts := by
  by_cases h2 : ∃ r, ts = .dot :: r
  · obtain ⟨r, rfl⟩ := h2
    exact (select_dot A e r (by simpa using h)).mono suffix_cons
  exact ⟨_, rule_select_stop (fun r hr => h2 ⟨r, hr⟩), List.suffix_refl _⟩

theorem makeAssign_cons {N} (A : All N) (e : Tree) (t : Tok) (r : List Tok) (hr : r.length < N) :
    Conv (makeAssignExprNode · e (t :: r)) r := by
  cases hp : makesPost t with
  | some o =>
    exact conv_const (out := (.post o e, r)) (fun f => by simp [makeAssignExprNode, hp])
      (List.suffix_refl r)
  | none =>
    refine conv_bind (G := (parseAssignExpr · r)) (H := fun p f =>
      if p.1.isNull then some (.null, p.2)
        else match makesAssign t with
          | some o => some (.assign o e p.1, p.2)
          | none => some (.null, p.2)) (fun f p hf => ?_) (A.assign r hr) ?_
    · simp only [makeAssignExprNode, hp, hf]
      rfl
    · intro p hs
      split
      · exact conv_some hs
      · split <;> exact conv_some hs

theorem restFactor_all {N} (A : All N) (e : Tree) (ts : List Tok) (h : ts.length < N + 1) :
    Conv (parseRestOfFactor · e ts) ts := by
  by_cases he : e.isNull = true
  · exact conv_const (out := (.null, ts)) (fun f => by simp [parseRestOfFactor, he])
      (List.suffix_refl ts)
  have he' : e.isNull = false := by simpa using he
  have again : ∀ {r : List Tok}, r.length < N → ∀ t, ∀ (p : Tree × List Tok), p.2 <:+ r →
      Conv (parseRestOfFactor · p.1 p.2) (t :: r) := fun hr t p hs =>
    (A.restFactor _ _ (by have := suffix_len hs; omega)).mono (hs.trans suffix_cons)
  cases ts with
  | nil =>
    exact conv_const (out := (e, [])) (fun f => by simp [parseRestOfFactor, he'])
      (List.suffix_refl _)
  | cons t r =>
    have hr : r.length < N := by simpa using h
    by_cases h1 : t = .dot
    · subst h1
      exact conv_bind (fun f p hp => by simp [parseRestOfFactor, he', hp]) (select_dot A e r hr)
        (again hr _)
    by_cases h2 : t = .square
    · subst h2
      exact conv_bind (fun f p hp => by simp [parseRestOfFactor, he', hp]) (lval_square e he' r)
        (again hr _)
    by_cases h3 : t = .openSquare
    · subst h3
      exact conv_bind (fun f p hp => by simp [parseRestOfFactor, he', hp]) (lval_open A e he' r hr)
        (again hr _)
    by_cases h4 : t = .plusPlus
    · subst h4
      exact conv_bind (fun f p hp => by simp [parseRestOfFactor, he', hp])
        (makeAssign_cons A e .plusPlus r hr) (again hr _)
    by_cases h5 : t = .minusMinus
    · subst h5
      exact conv_bind (fun f p hp => by simp [parseRestOfFactor, he', hp])
        (makeAssign_cons A e .minusMinus r hr) (again hr _)
    by_cases h6 : t = .isKw
    · subst h6
      cases r with
      | nil =>
        exact conv_const (out := (.null, [])) (fun f => by simp [parseRestOfFactor, he'])
          suffix_cons
      | cons t' r' =>
        by_cases h7 : ∃ n, t' = .typ n
        · obtain ⟨n, rfl⟩ := h7
          have hs : (restOfType r').2 <:+ r' := by
            unfold restOfType
            split
            · exact suffix_cons
            · exact List.suffix_refl _
          refine conv_step (fun f => by simp [parseRestOfFactor, he'])
            (A.restFactor (.isType e n (restOfType r').1) (restOfType r').2 (by
              have := suffix_len hs; simp at hr; omega))
            (hs.trans (suffix_cons.trans suffix_cons))
        · refine conv_const (out := (.null, t' :: r')) (fun f => ?_) suffix_cons
          cases t' <;> simp [parseRestOfFactor, he'] at h7 ⊢
    by_cases h8 : t = .error
    · subst h8
      exact conv_const (out := (.null, r.drop 1)) (fun f => by simp [parseRestOfFactor, he'])
        ((List.drop_suffix 1 r).trans suffix_cons)
    · refine conv_const (out := (e, t :: r)) (fun f => ?_) (List.suffix_refl _)
      cases t <;> simp_all [parseRestOfFactor]

theorem factor_all {N} (A : All N) (ts : List Tok) (h : ts.length < N + 1) :
    Conv (parseFactor · ts) ts := by
  cases ts with
  | nil =>
    exact conv_const (out := (.null, [])) (fun f => by simp [parseFactor])
      (List.suffix_refl _)
  | cons t r =>
    have hr : r.length < N := by simpa using h
    have again : ∀ (r' : List Tok) (p : Tree × List Tok), p.2 <:+ r' → r' <:+ r →
        Conv (parseRestOfFactor · p.1 p.2) (t :: r) := fun r' p hs hs' =>
      (A.restFactor _ _ (by have := suffix_len (hs.trans hs'); omega)).mono
        ((hs.trans hs').trans suffix_cons)
    have pre : ∀ o, makesPre t = some o → (∀ n, t ≠ .ident n) →
        (∀ f, parseFactor (f + 1) (t :: r) = match parseFactor f r with
          | none => none
          | some (e, r') => if e.isNull then some (.null, r') else some (.pre o e, r')) →
        Conv (parseFactor · (t :: r)) (t :: r) := by
      intro o _ _ hf
      refine conv_bind (G := (parseFactor · r)) (H := fun p f =>
        if p.1.isNull then some (.null, p.2) else some (.pre o p.1, p.2)) (fun f p hp => ?_)
        (A.factor r hr) ?_
      · rw [hf]; simp only [hp]
      · intro p hs
        split <;> exact conv_some (hs.trans suffix_cons)
    cases t
    case ident n =>
      exact conv_bind (fun f p hp => by simp [parseFactor, hp]) (A.ident n r hr)
        (fun p hs => again r p hs (List.suffix_refl _))
    case num n =>
      exact conv_const (out := (.num n, r)) (fun f => by simp [parseFactor]) suffix_cons
    case str n =>
      exact conv_step (fun f => by simp [parseFactor]) (A.restFactor (.str n) r hr) suffix_cons
    case openParen =>
      by_cases h1 : ∃ n r', r = .typ n :: r'
      · obtain ⟨n, r', rfl⟩ := h1
        by_cases h2 : ∃ r'', r' = .closeParen :: r''
        · obtain ⟨r'', rfl⟩ := h2
          have hs2 : r'' <:+ Tok.typ n :: Tok.closeParen :: r'' := suffix_cons.trans suffix_cons
          refine conv_bind (G := (parseFactor · r'')) (H := fun p f =>
            if p.1.isNull then some (.null, p.2) else parseRestOfFactor f (.cast n p.1) p.2)
            (fun f p hp => by simp only [parseFactor, hp])
            (A.factor r'' (by simp at hr; omega)) ?_
          intro p hs
          split
          · exact conv_some (hs.trans (hs2.trans suffix_cons))
          · exact again r'' (.cast n p.1, p.2) hs hs2
        · refine conv_const (out := (.null, r')) (fun f => ?_) (suffix_cons.trans suffix_cons)
          rw [parseFactor.eq_def]
          dsimp only
          split
          · rename_i heq; cases heq; exact absurd ⟨_, rfl⟩ h2
          · rename_i heq; cases heq; rfl
          · rename_i h; exact absurd rfl (h _ _)
      · refine conv_bind (G := (parseAssignExpr · r)) (H := fun p f =>
          match p.2 with
          | .closeParen :: r'' => parseRestOfFactor f p.1 r''
          | r'' => some (.null, r'')) (fun f p hp => ?_) (A.assign r hr) ?_
        · rw [parseFactor.eq_def]
          dsimp only
          split
          · exact absurd ⟨_, _, rfl⟩ h1
          · exact absurd ⟨_, _, rfl⟩ h1
          · simp only [hp]
            rfl
        · rintro ⟨e, r'⟩ hs
          dsimp only at hs ⊢
          split
          · exact again _ (e, _) (List.suffix_refl _) (suffix_cons.trans hs)
          · exact conv_some (hs.trans suffix_cons)
    case error =>
      exact conv_step (fun f => by simp [parseFactor]) (A.factor r hr) suffix_cons
    case minus => exact pre .minus rfl (by simp) (fun f => by rw [parseFactor.eq_def]; rfl)
    case plus => exact pre .plus rfl (by simp) (fun f => by rw [parseFactor.eq_def]; rfl)
    case bang => exact pre .bang rfl (by simp) (fun f => by rw [parseFactor.eq_def]; rfl)
    case twiddle => exact pre .twiddle rfl (by simp) (fun f => by rw [parseFactor.eq_def]; rfl)
    case plusPlus => exact pre .incr rfl (by simp) (fun f => by rw [parseFactor.eq_def]; rfl)
    case minusMinus => exact pre .decr rfl (by simp) (fun f => by rw [parseFactor.eq_def]; rfl)
    all_goals
      exact conv_const (out := (.null, _ :: r)) (fun f => by simp [parseFactor, makesPre])
        (List.suffix_refl _)

theorem restLevel_all {N} (A : All N) (lv : Level) (e : Tree) (ts : List Tok)
    (h : ts.length < N + 1) : Conv (parseRestOfLevel · lv e ts) ts := by
  cases ts with
  | nil =>
    exact conv_const (out := (e, [])) (fun f => by simp [parseRestOfLevel])
      (List.suffix_refl _)
  | cons t r =>
    have hr : r.length < N := by simpa using h
    cases hm : lv.makes t with
    | some o =>
      refine conv_bind (G := (parseOperand · lv r)) (H := fun p f =>
        parseRestOfLevel f lv (if p.1.isNull then .null else .bin o e p.1) p.2)
        (fun f p hp => by simp only [parseRestOfLevel, hm, hp]) (A.operand lv r hr) ?_
      intro p hs
      exact (A.restLevel _ _ _ (by have := suffix_len hs; omega)).mono (hs.trans suffix_cons)
    | none =>
      by_cases hc : (decide (t = Tok.error) && decide (lv ≠ .term)) = true
      · exact conv_step (fun f => by simp only [parseRestOfLevel, hm, hc, if_true])
          (A.restLevel lv e r hr) suffix_cons
      · exact conv_const (out := (e, t :: r))
          (fun f => by simp only [parseRestOfLevel, hm, hc]; rfl) (List.suffix_refl _)

theorem level_of_operand {N} (A : All N) (lv : Level)
    (ho : ∀ ts, ts.length < N + 1 → Conv (parseOperand · lv ts) ts) (ts : List Tok)
    (h : ts.length < N + 1) : Conv (parseLevel · lv ts) ts := by
  refine conv_bind (G := (parseOperand · lv ts)) (H := fun p f =>
    if p.1.isNull then some (.null, p.2) else parseRestOfLevel f lv p.1 p.2)
    (fun f p hp => by simp only [parseLevel, hp]) (ho ts h) ?_
  intro p hs
  split
  · exact conv_some hs
  · exact (restLevel_all A lv _ _ (by have := suffix_len hs; omega)).mono hs

theorem level_all {N} (A : All N) : ∀ lv,
    (∀ ts, ts.length < N + 1 → Conv (parseOperand · lv ts) ts) ∧
    (∀ ts, ts.length < N + 1 → Conv (parseLevel · lv ts) ts) := by
  have base : ∀ ts : List Tok, ts.length < N + 1 → Conv (parseOperand · .term ts) ts := fun ts h =>
    conv_step (fun f => by simp only [parseOperand, Level.operand]) (factor_all A ts h)
      (List.suffix_refl _)
  have up : ∀ lv lv', lv.operand = some lv' →
      (∀ ts, ts.length < N + 1 → Conv (parseLevel · lv' ts) ts) →
      ∀ ts : List Tok, ts.length < N + 1 → Conv (parseOperand · lv ts) ts := fun lv lv' hl h' ts h =>
    conv_step (fun f => by simp only [parseOperand, hl]) (h' ts h) (List.suffix_refl _)
  have l8 := level_of_operand A .term base
  have o7 := up .shift .term rfl l8
  have l7 := level_of_operand A .shift o7
  have o6 := up .compare .shift rfl l7
  have l6 := level_of_operand A .compare o6
  have o5 := up .eq .compare rfl l6
  have l5 := level_of_operand A .eq o5
  have o4 := up .bit .eq rfl l5
  have l4 := level_of_operand A .bit o4
  have o3 := up .logical .bit rfl l4
  have l3 := level_of_operand A .logical o3
  intro lv
  cases lv
  · exact ⟨o3, l3⟩
  · exact ⟨o4, l4⟩
  · exact ⟨o5, l5⟩
  · exact ⟨o6, l6⟩
  · exact ⟨o7, l7⟩
  · exact ⟨base, l8⟩

theorem restExpr_all {N} (A : All N) (e : Tree) (ts : List Tok)
    (h : ts.length < N + 1) : Conv (parseRestOfExpression · e ts) ts := by
  by_cases he : e.isNull = true
  · exact conv_const (out := (.null, ts)) (fun f => by simp [parseRestOfExpression, he])
      (List.suffix_refl ts)
  have he' : e.isNull = false := by simpa using he
  cases ts with
  | nil =>
    exact conv_const (out := (e, [])) (fun f => by simp [parseRestOfExpression, he'])
      (List.suffix_refl _)
  | cons t r =>
    have hr : r.length < N := by simpa using h
    cases hm : makesExpression t with
    | some o =>
      refine conv_bind (G := (parseLevel · .logical r)) (H := fun p f =>
        parseRestOfExpression f (if p.1.isNull then .null else .bin o e p.1) p.2)
        (fun f p hp => by simp only [parseRestOfExpression, he', hm, hp]; rfl)
        (A.level _ r hr) ?_
      intro p hs
      exact (A.restExpr _ _ (by have := suffix_len hs; omega)).mono (hs.trans suffix_cons)
    | none =>
      by_cases hq : t = .question
      · subst hq
        exact conv_step (fun f => by simp [parseRestOfExpression, he', hm]) (A.question e r hr)
          suffix_cons
      by_cases hc : t = .error
      · subst hc
        exact conv_step (fun f => by simp [parseRestOfExpression, he', hm]) (A.restExpr e r hr)
          suffix_cons
      · exact conv_const (out := (e, t :: r))
          (fun f => by simp [parseRestOfExpression, he', hm, hq, hc]) (List.suffix_refl _)

theorem expr_all {N} (A : All N) (ts : List Tok) (h : ts.length < N + 1) :
    Conv (parseExpression · ts) ts := by
  refine conv_bind (G := (parseLevel · .logical ts)) (H := fun p f =>
    if p.1.isNull then some (.null, p.2) else parseRestOfExpression f p.1 p.2)
    (fun f p hp => by simp only [parseExpression, hp]) ((level_all A .logical).2 ts h) ?_
  intro p hs
  split
  · exact conv_some hs
  · exact (restExpr_all A _ _ (by have := suffix_len hs; omega)).mono hs

theorem question_all {N} (A : All N) (e : Tree) (ts : List Tok) (h : ts.length < N + 1) :
    Conv (makeQuestionColonNode · e ts) ts := by
  refine conv_bind (G := (parseExpression · ts)) (H := fun p f =>
      if p.1.isNull then some (.null, p.2)
      else match p.2 with
        | .colon :: r' =>
          match parseExpression f r' with
          | none => none
          | some (b, r'') => if b.isNull then some (.null, r'') else some (.cond e p.1 b, r'')
        | r => some (.null, r))
    (fun f p hp => by simp only [makeQuestionColonNode, hp]; rfl) (expr_all A ts h) ?_
  rintro ⟨a, r⟩ hs
  dsimp only at hs ⊢
  split
  · exact conv_some hs
  · split
    · rename_i r'
      have hs' : r' <:+ ts := suffix_cons.trans hs
      have hl : r'.length < N := by have := suffix_len hs; simp at this; omega
      obtain ⟨⟨b, r''⟩, ⟨M, h1⟩, h2⟩ := A.expr r' hl
      by_cases hb : b.isNull = true
      · exact ⟨(.null, r''), ⟨M, fun f hf => by have := h1 f hf; simp only at this; simp [this, hb]⟩,
          h2.trans hs'⟩
      · exact ⟨(.cond e a b, r''), ⟨M, fun f hf => by
          have := h1 f hf; simp only at this; simp [this, hb]⟩, h2.trans hs'⟩
    · exact conv_some hs

theorem restAssign_all {N} (A : All N) (e : Tree) (ts : List Tok)
    (h : ts.length < N + 1) : Conv (parseRestOfAssignExpr · e ts) ts := by
  by_cases he : e.isNull = true
  · exact conv_const (out := (.null, ts)) (fun f => by simp [parseRestOfAssignExpr, he])
      (List.suffix_refl ts)
  have he' : e.isNull = false := by simpa using he
  cases ts with
  | nil =>
    exact conv_const (out := (e, [])) (fun f => by simp [parseRestOfAssignExpr, he'])
      (List.suffix_refl _)
  | cons t r =>
    have hr : r.length < N := by simpa using h
    by_cases hm : ((makesAssign t).isSome || (makesPost t).isSome) = true
    · refine conv_bind (H := fun p f => parseRestOfAssignExpr f p.1 p.2)
        (fun f p hp => by simp only [parseRestOfAssignExpr, he', hm, hp]; rfl)
        (makeAssign_cons A e t r hr) ?_
      intro p hs
      exact (A.restAssign _ _ (by have := suffix_len hs; omega)).mono (hs.trans suffix_cons)
    · by_cases hc : t = .error
      · subst hc
        exact conv_step (fun f => by simp [parseRestOfAssignExpr, he', makesAssign, makesPost])
          (A.restAssign e r hr) suffix_cons
      · exact conv_const (out := (e, t :: r))
          (fun f => by simp only [parseRestOfAssignExpr, he', hm, hc]; rfl) (List.suffix_refl _)

theorem assign_all {N} (A : All N) (ts : List Tok) (h : ts.length < N + 1) :
    Conv (parseAssignExpr · ts) ts := by
  refine conv_bind (G := (parseExpression · ts)) (H := fun p f =>
    if p.1.isNull then some (.null, p.2) else parseRestOfAssignExpr f p.1 p.2)
    (fun f p hp => by simp only [parseAssignExpr, hp]) (expr_all A ts h) ?_
  intro p hs
  split
  · exact conv_some hs
  · exact (restAssign_all A _ _ (by have := suffix_len hs; omega)).mono hs

theorem call_all {N} (A : All N) (n : Nat) (acc : List Tree) (ts : List Tok)
    (h : ts.length < N + 1) : Conv (parseFunctionCall · n acc ts) ts := by
  refine conv_bind (G := (parseAssignExpr · ts)) (H := fun p f =>
      match p.2 with
      | .closeParen :: r' => some (.call n (if p.1.isNull then acc else p.1 :: acc).reverse, r')
      | .comma :: r' => parseFunctionCall f n (if p.1.isNull then acc else p.1 :: acc) r'
      | r' => some (.null, r'.drop 1))
    (fun f p hp => by simp only [parseFunctionCall, hp]; rfl) (assign_all A ts h) ?_
  rintro ⟨a, r⟩ hs
  dsimp only at hs ⊢
  split
  · exact conv_some (suffix_cons.trans hs)
  · have hs' := suffix_cons.trans hs
    exact (A.call _ _ _ (by have := suffix_len hs; simp at this; omega)).mono hs'
  · exact conv_some ((List.drop_suffix 1 _).trans hs)

theorem all_all (N : Nat) : All N := by
  induction N with
  | zero => constructor <;> intros <;> omega
  | succ N A =>
    exact ⟨assign_all A, restAssign_all A, expr_all A, restExpr_all A, question_all A,
      fun lv => (level_all A lv).2, fun lv => (level_all A lv).1, restLevel_all A, factor_all A,
      restFactor_all A, select_all A, ident_all A, call_all A, lval_all A⟩

end Ulam.Parser
