import Verif.Parser.Spec

/-! # Running rules of the parsing functions -/

namespace Ulam.Parser

theorem runs_const {F : Nat → Res} {out} (h : ∀ f, F (f + 1) = some out) : Runs F out :=
  ⟨1, fun f hf => by
    obtain ⟨g, rfl⟩ : ∃ g, f = g + 1 := ⟨f - 1, by omega⟩
    exact h g⟩

theorem runs_step {F G : Nat → Res} {out} (h : ∀ f, F (f + 1) = G f) (hG : Runs G out) :
    Runs F out := by
  obtain ⟨N, hN⟩ := hG
  refine ⟨N + 1, fun f hf => ?_⟩
  obtain ⟨g, rfl⟩ : ∃ g, f = g + 1 := ⟨f - 1, by omega⟩
  rw [h]
  exact hN g (by omega)

theorem runs_bind {F G H : Nat → Res} {p out} (h : ∀ f, G f = some p → F (f + 1) = H f)
    (hG : Runs G p) (hH : Runs H out) : Runs F out := by
  obtain ⟨N, hN⟩ := hG
  obtain ⟨M, hM⟩ := hH
  refine ⟨max N M + 1, fun f hf => ?_⟩
  obtain ⟨g, rfl⟩ : ∃ g, f = g + 1 := ⟨f - 1, by omega⟩
  rw [h g (hN g (by omega))]
  exact hM g (by omega)

theorem runs_map {F G : Nat → Res} {p out} (h : ∀ f, G f = some p → F (f + 1) = some out)
    (hG : Runs G p) : Runs F out := by
  obtain ⟨N, hN⟩ := hG
  refine ⟨N + 1, fun f hf => ?_⟩
  obtain ⟨g, rfl⟩ : ∃ g, f = g + 1 := ⟨f - 1, by omega⟩
  exact h g (hN g (by omega))

/-- The answer is unique. -/
theorem Runs.unique {F : Nat → Res} {a b} (ha : Runs F a) (hb : Runs F b) : a = b := by
  obtain ⟨N, hN⟩ := ha
  obtain ⟨M, hM⟩ := hb
  have h1 := hN (max N M) (by omega)
  have h2 := hM (max N M) (by omega)
  rw [h1] at h2
  simpa using h2

/-! ## Assignments -/

theorem rule_assignExpr {ts e r out} (he : e.isNull = false)
    (h1 : Runs (parseExpression · ts) (e, r)) (h2 : Runs (parseRestOfAssignExpr · e r) out) :
    Runs (parseAssignExpr · ts) out :=
  runs_bind (fun f hf => by simp only [parseAssignExpr, hf, he]; rfl) h1 h2

theorem rule_restAssign_stop {e r} (he : e.isNull = false) (hr : Ends 0 r) :
    Runs (parseRestOfAssignExpr · e r) (e, r) := by
  refine runs_const fun f => ?_
  cases r with
  | nil => simp [parseRestOfAssignExpr, he]
  | cons t r =>
    have := hr t r rfl
    cases t <;> simp [parseRestOfAssignExpr, he, makesAssign, makesPost, Tok.continues] at this ⊢

theorem makesAssign_tok (o : AsgOp) : makesAssign o.tok = some o := by cases o <;> rfl
theorem makesPost_asgTok (o : AsgOp) : makesPost o.tok = none := by cases o <;> rfl
theorem makesPost_tok (o : PostOp) : makesPost o.tok = some o := by cases o <;> rfl
theorem makesPre_tok (o : PreOp) : makesPre o.tok = some o := by cases o <;> rfl

theorem rule_restAssign_op (o : AsgOp) {l r tr rest} (hl : l.isNull = false) (hr : r.isNull = false)
    (h1 : Runs (parseAssignExpr · tr) (r, rest)) (hrest : Ends 0 rest) :
    Runs (parseRestOfAssignExpr · l (o.tok :: tr)) (.assign o l r, rest) := by
  have h2 : Runs (makeAssignExprNode · l (o.tok :: tr)) (.assign o l r, rest) :=
    runs_map (fun f hf => by
      simp only [makeAssignExprNode, makesPost_asgTok, hf, hr, makesAssign_tok]; rfl) h1
  refine runs_bind (fun f hf => ?_) h2 (rule_restAssign_stop (e := .assign o l r) rfl hrest)
  simp only [parseRestOfAssignExpr, hl, makesAssign_tok, hf]
  rfl

/-! ## `? :`, `&&`, `||` -/

theorem rule_expression {ts e r out} (he : e.isNull = false)
    (h1 : Runs (parseLevel · .logical ts) (e, r)) (h2 : Runs (parseRestOfExpression · e r) out) :
    Runs (parseExpression · ts) out :=
  runs_bind (fun f hf => by simp only [parseExpression, hf, he]; rfl) h1 h2

theorem rule_restExpression_stop {e r} (he : e.isNull = false) (hr : Ends 1 r) :
    Runs (parseRestOfExpression · e r) (e, r) := by
  refine runs_const fun f => ?_
  cases r with
  | nil => simp [parseRestOfExpression, he]
  | cons t r =>
    have := hr t r rfl
    cases t <;> simp [parseRestOfExpression, he, makesExpression, Tok.continues] at this ⊢

theorem rule_restExpression_op (o : BinOp) (ho : o.level = 2) {l r tr rest out}
    (hl : l.isNull = false) (hr : r.isNull = false)
    (h1 : Runs (parseLevel · .logical tr) (r, rest))
    (h2 : Runs (parseRestOfExpression · (.bin o l r) rest) out) :
    Runs (parseRestOfExpression · l (o.tok :: tr)) out := by
  refine runs_bind (fun f hf => ?_) h1 h2
  have : makesExpression o.tok = some o := by cases o <;> first | rfl | cases ho
  simp only [parseRestOfExpression, hl, this, hf, hr]
  rfl

theorem rule_cond {c a b ts rest1 rest2} (hc : c.isNull = false) (ha : a.isNull = false)
    (hb : b.isNull = false)
    (h1 : Runs (parseExpression · ts) (a, .colon :: rest1))
    (h2 : Runs (parseExpression · rest1) (b, rest2)) :
    Runs (parseRestOfExpression · c (.question :: ts)) (.cond c a b, rest2) := by
  have h3 : Runs (makeQuestionColonNode · c ts) (.cond c a b, rest2) := by
    obtain ⟨N, hN⟩ := h1
    obtain ⟨M, hM⟩ := h2
    refine ⟨max N M + 1, fun f hf => ?_⟩
    obtain ⟨g, rfl⟩ : ∃ g, f = g + 1 := ⟨f - 1, by omega⟩
    have e1 := hN g (by omega)
    have e2 := hM g (by omega)
    simp only at e1 e2
    simp only [makeQuestionColonNode, e1, ha, e2, hb]
    rfl
  refine runs_step (fun f => ?_) h3
  simp [parseRestOfExpression, hc, makesExpression]

/-! ## The six levels -/

/-- The number of a level in the table. -/
def Level.number : Level → Nat
  | .logical => 3 | .bit => 4 | .eq => 5 | .compare => 6 | .shift => 7 | .term => 8

theorem rule_level {lv ts e r out} (he : e.isNull = false)
    (h1 : Runs (parseOperand · lv ts) (e, r)) (h2 : Runs (parseRestOfLevel · lv e r) out) :
    Runs (parseLevel · lv ts) out :=
  runs_bind (fun f hf => by simp only [parseLevel, hf, he]; rfl) h1 h2

theorem rule_operand_level {lv lv' ts out} (h : lv.operand = some lv')
    (h1 : Runs (parseLevel · lv' ts) out) : Runs (parseOperand · lv ts) out :=
  runs_step (fun f => by simp only [parseOperand, h]) h1

theorem rule_operand_factor {lv ts out} (h : lv.operand = none)
    (h1 : Runs (parseFactor · ts) out) : Runs (parseOperand · lv ts) out :=
  runs_step (fun f => by simp only [parseOperand, h]) h1

theorem rule_restLevel_stop {lv e r} (hr : Ends lv.number r) :
    Runs (parseRestOfLevel · lv e r) (e, r) := by
  refine runs_const fun f => ?_
  cases r with
  | nil => simp [parseRestOfLevel]
  | cons t r =>
    have := hr t r rfl
    cases lv <;> cases t <;>
      simp [parseRestOfLevel, Level.makes, Level.number, Tok.continues] at this ⊢

theorem rule_restLevel_op (lv : Level) (o : BinOp) (ho : o.level = lv.number) {l r tr rest out}
    (hr : r.isNull = false)
    (h1 : Runs (parseOperand · lv tr) (r, rest))
    (h2 : Runs (parseRestOfLevel · lv (.bin o l r) rest) out) :
    Runs (parseRestOfLevel · lv l (o.tok :: tr)) out := by
  refine runs_bind (fun f hf => ?_) h1 h2
  have : lv.makes o.tok = some o := by
    cases lv <;> cases o <;> first | rfl | (simp [BinOp.level, Level.number] at ho)
  simp only [parseRestOfLevel, this, hf, hr]
  rfl

/-! ## Factors -/

theorem rule_num (n r) : Runs (parseFactor · (.num n :: r)) (.num n, r) :=
  runs_const fun f => by simp [parseFactor]

theorem rule_pre (o : PreOp) {ts e r} (he : e.isNull = false)
    (h : Runs (parseFactor · ts) (e, r)) :
    Runs (parseFactor · (o.tok :: ts)) (.pre o e, r) :=
  runs_map (fun f hf => by
    cases o <;> simp [parseFactor, PreOp.tok, makesPre, hf, he]) h

theorem rule_ident {n ts e r out} (h1 : Runs (parseIdentExpr · n ts) (e, r))
    (h2 : Runs (parseRestOfFactor · e r) out) : Runs (parseFactor · (.ident n :: ts)) out :=
  runs_bind (fun f hf => by simp [parseFactor, hf]) h1 h2

theorem rule_str {n ts out} (h2 : Runs (parseRestOfFactor · (.str n) ts) out) :
    Runs (parseFactor · (.str n :: ts)) out :=
  runs_step (fun f => by simp [parseFactor]) h2

theorem rule_paren {ts e r out} (hts : ∀ n r, ts ≠ .typ n :: r)
    (h1 : Runs (parseAssignExpr · ts) (e, .closeParen :: r))
    (h2 : Runs (parseRestOfFactor · e r) out) : Runs (parseFactor · (.openParen :: ts)) out := by
  refine runs_bind (fun f hf => ?_) h1 h2
  rw [parseFactor.eq_def]
  dsimp only
  split
  · exact absurd rfl (hts _ _)
  · exact absurd rfl (hts _ _)
  · simp only [hf]

theorem rule_cast {n ts e r out} (he : e.isNull = false) (h1 : Runs (parseFactor · ts) (e, r))
    (h2 : Runs (parseRestOfFactor · (.cast n e) r) out) :
    Runs (parseFactor · (.openParen :: .typ n :: .closeParen :: ts)) out :=
  runs_bind (fun f hf => by simp [parseFactor, hf, he]) h1 h2

theorem rule_identExpr_call {n ts out} (h : Runs (parseFunctionCall · n [] ts) out) :
    Runs (parseIdentExpr · n (.openParen :: ts)) out :=
  runs_step (fun f => by simp [parseIdentExpr]) h

theorem rule_identExpr_dot {n ts} :
    Runs (parseIdentExpr · n (.dot :: ts)) (.ident n, .dot :: ts) :=
  runs_const (fun f => by simp [parseIdentExpr])

theorem rule_identExpr_lval {n ts out} (h1 : ∀ r, ts ≠ .openParen :: r) (h2 : ∀ r, ts ≠ .dot :: r)
    (h : Runs (parseRestOfLvalExpr · (.ident n) ts) out) :
    Runs (parseIdentExpr · n ts) out := by
  refine runs_step (fun f => ?_) h
  rw [parseIdentExpr.eq_def]
  dsimp only
  split
  · exact absurd rfl (h1 _)
  · exact absurd rfl (h2 _)
  · rfl

theorem rule_lval_stop {e ts} (he : e.isNull = false) (h1 : ∀ r, ts ≠ .openSquare :: r)
    (h2 : ∀ r, ts ≠ .square :: r) : Runs (parseRestOfLvalExpr · e ts) (e, ts) := by
  refine runs_const (fun f => ?_)
  rw [parseRestOfLvalExpr.eq_def]
  dsimp only
  rw [he, if_neg (by simp)]
  split
  · exact absurd rfl (h2 _)
  · exact absurd rfl (h1 _)
  · rfl

theorem rule_lval_index {e i ts r out} (he : e.isNull = false)
    (h1 : Runs (parseExpression · ts) (i, .closeSquare :: r))
    (h2 : Runs (parseRestOfLvalExpr · (.index e i) r) out) :
    Runs (parseRestOfLvalExpr · e (.openSquare :: ts)) out :=
  runs_bind (fun f hf => by simp [parseRestOfLvalExpr, he, hf]) h1 h2

theorem rule_select_stop {e ts} (h1 : ∀ r, ts ≠ .dot :: r) :
    Runs (parseRestOfMemberSelectExpr · e ts) (e, ts) := by
  refine runs_const (fun f => ?_)
  rw [parseRestOfMemberSelectExpr.eq_def]
  dsimp only
  split
  · exact absurd rfl (h1 _)
  · exact absurd rfl (h1 _)
  · exact absurd rfl (h1 _)
  · rfl

theorem rule_select {l n e ts r out} (he : e.isNull = false)
    (h1 : Runs (parseIdentExpr · n ts) (e, r))
    (h2 : Runs (parseRestOfMemberSelectExpr · (.member l e) r) out) :
    Runs (parseRestOfMemberSelectExpr · l (.dot :: .ident n :: ts)) out :=
  runs_bind (fun f hf => by simp [parseRestOfMemberSelectExpr, he, hf]) h1 h2

theorem rule_select_of {l k ts out}
    (h : Runs (parseRestOfMemberSelectExpr · (.proxy l k) ts) out) :
    Runs (parseRestOfMemberSelectExpr · l (.dot :: .ofKw k :: ts)) out :=
  runs_step (fun f => by simp [parseRestOfMemberSelectExpr]) h

theorem rule_restFactor_is {l n ts out} (hl : l.isNull = false) (hts : ∀ r, ts ≠ .amp :: r)
    (h : Runs (parseRestOfFactor · (.isType l n false) ts) out) :
    Runs (parseRestOfFactor · l (.isKw :: .typ n :: ts)) out := by
  refine runs_step (fun f => ?_) h
  have : restOfType ts = (false, ts) := by
    unfold restOfType
    split
    · exact absurd rfl (hts _)
    · rfl
  simp [parseRestOfFactor, hl, this]

theorem rule_restFactor_stop {e ts} (he : e.isNull = false) (h : Ends 11 ts) :
    Runs (parseRestOfFactor · e ts) (e, ts) := by
  refine runs_const (fun f => ?_)
  cases ts with
  | nil => simp [parseRestOfFactor, he]
  | cons t r =>
    have := h t r rfl
    cases t <;> simp [parseRestOfFactor, he, Tok.continues] at this ⊢

theorem rule_restFactor_post (o : PostOp) {e ts out} (he : e.isNull = false)
    (h : Runs (parseRestOfFactor · (.post o e) ts) out) :
    Runs (parseRestOfFactor · e (o.tok :: ts)) out := by
  have h1 : Runs (makeAssignExprNode · e (o.tok :: ts)) (.post o e, ts) :=
    runs_const (fun f => by simp [makeAssignExprNode, makesPost_tok])
  refine runs_bind (fun f hf => ?_) h1 h
  cases o <;> simp [PostOp.tok] at hf <;> simp [parseRestOfFactor, he, PostOp.tok, hf]

theorem rule_restFactor_dot {e ts mid out} (he : e.isNull = false)
    (h1 : Runs (parseRestOfMemberSelectExpr · e (.dot :: ts)) mid)
    (h : Runs (parseRestOfFactor · mid.1 mid.2) out) :
    Runs (parseRestOfFactor · e (.dot :: ts)) out :=
  runs_bind (fun f hf => by simp [parseRestOfFactor, he, hf]) h1 h

theorem rule_restFactor_open {e ts mid out} (he : e.isNull = false)
    (h1 : Runs (parseRestOfLvalExpr · e (.openSquare :: ts)) mid)
    (h : Runs (parseRestOfFactor · mid.1 mid.2) out) :
    Runs (parseRestOfFactor · e (.openSquare :: ts)) out :=
  runs_bind (fun f hf => by simp [parseRestOfFactor, he, hf]) h1 h

theorem rule_restFactor_square {e ts mid out} (he : e.isNull = false)
    (h1 : Runs (parseRestOfLvalExpr · e (.square :: ts)) mid)
    (h : Runs (parseRestOfFactor · mid.1 mid.2) out) :
    Runs (parseRestOfFactor · e (.square :: ts)) out :=
  runs_bind (fun f hf => by simp [parseRestOfFactor, he, hf]) h1 h

/-! ## Calls -/

theorem rule_null_closeParen (ts) :
    Runs (parseAssignExpr · (.closeParen :: ts)) (.null, .closeParen :: ts) := by
  have h9 : Runs (parseFactor · (.closeParen :: ts)) (.null, .closeParen :: ts) :=
    runs_const (fun f => by simp [parseFactor, makesPre])
  have up : ∀ lv, Runs (parseOperand · lv (.closeParen :: ts)) (.null, .closeParen :: ts) →
      Runs (parseLevel · lv (.closeParen :: ts)) (.null, .closeParen :: ts) := fun lv h =>
    runs_map (fun f hf => by simp [parseLevel, hf, Tree.isNull]) h
  have h8 := up .term (rule_operand_factor rfl h9)
  have h7 := up .shift (rule_operand_level rfl h8)
  have h6 := up .compare (rule_operand_level rfl h7)
  have h5 := up .eq (rule_operand_level rfl h6)
  have h4 := up .bit (rule_operand_level rfl h5)
  have h3 := up .logical (rule_operand_level rfl h4)
  have h1 : Runs (parseExpression · (.closeParen :: ts)) (.null, .closeParen :: ts) :=
    runs_map (fun f hf => by simp [parseExpression, hf, Tree.isNull]) h3
  exact runs_map (fun f hf => by simp [parseAssignExpr, hf, Tree.isNull]) h1

theorem rule_call_none (n acc ts) :
    Runs (parseFunctionCall · n acc (.closeParen :: ts)) (.call n acc.reverse, ts) :=
  runs_map (fun f hf => by simp [parseFunctionCall, hf, Tree.isNull]) (rule_null_closeParen ts)

theorem rule_call_last {n acc a ts r} (ha : a.isNull = false)
    (h : Runs (parseAssignExpr · ts) (a, .closeParen :: r)) :
    Runs (parseFunctionCall · n acc ts) (.call n (acc.reverse ++ [a]), r) :=
  runs_map (fun f hf => by simp [parseFunctionCall, hf, ha]) h

theorem rule_call_more {n acc a ts r out} (ha : a.isNull = false)
    (h : Runs (parseAssignExpr · ts) (a, .comma :: r))
    (h2 : Runs (parseFunctionCall · n (a :: acc) r) out) :
    Runs (parseFunctionCall · n acc ts) out :=
  runs_bind (fun f hf => by simp [parseFunctionCall, hf, ha]) h h2

end Ulam.Parser
