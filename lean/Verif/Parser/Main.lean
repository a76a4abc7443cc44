import Verif.Parser.Lemmas

/-! # The parsing functions follow the grammar -/

namespace Ulam.Parser

theorem Ends.mono {j k ts} (h : Ends j ts) (hjk : j ≤ k) : Ends k ts :=
  fun t r ht i hi => Nat.lt_of_lt_of_le (h t r ht i hi) hjk

theorem NoIsAmp.suffix {a b} (h : NoIsAmp (a ++ b)) : NoIsAmp b := by
  intro c n d hb
  exact h (a ++ c) n d (by rw [hb]; simp)

theorem NoIsAmp.tail {a b} (h : NoIsAmp (a :: b)) : NoIsAmp b := NoIsAmp.suffix (a := [a]) h

theorem ends_cons {k t r} (h : ∀ j, t.continues = some j → j < k) : Ends k (t :: r) := by
  intro t' r' ht j hj
  cases ht
  exact h j hj

theorem Ends.not_cons {k t r ts j} (h : Ends k ts) (hj : t.continues = some j) (hjk : k ≤ j) :
    ts ≠ t :: r := by
  intro ht
  have := h t r ht j hj
  omega

/-- The list does not begin with an opening parenthesis. -/
def NoParen (ts : List Tok) : Prop := ∀ r, ts ≠ .openParen :: r

/-- The list does not begin with a bracket. -/
def NoBracket (ts : List Tok) : Prop := (∀ r, ts ≠ .openSquare :: r) ∧ ∀ r, ts ≠ .square :: r

/-- Standing behind the operand `e`, the postfix operators in `ts` lead to `out`. -/
inductive Postfix (e : Tree) : List Tok → Tree × List Tok → Prop
  | open {r mid out} : Runs (parseRestOfLvalExpr · e (.openSquare :: r)) mid →
      Runs (parseRestOfFactor · mid.1 mid.2) out → Postfix e (.openSquare :: r) out
  | square {r mid out} : Runs (parseRestOfLvalExpr · e (.square :: r)) mid →
      Runs (parseRestOfFactor · mid.1 mid.2) out → Postfix e (.square :: r) out
  | dot {r mid out} : Runs (parseRestOfMemberSelectExpr · e (.dot :: r)) mid →
      Runs (parseRestOfFactor · mid.1 mid.2) out → Postfix e (.dot :: r) out
  | other {ts out} : NoBracket ts → (∀ r, ts ≠ .dot :: r) →
      Runs (parseRestOfFactor · e ts) out → Postfix e ts out

theorem Postfix.runs {e ts out} (he : e.isNull = false) (h : Postfix e ts out) :
    Runs (parseRestOfFactor · e ts) out := by
  cases h with
  | «open» h1 h2 => exact rule_restFactor_open he h1 h2
  | square h1 h2 => exact rule_restFactor_square he h1 h2
  | dot h1 h2 => exact rule_restFactor_dot he h1 h2
  | other _ _ h => exact h

/-- The subscripts behind `e` are read first, whoever reads them. -/
theorem Postfix.lval {e ts out} (he : e.isNull = false) (h : Postfix e ts out) :
    ∃ mid, Runs (parseRestOfLvalExpr · e ts) mid ∧ Runs (parseRestOfFactor · mid.1 mid.2) out := by
  cases h with
  | «open» h1 h2 => exact ⟨_, h1, h2⟩
  | square h1 h2 => exact ⟨_, h1, h2⟩
  | dot h1 h2 =>
    exact ⟨_, rule_lval_stop he (by simp) (by simp), rule_restFactor_dot he h1 h2⟩
  | other h1 h2 h => exact ⟨_, rule_lval_stop he h1.1 h1.2, h⟩

theorem Postfix.select {e ts out} (he : e.isNull = false) (h : Postfix e ts out) :
    ∃ mid, Runs (parseRestOfMemberSelectExpr · e ts) mid ∧
      Runs (parseRestOfFactor · mid.1 mid.2) out := by
  cases h with
  | dot h1 h2 => exact ⟨_, h1, h2⟩
  | «open» h1 h2 =>
    exact ⟨_, rule_select_stop (by simp), rule_restFactor_open he h1 h2⟩
  | square h1 h2 =>
    exact ⟨_, rule_select_stop (by simp), rule_restFactor_square he h1 h2⟩
  | other h1 h2 h => exact ⟨_, rule_select_stop h2, h⟩

theorem Postfix.stop {e ts} (he : e.isNull = false) (h : Ends 11 ts) : Postfix e ts (e, ts) :=
  .other ⟨fun _ => h.not_cons (j := 11) rfl (by omega), fun _ => h.not_cons (j := 11) rfl (by omega)⟩
    (fun _ => h.not_cons (j := 11) rfl (by omega)) (rule_restFactor_stop he h)

/-- The level with its own functions that has a number of the table. -/
def levelOf : Nat → Level
  | 3 => .logical | 4 => .bit | 5 => .eq | 6 => .compare | 7 => .shift | _ => .term

/-- What is shown for every derivation: a statement about all continuations. -/
def Good (k : Nat) (ts : List Tok) (e : Tree) : Prop :=
  if k = 0 then ∀ rest, NoIsAmp (ts ++ rest) → Ends 0 rest → Runs (parseAssignExpr · (ts ++ rest)) (e, rest)
  else if k = 1 then ∀ rest, NoIsAmp (ts ++ rest) → Ends 1 rest → Runs (parseExpression · (ts ++ rest)) (e, rest)
  else if k = 2 then ∀ rest, NoIsAmp (ts ++ rest) → Ends 3 rest → ∀ out, Runs (parseRestOfExpression · e rest) out →
    Runs (parseExpression · (ts ++ rest)) out
  else if k ≤ 8 then ∀ rest, NoIsAmp (ts ++ rest) → Ends (k + 1) rest → ∀ out,
    Runs (parseRestOfLevel · (levelOf k) e rest) out → Runs (parseLevel · (levelOf k) (ts ++ rest)) out
  else if k = 9 then ∀ rest, NoIsAmp (ts ++ rest) → Ends 9 rest → Runs (parseFactor · (ts ++ rest)) (e, rest)
  else if k = 10 then ∀ rest, NoIsAmp (ts ++ rest) → NoParen rest → NoBracket rest → ∀ out, Postfix e rest out →
    Runs (parseFactor · (ts ++ rest)) out
  else if k = 11 then ∀ rest, NoIsAmp (ts ++ rest) → NoParen rest → ∀ out, Postfix e rest out →
    Runs (parseFactor · (ts ++ rest)) out
  else False

theorem number_levelOf {k} (h3 : 3 ≤ k) (h8 : k ≤ 8) : (levelOf k).number = k := by
  obtain rfl | rfl | rfl | rfl | rfl | rfl :
    k = 3 ∨ k = 4 ∨ k = 5 ∨ k = 6 ∨ k = 7 ∨ k = 8 := by omega
  all_goals rfl

theorem good_level {k ts e} (h3 : 3 ≤ k) (h8 : k ≤ 8) :
    Good k ts e ↔ ∀ rest, NoIsAmp (ts ++ rest) → Ends (k + 1) rest → ∀ out,
      Runs (parseRestOfLevel · (levelOf k) e rest) out →
        Runs (parseLevel · (levelOf k) (ts ++ rest)) out := by
  unfold Good
  rw [if_neg (by omega), if_neg (by omega), if_neg (by omega), if_pos h8]

theorem good_big {k ts e} (h : 12 ≤ k) : ¬ Good k ts e := by
  unfold Good
  rw [if_neg (by omega), if_neg (by omega), if_neg (by omega), if_neg (by omega), if_neg (by omega),
    if_neg (by omega), if_neg (by omega)]
  exact id

/-- A derivation of one of the six levels, with nothing behind it that continues the level, is read
whole. -/
theorem Good.full_level {k ts e} (h3 : 3 ≤ k) (h8 : k ≤ 8) (h : Good k ts e) {rest}
    (hn : NoIsAmp (ts ++ rest)) (hr : Ends k rest) : Runs (parseLevel · (levelOf k) (ts ++ rest)) (e, rest) := by
  refine (good_level h3 h8).mp h rest hn (hr.mono (by omega)) _ (rule_restLevel_stop ?_)
  rw [number_levelOf h3 h8]
  exact hr

theorem Ends.noParen {k ts} (h : Ends k ts) (hk : k ≤ 11) : NoParen ts :=
  fun _ => h.not_cons (j := 11) rfl hk

theorem Ends.noBracket {k ts} (h : Ends k ts) (hk : k ≤ 11) : NoBracket ts :=
  ⟨fun _ => h.not_cons (j := 11) rfl hk, fun _ => h.not_cons (j := 11) rfl hk⟩

/-- The operand of a level is read whole. -/
theorem Good.operand {k ts e} (h3 : 3 ≤ k) (h8 : k ≤ 8) (h : Good (k + 1) ts e) {rest}
    (hn : NoIsAmp (ts ++ rest)) (hr : Ends (k + 1) rest) : Runs (parseOperand · (levelOf k) (ts ++ rest)) (e, rest) := by
  rcases Nat.lt_or_ge k 8 with hk | hk
  · refine rule_operand_level (lv' := levelOf (k + 1)) ?_ (Good.full_level (by omega) (by omega) h hn hr)
    obtain rfl | rfl | rfl | rfl | rfl :
      k = 3 ∨ k = 4 ∨ k = 5 ∨ k = 6 ∨ k = 7 := by omega
    all_goals rfl
  · obtain rfl : k = 8 := by omega
    exact rule_operand_factor rfl (h rest hn hr)

theorem Good.up {k ts e} (he : e.isNull = false) (h : Good (k + 1) ts e) : Good k ts e := by
  by_cases h12 : 11 ≤ k
  · exact absurd h (good_big (by omega))
  by_cases h0 : k = 0
  · subst h0
    exact fun rest hn hr => rule_assignExpr he (h rest hn (hr.mono (by omega))) (rule_restAssign_stop he hr)
  by_cases h1 : k = 1
  · subst h1
    exact fun rest hn hr => h rest hn (hr.mono (by omega)) _ (rule_restExpression_stop he hr)
  by_cases h2 : k = 2
  · subst h2
    exact fun rest hn hr out ho =>
      rule_expression he (Good.full_level (by omega) (by omega) h hn hr) ho
  by_cases h8 : k ≤ 8
  · rw [good_level (by omega) h8]
    exact fun rest hn hr out ho => rule_level he (Good.operand (by omega) h8 h hn hr) ho
  by_cases h9 : k = 9
  · subst h9
    exact fun rest hn hr => h rest hn (hr.noParen (by omega)) (hr.noBracket (by omega)) _
      (.stop he (hr.mono (by omega)))
  obtain rfl : k = 10 := by omega
  exact fun rest hn hp _ out ho => h rest hn hp out ho

theorem level_bounds (o : BinOp) : 2 ≤ o.level ∧ o.level ≤ 8 := by
  cases o <;> simp [BinOp.level]

theorem tok_continues (o : BinOp) : o.tok.continues = some o.level := by cases o <;> rfl

theorem Good.bin (o : BinOp) {l r tl tr} (hl : l.isNull = false) (hr : r.isNull = false)
    (h1 : Good o.level tl l) (h2 : Good (o.level + 1) tr r) :
    Good o.level (tl ++ o.tok :: tr) (.bin o l r) := by
  have hb := level_bounds o
  have hends : ∀ rest, Ends (o.level + 1) (o.tok :: (tr ++ rest)) := fun rest =>
    ends_cons fun j hj => by rw [tok_continues] at hj; cases hj; omega
  by_cases h : o.level = 2
  · rw [h] at h1 h2 hends ⊢
    intro rest hn hrest out ho
    simp only [List.append_assoc, List.cons_append] at hn ⊢
    exact h1 (o.tok :: (tr ++ rest)) hn (hends rest) out
      (rule_restExpression_op o h hl hr
        (Good.full_level (by omega) (by omega) h2 hn.suffix.tail hrest) ho)
  · rw [good_level (by omega) hb.2] at h1 ⊢
    intro rest hn hrest out ho
    simp only [List.append_assoc, List.cons_append] at hn ⊢
    exact h1 (o.tok :: (tr ++ rest)) hn (hends rest) out
      (rule_restLevel_op _ o (number_levelOf (by omega) hb.2).symm hr
        (Good.operand (by omega) hb.2 h2 hn.suffix.tail hrest) ho)

theorem derives_not_null {k ts e} (h : Derives k ts e) : e.isNull = false := by
  refine Derives.rec (motive_1 := fun _ _ e _ => e.isNull = false)
    (motive_2 := fun _ e _ => e.isNull = false) (motive_3 := fun _ _ _ => True)
    ?_ ?_ ?_ ?_ ?_ ?_ ?_ ?_ ?_ ?_ ?_ ?_ ?_ ?_ ?_ ?_ ?_ ?_ ?_ ?_ ?_ ?_ h <;> intros <;>
    first | rfl | trivial | assumption

/-- Nothing that is written begins with a type. -/
theorem derives_head {k ts e} (h : Derives k ts e) :
    ∀ x n r, ts ++ x ≠ .typ n :: r := by
  have key : ∃ t r, ts = t :: r ∧ ∀ n, t ≠ .typ n := by
    refine Derives.rec (motive_1 := fun _ ts _ _ => ∃ t r, ts = t :: r ∧ ∀ n, t ≠ .typ n)
      (motive_2 := fun ts e _ => ∃ t r, ts = t :: r ∧ ∀ n, t ≠ .typ n)
      (motive_3 := fun _ _ _ => True)
      ?_ ?_ ?_ ?_ ?_ ?_ ?_ ?_ ?_ ?_ ?_ ?_ ?_ ?_ ?_ ?_ ?_ ?_ ?_ ?_ ?_ ?_ h <;> intros <;>
      first
      | trivial
      | assumption
      | (rename_i h; obtain ⟨t, r, rfl, ht⟩ := h; exact ⟨t, _, rfl, ht⟩)
      | (rename_i h _; obtain ⟨t, r, rfl, ht⟩ := h; exact ⟨t, _, rfl, ht⟩)
      | (rename_i h _ _; obtain ⟨t, r, rfl, ht⟩ := h; exact ⟨t, _, rfl, ht⟩)
      | (rename_i o _ _ _ _; exact ⟨_, _, rfl, by cases o <;> simp [PreOp.tok]⟩)
      | exact ⟨_, _, rfl, by simp⟩
  obtain ⟨t, r, rfl, ht⟩ := key
  intro x n r' h
  cases h
  exact ht n rfl

theorem derivesLval_not_null {ts e} (h : DerivesLval ts e) : e.isNull = false := by
  cases h <;> rfl

/-- What is shown for a name with subscripts. -/
def GoodLval (ts : List Tok) (e : Tree) : Prop :=
  ∃ n tail, ts = .ident n :: tail ∧ ∀ rest mid, NoIsAmp (ts ++ rest) → NoParen rest →
    Runs (parseRestOfLvalExpr · e rest) mid → Runs (parseIdentExpr · n (tail ++ rest)) mid

/-- What is shown for arguments. -/
def GoodArgs (ts : List Tok) (args : List Tree) : Prop :=
  ∀ n acc rest, NoIsAmp (ts ++ rest) →
    Runs (parseFunctionCall · n acc (ts ++ rest)) (.call n (acc.reverse ++ args), rest)

theorem noParen_cons {t r} (h : t ≠ .openParen) : NoParen (t :: r) := by
  intro r' hr'
  cases hr'
  exact h rfl

theorem noBracket_cons {t r} (h1 : t ≠ .openSquare) (h2 : t ≠ .square) : NoBracket (t :: r) := by
  constructor <;> intro r' hr' <;> cases hr' <;> simp_all

theorem ends_none {k t r} (h : t.continues = none) : Ends k (t :: r) :=
  ends_cons fun j hj => by rw [h] at hj; cases hj

theorem Good.derives {k ts e} (h : Derives k ts e) : Good k ts e := by
  refine Derives.rec (motive_1 := fun k ts e _ => Good k ts e)
    (motive_2 := fun ts e _ => GoodLval ts e) (motive_3 := fun ts args _ => GoodArgs ts args)
    ?_ ?_ ?_ ?_ ?_ ?_ ?_ ?_ ?_ ?_ ?_ ?_ ?_ ?_ ?_ ?_ ?_ ?_ ?_ ?_ ?_ ?_ h
  · -- up
    exact fun h ih => Good.up (derives_not_null h) ih
  · -- assign
    intro o l r tl tr hl hr il ir rest hn hrest
    simp only [List.append_assoc, List.cons_append] at hn ⊢
    have h1 := il (o.tok :: (tr ++ rest)) hn (ends_cons fun j hj => by
      cases o <;> cases hj <;> omega)
    exact rule_assignExpr (derives_not_null hl) h1
      (rule_restAssign_op o (derives_not_null hl) (derives_not_null hr)
        (ir rest hn.suffix.tail hrest) hrest)
  · -- cond
    intro c a b tc ta tb hc ha hb ic ia ib rest hn hrest
    simp only [List.append_assoc, List.cons_append] at hn ⊢
    have h2 := ia (.colon :: (tb ++ rest)) hn.suffix.tail (ends_none rfl)
    have h3 := rule_cond (derives_not_null hc) (derives_not_null ha) (derives_not_null hb) h2
      (ib rest hn.suffix.tail.suffix.tail hrest)
    exact ic (.question :: (ta ++ .colon :: (tb ++ rest))) hn (ends_cons fun j hj => by
      cases hj; omega) _ h3
  · -- bin
    intro o l r tl tr hl hr il ir
    exact Good.bin o (derives_not_null hl) (derives_not_null hr) il ir
  · -- pre
    intro o e te he ie rest hn hrest
    exact rule_pre o (derives_not_null he) (ie rest hn.tail hrest)
  · -- num
    intro n rest _ _
    exact rule_num n rest
  · -- cast
    intro n e te he ie rest hn hrest
    exact rule_cast (derives_not_null he) (ie rest hn.tail.tail.tail hrest)
      (rule_restFactor_stop rfl (hrest.mono (by omega)))
  · -- is
    intro n e te he ie rest hn hrest
    have he0 := derives_not_null he
    simp only [List.append_assoc, List.cons_append, List.nil_append] at hn ⊢
    have hamp : ∀ r, rest ≠ .amp :: r := fun r hr => hn te n r (by rw [hr])
    exact ie (.isKw :: .typ n :: rest) hn (noParen_cons (by simp)) (noBracket_cons (by simp) (by simp))
      _ (.other (noBracket_cons (by simp) (by simp)) (by simp)
        (rule_restFactor_is he0 hamp (rule_restFactor_stop rfl (hrest.mono (by omega)))))
  · -- member
    intro l r tl tr hl hr il ⟨n, tail, htr, ir⟩ rest hn hp hb out ho
    subst htr
    simp only [List.append_assoc, List.cons_append] at hn ⊢
    have hr0 := derivesLval_not_null hr
    obtain ⟨mid, hm1, hm2⟩ := ho.select rfl
    have h1 := ir rest _ hn.suffix.tail hp (rule_lval_stop hr0 hb.1 hb.2)
    exact il (.dot :: .ident n :: (tail ++ rest)) hn (noParen_cons (by simp))
      (noBracket_cons (by simp) (by simp)) out (.dot (rule_select hr0 h1 hm1) hm2)
  · -- ident
    intro n rest hn hp out ho
    obtain ⟨mid, hm1, hm2⟩ := ho.lval rfl
    by_cases hd : ∃ r, rest = .dot :: r
    · obtain ⟨r, rfl⟩ := hd
      exact rule_ident rule_identExpr_dot (ho.runs rfl)
    · have hd' : ∀ r, rest ≠ .dot :: r := fun r hr => hd ⟨r, hr⟩
      exact rule_ident (rule_identExpr_lval hp hd' hm1) hm2
  · -- str
    intro n rest hn hp out ho
    exact rule_str (ho.runs rfl)
  · -- call
    intro n args ta ha ia rest hn hp out ho
    exact rule_ident (rule_identExpr_call (ia n [] rest hn.tail.tail)) (ho.runs rfl)
  · -- methodCall
    intro n l args tl ta hl ha il ia rest hn hp out ho
    simp only [List.append_assoc, List.cons_append] at hn ⊢
    obtain ⟨mid, hm1, hm2⟩ := ho.select rfl
    have h1 := rule_identExpr_call (ia n [] rest hn.suffix.tail.tail.tail)
    exact il (.dot :: .ident n :: .openParen :: (ta ++ rest)) hn (noParen_cons (by simp))
      (noBracket_cons (by simp) (by simp)) out (.dot (rule_select rfl h1 hm1) hm2)
  · -- proxy
    intro k e te he ie rest hn hp out ho
    simp only [List.append_assoc, List.cons_append, List.nil_append] at hn ⊢
    obtain ⟨mid, hm1, hm2⟩ := ho.select rfl
    exact ie (.dot :: .ofKw k :: rest) hn (noParen_cons (by simp))
      (noBracket_cons (by simp) (by simp)) out (.dot (rule_select_of hm1) hm2)
  · -- index
    intro l i tl ti hl hi il ii rest hn hp out ho
    simp only [List.append_assoc, List.cons_append, List.nil_append] at hn ⊢
    obtain ⟨mid, hm1, hm2⟩ := ho.lval rfl
    have h1 := ii (.closeSquare :: rest) hn.suffix.tail (ends_none rfl)
    exact il (.openSquare :: (ti ++ .closeSquare :: rest)) hn (noParen_cons (by simp)) out
      (.open (rule_lval_index (derives_not_null hl) h1 hm1) hm2)
  · -- post
    intro o e te he ie rest hn hp out ho
    simp only [List.append_assoc, List.cons_append, List.nil_append] at hn ⊢
    have he0 := derives_not_null he
    have h1 := rule_restFactor_post o he0 (ho.runs rfl)
    exact ie (o.tok :: rest) hn (noParen_cons (by cases o <;> simp [PostOp.tok]))
      (noBracket_cons (by cases o <;> simp [PostOp.tok]) (by cases o <;> simp [PostOp.tok])) out
      (.other (noBracket_cons (by cases o <;> simp [PostOp.tok]) (by cases o <;> simp [PostOp.tok]))
        (by cases o <;> simp [PostOp.tok]) h1)
  · -- paren
    intro e te he ie rest hn hp out ho
    simp only [List.append_assoc, List.cons_append, List.nil_append] at hn ⊢
    have h1 := ie (.closeParen :: rest) hn.tail (ends_none rfl)
    exact rule_paren (derives_head he _) h1 (ho.runs (derives_not_null he))
  · -- lval ident
    intro n
    refine ⟨n, [], rfl, fun rest mid hn hp h => ?_⟩
    by_cases hd : ∃ r, rest = .dot :: r
    · obtain ⟨r, rfl⟩ := hd
      have := h.unique (rule_lval_stop (e := .ident n) rfl (by simp) (by simp))
      subst this
      exact rule_identExpr_dot
    · exact rule_identExpr_lval hp (fun r hr => hd ⟨r, hr⟩) h
  · -- lval index
    rintro l i tl ti hl hi ⟨n, tail, rfl, il⟩ ii
    refine ⟨n, tail ++ .openSquare :: (ti ++ [.closeSquare]), rfl, fun rest mid hn hp h => ?_⟩
    simp only [List.append_assoc, List.cons_append, List.nil_append] at hn ⊢
    have h1 := ii (.closeSquare :: rest) hn.tail.suffix.tail (ends_none rfl)
    exact il (.openSquare :: (ti ++ .closeSquare :: rest)) mid hn (noParen_cons (by simp))
      (rule_lval_index (derivesLval_not_null hl) h1 h)
  · -- no arguments
    intro n acc rest hn
    simpa using rule_call_none n acc rest
  · -- last argument
    intro a ta ha ia n acc rest hn
    simp only [List.append_assoc, List.cons_append, List.nil_append] at hn ⊢
    have h1 := ia (.closeParen :: rest) hn (ends_none rfl)
    exact rule_call_last (n := n) (acc := acc) (derives_not_null ha) h1
  · -- more arguments
    intro a b ta tb bs ha hb ia ib n acc rest hn
    simp only [List.append_assoc, List.cons_append, List.nil_append] at hn ⊢
    have h1 := ia (.comma :: (tb ++ rest)) hn (ends_none rfl)
    have := rule_call_more (n := n) (acc := acc) (derives_not_null ha) h1
      (ib n (a :: acc) rest hn.suffix.tail)
    simpa using this

end Ulam.Parser
