import Verif.StmtParse.Sound
/- What is written in the grammar is accepted. -/
namespace Ulam.StmtParse

theorem head_write (t : Tree) : ∃ k l, write t = k :: l ∧ k ≠ .kElse ∧ k ≠ .cc ∧ (k = .oc → ∃ ts, t = .block ts) := by
  cases t <;> simp [write]

/-- What is to be shown of a statement. -/
def CompT (t : Tree) : Prop :=
  ∀ f rest e, 4 * (write t ++ rest).length + 2 ≤ f → (openEnd t = true → rest.head? ≠ some .kElse) →
    ∃ node app, pStatement f ⟨write t ++ rest, false, e⟩ = some (node, app, ⟨rest, false, e⟩) ∧
      (node = some t ∧ app = .nil ∨ node = none ∧ app = .one t)

/-- The same for statements before a `}`. -/
def CompTs (ts : Trees) : Prop :=
  ts ≠ .nil → ∀ f rest e, 4 * (writes ts ++ .cc :: rest).length + 3 ≤ f →
    pStatements f ⟨writes ts ++ .cc :: rest, false, e⟩ = some (ts, ⟨.cc :: rest, false, e⟩)

/-- A statement, and the statements in it when it is a block. -/
def CompB (t : Tree) : Prop := CompT t ∧ ∀ ts, t = .block ts → CompTs ts

def CompG (v : Bool) (gs : Groups) : Prop :=
  ∀ f d rest e, 4 * (writeG gs ++ .cc :: rest).length + 5 ≤ f → (d = true → gs = .nil) →
    pGroups f v d ⟨writeG gs ++ .cc :: rest, false, e⟩ = some (gs, ⟨.cc :: rest, false, e⟩)

theorem pBlock_comp {ts : Trees} (h : CompTs ts) (f rest e)
    (hf : 4 * (write (.block ts) ++ rest).length + 1 ≤ f) :
    pBlock f ⟨write (.block ts) ++ rest, false, e⟩ = some (some (.block ts), ⟨rest, false, e⟩) := by
  cases f with
  | zero => omega
  | succ f =>
    have hw : write (.block ts) ++ rest = .oc :: (writes ts ++ .cc :: rest) := by simp [write]
    rw [hw] at hf ⊢
    simp only [List.length_cons] at hf
    unfold pBlock
    cases ts with
    | nil => simp [St.next, St.drop, writes]
    | cons t ts =>
      obtain ⟨k, l, hk, h1, h2, -⟩ := head_write t
      have := h (by simp) f rest e (by omega)
      have hn : (writes (.cons t ts) ++ .cc :: rest).head? ≠ some .cc := by simp [writes, hk, h2]
      rw [if_neg (by simp [St.next]), if_neg (by simpa [St.next, St.drop] using hn)]
      simp only [St.drop, List.tail_cons]
      rw [this]
      simp [St.next]

theorem pAsBlock_comp {t : Tree} (h : CompB t) (f rest e)
    (hf : 4 * (write t ++ rest).length + 3 ≤ f) (ho : openEnd t = true → rest.head? ≠ some .kElse) :
    pAsBlock f ⟨write t ++ rest, false, e⟩ = some (some t, ⟨rest, false, e⟩) := by
  cases f with
  | zero => omega
  | succ f =>
    obtain ⟨k, l, hk, h1, h2, h3⟩ := head_write t
    unfold pAsBlock
    by_cases hoc : k = .oc
    · obtain ⟨ts, rfl⟩ := h3 hoc
      rw [if_pos (by simp [St.next, hk, hoc])]
      exact pBlock_comp (h.2 ts rfl) f rest e (by omega)
    · rw [if_neg (by simp [St.next, hk, hoc])]
      obtain ⟨node, app, g1, g2⟩ := h.1 f rest e (by omega) ho
      rw [g1]
      simp [single_eq g2]

theorem pBody_comp {t : Tree} (h : CompB t) (c : Option Ex) (a : Bool) (ha : a = true → isAs c = true) (f rest e)
    (hf : 4 * (write t ++ rest).length + 4 ≤ f) (ho : openEnd t = true → rest.head? ≠ some .kElse) :
    pBody f c ⟨write t ++ rest, a, e⟩ = some (some t, ⟨rest, false, e⟩) := by
  cases f with
  | zero => omega
  | succ f =>
    unfold pBody
    cases a with
    | false =>
      rw [if_neg (by simp)]
      exact pAsBlock_comp h f rest e (by omega) ho
    | true =>
      rw [if_pos rfl, if_neg (by simp [ha rfl])]
      obtain ⟨k, l, hk, h1, h2, h3⟩ := head_write t
      by_cases hoc : k = .oc
      · obtain ⟨ts, rfl⟩ := h3 hoc
        have hw : write (.block ts) ++ rest = .oc :: (writes ts ++ .cc :: rest) := by simp [write]
        rw [hw] at hf ⊢
        simp only [List.length_cons] at hf
        rw [if_pos (by simp [St.next])]
        cases ts with
        | nil => simp [St.next, St.drop, St.setAs, writes]
        | cons t ts =>
          obtain ⟨k, l, hk, h1, h2, -⟩ := head_write t
          have := h.2 _ rfl (by simp) f rest e (by omega)
          have hn : (writes (.cons t ts) ++ .cc :: rest).head? ≠ some .cc := by simp [writes, hk, h2]
          rw [if_neg (by simpa [St.next, St.drop] using hn)]
          simp only [St.drop, List.tail_cons, St.setAs]
          rw [this]
          simp [St.next]
      · rw [if_neg (by simp [St.next, hk, hoc])]
        obtain ⟨node, app, g1, g2⟩ := h.1 f rest e (by omega) ho
        simp only [St.setAs]
        rw [g1]
        simp [single_eq g2]

theorem pLabels_comp_no (v : Bool) : ∀ (ls : List (Option Ex)) (f : Nat) (acc : List (Option Ex)) (rest : List Tok)
    (e : Nat), labelsOk true ls = true → ls.all (fun l => l.all noAs) = true →
    (wLabels ls ++ .oc :: rest).length + 1 ≤ f →
    pLabels f v false acc ⟨wLabels ls ++ .oc :: rest, false, e⟩
      = some (acc ++ ls, decide (none ∈ ls), ⟨.oc :: rest, false, e⟩)
  | _, 0, _, _, _, _, _, hf => by omega
  | [], f + 1, acc, rest, e, _, _, _ => by
    unfold pLabels
    simp [wLabels, St.next]
  | some c :: ls, f + 1, acc, rest, e, h1, h2, hf => by
    simp only [List.all_cons, Bool.and_eq_true, Option.all_some, noAs, beq_iff_eq] at h2
    have ih := pLabels_comp_no v ls f (acc ++ [some c]) rest e h1 h2.2
      (by simp [wLabels] at hf ⊢; omega)
    unfold pLabels
    simp [wLabels, St.next, St.drop, pExpr, h2.1, ih]
  | none :: ls, f + 1, acc, rest, e, h1, h2, hf => by
    simp only [labelsOk, Bool.true_and, List.isEmpty_iff] at h1
    subst h1
    cases f with
    | zero => simp [wLabels] at hf
    | succ f =>
      have h0 : pLabels (f + 1) v true (acc ++ [none]) ⟨.oc :: rest, false, e⟩
          = some (acc ++ [none], true, ⟨.oc :: rest, false, e⟩) := by
        unfold pLabels
        simp [St.next]
      unfold pLabels
      simp [wLabels, St.next, St.drop, h0]

theorem pLabels_comp_as (e : Ex) (he : e.as = .top) (f : Nat) (rest : List Tok) (n : Nat) :
    pLabels (f + 1) false false [] ⟨wLabels [some e] ++ rest, false, n⟩ = some ([some e], false, ⟨rest, true, n⟩) := by
  unfold pLabels
  simp [wLabels, St.next, St.drop, pExpr, he]

theorem labelsOk_true : ∀ (x : Bool) ls, labelsOk x ls = true → labelsOk true ls = true
  | true, _, h => h
  | false, ls, h => labelsOk_mono true ls h

theorem labelsOk_none : ∀ ls, labelsOk false ls = true → none ∉ ls
  | [], _ => by simp
  | some _ :: ls, h => by
    have := labelsOk_none ls h
    simpa using this
  | none :: _, h => by simp [labelsOk] at h

theorem finish_comp (rest : List Tok) (a : Bool) (e : Nat) : finish ⟨.semi :: rest, a, e⟩ = ⟨rest, a, e⟩ := by
  simp [finish, St.next, St.drop]

theorem comp_nil : CompTs .nil := fun h => absurd rfl h

theorem comp_cons {t : Tree} {ts : Trees} (h : CompB t) (hs : CompTs ts) : CompTs (.cons t ts) := by
  intro _ f rest e hf
  cases f with
  | zero => omega
  | succ f =>
    have hw : writes (.cons t ts) ++ .cc :: rest = write t ++ (writes ts ++ .cc :: rest) := by simp [writes]
    have hpos : 0 < (write t).length := by obtain ⟨k, l, hk, -⟩ := head_write t; simp [hk]
    have hlen : (write t ++ (writes ts ++ .cc :: rest)).length
        = (write t).length + (writes ts ++ .cc :: rest).length := List.length_append
    rw [hw] at hf ⊢
    unfold pStatements
    have hne : (writes ts ++ .cc :: rest).head? ≠ some .kElse := by
      cases ts with
      | nil => simp [writes]
      | cons u us => obtain ⟨k, l, hk, h1, -⟩ := head_write u; simp [writes, hk, h1]
    obtain ⟨node, app, g1, g2⟩ := h.1 f (writes ts ++ .cc :: rest) e (by omega) (fun _ => hne)
    rw [g1]
    cases ts with
    | nil =>
      rcases g2 with ⟨rfl, rfl⟩ | ⟨rfl, rfl⟩ <;> simp [St.next, writes, Trees.append, Trees.one]
    | cons u us =>
      obtain ⟨k, l, hk, h1, h2, -⟩ := head_write u
      have hn : (writes (.cons u us) ++ .cc :: rest).head? = some k := by simp [writes, hk]
      have := hs (by simp) f rest e (by omega)
      rcases g2 with ⟨rfl, rfl⟩ | ⟨rfl, rfl⟩
      · dsimp only
        rw [if_pos (by simp [St.next, hn, h2]), this]
        simp [Trees.append]
      · dsimp only
        rw [if_pos (by simp [St.next, hn, h2]), this]
        simp [Trees.append, Trees.one]

theorem compG_nil (v : Bool) : CompG v .nil := by
  intro f d rest e hf _
  match f with
  | 0 | 1 => omega
  | f + 2 =>
    unfold pGroups
    unfold pLabels
    simp [writeG, St.next]

theorem compG_cons {v : Bool} {ls : List (Option Ex)} {b : Tree} {gs : Groups} (hb : CompB b) (hbl : isBlock b = true)
    (hg : CompG v gs) (hne : ls ≠ []) (hlo : labelsOk gs.isNil ls = true) (hla : labelsAs v ls = true) :
    CompG v (.cons ls b gs) := by
  intro f d rest e hf hd
  have hd : d = false := by
    cases d with
    | false => rfl
    | true => exact absurd (hd rfl) (by simp)
  subst hd
  cases b with
  | block ts =>
    cases f with
    | zero => omega
    | succ f =>
      have hw : writeG (.cons ls (.block ts) gs) ++ .cc :: rest
          = wLabels ls ++ (write (.block ts) ++ (writeG gs ++ .cc :: rest)) := by simp [writeG]
      have hlen : (wLabels ls ++ (write (.block ts) ++ (writeG gs ++ .cc :: rest))).length
          = (wLabels ls).length + (write (.block ts) ++ (writeG gs ++ .cc :: rest)).length := List.length_append
      have hlen2 : (write (.block ts) ++ (writeG gs ++ .cc :: rest)).length
          = (write (.block ts)).length + (writeG gs ++ .cc :: rest).length := List.length_append
      have hpos : 0 < (write (.block ts)).length := by simp [write]
      rw [hw] at hf ⊢
      have hoc : write (.block ts) ++ (writeG gs ++ .cc :: rest)
          = .oc :: (writes ts ++ .cc :: (writeG gs ++ .cc :: rest)) := by simp [write]
      -- the labels
      have key : ∃ a, pLabels f v false [] ⟨wLabels ls ++ (write (.block ts) ++ (writeG gs ++ .cc :: rest)), false, e⟩
          = some (ls, decide (none ∈ ls), ⟨write (.block ts) ++ (writeG gs ++ .cc :: rest), a, e⟩) ∧
          (a = true → isAs (labelCond ls) = true) := by
        by_cases hno : ls.all (fun l => l.all noAs) = true
        · refine ⟨false, ?_, by simp⟩
          rw [hoc] at hf hlen ⊢
          rw [pLabels_comp_no v ls f [] _ e (labelsOk_true _ _ hlo) hno (by omega)]
          simp
        · simp only [labelsAs, hno, Bool.false_or, Bool.and_eq_true, Bool.not_eq_true', beq_iff_eq] at hla
          obtain ⟨⟨hv, hc⟩, h1⟩ := hla
          obtain ⟨x, rfl⟩ := List.length_eq_one_iff.mp h1
          cases x with
          | none => simp at hc
          | some x =>
            have hx : x.as = .top := by
              cases hx : x.as <;> simp [noAs, condAs, hx] at hno hc ⊢
            subst hv
            cases f with
            | zero => omega
            | succ f =>
              refine ⟨true, ?_, fun _ => by simp [labelCond, isAs, hx]⟩
              rw [pLabels_comp_as x hx]
              simp
      obtain ⟨a, k1, k2⟩ := key
      unfold pGroups
      rw [k1]
      cases ls with
      | nil => exact absurd rfl hne
      | cons l ls =>
        dsimp only
        rw [if_neg (by simp [St.next, write])]
        rw [pBody_comp hb _ a k2 f _ e (by omega) (by simp [openEnd])]
        dsimp only
        rw [hg f _ rest e (by omega) ?_]
        · rfl
        · intro hmem
          cases hgn : gs with
          | nil => rfl
          | cons a b c =>
            rw [hgn] at hlo
            exact absurd (by simpa using hmem) (labelsOk_none _ hlo)
  | _ => simp [isBlock] at hbl

theorem pParen_comp (o : Bool) (c : Ex) (rest : List Tok) (e : Nat) :
    pParen o ⟨.op :: .simp (.ex c) :: .cp :: rest, false, e⟩ = (some (some c), ⟨rest, c.as != .no, e⟩) := by
  simp [pParen, St.next, St.drop, pExpr]

theorem pParen_comp_none (rest : List Tok) (e : Nat) :
    pParen true ⟨.op :: .cp :: rest, false, e⟩ = (some none, ⟨rest, false, e⟩) := by
  simp [pParen, St.next, St.drop, pExpr]

theorem pOptTo_comp (t : Tok) (ht : ∀ e, t ≠ .simp (.ex e)) (o : Option Ex) (a : Bool) (rest : List Tok) (e : Nat) :
    pOptTo t ⟨wOpt o ++ t :: rest, a, e⟩ = (some o, ⟨rest, a || o.any fun x => x.as != .no, e⟩) := by
  cases o with
  | none => simp [pOptTo, wOpt, St.next, St.drop]
  | some x =>
    have : Tok.simp (.ex x) ≠ t := fun h => ht x h.symm
    simp [pOptTo, wOpt, St.next, St.drop, pExpr, this]

theorem pInit_comp (i : Option Simp) (hi : initOk i = true) (ha : i.any Simp.hasAs = false) (rest : List Tok) (e : Nat) :
    pInit ⟨wInit i ++ .semi :: rest, false, e⟩ = (i, ⟨.semi :: rest, false, e⟩) := by
  match i with
  | none => simp [pInit, wInit]
  | some (.ex x) =>
    simp only [initOk] at hi
    simp only [Option.any_some, Simp.hasAs] at ha
    simp [pInit, wInit, hi, St.drop, St.setAs, ha]
  | some (.decl n a) =>
    simp only [Option.any_some, Simp.hasAs] at ha
    simp [pInit, wInit, St.drop, St.setAs, ha]
  | some (.ldef n a) => simp [initOk] at hi

theorem all_noAs {o : Option Ex} (h : o.all noAs = true) : (o.any fun x => x.as != .no) = false := by
  cases o with
  | none => rfl
  | some x => simpa [noAs] using h

theorem pForHead_comp (i : Option Simp) (c st : Option Ex) (hi : initOk i = true) (ha : i.any Simp.hasAs = false)
    (hst : st.all noAs = true) (rest : List Tok) (e : Nat) :
    pForHead ⟨.op :: (wInit i ++ .semi :: (wOpt c ++ .semi :: (wOpt st ++ .cp :: rest))), false, e⟩
      = (some (i, c, st), ⟨rest, c.any fun x => x.as != .no, e⟩) := by
  unfold pForHead
  rw [if_neg (by simp [St.next])]
  have hd : St.drop ⟨.op :: (wInit i ++ .semi :: (wOpt c ++ .semi :: (wOpt st ++ .cp :: rest))), false, e⟩
      = ⟨wInit i ++ .semi :: (wOpt c ++ .semi :: (wOpt st ++ .cp :: rest)), false, e⟩ := rfl
  rw [hd, pInit_comp i hi ha]
  dsimp only
  rw [if_neg (by simp [St.next])]
  have hd2 : St.drop ⟨.semi :: (wOpt c ++ .semi :: (wOpt st ++ .cp :: rest)), false, e⟩
      = ⟨wOpt c ++ .semi :: (wOpt st ++ .cp :: rest), false, e⟩ := rfl
  rw [hd2, pOptTo_comp .semi (by simp)]
  dsimp only
  rw [pOptTo_comp .cp (by simp)]
  simp [all_noAs hst]

theorem isAs_of {c : Ex} (h : condAs c = true) (h2 : (c.as != .no) = true) : isAs (some c) = true := by
  cases hc : c.as <;> simp [condAs, isAs, hc] at h h2 ⊢

theorem comp_ite {c : Ex} {t : Tree} (hc : condAs c = true) (h : CompB t) : CompT (.ite c t) := by
  intro f rest e hf ho
  have hw : write (.ite c t) ++ rest = .kIf :: .op :: .simp (.ex c) :: .cp :: (write t ++ rest) := by simp [write]
  rw [hw] at hf ⊢
  simp only [List.length_cons] at hf
  match f with
  | 0 | 1 => omega
  | f + 2 =>
    have hne := ho rfl
    refine ⟨some (.ite c t), .nil, ?_, Or.inl ⟨rfl, rfl⟩⟩
    unfold pStatement
    simp only [St.next, St.drop, List.head?_cons, List.tail_cons]
    unfold pIf
    rw [pParen_comp]
    dsimp only
    rw [pBody_comp h (some c) _ (isAs_of hc) f rest e (by omega) (fun _ => hne)]
    dsimp only
    rw [if_neg (by simpa [St.next] using hne)]
    rfl

theorem comp_iteElse {c : Ex} {t u : Tree} (hc : condAs c = true) (h : CompB t) (ht : openEnd t = false) (hu : CompB u) :
    CompT (.iteElse c t u) := by
  intro f rest e hf ho
  have hw : write (.iteElse c t u) ++ rest
      = .kIf :: .op :: .simp (.ex c) :: .cp :: (write t ++ .kElse :: (write u ++ rest)) := by simp [write]
  rw [hw] at hf ⊢
  simp only [List.length_cons] at hf
  have hlen : (write t ++ .kElse :: (write u ++ rest)).length = (write t).length + ((write u ++ rest).length + 1) := by
    simp
  match f with
  | 0 | 1 => omega
  | f + 2 =>
    refine ⟨some (.iteElse c t u), .nil, ?_, Or.inl ⟨rfl, rfl⟩⟩
    unfold pStatement
    simp only [St.next, St.drop, List.head?_cons, List.tail_cons]
    unfold pIf
    rw [pParen_comp]
    dsimp only
    rw [pBody_comp h (some c) _ (isAs_of hc) f _ e (by omega) (by simp [ht])]
    dsimp only
    rw [if_pos (by simp [St.next])]
    simp only [St.drop, List.tail_cons]
    rw [pAsBlock_comp hu f rest e (by omega) (fun hx => ho hx)]
    rfl

theorem comp_whil {c : Ex} {t : Tree} (hc : condAs c = true) (h : CompB t) : CompT (.whil c t) := by
  intro f rest e hf ho
  have hw : write (.whil c t) ++ rest = .kWhile :: .op :: .simp (.ex c) :: .cp :: (write t ++ rest) := by simp [write]
  rw [hw] at hf ⊢
  simp only [List.length_cons] at hf
  match f with
  | 0 | 1 => omega
  | f + 2 =>
    refine ⟨some (.whil c t), .nil, ?_, Or.inl ⟨rfl, rfl⟩⟩
    unfold pStatement
    simp only [St.next, St.drop, List.head?_cons, List.tail_cons]
    unfold pWhile
    rw [pParen_comp]
    dsimp only
    rw [pBody_comp h (some c) _ (isAs_of hc) f rest e (by omega) (fun hx => ho hx)]
    rfl

theorem comp_forr {i : Option Simp} {c st : Option Ex} {t : Tree} (hi : initOk i = true)
    (ha : i.any Simp.hasAs = false) (hst : st.all noAs = true) (hc : c.all condAs = true) (h : CompB t) :
    CompT (.forr i c st t) := by
  intro f rest e hf ho
  have hw : write (.forr i c st t) ++ rest
      = .kFor :: .op :: (wInit i ++ .semi :: (wOpt c ++ .semi :: (wOpt st ++ .cp :: (write t ++ rest)))) := by
    simp [write]
  rw [hw] at hf ⊢
  have hlen : 4 * (write t ++ rest).length + 10 ≤ f := by
    simp only [List.length_cons, List.length_append] at hf ⊢
    omega
  match f with
  | 0 | 1 => omega
  | f + 2 =>
    refine ⟨some (.forr i c st t), .nil, ?_, Or.inl ⟨rfl, rfl⟩⟩
    unfold pStatement
    simp only [St.next, St.drop, List.head?_cons, List.tail_cons]
    unfold pFor
    rw [pForHead_comp i c st hi ha hst]
    dsimp only
    rw [pBody_comp h c _ ?_ f rest e (by omega) (fun hx => ho hx)]
    · rfl
    · intro hx
      cases c with
      | none => simp at hx
      | some c => exact isAs_of (by simpa using hc) (by simpa using hx)

theorem comp_which {c : Option Ex} {gs : Groups} (hc : c.all noAs = true) (h : CompG c.isSome gs) :
    CompT (.which c gs) := by
  intro f rest e hf ho
  have hw : write (.which c gs) ++ rest
      = .kWhich :: .op :: (wOpt c ++ .cp :: .oc :: (writeG gs ++ .cc :: rest)) := by simp [write]
  rw [hw] at hf ⊢
  have hlen : 4 * (writeG gs ++ .cc :: rest).length + 10 ≤ f := by
    simp only [List.length_cons, List.length_append] at hf ⊢
    omega
  match f with
  | 0 | 1 => omega
  | f + 2 =>
    refine ⟨some (.which c gs), .nil, ?_, Or.inl ⟨rfl, rfl⟩⟩
    unfold pStatement
    simp only [St.next, St.drop, List.head?_cons, List.tail_cons]
    unfold pWhich
    have hp : pParen true ⟨.op :: (wOpt c ++ .cp :: .oc :: (writeG gs ++ .cc :: rest)), false, e⟩
        = (some c, ⟨.oc :: (writeG gs ++ .cc :: rest), false, e⟩) := by
      cases c with
      | none => exact pParen_comp_none _ _
      | some x =>
        have hx : x.as = .no := by simpa [noAs] using hc
        have := pParen_comp true x (.oc :: (writeG gs ++ .cc :: rest)) e
        rw [hx] at this
        exact this
    rw [hp]
    dsimp only
    rw [if_neg (by simp [St.next])]
    simp only [St.drop, List.tail_cons]
    rw [h f false rest e (by omega) (by simp)]
    simp [St.next, St.drop]

theorem comp_simple {t : Tree} (hk : ∀ l (s : St), s.toks = write t ++ l → s.asF = false →
      s.next ≠ some .oc ∧ s.next ≠ some .kIf ∧ s.next ≠ some .kWhile ∧ s.next ≠ some .kFor ∧ s.next ≠ some .kWhich ∧
      s.next ≠ some .kElse)
    (h : ∀ rest e, pSimple ⟨write t ++ rest, false, e⟩ = (.one t, ⟨rest, false, e⟩)) : CompT t := by
  intro f rest e hf _
  cases f with
  | zero => omega
  | succ f =>
    refine ⟨none, .one t, ?_, Or.inr ⟨rfl, rfl⟩⟩
    unfold pStatement
    obtain ⟨h1, h2, h3, h4, h5, h6⟩ := hk rest ⟨write t ++ rest, false, e⟩ rfl rfl
    split
    · exact absurd (by assumption) h1
    · exact absurd (by assumption) h2
    · exact absurd (by assumption) h3
    · exact absurd (by assumption) h4
    · exact absurd (by assumption) h5
    · exact absurd (by assumption) h6
    · rw [h rest e]

theorem comp_block {ts : Trees} (h : CompTs ts) : CompB (.block ts) := by
  refine ⟨?_, fun us hu => by cases hu; exact h⟩
  intro f rest e hf _
  cases f with
  | zero => omega
  | succ f =>
    refine ⟨some (.block ts), .nil, ?_, Or.inl ⟨rfl, rfl⟩⟩
    unfold pStatement
    have hn : St.next ⟨write (.block ts) ++ rest, false, e⟩ = some .oc := by simp [St.next, write]
    rw [hn]
    dsimp only
    rw [pBlock_comp h f rest e (by omega)]
    rfl

mutual
theorem compB : ∀ t, good t = true → condsOk t = true → noStray t = true → CompB t
  | .simp x, _, _, h => by
    refine ⟨comp_simple ?_ ?_, fun _ hx => by cases hx⟩
    · intro l s hs _; simp [St.next, hs, write]
    · intro rest e
      cases x with
      | ex c =>
        have hc : c.as = .no := by simpa [noStray, Simp.hasAs] using h
        simp [pSimple, pExpr, write, hc, finish_comp]
      | decl n a =>
        have hc : a = false := by simpa [noStray, Simp.hasAs] using h
        simp [pSimple, write, hc, St.drop, St.setAs, finish_comp]
      | ldef n a =>
        have hc : a = false := by simpa [noStray, Simp.hasAs] using h
        simp [pSimple, write, hc, St.drop, St.setAs, finish_comp]
  | .empty, _, _, _ => by
    refine ⟨comp_simple ?_ ?_, fun _ hx => by cases hx⟩
    · intro l s hs _; simp [St.next, hs, write]
    · intro rest e; simp [pSimple, write, finish_comp]
  | .brk, _, _, _ => by
    refine ⟨comp_simple ?_ ?_, fun _ hx => by cases hx⟩
    · intro l s hs _; simp [St.next, hs, write]
    · intro rest e; simp [pSimple, write, St.drop, finish_comp]
  | .cont, _, _, _ => by
    refine ⟨comp_simple ?_ ?_, fun _ hx => by cases hx⟩
    · intro l s hs _; simp [St.next, hs, write]
    · intro rest e; simp [pSimple, write, St.drop, finish_comp]
  | .ret o, _, _, h => by
    refine ⟨comp_simple ?_ ?_, fun _ hx => by cases hx⟩
    · intro l s hs _; simp [St.next, hs, write]
    · intro rest e
      cases o with
      | none => simp [pSimple, pExpr, write, wOpt, St.drop, finish_comp]
      | some c =>
        have hc : c.as = .no := by simpa [noStray, noAs] using h
        simp [pSimple, pExpr, write, wOpt, St.drop, hc, finish_comp]
  | .block ts, h1, h2, h3 =>
    comp_block (compTs ts (by simpa [good] using h1) (by simpa [condsOk] using h2) (by simpa [noStray] using h3))
  | .ite c t, h1, h2, h3 => by
    simp only [condsOk, Bool.and_eq_true] at h2
    exact ⟨comp_ite h2.1 (compB t (by simpa [good] using h1) h2.2 (by simpa [noStray] using h3)),
      fun _ hx => by cases hx⟩
  | .iteElse c t u, h1, h2, h3 => by
    simp only [condsOk, Bool.and_eq_true] at h2
    simp only [noStray, Bool.and_eq_true] at h3
    simp only [good, Bool.and_eq_true, Bool.not_eq_true'] at h1
    exact ⟨comp_iteElse h2.1.1 (compB t h1.1.1 h2.1.2 h3.1) h1.1.2 (compB u h1.2 h2.2 h3.2),
      fun _ hx => by cases hx⟩
  | .whil c t, h1, h2, h3 => by
    simp only [condsOk, Bool.and_eq_true] at h2
    exact ⟨comp_whil h2.1 (compB t (by simpa [good] using h1) h2.2 (by simpa [noStray] using h3)),
      fun _ hx => by cases hx⟩
  | .forr i c st t, h1, h2, h3 => by
    simp only [condsOk, Bool.and_eq_true] at h2
    simp only [noStray, Bool.and_eq_true, Bool.not_eq_true'] at h3
    simp only [good, Bool.and_eq_true] at h1
    exact ⟨comp_forr h1.1 h3.1.1 h3.1.2 h2.1 (compB t h1.2 h2.2 h3.2), fun _ hx => by cases hx⟩
  | .which e gs, h1, h2, h3 => by
    simp only [noStray, Bool.and_eq_true] at h3
    exact ⟨comp_which h3.1 (compG e.isSome gs (by simpa [good] using h1) (by simpa [condsOk] using h2) h3.2),
      fun _ hx => by cases hx⟩
theorem compTs : ∀ ts, goods ts = true → condsOks ts = true → noStrays ts = true → CompTs ts
  | .nil, _, _, _ => comp_nil
  | .cons t ts, h1, h2, h3 => by
    simp only [goods, Bool.and_eq_true] at h1
    simp only [condsOks, Bool.and_eq_true] at h2
    simp only [noStrays, Bool.and_eq_true] at h3
    exact comp_cons (compB t h1.1 h2.1 h3.1) (compTs ts h1.2 h2.2 h3.2)
theorem compG : ∀ v gs, goodG gs = true → condsOkG v gs = true → noStrayG gs = true → CompG v gs
  | v, .nil, _, _, _ => compG_nil v
  | v, .cons ls b gs, h1, h2, h3 => by
    simp only [goodG, Bool.and_eq_true, Bool.not_eq_true', List.isEmpty_eq_false_iff] at h1
    simp only [condsOkG, Bool.and_eq_true] at h2
    simp only [noStrayG, Bool.and_eq_true] at h3
    exact compG_cons (compB b h1.1.2 h2.1.2 h3.1) h1.1.1.2 (compG v gs h1.2 h2.2 h3.2) h1.1.1.1.1 h1.1.1.1.2 h2.1.1
end

end Ulam.StmtParse
