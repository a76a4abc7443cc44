import Verif.Consts.Spec
import Mathlib.Tactic.SplitIfs
import Mathlib.Tactic.ByContra
import Mathlib.Tactic.Push
import Mathlib.Tactic.Tauto
import Mathlib.Order.Basic

namespace Ulam.Consts

variable {O V : Type} {P : Prog O V}

/-! ### Passes in general -/

theorem foldl_inv {α β : Type} (f : α → β → α) (I : α → Prop) (l : List β)
    (h : ∀ a b, b ∈ l → I a → I (f a b)) : ∀ a, I a → I (l.foldl f a) := by
  induction l with
  | nil => intro a ha; exact ha
  | cons b l ih =>
    intro a ha
    exact ih (fun a' b' hb' => h a' b' (List.mem_cons_of_mem _ hb')) _ (h a b (List.mem_cons_self ..) ha)

theorem pass_inv (I : State O V → Prop) (ns : List Nat)
    (h : ∀ (a : Acc O V) n, n ∈ ns → I a.st → I (defStep P a n).st) (s : State O V) (hs : I s) :
    I (pass P ns s).st :=
  foldl_inv (defStep P) (fun a => I a.st) ns h _ hs

theorem loop_inv (I : State O V → Prop)
    (h : ∀ (a : Acc O V) n, n ∈ P.classes ++ P.locals → I a.st → I (defStep P a n).st) :
    ∀ k s s', I s → loop P k s = some s' → I s' := by
  intro k
  induction k with
  | zero => intro s s' hs e; simp only [loop, Option.some.injEq] at e; exact e ▸ hs
  | succ k ih =>
    intro s s' hs e
    have h1 : I (round P (k == 0) s).st := by
      unfold round
      exact pass_inv I _ (fun a n hn => h a n (List.mem_append_left _ hn)) _
        (pass_inv I _ (fun a n hn => h a n (List.mem_append_right _ hn)) _ hs)
    simp only [loop] at e
    split_ifs at e with h2 h3
    · exact ih _ _ h1 e
    · simp only [Option.some.injEq] at e
      exact e ▸ h1

theorem compile_inv [Inhabited V] (I : State O V → Prop) (h0 : I (start P))
    (h : ∀ (a : Acc O V) n, n ∈ P.classes ++ P.locals → I a.st → I (defStep P a n).st)
    {s : State O V} (e : compile P = some s) : I s := by
  unfold compile at e
  have h1 : I (firstPass P (start P)).st := by
    unfold firstPass
    exact pass_inv I _ (fun a n hn => h a n (List.mem_append_right _ hn)) _
      (pass_inv I _ (fun a n hn => h a n (List.mem_append_left _ hn)) _ h0)
  dsimp only at e
  split_ifs at e
  exact loop_inv I h _ _ _ h1 e

theorem upd_same (s : State O V) (n : Nat) (c : Cell O V) : upd s n c n = c := by simp [upd]

theorem upd_other (s : State O V) {n m : Nat} (c : Cell O V) (h : m ≠ n) : upd s n c m = s m := by
  simp [upd, h]

/-- What one step does, case by case. -/
theorem defStep_cases (a : Acc O V) (n : Nat) :
    ((a.st n).bad = true ∧ defStep P a n = a) ∨
    ((a.st n).val.isSome = true ∧ defStep P a n = a) ∨
    ((a.st n).bad = false ∧ (a.st n).val = none ∧
      ((∃ e w, (defStep P a n) = ⟨upd a.st n ⟨(label P (env a.st) (a.st n).tree).tree, none, true⟩, a.errs + e, w, a.again⟩ ∧ 0 < e
          ∧ a.waits ≤ w ∧ ((label P (env a.st) (a.st n).tree).stat = .nav ∨
            ∃ v, (label P (env a.st) (a.st n).tree).stat = .ok ∧ valOf (label P (env a.st) (a.st n).tree).tree = some v ∧ P.sem.store n v = none)) ∨
       (∃ w, (defStep P a n) = ⟨upd a.st n ⟨(label P (env a.st) (a.st n).tree).tree, none, false⟩,
          a.errs + (label P (env a.st) (a.st n).tree).errs, w, true⟩
          ∧ a.waits < w ∧ ((label P (env a.st) (a.st n).tree).stat = .hzy ∨
            ((label P (env a.st) (a.st n).tree).stat = .ok ∧ valOf (label P (env a.st) (a.st n).tree).tree = none))) ∨
       (∃ v w, (label P (env a.st) (a.st n).tree).stat = .ok ∧ valOf (label P (env a.st) (a.st n).tree).tree = some v ∧ P.sem.store n v = some w ∧
          (defStep P a n) = ⟨upd a.st n ⟨.lit w, some w, false⟩, a.errs + (label P (env a.st) (a.st n).tree).errs,
            a.waits + (label P (env a.st) (a.st n).tree).waits, a.again⟩))) := by
  by_cases hb : (a.st n).bad = true
  · left; exact ⟨hb, by simp [defStep, hb]⟩
  · by_cases hv : (a.st n).val.isSome = true
    · right; left; exact ⟨hv, by simp [defStep, hb, hv]⟩
    · right; right
      refine ⟨by simpa using hb, by simpa using hv, ?_⟩
      have hd : defStep P a n = match (label P (env a.st) (a.st n).tree).stat with
          | .nav => ⟨upd a.st n ⟨(label P (env a.st) (a.st n).tree).tree, none, true⟩, a.errs + (label P (env a.st) (a.st n).tree).errs + 1, a.waits + (label P (env a.st) (a.st n).tree).waits, a.again⟩
          | .hzy => ⟨upd a.st n ⟨(label P (env a.st) (a.st n).tree).tree, none, false⟩, a.errs + (label P (env a.st) (a.st n).tree).errs, a.waits + (label P (env a.st) (a.st n).tree).waits + 1, true⟩
          | .ok => foldDef P a n (label P (env a.st) (a.st n).tree) := by
        simp only [defStep, hb, hv]
        rfl
      generalize hr : label P (env a.st) (a.st n).tree = r at *
      cases hst : r.stat with
      | nav =>
        rw [hst] at hd
        left
        exact ⟨r.errs + 1, _, hd, by omega, by omega, Or.inl rfl⟩
      | hzy =>
        rw [hst] at hd
        right; left
        exact ⟨_, hd, by omega, Or.inl rfl⟩
      | ok =>
        rw [hst] at hd
        dsimp only at hd
        unfold foldDef at hd
        cases hval : valOf r.tree with
        | none =>
          rw [hval] at hd
          right; left
          exact ⟨_, hd, by omega, Or.inr ⟨rfl, rfl⟩⟩
        | some v =>
          rw [hval] at hd
          dsimp only at hd
          cases hsto : P.sem.store n v with
          | none =>
            rw [hsto] at hd
            left
            exact ⟨r.errs + 2, _, hd, by omega, by omega, Or.inr ⟨v, rfl, rfl, hsto⟩⟩
          | some w =>
            rw [hsto] at hd
            right; right
            exact ⟨v, w, rfl, rfl, hsto, hd⟩

/-- What holds after every step. -/
structure Mono (a b : Acc O V) : Prop where
  errs : a.errs ≤ b.errs
  waits : a.waits ≤ b.waits
  again : a.again = true → b.again = true
  val : ∀ n v, (a.st n).val = some v → (b.st n).val = some v
  bad : ∀ n, (b.st n).bad = true → (a.st n).bad = true ∨ a.errs < b.errs
  stays : ∀ n, (a.st n).bad = true → (b.st n).bad = true

theorem Mono.refl (a : Acc O V) : Mono a a :=
  ⟨Nat.le_refl _, Nat.le_refl _, id, fun _ _ h => h, fun _ h => Or.inl h, fun _ h => h⟩

theorem Mono.trans {a b c : Acc O V} (h : Mono a b) (g : Mono b c) : Mono a c where
  errs := Nat.le_trans h.errs g.errs
  waits := Nat.le_trans h.waits g.waits
  again := fun x => g.again (h.again x)
  val := fun n v x => g.val n v (h.val n v x)
  bad := fun n x => by
    have := h.errs; have := g.errs
    rcases g.bad n x with y | y
    · rcases h.bad n y with z | z
      · exact Or.inl z
      · right; omega
    · right; omega
  stays := fun n x => g.stays n (h.stays n x)

theorem defStep_mono (a : Acc O V) (n : Nat) : Mono a (defStep P a n) ∧
    (((defStep P a n).st n).val.isSome = true ∨ ((defStep P a n).st n).bad = true ∨
      (a.waits < (defStep P a n).waits ∧ (defStep P a n).again = true)) := by
  rcases defStep_cases (P := P) a n with ⟨h1, h2⟩ | ⟨h1, h2⟩ | ⟨hb, hv, h⟩
  · rw [h2]; exact ⟨Mono.refl a, Or.inr (Or.inl h1)⟩
  · rw [h2]; exact ⟨Mono.refl a, Or.inl h1⟩
  · rcases h with ⟨e, w, h, he, hw, -⟩ | ⟨w, h, hw, -⟩ | ⟨v, w, -, -, -, h⟩
    · rw [h]
      refine ⟨⟨by simp, hw, id, ?_, ?_, ?_⟩, ?_⟩
      · intro m v hm
        by_cases hmn : m = n
        · subst hmn; rw [hv] at hm; cases hm
        · simpa [upd_other _ _ hmn] using hm
      · intro m hm
        right
        show a.errs < a.errs + e
        omega
      · intro m hm
        by_cases hmn : m = n
        · subst hmn; rw [hb] at hm; cases hm
        · simpa [upd_other _ _ hmn] using hm
      · right; left; simp [upd_same]
    · rw [h]
      refine ⟨⟨by simp, Nat.le_of_lt hw, fun _ => rfl, ?_, ?_, ?_⟩, ?_⟩
      · intro m v hm
        by_cases hmn : m = n
        · subst hmn; rw [hv] at hm; cases hm
        · simpa [upd_other _ _ hmn] using hm
      · intro m hm
        by_cases hmn : m = n
        · subst hmn; simp [upd_same] at hm
        · left; simpa [upd_other _ _ hmn] using hm
      · intro m hm
        by_cases hmn : m = n
        · subst hmn; rw [hb] at hm; cases hm
        · simpa [upd_other _ _ hmn] using hm
      · right; right; exact ⟨hw, rfl⟩
    · rw [h]
      refine ⟨⟨by simp, by simp, id, ?_, ?_, ?_⟩, ?_⟩
      · intro m v hm
        by_cases hmn : m = n
        · subst hmn; rw [hv] at hm; cases hm
        · simpa [upd_other _ _ hmn] using hm
      · intro m hm
        by_cases hmn : m = n
        · subst hmn; simp [upd_same] at hm
        · left; simpa [upd_other _ _ hmn] using hm
      · intro m hm
        by_cases hmn : m = n
        · subst hmn; rw [hb] at hm; cases hm
        · simpa [upd_other _ _ hmn] using hm
      · left; simp [upd_same]

theorem foldl_mono (ns : List Nat) : ∀ a : Acc O V, Mono a (ns.foldl (defStep P) a) ∧
    ∀ n ∈ ns, ((ns.foldl (defStep P) a).st n).val.isSome = true ∨ ((ns.foldl (defStep P) a).st n).bad = true ∨
      (a.waits < (ns.foldl (defStep P) a).waits ∧ (ns.foldl (defStep P) a).again = true) := by
  induction ns with
  | nil => intro a; exact ⟨Mono.refl a, fun n hn => by cases hn⟩
  | cons x xs ih =>
    intro a
    obtain ⟨h1, h2⟩ := defStep_mono (P := P) a x
    obtain ⟨h3, h4⟩ := ih (defStep P a x)
    refine ⟨h1.trans h3, ?_⟩
    intro n hn
    have w1 := h1.waits
    have w3 := h3.waits
    simp only [List.foldl_cons]
    rcases List.mem_cons.1 hn with rfl | hn
    · rcases h2 with h | h | ⟨h, g⟩
      · left
        obtain ⟨v, hv⟩ := Option.isSome_iff_exists.1 h
        rw [h3.val _ _ hv]; rfl
      · right; left; exact h3.stays _ h
      · right; right; exact ⟨by omega, h3.again g⟩
    · rcases h4 n hn with h | h | ⟨h, g⟩
      · exact Or.inl h
      · exact Or.inr (Or.inl h)
      · exact Or.inr (Or.inr ⟨by omega, g⟩)

/-- No definition is in error. -/
def NoBad (s : State O V) : Prop := ∀ n, (s n).bad = false

theorem pass_nobad (ns : List Nat) (s : State O V) (h : NoBad s) (he : (pass P ns s).errs = 0) :
    NoBad (pass P ns s).st := by
  intro n
  by_contra hb
  have hb : ((pass P ns s).st n).bad = true := by simpa using hb
  rcases (foldl_mono (P := P) ns ⟨s, 0, 0, false⟩).1.bad n hb with g | g
  · have := h n; simp_all
  · change 0 < (pass P ns s).errs at g; omega

theorem pass_done (ns : List Nat) (s : State O V) (h : NoBad s) (he : (pass P ns s).errs = 0)
    (n : Nat) (hn : n ∈ ns) : ((pass P ns s).st n).val.isSome = true ∨
      (0 < (pass P ns s).waits ∧ (pass P ns s).again = true) := by
  rcases (foldl_mono (P := P) ns ⟨s, 0, 0, false⟩).2 n hn with g | g | g
  · exact Or.inl g
  · have := pass_nobad ns s h he n
    unfold pass at this
    simp_all
  · exact Or.inr g

theorem pass_val (ns : List Nat) (s : State O V) (n : Nat) (v : V) (h : (s n).val = some v) :
    ((pass P ns s).st n).val = some v :=
  (foldl_mono (P := P) ns ⟨s, 0, 0, false⟩).1.val n v h

theorem round_nobad (b : Bool) (s : State O V) (h : NoBad s) (he : (round P b s).errs = 0) :
    NoBad (round P b s).st := by
  unfold round at he ⊢
  dsimp only at he ⊢
  have h1 : (pass P P.locals s).errs = 0 := by omega
  exact pass_nobad _ _ (pass_nobad _ _ h h1) (by omega)

theorem firstPass_nobad (s : State O V) (h : NoBad s) (he : (firstPass P s).errs = 0) :
    NoBad (firstPass P s).st := by
  unfold firstPass at he ⊢
  dsimp only at he ⊢
  have h1 : (pass P P.classes s).errs = 0 := by omega
  exact pass_nobad _ _ (pass_nobad _ _ h h1) (by omega)

/-- An accepted program: every constant of a class has a value. -/
theorem loop_classes : ∀ k s s', NoBad s → loop P (k + 1) s = some s' →
    ∀ n ∈ P.classes, (s' n).val.isSome = true := by
  intro k
  induction k with
  | zero =>
    intro s s' hs e n hn
    have key : (round P true s).errs = 0 → ((round P true s).st n).val.isSome = true := by
      intro he
      unfold round at he ⊢
      simp only [if_true] at he ⊢
      have h1 : (pass P P.locals s).errs = 0 := by omega
      have h2 : (pass P P.classes (pass P P.locals s).st).errs = 0 := by omega
      rcases pass_done P.classes _ (pass_nobad _ _ hs h1) h2 n hn with g | ⟨g, -⟩
      · exact g
      · omega
    simp only [loop, beq_self_eq_true] at e
    split_ifs at e with h2 h3
    · simp only [Option.some.injEq] at e
      rw [← e]; exact key (by omega)
    · simp only [Option.some.injEq] at e
      rw [← e]; exact key (by omega)
  | succ k ih =>
    intro s s' hs e n hn
    rw [loop] at e
    split_ifs at e with h2 h3
    · exact ih _ _ (round_nobad _ _ hs (by omega)) e n hn
    · simp only [Option.some.injEq] at e
      rw [← e]
      have he : (round P (k + 1 == 0) s).errs = 0 := by omega
      unfold round at he h3 ⊢
      dsimp only at he h3 ⊢
      have h1 : (pass P P.locals s).errs = 0 := by omega
      have h2 : (pass P P.classes (pass P P.locals s).st).errs = 0 := by omega
      rcases pass_done P.classes _ (pass_nobad _ _ hs h1) h2 n hn with g | ⟨-, g⟩
      · exact g
      · exact absurd (by simp [g]) h3

theorem start_nobad [Inhabited V] : NoBad (start P) := fun _ => rfl

theorem compile_classes [Inhabited V] {s : State O V} (e : compile P = some s) :
    ∀ n ∈ P.classes, (s n).val.isSome = true := by
  unfold compile at e
  dsimp only at e
  split_ifs at e with h
  exact loop_classes 99 _ _ (firstPass_nobad _ start_nobad (by omega)) e

/-! ### Values are what the expressions are worth -/

/-- Values put into constant nodes are right. -/
def Good (P : Prog O V) : Tree O V → Prop
  | .lit _ => True
  | .ident _ => True
  | .cnst n c => ∀ v, c = some v → Means P n v
  | .un _ a => Good P a
  | .bin _ a b => Good P a ∧ Good P b
  | .cond c a b => Good P c ∧ Good P a ∧ Good P b

theorem fresh_good (t : Tree O V) (h : Fresh t) : Good P t := by
  induction t with
  | lit v => trivial
  | ident n => trivial
  | cnst n c => intro v hv; rw [show c = none from h] at hv; cases hv
  | un o a ih => exact ih h
  | bin o a b iha ihb => exact ⟨iha h.1, ihb h.2⟩
  | cond c a b ihc iha ihb => exact ⟨ihc h.1, iha h.2.1, ihb h.2.2⟩

theorem valOf_worth {t : Tree O V} {v : V} (h : valOf t = some v) (g : Good P t) : Worth P t v := by
  cases t with
  | lit w => simp only [valOf, Option.some.injEq] at h; exact h ▸ Worth.lit w
  | cnst n c => exact Worth.cnst (g v h)
  | ident n => simp [valOf] at h
  | un o a => simp [valOf] at h
  | bin o a b => simp [valOf] at h
  | cond c a b => simp [valOf] at h

theorem label_good {ev : Nat → Option V} (hev : ∀ n v, ev n = some v → Means P n v) :
    ∀ t : Tree O V, Good P t → Good P (label P ev t).tree ∧ ∀ v, Worth P (label P ev t).tree v → Worth P t v := by
  intro t
  induction t with
  | lit v => intro _; exact ⟨trivial, fun _ h => h⟩
  | ident n =>
    intro _
    simp only [label, labIdent]
    cases P.body n with
    | none => exact ⟨trivial, fun _ h => h⟩
    | some t =>
      refine ⟨(fun v hv => by cases hv), ?_⟩
      intro v h
      cases h with
      | cnst h => exact h
  | cnst n c =>
    intro g
    simp only [label, labCnst]
    cases c with
    | some v => exact ⟨g, fun _ h => h⟩
    | none =>
      cases h : ev n with
      | none => exact ⟨g, fun _ h => h⟩
      | some v =>
        refine ⟨fun w hw => ?_, ?_⟩
        · rw [Option.some.injEq] at hw; exact hw ▸ hev n v h
        · intro w hw
          cases hw with
          | cnst hw => exact Worth.cnst hw
  | un o a ih =>
    intro g
    obtain ⟨h1, h2⟩ := ih g
    have hk : Good P (Tree.un o (label P ev a).tree) ∧
        ∀ v, Worth P (Tree.un o (label P ev a).tree) v → Worth P (Tree.un o a) v := by
      refine ⟨h1, fun v h => ?_⟩
      cases h with
      | un hx he => exact Worth.un (h2 _ hx) he
    simp only [label, labUn]
    split
    · rename_i v hs hv
      split
      · rename_i w hw
        refine ⟨trivial, fun u hu => ?_⟩
        cases hu
        exact Worth.un (h2 _ (valOf_worth hv h1)) hw
      · exact hk
    · exact hk
    · exact hk
  | bin o a b iha ihb =>
    intro g
    obtain ⟨h1, h2⟩ := iha g.1
    obtain ⟨h3, h4⟩ := ihb g.2
    have hk : Good P (Tree.bin o (label P ev a).tree (label P ev b).tree) ∧
        ∀ v, Worth P (Tree.bin o (label P ev a).tree (label P ev b).tree) v → Worth P (Tree.bin o a b) v := by
      refine ⟨⟨h1, h3⟩, fun v h => ?_⟩
      cases h with
      | bin hx hy he => exact Worth.bin (h2 _ hx) (h4 _ hy) he
    simp only [label, labBin, foldBin]
    split
    · exact hk
    · split
      · exact hk
      · split
        · rename_i x y hx hy
          split
          · rename_i w hw
            refine ⟨trivial, fun u hu => ?_⟩
            cases hu
            exact Worth.bin (h2 _ (valOf_worth hx h1)) (h4 _ (valOf_worth hy h3)) hw
          · exact hk
        · exact hk
  | cond c a b ihc iha ihb =>
    intro g
    obtain ⟨h1, h2⟩ := ihc g.1
    obtain ⟨h3, h4⟩ := iha g.2.1
    obtain ⟨h5, h6⟩ := ihb g.2.2
    have hk : Good P (Tree.cond (label P ev c).tree (label P ev a).tree (label P ev b).tree) ∧
        ∀ v, Worth P (Tree.cond (label P ev c).tree (label P ev a).tree (label P ev b).tree) v →
          Worth P (Tree.cond c a b) v := by
      refine ⟨⟨h1, h3, h5⟩, fun v h => ?_⟩
      cases h with
      | yes hx he hv => exact Worth.yes (h2 _ hx) he (h4 _ hv)
      | no hx he hv => exact Worth.no (h2 _ hx) he (h6 _ hv)
    simp only [label, labCond]
    split
    · rename_i v hs hv
      have hw := h2 _ (valOf_worth hv h1)
      dsimp only
      by_cases ht : P.sem.truth v = true
      · rw [if_pos ht]
        exact ⟨h3, fun u hu => Worth.yes hw ht (h4 _ hu)⟩
      · rw [if_neg ht]
        exact ⟨h5, fun u hu => Worth.no hw (by simpa using ht) (h6 _ hu)⟩
    · exact hk
    · exact hk

/-- The values so far are right, and the expressions are still worth the same. -/
def Right (P : Prog O V) (s : State O V) : Prop :=
  (∀ n v, (s n).val = some v → Means P n v) ∧
  ∀ n t, P.body n = some t → (s n).val = none →
    Good P (s n).tree ∧ ∀ v, Worth P (s n).tree v → Worth P t v

theorem right_start [Inhabited V] (hP : Parsed P) : Right P (start P) := by
  refine ⟨(fun n v h => by cases h), fun n t ht _ => ?_⟩
  simp only [start, ht, Option.getD_some]
  exact ⟨fresh_good _ (hP.fresh n t ht), fun _ h => h⟩

theorem right_step (hP : Parsed P) (a : Acc O V) (n : Nat) (hn : n ∈ P.classes ++ P.locals)
    (h : Right P a.st) : Right P (defStep P a n).st := by
  obtain ⟨t, ht⟩ := Option.isSome_iff_exists.1 ((hP.listed n).2 hn)
  rcases defStep_cases (P := P) a n with ⟨-, h2⟩ | ⟨-, h2⟩ | ⟨hb, hv, hc⟩
  · rw [h2]; exact h
  · rw [h2]; exact h
  · obtain ⟨g1, g2⟩ := h.2 n t ht hv
    obtain ⟨l1, l2⟩ := label_good (P := P) (ev := env a.st) h.1 _ g1
    have hkeep : ∀ b, Right P (upd a.st n ⟨(label P (env a.st) (a.st n).tree).tree, none, b⟩) := by
      intro b
      refine ⟨fun m v hm => ?_, fun m t' ht' hm => ?_⟩
      · by_cases hmn : m = n
        · subst hmn; simp [upd_same] at hm
        · rw [upd_other _ _ hmn] at hm; exact h.1 m v hm
      · by_cases hmn : m = n
        · subst hmn
          rw [upd_same]
          rw [ht] at ht'
          cases ht'
          exact ⟨l1, fun v hw => g2 v (l2 v hw)⟩
        · rw [upd_other _ _ hmn] at hm ⊢; exact h.2 m t' ht' hm
    rcases hc with ⟨e, w, hd, -, -, -⟩ | ⟨w, hd, -, -⟩ | ⟨v, w, -, hval, hsto, hd⟩
    · rw [hd]; exact hkeep true
    · rw [hd]; exact hkeep false
    · rw [hd]
      have hmean : Means P n w := Worth.ident ht (g2 v (l2 v (valOf_worth hval l1))) hsto
      show Right P (upd a.st n ⟨.lit w, some w, false⟩)
      refine ⟨fun m u hm => ?_, fun m t' ht' hm => ?_⟩
      · by_cases hmn : m = n
        · subst hmn
          rw [upd_same] at hm
          simp only [Option.some.injEq] at hm
          exact hm ▸ hmean
        · rw [upd_other _ _ hmn] at hm; exact h.1 m u hm
      · by_cases hmn : m = n
        · subst hmn; simp [upd_same] at hm
        · rw [upd_other _ _ hmn] at hm ⊢; exact h.2 m t' ht' hm

theorem worth_unique {t : Tree O V} {v w : V} (h : Worth P t v) : Worth P t w → v = w := by
  induction h generalizing w with
  | lit v => intro g; cases g; rfl
  | ident hb _ hs ih =>
    intro g
    cases g with
    | ident hb' hw' hs' =>
      rw [hb] at hb'; cases hb'
      have := ih hw'
      subst this
      rw [hs] at hs'
      exact Option.some.inj hs'
  | cnst _ ih => intro g; cases g with | cnst g => exact ih g
  | un _ he ih =>
    intro g
    cases g with
    | un hx he' =>
      have := ih hx
      subst this
      rw [he] at he'
      exact Option.some.inj he'
  | bin _ _ he iha ihb =>
    intro g
    cases g with
    | bin hx hy he' =>
      have h1 := iha hx
      have h2 := ihb hy
      subst h1; subst h2
      rw [he] at he'
      exact Option.some.inj he'
  | yes _ ht _ ihc iha =>
    intro g
    cases g with
    | yes _ _ hv => exact iha hv
    | no hx hf _ => have := ihc hx; subst this; rw [ht] at hf; cases hf
  | no _ ht _ ihc iha =>
    intro g
    cases g with
    | no _ _ hv => exact iha hv
    | yes hx hf _ => have := ihc hx; subst this; rw [ht] at hf; cases hf

/-! ### Circular definitions -/

/-- The expression still waits for a constant of `S`. -/
def Stuck (S : Nat → Prop) : Tree O V → Prop
  | .lit _ => False
  | .ident n => S n
  | .cnst n c => S n ∧ c = none
  | .un _ a => Stuck S a
  | .bin _ a b => Stuck S a ∨ Stuck S b
  | .cond c a b => Stuck S c ∨ Stuck S a ∨ Stuck S b

theorem label_stuck {S : Nat → Prop} {ev : Nat → Option V} (hev : ∀ n, S n → ev n = none) :
    ∀ t : Tree O V, Stuck S t → Stuck S (label P ev t).tree ∧ (label P ev t).stat ≠ .ok := by
  intro t
  induction t with
  | lit v => intro h; exact h.elim
  | ident n =>
    intro h
    simp only [label, labIdent]
    cases P.body n with
    | none => exact ⟨h, by simp⟩
    | some t => exact ⟨⟨h, rfl⟩, by simp⟩
  | cnst n c =>
    rintro ⟨h, rfl⟩
    simp only [label, labCnst, hev n h]
    exact ⟨⟨h, rfl⟩, by simp⟩
  | un o a ih =>
    intro h
    obtain ⟨h1, h2⟩ := ih h
    simp only [label, labUn]
    split
    · rename_i hs _; exact absurd hs h2
    · rename_i hs _; exact absurd hs h2
    · exact ⟨h1, by simp⟩
  | bin o a b iha ihb =>
    intro h
    simp only [label, labBin]
    rcases h with h | h
    · obtain ⟨h1, h2⟩ := iha h
      rw [if_pos h2]
      exact ⟨Or.inl h1, h2⟩
    · obtain ⟨h1, h2⟩ := ihb h
      split
      · rename_i h3; exact ⟨Or.inr h1, h3⟩
      · exact ⟨Or.inr h1, h2⟩
  | cond c a b ihc iha ihb =>
    intro h
    have hs : Stuck S (Tree.cond (label P ev c).tree (label P ev a).tree (label P ev b).tree) := by
      rcases h with h | h | h
      · exact Or.inl (ihc h).1
      · exact Or.inr (Or.inl (iha h).1)
      · exact Or.inr (Or.inr (ihb h).1)
    have hn : condStat (label P ev c).stat (label P ev a).stat (label P ev b).stat ≠ .ok := by
      unfold condStat
      rcases h with h | h | h
      · rw [if_pos (ihc h).2]; simp
      · have := (iha h).2
        split_ifs <;> simp_all
        cases h5 : (label P ev a).stat <;> simp_all
      · have := (ihb h).2
        split_ifs <;> simp_all
        cases h5 : (label P ev b).stat <;> simp_all
    simp only [label, labCond]
    split
    · rename_i h1 _; exact absurd h1 hn
    · rename_i h1 _; exact absurd h1 hn
    · exact ⟨hs, hn⟩

theorem mentions_stuck {S : Nat → Prop} {m : Nat} (hm : S m) : ∀ t : Tree O V, Fresh t → Mentions m t → Stuck S t := by
  intro t
  induction t with
  | lit v => intro _ h; exact h
  | ident n => intro _ h; rw [show n = m from h]; exact hm
  | cnst n c => intro hf h; rw [show n = m from h]; exact ⟨hm, hf⟩
  | un o a ih => intro hf h; exact ih hf h
  | bin o a b iha ihb =>
    intro hf h
    rcases h with h | h
    · exact Or.inl (iha hf.1 h)
    · exact Or.inr (ihb hf.2 h)
  | cond c a b ihc iha ihb =>
    intro hf h
    rcases h with h | h | h
    · exact Or.inl (ihc hf.1 h)
    · exact Or.inr (Or.inl (iha hf.2.1 h))
    · exact Or.inr (Or.inr (ihb hf.2.2 h))

theorem stuck_step {S : Nat → Prop} (a : Acc O V) (n : Nat)
    (h : ∀ m, S m → (a.st m).val = none ∧ Stuck S (a.st m).tree) :
    ∀ m, S m → ((defStep P a n).st m).val = none ∧ Stuck S ((defStep P a n).st m).tree := by
  intro m hm
  rcases defStep_cases (P := P) a n with ⟨-, h2⟩ | ⟨-, h2⟩ | ⟨hb, hv, hc⟩
  · rw [h2]; exact h m hm
  · rw [h2]; exact h m hm
  · by_cases hmn : m = n
    · subst hmn
      obtain ⟨l1, l2⟩ := label_stuck (P := P) (S := S) (ev := env a.st) (fun k hk => (h k hk).1) _ (h m hm).2
      rcases hc with ⟨e, w, hd, -, -, -⟩ | ⟨w, hd, -, -⟩ | ⟨v, w, hok, -⟩
      · rw [hd]; simp only [upd_same]; exact ⟨trivial, l1⟩
      · rw [hd]; simp only [upd_same]; exact ⟨trivial, l1⟩
      · exact absurd hok l2
    · rcases hc with ⟨e, w, hd, -, -, -⟩ | ⟨w, hd, -, -⟩ | ⟨v, w, -, -, -, hd⟩ <;>
      · rw [hd]; simp only [upd_other _ _ hmn]; exact h m hm

/-! ### A plan is carried out -/

/-- The plan of an expression that has been labelled in the passes before `k`. -/
def Fit (P : Prog O V) (vals : Nat → V) (avail : Nat → Nat → Prop) (k : Nat) :
    Nat → Tree O V → V → Prop
  | _, .lit w, v => v = w
  | r, .ident m, v => k < r ∧ (P.body m).isSome ∧ avail r m ∧ v = vals m
  | r, .cnst m none, v => (P.body m).isSome ∧ avail r m ∧ v = vals m
  | _, .cnst _ (some x), v => v = x
  | r, .un o a, v => ∃ x, Fit P vals avail k r a x ∧ P.sem.un o x = some v
  | r, .bin o a b, v => ∃ x y, Fit P vals avail k r a x ∧ Fit P vals avail k r b y ∧ P.sem.bin o x y = some v
  | 0, .cond _ _ _, _ => False
  | r + 1, .cond c a b, v => k ≤ r ∧ ∃ x y z, Fit P vals avail k r c x ∧ Fit P vals avail k r a y ∧
      Fit P vals avail k r b z ∧ v = (if P.sem.truth x then y else z)

variable {vals : Nat → V} {avail : Nat → Nat → Prop}

theorem plan_fit : ∀ (t : Tree O V) r v, Fresh t → Plan P vals avail r t v → Fit P vals avail 0 r t v := by
  intro t
  induction t with
  | lit w => intro r v _ h; simpa [Plan, Fit] using h
  | ident n => intro r v _ h; simpa [Plan, Fit] using h
  | cnst n c =>
    intro r v hf h
    have hc : c = none := hf
    subst hc
    simpa [Plan, Fit] using h
  | un o a ih =>
    intro r v hf h
    obtain ⟨x, h1, h2⟩ : ∃ x, Plan P vals avail r a x ∧ P.sem.un o x = some v := by cases r <;> exact h
    have : ∃ x, Fit P vals avail 0 r a x ∧ P.sem.un o x = some v := ⟨x, ih r x hf h1, h2⟩
    cases r <;> exact this
  | bin o a b iha ihb =>
    intro r v hf h
    obtain ⟨x, y, h1, h2, h3⟩ : ∃ x y, Plan P vals avail r a x ∧ Plan P vals avail r b y ∧ P.sem.bin o x y = some v := by
      cases r <;> exact h
    have : ∃ x y, Fit P vals avail 0 r a x ∧ Fit P vals avail 0 r b y ∧ P.sem.bin o x y = some v :=
      ⟨x, y, iha r x hf.1 h1, ihb r y hf.2 h2, h3⟩
    cases r <;> exact this
  | cond c a b ihc iha ihb =>
    intro r v hf h
    cases r with
    | zero => exact h
    | succ r =>
      obtain ⟨x, y, z, h1, h2, h3, h4⟩ := h
      exact ⟨Nat.zero_le _, x, y, z, ihc r x hf.1 h1, iha r y hf.2.1 h2, ihb r z hf.2.2 h3, h4⟩

theorem fit_un {k r : Nat} {o : O} {a : Tree O V} {v : V} :
    Fit P vals avail k r (.un o a) v ↔ ∃ x, Fit P vals avail k r a x ∧ P.sem.un o x = some v := by
  cases r <;> exact Iff.rfl

theorem fit_bin {k r : Nat} {o : O} {a b : Tree O V} {v : V} :
    Fit P vals avail k r (.bin o a b) v ↔
      ∃ x y, Fit P vals avail k r a x ∧ Fit P vals avail k r b y ∧ P.sem.bin o x y = some v := by
  cases r <;> exact Iff.rfl

theorem fit_val {k r : Nat} {t : Tree O V} {v : V} (h : valOf t = some v) : Fit P vals avail k r t v := by
  cases t with
  | lit w => simp only [valOf, Option.some.injEq] at h; cases r <;> exact h.symm
  | cnst n c => simp only [valOf] at h; subst h; cases r <;> rfl
  | ident n => simp [valOf] at h
  | un o a => simp [valOf] at h
  | bin o a b => simp [valOf] at h
  | cond c a b => simp [valOf] at h

/-- What labelling in pass `k` does to an expression with a plan for pass `r`. -/
structure Step (P : Prog O V) (vals : Nat → V) (avail : Nat → Nat → Prop) (k r : Nat) (v : V) (o : Out O V) : Prop where
  errs : o.errs = 0
  nav : o.stat ≠ .nav
  ok : o.stat = .ok → valOf o.tree = some v
  hzy : o.stat = .hzy → k < r ∧ Fit P vals avail (k + 1) r o.tree v
  last : k = r → o.stat = .ok ∧ o.waits = 0

theorem Step.fit {k r : Nat} {v : V} {o : Out O V} (h : Step P vals avail k r v o) :
    Fit P vals avail (k + 1) r o.tree v := by
  cases hs : o.stat with
  | nav => exact absurd hs h.nav
  | hzy => exact (h.hzy hs).2
  | ok => exact fit_val (h.ok hs)

theorem Step.lt {k r : Nat} {v : V} {o : Out O V} (h : Step P vals avail k r v o) (hk : k ≤ r) (hs : o.stat ≠ .ok) :
    k < r := by
  rcases Nat.lt_or_ge k r with g | g
  · exact g
  · exact absurd (h.last (by omega)).1 hs

theorem label_step {ev : Nat → Option V} {k : Nat} (h1 : ∀ m v, ev m = some v → v = vals m)
    (h2 : ∀ m, (P.body m).isSome → avail k m → ev m = some (vals m)) :
    ∀ (t : Tree O V) r v, k ≤ r → Fit P vals avail k r t v → Step P vals avail k r v (label P ev t) := by
  intro t
  induction t with
  | lit w =>
    intro r v hk h
    have hv : v = w := by cases r <;> exact h
    subst hv
    exact ⟨rfl, by simp [label], fun _ => rfl, fun h => by simp [label] at h, fun _ => ⟨rfl, rfl⟩⟩
  | ident m =>
    intro r v hk h
    obtain ⟨h3, h4, h5, h6⟩ : k < r ∧ (P.body m).isSome ∧ avail r m ∧ v = vals m := by cases r <;> exact h
    obtain ⟨t, ht⟩ := Option.isSome_iff_exists.1 h4
    have hl : label P ev (.ident m) = ⟨.cnst m none, .hzy, 0, 0⟩ := by simp [label, labIdent, ht]
    rw [hl]
    refine ⟨rfl, by simp, fun h => by simp at h, fun _ => ⟨h3, ?_⟩, fun h => by omega⟩
    cases r <;> exact ⟨h4, h5, h6⟩
  | cnst m c =>
    intro r v hk h
    cases c with
    | some x =>
      have hv : v = x := by cases r <;> exact h
      subst hv
      have hl : label P ev (.cnst m (some v)) = ⟨.cnst m (some v), .ok, 0, 0⟩ := rfl
      rw [hl]
      exact ⟨rfl, by simp, fun _ => rfl, fun h => by simp at h, fun _ => ⟨rfl, rfl⟩⟩
    | none =>
      obtain ⟨h4, h5, h6⟩ : (P.body m).isSome ∧ avail r m ∧ v = vals m := by cases r <;> exact h
      cases he : ev m with
      | some x =>
        have hx := h1 m x he
        have hl : label P ev (.cnst m none) = ⟨.cnst m (some x), .ok, 0, 0⟩ := by simp [label, labCnst, he]
        rw [hl]
        subst h6; subst hx
        exact ⟨rfl, by simp, fun _ => rfl, fun h => by simp at h, fun _ => ⟨rfl, rfl⟩⟩
      | none =>
        have hl : label P ev (.cnst m none) = ⟨.cnst m none, .hzy, 0, 1⟩ := by
          obtain ⟨t, ht⟩ := Option.isSome_iff_exists.1 h4
          simp [label, labCnst, he, ht]
        have hkr : k ≠ r := by
          rintro rfl
          rw [h2 m h4 h5] at he
          cases he
        rw [hl]
        refine ⟨rfl, by simp, fun h => by simp at h, fun _ => ⟨by omega, ?_⟩, fun h => absurd h hkr⟩
        cases r <;> exact ⟨h4, h5, h6⟩
  | un o a ih =>
    intro r v hk h
    obtain ⟨x, h3, h4⟩ := fit_un.1 h
    have S := ih r x hk h3
    have hl : label P ev (.un o a) = labUn P o (label P ev a) := rfl
    rw [hl]
    generalize label P ev a = oa at S
    cases hs : oa.stat with
    | nav => exact absurd hs S.nav
    | hzy =>
      have : labUn P o oa = ⟨.un o oa.tree, .hzy, oa.errs, oa.waits⟩ := by simp [labUn, hs]
      rw [this]
      have := S.hzy hs
      exact ⟨S.errs, by simp, fun h => by simp at h, fun _ => ⟨this.1, fit_un.2 ⟨x, this.2, h4⟩⟩, fun h => by omega⟩
    | ok =>
      have : labUn P o oa = ⟨.lit v, .ok, oa.errs, oa.waits⟩ := by simp [labUn, hs, S.ok hs, h4]
      rw [this]
      exact ⟨S.errs, by simp, fun _ => rfl, fun h => by simp at h, fun h => ⟨rfl, (S.last h).2⟩⟩
  | bin o a b iha ihb =>
    intro r v hk h
    obtain ⟨x, y, h3, h4, h5⟩ := fit_bin.1 h
    have SA := iha r x hk h3
    have SB := ihb r y hk h4
    have hl : label P ev (.bin o a b) = labBin P o (label P ev a) (label P ev b) := rfl
    rw [hl]
    generalize label P ev a = oa at SA
    generalize label P ev b = ob at SB
    have he : oa.errs + ob.errs = 0 := by rw [SA.errs, SB.errs]
    by_cases ha : oa.stat = .ok
    · by_cases hb : ob.stat = .ok
      · have : labBin P o oa ob = ⟨.lit v, .ok, oa.errs + ob.errs, oa.waits + ob.waits⟩ := by
          simp [labBin, foldBin, ha, hb, SA.ok ha, SB.ok hb, h5]
        rw [this]
        exact ⟨he, by simp, fun _ => rfl, fun h => by simp at h,
          fun h => ⟨rfl, by rw [(SA.last h).2, (SB.last h).2]⟩⟩
      · have : labBin P o oa ob = ⟨.bin o oa.tree ob.tree, ob.stat, oa.errs + ob.errs, oa.waits + ob.waits⟩ := by
          simp [labBin, ha, hb]
        rw [this]
        have hlt := SB.lt hk hb
        exact ⟨he, SB.nav, fun h => absurd h hb, fun _ => ⟨hlt, fit_bin.2 ⟨x, y, SA.fit, SB.fit, h5⟩⟩, fun h => by omega⟩
    · have : labBin P o oa ob = ⟨.bin o oa.tree ob.tree, oa.stat, oa.errs + ob.errs, oa.waits + ob.waits⟩ := by
        simp [labBin, ha]
      rw [this]
      have hlt := SA.lt hk ha
      exact ⟨he, SA.nav, fun h => absurd h ha, fun _ => ⟨hlt, fit_bin.2 ⟨x, y, SA.fit, SB.fit, h5⟩⟩, fun h => by omega⟩
  | cond c a b ihc iha ihb =>
    intro r v hk h
    cases r with
    | zero => exact h.elim
    | succ r =>
      obtain ⟨hkr, x, y, z, h3, h4, h5, h6⟩ := h
      have SC := ihc r x hkr h3
      have SA := iha r y hkr h4
      have SB := ihb r z hkr h5
      have hl : label P ev (.cond c a b) = labCond P (label P ev c) (label P ev a) (label P ev b) := rfl
      rw [hl]
      generalize label P ev c = oc at SC
      generalize label P ev a = oa at SA
      generalize label P ev b = ob at SB
      have he : oc.errs + oa.errs + ob.errs = 0 := by rw [SA.errs, SB.errs, SC.errs]
      by_cases hall : oc.stat = .ok ∧ oa.stat = .ok ∧ ob.stat = .ok
      · obtain ⟨g1, g2, g3⟩ := hall
        have : labCond P oc oa ob = ⟨if P.sem.truth x then oa.tree else ob.tree, .hzy,
            oc.errs + oa.errs + ob.errs, oc.waits + oa.waits + ob.waits⟩ := by
          simp [labCond, condStat, g1, g2, g3, SC.ok g1]
        rw [this]
        refine ⟨he, by simp, fun h => by simp at h, fun _ => ⟨by omega, fit_val ?_⟩, fun h => by omega⟩
        rw [h6]
        dsimp only
        split
        · exact SA.ok g2
        · exact SB.ok g3
      · have hst : condStat oc.stat oa.stat ob.stat = .hzy := by
          have n1 := SC.nav
          have n2 := SA.nav
          have n3 := SB.nav
          unfold condStat
          cases q1 : oc.stat <;> cases q2 : oa.stat <;> cases q3 : ob.stat <;> simp_all
        have : labCond P oc oa ob = ⟨.cond oc.tree oa.tree ob.tree, .hzy,
            oc.errs + oa.errs + ob.errs, oc.waits + oa.waits + ob.waits⟩ := by
          simp [labCond, hst]
        rw [this]
        have hlt : k < r := by
          by_contra hh
          have hk' : k = r := by omega
          exact hall ⟨(SC.last hk').1, (SA.last hk').1, (SB.last hk').1⟩
        exact ⟨he, by simp, fun h => by simp at h,
          fun _ => ⟨by omega, by omega, x, y, z, SC.fit, SA.fit, SB.fit, h6⟩, fun h => by omega⟩

/-- When constant `m` can be used by constant `n` in pass `r`. -/
def Avail (P : Prog O V) (rank : Nat → Nat) (n : Nat) (r m : Nat) : Prop :=
  rank m < r ∨ (rank m = r ∧ Before (order P r) m n)

/-- The definitions in the middle of pass `k`; `done` have been met in this pass. -/
structure Mid (P : Prog O V) (vals : Nat → V) (rank : Nat → Nat) (k : Nat) (done : List Nat) (s : State O V) : Prop where
  none : ∀ n, (P.body n).isNone → (s n).val = none
  cell : ∀ n, (P.body n).isSome → (s n).bad = false ∧ ((s n).val = some (vals n) ∨
    ((s n).val = Option.none ∧ ∃ w k', k' = (if n ∈ done then k + 1 else k) ∧ k' ≤ rank n ∧
      Fit P vals (Avail P rank n) k' (rank n) (s n).tree w ∧ P.sem.store n w = some (vals n)))

variable {rank : Nat → Nat}

theorem split_unique {n : Nat} : ∀ (p q pre post : List Nat), (p ++ n :: q).Nodup →
    p ++ n :: q = pre ++ n :: post → p = pre := by
  intro p
  induction p with
  | nil =>
    intro q pre post hd e
    cases pre with
    | nil => rfl
    | cons y ys =>
      simp only [List.nil_append, List.cons_append, List.cons.injEq] at e
      have hq : n ∈ q := by rw [e.2]; simp
      exact absurd hq (List.nodup_cons.1 hd).1
  | cons x xs ih =>
    intro q pre post hd e
    cases pre with
    | nil =>
      simp only [List.nil_append, List.cons_append, List.cons.injEq] at e
      have hq : x ∈ xs ++ n :: q := by rw [e.1]; simp
      exact absurd hq (List.nodup_cons.1 hd).1
    | cons y ys =>
      simp only [List.cons_append, List.cons.injEq] at e
      rw [e.1, ih q ys post (List.nodup_cons.1 hd).2 e.2]

theorem mid_step (k : Nat) (pre post : List Nat) (n : Nat) (hnd : (order P k).Nodup)
    (ho : order P k = pre ++ n :: post)
    (hd : (P.body n).isSome) (a : Acc O V) (h : Mid P vals rank k pre a.st) (ha : a.errs = 0) :
    Mid P vals rank k (pre ++ [n]) (defStep P a n).st ∧ (defStep P a n).errs = 0 ∧
    (rank n ≤ k → (defStep P a n).waits = a.waits ∧ (defStep P a n).again = a.again) := by
  have henv1 : ∀ m v, env a.st m = some v → v = vals m := by
    intro m v hm
    unfold env at hm
    cases hb : P.body m with
    | none => rw [h.none m (by simp [hb])] at hm; cases hm
    | some t =>
      rcases (h.cell m (by simp [hb])).2 with g | ⟨g, -⟩
      · rw [g] at hm; exact (Option.some.inj hm).symm
      · rw [g] at hm; cases hm
  have henv2 : ∀ m, (P.body m).isSome → Avail P rank n k m → env a.st m = some (vals m) := by
    intro m hm hav
    rcases (h.cell m hm).2 with g | ⟨-, w, k', e, hk', -⟩
    · exact g
    · exfalso
      rcases hav with hav | ⟨hav, p, q, hpq, hmp⟩
      · split_ifs at e <;> omega
      · have hp : p = pre := split_unique p q pre post (hpq ▸ hnd) (hpq ▸ ho)
        subst hp
        rw [if_pos hmp] at e
        omega
  have hn : n ∉ pre := by
    intro hp
    rw [ho] at hnd
    exact (List.nodup_append.1 hnd).2.2 n hp n (List.mem_cons_self ..) rfl
  -- the others stay
  have hoth : ∀ (s' : State O V) (c : Cell O V), s' = upd a.st n c → ∀ m, m ≠ n → (P.body m).isSome →
      (s' m).bad = false ∧ ((s' m).val = some (vals m) ∨ ((s' m).val = Option.none ∧ ∃ w k',
        k' = (if m ∈ pre ++ [n] then k + 1 else k) ∧ k' ≤ rank m ∧
        Fit P vals (Avail P rank m) k' (rank m) (s' m).tree w ∧ P.sem.store m w = some (vals m))) := by
    rintro s' c rfl m hmn hm
    rw [upd_other _ _ hmn]
    have := h.cell m hm
    simpa [hmn] using this
  rcases (h.cell n hd) with ⟨hb, g | ⟨g, w, k', e, hk', hfit, hsto⟩⟩
  · have hs : defStep P a n = a := by simp [defStep, hb, g]
    rw [hs]
    refine ⟨⟨h.none, fun m hm => ?_⟩, ha, fun _ => ⟨rfl, rfl⟩⟩
    by_cases hmn : m = n
    · subst hmn; exact ⟨hb, Or.inl g⟩
    · have := h.cell m hm
      simpa [hmn] using this
  · rw [if_neg hn] at e
    subst e
    have S := label_step (P := P) henv1 henv2 _ _ _ hk' hfit
    rcases defStep_cases (P := P) a n with ⟨q, -⟩ | ⟨q, -⟩ | ⟨-, -, hc⟩
    · rw [hb] at q; cases q
    · rw [g] at q; cases q
    · rcases hc with ⟨e, ww, hd', -, -, q | ⟨v, q, q2, q3⟩⟩ | ⟨ww, hd', -, q | ⟨q, q2⟩⟩ | ⟨v, ww, q, q2, q3, hd'⟩
      · exact absurd q S.nav
      · rw [S.ok q] at q2
        cases q2
        rw [hsto] at q3; cases q3
      · have hz := S.hzy q
        rw [hd']
        refine ⟨⟨fun m hm => ?_, fun m hm => ?_⟩, ?_, fun hr => by omega⟩
        · have hmn : m ≠ n := by rintro rfl; cases hx : P.body m <;> simp_all
          show (upd a.st n _ m).val = none
          rw [upd_other _ _ hmn]; exact h.none m hm
        · by_cases hmn : m = n
          · subst hmn
            simp only [upd_same]
            refine ⟨trivial, Or.inr ⟨trivial, w, k' + 1, ?_, hz.1, hz.2, hsto⟩⟩
            simp
          · exact hoth _ _ rfl m hmn hm
        · show a.errs + _ = 0
          rw [ha, S.errs]
      · rw [S.ok q] at q2; cases q2
      · rw [S.ok q] at q2
        cases q2
        rw [hsto] at q3
        cases q3
        rw [hd']
        refine ⟨⟨fun m hm => ?_, fun m hm => ?_⟩, ?_, fun hr => ?_⟩
        · have hmn : m ≠ n := by rintro rfl; cases hx : P.body m <;> simp_all
          show (upd a.st n _ m).val = none
          rw [upd_other _ _ hmn]; exact h.none m hm
        · by_cases hmn : m = n
          · subst hmn
            simp only [upd_same]
            exact ⟨trivial, Or.inl trivial⟩
          · exact hoth _ _ rfl m hmn hm
        · show a.errs + _ = 0
          rw [ha, S.errs]
        · refine ⟨?_, rfl⟩
          show a.waits + _ = a.waits
          rw [(S.last (by omega)).2]; rfl

theorem mid_list (k : Nat) (hnd : (order P k).Nodup) : ∀ (l pre post : List Nat),
    order P k = pre ++ l ++ post → (∀ n ∈ l, (P.body n).isSome) → ∀ a : Acc O V,
    Mid P vals rank k pre a.st → a.errs = 0 →
    Mid P vals rank k (pre ++ l) (l.foldl (defStep P) a).st ∧ (l.foldl (defStep P) a).errs = 0 ∧
    ((∀ n ∈ l, rank n ≤ k) → (l.foldl (defStep P) a).waits = a.waits) := by
  intro l
  induction l with
  | nil => intro pre post _ _ a h ha; exact ⟨by simpa using h, ha, fun _ => rfl⟩
  | cons n l ih =>
    intro pre post ho hl a h ha
    obtain ⟨h1, h2, h3⟩ := mid_step k pre (l ++ post) n hnd (by simpa using ho) (hl n (List.mem_cons_self ..)) a h ha
    obtain ⟨h4, h5, h6⟩ := ih (pre ++ [n]) post (by simpa using ho)
      (fun m hm => hl m (List.mem_cons_of_mem _ hm)) _ h1 h2
    refine ⟨by simpa using h4, h5, fun hr => ?_⟩
    simp only [List.foldl_cons]
    rw [h6 (fun m hm => hr m (List.mem_cons_of_mem _ hm)), (h3 (hr n (List.mem_cons_self ..))).1]

theorem mid_next (k : Nat) (l : List Nat) (s : State O V) (hl : ∀ n, (P.body n).isSome → n ∈ l)
    (h : Mid P vals rank k l s) : Mid P vals rank (k + 1) [] s := by
  refine ⟨h.none, fun n hn => ?_⟩
  obtain ⟨h1, h2⟩ := h.cell n hn
  refine ⟨h1, ?_⟩
  rcases h2 with h2 | ⟨h2, w, k', e, h3, h4, h5⟩
  · exact Or.inl h2
  · rw [if_pos (hl n hn)] at e
    exact Or.inr ⟨h2, w, k', by simpa using e, h3, h4, h5⟩

theorem order_mem (hP : Parsed P) (k n : Nat) : (P.body n).isSome ↔ n ∈ order P k := by
  rw [hP.listed]
  unfold order
  split
  · rfl
  · simp [or_comm]

theorem order_nodup (hP : Parsed P) (k : Nat) : (order P k).Nodup := by
  unfold order
  split
  · exact hP.once
  · exact (List.perm_append_comm.nodup_iff).1 hP.once

theorem mid_first [Inhabited V] (hP : Parsed P) (hS : Scheduled P vals rank) :
    Mid P vals rank 0 [] (start P) := by
  refine ⟨fun n _ => rfl, fun n hn => ⟨rfl, Or.inr ⟨rfl, ?_⟩⟩⟩
  obtain ⟨t, ht⟩ := Option.isSome_iff_exists.1 hn
  obtain ⟨w, h1, h2⟩ := hS n t ht
  refine ⟨w, 0, by simp, Nat.zero_le _, ?_, h2⟩
  simp only [start, ht, Option.getD_some]
  exact plan_fit t _ _ (hP.fresh n t ht) h1

theorem mid_firstPass [Inhabited V] (hP : Parsed P) (hS : Scheduled P vals rank) :
    Mid P vals rank 1 [] (firstPass P (start P)).st ∧ (firstPass P (start P)).errs = 0 := by
  have ho : order P 0 = P.classes ++ P.locals := by simp [order]
  have hmem : ∀ n ∈ P.classes ++ P.locals, (P.body n).isSome := fun n hn => (hP.listed n).2 hn
  obtain ⟨h1, h2, -⟩ := mid_list (vals := vals) (rank := rank) 0 (order_nodup hP 0) P.classes [] P.locals (by simpa using ho)
    (fun n hn => hmem n (List.mem_append_left _ hn)) ⟨start P, 0, 0, false⟩ (mid_first hP hS) rfl
  obtain ⟨h3, h4, -⟩ := mid_list (vals := vals) (rank := rank) 0 (order_nodup hP 0) P.locals P.classes [] (by simpa using ho)
    (fun n hn => hmem n (List.mem_append_right _ hn)) ⟨(pass P P.classes (start P)).st, 0, 0, false⟩ h1 rfl
  unfold firstPass
  refine ⟨mid_next 0 _ _ (fun n hn => (hP.listed n).1 hn) h3, ?_⟩
  have h5 : (pass P P.classes (start P)).errs = 0 := h2
  have h6 : (pass P P.locals (pass P P.classes (start P)).st).errs = 0 := h4
  simp [h5, h6]

theorem mid_round (hP : Parsed P) (k : Nat) (hk : 0 < k) (last : Bool) (s : State O V)
    (h : Mid P vals rank k [] s) (hlast : last = true → ∀ n, (P.body n).isSome → rank n ≤ k) :
    Mid P vals rank (k + 1) [] (round P last s).st ∧ (round P last s).errs = 0 := by
  have ho : order P k = P.locals ++ P.classes := by simp [order]; omega
  have hmem : ∀ n ∈ P.classes ++ P.locals, (P.body n).isSome := fun n hn => (hP.listed n).2 hn
  obtain ⟨h1, h2, -⟩ := mid_list (vals := vals) (rank := rank) k (order_nodup hP k) P.locals [] P.classes (by simpa using ho)
    (fun n hn => hmem n (List.mem_append_right _ hn)) ⟨s, 0, 0, false⟩ h rfl
  obtain ⟨h3, h4, h5⟩ := mid_list (vals := vals) (rank := rank) k (order_nodup hP k) P.classes P.locals [] (by simpa using ho)
    (fun n hn => hmem n (List.mem_append_left _ hn)) ⟨(pass P P.locals s).st, 0, 0, false⟩ h1 rfl
  unfold round
  refine ⟨mid_next k _ _ (fun n hn => ?_) h3, ?_⟩
  · have := (hP.listed n).1 hn
    simp at this ⊢
    tauto
  · have h6 : (pass P P.locals s).errs = 0 := h2
    have h7 : (pass P P.classes (pass P P.locals s).st).errs = 0 := h4
    dsimp only
    rw [h6, h7]
    split
    · rename_i hl
      have h8 := h5 (fun n hn => hlast hl n (hmem n (List.mem_append_left _ hn)))
      have h9 : (pass P P.classes (pass P P.locals s).st).waits = 0 := h8
      simp [h9]
    · rfl

/-- The whole loop. -/
theorem loop_plan (hP : Parsed P) (hr : ∀ n, (P.body n).isSome → rank n ≤ maxRounds) :
    ∀ j k s, k + j = maxRounds + 1 → 0 < k → NoBad s → Mid P vals rank k [] s →
    ∃ s', loop P j s = some s' ∧ ∀ n, (P.body n).isSome → (s' n).val = some (vals n) := by
  intro j
  induction j with
  | zero =>
    intro k s hk _ _ h
    refine ⟨s, rfl, fun n hn => ?_⟩
    rcases (h.cell n hn).2 with g | ⟨-, w, k', e, h3, -⟩
    · exact g
    · simp at e
      have := hr n hn
      omega
  | succ j ih =>
    intro k s hk h0 hb h
    obtain ⟨h1, h2⟩ := mid_round hP k h0 (j == 0) s h (fun hl n hn => by
      have := hr n hn
      have hj : j = 0 := by simpa using hl
      omega)
    have hb' := round_nobad (j == 0) s hb h2
    simp only [loop]
    rw [if_neg (by omega)]
    split_ifs with h3
    · exact ih (k + 1) _ (by omega) (by omega) hb' h1
    · refine ⟨_, rfl, fun n hn => ?_⟩
      have hval : ((round P (j == 0) s).st n).val.isSome = true := by
        have hm := (hP.listed n).1 hn
        unfold round at h3 h2 ⊢
        dsimp only at h3 h2 ⊢
        have e1 : (pass P P.locals s).errs = 0 := by omega
        have e2 : (pass P P.classes (pass P P.locals s).st).errs = 0 := by omega
        rcases List.mem_append.1 hm with hm | hm
        · rcases pass_done P.classes _ (pass_nobad _ _ hb e1) e2 n hm with g | ⟨-, g⟩
          · exact g
          · simp [g] at h3
        · rcases pass_done P.locals _ hb e1 n hm with g | ⟨-, g⟩
          · obtain ⟨v, hv⟩ := Option.isSome_iff_exists.1 g
            rw [pass_val _ _ _ _ hv]; rfl
          · simp [g] at h3
      rcases (h1.cell n hn).2 with g | ⟨g, -⟩
      · exact g
      · rw [g] at hval; cases hval

theorem compile_plan [Inhabited V] (hP : Parsed P) (hS : Scheduled P vals rank)
    (hr : ∀ n, (P.body n).isSome → rank n ≤ maxRounds) :
    ∃ s, compile P = some s ∧ ∀ n, (P.body n).isSome → (s n).val = some (vals n) := by
  obtain ⟨h1, h2⟩ := mid_firstPass hP hS
  unfold compile
  dsimp only
  rw [if_neg (by omega)]
  exact loop_plan hP hr maxRounds 1 _ (by simp [maxRounds]) (by omega) (firstPass_nobad _ start_nobad h2) h1

end Ulam.Consts
