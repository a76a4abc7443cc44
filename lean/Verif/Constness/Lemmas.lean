import Verif.Constness.Spec
import Mathlib.Tactic.SplitIfs

namespace Ulam.Constness

/-! ### What can be stored into or referred to is open -/

theorem minTB_yes {a b : TB} (h : minTB a b = .yes) : a = .yes ∧ b = .yes := by
  cases a <;> cases b <;> simp_all [minTB]

theorem label_open (G : Prog) (Γ : Ctx) : ∀ (e : Expr) (l : Lab), label G Γ e = some l →
    Straight Γ e → (l.stor = .yes ∨ l.refb = .yes) → Open Γ e
  | .lit _, l, h, _, y => by
    simp only [label, Option.some.injEq] at h; subst h; simp [labCon] at y
  | .var x, l, h, _, y => by
    simp only [label, Option.map_eq_some_iff] at h
    obtain ⟨s, hs, rfl⟩ := h
    refine ⟨s, hs, ?_, ?_⟩
    · intro hc; simp [labVar, hc] at y
    · cases hc : s.cparam
      · rfl
      · simp [labVar, hc] at y
  | .con _, l, h, _, y => by
    simp only [label, Option.some.injEq] at h; subst h; simp [labCon] at y
  | .field e m, l, h, t, y => by
    simp only [label, Option.map_eq_some_iff] at h
    obtain ⟨k, hk, rfl⟩ := h
    exact label_open G Γ e k hk t (y.imp (fun a => (minTB_yes a).1) fun a => (minTB_yes a).1)
  | .fieldCon e m, l, h, t, y => by
    simp only [label, Option.map_eq_some_iff] at h
    obtain ⟨k, hk, rfl⟩ := h
    rcases y with y | y
    · exact absurd (minTB_yes y).2 (by simp [labCon])
    · exact absurd (minTB_yes y).2 (by simp [labCon])
  | .base e m, l, h, t, y => by
    simp only [label, Option.map_eq_some_iff] at h
    obtain ⟨k, hk, rfl⟩ := h
    exact label_open G Γ e k hk t y
  | .item str e i, l, h, t, y => by
    simp only [label, Option.bind_eq_some_iff, Option.map_eq_some_iff] at h
    obtain ⟨k, hk, j, _, rfl⟩ := h
    cases str
    · right; exact label_open G Γ e k hk t (Or.inl (by simpa [labItem] using y))
    · left; rfl
  | .castRef e, l, h, t, y => t
  | .castVal _ e, l, h, t, y => trivial
  | .tern c a b, l, h, t, y => t
  | .storageof e, l, h, t, y => t
  | .inst, l, h, t, y => trivial
  | .bin _ a b, l, h, t, y => trivial
  | .assign a b, l, h, t, y => by
    simp only [label, Option.bind_eq_some_iff] at h
    obtain ⟨k, hk, j, _, hl⟩ := h
    unfold labAssign at hl
    split at hl
    · simp at hl
    · rename_i ha
      exact label_open G Γ a k hk t (Or.inl (not_not.mp ha))
  | .assignOp _ a b, l, h, t, y => by
    simp only [label, Option.bind_eq_some_iff] at h
    obtain ⟨k, hk, j, _, hl⟩ := h
    unfold labAssign at hl
    split at hl
    · simp at hl
    · rename_i ha
      exact label_open G Γ a k hk t (Or.inl (not_not.mp ha))
  | .call _ _ _, l, h, t, y => trivial

/-- A part of labelling: what is labelled has its target labelled with what may be stored into. -/
theorem labAssign_stor {a b l : Lab} (h : labAssign a b = some l) : a.stor = .yes := by
  unfold labAssign at h
  split at h
  · simp at h
  · rename_i ha; exact not_not.mp ha

mutual
theorem targets_open (G : Prog) (Γ : Ctx) : ∀ (e : Expr), (label G Γ e).isSome →
    Targets G Straight Γ e → Targets G Open Γ e
  | .lit _, _, _ => trivial
  | .var _, _, _ => trivial
  | .con _, _, _ => trivial
  | .field e _, h, t => by
    simp only [label, Option.isSome_map] at h; exact targets_open G Γ e h t
  | .fieldCon e _, h, t => by
    simp only [label, Option.isSome_map] at h; exact targets_open G Γ e h t
  | .base e _, h, t => by
    simp only [label, Option.isSome_map] at h; exact targets_open G Γ e h t
  | .item _ e i, h, t => by
    obtain ⟨l, h⟩ := Option.isSome_iff_exists.mp h
    simp only [label, Option.bind_eq_some_iff, Option.map_eq_some_iff] at h
    obtain ⟨k, hk, j, hj, _⟩ := h
    exact ⟨targets_open G Γ e (by simp [hk]) t.1, targets_open G Γ i (by simp [hj]) t.2⟩
  | .castRef e, h, t => by
    obtain ⟨l, h⟩ := Option.isSome_iff_exists.mp h
    simp only [label, Option.bind_eq_some_iff] at h
    obtain ⟨k, hk, _⟩ := h
    exact targets_open G Γ e (by simp [hk]) t
  | .castVal _ e, h, t => by
    simp only [label, Option.isSome_map] at h; exact targets_open G Γ e h t
  | .tern c a b, h, t => by
    obtain ⟨l, h⟩ := Option.isSome_iff_exists.mp h
    simp only [label, Option.bind_eq_some_iff, Option.map_eq_some_iff] at h
    obtain ⟨k, hk, i, hi, j, hj, _⟩ := h
    exact ⟨targets_open G Γ c (by simp [hk]) t.1, targets_open G Γ a (by simp [hi]) t.2.1,
      targets_open G Γ b (by simp [hj]) t.2.2⟩
  | .storageof e, h, t => by
    simp only [label, Option.isSome_map] at h; exact targets_open G Γ e h t
  | .inst, _, _ => trivial
  | .bin _ a b, h, t => by
    obtain ⟨l, h⟩ := Option.isSome_iff_exists.mp h
    simp only [label, Option.bind_eq_some_iff, Option.map_eq_some_iff] at h
    obtain ⟨k, hk, j, hj, _⟩ := h
    exact ⟨targets_open G Γ a (by simp [hk]) t.1, targets_open G Γ b (by simp [hj]) t.2⟩
  | .assign a b, h, t => by
    obtain ⟨l, h⟩ := Option.isSome_iff_exists.mp h
    simp only [label, Option.bind_eq_some_iff] at h
    obtain ⟨k, hk, j, hj, hl⟩ := h
    exact ⟨label_open G Γ a k hk t.1 (Or.inl (labAssign_stor hl)),
      targets_open G Γ a (by simp [hk]) t.2.1, targets_open G Γ b (by simp [hj]) t.2.2⟩
  | .assignOp _ a b, h, t => by
    obtain ⟨l, h⟩ := Option.isSome_iff_exists.mp h
    simp only [label, Option.bind_eq_some_iff] at h
    obtain ⟨k, hk, j, hj, hl⟩ := h
    exact ⟨label_open G Γ a k hk t.1 (Or.inl (labAssign_stor hl)),
      targets_open G Γ a (by simp [hk]) t.2.1, targets_open G Γ b (by simp [hj]) t.2.2⟩
  | .call e f as, h, t => by
    obtain ⟨l, h⟩ := Option.isSome_iff_exists.mp h
    simp only [label, Option.bind_eq_some_iff] at h
    obtain ⟨k, hk, hl⟩ := h
    split at hl
    · rename_i ha
      unfold labCall at hl
      split at hl
      · rename_i hs
        exact ⟨label_open G Γ e k hk t.1 (Or.inl hs), targets_open G Γ e (by simp [hk]) t.2.1,
          targetsArgs_open G Γ _ as ha t.2.2⟩
      · simp at hl
    · simp at hl
theorem targetsArgs_open (G : Prog) (Γ : Ctx) : ∀ (ps : List (Nat × Sym)) (as : Args),
    labelArgs G Γ ps as = true → TargetsArgs G Straight Γ ps as → TargetsArgs G Open Γ ps as
  | [], .nil, _, _ => by simp [TargetsArgs]
  | [], .cons _ _, h, _ => by simp [labelArgs] at h
  | _ :: _, .nil, h, _ => by simp [labelArgs] at h
  | p :: ps, .cons e as, h, t => by
    simp only [labelArgs, Bool.and_eq_true] at h
    obtain ⟨h1, h2⟩ := h
    simp only [TargetsArgs] at t ⊢
    cases hl : label G Γ e with
    | none => simp [hl] at h1
    | some l =>
      simp only [hl, Bool.and_eq_true] at h1
      refine ⟨fun hr hc => ?_, targets_open G Γ e (by simp [hl]) t.2.1,
        targetsArgs_open G Γ ps as h2 t.2.2⟩
      refine label_open G Γ e l hl (t.1 hr hc) (Or.inr ?_)
      have h3 := h1.2
      simp only [argReferable, hr, isAltRef, if_true] at h3
      cases hb : l.refb <;> simp_all
end

theorem keeps_open (G : Prog) (f : Func) : ∀ (s : Stmt) (Γ : Ctx), check G f Γ s = true →
    Keeps G Straight f Γ s → Keeps G Open f Γ s
  | .skip, _, _, _ => trivial
  | .seq s t, Γ, h, k => by
    simp only [check, Bool.and_eq_true] at h
    exact ⟨keeps_open G f s Γ h.1 k.1, keeps_open G f t _ h.2 k.2⟩
  | .expr e, Γ, h, k => targets_open G Γ e h k
  | .decl _ e, Γ, h, k => targets_open G Γ e h k
  | .bind c _ e, Γ, h, k => by
    simp only [check] at h
    cases hl : label G Γ e with
    | none => simp [hl] at h
    | some l =>
      refine ⟨targets_open G Γ e (by simp [hl]) k.1, fun hc => ?_⟩
      refine label_open G Γ e l hl (k.2 hc) (Or.inl ?_)
      simp [hl, bindOk, hc] at h
      exact h.2.1
  | .ite e s t, Γ, h, k => by
    simp only [check, Bool.and_eq_true] at h
    exact ⟨targets_open G Γ e h.1.1 k.1, keeps_open G f s Γ h.1.2 k.2.1, keeps_open G f t Γ h.2 k.2.2⟩
  | .loop e s, Γ, h, k => by
    simp only [check, Bool.and_eq_true] at h
    exact ⟨targets_open G Γ e h.1 k.1, keeps_open G f s Γ h.2 k.2⟩
  | .ifAs x _ s t, Γ, h, k => by
    simp only [check, Bool.and_eq_true] at h
    exact ⟨k.1, keeps_open G f s _ h.1.2 k.2.1, keeps_open G f t Γ h.2 k.2.2⟩
  | .ret e, Γ, h, k => by
    simp only [check] at h
    cases hl : label G Γ e with
    | none => simp [hl] at h
    | some l => exact ⟨targets_open G Γ e (by simp [hl]) k.1, k.2⟩


/-! ### Running keeps the objects of `K` -/

section run
variable {K : Nat → Prop} {G : Prog} {is : St → Place → Nat → Bool}

theorem Same.refl (s : St) : Same K s s := fun _ _ => rfl

theorem Same.trans {s t u : St} (h : Same K s t) (g : Same K t u) : Same K s u :=
  fun o k => (g o k).trans (h o k)

theorem Exist.mono {s t : St} (h : Exist K s) (g : s.next ≤ t.next) : Exist K t :=
  fun o k => lt_of_lt_of_le (h o k) g

theorem alloc_same {s : St} (h : Exist K s) (v : Val) : Same K s (alloc s v).2 := by
  intro o k
  simp only [alloc]
  rw [Function.update_of_ne (ne_of_lt (h o k))]

theorem alloc_next (s : St) (v : Val) : s.next ≤ (alloc s v).2.next := Nat.le_succ _

theorem alloc_apart {s : St} (h : Exist K s) (v : Val) : ¬ K (alloc s v).1.obj :=
  fun k => absurd (h _ k) (lt_irrefl _)

theorem write_same {s : St} {p : Place} (h : ¬ K p.obj) (v : Val) : Same K s (write s p v) := by
  intro o k
  funext r
  simp only [write]
  rw [if_neg]
  rintro ⟨rfl, _⟩
  exact h k

/-- What is shown of an expression. -/
def EvalOk (K : Nat → Prop) (G : Prog) (is : St → Place → Nat → Bool) (n : Nat) : Prop :=
  ∀ Γ ρ s e r, Exist K s → Apart K Γ ρ → Targets G Open Γ e → eval G is n ρ s e = some r →
    s.next ≤ r.2.next ∧ Same K s r.2 ∧ (Open Γ e → ¬ K r.1.obj)

/-- The context of parameters over another. -/
def withParams (ps : List (Nat × Sym)) (Δ : Ctx) : Ctx :=
  ps.foldr (fun p Γ => Function.update Γ p.1 (some p.2)) Δ

/-- What is shown of arguments. -/
def ArgsOk (K : Nat → Prop) (G : Prog) (is : St → Place → Nat → Bool) (n : Nat) : Prop :=
  ∀ Γ Δ ρ s ps as acc r, Exist K s → Apart K Γ ρ → Apart K Δ acc → TargetsArgs G Open Γ ps as →
    evalArgs G is n ρ s ps as acc = some r →
    s.next ≤ r.2.next ∧ Same K s r.2 ∧ Apart K (withParams ps Δ) r.1

/-- What is shown of a statement. -/
def ExecOk (K : Nat → Prop) (G : Prog) (is : St → Place → Nat → Bool) (n : Nat) : Prop :=
  ∀ f Γ ρ s t r, Exist K s → Apart K Γ ρ → Keeps G Open f Γ t → exec G is n ρ s t = some r →
    s.next ≤ r.st.next ∧ Same K s r.st ∧ (r.out = none → Apart K (after Γ t) r.env) ∧
      (f.retRef = true → ∀ p, r.out = some p → ¬ K p.obj)

theorem apart_update {Γ : Ctx} {ρ : Env} (h : Apart K Γ ρ) (x : Nat) (s : Sym) (p : Place)
    (hp : s.alt ≠ .cref → s.cparam = false → ¬ K p.obj) :
    Apart K (Function.update Γ x (some s)) (Function.update ρ x p) := by
  rintro y ⟨t, ht, h1, h2⟩
  by_cases hy : y = x
  · subst hy
    simp only [Function.update_self, Option.some.injEq] at ht ⊢
    subst ht
    exact hp h1 h2
  · simp only [Function.update_of_ne hy] at ht ⊢
    exact h y ⟨t, ht, h1, h2⟩

theorem eval_ok_succ (H : ∀ i, Keeps G Open (G.fn i) (start (G.fn i)) (G.fn i).body) (n : Nat)
    (hE : EvalOk K G is n) (hA : ArgsOk K G is n) (hX : ExecOk K G is n) : EvalOk K G is (n + 1) := by
  intro Γ ρ s e r he ha ht hr
  have two : ∀ {a b : Expr} {r q : Place × St}, Targets G Open Γ a → Targets G Open Γ b →
      eval G is n ρ s a = some r → eval G is n ρ r.2 b = some q →
      s.next ≤ q.2.next ∧ Same K s q.2 ∧ (Open Γ a → ¬ K r.1.obj) ∧ (Open Γ b → ¬ K q.1.obj) := by
    intro a b r q ta tb h1 h2
    have g1 := hE Γ ρ s a r he ha ta h1
    have g2 := hE Γ ρ r.2 b q (he.mono g1.1) ha tb h2
    exact ⟨g1.1.trans g2.1, g1.2.1.trans g2.2.1, g1.2.2, g2.2.2⟩
  cases e with
  | lit k =>
    simp only [eval, Option.some.injEq] at hr
    subst hr
    exact ⟨alloc_next _ _, alloc_same he _, False.elim⟩
  | var x =>
    simp only [eval, Option.some.injEq] at hr
    subst hr
    exact ⟨le_rfl, Same.refl _, ha x⟩
  | con k =>
    simp only [eval, Option.some.injEq] at hr
    subst hr
    exact ⟨le_rfl, Same.refl _, False.elim⟩
  | field e m =>
    simp only [eval, Option.map_eq_some_iff] at hr
    obtain ⟨q, hq, rfl⟩ := hr
    exact hE Γ ρ s e q he ha ht hq
  | fieldCon e k =>
    simp only [eval, Option.map_eq_some_iff] at hr
    obtain ⟨q, hq, rfl⟩ := hr
    have g := hE Γ ρ s e q he ha ht hq
    exact ⟨g.1, g.2.1, False.elim⟩
  | base e b =>
    simp only [eval, Option.map_eq_some_iff] at hr
    obtain ⟨q, hq, rfl⟩ := hr
    exact hE Γ ρ s e q he ha ht hq
  | item str e i =>
    simp only [eval, Option.bind_eq_some_iff, Option.map_eq_some_iff] at hr
    obtain ⟨q, hq, z, hz, rfl⟩ := hr
    have g := two ht.1 ht.2 hq hz
    cases str with
    | true =>
      have e2 := he.mono g.1
      exact ⟨g.1.trans (alloc_next _ _), g.2.1.trans (alloc_same e2 _), fun _ => alloc_apart e2 _⟩
    | false =>
      refine ⟨g.1, g.2.1, fun o => g.2.2.1 ?_⟩
      rcases o with o | o
      · simp at o
      · exact o
  | castRef e => exact hE Γ ρ s e r he ha ht hr
  | castVal f e =>
    simp only [eval, Option.map_eq_some_iff] at hr
    obtain ⟨q, hq, rfl⟩ := hr
    have g := hE Γ ρ s e q he ha ht hq
    have e2 := he.mono g.1
    exact ⟨g.1.trans (alloc_next _ _), g.2.1.trans (alloc_same e2 _), fun _ => alloc_apart e2 _⟩
  | tern c a b =>
    simp only [eval, Option.bind_eq_some_iff] at hr
    obtain ⟨q, hq, hr⟩ := hr
    split at hr
    · have g := two ht.1 ht.2.1 hq hr
      exact ⟨g.1, g.2.1, fun o => g.2.2.2 o.1⟩
    · have g := two ht.1 ht.2.2 hq hr
      exact ⟨g.1, g.2.1, fun o => g.2.2.2 o.2⟩
  | storageof e => exact hE Γ ρ s e r he ha ht hr
  | inst =>
    simp only [eval, Option.some.injEq] at hr
    subst hr
    exact ⟨alloc_next _ _, alloc_same he _, fun _ => alloc_apart he _⟩
  | bin f a b =>
    simp only [eval, Option.bind_eq_some_iff, Option.map_eq_some_iff] at hr
    obtain ⟨q, hq, z, hz, rfl⟩ := hr
    have g := two ht.1 ht.2 hq hz
    have e2 := he.mono g.1
    exact ⟨g.1.trans (alloc_next _ _), g.2.1.trans (alloc_same e2 _), fun _ => alloc_apart e2 _⟩
  | assign a b =>
    simp only [eval, Option.bind_eq_some_iff, Option.map_eq_some_iff] at hr
    obtain ⟨q, hq, z, hz, rfl⟩ := hr
    have g := two ht.2.1 ht.2.2 hq hz
    exact ⟨g.1, g.2.1.trans (write_same (g.2.2.1 ht.1) _), g.2.2.1⟩
  | assignOp f a b =>
    simp only [eval, Option.bind_eq_some_iff, Option.map_eq_some_iff] at hr
    obtain ⟨q, hq, z, hz, rfl⟩ := hr
    have g := two ht.2.1 ht.2.2 hq hz
    have w : Same K z.2 (write z.2 q.1 fun _ => f (read z.2 q.1 []) (read z.2 z.1 [])) :=
      write_same (g.2.2.1 ht.1) _
    exact ⟨g.1, g.2.1.trans w, g.2.2.1⟩
  | call e f as =>
    simp only [eval, Option.bind_eq_some_iff] at hr
    obtain ⟨q, hq, z, hz, w, hw, hr⟩ := hr
    have g1 := hE Γ ρ s e q he ha ht.2.1 hq
    have g2 := hA Γ (fun x => if x = 0 then some ⟨.ref, false⟩ else none) ρ q.2 _ as (fun _ => q.1) z
      (he.mono g1.1) ha (fun x _ => g1.2.2 ht.1) ht.2.2 hz
    have e2 := (he.mono g1.1).mono g2.1
    have g3 := hX (G.fn f) (start (G.fn f)) z.1 z.2 _ w e2 g2.2.2 (H f) hw
    have e3 := e2.mono g3.1
    have l3 := (g1.1.trans g2.1).trans g3.1
    have s3 := (g1.2.1.trans g2.2.1).trans g3.2.1
    split at hr
    · rename_i p ho hf
      simp only [Option.some.injEq] at hr
      subst hr
      exact ⟨l3, s3, fun _ => g3.2.2.2 hf p ho⟩
    · simp only [Option.some.injEq] at hr
      subst hr
      exact ⟨l3.trans (alloc_next _ _), s3.trans (alloc_same e3 _), fun _ => alloc_apart e3 _⟩
    · simp at hr
    · simp only [Option.some.injEq] at hr
      subst hr
      exact ⟨l3.trans (alloc_next _ _), s3.trans (alloc_same e3 _), fun _ => alloc_apart e3 _⟩

theorem args_ok_succ (n : Nat) (hE : EvalOk K G is n) (hA : ArgsOk K G is n) :
    ArgsOk K G is (n + 1) := by
  intro Γ Δ ρ s ps as acc r he ha hd ht hr
  match ps, as with
  | [], .nil =>
    simp only [evalArgs, Option.some.injEq] at hr
    subst hr
    exact ⟨le_rfl, Same.refl _, hd⟩
  | [], .cons _ _ => simp [evalArgs] at hr
  | _ :: _, .nil => simp [evalArgs] at hr
  | p :: ps, .cons e as =>
    simp only [evalArgs, Option.bind_eq_some_iff] at hr
    obtain ⟨q, hq, hr⟩ := hr
    have g := hE Γ ρ s e q he ha ht.2.1 hq
    have e1 := he.mono g.1
    split at hr
    · rename_i hp
      simp only [Option.map_eq_some_iff] at hr
      obtain ⟨z, hz, rfl⟩ := hr
      have g2 := hA Γ Δ ρ q.2 ps as acc z e1 ha hd ht.2.2 hz
      refine ⟨g.1.trans g2.1, g.2.1.trans g2.2.1, apart_update g2.2.2 p.1 p.2 q.1 fun h1 h2 => ?_⟩
      refine g.2.2 (ht.1 ?_ h2)
      cases h : p.2.alt <;> simp_all [isAltRef]
    · simp only [Option.map_eq_some_iff] at hr
      obtain ⟨z, hz, rfl⟩ := hr
      have g2 := hA Γ Δ ρ _ ps as acc z (e1.mono (alloc_next _ _)) ha hd ht.2.2 hz
      exact ⟨(g.1.trans (alloc_next _ _)).trans g2.1, (g.2.1.trans (alloc_same e1 _)).trans g2.2.1,
        apart_update g2.2.2 p.1 p.2 _ fun _ _ => alloc_apart e1 _⟩

theorem exec_ok_succ (n : Nat) (hE : EvalOk K G is n) (hX : ExecOk K G is n) :
    ExecOk K G is (n + 1) := by
  intro f Γ ρ s t r he ha hk hr
  cases t with
  | skip =>
    simp only [exec, Option.some.injEq] at hr
    subst hr
    exact ⟨le_rfl, Same.refl _, fun _ => ha, fun _ p h => by simp at h⟩
  | seq t u =>
    simp only [exec, Option.bind_eq_some_iff] at hr
    obtain ⟨q, hq, hr⟩ := hr
    have g := hX f Γ ρ s t q he ha hk.1 hq
    split at hr
    · rename_i ho
      simp only [Option.some.injEq] at hr
      subst hr
      exact ⟨g.1, g.2.1, fun h => by simp [h] at ho, g.2.2.2⟩
    · rename_i ho
      have g2 := hX f (after Γ t) q.env q.st u r (he.mono g.1) (g.2.2.1 (by simpa using ho)) hk.2 hr
      exact ⟨g.1.trans g2.1, g.2.1.trans g2.2.1, g2.2.2.1, g2.2.2.2⟩
  | expr e =>
    simp only [exec, Option.map_eq_some_iff] at hr
    obtain ⟨q, hq, rfl⟩ := hr
    have g := hE Γ ρ s e q he ha hk hq
    exact ⟨g.1, g.2.1, fun _ => ha, fun _ p h => by simp at h⟩
  | decl x e =>
    simp only [exec, Option.map_eq_some_iff] at hr
    obtain ⟨q, hq, rfl⟩ := hr
    have g := hE Γ ρ s e q he ha hk hq
    have e1 := he.mono g.1
    exact ⟨g.1.trans (alloc_next _ _), g.2.1.trans (alloc_same e1 _),
      fun _ => apart_update ha x _ _ fun _ _ => alloc_apart e1 _, fun _ p h => by simp at h⟩
  | bind c x e =>
    simp only [exec, Option.map_eq_some_iff] at hr
    obtain ⟨q, hq, rfl⟩ := hr
    have g := hE Γ ρ s e q he ha hk.1 hq
    refine ⟨g.1, g.2.1, fun _ => apart_update ha x _ _ fun h _ => ?_, fun _ p h => by simp at h⟩
    refine g.2.2 (hk.2 ?_)
    cases c <;> simp_all
  | ite e t u =>
    simp only [exec, Option.bind_eq_some_iff, Option.map_eq_some_iff] at hr
    obtain ⟨q, hq, z, hz, rfl⟩ := hr
    have g := hE Γ ρ s e q he ha hk.1 hq
    have e1 := he.mono g.1
    split at hz
    · have g2 := hX f Γ ρ q.2 t z e1 ha hk.2.1 hz
      exact ⟨g.1.trans g2.1, g.2.1.trans g2.2.1, fun _ => ha, g2.2.2.2⟩
    · have g2 := hX f Γ ρ q.2 u z e1 ha hk.2.2 hz
      exact ⟨g.1.trans g2.1, g.2.1.trans g2.2.1, fun _ => ha, g2.2.2.2⟩
  | loop e t =>
    simp only [exec, Option.bind_eq_some_iff] at hr
    obtain ⟨q, hq, hr⟩ := hr
    have g := hE Γ ρ s e q he ha hk.1 hq
    have e1 := he.mono g.1
    split at hr
    · simp only [Option.bind_eq_some_iff] at hr
      obtain ⟨z, hz, hr⟩ := hr
      have g2 := hX f Γ ρ q.2 t z e1 ha hk.2 hz
      split at hr
      · simp only [Option.some.injEq] at hr
        subst hr
        exact ⟨g.1.trans g2.1, g.2.1.trans g2.2.1, fun _ => ha, g2.2.2.2⟩
      · have g3 := hX f Γ ρ z.st (.loop e t) r (e1.mono g2.1) ha hk hr
        exact ⟨(g.1.trans g2.1).trans g3.1, (g.2.1.trans g2.2.1).trans g3.2.1, g3.2.2.1, g3.2.2.2⟩
    · simp only [Option.some.injEq] at hr
      subst hr
      exact ⟨g.1, g.2.1, fun _ => ha, fun _ p h => by simp at h⟩
  | ifAs x ty t u =>
    simp only [exec, Option.map_eq_some_iff] at hr
    obtain ⟨z, hz, rfl⟩ := hr
    split at hz
    · have h1 : Apart K (inAs Γ x) ρ := by
        have h := apart_update ha x ⟨.as, false⟩ (ρ x) fun _ _ => ha x hk.1
        rwa [Function.update_eq_self] at h
      have g := hX f (inAs Γ x) ρ s t z he h1 hk.2.1 hz
      exact ⟨g.1, g.2.1, fun _ => ha, g.2.2.2⟩
    · have g := hX f Γ ρ s u z he ha hk.2.2 hz
      exact ⟨g.1, g.2.1, fun _ => ha, g.2.2.2⟩
  | ret e =>
    simp only [exec, Option.map_eq_some_iff] at hr
    obtain ⟨q, hq, rfl⟩ := hr
    have g := hE Γ ρ s e q he ha hk.1 hq
    refine ⟨g.1, g.2.1, fun h => by simp at h, fun hf p h => ?_⟩
    simp only [Option.some.injEq] at h
    subst h
    exact g.2.2 (hk.2 hf)

theorem all_ok (H : ∀ i, Keeps G Open (G.fn i) (start (G.fn i)) (G.fn i).body) (n : Nat) :
    EvalOk K G is n ∧ ArgsOk K G is n ∧ ExecOk K G is n := by
  induction n with
  | zero =>
    refine ⟨?_, ?_, ?_⟩
    · intro _ _ _ _ _ _ _ _ h; simp [eval] at h
    · intro _ _ _ _ _ _ _ _ _ _ _ _ h; simp [evalArgs] at h
    · intro _ _ _ _ _ _ _ _ _ h; simp [exec] at h
  | succ n ih =>
    exact ⟨eval_ok_succ H n ih.1 ih.2.1 ih.2.2, args_ok_succ n ih.1 ih.2.1, exec_ok_succ n ih.1 ih.2.2⟩

end run

end Ulam.Constness
