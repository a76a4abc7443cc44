import Verif.Returns.Spec
import Mathlib.Tactic.SplitIfs
/-
The lowered body with a place for the result does what the return statements
mean; statements that have no end do not end normally.
-/
namespace Ulam.Returns
open Ulam.Control

variable {σ : Type}

/-- An outcome of the lowered body stands for one of the statements with values. -/
def Sim : Option (Out × (σ × Option Int)) → Option (ROut × σ) → Option Int → Prop
  | none, none, _ => True
  | some (.normal, s), some (.normal, y), w => s = (y, w)
  | some (.brk, s), some (.brk, y), w => s = (y, w)
  | some (.cont, s), some (.cont, y), w => s = (y, w)
  | some (.ret, s), some (.ret none, y), w => s = (y, w)
  | some (.ret, s), some (.ret (some v), y), _ => s = (y, some v)
  | _, _, _ => False

variable (S : Sem σ) (conv : Nat → Int → Int)

theorem lift_act (a : Nat) (s : σ × Option Int) : (lift S conv).act (2 * a) s = (S.act a s.1, s.2) := by
  have h1 : 2 * a % 2 = 0 := by omega
  have h2 : 2 * a / 2 = a := by omega
  simp only [lift, h1, if_true, h2]

theorem lift_set (e : Nat) (s : σ × Option Int) :
    (lift S conv).act (2 * e + 1) s = ((S.val e s.1).2, some (conv e (S.val e s.1).1)) := by
  have h1 : ¬ (2 * e + 1) % 2 = 0 := by omega
  have h2 : (2 * e + 1) / 2 = e := by omega
  simp only [lift, h1, if_false, h2]

theorem lift_forTest (c : Option Nat) (x : σ) (w : Option Int) :
    forTest (lift S conv) c (x, w) = ((forTest S c x).1, ((forTest S c x).2, w)) := by
  cases c <;> rfl

theorem lift_step (c : Option Nat) (x : σ) (w : Option Int) :
    stepFn (lift S conv) (c.map (2 * ·)) (x, w) = (stepFn S c x, w) := by
  cases c with
  | none => rfl
  | some a => exact lift_act S conv a (x, w)

theorem lift_anyMet (v : Option Int) : ∀ (ls : List (Option Nat)) (x : σ) (w : Option Int),
    anyMet (lift S conv) v ls (x, w) = ((anyMet S v ls x).1, ((anyMet S v ls x).2, w))
  | [], _, _ => rfl
  | none :: _, _, _ => rfl
  | some e :: ls, x, w => by
    cases v with
    | none =>
      show (if (S.cond e x).1 = true then _ else _) = _
      rw [anyMet]
      dsimp only
      split
      · rfl
      · exact lift_anyMet none ls _ w
    | some y =>
      show (if decide (y = (S.val e x).1) = true then _ else _) = _
      rw [anyMet]
      dsimp only
      split
      · rfl
      · exact lift_anyMet (some y) ls _ w

theorem lift_group (v : Option Int) (ls : List (Option Nat)) (x : σ) (w : Option Int) :
    groupTaken (lift S conv) v ls (x, w) = ((groupTaken S v ls x).1, ((groupTaken S v ls x).2, w)) := by
  unfold groupTaken
  split
  · rfl
  · exact lift_anyMet S conv v ls x w

theorem sim_loop (cond : σ → Bool × σ) (cond' : σ × Option Int → Bool × (σ × Option Int))
    (hc : ∀ x w, cond' (x, w) = ((cond x).1, ((cond x).2, w)))
    (body : σ → Option (ROut × σ)) (body' : σ × Option Int → Option (Out × (σ × Option Int)))
    (hb : ∀ x w, Sim (body' (x, w)) (body x) w)
    (step : σ → σ) (step' : σ × Option Int → σ × Option Int) (hs : ∀ x w, step' (x, w) = (step x, w)) :
    ∀ n x w, Sim (sloop cond' body' step' n (x, w)) (rloop cond body step n x) w := by
  intro n
  induction n with
  | zero => intro x w; exact True.intro
  | succ n ih =>
    intro x w
    rw [sloop, rloop, hc]
    rcases h : cond x with ⟨b, y⟩
    cases b with
    | false => exact rfl
    | true =>
      dsimp only
      have := hb y w
      rcases h1 : body' (y, w) with _ | ⟨o, s⟩ <;> rcases h2 : body y with _ | ⟨o', y'⟩ <;> rw [h1, h2] at this
      · exact True.intro
      · exact this.elim
      · cases o <;> exact this.elim
      · cases o <;> cases o' <;> first | exact this.elim | skip
        · have h : s = (y', w) := this; subst h; dsimp only; rw [hs]; exact ih _ _
        · rename_i v; cases v <;> exact this
        · have h : s = (y', w) := this; subst h; exact rfl
        · have h : s = (y', w) := this; subst h; dsimp only; rw [hs]; exact ih _ _

theorem sim_which {a : Option (Out × (σ × Option Int))} {b : Option (ROut × σ)} {w : Option Int} (h : Sim a b w) :
    Sim (a.map fun r => (if r.1 = .brk then .normal else r.1, r.2))
      (b.map fun r => (if r.1 = .brk then .normal else r.1, r.2)) w := by
  rcases a with _ | ⟨o, s⟩ <;> rcases b with _ | ⟨o', y⟩
  · exact h
  · exact h.elim
  · cases o <;> exact h.elim
  · cases o <;> cases o' <;> first | exact h.elim | exact h | skip

mutual
theorem sim (fuel : Nat) : ∀ (s : RStmt) (x : σ) (w : Option Int),
    Sim (exec (lift S conv) fuel (lower s) (x, w)) (rexec S conv fuel s x) w
  | .act a, x, w => by
    rw [lower, exec, rexec, lift_act]; exact rfl
  | .ret none, x, w => by rw [lower, exec, rexec]; exact rfl
  | .ret (some e), x, w => by
    rw [lower, exec, execs, exec, lift_set, rexec]; dsimp only; rw [execs, exec]; exact rfl
  | .brk, x, w => by rw [lower, exec, rexec]; exact rfl
  | .cont, x, w => by rw [lower, exec, rexec]; exact rfl
  | .block ss, x, w => by rw [lower, exec, rexec]; exact sims fuel ss x w
  | .ite c t, x, w => by
    rw [lower, exec, rexec]
    rcases h : S.cond c x with ⟨b, y⟩
    have : (lift S conv).cond c (x, w) = (b, (y, w)) := by simp only [lift, h]
    rw [this]
    cases b with
    | true => exact sim fuel t y w
    | false => exact rfl
  | .iteElse c t e, x, w => by
    rw [lower, exec, rexec]
    rcases h : S.cond c x with ⟨b, y⟩
    have : (lift S conv).cond c (x, w) = (b, (y, w)) := by simp only [lift, h]
    rw [this]
    cases b with
    | true => exact sim fuel t y w
    | false => exact sim fuel e y w
  | .whil c b, x, w => by
    rw [lower, exec, rexec]
    exact sim_loop _ _ (fun x w => rfl) _ _ (fun x w => sim fuel b x w) _ _ (fun _ _ => rfl) fuel x w
  | .forr i c st b, x, w => by
    rw [lower, exec, rexec, lift_step]
    exact sim_loop _ _ (fun x w => lift_forTest S conv c x w) _ _ (fun x w => sim fuel b x w) _ _
      (fun x w => lift_step S conv st x w) fuel _ w
  | .which e gs, x, w => by
    cases e with
    | none => rw [lower, exec, rexec]; exact sim_which (simG fuel none gs x w)
    | some e => rw [lower, exec, rexec]; exact sim_which (simG fuel (some (S.val e x).1) gs (S.val e x).2 w)
theorem sims (fuel : Nat) : ∀ (ss : RStmts) (x : σ) (w : Option Int),
    Sim (execs (lift S conv) fuel (lowers ss) (x, w)) (rexecs S conv fuel ss x) w
  | .nil, x, w => by rw [lowers, execs, rexecs]; exact rfl
  | .cons st ss, x, w => by
    rw [lowers, execs, rexecs]
    have := sim fuel st x w
    rcases h1 : exec (lift S conv) fuel (lower st) (x, w) with _ | ⟨o, s⟩ <;>
      rcases h2 : rexec S conv fuel st x with _ | ⟨o', y⟩ <;> rw [h1, h2] at this
    · exact True.intro
    · exact this.elim
    · cases o <;> exact this.elim
    · cases o <;> cases o' <;> first | exact this.elim | exact this | skip
      have h : s = (y, w) := this
      subst h; exact sims fuel ss y w
theorem simG (fuel : Nat) (v : Option Int) : ∀ (gs : RGroups) (x : σ) (w : Option Int),
    Sim (execGroups (lift S conv) fuel v (lowerG gs) (x, w)) (rexecG S conv fuel v gs x) w
  | .nil, x, w => by rw [lowerG, execGroups, rexecG]; exact rfl
  | .cons l ls b gs, x, w => by
    rw [lowerG, execGroups, rexecG, lift_group]
    rcases h : groupTaken S v (l :: ls) x with ⟨g, y⟩
    cases g with
    | true => exact sim fuel b y w
    | false => exact simG fuel v gs y w
end

theorem rloop_ne_brk (cond : σ → Bool × σ) (body : σ → Option (ROut × σ)) (step : σ → σ) :
    ∀ n x y, rloop cond body step n x ≠ some (.brk, y) := by
  intro n
  induction n with
  | zero => intro x y h; exact absurd h (by simp [rloop])
  | succ n ih =>
    intro x y h
    rw [rloop] at h
    rcases hc : cond x with ⟨b, z⟩
    rw [hc] at h
    cases b with
    | false => simp at h
    | true =>
      dsimp only at h
      rcases hb : body z with _ | ⟨o, u⟩ <;> rw [hb] at h
      · simp at h
      · cases o with
        | ret v => simp at h
        | brk => simp at h
        | normal => exact ih _ _ h
        | cont => exact ih _ _ h

mutual
theorem noBreak (fuel : Nat) : ∀ (s : RStmt) (x y : σ), mayBreak s = false → rexec S conv fuel s x ≠ some (.brk, y)
  | .act a, x, y, _, h => by simp [rexec] at h
  | .ret none, x, y, _, h => by simp [rexec] at h
  | .ret (some e), x, y, _, h => by simp [rexec] at h
  | .brk, x, y, hm, _ => by simp [mayBreak] at hm
  | .cont, x, y, _, h => by simp [rexec] at h
  | .block ss, x, y, hm, h => by rw [rexec] at h; exact noBreaks fuel ss x y (by simpa [mayBreak] using hm) h
  | .ite c t, x, y, hm, h => by
    rw [rexec] at h
    rcases hc : S.cond c x with ⟨b, z⟩
    rw [hc] at h
    cases b with
    | true => exact noBreak fuel t z y (by simpa [mayBreak] using hm) h
    | false => simp at h
  | .iteElse c t e, x, y, hm, h => by
    rw [rexec] at h
    simp only [mayBreak, Bool.or_eq_false_iff] at hm
    rcases hc : S.cond c x with ⟨b, z⟩
    rw [hc] at h
    cases b with
    | true => exact noBreak fuel t z y hm.1 h
    | false => exact noBreak fuel e z y hm.2 h
  | .whil c b, x, y, _, h => by rw [rexec] at h; exact rloop_ne_brk _ _ _ _ _ _ h
  | .forr i c st b, x, y, _, h => by rw [rexec] at h; exact rloop_ne_brk _ _ _ _ _ _ h
  | .which e gs, x, y, _, h => by
    cases e <;> rw [rexec, Option.map_eq_some_iff] at h
    all_goals
      obtain ⟨r, _, hr⟩ := h
      split_ifs at hr with hq
      · simp at hr
      · simp only [Prod.mk.injEq] at hr; exact hq hr.1
theorem noBreaks (fuel : Nat) : ∀ (ss : RStmts) (x y : σ), mayBreaks ss = false →
    rexecs S conv fuel ss x ≠ some (.brk, y)
  | .nil, x, y, _, h => by simp [rexecs] at h
  | .cons st ss, x, y, hm, h => by
    rw [rexecs] at h
    simp only [mayBreaks, Bool.or_eq_false_iff] at hm
    rcases hs : rexec S conv fuel st x with _ | ⟨o, z⟩ <;> rw [hs] at h
    · simp at h
    · cases o with
      | normal => exact noBreaks fuel ss z y hm.2 h
      | brk => exact noBreak fuel st x z hm.1 hs
      | cont => simp at h
      | ret v => simp at h
end

theorem noBreakG (fuel : Nat) (v : Option Int) : ∀ (gs : RGroups) (x y : σ), mayBreakG gs = false →
    rexecG S conv fuel v gs x ≠ some (.brk, y)
  | .nil, x, y, _, h => by simp [rexecG] at h
  | .cons l ls b gs, x, y, hm, h => by
    rw [rexecG] at h
    simp only [mayBreakG, Bool.or_eq_false_iff] at hm
    rcases hg : groupTaken S v (l :: ls) x with ⟨g, z⟩
    rw [hg] at h
    cases g with
    | true => exact noBreak S conv fuel b z y hm.1 h
    | false => exact noBreakG fuel v gs z y hm.2 h

theorem rloop_forever (body : σ → Option (ROut × σ)) (step : σ → σ) (hb : ∀ x y, body x ≠ some (.brk, y)) :
    ∀ n x y, rloop (fun s => (true, s)) body step n x ≠ some (.normal, y) := by
  intro n
  induction n with
  | zero => intro x y h; exact absurd h (by simp [rloop])
  | succ n ih =>
    intro x y h
    rw [rloop] at h
    dsimp only at h
    rcases hx : body x with _ | ⟨o, u⟩ <;> rw [hx] at h
    · simp at h
    · cases o with
      | ret v => simp at h
      | brk => exact hb _ _ hx
      | normal => exact ih _ _ h
      | cont => exact ih _ _ h

mutual
theorem noEnd_sound (fuel : Nat) : ∀ (s : RStmt) (x y : σ), noEnd s = true → rexec S conv fuel s x ≠ some (.normal, y)
  | .act a, _, _, hn, _ => by simp [noEnd] at hn
  | .ret none, x, y, _, h => by simp [rexec] at h
  | .ret (some e), x, y, _, h => by simp [rexec] at h
  | .brk, _, _, hn, _ => by simp [noEnd] at hn
  | .cont, _, _, hn, _ => by simp [noEnd] at hn
  | .block ss, x, y, hn, h => by rw [rexec] at h; exact noEnds_sound fuel ss x y (by simpa [noEnd] using hn) h
  | .ite c t, _, _, hn, _ => by simp [noEnd] at hn
  | .iteElse c t e, x, y, hn, h => by
    rw [rexec] at h
    simp only [noEnd, Bool.and_eq_true] at hn
    rcases hc : S.cond c x with ⟨b, z⟩
    rw [hc] at h
    cases b with
    | true => exact noEnd_sound fuel t z y hn.1 h
    | false => exact noEnd_sound fuel e z y hn.2 h
  | .whil c b, _, _, hn, _ => by simp [noEnd] at hn
  | .forr i (some c) st b, _, _, hn, _ => by simp [noEnd] at hn
  | .forr i none st b, x, y, hn, h => by
    rw [rexec] at h
    simp only [noEnd, Bool.not_eq_true'] at hn
    exact rloop_forever _ _ (fun x y => noBreak S conv fuel b x y hn) _ _ _ h
  | .which e gs, x, y, hn, h => by
    simp only [noEnd, Bool.and_eq_true, Bool.not_eq_true'] at hn
    have key : ∀ v z, (rexecG S conv fuel v gs z).map (fun r => (if r.1 = ROut.brk then ROut.normal else r.1, r.2)) ≠
        some (.normal, y) := by
      intro v z hh
      rw [Option.map_eq_some_iff] at hh
      obtain ⟨⟨o, u⟩, h1, hr⟩ := hh
      split_ifs at hr with hq
      · dsimp only at hq; subst hq; exact noBreakG S conv fuel v gs z u hn.2 h1
      · simp only [Prod.mk.injEq] at hr; obtain ⟨rfl, rfl⟩ := hr
        exact noEndG_sound fuel v gs z _ hn.1 h1
    cases e with
    | none => rw [rexec] at h; exact key _ _ h
    | some e => rw [rexec] at h; exact key _ _ h
theorem noEnds_sound (fuel : Nat) : ∀ (ss : RStmts) (x y : σ), noEnds ss = true →
    rexecs S conv fuel ss x ≠ some (.normal, y)
  | .nil, _, _, hn, _ => by simp [noEnds] at hn
  | .cons st ss, x, y, hn, h => by
    rw [rexecs] at h
    simp only [noEnds, Bool.or_eq_true] at hn
    rcases hs : rexec S conv fuel st x with _ | ⟨o, z⟩ <;> rw [hs] at h
    · simp at h
    · cases o with
      | normal =>
        rcases hn with hn | hn
        · exact noEnd_sound fuel st x z hn hs
        · exact noEnds_sound fuel ss z y hn h
      | brk => simp at h
      | cont => simp at h
      | ret v => simp at h
theorem noEndG_sound (fuel : Nat) (v : Option Int) : ∀ (gs : RGroups) (x y : σ), noEndG gs = true →
    rexecG S conv fuel v gs x ≠ some (.normal, y)
  | .nil, _, _, hn, _ => by simp [noEndG] at hn
  | .cons l ls b gs, x, y, hn, h => by
    rw [rexecG] at h
    simp only [noEndG, Bool.and_eq_true, Bool.or_eq_true, decide_eq_true_eq] at hn
    rcases hg : groupTaken S v (l :: ls) x with ⟨g, z⟩
    rw [hg] at h
    cases g with
    | true => exact noEnd_sound fuel b z y hn.1 h
    | false =>
      rcases hn.2 with hn | hn
      · simp [groupTaken, hn] at hg
      · exact noEndG_sound fuel v gs z y hn h
end

/-- Every value returned is that of one of the return statements. -/
theorem rloop_ret (P : Option Int → Prop) (cond : σ → Bool × σ) (body : σ → Option (ROut × σ)) (step : σ → σ)
    (hb : ∀ x v y, body x = some (.ret v, y) → P v) :
    ∀ n x v y, rloop cond body step n x = some (.ret v, y) → P v := by
  intro n
  induction n with
  | zero => intro x v y h; exact absurd h (by simp [rloop])
  | succ n ih =>
    intro x v y h
    rw [rloop] at h
    rcases hc : cond x with ⟨b, z⟩
    rw [hc] at h
    cases b with
    | false => simp at h
    | true =>
      dsimp only at h
      rcases hx : body z with _ | ⟨o, u⟩ <;> rw [hx] at h
      · simp at h
      · cases o with
        | ret v' =>
          simp only [Option.some.injEq, Prod.mk.injEq, ROut.ret.injEq] at h
          exact h.1 ▸ hb _ _ _ hx
        | brk => simp at h
        | normal => exact ih _ _ _ h
        | cont => exact ih _ _ _ h

/-- The value is that of a return statement among these, evaluated in some state. -/
def Among (es : List (Option Nat)) (v : Option Int) : Prop :=
  ∃ e ∈ es, match e with
    | none => v = none
    | some e => ∃ y : σ, v = some (conv e (S.val e y).1)

theorem Among.mono {es es' : List (Option Nat)} {v} (h : Among S conv es v) (hs : ∀ e ∈ es, e ∈ es') :
    Among S conv es' v := by
  obtain ⟨e, he, h⟩ := h
  exact ⟨e, hs e he, h⟩

mutual
theorem among (fuel : Nat) : ∀ (s : RStmt) (x : σ) v y, rexec S conv fuel s x = some (.ret v, y) →
    Among S conv (rets s) v
  | .act a, x, v, y, h => by simp [rexec] at h
  | .ret none, x, v, y, h => by
    simp only [rexec, Option.some.injEq, Prod.mk.injEq, ROut.ret.injEq] at h
    exact ⟨none, by simp [rets], h.1.symm⟩
  | .ret (some e), x, v, y, h => by
    simp only [rexec, Option.some.injEq, Prod.mk.injEq, ROut.ret.injEq] at h
    exact ⟨some e, by simp [rets], x, h.1.symm⟩
  | .brk, x, v, y, h => by simp [rexec] at h
  | .cont, x, v, y, h => by simp [rexec] at h
  | .block ss, x, v, y, h => by rw [rexec] at h; rw [rets]; exact amongs fuel ss x v y h
  | .ite c t, x, v, y, h => by
    rw [rexec] at h
    rcases hc : S.cond c x with ⟨b, z⟩
    rw [hc] at h
    cases b with
    | true => rw [rets]; exact among fuel t z v y h
    | false => simp at h
  | .iteElse c t e, x, v, y, h => by
    rw [rexec] at h
    rcases hc : S.cond c x with ⟨b, z⟩
    rw [hc] at h
    rw [rets]
    cases b with
    | true => exact (among fuel t z v y h).mono S conv fun e he => List.mem_append_left _ he
    | false => exact (among fuel e z v y h).mono S conv fun e he => List.mem_append_right _ he
  | .whil c b, x, v, y, h => by
    rw [rexec] at h; rw [rets]
    exact rloop_ret (Among S conv (rets b)) _ _ _ (fun x v y h => among fuel b x v y h) _ _ _ _ h
  | .forr i c st b, x, v, y, h => by
    rw [rexec] at h; rw [rets]
    exact rloop_ret (Among S conv (rets b)) _ _ _ (fun x v y h => among fuel b x v y h) _ _ _ _ h
  | .which e gs, x, v, y, h => by
    rw [rets]
    have key : ∀ t z, (rexecG S conv fuel t gs z).map (fun r => (if r.1 = ROut.brk then ROut.normal else r.1, r.2)) =
        some (.ret v, y) → Among S conv (retsG gs) v := by
      intro t z hh
      rw [Option.map_eq_some_iff] at hh
      obtain ⟨⟨o, u⟩, h1, hr⟩ := hh
      split_ifs at hr with hq
      · simp at hr
      · simp only [Prod.mk.injEq] at hr; obtain ⟨rfl, rfl⟩ := hr
        exact amongG fuel t gs z v _ h1
    cases e with
    | none => rw [rexec] at h; exact key _ _ h
    | some e => rw [rexec] at h; exact key _ _ h
theorem amongs (fuel : Nat) : ∀ (ss : RStmts) (x : σ) v y, rexecs S conv fuel ss x = some (.ret v, y) →
    Among S conv (retss ss) v
  | .nil, x, v, y, h => by simp [rexecs] at h
  | .cons st ss, x, v, y, h => by
    rw [rexecs] at h
    rw [retss]
    rcases hs : rexec S conv fuel st x with _ | ⟨o, z⟩ <;> rw [hs] at h
    · simp at h
    · cases o with
      | normal => exact (amongs fuel ss z v y h).mono S conv fun e he => List.mem_append_right _ he
      | brk => simp at h
      | cont => simp at h
      | ret v' =>
        simp only [Option.some.injEq, Prod.mk.injEq, ROut.ret.injEq] at h
        exact h.1 ▸ (among fuel st x v' z hs).mono S conv fun e he => List.mem_append_left _ he
theorem amongG (fuel : Nat) (t : Option Int) : ∀ (gs : RGroups) (x : σ) v y,
    rexecG S conv fuel t gs x = some (.ret v, y) → Among S conv (retsG gs) v
  | .nil, x, v, y, h => by simp [rexecG] at h
  | .cons l ls b gs, x, v, y, h => by
    rw [rexecG] at h
    rw [retsG]
    rcases hg : groupTaken S t (l :: ls) x with ⟨g, z⟩
    rw [hg] at h
    cases g with
    | true => exact (among fuel b z v y h).mono S conv fun e he => List.mem_append_left _ he
    | false => exact (amongG fuel t gs z v y h).mono S conv fun e he => List.mem_append_right _ he
end

mutual
/-- Only the casts of the expressions returned matter. -/
theorem rexec_congr (conv' : Nat → Int → Int) (fuel : Nat) : ∀ (s : RStmt),
    (∀ e, some e ∈ rets s → conv e = conv' e) → ∀ x : σ, rexec S conv fuel s x = rexec S conv' fuel s x
  | .act a, _, x => by simp only [rexec]
  | .ret none, _, x => by simp only [rexec]
  | .ret (some e), h, x => by rw [rexec, rexec, h e (by simp [rets])]
  | .brk, _, x => by simp only [rexec]
  | .cont, _, x => by simp only [rexec]
  | .block ss, h, x => by rw [rexec, rexec, rexecs_congr conv' fuel ss h]
  | .ite c t, h, x => by
    rw [rexec, rexec]
    rcases S.cond c x with ⟨_ | _, z⟩
    · rfl
    · exact rexec_congr conv' fuel t h z
  | .iteElse c t e, h, x => by
    rw [rexec, rexec]
    rcases S.cond c x with ⟨_ | _, z⟩
    · exact rexec_congr conv' fuel e (fun e he => h e (by rw [rets]; exact List.mem_append_right _ he)) z
    · exact rexec_congr conv' fuel t (fun e he => h e (by rw [rets]; exact List.mem_append_left _ he)) z
  | .whil c b, h, x => by
    rw [rexec, rexec, funext (rexec_congr conv' fuel b h)]
  | .forr i c st b, h, x => by
    rw [rexec, rexec, funext (rexec_congr conv' fuel b h)]
  | .which e gs, h, x => by
    cases e with
    | none => rw [rexec, rexec]; rw [rexecG_congr conv' fuel none gs h]
    | some e => rw [rexec, rexec]; rw [rexecG_congr conv' fuel _ gs h]
theorem rexecs_congr (conv' : Nat → Int → Int) (fuel : Nat) : ∀ (ss : RStmts),
    (∀ e, some e ∈ retss ss → conv e = conv' e) → ∀ x : σ, rexecs S conv fuel ss x = rexecs S conv' fuel ss x
  | .nil, _, x => by simp only [rexecs]
  | .cons st ss, h, x => by
    rw [rexecs, rexecs, rexec_congr conv' fuel st (fun e he => h e (by rw [retss]; exact List.mem_append_left _ he))]
    rcases rexec S conv' fuel st x with _ | ⟨o, z⟩
    · rfl
    · cases o with
      | normal => exact rexecs_congr conv' fuel ss (fun e he => h e (by rw [retss]; exact List.mem_append_right _ he)) z
      | _ => rfl
theorem rexecG_congr (conv' : Nat → Int → Int) (fuel : Nat) (v : Option Int) : ∀ (gs : RGroups),
    (∀ e, some e ∈ retsG gs → conv e = conv' e) → ∀ x : σ, rexecG S conv fuel v gs x = rexecG S conv' fuel v gs x
  | .nil, _, x => by simp only [rexecG]
  | .cons l ls b gs, h, x => by
    rw [rexecG, rexecG]
    rcases groupTaken S v (l :: ls) x with ⟨_ | _, z⟩
    · exact rexecG_congr conv' fuel v gs (fun e he => h e (by rw [retsG]; exact List.mem_append_right _ he)) z
    · exact rexec_congr conv' fuel b (fun e he => h e (by rw [retsG]; exact List.mem_append_left _ he)) z
end

end Ulam.Returns
