import Verif.Returns.Lemmas
import Verif.Control.Props
import Mathlib.Tactic.ByContra
/-
Property C95: what a call gives back.
-/
namespace Ulam.Returns
open Ulam.Control

variable {σ τ : Type} {O : Ops τ} {cv : τ → τ → Int → Int}

theorem label1_known {rt : τ} {e : Expr τ} {t : τ} (h : (label1 O rt e).nty = .ty t) :
    O.complete t = true ∧ (((label1 O rt e).cast = true ∧ t = rt ∧ e.safe = .clear ∧
        ((O.isVoid e.ty = false ∧ O.isVoid rt = false) ∨ O.sameAssign e.ty rt = true)) ∨
      ((label1 O rt e).cast = false ∧ t = e.ty ∧ O.sameAssign e.ty rt = true ∧ O.altRef e.ty = O.altRef rt)) := by
  revert h
  unfold label1
  split
  · rename_i hc
    simp only [Bool.and_eq_true] at hc
    have hf : ∀ {t}, (byForecast rt e).nty = .ty t → (byForecast rt e).cast = true ∧ t = rt ∧ e.safe = .clear := by
      intro t
      unfold byForecast
      split
      · unfold castTo
        split
        · rename_i h _; intro h'; cases h'; exact ⟨rfl, rfl, h⟩
        · intro h; cases h
      · intro h; cases h
      · intro h; cases h
    split
    · intro h; cases h
    · split
      · unfold labelDiff
        split
        · split
          · intro h; cases h
          · rename_i hv hw
            intro h; obtain ⟨h1, h2, h3⟩ := hf h
            exact ⟨h2 ▸ hc.2, .inl ⟨h1, h2, h3, .inl ⟨by simpa using hw, by simpa using hv⟩⟩⟩
        · intro h; cases h
      · rename_i hs
        simp only [Bool.not_eq_true', Bool.not_eq_false] at hs
        unfold labelSame
        split
        · rename_i hr
          simp only [Bool.and_eq_true] at hr
          split
          · intro h; cases h
          · intro h; cases h; exact ⟨hc.1, .inr ⟨rfl, rfl, hs, by rw [hr.1, hr.2]⟩⟩
        · split
          · split <;> (intro h; cases h)
          · split
            · intro h; obtain ⟨h1, h2, h3⟩ := hf h
              exact ⟨h2 ▸ hc.2, .inl ⟨h1, h2, h3, .inr hs⟩⟩
            · rename_i hr
              simp only [Bool.or_eq_true, not_or, Bool.not_eq_true] at hr
              intro h; cases h; exact ⟨hc.1, .inr ⟨rfl, rfl, hs, by rw [hr.1, hr.2]⟩⟩
  · intro h; cases h

theorem NTy.known_iff {n : NTy τ} (h : n.known = true) : ∃ t, n = .ty t := by
  cases n with
  | ty t => exact ⟨t, rfl⟩
  | _ => cases h

/-- What acceptance says about each return statement. -/
theorem accepted_each {f : Fn τ} (ha : accepted O f = true) {e : Option Nat} (he : e ∈ rets f.body) :
    ∃ t, (label1 O f.rt (exprOf O f e)).nty = .ty t ∧ O.sameArg t f.rt = true := by
  unfold accepted at ha
  simp only [Bool.and_eq_true, List.all_eq_true, beq_iff_eq] at ha
  obtain ⟨⟨h1, h2⟩, _⟩ := ha
  have hm : label1 O f.rt (exprOf O f e) ∈ labels O f := List.mem_map.mpr ⟨e, he, rfl⟩
  obtain ⟨t, ht⟩ := NTy.known_iff (h1 _ hm).1
  refine ⟨t, ht, ?_⟩
  have hl : ∃ a l, labels O f = a :: l := by
    cases hx : labels O f with
    | nil => rw [hx] at hm; cases hm
    | cons a l => exact ⟨a, l, rfl⟩
  obtain ⟨a, l, hal⟩ := hl
  have h3 : ((labels O f).map fun l => (check1 O f.rt l).1).all id = true := by rw [hal] at h2 ⊢; exact h2
  have h4 : (check1 O f.rt (label1 O f.rt (exprOf O f e))).1 = true := by
    have := List.all_eq_true.mp h3 _ (List.mem_map.mpr ⟨_, hm, rfl⟩)
    exact this
  unfold check1 at h4
  rw [ht] at h4
  dsimp only at h4
  rw [(label1_known ht).1] at h4
  by_contra hn
  rw [Bool.not_eq_true] at hn
  rw [hn] at h4
  simp only [Bool.not_true, Bool.false_eq_true, if_false] at h4
  split at h4 <;> simp at h4

/-- Property C95: in a function whose return statements are accepted, each of them gives a value of
the return type or one that is safe to cast to it, a Void expression only for Void, and `return;` is only for functions that return Void; and there is one, unless the
function returns Void, is native, purely virtual or a constructor. -/
theorem C95_typed (hs : Sound O cv) (f : Fn τ) (ha : accepted O f = true) :
    (∀ e, some e ∈ rets f.body →
      ((f.ex e).safe = .clear ∨ O.sameArg (f.ex e).ty f.rt = true) ∧ O.isVoid (f.ex e).ty = O.isVoid f.rt) ∧
    (none ∈ rets f.body → O.isVoid f.rt = true) ∧
    (rets f.body = [] → O.isVoid f.rt = true ∨ f.kind.native = true ∨
      (f.kind.virt = true ∧ f.kind.pure = true) ∨ f.kind.ctor = true) := by
  refine ⟨?_, ?_, ?_⟩
  · intro e he
    obtain ⟨t, ht, h⟩ := accepted_each ha he
    rcases (label1_known ht).2 with ⟨_, _, h1, h3⟩ | ⟨_, h2, _⟩
    · refine ⟨.inl h1, ?_⟩
      rcases h3 with ⟨h3, h4⟩ | h3
      · exact h3.trans h4.symm
      · exact hs.asg _ _ h3
    · rw [h2] at h
      exact ⟨.inr h, hs.arg _ _ h⟩
  · intro he
    obtain ⟨t, ht, h⟩ := accepted_each ha he
    rcases (label1_known ht).2 with ⟨_, _, h1, _⟩ | ⟨_, h2, _⟩
    · simp [exprOf] at h1
    · have := hs.arg _ _ h
      rw [h2] at this
      exact this ▸ hs.void
  · intro hn
    unfold accepted at ha
    have hl : labels O f = [] := by simp [labels, hn]
    rw [hl] at ha
    simp only [checkAll, Bool.and_eq_true] at ha
    obtain ⟨⟨_, ha⟩, _⟩ := ha
    by_contra hh
    simp only [not_or, not_and, Bool.not_eq_true] at hh
    obtain ⟨h1, h2, h3, h4⟩ := hh
    have h5 : (!f.kind.virt || !f.kind.pure) = true := by
      cases hv : f.kind.virt with
      | false => rfl
      | true => rw [h3 hv]; rfl
    rw [h1, h2, h4, h5] at ha
    simp at ha

/-- The casts the labelling put in are those the return type asks for. -/
theorem conv_ok (hs : Sound O cv) {f : Fn τ} (ha : accepted O f = true) (e : Nat) (he : some e ∈ rets f.body) :
    convOf O cv f e = cv (f.ex e).ty f.rt := by
  obtain ⟨t, ht, _⟩ := accepted_each ha he
  funext v
  unfold convOf
  rcases (label1_known ht).2 with ⟨h1, _⟩ | ⟨h1, _, h2, h3⟩
  · rw [show (label1 O f.rt (f.ex e)).cast = true from h1]; rfl
  · rw [show (label1 O f.rt (f.ex e)).cast = false from h1]
    exact (hs.same _ _ v h2 h3).symm

/-- How a run of the statements shows in a call. -/
def ROut.res : ROut → CallRes
  | .normal => .end
  | .ret v => .value v
  | _ => .stray

/-- The body is one the parser takes (property C27). -/
def Parses (nd : Bool) (p : PS) (f : Fn τ) : Prop := Start p ∧ (parse nd (lower f.body) p).2.errs = p.errs

/-- Property C95: a call of an accepted function ends in the generated code just as its statements
mean, and gives back the value of the expression of the return statement that ran, cast to the return
type. -/
theorem C95_value (hs : Sound O cv) (S : Sem σ) (fuel : Nat) (nd : Bool) (p : PS) (f : Fn τ)
    (ha : accepted O f = true) (hp : Parses nd p f) (ρ : Nat → Int) (x : σ) :
    cCall O cv S fuel nd p f ρ x = (returned cv S f fuel x).map fun r => (r.1.res, r.2) := by
  obtain ⟨h1, h2⟩ := C27_generated_code (lift S (convOf O cv f)) fuel nd p hp.1 (lower f.body) hp.2 ρ (x, none)
  have h3 := sim S (convOf O cv f) fuel f.body x none
  rw [rexec_congr S _ (fun e => cv (f.ex e).ty f.rt) fuel f.body (fun e he => conv_ok hs ha e he)] at h3
  unfold cCall returned
  rw [h1]
  rcases hl : exec (lift S (convOf O cv f)) fuel (lower f.body) (x, none) with _ | ⟨o, s⟩ <;>
    rcases hr : rexec S (fun e => cv (f.ex e).ty f.rt) fuel f.body x with _ | ⟨o', y⟩ <;> rw [hl, hr] at h3
  · rfl
  · exact h3.elim
  · cases o <;> exact h3.elim
  · rcases h2 o s hl with rfl | rfl
    · cases o' <;> first | exact h3.elim | skip
      have h : s = (y, none) := h3
      subst h; rfl
    · cases o' <;> first | exact h3.elim | skip
      rename_i v
      cases v with
      | none => have h : s = (y, none) := h3; subst h; rfl
      | some v => have h : s = (y, some v) := h3; subst h; rfl

/-- Property C95, in part: an accepted function that does not return Void and whose body, as its form
shows, does not come to its end, gives back a value whenever it ends; the value is that of one of its
return statements' expressions, evaluated where it ran and cast to the return type.  Missing: other
bodies, which are accepted as well as soon as there is any return statement; see the next theorems. -/
theorem C95_returns_partial (hs : Sound O cv) (S : Sem σ) (fuel : Nat) (nd : Bool) (p : PS) (f : Fn τ)
    (ha : accepted O f = true) (hv : O.isVoid f.rt = false) (hn : noEnd f.body = true) (hp : Parses nd p f)
    (ρ : Nat → Int) (x y : σ) (r : CallRes) (h : cCall O cv S fuel nd p f ρ x = some (r, y)) :
    ∃ v, r = .value (some v) ∧ returned cv S f fuel x = some (.ret (some v), y) ∧
      ∃ e, some e ∈ rets f.body ∧ ∃ z : σ, v = cv (f.ex e).ty f.rt (S.val e z).1 := by
  obtain ⟨_, h2⟩ := C27_generated_code (lift S (convOf O cv f)) fuel nd p hp.1 (lower f.body) hp.2 ρ (x, none)
  have h3 := sim S (convOf O cv f) fuel f.body x none
  rw [rexec_congr S _ (fun e => cv (f.ex e).ty f.rt) fuel f.body (fun e he => conv_ok hs ha e he)] at h3
  rw [C95_value hs S fuel nd p f ha hp, Option.map_eq_some_iff] at h
  obtain ⟨⟨o, y'⟩, h4, h5⟩ := h
  simp only [Prod.mk.injEq] at h5
  obtain ⟨rfl, rfl⟩ := h5
  have h4' : rexec S (fun e => cv (f.ex e).ty f.rt) fuel f.body x = some (o, y') := h4
  rw [h4'] at h3
  cases o with
  | normal => exact absurd h4' (noEnd_sound S _ fuel f.body x y' hn)
  | brk =>
    rcases hl : exec (lift S (convOf O cv f)) fuel (lower f.body) (x, none) with _ | ⟨o, s⟩ <;> rw [hl] at h3
    · exact h3.elim
    · rcases h2 o s hl with rfl | rfl <;> exact h3.elim
  | cont =>
    rcases hl : exec (lift S (convOf O cv f)) fuel (lower f.body) (x, none) with _ | ⟨o, s⟩ <;> rw [hl] at h3
    · exact h3.elim
    · rcases h2 o s hl with rfl | rfl <;> exact h3.elim
  | ret v =>
    obtain ⟨e, he, h6⟩ := among S _ fuel f.body x v y' h4'
    cases e with
    | none =>
      have := (C95_typed hs f ha).2.1 he
      rw [hv] at this
      cases this
    | some e =>
      obtain ⟨z, hz⟩ := h6
      refine ⟨_, ?_, ?_, e, he, z, rfl⟩
      · rw [hz]; rfl
      · rw [h4, hz]

/-- Property C95, in part: the evaluator's call gives back what the generated code's does, when the
statements' control flow is one the evaluator follows (property C53) and the function is not native;
but where the body comes to its end the evaluator gives back the cleared room made for a result. -/
theorem C95_evaluator_partial (S : Sem σ) (fuel : Nat) (nd : Bool) (p : PS) (f : Fn τ) (hp : Parses nd p f)
    (he : evalOk (lower f.body) = true) (hk : f.kind.native = true → O.isVoid f.rt = true) (ρ : Nat → Int) (x : σ) :
    eCall O cv S fuel nd p f ρ x =
      (cCall O cv S fuel nd p f ρ x).map fun r => (if r.1 = .end then .room else r.1, r.2) := by
  obtain ⟨h1, h2⟩ := C27_generated_code (lift S (convOf O cv f)) fuel nd p hp.1 (lower f.body) hp.2 ρ (x, none)
  have h3 := parse_eval (lift S (convOf O cv f)) fuel nd (lower f.body) p hp.1.inv (hp.1.ok nd _ hp.2) he
    (fun q => by simp [hp.1.1, topWhich] at q) ρ (x, none)
  have hk' : (f.kind.native && !O.isVoid f.rt) = false := by
    cases hn : f.kind.native with
    | false => rfl
    | true => rw [hk hn]; rfl
  unfold eCall cCall
  rw [hk', h1, h3]
  simp only [Bool.false_eq_true, if_false]
  rcases hl : exec (lift S (convOf O cv f)) fuel (lower f.body) (x, none) with _ | ⟨o, s⟩
  · rfl
  · rcases h2 o s hl with rfl | rfl <;> rfl

/-- C95: whenever the statements of a body come to their end the call gives no value, whatever the
return type. -/
theorem C95_falls_off (hs : Sound O cv) (S : Sem σ) (fuel : Nat) (nd : Bool) (p : PS) (f : Fn τ)
    (ha : accepted O f = true) (hp : Parses nd p f) (ρ : Nat → Int) (x y : σ)
    (h : returned cv S f fuel x = some (.normal, y)) : cCall O cv S fuel nd p f ρ x = some (.end, y) := by
  rw [C95_value hs S fuel nd p f ha hp, h]; rfl

section Examples

/-- Two types: Void (0) and one other (1) of width 8, and a narrower one (2) of the same base. -/
def ops : Ops Nat where
  isVoid t := t == 0
  complete _ := true
  scalar _ := true
  sameAssign a b := a == b
  sameArg a b := a == b
  altRef _ := false
  constRef _ := false
  base t := if t = 0 then 0 else 1
  arraySize _ := -1
  bitSize t := if t = 2 then 4 else 8
  refKind _ := 0
  voidTy := 0

/-- Casting to type 1 keeps a value below 256. -/
def cast8 (a b : Nat) (v : Int) : Int := if a = b then v else v % 256

theorem ops_sound : Sound ops cast8 :=
  ⟨rfl, fun a b h => by simp [ops] at h; rw [h], fun a b h => by simp [ops] at h; rw [h], fun a b v h _ => by simp [ops] at h; simp [cast8, h]⟩

/-- Expressions: number 0 has type 1; the others type 2, safe to cast. -/
def exs : Nat → Expr Nat
  | 0 => ⟨1, .no, .clear, true⟩
  | _ => ⟨2, .no, .clear, true⟩

/-- A store of one number; condition 0: it is positive; every value is the number. -/
def one : Sem Int := ⟨fun _ x => x + 1, fun _ x => (decide (x > 0), x), fun _ x => (x, x)⟩

def plain : Kind := ⟨false, false, false, false⟩

/-- `if(c0) return e1; return e0;` -/
def good : Fn Nat := ⟨1, plain, exs, .block (.cons (.ite 0 (.ret (some 1))) (.cons (.ret (some 0)) .nil))⟩

/-- `if(c0) return e0;` -/
def falls : Fn Nat := ⟨1, plain, exs, .block (.cons (.ite 0 (.ret (some 0))) .nil)⟩

example : accepted ops good = true := by decide
example : noEnd good.body = true := by decide
example : Parses false p0 good := ⟨⟨rfl, rfl⟩, by decide⟩
example : cCall ops cast8 one 3 false p0 good (fun _ => 0) 300 = some (.value (some 44), 300) := by decide
example : cCall ops cast8 one 3 false p0 good (fun _ => 0) (-5) = some (.value (some (-5)), -5) := by decide
example : evalOk (lower good.body) = true := by decide
/-- No return statement; a return without expression; a value for Void. -/
example : accepted ops ⟨1, plain, exs, .block .nil⟩ = false := by decide
example : accepted ops ⟨1, plain, exs, .ret none⟩ = false := by decide
example : accepted ops ⟨0, plain, exs, .ret (some 0)⟩ = false := by decide
example : accepted ops ⟨0, plain, exs, .block .nil⟩ = true := by decide
example : accepted ops ⟨1, ⟨true, false, false, false⟩, exs, .block .nil⟩ = true := by decide

end Examples

/-- C95 fails for functions in general: a function that does not return Void is accepted although
it can come to the end of its body.  Then the generated code ends without a value where one is used, and
the evaluator gives back the cleared room. -/
theorem C95_falls_off_fails : ∃ (O : Ops Nat) (cv : Nat → Nat → Int → Int) (S : Sem Int) (f : Fn Nat),
    Sound O cv ∧ accepted O f = true ∧ O.isVoid f.rt = false ∧ Parses false p0 f ∧
      ∀ (x : Int), x ≤ 0 → ∀ fuel ρ, cCall O cv S fuel false p0 f ρ x = some (.end, x) ∧
        eCall O cv S fuel false p0 f ρ x = some (.room, x) := by
  have hp : Parses false p0 falls := ⟨⟨rfl, rfl⟩, by decide⟩
  refine ⟨ops, cast8, one, falls, ops_sound, by decide, by decide, hp, ?_⟩
  intro x hx fuel ρ
  have h : cCall ops cast8 one fuel false p0 falls ρ x = some (.end, x) := by
    refine C95_falls_off ops_sound one fuel false p0 falls (by decide) hp ρ x x ?_
    have : one.cond 0 x = (false, x) := by
      show (decide (x > 0), x) = _
      rw [decide_eq_false (by omega)]
    simp only [returned, falls, rexec, rexecs, this]
  exact ⟨h, by rw [C95_evaluator_partial one fuel false p0 falls hp (by decide) (fun h => by cases h) ρ x, h]; rfl⟩

end Ulam.Returns
