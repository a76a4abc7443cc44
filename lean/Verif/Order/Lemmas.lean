import Verif.Order.Spec
import Mathlib.Order.Basic
import Mathlib.Tactic.SplitIfs
import Mathlib.Tactic.Tauto
/-! # Lemmas for C70 -/
namespace Ulam.Order
open Ulam.Order.Spec

/-! ## Generated code computes `right` -/

/-- What running the code of an expression gives. -/
def Runs (E : Env) (c : Code) (t n n' : Nat) (f : Mem → Option (Int × Mem)) : Prop :=
  n ≤ n' ∧ t < n' ∧ ∀ m τ, match f m with
    | none => run E c (m, τ) = none
    | some (v, m') => ∃ τ', run E c (m, τ) = some (m', τ') ∧ τ' t = v ∧ ∀ k, k < n → τ' k = τ k

def RunsPlace (E : Env) (c : Code) (p : Ref) (n n' : Nat) (f : Mem → Option ((Nat × Int) × Mem)) : Prop :=
  n ≤ n' ∧ (∀ x t, p = .item x t → t < n') ∧ ∀ m τ, match f m with
    | none => run E c (m, τ) = none
    | some (q, m') => ∃ τ', run E c (m, τ) = some (m', τ') ∧ p.at τ' = q ∧ ∀ k, k < n → τ' k = τ k

def RunsArgs (E : Env) (c : Code) (ts : List Nat) (n n' : Nat) (f : Mem → Option (List Int × Mem)) : Prop :=
  n ≤ n' ∧ (∀ t ∈ ts, t < n') ∧ ∀ m τ, match f m with
    | none => run E c (m, τ) = none
    | some (vs, m') => ∃ τ', run E c (m, τ) = some (m', τ') ∧ ts.map τ' = vs ∧ ∀ k, k < n → τ' k = τ k

theorem set_same (τ : Nat → Int) (t : Nat) (v : Int) : set τ t v t = v := by simp [set]
theorem set_other (τ : Nat → Int) {t k : Nat} (v : Int) (h : k ≠ t) : set τ t v k = τ k := by simp [set, h]

theorem ref_keep {p : Ref} {n : Nat} {τ τ' : Nat → Int} (h : ∀ x t, p = .item x t → t < n)
    (hk : ∀ k, k < n → τ' k = τ k) : p.at τ' = p.at τ := by
  cases p with
  | var x => rfl
  | item x t => simp [Ref.at, hk t (h x t rfl)]

mutual
theorem genPlace_runs (E : Env) : ∀ (p : Place) (n : Nat),
    RunsPlace E (genPlace p n).1 (genPlace p n).2.1 n (genPlace p n).2.2 (rightPlace E p)
  | .var x, n => by
    refine ⟨by simp [genPlace], by simp [genPlace], fun m τ => ?_⟩
    simp [rightPlace, genPlace, run, Ref.at]
  | .item x i, n => by
    have A := gen_runs E i n
    simp only [genPlace]
    generalize hA : gen i n = G at A ⊢
    obtain ⟨cA, tA, nA⟩ := G
    dsimp only at A ⊢
    obtain ⟨a1, a2, a3⟩ := A
    refine ⟨a1, ?_, fun m τ => ?_⟩
    · intro y t h; simp at h; rw [← h.2]; exact a2
    · have := a3 m τ
      simp only [rightPlace]
      cases hr : right E i m with
      | none => rw [hr] at this; simp only at this ⊢; simp [run, this]
      | some r =>
        obtain ⟨k, m1⟩ := r
        rw [hr] at this
        simp only at this ⊢
        obtain ⟨τ', e1, e2, e3⟩ := this
        by_cases hi : inside E x k
        · simp only [hi, if_true]
          refine ⟨τ', ?_, by simp [Ref.at, e2], e3⟩
          simp [run, e1, step, e2, hi]
        · simp only [hi]
          simp [run, e1, step, e2, hi]
theorem gen_runs (E : Env) : ∀ (e : Expr) (n : Nat),
    Runs E (gen e n).1 (gen e n).2.1 n (gen e n).2.2 (right E e)
  | .const v, n => by
    refine ⟨by simp [gen], by simp [gen], fun m τ => ?_⟩
    simp only [right]
    exact ⟨_, rfl, set_same _ _ _, fun k hk => set_other _ _ (by omega)⟩
  | .read p, n => by
    have A := genPlace_runs E p n
    simp only [gen]
    generalize hA : genPlace p n = G at A ⊢
    obtain ⟨cA, tA, nA⟩ := G
    dsimp only at A ⊢
    obtain ⟨a1, a2, a3⟩ := A
    refine ⟨by omega, by omega, fun m τ => ?_⟩
    have := a3 m τ
    simp only [right]
    cases hr : rightPlace E p m with
    | none => rw [hr] at this; simp only at this ⊢; simp [run, this]
    | some r =>
      obtain ⟨⟨x, k⟩, m1⟩ := r
      rw [hr] at this
      simp only at this ⊢
      obtain ⟨τ', e1, e2, e3⟩ := this
      refine ⟨_, by simp only [run, e1, step]; rfl, ?_, fun k hk => ?_⟩
      · rw [set_same]; simp [e2]
      · rw [set_other _ _ (by omega), e3 k hk]
  | .un op e, n => by
    have A := gen_runs E e n
    simp only [gen]
    generalize hA : gen e n = G at A ⊢
    obtain ⟨cA, tA, nA⟩ := G
    dsimp only at A ⊢
    obtain ⟨a1, a2, a3⟩ := A
    refine ⟨by omega, by omega, fun m τ => ?_⟩
    have := a3 m τ
    simp only [right]
    cases hr : right E e m with
    | none => rw [hr] at this; simp only at this ⊢; simp [run, this]
    | some r =>
      obtain ⟨v, m1⟩ := r
      rw [hr] at this
      simp only at this
      obtain ⟨τ', e1, e2, e3⟩ := this
      simp only [Option.map_some]
      refine ⟨_, by simp only [run, e1, step]; rfl, ?_, fun k hk => ?_⟩
      · rw [set_same, e2]
      · rw [set_other _ _ (by omega), e3 k hk]
  | .bin op l r, n => by
    have A := gen_runs E r n
    simp only [gen]
    generalize hA : gen r n = G at A ⊢
    obtain ⟨cA, tA, nA⟩ := G
    dsimp only at A ⊢
    obtain ⟨a1, a2, a3⟩ := A
    have B := gen_runs E l nA
    generalize hB : gen l nA = G at B ⊢
    obtain ⟨cB, tB, nB⟩ := G
    dsimp only at B ⊢
    obtain ⟨b1, b2, b3⟩ := B
    refine ⟨by omega, by omega, fun m τ => ?_⟩
    have := a3 m τ
    simp only [right, both]
    cases hr : right E r m with
    | none => rw [hr] at this; simp only at this ⊢; simp [run, this]
    | some q =>
      obtain ⟨v, m1⟩ := q
      rw [hr] at this
      simp only at this
      obtain ⟨τ1, e1, e2, e3⟩ := this
      have := b3 m1 τ1
      simp only
      cases hl : right E l m1 with
      | none => rw [hl] at this; simp only at this ⊢; simp [run, e1, this]
      | some q =>
        obtain ⟨w, m2⟩ := q
        rw [hl] at this
        simp only at this
        obtain ⟨τ2, f1, f2, f3⟩ := this
        refine ⟨_, by simp only [run, e1, f1, step]; rfl, ?_, fun k hk => ?_⟩
        · rw [set_same, f2, f3 _ a2, e2]
        · rw [set_other _ _ (by omega), f3 k (by omega), e3 k hk]
  | .and l r, n => by
    have A := gen_runs E l (n + 1)
    simp only [gen]
    generalize hA : gen l (n + 1) = G at A ⊢
    obtain ⟨cA, tA, nA⟩ := G
    dsimp only at A ⊢
    obtain ⟨a1, a2, a3⟩ := A
    have B := gen_runs E r nA
    generalize hB : gen r nA = G at B ⊢
    obtain ⟨cB, tB, nB⟩ := G
    dsimp only at B ⊢
    obtain ⟨b1, b2, b3⟩ := B
    refine ⟨by omega, by omega, fun m τ => ?_⟩
    have := a3 m (set τ n 0)
    simp only [right]
    cases hl : right E l m with
    | none => rw [hl] at this; simp only at this ⊢; simp [run, step, this]
    | some q =>
      obtain ⟨v, m1⟩ := q
      rw [hl] at this
      simp only at this
      obtain ⟨τ1, e1, e2, e3⟩ := this
      simp only
      by_cases hv : E.truth v
      · simp only [hv, if_true]
        have := b3 m1 τ1
        cases hr : right E r m1 with
        | none => rw [hr] at this; simp only at this ⊢; simp [run, step, e1, e2, hv, this]
        | some q =>
          obtain ⟨w, m2⟩ := q
          rw [hr] at this
          simp only at this
          obtain ⟨τ2, f1, f2, f3⟩ := this
          refine ⟨set τ2 n w, by simp [run, e1, step, e2, hv, f1, f2], set_same _ _ _, fun k hk => ?_⟩
          rw [set_other _ _ (by omega), f3 k (by omega), e3 k (by omega), set_other _ _ (by omega)]
      · simp only [hv]
        refine ⟨τ1, by simp [run, e1, step, e2, hv], ?_, fun k hk => ?_⟩
        · rw [e3 n (by omega), set_same]
        · rw [e3 k (by omega), set_other _ _ (by omega)]
  | .or l r, n => by
    have A := gen_runs E l (n + 1)
    simp only [gen]
    generalize hA : gen l (n + 1) = G at A ⊢
    obtain ⟨cA, tA, nA⟩ := G
    dsimp only at A ⊢
    obtain ⟨a1, a2, a3⟩ := A
    have B := gen_runs E r nA
    generalize hB : gen r nA = G at B ⊢
    obtain ⟨cB, tB, nB⟩ := G
    dsimp only at B ⊢
    obtain ⟨b1, b2, b3⟩ := B
    refine ⟨by omega, by omega, fun m τ => ?_⟩
    have := a3 m (set τ n 0)
    simp only [right]
    cases hl : right E l m with
    | none => rw [hl] at this; simp only at this ⊢; simp [run, step, this]
    | some q =>
      obtain ⟨v, m1⟩ := q
      rw [hl] at this
      simp only at this
      obtain ⟨τ1, e1, e2, e3⟩ := this
      simp only
      by_cases hv : E.truth v
      · simp only [hv, if_true]
        refine ⟨set τ1 n v, by simp [run, e1, step, e2, hv], set_same _ _ _, fun k hk => ?_⟩
        rw [set_other _ _ (by omega), e3 k (by omega), set_other _ _ (by omega)]
      · simp only [hv]
        have := b3 m1 τ1
        cases hr : right E r m1 with
        | none => rw [hr] at this; simp only at this; simp [run, step, e1, e2, hv, this, hr]
        | some q =>
          obtain ⟨w, m2⟩ := q
          rw [hr] at this
          simp only at this
          obtain ⟨τ2, f1, f2, f3⟩ := this
          simp only [Bool.false_eq_true, if_false, hr]
          refine ⟨set τ2 n w, by simp [run, e1, step, e2, hv, f1, f2], set_same _ _ _, fun k hk => ?_⟩
          rw [set_other _ _ (by omega), f3 k (by omega), e3 k (by omega), set_other _ _ (by omega)]
  | .cond c a b, n => by
    have A := gen_runs E c (n + 1)
    simp only [gen]
    generalize hA : gen c (n + 1) = G at A ⊢
    obtain ⟨cA, tA, nA⟩ := G
    dsimp only at A ⊢
    obtain ⟨a1, a2, a3⟩ := A
    have B := gen_runs E a nA
    generalize hB : gen a nA = G at B ⊢
    obtain ⟨cB, tB, nB⟩ := G
    dsimp only at B ⊢
    obtain ⟨b1, b2, b3⟩ := B
    have C := gen_runs E b nB
    generalize hC : gen b nB = G at C ⊢
    obtain ⟨cC, tC, nC⟩ := G
    dsimp only at C ⊢
    obtain ⟨c1, c2, c3⟩ := C
    refine ⟨by omega, by omega, fun m τ => ?_⟩
    have := a3 m τ
    simp only [right]
    cases hl : right E c m with
    | none => rw [hl] at this; simp only at this ⊢; simp [run, this]
    | some q =>
      obtain ⟨v, m1⟩ := q
      rw [hl] at this
      simp only at this
      obtain ⟨τ1, e1, e2, e3⟩ := this
      simp only
      by_cases hv : E.truth v
      · simp only [hv, if_true]
        have := b3 m1 τ1
        cases hr : right E a m1 with
        | none => rw [hr] at this; simp only at this ⊢; simp [run, e1, e2, hv, this]
        | some q =>
          obtain ⟨w, m2⟩ := q
          rw [hr] at this
          simp only at this
          obtain ⟨τ2, f1, f2, f3⟩ := this
          refine ⟨set τ2 n w, by simp [run, e1, step, e2, hv, f1, f2], set_same _ _ _, fun k hk => ?_⟩
          rw [set_other _ _ (by omega), f3 k (by omega), e3 k (by omega)]
      · simp only [hv]
        have := c3 m1 τ1
        cases hr : right E b m1 with
        | none => rw [hr] at this; simp only at this; simp [run, e1, e2, hv, this, hr]
        | some q =>
          obtain ⟨w, m2⟩ := q
          rw [hr] at this
          simp only at this
          obtain ⟨τ2, f1, f2, f3⟩ := this
          simp only [Bool.false_eq_true, if_false, hr]
          refine ⟨set τ2 n w, by simp [run, e1, step, e2, hv, f1, f2], set_same _ _ _, fun k hk => ?_⟩
          rw [set_other _ _ (by omega), f3 k (by omega), e3 k (by omega)]
  | .assign p e, n => by
    have A := gen_runs E e n
    simp only [gen]
    generalize hA : gen e n = G at A ⊢
    obtain ⟨cA, tA, nA⟩ := G
    dsimp only at A ⊢
    obtain ⟨a1, a2, a3⟩ := A
    have B := genPlace_runs E p nA
    generalize hB : genPlace p nA = G at B ⊢
    obtain ⟨cB, tB, nB⟩ := G
    dsimp only at B ⊢
    obtain ⟨b1, b2, b3⟩ := B
    refine ⟨by omega, by omega, fun m τ => ?_⟩
    have := a3 m τ
    simp only [right, both]
    cases hr : right E e m with
    | none => rw [hr] at this; simp only at this ⊢; simp [run, this]
    | some q =>
      obtain ⟨v, m1⟩ := q
      rw [hr] at this
      simp only at this
      obtain ⟨τ1, e1, e2, e3⟩ := this
      have := b3 m1 τ1
      simp only
      cases hl : rightPlace E p m1 with
      | none => rw [hl] at this; simp only at this ⊢; simp [run, e1, this]
      | some q =>
        obtain ⟨⟨x, k⟩, m2⟩ := q
        rw [hl] at this
        simp only at this
        obtain ⟨τ2, f1, f2, f3⟩ := this
        refine ⟨τ2, by simp [run, e1, f1, step, f2, f3 _ a2, e2], ?_, fun k hk => ?_⟩
        · rw [f3 _ a2, e2]
        · rw [f3 k (by omega), e3 k hk]
  | .upd op p e, n => by
    have A := gen_runs E e n
    simp only [gen]
    generalize hA : gen e n = G at A ⊢
    obtain ⟨cA, tA, nA⟩ := G
    dsimp only at A ⊢
    obtain ⟨a1, a2, a3⟩ := A
    have B := genPlace_runs E p nA
    generalize hB : genPlace p nA = G at B ⊢
    obtain ⟨cB, tB, nB⟩ := G
    dsimp only at B ⊢
    obtain ⟨b1, b2, b3⟩ := B
    refine ⟨by omega, by omega, fun m τ => ?_⟩
    have := a3 m τ
    simp only [right, both]
    cases hr : right E e m with
    | none => rw [hr] at this; simp only at this ⊢; simp [run, this]
    | some q =>
      obtain ⟨v, m1⟩ := q
      rw [hr] at this
      simp only at this
      obtain ⟨τ1, e1, e2, e3⟩ := this
      have := b3 m1 τ1
      simp only
      cases hl : rightPlace E p m1 with
      | none => rw [hl] at this; simp only at this ⊢; simp [run, e1, this]
      | some q =>
        obtain ⟨⟨x, k⟩, m2⟩ := q
        rw [hl] at this
        simp only at this
        obtain ⟨τ2, f1, f2, f3⟩ := this
        have g : ∀ w, (tB.at (set τ2 nB w)) = (x, k) := fun w => by
          rw [← f2]; exact ref_keep b2 fun k hk => set_other _ _ (by omega)
        have g2 : ∀ w u, (tB.at (set (set τ2 nB w) (nB + 1) u)) = (x, k) := fun w u => by
          rw [← g w]; exact ref_keep (n := nB) b2 fun k hk => set_other _ _ (by omega)
        have h1 : ∀ w, set τ2 nB w tA = v := fun w => by
          rw [set_other _ _ (by omega), f3 _ a2, e2]
        refine ⟨set (set τ2 nB (m2 x k)) (nB + 1) (E.bin op (m2 x k) v), ?_, set_same _ _ _, fun j hj => ?_⟩
        · simp [run, e1, f1, step, f2, h1, set_same, g2]
        · rw [set_other _ _ (by omega), set_other _ _ (by omega), f3 j (by omega), e3 j hj]
  | .post op p e, n => by
    have A := gen_runs E e n
    simp only [gen]
    generalize hA : gen e n = G at A ⊢
    obtain ⟨cA, tA, nA⟩ := G
    dsimp only at A ⊢
    obtain ⟨a1, a2, a3⟩ := A
    have B := genPlace_runs E p nA
    generalize hB : genPlace p nA = G at B ⊢
    obtain ⟨cB, tB, nB⟩ := G
    dsimp only at B ⊢
    obtain ⟨b1, b2, b3⟩ := B
    refine ⟨by omega, by omega, fun m τ => ?_⟩
    have := a3 m τ
    simp only [right, both]
    cases hr : right E e m with
    | none => rw [hr] at this; simp only at this ⊢; simp [run, this]
    | some q =>
      obtain ⟨v, m1⟩ := q
      rw [hr] at this
      simp only at this
      obtain ⟨τ1, e1, e2, e3⟩ := this
      have := b3 m1 τ1
      simp only
      cases hl : rightPlace E p m1 with
      | none => rw [hl] at this; simp only at this ⊢; simp [run, e1, this]
      | some q =>
        obtain ⟨⟨x, k⟩, m2⟩ := q
        rw [hl] at this
        simp only at this
        obtain ⟨τ2, f1, f2, f3⟩ := this
        have g : ∀ w, (tB.at (set τ2 nB w)) = (x, k) := fun w => by
          rw [← f2]; exact ref_keep b2 fun k hk => set_other _ _ (by omega)
        have g2 : ∀ w u, (tB.at (set (set τ2 nB w) (nB + 1) u)) = (x, k) := fun w u => by
          rw [← g w]; exact ref_keep (n := nB) b2 fun k hk => set_other _ _ (by omega)
        have h1 : ∀ w, set τ2 nB w tA = v := fun w => by
          rw [set_other _ _ (by omega), f3 _ a2, e2]
        refine ⟨set (set τ2 nB (m2 x k)) (nB + 1) (E.bin op (m2 x k) v), ?_, ?_, fun j hj => ?_⟩
        · simp [run, e1, f1, step, f2, h1, set_same, g2]
        · rw [set_other _ _ (by omega), set_same]
        · rw [set_other _ _ (by omega), set_other _ _ (by omega), f3 j (by omega), e3 j hj]
  | .call f args extra, n => by
    have A := genArgs_runs E args n
    simp only [gen]
    generalize hA : genArgs args n = G at A ⊢
    obtain ⟨cA, tA, nA⟩ := G
    dsimp only at A ⊢
    obtain ⟨a1, a2, a3⟩ := A
    have B := genArgs_runs E extra nA
    generalize hB : genArgs extra nA = G at B ⊢
    obtain ⟨cB, tB, nB⟩ := G
    dsimp only at B ⊢
    obtain ⟨b1, b2, b3⟩ := B
    refine ⟨by omega, by omega, fun m τ => ?_⟩
    have := a3 m τ
    simp only [right, both]
    cases hr : rightArgs E args m with
    | none => rw [hr] at this; simp only at this ⊢; simp [run, this]
    | some q =>
      obtain ⟨vs, m1⟩ := q
      rw [hr] at this
      simp only at this
      obtain ⟨τ1, e1, e2, e3⟩ := this
      have := b3 m1 τ1
      simp only
      cases hl : rightArgs E extra m1 with
      | none => rw [hl] at this; simp only at this ⊢; simp [run, e1, this]
      | some q =>
        obtain ⟨ws, m2⟩ := q
        rw [hl] at this
        simp only at this
        obtain ⟨τ2, f1, f2, f3⟩ := this
        have hm : tA.map τ2 = vs := by
          rw [← e2]; exact List.map_congr_left fun t ht => f3 t (a2 t ht)
        simp only
        cases hf : E.fn f vs m2 with
        | none => simp [run, e1, f1, step, hm, hf]
        | some q =>
          obtain ⟨v, m3⟩ := q
          refine ⟨_, by simp only [run, e1, f1, step, hm, hf]; rfl, set_same _ _ _, fun k hk => ?_⟩
          rw [set_other _ _ (by omega), f3 k (by omega), e3 k hk]
theorem genArgs_runs (E : Env) : ∀ (as : Args) (n : Nat),
    RunsArgs E (genArgs as n).1 (genArgs as n).2.1 n (genArgs as n).2.2 (rightArgs E as)
  | .nil, n => by
    refine ⟨by simp [genArgs], by simp [genArgs], fun m τ => ?_⟩
    simp [rightArgs, genArgs, run]
  | .cons e as, n => by
    have A := gen_runs E e n
    simp only [genArgs]
    generalize hA : gen e n = G at A ⊢
    obtain ⟨cA, tA, nA⟩ := G
    dsimp only at A ⊢
    obtain ⟨a1, a2, a3⟩ := A
    have B := genArgs_runs E as nA
    generalize hB : genArgs as nA = G at B ⊢
    obtain ⟨cB, tB, nB⟩ := G
    dsimp only at B ⊢
    obtain ⟨b1, b2, b3⟩ := B
    refine ⟨by omega, ?_, fun m τ => ?_⟩
    · intro t ht
      simp only [List.mem_cons] at ht ⊢
      rcases ht with rfl | ht
      · omega
      · exact b2 t ht
    · have := a3 m τ
      simp only [rightArgs, both]
      cases hr : right E e m with
      | none => rw [hr] at this; simp only at this ⊢; simp [run, this]
      | some q =>
        obtain ⟨v, m1⟩ := q
        rw [hr] at this
        simp only at this
        obtain ⟨τ1, e1, e2, e3⟩ := this
        have := b3 m1 τ1
        simp only
        cases hl : rightArgs E as m1 with
        | none => rw [hl] at this; simp only at this ⊢; simp [run, e1, this]
        | some q =>
          obtain ⟨ws, m2⟩ := q
          rw [hl] at this
          simp only at this
          obtain ⟨τ2, f1, f2, f3⟩ := this
          refine ⟨τ2, by simp [run, e1, f1], ?_, fun k hk => ?_⟩
          · simp [f2, f3 _ a2, e2]
          · rw [f3 k (by omega), e3 k hk]
end


/-! ## Frames -/

/-- One command, then one that depends on its result. -/
def andThen {α β : Type} (f : Mem → Option (α × Mem)) (g : α → Mem → Option (β × Mem)) (m : Mem) : Option (β × Mem) :=
  match f m with
  | none => none
  | some r => g r.1 r.2

theorem evPlace_item (E : Env) (x : Nat) (i : Expr) : evPlace E (.item x i) =
    andThen (ev E i) fun k m => if inside E x k then some ((x, k), m) else none := by
  funext m; simp only [evPlace, andThen]; rcases ev E i m with _ | ⟨a, m1⟩ <;> rfl

theorem ev_read (E : Env) (p : Place) : ev E (.read p) = andThen (evPlace E p) fun q m => some (m q.1 q.2, m) := by
  funext m; simp only [ev, andThen]; rcases evPlace E p m with _ | ⟨⟨x, k⟩, m1⟩ <;> rfl

theorem ev_un (E : Env) (op : Nat) (e : Expr) : ev E (.un op e) = andThen (ev E e) fun v m => some (E.un op v, m) := by
  funext m; simp only [ev, andThen]; rcases ev E e m with _ | ⟨a, m1⟩ <;> rfl

theorem ev_bin (E : Env) (op : Nat) (l r : Expr) : ev E (.bin op l r) =
    andThen (ev E l) fun a => andThen (ev E r) fun b m => some (E.bin op a b, m) := by
  funext m; simp only [ev, andThen]
  rcases ev E l m with _ | ⟨a, m1⟩
  · rfl
  · simp only; rcases ev E r m1 with _ | ⟨b, m2⟩ <;> rfl

theorem ev_and (E : Env) (l r : Expr) : ev E (.and l r) =
    andThen (ev E l) fun a m => if E.truth a then ev E r m else some (a, m) := by
  funext m; simp only [ev, andThen]; rcases ev E l m with _ | ⟨a, m1⟩ <;> rfl

theorem ev_or (E : Env) (l r : Expr) : ev E (.or l r) =
    andThen (ev E l) fun a m => if E.truth a then some (a, m) else ev E r m := by
  funext m; simp only [ev, andThen]; rcases ev E l m with _ | ⟨a, m1⟩ <;> rfl

theorem ev_cond (E : Env) (c a b : Expr) : ev E (.cond c a b) =
    andThen (ev E c) fun v m => if E.truth v then ev E a m else ev E b m := by
  funext m; simp only [ev, andThen]; rcases ev E c m with _ | ⟨a, m1⟩ <;> rfl

theorem ev_assign (E : Env) (p : Place) (e : Expr) : ev E (.assign p e) =
    andThen (evPlace E p) fun q => andThen (ev E e) fun v m => some (v, put m q.1 q.2 v) := by
  funext m; simp only [ev, andThen]
  rcases evPlace E p m with _ | ⟨⟨x, k⟩, m1⟩
  · rfl
  · simp only; rcases ev E e m1 with _ | ⟨b, m2⟩ <;> rfl

theorem ev_upd (E : Env) (op : Nat) (p : Place) (e : Expr) : ev E (.upd op p e) =
    andThen (evPlace E p) fun q => andThen (ev E e) fun v m =>
      some (E.bin op (m q.1 q.2) v, put m q.1 q.2 (E.bin op (m q.1 q.2) v)) := by
  funext m; simp only [ev, andThen]
  rcases evPlace E p m with _ | ⟨⟨x, k⟩, m1⟩
  · rfl
  · simp only; rcases ev E e m1 with _ | ⟨b, m2⟩ <;> rfl

theorem ev_post (E : Env) (op : Nat) (p : Place) (e : Expr) : ev E (.post op p e) =
    andThen (evPlace E p) fun q => andThen (ev E e) fun v m =>
      some (m q.1 q.2, put m q.1 q.2 (E.bin op (m q.1 q.2) v)) := by
  funext m; simp only [ev, andThen]
  rcases evPlace E p m with _ | ⟨⟨x, k⟩, m1⟩
  · rfl
  · simp only; rcases ev E e m1 with _ | ⟨b, m2⟩ <;> rfl

theorem ev_call (E : Env) (f : Nat) (args extra : Args) : ev E (.call f args extra) =
    andThen (evArgs E args) fun vs m => E.fn f vs m := by
  funext m; simp only [ev, andThen]; rcases evArgs E args m with _ | ⟨a, m1⟩ <;> rfl

theorem evArgs_cons (E : Env) (e : Expr) (as : Args) : evArgs E (.cons e as) =
    andThen (evArgs E as) fun vs => andThen (ev E e) fun v m => some (v :: vs, m) := by
  funext m; simp only [evArgs, andThen]
  rcases evArgs E as m with _ | ⟨a, m1⟩
  · rfl
  · simp only; rcases ev E e m1 with _ | ⟨b, m2⟩ <;> rfl

theorem both_eq {α β γ : Type} (a : Mem → Option (α × Mem)) (b : Mem → Option (β × Mem))
    (k : α → β → Mem → Option (γ × Mem)) (m : Mem) : both a b k m = andThen a (fun x => andThen b (k x)) m := by
  simp only [both, andThen]
  rcases a m with _ | ⟨x, m1⟩
  · rfl
  · simp only; rcases b m1 with _ | ⟨y, m2⟩ <;> rfl

/-- Only `u` matters, only `w` changes. -/
def Framed {α : Type} (u w : List Nat) (f : Mem → Option (α × Mem)) : Prop :=
  w ⊆ u ∧ ∀ m m', (∀ x ∈ u, m x = m' x) →
    (f m = none ∧ f m' = none) ∨
    ∃ v m1 m1', f m = some (v, m1) ∧ f m' = some (v, m1') ∧
      (∀ x ∈ u, m1 x = m1' x) ∧ ∀ x, x ∉ w → m1 x = m x ∧ m1' x = m' x

theorem Framed.mono {α : Type} {u w u' w' : List Nat} {f : Mem → Option (α × Mem)} (h : Framed u w f)
    (hu : u ⊆ u') (hw : w ⊆ w') (hwu : w' ⊆ u') : Framed u' w' f := by
  refine ⟨hwu, fun m m' ha => ?_⟩
  rcases h.2 m m' fun x hx => ha x (hu hx) with h0 | ⟨v, m1, m1', e1, e2, e3, e4⟩
  · exact Or.inl h0
  · refine Or.inr ⟨v, m1, m1', e1, e2, fun x hx => ?_, fun x hx => e4 x fun hh => hx (hw hh)⟩
    by_cases hxu : x ∈ u
    · exact e3 x hxu
    · have := e4 x fun hh => hxu (h.1 hh)
      rw [this.1, this.2, ha x hx]

theorem Framed.bind {α β : Type} {u w : List Nat} {f : Mem → Option (α × Mem)} {g : α → Mem → Option (β × Mem)}
    (hf : Framed u w f) (hg : ∀ v, Framed u w (g v)) :
    Framed u w (andThen f g) := by
  unfold andThen
  refine ⟨hf.1, fun m m' ha => ?_⟩
  rcases hf.2 m m' ha with ⟨h0, h1⟩ | ⟨v, m1, m1', e1, e2, e3, e4⟩
  · exact Or.inl ⟨by simp only [h0], by simp only [h1]⟩
  · simp only [e1, e2]
    rcases (hg v).2 m1 m1' e3 with h0 | ⟨b, m2, m2', f1, f2, f3, f4⟩
    · exact Or.inl h0
    · refine Or.inr ⟨b, m2, m2', f1, f2, f3, fun x hx => ?_⟩
      rw [(f4 x hx).1, (f4 x hx).2]
      exact e4 x hx

theorem Framed.pure {α : Type} {u w : List Nat} (h : w ⊆ u) (v : α) : Framed u w (fun m => some (v, m)) :=
  ⟨h, fun m m' ha => Or.inr ⟨v, m, m', rfl, rfl, ha, fun _ _ => ⟨rfl, rfl⟩⟩⟩

theorem Framed.none {α : Type} {u w : List Nat} (h : w ⊆ u) : Framed u w (fun _ => (none : Option (α × Mem))) :=
  ⟨h, fun _ _ _ => Or.inl ⟨rfl, rfl⟩⟩

theorem Framed.look {α : Type} {u w : List Nat} (h : w ⊆ u) {x : Nat} (hx : x ∈ u) (k : Int) (g : Int → α) :
    Framed u w (fun m => some (g (m x k), m)) :=
  ⟨h, fun m m' ha => Or.inr ⟨g (m x k), m, m', rfl, by rw [ha x hx], ha, fun _ _ => ⟨rfl, rfl⟩⟩⟩

theorem Framed.poke {α : Type} {u w : List Nat} (h : w ⊆ u) {x : Nat} (hx : x ∈ w) (k : Int) (g : Int → α)
    (d : Int → Int) : Framed u w (fun m => some (g (m x k), put m x k (d (m x k)))) := by
  refine ⟨h, fun m m' ha => Or.inr ⟨g (m x k), _, put m' x k (d (m' x k)), rfl, by rw [ha x (h hx)], ?_, ?_⟩⟩
  · intro y hy
    funext j
    simp only [put, ha x (h hx)]
    rw [ha y hy]
  · intro y hy
    have : y ≠ x := fun e => hy (e ▸ hx)
    exact ⟨by funext j; simp [put, this], by funext j; simp [put, this]⟩

theorem evPlace_target (E : Env) (p : Place) (m : Mem) (q : Nat × Int) (m' : Mem) (h : evPlace E p m = some (q, m')) :
    q.1 = target p := by
  cases p with
  | var x => simp only [evPlace, Option.some.injEq, Prod.mk.injEq] at h; rw [← h.1]; rfl
  | item x i =>
    simp only [evPlace] at h
    split at h
    · cases h
    · split at h
      · simp only [Option.some.injEq, Prod.mk.injEq] at h; rw [← h.1]; rfl
      · cases h

/-- Like `bind`, when the first is a place. -/
theorem Framed.bindPlace {β : Type} {E : Env} {p : Place} {u w : List Nat}
    {g : Nat × Int → Mem → Option (β × Mem)}
    (hf : Framed u w (evPlace E p)) (hg : ∀ k, Framed u w (g (target p, k))) :
    Framed u w (andThen (evPlace E p) g) := by
  have h := Framed.bind (g := fun q => g (target p, q.2)) hf fun q => hg q.2
  have : andThen (evPlace E p) g = andThen (evPlace E p) fun q => g (target p, q.2) := by
    funext m
    simp only [andThen]
    cases h : evPlace E p m with
    | none => rfl
    | some r =>
      have := evPlace_target E p m _ _ h
      simp only
      rw [← this]
  rw [this]
  exact h

mutual
theorem wrPlace_sub (F : Foot) : ∀ p, wrPlace F p ⊆ usePlace F p
  | .var _ => by simp [wrPlace, usePlace]
  | .item _ i => wr_sub F i
theorem wr_sub (F : Foot) : ∀ e, wr F e ⊆ use F e
  | .const _ => by simp [wr, use]
  | .read p => fun x hx => by simp only [use, wr, List.mem_cons] at hx ⊢; exact Or.inr (wrPlace_sub F p hx)
  | .un _ e => wr_sub F e
  | .bin _ l r => fun x hx => by
    have := @wr_sub F l x; have := @wr_sub F r x
    simp only [use, wr, List.mem_append] at hx ⊢; tauto
  | .and l r => fun x hx => by
    have := @wr_sub F l x; have := @wr_sub F r x
    simp only [use, wr, List.mem_append] at hx ⊢; tauto
  | .or l r => fun x hx => by
    have := @wr_sub F l x; have := @wr_sub F r x
    simp only [use, wr, List.mem_append] at hx ⊢; tauto
  | .cond c a b => fun x hx => by
    have := @wr_sub F c x; have := @wr_sub F a x; have := @wr_sub F b x
    simp only [use, wr, List.mem_append] at hx ⊢; tauto
  | .assign p e => fun x hx => by
    have := @wrPlace_sub F p x; have := @wr_sub F e x
    simp only [use, wr, List.mem_append, List.mem_cons] at hx ⊢; tauto
  | .upd _ p e => fun x hx => by
    have := @wrPlace_sub F p x; have := @wr_sub F e x
    simp only [use, wr, List.mem_append, List.mem_cons] at hx ⊢; tauto
  | .post _ p e => fun x hx => by
    have := @wrPlace_sub F p x; have := @wr_sub F e x
    simp only [use, wr, List.mem_append, List.mem_cons] at hx ⊢; tauto
  | .call _ as bs => fun x hx => by
    have := @wrArgs_sub F as x; have := @wrArgs_sub F bs x
    simp only [use, wr, List.mem_append] at hx ⊢; tauto
theorem wrArgs_sub (F : Foot) : ∀ as, wrArgs F as ⊆ useArgs F as
  | .nil => by simp [wrArgs, useArgs]
  | .cons e as => fun x hx => by
    have := @wr_sub F e x; have := @wrArgs_sub F as x
    simp only [useArgs, wrArgs, List.mem_append] at hx ⊢; tauto
end

theorem sub_l {a b : List Nat} : a ⊆ a ++ b := fun _ h => List.mem_append_left _ h
theorem sub_r {a b : List Nat} : b ⊆ a ++ b := fun _ h => List.mem_append_right _ h

mutual
theorem evPlace_framed {E : Env} {F : Foot} (hK : Keeps E F) : ∀ p, Framed (usePlace F p) (wrPlace F p) (evPlace E p)
  | .var x => Framed.pure (by simp [wrPlace, usePlace]) _
  | .item x i => by
    rw [evPlace_item]
    exact Framed.bind (ev_framed hK i) fun k => by
      by_cases h : inside E x k
      · simp only [h, if_true]; exact Framed.pure (wr_sub F i) _
      · simp only [h]; exact Framed.none (wr_sub F i)
theorem ev_framed {E : Env} {F : Foot} (hK : Keeps E F) : ∀ e, Framed (use F e) (wr F e) (ev E e)
  | .const v => Framed.pure (by simp [wr, use]) _
  | .read p => by
    rw [ev_read]
    have h0 := wr_sub F (.read p)
    have h := (evPlace_framed hK p).mono (u' := use F (.read p)) (w' := wr F (.read p))
      (fun x hx => by simp only [use, List.mem_cons]; exact Or.inr hx) (fun x hx => by simpa only [wr] using hx) h0
    exact Framed.bindPlace h (g := fun q m => some (m q.1 q.2, m)) fun k =>
      Framed.look h0 (by simp [use]) k id
  | .un op e => by
    rw [ev_un]
    exact Framed.bind (ev_framed hK e) fun v => Framed.pure (wr_sub F e) _
  | .bin op l r => by
    rw [ev_bin]
    have h0 := wr_sub F (.bin op l r)
    have h1 := (ev_framed hK l).mono (u' := use F (.bin op l r)) (w' := wr F (.bin op l r)) sub_l sub_l h0
    have h2 := (ev_framed hK r).mono (u' := use F (.bin op l r)) (w' := wr F (.bin op l r)) sub_r sub_r h0
    exact Framed.bind h1 fun a => Framed.bind h2 fun b => Framed.pure h0 _
  | .and l r => by
    rw [ev_and]
    have h0 := wr_sub F (.and l r)
    have h1 := (ev_framed hK l).mono (u' := use F (.and l r)) (w' := wr F (.and l r)) sub_l sub_l h0
    have h2 := (ev_framed hK r).mono (u' := use F (.and l r)) (w' := wr F (.and l r)) sub_r sub_r h0
    exact Framed.bind h1 fun a => by
      by_cases h : E.truth a
      · simp only [h, if_true]; exact h2
      · simp only [h]; exact Framed.pure h0 _
  | .or l r => by
    rw [ev_or]
    have h0 := wr_sub F (.or l r)
    have h1 := (ev_framed hK l).mono (u' := use F (.or l r)) (w' := wr F (.or l r)) sub_l sub_l h0
    have h2 := (ev_framed hK r).mono (u' := use F (.or l r)) (w' := wr F (.or l r)) sub_r sub_r h0
    exact Framed.bind h1 fun a => by
      by_cases h : E.truth a
      · simp only [h, if_true]; exact Framed.pure h0 _
      · simp only [h]; exact h2
  | .cond c a b => by
    rw [ev_cond]
    have h0 := wr_sub F (.cond c a b)
    have h1 := (ev_framed hK c).mono (u' := use F (.cond c a b)) (w' := wr F (.cond c a b)) sub_l sub_l h0
    have h2 := (ev_framed hK a).mono (u' := use F (.cond c a b)) (w' := wr F (.cond c a b))
      (fun x h => sub_r (sub_l h)) (fun x h => sub_r (sub_l h)) h0
    have h3 := (ev_framed hK b).mono (u' := use F (.cond c a b)) (w' := wr F (.cond c a b))
      (fun x h => sub_r (sub_r h)) (fun x h => sub_r (sub_r h)) h0
    exact Framed.bind h1 fun v => by
      by_cases h : E.truth v
      · simp only [h, if_true]; exact h2
      · simp only [h]; exact h3
  | .assign p e => by
    rw [ev_assign]
    have h0 := wr_sub F (.assign p e)
    have h1 := (evPlace_framed hK p).mono (u' := use F (.assign p e)) (w' := wr F (.assign p e))
      (fun x h => by simp [use, h]) (fun x h => by simp [wr, h]) h0
    have h2 := (ev_framed hK e).mono (u' := use F (.assign p e)) (w' := wr F (.assign p e))
      (fun x h => by simp [use, h]) (fun x h => by simp [wr, h]) h0
    exact Framed.bindPlace h1 fun k => Framed.bind h2 fun v => Framed.poke h0 (by simp [wr]) k (fun _ => v) (fun _ => v)
  | .upd op p e => by
    rw [ev_upd]
    have h0 := wr_sub F (.upd op p e)
    have h1 := (evPlace_framed hK p).mono (u' := use F (.upd op p e)) (w' := wr F (.upd op p e))
      (fun x h => by simp [use, h]) (fun x h => by simp [wr, h]) h0
    have h2 := (ev_framed hK e).mono (u' := use F (.upd op p e)) (w' := wr F (.upd op p e))
      (fun x h => by simp [use, h]) (fun x h => by simp [wr, h]) h0
    exact Framed.bindPlace h1 fun k => Framed.bind h2 fun v => Framed.poke h0 (by simp [wr]) k (fun a => E.bin op a v) (fun a => E.bin op a v)
  | .post op p e => by
    rw [ev_post]
    have h0 := wr_sub F (.post op p e)
    have h1 := (evPlace_framed hK p).mono (u' := use F (.post op p e)) (w' := wr F (.post op p e))
      (fun x h => by simp [use, h]) (fun x h => by simp [wr, h]) h0
    have h2 := (ev_framed hK e).mono (u' := use F (.post op p e)) (w' := wr F (.post op p e))
      (fun x h => by simp [use, h]) (fun x h => by simp [wr, h]) h0
    exact Framed.bindPlace h1 fun k => Framed.bind h2 fun v => Framed.poke h0 (by simp [wr]) k id (fun a => E.bin op a v)
  | .call f args extra => by
    rw [ev_call]
    have h0 := wr_sub F (.call f args extra)
    have h1 := (evArgs_framed hK args).mono (u' := use F (.call f args extra)) (w' := wr F (.call f args extra))
      (fun x h => by simp [use, h]) (fun x h => by simp [wr, h]) h0
    exact Framed.bind h1 fun vs =>
      Framed.mono (u := F.use f ++ F.wr f) (w := F.wr f) ⟨sub_r, hK f vs⟩ sub_l sub_l h0
theorem evArgs_framed {E : Env} {F : Foot} (hK : Keeps E F) : ∀ as, Framed (useArgs F as) (wrArgs F as) (evArgs E as)
  | .nil => Framed.pure (by simp [wrArgs, useArgs]) _
  | .cons e as => by
    rw [evArgs_cons]
    have h0 := wrArgs_sub F (.cons e as)
    have h1 := (ev_framed hK e).mono (u' := useArgs F (.cons e as)) (w' := wrArgs F (.cons e as)) sub_l sub_l h0
    have h2 := (evArgs_framed hK as).mono (u' := useArgs F (.cons e as)) (w' := wrArgs F (.cons e as)) sub_r sub_r h0
    exact Framed.bind h2 fun vs => Framed.bind h1 fun v => Framed.pure h0 _
end

/-- Commands that do not interfere can be exchanged. -/
theorem both_swap {α β γ : Type} {u1 w1 u2 w2 : List Nat} {a : Mem → Option (α × Mem)} {b : Mem → Option (β × Mem)}
    (ha : Framed u1 w1 a) (hb : Framed u2 w2 b) (hA : Apart u1 w1 u2 w2) (k : α → β → Mem → Option (γ × Mem)) (m : Mem) :
    both a b k m = both b a (fun y x => k x y) m := by
  unfold both
  cases h1 : a m with
  | none =>
    cases h2 : b m with
    | none => rfl
    | some r =>
      obtain ⟨y, m2⟩ := r
      simp only
      -- `b` left what `a` touches as it was
      have hm : ∀ x ∈ u1, m x = m2 x := by
        intro x hx
        rcases hb.2 m m fun _ _ => rfl with ⟨e, -⟩ | ⟨v, n1, n2, e1, -, -, e4⟩
        · rw [e] at h2; cases h2
        · rw [h2] at e1; cases e1
          exact ((e4 x fun hh => hA.2 x hh hx).1).symm
      rcases ha.2 m m2 hm with ⟨-, e⟩ | ⟨v, n1, n2, e1, -⟩
      · rw [e]
      · rw [h1] at e1; cases e1
  | some r =>
    obtain ⟨v, m1⟩ := r
    have hm1 : ∀ x, x ∉ w1 → m1 x = m x := by
      intro x hx
      rcases ha.2 m m fun _ _ => rfl with ⟨e, -⟩ | ⟨v', n1, n2, e1, -, -, e4⟩
      · rw [e] at h1; cases h1
      · rw [h1] at e1; cases e1; exact (e4 x hx).1
    have hag : ∀ x ∈ u2, m x = m1 x := fun x hx => (hm1 x fun hh => hA.1 x hh hx).symm
    simp only
    rcases hb.2 m m1 hag with ⟨e1, e2⟩ | ⟨y, n, n', e1, e2, e3, e4⟩
    · rw [e1, e2]
    · rw [e1, e2]
      simp only
      have hag2 : ∀ x ∈ u1, m x = n x := fun x hx => ((e4 x fun hh => hA.2 x hh hx).1).symm
      rcases ha.2 m n hag2 with ⟨f1, -⟩ | ⟨v', o, o', f1, f2, f3, f4⟩
      · rw [f1] at h1; cases h1
      · rw [h1] at f1; cases f1
        rw [f2]
        simp only
        have : n' = o' := by
          funext x
          by_cases hx1 : x ∈ w1
          · rw [(e4 x fun hh => hA.2 x hh (ha.1 hx1)).2, f3 x (ha.1 hx1)]
          · rw [(f4 x hx1).2]
            by_cases hx2 : x ∈ u2
            · exact (e3 x hx2).symm
            · have hw : x ∉ w2 := fun hh => hx2 (hb.1 hh)
              rw [(e4 x hw).1, (e4 x hw).2, hm1 x hx1]
        rw [this]

theorem inert_right (E : Env) : ∀ e, Inert e → ∀ m, ∃ v, right E e m = some (v, m)
  | .const v, _, m => ⟨v, rfl⟩
  | .read (.var x), _, m => ⟨m x 0, rfl⟩
  | .read (.item _ _), h, _ => h.elim
  | .un op e, h, m => by
    obtain ⟨v, hv⟩ := inert_right E e h m
    exact ⟨E.un op v, by simp [right, hv]⟩
  | .bin op l r, h, m => by
    obtain ⟨v, hv⟩ := inert_right E l h.1 m
    obtain ⟨w, hw⟩ := inert_right E r h.2 m
    exact ⟨E.bin op v w, by simp [right, both, hv, hw]⟩

theorem inertArgs_right (E : Env) : ∀ as, InertArgs as → ∀ m, ∃ vs, rightArgs E as m = some (vs, m)
  | .nil, _, m => ⟨[], rfl⟩
  | .cons e as, h, m => by
    obtain ⟨v, hv⟩ := inert_right E e h.1 m
    obtain ⟨vs, hvs⟩ := inertArgs_right E as h.2 m
    exact ⟨v :: vs, by simp [rightArgs, both, hv, hvs]⟩

mutual
theorem rightPlace_eq {E : Env} {F : Foot} (hK : Keeps E F) (h0 : ∀ v, E.truth v = false → v = 0) :
    ∀ p, CalmPlace F p → rightPlace E p = evPlace E p
  | .var x, _ => rfl
  | .item x i, h => by funext m; simp only [rightPlace, evPlace, right_eq hK h0 i h]; rcases ev E i m with _ | ⟨a, m1⟩ <;> rfl
theorem right_eq {E : Env} {F : Foot} (hK : Keeps E F) (h0 : ∀ v, E.truth v = false → v = 0) :
    ∀ e, Calm F e → right E e = ev E e
  | .const v, _ => rfl
  | .read p, h => by funext m; simp only [right, ev, rightPlace_eq hK h0 p h]; rcases evPlace E p m with _ | ⟨⟨x, k⟩, m1⟩ <;> rfl
  | .un op e, h => by
    funext m
    simp only [right, ev, right_eq hK h0 e h]
    cases ev E e m <;> rfl
  | .bin op l r, h => by
    funext m
    simp only [right, right_eq hK h0 l h.1, right_eq hK h0 r h.2.1]
    rw [← both_swap (ev_framed hK l) (ev_framed hK r) h.2.2 (fun a b m => some (E.bin op a b, m))]
    rw [both_eq, ev_bin]
  | .and l r, h => by
    funext m
    simp only [right, ev, right_eq hK h0 l h.1, right_eq hK h0 r h.2]
    cases ev E l m with
    | none => rfl
    | some q =>
      simp only
      by_cases hq : E.truth q.1
      · simp [hq]
      · rw [h0 q.1 (by simpa using hq)]
  | .or l r, h => by
    funext m; simp only [right, ev, right_eq hK h0 l h.1, right_eq hK h0 r h.2]
    rcases ev E l m with _ | ⟨a, m1⟩ <;> rfl
  | .cond c a b, h => by
    funext m; simp only [right, ev, right_eq hK h0 c h.1, right_eq hK h0 a h.2.1, right_eq hK h0 b h.2.2]
    rcases ev E c m with _ | ⟨v, m1⟩ <;> rfl
  | .assign p e, h => by
    funext m
    simp only [right, rightPlace_eq hK h0 p h.1, right_eq hK h0 e h.2.1]
    rw [← both_swap (evPlace_framed hK p) (ev_framed hK e) h.2.2 (fun q v m => some (v, put m q.1 q.2 v))]
    rw [both_eq, ev_assign]
  | .upd op p e, h => by
    funext m
    simp only [right, rightPlace_eq hK h0 p h.1, right_eq hK h0 e h.2.1]
    rw [← both_swap (evPlace_framed hK p) (ev_framed hK e) h.2.2
      (fun q v m => some (E.bin op (m q.1 q.2) v, put m q.1 q.2 (E.bin op (m q.1 q.2) v)))]
    rw [both_eq, ev_upd]
  | .post op p e, h => by
    funext m
    simp only [right, rightPlace_eq hK h0 p h.1, right_eq hK h0 e h.2.1]
    rw [← both_swap (evPlace_framed hK p) (ev_framed hK e) h.2.2
      (fun q v m => some (m q.1 q.2, put m q.1 q.2 (E.bin op (m q.1 q.2) v)))]
    rw [both_eq, ev_post]
  | .call f args extra, h => by
    funext m
    simp only [right, ev, both, rightArgs_eq hK h0 args h.1]
    cases evArgs E args m with
    | none => rfl
    | some q =>
      obtain ⟨vs, hvs⟩ := inertArgs_right E extra h.2 q.2
      simp only [hvs]
theorem rightArgs_eq {E : Env} {F : Foot} (hK : Keeps E F) (h0 : ∀ v, E.truth v = false → v = 0) :
    ∀ as, CalmArgs F as → rightArgs E as = evArgs E as
  | .nil, _ => rfl
  | .cons e as, h => by
    funext m
    simp only [rightArgs, right_eq hK h0 e h.1, rightArgs_eq hK h0 as h.2.1]
    rw [both_swap (ev_framed hK e) (evArgs_framed hK as) h.2.2 (fun v vs m => some (v :: vs, m))]
    rw [both_eq, evArgs_cons]
end

end Ulam.Order
