/-
Facts about the specification: sizes are unique, a class with a size does not need itself.
-/
import Verif.Sizing.Spec
import Mathlib.Tactic.SplitIfs
import Mathlib.Tactic.Tauto
import Mathlib.Tactic.Linarith

namespace Ulam.Sizing

variable {n : Nat} {p : Prog n}

theorem part_congr {g g' : Fin n → Nat} {c : Fin n} {m : Member n}
    (h : ∀ d, m.ty = .cls d → g d = g' d) : part p g c m = part p g' c m := by
  unfold part
  split <;> simp_all

theorem own_congr {g g' : Fin n → Nat} {c : Fin n}
    (h : ∀ d, (∃ m ∈ p.members c, m.ty = .cls d) → g d = g' d) : own p g c = own p g' c := by
  have e : (p.members c).map (part p g c) = (p.members c).map (part p g' c) :=
    List.map_congr_left fun m hm => part_congr fun d hd => h d ⟨m, hm, hd⟩
  unfold own
  rw [e]

theorem Sized.det {c : Fin n} {k t : Nat} (h : Sized p c k t) :
    ∀ k' t', Sized p c k' t' → k = k' ∧ t = t' := by
  induction h with
  | mk c f g h ih =>
    intro k' t' h'
    cases h' with
    | mk _ f' g' h' =>
      have e : own p g c = own p g' c :=
        own_congr fun d hd => (ih d (.inl hd) _ _ (h' d (.inl hd))).2
      have e2 : (p.anc c).map f = (p.anc c).map f' :=
        List.map_congr_left fun a ha => (ih a (.inr ha) _ _ (h' a (.inr ha))).1
      rw [e, e2]
      exact ⟨rfl, rfl⟩

/-- The class has a size. -/
def Sizable (p : Prog n) (c : Fin n) : Prop := ∃ k t, Sized p c k t

open Classical in
/-- Its own bits. -/
noncomputable def ownOf (p : Prog n) (c : Fin n) : Nat :=
  if h : Sizable p c then h.choose else 0

open Classical in
/-- Its bits in all. -/
noncomputable def totOf (p : Prog n) (c : Fin n) : Nat :=
  if h : Sizable p c then h.choose_spec.choose else 0

theorem Sizable.sized {c : Fin n} (h : Sizable p c) : Sized p c (ownOf p c) (totOf p c) := by
  unfold ownOf totOf
  rw [dif_pos h, dif_pos h]
  exact h.choose_spec.choose_spec

theorem Sized.eqs {c : Fin n} {k t : Nat} (h : Sized p c k t) : k = ownOf p c ∧ t = totOf p c :=
  h.det _ _ (Sizable.sized ⟨k, t, h⟩)

theorem Sizable.needs {c d : Fin n} (h : Sizable p c) (hd : Needs p c d) : Sizable p d := by
  obtain ⟨k, t, h⟩ := h
  cases h with
  | mk _ f g h => exact ⟨_, _, h d hd⟩

theorem sizable_of {c : Fin n} (h : ∀ d, Needs p c d → Sizable p d) :
    Sizable p c ∧ ownOf p c = own p (totOf p) c ∧
      totOf p c = own p (totOf p) c + ((p.anc c).map (ownOf p)).sum := by
  have hs := Sized.mk (p := p) c (ownOf p) (totOf p) fun d hd => (h d hd).sized
  obtain ⟨e1, e2⟩ := hs.eqs
  exact ⟨⟨_, _, hs⟩, e1.symm, e2.symm⟩

theorem Sizable.eqs {c : Fin n} (h : Sizable p c) :
    ownOf p c = own p (totOf p) c ∧
      totOf p c = own p (totOf p) c + ((p.anc c).map (ownOf p)).sum :=
  (sizable_of fun _ hd => h.needs hd).2

theorem Sizable.own_le {c : Fin n} (h : Sizable p c) : ownOf p c ≤ totOf p c := by
  obtain ⟨e1, e2⟩ := h.eqs
  omega

theorem Sizable.acc {c : Fin n} (h : Sizable p c) : Acc (fun d c => Needs p c d) c := by
  obtain ⟨k, t, h⟩ := h
  induction h with
  | mk c f g h ih => exact Acc.intro c fun d hd => ih d hd

theorem Sizable.acyclic {c : Fin n} (h : Sizable p c) : ¬ Relation.TransGen (Needs p) c c := by
  have key : ∀ c, Acc (fun d c => Needs p c d) c → ¬ Relation.TransGen (Needs p) c c := by
    intro c h
    have h2 := h.transGen
    induction h2 with
    | intro c _ ih =>
      intro hc
      refine ih c ?_ h hc
      clear ih h
      have : ∀ a b, Relation.TransGen (Needs p) a b →
          Relation.TransGen (fun d c => Needs p c d) b a := by
        intro a b hab
        induction hab with
        | single h => exact .single h
        | tail _ h ih => exact Relation.TransGen.trans (.single h) ih
      exact this c c hc
  exact key c h.acc

theorem s32_eq {x : Int} (h : -2 ^ 31 ≤ x) (h' : x < 2 ^ 31) : s32 x = x := by
  unfold s32 Int.bmod
  have e : ((2 ^ 32 : Nat) : Int) = 4294967296 := rfl
  rw [e]
  dsimp only
  split <;> omega

theorem limit_le (k : Kind) : limit k ≤ 8192 := by cases k <;> decide

theorem limit_pos (k : Kind) : 0 ≤ limit k := by cases k <;> decide

theorem part_mono {g g' : Fin n → Nat} {c : Fin n} {m : Member n}
    (h : ∀ d, m.ty = .cls d → g d ≤ g' d) : part p g c m ≤ part p g' c m := by
  unfold part
  refine Nat.mul_le_mul_left _ ?_
  split
  · exact Nat.le_refl _
  · split_ifs
    · exact Nat.le_refl _
    · exact h _ (by assumption)

theorem foldr_max_le_sum (l : List Nat) : l.foldr max 0 ≤ l.sum := by
  induction l with
  | nil => exact Nat.le_refl _
  | cons a l ih => simp only [List.foldr_cons, List.sum_cons]; omega

end Ulam.Sizing
