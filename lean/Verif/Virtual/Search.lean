import Verif.Virtual.Walk
import Mathlib.Data.List.Forall2
/-! # Lemmas on the two searches for a virtual function among the ancestors -/
namespace Ulam.Virtual
open Ulam.Walker Ulam.Walker.Spec Spec
variable {n : Nat}

/-- Two different classes above `c` begin the virtual function `s`. -/
def Conflict (P : Program n) (c : Fin n) (s : Nat) : Prop :=
  ∃ o o', Ancestor P.w c o ∧ Begins P o s ∧ Ancestor P.w c o' ∧ Begins P o' s ∧ o ≠ o'

theorem soa_cases {w : World n} {a b : Fin n} (h : SelfOrAncestor w a b) : b = a ∨ Ancestor w a b :=
  Relation.reflTransGen_iff_eq_or_transGen.1 h

theorem Spec.IsVirtual.up {P : Program n} {a b : Fin n} {s : Nat} (h : IsVirtual P b s) (hab : SelfOrAncestor P.w a b)
    (hd : Declares P a s) : IsVirtual P a s := by
  obtain ⟨_, m, h1, h2⟩ := h
  exact ⟨hd, m, hab.trans h1, h2⟩

/-- Every virtual function begins somewhere. -/
theorem begins_somewhere {P : Program n} (L : Legal P) (b : Fin n) (s : Nat) (h : IsVirtual P b s) :
    ∃ o, SelfOrAncestor P.w b o ∧ Begins P o s := by
  have wf : WellFounded (fun x y => Ancestor P.w y x) := by
    haveI : IsTrans (Fin n) (fun x y => Ancestor P.w y x) := ⟨fun a b c h1 h2 => h2.trans h1⟩
    haveI : Std.Irrefl (fun x y => Ancestor P.w y x) := ⟨fun a h => L.acyclic a h⟩
    haveI : Finite (Fin n) := Finite.intro (Equiv.refl (Fin n))
    exact Finite.wellFounded_of_trans_of_irrefl _
  induction b using wf.induction with
  | _ b ih =>
    by_cases hb : ∃ a, Ancestor P.w b a ∧ IsVirtual P a s
    · obtain ⟨a, h1, h2⟩ := hb
      obtain ⟨o, k1, k2⟩ := ih a h1 h2
      exact ⟨o, h1.to_reflTransGen.trans k1, k2⟩
    · exact ⟨b, .refl, h, fun a h1 h2 => hb ⟨a, h1, h2⟩⟩

/-- The state knows which functions of class `b` are virtual. -/
def Knows (P : Program n) (st : St n) (b : Fin n) (s : Nat) : Prop :=
  (∀ f, findFunc st b s = some f → (f.virt = true ↔ IsVirtual P b s)) ∧ (Declares P b s → (findFunc st b s).isSome = true)

theorem Knows.no {P : Program n} {st : St n} {b : Fin n} {s : Nat} (h : Knows P st b s) (hv : ¬ IsVirtual P b s) (a : Option (Fin n)) :
    overrideStep P.w st s a b = a := by
  unfold overrideStep
  cases hf : findFunc st b s with
  | none => rfl
  | some f =>
    have : f.virt = false := by
      rw [Bool.eq_false_iff]; exact fun q => hv ((h.1 f hf).1 q)
    simp [this]

theorem Knows.yes {P : Program n} {st : St n} {b : Fin n} {s : Nat} (h : Knows P st b s) (hv : IsVirtual P b s) :
    ∃ f, findFunc st b s = some f ∧ f.virt = true := by
  have := h.2 hv.1
  obtain ⟨f, hf⟩ := Option.isSome_iff_exists.1 this
  exact ⟨f, hf, (h.1 f hf).2 hv⟩

/-- What `findOverride` finds: a virtual function with none more specific, if there is any. -/
theorem findOverride_spec {P : Program n} (L : Legal P) {c : Fin n} (hc : P.w.defined c = true) {st : St n} {s : Nat}
    (K : ∀ b, Ancestor P.w c b → Knows P st b s) :
    (findOverride P.w st c s = none ∧ ∀ b, Ancestor P.w c b → ¬ IsVirtual P b s) ∨
    ∃ a, findOverride P.w st c s = some a ∧ Ancestor P.w c a ∧ IsVirtual P a s ∧
      ∀ b, Ancestor P.w c b → IsVirtual P b s → ¬ Ancestor P.w b a := by
  have key : ∀ l : List (Fin n), (∀ b ∈ l, Ancestor P.w c b) →
      (l.foldl (overrideStep P.w st s) none = none ∧ ∀ b ∈ l, ¬ IsVirtual P b s) ∨
      ∃ a, l.foldl (overrideStep P.w st s) none = some a ∧ Ancestor P.w c a ∧ IsVirtual P a s ∧
        ∀ b ∈ l, IsVirtual P b s → ¬ Ancestor P.w b a := by
    intro l
    induction l using List.reverseRecOn with
    | nil => intro _; exact .inl ⟨rfl, by simp⟩
    | append_singleton l b ih =>
      intro hl
      have hb : Ancestor P.w c b := hl b (by simp)
      rw [List.foldl_append, List.foldl_cons, List.foldl_nil]
      have ih := ih fun x hx => hl x (by simp [hx])
      by_cases hv : IsVirtual P b s
      · obtain ⟨f, hf, hfv⟩ := (K b hb).yes hv
        right
        rcases ih with ⟨i1, i2⟩ | ⟨a, i1, i2, i3, i4⟩
        · refine ⟨b, ?_, hb, hv, ?_⟩
          · rw [i1]; simp [overrideStep, hf, hfv]
          · intro x hx hxv
            rcases List.mem_append.1 hx with hx | hx
            · exact absurd hxv (i2 x hx)
            · rw [List.mem_singleton] at hx; subst hx; exact L.acyclic x
        · have hsub := sub_iff L (L.anc_defined hb) (L.anc_defined i2)
          rw [i1]
          by_cases hba : Ancestor P.w b a
          · refine ⟨b, ?_, hb, hv, ?_⟩
            · simp [overrideStep, hf, hfv, hsub.2 hba]
            · intro x hx hxv hxb
              rcases List.mem_append.1 hx with hx | hx
              · exact i4 x hx hxv (hxb.trans hba)
              · rw [List.mem_singleton] at hx; subst hx; exact L.acyclic x hxb
          · refine ⟨a, ?_, i2, i3, ?_⟩
            · have : isClassASubclassOf P.w b a = false := by
                rw [Bool.eq_false_iff]; exact fun q => hba (hsub.1 q)
              simp [overrideStep, hf, hfv, this]
            · intro x hx hxv
              rcases List.mem_append.1 hx with hx | hx
              · exact i4 x hx hxv
              · rw [List.mem_singleton] at hx; subst hx; exact hba
      · rw [(K b hb).no hv]
        rcases ih with ⟨i1, i2⟩ | ⟨a, i1, i2, i3, i4⟩
        · refine .inl ⟨i1, fun x hx => ?_⟩
          rcases List.mem_append.1 hx with hx | hx
          · exact i2 x hx
          · rw [List.mem_singleton] at hx; subst hx; exact hv
        · refine .inr ⟨a, i1, i2, i3, fun x hx hxv => ?_⟩
          rcases List.mem_append.1 hx with hx | hx
          · exact i4 x hx hxv
          · rw [List.mem_singleton] at hx; subst hx; exact absurd hxv hv
  rcases key (ancestors P.w true c) (fun b hb => (mem_ancestors L true hc b).1 hb) with ⟨h1, h2⟩ | ⟨a, h1, h2, h3, h4⟩
  · exact .inl ⟨h1, fun b hb => h2 b ((mem_ancestors L true hc b).2 hb)⟩
  · exact .inr ⟨a, h1, h2, h3, fun b hb => h4 b ((mem_ancestors L true hc b).2 hb)⟩

theorem originStep_no {P : Program n} {st : St n} {b : Fin n} {s : Nat} (h : Knows P st b s) (hv : ¬ IsVirtual P b s) (a : Orig n) :
    originStep P.w st s a b = a := by
  unfold originStep
  cases hf : findFunc st b s with
  | none => rfl
  | some f =>
    have : f.virt = false := by
      rw [Bool.eq_false_iff]; exact fun q => hv ((h.1 f hf).1 q)
    simp [this]

theorem originStep_errors (w : World n) (st : St n) (s : Nat) (a : Orig n) (b : Fin n) :
    a.errors ≤ (originStep w st s a b).errors := by
  unfold originStep
  repeat' split
  all_goals simp

theorem originFold_errors (w : World n) (st : St n) (s : Nat) (l : List (Fin n)) (a : Orig n) :
    a.errors ≤ (l.foldl (originStep w st s) a).errors := by
  induction l generalizing a with
  | nil => exact Nat.le_refl _
  | cons b l ih => exact Nat.le_trans (originStep_errors w st s a b) (ih _)

/-- State of the search for the originator, as long as no error is reported: the class found is above all met. -/
def OrigOk (P : Program n) (st : St n) (c : Fin n) (s : Nat) (l : List (Fin n)) (a : Orig n) : Prop :=
  (a.found = none ∧ a.func = none ∧ ∀ b ∈ l, ¬ IsVirtual P b s) ∨
  ∃ o, a.found = some o ∧ a.func = findFunc st o s ∧ o ∈ l ∧ IsVirtual P o s ∧ ∀ b ∈ l, IsVirtual P b s → SelfOrAncestor P.w b o

theorem originStep_ok {P : Program n} (L : Legal P) {c : Fin n} {st : St n} {s : Nat}
    (K : ∀ b, Ancestor P.w c b → Knows P st b s) (l : List (Fin n)) (b : Fin n) (hl : ∀ x ∈ l, Ancestor P.w c x)
    (hb : Ancestor P.w c b) (a : Orig n) (h : OrigOk P st c s l a) :
    (OrigOk P st c s (l ++ [b]) (originStep P.w st s a b) ∧ (originStep P.w st s a b).errors = a.errors) ∨
    ((originStep P.w st s a b).errors = a.errors + 1 ∧ IsVirtual P b s ∧ ∃ o, a.found = some o ∧ ¬ Ancestor P.w o b ∧
      ¬ SelfOrAncestor P.w b o) := by
  by_cases hv : IsVirtual P b s
  · obtain ⟨f, hf, hfv⟩ := (K b hb).yes hv
    rcases h with ⟨i1, i2, i3⟩ | ⟨o, i1, i2, i3, i4, i5⟩
    · left
      refine ⟨.inr ⟨b, ?_, ?_, by simp, hv, ?_⟩, ?_⟩
      · simp [originStep, hf, hfv, i1]
      · simp [originStep, hf, hfv, i1]
      · intro x hx hxv
        rcases List.mem_append.1 hx with hx | hx
        · exact absurd hxv (i3 x hx)
        · rw [List.mem_singleton] at hx; subst hx; exact .refl
      · simp [originStep, hf, hfv, i1]
    · have ho := hl o i3
      have h1 := sub_iff L (L.anc_defined ho) (L.anc_defined hb)
      have h2 := sub_iff L (L.anc_defined hb) (L.anc_defined ho)
      by_cases e : o = b
      · left
        have : originStep P.w st s a b = a := by simp [originStep, hf, hfv, i1, e]
        rw [this]
        refine ⟨.inr ⟨o, i1, i2, by simp [i3], i4, fun x hx hxv => ?_⟩, rfl⟩
        rcases List.mem_append.1 hx with hx | hx
        · exact i5 x hx hxv
        · rw [List.mem_singleton] at hx; subst hx; rw [e]; exact .refl
      · by_cases q1 : Ancestor P.w o b
        · left
          have : originStep P.w st s a b = ⟨some b, some f, a.errors⟩ := by simp [originStep, hf, hfv, i1, e, h1.2 q1]
          rw [this]
          refine ⟨.inr ⟨b, rfl, hf.symm, by simp, hv, fun x hx hxv => ?_⟩, rfl⟩
          rcases List.mem_append.1 hx with hx | hx
          · exact (i5 x hx hxv).trans q1.to_reflTransGen
          · rw [List.mem_singleton] at hx; subst hx; exact .refl
        · have h1' : isClassASubclassOf P.w o b = false := by
            rw [Bool.eq_false_iff]; exact fun q => q1 (h1.1 q)
          by_cases q2 : Ancestor P.w b o
          · left
            have : originStep P.w st s a b = a := by simp [originStep, hf, hfv, i1, e, h1', h2.2 q2]
            rw [this]
            refine ⟨.inr ⟨o, i1, i2, by simp [i3], i4, fun x hx hxv => ?_⟩, rfl⟩
            rcases List.mem_append.1 hx with hx | hx
            · exact i5 x hx hxv
            · rw [List.mem_singleton] at hx; subst hx; exact q2.to_reflTransGen
          · right
            have h2' : isClassASubclassOf P.w b o = false := by
              rw [Bool.eq_false_iff]; exact fun q => q2 (h2.1 q)
            have : originStep P.w st s a b = ⟨some o, none, a.errors + 1⟩ := by simp [originStep, hf, hfv, i1, e, h1', h2']
            rw [this]
            refine ⟨rfl, hv, o, i1, q1, fun q => ?_⟩
            rcases soa_cases q with q | q
            · exact e q
            · exact q2 q
  · left
    rw [originStep_no (K b hb) hv]
    refine ⟨?_, rfl⟩
    rcases h with ⟨i1, i2, i3⟩ | ⟨o, i1, i2, i3, i4, i5⟩
    · refine .inl ⟨i1, i2, fun x hx => ?_⟩
      rcases List.mem_append.1 hx with hx | hx
      · exact i3 x hx
      · rw [List.mem_singleton] at hx; subst hx; exact hv
    · refine .inr ⟨o, i1, i2, by simp [i3], i4, fun x hx hxv => ?_⟩
      rcases List.mem_append.1 hx with hx | hx
      · exact i5 x hx hxv
      · rw [List.mem_singleton] at hx; subst hx; exact absurd hxv hv

/-- If no error is reported, the originator is the class where the function begins, and the only such class above `c`. -/
theorem findOriginating_quiet {P : Program n} (L : Legal P) {c : Fin n} (hc : P.w.defined c = true) {st : St n} {s : Nat}
    (K : ∀ b, Ancestor P.w c b → Knows P st b s) (he : (findOriginating P.w st c s).errors = 0) :
    OrigOk P st c s (ancestors P.w false c) (findOriginating P.w st c s) ∧ ¬ Conflict P c s := by
  have key : ∀ l : List (Fin n), (∀ b ∈ l, Ancestor P.w c b) →
      (l.foldl (originStep P.w st s) ⟨none, none, 0⟩).errors = 0 →
      OrigOk P st c s l (l.foldl (originStep P.w st s) ⟨none, none, 0⟩) := by
    intro l
    induction l using List.reverseRecOn with
    | nil => intro _ _; exact .inl ⟨rfl, rfl, by simp⟩
    | append_singleton l b ih =>
      intro hl he
      rw [List.foldl_append, List.foldl_cons, List.foldl_nil] at he ⊢
      have h0 := originStep_errors P.w st s (l.foldl (originStep P.w st s) ⟨none, none, 0⟩) b
      have ih := ih (fun x hx => hl x (by simp [hx])) (by omega)
      rcases originStep_ok L K l b (fun x hx => hl x (by simp [hx])) (hl b (by simp)) _ ih with h | h
      · exact h.1
      · omega
  have h := key (ancestors P.w false c) (fun b hb => (mem_ancestors L false hc b).1 hb) he
  refine ⟨h, ?_⟩
  rintro ⟨o1, o2, a1, b1, a2, b2, hne⟩
  rcases h with ⟨_, _, h⟩ | ⟨o, _, _, ho, hv, h⟩
  · exact h o1 ((mem_ancestors L false hc o1).2 a1) b1.1
  · have g : ∀ x, Ancestor P.w c x → Begins P x s → o = x := by
      intro x hx hb
      rcases soa_cases (h x ((mem_ancestors L false hc x).2 hx) hb.1) with q | q
      · exact q
      · exact absurd hv (hb.2 o q)
    exact hne ((g o1 a1 b1).symm.trans (g o2 a2 b2))

/-- If the function begins in one class only, no error is reported. -/
theorem findOriginating_no_error {P : Program n} (L : Legal P) {c : Fin n} (hc : P.w.defined c = true) {st : St n} {s : Nat}
    (K : ∀ b, Ancestor P.w c b → Knows P st b s) (hq : ¬ Conflict P c s) : (findOriginating P.w st c s).errors = 0 := by
  by_cases hex : ∃ o, Ancestor P.w c o ∧ Begins P o s
  · obtain ⟨o, ho, hbo⟩ := hex
    have below : ∀ b, Ancestor P.w c b → IsVirtual P b s → SelfOrAncestor P.w b o := by
      intro b hb hv
      obtain ⟨o', h1, h2⟩ := begins_somewhere L b s hv
      have : o' = o := by
        by_contra hne
        exact hq ⟨o', o, Relation.TransGen.trans_left hb h1, h2, ho, hbo, hne⟩
      rw [← this]; exact h1
    have key : ∀ l suf : List (Fin n), ancestors P.w false c = l ++ suf →
        (l.foldl (originStep P.w st s) ⟨none, none, 0⟩).errors = 0 ∧
        OrigOk P st c s l (l.foldl (originStep P.w st s) ⟨none, none, 0⟩) := by
      intro l
      induction l using List.reverseRecOn with
      | nil => intro _ _; exact ⟨rfl, .inl ⟨rfl, rfl, by simp⟩⟩
      | append_singleton l b ih =>
        intro suf e
        rw [List.append_assoc, List.singleton_append] at e
        obtain ⟨i1, i2⟩ := ih _ e
        have hl : ∀ x ∈ l, Ancestor P.w c x := fun x hx => (mem_ancestors L false hc x).1 (by rw [e]; simp [hx])
        have hb : Ancestor P.w c b := (mem_ancestors L false hc b).1 (by rw [e]; simp)
        rw [List.foldl_append, List.foldl_cons, List.foldl_nil]
        rcases originStep_ok L K l b hl hb _ i2 with h | ⟨_, hbv, f, hf, n1, n2⟩
        · exact ⟨h.2.trans i1, h.1⟩
        · exfalso
          rcases i2 with ⟨i2, _⟩ | ⟨f', j1, _, j3, j4, j5⟩
          · rw [i2] at hf; cases hf
          · rw [j1] at hf; cases hf
            have hfo := below f (hl f j3) j4
            have hbo' := below b hb hbv
            by_cases hol : o ∈ l
            · have := j5 o hol hbo.1
              rcases soa_cases this with q | q
              · rw [q] at n2; exact n2 hbo'
              · exact hbo.2 f q j4
            · rcases soa_cases hfo with q | q
              · exact hol (by rw [q]; exact j3)
              · obtain ⟨l1, l2, e1⟩ := List.append_of_mem j3
                rw [e1] at e
                have e' : ancestors P.w false c = l1 ++ f :: (l2 ++ b :: suf) := by rw [e]; simp
                rcases ancestors_ordered L e' q with h | ⟨A, suf', k1, k2, k3⟩
                · exact hol (by rw [e1]; simp [h])
                · -- `o` comes after `b`, so `b` is above `f`
                  have hb' : b ∈ A := by
                    rcases List.append_eq_append_iff.1 k1 with ⟨as, h1, h2⟩ | ⟨bs, h1, h2⟩
                    · cases as with
                      | nil =>
                        simp only [List.append_nil] at h1
                        exact absurd (by rw [e1]; rw [h1] at k2; simp [k2]) hol
                      | cons a as =>
                        simp only [List.cons_append, List.cons.injEq] at h2
                        rw [h1, h2.1]; simp
                    · exact absurd (by rw [e1, h1]; simp [k2]) hol
                  exact n1 (k3 b hb')
    exact (key (ancestors P.w false c) [] (by simp)).1
  · have none : ∀ b, Ancestor P.w c b → ¬ IsVirtual P b s := by
      intro b hb hv
      obtain ⟨o, h1, h2⟩ := begins_somewhere L b s hv
      exact hex ⟨o, Relation.TransGen.trans_left hb h1, h2⟩
    have key : ∀ l : List (Fin n), (∀ b ∈ l, Ancestor P.w c b) →
        l.foldl (originStep P.w st s) ⟨Option.none, Option.none, 0⟩ = ⟨Option.none, Option.none, 0⟩ := by
      intro l
      induction l with
      | nil => intro _; rfl
      | cons b l ih =>
        intro hl
        rw [List.foldl_cons, originStep_no (K b (hl b (by simp))) (none b (hl b (by simp)))]
        exact ih fun x hx => hl x (by simp [hx])
    unfold findOriginating
    rw [key _ fun b hb => (mem_ancestors L false hc b).1 hb]

end Ulam.Virtual
