import Verif.VtGen.Model
import Verif.Virtual.Props
import Mathlib.Tactic.SplitIfs
/-! # Lemmas for C104 -/
namespace Ulam.VtGen
open Ulam.Walker Ulam.Walker.Spec Ulam.Virtual Ulam.Virtual.Spec
variable {n : Nat}

/-! ## Each class has one start -/

/-- No class has two starts in the table of another. -/
def NS (st : St n) : Prop := ∀ c, ((st.cls c).starts.map Prod.fst).Nodup

theorem ns_set {st : St n} (h : NS st) (c : Fin n) (k : ClassSt n) (hk : (k.starts.map Prod.fst).Nodup) : NS (st.set c k) := by
  intro x
  unfold St.set
  dsimp only
  by_cases e : x = c
  · subst e; rw [Function.update_self]; exact hk
  · rw [Function.update_of_ne e]; exact h x

theorem updateVTable_starts {k k' : ClassSt n} {v : Nat} {fn : Fin n × Nat} {kin o : Fin n} {p : Bool}
    (h : updateVTable k v fn kin o p = some k') : k'.starts = k.starts := by
  unfold updateVTable at h
  cases hs : startOf k o with
  | none => rw [hs] at h; cases h
  | some t =>
    rw [hs] at h
    dsimp only at h
    cases hv : k.vtable[t + v]? with
    | none =>
      rw [hv] at h
      dsimp only at h
      split at h
      · cases h; rfl
      · cases h
    | some e =>
      rw [hv] at h
      dsimp only at h
      split at h
      · cases h; rfl
      · cases h

theorem calcFunction_ns {w : World n} {c : Fin n} {f : Func n} {x y : St n × Nat} (h : calcFunction w c f x = some y) (hx : NS x.1) :
    NS y.1 := by
  unfold calcFunction at h
  dsimp only at h
  split at h
  · split at h
    · cases h
    · split at h
      · cases h
      · rename_i k' hk
        cases h
        dsimp only
        intro z
        have := ns_set hx c k' (by rw [updateVTable_starts hk]; exact hx c)
        exact this z
  · cases h; exact hx

theorem calcFunctions_ns {w : World n} {c : Fin n} (fs : List (Func n)) {x y : St n × Nat} (h : calcFunctions w c fs x = some y)
    (hx : NS x.1) : NS y.1 := by
  induction fs generalizing x with
  | nil => cases h; exact hx
  | cons f fs ih =>
    unfold calcFunctions at h
    cases hf : calcFunction w c f x with
    | none => rw [hf] at h; cases h
    | some z => rw [hf] at h; exact ih h (calcFunction_ns hf hx)

theorem initStep_ns (w : World n) (st : St n) (c : Fin n) (l : List (Fin n)) (a : List (VTEntry n) × List (Fin n × Nat))
    (h : (a.2.map Prod.fst).Nodup) : ((l.foldl (initStep w st c) a).2.map Prod.fst).Nodup := by
  induction l generalizing a with
  | nil => exact h
  | cons b l ih =>
    rw [List.foldl_cons]
    apply ih
    unfold initStep
    split
    · exact h
    · rename_i hb
      rw [List.map_append, List.nodup_append]
      refine ⟨h, by simp, ?_⟩
      rintro x hx y hy rfl
      simp only [List.map_cons, List.map_nil, List.mem_singleton] at hy
      subst hy
      obtain ⟨p, hp, e⟩ := List.mem_map.1 hx
      apply hb
      rw [List.find?_isSome]
      exact ⟨p, hp, by simpa using e⟩

theorem initVTable_ns {w : World n} {st st' : St n} {c : Fin n} {m : Nat} (h : initVTable w st c m = some st') (hx : NS st) :
    NS st' := by
  unfold initVTable at h
  split at h
  · cases h; exact hx
  · dsimp only at h
    split at h
    · cases h
      apply ns_set hx
      dsimp only
      have key := initStep_ns w st c (ancestors w false c) ((st.cls c).vtable, (st.cls c).starts) (hx c)
      split
      · exact key
      · rename_i hb
        rw [List.map_append, List.nodup_append]
        refine ⟨key, by simp, ?_⟩
        rintro x hx y hy rfl
        simp only [List.map_cons, List.map_nil, List.mem_singleton] at hy
        subst hy
        obtain ⟨p, hp, e⟩ := List.mem_map.1 hx
        apply hb
        rw [List.find?_isSome]
        exact ⟨p, hp, by simpa using e⟩
    · cases h

theorem calcClass_ns {w : World n} {st st' : St n} {c : Fin n} (h : calcClass w st c = some st') (hx : NS st) : NS st' := by
  unfold calcClass at h
  split at h
  · cases h; exact hx
  · dsimp only at h
    split at h
    · split at h
      · split at h
        · split at h
          · cases h
          · rename_i st1 h1
            have n1 := initVTable_ns h1 hx
            split at h
            · cases h
            · rename_i st2 o h2
              cases h
              have n2 := calcFunctions_ns _ h2 n1
              exact ns_set n2 c _ (n2 c)
        · cases h
      · cases h; exact hx
    · cases h

theorem pass_ns {w : World n} (cs : List (Fin n)) {st st' : St n} (h : pass w cs st = some st') (hx : NS st) : NS st' := by
  induction cs generalizing st with
  | nil => cases h; exact hx
  | cons c cs ih =>
    unfold pass at h
    cases hc : calcClass w st c with
    | none => rw [hc] at h; cases h
    | some s => rw [hc] at h; exact ih h (calcClass_ns hc hx)

theorem passes_ns {w : World n} {cs : List (Fin n)} (k : Nat) {st st' : St n} (h : passes w cs k st = some st') (hx : NS st) :
    NS st' := by
  induction k generalizing st with
  | zero => cases h; exact hx
  | succ k ih =>
    unfold passes at h
    cases hc : pass w cs st with
    | none => rw [hc] at h; cases h
    | some s =>
      rw [hc] at h
      dsimp only at h
      split at h
      · cases h; exact pass_ns cs hc hx
      · exact ih h (pass_ns cs hc hx)

/-! ## The map by registration number -/

theorem convert_eq (reg : Fin n → Nat) (l : List (Fin n × Nat)) (m : List (Nat × Nat))
    (h : (m.map Prod.fst ++ l.map fun p => reg p.1).Nodup) : convert reg l m = some (m ++ l.map fun p => (reg p.1, p.2)) := by
  induction l generalizing m with
  | nil => simp [convert]
  | cons p l ih =>
    obtain ⟨o, t⟩ := p
    unfold convert
    have hn : ¬ (m.any fun x => x.1 == reg o) = true := by
      intro z
      rw [List.any_eq_true] at z
      obtain ⟨x, hx, e⟩ := z
      rw [List.nodup_append] at h
      exact h.2.2 x.1 (List.mem_map.2 ⟨x, hx, rfl⟩) (reg o) (by simp) (by simpa using e)
    rw [if_neg hn, ih]
    · simp
    · simpa using h

theorem find_start (k : ClassSt n) (reg : Fin n → Nat) (o : Fin n) (inj : ∀ p ∈ k.starts, reg p.1 = reg o → p.1 = o) :
    ((k.starts.map fun p => (reg p.1, p.2)).find? fun x => x.1 == reg o).map Prod.snd = startOf k o := by
  unfold startOf
  generalize k.starts = l at inj
  induction l with
  | nil => rfl
  | cons p l ih =>
    have ih := ih fun q hq => inj q (List.mem_cons_of_mem _ hq)
    by_cases e : p.1 = o
    · rw [List.map_cons, List.find?_cons_of_pos (by simp [e]), List.find?_cons_of_pos (by simp [e])]; rfl
    · rw [List.map_cons, List.find?_cons_of_neg (by simpa using fun z => e (inj p (by simp) z)),
        List.find?_cons_of_neg (by simpa using e)]
      exact ih

theorem find_none (l : List (Nat × Nat)) (i : Nat) (h : ∀ x ∈ l, x.1 ≠ i) : (l.find? fun x => x.1 == i) = none := by
  rw [List.find?_eq_none]
  intro x hx
  simpa using h x hx

theorem collect_some {α β : Type} (f : α → Option β) (g : α → β) (l : List α) (h : ∀ x ∈ l, f x = some (g x)) :
    collect (l.map f) = some (l.map g) := by
  induction l with
  | nil => rfl
  | cons x l ih =>
    rw [List.map_cons, h x (by simp), collect, ih fun y hy => h y (List.mem_cons_of_mem _ hy)]
    rfl

end Ulam.VtGen
