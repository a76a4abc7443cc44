import Verif.Registry.Model
import Verif.ElemType.Lemmas
namespace Ulam.Registry

/-- Whose number it is: a temporary class stands for its locals block. -/
def Owner.holder : Owner → Owner
  | .temp l => .locals l
  | o => o

/-- The type under which an owner is entered in the registry. -/
def Owner.uti : Owner → Nat
  | .cls c => c
  | .locals l => l
  | .temp l => l

structure NInv (e : Env) (w : World) : Prop where
  pos : 0 < w.registry.length
  le : w.registry.length ≤ maxRegistry
  lt : ∀ o, w.number o ≠ unassigned → w.number o < w.registry.length
  zero : ∀ o, w.number o = 0 → o = .cls e.urSelf
  reg : ∀ o, w.number o ≠ unassigned → w.registry[w.number o]? = some o.uti
  uniq : ∀ o o', w.number o ≠ unassigned → w.number o = w.number o' → o.holder = o'.holder
  temp : ∀ l, w.number (.temp l) ≠ unassigned → w.number (.locals l) = w.number (.temp l)
  ur : w.number (.cls e.urSelf) ≠ unassigned → w.number (.cls e.urSelf) = 0

theorem ninv_init (e : Env) : NInv e World.init where
  pos := by decide
  le := by decide
  lt := fun o h => absurd rfl h
  zero := fun o h => by simp [World.init, unassigned] at h
  reg := fun o h => absurd rfl h
  uniq := fun o _ h => absurd rfl h
  temp := fun l h => absurd rfl h
  ur := fun h => absurd rfl h

/-- Giving a fresh owner (not a temporary class) a fresh number. -/
theorem ninv_push (e : Env) (w : World) (o : Owner) (inv : NInv e w) (ho : o.holder = o)
    (hn : w.number o = unassigned) (hu : o ≠ .cls e.urSelf) (hl : w.registry.length < maxRegistry) :
    NInv e (setNumber { w with registry := w.registry ++ [o.uti] } o w.registry.length) := by
  have hnt : ∀ l, o ≠ .temp l := by
    intro l h; subst h; simp [Owner.holder] at ho
  have hne : w.registry.length ≠ unassigned := by unfold unassigned maxRegistry at *; omega
  refine ⟨by simp [setNumber], by simp [setNumber]; omega, ?_, ?_, ?_, ?_, ?_, ?_⟩
  · intro x hx
    simp only [setNumber] at hx ⊢
    by_cases hxo : x = o
    · simp [hxo]
    · simp only [hxo, if_false, List.length_append, List.length_cons, List.length_nil] at hx ⊢
      have := inv.lt x hx; omega
  · intro x hx
    simp only [setNumber] at hx
    by_cases hxo : x = o
    · simp only [hxo, if_true] at hx
      have := inv.pos; omega
    · simp only [hxo, if_false] at hx
      exact inv.zero x hx
  · intro x hx
    simp only [setNumber] at hx ⊢
    by_cases hxo : x = o
    · simp [hxo]
    · simp only [hxo, if_false] at hx ⊢
      rw [List.getElem?_append_left (inv.lt x hx)]
      exact inv.reg x hx
  · intro x y hx hxy
    simp only [setNumber] at hx hxy
    by_cases hxo : x = o
    · by_cases hyo : y = o
      · rw [hxo, hyo]
      · simp only [hxo, hyo, if_true, if_false] at hxy
        have := inv.lt y (by rw [← hxy]; exact hne)
        omega
    · simp only [hxo, if_false] at hx hxy
      by_cases hyo : y = o
      · simp only [hyo, if_true] at hxy
        have := inv.lt x hx
        omega
      · simp only [hyo, if_false] at hxy
        exact inv.uniq x y hx hxy
  · intro l hl'
    have htl : ¬ Owner.temp l = o := fun h => hnt l h.symm
    simp only [setNumber, htl, if_false] at hl' ⊢
    have ht := inv.temp l hl'
    by_cases hlo : Owner.locals l = o
    · subst hlo; rw [hn] at ht; exact absurd ht.symm hl'
    · rw [if_neg hlo]; exact ht
  · intro h
    simp only [setNumber] at h ⊢
    rw [if_neg (Ne.symm hu)] at h ⊢
    exact inv.ur h

/-- UrSelf gets number 0. -/
theorem ninv_ur (e : Env) (w : World) (inv : NInv e w) (hn : w.number (.cls e.urSelf) = unassigned) :
    NInv e (setNumber { w with registry := w.registry.set 0 e.urSelf } (.cls e.urSelf) 0) := by
  have hz : ∀ o, w.number o ≠ 0 := by
    intro o h
    have := inv.zero o h
    subst this
    rw [hn] at h
    exact absurd h (by decide)
  refine ⟨by simpa [setNumber] using inv.pos, by simpa [setNumber] using inv.le, ?_, ?_, ?_, ?_, ?_, ?_⟩
  · intro x hx
    simp only [setNumber, List.length_set] at hx ⊢
    by_cases hxo : x = .cls e.urSelf
    · simp only [hxo, if_true]; exact inv.pos
    · simp only [hxo, if_false] at hx ⊢; exact inv.lt x hx
  · intro x hx
    simp only [setNumber] at hx
    by_cases hxo : x = .cls e.urSelf
    · exact hxo
    · simp only [hxo, if_false] at hx; exact absurd hx (hz x)
  · intro x hx
    simp only [setNumber] at hx ⊢
    by_cases hxo : x = .cls e.urSelf
    · simp only [hxo, if_true]
      rw [List.getElem?_set]
      simp [inv.pos, Owner.uti]
    · simp only [hxo, if_false] at hx ⊢
      rw [List.getElem?_set_ne (Ne.symm (hz x))]
      exact inv.reg x hx
  · intro x y hx hxy
    simp only [setNumber] at hx hxy
    by_cases hxo : x = .cls e.urSelf <;> by_cases hyo : y = .cls e.urSelf
    · rw [hxo, hyo]
    · simp only [hxo, hyo, if_true, if_false] at hxy
      exact absurd hxy.symm (hz y)
    · simp only [hxo, hyo, if_true, if_false] at hxy
      exact absurd hxy (hz x)
    · simp only [hxo, hyo, if_false] at hx hxy
      exact inv.uniq x y hx hxy
  · intro l h
    simp only [setNumber] at h ⊢
    rw [if_neg (by simp)] at h ⊢
    rw [if_neg (by simp)]
    exact inv.temp l h
  · intro _
    simp [setNumber]

theorem getClassNumber_spec (e : Env) (w : World) (c : Nat) (r : Bool) (inv : NInv e w) :
    (∃ n w', getClassNumber e w c r = some (n, w') ∧ NInv e w' ∧ n = w'.number (.cls c) ∧
      (r = true → n ≠ unassigned) ∧
      (∀ o, w.number o ≠ unassigned → w'.number o = w.number o) ∧
      w'.elemType = w.elemType ∧ w'.gen = w.gen) ∨
    (getClassNumber e w c r = none ∧ w.number (.cls c) = unassigned ∧ r = true ∧ c ≠ e.urSelf ∧
      w.registry.length = maxRegistry) := by
  unfold getClassNumber
  by_cases hc : w.number (.cls c) = unassigned ∧ r = true
  · rw [if_pos hc]
    obtain ⟨hn, hr⟩ := hc
    unfold assignClassId
    by_cases hu : c = e.urSelf
    · subst hu
      rw [if_pos rfl]
      have h0 : ¬ (0 : Nat) = unassigned := by decide
      have hmx : ¬ (0 ≥ maxRegistry) := by decide
      simp only [assignClassNumber, h0, hn, hmx, if_false, ne_eq, not_true_eq_false]
      refine Or.inl ⟨_, _, rfl, ninv_ur e w inv hn, rfl, ?_, ?_, rfl, rfl⟩
      · intro _; simp [setNumber, unassigned]
      · intro o ho
        simp only [setNumber]
        rw [if_neg]
        intro h; subst h; exact ho hn
    · rw [if_neg hu]
      by_cases hl : w.registry.length < maxRegistry
      · rw [if_pos hl]
        have h0 : ¬ w.registry.length = unassigned := by unfold unassigned maxRegistry at *; omega
        have hmx : ¬ (w.registry.length ≥ maxRegistry) := by omega
        simp only [assignClassNumber, h0, hn, hmx, if_false, ne_eq, not_true_eq_false]
        refine Or.inl ⟨_, _, rfl, ninv_push e w (.cls c) inv rfl hn (by simpa using hu) hl, rfl, ?_, ?_, rfl, rfl⟩
        · intro _; simpa [setNumber] using h0
        · intro o ho
          simp only [setNumber]
          rw [if_neg]
          intro h; subst h; exact ho hn
      · rw [if_neg hl]
        exact Or.inr ⟨rfl, hn, hr, hu, by have := inv.le; omega⟩
  · rw [if_neg hc]
    refine Or.inl ⟨_, _, rfl, inv, rfl, ?_, fun _ _ => rfl, rfl, rfl⟩
    intro hr h
    exact hc ⟨h, hr⟩

theorem getLocalsNumber_spec (e : Env) (w : World) (c : Nat) (r : Bool) (inv : NInv e w)
    (hu : c ≠ e.urSelf) :
    (∃ n w', getLocalsNumber e w c r = some (n, w') ∧ NInv e w' ∧ n = w'.number (.locals c) ∧
      (r = true → n ≠ unassigned) ∧
      (∀ o, w.number o ≠ unassigned → w'.number o = w.number o) ∧
      w'.elemType = w.elemType ∧ w'.gen = w.gen) ∨
    (getLocalsNumber e w c r = none ∧ w.number (.locals c) = unassigned ∧ r = true ∧
      w.registry.length = maxRegistry) := by
  unfold getLocalsNumber
  by_cases hc : w.number (.locals c) = unassigned ∧ r = true
  · rw [if_pos hc]
    obtain ⟨hn, hr⟩ := hc
    unfold assignClassId
    rw [if_neg hu]
    by_cases hl : w.registry.length < maxRegistry
    · rw [if_pos hl]
      have h0 : ¬ w.registry.length = unassigned := by unfold unassigned maxRegistry at *; omega
      simp only [assignLocalsNumber, h0, hn, if_false, ne_eq, not_true_eq_false]
      refine Or.inl ⟨_, _, rfl, ninv_push e w (.locals c) inv rfl hn (by simp) hl, rfl, ?_, ?_, rfl, rfl⟩
      · intro _; simpa [setNumber] using h0
      · intro o ho
        simp only [setNumber]
        rw [if_neg]
        intro h; subst h; exact ho hn
    · rw [if_neg hl]
      exact Or.inr ⟨rfl, hn, hr, by have := inv.le; omega⟩
  · rw [if_neg hc]
    refine Or.inl ⟨_, _, rfl, inv, rfl, ?_, fun _ _ => rfl, rfl, rfl⟩
    intro hr h
    exact hc ⟨h, hr⟩

theorem ninv_temp (e : Env) (w : World) (l : Nat) (inv : NInv e w)
    (hn : w.number (.temp l) = unassigned) (hl : w.number (.locals l) ≠ unassigned) :
    NInv e (setNumber w (.temp l) (w.number (.locals l))) := by
  have hpos : w.number (.locals l) ≠ 0 := by
    intro h; have := inv.zero _ h; simp at this
  refine ⟨inv.pos, inv.le, ?_, ?_, ?_, ?_, ?_, ?_⟩
  · intro x hx
    simp only [setNumber] at hx ⊢
    by_cases hxo : x = .temp l
    · simp only [hxo, if_true]; exact inv.lt _ hl
    · simp only [hxo, if_false] at hx ⊢; exact inv.lt x hx
  · intro x hx
    simp only [setNumber] at hx
    by_cases hxo : x = .temp l
    · simp only [hxo, if_true] at hx; exact absurd hx hpos
    · simp only [hxo, if_false] at hx; exact inv.zero x hx
  · intro x hx
    simp only [setNumber] at hx ⊢
    by_cases hxo : x = .temp l
    · simp only [hxo, if_true]; exact inv.reg _ hl
    · simp only [hxo, if_false] at hx ⊢; exact inv.reg x hx
  · intro x y hx hxy
    simp only [setNumber] at hx hxy
    by_cases hxo : x = .temp l <;> by_cases hyo : y = .temp l
    · rw [hxo, hyo]
    · simp only [hxo, hyo, if_true, if_false] at hx hxy
      have := inv.uniq (.locals l) y hl hxy
      rw [hxo]; exact this
    · simp only [hxo, hyo, if_true, if_false] at hx hxy
      have := inv.uniq x (.locals l) hx hxy
      rw [hyo]; exact this
    · simp only [hxo, hyo, if_false] at hx hxy
      exact inv.uniq x y hx hxy
  · intro k h
    simp only [setNumber] at h ⊢
    by_cases hk : k = l
    · subst hk; simp
    · have : Owner.temp k ≠ .temp l := by simpa using hk
      rw [if_neg this] at h ⊢
      rw [if_neg (by simp)]
      exact inv.temp k h
  · intro h
    simp only [setNumber] at h ⊢
    rw [if_neg (by simp)] at h ⊢
    exact inv.ur h

/-- Element types of classes. -/
structure EInv (e : Env) (w : World) : Prop where
  gen : ElemType.GInv w.gen
  empty : w.elemType e.empty = 0 ∨ w.elemType e.empty = ElemType.emptyType
  mem : ∀ c, c ≠ e.empty → w.elemType c ≠ 0 → (w.elemType c, c) ∈ w.gen.byType

theorem einv_init (e : Env) : EInv e World.init where
  gen := ElemType.ginv_init
  empty := Or.inl rfl
  mem := fun c _ h => absurd rfl h

theorem einv_congr {e : Env} {w w' : World} (h : EInv e w) (h1 : w'.elemType = w.elemType) (h2 : w'.gen = w.gen) :
    EInv e w' := ⟨by rw [h2]; exact h.gen, by rw [h1]; exact h.empty, by rw [h1, h2]; exact h.mem⟩

theorem ninv_congr {e : Env} {w w' : World} (h : NInv e w) (h1 : w'.registry = w.registry) (h2 : w'.number = w.number) :
    NInv e w' := by
  obtain ⟨a, b, c, d, f, g, i, j⟩ := w
  obtain ⟨a', b', c', d'⟩ := w'
  simp only at h1 h2
  subst h1; subst h2
  exact ⟨h.pos, h.le, h.lt, h.zero, h.reg, h.uniq, h.temp, h.ur⟩

theorem getElementType_spec (e : Env) (w : World) (c t : Nat) (w' : World) (inv : EInv e w)
    (h : getElementType e w c = some (t, w')) :
    EInv e w' ∧ t = w'.elemType c ∧ t ≠ 0 ∧ w'.registry = w.registry ∧ w'.number = w.number ∧
      (∀ d, w.elemType d ≠ 0 → w'.elemType d = w.elemType d) := by
  unfold getElementType at h
  by_cases h0 : w.elemType c = 0
  · rw [if_pos h0] at h
    by_cases he : c = e.empty
    · subst he
      simp only [assignEmptyElementType, h0, ne_eq, not_true_eq_false, if_false, if_true,
        Option.some.injEq, Prod.mk.injEq] at h
      obtain ⟨rfl, rfl⟩ := h
      refine ⟨⟨inv.gen, by simp [setElem], ?_⟩, rfl, by simp [setElem, ElemType.emptyType], rfl, rfl, ?_⟩
      · intro d hd hd0
        simp only [setElem, hd, if_false] at hd0 ⊢
        exact inv.mem d hd hd0
      · intro d hd
        simp only [setElem]
        rw [if_neg]
        intro e'; subst e'; exact hd h0
    · rw [if_neg he] at h
      by_cases hn : w.gen.next < 65534
      · obtain ⟨u, g, hm, hg, hok, hnk, hk, hb, _⟩ := ElemType.makeNextType_ok w.gen c inv.gen hn
        rw [hm] at h
        have hu0 : ¬ u = 0 := by have := hok.1; omega
        have hu1 : ¬ (u ≥ ElemType.emptyType) := by
          have := hok.2; unfold ElemType.emptyType; omega
        simp only [assignElementType, h0, hu0, hu1, ne_eq, not_true_eq_false, if_false,
          Option.some.injEq, Prod.mk.injEq] at h
        obtain ⟨rfl, rfl⟩ := h
        refine ⟨⟨hg, ?_, ?_⟩, rfl, by simpa [setElem] using hu0, rfl, rfl, ?_⟩
        · simp only [setElem]
          rw [if_neg (Ne.symm he)]
          exact inv.empty
        · intro d hd hd0
          simp only [setElem] at hd0 ⊢
          rw [hb]
          by_cases hdc : d = c
          · subst hdc; simp
          · simp only [hdc, if_false] at hd0 ⊢
            exact List.mem_cons_of_mem _ (inv.mem d hd hd0)
        · intro d hd
          simp only [setElem]
          rw [if_neg]
          intro e'; subst e'; exact hd h0
      · have hcnt := inv.gen.count
        have hle := (ElemType.usable_card w.gen.known inv.gen.inv.good inv.gen.inv.nodup).1
        rw [ElemType.makeNextType_exhausted w.gen c inv.gen (by omega)] at h
        simp at h
  · rw [if_neg h0] at h
    simp only [Option.some.injEq, Prod.mk.injEq] at h
    obtain ⟨rfl, rfl⟩ := h
    exact ⟨inv, rfl, h0, rfl, rfl, fun _ _ => rfl⟩

/-- No file's locals have the type of UrSelf. -/
def Op.ok (e : Env) : Op → Prop
  | .locals l _ => l ≠ e.urSelf
  | .temp l _ => l ≠ e.urSelf
  | _ => True

theorem step_spec (e : Env) (w w' : World) (o : Op) (ok : o.ok e) (ni : NInv e w) (ei : EInv e w)
    (h : step e w o = some w') :
    NInv e w' ∧ EInv e w' ∧ (∀ o, w.number o ≠ unassigned → w'.number o = w.number o) ∧
      (∀ d, w.elemType d ≠ 0 → w'.elemType d = w.elemType d) := by
  cases o with
  | number c r =>
    simp only [step] at h
    rcases getClassNumber_spec e w c r ni with ⟨n, w1, h1, hn, _, _, hp, he, hg⟩ | ⟨h1, _⟩
    · rw [h1] at h
      simp only [Option.map_some, Option.some.injEq] at h
      subst h
      exact ⟨hn, einv_congr ei he hg, hp, fun d _ => by rw [he]⟩
    · rw [h1] at h; simp at h
  | locals c r =>
    simp only [step] at h
    rcases getLocalsNumber_spec e w c r ni ok with ⟨n, w1, h1, hn, _, _, hp, he, hg⟩ | ⟨h1, _⟩
    · rw [h1] at h
      simp only [Option.map_some, Option.some.injEq] at h
      subst h
      exact ⟨hn, einv_congr ei he hg, hp, fun d _ => by rw [he]⟩
    · rw [h1] at h; simp at h
  | temp l r =>
    simp only [step, tempClass] at h
    rcases getLocalsNumber_spec e w l r ni ok with ⟨n, w1, h1, hn, hnn, _, hp, he, hg⟩ | ⟨h1, _⟩
    · rw [h1] at h
      simp only at h
      split at h
      · next hc =>
        simp only [Option.some.injEq] at h
        subst h
        unfold assignClassNumber at hc ⊢
        by_cases c1 : n = unassigned
        · simp only [c1, if_true] at hc ⊢
          exact ⟨hn, einv_congr ei he hg, hp, fun d _ => by rw [he]⟩
        · simp only [c1, if_false] at hc ⊢
          by_cases c2 : w1.number (.temp l) ≠ unassigned
          · rw [if_pos c2] at hc ⊢
            exact ⟨hn, einv_congr ei he hg, hp, fun d _ => by simp [he]⟩
          · rw [if_neg c2] at hc ⊢
            by_cases c3 : n ≥ maxRegistry
            · simp only [c3, if_true] at hc ⊢
              exact ⟨hn, einv_congr ei he hg, hp, fun d _ => by rw [he]⟩
            · simp only [c3, if_false] at hc ⊢
              have c2' : w1.number (.temp l) = unassigned := Classical.not_not.mp c2
              subst hnn
              refine ⟨ninv_temp e w1 l hn c2' c1, einv_congr ei he hg, ?_, fun d _ => by simp [setNumber, he]⟩
              intro o ho
              simp only [setNumber]
              rw [if_neg]
              · exact hp o ho
              · intro e'; subst e'
                rw [hp _ ho] at c2'; exact ho c2'
      · simp at h
    · rw [h1] at h; simp at h
  | elem c =>
    simp only [step] at h
    cases hx : getElementType e w c with
    | none => rw [hx] at h; simp at h
    | some p =>
      obtain ⟨t, w1⟩ := p
      rw [hx] at h
      simp only [Option.map_some, Option.some.injEq] at h
      subst h
      obtain ⟨a, _, _, b, d, f⟩ := getElementType_spec e w c t w1 ei hx
      exact ⟨ninv_congr ni b d, a, fun o _ => by rw [d], f⟩

theorem run_spec (e : Env) : ∀ (ops : List Op) (w w' : World), (∀ o ∈ ops, o.ok e) → NInv e w → EInv e w →
    run e w ops = some w' →
    NInv e w' ∧ EInv e w' ∧ (∀ o, w.number o ≠ unassigned → w'.number o = w.number o) ∧
      (∀ d, w.elemType d ≠ 0 → w'.elemType d = w.elemType d)
  | [], w, w', _, ni, ei, h => by
    simp only [run, Option.some.injEq] at h
    subst h
    exact ⟨ni, ei, fun _ _ => rfl, fun _ _ => rfl⟩
  | o :: os, w, w', ok, ni, ei, h => by
    simp only [run] at h
    cases hs : step e w o with
    | none => rw [hs] at h; simp at h
    | some w1 =>
      rw [hs] at h
      simp only [Option.bind_some] at h
      obtain ⟨a, b, c, d⟩ := step_spec e w w1 o (ok o (by simp)) ni ei hs
      obtain ⟨a', b', c', d'⟩ := run_spec e os w1 w' (fun o ho => ok o (by simp [ho])) a b h
      refine ⟨a', b', ?_, ?_⟩
      · intro x hx
        rw [c' x (by rw [c x hx]; exact hx), c x hx]
      · intro x hx
        rw [d' x (by rw [d x hx]; exact hx), d x hx]

theorem run_append (e : Env) : ∀ (a b : List Op) (w : World),
    run e w (a ++ b) = (run e w a).bind fun w' => run e w' b
  | [], b, w => rfl
  | o :: a, b, w => by
    simp only [List.cons_append, run]
    cases step e w o with
    | none => rfl
    | some w1 => simp only [Option.bind_some]; exact run_append e a b w1

end Ulam.Registry
