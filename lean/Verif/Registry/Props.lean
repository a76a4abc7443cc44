import Verif.Registry.Lemmas
/-
C37: registration numbers of classes are unique, bounded and given once;
C35 at the level of classes: so are element type numbers.
-/
namespace Ulam.Registry

/-- C37. After any history of calls from the start, no two classes share a registration number: the
only owners with the same number are a file's locals and the temporary class standing for them. -/
theorem C37_numbers_unique (e : Env) (ops : List Op) (w : World) (ok : ∀ o ∈ ops, o.ok e)
    (h : run e World.init ops = some w) :
    (∀ c d, w.number (.cls c) ≠ unassigned → w.number (.cls c) = w.number (.cls d) → c = d) ∧
    (∀ c l, w.number (.cls c) ≠ unassigned → w.number (.cls c) ≠ w.number (.locals l)) ∧
    (∀ l m, w.number (.locals l) ≠ unassigned → w.number (.locals l) = w.number (.locals m) → l = m) ∧
    (∀ l, w.number (.temp l) ≠ unassigned → w.number (.temp l) = w.number (.locals l)) := by
  have inv := (run_spec e ops _ w ok (ninv_init e) (einv_init e) h).1
  refine ⟨?_, ?_, ?_, fun l hl => (inv.temp l hl).symm⟩
  · intro c d hc hcd
    simpa [Owner.holder] using inv.uniq _ _ hc hcd
  · intro c l hc hcl
    simpa [Owner.holder] using inv.uniq _ _ hc hcl
  · intro l m hl hlm
    simpa [Owner.holder] using inv.uniq _ _ hl hlm

/-- C37. All numbers given are below the maximum (1000) and are the index of their owner's type in
the registry; number 0 is UrSelf's, and UrSelf's is 0. -/
theorem C37_numbers_bounded (e : Env) (ops : List Op) (w : World) (ok : ∀ o ∈ ops, o.ok e)
    (h : run e World.init ops = some w) :
    (∀ o, w.number o ≠ unassigned → w.number o < 1000) ∧
    (∀ c, w.number (.cls c) ≠ unassigned → w.registry[w.number (.cls c)]? = some c) ∧
    (∀ l, w.number (.locals l) ≠ unassigned → w.registry[w.number (.locals l)]? = some l) ∧
    (∀ o, w.number o = 0 → o = .cls e.urSelf) ∧
    (w.number (.cls e.urSelf) = 0 ∨ w.number (.cls e.urSelf) = unassigned) := by
  have inv := (run_spec e ops _ w ok (ninv_init e) (einv_init e) h).1
  refine ⟨?_, fun c hc => inv.reg _ hc, fun c hc => inv.reg _ hc, inv.zero, ?_⟩
  · intro o ho
    have := inv.lt o ho
    have := inv.le
    unfold maxRegistry at this
    omega
  · by_cases hu : w.number (.cls e.urSelf) = unassigned
    · exact Or.inr hu
    · exact Or.inl (inv.ur hu)

/-- C37. A second assignment to a class is refused and changes nothing, and so is a number that is
too large or the "unassigned" mark; an accepted one is what is read back. -/
theorem C37_second_refused (w : World) (o : Owner) (n : Nat) :
    ((assignClassNumber w o n).1 = true ↔
      w.number o = unassigned ∧ n ≠ unassigned ∧ n < 1000) ∧
    ((assignClassNumber w o n).1 = false → (assignClassNumber w o n).2 = w) ∧
    ((assignClassNumber w o n).1 = true → (assignClassNumber w o n).2.number o = n ∧
      (∀ o', o' ≠ o → (assignClassNumber w o n).2.number o' = w.number o') ∧
      ∀ m, (assignClassNumber (assignClassNumber w o n).2 o m).1 = false) := by
  unfold assignClassNumber maxRegistry
  by_cases h1 : n = unassigned
  · simp [h1]
  by_cases h2 : w.number o = unassigned
  · by_cases h3 : n ≥ 1000
    · simp [h1, h2, h3, Nat.not_lt.mpr h3]
    · simp only [h1, h2, h3, if_false, ne_eq, not_true_eq_false, not_false_eq_true, true_and, true_iff,
        Bool.true_eq_false, false_implies, true_implies]
      refine ⟨by omega, by simp [setNumber], ?_, ?_⟩
      · intro o' ho'; simp [setNumber, ho']
      · intro m
        by_cases hm : m = unassigned
        · simp [hm]
        · simp [setNumber, h1, hm]
  · simp [h1, h2]

/-- C37. Numbers never change once given: whatever calls follow, each owner keeps its number. -/
theorem C37_numbers_stable (e : Env) (ops more : List Op) (w w' : World) (ok : ∀ o ∈ ops ++ more, o.ok e)
    (h : run e World.init ops = some w) (h' : run e w more = some w') (o : Owner)
    (ho : w.number o ≠ unassigned) : w'.number o = w.number o := by
  have s := run_spec e ops _ w (fun o ho => ok o (by simp [ho])) (ninv_init e) (einv_init e) h
  exact (run_spec e more w w' (fun o ho => ok o (by simp [ho])) s.1 s.2.1 h').2.2.1 o ho

/-- C37. Asking a complete class for its number always gives one, except when the class is new (and
not UrSelf) and the registry is full, which is the case the compiler asserts against. -/
theorem C37_number_given (e : Env) (ops : List Op) (w : World) (ok : ∀ o ∈ ops, o.ok e)
    (h : run e World.init ops = some w) (c : Nat) :
    (∃ n w', getClassNumber e w c true = some (n, w') ∧ n < 1000 ∧ w'.number (.cls c) = n) ∨
    (getClassNumber e w c true = none ∧ w.registry.length = 1000 ∧ c ≠ e.urSelf ∧
      w.number (.cls c) = unassigned) := by
  have inv := (run_spec e ops _ w ok (ninv_init e) (einv_init e) h).1
  rcases getClassNumber_spec e w c true inv with ⟨n, w', h1, h2, h3, h4, _⟩ | ⟨h1, h2, _, h4, h5⟩
  · refine Or.inl ⟨n, w', h1, ?_, h3.symm⟩
    have hu := h4 rfl
    rw [h3] at hu ⊢
    have := h2.lt _ hu
    have := h2.le
    unfold maxRegistry at this
    omega
  · exact Or.inr ⟨h1, h5, h4, h2⟩

/-- C35 for classes. After any history of calls no two classes share an element type; a class's type
is never 0 once asked for, is 0xFFFF exactly for Empty, leads back to the class, and never changes. -/
theorem C35_class_types (e : Env) (ops : List Op) (w : World) (ok : ∀ o ∈ ops, o.ok e)
    (h : run e World.init ops = some w) :
    (∀ c d, w.elemType c ≠ 0 → w.elemType c = w.elemType d → c = d) ∧
    (∀ c, w.elemType c = 0xFFFF → c = e.empty) ∧
    (∀ c, w.elemType c ≠ 0 → w.elemType c < 65536 ∧ lookupClassByElementType e w (w.elemType c) = some c) ∧
    (∀ c t w', getElementType e w c = some (t, w') → t ≠ 0 ∧ w'.elemType c = t ∧
      ∀ d, w.elemType d ≠ 0 → w'.elemType d = w.elemType d) := by
  have inv := (run_spec e ops _ w ok (ninv_init e) (einv_init e) h).2.1
  have hnd : (w.gen.byType.map (·.1)).Nodup := by rw [inv.gen.keys]; exact inv.gen.inv.nodup
  have hgood : ∀ c, c ≠ e.empty → w.elemType c ≠ 0 → ElemType.okType (w.elemType c) := by
    intro c hc h0
    refine inv.gen.inv.good _ ?_
    rw [← inv.gen.keys]
    exact List.mem_map.mpr ⟨_, inv.mem c hc h0, rfl⟩
  have hfind : ∀ c, c ≠ e.empty → w.elemType c ≠ 0 → w.gen.byType.lookup (w.elemType c) = some c :=
    fun c hc h0 => ElemType.lookup_of_mem hnd (inv.mem c hc h0)
  have hemp : ∀ c, w.elemType c = 0xFFFF → c = e.empty := by
    intro c hc
    by_contra hne
    have := hgood c hne (by rw [hc]; decide)
    rw [hc] at this
    exact absurd this.2 (by decide)
  have hE : w.elemType e.empty ≠ 0 → w.elemType e.empty = 0xFFFF := by
    intro h0
    rcases inv.empty with h | h
    · exact absurd h h0
    · exact h
  refine ⟨?_, hemp, ?_, ?_⟩
  · intro c d hc hcd
    by_cases h1 : c = e.empty
    · subst h1
      rw [hE hc] at hcd
      exact (hemp d hcd.symm).symm
    · by_cases h2 : d = e.empty
      · subst h2
        rw [hE (by rw [← hcd]; exact hc)] at hcd
        exact hemp c hcd
      · have a := hfind c h1 hc
        have b := hfind d h2 (by rw [← hcd]; exact hc)
        rw [hcd, b] at a
        injection a with a
        exact a.symm
  · intro c hc
    unfold lookupClassByElementType ElemType.findElementTypeClass
    by_cases h1 : c = e.empty
    · subst h1
      rw [hE hc]
      simp [ElemType.emptyType]
    · have g := hgood c h1 hc
      have : w.elemType c ≠ ElemType.emptyType := by
        have := g.2; unfold ElemType.emptyType; omega
      refine ⟨by have := g.2; omega, ?_⟩
      rw [if_neg this, if_pos hc, hfind c h1 hc]
      rfl
  · intro c t w' hg
    obtain ⟨_, a, b, _, _, d⟩ := getElementType_spec e w c t w' inv hg
    exact ⟨b, a.symm, d⟩

/-- A history with two classes, UrSelf, a file's locals with its temporary class, and the element
Empty: all numbers differ as claimed. -/
example : ∃ w, run ⟨7, 9⟩ World.init
    [.number 40 true, .number 41 false, .number 7 true, .locals 50 true, .temp 50 true, .number 41 true,
     .elem 40, .elem 9, .elem 41, .number 40 true] = some w ∧
    [w.number (.cls 40), w.number (.cls 7), w.number (.locals 50), w.number (.temp 50), w.number (.cls 41)]
      = [1, 0, 2, 2, 3] ∧ [w.elemType 40, w.elemType 9, w.elemType 41] = [0xFF, 0xFFFF, 0xFF00] :=
  ⟨_, rfl, by decide, by decide⟩

example : ∀ o ∈ [Op.number 40 true, .locals 50 true, .temp 50 true], o.ok ⟨7, 9⟩ := by
  simp [Op.ok]

end Ulam.Registry
