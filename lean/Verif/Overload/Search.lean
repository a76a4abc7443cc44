import Verif.Overload.Lemmas
/-! # Helper lemmas for overloads: the search over classes -/
namespace Ulam.Overload
open Spec
open Ulam.Walker (World State getNextBase getNextBase_some addAncestorPairsOf add_seen fuel_lt init isClassASubclassOf after after_seen
  sightings sightings_none sightings_some walk_induction Edge next_some after_bases mem_sightings sightings_facts edge_base)
open Ulam.Walker.Spec (SelfOrAncestor Ok)
variable {n : Nat}

theorem seen_induction (w : World n) (P : State n → Prop)
    (h : ∀ s, (∀ r t s', getNextBase w s = some (r, t) → s'.seen = t.seen → P s') → P s) (s : State n) : P s := by
  generalize hk : n - s.seen.card = k
  induction k using Nat.strongRecOn generalizing s with
  | ind k ih =>
    refine h s fun r t s' hg he => ?_
    have := getNextBase_some hg
    refine ih _ ?_ s' rfl
    rw [he, ← hk]
    exact fuel_lt this.1 this.2

theorem exactLoop_none {P : Program n} {args : List Arg} {a : Result n} {s : State n} (h : getNextBase P.w s = none) :
    exactLoop P args a s = a := by
  rw [exactLoop.eq_def]
  split
  · rfl
  · rename_i h2; rw [h] at h2; cases h2

theorem exactLoop_some {P : Program n} {args : List Arg} {a : Result n} {s t : State n} {r : Fin n} (h : getNextBase P.w s = some (r, t)) :
    exactLoop P args a s = if P.w.defined r then
      if (findInClassScope P.T (P.funcs r) args).count = 1 ∧ t.bases = [] then exactAt P args r a
      else exactLoop P args (exactAt P args r a) (addAncestorPairsOf P.w false r P.w.nouti t)
    else exactLoop P args { a with hazy := a.hazy || decide (r = P.hzy) } t := by
  rw [exactLoop.eq_def]
  split
  · rename_i h2; rw [h] at h2; cases h2
  · rename_i h2; rw [h] at h2; cases h2; rfl

theorem safeLoop_none {P : Program n} {args : List Arg} {a : Result n} {s : State n} (h : getNextBase P.w s = none) :
    safeLoop P args a s = a := by
  rw [safeLoop.eq_def]
  split
  · rfl
  · rename_i h2; rw [h] at h2; cases h2

theorem safeLoop_some {P : Program n} {args : List Arg} {a : Result n} {s t : State n} {r : Fin n} (h : getNextBase P.w s = some (r, t)) :
    safeLoop P args a s = if P.w.defined r then
      if stopAt P r (findMatchingFunctionWithSafeCasts P.T (P.funcs r) args) a t then
        safeAt P r (findMatchingFunctionWithSafeCasts P.T (P.funcs r) args) a
      else if (findMatchingFunctionWithSafeCasts P.T (P.funcs r) args).count = 1 then
        safeLoop P args (safeAt P r (findMatchingFunctionWithSafeCasts P.T (P.funcs r) args) a) t
      else safeLoop P args (safeAt P r (findMatchingFunctionWithSafeCasts P.T (P.funcs r) args) a)
        (addAncestorPairsOf P.w false r P.w.nouti t)
    else safeLoop P args { a with hazy := a.hazy || decide (r = P.hzy) } t := by
  rw [safeLoop.eq_def]
  split
  · rename_i h2; rw [h] at h2; cases h2
  · rename_i h2; rw [h] at h2; cases h2; rfl

theorem safeAt_hazy (P : Program n) (r : Fin n) (m : Found) (a : Result n) : (safeAt P r m a).hazy = (a.hazy || m.hazy) := by
  unfold safeAt
  split_ifs <;> rfl

theorem safeLoop_mono (P : Program n) (args : List Arg) (s : State n) : ∀ a, (safeLoop P args a s).hazy = false → a.hazy = false := by
  refine seen_induction P.w (fun s => ∀ a, (safeLoop P args a s).hazy = false → a.hazy = false) ?_ s
  intro s ih a h
  cases hg : getNextBase P.w s with
  | none => rw [safeLoop_none hg] at h; exact h
  | some x =>
    obtain ⟨r, t⟩ := x
    rw [safeLoop_some hg] at h
    have key : ∀ m : Found, (safeAt P r m a).hazy = false → a.hazy = false := by
      intro m q
      rw [safeAt_hazy, Bool.or_eq_false_iff] at q
      exact q.1
    split at h
    · split at h
      · exact key _ h
      · split at h
        · exact key _ (ih r t t hg rfl _ h)
        · exact key _ (ih r t _ hg (add_seen ..) _ h)
    · have := ih r t t hg rfl _ h
      simp only [Bool.or_eq_false_iff] at this
      exact this.1

/-- The same program with the overloads of each class stored in another order. -/
def Reordered (P P' : Program n) : Prop :=
  P'.w = P.w ∧ P'.hzy = P.hzy ∧ P'.T = P.T ∧ ∀ c, (P.funcs c).Perm (P'.funcs c)

theorem exactLoop_reorder {P P' : Program n} (R : Reordered P P') (args : List Arg) (s : State n) :
    ∀ a, exactLoop P' args a s = exactLoop P args a s := by
  obtain ⟨w, hzy, T, fs⟩ := P
  obtain ⟨w', hzy', T', fs'⟩ := P'
  obtain ⟨e1, e2, e3, hp⟩ := R
  dsimp only at e1 e2 e3 hp
  subst e1; subst e2; subst e3
  refine seen_induction w' (fun s => ∀ a, exactLoop ⟨w', hzy', T', fs'⟩ args a s = exactLoop ⟨w', hzy', T', fs⟩ args a s) ?_ s
  intro s ih a
  cases hg : getNextBase w' s with
  | none => rw [exactLoop_none hg, exactLoop_none hg]
  | some x =>
    obtain ⟨r, t⟩ := x
    rw [exactLoop_some (P := ⟨w', hzy', T', fs'⟩) (a := a) (s := s) hg, exactLoop_some (P := ⟨w', hzy', T', fs⟩) (a := a) (s := s) hg]
    dsimp only
    obtain ⟨p1, p2, p3⟩ := inClass_perm T' args (hp r)
    have hat : exactAt ⟨w', hzy', T', fs'⟩ args r a = exactAt ⟨w', hzy', T', fs⟩ args r a := by
      unfold exactAt
      dsimp only
      rw [p1, p2]
      by_cases h : (findInClassScope T' (fs r) args).count = 1
      · rw [p3 h]
      · simp only [if_neg h]
    rw [p1, hat, ih r t _ hg (add_seen ..), ih r t _ hg rfl]

theorem safeLoop_reorder {P P' : Program n} (R : Reordered P P') (args : List Arg) (s : State n) :
    ∀ a, (safeLoop P args a s).hazy = false → safeLoop P' args a s = safeLoop P args a s := by
  obtain ⟨w, hzy, T, fs⟩ := P
  obtain ⟨w', hzy', T', fs'⟩ := P'
  obtain ⟨e1, e2, e3, hp⟩ := R
  dsimp only at e1 e2 e3 hp
  subst e1; subst e2; subst e3
  refine seen_induction w' (fun s => ∀ a, (safeLoop ⟨w', hzy', T', fs⟩ args a s).hazy = false →
    safeLoop ⟨w', hzy', T', fs'⟩ args a s = safeLoop ⟨w', hzy', T', fs⟩ args a s) ?_ s
  intro s ih a hz
  cases hg : getNextBase w' s with
  | none => rw [safeLoop_none hg, safeLoop_none hg]
  | some x =>
    obtain ⟨r, t⟩ := x
    rw [safeLoop_some hg] at hz
    rw [safeLoop_some (P := ⟨w', hzy', T', fs'⟩) (a := a) (s := s) hg, safeLoop_some (P := ⟨w', hzy', T', fs⟩) (a := a) (s := s) hg]
    dsimp only at hz ⊢
    have key : ∀ z, (safeAt ⟨w', hzy', T', fs⟩ r (findMatchingFunctionWithSafeCasts T' (fs r) args) z).hazy = false →
        findMatchingFunctionWithSafeCasts T' (fs' r) args = findMatchingFunctionWithSafeCasts T' (fs r) args := by
      intro z q
      rw [safeAt_hazy, Bool.or_eq_false_iff] at q
      exact safe_perm T' args (hp r) q.2
    cases hd : w'.defined r
    · rw [hd] at hz
      simp only [Bool.false_eq_true, if_false] at hz ⊢
      exact ih r t t hg rfl _ hz
    · rw [hd] at hz
      simp only [if_true] at hz ⊢
      have hm : findMatchingFunctionWithSafeCasts T' (fs' r) args = findMatchingFunctionWithSafeCasts T' (fs r) args := by
        split at hz
        · exact key _ hz
        · split at hz
          · exact key _ (safeLoop_mono _ _ _ _ hz)
          · exact key _ (safeLoop_mono _ _ _ _ hz)
      rw [hm]
      have e1 : ∀ m, stopAt ⟨w', hzy', T', fs'⟩ r m a t = stopAt ⟨w', hzy', T', fs⟩ r m a t := fun m => rfl
      have e2 : ∀ m, safeAt ⟨w', hzy', T', fs'⟩ r m a = safeAt ⟨w', hzy', T', fs⟩ r m a := fun m => rfl
      rw [e1, e2]
      split
      · rfl
      · rename_i hs
        rw [if_neg hs] at hz
        split
        · rename_i hc
          rw [if_pos hc] at hz
          exact ih r t t hg rfl _ hz
        · rename_i hc
          rw [if_neg hc] at hz
          exact ih r t _ hg (add_seen ..) _ hz

/-! ### Soundness -/

/-- Everything on the walker's list is reached from the class the search is for. -/
def Reached (w : World n) (c : Fin n) (s : State n) : Prop :=
  ∀ b ∈ s.bases, Relation.ReflTransGen (Edge w) (w.root c) (w.root b.1)

theorem reached_init (w : World n) (c : Fin n) : Reached w c (init w c) := by
  intro b hb
  simp only [init, List.mem_singleton] at hb
  subst hb; exact .refl

theorem reached_next {w : World n} {c : Fin n} {s t : State n} {r : Fin n} (h : Reached w c s) (hg : getNextBase w s = some (r, t)) :
    Relation.ReflTransGen (Edge w) (w.root c) r ∧ Reached w c t := by
  obtain ⟨⟨b, h1, h2⟩, h3, _⟩ := next_some hg
  exact ⟨h2 ▸ h b h1, fun b hb => h b (h3 b hb)⟩

theorem reached_add {w : World n} {c : Fin n} {t : State n} {r : Fin n} (h : Reached w c t)
    (hr : Relation.ReflTransGen (Edge w) (w.root c) r) (hd : w.defined r = true) :
    Reached w c (addAncestorPairsOf w false r w.nouti t) := by
  intro b hb
  have : b ∈ (after w false r t).bases := by unfold after; rw [if_pos hd]; exact hb
  rcases after_bases w false r t b this with q | q
  · exact h b q
  · exact hr.tail q

/-- What a finished or unfinished search may say. -/
def Sound (P : Program n) (args : List Arg) (c : Fin n) (a : Result n) : Prop :=
  (∀ x, a.found = .at x → a.count ≥ 1 ∧ ∃ f, a.func = some f ∧ Visible P c x f ∧ Applicable P.T f args) ∧
  (a.found = .nowhere → a.count ≠ 1) ∧ (a.found = .ambiguous → a.count ≥ 2)

theorem getLast_mem {l : List Func} {f : Func} (h : l.getLast? = some f) : f ∈ l := List.mem_of_getLast? h

theorem pick_one {A S : List Func} (hS : ∀ f ∈ S, f ∈ A) (h : (pick A S).1 = 1) : ∃ f ∈ A, (pick A S).2 = some f := by
  unfold pick at h ⊢
  split at h
  · rename_i hA
    rw [if_pos hA]
    split at h
    · omega
    · rename_i hn
      rw [if_neg hn]
      obtain ⟨f, hf⟩ := List.length_eq_one_iff.1 h
      exact ⟨f, hS f (by rw [hf]; simp), by rw [hf]; rfl⟩
  · rename_i hA
    rw [if_neg hA]
    obtain ⟨f, hf⟩ := List.length_eq_one_iff.1 h
    exact ⟨f, by rw [hf]; simp, by rw [hf]; rfl⟩

theorem safe_one {T : TypeInfo} {args : List Arg} {fs : List Func} (hz : (findMatchingFunctionWithSafeCasts T fs args).hazy = false)
    (h : (findMatchingFunctionWithSafeCasts T fs args).count = 1) :
    ∃ f ∈ fs, (findMatchingFunctionWithSafeCasts T fs args).func = some f ∧ Applicable T f args := by
  rw [safe_any] at hz
  rw [safe_eq T args fs hz] at h ⊢
  obtain ⟨f, h1, h2⟩ := pick_one (fun f hf => (List.mem_filter.1 hf).1) h
  obtain ⟨h3, h4⟩ := List.mem_filter.1 h1
  refine ⟨f, h3, h2, (app_iff ?_).1 h4⟩
  rw [List.any_eq_false] at hz
  simpa using hz f h3

theorem sound_safeAt {P : Program n} {args : List Arg} {c r : Fin n} {a : Result n} (S : Sound P args c a)
    (hr : Relation.ReflTransGen (Edge P.w) (P.w.root c) r) (ok : Ok P.w) (hd : P.w.defined r = true)
    (hz : (findMatchingFunctionWithSafeCasts P.T (P.funcs r) args).hazy = false) :
    Sound P args c (safeAt P r (findMatchingFunctionWithSafeCasts P.T (P.funcs r) args) a) := by
  obtain ⟨s1, s2, s3⟩ := S
  generalize hm : findMatchingFunctionWithSafeCasts P.T (P.funcs r) args = m
  have one : m.count = 1 → ∃ f, m.func = some f ∧ Visible P c r f ∧ Applicable P.T f args := by
    intro h1
    rw [← hm] at h1 ⊢
    obtain ⟨f, k1, k2, k3⟩ := safe_one hz h1
    exact ⟨f, k2, ⟨hd, (edge_base ok _ _ hd).1 hr, k1⟩, k3⟩
  have new : m.count = 1 → ∀ h, Sound P args c ⟨m.count, m.func, .at r, h⟩ := by
    intro h1 h
    refine ⟨fun x hx => ?_, fun q => (nomatch q), fun q => (nomatch q)⟩
    cases hx
    exact ⟨by simp [h1], one h1⟩
  unfold safeAt
  dsimp only
  split
  · rename_i h1
    split
    · exact new h1 _
    · rename_i hn
      split
      · exact new h1 _
      · split
        · refine ⟨fun x hx => (nomatch hx), fun q => (nomatch q), fun _ => ?_⟩
          dsimp only
          rw [h1]
          cases hf : a.found with
          | nowhere => exact absurd hf hn
          | ambiguous => have := s3 hf; omega
          | «at» x => have := (s1 x hf).1; omega
        · exact ⟨s1, s2, s3⟩
  · rename_i h1
    refine ⟨fun x hx => ?_, fun q => ?_, fun q => ?_⟩
    · obtain ⟨k1, k2⟩ := s1 x hx
      exact ⟨Nat.le_trans k1 (Nat.le_add_right ..), k2⟩
    · have := s2 q; dsimp only; omega
    · have := s3 q; dsimp only; omega

theorem sound_safeLoop {P : Program n} (ok : Ok P.w) (args : List Arg) (c : Fin n) (s : State n) :
    ∀ a, Reached P.w c s → Sound P args c a → (safeLoop P args a s).hazy = false → Sound P args c (safeLoop P args a s) := by
  refine seen_induction P.w (fun s => ∀ a, Reached P.w c s → Sound P args c a → (safeLoop P args a s).hazy = false →
    Sound P args c (safeLoop P args a s)) ?_ s
  intro s ih a R S hz
  cases hg : getNextBase P.w s with
  | none => rw [safeLoop_none hg]; exact S
  | some x =>
    obtain ⟨r, t⟩ := x
    obtain ⟨hr, R'⟩ := reached_next R hg
    rw [safeLoop_some hg] at hz ⊢
    split
    · rename_i hd
      rw [if_pos hd] at hz
      have key : ∀ z, (safeAt P r (findMatchingFunctionWithSafeCasts P.T (P.funcs r) args) z).hazy = false →
          (findMatchingFunctionWithSafeCasts P.T (P.funcs r) args).hazy = false := by
        intro z q
        rw [safeAt_hazy, Bool.or_eq_false_iff] at q
        exact q.2
      split
      · rename_i h1
        rw [if_pos h1] at hz
        exact sound_safeAt S hr ok hd (key _ hz)
      · rename_i h1
        rw [if_neg h1] at hz
        split
        · rename_i h2
          rw [if_pos h2] at hz
          exact ih r t t hg rfl _ R' (sound_safeAt S hr ok hd (key _ (safeLoop_mono _ _ _ _ hz))) hz
        · rename_i h2
          rw [if_neg h2] at hz
          exact ih r t _ hg (add_seen ..) _ (reached_add R' hr hd) (sound_safeAt S hr ok hd (key _ (safeLoop_mono _ _ _ _ hz))) hz
    · rename_i hd
      rw [if_neg hd] at hz
      exact ih r t t hg rfl _ R' S hz

/-- What the search for an exact match may say. -/
def SoundE (P : Program n) (args : List Arg) (c : Fin n) (a : Result n) : Prop :=
  a.count = 1 → ∃ x f, a.found = .at x ∧ a.func = some f ∧ Visible P c x f ∧ Exact P.T f args

theorem inClass_one {T : TypeInfo} {args : List Arg} {fs : List Func} (h : (findInClassScope T fs args).count = 1) :
    ∃ f ∈ fs, (findInClassScope T fs args).func = some f ∧ Exact T f args := by
  rw [inClass_eq] at h ⊢
  dsimp only at h ⊢
  split at h
  · cases h
  · obtain ⟨f, hf⟩ := List.length_eq_one_iff.1 h
    have hm : f ∈ fs.filter (strict T args) := by rw [hf]; simp
    obtain ⟨h1, h2⟩ := List.mem_filter.1 hm
    exact ⟨f, h1, by rw [hf]; rfl, (strict_spec T f args).1 h2⟩

theorem sound_exactAt {P : Program n} {args : List Arg} {c r : Fin n} {a : Result n} (S : SoundE P args c a)
    (hr : Relation.ReflTransGen (Edge P.w) (P.w.root c) r) (ok : Ok P.w) (hd : P.w.defined r = true) :
    SoundE P args c (exactAt P args r a) := by
  intro h
  unfold exactAt at h ⊢
  dsimp only at h ⊢
  by_cases h1 : (findInClassScope P.T (P.funcs r) args).count = 1
  · rw [if_pos h1, if_pos h1]
    obtain ⟨f, k1, k2, k3⟩ := inClass_one h1
    exact ⟨r, f, rfl, k2, ⟨hd, (edge_base ok _ _ hd).1 hr, k1⟩, k3⟩
  · rw [if_neg h1, if_neg h1]
    exact S (by omega)

theorem sound_exactLoop {P : Program n} (ok : Ok P.w) (args : List Arg) (c : Fin n) (s : State n) :
    ∀ a, Reached P.w c s → SoundE P args c a → SoundE P args c (exactLoop P args a s) := by
  refine seen_induction P.w (fun s => ∀ a, Reached P.w c s → SoundE P args c a → SoundE P args c (exactLoop P args a s)) ?_ s
  intro s ih a R S
  cases hg : getNextBase P.w s with
  | none => rw [exactLoop_none hg]; exact S
  | some x =>
    obtain ⟨r, t⟩ := x
    obtain ⟨hr, R'⟩ := reached_next R hg
    rw [exactLoop_some hg]
    split
    · rename_i hd
      split
      · exact sound_exactAt S hr ok hd
      · exact ih r t _ hg (add_seen ..) _ (reached_add R' hr hd) (sound_exactAt S hr ok hd)
    · exact ih r t t hg rfl _ R' S

/-! ### One class that matters -/

theorem exact_quiet {P : Program n} (args : List Arg) (s : State n) :
    ∀ a, (∀ y ∈ sightings P.w false s, P.w.defined y = true → (findInClassScope P.T (P.funcs y) args).count = 0) →
      ∃ h, exactLoop P args a s = { a with hazy := h } := by
  refine walk_induction P.w false (fun s => ∀ a, (∀ y ∈ sightings P.w false s, P.w.defined y = true →
    (findInClassScope P.T (P.funcs y) args).count = 0) → ∃ h, exactLoop P args a s = { a with hazy := h }) ?_ ?_ s
  · intro s hg a _
    exact ⟨a.hazy, by rw [exactLoop_none hg]⟩
  · intro s r t hg ih a hq
    rw [sightings_some hg] at hq
    have hq' : ∀ y ∈ sightings P.w false (after P.w false r t), P.w.defined y = true →
        (findInClassScope P.T (P.funcs y) args).count = 0 := fun y hy => hq y (List.mem_cons_of_mem _ hy)
    rw [exactLoop_some hg]
    unfold after at ih hq'
    split
    · rename_i hd
      rw [if_pos hd] at ih hq'
      have h0 := hq r (by simp) hd
      rw [if_neg (by rw [h0]; simp)]
      obtain ⟨h, e⟩ := ih (exactAt P args r a) hq'
      refine ⟨h, ?_⟩
      rw [e]
      unfold exactAt
      dsimp only
      rw [h0]; try simp
    · rename_i hd
      rw [if_neg hd] at ih hq'
      obtain ⟨h, e⟩ := ih { a with hazy := a.hazy || decide (r = P.hzy) } hq'
      exact ⟨h, by rw [e]⟩

theorem exact_single {P : Program n} (args : List Arg) (x : Fin n) (hx : P.w.defined x = true)
    (h1 : (findInClassScope P.T (P.funcs x) args).count = 1) (s : State n) :
    ∀ a, x ∈ sightings P.w false s →
      (∀ y ∈ sightings P.w false s, P.w.defined y = true → y ≠ x → (findInClassScope P.T (P.funcs y) args).count = 0) →
      ∃ h, exactLoop P args a s = ⟨a.count + 1, (findInClassScope P.T (P.funcs x) args).func, .at x, h⟩ := by
  refine walk_induction P.w false (fun s => ∀ a, x ∈ sightings P.w false s →
    (∀ y ∈ sightings P.w false s, P.w.defined y = true → y ≠ x → (findInClassScope P.T (P.funcs y) args).count = 0) →
      ∃ h, exactLoop P args a s = ⟨a.count + 1, (findInClassScope P.T (P.funcs x) args).func, .at x, h⟩) ?_ ?_ s
  · intro s hg a hm
    rw [sightings_none hg] at hm; cases hm
  · intro s r t hg ih a hm hq
    have hnd := (sightings_facts P.w false s).1
    rw [sightings_some hg] at hq hm hnd
    have hq' : ∀ y ∈ sightings P.w false (after P.w false r t), P.w.defined y = true → y ≠ x →
        (findInClassScope P.T (P.funcs y) args).count = 0 := fun y hy => hq y (List.mem_cons_of_mem _ hy)
    rw [exactLoop_some hg]
    rcases List.mem_cons.1 hm with e | hm
    · subst e
      rw [if_pos hx]
      have hat : ∃ h, exactAt P args x a = ⟨a.count + 1, (findInClassScope P.T (P.funcs x) args).func, .at x, h⟩ := by
        unfold exactAt
        dsimp only
        rw [if_pos h1, if_pos h1, h1]
        exact ⟨_, rfl⟩
      obtain ⟨h, hat⟩ := hat
      split
      · exact ⟨h, hat⟩
      · unfold after at hq' hnd
        rw [if_pos hx] at hq' hnd
        obtain ⟨h', e⟩ := exact_quiet args (addAncestorPairsOf P.w false x P.w.nouti t) (exactAt P args x a)
          fun y hy hd => hq' y hy hd fun q => (List.nodup_cons.1 hnd).1 (q ▸ hy)
        exact ⟨h', by rw [e, hat]⟩
    · have hne : r ≠ x := fun q => (List.nodup_cons.1 hnd).1 (q ▸ hm)
      unfold after at ih hq' hm
      split
      · rename_i hd
        rw [if_pos hd] at ih hq' hm
        have h0 := hq r (by simp) hd hne
        rw [if_neg (by rw [h0]; simp)]
        obtain ⟨h, e⟩ := ih (exactAt P args r a) hm hq'
        refine ⟨h, ?_⟩
        rw [e]
        unfold exactAt
        dsimp only
        rw [h0]; try simp
      · rename_i hd
        rw [if_neg hd] at ih hq' hm
        obtain ⟨h, e⟩ := ih { a with hazy := a.hazy || decide (r = P.hzy) } hm hq'
        exact ⟨h, by rw [e]⟩

theorem safe_quiet {P : Program n} (args : List Arg) (s : State n) :
    ∀ a, (∀ y ∈ sightings P.w false s, P.w.defined y = true → (findMatchingFunctionWithSafeCasts P.T (P.funcs y) args).count = 0) →
      ∃ h, safeLoop P args a s = { a with hazy := h } := by
  refine walk_induction P.w false (fun s => ∀ a, (∀ y ∈ sightings P.w false s, P.w.defined y = true →
    (findMatchingFunctionWithSafeCasts P.T (P.funcs y) args).count = 0) → ∃ h, safeLoop P args a s = { a with hazy := h }) ?_ ?_ s
  · intro s hg a _
    exact ⟨a.hazy, by rw [safeLoop_none hg]⟩
  · intro s r t hg ih a hq
    rw [sightings_some hg] at hq
    have hq' : ∀ y ∈ sightings P.w false (after P.w false r t), P.w.defined y = true →
        (findMatchingFunctionWithSafeCasts P.T (P.funcs y) args).count = 0 := fun y hy => hq y (List.mem_cons_of_mem _ hy)
    rw [safeLoop_some hg]
    unfold after at ih hq'
    split
    · rename_i hd
      rw [if_pos hd] at ih hq'
      have h0 := hq r (by simp) hd
      rw [if_neg (by unfold stopAt; rw [h0]; simp), if_neg (by rw [h0]; simp)]
      obtain ⟨h, e⟩ := ih (safeAt P r (findMatchingFunctionWithSafeCasts P.T (P.funcs r) args) a) hq'
      refine ⟨h, ?_⟩
      rw [e]
      unfold safeAt
      dsimp only
      rw [h0]; try simp
    · rename_i hd
      rw [if_neg hd] at ih hq'
      obtain ⟨h, e⟩ := ih { a with hazy := a.hazy || decide (r = P.hzy) } hq'
      exact ⟨h, by rw [e]⟩

theorem safe_single {P : Program n} (args : List Arg) (c x : Fin n) (hx : P.w.defined x = true)
    (h1 : (findMatchingFunctionWithSafeCasts P.T (P.funcs x) args).count = 1)
    (hq : ∀ y, Relation.ReflTransGen (Edge P.w) (P.w.root c) y → P.w.defined y = true → y ≠ x →
      (findMatchingFunctionWithSafeCasts P.T (P.funcs y) args).count = 0) (s : State n) :
    ∀ a, Reached P.w c s → a.found = .nowhere → x ∈ sightings P.w false s →
      ∃ h, safeLoop P args a s = ⟨1, (findMatchingFunctionWithSafeCasts P.T (P.funcs x) args).func, .at x, h⟩ := by
  refine walk_induction P.w false (fun s => ∀ a, Reached P.w c s → a.found = .nowhere → x ∈ sightings P.w false s →
      ∃ h, safeLoop P args a s = ⟨1, (findMatchingFunctionWithSafeCasts P.T (P.funcs x) args).func, .at x, h⟩) ?_ ?_ s
  · intro s hg a _ _ hm
    rw [sightings_none hg] at hm; cases hm
  · intro s r t hg ih a R hf hm
    have hnd := (sightings_facts P.w false s).1
    obtain ⟨hr, R'⟩ := reached_next R hg
    rw [sightings_some hg] at hm hnd
    rw [safeLoop_some hg]
    rcases List.mem_cons.1 hm with e | hm
    · subst e
      rw [if_pos hx]
      have hat : ∃ h, safeAt P x (findMatchingFunctionWithSafeCasts P.T (P.funcs x) args) a =
          ⟨1, (findMatchingFunctionWithSafeCasts P.T (P.funcs x) args).func, .at x, h⟩ := by
        unfold safeAt
        dsimp only
        rw [if_pos h1, if_pos hf, h1]
        exact ⟨_, rfl⟩
      obtain ⟨h, hat⟩ := hat
      split
      · exact ⟨h, hat⟩
      · have hquiet : ∀ y ∈ sightings P.w false t, P.w.defined y = true →
            (findMatchingFunctionWithSafeCasts P.T (P.funcs y) args).count = 0 := by
          intro y hy hd
          obtain ⟨k1, b, k2, k3⟩ := (sightings_facts P.w false t).2.1 y hy
          refine hq y ((R' b k2).trans k3) hd fun q => k1 ?_
          rw [(getNextBase_some hg).2, q]
          exact Finset.mem_insert_self _ _
        obtain ⟨h', e⟩ := safe_quiet args t (safeAt P x (findMatchingFunctionWithSafeCasts P.T (P.funcs x) args) a) hquiet
        exact ⟨h', by rw [e, hat]⟩
    · have hne : r ≠ x := fun q => (List.nodup_cons.1 hnd).1 (q ▸ hm)
      unfold after at ih hm
      split
      · rename_i hd
        rw [if_pos hd] at ih hm
        have h0 := hq r hr hd hne
        rw [if_neg (by unfold stopAt; rw [h0]; simp), if_neg (by rw [h0]; simp)]
        refine ih _ (reached_add R' hr hd) ?_ hm
        unfold safeAt
        dsimp only
        rw [h0]
        exact hf
      · rename_i hd
        rw [if_neg hd] at ih hm
        exact ih _ R' hf hm

end Ulam.Overload
