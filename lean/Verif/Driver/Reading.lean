import Verif.Driver.Files
/-
Reading the files, continued: the lists of files and the loop over the classes not seen.
-/
namespace Ulam.Driver
open Ulam.Util

/-! ### more rounds than needed change nothing -/

theorem unseenLoop_more (w : World) : ∀ (n : Nat) (r q : Nat × St), unseenLoop w n r = some q →
    ∀ m, n ≤ m → unseenLoop w m r = some q := by
  intro n
  induction n with
  | zero => intro r q h; simp [unseenLoop] at h
  | succ n ih =>
    rintro ⟨perrs, s⟩ q h m hm
    obtain ⟨m, rfl⟩ : ∃ k, m = k + 1 := ⟨m - 1, by omega⟩
    simp only [unseenLoop] at h ⊢
    split_ifs at h ⊢ with h1 h2
    · exact h
    · exact h
    · exact ih _ q h m (by omega)

theorem parseAll_more (w : World) (files : List Bytes) (n : Nat) (q : Nat × St)
    (h : parseAll w files n = some q) (m : Nat) (hm : n ≤ m) : parseAll w files m = some q :=
  unseenLoop_more w n _ q h m hm

theorem compileFiles_more (w : World) (files : List Bytes) (n : Nat) (r : Result)
    (h : compileFiles w files n = some r) (m : Nat) (hm : n ≤ m) :
    compileFiles w files m = some r := by
  unfold compileFiles at h ⊢
  obtain ⟨q, h1, h2⟩ := Option.map_eq_some_iff.mp h
  rw [parseAll_more w files n q h1 m hm, Option.map_some, h2]

/-! ### a property kept by events is kept by files -/

/-- What is kept by the events of a file and does not look at the handler's text, nor at the files
parsed, is kept by the parsing of the file. -/
theorem parseProgram_keeps (w : World) (J : St → Prop) (hJ : ∀ s e, J s → J (step w s e).1)
    (hm : ∀ s h', J s → s.h.errors ≤ h'.errors → J { s with h := h' })
    (f : Bytes) (s : St) (hs : J (opened f s)) : J (parseProgram w f s).2 := by
  unfold parseProgram
  cases hc : classNameFromFile f with
  | none =>
    dsimp only
    exact hm (opened f s) _ hs (build_errors_ge ..)
  | some c =>
    dsimp only
    obtain ⟨h', e1, -, -, -, e5, -⟩ :=
      parseEnd_spec w c (runEvents w (opened f s) (w.body f (opened f s)))
    rw [e1]
    exact hm _ h' (runEvents_induct w J hJ _ _ hs) e5

/-- The class a file is named after is declared when the file was parsed without an error. -/
theorem parseProgram_named (w : World) (f : Bytes) (s : St) (h : (parseProgram w f s).1 = 0) :
    (parseProgram w f s).2.h.errors = 0 ∧
    ∃ c, classNameFromFile f = some c ∧ (parseProgram w f s).2.table c = some true := by
  unfold parseProgram at h ⊢
  cases hc : classNameFromFile f with
  | none => rw [hc] at h; simp at h
  | some c =>
    rw [hc] at h
    dsimp only at h ⊢
    obtain ⟨h', e1, -, -, e4, -, e6⟩ :=
      parseEnd_spec w c (runEvents w (opened f s) (w.body f (opened f s)))
    rw [e4] at h
    rw [e1]
    exact ⟨h, c, rfl, e6 h⟩

/-! ### which classes are left without a file -/

theorem kept_msg (w : World) (pend : List Bytes) (s : St) (h' : Handler) (hk : Kept w pend s)
    (he : s.h.errors ≤ h'.errors) : Kept w pend { s with h := h' } :=
  ⟨hk.cur, fun h0 => hk.named (by dsimp only at h0; omega)⟩

theorem compileFile_kept (w : World) (f : Bytes) (fs : List Bytes) (s : St)
    (hk : Kept w (f :: fs) s) (h0 : (compileFile w f s).1 = 0) : Kept w fs (compileFile w f s).2 := by
  unfold compileFile at h0 ⊢
  split_ifs at h0 ⊢ with hp
  · cases hc : classNameFromFile f with
    | none => rw [hc] at h0; simp at h0
    | some c =>
      rw [hc] at h0
      dsimp only at h0 ⊢
      split_ifs at h0 ⊢ with ht
      · refine ⟨hk.cur, fun h0 d hd => ?_⟩
        rcases hk.named h0 d hd with h | h | h
        · exact Or.inl h
        · rcases List.mem_cons.mp h with h | h
          · exfalso
            have := ((C51_class_name f c).mp hc).1
            rw [← h] at this
            have hdc := List.append_cancel_right this
            subst hdc
            exact ht hd
          · exact Or.inr (Or.inl h)
        · exact Or.inr (Or.inr h)
  · dsimp only at h0 ⊢
    have hz : (pushFile w f s).1 + (parseProgram w f (pushFile w f s).2).1 = 0 := by
      by_contra hne
      rw [if_neg hne] at h0
      exact hne h0
    rw [if_pos hz]
    have hk1 : Kept w (f :: fs) (pushFile w f s).2 := by
      unfold pushFile
      split_ifs
      · exact ⟨hk.cur, hk.named⟩
      · exact kept_msg w _ s _ hk (Nat.le_refl _)
    have hk2 : Kept w (f :: fs) (parseProgram w f (pushFile w f s).2).2 :=
      parseProgram_keeps w _ (fun s e => step_kept w _ s e) (fun s h' => kept_msg w _ s h') f _
        ⟨hk1.cur, hk1.named⟩
    obtain ⟨z, c, hc, ht⟩ := parseProgram_named w f (pushFile w f s).2 (by omega)
    refine ⟨hk2.cur, fun _ d hd => ?_⟩
    rcases hk2.named z d hd with h | h | h
    · exact Or.inl h
    · rcases List.mem_cons.mp h with h | h
      · exfalso
        have := ((C51_class_name f c).mp hc).1
        rw [← h] at this
        have hdc := List.append_cancel_right this
        subst hdc
        dsimp only at hd
        rw [ht] at hd
        cases hd
      · exact Or.inr (Or.inl h)
    · exact Or.inr (Or.inr h)

theorem compileList_ge (w : World) : ∀ (fs : List Bytes) (r : Nat × St),
    r.1 ≤ (compileList w fs r).1 := by
  intro fs
  induction fs with
  | nil => exact fun r => Nat.le_refl _
  | cons f fs ih =>
    intro r
    rw [compileList]
    have := ih (r.1 + (compileFile w f r.2).1, (compileFile w f r.2).2)
    dsimp only at this ⊢
    omega

theorem compileList_kept (w : World) : ∀ (fs : List Bytes) (r : Nat × St), Kept w fs r.2 →
    (compileList w fs r).1 = 0 → Kept w [] (compileList w fs r).2 := by
  intro fs
  induction fs with
  | nil => exact fun r h _ => h
  | cons f fs ih =>
    intro r hk h0
    rw [compileList] at h0 ⊢
    have := compileList_ge w fs (r.1 + (compileFile w f r.2).1, (compileFile w f r.2).2)
    dsimp only at this h0 ⊢
    exact ih _ (compileFile_kept w f fs r.2 hk (by omega)) h0

theorem unseenLoop_kept (w : World) (hw : Complete w) : ∀ (n : Nat) (r q : Nat × St),
    (r.1 = 0 → Kept w [] r.2) → unseenLoop w n r = some q → q.1 = 0 →
    Kept w [] q.2 ∧ q.2.unseen = [] := by
  intro n
  induction n with
  | zero => intro r q _ h; simp [unseenLoop] at h
  | succ n ih =>
    rintro ⟨perrs, s⟩ q hk h h0
    simp only [unseenLoop] at h
    split_ifs at h with h1 h2
    · cases h; exact absurd h0 h1
    · cases h
      have hu : s.unseen = [] := by
        have h2' : w.order s.unseen = [] := by simpa using h2
        apply List.eq_nil_iff_forall_not_mem.mpr
        intro x hx
        have := (hw s.unseen x).mpr hx
        rw [h2'] at this
        cases this
      have := hk h0
      refine ⟨⟨this.cur, fun z c hc => ?_⟩, rfl⟩
      have := this.named z c hc
      dsimp only at this ⊢
      rw [hu] at this
      exact this
    · refine ih _ q ?_ h h0
      intro hz
      have hp0 : perrs = 0 := by omega
      have hk' := hk hp0
      refine compileList_kept w _ _ ?_ hz
      refine ⟨hk'.cur, fun z c hc => ?_⟩
      rcases hk'.named z c hc with h | h | h
      · by_cases he : fileExists w { s with unseen := [] } (c ++ suffix) = true
        · right; left
          refine List.mem_filter.mpr ⟨?_, he⟩
          exact List.mem_map_of_mem ((hw s.unseen c).mpr h)
        · right; right
          unfold fileExists at he
          simp only [Bool.or_eq_true, not_or, Bool.not_eq_true] at he
          exact he.2
      · cases h
      · exact Or.inr (Or.inr h)

theorem start_kept (w : World) (fs : List Bytes) : Kept w fs St.start := by
  refine ⟨?_, ?_⟩
  · intro c h; cases h
  · intro _ c h; cases h

theorem parseAll_kept (w : World) (hw : Complete w) (files : List Bytes) (n : Nat) (s : St)
    (h : parseAll w files n = some (0, s)) : Kept w [] s :=
  (unseenLoop_kept w hw n _ _ (fun hz => compileList_kept w files _ (start_kept w _) hz) h rfl).1

/-! ### how often a file is parsed -/

/-- No file that can be opened was parsed twice, nor before it was pushed. -/
def Once (w : World) (s : St) : Prop :=
  ∀ f, w.opens f = true → s.parsed.count f ≤ if f ∈ s.pushed then 1 else 0

theorem step_once (w : World) (s : St) (e : Ev) (h : Once w s) : Once w (step w s e).1 := by
  intro f hf
  have := h f hf
  rw [step_parsed]
  by_cases hp : f ∈ s.pushed
  · rw [if_pos hp] at this
    rw [if_pos (step_pushed w f s e hp)]
    exact this
  · rw [if_neg hp] at this
    omega

theorem compileFile_once (w : World) (f : Bytes) (s : St) (h : Once w s) :
    Once w (compileFile w f s).2 := by
  unfold compileFile
  split_ifs with hp
  · split
    · exact h
    · split_ifs <;> exact h
  · have h1 : Once w (parseProgram w f (pushFile w f s).2).2 := by
      refine parseProgram_keeps w _ (fun s e => step_once w s e) (fun s h' hs _ => hs) f _ ?_
      intro g hg
      have hg' := h g hg
      by_cases hgf : g = f
      · subst hgf
        rw [if_neg hp] at hg'
        unfold opened pushFile
        rw [if_pos hg]
        simp only [List.count_append, List.count_singleton_self, List.mem_append,
          List.mem_singleton, or_true, if_true]
        omega
      · have hc : (opened f (pushFile w f s).2).parsed.count g = s.parsed.count g := by
          unfold opened pushFile
          split_ifs <;> simp [List.count_append, Ne.symm hgf]
        have hq : g ∈ (opened f (pushFile w f s).2).pushed ↔ g ∈ s.pushed := by
          unfold opened pushFile
          split_ifs <;> simp [hgf]
        rw [hc]
        simp only [hq]
        exact hg'
    dsimp only
    split_ifs <;> exact h1

theorem compileList_once (w : World) : ∀ (fs : List Bytes) (r : Nat × St), Once w r.2 →
    Once w (compileList w fs r).2 := by
  intro fs
  induction fs with
  | nil => exact fun r h => h
  | cons f fs ih =>
    intro r h
    rw [compileList]
    exact ih _ (compileFile_once w f r.2 h)

theorem unseenLoop_once (w : World) : ∀ (n : Nat) (r q : Nat × St), Once w r.2 →
    unseenLoop w n r = some q → Once w q.2 := by
  intro n
  induction n with
  | zero => intro r q _ h; simp [unseenLoop] at h
  | succ n ih =>
    rintro ⟨perrs, s⟩ q hs h
    simp only [unseenLoop] at h
    split_ifs at h with h1 h2
    · cases h; exact hs
    · cases h; exact hs
    · have hs' : Once w (perrs, { s with unseen := [] }).2 := hs
      exact ih _ q (compileList_once w _ _ hs') h

/-! ### the reading ends -/

/-- What a step forward is: another file that can be opened was pushed. -/
def Forward (w : World) (s s' : St) : Prop :=
  ∃ f, w.opens f = true ∧ f ∉ s.pushed ∧ f ∈ s'.pushed

theorem parseProgram_pushed (w : World) (g f : Bytes) (s : St) (h : g ∈ s.pushed) :
    g ∈ (parseProgram w f s).2.pushed :=
  parseProgram_keeps w (fun s => g ∈ s.pushed) (fun s e => step_pushed w g s e)
    (fun _ _ hs _ => hs) f s h

theorem compileFile_forward (w : World) (f : Bytes) (s : St) :
    (∀ g ∈ s.pushed, g ∈ (compileFile w f s).2.pushed) ∧
    ((compileFile w f s).1 ≠ 0 ∨
      (compileFile w f s).2 = s ∨ Forward w s (compileFile w f s).2) := by
  unfold compileFile
  split_ifs with hp
  · split
    · exact ⟨fun _ => id, Or.inl (by simp)⟩
    · split_ifs
      · exact ⟨fun _ => id, Or.inl (by simp)⟩
      · exact ⟨fun _ => id, Or.inr (Or.inl rfl)⟩
  · have hmono : ∀ g ∈ s.pushed, g ∈ (pushFile w f s).2.pushed := by
      intro g hg
      unfold pushFile
      split_ifs <;> simp [hg]
    dsimp only
    split_ifs with hz
    · refine ⟨fun g hg => parseProgram_pushed w g f _ (hmono g hg), Or.inr (Or.inr ?_)⟩
      have ho : w.opens f = true := by
        by_contra hn
        have : (pushFile w f s).1 = 1 := by unfold pushFile; rw [if_neg hn]
        omega
      refine ⟨f, ho, hp, parseProgram_pushed w f f _ ?_⟩
      unfold pushFile
      rw [if_pos ho]
      simp
    · exact ⟨fun g hg => parseProgram_pushed w g f _ (hmono g hg), Or.inl hz⟩

theorem compileList_forward (w : World) : ∀ (fs : List Bytes) (r : Nat × St),
    (∀ g ∈ r.2.pushed, g ∈ (compileList w fs r).2.pushed) ∧
    ((compileList w fs r).1 ≠ 0 ∨
      (compileList w fs r).2 = r.2 ∨ Forward w r.2 (compileList w fs r).2) := by
  intro fs
  induction fs with
  | nil => exact fun r => ⟨fun _ => id, Or.inr (Or.inl rfl)⟩
  | cons f fs ih =>
    intro r
    rw [compileList]
    obtain ⟨a1, a2⟩ := compileFile_forward w f r.2
    obtain ⟨b1, b2⟩ := ih (r.1 + (compileFile w f r.2).1, (compileFile w f r.2).2)
    have ge := compileList_ge w fs (r.1 + (compileFile w f r.2).1, (compileFile w f r.2).2)
    dsimp only at b1 b2 ge ⊢
    refine ⟨fun g hg => b1 g (a1 g hg), ?_⟩
    rcases a2 with h | h | ⟨g, h1, h2, h3⟩
    · exact Or.inl (by omega)
    · rw [h] at b2 ⊢
      exact b2
    · rcases b2 with h' | h' | h'
      · exact Or.inl h'
      · exact Or.inr (Or.inr ⟨g, h1, h2, b1 g h3⟩)
      · exact Or.inr (Or.inr ⟨g, h1, h2, b1 g h3⟩)

/-- The files still to be pushed. -/
def left (L : List Bytes) (s : St) : Nat := (L.filter (fun f => decide (f ∉ s.pushed))).length

theorem left_lt {L : List Bytes} {s s' : St} (hm : ∀ g ∈ s.pushed, g ∈ s'.pushed) {f : Bytes}
    (hL : f ∈ L) (h1 : f ∉ s.pushed) (h2 : f ∈ s'.pushed) : left L s' < left L s := by
  unfold left
  have hle : ∀ M : List Bytes, (M.filter (fun f => decide (f ∉ s'.pushed))).length ≤
      (M.filter (fun f => decide (f ∉ s.pushed))).length := by
    intro M
    rw [← List.countP_eq_length_filter, ← List.countP_eq_length_filter]
    refine List.countP_mono_left ?_
    intro g _ hg
    simp only [decide_eq_true_eq] at hg ⊢
    exact fun h => hg (hm g h)
  obtain ⟨A, B, rfl⟩ := List.append_of_mem hL
  simp only [List.filter_append, List.length_append, List.filter_cons, h1, h2, not_true_eq_false,
    not_false_eq_true, decide_true, decide_false, if_true, Bool.false_eq_true, if_false,
    List.length_cons]
  have := hle A
  have := hle B
  omega

theorem unseenLoop_ends (w : World) (hw : Complete w) (L : List Bytes) (hL : Finite w L) :
    ∀ (n : Nat) (r : Nat × St), left L r.2 + 2 ≤ n → (unseenLoop w n r).isSome := by
  have done : ∀ (n : Nat) (p : Nat) (s : St), s.unseen = [] → 1 ≤ n →
      (unseenLoop w n (p, s)).isSome := by
    intro n p s hu hn
    obtain ⟨n, rfl⟩ : ∃ k, n = k + 1 := ⟨n - 1, by omega⟩
    simp only [unseenLoop]
    split_ifs with h1 h2
    · rfl
    · rfl
    · exfalso
      apply h2
      have : w.order s.unseen = [] := by
        apply List.eq_nil_iff_forall_not_mem.mpr
        intro x hx
        rw [hw, hu] at hx
        cases hx
      rw [this]; rfl
  intro n
  induction n with
  | zero => intro r h; omega
  | succ n ih =>
    rintro ⟨perrs, s⟩ hn
    simp only [unseenLoop]
    split_ifs with h1 h2
    · rfl
    · rfl
    · generalize ((w.order s.unseen).map (· ++ suffix)).filter
        (fileExists w { s with unseen := [] }) = fs
      obtain ⟨c1, c2⟩ := compileList_forward w fs (perrs, { s with unseen := [] })
      dsimp only at c1 c2 hn
      rcases c2 with h | h | ⟨f, f1, f2, f3⟩
      · obtain ⟨n, rfl⟩ : ∃ k, n = k + 1 := ⟨n - 1, by omega⟩
        generalize hr : compileList w fs (perrs, { s with unseen := [] }) = r at h
        obtain ⟨p, t⟩ := r
        simp only [unseenLoop]
        rw [if_pos h]; rfl
      · generalize hr : compileList w fs (perrs, { s with unseen := [] }) = r at h
        obtain ⟨p, t⟩ := r
        refine done n p t ?_ (by omega)
        dsimp only at h
        rw [h]
      · refine ih _ ?_
        have := left_lt (s := s) (s' := (compileList w fs (perrs, { s with unseen := [] })).2) c1
          (hL f f1) f2 f3
        omega

/-! ### the files asked for -/

/-- Every file pushed that no other file loads has its class declared, unless there was an error. -/
def Declared (w : World) (s : St) : Prop :=
  ∀ f, f ∈ s.pushed → (∀ g t, Ev.load f ∉ w.body g t) → s.h.errors = 0 →
    ∃ c, classNameFromFile f = some c ∧ s.table c = some true

theorem runEvents_pushed (w : World) (f : Bytes) : ∀ (es : List Ev) (s : St), Ev.load f ∉ es →
    f ∈ (runEvents w s es).pushed → f ∈ s.pushed := by
  intro es
  induction es with
  | nil => exact fun s _ h => h
  | cons e es ih =>
    intro s hn h
    have hstep : f ∈ (step w s e).1.pushed → f ∈ s.pushed := by
      intro h'
      rcases step_pushed_opens w f s e h' with h | ⟨-, h⟩
      · exact h
      · exact absurd (h ▸ List.mem_cons_self) hn
    unfold runEvents at h
    split at h
    · next s' h' => rw [h'] at hstep; exact hstep h
    · next s' h' =>
      rw [h'] at hstep
      exact hstep (ih s' (fun h => hn (List.mem_cons_of_mem _ h)) h)

theorem parseProgram_pushed_only (w : World) (f g : Bytes) (s : St)
    (hl : ∀ g t, Ev.load f ∉ w.body g t) (h : f ∈ (parseProgram w g s).2.pushed) :
    f ∈ s.pushed := by
  unfold parseProgram at h
  cases hc : classNameFromFile g with
  | none => rw [hc] at h; exact h
  | some c =>
    rw [hc] at h
    dsimp only at h
    obtain ⟨h', e1, -⟩ := parseEnd_spec w c (runEvents w (opened g s) (w.body g (opened g s)))
    rw [e1] at h
    exact runEvents_pushed w f _ (opened g s) (hl g _) h

theorem parseProgram_seen (w : World) (c f : Bytes) (s : St)
    (hs : s.h.errors = 0 → s.table c = some true) :
    (parseProgram w f s).2.h.errors = 0 → (parseProgram w f s).2.table c = some true :=
  parseProgram_keeps w (fun s => s.h.errors = 0 → s.table c = some true)
    (fun s e => step_seen w c s e)
    (fun s h' hs he h0 => hs (by dsimp only at h0; omega)) f s hs

theorem parseProgram_errors (w : World) (f : Bytes) (s : St) :
    s.h.errors ≤ (parseProgram w f s).2.h.errors :=
  parseProgram_keeps w (fun t => s.h.errors ≤ t.h.errors)
    (fun t e => step_h w (fun h => s.h.errors ≤ h.errors)
      (fun h m hh => Nat.le_trans hh (build_errors_ge ..)) t e)
    (fun t h' ht he => Nat.le_trans ht he) f s (Nat.le_refl _)

theorem compileFile_declared (w : World) (f : Bytes) (s : St) (hd : Declared w s)
    (h0 : (compileFile w f s).1 = 0) :
    Declared w (compileFile w f s).2 ∧ s.h.errors ≤ (compileFile w f s).2.h.errors ∧
    ((∀ g t, Ev.load f ∉ w.body g t) → (compileFile w f s).2.h.errors = 0 →
      f ∈ (compileFile w f s).2.pushed) := by
  unfold compileFile at h0 ⊢
  split_ifs at h0 ⊢ with hp
  · cases hc : classNameFromFile f with
    | none => rw [hc] at h0; simp at h0
    | some c =>
      rw [hc] at h0
      dsimp only at h0 ⊢
      split_ifs at h0 ⊢ with ht
      · exact ⟨hd, Nat.le_refl _, fun _ _ => hp⟩
  · dsimp only at h0 ⊢
    have hz : (pushFile w f s).1 + (parseProgram w f (pushFile w f s).2).1 = 0 := by
      by_contra hne
      rw [if_neg hne] at h0
      exact hne h0
    rw [if_pos hz]
    have ho : w.opens f = true := by
      by_contra hn
      have : (pushFile w f s).1 = 1 := by unfold pushFile; rw [if_neg hn]
      omega
    have hpf : pushFile w f s = (0, { s with pushed := s.pushed ++ [f] }) := by
      unfold pushFile; rw [if_pos ho]
    rw [hpf] at hz ⊢
    obtain ⟨z, c, hc, ht⟩ :=
      parseProgram_named w f { s with pushed := s.pushed ++ [f] } (by dsimp only at hz; omega)
    have hge := parseProgram_errors w f { s with pushed := s.pushed ++ [f] }
    dsimp only at hge ⊢
    refine ⟨?_, hge, fun _ _ => parseProgram_pushed w f f _ (by simp)⟩
    intro g hg hl h00
    by_cases hgf : g = f
    · subst hgf; exact ⟨c, hc, ht⟩
    · have hin := parseProgram_pushed_only w g f _ hl hg
      have hin' : g ∈ s.pushed := by simpa [hgf] using hin
      obtain ⟨d, d1, d2⟩ := hd g hin' hl (by omega)
      exact ⟨d, d1, parseProgram_seen w d f _ (fun _ => d2) h00⟩

theorem compileList_declared (w : World) : ∀ (fs : List Bytes) (r : Nat × St), Declared w r.2 →
    (compileList w fs r).1 = 0 → Declared w (compileList w fs r).2 ∧
    r.2.h.errors ≤ (compileList w fs r).2.h.errors ∧
    ∀ f ∈ fs, f ∈ (compileList w fs r).2.pushed ∨ (∃ g t, Ev.load f ∈ w.body g t) ∨
      (compileList w fs r).2.h.errors ≠ 0 := by
  intro fs
  induction fs with
  | nil => exact fun r h _ => ⟨h, Nat.le_refl _, fun f hf => by cases hf⟩
  | cons f fs ih =>
    intro r hd h0
    rw [compileList] at h0 ⊢
    have ge := compileList_ge w fs (r.1 + (compileFile w f r.2).1, (compileFile w f r.2).2)
    dsimp only at ge h0 ⊢
    obtain ⟨a1, a2, a3⟩ := compileFile_declared w f r.2 hd (by omega)
    obtain ⟨b1, b2, b3⟩ := ih (r.1 + (compileFile w f r.2).1, (compileFile w f r.2).2) a1 h0
    obtain ⟨m, -⟩ := compileList_forward w fs (r.1 + (compileFile w f r.2).1, (compileFile w f r.2).2)
    dsimp only at b1 b2 b3 m
    refine ⟨b1, by omega, ?_⟩
    intro g hg
    rcases List.mem_cons.mp hg with rfl | hg
    · by_cases hl : ∃ k t, Ev.load g ∈ w.body k t
      · exact Or.inr (Or.inl hl)
      · by_cases he : (compileFile w g r.2).2.h.errors = 0
        · refine Or.inl (m g (a3 (fun k t h => hl ⟨k, t, h⟩) he))
        · exact Or.inr (Or.inr (by omega))
    · exact b3 g hg

theorem unseenLoop_declared (w : World) : ∀ (n : Nat) (r q : Nat × St),
    (r.1 = 0 → Declared w r.2) → unseenLoop w n r = some q → q.1 = 0 →
    r.1 = 0 ∧ Declared w q.2 ∧ ∀ f ∈ r.2.pushed, f ∈ q.2.pushed := by
  intro n
  induction n with
  | zero => intro r q _ h; simp [unseenLoop] at h
  | succ n ih =>
    rintro ⟨perrs, s⟩ q hd h h0
    simp only [unseenLoop] at h
    split_ifs at h with h1 h2
    · cases h; exact absurd h0 h1
    · cases h; exact ⟨h0, hd h0, fun _ => id⟩
    · have hp0 : perrs = 0 := by omega
      have hd' : Declared w (perrs, { s with unseen := [] }).2 := hd hp0
      obtain ⟨m, -⟩ := compileList_forward w
        (((w.order s.unseen).map (· ++ suffix)).filter (fileExists w { s with unseen := [] }))
        (perrs, { s with unseen := [] })
      obtain ⟨a, b, c⟩ := ih _ q (fun hz => (compileList_declared w _ _ hd' hz).1) h h0
      exact ⟨hp0, b, fun f hf => c f (m f hf)⟩

theorem start_declared (w : World) : Declared w St.start := by
  intro f h; cases h

end Ulam.Driver
