import Verif.Driver.Stages
import Verif.Util.Props
/-
Reading the files: which are read, how often, that it ends, and what is known of the classes when it
ends without an error.
-/
namespace Ulam.Driver
open Ulam.Util

/-! ### what one event, one file, one list of files leave alone -/

/-- A property of the handler that messages keep is kept by the events of a file. -/
theorem step_h (w : World) (J : Handler → Prop) (hJ : ∀ h m, J h → J (build w.modes h m)) (s : St)
    (e : Ev) (hs : J s.h) : J (step w s e).1.h := by
  cases e <;> simp only [step] <;> (try split) <;> (try dsimp only) <;>
    first | exact hs | exact hJ _ _ hs

theorem runEvents_induct (w : World) (J : St → Prop) (hJ : ∀ s e, J s → J (step w s e).1) :
    ∀ (es : List Ev) (s : St), J s → J (runEvents w s es) := by
  intro es
  induction es with
  | nil => exact fun s hs => hs
  | cons e es ih =>
    intro s hs
    have := hJ s e hs
    unfold runEvents
    split
    · next s' h => rw [h] at this; exact this
    · next s' h => rw [h] at this; exact ih s' this

theorem runEvents_h (w : World) (J : Handler → Prop) (hJ : ∀ h m, J h → J (build w.modes h m))
    (es : List Ev) (s : St) (hs : J s.h) : J (runEvents w s es).h :=
  runEvents_induct w (fun s => J s.h) (fun s e => step_h w J hJ s e) es s hs

/-- What is always so of the table, of the class being parsed and of the set of unseen classes:
`pend` are files still to be looked at. -/
structure Kept (w : World) (pend : List Bytes) (s : St) : Prop where
  cur : ∀ c, s.current = some c → s.table c = some true
  named : s.h.errors = 0 → ∀ c, s.table c = some false →
    c ∈ s.unseen ∨ c ++ suffix ∈ pend ∨ w.opens (c ++ suffix) = false

theorem build_errors_ge (d : Modes) (h : Handler) (m : Msg) : h.errors ≤ (build d h m).errors := by
  rw [build_errors]; omega

theorem build_err_ne (d : Modes) (h : Handler) (t : String) : (build d h (errMsg t)).errors ≠ 0 := by
  rw [build_errors]; simp [heading, errMsg]

theorem step_kept (w : World) (pend : List Bytes) (s : St) (e : Ev) (hk : Kept w pend s) :
    Kept w pend (step w s e).1 := by
  cases e with
  | report m =>
    refine ⟨hk.cur, fun h0 => hk.named ?_⟩
    have := build_errors_ge w.modes s.h m
    simp only [step] at h0
    omega
  | mention c =>
    simp only [step]
    split
    · next hn =>
      refine ⟨?_, ?_⟩
      · intro d hd
        have := hk.cur d hd
        have hne : d ≠ c := by rintro rfl; rw [hn] at this; cases this
        simp [Function.update_of_ne hne, this]
      · intro h0 d hd
        by_cases hdc : d = c
        · subst hdc; left; simp
        · replace hd : s.table d = some false := by simpa [Function.update_of_ne hdc] using hd
          rcases hk.named h0 d hd with h | h
          · left; simp [h]
          · exact Or.inr h
    · exact hk
  | guess c =>
    simp only [step]
    refine ⟨hk.cur, fun h0 d hd => ?_⟩
    rcases hk.named h0 d hd with h | h
    · left
      dsimp only
      split_ifs
      · exact h
      · simp [h]
    · exact Or.inr h
  | begin c =>
    simp only [step]
    split
    · refine ⟨hk.cur, fun h0 => (build_err_ne w.modes _ _ h0).elim⟩
    · refine ⟨?_, ?_⟩
      · intro d hd
        simp only [Option.some.injEq] at hd
        subst hd
        simp
      · intro h0 d hd
        by_cases hdc : d = c
        · subst hdc; simp at hd
        · replace hd : s.table d = some false := by simpa [Function.update_of_ne hdc] using hd
          exact hk.named h0 d hd
  | finish =>
    simp only [step]
    split
    · exact hk
    · next c hc =>
      refine ⟨by simp, fun h0 d hd => ?_⟩
      have hcur := hk.cur c hc
      have hdc : d ≠ c := by rintro rfl; rw [hcur] at hd; cases hd
      rcases hk.named h0 d hd with h | h
      · left; simp [h, hdc]
      · exact Or.inr h
  | fail =>
    simp only [step]
    split
    · exact hk
    · exact ⟨by simp, fun h0 => (build_err_ne w.modes _ _ h0).elim⟩
  | drop c =>
    simp only [step]
    split
    · next hf =>
      refine ⟨?_, ?_⟩
      · intro d hd
        have := hk.cur d hd
        have hne : d ≠ c := by rintro rfl; rw [hf] at this; cases this
        simp [Function.update_of_ne hne, this]
      · intro h0 d hd
        by_cases hdc : d = c
        · subst hdc; simp at hd
        · replace hd : s.table d = some false := by simpa [Function.update_of_ne hdc] using hd
          rcases hk.named h0 d hd with h | h
          · left; simp [h, hdc]
          · exact Or.inr h
    · exact hk
  | load f =>
    simp only [step]
    split
    · exact ⟨hk.cur, hk.named⟩
    · exact hk

/-- A class once seen stays seen, unless an error is reported. -/
theorem step_seen (w : World) (c : Bytes) (s : St) (e : Ev)
    (hs : s.h.errors = 0 → s.table c = some true) :
    (step w s e).1.h.errors = 0 → (step w s e).1.table c = some true := by
  cases e with
  | report m =>
    intro h0
    have := build_errors_ge w.modes s.h m
    simp only [step] at h0 ⊢
    exact hs (by omega)
  | mention d =>
    simp only [step]
    split
    · next hn =>
      intro h0
      have := hs h0
      have hne : c ≠ d := by rintro rfl; rw [hn] at this; cases this
      simp [Function.update_of_ne hne, this]
    · exact hs
  | guess d => exact hs
  | begin d =>
    simp only [step]
    split
    · exact fun h0 => (build_err_ne w.modes _ _ h0).elim
    · intro h0
      by_cases hdc : c = d
      · subst hdc; simp
      · simp [Function.update_of_ne hdc, hs h0]
  | finish =>
    simp only [step]
    split
    · exact hs
    · exact hs
  | fail =>
    simp only [step]
    split
    · exact hs
    · exact fun h0 => (build_err_ne w.modes _ _ h0).elim
  | drop d =>
    simp only [step]
    split
    · next hn =>
      intro h0
      have := hs h0
      have hne : c ≠ d := by rintro rfl; rw [hn] at this; cases this
      simp [Function.update_of_ne hne, this]
    · exact hs
  | load f =>
    simp only [step]
    split <;> exact hs

theorem step_pushed (w : World) (f : Bytes) (s : St) (e : Ev) (hs : f ∈ s.pushed) :
    f ∈ (step w s e).1.pushed := by
  cases e <;> simp only [step] <;> (try split) <;> simp [hs]

theorem step_pushed_opens (w : World) (f : Bytes) (s : St) (e : Ev) (hs : f ∈ (step w s e).1.pushed) :
    f ∈ s.pushed ∨ (w.opens f = true ∧ e = .load f) := by
  cases e with
  | load g =>
    simp only [step] at hs
    split at hs
    · next h =>
      rcases List.mem_append.mp hs with h' | h'
      · exact Or.inl h'
      · simp only [List.mem_singleton] at h'
        subst h'
        exact Or.inr ⟨h.1, rfl⟩
    · exact Or.inl hs
  | mention c => simp only [step] at hs; split at hs <;> exact Or.inl hs
  | begin c => simp only [step] at hs; split at hs <;> exact Or.inl hs
  | finish => simp only [step] at hs; split at hs <;> exact Or.inl hs
  | fail => simp only [step] at hs; split at hs <;> exact Or.inl hs
  | drop c => simp only [step] at hs; split at hs <;> exact Or.inl hs
  | report m => exact Or.inl hs
  | guess c => exact Or.inl hs

theorem step_parsed (w : World) (s : St) (e : Ev) : (step w s e).1.parsed = s.parsed := by
  cases e <;> simp only [step] <;> (try split) <;> rfl

/-! ### `parseProgram` -/

/-- Its end: nothing but messages. -/
theorem parseEnd_spec (w : World) (c : Bytes) (r : St) :
    ∃ h', (parseEnd w c r).2 = { r with h := h' } ∧ Later r.h h' ∧ h'.waiting = r.h.waiting ∧
      (parseEnd w c r).1 = h'.errors ∧ r.h.errors ≤ h'.errors ∧
      (h'.errors = 0 → r.table c = some true) := by
  have info : ∀ (g : Handler) (t : String),
      (build w.modes g ⟨.info, "", t, true⟩).errors = g.errors := by
    intro g t
    rw [build_errors]
    have : heading w.modes (!g.waiting) ⟨.info, "", t, true⟩ ≠ some "ERROR" := by
      rw [heading_ne_error]; simp
    simp [this]
  obtain ⟨l1, w1, g1, t1⟩ : Later r.h (verdict w c r) ∧ (verdict w c r).waiting = r.h.waiting ∧
      r.h.errors ≤ (verdict w c r).errors ∧ ((verdict w c r).errors = 0 → r.table c = some true) := by
    unfold verdict
    split
    · exact ⟨build_later .., build_waiting .., build_errors_ge ..,
        fun h => (build_err_ne w.modes _ _ h).elim⟩
    · exact ⟨build_later .., build_waiting .., build_errors_ge ..,
        fun h => (build_err_ne w.modes _ _ h).elim⟩
    · next ht => exact ⟨Later.refl _, rfl, Nat.le_refl _, fun _ => ht⟩
  have l2 : ∀ a, Later a (tellWarnings w c a) ∧ (tellWarnings w c a).waiting = a.waiting ∧
      (tellWarnings w c a).errors = a.errors := by
    intro a; unfold tellWarnings; split_ifs
    · exact ⟨build_later .., build_waiting .., info ..⟩
    · exact ⟨Later.refl _, rfl, rfl⟩
  have l3 : ∀ a, Later a (tellErrors w c a) ∧ (tellErrors w c a).waiting = a.waiting ∧
      (tellErrors w c a).errors = a.errors := by
    intro a; unfold tellErrors; split_ifs
    · exact ⟨build_later .., build_waiting .., info ..⟩
    · exact ⟨Later.refl _, rfl, rfl⟩
  obtain ⟨m2, w2, e2⟩ := l2 (verdict w c r)
  obtain ⟨m3, w3, e3⟩ := l3 (tellWarnings w c (verdict w c r))
  refine ⟨tellErrors w c (tellWarnings w c (verdict w c r)), rfl, l1.trans (m2.trans m3),
    by rw [w3, w2, w1], e3.symm, by rw [e3, e2]; exact g1, ?_⟩
  intro h0
  rw [e3, e2] at h0
  exact t1 h0

/-- What is true of the handler all through the parsing. -/
structure Parsing (s : St) : Prop where
  sound : Sound s.h
  waiting : s.h.waiting = true
  file : s.h.attached = true ∨ s.pushed = []

theorem attach_good {h : Handler} (hs : Sound h) : Good (attach h) :=
  ⟨rfl, ⟨hs.seen, hs.shown, hs.told, hs.count⟩⟩

/-- The events of a file, seen from the handler. -/
theorem events_later (w : World) (f : Bytes) (s : St) (hs : Sound s.h) (hw : s.h.waiting = true) :
    let r := runEvents w (opened f s) (w.body f (opened f s))
    Later (attach s.h) r.h ∧ r.h.waiting = true := by
  intro r
  refine runEvents_h w (fun h => Later (attach s.h) h ∧ h.waiting = true) ?_ _ _ ⟨Later.refl _, hw⟩
  rintro h m ⟨h1, h2⟩
  exact ⟨h1.trans (build_later ..), (build_waiting ..).trans h2⟩

theorem parseProgram_spec (w : World) (f : Bytes) (s : St) (hs : Sound s.h)
    (hw : s.h.waiting = true) :
    Good (parseProgram w f s).2.h ∧ (parseProgram w f s).2.h.waiting = true ∧
    (∀ x ∈ s.h.out, x ∈ (parseProgram w f s).2.h.out) ∧
    (∀ t, Written.raw t ∈ (parseProgram w f s).2.h.out → Written.raw t ∈ s.h.out) ∧
    ((parseProgram w f s).1 = 0 ↔ (parseProgram w f s).2.h.errors = 0) := by
  unfold parseProgram
  cases hc : classNameFromFile f with
  | none =>
    dsimp only
    have hl := build_later w.modes (attach s.h) (errMsg ("File name <" ++ str f ++ ">"))
    refine ⟨hl.good (attach_good hs), (build_waiting ..).trans hw, hl.mono, hl.raw, ?_⟩
    have := build_err_ne w.modes (attach s.h) ("File name <" ++ str f ++ ">")
    simp [this]
  | some c =>
    dsimp only
    obtain ⟨l1, w1⟩ := events_later w f s hs hw
    obtain ⟨h', e1, e2, e3, e4, e5, e6⟩ :=
      parseEnd_spec w c (runEvents w (opened f s) (w.body f (opened f s)))
    rw [e1, e4]
    have hl := l1.trans e2
    exact ⟨hl.good (attach_good hs), e3.trans w1, hl.mono, hl.raw, Iff.rfl⟩

/-- What the returned number and the handler have to do with each other. -/
structure Told (r : Nat × St) : Prop where
  zero : r.1 = 0 → r.2.h.errors = 0 ∧ ∀ t, Written.raw t ∉ r.2.h.out
  one : r.1 ≠ 0 → ∃ x ∈ r.2.h.out, Tells x

theorem tells_of_failed {h : Handler} (hs : Sound h) (he : h.errors ≠ 0) : ∃ x ∈ h.out, Tells x := by
  have hne : h.failed ≠ [] := by
    intro h0
    have := hs.count
    rw [h0] at this
    exact he this.symm
  obtain ⟨l, hl⟩ := List.exists_mem_of_ne_nil _ hne
  obtain ⟨h1, l', h2, h3⟩ := hs.told l hl
  refine ⟨.line l', h2, l.loc, l.text, ?_⟩
  rw [h3, Line.render, h1]
  simp [String.append_assoc]

theorem compileFile_told (w : World) (f : Bytes) (s : St) (hp : Parsing s) :
    Parsing (compileFile w f s).2 ∧ (∀ x ∈ s.h.out, x ∈ (compileFile w f s).2.h.out) ∧
    ((compileFile w f s).1 = 0 → (s.h.errors = 0 → (compileFile w f s).2.h.errors = 0) ∧
      ∀ t, Written.raw t ∈ (compileFile w f s).2.h.out → Written.raw t ∈ s.h.out) ∧
    ((compileFile w f s).1 ≠ 0 → ∃ x ∈ (compileFile w f s).2.h.out, Tells x) := by
  unfold compileFile
  split_ifs with hpush
  · have hatt : s.h.attached = true := by
      rcases hp.file with h | h
      · exact h
      · rw [h] at hpush; cases hpush
    have bad : ∀ t, Parsing { s with h := build w.modes s.h (errMsg t) } ∧
        (∀ x ∈ s.h.out, x ∈ (build w.modes s.h (errMsg t)).out) ∧
        ∃ x ∈ (build w.modes s.h (errMsg t)).out, Tells x := by
      intro t
      have hl := build_later w.modes s.h (errMsg t)
      have hg := hl.good ⟨hatt, hp.sound⟩
      exact ⟨⟨hg.2, (build_waiting ..).trans hp.waiting, Or.inl hg.1⟩, hl.mono,
        tells_of_failed hg.2 (build_err_ne _ _ _)⟩
    split
    · obtain ⟨b1, b2, b3⟩ := bad ("File name <" ++ str f ++ ">")
      exact ⟨b1, b2, by simp, fun _ => b3⟩
    · split_ifs
      · obtain ⟨b1, b2, b3⟩ := bad _
        exact ⟨b1, b2, by simp, fun _ => b3⟩
      · exact ⟨hp, fun _ => id, fun _ => ⟨id, fun _ => id⟩, by simp⟩
  · obtain ⟨q1, q2, q3, q4⟩ : Sound (pushFile w f s).2.h ∧ (pushFile w f s).2.h.waiting = true ∧
        (∀ x ∈ s.h.out, x ∈ (pushFile w f s).2.h.out) ∧
        ((pushFile w f s).1 = 0 → (pushFile w f s).2.h = s.h) := by
      unfold pushFile
      split_ifs
      · exact ⟨hp.sound, hp.waiting, fun _ => id, fun _ => rfl⟩
      · refine ⟨write_sound _ _ hp.sound, hp.waiting, fun x hx => List.mem_append_left _ hx, ?_⟩
        intro h; cases h
    obtain ⟨p1, p2, p3, p4, p5⟩ := parseProgram_spec w f (pushFile w f s).2 q1 q2
    dsimp only
    split_ifs with hz
    · have hz1 : (pushFile w f s).1 = 0 := by omega
      have hz2 : (parseProgram w f (pushFile w f s).2).1 = 0 := by omega
      refine ⟨⟨p1.2, p2, Or.inl p1.1⟩, fun x hx => p3 x (q3 x hx), fun _ => ⟨fun _ => p5.mp hz2, ?_⟩,
        by simp⟩
      intro t ht
      have := p4 t ht
      rw [q4 hz1] at this
      exact this
    · refine ⟨⟨write_sound _ _ p1.2, p2, Or.inl p1.1⟩,
        fun x hx => List.mem_append_left _ (p3 x (q3 x hx)), fun h => absurd h hz, fun _ => ?_⟩
      exact ⟨_, List.mem_append_right _ (List.mem_singleton.mpr rfl), trivial⟩

theorem compileList_told (w : World) : ∀ (fs : List Bytes) (r : Nat × St), Parsing r.2 → Told r →
    Parsing (compileList w fs r).2 ∧ Told (compileList w fs r) := by
  intro fs
  induction fs with
  | nil => exact fun r hp ht => ⟨hp, ht⟩
  | cons f fs ih =>
    rintro ⟨perrs, s⟩ hp ht
    obtain ⟨c1, c2, c3, c4⟩ := compileFile_told w f s hp
    rw [compileList]
    refine ih _ c1 ⟨?_, ?_⟩
    · intro h0
      dsimp only at h0 ⊢
      obtain ⟨a1, a2⟩ := ht.zero (by dsimp only; omega)
      obtain ⟨b1, b2⟩ := c3 (by omega)
      exact ⟨b1 a1, fun t h => a2 t (b2 t h)⟩
    · intro h0
      dsimp only at h0 ⊢
      by_cases hp0 : perrs = 0
      · exact c4 (by omega)
      · obtain ⟨x, hx, hT⟩ := ht.one hp0
        exact ⟨x, c2 x hx, hT⟩

theorem unseenLoop_told (w : World) : ∀ (fuel : Nat) (r q : Nat × St), Parsing r.2 → Told r →
    unseenLoop w fuel r = some q → Parsing q.2 ∧ Told q := by
  intro fuel
  induction fuel with
  | zero => intro r q _ _ h; simp [unseenLoop] at h
  | succ fuel ih =>
    rintro ⟨perrs, s⟩ q hp ht h
    simp only [unseenLoop] at h
    split_ifs at h with h1 h2
    · cases h; exact ⟨hp, ht⟩
    · cases h
      exact ⟨⟨hp.sound, hp.waiting, hp.file⟩, ⟨ht.zero, ht.one⟩⟩
    · have hp' : Parsing { s with unseen := [] } := ⟨hp.sound, hp.waiting, hp.file⟩
      have ht' : Told (perrs, { s with unseen := [] }) := ⟨ht.zero, ht.one⟩
      obtain ⟨a, b⟩ := compileList_told w
        (((w.order s.unseen).map (· ++ suffix)).filter (fileExists w { s with unseen := [] })) _ hp' ht'
      exact ih _ q a b h

theorem start_parsing : Parsing St.start ∧ Told (0, St.start) := by
  refine ⟨⟨⟨rfl, ?_, ?_, rfl⟩, rfl, Or.inr rfl⟩, ⟨?_, by simp⟩⟩
  · intro l hl; cases hl
  · intro l hl; cases hl
  · intro _; exact ⟨rfl, fun t h => by cases h⟩

theorem parseAll_told (w : World) (files : List Bytes) (fuel : Nat) (q : Nat × St)
    (h : parseAll w files fuel = some q) : Parsing q.2 ∧ Told q := by
  obtain ⟨a, b⟩ := compileList_told w files (0, St.start) start_parsing.1 start_parsing.2
  exact unseenLoop_told w fuel _ q a b h

end Ulam.Driver
