import Verif.Driver.Messages
/-
The stages of a compilation: errors stop it, code is generated only without them, and the number
returned says so.
-/
namespace Ulam.Driver
open Ulam.Util

/-- The handler in step with its file: what was counted as an error is what is shown as one, and
nothing was cleared away. -/
structure Sound (h : Handler) : Prop where
  seen : h.seen = rendered h.out
  shown : ∀ l, Written.line l ∈ h.out → l.label = "ERROR" → l ∈ h.failed
  told : ∀ l ∈ h.failed, l.label = "ERROR" ∧ ∃ l', Written.line l' ∈ h.out ∧ l'.render = l.render
  count : h.failed.length = h.errors

theorem heading_error {d : Modes} {b : Bool} {m : Msg} {s : String}
    (h : heading d b m = some s) : (s = "ERROR" ↔ m.kind = .err ∨ m.kind = .wait) := by
  obtain ⟨k, loc, text, turn⟩ := m
  cases k <;> simp [heading] at h <;> (try obtain ⟨-, rfl⟩ := h) <;> (try subst h) <;> simp

theorem build_sound (d : Modes) (h : Handler) (m : Msg) (ha : h.attached = true) (hs : Sound h) :
    Sound (build d h m) := by
  rw [build_eq]
  cases heading d (!h.waiting) m with
  | none =>
    dsimp only
    split_ifs
    · exact ⟨hs.seen, hs.shown, hs.told, hs.count⟩
    · exact hs
  | some s =>
    dsimp only
    by_cases hin : (⟨m.loc, s, m.text⟩ : Line).render ∈ h.seen
    · have ho : outputMsg h ⟨m.loc, s, m.text⟩ = h := by simp [outputMsg, ha, hin]
      rw [ho]
      split_ifs with h1 h2
      · subst h1
        refine ⟨hs.seen, ?_, ?_, ?_⟩
        · intro l hl hb
          simp only [incError] at hl ⊢
          exact List.mem_append_left _ (hs.shown l hl hb)
        · intro l hl
          simp only [incError] at hl ⊢
          rcases List.mem_append.mp hl with hl | hl
          · exact hs.told l hl
          · simp only [List.mem_singleton] at hl
            subst hl
            refine ⟨rfl, ?_⟩
            rw [hs.seen, mem_rendered] at hin
            exact hin
        · simp [incError, hs.count]
      · exact ⟨hs.seen, hs.shown, hs.told, hs.count⟩
      · exact hs
    · have ho : outputMsg h ⟨m.loc, s, m.text⟩ =
          { h with seen := h.seen ++ [(⟨m.loc, s, m.text⟩ : Line).render],
                   out := h.out ++ [Written.line ⟨m.loc, s, m.text⟩] } := by
        simp [outputMsg, ha, hin]
      rw [ho]
      have hseen : h.seen ++ [(⟨m.loc, s, m.text⟩ : Line).render] =
          rendered (h.out ++ [Written.line ⟨m.loc, s, m.text⟩]) := by
        rw [hs.seen]; simp [rendered]
      have told' : ∀ l ∈ h.failed, l.label = "ERROR" ∧ ∃ l', Written.line l' ∈
          h.out ++ [Written.line ⟨m.loc, s, m.text⟩] ∧ l'.render = l.render := by
        intro l hl
        obtain ⟨h1, l', h2, h3⟩ := hs.told l hl
        exact ⟨h1, l', List.mem_append_left _ h2, h3⟩
      have shown' : s ≠ "ERROR" → ∀ l, Written.line l ∈
          h.out ++ [Written.line ⟨m.loc, s, m.text⟩] → l.label = "ERROR" → l ∈ h.failed := by
        intro hne l hl hb
        rcases List.mem_append.mp hl with hl | hl
        · exact hs.shown l hl hb
        · simp only [List.mem_singleton, Written.line.injEq] at hl
          subst hl
          exact absurd hb hne
      split_ifs with h1 h2
      · refine ⟨hseen, ?_, ?_, ?_⟩
        · intro l hl hb
          simp only [incError] at hl ⊢
          rcases List.mem_append.mp hl with hl | hl
          · exact List.mem_append_left _ (hs.shown l hl hb)
          · simp only [List.mem_singleton, Written.line.injEq] at hl
            subst hl
            simp
        · intro l hl
          simp only [incError] at hl ⊢
          rcases List.mem_append.mp hl with hl | hl
          · exact told' l hl
          · simp only [List.mem_singleton] at hl
            subst hl
            exact ⟨h1, _, List.mem_append_right _ (List.mem_singleton.mpr rfl), rfl⟩
        · simp [incError, hs.count]
      · exact ⟨hseen, shown' h1, told', hs.count⟩
      · exact ⟨hseen, shown' h1, told', hs.count⟩

theorem write_sound (h : Handler) (s : String) (hs : Sound h) : Sound (write h s) := by
  refine ⟨?_, ?_, ?_, hs.count⟩
  · simp [write, rendered, hs.seen]
  · intro l hl
    simp [write] at hl
    exact hs.shown l hl
  · intro l hl
    obtain ⟨h1, l', h2, h3⟩ := hs.told l hl
    exact ⟨h1, l', List.mem_append_left _ h2, h3⟩

/-- Sound and with a file. -/
def Good (h : Handler) : Prop := h.attached = true ∧ Sound h

theorem build_good (d : Modes) (h : Handler) (m : Msg) (hg : Good h) : Good (build d h m) :=
  ⟨by rw [build_attached]; exact hg.1, build_sound d h m hg.1 hg.2⟩

theorem reports_good (d : Modes) (ms : List Msg) : ∀ h, Good h → Good (reports d h ms) := by
  induction ms with
  | nil => exact fun h hg => hg
  | cons m ms ih => exact fun h hg => ih _ (build_good d h m hg)

/-- Only messages are written by a message. -/
theorem build_raw (d : Modes) (h : Handler) (m : Msg) (s : String) :
    Written.raw s ∈ (build d h m).out ↔ Written.raw s ∈ h.out := by
  have hb := build_out d h m
  cases hh : heading d (!h.waiting) m with
  | none => rw [hh] at hb; simp only [Prod.mk.injEq] at hb; rw [hb.1]
  | some t =>
    rw [hh] at hb; simp only [Prod.mk.injEq] at hb; rw [hb.1]
    unfold outputMsg
    split_ifs <;> simp

theorem build_mono (d : Modes) (h : Handler) (m : Msg) (x : Written) (hx : x ∈ h.out) :
    x ∈ (build d h m).out := exec_out_mono d h (.say m) x hx

theorem reports_raw (d : Modes) (ms : List Msg) (s : String) : ∀ h,
    (Written.raw s ∈ (reports d h ms).out ↔ Written.raw s ∈ h.out) := by
  induction ms with
  | nil => exact fun h => Iff.rfl
  | cons m ms ih => exact fun h => (ih _).trans (build_raw d h m s)

theorem reports_mono (d : Modes) (ms : List Msg) (x : Written) : ∀ h, x ∈ h.out →
    x ∈ (reports d h ms).out := by
  induction ms with
  | nil => exact fun h hx => hx
  | cons m ms ih => exact fun h hx => ih _ (build_mono d h m x hx)

theorem reports_waiting (d : Modes) (ms : List Msg) : ∀ h,
    (reports d h ms).waiting = h.waiting := by
  induction ms with
  | nil => exact fun h => rfl
  | cons m ms ih => exact fun h => (ih _).trans (build_waiting d h m)

/-- No error after some messages: none before, and none among them. -/
theorem reports_zero (d : Modes) (ms : List Msg) : ∀ h, (reports d h ms).errors = 0 ↔
    h.errors = 0 ∧ ∀ m ∈ ms, heading d (!h.waiting) m ≠ some "ERROR" := by
  induction ms with
  | nil => intro h; simp [reports]
  | cons m ms ih =>
    intro h
    have : reports d h (m :: ms) = reports d (build d h m) ms := rfl
    rw [this, ih, build_errors, build_waiting]
    by_cases hh : heading d (!h.waiting) m = some "ERROR"
    · simp [hh]
    · simp [hh]

theorem heading_ne_error {d : Modes} {b : Bool} {m : Msg} :
    heading d b m ≠ some "ERROR" ↔ m.kind ≠ .err ∧ ¬ (m.kind = .wait ∧ b ∧ m.turn) := by
  obtain ⟨k, loc, text, turn⟩ := m
  cases k <;> simp [heading]

/-! ### the resolving loop -/

def six : List Phase := [Phase.sizes, .arguments, .instances, .unknownTypes, .locals, .labels]

theorem passes (w : World) (n : Nat) (ps : List Phase) : ∀ r : Handler × Bool,
    let q := ps.foldl (fun r p => (say w p n r.1, r.2 && (w.stage p n).2)) r
    q.1 = reports w.modes r.1 (ps.flatMap fun p => (w.stage p n).1) ∧
      q.2 = (r.2 && ps.all fun p => (w.stage p n).2) := by
  induction ps with
  | nil => intro r; simp [reports]
  | cons p ps ih =>
    intro r
    have := ih (say w p n r.1, r.2 && (w.stage p n).2)
    simp only [List.foldl_cons] at this ⊢
    refine ⟨this.1.trans ?_, this.2.trans ?_⟩
    · simp [say, reports, List.foldl_append]
    · simp [Bool.and_assoc]

theorem resolvingLoop_eq (w : World) (n : Nat) (h : Handler) :
    resolvingLoop w n h =
      (reports w.modes h (six.flatMap fun p => (w.stage p n).1), six.all fun p => (w.stage p n).2) := by
  have := passes w n six (h, true)
  unfold resolvingLoop
  exact Prod.ext this.1 (by simpa [six] using this.2)

/-- No message counted in a round. -/
def QuietRound (w : World) (n : Nat) (hard : Bool) : Prop :=
  ∀ p ∈ six, ∀ m ∈ (w.stage p n).1, m.kind ≠ .err ∧ ¬ (m.kind = .wait ∧ hard ∧ m.turn)

/-- A round answered by all six passes that nothing is left. -/
def Settled (w : World) (n : Nat) : Prop := ∀ p ∈ six, (w.stage p n).2 = true

theorem round_zero (w : World) (n : Nat) (h : Handler) (h0 : h.errors = 0) :
    (resolvingLoop w n (clear h)).1.errors = 0 ↔ QuietRound w n (!h.waiting) := by
  rw [resolvingLoop_eq, reports_zero]
  simp only [clear, true_and, List.mem_flatMap]
  unfold QuietRound
  constructor
  · intro h p hp m hm
    exact heading_ne_error.mp (h m ⟨p, hp, hm⟩)
  · rintro h m ⟨p, hp, hm⟩
    exact heading_ne_error.mpr (h p hp m hm)

/-- What the loop leaves. -/
theorem resolve_spec (w : World) (n : Nat) (h : Handler) (hn : n ≤ 99) (hg : Good h)
    (h0 : h.errors = 0) (hw : h.waiting = decide (n < 99)) :
    Good (resolve w n h).1 ∧ (∀ x ∈ h.out, x ∈ (resolve w n h).1.out) ∧
    (∀ s, Written.raw s ∈ (resolve w n h).1.out → Written.raw s ∈ h.out) ∧
    ((resolve w n h).1.errors = 0 → ∃ k, n ≤ k ∧ k ≤ 99 ∧ (resolve w n h).2 = k + 1 ∧
      (∀ j, n ≤ j → j ≤ k → QuietRound w j (decide (j = 99))) ∧
      (∀ j, n ≤ j → j < k → ¬ Settled w j) ∧
      (Settled w k ∨ k = 99)) := by
  have hround := round_zero w n h h0
  have hgc : Good (clear h) :=
    ⟨hg.1, ⟨hg.2.seen, hg.2.shown, hg.2.told, by
      have hc := hg.2.count
      rw [h0] at hc
      exact hc⟩⟩
  have hgr : Good (resolvingLoop w n (clear h)).1 := by
    rw [resolvingLoop_eq]; exact reports_good _ _ _ hgc
  have hmono : ∀ x ∈ h.out, x ∈ (resolvingLoop w n (clear h)).1.out := by
    rw [resolvingLoop_eq]; exact fun x hx => reports_mono _ _ x _ hx
  have hraw : ∀ s, Written.raw s ∈ (resolvingLoop w n (clear h)).1.out → Written.raw s ∈ h.out := by
    rw [resolvingLoop_eq]; exact fun s hs => (reports_raw _ _ s (clear h)).mp hs
  have hwait : (resolvingLoop w n (clear h)).1.waiting = h.waiting := by
    rw [resolvingLoop_eq, reports_waiting]; rfl
  have hset : (resolvingLoop w n (clear h)).2 = true ↔ Settled w n := by
    rw [resolvingLoop_eq]; simp [Settled]
  have hhard : (!h.waiting) = decide (n = 99) := by
    rw [hw]
    by_cases h1 : n = 99
    · subst h1; rfl
    · have : n < 99 := by omega
      simp [h1, this]
  rw [hhard] at hround
  rw [resolve]
  dsimp only
  by_cases hstop : n + 1 > maxIterations ∨ (resolvingLoop w n (clear h)).1.errors > 0
  · rw [if_pos hstop]
    refine ⟨hgr, hmono, hraw, fun he => ⟨n, Nat.le_refl _, hn, rfl, ?_, ?_, ?_⟩⟩
    · intro j h1 h2
      have : j = n := by omega
      subst this
      exact hround.mp he
    · intro j h1 h2; omega
    · rcases hstop with hs | hs
      · right; simp [maxIterations] at hs; omega
      · have he' : (resolvingLoop w n (clear h)).1.errors = 0 := he
        omega
  · rw [if_neg hstop]
    have h1 : n + 1 ≤ 99 := by
      by_contra hc; exact hstop (Or.inl (by simp [maxIterations]; omega))
    have he : (resolvingLoop w n (clear h)).1.errors = 0 := by
      by_contra hc; exact hstop (Or.inr (by omega))
    have hq := hround.mp he
    have key : ∀ h', h' = (if n + 1 = maxIterations then harden (resolvingLoop w n (clear h)).1
        else (resolvingLoop w n (clear h)).1) → Good h' ∧ (∀ x ∈ h.out, x ∈ h'.out) ∧
        (∀ s, Written.raw s ∈ h'.out → Written.raw s ∈ h.out) ∧ h'.errors = 0 ∧
        h'.waiting = decide (n + 1 < 99) := by
      rintro h' rfl
      split_ifs with hm
      · refine ⟨⟨hgr.1, ⟨hgr.2.seen, hgr.2.shown, hgr.2.told, hgr.2.count⟩⟩, hmono, hraw, he, ?_⟩
        simp [maxIterations] at hm
        subst hm
        rfl
      · refine ⟨hgr, hmono, hraw, he, ?_⟩
        rw [hwait, hw]
        simp [maxIterations] at hm
        have : n + 1 < 99 := by omega
        have : n < 99 := by omega
        simp [*]
    generalize hh' : (if n + 1 = maxIterations then harden (resolvingLoop w n (clear h)).1
        else (resolvingLoop w n (clear h)).1) = h'
    obtain ⟨k1, k2, k3, k4, k5⟩ := key h' hh'.symm
    by_cases hs : (resolvingLoop w n (clear h)).2 = true
    · rw [if_pos hs]
      refine ⟨k1, k2, k3, fun _ => ⟨n, Nat.le_refl _, hn, rfl, ?_, ?_, Or.inl (hset.mp hs)⟩⟩
      · intro j a b
        have : j = n := by omega
        subst this
        exact hq
      · intro j a b; omega
    · rw [if_neg hs]
      obtain ⟨r1, r2, r3, r4⟩ := resolve_spec w (n + 1) h' h1 k1 k4 k5
      refine ⟨r1, fun x hx => r2 x (k2 x hx), fun s hs => k3 s (r3 s hs), fun hz => ?_⟩
      obtain ⟨k, a, b, c, e, f, g⟩ := r4 hz
      refine ⟨k, by omega, b, c, ?_, ?_, g⟩
      · intro j h1 h2
        by_cases hj : j = n
        · subst hj; exact hq
        · exact e j (by omega) h2
      · intro j h1 h2
        by_cases hj : j = n
        · subst hj; exact fun h => hs (hset.mpr h)
        · exact f j (by omega) h2
termination_by 100 - n

/-! ### the other stages -/

/-- From one handler to a later one: still in step with its file, nothing taken back, nothing but
messages written. -/
structure Later (h h' : Handler) : Prop where
  good : Good h → Good h'
  mono : ∀ x ∈ h.out, x ∈ h'.out
  raw : ∀ s, Written.raw s ∈ h'.out → Written.raw s ∈ h.out

theorem Later.refl (h : Handler) : Later h h := ⟨id, fun _ => id, fun _ => id⟩

theorem Later.trans {a b c : Handler} (h1 : Later a b) (h2 : Later b c) : Later a c :=
  ⟨h2.good ∘ h1.good, fun x hx => h2.mono x (h1.mono x hx), fun s hs => h1.raw s (h2.raw s hs)⟩

theorem build_later (d : Modes) (h : Handler) (m : Msg) : Later h (build d h m) :=
  ⟨build_good d h m, build_mono d h m, fun s => (build_raw d h m s).mp⟩

theorem reports_later (d : Modes) (h : Handler) (ms : List Msg) : Later h (reports d h ms) :=
  ⟨reports_good d ms h, fun x => reports_mono d ms x h, fun s => (reports_raw d ms s h).mp⟩

theorem say_later (w : World) (p : Phase) (n : Nat) (h : Handler) : Later h (say w p n h) :=
  reports_later _ _ _

theorem sayIf_later (w : World) (p : Phase) (h : Handler) : Later h (sayIf w p h) := by
  unfold sayIf; split_ifs
  · exact say_later ..
  · exact Later.refl h

theorem harden_later (h : Handler) : Later h (harden h) :=
  ⟨fun hg => ⟨hg.1, ⟨hg.2.seen, hg.2.shown, hg.2.told, hg.2.count⟩⟩, fun _ => id, fun _ => id⟩

theorem soften_later (h : Handler) : Later h (soften h) :=
  ⟨fun hg => ⟨hg.1, ⟨hg.2.seen, hg.2.shown, hg.2.told, hg.2.count⟩⟩, fun _ => id, fun _ => id⟩

/-- No error message among those of a stage. -/
def Quiet (w : World) (p : Phase) (n : Nat) : Prop := ∀ m ∈ (w.stage p n).1, m.kind ≠ .err

theorem say_zero {w : World} {p : Phase} {n : Nat} {h : Handler} (h0 : (say w p n h).errors = 0) :
    h.errors = 0 ∧ Quiet w p n := by
  obtain ⟨h1, h2⟩ := (reports_zero _ _ _).mp h0
  exact ⟨h1, fun m hm => (heading_ne_error.mp (h2 m hm)).1⟩

theorem sayIf_zero {w : World} {p : Phase} {h : Handler} (h0 : (sayIf w p h).errors = 0) :
    h.errors = 0 ∧ Quiet w p 0 := by
  unfold sayIf at h0
  split_ifs at h0 with hz
  · exact say_zero h0
  · exact absurd h0 hz

theorem virtualLoop_spec (w : World) (n : Nat) (h : Handler) (hn : n ≤ 99) :
    Later h (virtualLoop w n h) ∧ ((virtualLoop w n h).errors = 0 → h.errors = 0 ∧
      ∃ k, n ≤ k ∧ k ≤ 98 ∧ (w.stage .virtuals k).2 = true ∧
        ∀ j, n ≤ j → j ≤ k → Quiet w .virtuals j) := by
  have hl := say_later w .virtuals n h
  rw [virtualLoop]
  dsimp only
  by_cases h1 : n + 1 > maxIterations
  · rw [if_pos h1]
    refine ⟨hl.trans (build_later ..), fun h0 => ?_⟩
    rw [build_errors] at h0
    simp [heading, errMsg] at h0
  · rw [if_neg h1]
    have h99 : n + 1 ≤ 99 := by simp [maxIterations] at h1; omega
    generalize hh : (if n + 1 = maxIterations then harden (say w .virtuals n h)
      else say w .virtuals n h) = h'
    have hl' : Later h h' := by
      rw [← hh]; split_ifs
      · exact hl.trans (harden_later _)
      · exact hl
    have he' : h'.errors = (say w .virtuals n h).errors := by
      rw [← hh]; split_ifs <;> rfl
    by_cases hs : (w.stage .virtuals n).2 = true
    · rw [if_pos hs]
      refine ⟨hl', fun h0 => ?_⟩
      rw [he'] at h0
      obtain ⟨a, b⟩ := say_zero h0
      refine ⟨a, n, Nat.le_refl _, by omega, hs, ?_⟩
      intro j c e
      have : j = n := by omega
      subst this
      exact b
    · rw [if_neg hs]
      obtain ⟨r1, r2⟩ := virtualLoop_spec w (n + 1) h' h99
      refine ⟨hl'.trans r1, fun h0 => ?_⟩
      obtain ⟨a, k, b, c, e, f⟩ := r2 h0
      rw [he'] at a
      obtain ⟨a, q⟩ := say_zero a
      refine ⟨a, k, by omega, c, e, ?_⟩
      intro j i1 i2
      by_cases hj : j = n
      · subst hj; exact q
      · exact f j (by omega) i2
termination_by 100 - n

theorem checks_spec (w : World) (rounds : Nat) (h : Handler) :
    Later h (checks w rounds h) ∧ ((checks w rounds h).errors = 0 → h.errors = 0 ∧
      (∀ p ∈ [Phase.customArrays, .duplicates, .maxDepth, .abstracts, .pack, .printSizes, .defaults],
        Quiet w p 0) ∧
      ∃ k, k ≤ 98 ∧ (w.stage .virtuals k).2 = true ∧ ∀ j, j ≤ k → Quiet w .virtuals j) := by
  unfold checks
  dsimp only
  generalize h1 : say w .customArrays 0 h = a1
  generalize h2 : sayIf w .duplicates a1 = a2
  generalize h3 : sayIf w .maxDepth a2 = a3
  generalize h4 : (if a3.errors = 0 then virtualLoop w 0 (soften a3) else a3) = a4
  generalize h5 : (if rounds ≥ maxIterations then harden a4 else a4) = a5
  generalize h6 : sayIf w .abstracts a5 = a6
  generalize h7 : sayIf w .pack a6 = a7
  generalize h8 : sayIf w .printSizes a7 = a8
  have l4 : Later a3 a4 := by
    rw [← h4]; split_ifs
    · exact (soften_later a3).trans (virtualLoop_spec w 0 _ (by omega)).1
    · exact Later.refl _
  have l5 : Later a4 a5 := by
    rw [← h5]; split_ifs
    · exact harden_later _
    · exact Later.refl _
  have e5 : a5.errors = a4.errors := by rw [← h5]; split_ifs <;> rfl
  constructor
  · exact (h1 ▸ say_later w .customArrays 0 h).trans <| (h2 ▸ sayIf_later w .duplicates a1).trans <|
      (h3 ▸ sayIf_later w .maxDepth a2).trans <| l4.trans <| l5.trans <|
      (h6 ▸ sayIf_later w .abstracts a5).trans <| (h7 ▸ sayIf_later w .pack a6).trans <|
      (h8 ▸ sayIf_later w .printSizes a7).trans (sayIf_later w .defaults a8)
  · intro h0
    obtain ⟨z8, q9⟩ := sayIf_zero h0
    rw [← h8] at z8
    obtain ⟨z7, q8⟩ := sayIf_zero z8
    rw [← h7] at z7
    obtain ⟨z6, q7⟩ := sayIf_zero z7
    rw [← h6] at z6
    obtain ⟨z5, q6⟩ := sayIf_zero z6
    rw [e5, ← h4] at z5
    split_ifs at z5 with z3
    · obtain ⟨-, k, -, k2, k3, k4⟩ := (virtualLoop_spec w 0 (soften a3) (by omega)).2 z5
      rw [← h3] at z3
      obtain ⟨z2, q3⟩ := sayIf_zero z3
      rw [← h2] at z2
      obtain ⟨z1, q2⟩ := sayIf_zero z2
      rw [← h1] at z1
      obtain ⟨z0, q1⟩ := say_zero z1
      refine ⟨z0, ?_, k, k2, k3, fun j hj => k4 j (by omega) hj⟩
      simp only [List.mem_cons, List.not_mem_nil, or_false, forall_eq_or_imp, forall_eq]
      exact ⟨q1, q2, q3, q6, q7, q8, q9⟩
    · exact absurd z5 z3

theorem summary_spec (w : World) (h : Handler) :
    Later h (summary w h) ∧ (summary w h).errors = h.errors := by
  unfold summary
  dsimp only
  generalize h1 : (if h.warnings > 0 then _ else h) = a1
  have l1 : Later h a1 := by
    rw [← h1]; split_ifs
    · exact build_later ..
    · exact Later.refl _
  have info : ∀ (g : Handler) (t : String), (build w.modes g ⟨.info, "", t, true⟩).errors = g.errors := by
    intro g t
    rw [build_errors]
    have : heading w.modes (!g.waiting) ⟨.info, "", t, true⟩ ≠ some "ERROR" := by
      rw [heading_ne_error]; simp
    simp [this]
  have e1 : a1.errors = h.errors := by
    rw [← h1]; split_ifs
    · exact info _ _
    · rfl
  split_ifs
  · exact ⟨l1.trans (build_later ..), (info _ _).trans e1⟩
  · exact ⟨l1, e1⟩

/-- The stages of `checkProgram` that run once. -/
def once : List Phase := [.lineage, .customArrays, .duplicates, .maxDepth, .abstracts, .pack,
  .printSizes, .defaults, .unknownNames, .longNames, .urSelfSize, .navNodes]

/-- Type labelling came to an end: after a round in which nothing was left, or after the hundredth,
in which nothing of an ordinary class was still waited for; no error was reported in any round. -/
def Labelled (w : World) : Prop :=
  ∃ k, k ≤ 99 ∧ (∀ j, j ≤ k → QuietRound w j (decide (j = 99))) ∧ (Settled w k ∨ k = 99)

/-- The virtual tables came to an end within 99 rounds, without an error. -/
def Tabled (w : World) : Prop :=
  ∃ k, k ≤ 98 ∧ (w.stage .virtuals k).2 = true ∧ ∀ j, j ≤ k → Quiet w .virtuals j

theorem attach_sound {h : Handler} (hs : Sound h) : Good (clear (attach h)) ↔ h.errors = 0 := by
  constructor
  · intro hg
    have := hg.2.count
    have hc := hs.count
    simp only [clear, attach] at this
    omega
  · intro h0
    refine ⟨rfl, ⟨hs.seen, hs.shown, hs.told, ?_⟩⟩
    have hc := hs.count
    rw [h0] at hc
    exact hc

theorem checkProgram_spec (w : World) (h : Handler) (hs : Sound h) (h0 : h.errors = 0)
    (hw : h.waiting = true) :
    Good (checkProgram w h) ∧ (∀ x ∈ h.out, x ∈ (checkProgram w h).out) ∧
    (∀ s, Written.raw s ∈ (checkProgram w h).out → Written.raw s ∈ h.out) ∧
    ((checkProgram w h).errors = 0 → (∀ p ∈ once, Quiet w p 0) ∧ Labelled w ∧ Tabled w) := by
  unfold checkProgram
  dsimp only
  have hg := (attach_sound hs).mpr h0
  generalize h1 : say w .lineage 0 (clear (attach h)) = a1
  have l1 : Later (clear (attach h)) a1 := h1 ▸ say_later ..
  have g1 := l1.good hg
  have w1 : a1.waiting = true := by rw [← h1, say, reports_waiting]; exact hw
  generalize h2 : (if a1.errors = 0 then resolve w 0 a1 else (a1, 0)) = r
  have s2 : Good r.1 ∧ (∀ x ∈ a1.out, x ∈ r.1.out) ∧
      (∀ s, Written.raw s ∈ r.1.out → Written.raw s ∈ a1.out) ∧
      (r.1.errors = 0 → a1.errors = 0 ∧ Labelled w) := by
    rw [← h2]
    split_ifs with hz
    · obtain ⟨p1, p2, p3, p4⟩ := resolve_spec w 0 a1 (by omega) g1 hz (by simpa using w1)
      refine ⟨p1, p2, p3, fun hz' => ⟨hz, ?_⟩⟩
      obtain ⟨k, -, k2, -, k4, -, k6⟩ := p4 hz'
      exact ⟨k, k2, fun j hj => k4 j (by omega) hj, k6⟩
    · exact ⟨g1, fun _ => id, fun _ => id, fun hz' => absurd hz' hz⟩
  obtain ⟨g2, m2, r2, e2⟩ := s2
  obtain ⟨b, rounds⟩ := r
  dsimp only at g2 m2 r2 e2 ⊢
  generalize h3 : (if b.errors = 0 then checks w rounds b else b) = a3
  have l3 : Later b a3 := by
    rw [← h3]; split_ifs
    · exact (checks_spec ..).1
    · exact Later.refl _
  generalize h4 : sayIf w .unknownNames a3 = a4
  generalize h5 : say w .longNames 0 a4 = a5
  generalize h6 : say w .urSelfSize 0 a5 = a6
  generalize h7 : say w .navNodes 0 a6 = a7
  have l7 : Later b (summary w a7) :=
    l3.trans <| (h4 ▸ sayIf_later w .unknownNames a3).trans <| (h5 ▸ say_later w .longNames 0 a4).trans <|
      (h6 ▸ say_later w .urSelfSize 0 a5).trans <| (h7 ▸ say_later w .navNodes 0 a6).trans
      (summary_spec w a7).1
  refine ⟨l7.good g2, fun x hx => l7.mono x (m2 x (l1.mono x hx)),
    fun s hx => l1.raw s (r2 s (l7.raw s hx)), fun hz => ?_⟩
  rw [(summary_spec w a7).2, ← h7] at hz
  obtain ⟨z6, q7⟩ := say_zero hz
  rw [← h6] at z6
  obtain ⟨z5, q6⟩ := say_zero z6
  rw [← h5] at z5
  obtain ⟨z4, q5⟩ := say_zero z5
  rw [← h4] at z4
  obtain ⟨z3, q4⟩ := sayIf_zero z4
  rw [← h3] at z3
  split_ifs at z3 with zb
  · obtain ⟨-, qs, tab⟩ := (checks_spec w rounds b).2 z3
    obtain ⟨z1, lab⟩ := e2 zb
    rw [← h1] at z1
    obtain ⟨-, q1⟩ := say_zero z1
    refine ⟨?_, lab, tab⟩
    simp only [List.mem_cons, List.not_mem_nil, or_false, forall_eq_or_imp, forall_eq] at qs
    simp only [once, List.mem_cons, List.not_mem_nil, or_false, forall_eq_or_imp, forall_eq]
    tauto
  · exact absurd z3 zb

end Ulam.Driver
