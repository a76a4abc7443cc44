import Verif.Preparse.Spec
import Mathlib.Tactic.SplitIfs
/-! # Helper lemmas for directives -/
namespace Ulam.Preparse
open Spec
variable {D : Disk} {cur : Nat}

/-- Nothing has been unread. -/
def Clean (s : St) : Prop := s.lexHave = false ∧ s.have_ = false

/-- With enough fuel, the call comes to this. -/
def Ends (D : Disk) (cur : Nat) (s : St) (o : Out) : Prop := ∃ N, ∀ n, N ≤ n → pre D cur n s = o

/-- The state after the preparser took a token of the text. -/
def took (s : St) (t : Tok) (st : List (List Tok)) : St := { s with stack := st, lexLast := t, last := t }

/-- The state after the lexer took a token of the text. -/
def lexTook (s : St) (t : Tok) (st : List (List Tok)) : St := { s with stack := st, lexLast := t }

theorem clean_took {s : St} (h : Clean s) (t : Tok) (st : List (List Tok)) : Clean (took s t st) := h
theorem clean_lexTook {s : St} (h : Clean s) (t : Tok) (st : List (List Tok)) : Clean (lexTook s t st) := h

theorem lexNext_clean {s : St} (h : Clean s) {t : Tok} {st : List (List Tok)} (hp : popTok s.bare s.stack = (t, st)) :
    lexNext s = (decide (t ≠ .err), t, lexTook s t st) := by
  unfold lexNext lexTook
  rw [h.1, hp]; rfl

theorem first_clean {s : St} (h : Clean s) {t : Tok} {st : List (List Tok)} (hp : popTok s.bare s.stack = (t, st)) :
    first s = (t, took s t st) := by
  unfold first
  rw [h.2, lexNext_clean h hp]; rfl

theorem pop_cons {b : Bool} {t u : Tok} {ts : List Tok} {fs : List (List Tok)} :
    popTok b ((t :: u :: ts) :: fs) = (t, (u :: ts) :: fs) := by
  unfold popTok
  simp

theorem pop_notNum {b : Bool} {t : Tok} (h : isNum t = false) {ts : List Tok} {fs : List (List Tok)} :
    popTok b ((t :: ts) :: fs) = (t, ts :: fs) := by
  unfold popTok
  simp [h]

/-- Reading a name. -/
theorem pkgName_ok {ns : List Tok} {p : List Char} (hp : Package ns p) : ∀ {s : St}, Clean s → ∀ {ts : List Tok} {fs : List (List Tok)},
    s.stack = (ns ++ .semi :: ts) :: fs → ∀ (q : List Char) (n : Nat), ns.length + 1 ≤ n →
    pkgName n s q = some (true, q ++ p ++ ".ulam".toList, lexTook s .semi (ts :: fs)) := by
  have hsemi : ∀ {s : St}, Clean s → ∀ {ts : List Tok} {fs : List (List Tok)}, s.stack = (.semi :: ts) :: fs →
      ∀ (q : List Char) (n : Nat), 1 ≤ n → pkgName n s q = some (true, q ++ ".ulam".toList, lexTook s .semi (ts :: fs)) := by
    intro s h ts fs hs q n hn
    obtain ⟨m, rfl⟩ : ∃ m, n = m + 1 := ⟨n - 1, by omega⟩
    have hq : popTok s.bare s.stack = (.semi, ts :: fs) := by rw [hs]; exact pop_notNum rfl
    rw [pkgName, lexNext_clean h hq]
    rfl
  have hlex : ∀ (s : St) (t u : Tok) (a b : List (List Tok)), lexTook (lexTook s t a) u b = lexTook s u b := fun _ _ _ _ _ => rfl
  induction hp with
  | lower x =>
    intro s h ts fs hs q n hn
    obtain ⟨m, rfl⟩ : ∃ m, n = m + 1 := ⟨n - 1, by omega⟩
    have hq : popTok s.bare s.stack = (.ident x, (.semi :: ts) :: fs) := by rw [hs]; exact pop_notNum rfl
    rw [pkgName, lexNext_clean h hq]
    simp only [List.length_cons, List.length_nil] at hn
    exact (hsemi (s := lexTook s _ _) (clean_lexTook h _ _) rfl (q ++ x) m (by omega))
  | upper x =>
    intro s h ts fs hs q n hn
    obtain ⟨m, rfl⟩ : ∃ m, n = m + 1 := ⟨n - 1, by omega⟩
    have hq : popTok s.bare s.stack = (.typeIdent x, (.semi :: ts) :: fs) := by rw [hs]; exact pop_notNum rfl
    rw [pkgName, lexNext_clean h hq]
    simp only [List.length_cons, List.length_nil] at hn
    exact (hsemi (s := lexTook s _ _) (clean_lexTook h _ _) rfl (q ++ x) m (by omega))
  | @lowerDot x ns p hp ih =>
    intro s h ts fs hs q n hn
    simp only [List.length_cons] at hn
    obtain ⟨m, rfl⟩ : ∃ m, n = m + 1 + 1 := ⟨n - 2, by omega⟩
    have hq : popTok s.bare s.stack = (.ident x, (.dot :: (ns ++ .semi :: ts)) :: fs) := by rw [hs]; exact pop_notNum rfl
    have hq2 : popTok (lexTook s (.ident x) ((.dot :: (ns ++ .semi :: ts)) :: fs)).bare
        (lexTook s (.ident x) ((.dot :: (ns ++ .semi :: ts)) :: fs)).stack = (.dot, (ns ++ .semi :: ts) :: fs) := pop_notNum rfl
    rw [pkgName, lexNext_clean h hq]
    show pkgName (m + 1) (lexTook s _ _) (q ++ x) = _
    rw [pkgName, lexNext_clean (clean_lexTook h _ _) hq2]
    show pkgName m (lexTook (lexTook s _ _) _ _) (q ++ x ++ ['/']) = _
    rw [hlex, ih (s := lexTook s _ _) (clean_lexTook h _ _) rfl (q ++ x ++ ['/']) m (by omega), hlex]
    simp
  | @upperDot x ns p hp ih =>
    intro s h ts fs hs q n hn
    simp only [List.length_cons] at hn
    obtain ⟨m, rfl⟩ : ∃ m, n = m + 1 + 1 := ⟨n - 2, by omega⟩
    have hq : popTok s.bare s.stack = (.typeIdent x, (.dot :: (ns ++ .semi :: ts)) :: fs) := by rw [hs]; exact pop_notNum rfl
    have hq2 : popTok (lexTook s (.typeIdent x) ((.dot :: (ns ++ .semi :: ts)) :: fs)).bare
        (lexTook s (.typeIdent x) ((.dot :: (ns ++ .semi :: ts)) :: fs)).stack = (.dot, (ns ++ .semi :: ts) :: fs) := pop_notNum rfl
    rw [pkgName, lexNext_clean h hq]
    show pkgName (m + 1) (lexTook s _ _) (q ++ x) = _
    rw [pkgName, lexNext_clean (clean_lexTook h _ _) hq2]
    show pkgName m (lexTook (lexTook s _ _) _ _) (q ++ x ++ ['/']) = _
    rw [hlex, ih (s := lexTook s _ _) (clean_lexTook h _ _) rfl (q ++ x ++ ['/']) m (by omega), hlex]
    simp

/-- A token that is no directive is handed on. -/
theorem pre_plain {s : St} (h : Clean s) {t : Tok} {st : List (List Tok)} (hp : popTok s.bare s.stack = (t, st))
    (ht : t ≠ .use ∧ t ≠ .load ∧ t ≠ .ulam) (n : Nat) : pre D cur (n + 1) s = .tok true t (took s t st) := by
  rw [pre, first_clean h hp]
  obtain ⟨h1, h2, h3⟩ := ht
  cases t <;> first | rfl | contradiction

theorem ends_of_succ {s s1 : St} {o : Out} {N : Nat} (h : ∀ n, N ≤ n → pre D cur (n + 1) s = pre D cur n s1)
    (h1 : Ends D cur s1 o) : Ends D cur s o := by
  obtain ⟨M, hM⟩ := h1
  refine ⟨max N M + 1, fun n hn => ?_⟩
  obtain ⟨m, rfl⟩ : ∃ m, n = m + 1 := ⟨n - 1, by omega⟩
  rw [h m (by omega), hM m (by omega)]

theorem pre_use {s : St} (h : Clean s) {ns : List Tok} {p : List Char} (hp : Package ns p) {ts : List Tok} {fs : List (List Tok)}
    (hs : s.stack = (.use :: (ns ++ .semi :: ts)) :: fs) (n : Nat) (hn : ns.length + 1 ≤ n) :
    pre D cur (n + 1) s = if (D (p ++ ".ulam".toList)).isSome then pre D cur n (lexTook (took s .use (ts :: fs)) .semi (ts :: fs))
      else .tok false .err (lexTook (took s .use (ts :: fs)) .semi (ts :: fs)) := by
  have hq : popTok s.bare s.stack = (.use, (ns ++ .semi :: ts) :: fs) := by rw [hs]; exact pop_notNum rfl
  rw [pre, first_clean h hq]
  dsimp only
  rw [pkgName_ok hp (s := took s .use _) (clean_took h _ _) rfl [] n hn]
  rfl

theorem pre_load {s : St} (h : Clean s) {ns : List Tok} {p : List Char} (hp : Package ns p) {ts : List Tok} {fs : List (List Tok)}
    (hs : s.stack = (.load :: (ns ++ .semi :: ts)) :: fs) (n : Nat) (hn : ns.length + 1 ≤ n) :
    pre D cur (n + 1) s = match D (p ++ ".ulam".toList) with
      | some vs => pre D cur n (lexTook (took s .load (ts :: fs)) .semi (vs :: ts :: fs))
      | none => .tok false .err (lexTook (took s .load (ts :: fs)) .semi (ts :: fs)) := by
  have hq : popTok s.bare s.stack = (.load, (ns ++ .semi :: ts) :: fs) := by rw [hs]; exact pop_notNum rfl
  rw [pre, first_clean h hq]
  dsimp only
  rw [pkgName_ok hp (s := took s .load _) (clean_took h _ _) rfl [] n hn]
  rfl

theorem pre_loadFile {s : St} (h : Clean s) {p : List Char} {ts : List Tok} {fs : List (List Tok)}
    (hs : s.stack = (.load :: .str (some p) :: .semi :: ts) :: fs) (n : Nat) (hn : 1 ≤ n) :
    pre D cur (n + 1) s = match D p with
      | some vs => pre D cur n (lexTook (took s .load (ts :: fs)) .semi (vs :: ts :: fs))
      | none => .tok false .err (lexTook (took s .load (ts :: fs)) .semi (ts :: fs)) := by
  obtain ⟨m, rfl⟩ : ∃ m, n = m + 1 := ⟨n - 1, by omega⟩
  have hq : popTok s.bare s.stack = (.load, (.str (some p) :: .semi :: ts) :: fs) := by rw [hs]; exact pop_notNum rfl
  have h1 := clean_took h .load ((.str (some p) :: .semi :: ts) :: fs)
  have hq1 : popTok (took s .load ((.str (some p) :: .semi :: ts) :: fs)).bare (took s .load ((.str (some p) :: .semi :: ts) :: fs)).stack
      = (.str (some p), (.semi :: ts) :: fs) := pop_notNum rfl
  have hk : pkgName (m + 1) (took s .load ((.str (some p) :: .semi :: ts) :: fs)) [] =
      some (false, [], lexUnread (lexTook (took s .load ((.str (some p) :: .semi :: ts) :: fs)) (.str (some p)) ((.semi :: ts) :: fs))) := by
    rw [pkgName, lexNext_clean h1 hq1]
    rfl
  have hf : fileName (lexUnread (lexTook (took s .load ((.str (some p) :: .semi :: ts) :: fs)) (.str (some p)) ((.semi :: ts) :: fs))) [] =
      (true, p, lexTook (took s .load (ts :: fs)) .semi (ts :: fs)) := by
    unfold fileName
    have hl : lexNext (lexUnread (lexTook (took s .load ((.str (some p) :: .semi :: ts) :: fs)) (.str (some p)) ((.semi :: ts) :: fs))) =
        (true, .str (some p), lexTook (took s .load ((.str (some p) :: .semi :: ts) :: fs)) (.str (some p)) ((.semi :: ts) :: fs)) := by
      unfold lexNext lexUnread
      simp only [if_true, Prod.mk.injEq]
      refine ⟨trivial, rfl, ?_⟩
      unfold lexTook took
      simp [h.1]
    rw [hl]
    dsimp only
    have hq2 : popTok (lexTook (took s .load ((.str (some p) :: .semi :: ts) :: fs)) (.str (some p)) ((.semi :: ts) :: fs)).bare
      (lexTook (took s .load ((.str (some p) :: .semi :: ts) :: fs)) (.str (some p)) ((.semi :: ts) :: fs)).stack = (.semi, ts :: fs) :=
      pop_notNum rfl
    rw [lexNext_clean (clean_lexTook h1 _ _) hq2]
    rfl
  rw [pre, first_clean h hq]
  dsimp only
  rw [hk]
  dsimp only
  rw [hf]
  rfl

theorem pre_ulam {s : St} (h : Clean s) {v : Nat} (hv : asU32 v ≤ cur) {ts : List Tok} {fs : List (List Tok)}
    (hs : s.stack = (.ulam :: .num (some v) :: .semi :: ts) :: fs) (n : Nat) (hn : 1 ≤ n) :
    pre D cur (n + 1) s = pre D cur n (took s .semi (ts :: fs)) := by
  obtain ⟨m, rfl⟩ : ∃ m, n = m + 1 := ⟨n - 1, by omega⟩
  have hq : popTok s.bare s.stack = (.ulam, (.num (some v) :: .semi :: ts) :: fs) := by rw [hs]; exact pop_notNum rfl
  have h1 := clean_took h .ulam ((.num (some v) :: .semi :: ts) :: fs)
  have hq1 : popTok (took s .ulam ((.num (some v) :: .semi :: ts) :: fs)).bare (took s .ulam ((.num (some v) :: .semi :: ts) :: fs)).stack
      = (.num (some v), (.semi :: ts) :: fs) := pop_cons
  have h2 := clean_took h1 (.num (some v)) ((.semi :: ts) :: fs)
  have hq2 : popTok (took (took s .ulam ((.num (some v) :: .semi :: ts) :: fs)) (.num (some v)) ((.semi :: ts) :: fs)).bare
      (took (took s .ulam ((.num (some v) :: .semi :: ts) :: fs)) (.num (some v)) ((.semi :: ts) :: fs)).stack = (.semi, ts :: fs) :=
      pop_notNum rfl
  rw [pre, first_clean h hq]
  dsimp only
  rw [pre_plain h1 hq1 (by simp)]
  dsimp only
  have hsv : setVersion cur (.num (some v)) (took (took s .ulam ((.num (some v) :: .semi :: ts) :: fs)) (.num (some v)) ((.semi :: ts) :: fs))
      = some true := by
    unfold setVersion
    simp [hv, took]
  rw [hsv]
  dsimp only
  rw [pre_plain h2 hq2 (by simp)]
  simp only [if_true]
  rfl

theorem pre_skip {s : St} (h : Clean s) {fs : List (List Tok)} (hs : s.stack = [] :: fs) (n : Nat) :
    pre D cur n s = pre D cur n { s with stack := fs } := by
  cases n with
  | zero => rfl
  | succ n =>
    have h2 : Clean { s with stack := fs } := h
    have e : popTok s.bare s.stack = popTok s.bare fs := by rw [hs]; rfl
    rw [pre.eq_def, pre.eq_def D cur (n + 1) { s with stack := fs }]
    dsimp only
    rw [first_clean h (t := (popTok s.bare fs).1) (st := (popTok s.bare fs).2) (by rw [e]),
      first_clean h2 (t := (popTok s.bare fs).1) (st := (popTok s.bare fs).2) rfl]
    rfl

/-- Tokens read one after another, with directives carried out in between. -/
inductive Path (D : Disk) (cur : Nat) : St → List Tok → St → Prop
  | refl (s : St) : Path D cur s [] s
  | tok {s s1 s2 : St} {u : Tok} {us : List Tok} : Ends D cur s (.tok true u s1) → u ≠ .eof → u ≠ .err →
      Path D cur s1 us s2 → Path D cur s (u :: us) s2
  | skip {s s1 s2 : St} {us : List Tok} : (∀ o, Ends D cur s1 o → Ends D cur s o) → Path D cur s1 us s2 → Path D cur s us s2

theorem Path.append {s s1 s2 : St} {us vs : List Tok} (h : Path D cur s us s1) (h2 : Path D cur s1 vs s2) :
    Path D cur s (us ++ vs) s2 := by
  induction h with
  | refl => exact h2
  | tok a b c _ ih => exact .tok a b c (ih h2)
  | skip a _ ih => exact .skip a (ih h2)

theorem expands_nil {us : List Tok} (h : Expands D cur [] us) : us = [] := by
  cases h; rfl

/-- A file is read as what it stands for, whatever is open below it. -/
theorem path_of_expands (hcur : cur < 2 ^ 32) {ts us : List Tok} (h : Expands D cur ts us) : ∀ {s : St}, Clean s →
    ∀ {fs : List (List Tok)}, s.stack = ts :: fs → ∃ s2, Path D cur s us s2 ∧ Clean s2 ∧ s2.stack = fs ∧ s2.bare = s.bare := by
  induction h with
  | nil =>
    intro s h fs hs
    refine ⟨{ s with stack := fs }, .skip ?_ (.refl _), h, rfl, rfl⟩
    rintro o ⟨N, hN⟩
    exact ⟨N, fun n hn => by rw [pre_skip h hs]; exact hN n hn⟩
  | @tok t ts us hp he ih =>
    intro s h fs hs
    obtain ⟨p1, p2, p3, p4, p5⟩ := hp
    have key : ∀ st, popTok s.bare s.stack = (t, st) → Ends D cur s (.tok true t (took s t st)) := by
      intro st hq
      refine ⟨1, fun n hn => ?_⟩
      obtain ⟨m, rfl⟩ : ∃ m, n = m + 1 := ⟨n - 1, by omega⟩
      exact pre_plain h hq ⟨p1, p2, p3⟩ m
    by_cases hb : (s.bare && fs.isEmpty && ts.isEmpty && isNum t) = true
    · have hq : popTok s.bare s.stack = (t, []) := by rw [hs]; unfold popTok; rw [if_pos hb]
      simp only [Bool.and_eq_true, List.isEmpty_iff] at hb
      obtain ⟨⟨⟨_, hf⟩, ht⟩, _⟩ := hb
      subst hf ht
      have := expands_nil he
      subst this
      exact ⟨_, .tok (key _ hq) p5 p4 (.refl _), clean_took h _ _, rfl, rfl⟩
    · have hq : popTok s.bare s.stack = (t, ts :: fs) := by rw [hs]; unfold popTok; rw [if_neg hb]
      obtain ⟨s2, h1, h2, h3, h4⟩ := ih (s := took s t (ts :: fs)) (clean_took h _ _) rfl
      exact ⟨s2, .tok (key _ hq) p5 p4 h1, h2, h3, h4⟩
  | @use ns p ts us hp hd he ih =>
    intro s h fs hs
    obtain ⟨s2, h1, h2, h3, h4⟩ := ih (s := lexTook (took s .use (ts :: fs)) .semi (ts :: fs)) h rfl
    refine ⟨s2, .skip (fun o => ?_) h1, h2, h3, h4⟩
    refine ends_of_succ (N := ns.length + 1) fun n hn => ?_
    rw [pre_use h hp hs n hn, if_pos]
    exact Option.isSome_iff_ne_none.2 hd
  | @load ns p vs xs ts us hp hd hv he ihv ih =>
    intro s h fs hs
    obtain ⟨s1, h1, h2, h3, h4⟩ := ihv (s := lexTook (took s .load (ts :: fs)) .semi (vs :: ts :: fs)) h (fs := ts :: fs) rfl
    obtain ⟨s2, g1, g2, g3, g4⟩ := ih (s := s1) h2 h3
    refine ⟨s2, .skip (fun o => ?_) (h1.append g1), g2, g3, g4.trans h4⟩
    refine ends_of_succ (N := ns.length + 1) fun n hn => ?_
    rw [pre_load h hp hs n hn, hd]
  | @loadFile p vs xs ts us hd hv he ihv ih =>
    intro s h fs hs
    obtain ⟨s1, h1, h2, h3, h4⟩ := ihv (s := lexTook (took s .load (ts :: fs)) .semi (vs :: ts :: fs)) h (fs := ts :: fs) rfl
    obtain ⟨s2, g1, g2, g3, g4⟩ := ih (s := s1) h2 h3
    refine ⟨s2, .skip (fun o => ?_) (h1.append g1), g2, g3, g4.trans h4⟩
    refine ends_of_succ (N := 1) fun n hn => ?_
    rw [pre_loadFile h hs n hn, hd]
  | @ulam v ts us hv he ih =>
    intro s h fs hs
    obtain ⟨s2, h1, h2, h3, h4⟩ := ih (s := took s .semi (ts :: fs)) h rfl
    refine ⟨s2, .skip (fun o => ?_) h1, h2, h3, h4⟩
    refine ends_of_succ (N := 1) fun n hn => pre_ulam h ?_ hs n hn
    unfold asU32
    omega

/-- Tokens up to the end. -/
inductive Feeds (D : Disk) (cur : Nat) : St → List Tok → Prop
  | done {s s1 : St} : Ends D cur s (.tok true .eof s1) → Clean s1 → s1.stack = [] → Feeds D cur s []
  | step {s s1 : St} {u : Tok} {us : List Tok} : Ends D cur s (.tok true u s1) → u ≠ .eof → u ≠ .err → Feeds D cur s1 us →
      Feeds D cur s (u :: us)

theorem feeds_of_path {s s2 : St} {us vs : List Tok} (h : Path D cur s us s2) (h2 : Feeds D cur s2 vs) : Feeds D cur s (us ++ vs) := by
  induction h with
  | refl => exact h2
  | tok a b c _ ih => exact .step a b c (ih h2)
  | skip a _ ih =>
    generalize hw : _ ++ vs = ws at ih ⊢
    cases ih h2 with
    | done a1 a2 a3 => exact .done (a _ a1) a2 a3
    | step a1 a2 a3 a4 => exact .step (a _ a1) a2 a3 a4

theorem pre_end {s : St} (h : Clean s) (hs : s.stack = []) (n : Nat) : pre D cur (n + 1) s = .tok true .eof (took s .eof []) :=
  pre_plain h (by rw [hs]; rfl) (by simp) n

theorem stream_ok {n k : Nat} {s s1 : St} {d : Option Nat} {t : Tok} (h : parserNext D cur n s = .tok 0 d t s1) :
    stream D cur n (k + 1) s = (stream D cur n k s1).map fun l => (d, t) :: l := by
  rw [stream, h]; rfl

/-- At the end, the end is read again and again. -/
theorem stream_end {s : St} (h : Clean s) (hs : s.stack = []) (n k : Nat) :
    stream D cur (n + 1) k s = some (List.replicate k (none, Tok.eof)) := by
  induction k generalizing s with
  | zero => rfl
  | succ k ih =>
    have : parserNext D cur (n + 1) s = .tok 0 none .eof (took s .eof []) := by
      unfold parserNext
      rw [pre_end h hs n]
    rw [stream_ok this, ih (clean_took h _ _) rfl]
    rfl

theorem stream_of_feeds : ∀ (m : Nat) {s : St} {us : List Tok}, us.length ≤ m → Feeds D cur s us → Apart us → ∃ N, ∀ n, N ≤ n → ∀ k,
    stream D cur n k s = some ((attach us ++ List.replicate k (none, Tok.eof)).take k) := by
  intro m
  induction m with
  | zero =>
    intro s us hl hf _
    cases hf with
    | @done s s1 a1 a2 a3 =>
      obtain ⟨N, hN⟩ := a1
      refine ⟨N + 1, fun n hn k => ?_⟩
      obtain ⟨j, rfl⟩ : ∃ j, n = j + 1 := ⟨n - 1, by omega⟩
      cases k with
      | zero => rfl
      | succ k =>
        have : parserNext D cur (j + 1) s = .tok 0 none .eof s1 := by
          unfold parserNext; rw [hN _ (by omega)]
        rw [stream_ok this]
        rw [stream_end a2 a3]
        simp [attach, List.replicate_succ]
    | step => simp at hl
  | succ m ih =>
    intro s us hl hf hap
    cases hf with
    | @done s s1 a1 a2 a3 =>
      obtain ⟨N, hN⟩ := a1
      refine ⟨N + 1, fun n hn k => ?_⟩
      obtain ⟨j, rfl⟩ : ∃ j, n = j + 1 := ⟨n - 1, by omega⟩
      cases k with
      | zero => rfl
      | succ k =>
        have : parserNext D cur (j + 1) s = .tok 0 none .eof s1 := by
          unfold parserNext; rw [hN _ (by omega)]
        rw [stream_ok this]
        rw [stream_end a2 a3]
        simp [attach, List.replicate_succ]
    | @step s s1 u us a1 a2 a3 a4 =>
      have hap' : Apart us := by
        cases us with
        | nil => trivial
        | cons v us => exact hap.2
      obtain ⟨N, hN⟩ := a1
      cases hu : isComment u with
      | false =>
        simp only [List.length_cons] at hl
        obtain ⟨M, hM⟩ := ih (by omega) a4 hap'
        refine ⟨max N M, fun n hn k => ?_⟩
        cases k with
        | zero => rfl
        | succ k =>
          have : parserNext D cur n s = .tok 0 none u s1 := by
            unfold parserNext; rw [hN _ (by omega)]
            cases u <;> first | rfl | contradiction | (simp [isComment] at hu; done)
          rw [stream_ok this]
          rw [hM n (by omega) k]
          have hat : attach (u :: us) = (none, u) :: attach us := by
            cases u <;> first | rfl | (simp [isComment] at hu) | (rw [attach]; simp)
          rw [hat]
          simp [List.replicate_succ', ← List.append_assoc, List.take_append_of_le_length]
      | true =>
        obtain ⟨c, rfl⟩ : ∃ c, u = .comment c := by
          cases u <;> first | exact ⟨_, rfl⟩ | (simp [isComment] at hu)
        cases a4 with
        | @done s1 s2 b1 b2 b3 =>
          obtain ⟨M, hM⟩ := b1
          refine ⟨max N M + 1, fun n hn k => ?_⟩
          obtain ⟨j, rfl⟩ : ∃ j, n = j + 1 := ⟨n - 1, by omega⟩
          cases k with
          | zero => rfl
          | succ k =>
            have : parserNext D cur (j + 1) s = .tok 0 (some c) .eof s2 := by
              unfold parserNext; rw [hN _ (by omega)]
              dsimp only
              rw [hM _ (by omega)]
            rw [stream_ok this]
            rw [stream_end b2 b3]
            simp [attach, List.replicate_succ', List.take_append_of_le_length]
        | @step s1 s2 v us b1 b2 b3 b4 =>
          obtain ⟨M, hM⟩ := b1
          have hv : isComment v = false := by
            have := hap.1
            cases h : isComment v with
            | false => rfl
            | true => exact absurd ⟨hu, h⟩ this
          have hap2 : Apart us := by
            cases us with
            | nil => trivial
            | cons v us => exact hap'.2
          simp only [List.length_cons] at hl
          obtain ⟨L, hL⟩ := ih (by omega) b4 hap2
          refine ⟨max N (max M L), fun n hn k => ?_⟩
          cases k with
          | zero => rfl
          | succ k =>
            have : parserNext D cur n s = .tok 0 (some c) v s2 := by
              unfold parserNext; rw [hN _ (by omega)]
              dsimp only
              rw [hM _ (by omega)]
            rw [stream_ok this]
            rw [hL n (by omega) k]
            rw [attach]
            simp [List.replicate_succ', ← List.append_assoc, List.take_append_of_le_length]

end Ulam.Preparse
