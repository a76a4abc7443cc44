import Verif.Preparse.Lemmas
/-! # C97: directives -/
namespace Ulam.Preparse
open Spec

/-- **C97 (partial).** When every directive has the form it should have, the files it names are there and no version is newer
than the compiler, the parser reads, without a message, exactly the tokens of the text the program stands for: each loaded file
in place of its directive, comments with the token after them, and after the last token the end, again and again. Missing: a
comment directly after another, see `C97_comments_fails`. -/
theorem C97_reads_partial (D : Disk) (cur : Nat) (hcur : cur < 2 ^ 32) (ts us : List Tok) (bare : Bool)
    (h : Expands D cur ts us) (ha : Apart us) : ∃ N, ∀ n, N ≤ n → ∀ k,
      stream D cur n k (start ts bare) = some ((attach us ++ List.replicate k (none, Tok.eof)).take k) := by
  have hc : Clean (start ts bare) := ⟨rfl, rfl⟩
  obtain ⟨s2, h1, h2, h3, _⟩ := path_of_expands hcur h hc (fs := []) rfl
  have hf : Feeds D cur s2 [] := by
    refine .done (s1 := took s2 .eof []) ⟨1, fun n hn => ?_⟩ (clean_took h2 _ _) rfl
    obtain ⟨m, rfl⟩ : ∃ m, n = m + 1 := ⟨n - 1, by omega⟩
    exact pre_end h2 h3 m
  have := feeds_of_path h1 hf
  rw [List.append_nil] at this
  exact stream_of_feeds us.length (Nat.le_refl _) this ha

/-- A disk with two files, of which one loads the other. -/
def disk : Disk := fun p =>
  if p = "A/b.ulam".toList then some [.other 1, .load, .str (some "c.inc".toList), .semi, .other 2]
  else if p = "c.inc".toList then some [.ulam, .num (some 5), .semi, .comment 7, .num none]
  else none

example : Expands disk 5 [.use, .typeIdent ['A'], .dot, .ident ['b'], .semi, .load, .typeIdent ['A'], .dot, .ident ['b'], .semi, .other 3]
    [.other 1, .comment 7, .num none, .other 2, .other 3] ∧
    stream disk 5 20 5 (start [.use, .typeIdent ['A'], .dot, .ident ['b'], .semi, .load, .typeIdent ['A'], .dot, .ident ['b'], .semi,
      .other 3] true) = some [(none, .other 1), (some 7, .num none), (none, .other 2), (none, .other 3), (none, .eof)] := by
  constructor
  · refine .use (ns := [.typeIdent ['A'], .dot, .ident ['b']]) (.upperDot ['A'] (.lower ['b'])) (by decide) ?_
    refine .load (ns := [.typeIdent ['A'], .dot, .ident ['b']]) (xs := [.other 1, .comment 7, .num none, .other 2])
      (.upperDot ['A'] (.lower ['b'])) (by decide +kernel : _ = some [.other 1, .load, .str (some "c.inc".toList), .semi, .other 2]) ?_ ?_
    · refine .tok (by simp [Plain]) (.loadFile (xs := [.comment 7, .num none])
        (by decide +kernel : _ = some [.ulam, .num (some 5), .semi, .comment 7, .num none]) ?_ ?_)
      · exact .ulam (by omega) (.tok (by simp [Plain]) (.tok (by simp [Plain]) .nil))
      · exact .tok (by simp [Plain]) .nil
    · exact .tok (by simp [Plain]) .nil
  · decide +kernel

/-- What an answer of the preparser is, whatever the state. -/
theorem pre_answer (D : Disk) (cur : Nat) : ∀ (n : Nat) (s s' : St) (b : Bool) (t : Tok), pre D cur n s = .tok b t s' →
    (b = false → t = .err) ∧ t ≠ .use ∧ t ≠ .load ∧ t ≠ .ulam ∧ (b = true → s'.last = t ∧ s'.have_ = false) := by
  intro n
  induction n with
  | zero => intro s s' b t h; cases h
  | succ n ih =>
    intro s s' b t h
    have herr : ∀ {s0 : St}, Out.tok false .err s0 = .tok b t s' →
        (b = false → t = .err) ∧ t ≠ .use ∧ t ≠ .load ∧ t ≠ .ulam ∧ (b = true → s'.last = t ∧ s'.have_ = false) := by
      intro s0 h; cases h; simp
    have hfirst : (first s).2.last = (first s).1 ∧ (first s).2.have_ = false := by
      unfold first
      split
      · exact ⟨rfl, rfl⟩
      · rename_i hh
        refine ⟨rfl, ?_⟩
        unfold lexNext
        split <;> simpa using hh
    rw [pre] at h
    generalize hf : first s = f at h hfirst
    obtain ⟨t1, s1⟩ := f
    split at h
    · split at h
      · cases h
      · exact herr h
      · split at h
        · exact ih _ _ _ _ h
        · exact herr h
    · split at h
      · cases h
      · split at h
        · exact ih _ _ _ _ h
        · exact herr h
      · split at h
        · exact herr h
        · split at h
          · exact ih _ _ _ _ h
          · exact herr h
    · split at h
      · cases h
      · cases h
      · split at h
        · cases h
        · split at h
          · cases h
          · cases h
          · split at h
            · split at h
              · exact ih _ _ _ _ h
              · exact herr h
            · exact herr h
    · rename_i h1 h2 h3 heq
      cases heq
      cases h
      refine ⟨by simp, ?_, ?_, ?_, fun _ => hfirst⟩
      · exact fun q => h1 q
      · exact fun q => h2 q
      · exact fun q => h3 q

/-- **C97.** No directive reaches the parser, whatever has been read and unread before. -/
theorem C97_no_directive (D : Disk) (cur n : Nat) (s s' : St) (e : Nat) (d : Option Nat) (t : Tok)
    (h : parserNext D cur n s = .tok e d t s') : t ≠ .use ∧ t ≠ .load ∧ t ≠ .ulam := by
  unfold parserNext at h
  split at h
  · cases h
  · cases h
  · split at h
    · cases h
    · cases h
    · rename_i hp; cases h
      obtain ⟨_, h1, h2, h3, _⟩ := pre_answer D cur _ _ _ _ _ hp
      exact ⟨h1, h2, h3⟩
  · split at h
    · cases h
    · cases h
    · rename_i hp; cases h
      obtain ⟨_, h1, h2, h3, _⟩ := pre_answer D cur _ _ _ _ _ hp
      exact ⟨h1, h2, h3⟩
  · rename_i hp; cases h
    obtain ⟨_, h1, h2, h3, _⟩ := pre_answer D cur _ _ _ _ _ hp
    exact ⟨h1, h2, h3⟩

/-- **C97.** A token that is unread is read again, and nothing else changes: no directive is carried out twice. -/
theorem C97_unread (D : Disk) (cur n m : Nat) (s s' : St) (e : Nat) (d : Option Nat) (t : Tok)
    (h : parserNext D cur n s = .tok e d t s') (he : t ≠ .err) (hc : isComment t = false) :
    parserNext D cur (m + 1) (unreadToken s') = .tok 0 none t s' := by
  have key : ∀ {b : Bool} {s0 : St}, pre D cur n s0 = .tok b t s' → pre D cur (m + 1) (unreadToken s') = .tok true t s' := by
    intro b s0 hp
    obtain ⟨h0, h1, h2, h3, h4⟩ := pre_answer D cur _ _ _ _ _ hp
    have hb : b = true := by
      cases b with
      | true => rfl
      | false => exact absurd (h0 rfl) he
    obtain ⟨h5, h6⟩ := h4 hb
    have hf : first (unreadToken s') = (t, s') := by
      unfold first unreadToken
      simp only [if_true, h5]
      cases s'
      simp only at h5 h6
      rw [h5, h6]
    rw [pre, hf]
    cases t <;> first | rfl | contradiction
  have key2 : ∀ {b : Bool} {s0 : St}, pre D cur n s0 = .tok b t s' →
      parserNext D cur (m + 1) (unreadToken s') = .tok 0 none t s' := by
    intro b s0 hp
    unfold parserNext
    rw [key hp]
    cases t <;> first | rfl | contradiction | (simp [isComment] at hc; done)
  unfold parserNext at h
  split at h
  · cases h
  · cases h
  · split at h
    · cases h
    · cases h
    · rename_i hp; cases h; exact key2 hp
  · split at h
    · cases h
    · cases h
    · rename_i hp; cases h; exact key2 hp
  · rename_i hp; cases h; exact key2 hp

example : stream disk 5 20 2 (start [.load, .str (some "c.inc".toList), .semi, .other 3] false) = some [(some 7, .num none), (none, .other 3)] := by
  decide +kernel

/-- **C97.** Looking at the first token before all else changes nothing of what is read; the assertion about it fails exactly
when the text begins with something that is no token. -/
theorem C97_peek (D : Disk) (cur : Nat) (ts : List Tok) (bare : Bool) :
    (∀ s, peekFirst (start ts bare) = some s → ∀ n, pre D cur n s = pre D cur n (start ts bare)) ∧
    (peekFirst (start ts bare) = none ↔ ∃ us, ts = .err :: us) := by
  constructor
  · intro s h n
    unfold peekFirst at h
    dsimp only at h
    split at h
    · cases h
      cases n with
      | zero => rfl
      | succ n =>
        rw [pre.eq_def, pre.eq_def D cur (n + 1) (start ts bare)]
        dsimp only
        rw [show first { (lexNext (start ts bare)).2.2 with last := (lexNext (start ts bare)).2.1, have_ := true } =
          first (start ts bare) from rfl]
    · cases h
  · cases ts with
    | nil => simp [peekFirst, start, lexNext, popTok]
    | cons t ts =>
      have hp : (popTok bare [t :: ts]).1 = t := by
        unfold popTok; split <;> rfl
      unfold peekFirst lexNext start
      simp [hp]

/-- **C97.** A use of a file that is not there is reported, and reading goes on after the directive. -/
theorem C97_missing_use (D : Disk) (cur : Nat) (ns ts : List Tok) (p : List Char) (fs : List (List Tok)) (s : St)
    (hl : s.lexHave = false) (hh : s.have_ = false) (hs : s.stack = (.use :: (ns ++ .semi :: ts)) :: fs) (hp : Package ns p)
    (hd : D (p ++ ".ulam".toList) = none) : ∃ N s', s'.stack = ts :: fs ∧ s'.lexHave = false ∧ s'.have_ = false ∧
      ∀ n, N ≤ n → pre D cur n s = .tok false .err s' := by
  refine ⟨ns.length + 2, lexTook (took s .use (ts :: fs)) .semi (ts :: fs), rfl, hl, hh, fun n hn => ?_⟩
  obtain ⟨m, rfl⟩ : ∃ m, n = m + 1 := ⟨n - 1, by omega⟩
  rw [pre_use ⟨hl, hh⟩ hp hs m (by omega), hd]
  rfl

/-- **C97.** So is the load of a file that is not there, however it is written. -/
theorem C97_missing_load (D : Disk) (cur : Nat) (ns ts : List Tok) (p : List Char) (fs : List (List Tok)) (s : St)
    (hl : s.lexHave = false) (hh : s.have_ = false)
    (h : (s.stack = (.load :: (ns ++ .semi :: ts)) :: fs ∧ Package ns p ∧ D (p ++ ".ulam".toList) = none) ∨
      (s.stack = (.load :: .str (some p) :: .semi :: ts) :: fs ∧ D p = none)) :
    ∃ N s', s'.stack = ts :: fs ∧ s'.lexHave = false ∧ s'.have_ = false ∧ ∀ n, N ≤ n → pre D cur n s = .tok false .err s' := by
  refine ⟨ns.length + 2, lexTook (took s .load (ts :: fs)) .semi (ts :: fs), rfl, hl, hh, fun n hn => ?_⟩
  obtain ⟨m, rfl⟩ : ∃ m, n = m + 1 := ⟨n - 1, by omega⟩
  rcases h with ⟨hs, hp, hd⟩ | ⟨hs, hd⟩
  · rw [pre_load ⟨hl, hh⟩ hp hs m (by omega), hd]
  · rw [pre_loadFile ⟨hl, hh⟩ hs m (by omega), hd]

example : stream disk 5 20 1 (start [.use, .ident ['b'], .semi, .other 3] true) = none := by decide +kernel

/-- What a version declaration comes to when the number is followed by something. -/
theorem pre_ulam_bad {D : Disk} {cur : Nat} {s : St} (h : Clean s) {v : Tok} (hn : v = .num none ∨ v = .float ∨
    ∃ w, v = .num (some w) ∧ cur < asU32 w) {ts : List Tok} {fs : List (List Tok)}
    (hs : s.stack = (.ulam :: v :: .semi :: ts) :: fs) (n : Nat) :
    pre D cur (n + 2) s = .tok false .err (took s .semi (ts :: fs)) := by
  have hq : popTok s.bare s.stack = (.ulam, (v :: .semi :: ts) :: fs) := by rw [hs]; exact pop_notNum rfl
  have h1 := clean_took h .ulam ((v :: .semi :: ts) :: fs)
  have hq1 : popTok (took s .ulam ((v :: .semi :: ts) :: fs)).bare (took s .ulam ((v :: .semi :: ts) :: fs)).stack
      = (v, (.semi :: ts) :: fs) := pop_cons
  have h2 := clean_took h1 v ((.semi :: ts) :: fs)
  have hq2 : popTok (took (took s .ulam ((v :: .semi :: ts) :: fs)) v ((.semi :: ts) :: fs)).bare
      (took (took s .ulam ((v :: .semi :: ts) :: fs)) v ((.semi :: ts) :: fs)).stack = (.semi, ts :: fs) :=
      pop_notNum rfl
  have hv : v ≠ .use ∧ v ≠ .load ∧ v ≠ .ulam := by
    rcases hn with rfl | rfl | ⟨w, rfl, _⟩ <;> simp
  rw [pre, first_clean h hq]
  dsimp only
  rw [pre_plain h1 hq1 hv]
  dsimp only
  have hsv : setVersion cur v (took (took s .ulam ((v :: .semi :: ts) :: fs)) v ((.semi :: ts) :: fs)) = some false := by
    rcases hn with rfl | rfl | ⟨w, rfl, hw⟩
    · rfl
    · rfl
    · unfold setVersion
      dsimp only
      rw [if_neg (by omega)]
  rw [hsv]
  dsimp only
  rw [pre_plain h2 hq2 (by simp)]
  rfl

/-- **C97.** A version newer than the compiler is reported, if it is a number below 2^32; so is one that is no whole number.
Reading goes on after the directive. -/
theorem C97_bad_version_partial (D : Disk) (cur : Nat) (v : Tok) (ts : List Tok) (fs : List (List Tok)) (s : St)
    (hl : s.lexHave = false) (hh : s.have_ = false) (hs : s.stack = (.ulam :: v :: .semi :: ts) :: fs)
    (hv : v = .num none ∨ v = .float ∨ ∃ w, v = .num (some w) ∧ cur < w ∧ w < 2 ^ 32) :
    ∃ N s', s'.stack = ts :: fs ∧ s'.lexHave = false ∧ s'.have_ = false ∧ ∀ n, N ≤ n → pre D cur n s = .tok false .err s' := by
  refine ⟨2, took s .semi (ts :: fs), rfl, hl, hh, fun n hn => ?_⟩
  obtain ⟨m, rfl⟩ : ∃ m, n = m + 2 := ⟨n - 2, by omega⟩
  refine pre_ulam_bad ⟨hl, hh⟩ ?_ hs m
  rcases hv with h | h | ⟨w, h, h1, h2⟩
  · exact .inl h
  · exact .inr (.inl h)
  · refine .inr (.inr ⟨w, h, ?_⟩)
    unfold asU32
    omega

example : stream disk 5 20 1 (start [.ulam, .num (some 6), .semi, .other 3] true) = none ∧
    stream disk 5 20 1 (start [.ulam, .num (some 4), .semi, .other 3] true) = some [(none, .other 3)] := by
  constructor <;> decide +kernel

/-- **C97.** A use that is followed by something that cannot be part of a name is reported, and that token is read next. -/
theorem C97_no_name (D : Disk) (cur : Nat) (t : Tok) (ts : List Tok) (fs : List (List Tok)) (s : St) (hl : s.lexHave = false)
    (hh : s.have_ = false) (hs : s.stack = (.use :: t :: ts) :: fs) (ht : Plain t)
    (hn : ∀ x, t ≠ .ident x ∧ t ≠ .typeIdent x ∧ t ≠ .dot ∧ t ≠ .semi) (n : Nat) :
    ∃ s', pre D cur (n + 2) s = .tok false .err s' ∧ ∃ s'', pre D cur (n + 2) s' = .tok true t s'' := by
  have h : Clean s := ⟨hl, hh⟩
  have hq : popTok s.bare s.stack = (.use, (t :: ts) :: fs) := by rw [hs]; exact pop_notNum rfl
  have h1 := clean_took h .use ((t :: ts) :: fs)
  generalize hq1 : popTok (took s .use ((t :: ts) :: fs)).bare (took s .use ((t :: ts) :: fs)).stack = r
  obtain ⟨t', st⟩ := r
  have htt : t' = t := by
    have : (popTok s.bare ((t :: ts) :: fs)).1 = t := by unfold popTok; split <;> rfl
    have h2 : popTok s.bare ((t :: ts) :: fs) = (t', st) := hq1
    rw [h2] at this
    exact this
  subst htt
  obtain ⟨p1, p2, p3, p4, p5⟩ := ht
  have hk : pkgName (n + 1) (took s .use ((t' :: ts) :: fs)) [] = some (false, [], lexUnread (lexTook (took s .use ((t' :: ts) :: fs)) t' st)) := by
    rw [pkgName, lexNext_clean h1 hq1, decide_eq_true p4]
    obtain ⟨_, _, n3, n4⟩ := hn []
    cases t' with
    | ident x => exact absurd rfl (hn x).1
    | typeIdent x => exact absurd rfl (hn x).2.1
    | _ => first | rfl | contradiction
  refine ⟨lexUnread (lexTook (took s .use ((t' :: ts) :: fs)) t' st), ?_,
    { lexTook (took s .use ((t' :: ts) :: fs)) t' st with last := t', lexHave := false }, ?_⟩
  · rw [pre, first_clean h hq]
    dsimp only
    rw [hk]
  · have hf : first (lexUnread (lexTook (took s .use ((t' :: ts) :: fs)) t' st)) =
        (t', { lexTook (took s .use ((t' :: ts) :: fs)) t' st with last := t', lexHave := false }) := by
      unfold first lexNext lexUnread lexTook took
      simp [hh]
    rw [pre, hf]
    cases t' <;> first | rfl | contradiction

/-- **C97 (fails).** When a directive comes between two structured comments, the second one is handed to the parser as if it
were part of the program. -/
theorem C97_comments_fails (D : Disk) (cur v a b : Nat) (hcur : cur < 2 ^ 32) (hv : v ≤ cur) (ts : List Tok) (bare : Bool) (n : Nat) :
    ∃ s', parserNext D cur (n + 3) (start (.comment a :: .ulam :: .num (some v) :: .semi :: .comment b :: ts) bare) =
      .tok 0 (some a) (.comment b) s' := by
  have hc : Clean (start (.comment a :: .ulam :: .num (some v) :: .semi :: .comment b :: ts) bare) := ⟨rfl, rfl⟩
  have hq : popTok (start (.comment a :: .ulam :: .num (some v) :: .semi :: .comment b :: ts) bare).bare
      (start (.comment a :: .ulam :: .num (some v) :: .semi :: .comment b :: ts) bare).stack =
      (.comment a, [.ulam :: .num (some v) :: .semi :: .comment b :: ts]) := pop_notNum rfl
  refine ⟨took (took (took (start (.comment a :: .ulam :: .num (some v) :: .semi :: .comment b :: ts) bare) (.comment a)
    [.ulam :: .num (some v) :: .semi :: .comment b :: ts]) .semi [.comment b :: ts]) (.comment b) [ts], ?_⟩
  unfold parserNext
  rw [pre_plain hc hq (by simp)]
  dsimp only
  have h1 := clean_took hc (.comment a) [.ulam :: .num (some v) :: .semi :: .comment b :: ts]
  rw [pre_ulam h1 (by unfold asU32; omega) (ts := .comment b :: ts) (fs := []) rfl (n + 2) (by omega)]
  rw [pre_plain (t := .comment b) (st := [ts]) (clean_took h1 .semi [.comment b :: ts]) (pop_notNum rfl) (by simp)]

/-- **C97 (fails).** Versions are taken modulo 2^32: newer ones may be accepted. -/
theorem C97_version_fails (D : Disk) (cur w k : Nat) (hw : w ≤ cur) (h32 : cur < 2 ^ 32) (hk : k < 2 ^ 31) (ts : List Tok)
    (fs : List (List Tok)) (s : St) (hl : s.lexHave = false) (hh : s.have_ = false)
    (hs : s.stack = (.ulam :: .num (some (k * 2 ^ 32 + w)) :: .semi :: ts) :: fs) :
    ∃ s', s'.stack = ts :: fs ∧ ∀ n, 1 ≤ n → pre D cur (n + 1) s = pre D cur n s' := by
  refine ⟨took s .semi (ts :: fs), rfl, fun n hn => pre_ulam ⟨hl, hh⟩ ?_ hs n hn⟩
  unfold asU32
  omega

example : stream disk 5 20 1 (start [.ulam, .num (some 4294967297), .semi, .other 3] true) = some [(none, .other 3)] := by
  decide +kernel

/-- **C97 (fails).** A text that ends with the number of a version declaration has undefined behaviour. -/
theorem C97_version_at_end_fails (D : Disk) (cur v : Nat) (hv : v ≤ cur) (h32 : cur < 2 ^ 32) (n : Nat) :
    pre D cur (n + 2) (start [.ulam, .num (some v)] true) = .ub := by
  have h : asU32 v ≤ cur := by unfold asU32; omega
  have hc : Clean (start [.ulam, .num (some v)] true) := ⟨rfl, rfl⟩
  have hq : popTok (start [.ulam, .num (some v)] true).bare (start [.ulam, .num (some v)] true).stack = (.ulam, [[.num (some v)]]) :=
    pop_notNum rfl
  rw [pre, first_clean hc hq]
  dsimp only
  rw [pre_plain (t := .num (some v)) (st := []) (clean_took hc _ _) rfl (by simp)]
  dsimp only
  have hsv : setVersion cur (.num (some v)) (took (took (start [.ulam, .num (some v)] true) .ulam [[.num (some v)]]) (.num (some v)) []) =
      none := by
    unfold setVersion
    simp [h, took]
  rw [hsv]

/-- **C97 (fails).** Names that are not of the form are taken too: without dots in between, or begun with identifiers and ended
with a string, the parts are run together. -/
theorem C97_names_fails : ∃ (D : Disk) (x y : List Char), x ≠ [] ∧ y ≠ [] ∧
    stream D 5 20 1 (start [.load, .typeIdent x, .str (some y), .semi] false) = some [(none, .other 1)] ∧
    stream D 5 20 1 (start [.load, .typeIdent x, .typeIdent y, .semi] false) = some [(none, .other 2)] ∧
    D y = none ∧ D (x ++ ".ulam".toList) = none ∧ D (y ++ ".ulam".toList) = none := by
  refine ⟨fun p => if p = ['A', 'B'] then some [.other 1] else if p = ['A', 'B'] ++ ".ulam".toList then some [.other 2] else none,
    ['A'], ['B'], by decide, by decide, ?_, ?_, ?_, ?_, ?_⟩ <;> decide +kernel

/-- **C97 (fails).** A text that begins with something that is no token fails an assertion instead of being reported. -/
theorem C97_first_fails (ts : List Tok) (bare : Bool) : peekFirst (start (.err :: ts) bare) = none := by
  unfold peekFirst lexNext start popTok
  simp [isNum]

/-- **C97.** A load whose file name is not followed by a semicolon is reported, and the file is not read; what stands in the
semicolon's place is read next. -/
theorem C97_no_semicolon (D : Disk) (cur : Nat) (t : Tok) (ts : List Tok) (p : List Char) (fs : List (List Tok)) (s : St)
    (hl : s.lexHave = false) (hh : s.have_ = false) (hs : s.stack = (.load :: .str (some p) :: t :: ts) :: fs)
    (ht : t ≠ .semi) (hn : isNum t = false) : ∃ s', s'.stack = ts :: fs ∧ s'.lexHave = true ∧ s'.lexLast = t ∧
      s'.have_ = false ∧ ∀ n, 2 ≤ n → pre D cur n s = .tok false .err s' := by
  have h : Clean s := ⟨hl, hh⟩
  refine ⟨lexUnread (lexTook (took s .load (ts :: fs)) t (ts :: fs)), rfl, rfl, rfl, hh, fun n hn2 => ?_⟩
  obtain ⟨m, rfl⟩ : ∃ m, n = m + 2 := ⟨n - 2, by omega⟩
  have hq : popTok s.bare s.stack = (.load, (.str (some p) :: t :: ts) :: fs) := by rw [hs]; exact pop_notNum rfl
  have h1 := clean_took h .load ((.str (some p) :: t :: ts) :: fs)
  have hq1 : popTok (took s .load ((.str (some p) :: t :: ts) :: fs)).bare (took s .load ((.str (some p) :: t :: ts) :: fs)).stack
      = (.str (some p), (t :: ts) :: fs) := pop_notNum rfl
  have hk : pkgName (m + 1) (took s .load ((.str (some p) :: t :: ts) :: fs)) [] =
      some (false, [], lexUnread (lexTook (took s .load ((.str (some p) :: t :: ts) :: fs)) (.str (some p)) ((t :: ts) :: fs))) := by
    rw [pkgName, lexNext_clean h1 hq1]
    rfl
  have hf : fileName (lexUnread (lexTook (took s .load ((.str (some p) :: t :: ts) :: fs)) (.str (some p)) ((t :: ts) :: fs))) [] =
      (false, p, lexUnread (lexTook (took s .load (ts :: fs)) t (ts :: fs))) := by
    unfold fileName
    have hl : lexNext (lexUnread (lexTook (took s .load ((.str (some p) :: t :: ts) :: fs)) (.str (some p)) ((t :: ts) :: fs))) =
        (true, .str (some p), lexTook (took s .load ((.str (some p) :: t :: ts) :: fs)) (.str (some p)) ((t :: ts) :: fs)) := by
      unfold lexNext lexUnread
      simp only [if_true, Prod.mk.injEq]
      refine ⟨trivial, rfl, ?_⟩
      unfold lexTook took
      simp [hl]
    rw [hl]
    dsimp only
    rw [lexNext_clean (clean_lexTook h1 _ _) (pop_notNum hn)]
    cases t <;> first | rfl | exact absurd rfl ht
  rw [pre, first_clean h hq]
  dsimp only
  rw [hk]
  dsimp only
  rw [hf]

example : pre disk 5 9 (start [.load, .str (some ['b']), .other 3, .other 4] true) =
    .tok false .err ⟨[[.other 4]], true, .other 3, true, .load, false⟩ := by rfl

/-- **C97.** Of every mistake in a directive the parser counts one message, and goes on with the token after it. -/
theorem C97_message (D : Disk) (cur n : Nat) (s s' s'' : St) (b : Bool) (t : Tok) (h : pre D cur n s = .tok false .err s')
    (h' : pre D cur n s' = .tok b t s'') : parserNext D cur n s = .tok 1 none t s'' := by
  unfold parserNext
  rw [h]
  dsimp only
  rw [h']

example : parserNext disk 5 9 (start [.load, .str (some ['b']), .other 3, .other 4] true) =
    .tok 1 none (.other 3) ⟨[[.other 4]], true, .other 3, false, .other 3, false⟩ := by rfl

end Ulam.Preparse
