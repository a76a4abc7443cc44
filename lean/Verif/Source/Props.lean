import Verif.Source.Lemmas
/-
C26: loaded files are spliced in place. C25: reported positions are right.
-/
namespace Ulam.Source

def flatten (fs : List Frame) : List Nat := (fs.map Frame.rest).flatten

structure Rel (disk : Disk) (s : St) (w : Files) (f : Flat) : Prop where
  core : Core disk s w.frames w.names
  just : w.just = true → Just s w.frames
  rest : f.rest = flatten w.frames
  names : f.names = w.names
  last : f.last = if w.just then w.frames.head?.bind (fun g => g.done.head?) else none

theorem takeByte_flatten (fs : List Frame) :
    flatten fs = (match (takeByte fs).1 with | some b => [b] | none => []) ++ flatten (takeByte fs).2 ∧
    ((takeByte fs).1 = none → (takeByte fs).2 = []) ∧
    (takeByte fs).1 = (takeByte fs).2.head?.bind (fun g => g.done.head?) := by
  induction fs with
  | nil => simp [takeByte, flatten]
  | cons f fs ih =>
    cases e : f.rest with
    | nil =>
      have ht : takeByte (f :: fs) = takeByte fs := by simp [takeByte, e]
      have hfl : flatten (f :: fs) = flatten fs := by simp [flatten, e]
      rw [ht, hfl]; exact ih
    | cons b r =>
      have ht : takeByte (f :: fs) = (some b, { f with done := b :: f.done, rest := r } :: fs) := by simp [takeByte, e]
      rw [ht]
      simp [flatten, e]

theorem putBack_flatten (fs : List Frame) :
    flatten (putBack fs) = (match fs.head?.bind (fun g => g.done.head?) with | some b => [b] | none => []) ++ flatten fs := by
  cases fs with
  | nil => simp [putBack, flatten]
  | cons f fs =>
    simp only [putBack]
    cases e : f.done <;> simp [flatten, e]

theorem step_rel (disk : Disk) (s : St) (w : Files) (f : Flat) (o : Op) (h : Rel disk s w f) (hok : w.ok o)
    (hlen : s.registered.length + 1 < 65536) :
    (step disk s o).1 = (f.step disk o).1 ∧ Rel disk (step disk s o).2 (w.step disk o) (f.step disk o).2 ∧
    (step disk s o).2.registered.length ≤ s.registered.length + 1 := by
  cases o with
  | read =>
    obtain ⟨h1, h2, h3⟩ := read_core disk w.frames w.names s h.core
    obtain ⟨t1, t2, t3⟩ := takeByte_flatten w.frames
    have hlen2 : (read s).2.registered.length ≤ s.registered.length + 1 := by
      have := h2.size
      have hs := h.core.size
      have e : (read s).2.size = s.size := by
        clear h1 h2 h3 t1 t2 t3 this hs
        suffices ∀ n (s : St), s.stack.length = n → (read s).2.size = s.size from this _ s rfl
        intro n
        induction n with
        | zero =>
          intro s hs
          rw [read.eq_def]
          split
          · rfl
          · rename_i e; rw [e] at hs; simp at hs
        | succ n ih =>
          intro s hs
          rw [read.eq_def]
          split
          · rfl
          · rename_i id st e
            split
            · rfl
            · split
              · rfl
              · rename_i rest _
                dsimp only
                split
                · rw [ih]
                  · simp [discardTop, readFile_stack, e, St.setRec, readFile_size]
                  · simp only [discardTop, readFile_stack, e]
                    rw [e] at hs; simpa using hs
                · exact readFile_size s id rest
      omega
    refine ⟨?_, ?_, hlen2⟩
    · simp only [step, Flat.step, h1, h.rest, t1]
      cases e : (takeByte w.frames).1 with
      | none => simp [t2 e, flatten]
      | some b => simp
    · refine ⟨h2, fun _ => h3, ?_, ?_, ?_⟩
      · simp only [Flat.step, h.rest, t1, Files.step]
        cases e : (takeByte w.frames).1 with
        | none => simp [t2 e, flatten, h.rest, t1, e]
        | some b => simp
      · simp only [Flat.step, Files.step]
        split <;> exact h.names
      · simp only [Flat.step, h.rest, t1, Files.step, if_true]
        rw [← t3]
        cases e : (takeByte w.frames).1 with
        | none => simp [t2 e, flatten]
        | some b => simp
  | unread =>
    have hj : w.just = true := hok
    refine ⟨?_, ?_, ?_⟩
    · simp only [step, Flat.step]
      split <;> rfl
    · refine ⟨unread_core disk w.frames w.names s h.core (h.just hj), ?_, ?_, ?_, ?_⟩
      · intro e; simp [Files.step] at e
      · simp only [Files.step, putBack_flatten]
        have hl := h.last
        simp only [hj, if_true] at hl
        rw [← hl, ← h.rest]
        simp only [Flat.step]
        cases f.last <;> simp
      · simp only [Flat.step, Files.step]
        split <;> exact h.names
      · simp only [Flat.step, Files.step]
        split
        · rename_i e; simpa using e
        · simp
    · simp only [step, unread]
      split <;> simp [St.setRec]
  | load n once =>
    obtain ⟨p1, p2, p3⟩ := push_core disk w.frames w.names s n once h.core hok hlen
    by_cases c : once ∧ n ∈ w.names
    · have c' : once ∧ n ∈ f.names := by rw [h.names]; exact c
      have e1 : f.step disk (.load n once) = (.loaded (some true), f) := if_pos c'
      have e2 : w.step disk (.load n once) = w := if_pos c
      have e3 : step disk s (.load n once) = (.loaded (some true), s) := by simp only [step, p1 c]
      rw [e1, e2, e3]
      exact ⟨rfl, h, by simp⟩
    · have c' : ¬ (once ∧ n ∈ f.names) := by rw [h.names]; exact c
      cases hd : disk n with
      | none =>
        simp only [step, p2 c hd, Flat.step, c', Files.step, c, if_false, hd]
        exact ⟨trivial, h, by simp⟩
      | some v =>
        obtain ⟨full, cont⟩ := v
        obtain ⟨q1, q2, q3⟩ := p3 full cont c hd
        simp only [step, Flat.step, c', Files.step, c, if_false, hd, q1]
        refine ⟨trivial, ⟨q2, ?_, ?_, ?_, ?_⟩, q3⟩
        · intro e; cases e
        · simp [flatten, h.rest]
        · simp [h.names]
        · simp
  | probe n =>
    refine ⟨?_, h, by simp [step]⟩
    simp only [step, Flat.step, exists_, findName]
    congr 2
    rw [h.names]
    have := h.core.known n
    rw [Bool.eq_iff_iff, this]
    simp

theorem rel_init (disk : Disk) : Rel disk St.init Files.init ⟨[], none, []⟩ := by
  refine ⟨⟨rfl, ?_, ?_, ?_, .nil, .nil⟩, ?_, rfl, rfl, rfl⟩
  · intro n id h; simp [St.init] at h
  · intro n m id h; simp [St.init] at h
  · intro n; simp [St.init, Files.init]
  · intro h; cases h

theorem outs_rel (disk : Disk) (ops : List Op) : ∀ (s : St) (w : Files) (f : Flat), Rel disk s w f → Legal disk w ops →
    s.registered.length + ops.length < 65536 → outs disk s ops = Flat.outs disk f ops := by
  induction ops with
  | nil => intros; rfl
  | cons o os ih =>
    intro s w f h hl hlen
    simp only [List.length_cons] at hlen
    obtain ⟨h1, h2, h3⟩ := step_rel disk s w f o h hl.1 (by omega)
    simp only [outs, Flat.outs, h1]
    rw [ih _ _ _ h2 hl.2 (by omega)]

theorem run_rel (disk : Disk) (ops : List Op) : ∀ (s : St) (w : Files) (f : Flat), Rel disk s w f → Legal disk w ops →
    s.registered.length + ops.length < 65536 →
    ∃ f', Rel disk (run disk s ops) (w.run disk ops) f' ∧
      (run disk s ops).registered.length ≤ s.registered.length + ops.length := by
  induction ops with
  | nil => intro s w f h _ _; exact ⟨f, h, by simp [run]⟩
  | cons o os ih =>
    intro s w f h hl hlen
    simp only [List.length_cons] at hlen
    obtain ⟨h1, h2, h3⟩ := step_rel disk s w f o h hl.1 (by omega)
    obtain ⟨f', hf, hb⟩ := ih _ _ _ h2 hl.2 (by omega)
    refine ⟨f', hf, ?_⟩
    simp only [run, List.length_cons]
    omega

/-- C26. For any schedule of calls, what is seen is the splicing of the loaded files: a load puts the
whole file in front of what was to come, a pushed-back byte comes exactly once more, a file asked for
once only is read at its first load, and a name is known exactly if it was loaded or can be opened.
Not covered (see `C26_reload_loses`): loading, without the once-only flag, a file that is still being
read; and pushing back when there is nothing just read. Fewer than 65536 calls, so that the number of
files fits its counter. -/
theorem C26_spliced_partial (disk : Disk) (ops : List Op) (h : Legal disk Files.init ops) (hn : ops.length < 65536) :
    outs disk St.init ops = Flat.outs disk ⟨[], none, []⟩ ops :=
  outs_rel disk ops _ _ _ (rel_init disk) h (by simpa [St.init] using hn)

/-- A file of three bytes, another of one byte, loaded in the middle of the first. -/
def sampleDisk : Disk := fun n => if n = 1 then some (7, [65, 66, 67]) else if n = 2 then some (8, [90]) else none

example : Legal sampleDisk Files.init
    [.load 1 true, .read, .read, .unread, .load 2 false, .load 3 false, .read, .read, .unread, .read, .read, .read, .probe 2] ∧
    outs sampleDisk St.init
    [.load 1 true, .read, .read, .unread, .load 2 false, .load 3 false, .read, .read, .unread, .read, .read, .read, .probe 2] =
    [.loaded (some true), .byte (some 65), .byte (some 66), .unit, .loaded (some true), .loaded (some false),
     .byte (some 90), .byte (some 66), .unit, .byte (some 66), .byte (some 67), .byte (some (-1)), .known true] := by
  have hl : Legal sampleDisk Files.init
      [.load 1 true, .read, .read, .unread, .load 2 false, .load 3 false, .read, .read, .unread, .read, .read, .read, .probe 2] := by
    simp [Legal, Files.ok, Files.step, Files.init, sampleDisk, takeByte, putBack]
  refine ⟨hl, ?_⟩
  rw [C26_spliced_partial _ _ hl (by simp)]
  decide

theorem outs_append (disk : Disk) (a b : List Op) : ∀ s, outs disk s (a ++ b) = outs disk s a ++ outs disk (run disk s a) b := by
  induction a with
  | nil => intro s; rfl
  | cons o os ih => intro s; simp [outs, run, ih]

theorem run_append (disk : Disk) (a b : List Op) : ∀ s, run disk s (a ++ b) = run disk (run disk s a) b := by
  induction a with
  | nil => intro s; rfl
  | cons o os ih => intro s; simp [run, ih]

theorem frun_append (disk : Disk) (a b : List Op) : ∀ w, Files.run disk w (a ++ b) = Files.run disk (Files.run disk w a) b := by
  induction a with
  | nil => intro s; rfl
  | cons o os ih => intro s; simp [Files.run, ih]

theorem legal_append (disk : Disk) (a b : List Op) : ∀ w, Legal disk w (a ++ b) ↔ Legal disk w a ∧ Legal disk (w.run disk a) b := by
  induction a with
  | nil => intro w; simp [Legal, Files.run]
  | cons o os ih => intro w; simp [Legal, Files.run, ih, and_assoc]

theorem locAfter_eq (disk : Disk) (n : Nat) (done : List Nat) (hl : lineAfter done < 65536) (hne : done ≠ []) :
    locAfter disk n done = ⟨n, ((disk n).map Prod.fst).getD 0, lineAfter done, columnAfter done % 65536⟩ := by
  induction done with
  | nil => exact absurd rfl hne
  | cons b d ih =>
    have e : locAfter disk n (b :: d) = (locAfter disk n d).update (b : Int) := rfl
    rw [e]
    have hnn : ¬ ((b : Int) < 0) := by omega
    by_cases hd : d = []
    · subst hd
      by_cases hb : b = 10
      · subst hb
        simp [locAfter, Loc.update, lineAfter, columnAfter]
      · have hb' : ¬ ((b : Int) = 10) := by omega
        simp [locAfter, Loc.update, lineAfter, columnAfter, hb, hb']
    · have hc : d.count 10 ≤ (b :: d).count 10 := by
        rw [List.count_cons]; omega
      rw [ih (by unfold lineAfter at *; omega) hd]
      have hz : lineAfter d ≠ 0 := by unfold lineAfter; omega
      by_cases hb : b = 10
      · subst hb
        have : lineAfter (10 :: d) = lineAfter d + 1 := by simp [lineAfter]; omega
        have hm : (lineAfter d + 1) % 65536 = lineAfter d + 1 := by
          apply Nat.mod_eq_of_lt; omega
        simp [Loc.update, hz, this, hm, columnAfter]
      · have hb' : ¬ ((b : Int) = 10) := by omega
        have : lineAfter (b :: d) = lineAfter d := by simp [lineAfter, List.count_cons, hb]
        have hcol : columnAfter (b :: d) = columnAfter d + 1 := by simp [columnAfter, hb]
        simp only [Loc.update, hz, this, hb', hcol, hnn, if_false, Nat.mod_add_mod]

/-- C25. After any schedule of calls that ends with a read that gave a byte, the reported position
names the file the byte came from, its line is one plus the newlines read from that file so far and
its column the number of bytes read since the last of them, as long as the line number fits 16 bits
(the column is reported modulo 65536). -/
theorem C25_position (disk : Disk) (ops : List Op) (h : Legal disk Files.init (ops ++ [.read]))
    (hn : ops.length + 1 < 65536) (f : Frame) (fs : List Frame)
    (hf : (Files.run disk Files.init (ops ++ [.read])).frames = f :: fs) (hl : lineAfter f.done < 65536) :
    let l := getLocator (run disk St.init (ops ++ [.read]))
    l.path = f.name ∧ l.line = lineAfter f.done ∧ l.byte = columnAfter f.done % 65536 ∧
    ∀ full c, disk f.name = some (full, c) → l.full = full := by
  obtain ⟨f', hr, _⟩ := run_rel disk (ops ++ [.read]) _ _ _ (rel_init disk) h (by simpa [St.init] using hn)
  have hj := hr.just (by rw [frun_append]; rfl)
  have hst := hr.core.stack
  rw [hf] at hst hj
  intro l
  generalize hs : (run disk St.init (ops ++ [.read])).stack = stk at hst
  cases hst with
  | @cons _ id _ st a b =>
    simp only [Just, hs] at hj
    obtain ⟨b, d, hdone, hh, _⟩ := hj
    have hloc : l = ⟨f.name, ((disk f.name).map Prod.fst).getD 0, lineAfter f.done, columnAfter f.done % 65536⟩ := by
      have e := locAfter_eq disk f.name f.done hl (by rw [hdone]; simp)
      rcases a.2 with ⟨_, hfp, q⟩ | ⟨_, _, hh', _⟩
      · have hz : lineAfter f.done ≠ 0 := by unfold lineAfter; omega
        simp only [l, getLocator, hs]
        rw [q, e]
        simp [Loc.neverRead, hz, hh]
      · rw [hh] at hh'; cases hh'
    rw [hloc]
    refine ⟨rfl, rfl, rfl, ?_⟩
    intro full c hd
    simp [hd]

/-- Line two, column one of the file, after a load in between. -/
example : let disk : Disk := fun n => if n = 1 then some (7, [65, 10, 67, 68]) else if n = 2 then some (8, [90, 10]) else none
    let ops : List Op := [.load 1 true, .read, .read, .load 2 true, .read, .read]
    (Files.run disk Files.init (ops ++ [.read])).frames = [⟨1, [67, 10, 65], [68]⟩] ∧
    lineAfter [67, 10, 65] = 2 ∧ columnAfter [67, 10, 65] = 1 := by
  decide

/-- Reading on in the file on top. -/
theorem reads_top (disk : Disk) (id : Nat) (st : List Nat) (t : List Nat) : ∀ (c : List Nat) (s : St), s.stack = id :: st →
    (s.recs id).have_ = false → (s.recs id).fp = some (c ++ t) →
    ∃ s', run disk s (List.replicate c.length .read) = s' ∧ s'.stack = id :: st ∧ (s'.recs id).have_ = false ∧
      (s'.recs id).fp = some t ∧ s'.registered = s.registered := by
  intro c
  induction c with
  | nil => intro s h1 h2 h3; exact ⟨s, rfl, h1, h2, h3, rfl⟩
  | cons b c ih =>
    intro s h1 h2 h3
    have hr : (read s).2 = readFile s id (b :: (c ++ t)) := by
      rw [read.eq_def]
      split
      · rename_i e; rw [h1] at e; cases e
      · rename_i id' st' e
        rw [h1] at e
        simp only [List.cons.injEq] at e
        obtain ⟨rfl, rfl⟩ := e
        simp only [h2, Bool.false_eq_true, if_false]
        split
        · rename_i e; rw [h3] at e; cases e
        · rename_i rest e
          rw [h3] at e
          obtain rfl := Option.some.inj e
          simp only [List.cons_append, readFile_lastByte, fileRead]
          rw [if_neg]
          intro e; have := Option.some.inj e; omega
    obtain ⟨q1, q2, _⟩ := readFile_self s id (b :: (c ++ t))
    obtain ⟨s', e1, e2, e3, e4, e5⟩ := ih (readFile s id (b :: (c ++ t))) (by rw [readFile_stack, h1]) q2 q1
    refine ⟨s', ?_, e2, e3, e4, by rw [e5, readFile_registered]⟩
    simp only [List.length_cons, List.replicate_succ, run, step, hr]
    exact e1

/-- A read at the end of a file that lies twice on the stack. -/
theorem read_stuck (s : St) (id : Nat) (st : List Nat) (h1 : s.stack = id :: id :: st) (h2 : (s.recs id).have_ = false)
    (h3 : (s.recs id).fp = some []) : (read s).1 = some (-1) := by
  rw [read.eq_def]
  split
  · rfl
  · rename_i id' st' e
    rw [h1] at e
    simp only [List.cons.injEq] at e
    obtain ⟨rfl, rfl⟩ := e
    simp only [h2, Bool.false_eq_true, if_false]
    split
    · rename_i e; rw [h3] at e; cases e
    · rename_i rest e
      rw [h3] at e
      obtain rfl := Option.some.inj e
      obtain ⟨q1, q2, _⟩ := readFile_self s id []
      simp only [readFile_lastByte, fileRead, if_true]
      have hd : discardTop (readFile s id []) =
          { ((readFile s id []).setRec id { (readFile s id []).recs id with fp := none }) with stack := id :: st } := by
        unfold discardTop
        rw [readFile_stack, h1]
      rw [hd, read.eq_def]
      simp [St.setRec, q2, readFile_lastByte, fileRead]

/-- C26, where it fails. When a file that is still being read is loaded again without the once-only
flag, whatever was left of it is lost: once the second copy is used up every read says end of file,
although the splicing has bytes to come. For all contents and all places of the second load. -/
theorem C26_reload_loses (disk : Disk) (n full : Nat) (p q : List Nat) (b : Nat) (hd : disk n = some (full, p ++ b :: q)) :
    let ops : List Op := .load n false :: (List.replicate p.length .read ++
      (.load n false :: List.replicate (p ++ b :: q).length .read))
    (step disk (run disk St.init ops) .read).1 = .byte (some (-1)) := by
  intro ops
  have e0 : (step disk St.init (.load n false)).2 =
      { (St.init.setRec 1 (Rec.opened n full (p ++ b :: q))) with size := 2, registered := [(n, 1)], stack := [1] } := by
    simp [step, push, findName, St.init, hd]
  obtain ⟨s', e1, e2, e3, e4, e5⟩ := reads_top disk 1 [] (b :: q) p (step disk St.init (.load n false)).2
    (by rw [e0]) (by rw [e0]; simp [St.setRec, Rec.opened, Rec.fresh]) (by rw [e0]; simp [St.setRec, Rec.opened])
  have hreg : s'.registered = [(n, 1)] := by rw [e5, e0]
  have e6 : (step disk s' (.load n false)).2 = { (s'.setRec 1 (Rec.opened n full (p ++ b :: q))) with stack := [1, 1] } := by
    simp [step, push, findName, hreg, hd, e2]
  obtain ⟨s'', f1, f2, f3, f4, _⟩ := reads_top disk 1 [1] [] (p ++ b :: q) (step disk s' (.load n false)).2
    (by rw [e6]) (by rw [e6]; simp [St.setRec, Rec.opened, Rec.fresh]) (by rw [e6]; simp [St.setRec, Rec.opened])
  have hrun : run disk St.init ops = s'' := by
    simp only [ops, run]
    rw [run_append, e1]
    simp only [run]
    exact f1
  rw [hrun]
  simp only [step]
  rw [read_stuck s'' 1 [] f2 f3 f4]

/-- The last position is that of the file on top; only it can hold a pushed-back byte. -/
def PosInv (s : St) (frames : List Frame) (pend : Bool) : Prop :=
  match frames, s.stack with
  | f :: _, id :: st => (s.recs id).have_ = pend ∧ (∀ i ∈ st, (s.recs i).have_ = false) ∧
      ((f.done ≠ [] ∨ pend = true) → s.lastLoc = (s.recs id).loc)
  | _, _ => True

theorem stack_nodup {disk : Disk} {s : St} {frames : List Frame} {names : List Nat} (h : Core disk s frames names) :
    s.stack.Nodup := by
  have h1 := h.stack
  have h2 := h.nodup
  have h3 := h.inj
  generalize s.stack = stk at h1 ⊢
  generalize s.recs = rc at h1
  generalize s.registered = reg at h1 h3
  clear h
  induction h1 with
  | nil => exact .nil
  | @cons f id fs st a b ih =>
    simp only [List.map_cons, List.nodup_cons] at h2
    refine List.nodup_cons.mpr ⟨?_, ih h2.2⟩
    intro hm
    apply h2.1
    clear ih
    induction b with
    | nil => cases hm
    | @cons g j gs st c d ihd =>
      simp only [List.map_cons, List.nodup_cons, List.mem_cons, not_or] at h2 hm ⊢
      rcases hm with e | e
      · left; subst e; exact h3 _ _ _ a.1 c.1
      · right; exact ihd ⟨h2.1.2, h2.2.2⟩ e

theorem core_cons {disk : Disk} {s : St} {f : Frame} {fs : List Frame} {names : List Nat} (h : Core disk s (f :: fs) names) :
    ∃ id st, s.stack = id :: st ∧ s.registered.lookup f.name = some id ∧ FrameRel disk f (s.recs id) ∧ id ∉ st := by
  have h1 := h.stack
  have h2 := stack_nodup h
  generalize s.stack = stk at h1 h2
  cases h1 with
  | cons a b => exact ⟨_, _, rfl, a.1, a.2, (List.nodup_cons.mp h2).1⟩

theorem posInv_mk (s : St) (f : Frame) (fs : List Frame) (pend : Bool) (id : Nat) (st : List Nat) (hs : s.stack = id :: st)
    (h1 : (s.recs id).have_ = pend) (h2 : ∀ i ∈ st, (s.recs i).have_ = false)
    (h3 : (f.done ≠ [] ∨ pend = true) → s.lastLoc = (s.recs id).loc) : PosInv s (f :: fs) pend := by
  unfold PosInv; rw [hs]; exact ⟨h1, h2, h3⟩

/-- Reading a byte of the file on top. -/
theorem read_top (s : St) (id : Nat) (st : List Nat) (b : Nat) (t : List Nat) (h1 : s.stack = id :: st)
    (h2 : (s.recs id).have_ = false) (h3 : (s.recs id).fp = some (b :: t)) :
    read s = (some (b : Int), readFile s id (b :: t)) := by
  rw [read.eq_def]
  split
  · rename_i e; rw [h1] at e; cases e
  · rename_i id' st' e
    rw [h1] at e
    simp only [List.cons.injEq] at e
    obtain ⟨rfl, rfl⟩ := e
    simp only [h2, Bool.false_eq_true, if_false]
    split
    · rename_i e; rw [h3] at e; cases e
    · rename_i rest e
      rw [h3] at e
      obtain rfl := Option.some.inj e
      simp only [readFile_lastByte, fileRead]
      rw [if_neg]
      intro e; have := Option.some.inj e; omega

theorem read_pending (s : St) (id : Nat) (st : List Nat) (h1 : s.stack = id :: st)
    (h2 : (s.recs id).have_ = true) :
    read s = ((s.recs id).unreadByte, s.setRec id { s.recs id with have_ := false }) := by
  rw [read.eq_def]
  split
  · rename_i e; rw [h1] at e; cases e
  · rename_i id' st' e
    rw [h1] at e
    simp only [List.cons.injEq] at e
    obtain ⟨rfl, rfl⟩ := e
    simp only [h2, if_true]

theorem read_end (s : St) (id : Nat) (st : List Nat) (h1 : s.stack = id :: st)
    (h2 : (s.recs id).have_ = false) (h3 : (s.recs id).fp = some []) :
    read s = read (discardTop (readFile s id [])) := by
  rw [read.eq_def]
  split
  · rename_i e; rw [h1] at e; cases e
  · rename_i id' st' e
    rw [h1] at e
    simp only [List.cons.injEq] at e
    obtain ⟨rfl, rfl⟩ := e
    simp only [h2, Bool.false_eq_true, if_false]
    split
    · rename_i e; rw [h3] at e; cases e
    · rename_i rest e
      rw [h3] at e
      obtain rfl := Option.some.inj e
      simp only [readFile_lastByte, fileRead, if_true]

theorem discard_readFile (s : St) (id : Nat) (st : List Nat) (h1 : s.stack = id :: st) :
    discardTop (readFile s id []) =
      { ((readFile s id []).setRec id { (readFile s id []).recs id with fp := none }) with stack := st } := by
  unfold discardTop
  rw [readFile_stack, h1]

theorem core_discard {disk : Disk} {s : St} {f : Frame} {fs : List Frame} {names : List Nat} {id : Nat} {st : List Nat}
    (h : Core disk s (f :: fs) names) (h1 : s.stack = id :: st) : Core disk (discardTop (readFile s id [])) fs names := by
  have h2 := h.stack
  rw [h1] at h2
  cases h2 with
  | cons a b =>
    have hnd := h.nodup
    simp only [List.map_cons, List.nodup_cons] at hnd
    rw [discard_readFile s id st h1]
    constructor
    · simp only [St.setRec, readFile_size, readFile_registered]; exact h.size
    · simp only [St.setRec, readFile_registered]; exact h.range
    · simp only [St.setRec, readFile_registered]; exact h.inj
    · simp only [St.setRec, readFile_registered]; exact h.known
    · simp only [St.setRec, readFile_registered]
      refine forall2_other h.inj a.1 ?_ fs st hnd.1 b
      intro i hi
      simp only [hi, if_false]
      exact readFile_other s id [] i hi
    · exact hnd.2

theorem read_posInv (disk : Disk) (names : List Nat) : ∀ (frames : List Frame) (s : St), Core disk s frames names →
    (∀ i ∈ s.stack.tail, (s.recs i).have_ = false) →
    (∀ id, s.stack.head? = some id → (s.recs id).have_ = true → s.lastLoc = (s.recs id).loc) →
    PosInv (read s).2 (takeByte frames).2 false := by
  intro frames
  induction frames with
  | nil => intro s h _ _; exact trivial
  | cons f fs ih =>
    intro s h htail htop
    obtain ⟨id, st, hst, hname, hrel, hni⟩ := core_cons h
    rw [hst] at htail htop
    simp only [List.tail_cons] at htail
    have hother : ∀ i ∈ st, i ≠ id := fun i hi e => hni (e ▸ hi)
    rcases hrel with ⟨hh, hfp, hloc⟩ | ⟨b, t, hh, hfr, hfp, hub, hloc⟩
    · cases hfr : f.rest with
      | nil =>
        rw [hfr] at hfp
        have ht : takeByte (f :: fs) = takeByte fs := by simp [takeByte, hfr]
        rw [read_end s id st hst hh hfp, ht]
        have hrec : ∀ i ∈ st, (discardTop (readFile s id [])).recs i = s.recs i := by
          intro i hi
          rw [discard_readFile s id st hst]
          simp only [St.setRec, hother i hi, if_false]
          exact readFile_other s id [] i (hother i hi)
        have hstk : (discardTop (readFile s id [])).stack = st := by rw [discard_readFile s id st hst]
        apply ih _ (core_discard h hst)
        · intro i hi
          rw [hstk] at hi
          have := List.mem_of_mem_tail hi
          rw [hrec i this]; exact htail i this
        · intro i hi hhi
          rw [hstk] at hi
          have := List.mem_of_head? hi
          rw [hrec i this, htail i this] at hhi; cases hhi
      | cons b t =>
        rw [hfr] at hfp
        have ht : takeByte (f :: fs) = (some b, { f with done := b :: f.done, rest := t } :: fs) := by simp [takeByte, hfr]
        rw [read_top s id st b t hst hh hfp, ht]
        obtain ⟨q1, q2, q3, q4, q5⟩ := readFile_self s id (b :: t)
        refine posInv_mk _ _ _ _ id st (by rw [readFile_stack, hst]) q2 ?_ ?_
        · intro i hi
          rw [readFile_other s id _ i (hother i hi)]; exact htail i hi
        · intro _; rw [q5, readFile_lastLoc]
    · have ht : takeByte (f :: fs) = (some b, { f with done := b :: f.done, rest := t } :: fs) := by simp [takeByte, hfr]
      rw [read_pending s id st hst hh, ht]
      refine posInv_mk _ _ _ _ id st hst (by simp [St.setRec]) ?_ ?_
      · intro i hi
        simp only [St.setRec, hother i hi, if_false]; exact htail i hi
      · intro _
        have := htop id rfl hh
        simpa [St.setRec] using this

theorem posInv_heads {disk : Disk} {s : St} {frames : List Frame} {names : List Nat} {pend : Bool}
    (h : Core disk s frames names) (hp : PosInv s frames pend) :
    (∀ i ∈ s.stack.tail, (s.recs i).have_ = false) ∧
    (∀ id, s.stack.head? = some id → (s.recs id).have_ = true → s.lastLoc = (s.recs id).loc) := by
  cases frames with
  | nil =>
    have hs : s.stack = [] := List.forall₂_nil_left_iff.mp h.stack
    rw [hs]; simp
  | cons f fs =>
    obtain ⟨id, st, hst, _⟩ := core_cons h
    simp only [PosInv, hst] at hp
    rw [hst]
    refine ⟨hp.2.1, ?_⟩
    intro i hi hh
    simp only [List.head?_cons, Option.some.injEq] at hi
    subst hi
    exact hp.2.2 (.inr (by rw [← hp.1, hh]))

/-- Whether a pushed-back byte waits to be read again. -/
def pendAfter : Bool → List Op → Bool
  | p, [] => p
  | _, .unread :: os => pendAfter true os
  | _, .read :: os => pendAfter false os
  | p, .load _ _ :: os => pendAfter p os
  | p, .probe _ :: os => pendAfter p os

theorem calm_append (a b : List Op) : ∀ p, Calm p (a ++ b) ↔ Calm p a ∧ Calm (pendAfter p a) b := by
  induction a with
  | nil => intro p; simp [Calm, pendAfter]
  | cons o os ih => intro p; cases o <;> simp [Calm, pendAfter, ih, and_assoc]

theorem calm_posInv (disk : Disk) (ops : List Op) : ∀ (s : St) (w : Files) (f : Flat) (pend : Bool), Rel disk s w f →
    PosInv s w.frames pend → (pend = true → w.just = false) →
    Legal disk w ops → Calm pend ops → s.registered.length + ops.length < 65536 →
    ∃ f', Rel disk (run disk s ops) (w.run disk ops) f' ∧ PosInv (run disk s ops) (w.run disk ops).frames (pendAfter pend ops) ∧
      (run disk s ops).registered.length ≤ s.registered.length + ops.length := by
  induction ops with
  | nil => intro s w f pend h hp _ _ _ _; exact ⟨f, h, hp, by simp [run]⟩
  | cons o os ih0 =>
    intro s w f pend h hp hpj hl hc hlen
    simp only [List.length_cons] at hlen
    obtain ⟨_, h2, h3⟩ := step_rel disk s w f o h hl.1 (by omega)
    have hlen' : (step disk s o).2.registered.length + os.length < 65536 := by omega
    have ih : ∀ (f : Flat) (pend : Bool), Rel disk (step disk s o).2 (w.step disk o) f →
        PosInv (step disk s o).2 (w.step disk o).frames pend → (pend = true → (w.step disk o).just = false) →
        Calm pend os → ∃ f', Rel disk (run disk s (o :: os)) (w.run disk (o :: os)) f' ∧
          PosInv (run disk s (o :: os)) (w.run disk (o :: os)).frames (pendAfter pend os) ∧
          (run disk s (o :: os)).registered.length ≤ s.registered.length + (os.length + 1) := by
      intro f pend a b c d
      obtain ⟨f', q1, q2, q3⟩ := ih0 _ _ f pend a b c hl.2 d hlen'
      exact ⟨f', q1, q2, by simp only [run]; omega⟩
    cases o with
    | read =>
      obtain ⟨a, b⟩ := posInv_heads h.core hp
      exact ih _ false h2 (read_posInv disk w.names w.frames s h.core a b) (by simp) hc
    | unread =>
      refine ih _ true h2 ?_ (fun _ => rfl) hc
      have hj : w.just = true := hl.1
      have hjust := h.just hj
      simp only [step, Files.step]
      cases hw : w.frames with
      | nil => exact trivial
      | cons g gs =>
        have hcore := h.core
        rw [hw] at hcore hjust hp
        obtain ⟨id, st, hst, _, _, hni⟩ := core_cons hcore
        simp only [Just, hst] at hjust
        simp only [PosInv, hst] at hp
        obtain ⟨b, d, hd, _⟩ := hjust
        simp only [putBack, hd]
        refine posInv_mk _ _ _ _ id st (by simp [unread, hst, St.setRec]) (by simp [unread, hst, St.setRec]) ?_ ?_
        · intro i hi
          have : i ≠ id := fun e => hni (e ▸ hi)
          simp only [unread, hst, St.setRec, this, if_false]; exact hp.2.1 i hi
        · intro _
          simp only [unread, hst, St.setRec, if_true]
          exact hp.2.2 (.inl (by rw [hd]; simp))
    | load n once =>
      obtain ⟨hpend, hc⟩ := hc
      subst hpend
      refine ih _ false h2 ?_ (by simp) hc
      obtain ⟨p1, p2, p3⟩ := push_core disk w.frames w.names s n once h.core hl.1 (by omega)
      by_cases c : once ∧ n ∈ w.names
      · have e2 : w.step disk (.load n once) = w := if_pos c
        have e3 : step disk s (.load n once) = (.loaded (some true), s) := by simp only [step, p1 c]
        rw [e2, e3]; exact hp
      · cases hd : disk n with
        | none =>
          simp only [step, p2 c hd, Files.step, c, if_false, hd]
          exact hp
        | some v =>
          obtain ⟨full, cont⟩ := v
          obtain ⟨q1, q2, q3⟩ := p3 full cont c hd
          simp only [step, Files.step, c, if_false, hd]
          obtain ⟨id, st, hst, hname, hrel, hni⟩ := core_cons q2
          have hids : st = s.stack ∧ ∀ i, i ≠ id → (push disk s n once).2.recs i = s.recs i := by
            unfold push at hst ⊢
            split at hst
            · rename_i hh; 
              exfalso
              apply c
              simp only [Bool.and_eq_true] at hh
              exact ⟨hh.1, (h.core.known n).mp hh.2⟩
            · rename_i hh
              rw [if_neg hh]
              simp only [hd] at hst ⊢
              cases hf : findName s n with
              | none =>
                simp only [hf] at hst ⊢
                simp only [List.cons.injEq] at hst
                refine ⟨hst.2.symm, ?_⟩
                intro i hi
                have : i ≠ s.size := by
                  rw [h.core.size]
                  rw [← hst.1, Nat.mod_eq_of_lt (by omega)] at hi
                  exact hi
                simp [St.setRec, this]
              | some j =>
                simp only [hf] at hst ⊢
                split at hst
                · rename_i ho
                  exfalso
                  apply hh
                  simp [ho, hf]
                · rename_i ho
                  rw [if_neg ho]
                  simp only [List.cons.injEq] at hst
                  refine ⟨hst.2.symm, ?_⟩
                  intro i hi
                  rw [← hst.1] at hi
                  simp [St.setRec, hi]
          refine posInv_mk _ _ _ _ id st hst ?_ ?_ (by simp)
          · rcases hrel with ⟨a, _⟩ | ⟨b, t, a, e1, e2, e3, e4⟩
            · exact a
            · exfalso
              have hrec : ((push disk s n once).2.recs id).have_ = false := by
                unfold push at hst ⊢
                split at hst
                · rename_i hh
                  exfalso; apply c
                  simp only [Bool.and_eq_true] at hh
                  exact ⟨hh.1, (h.core.known n).mp hh.2⟩
                · rename_i hh
                  rw [if_neg hh]
                  simp only [hd] at hst ⊢
                  cases hf : findName s n with
                  | none =>
                    simp only [hf] at hst ⊢
                    simp only [List.cons.injEq] at hst
                    have : id = s.size := by
                      rw [h.core.size, ← hst.1, Nat.mod_eq_of_lt (by omega)]
                    simp [St.setRec, this, Rec.opened, Rec.fresh]
                  | some j =>
                    simp only [hf] at hst ⊢
                    split at hst
                    · rename_i ho
                      exfalso; apply hh
                      simp [ho, hf]
                    · rename_i ho
                      rw [if_neg ho]
                      simp only [List.cons.injEq] at hst
                      simp [St.setRec, ← hst.1, Rec.opened, Rec.fresh]
              rw [a] at hrec; cases hrec
          · intro i hi
            have hne : i ≠ id := fun e => hni (e ▸ hi)
            rw [hids.2 i hne]
            rw [hids.1] at hi
            cases hw : w.frames with
            | nil =>
              have hcore := h.core
              rw [hw] at hcore
              have hs : s.stack = [] := List.forall₂_nil_left_iff.mp hcore.stack
              rw [hs] at hi; cases hi
            | cons g gs =>
              have hcore := h.core
              rw [hw] at hcore hp
              obtain ⟨id', st', hst', _⟩ := core_cons hcore
              simp only [PosInv, hst'] at hp
              rw [hst'] at hi
              rcases List.mem_cons.mp hi with e | e
              · rw [e]; exact hp.1
              · exact hp.2.1 i e
    | probe n => exact ih _ pend h2 hp hpj hc

theorem getLocator_lastLoc {disk : Disk} {s : St} {f : Frame} {fs : List Frame} {names : List Nat}
    (h : Core disk s (f :: fs) names) (hp : PosInv s (f :: fs) false) : getLocator s = s.lastLoc := by
  obtain ⟨id, st, hst, hname, hrel, hni⟩ := core_cons h
  simp only [PosInv, hst] at hp
  obtain ⟨h1, _, h3⟩ := hp
  rcases hrel with ⟨_, hfp, hloc⟩ | ⟨_, _, a, _⟩
  · simp only [getLocator, hst, hfp, h1]
    by_cases hd : f.done = []
    · rw [hloc, hd]
      simp [locAfter, Loc.neverRead]
    · rw [h3 (.inl hd)]
      simp
  · rw [h1] at a; cases a

/-- C25. When a file has just been loaded and not been read from yet, the position reported is still
the one reported before the load (that of the last byte read). For schedules in which a pushed-back byte
is read again before the next load. -/
theorem C25_after_load (disk : Disk) (ops : List Op) (n : Nat) (once : Bool)
    (hl : Legal disk Files.init (ops ++ [.load n once])) (hc : Calm false (ops ++ [.load n once]))
    (hn : ops.length + 1 < 65536) (hf : (Files.run disk Files.init ops).frames ≠ []) :
    getLocator (run disk St.init (ops ++ [.load n once])) = getLocator (run disk St.init ops) := by
  rw [calm_append] at hc
  rw [legal_append] at hl
  obtain ⟨f', hr, hp, hb⟩ := calm_posInv disk ops _ _ _ false (rel_init disk) trivial (by simp) hl.1 hc.1 (by simp [St.init]; omega)
  have hpend : pendAfter false ops = false := hc.2.1
  rw [hpend] at hp
  have hlen : (run disk St.init ops).registered.length + 1 < 65536 := by
    have : St.init.registered.length = 0 := rfl
    omega
  obtain ⟨p1, p2, p3⟩ := push_core disk _ _ (run disk St.init ops) n once hr.core hl.2.1 hlen
  rw [run_append]
  simp only [run, step]
  obtain ⟨g, gs, hg⟩ := List.exists_cons_of_ne_nil hf
  have hcore := hr.core
  rw [hg] at hcore hp
  by_cases c : once ∧ n ∈ (Files.run disk Files.init ops).names
  · rw [p1 c]
  · cases hd : disk n with
    | none => rw [p2 c hd]
    | some v =>
      obtain ⟨full, cont⟩ := v
      obtain ⟨q1, q2, q3⟩ := p3 full cont c hd
      rw [getLocator_lastLoc hcore hp]
      obtain ⟨id, st, hst, hname, hrel, hni⟩ := core_cons q2
      have hlast : (push disk (run disk St.init ops) n once).2.lastLoc = (run disk St.init ops).lastLoc := by
        unfold push
        split
        · rfl
        · simp only [hd]
          split
          · rfl
          · split <;> rfl
      rw [← hlast]
      rcases hrel with ⟨_, hfp, hloc⟩ | ⟨b, t, _, _, hfp, _, hloc⟩
      · simp [getLocator, hst, hfp, hloc, locAfter, Loc.neverRead]
      · exfalso
        have hj := q2.stack
        have h4 : ((push disk (run disk St.init ops) n once).2.recs id).loc = ⟨n, full, 0, 0⟩ := by
          unfold push at hst ⊢
          split at hst
          · rename_i hh
            exfalso; apply c
            simp only [Bool.and_eq_true] at hh
            exact ⟨hh.1, (hr.core.known n).mp hh.2⟩
          · rename_i hh
            rw [if_neg hh]
            simp only [hd] at hst ⊢
            cases hf : findName (run disk St.init ops) n with
            | none =>
              simp only [hf] at hst ⊢
              simp only [List.cons.injEq] at hst
              have : id = (run disk St.init ops).size := by
                rw [hr.core.size, ← hst.1, Nat.mod_eq_of_lt (by omega)]
              simp [St.setRec, this, Rec.opened]
            | some j =>
              simp only [hf] at hst ⊢
              split at hst
              · rename_i ho
                exfalso; apply hh
                simp [ho, hf]
              · rename_i ho
                rw [if_neg ho]
                simp only [List.cons.injEq] at hst
                simp [St.setRec, ← hst.1, Rec.opened]
        rw [h4] at hloc
        have e : locAfter disk n [b] = ⟨n, ((disk n).map Prod.fst).getD 0, 0, 0⟩ := by
          simpa [hd] using hloc.symm
        have hnn : ¬ ((b : Int) < 0) := by omega
        have e' : (locAfter disk n [b]).line = 0 := by rw [e]
        change (Loc.update _ (b : Int)).line = 0 at e'
        unfold Loc.update at e'
        rw [if_neg hnn] at e'
        by_cases hb10 : (b : Int) = 10 <;> simp [hb10] at e'

/-- C25. After a byte of the current file has been read and pushed back, the position reported is the
one reported before, that is, of the byte before it. For schedules in which a pushed-back byte is read
again before the next load, and as long as the line counter has not come round to zero. -/
theorem C25_after_unread (disk : Disk) (ops : List Op)
    (hl : Legal disk Files.init (ops ++ [.read, .unread])) (hc : Calm false ops)
    (hn : ops.length + 2 < 65536) (f : Frame) (fs : List Frame) (b : Nat) (t : List Nat)
    (hf : (Files.run disk Files.init ops).frames = f :: fs) (hb : f.rest = b :: t)
    (hline : (getLocator (run disk St.init (ops ++ [.read]))).line ≠ 0) :
    getLocator (run disk St.init (ops ++ [.read, .unread])) = getLocator (run disk St.init ops) := by
  rw [legal_append] at hl
  obtain ⟨f', hr, hp, hlen⟩ := calm_posInv disk ops _ _ _ false (rel_init disk) trivial (by simp) hl.1 hc (by simp [St.init]; omega)
  have hcore := hr.core
  rw [hf] at hcore hp
  obtain ⟨id, st, hst, hname, hrel, hni⟩ := core_cons hcore
  rw [run_append]
  rw [run_append] at hline
  simp only [run, step] at hline ⊢
  generalize run disk St.init ops = s at *
  cases hpend : pendAfter false ops with
  | true =>
    rw [hpend] at hp
    have hp' := hp
    simp only [PosInv, hst] at hp'
    rw [read_pending s id st hst hp'.1] at hline ⊢
    have he : ({ s.recs id with have_ := true } : Rec) = s.recs id := by
      have := hp'.1
      cases hrec : s.recs id
      rw [hrec] at this
      simp only at this
      simp [this]
    simp only [getLocator, unread, St.setRec, hst, if_true, he]
  | false =>
    rw [hpend] at hp
    have hp' := hp
    simp only [PosInv, hst] at hp'
    rcases hrel with ⟨hh, hfp, hloc⟩ | ⟨_, _, hh, _⟩
    · rw [hb] at hfp
      rw [getLocator_lastLoc hcore hp]
      rw [read_top s id st b t hst hh hfp] at hline ⊢
      obtain ⟨q1, q2, q3, q4, q5⟩ := readFile_self s id (b :: t)
      simp only at hline ⊢
      have hstk : (readFile s id (b :: t)).stack = id :: st := by rw [readFile_stack, hst]
      have hl' : ((readFile s id (b :: t)).recs id).loc.line ≠ 0 := by
        simp only [getLocator, hstk, q1, q2] at hline
        split at hline
        · rw [readFile_lastLoc] at hline; rw [q5]; exact hline
        · simpa using hline
      simp only [getLocator, unread, hstk, St.setRec, if_true, q1, q4]
      simp [Loc.neverRead, hl']
    · rw [hp'.1] at hh; cases hh

/-- The position after a load and after a push-back. -/
example :
    let s := run sampleDisk St.init [.load 1 true, .read, .read]
    getLocator s = ⟨1, 7, 1, 2⟩ ∧
    getLocator (run sampleDisk St.init ([.load 1 true, .read, .read] ++ [.load 2 true])) = getLocator s ∧
    getLocator (run sampleDisk St.init ([.load 1 true, .read, .read] ++ [.read, .unread])) = getLocator s := by
  have e : getLocator (run sampleDisk St.init [.load 1 true, .read, .read]) = ⟨1, 7, 1, 2⟩ := by
    simp [run, step, push, findName, St.init, sampleDisk, read, readFile, updateLineOfText, toByte, fileRead, St.setRec,
      Rec.opened, Rec.fresh, getLocator, Loc.update, Loc.neverRead]
  refine ⟨e, ?_, ?_⟩
  · refine C25_after_load _ _ _ _ ?_ ?_ (by simp) ?_ <;>
      simp [Legal, Files.ok, Files.step, Files.init, Files.run, sampleDisk, takeByte, Calm]
  · refine C25_after_unread _ _ ?_ ?_ (by simp) ⟨1, [66, 65], [67]⟩ [] 67 [] ?_ rfl ?_
    · simp [Legal, Files.ok, Files.step, Files.init, sampleDisk, takeByte]
    · simp [Calm]
    · simp [Files.step, Files.init, Files.run, sampleDisk, takeByte]
    · simp [run, step, push, findName, St.init, sampleDisk, read, readFile, updateLineOfText, toByte, fileRead, St.setRec,
      Rec.opened, Rec.fresh, getLocator, Loc.update, Loc.neverRead]

end Ulam.Source
