import Verif.Source.Spec
import Mathlib.Data.List.Forall2
import Mathlib.Data.List.Nodup
import Mathlib.Tactic.SplitIfs
/-
The simulation between the stream and the files being read.
-/
namespace Ulam.Source

/-- The counters after reading the bytes `done` (latest first) of a file. -/
def locAfter (disk : Disk) (name : Nat) (done : List Nat) : Loc :=
  done.foldr (fun b l => l.update (b : Int)) ⟨name, ((disk name).map Prod.fst).getD 0, 0, 0⟩

def FrameRel (disk : Disk) (f : Frame) (r : Rec) : Prop :=
  (r.have_ = false ∧ r.fp = some f.rest ∧ r.loc = locAfter disk f.name f.done) ∨
  (∃ b t, r.have_ = true ∧ f.rest = b :: t ∧ r.fp = some t ∧ r.unreadByte = some (b : Int) ∧
    r.loc = locAfter disk f.name (b :: f.done))

structure Core (disk : Disk) (s : St) (frames : List Frame) (names : List Nat) : Prop where
  size : s.size = s.registered.length + 1
  range : ∀ n id, s.registered.lookup n = some id → 1 ≤ id ∧ id ≤ s.registered.length
  inj : ∀ n m id, s.registered.lookup n = some id → s.registered.lookup m = some id → n = m
  known : ∀ n, (s.registered.lookup n).isSome ↔ n ∈ names
  stack : List.Forall₂ (fun f id => s.registered.lookup f.name = some id ∧ FrameRel disk f (s.recs id)) frames s.stack
  nodup : (frames.map Frame.name).Nodup

/-- The top record remembers the byte just read. -/
def Just (s : St) (frames : List Frame) : Prop :=
  match frames, s.stack with
  | f :: _, id :: _ => ∃ b d, f.done = b :: d ∧ (s.recs id).have_ = false ∧ (s.recs id).unreadByte = some (b : Int)
  | _, _ => True

section readFile
variable (s : St) (id : Nat) (rest : List Nat)

theorem readFile_size : (readFile s id rest).size = s.size := by
  unfold readFile updateLineOfText; dsimp only; split <;> rfl
theorem readFile_registered : (readFile s id rest).registered = s.registered := by
  unfold readFile updateLineOfText; dsimp only; split <;> rfl
theorem readFile_lastByte : (readFile s id rest).lastByte = some (fileRead rest).1 := by
  unfold readFile updateLineOfText; dsimp only; split <;> rfl
theorem readFile_lastLoc : (readFile s id rest).lastLoc = (s.recs id).loc.update (fileRead rest).1 := by
  unfold readFile updateLineOfText; dsimp only; split <;> simp [St.setRec]
theorem readFile_other (i : Nat) (h : i ≠ id) : (readFile s id rest).recs i = s.recs i := by
  unfold readFile updateLineOfText; dsimp only; split <;> simp [St.setRec, h]
theorem readFile_self :
    ((readFile s id rest).recs id).fp = some (fileRead rest).2 ∧
    ((readFile s id rest).recs id).have_ = false ∧
    ((readFile s id rest).recs id).unreadByte = some (fileRead rest).1 ∧
    ((readFile s id rest).recs id).unreadLoc = s.lastLoc ∧
    ((readFile s id rest).recs id).loc = (s.recs id).loc.update (fileRead rest).1 := by
  unfold readFile updateLineOfText; dsimp only; split <;> simp [St.setRec]
end readFile

theorem forall2_other {disk : Disk} {reg : List (Nat × Nat)} {rc rc' : Nat → Rec} {id n : Nat}
    (hinj : ∀ n m id, reg.lookup n = some id → reg.lookup m = some id → n = m)
    (hid : reg.lookup n = some id)
    (hrc : ∀ i, i ≠ id → rc' i = rc i) (fs : List Frame) (st : List Nat)
    (hn : n ∉ fs.map Frame.name)
    (h : List.Forall₂ (fun f id => reg.lookup f.name = some id ∧ FrameRel disk f (rc id)) fs st) :
    List.Forall₂ (fun f id => reg.lookup f.name = some id ∧ FrameRel disk f (rc' id)) fs st := by
  induction h with
  | nil => exact .nil
  | @cons f i fs st hfi hrest ih =>
    simp only [List.map_cons, List.mem_cons, not_or] at hn
    refine .cons ⟨hfi.1, ?_⟩ (ih hn.2)
    have : i ≠ id := by
      intro e; subst e
      exact hn.1 (hinj _ _ _ hid hfi.1)
    rw [hrc i this]; exact hfi.2

theorem forall2_mem {disk : Disk} {reg : List (Nat × Nat)} {rc : Nat → Rec} {fs : List Frame} {st : List Nat}
    (h : List.Forall₂ (fun f id => reg.lookup f.name = some id ∧ FrameRel disk f (rc id)) fs st) (g : Frame) (hg : g ∈ fs) :
    ∃ i, reg.lookup g.name = some i := by
  induction h with
  | nil => cases hg
  | cons a _ ih =>
    rcases List.mem_cons.mp hg with e | e
    · subst e; exact ⟨_, a.1⟩
    · exact ih e

/-- One read. -/
theorem read_core (disk : Disk) (frames : List Frame) (names : List Nat) : ∀ (s : St), Core disk s frames names →
    (read s).1 = some (match (takeByte frames).1 with | some b => (b : Int) | none => -1) ∧
    Core disk (read s).2 (takeByte frames).2 names ∧ Just (read s).2 (takeByte frames).2 := by
  induction frames with
  | nil =>
    intro s h
    have hs : s.stack = [] := List.forall₂_nil_left_iff.mp h.stack
    rw [read.eq_def]
    split
    · exact ⟨rfl, h, trivial⟩
    · rename_i e; rw [hs] at e; cases e
  | cons f fs ih =>
    intro s h
    obtain ⟨id, st, hst, hname, hrel, hrest⟩ : ∃ id st, s.stack = id :: st ∧ s.registered.lookup f.name = some id ∧
        FrameRel disk f (s.recs id) ∧
        List.Forall₂ (fun f id => s.registered.lookup f.name = some id ∧ FrameRel disk f (s.recs id)) fs st := by
      have := h.stack
      generalize s.stack = stk at this
      cases this with
      | cons a b => exact ⟨_, _, rfl, a.1, a.2, b⟩
    have hnd := h.nodup
    simp only [List.map_cons, List.nodup_cons] at hnd
    rw [read.eq_def]
    split
    · rename_i e; rw [hst] at e; cases e
    · rename_i id' st' e
      rw [hst] at e
      simp only [List.cons.injEq] at e
      obtain ⟨rfl, rfl⟩ := e
      rcases hrel with ⟨hh, hfp, hloc⟩ | ⟨b, t, hh, hfr, hfp, hub, hloc⟩
      · simp only [hh, Bool.false_eq_true, if_false]
        split
        · rename_i e; rw [hfp] at e; cases e
        · rename_i rest e
          rw [hfp] at e
          obtain rfl := Option.some.inj e
          obtain ⟨q1, q2, q3, q4, q5⟩ := readFile_self s id f.rest
          cases hfr : f.rest with
          | nil =>
            rw [hfr] at q1 q2 q3 q5
            have hl := readFile_lastByte s id []
            simp only [fileRead] at hl q1 q3 q5
            simp only [hl, if_true, takeByte, hfr]
            apply ih
            have hd : discardTop (readFile s id []) =
                { ((readFile s id []).setRec id { (readFile s id []).recs id with fp := none }) with stack := st } := by
              unfold discardTop
              rw [readFile_stack, hst]
            rw [hd]
            constructor
            · simp only [St.setRec, readFile_size, readFile_registered]; exact h.size
            · simp only [St.setRec, readFile_registered]; exact h.range
            · simp only [St.setRec, readFile_registered]; exact h.inj
            · simp only [St.setRec, readFile_registered]; exact h.known
            · simp only [St.setRec, readFile_registered]
              refine forall2_other h.inj hname ?_ fs st hnd.1 hrest
              intro i hi
              simp only [hi, if_false]
              exact readFile_other s id [] i hi
            · exact hnd.2
          | cons b t =>
            rw [hfr] at q1 q2 q3 q5
            have hl := readFile_lastByte s id (b :: t)
            simp only [fileRead] at hl q1 q3 q5
            have hb : ¬ (some (b : Int) = some (-1)) := by
              intro e
              have := Option.some.inj e
              omega
            simp only [hl, hb, if_false, takeByte, hfr]
            refine ⟨trivial, ?_, ?_⟩
            · constructor
              · simp only [readFile_size, readFile_registered]; exact h.size
              · simp only [readFile_registered]; exact h.range
              · simp only [readFile_registered]; exact h.inj
              · simp only [readFile_registered]; exact h.known
              · simp only [readFile_registered, readFile_stack, hst]
                refine .cons ⟨hname, .inl ⟨q2, q1, ?_⟩⟩ ?_
                · rw [q5, hloc]; rfl
                · exact forall2_other h.inj hname (fun i hi => readFile_other s id (b :: t) i hi) fs st hnd.1 hrest
              · simp only [List.map_cons, List.nodup_cons]; exact hnd
            · simp only [Just, readFile_stack, hst]
              exact ⟨b, f.done, rfl, q2, q3⟩
      · simp only [hh, if_true, takeByte, hfr, hub]
        refine ⟨trivial, ?_, ?_⟩
        · constructor
          · exact h.size
          · exact h.range
          · exact h.inj
          · exact h.known
          · simp only [St.setRec, hst]
            refine .cons ⟨hname, .inl ⟨?_, ?_, ?_⟩⟩ ?_
            · simp
            · simpa using hfp
            · simpa using hloc
            · refine forall2_other h.inj hname ?_ fs st hnd.1 hrest
              intro i hi
              simp [hi]
          · simp only [List.map_cons, List.nodup_cons]; exact hnd
        · simp only [Just, St.setRec, hst]
          exact ⟨b, f.done, rfl, by simp, by simpa using hub⟩

theorem unread_core (disk : Disk) (frames : List Frame) (names : List Nat) (s : St)
    (h : Core disk s frames names) (hj : Just s frames) :
    Core disk (unread s) (putBack frames) names := by
  cases frames with
  | nil =>
    have hs : s.stack = [] := List.forall₂_nil_left_iff.mp h.stack
    simpa [unread, hs, putBack] using h
  | cons f fs =>
    obtain ⟨id, st, hst, hname, hrel, hrest⟩ : ∃ id st, s.stack = id :: st ∧ s.registered.lookup f.name = some id ∧
        FrameRel disk f (s.recs id) ∧
        List.Forall₂ (fun f id => s.registered.lookup f.name = some id ∧ FrameRel disk f (s.recs id)) fs st := by
      have := h.stack
      generalize s.stack = stk at this
      cases this with
      | cons a b => exact ⟨_, _, rfl, a.1, a.2, b⟩
    have hnd := h.nodup
    simp only [List.map_cons, List.nodup_cons] at hnd
    simp only [Just, hst] at hj
    obtain ⟨b, d, hd, hh, hub⟩ := hj
    rcases hrel with ⟨_, hfp, hloc⟩ | ⟨_, _, hh', _⟩
    · simp only [unread, hst, putBack, hd]
      constructor
      · exact h.size
      · exact h.range
      · exact h.inj
      · exact h.known
      · simp only [St.setRec, hst]
        refine .cons ⟨hname, .inr ⟨b, f.rest, ?_, rfl, ?_, ?_, ?_⟩⟩ ?_
        · simp
        · simpa using hfp
        · simpa using hub
        · rw [hd] at hloc; simpa using hloc
        · refine forall2_other h.inj hname ?_ fs st hnd.1 hrest
          intro i hi
          simp [hi]
      · simp only [List.map_cons, List.nodup_cons]; exact hnd
    · rw [hh] at hh'; cases hh'

theorem lookup_append_none {reg : List (Nat × Nat)} {n : Nat} (h : reg.lookup n = none) (id m : Nat) :
    (reg ++ [(n, id)]).lookup m = if m = n then some id else reg.lookup m := by
  rw [List.lookup_append]
  by_cases e : m = n
  · subst e; simp [h]
  · have : ([(n, id)] : List (Nat × Nat)).lookup m = none := by
      have : (m == n) = false := by simpa using e
      simp [List.lookup, this]
    simp [this, e]

/-- One load: what it answers, and that the files being read are the expected ones. -/
theorem push_core (disk : Disk) (frames : List Frame) (names : List Nat) (s : St) (n : Nat) (once : Bool)
    (h : Core disk s frames names) (hok : once = true ∨ ∀ f ∈ frames, f.name ≠ n)
    (hlen : s.registered.length + 1 < 65536) :
    (once ∧ n ∈ names → push disk s n once = (some true, s)) ∧
    (¬ (once ∧ n ∈ names) → disk n = none → push disk s n once = (some false, s)) ∧
    (∀ full c, ¬ (once ∧ n ∈ names) → disk n = some (full, c) →
      (push disk s n once).1 = some true ∧
      Core disk (push disk s n once).2 (⟨n, [], c⟩ :: frames) (n :: names) ∧
      (push disk s n once).2.registered.length ≤ s.registered.length + 1) := by
  have hk := h.known n
  refine ⟨?_, ?_, ?_⟩
  · rintro ⟨rfl, hn⟩
    have := hk.mpr hn
    simp [push, findName, this]
  · intro hc hd
    have : (once && (findName s n).isSome) = false := by
      rw [Bool.and_eq_false_iff]
      by_cases ho : once = true
      · right
        have : n ∉ names := fun hn => hc ⟨ho, hn⟩
        simp only [findName]
        rw [← hk] at this
        exact Bool.eq_false_iff.mpr this
      · left; simpa using ho
    simp [push, this, hd]
  · intro full c hc hd
    have hcond : (once && (findName s n).isSome) = false := by
      rw [Bool.and_eq_false_iff]
      by_cases ho : once = true
      · right
        have : n ∉ names := fun hn => hc ⟨ho, hn⟩
        simp only [findName]
        rw [← hk] at this
        exact Bool.eq_false_iff.mpr this
      · left; simpa using ho
    have hloc : locAfter disk n [] = ⟨n, full, 0, 0⟩ := by simp [locAfter, hd]
    cases hf : s.registered.lookup n with
    | none =>
      have hff : findName s n = none := hf
      have hid : (s.registered.length + 1) % 65536 = s.registered.length + 1 := Nat.mod_eq_of_lt hlen
      have hp : push disk s n once = (some true, { (s.setRec s.size (Rec.opened n full c)) with
          size := s.size + 1, registered := s.registered ++ [(n, s.registered.length + 1)],
          stack := (s.registered.length + 1) :: s.stack }) := by
        unfold push
        rw [if_neg (by rw [hcond]; simp)]
        simp only [hd, hff, hid]
      have hnf : n ∉ frames.map Frame.name := by
        intro hm
        obtain ⟨g, hg, hgn⟩ := List.mem_map.mp hm
        obtain ⟨i, hi⟩ := forall2_mem h.stack g hg
        rw [hgn, hf] at hi; cases hi
      rw [hp]
      refine ⟨rfl, ?_, ?_⟩
      · constructor
        · simp [h.size, St.setRec]
        · intro m i hm
          simp only [lookup_append_none hf] at hm
          simp only [List.length_append, List.length_singleton]
          split_ifs at hm with e
          · simp only [Option.some.injEq] at hm; omega
          · have := h.range m i hm; omega
        · intro m m' i hm hm'
          simp only [lookup_append_none hf] at hm hm'
          split_ifs at hm with e1 <;> split_ifs at hm' with e2
          · rw [e1, e2]
          · simp only [Option.some.injEq] at hm
            have := h.range m' i hm'; omega
          · simp only [Option.some.injEq] at hm'
            have := h.range m i hm; omega
          · exact h.inj m m' i hm hm'
        · intro m
          simp only [lookup_append_none hf, List.mem_cons]
          split_ifs with e
          · simp [e]
          · simp only [e, false_or]; exact h.known m
        · simp only [St.setRec]
          refine .cons ⟨?_, .inl ⟨?_, ?_, ?_⟩⟩ ?_
          · simp [lookup_append_none hf]
          · simp [h.size, Rec.opened, Rec.fresh]
          · simp [h.size, Rec.opened]
          · simp only [h.size, if_true, Rec.opened, hloc]
          · refine List.Forall₂.imp ?_ (show List.Forall₂ (fun f id => s.registered.lookup f.name = some id ∧ FrameRel disk f (s.recs id)) frames s.stack from h.stack)
            rintro g i ⟨hg1, hg2⟩
            have hr := h.range _ _ hg1
            have : i ≠ s.size := by have := h.size; omega
            simp only [this, if_false]
            refine ⟨?_, hg2⟩
            rw [lookup_append_none hf]
            split_ifs with e
            · rw [e, hf] at hg1; cases hg1
            · exact hg1
        · simp only [List.map_cons, List.nodup_cons]
          exact ⟨hnf, h.nodup⟩
      · simp
    | some id =>
      have hff : findName s n = some id := hf
      have ho : once = false := by
        cases once with
        | false => rfl
        | true => simp [hff] at hcond
      have hnf : n ∉ frames.map Frame.name := by
        rcases hok with q | q
        · rw [ho] at q; cases q
        · intro hm
          obtain ⟨g, hg, hgn⟩ := List.mem_map.mp hm
          exact q g hg hgn
      have hp : push disk s n once = (some true, { (s.setRec id (Rec.opened n full c)) with stack := id :: s.stack }) := by
        unfold push
        rw [if_neg (by rw [hcond]; simp)]
        simp only [hd, hff, Bool.false_eq_true, if_false, ho]
      rw [hp]
      refine ⟨rfl, ?_, ?_⟩
      · constructor
        · exact h.size
        · exact h.range
        · exact h.inj
        · intro m
          simp only [St.setRec, List.mem_cons]
          rw [h.known m]
          constructor
          · exact Or.inr
          · rintro (e | e)
            · subst e; exact hk.mp (by simp [hf])
            · exact e
        · simp only [St.setRec]
          refine .cons ⟨hf, .inl ⟨?_, ?_, ?_⟩⟩ ?_
          · simp [Rec.opened, Rec.fresh]
          · simp [Rec.opened]
          · simp only [if_true, Rec.opened, hloc]
          · refine forall2_other h.inj hf ?_ frames s.stack hnf h.stack
            intro i hi
            simp [hi]
        · simp only [List.map_cons, List.nodup_cons]
          exact ⟨hnf, h.nodup⟩
      · simp [St.setRec]

end Ulam.Source
