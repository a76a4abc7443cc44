import Verif.Driver.Spec
import Mathlib.Data.List.Basic
import Mathlib.Data.List.Induction
import Mathlib.Tactic.SplitIfs
import Mathlib.Data.List.Nodup
import Mathlib.Data.List.Forall2
import Mathlib.Tactic.Tauto
import Mathlib.Tactic.ByContra
/-
The message handler: what reaches the user and what is counted.
-/
namespace Ulam.Driver
open Ulam.Util

/-- The line and the count of one message. -/
theorem build_eq (d : Modes) (h : Handler) (m : Msg) :
    build d h m =
      match heading d (!h.waiting) m with
      | none => if m.kind = .warn then { h with warnings := h.warnings + 1 } else h
      | some s =>
        let h' := outputMsg h ⟨m.loc, s, m.text⟩
        if s = "ERROR" then incError h' ⟨m.loc, s, m.text⟩
        else if m.kind = .warn then { h' with warnings := h'.warnings + 1 } else h' := by
  obtain ⟨k, loc, text, turn⟩ := m
  cases k <;> simp only [build, heading]
  · simp
  · by_cases hw : d.warn <;> simp [hw]
  · by_cases hw : d.info <;> simp [hw]
  · by_cases hw : d.note <;> simp [hw]
  · simp
  · cases h.waiting <;> cases turn <;> simp

theorem outputMsg_waiting (h : Handler) (l : Line) : (outputMsg h l).waiting = h.waiting := by
  unfold outputMsg; split_ifs <;> rfl
theorem outputMsg_attached (h : Handler) (l : Line) : (outputMsg h l).attached = h.attached := by
  unfold outputMsg; split_ifs <;> rfl
theorem outputMsg_errors (h : Handler) (l : Line) : (outputMsg h l).errors = h.errors := by
  unfold outputMsg; split_ifs <;> rfl
theorem outputMsg_failed (h : Handler) (l : Line) : (outputMsg h l).failed = h.failed := by
  unfold outputMsg; split_ifs <;> rfl

theorem build_waiting (d : Modes) (h : Handler) (m : Msg) : (build d h m).waiting = h.waiting := by
  rw [build_eq]
  cases heading d (!h.waiting) m with
  | none => dsimp only; split_ifs <;> rfl
  | some s => dsimp only; split_ifs <;> simp [incError, outputMsg_waiting]

theorem build_attached (d : Modes) (h : Handler) (m : Msg) :
    (build d h m).attached = h.attached := by
  rw [build_eq]
  cases heading d (!h.waiting) m with
  | none => dsimp only; split_ifs <;> rfl
  | some s => dsimp only; split_ifs <;> simp [incError, outputMsg_attached]

theorem build_errors (d : Modes) (h : Handler) (m : Msg) :
    (build d h m).errors = h.errors + if heading d (!h.waiting) m = some "ERROR" then 1 else 0 := by
  rw [build_eq]
  cases heading d (!h.waiting) m with
  | none => dsimp only; split_ifs <;> simp_all
  | some s => dsimp only; split_ifs <;> simp_all [incError, outputMsg_errors]

/-- Output of one message. -/
theorem build_out (d : Modes) (h : Handler) (m : Msg) :
    ((build d h m).out, (build d h m).seen) =
      match heading d (!h.waiting) m with
      | none => (h.out, h.seen)
      | some s => ((outputMsg h ⟨m.loc, s, m.text⟩).out, (outputMsg h ⟨m.loc, s, m.text⟩).seen) := by
  rw [build_eq]
  cases heading d (!h.waiting) m with
  | none => dsimp only; split_ifs <;> rfl
  | some s => dsimp only; split_ifs <;> rfl

theorem run_snoc (d : Modes) (ops : List Op) (o : Op) :
    run d (ops ++ [o]) = exec d (run d ops) o := by
  simp [run]

theorem run_attached (d : Modes) (ops : List Op) : (run d ops).attached = decide (Op.attach ∈ ops) := by
  induction ops using List.reverseRecOn with
  | nil => simp [run, Handler.start]
  | append_singleton ops o ih =>
    rw [run_snoc]
    cases o <;> simp [exec, build_attached, clear, harden, soften, attach, ih]

theorem run_waiting (d : Modes) (ops : List Op) : (run d ops).waiting = !hardAfter ops := by
  induction ops using List.reverseRecOn with
  | nil => simp [run, Handler.start, hardAfter]
  | append_singleton ops o ih =>
    rw [run_snoc]
    have : hardAfter (ops ++ [o]) =
        match o with | .harden => true | .soften => false | _ => hardAfter ops := by
      cases o <;> simp [hardAfter]
    rw [this]
    cases o <;> simp [exec, build_waiting, clear, harden, soften, attach, ih]

theorem shown_snoc (d : Modes) (ops : List Op) (o : Op) (i : Nat) (l : Line) :
    ShownAt d (ops ++ [o]) i l ↔ ShownAt d ops i l ∨
      (i = ops.length ∧ Op.attach ∈ ops ∧ ∃ m, o = .say m ∧
        heading d (hardAfter ops) m = some l.label ∧ l.loc = m.loc ∧ l.text = m.text) := by
  unfold ShownAt
  rcases Nat.lt_trichotomy i ops.length with hi | hi | hi
  · rw [List.getElem?_append_left hi, List.take_append_of_le_length (by omega)]
    constructor
    · exact fun h => Or.inl h
    · rintro (h | ⟨h, -⟩)
      · exact h
      · omega
  · subst hi
    have h1 : (ops ++ [o])[ops.length]? = some o := by simp
    have h2 : (ops ++ [o]).take ops.length = ops := by simp
    rw [h1, h2]
    have h3 : ops[ops.length]? = none := by simp
    rw [h3]
    simp only [reduceCtorEq, false_and, exists_false, false_or, true_and]
    constructor
    · rintro ⟨m, hm, ha, hh⟩
      exact ⟨ha, m, by simpa using hm, hh⟩
    · rintro ⟨ha, m, rfl, hh⟩
      exact ⟨m, rfl, ha, hh⟩
  · have h1 : (ops ++ [o])[i]? = none := by simp; omega
    have h2 : ops[i]? = none := by simp; omega
    rw [h1, h2]
    constructor
    · rintro ⟨m, hm, -⟩; cases hm
    · rintro (⟨m, hm, -⟩ | ⟨h, -⟩)
      · cases hm
      · omega

theorem shown_lt {d : Modes} {ops : List Op} {i : Nat} {l : Line} (h : ShownAt d ops i l) :
    i < ops.length := by
  obtain ⟨m, hm, -⟩ := h
  exact (List.getElem?_eq_some_iff.mp hm).1

/-- The renderings the user has been given. -/
def rendered (out : List Written) : List String :=
  out.filterMap fun x => match x with | .line l => some l.render | .raw _ => none

theorem run_seen (d : Modes) (ops : List Op) :
    (run d ops).seen = rendered (run d ops).out ∧ (run d ops).seen.Nodup := by
  induction ops using List.reverseRecOn with
  | nil => simp [run, Handler.start, rendered]
  | append_singleton ops o ih =>
    rw [run_snoc]
    cases o with
    | say m =>
      have hb := build_out d (run d ops) m
      cases hh : heading d (!(run d ops).waiting) m with
      | none =>
        rw [hh] at hb
        simp only [Prod.mk.injEq] at hb
        simp only [exec]
        rw [hb.1, hb.2]
        exact ih
      | some s =>
        rw [hh] at hb
        simp only [Prod.mk.injEq] at hb
        simp only [exec]
        rw [hb.1, hb.2]
        unfold outputMsg
        split_ifs with ha hs
        · exact ih
        · dsimp only
          refine ⟨?_, ?_⟩
          · rw [ih.1]; simp [rendered]
          · rw [List.nodup_append]
            refine ⟨ih.2, by simp, ?_⟩
            intro a ha' b hb'
            simp only [List.mem_singleton] at hb'
            subst hb'
            exact fun h => hs (h ▸ ha')
        · exact ih
    | _ => exact ih

theorem mem_rendered {out : List Written} {s : String} :
    s ∈ rendered out ↔ ∃ l, Written.line l ∈ out ∧ l.render = s := by
  unfold rendered
  rw [List.mem_filterMap]
  constructor
  · rintro ⟨x, hx, hs⟩
    cases x with
    | line l => exact ⟨l, hx, by simpa using hs⟩
    | raw t => simp at hs
  · rintro ⟨l, hl, hs⟩
    exact ⟨_, hl, by simpa using hs⟩

theorem exec_out_mono (d : Modes) (h : Handler) (o : Op) (x : Written) (hx : x ∈ h.out) :
    x ∈ (exec d h o).out := by
  cases o with
  | say m =>
    have hb := build_out d h m
    simp only [exec]
    cases hh : heading d (!h.waiting) m with
    | none => rw [hh] at hb; simp only [Prod.mk.injEq] at hb; rw [hb.1]; exact hx
    | some s =>
      rw [hh] at hb; simp only [Prod.mk.injEq] at hb; rw [hb.1]
      unfold outputMsg
      split_ifs <;> simp [hx]
  | _ => exact hx

theorem shown_mem (d : Modes) (ops : List Op) : ∀ i l, ShownAt d ops i l →
    ∃ l', Written.line l' ∈ (run d ops).out ∧ l'.render = l.render := by
  induction ops using List.reverseRecOn with
  | nil => rintro i l ⟨m, hm, -⟩; simp at hm
  | append_singleton ops o ih =>
    intro i l hs
    rw [run_snoc]
    rcases (shown_snoc ..).mp hs with hs | ⟨-, ha, m, rfl, hh, hl, ht⟩
    · obtain ⟨l', hl', hr⟩ := ih i l hs
      exact ⟨l', exec_out_mono _ _ _ _ hl', hr⟩
    · have hb := build_out d (run d ops) m
      rw [run_waiting, Bool.not_not, hh] at hb
      simp only [Prod.mk.injEq] at hb
      simp only [exec]
      rw [hb.1]
      have hat : (run d ops).attached = true := by rw [run_attached]; simpa using ha
      have hle : (⟨m.loc, l.label, m.text⟩ : Line) = l := by rw [← hl, ← ht]
      unfold outputMsg
      rw [if_pos hat, hle]
      split_ifs with hin
      · rw [(run_seen d ops).1, mem_rendered] at hin
        exact hin
      · exact ⟨l, by simp, rfl⟩

/-- Each line of the user's file, with the report that put it there. -/
def FirstAt (d : Modes) (ops : List Op) (i : Nat) (x : Written) : Prop :=
  ∃ l, x = .line l ∧ ShownAt d ops i l ∧
    ∀ j l', ShownAt d ops j l' → l'.render = l.render → i ≤ j

/-- C82. Whatever sequence of messages is reported, whatever is switched in between: the user's
file holds, in the order of the reports, the messages that have a heading and were reported after a
file was given, each at its first report; a text is never written twice. -/
theorem C82_shown_once (d : Modes) (ops : List Op) :
    (∃ is : List Nat, is.Pairwise (· < ·) ∧ List.Forall₂ (FirstAt d ops) is (run d ops).out) ∧
    (∀ i l, ShownAt d ops i l → ∃ l', Written.line l' ∈ (run d ops).out ∧ l'.render = l.render) ∧
    (rendered (run d ops).out).Nodup := by
  refine ⟨?_, shown_mem d ops, (run_seen d ops).1 ▸ (run_seen d ops).2⟩
  induction ops using List.reverseRecOn with
  | nil => exact ⟨[], List.Pairwise.nil, by simp [run, Handler.start]⟩
  | append_singleton ops o ih =>
    obtain ⟨is, hp, hf⟩ := ih
    -- nothing earlier changes
    have keep : ∀ i x, FirstAt d ops i x → FirstAt d (ops ++ [o]) i x := by
      rintro i x ⟨l, rfl, hs, hmin⟩
      refine ⟨l, rfl, (shown_snoc ..).mpr (Or.inl hs), ?_⟩
      intro j l' hj hr
      rcases (shown_snoc ..).mp hj with hj | ⟨hj, -⟩
      · exact hmin j l' hj hr
      · have := shown_lt hs; omega
    have hf' : List.Forall₂ (FirstAt d (ops ++ [o])) is (run d ops).out :=
      hf.imp keep
    have stay : (run d (ops ++ [o])).out = (run d ops).out →
        ∃ is : List Nat, is.Pairwise (· < ·) ∧
          List.Forall₂ (FirstAt d (ops ++ [o])) is (run d (ops ++ [o])).out := by
      intro h; rw [h]; exact ⟨is, hp, hf'⟩
    rw [run_snoc] at stay ⊢
    cases o with
    | say m =>
      have hb := build_out d (run d ops) m
      cases hh : heading d (!(run d ops).waiting) m with
      | none =>
        rw [hh] at hb
        simp only [Prod.mk.injEq] at hb
        exact stay hb.1
      | some s =>
        rw [hh] at hb
        simp only [Prod.mk.injEq] at hb
        simp only [exec] at stay ⊢
        rw [hb.1] at stay ⊢
        unfold outputMsg at stay ⊢
        by_cases ha : (run d ops).attached
        · rw [if_pos ha] at stay ⊢
          by_cases hs : (⟨m.loc, s, m.text⟩ : Line).render ∈ (run d ops).seen
          · rw [if_pos hs] at stay ⊢
            exact stay rfl
          · rw [if_neg hs]
            rw [run_waiting, Bool.not_not] at hh
            rw [run_attached] at ha
            refine ⟨is ++ [ops.length], ?_, ?_⟩
            · rw [List.pairwise_append]
              refine ⟨hp, by simp, ?_⟩
              intro a ha' b hb'
              simp only [List.mem_singleton] at hb'
              subst hb'
              obtain ⟨x, hx⟩ : ∃ x, FirstAt d ops a x := by
                obtain ⟨n, hn, rfl⟩ := List.mem_iff_getElem.mp ha'
                have := List.forall₂_iff_get.mp hf
                exact ⟨_, this.2 n hn (this.1 ▸ hn)⟩
              obtain ⟨l, -, hsh, -⟩ := hx
              exact shown_lt hsh
            · refine List.rel_append hf' ?_
              refine List.Forall₂.cons ⟨_, rfl, ?_, ?_⟩ List.Forall₂.nil
              · exact (shown_snoc ..).mpr (Or.inr ⟨rfl, by simpa using ha, m, rfl, hh, rfl, rfl⟩)
              · intro j l' hj hr
                rcases (shown_snoc ..).mp hj with hj | ⟨hj, -⟩
                · exfalso
                  apply hs
                  rw [(run_seen d ops).1, mem_rendered, ← hr]
                  -- shown earlier: it is there
                  exact shown_mem d ops j l' hj
                · omega
        · rw [if_neg ha] at stay ⊢
          exact stay rfl
    | _ => exact stay rfl

/-- Not cleared after the `i`-th use. -/
def NotCleared (ops : List Op) (i : Nat) : Prop := ∀ j, i < j → ops[j]? ≠ some Op.clear

theorem notCleared_snoc (ops : List Op) (o : Op) (i : Nat) (hi : i < ops.length) :
    NotCleared (ops ++ [o]) i ↔ NotCleared ops i ∧ o ≠ .clear := by
  constructor
  · intro h
    refine ⟨fun j hj hc => ?_, fun ho => ?_⟩
    · have hlt := (List.getElem?_eq_some_iff.mp hc).1
      exact h j hj (by rw [List.getElem?_append_left hlt]; exact hc)
    · exact h ops.length hi (by simp [ho])
  · rintro ⟨h, ho⟩ j hj hc
    rcases Nat.lt_trichotomy j ops.length with hl | hl | hl
    · rw [List.getElem?_append_left hl] at hc
      exact h j hj hc
    · subst hl
      simp at hc
      exact ho hc
    · have : (ops ++ [o])[j]? = none := by simp; omega
      rw [this] at hc; cases hc

theorem notCleared_last (ops : List Op) (o : Op) : NotCleared (ops ++ [o]) ops.length := by
  intro j hj hc
  have := (List.getElem?_eq_some_iff.mp hc).1
  simp at this
  omega

theorem errorAt_snoc (d : Modes) (ops : List Op) (o : Op) (i : Nat) (hi : i < ops.length) :
    ErrorAt d (ops ++ [o]) i ↔ ErrorAt d ops i := by
  unfold ErrorAt
  rw [List.getElem?_append_left hi, List.take_append_of_le_length (by omega)]

theorem errorAt_last (d : Modes) (ops : List Op) (o : Op) :
    ErrorAt d (ops ++ [o]) ops.length ↔
      ∃ m, o = .say m ∧ heading d (hardAfter ops) m = some "ERROR" := by
  unfold ErrorAt
  simp

open Classical in
/-- C82. The error count is the number of messages that went out under the heading of an error since
the counts were last cleared; the messages waited for are among them exactly while waiting is over
and the class they are about is an ordinary one. -/
theorem C82_count (d : Modes) (ops : List Op) :
    (run d ops).errors =
      ((List.range ops.length).filter fun i => ErrorAt d ops i ∧ NotCleared ops i).length := by
  induction ops using List.reverseRecOn with
  | nil => simp [run, Handler.start]
  | append_singleton ops o ih =>
    rw [run_snoc, List.length_append, List.length_singleton, List.range_succ, List.filter_append,
      List.length_append]
    have hlast : (List.filter (fun i => decide (ErrorAt d (ops ++ [o]) i ∧ NotCleared (ops ++ [o]) i))
        [ops.length]).length =
        if ∃ m, o = .say m ∧ heading d (hardAfter ops) m = some "ERROR" then 1 else 0 := by
      rw [List.filter_singleton]
      have : (decide (ErrorAt d (ops ++ [o]) ops.length ∧ NotCleared (ops ++ [o]) ops.length)) =
          decide (∃ m, o = .say m ∧ heading d (hardAfter ops) m = some "ERROR") := by
        rw [decide_eq_decide, errorAt_last]
        exact ⟨fun h => h.1, fun h => ⟨h, notCleared_last ops o⟩⟩
      rw [this]
      by_cases hc : ∃ m, o = .say m ∧ heading d (hardAfter ops) m = some "ERROR" <;> simp [hc]
    rw [hlast]
    by_cases ho : o = .clear
    · have h0 : (List.filter (fun i => decide (ErrorAt d (ops ++ [o]) i ∧ NotCleared (ops ++ [o]) i))
          (List.range ops.length)) = [] := by
        rw [List.filter_eq_nil_iff]
        intro i hi
        rw [List.mem_range] at hi
        have := (notCleared_snoc ops o i hi).not.mpr (by tauto)
        simp [this]
      rw [h0]
      subst ho
      simp [exec, clear]
    · have h0 : (List.filter (fun i => decide (ErrorAt d (ops ++ [o]) i ∧ NotCleared (ops ++ [o]) i))
          (List.range ops.length)) =
          List.filter (fun i => decide (ErrorAt d ops i ∧ NotCleared ops i)) (List.range ops.length) := by
        refine List.filter_congr ?_
        intro i hi
        rw [List.mem_range] at hi
        rw [decide_eq_decide, errorAt_snoc d ops o i hi, notCleared_snoc ops o i hi]
        tauto
      rw [h0, ← ih]
      cases o with
      | say m =>
        simp only [exec, build_errors, run_waiting, Bool.not_not]
        congr 1
        by_cases hh : heading d (hardAfter ops) m = some "ERROR" <;> simp [hh]
      | clear => exact absurd rfl ho
      | harden => simp [exec, harden]
      | soften => simp [exec, soften]
      | attach => simp [exec, attach]

/-- A run with a repeated error, a warning before there is a file, and a wait that turns into an
error: two lines, three errors. -/
example :
    let d : Modes := ⟨true, true, true⟩
    let ops := [Op.say ⟨.warn, "A:1", "w", true⟩, .attach, .say ⟨.err, "A:2", "e", true⟩,
      .say ⟨.err, "A:2", "e", true⟩, .say ⟨.wait, "A:3", "u", true⟩, .harden,
      .say ⟨.wait, "A:3", "u", true⟩, .say ⟨.wait, "A:4", "t", false⟩]
    (run d ops).out = [.line ⟨"A:2", "ERROR", "e"⟩, .line ⟨"A:3", "ERROR", "u"⟩] ∧
      (run d ops).errors = 3 := by decide +kernel

end Ulam.Driver
