import Verif.Driver.Reading
import Verif.Driver.Messages
/-
The theorems on the driver: code is generated only from a program without an error, and the number
returned says so (C81); the files are read at most once each, the reading ends, and in the end every
class that was named and not declared has no file (C83).  The theorems on messages (C82) are in
Messages.lean.
-/
namespace Ulam.Driver
open Ulam.Util

/-! ### C81 -/

theorem stages_spec (w : World) (perrs : Nat) (s : St) (hp : Parsing s) (ht : Told (perrs, s)) :
    (∀ h, (stages w perrs s.h).generated = some h →
      (∀ x ∈ h.out, ∃ l, x = .line l ∧ l.label ≠ "ERROR") ∧ (∀ p ∈ once, Quiet w p 0) ∧ Labelled w ∧
      Tabled w ∧ Quiet w .registration 0 ∧ Quiet w .urSelfNumber 0) ∧
    ((stages w perrs s.h).status = 0 →
      (∃ h, (stages w perrs s.h).generated = some h) ∧
      (∀ x ∈ (stages w perrs s.h).last.out, ∃ l, x = .line l ∧ l.label ≠ "ERROR") ∧
      Quiet w .generation 0) ∧
    ((stages w perrs s.h).status ≠ 0 → ∃ x ∈ (stages w perrs s.h).last.out, Tells x) := by
  have clean : ∀ h : Handler, Sound h → h.errors = 0 → (∀ t, Written.raw t ∉ h.out) →
      ∀ x ∈ h.out, ∃ l, x = .line l ∧ l.label ≠ "ERROR" := by
    intro h hs h0 hr x hx
    cases x with
    | raw t => exact absurd hx (hr t)
    | line l =>
      refine ⟨l, rfl, fun hl => ?_⟩
      have := hs.shown l hx hl
      have hc := hs.count
      rw [h0, List.length_eq_zero_iff] at hc
      rw [hc] at this
      cases this
  unfold stages
  split_ifs with h1
  · exact ⟨fun h hh => (by cases hh), fun h => absurd h h1, fun _ => ht.one h1⟩
  have h1' : perrs = 0 := by omega
  obtain ⟨z1, z2⟩ := ht.zero h1'
  obtain ⟨c1, c2, c3, c4⟩ := checkProgram_spec w s.h hp.sound z1 hp.waiting
  dsimp only
  split_ifs with h2 h3 h4
  · refine ⟨fun h hh => (by cases hh), fun h => ?_, fun _ => ?_⟩
    · dsimp only at h; omega
    · exact ⟨_, List.mem_append_right _ (List.mem_singleton.mpr rfl), trivial⟩
  · refine ⟨fun h hh => (by cases hh), fun h => ?_, fun _ => ?_⟩
    · dsimp only at h; omega
    · exact ⟨_, List.mem_append_right _ (List.mem_singleton.mpr rfl), trivial⟩
  all_goals
    have e0 : (checkProgram w s.h).errors = 0 := by omega
    obtain ⟨d1, d2, d3⟩ := c4 e0
    have l1 : Later (checkProgram w s.h)
        (say w .urSelfNumber 0 (say w .registration 0 (checkProgram w s.h))) :=
      (say_later ..).trans (say_later ..)
    generalize hb : say w .urSelfNumber 0 (say w .registration 0 (checkProgram w s.h)) = b
      at l1 h3 h4 ⊢
    have eb : b.errors = 0 := by omega
    have gb := l1.good c1
    have rb : ∀ t, Written.raw t ∉ b.out := fun t ht => z2 t (c3 t (l1.raw t ht))
    have l2 := say_later w .generation 0 b
    refine ⟨?_, ?_, ?_⟩
    · rintro h hh
      cases hh
      refine ⟨clean b gb.2 eb rb, d1, d2, d3, ?_, ?_⟩
      · rw [← hb] at eb; exact (say_zero (say_zero eb).1).2
      · rw [← hb] at eb; exact (say_zero eb).2
    · intro h0
      dsimp only at h0 ⊢
      first
      | exact absurd h4 (by omega)
      | exact ⟨⟨b, rfl⟩, clean _ (l2.good gb).2 h0 (fun t ht => rb t (l2.raw t ht)), (say_zero h0).2⟩
    · intro h0
      dsimp only at h0 ⊢
      first
      | exact absurd h4 (by omega)
      | exact ⟨_, List.mem_append_right _ (List.mem_singleton.mpr rfl), trivial⟩

theorem compile_spec {w : World} {files : List Bytes} {fuel : Nat} {r : Result}
    (h : compileFiles w files fuel = some r) :
    ∃ perrs s, parseAll w files fuel = some (perrs, s) ∧ Parsing s ∧ Told (perrs, s) ∧
      r = stages w perrs s.h := by
  unfold compileFiles at h
  obtain ⟨⟨perrs, s⟩, h1, h2⟩ := Option.map_eq_some_iff.mp h
  obtain ⟨a, b⟩ := parseAll_told w files fuel _ h1
  exact ⟨perrs, s, h1, a, b, h2.symm⟩

/-- Code is generated only after a compilation that showed the user no error: all that was written
until then are messages, none of them headed ERROR. -/
theorem C81_clean (w : World) (files : List Bytes) (fuel : Nat) (r : Result) (h : Handler)
    (hr : compileFiles w files fuel = some r) (hg : r.generated = some h) :
    ∀ x ∈ h.out, ∃ l, x = .line l ∧ l.label ≠ "ERROR" := by
  obtain ⟨perrs, s, -, hp, ht, rfl⟩ := compile_spec hr
  exact ((stages_spec w perrs s hp ht).1 h hg).1

/-- Code is generated only after every stage ran and none of them reported an error; the resolving
of types and the virtual tables came to their ends. -/
theorem C81_stages (w : World) (files : List Bytes) (fuel : Nat) (r : Result) (h : Handler)
    (hr : compileFiles w files fuel = some r) (hg : r.generated = some h) :
    (∀ p ∈ once, Quiet w p 0) ∧ Labelled w ∧ Tabled w ∧ Quiet w .registration 0 ∧
      Quiet w .urSelfNumber 0 := by
  obtain ⟨perrs, s, -, hp, ht, rfl⟩ := compile_spec hr
  exact ((stages_spec w perrs s hp ht).1 h hg).2

/-- The number returned is 0 only if code was generated and nothing written shows an error, and if
it is not 0, something written shows one. -/
theorem C81_status (w : World) (files : List Bytes) (fuel : Nat) (r : Result)
    (hr : compileFiles w files fuel = some r) :
    (r.status = 0 → (∃ h, r.generated = some h) ∧ Quiet w .generation 0 ∧
      ∀ x ∈ r.last.out, ∃ l, x = .line l ∧ l.label ≠ "ERROR") ∧
    (r.status ≠ 0 → ∃ x ∈ r.last.out, Tells x) := by
  obtain ⟨perrs, s, -, hp, ht, rfl⟩ := compile_spec hr
  obtain ⟨-, a, b⟩ := stages_spec w perrs s hp ht
  exact ⟨fun h => ⟨(a h).1, (a h).2.2, (a h).2.1⟩, b⟩

/-- The process that called the compiler is told as much, as long as there are fewer than 256
errors. -/
theorem C81_exit_partial (r : Result) (h : r.status < 256) : exitStatus r = 0 ↔ r.status = 0 := by
  unfold exitStatus
  rw [Nat.mod_eq_of_lt h]

/-- A program that is one file `A.ulam` with the class `A`, and a stage that may report errors. -/
def oneFile (p : Phase) (ms : List Msg) : World :=
  { modes := ⟨true, true, true⟩
    opens := fun f => decide (f = [65] ++ suffix)
    body := fun _ _ => [.begin [65], .finish]
    order := id
    stage := fun q _ => (if q = p then ms else [], true) }

/-- With 256 errors it is told that all went well, though no code was generated and the errors were
written out. -/
theorem C81_exit_fails : ∃ (w : World) (files : List Bytes) (r : Result),
    (∀ fuel, 1 ≤ fuel → compileFiles w files fuel = some r) ∧
    exitStatus r = 0 ∧ r.generated = none ∧ r.status = 256 ∧ ∃ x ∈ r.last.out, Tells x := by
  have h1 : ((compileFiles (oneFile .lineage (List.replicate 256 (errMsg "no such quark")))
      [[65] ++ suffix] 1).map fun r => (r.status, r.generated)) = some (256, none) := by
    decide +kernel
  obtain ⟨r, h2, h3⟩ := Option.map_eq_some_iff.mp h1
  obtain ⟨h4, h5⟩ := Prod.mk.injEq .. ▸ h3
  refine ⟨_, _, r, fun fuel hf => compileFiles_more _ _ 1 r h2 fuel hf, ?_, h5, h4, ?_⟩
  · unfold exitStatus; rw [h4]
  · exact (C81_status _ _ _ r h2).2 (by omega)

/-- The three theorems at work: the same program without the errors. -/
example : ((compileFiles (oneFile .lineage []) [[65] ++ suffix] 1).map
    fun r => (r.status, r.generated.map (·.errors), r.last.out)) = some (0, some 0, []) := by
  decide +kernel

/-! ### C83 -/

/-- When the files were read without an error, every class that was named and not declared has no
file of its name. -/
theorem C83_closed (w : World) (hw : Complete w) (files : List Bytes) (fuel : Nat) (s : St)
    (h : parseAll w files fuel = some (0, s)) (c : Bytes) (hc : s.table c = some false) :
    w.opens (c ++ suffix) = false := by
  have hk := parseAll_kept w hw files fuel s h
  obtain ⟨hp, ht⟩ := parseAll_told w files fuel _ h
  have hu := (unseenLoop_kept w hw fuel _ _
    (fun hz => compileList_kept w files _ (start_kept w _) hz) h rfl).2
  rcases hk.named (ht.zero rfl).1 c hc with h' | h' | h'
  · dsimp only at hu
    rw [hu] at h'
    cases h'
  · cases h'
  · exact h'

/-- A file that can be opened is parsed at most once, whatever the files, the names in them and the
errors. -/
theorem C83_once (w : World) (files : List Bytes) (fuel : Nat) (n : Nat) (s : St)
    (h : parseAll w files fuel = some (n, s)) (f : Bytes) (hf : w.opens f = true) :
    s.parsed.count f ≤ 1 := by
  have hst : Once w (0, St.start).2 := fun g _ => Nat.zero_le _
  have := unseenLoop_once w fuel _ _ (compileList_once w files _ hst) h f hf
  dsimp only at this
  split_ifs at this <;> omega

/-- The reading ends: with `L` the files that can be opened, after at most `L.length + 2` rounds over
the unseen classes, and with the same end however many rounds more are allowed. -/
theorem C83_ends (w : World) (hw : Complete w) (L : List Bytes) (hL : Finite w L)
    (files : List Bytes) :
    ∃ q, ∀ fuel, L.length + 2 ≤ fuel → parseAll w files fuel = some q := by
  have h : (parseAll w files (L.length + 2)).isSome := by
    refine unseenLoop_ends w hw L hL _ _ ?_
    have : left L (compileList w files (0, St.start)).2 ≤ L.length := List.length_filter_le ..
    omega
  obtain ⟨q, hq⟩ := Option.isSome_iff_exists.mp h
  exact ⟨q, fun fuel hf => parseAll_more w files _ q hq fuel hf⟩

/-- When the files were read without an error, every file asked for was opened and has declared the
class it is named after, unless some file loads it.  Missing: the files that are loaded by others. -/
theorem C83_asked_partial (w : World) (files : List Bytes) (fuel : Nat) (s : St)
    (h : parseAll w files fuel = some (0, s)) (f : Bytes) (hf : f ∈ files)
    (hl : ∀ g t, Ev.load f ∉ w.body g t) :
    ∃ c, classNameFromFile f = some c ∧ f = c ++ suffix ∧ s.table c = some true := by
  obtain ⟨hp, ht⟩ := parseAll_told w files fuel _ h
  obtain ⟨h0, hd, hm⟩ := unseenLoop_declared w fuel _ _
    (fun hz => (compileList_declared w files _ (start_declared w) hz).1) h rfl
  have hin : f ∈ (compileList w files (0, St.start)).2.pushed := by
    obtain ⟨-, -, c3⟩ := compileList_declared w files _ (start_declared w) h0
    rcases c3 f hf with h' | ⟨g, t, h'⟩ | h'
    · exact h'
    · exact absurd h' (hl g t)
    · exfalso
      obtain ⟨-, ht'⟩ := compileList_told w files (0, St.start) start_parsing.1 start_parsing.2
      exact h' (ht'.zero h0).1
  obtain ⟨c, c1, c2⟩ := hd f (hm f hin) hl (ht.zero rfl).1
  exact ⟨c, c1, ((C51_class_name f c).mp c1).1, c2⟩

/-- Two files: `A.ulam` declares `A` and loads `B.ulam`, in which there is no class. -/
def loaded : World :=
  { modes := ⟨true, true, true⟩
    opens := fun f => decide (f = [65] ++ suffix ∨ f = [66] ++ suffix)
    body := fun _ _ => [.load ([66] ++ suffix), .begin [65], .finish]
    order := id
    stage := fun _ _ => ([], true) }

/-- A file asked for that another file loads is taken as read even if there is no class in it of its
name: the compilation goes through, with code for the other class only, and not a word is written. -/
theorem C83_asked_fails : ∃ (w : World) (a b : Bytes) (s : St) (r : Result),
    (∀ fuel, 1 ≤ fuel → parseAll w [a ++ suffix, b ++ suffix] fuel = some (0, s)) ∧
    (∀ fuel, 1 ≤ fuel → compileFiles w [a ++ suffix, b ++ suffix] fuel = some r) ∧
    s.table a = some true ∧ s.table b = none ∧ r.status = 0 ∧ r.generated.isSome ∧
    r.last.out = [] := by
  have h1 : ((parseAll loaded [[65] ++ suffix, [66] ++ suffix] 1).map
      fun q => (q.1, q.2.table [65], q.2.table [66])) = some (0, some true, none) := by
    decide +kernel
  have h2 : ((compileFiles loaded [[65] ++ suffix, [66] ++ suffix] 1).map
      fun r => (r.status, r.generated.isSome, r.last.out)) = some (0, true, []) := by
    decide +kernel
  obtain ⟨⟨n, s⟩, a1, a2⟩ := Option.map_eq_some_iff.mp h1
  obtain ⟨r, b1, b2⟩ := Option.map_eq_some_iff.mp h2
  simp only [Prod.mk.injEq] at a2 b2
  obtain ⟨a3, a4, a5⟩ := a2
  obtain ⟨b3, b4, b5⟩ := b2
  subst a3
  exact ⟨loaded, [65], [66], s, r, fun fuel hf => parseAll_more _ _ 1 _ a1 fuel hf,
    fun fuel hf => compileFiles_more _ _ 1 r b1 fuel hf, a4, a5, b3, b4, b5⟩

/-- A name of letters and digits that starts with a capital letter. -/
def Plain (c : Bytes) : Prop :=
  (∃ x rest, c = x :: rest ∧ 65 ≤ x ∧ x ≤ 90) ∧
  ∀ x ∈ c, (48 ≤ x ∧ x ≤ 57) ∨ (65 ≤ x ∧ x ≤ 90) ∨ (97 ≤ x ∧ x ≤ 122)

theorem plain_no_dot {c : Bytes} (h : Plain c) : 46 ∉ c := by
  intro hx
  have := h.2 46 hx
  omega

theorem isAlnum_iff (x : Nat) : isAlnum x = true ↔
    (48 ≤ x ∧ x ≤ 57) ∨ (65 ≤ x ∧ x ≤ 90) ∨ (97 ≤ x ∧ x ≤ 122) := by
  unfold isAlnum
  simp only [Bool.or_eq_true, decide_eq_true_eq, or_assoc]

/-- A name given on the command line, with or without the suffix, stands for the file of that name,
and only plain names are accepted. -/
theorem C83_named (path file : Bytes) :
    addClassName path = some file ↔
      ∃ c, Plain c ∧ (path = c ∨ path = c ++ suffix) ∧ file = c ++ suffix := by
  have core : ∀ c : Bytes,
      (match c with
        | [] => none
        | x :: _ => if c.all isAlnum then if x < 65 ∨ x > 90 then none else some (c ++ suffix)
          else none) = some file ↔ Plain c ∧ file = c ++ suffix := by
    intro c
    cases c with
    | nil => simp [Plain]
    | cons x rest =>
      dsimp only
      split_ifs with h1 h2
      · simp only [reduceCtorEq, false_iff, not_and]
        rintro ⟨⟨y, r, hy, h3, h4⟩, -⟩
        cases hy
        omega
      · rw [Option.some_inj]
        constructor
        · rintro rfl
          refine ⟨⟨⟨x, rest, rfl, by omega, by omega⟩, ?_⟩, rfl⟩
          intro y hy
          exact (isAlnum_iff y).mp (List.all_eq_true.mp h1 y hy)
        · rintro ⟨-, rfl⟩; rfl
      · simp only [reduceCtorEq, false_iff, not_and]
        rintro ⟨-, h⟩
        exact absurd (List.all_eq_true.mpr fun y hy => (isAlnum_iff y).mpr (h y hy)) h1
  have hsuf : ∀ c : Bytes, Plain c → ¬ suffix <:+ c := by
    rintro c hc ⟨t, rfl⟩
    exact plain_no_dot hc (List.mem_append_right _ (by simp [suffix]))
  by_cases hs : suffix <:+ path
  · have hb : suffix.isSuffixOf path = true := List.isSuffixOf_iff_suffix.mpr hs
    obtain ⟨t, rfl⟩ := hs
    have ht : (t ++ suffix).take ((t ++ suffix).length - suffix.length) = t := by simp
    have : addClassName (t ++ suffix) = some file ↔ Plain t ∧ file = t ++ suffix := by
      rw [← core t]
      unfold addClassName
      simp only [hb, if_true, ht]
      exact Iff.rfl
    rw [this]
    constructor
    · rintro ⟨h1, h2⟩
      exact ⟨t, h1, Or.inr rfl, h2⟩
    · rintro ⟨c, h1, h2 | h2, h3⟩
      · exact absurd ⟨t, h2⟩ (hsuf c h1)
      · have := List.append_cancel_right h2
        subst this
        exact ⟨h1, h3⟩
  · have hb : suffix.isSuffixOf path = false := by
      rw [← Bool.not_eq_true, List.isSuffixOf_iff_suffix]; exact hs
    have : addClassName path = some file ↔ Plain path ∧ file = path ++ suffix := by
      rw [← core path]
      unfold addClassName
      simp only [hb, Bool.false_eq_true, if_false]
      exact Iff.rfl
    rw [this]
    constructor
    · rintro ⟨h1, h2⟩
      exact ⟨path, h1, Or.inl rfl, h2⟩
    · rintro ⟨c, h1, rfl | rfl, h3⟩
      · exact ⟨h1, h3⟩
      · exact absurd ⟨c, rfl⟩ hs

/-- The file then has a class it is named after: the very name given. -/
theorem C83_named_class (c : Bytes) (h : Plain c) : classNameFromFile (c ++ suffix) = some c := by
  refine (C51_class_name _ _).mpr ⟨rfl, h.1, ?_⟩
  rintro ⟨a, b, hab⟩
  have hlen := congrArg List.length hab
  simp only [List.length_append, List.length_dropLast] at hlen
  have hsl : suffix.length = 5 := rfl
  rw [hsl] at hlen
  have h46 : (c ++ suffix.dropLast)[a.length]? = some 46 := by
    rw [← hab, List.append_assoc, List.getElem?_append_right (Nat.le_refl _), Nat.sub_self]
    rfl
  have hlt : a.length < c.length := by omega
  rw [List.getElem?_append_left hlt] at h46
  exact plain_no_dot h (List.mem_of_getElem? h46)

/-- Three files that name one another: all three are read, once each; a class without a file stays
undeclared. -/
def round3 : World :=
  { modes := ⟨true, true, true⟩
    opens := fun f => decide (f ∈ [[65], [66], [67]].map (· ++ suffix))
    body := fun f _ =>
      if f = [65] ++ suffix then [.begin [65], .mention [66], .mention [90], .finish]
      else if f = [66] ++ suffix then [.begin [66], .mention [67], .mention [65], .finish]
      else [.begin [67], .mention [65], .finish]
    order := id
    stage := fun _ _ => ([], true) }

example : ((parseAll round3 [[65] ++ suffix] 5).map fun q => (q.1, q.2.parsed,
      [[65], [66], [67], [90]].map q.2.table)) =
    some (0, [[65], [66], [67]].map (· ++ suffix), [some true, some true, some true, some false]) := by
  decide +kernel

example : Complete round3 ∧ Finite round3 ([[65], [66], [67]].map (· ++ suffix)) := by
  refine ⟨fun l x => Iff.rfl, fun f hf => ?_⟩
  simpa [round3] using hf

example : addClassName [70, 111, 111] = some ([70, 111, 111] ++ suffix) ∧
    addClassName ([70, 111, 111] ++ suffix) = some ([70, 111, 111] ++ suffix) ∧
    addClassName [70, 95, 111] = none := by
  decide +kernel

end Ulam.Driver
