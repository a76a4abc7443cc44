import Verif.Overload.Note
import Verif.Overload.Props
/-! # C112: the notes that explain an ambiguous call -/
namespace Ulam.Overload
open Spec
open Ulam.Walker (World Entry State getNextBase getNextBasePair getNextBase_some add_seen addAncestorPairsOf init mem_sightings edge_base
  isClassASubclassOf Edge subclass_init next_some)
open Ulam.Walker.Spec (SelfOrAncestor Ancestor Base Ok)
variable {n : Nat}

/-! ### The map -/

def total (m : Tally n) : Nat := (m.map Prod.snd).sum

theorem total_cons (x : Fin n × Nat) (m : Tally n) : total (x :: m) = x.2 + total m := by simp [total]

theorem scan_facts (w : World n) (r : Fin n) (m : Tally n) :
    (scan w r m).2.2.Sublist m ∧ total m = (scan w r m).2.1 + total (scan w r m).2.2 := by
  induction m with
  | nil => exact ⟨List.Sublist.refl _, rfl⟩
  | cons x m ih =>
    obtain ⟨c, k⟩ := x
    unfold scan
    split
    · exact ⟨List.Sublist.refl _, by simp⟩
    · split
      · exact ⟨List.sublist_cons_self _ _, by rw [total_cons]⟩
      · refine ⟨ih.1.cons_cons _, ?_⟩
        rw [total_cons, ih.2]
        dsimp only
        rw [total_cons]
        omega

theorem scan_none (w : World n) (r : Fin n) (m : Tally n)
    (h : ∀ x ∈ m, isClassASubclassOf w x.1 r = false ∧ isClassASubclassOf w r x.1 = false) : scan w r m = (false, 0, m) := by
  induction m with
  | nil => rfl
  | cons x m ih =>
    obtain ⟨c, k⟩ := x
    have := h (c, k) (List.mem_cons_self ..)
    unfold scan
    rw [if_neg (by rw [this.1]; simp), if_neg (by rw [this.2]; simp), ih fun y hy => h y (List.mem_cons_of_mem _ hy)]

theorem insert_perm (r : Fin n) (k : Nat) (m : Tally n) (h : r ∉ m.map Prod.fst) : (insertTally r k m).Perm ((r, k) :: m) := by
  induction m with
  | nil => exact List.Perm.refl _
  | cons x m ih =>
    obtain ⟨c, j⟩ := x
    simp only [List.map_cons, List.mem_cons, not_or] at h
    unfold insertTally
    split
    · exact List.Perm.refl _
    · rw [if_neg h.1]
      exact ((ih h.2).cons _).trans (List.Perm.swap ..)

theorem total_perm {m m' : Tally n} (h : m.Perm m') : total m = total m' := (h.map _).sum_nat

/-! ### The loop -/

theorem noteLoop_none {P : Program n} {args : List Arg} {a : Notes n} {s : State n} (h : getNextBase P.w s = none) :
    noteLoop P args a s = a := by
  rw [noteLoop.eq_def]
  split
  · rfl
  · rename_i h2; rw [h] at h2; cases h2

theorem noteLoop_some {P : Program n} {args : List Arg} {a : Notes n} {s t : State n} {r : Fin n} (h : getNextBase P.w s = some (r, t)) :
    noteLoop P args a s = if P.w.defined r then
      if (noteAt P args r a).2 = 1 then noteLoop P args (noteAt P args r a).1 t
      else noteLoop P args (noteAt P args r a).1 (addAncestorPairsOf P.w false r P.w.nouti t)
    else noteLoop P args a t := by
  rw [noteLoop.eq_def]
  split
  · rename_i h2; rw [h] at h2; cases h2
  · rename_i h2; rw [h] at h2; cases h2; rfl

/-- What is known of the map at any time: `S` are the classes that have been met. -/
structure Good (P : Program n) (args : List Arg) (c : Fin n) (S : Finset (Fin n)) (a : Notes n) : Prop where
  sum : a.count = total a.map
  keys : (a.map.map Prod.fst).Nodup
  seen : ∀ x ∈ a.map, x.1 ∈ S
  entry : ∀ x ∈ a.map, P.w.defined x.1 = true ∧ Relation.ReflTransGen (Edge P.w) (P.w.root c) x.1 ∧
    x.2 = (noted P.T (P.funcs x.1) args).length

theorem Good.mono {P : Program n} {args : List Arg} {c : Fin n} {S S' : Finset (Fin n)} {a : Notes n} (G : Good P args c S a)
    (h : S ⊆ S') : Good P args c S' a := ⟨G.sum, G.keys, fun x hx => h (G.seen x hx), G.entry⟩

theorem good_at {P : Program n} {args : List Arg} {c r : Fin n} {S : Finset (Fin n)} {a : Notes n} (G : Good P args c S a)
    (hr : r ∉ S) (hd : P.w.defined r = true) (he : Relation.ReflTransGen (Edge P.w) (P.w.root c) r) :
    Good P args c (insert r S) (noteAt P args r a).1 := by
  have hs : S ⊆ insert r S := Finset.subset_insert ..
  unfold noteAt
  split
  · exact G.mono hs
  obtain ⟨f1, f2⟩ := scan_facts P.w r a.map
  have G1 := G.sum
  have hk : ((scan P.w r a.map).2.2.map Prod.fst).Nodup := G.keys.sublist (f1.map _)
  split
  · refine ⟨?_, hk, fun x hx => hs (G.seen x (f1.subset hx)), fun x hx => G.entry x (f1.subset hx)⟩
    dsimp only; omega
  · have hnot : r ∉ (scan P.w r a.map).2.2.map Prod.fst := by
      intro q
      obtain ⟨x, hx, e⟩ := List.mem_map.1 q
      exact hr (e ▸ G.seen x (f1.subset hx))
    have hp := insert_perm r (noted P.T (P.funcs r) args).length _ hnot
    refine ⟨?_, ?_, ?_, ?_⟩
    · dsimp only
      rw [total_perm hp, total_cons]
      dsimp only; omega
    · exact ((hp.map Prod.fst).nodup_iff).2 (List.nodup_cons.2 ⟨hnot, hk⟩)
    · intro x hx
      rcases List.mem_cons.1 (hp.mem_iff.1 hx) with q | q
      · subst q; exact Finset.mem_insert_self ..
      · exact hs (G.seen x (f1.subset q))
    · intro x hx
      rcases List.mem_cons.1 (hp.mem_iff.1 hx) with q | q
      · subst q; exact ⟨hd, he, rfl⟩
      · exact G.entry x (f1.subset q)

theorem good_loop (P : Program n) (args : List Arg) (c : Fin n) (s : State n) :
    ∀ a, Reached P.w c s → Good P args c s.seen a → ∃ S, Good P args c S (noteLoop P args a s) := by
  refine seen_induction P.w (fun s => ∀ a, Reached P.w c s → Good P args c s.seen a → ∃ S, Good P args c S (noteLoop P args a s)) ?_ s
  intro s ih a R G
  cases hg : getNextBase P.w s with
  | none => rw [noteLoop_none hg]; exact ⟨_, G⟩
  | some x =>
    obtain ⟨r, t⟩ := x
    obtain ⟨hr, R'⟩ := reached_next R hg
    obtain ⟨h1, h2⟩ := getNextBase_some hg
    rw [noteLoop_some hg]
    split
    · rename_i hd
      have G' := good_at G h1 hd hr
      rw [← h2] at G'
      split
      · exact ih r t t hg rfl _ R' G'
      · exact ih r t _ hg (add_seen ..) _ (reached_add R' hr hd) (by rw [add_seen]; exact G')
    · exact ih r t t hg rfl _ R' (G.mono (by rw [h2]; exact Finset.subset_insert ..))

theorem good_init (P : Program n) (args : List Arg) (c : Fin n) : ∃ S, Good P args c S (noteLoop P args ⟨0, []⟩ (init P.w c)) :=
  good_loop P args c _ _ (reached_init P.w c) ⟨rfl, List.nodup_nil, (fun _ h => nomatch h), (fun _ h => nomatch h)⟩

/-! ### The notes -/

theorem number_eq (c : Fin n) (fs : List Func) : ∀ k, (number c k fs).map (·.no) = (List.range' (k + 1) fs.length) ∧
    (number c k fs).map (fun e => (e.cls, e.func)) = fs.map (c, ·) := by
  induction fs with
  | nil => intro k; exact ⟨rfl, rfl⟩
  | cons f fs ih =>
    intro k
    obtain ⟨h1, h2⟩ := ih (k + 1)
    simp only [number, List.map_cons, h1, h2, List.length_cons, List.range'_succ, and_self]

/-- Everything the map stands for, numbered from `k + 1`. -/
def listing (P : Program n) (args : List Arg) : Nat → Tally n → List (Note n)
  | _, [] => []
  | k, (c, _) :: m => number c k (noted P.T (P.funcs c) args) ++ listing P args (k + (noted P.T (P.funcs c) args).length) m

theorem write_eq (P : Program n) (args : List Arg) (N : Nat) (m : Tally n) :
    ∀ k out, (∀ x ∈ m, x.2 = (noted P.T (P.funcs x.1) args).length) →
      writeLoop P args N k out m = if k + total m = N then .notes (out ++ listing P args k m) else .totalAssert := by
  induction m with
  | nil => intro k out _; simp [writeLoop, total, listing]
  | cons x m ih =>
    obtain ⟨c, j⟩ := x
    intro k out h
    have hj := h (c, j) (List.mem_cons_self ..)
    dsimp only at hj
    unfold writeLoop
    rw [if_pos hj.symm, ih _ _ fun y hy => h y (List.mem_cons_of_mem _ hy), total_cons, ← hj]
    simp only [listing, List.append_assoc, ← hj, Nat.add_assoc]

theorem listing_no (P : Program n) (args : List Arg) (m : Tally n) :
    ∀ k, (∀ x ∈ m, x.2 = (noted P.T (P.funcs x.1) args).length) → (listing P args k m).map (·.no) = List.range' (k + 1) (total m) := by
  induction m with
  | nil => intro k _; rfl
  | cons x m ih =>
    obtain ⟨c, j⟩ := x
    intro k h
    have hj := h (c, j) (List.mem_cons_self ..)
    dsimp only at hj
    simp only [listing, List.map_append, (number_eq c _ k).1, ih _ fun y hy => h y (List.mem_cons_of_mem _ hy), total_cons, ← hj]
    rw [← List.range'_append_1]
    congr 2
    omega

theorem listing_pairs (P : Program n) (args : List Arg) (m : Tally n) :
    ∀ k, (listing P args k m).map (fun e => (e.cls, e.func)) = m.flatMap fun x => (noted P.T (P.funcs x.1) args).map (x.1, ·) := by
  induction m with
  | nil => intro k; rfl
  | cons x m ih =>
    obtain ⟨c, j⟩ := x
    intro k
    simp only [listing, List.map_append, (number_eq c _ k).2, ih, List.flatMap_cons]

theorem note_eq (P : Program n) (args : List Arg) (c : Fin n) (N : Nat) :
    noteAmbiguous P args c N = if (noteLoop P args ⟨0, []⟩ (init P.w c)).count = N then
      .notes (listing P args 0 (noteLoop P args ⟨0, []⟩ (init P.w c)).map) else .countAssert := by
  obtain ⟨S, G⟩ := good_init P args c
  unfold noteAmbiguous
  split
  · rename_i h
    rw [write_eq P args N _ 0 [] fun x hx => (G.entry x hx).2.2, if_pos (by rw [Nat.zero_add, ← G.sum, h])]
    rfl
  · rfl

theorem mem_noted {T : TypeInfo} {fs : List Func} {args : List Arg} (hk : ∀ f ∈ fs, Known T f args) (f : Func) :
    f ∈ noted T fs args ↔ f ∈ fs ∧ Applicable T f args := (filter_app hk f).1

/-- **C112.** The notes on an ambiguous call are numbered 1, 2, ... up to the number of matches announced. Each names a function
of the class or an ancestor to which the call applies; none comes twice; and when one function of a class is named, so are all
others of that class to which the call applies. -/
theorem C112_notes (P : Program n) (ok : Ok P.w) (args : List Arg) (c : Fin n) (N : Nat) (l : List (Note n))
    (hn : ∀ x, (P.funcs x).Nodup) (hk : ∀ x f, Visible P c x f → Known P.T f args) (h : noteAmbiguous P args c N = .notes l) :
    l.map (·.no) = List.range' 1 N ∧
    (∀ e ∈ l, Visible P c e.cls e.func ∧ Applicable P.T e.func args) ∧
    (l.map fun e => (e.cls, e.func)).Nodup ∧
    ∀ e ∈ l, ∀ f ∈ P.funcs e.cls, Applicable P.T f args → ∃ e' ∈ l, e'.cls = e.cls ∧ e'.func = f := by
  obtain ⟨S, G⟩ := good_init P args c
  rw [note_eq] at h
  split at h
  · rename_i hc
    cases h
    have hp := listing_pairs P args (noteLoop P args ⟨0, []⟩ (init P.w c)).map 0
    have hkx : ∀ x ∈ (noteLoop P args ⟨0, []⟩ (init P.w c)).map, ∀ f ∈ P.funcs x.1, Visible P c x.1 f := by
      intro x hx f hf
      obtain ⟨e1, e2, _⟩ := G.entry x hx
      exact ⟨e1, (edge_base ok _ _ e1).1 e2, hf⟩
    have hmem : ∀ y f, (∃ e ∈ listing P args 0 (noteLoop P args ⟨0, []⟩ (init P.w c)).map, e.cls = y ∧ e.func = f) ↔
        ∃ x ∈ (noteLoop P args ⟨0, []⟩ (init P.w c)).map, x.1 = y ∧ f ∈ noted P.T (P.funcs x.1) args := by
      intro y f
      have : (∃ e ∈ listing P args 0 (noteLoop P args ⟨0, []⟩ (init P.w c)).map, e.cls = y ∧ e.func = f) ↔
          (y, f) ∈ (listing P args 0 (noteLoop P args ⟨0, []⟩ (init P.w c)).map).map (fun e => (e.cls, e.func)) := by
        simp [List.mem_map]
      rw [this, hp, List.mem_flatMap]
      constructor
      · rintro ⟨x, hx, q⟩
        obtain ⟨g, q1, q2⟩ := List.mem_map.1 q
        cases q2
        exact ⟨x, hx, rfl, q1⟩
      · rintro ⟨x, hx, rfl, q⟩
        exact ⟨x, hx, List.mem_map.2 ⟨f, q, rfl⟩⟩
    refine ⟨?_, ?_, ?_, ?_⟩
    · rw [listing_no P args _ 0 fun x hx => (G.entry x hx).2.2, ← G.sum, hc]
    · intro e he
      obtain ⟨x, hx, e1, e2⟩ := (hmem e.cls e.func).1 ⟨e, he, rfl, rfl⟩
      have := (mem_noted (fun f hf => hk x.1 f (hkx x hx f hf)) _).1 e2
      exact ⟨e1 ▸ hkx x hx _ this.1, this.2⟩
    · rw [hp, List.nodup_flatMap]
      refine ⟨fun x hx => ((hn x.1).filter _).map fun a b q => by simpa using q, ?_⟩
      have hkeys := List.pairwise_map.1 G.keys
      refine hkeys.imp ?_
      intro x y hxy
      rw [Function.onFun, List.disjoint_left]
      intro z h1 h2
      obtain ⟨_, _, q1⟩ := List.mem_map.1 h1
      obtain ⟨_, _, q2⟩ := List.mem_map.1 h2
      exact hxy ((congrArg Prod.fst q1).trans (congrArg Prod.fst q2).symm)
    · intro e he f hf ha
      obtain ⟨x, hx, e1, _⟩ := (hmem e.cls e.func).1 ⟨e, he, rfl, rfl⟩
      refine (hmem e.cls f).2 ⟨x, hx, e1, ?_⟩
      exact (mem_noted (fun g hg => hk x.1 g (hkx x hx g hg)) f).2 ⟨e1 ▸ hf, ha⟩
  · cases h

example : noteAmbiguous (twoBases [⟨2, 0⟩, ⟨1, 0⟩] [fn 1 5, fn 2 6] [fn 3 7]) [var 4] 3 3 =
    .notes [⟨1, 1, fn 1 5⟩, ⟨2, 1, fn 2 6⟩, ⟨3, 2, fn 3 7⟩] := by decide +kernel

/-- **C112.** Of the three assertions about the notes only the first can fail: that as many candidates were found as had been
counted when the call was looked up. -/
theorem C112_asserts (P : Program n) (args : List Arg) (c : Fin n) (N : Nat) :
    noteAmbiguous P args c N ≠ .classAssert ∧ noteAmbiguous P args c N ≠ .totalAssert := by
  rw [note_eq]
  split <;> simp

/-! ### When the two searches agree -/

theorem root_of {w : World n} (ok : Ok w) {c x : Fin n} (h : SelfOrAncestor w (w.root c) x) : w.root x = x := by
  rcases Relation.ReflTransGen.cases_tail h with q | ⟨y, _, q⟩
  · rw [q, ok.root_root]
  · obtain ⟨_, e, _, _, q⟩ := q
    rw [← q, ok.root_root]

theorem not_subclass {w : World n} (ok : Ok w) {x y : Fin n} (hx : w.root (w.deref x) = x) (hy : w.root (w.deref y) = y)
    (h : ¬ Ancestor w x y) : isClassASubclassOf w x y = false := by
  unfold isClassASubclassOf
  split
  · rfl
  · rw [Bool.eq_false_iff]
    intro q
    rw [subclass_init ok, hx, hy] at q
    exact h q

theorem noteLoop_done {P : Program n} {args : List Arg} {a : Notes n} {t : State n} (h : t.bases = []) :
    noteLoop P args a t = a := by
  apply noteLoop_none
  unfold getNextBase
  rw [h]; rfl

/-- The class declares a function of the name and a call through `c` can reach it. -/
def Declares (P : Program n) (c x : Fin n) : Prop := ∃ f, Visible P c x f

theorem agree_loop {P : Program n} (ok : Ok P.w) (args : List Arg) (c : Fin n)
    (hder : ∀ x, Declares P c x → P.w.deref x = x)
    (hun : ∀ x y, Declares P c x → Declares P c y → x ≠ y → ¬ Ancestor P.w x y)
    (hc : ∀ x, Declares P c x → (findMatchingFunctionWithSafeCasts P.T (P.funcs x) args).count = (noted P.T (P.funcs x) args).length)
    (hone : (∀ x, Declares P c x → (noted P.T (P.funcs x) args).length ≤ 1) ∨ ∀ x y, Declares P c x → Declares P c y → x = y)
    (s : State n) :
    ∀ a b, Reached P.w c s → (∀ x ∈ b.map, x.1 ∈ s.seen ∧ Declares P c x.1) → a.count = b.count →
      (a.found = .nowhere → a.count = 0 ∨ ∀ y, Declares P c y → y ∈ s.seen) → (∀ x, a.found = .at x → x ∈ s.seen ∧ Declares P c x) →
      (safeLoop P args a s).count = (noteLoop P args b s).count := by
  refine seen_induction P.w (fun s => ∀ a b, Reached P.w c s → (∀ x ∈ b.map, x.1 ∈ s.seen ∧ Declares P c x.1) → a.count = b.count →
      (a.found = .nowhere → a.count = 0 ∨ ∀ y, Declares P c y → y ∈ s.seen) → (∀ x, a.found = .at x → x ∈ s.seen ∧ Declares P c x) →
      (safeLoop P args a s).count = (noteLoop P args b s).count) ?_ s
  intro s ih a b R hb hab hno hat
  cases hg : getNextBase P.w s with
  | none => rw [safeLoop_none hg, noteLoop_none hg]; exact hab
  | some x =>
    obtain ⟨r, t⟩ := x
    obtain ⟨hr, R'⟩ := reached_next R hg
    obtain ⟨h1, h2⟩ := getNextBase_some hg
    have hsub : ∀ x, x ∈ s.seen → x ∈ t.seen := fun x hx => by rw [h2]; exact Finset.mem_insert_of_mem hx
    have hrt : r ∈ t.seen := by rw [h2]; exact Finset.mem_insert_self ..
    rw [safeLoop_some hg, noteLoop_some hg]
    by_cases hd : P.w.defined r = true
    swap
    · rw [if_neg hd, if_neg hd]
      refine ih r t t hg rfl _ _ R' (fun x hx => ⟨hsub _ (hb x hx).1, (hb x hx).2⟩) hab ?_ (fun x hx => ⟨hsub _ (hat x hx).1, (hat x hx).2⟩)
      intro q
      rcases hno q with q | q
      · exact .inl q
      · exact .inr fun y hy => hsub _ (q y hy)
    rw [if_pos hd, if_pos hd]
    by_cases he : P.funcs r = []
    · have hm : (findMatchingFunctionWithSafeCasts P.T (P.funcs r) args).count = 0 := by rw [he]; rfl
      have hna : noteAt P args r b = (b, 0) := by unfold noteAt; rw [if_pos he]
      rw [hna, if_neg (by unfold stopAt; rw [hm]; simp), if_neg (by rw [hm]; simp), if_neg (by simp)]
      have hsa : (safeAt P r (findMatchingFunctionWithSafeCasts P.T (P.funcs r) args) a).count = a.count ∧
          (safeAt P r (findMatchingFunctionWithSafeCasts P.T (P.funcs r) args) a).found = a.found := by
        unfold safeAt
        dsimp only
        rw [hm]
        simp
      refine ih r t _ hg (add_seen ..) _ _ (reached_add R' hr hd) ?_ (hsa.1.trans hab) ?_ ?_
      · rw [add_seen]; exact fun x hx => ⟨hsub _ (hb x hx).1, (hb x hx).2⟩
      · rw [add_seen, hsa.1, hsa.2]
        intro q
        rcases hno q with q | q
        · exact .inl q
        · exact .inr fun y hy => hsub _ (q y hy)
      · rw [add_seen, hsa.2]; exact fun x hx => ⟨hsub _ (hat x hx).1, (hat x hx).2⟩
    · have hD : Declares P c r := by
        obtain ⟨f, hf⟩ := List.exists_mem_of_ne_nil _ he
        exact ⟨f, hd, (edge_base ok _ _ hd).1 hr, hf⟩
      have hroot : ∀ x, Declares P c x → P.w.root (P.w.deref x) = x := by
        intro x hx
        rw [hder x hx]
        obtain ⟨_, _, q, _⟩ := hx
        exact root_of ok q
      have hrel : ∀ x, x ∈ s.seen → Declares P c x → isClassASubclassOf P.w x r = false ∧ isClassASubclassOf P.w r x = false := by
        intro x hx hdx
        have hne : x ≠ r := fun q => h1 (q ▸ hx)
        exact ⟨not_subclass ok (hroot x hdx) (hroot r hD) (hun x r hdx hD hne),
          not_subclass ok (hroot r hD) (hroot x hdx) (hun r x hD hdx hne.symm)⟩
      have hm := hc r hD
      have hzero : a.found = .nowhere → a.count = 0 := by
        intro q
        rcases hno q with q | q
        · exact q
        · exact absurd (q r hD) h1
      have hsc := scan_none P.w r b.map fun x hx => hrel x.1 (hb x hx).1 (hb x hx).2
      have hna : noteAt P args r b =
          (⟨b.count + (noted P.T (P.funcs r) args).length, insertTally r (noted P.T (P.funcs r) args).length b.map⟩,
            (noted P.T (P.funcs r) args).length) := by
        unfold noteAt
        rw [if_neg he, hsc]
        simp
      have hnot : r ∉ b.map.map Prod.fst := by
        intro q
        obtain ⟨x, hx, e⟩ := List.mem_map.1 q
        exact h1 (e ▸ (hb x hx).1)
      have hb' : ∀ x ∈ insertTally r (noted P.T (P.funcs r) args).length b.map, x.1 ∈ t.seen ∧ Declares P c x.1 := by
        intro x hx
        rcases List.mem_cons.1 ((insert_perm r _ _ hnot).mem_iff.1 hx) with q | q
        · subst q; exact ⟨hrt, hD⟩
        · exact ⟨hsub _ (hb x q).1, (hb x q).2⟩
      rw [hna]
      dsimp only
      generalize hk : (noted P.T (P.funcs r) args).length = k at *
      by_cases hk1 : k = 1
      · subst hk1
        rw [if_pos rfl]
        have hcount : (safeAt P r (findMatchingFunctionWithSafeCasts P.T (P.funcs r) args) a).count = b.count + 1 := by
          unfold safeAt
          dsimp only
          rw [if_pos hm, hm]
          by_cases hf : a.found = .nowhere
          · rw [if_pos hf]; have := hzero hf; dsimp only; omega
          · rw [if_neg hf]
            cases hfo : a.found with
            | nowhere => exact absurd hfo hf
            | ambiguous =>
              rw [if_neg (by simp [Where.below]), if_pos (by simp [Where.above])]
              dsimp only; omega
            | «at» y =>
              have := hrel y (hat y hfo).1 (hat y hfo).2
              rw [if_neg (by simp [Where.below, this.2]), if_pos (by simp [Where.above, this.1])]
              dsimp only; omega
        have hfound : (safeAt P r (findMatchingFunctionWithSafeCasts P.T (P.funcs r) args) a).found ≠ .nowhere ∧
            ∀ x, (safeAt P r (findMatchingFunctionWithSafeCasts P.T (P.funcs r) args) a).found = .at x → x ∈ t.seen ∧ Declares P c x := by
          unfold safeAt
          dsimp only
          rw [if_pos hm]
          split
          · exact ⟨by simp, fun x hx => by cases hx; exact ⟨hrt, hD⟩⟩
          · rename_i hf
            split
            · exact ⟨by simp, fun x hx => by cases hx; exact ⟨hrt, hD⟩⟩
            · split
              · exact ⟨by simp, fun x hx => by cases hx⟩
              · exact ⟨hf, fun x hx => ⟨hsub _ (hat x hx).1, (hat x hx).2⟩⟩
        split
        · rename_i hs
          unfold stopAt at hs
          simp only [Bool.and_eq_true, List.isEmpty_iff] at hs
          rw [noteLoop_done hs.2]
          exact hcount
        · exact ih r t t hg rfl _ _ R' hb' hcount (fun q => absurd q hfound.1) hfound.2
      · rw [if_neg hk1, if_neg (by unfold stopAt; rw [hm]; simp [hk1]), if_neg (by rw [hm]; exact hk1)]
        have hsa : (safeAt P r (findMatchingFunctionWithSafeCasts P.T (P.funcs r) args) a).count = a.count + k ∧
            (safeAt P r (findMatchingFunctionWithSafeCasts P.T (P.funcs r) args) a).found = a.found := by
          unfold safeAt
          dsimp only
          rw [hm, if_neg hk1]
          simp
        refine ih r t _ hg (add_seen ..) _ _ (reached_add R' hr hd) (by rw [add_seen]; exact hb') ?_ ?_ ?_
        · rw [hsa.1, hab]
        · rw [add_seen, hsa.1, hsa.2]
          intro q
          have := hzero q
          rcases hone with o | o
          · have := o r hD
            rw [hk] at this
            exact .inl (by omega)
          · exact .inr fun y hy => o r y hD hy ▸ hrt
        · rw [add_seen, hsa.2]; exact fun x hx => ⟨hsub _ (hat x hx).1, (hat x hx).2⟩

theorem search_count {P : Program n} {args : List Arg} {c : Fin n} (h : (search P args c).count > 1) :
    ∃ g z, (search P args c).count = (safeLoop P args ⟨0, g, .nowhere, z⟩ (init P.w c)).count := by
  refine ⟨(findExact P args c).func, (findExact P args c).hazy, ?_⟩
  unfold search at h ⊢
  dsimp only at h ⊢
  by_cases h1 : (findExact P args c).count = 1
  · rw [if_pos h1] at h; omega
  · rw [if_neg h1]
    split
    · rfl
    · split <;> rfl

theorem agree {P : Program n} (ok : Ok P.w) {args : List Arg} {c : Fin n} (h : (search P args c).count > 1)
    (hder : ∀ x, Declares P c x → P.w.deref x = x)
    (hun : ∀ x y, Declares P c x → Declares P c y → x ≠ y → ¬ Ancestor P.w x y)
    (hc : ∀ x, Declares P c x → (findMatchingFunctionWithSafeCasts P.T (P.funcs x) args).count = (noted P.T (P.funcs x) args).length)
    (hone : (∀ x, Declares P c x → (noted P.T (P.funcs x) args).length ≤ 1) ∨ ∀ x y, Declares P c x → Declares P c y → x = y) :
    ∃ l, noteAmbiguous P args c (search P args c).count = .notes l := by
  obtain ⟨g, z, e⟩ := search_count h
  rw [note_eq, e, agree_loop ok args c hder hun hc hone (init P.w c) ⟨0, g, .nowhere, z⟩ ⟨0, []⟩ (reached_init P.w c)
    (fun _ h => nomatch h) rfl (fun _ => .inl rfl) (fun _ h => nomatch h), if_pos rfl]
  exact ⟨_, rfl⟩

theorem count_eq {T : TypeInfo} {fs : List Func} {args : List Arg} (hk : ∀ f ∈ fs, Known T f args) :
    (findMatchingFunctionWithSafeCasts T fs args).count =
      if (noted T fs args).length > 1 then
        if ((noted T fs args).filter (all T args)).length > 1 then (noted T fs args).length
        else ((noted T fs args).filter (all T args)).length
      else (noted T fs args).length := by
  have hf : fs.any (haz T args) = false := by
    rw [List.any_eq_false]
    intro f hfm
    rw [known_haz (hk f hfm)]; simp
  rw [safe_eq T args fs hf]
  unfold pick
  change (if (noted T fs args).length > 1 then _ else _ : Nat × Option Func).1 = _
  split
  · change (if ((noted T fs args).filter (all T args)).length > 1 then _ else _ : Nat × Option Func).1 = _
    split <;> rfl
  · rfl

theorem noted_le_one {T : TypeInfo} {fs : List Func} {args : List Arg} (hn : fs.Nodup) (hk : ∀ f ∈ fs, Known T f args)
    (h : ∀ f ∈ fs, ∀ g ∈ fs, Applicable T f args → Applicable T g args → f = g) : (noted T fs args).length ≤ 1 := by
  have nd : (noted T fs args).Nodup := hn.filter _
  have hm := mem_noted hk
  generalize noted T fs args = l at nd hm
  match l, nd, hm with
  | [], _, _ => simp
  | [_], _, _ => simp
  | f :: g :: l, nd, hm =>
    obtain ⟨f1, f2⟩ := (hm f).1 (by simp)
    obtain ⟨g1, g2⟩ := (hm g).1 (by simp)
    have := h f f1 g g1 f2 g2
    simp [this] at nd

/-- **C112 (partial: true of hierarchies in which no class that declares the function inherits another one that does, and each
has at most one to which the call applies; in general it fails, see below).** The number of candidates counted when the call was
looked up is the number found for the notes: the notes are written. -/
theorem C112_unrelated_partial (P : Program n) (ok : Ok P.w) (args : List Arg) (c : Fin n)
    (hn : ∀ x, (P.funcs x).Nodup) (hk : ∀ x f, Visible P c x f → Known P.T f args)
    (hder : ∀ x, Declares P c x → P.w.deref x = x)
    (hun : ∀ x y, Declares P c x → Declares P c y → x ≠ y → ¬ Ancestor P.w x y)
    (hone : ∀ x f g, Visible P c x f → Visible P c x g → Applicable P.T f args → Applicable P.T g args → f = g)
    (h : (search P args c).count > 1) : ∃ l, noteAmbiguous P args c (search P args c).count = .notes l := by
  have hle : ∀ x, Declares P c x → (noted P.T (P.funcs x) args).length ≤ 1 := by
    rintro x ⟨f, h1, h2, _⟩
    exact noted_le_one (hn x) (fun g hg => hk x g ⟨h1, h2, hg⟩) fun g hg g' hg' => hone x g g' ⟨h1, h2, hg⟩ ⟨h1, h2, hg'⟩
  refine agree ok h hder hun (fun x hx => ?_) (.inl hle)
  have := hle x hx
  obtain ⟨f, h1, h2, _⟩ := hx
  rw [count_eq fun g hg => hk x g ⟨h1, h2, hg⟩, if_neg (by omega)]

example : (search (twoBases [⟨2, 0⟩, ⟨1, 0⟩] [fn 1 5, fn 2 3] [fn 3 7]) [var 4] 3).count = 2 ∧
    noteAmbiguous (twoBases [⟨2, 0⟩, ⟨1, 0⟩] [fn 1 5, fn 2 3] [fn 3 7]) [var 4] 3 2 = .notes [⟨1, 1, fn 1 5⟩, ⟨2, 2, fn 3 7⟩] :=
  ⟨by decide +kernel, by decide +kernel⟩

/-- **C112 (partial: for a function declared in one class of the hierarchy only).** The number of candidates counted when the
call was looked up is the number found for the notes, whatever the class and the call. -/
theorem C112_one_class_partial (P : Program n) (ok : Ok P.w) (args : List Arg) (c x : Fin n)
    (hk : ∀ y f, Visible P c y f → Known P.T f args) (hder : P.w.deref x = x)
    (hx : ∀ y f, Visible P c y f → y = x)
    (h : (search P args c).count > 1) : ∃ l, noteAmbiguous P args c (search P args c).count = .notes l := by
  have hdx : ∀ y, Declares P c y → y = x := fun y hy => hy.elim fun f hf => hx y f hf
  by_cases hc : ∀ y, Declares P c y → (findMatchingFunctionWithSafeCasts P.T (P.funcs y) args).count = (noted P.T (P.funcs y) args).length
  · exact agree ok h (fun y hy => hdx y hy ▸ hder) (fun y z hy hz hne => absurd ((hdx y hy).trans (hdx z hz).symm) hne) hc
      (.inr fun y z hy hz => (hdx y hy).trans (hdx z hz).symm)
  · exfalso
    push Not at hc
    obtain ⟨y, hy, hc⟩ := hc
    have := hdx y hy
    subst this
    obtain ⟨f, h1, h2, h3⟩ := hy
    have hle : (findMatchingFunctionWithSafeCasts P.T (P.funcs y) args).count ≤ 1 := by
      rw [count_eq fun g hg => hk y g ⟨h1, h2, hg⟩] at hc ⊢
      split
      · split
        · rename_i q1 q2; rw [if_pos q1, if_pos q2] at hc; exact absurd rfl hc
        · omega
      · omega
    obtain ⟨g, z, e⟩ := search_count h
    have hq : ∀ u, Relation.ReflTransGen (Edge P.w) (P.w.root c) u → P.w.defined u = true → u ≠ y →
        (findMatchingFunctionWithSafeCasts P.T (P.funcs u) args).count = 0 := by
      intro u hu hdu hne
      have : P.funcs u = [] := by
        by_contra q
        obtain ⟨f, hf⟩ := List.exists_mem_of_ne_nil _ q
        exact hne (hx u f ⟨hdu, (edge_base ok _ _ hdu).1 hu, hf⟩)
      rw [this]; rfl
    rcases Nat.lt_or_ge (findMatchingFunctionWithSafeCasts P.T (P.funcs y) args).count 1 with q | q
    · obtain ⟨z', e'⟩ := safe_quiet (P := P) args (init P.w c) ⟨0, g, .nowhere, z⟩ (by
        intro u hu hdu
        by_cases hne : u = y
        · rw [hne]; omega
        · exact hq u ((mem_sightings P.w false c u).1 hu) hdu hne)
      rw [e, e'] at h
      dsimp only at h; omega
    · obtain ⟨z', e'⟩ := safe_single args c y h1 (by omega) hq (init P.w c) ⟨0, g, .nowhere, z⟩ (reached_init P.w c) rfl
        ((mem_sightings P.w false c y).2 ((edge_base ok _ _ h1).2 h2))
      rw [e, e'] at h
      dsimp only at h; omega

example : (search (chainProgram [fn 1 5, fn 2 6, fn 3 3] [] []) [var 4] 3).count = 2 ∧
    noteAmbiguous (chainProgram [fn 1 5, fn 2 6, fn 3 3] [] []) [var 4] 3 2 = .notes [⟨1, 1, fn 1 5⟩, ⟨2, 1, fn 2 6⟩] :=
  ⟨by decide +kernel, by decide +kernel⟩

/-! ### Findings -/

/-- Class 4 inherits 1, 2 and 3, and class 3 inherits 1 and 2. -/
def fanProgram (f1 f2 f3 : List Func) : Program 6 :=
  ⟨⟨0, id, id, fun x => x ≠ 0 ∧ x ≠ 5,
    fun x => if x = 4 then [⟨0, 0⟩, ⟨1, 0⟩, ⟨2, 0⟩, ⟨3, 0⟩] else if x = 3 then [⟨0, 0⟩, ⟨1, 0⟩, ⟨2, 0⟩] else [⟨0, 0⟩], fun x => x⟩,
    5, demoTypes, fun x => if x = 1 then f1 else if x = 2 then f2 else if x = 3 then f3 else []⟩

/-- **C112 (finding).** The compiler can stop at its own assertion instead of reporting an ambiguous call. Class 4 inherits 1, 2
and 3, class 3 inherits 1 and 2, and 1, 2 and 3 each have one function the call can mean: three matches are counted, but only two
are found for the notes. -/
theorem C112_fan_fails :
    (search (fanProgram [fn 1 5] [fn 2 6] [fn 3 7]) [var 4] 4).count = 3 ∧
    noteAmbiguous (fanProgram [fn 1 5] [fn 2 6] [fn 3 7]) [var 4] 4 3 = .countAssert := by
  exact ⟨by decide +kernel, by decide +kernel⟩

/-- Class 3 with bases 1 and 2 and functions of its own. -/
def ownProgram (f1 f2 f3 : List Func) : Program 5 :=
  ⟨⟨0, id, id, fun x => x ≠ 0 ∧ x ≠ 4, fun x => if x = 3 then [⟨0, 0⟩, ⟨1, 0⟩, ⟨2, 0⟩] else [⟨0, 0⟩], fun x => x⟩, 4, demoTypes,
    fun x => if x = 1 then f1 else if x = 2 then f2 else if x = 3 then f3 else []⟩

/-- **C112 (finding).** The same when a class has several functions for a call none of which takes arguments of that kind, and
two bases have one each: the functions of the class count as no match in the look-up, but all of them count for the notes, and
those of the bases do not. -/
theorem C112_kinds_fails :
    (search (ownProgram [fn 1 105] [fn 2 106] [fn 3 7, fn 4 8, fn 5 9]) [var 104] 3).count = 2 ∧
    noteAmbiguous (ownProgram [fn 1 105] [fn 2 106] [fn 3 7, fn 4 8, fn 5 9]) [var 104] 3 2 = .countAssert := by
  exact ⟨by decide +kernel, by decide +kernel⟩

end Ulam.Overload
