import Verif.Templ.Spec
import Mathlib.Data.List.Nodup
import Mathlib.Data.List.Pairwise
import Mathlib.Tactic.SplitIfs

namespace Ulam.Templ

variable {E : Type}

/-! ### Parsing the arguments -/

theorem addArg_idx (ps : Option (List (Param E))) (g : Got E) (e : E) : (addArg ps g e).idx = g.idx + 1 := by
  unfold addArg; split <;> rfl

theorem addArg_errs (ps : Option (List (Param E))) (g : Got E) (e : E) : g.errs ≤ (addArg ps g e).errs := by
  unfold addArg; split <;> simp

/-- All arguments in turn. -/
def addAll (ps : Option (List (Param E))) (g : Got E) (es : List E) : Got E := es.foldl (addArg ps) g

theorem parseRest_loose {ps : Option (List (Param E))} {ts : List (Tok E)} {es : List E} (h : Loose ts es) :
    ∀ g, parseRest ps g ts = addAll ps g es := by
  induction h with
  | nil r => intro g; simp [parseRest, addAll]
  | @bare e r es h ih =>
    intro g
    cases r with
    | nil => cases h
    | cons t r' =>
      cases t with
      | comma => cases h
      | _ => simp only [parseRest]; exact ih _
  | @comma e f r es h ih =>
    intro g
    simp only [parseRest]
    have : closes r = false := by cases h <;> rfl
    rw [this]
    exact ih _

theorem parseRest_errs (ps : Option (List (Param E))) : ∀ (ts : List (Tok E)) (g : Got E),
    g.errs ≤ (parseRest ps g ts).errs := by
  intro ts g
  induction g, ts using parseRest.induct (ps := ps) with
  | case1 g r => simp [parseRest]
  | case2 g e r g' ih =>
    have := addArg_errs ps g e
    simp only [parseRest]
    refine Nat.le_trans ?_ ih
    dsimp only [g']
    split
    · exact Nat.le_trans this (Nat.le_succ _)
    · exact this
  | case3 g e r h ih =>
    rw [parseRest]
    · exact Nat.le_trans (addArg_errs ps g e) ih
    · exact h
  | case4 g ts h1 h2 h3 =>
    rw [parseRest]
    · exact Nat.le_succ _
    · exact h1
    · exact h2
    · exact h3

theorem loose_of_parseRest (ps : Option (List (Param E))) : ∀ (ts : List (Tok E)) (g : Got E),
    (parseRest ps g ts).errs = g.errs → ∃ es, Loose ts es := by
  intro ts g
  induction g, ts using parseRest.induct (ps := ps) with
  | case1 g r => intro _; exact ⟨_, Loose.nil r⟩
  | case2 g e r g' ih =>
    intro h
    simp only [parseRest] at h
    have h1 := addArg_errs ps g e
    have h2 := parseRest_errs ps r (if closes r = true then { g' with errs := g'.errs + 1 } else g')
    dsimp only [g'] at h2
    rw [h] at h2
    cases hc : closes r with
    | true => rw [hc] at h2; simp only [if_true] at h2; omega
    | false =>
      rw [hc] at h2
      simp only [Bool.false_eq_true, if_false] at h2
      have h3 : (addArg ps g e).errs = g.errs := by omega
      obtain ⟨es, hes⟩ := ih (by rw [h]; dsimp only [g']; rw [hc]; simp only [Bool.false_eq_true, if_false]; exact h3.symm)
      cases hes with
      | nil r => simp [closes] at hc
      | bare hb => exact ⟨_, Loose.comma (Loose.bare hb)⟩
      | comma hb => exact ⟨_, Loose.comma (Loose.comma hb)⟩
  | case3 g e r hr ih =>
    intro h
    rw [parseRest] at h
    · have h1 := addArg_errs ps g e
      have h2 := parseRest_errs ps r (addArg ps g e)
      obtain ⟨es, hes⟩ := ih (by omega)
      exact ⟨_, Loose.bare hes⟩
    · exact hr
  | case4 g ts h1 h2 h3 =>
    intro h
    rw [parseRest] at h
    · simp at h
    · exact h1
    · exact h2
    · exact h3

theorem loose_unique {ts : List (Tok E)} {es fs : List E} (h : Loose ts es) : Loose ts fs → es = fs := by
  induction h generalizing fs with
  | nil r => intro g; cases g; rfl
  | bare h ih =>
    intro g
    cases g with
    | bare g => rw [ih g]
    | comma g => cases h
  | comma h ih =>
    intro g
    cases g with
    | bare g => cases g
    | comma g => rw [ih g]

theorem loose_text : ∀ es : List E, Loose (text es) es
  | [] => Loose.nil []
  | [e] => Loose.bare (Loose.nil [])
  | e :: f :: r => by
    have := loose_text (f :: r)
    exact Loose.comma this

theorem addAll_idx (ps : Option (List (Param E))) : ∀ (es : List E) (g : Got E),
    (addAll ps g es).idx = g.idx + es.length := by
  intro es
  induction es with
  | nil => intro g; rfl
  | cons e es ih =>
    intro g
    have := ih (addArg ps g e)
    simp only [addAll, List.foldl_cons, List.length_cons] at this ⊢
    rw [this, addArg_idx]; omega

/-! ### The stub -/

/-- The argument nodes there should be. -/
def canon : List (Param E) → List E → List (Node E)
  | [], _ => []
  | p :: ps, [] => ⟨.own p.name, p.dflt⟩ :: canon ps []
  | p :: ps, e :: es => ⟨.own p.name, some e⟩ :: canon ps es

/-- The symbols there should be. -/
def table (ps : List (Param E)) (f : Bool) : List Sym := ps.map (fun p => ⟨.own p.name, f⟩)

/-- The stub there should be. -/
def stub (ps : List (Param E)) (es : List E) : Block E :=
  ⟨table (ps.take es.length) false ++ table (ps.drop es.length) true, canon ps es⟩

theorem has_table (ps : List (Param E)) (f : Bool) (n : Nat) :
    has (table ps f) (.own n) = true ↔ n ∈ ps.map (·.name) := by
  simp only [has, table, List.any_eq_true, List.mem_map]
  constructor
  · rintro ⟨s, ⟨p, hp, rfl⟩, h⟩
    exact ⟨p, hp, by simpa using h⟩
  · rintro ⟨p, hp, rfl⟩
    exact ⟨_, ⟨p, hp, rfl⟩, by simp⟩

theorem has_append (l k : List Sym) (n : Name) : has (l ++ k) n = (has l n || has k n) := by
  simp [has, List.any_append]

/-- Too many arguments. -/
theorem addAll_many (ps : List (Param E)) : ∀ (es : List E) (g : Got E), g.idx ≤ ps.length →
    ps.length < g.idx + es.length → g.errs < (addAll (some ps) g es).errs := by
  intro es
  induction es with
  | nil => intro g _ h; simp only [List.length_nil] at h; omega
  | cons e es ih =>
    intro g hi h
    simp only [List.length_cons] at h
    simp only [addAll, List.foldl_cons]
    by_cases hlt : g.idx < ps.length
    · have h1 : (addArg (some ps) g e).errs = g.errs := by
        simp [addArg, argName, List.getElem?_eq_getElem hlt]
      rw [← h1]
      exact ih _ (by rw [addArg_idx]; omega) (by rw [addArg_idx]; omega)
    · have h1 : (addArg (some ps) g e).errs = g.errs + 1 := by
        simp [addArg, argName, List.getElem?_eq_none (Nat.le_of_not_lt hlt)]
      have h2 : ∀ (fs : List E) (g' : Got E), g'.errs ≤ (fs.foldl (addArg (some ps)) g').errs := by
        intro fs
        induction fs with
        | nil => intro g'; exact Nat.le_refl _
        | cons f fs ih2 => intro g'; exact Nat.le_trans (addArg_errs _ _ f) (ih2 _)
      have := h2 es (addArg (some ps) g e)
      omega

/-- The nodes of the arguments given. -/
def front (ps : List (Param E)) (es : List E) : List (Node E) :=
  List.zipWith (fun p e => ⟨.own p.name, some e⟩) ps es

theorem addAll_seen (ps : List (Param E)) : ∀ (es : List E) (i c : Nat) (N : List (Node E)),
    i + es.length ≤ ps.length →
    addAll (some ps) ⟨⟨patched ps, N⟩, i, c⟩ es =
      ⟨⟨patched ps, N ++ front (ps.drop i) es⟩, i + es.length, c⟩ := by
  intro es
  induction es with
  | nil => intro i c N _; simp [addAll, front]
  | cons e es ih =>
    intro i c N h
    simp only [List.length_cons] at h
    have hlt : i < ps.length := by omega
    have h1 : addArg (some ps) ⟨⟨patched ps, N⟩, i, c⟩ e =
        ⟨⟨patched ps, N ++ [⟨.own ps[i].name, some e⟩]⟩, i + 1, c⟩ := by
      have : has (patched ps) (.own ps[i].name) = true :=
        (has_table ps false _).2 (List.mem_map_of_mem (List.getElem_mem hlt))
      simp [addArg, argName, List.getElem?_eq_getElem hlt, ensure, this]
    have h2 : front (ps.drop i) (e :: es) = ⟨.own ps[i].name, some e⟩ :: front (ps.drop (i + 1)) es := by
      rw [List.drop_eq_getElem_cons hlt]; rfl
    simp only [addAll, List.foldl_cons] at ih ⊢
    rw [h1, ih (i + 1) c _ (by omega), h2]
    simp only [List.append_assoc, List.singleton_append, List.length_cons]
    congr 1
    omega

theorem canon_split : ∀ (ps : List (Param E)) (es : List E), es.length ≤ ps.length →
    canon ps es = front ps es ++ canon (ps.drop es.length) []
  | [], [], _ => rfl
  | [], _ :: _, h => by simp at h
  | _ :: _, [], _ => rfl
  | p :: ps, e :: es, h => by
    have := canon_split ps es (by simpa using h)
    simp only [canon, front, List.zipWith_cons_cons, List.length_cons, List.drop_succ_cons, List.cons_append]
    rw [this]; rfl

theorem mark_table_other (ps : List (Param E)) (f : Bool) (n : Nat) (h : n ∉ ps.map (·.name)) :
    mark (table ps f) (.own n) = table ps f := by
  simp only [mark, table, List.map_map]
  apply List.map_congr_left
  intro p hp
  have : p.name ≠ n := fun e => h (List.mem_map.2 ⟨p, hp, e⟩)
  simp [this]

theorem mark_append (l k : List Sym) (n : Name) : mark (l ++ k) n = mark l n ++ mark k n := by
  simp [mark]

theorem mark_other (S : List Sym) (n : Name) (h : has S n = false) : mark S n = S := by
  simp only [mark]
  conv_rhs => rw [← List.map_id S]
  apply List.map_congr_left
  intro s hs
  have : s.name ≠ n := by
    intro e
    simp only [has, List.any_eq_false] at h
    exact h s hs (by simp [e])
  simp [this]

theorem fixDefaults_seen : ∀ (qs : List (Param E)) (S : List Sym) (N : List (Node E)),
    (∀ q ∈ qs, has S (.own q.name) = false) → (qs.map (·.name)).Nodup →
    fixDefaults ⟨S ++ table qs false, N⟩ qs = ⟨S ++ table qs true, N ++ canon qs []⟩ := by
  intro qs
  induction qs with
  | nil => intro S N _ _; simp [fixDefaults, table, canon]
  | cons q qs ih =>
    intro S N hS hd
    simp only [List.map_cons, List.nodup_cons] at hd
    have h1 : has (S ++ table (q :: qs) false) (.own q.name) = true := by
      rw [has_append, (has_table (q :: qs) false q.name).2 (by simp)]; simp
    have h2 : mark (S ++ table (q :: qs) false) (.own q.name) = (S ++ [⟨.own q.name, true⟩]) ++ table qs false := by
      have e : table (q :: qs) false = ⟨.own q.name, false⟩ :: table qs false := rfl
      rw [mark_append, mark_other S _ (hS q (List.mem_cons_self ..)), e,
        show mark (⟨.own q.name, false⟩ :: table qs false) (.own q.name) =
          ⟨.own q.name, true⟩ :: mark (table qs false) (.own q.name) from by simp [mark],
        mark_table_other _ _ _ hd.1]
      simp
    rw [fixDefaults]
    simp only [ensure, h1, if_true]
    rw [h2, ih]
    · simp [table, canon]
    · intro r hr
      rw [has_append, hS r (List.mem_cons_of_mem _ hr)]
      have : r.name ≠ q.name := fun e => hd.1 (List.mem_map.2 ⟨r, hr, e⟩)
      simp [has, this.symm]
    · exact hd.2

theorem addAll_unseen : ∀ (es : List E) (i : Nat) (S : List Sym) (N : List (Node E)),
    (∀ j, i ≤ j → has S (.temp j) = false) →
    addAll none ⟨⟨S, N⟩, i, 0⟩ es =
      ⟨⟨S ++ es.mapIdx (fun j _ => ⟨.temp (i + j), false⟩),
        N ++ es.mapIdx (fun j e => ⟨.temp (i + j), some e⟩)⟩, i + es.length, 0⟩ := by
  intro es
  induction es with
  | nil => intro i S N _; simp [addAll]
  | cons e es ih =>
    intro i S N hS
    have h1 : addArg none ⟨⟨S, N⟩, i, 0⟩ e =
        ⟨⟨S ++ [⟨.temp i, false⟩], N ++ [⟨.temp i, some e⟩]⟩, i + 1, 0⟩ := by
      simp [addArg, argName, ensure, hS i (Nat.le_refl _)]
    simp only [addAll, List.foldl_cons] at ih ⊢
    rw [h1, ih]
    · simp only [List.mapIdx_cons, List.append_assoc, List.singleton_append, List.length_cons, Nat.add_zero]
      have : ∀ j, i + 1 + j = i + (j + 1) := by intro j; omega
      simp only [this]
    · intro j hj
      rw [has_append, hS j (by omega)]
      have : i ≠ j := by omega
      simp [has, this]

/-- No temporary name in the table. -/
def Owned (S : List Sym) : Prop := ∀ s ∈ S, ∃ n, s.name = .own n

theorem owned_has {S : List Sym} (h : Owned S) (i : Nat) : has S (.temp i) = false := by
  simp only [has, List.any_eq_false]
  intro s hs
  obtain ⟨n, hn⟩ := h s hs
  simp [hn]

theorem fixLoop_missing : ∀ (qs : List (Param E)) (i c : Nat) (last : Option Nat) (S : List Sym) (N : List (Node E)),
    Owned S → i ≤ last.getD i + 1 → (∀ q ∈ qs, has S (.own q.name) = false) → (qs.map (·.name)).Nodup →
    ∃ last', fixLoop ⟨⟨S, N⟩, c, last, 0⟩ i qs = ⟨⟨S ++ table qs true, N ++ canon qs []⟩, c + qs.length, last', 0⟩ := by
  intro qs
  induction qs with
  | nil => intro i c last S N _ _ _ _; exact ⟨last, by simp [fixLoop, table, canon]⟩
  | cons q qs ih =>
    intro i c last S N ho hl hS hd
    simp only [List.map_cons, List.nodup_cons] at hd
    have h1 : fixOne ⟨⟨S, N⟩, c, last, 0⟩ i q =
        ⟨⟨S ++ [⟨.own q.name, true⟩], N ++ [⟨.own q.name, q.dflt⟩]⟩, c + 1, some i, 0⟩ := by
      unfold fixOne
      rw [if_neg (by simp [owned_has ho])]
      unfold fixMissing
      rw [if_neg (by dsimp only; omega), if_neg (by simp [hS q (List.mem_cons_self ..)])]
    have := ih (i + 1) (c + 1) (some i) (S ++ [⟨.own q.name, true⟩]) (N ++ [⟨.own q.name, q.dflt⟩])
      (by
        intro s hs
        rcases List.mem_append.1 hs with hs | hs
        · exact ho s hs
        · rw [List.mem_singleton.1 hs]; exact ⟨_, rfl⟩)
      (by simp)
      (by
        intro r hr
        rw [has_append, hS r (List.mem_cons_of_mem _ hr)]
        have : r.name ≠ q.name := fun e => hd.1 (List.mem_map.2 ⟨r, hr, e⟩)
        simp [has, this.symm])
      hd.2
    obtain ⟨last', h⟩ := this
    refine ⟨last', ?_⟩
    rw [fixLoop, h1, h]
    simp only [table, canon, List.map_cons, List.append_assoc, List.singleton_append, List.length_cons]
    congr 1
    omega

theorem fixLoop_all : ∀ (es : List E) (qs : List (Param E)) (i c : Nat) (S : List Sym) (N : List (Node E)),
    Owned S → (∀ n ∈ N, ∃ m, n.name = .own m) → es.length ≤ qs.length →
    (∀ q ∈ qs, has S (.own q.name) = false) → (qs.map (·.name)).Nodup →
    ∃ last', fixLoop ⟨⟨S ++ es.mapIdx (fun j _ => ⟨.temp (i + j), false⟩),
        N ++ es.mapIdx (fun j e => ⟨.temp (i + j), some e⟩)⟩, c, none, 0⟩ i qs =
      ⟨⟨S ++ (table (qs.take es.length) false ++ table (qs.drop es.length) true), N ++ canon qs es⟩,
        c + qs.length, last', 0⟩ := by
  intro es
  induction es with
  | nil =>
    intro qs i c S N ho hn _ hS hd
    simpa [table] using fixLoop_missing qs i c none S N ho (by simp) hS hd
  | cons e es ih =>
    intro qs i c S N ho hn hlen hS hd
    cases qs with
    | nil => simp at hlen
    | cons q qs =>
      simp only [List.map_cons, List.nodup_cons] at hd
      have shift : (fun (j : Nat) (_ : E) => (⟨.temp (i + (j + 1)), false⟩ : Sym)) =
          fun j _ => ⟨.temp (i + 1 + j), false⟩ := by
        funext j _; rw [show i + (j + 1) = i + 1 + j by omega]
      have shift' : (fun (j : Nat) (e : E) => (⟨.temp (i + (j + 1)), some e⟩ : Node E)) =
          fun j e => ⟨.temp (i + 1 + j), some e⟩ := by
        funext j _; rw [show i + (j + 1) = i + 1 + j by omega]
      have h1 : fixOne ⟨⟨S ++ (e :: es).mapIdx (fun j _ => ⟨.temp (i + j), false⟩),
          N ++ (e :: es).mapIdx (fun j e => ⟨.temp (i + j), some e⟩)⟩, c, none, 0⟩ i q =
          ⟨⟨(S ++ [⟨.own q.name, false⟩]) ++ es.mapIdx (fun j _ => ⟨.temp (i + 1 + j), false⟩),
          (N ++ [⟨.own q.name, some e⟩]) ++ es.mapIdx (fun j e => ⟨.temp (i + 1 + j), some e⟩)⟩, c + 1, none, 0⟩ := by
        unfold fixOne
        rw [if_pos (by rw [has_append]; simp [has])]
        simp only [rename, List.mapIdx_cons, Nat.add_zero, List.map_append, List.map_cons, if_true, shift, shift',
          List.append_assoc, List.singleton_append]
        congr 2
        · congr 1
          · conv_rhs => rw [← List.map_id S]
            apply List.map_congr_left
            intro s hs
            obtain ⟨m, hm⟩ := ho s hs
            simp [hm]
          · congr 1
            refine (List.map_congr_left (g := id) ?_).trans (List.map_id _)
            intro s hs
            obtain ⟨j, hj, rfl⟩ := List.mem_mapIdx.1 hs
            have : i + 1 + j ≠ i := by omega
            simp [this]
        · congr 1
          · conv_rhs => rw [← List.map_id N]
            apply List.map_congr_left
            intro s hs
            obtain ⟨m, hm⟩ := hn s hs
            simp [hm]
          · congr 1
            refine (List.map_congr_left (g := id) ?_).trans (List.map_id _)
            intro s hs
            obtain ⟨j, hj, rfl⟩ := List.mem_mapIdx.1 hs
            have : i + 1 + j ≠ i := by omega
            simp [this]
      obtain ⟨last', h⟩ := ih qs (i + 1) (c + 1) (S ++ [⟨.own q.name, false⟩]) (N ++ [⟨.own q.name, some e⟩])
        (by
          intro s hs
          rcases List.mem_append.1 hs with hs | hs
          · exact ho s hs
          · rw [List.mem_singleton.1 hs]; exact ⟨_, rfl⟩)
        (by
          intro s hs
          rcases List.mem_append.1 hs with hs | hs
          · exact hn s hs
          · rw [List.mem_singleton.1 hs]; exact ⟨_, rfl⟩)
        (by simpa using hlen)
        (by
          intro r hr
          rw [has_append, hS r (List.mem_cons_of_mem _ hr)]
          have : r.name ≠ q.name := fun e => hd.1 (List.mem_map.2 ⟨r, hr, e⟩)
          simp [has, this.symm])
        hd.2
      refine ⟨last', ?_⟩
      rw [fixLoop, h1, h]
      simp only [table, canon, List.map_cons, List.append_assoc, List.singleton_append, List.length_cons,
        List.take_succ_cons, List.drop_succ_cons, List.cons_append]
      congr 1
      omega

end Ulam.Templ
