import Verif.FuncTable.Spec
import Verif.Walker.Lemmas
import Verif.Leximited.Lemmas
import Mathlib.Tactic.Tauto
/-! # Lemmas for C101 -/
namespace Ulam.FuncTable
open Ulam.FuncTable.Spec

theorem key_eq (f g : Fun) : f.key = g.key ↔ SameSignature f g := by
  unfold Fun.key SameSignature
  rw [Prod.mk.injEq]

/-- The first function of the list with a key. -/
def first (l : List Fun) (k : Key) : Option Fun := l.find? fun f => f.key = k

theorem first_append (l : List Fun) (f : Fun) (k : Key) :
    first (l ++ [f]) k = (first l k).or (if f.key = k then some f else none) := by
  unfold first
  rw [List.find?_append]
  by_cases h : f.key = k <;> simp [h]

theorem find_update (m : FSTable) (k j : Key) (g : FSEntry → FSEntry) :
    (m.update k g).find j = if j = k then (m.find k).map g else m.find j := by
  unfold FSTable.update FSTable.find
  induction m with
  | nil => simp
  | cons e m ih =>
    rw [List.map_cons]
    by_cases h1 : e.1 = k
    · rw [if_pos h1]
      by_cases h2 : e.1 = j
      · have : j = k := h2.symm.trans h1
        rw [if_pos this, List.find?_cons_of_pos (by simp [h2]), List.find?_cons_of_pos (by simp [h1])]
        rfl
      · have : j ≠ k := fun z => h2 (h1.trans z.symm)
        rw [if_neg this] at ih ⊢
        rw [List.find?_cons_of_neg (by simp [h2]), List.find?_cons_of_neg (by simp [h2]), ih]
    · rw [if_neg h1]
      by_cases h2 : e.1 = j
      · have : j ≠ k := fun z => h1 (h2.trans z)
        rw [if_neg this, List.find?_cons_of_pos (by simp [h2]), List.find?_cons_of_pos (by simp [h2])]
      · rw [List.find?_cons_of_neg (by simp [h2]), ih]
        by_cases h3 : j = k
        · rw [if_pos h3, if_pos h3, List.find?_cons_of_neg (by simp [h1])]
        · rw [if_neg h3, if_neg h3, List.find?_cons_of_neg (by simp [h2])]

theorem find_append (m : FSTable) (k j : Key) (e : FSEntry) :
    (m ++ [(k, e)]).find j = (m.find j).or (if k = j then some e else none) := by
  unfold FSTable.find
  rw [List.find?_append]
  cases List.find? (fun e => decide (e.1 = j)) m with
  | none => by_cases h : k = j <;> simp [h]
  | some x => simp

/-- The table holds what was first seen of each key. -/
def Inv (s : St) (l : List Fun) : Prop :=
  ∀ k, (s.map.find k).map (fun e => (e.rtnType, e.isVirtual)) = (first l k).map fun f => (f.ret, f.virt)

theorem inv_nil (e : List Err) : Inv ⟨[], e⟩ [] := fun _ => rfl

/-- The error about the return type of `f` after `l`. -/
def errOf (l : List Fun) (f : Fun) : List Err :=
  match first l f.key with
  | some g => if g.ret ≠ f.ret then [.returns f g.ret] else []
  | none => []

def dupOf (l : List Fun) (f : Fun) : Bool :=
  match first l f.key with
  | some g => !g.virt
  | none => false

theorem checkForDup_spec (s : St) (l : List Fun) (h : Inv s l) (f : Fun) :
    (checkForDup s f).1 = dupOf l f ∧ (checkForDup s f).2.errs = s.errs ++ errOf l f ∧ Inv (checkForDup s f).2 (l ++ [f]) := by
  have hk := h f.key
  unfold checkForDup dupOf errOf
  cases e : s.map.find f.key with
  | none =>
    rw [e] at hk
    cases q : first l f.key with
    | some g => rw [q] at hk; cases hk
    | none =>
      refine ⟨rfl, by simp, fun k => ?_⟩
      have hk := h k
      dsimp only
      rw [find_append, first_append]
      by_cases z : f.key = k
      · subst z
        rw [e, q]
        simp
      · simp only [if_neg z, Option.or_none]
        exact hk
  | some en =>
    rw [e] at hk
    cases q : first l f.key with
    | none => rw [q] at hk; cases hk
    | some g =>
      rw [q] at hk
      simp only [Option.map_some, Option.some.injEq, Prod.mk.injEq] at hk
      obtain ⟨h1, h2⟩ := hk
      refine ⟨by dsimp only; rw [← h2], ?_, fun k => ?_⟩
      · dsimp only
        rw [h1]
        split <;> simp
      · have hk := h k
        dsimp only
        rw [find_update, first_append]
        by_cases z : k = f.key
        · subst z
          rw [if_pos rfl, e, q]
          simp [h1, h2]
        · rw [if_neg z, if_neg (fun y => z y.symm), Option.or_none]
          exact hk

/-- All the errors about return types. -/
def retErrs (done : List Fun) : List Fun → List Err
  | [] => []
  | f :: l => errOf done f ++ retErrs (done ++ [f]) l

theorem retErrs_append (done a b : List Fun) : retErrs done (a ++ b) = retErrs done a ++ retErrs (done ++ a) b := by
  induction a generalizing done with
  | nil => simp [retErrs]
  | cons f a ih => simp [retErrs, ih, List.append_assoc]

theorem checkReturns_spec (l : List Fun) : ∀ (s : St) (done : List Fun), Inv s done →
    (checkReturns s l).errs = s.errs ++ retErrs done l ∧ Inv (checkReturns s l) (done ++ l) := by
  induction l with
  | nil => intro s done h; exact ⟨by simp [checkReturns, retErrs], by simpa [checkReturns] using h⟩
  | cons f l ih =>
    intro s done h
    obtain ⟨-, h2, h3⟩ := checkForDup_spec s done h f
    obtain ⟨i1, i2⟩ := ih _ _ h3
    unfold checkReturns retErrs
    refine ⟨?_, ?_⟩
    · rw [i1, h2, List.append_assoc]
    · rw [List.append_assoc] at i2
      exact i2

theorem inv_errs (s : St) (l : List Fun) (e : List Err) (h : Inv s l) : Inv { s with errs := e } l := h

/-- All the errors of `checkNames`. -/
def nameErrs (done : List Fun) : List Fun → List Err
  | [] => []
  | f :: l => errOf done f ++ (if dupOf done f then [.duplicate f] else []) ++ nameErrs (done ++ [f]) l

theorem checkNames_spec (l : List Fun) : ∀ (s : St) (done : List Fun), Inv s done →
    (checkNames s l).errs = s.errs ++ nameErrs done l := by
  induction l with
  | nil => intro s done _; simp [checkNames, nameErrs]
  | cons f l ih =>
    intro s done h
    obtain ⟨h1, h2, h3⟩ := checkForDup_spec s done h f
    unfold checkNames nameErrs
    cases e : checkForDup s f with
    | mk b t =>
      rw [e] at h1 h2 h3
      dsimp only at h1 h2 h3
      subst h1
      cases d : dupOf done f with
      | true =>
        dsimp only
        rw [ih _ _ (inv_errs t _ _ h3)]
        simp [h2]
      | false =>
        dsimp only
        rw [ih _ _ h3]
        simp [h2]

theorem errOf_nil (l : List Fun) (f : Fun) (h : Agree l) : errOf l f = [] ↔ ∀ g ∈ l, SameSignature g f → g.ret = f.ret := by
  unfold errOf
  cases e : first l f.key with
  | none =>
    refine ⟨fun _ g hg q => ?_, fun _ => rfl⟩
    have := List.find?_eq_none.1 e g hg
    exact absurd (decide_eq_true ((key_eq g f).2 q)) this
  | some g =>
    have hm : g ∈ l := List.mem_of_find?_eq_some e
    have hk : SameSignature g f := (key_eq g f).1 (of_decide_eq_true (List.find?_some (p := fun f' : Fun => decide (f'.key = f.key)) (show List.find? _ l = some g from e)))
    dsimp only
    constructor
    · intro q x hx qx
      split at q
      · cases q
      · rename_i q'; rw [ne_eq, Decidable.not_not] at q'
        rw [← q']
        exact h x hx g hm ⟨qx.1.trans hk.1.symm, qx.2.trans hk.2.symm⟩
    · intro q
      rw [if_neg (by rw [ne_eq, Decidable.not_not]; exact q g hm hk)]

theorem agree_snoc (l : List Fun) (f : Fun) :
    Agree (l ++ [f]) ↔ Agree l ∧ ∀ g ∈ l, SameSignature g f → g.ret = f.ret := by
  constructor
  · intro h
    exact ⟨fun a ha b hb => h a (List.mem_append_left _ ha) b (List.mem_append_left _ hb),
      fun g hg => h g (List.mem_append_left _ hg) f (by simp)⟩
  · rintro ⟨h1, h2⟩ a ha b hb q
    rcases List.mem_append.1 ha with ha | ha <;> rcases List.mem_append.1 hb with hb | hb
    · exact h1 a ha b hb q
    · rw [List.mem_singleton.1 hb] at q ⊢; exact h2 a ha q
    · rw [List.mem_singleton.1 ha] at q ⊢; exact (h2 b hb ⟨q.1.symm, q.2.symm⟩).symm
    · rw [List.mem_singleton.1 ha, List.mem_singleton.1 hb]

theorem agree_append_left {a b : List Fun} (h : Agree (a ++ b)) : Agree a :=
  fun f hf g hg => h f (List.mem_append_left _ hf) g (List.mem_append_left _ hg)

theorem retErrs_nil (l : List Fun) : ∀ done, Agree done → (retErrs done l = [] ↔ Agree (done ++ l)) := by
  induction l with
  | nil => intro done h; simp [retErrs, h]
  | cons f l ih =>
    intro done h
    rw [retErrs, List.append_eq_nil_iff, errOf_nil done f h]
    constructor
    · rintro ⟨h1, h2⟩
      have := (ih _ ((agree_snoc done f).2 ⟨h, h1⟩)).1 h2
      rwa [List.append_assoc] at this
    · intro q
      have q' : Agree ((done ++ [f]) ++ l) := by rwa [List.append_assoc]
      exact ⟨((agree_snoc done f).1 (agree_append_left q')).2, (ih _ (agree_append_left q')).2 q'⟩

/-- Every function after another of the same signature finds that the first of them is virtual. -/
def Seen (done l : List Fun) : Prop := ∀ pre f suf, l = pre ++ f :: suf → dupOf (done ++ pre) f = false

theorem seen_cons (done : List Fun) (f : Fun) (l : List Fun) :
    Seen done (f :: l) ↔ dupOf done f = false ∧ Seen (done ++ [f]) l := by
  constructor
  · intro h
    refine ⟨by simpa using h [] f l rfl, fun pre g suf e => ?_⟩
    have := h (f :: pre) g suf (by rw [e]; rfl)
    rwa [show done ++ f :: pre = done ++ [f] ++ pre by simp] at this
  · rintro ⟨h1, h2⟩ pre g suf e
    cases pre with
    | nil => cases e; simpa using h1
    | cons x pre =>
      cases e
      have := h2 pre g suf rfl
      rwa [show done ++ [f] ++ pre = done ++ f :: pre by simp] at this

theorem nameErrs_nil (l : List Fun) : ∀ done, nameErrs done l = [] ↔ retErrs done l = [] ∧ Seen done l := by
  induction l with
  | nil =>
    intro done
    simp only [nameErrs, retErrs, true_and, true_iff]
    intro pre f suf e
    cases pre <;> cases e
  | cons f l ih =>
    intro done
    rw [nameErrs, retErrs, seen_cons, List.append_eq_nil_iff, List.append_eq_nil_iff, List.append_eq_nil_iff, ih]
    cases dupOf done f <;> simp <;> tauto

theorem seen_excused (l : List Fun) : Seen [] l ↔ Excused l := by
  constructor
  · intro h pre f suf e hp ⟨g, hg, q⟩
    obtain ⟨a, b, rfl⟩ := List.append_of_mem hg
    have := h (pre ++ f :: a) g b (by rw [e]; simp)
    rw [List.nil_append] at this
    unfold dupOf first at this
    rw [List.find?_append, List.find?_cons_of_pos (by simp [(key_eq f g).2 q])] at this
    rw [List.find?_eq_none.2 (fun x hx => by
      simp only [decide_eq_true_eq, key_eq]
      exact fun z => hp x hx ⟨z.1.trans q.1.symm, z.2.trans q.2.symm⟩)] at this
    simpa using this
  · intro h pre f suf e
    rw [List.nil_append]
    unfold dupOf
    cases q : first pre f.key with
    | none => rfl
    | some g =>
      unfold first at q
      obtain ⟨hk, a, b, e2, hn⟩ := List.find?_eq_some_iff_append.1 q
      simp only [decide_eq_true_eq, key_eq, Bool.not_eq_true', decide_eq_false_iff_not] at hk hn
      have := h a g (b ++ f :: suf) (by rw [e, e2]; simp)
        (fun x hx z => hn x hx ⟨z.1.trans hk.1, z.2.trans hk.2⟩) ⟨f, by simp, hk⟩
      dsimp only
      rw [this]
      rfl

theorem checkMatching_nil (b : Block) (h : b.empty = true → b.funs = []) :
    checkMatching b = [] ↔ Agree b.funs ∧ Excused b.funs := by
  unfold checkMatching
  by_cases e : b.empty = true
  · rw [if_neg (by simp [e]), h e]
    refine ⟨fun _ => ⟨fun f hf => (by cases hf), fun pre f suf q => ?_⟩, fun _ => rfl⟩
    cases pre <;> cases q
  · rw [if_pos (by simp [e]), checkNames_spec _ _ [] (inv_nil _), List.nil_append, nameErrs_nil,
      retErrs_nil _ [] (fun f hf => by cases hf), List.nil_append, seen_excused]

variable {n : Nat}

theorem checkWalk_nil (blk : Fin n → Block) (hb : ∀ c, (blk c).empty = true → (blk c).funs = []) (l : List (Fin n)) :
    ∀ (s : St) (done : List Fun), Inv s done →
      ((checkWalk blk s l).errs = [] ↔ s.errs = [] ∧ (∀ c ∈ l, checkMatching (blk c) = []) ∧
        retErrs done (l.flatMap fun c => (blk c).funs) = []) := by
  induction l with
  | nil => intro s done _; simp [checkWalk, retErrs]
  | cons c l ih =>
    intro s done h
    have key : ∀ t : St, Inv t done → (checkDuplicates t (blk c)).errs = t.errs ++ retErrs done (blk c).funs ∧
        Inv (checkDuplicates t (blk c)) (done ++ (blk c).funs) := by
      intro t ht
      unfold checkDuplicates
      by_cases e : (blk c).empty = true
      · rw [if_neg (by simp [e]), hb c e]
        simpa [retErrs] using ht
      · rw [if_pos (by simp [e])]
        exact checkReturns_spec _ _ _ ht
    obtain ⟨k1, k2⟩ := key { s with errs := s.errs ++ checkMatching (blk c) } h
    rw [checkWalk, ih _ _ k2, k1, List.flatMap_cons, retErrs_append]
    simp only [List.append_eq_nil_iff, List.forall_mem_cons]
    tauto

/-! ## Keys while parsing -/

theorem dec_chars (a : Nat) : ∀ c ∈ Leximited.dec a, c.isDigit = true := by
  induction a using Nat.strongRecOn with
  | ind a ih =>
    have hd : ∀ m, (Leximited.digit m).isDigit = true := by
      intro m
      have : ∀ j : Fin 10, (Leximited.digit j.val).isDigit = true := by decide
      have e : Leximited.digit m = Leximited.digit (m % 10) := by
        unfold Leximited.digit
        rw [Nat.mod_mod]
      rw [e]
      exact this ⟨m % 10, Nat.mod_lt _ (by omega)⟩
    intro c hc
    rw [Leximited.dec] at hc
    split at hc
    · rw [List.mem_singleton] at hc; rw [hc]; exact hd _
    · rcases List.mem_append.1 hc with hc | hc
      · exact ih _ (by omega) c hc
      · rw [List.mem_singleton] at hc; rw [hc]; exact hd _

/-- Digits followed by something else, or nothing, are told apart. -/
theorem digits_split (a b : List Char) (ha : ∀ c ∈ a, c.isDigit = true) (hb : ∀ c ∈ b, c.isDigit = true) (x y : List Char)
    (hx : ∀ c ∈ x.head?, c.isDigit = false) (hy : ∀ c ∈ y.head?, c.isDigit = false) (h : a ++ x = b ++ y) : a = b ∧ x = y := by
  induction a generalizing b with
  | nil =>
    cases b with
    | nil => exact ⟨rfl, h⟩
    | cons d b =>
      rw [List.nil_append] at h
      subst h
      have := hx d (by simp)
      rw [hb d (by simp)] at this
      cases this
  | cons c a ih =>
    cases b with
    | nil =>
      rw [List.nil_append] at h
      subst h
      have := hy c (by simp)
      rw [ha c (by simp)] at this
      cases this
    | cons d b =>
      simp only [List.cons_append, List.cons.injEq] at h
      obtain ⟨rfl, h⟩ := h
      obtain ⟨h1, h2⟩ := ih b (fun c hc => ha c (List.mem_cons_of_mem _ hc)) (fun c hc => hb c (List.mem_cons_of_mem _ hc)) h
      exact ⟨by rw [h1], h2⟩

/-- What follows the number in an item. -/
def tail : Param → List Char
  | .hazy _ k => '-' :: Leximited.dec k
  | .unset _ r => if r then ['r'] else []
  | .known _ => []

theorem item_eq (p : Param) : item p = Leximited.dec (denotes p).1 ++ tail p := by
  cases p <;> simp [item, tail, denotes]

theorem tail_head (p : Param) : ∀ c ∈ (tail p).head?, c.isDigit = false := by
  cases p with
  | hazy u k => intro c hc; simp [tail] at hc; subst hc; rfl
  | unset g r => cases r <;> intro c hc <;> simp [tail] at hc; subst hc; rfl
  | known u => intro c hc; simp [tail] at hc

theorem item_inj (p q : Param) (h : item p = item q) : denotes p = denotes q := by
  rw [item_eq, item_eq] at h
  obtain ⟨h0, h2⟩ := digits_split _ _ (dec_chars _) (dec_chars _) _ _ (tail_head p) (tail_head q) h
  have h1 := Leximited.dec_inj h0
  clear h h0
  cases p with
  | hazy u k =>
    cases q with
    | hazy v j =>
      simp only [tail, List.cons.injEq, true_and] at h2
      simp only [denotes] at h1
      rw [denotes, denotes, h1, Leximited.dec_inj h2]
    | unset g r' => cases r' <;> simp [tail] at h2
    | known v => simp [tail] at h2
  | unset g b =>
    cases q with
    | hazy v j => cases b <;> simp [tail] at h2
    | unset g' b' =>
      simp only [denotes] at h1 ⊢
      subst h1
      cases b <;> cases b' <;> simp [tail] at h2 ⊢
    | known v =>
      simp only [denotes] at h1 ⊢
      subst h1
      cases b <;> simp [tail] at h2 ⊢
  | known u =>
    cases q with
    | hazy v j => simp [tail] at h2
    | unset g b =>
      simp only [denotes] at h1 ⊢
      subst h1
      cases b <;> simp [tail] at h2 ⊢
    | known v =>
      simp only [denotes] at h1 ⊢
      rw [h1]

theorem item_denotes (p q : Param) (h : denotes p = denotes q) : item p = item q := by
  rw [item_eq, item_eq, h]
  congr 1
  cases p with
  | hazy u k => cases q <;> simp [denotes] at h; simp [tail, h]
  | unset g b => cases q <;> simp [denotes] at h <;> simp [tail, h]
  | known u => cases q <;> simp [denotes] at h; · simp [tail, h]
               · simp [tail]

theorem item_no_comma (p : Param) : ',' ∉ item p := by
  intro h
  have d : ∀ k, ',' ∉ Leximited.dec k := fun k z => by simpa using dec_chars k _ z
  rw [item_eq, List.mem_append] at h
  rcases h with h | h
  · exact d _ h
  · cases p with
    | hazy u k =>
      simp only [tail, List.mem_cons] at h
      rcases h with h | h
      · cases h
      · exact d _ h
    | unset g b => cases b <;> simp [tail] at h
    | known u => simp [tail] at h

theorem comma_split (a b : List Char) (ha : ',' ∉ a) (hb : ',' ∉ b) (x y : List Char) (hx : x = [] ∨ x.head? = some ',')
    (hy : y = [] ∨ y.head? = some ',') (h : a ++ x = b ++ y) : a = b ∧ x = y := by
  induction a generalizing b with
  | nil =>
    cases b with
    | nil => exact ⟨rfl, h⟩
    | cons d b =>
      rw [List.nil_append] at h
      subst h
      rcases hx with hx | hx
      · cases hx
      · simp at hx; subst hx; simp at hb
  | cons c a ih =>
    cases b with
    | nil =>
      rw [List.nil_append] at h
      subst h
      rcases hy with hy | hy
      · cases hy
      · simp at hy; subst hy; simp at ha
    | cons d b =>
      simp only [List.cons_append, List.cons.injEq] at h
      obtain ⟨rfl, h⟩ := h
      simp only [List.mem_cons, not_or] at ha hb
      obtain ⟨h1, h2⟩ := ih b ha.2 hb.2 h
      exact ⟨by rw [h1], h2⟩

theorem items_head (ps : List Param) :
    (ps.flatMap fun p => ',' :: item p) = [] ∨ (ps.flatMap fun p => ',' :: item p).head? = some ',' := by
  cases ps with
  | nil => exact .inl rfl
  | cons p ps => exact .inr rfl

theorem items_inj (ps qs : List Param) (h : (ps.flatMap fun p => ',' :: item p) = qs.flatMap fun p => ',' :: item p) :
    ps.map denotes = qs.map denotes := by
  induction ps generalizing qs with
  | nil =>
    cases qs with
    | nil => rfl
    | cons q qs => cases h
  | cons p ps ih =>
    cases qs with
    | nil => cases h
    | cons q qs =>
      rw [List.flatMap_cons, List.flatMap_cons, List.cons_append, List.cons_append, List.cons.injEq] at h
      obtain ⟨h1, h2⟩ := comma_split _ _ (item_no_comma p) (item_no_comma q) _ _ (items_head ps) (items_head qs) h.2
      rw [List.map_cons, List.map_cons, item_inj p q h1, ih qs h2]

theorem items_denote (ps qs : List Param) (h : ps.map denotes = qs.map denotes) :
    (ps.flatMap fun p => ',' :: item p) = qs.flatMap fun p => ',' :: item p := by
  induction ps generalizing qs with
  | nil => cases qs with
    | nil => rfl
    | cons q qs => cases h
  | cons p ps ih =>
    cases qs with
    | nil => cases h
    | cons q qs =>
      rw [List.map_cons, List.map_cons, List.cons.injEq] at h
      rw [List.flatMap_cons, List.flatMap_cons, item_denotes p q h.1, ih qs h.2]

end Ulam.FuncTable
