import Verif.InitParse.Model
import Verif.InitParse.Spec
/-! # C139: initialization lists are read as they are written -/
namespace Ulam.InitParse
open Ulam.InitParse.Spec

mutual
theorem writes_head {v : Val} {w : List Tok} (h : Writes v w) : ∃ t l, w = t :: l ∧ (t = .cc ∨ t = .dot ∨ t = .oc ∨ ∃ e, t = .ex e) := by
  cases h with
  | empty => exact ⟨_, _, rfl, .inl rfl⟩
  | arr h => obtain ⟨t, l, e, h⟩ := many_head h; exact ⟨t, l, e, .inr (.inr h)⟩
  | cls h => obtain ⟨l, e⟩ := members_head h; exact ⟨_, l, e, .inr (.inl rfl)⟩
theorem many_head {l : Items} {w : List Tok} (h : Many l w) : ∃ t r, w = t :: r ∧ (t = .oc ∨ ∃ e, t = .ex e) := by
  cases h with
  | lastEx h => exact ⟨_, _, rfl, .inr ⟨_, rfl⟩⟩
  | moreEx h => exact ⟨_, _, rfl, .inr ⟨_, rfl⟩⟩
  | lastNone h => exact ⟨_, _, rfl, .inl rfl⟩
  | moreNone h => exact ⟨_, _, rfl, .inl rfl⟩
  | lastCls h _ => exact ⟨_, _, rfl, .inl rfl⟩
  | moreCls h _ => exact ⟨_, _, rfl, .inl rfl⟩
theorem members_head {m : Mems} {w : List Tok} (h : Members m w) : ∃ r, w = .dot :: r := by
  cases h with
  | last _ _ => exact ⟨_, rfl⟩
  | more _ _ => exact ⟨_, rfl⟩
end

/-- Behind the last value. -/
theorem end_arr (t rest : List Tok) (ht : IsEnd t) (f : Nat) (hf : 5 ≤ f) :
    pArr f true (t ++ [.cc] ++ rest) = some (some .nil, rest, 0) := by
  obtain ⟨g, rfl⟩ : ∃ g, f = g + 5 := ⟨f - 5, by omega⟩
  rcases ht with rfl | rfl
  · simp [pArr]
  · simp [pArr, pItem, pMissing, R.add]

theorem end_cls (t rest : List Tok) (ht : IsEnd t) (f : Nat) (hf : 1 ≤ f) :
    pCls f true (t ++ [.cc] ++ rest) = some (some .nil, rest, 0) := by
  obtain ⟨g, rfl⟩ : ∃ g, f = g + 1 := ⟨f - 1, by omega⟩
  rcases ht with rfl | rfl
  · simp [pCls]
  · simp [pCls]

theorem add_zero' {α : Type} (x : R α) : R.add 0 x = x := rfl

/-- The opening bracket of an item is eaten, after the comma if there are items already. -/
theorem enter_oc (b : Bool) (c r : List Tok) (hc : (b = false ∧ c = []) ∨ (b = true ∧ c = [.comma])) (f : Nat) (hf : 5 ≤ f) :
    ∃ g, f ≤ g + 4 ∧ pArr f b (c ++ .oc :: r) = pItem g b false r := by
  rcases hc with ⟨rfl, rfl⟩ | ⟨rfl, rfl⟩
  · obtain ⟨g, rfl⟩ : ∃ g, f = g + 1 := ⟨f - 1, by omega⟩
    exact ⟨g, by omega, by simp [pArr]⟩
  · obtain ⟨g, rfl⟩ : ∃ g, f = g + 4 := ⟨f - 4, by omega⟩
    refine ⟨g, by omega, ?_⟩
    simp only [List.cons_append, List.nil_append, pArr, pItem, pAssign, pMissing, if_true]
    cases pItem g true false r with
    | none => rfl
    | some x => rfl

/-- An expression for an item. -/
theorem enter_ex (b : Bool) (c r : List Tok) (e : Ex) (hc : (b = false ∧ c = []) ∨ (b = true ∧ c = [.comma])) (g : Nat) :
    pArr (g + 2) b (c ++ .ex e :: r) = (pArr g true r).map (R.map (.ex e)) := by
  rcases hc with ⟨rfl, rfl⟩ | ⟨rfl, rfl⟩ <;> simp [pArr, pItem, pAssign]

/-- A list for a class for an item. -/
theorem item_cls (b : Bool) (m : Mems) (r x : List Tok) (g : Nat) (h : pCls g false (.dot :: r) = some (some m, x, 0)) :
    pItem (g + 1) b false (.dot :: r) = (pArr g true x).map (R.map (.cls m)) := by
  simp only [pItem, h, Option.bind_some]
  rfl

/-- An empty list for an item. -/
theorem item_none (b : Bool) (r : List Tok) (g : Nat) (h : ∃ l, r = .comma :: l ∨ r = .cc :: l) :
    pItem (g + 1) b false (.cc :: r) = (pArr g true r).map (R.map (.cls .nil)) := by
  obtain ⟨l, rfl | rfl⟩ := h <;> simp [pItem]

theorem end_head {t rest : List Tok} (h : IsEnd t) : ∃ l, t ++ [.cc] ++ rest = .comma :: l ∨ t ++ [.cc] ++ rest = .cc :: l := by
  rcases h with rfl | rfl
  · exact ⟨_, .inr rfl⟩
  · exact ⟨_, .inl rfl⟩

/-- The dot of a member is eaten, after the comma if there are members already. -/
theorem enter_dot (b : Bool) (c r : List Tok) (hc : (b = false ∧ c = []) ∨ (b = true ∧ c = [.comma])) (g : Nat) :
    pCls (g + 1) b (c ++ .dot :: r) = pMem g r := by
  rcases hc with ⟨rfl, rfl⟩ | ⟨rfl, rfl⟩ <;> simp [pCls]

mutual
theorem reads_val {v : Val} {w : List Tok} (h : Writes v w) (rest : List Tok) (f : Nat) (hf : 5 * w.length + 2 ≤ f) :
    pInit f (w ++ rest) = some (some v, rest, 0) := by
  obtain ⟨g, rfl⟩ : ∃ g, f = g + 1 := ⟨f - 1, by omega⟩
  cases h with
  | empty => simp [pInit]
  | arr h =>
    have := reads_arr h rest false [] (.inl ⟨rfl, rfl⟩) g (by simp; omega)
    rw [List.nil_append] at this
    obtain ⟨t, l, rfl, e⟩ := many_head h
    rcases e with rfl | ⟨e, rfl⟩
    all_goals
      simp only [List.cons_append] at this ⊢
      simp [pInit, this, R.map]
  | cls h =>
    have := reads_cls h rest false [] (.inl ⟨rfl, rfl⟩) g (by simp; omega)
    rw [List.nil_append] at this
    obtain ⟨l, rfl⟩ := members_head h
    simp only [List.cons_append] at this ⊢
    simp [pInit, this, R.map]
  termination_by 2 * w.length + 1

theorem reads_arr {l : Items} {w : List Tok} (h : Many l w) (rest : List Tok) (b : Bool) (c : List Tok)
    (hc : (b = false ∧ c = []) ∨ (b = true ∧ c = [.comma])) (f : Nat) (hf : 5 * (c.length + w.length) + 1 ≤ f) :
    pArr f b (c ++ (w ++ rest)) = some (some l, rest, 0) := by
  cases h with
  | @lastEx e t ht =>
    simp only [List.length_cons, List.length_append] at hf
    obtain ⟨g, rfl⟩ : ∃ g, f = g + 2 := ⟨f - 2, by omega⟩
    rw [List.cons_append, enter_ex b c _ e hc, end_arr t rest ht g (by omega)]
    rfl
  | @moreEx e l w h =>
    simp only [List.length_cons] at hf
    obtain ⟨g, rfl⟩ : ∃ g, f = g + 2 := ⟨f - 2, by omega⟩
    rw [List.cons_append, enter_ex b c _ e hc]
    have := reads_arr h rest true [.comma] (.inr ⟨rfl, rfl⟩) g (by simp only [List.length_cons, List.length_nil]; omega)
    simp only [List.cons_append, List.nil_append] at this ⊢
    rw [this]
    rfl
  | @lastNone t ht =>
    simp only [List.length_cons] at hf
    obtain ⟨g, hg, e⟩ := enter_oc b c (.cc :: (t ++ [.cc] ++ rest)) hc f (by omega)
    obtain ⟨g, rfl⟩ : ∃ k, g = k + 1 := ⟨g - 1, by omega⟩
    simp only [List.cons_append] at e ⊢
    rw [e, item_none b _ g (end_head ht), end_arr t rest ht g (by omega)]
    rfl
  | @moreNone l w h =>
    simp only [List.length_cons] at hf
    obtain ⟨g, hg, e⟩ := enter_oc b c (.cc :: .comma :: (w ++ rest)) hc f (by omega)
    obtain ⟨g, rfl⟩ : ∃ k, g = k + 1 := ⟨g - 1, by omega⟩
    have := reads_arr h rest true [.comma] (.inr ⟨rfl, rfl⟩) g (by simp only [List.length_cons, List.length_nil]; omega)
    simp only [List.cons_append, List.nil_append] at this e ⊢
    rw [e, item_none b _ g ⟨_, .inl rfl⟩, this]
    rfl
  | @lastCls m v t hm ht =>
    simp only [List.length_cons, List.length_append] at hf
    obtain ⟨g, hg, e⟩ := enter_oc b c (v ++ (t ++ [.cc] ++ rest)) hc f (by omega)
    obtain ⟨g, rfl⟩ : ∃ k, g = k + 1 := ⟨g - 1, by omega⟩
    have h1 := reads_cls hm (t ++ [.cc] ++ rest) false [] (.inl ⟨rfl, rfl⟩) g (by simp only [List.length_nil]; omega)
    have h2 := end_arr t rest ht g (by omega)
    obtain ⟨r, rfl⟩ := members_head hm
    simp only [List.cons_append, List.nil_append, List.append_assoc] at h1 h2 e ⊢
    rw [e, item_cls b m _ _ g h1, h2]
    rfl
  | @moreCls m v l w hm h =>
    simp only [List.length_cons, List.length_append] at hf
    obtain ⟨g, hg, e⟩ := enter_oc b c (v ++ (.comma :: (w ++ rest))) hc f (by omega)
    obtain ⟨g, rfl⟩ : ∃ k, g = k + 1 := ⟨g - 1, by omega⟩
    have h1 := reads_cls hm (.comma :: (w ++ rest)) false [] (.inl ⟨rfl, rfl⟩) g (by simp only [List.length_nil]; omega)
    have h2 := reads_arr h rest true [.comma] (.inr ⟨rfl, rfl⟩) g (by simp only [List.length_cons, List.length_nil]; omega)
    obtain ⟨r, rfl⟩ := members_head hm
    simp only [List.cons_append, List.nil_append, List.append_assoc] at h1 h2 e ⊢
    rw [e, item_cls b m _ _ g h1, h2]
    rfl
  termination_by 2 * w.length

theorem reads_cls {m : Mems} {w : List Tok} (h : Members m w) (rest : List Tok) (b : Bool) (c : List Tok)
    (hc : (b = false ∧ c = []) ∨ (b = true ∧ c = [.comma])) (f : Nat) (hf : 5 * (c.length + w.length) + 1 ≤ f) :
    pCls f b (c ++ (w ++ rest)) = some (some m, rest, 0) := by
  cases h with
  | @last n v u t hv ht =>
    simp only [List.length_cons, List.length_append] at hf
    obtain ⟨g, rfl⟩ : ∃ g, f = g + 2 := ⟨f - 2, by omega⟩
    simp only [List.cons_append, List.append_assoc]
    rw [enter_dot b c _ hc]
    cases hv with
    | @ex e =>
      have := end_cls t rest ht g (by omega)
      simp only [List.append_assoc] at this
      simp only [List.cons_append, List.nil_append, pMem, pAssign] at this ⊢
      rw [this]
      rfl
    | @list _ x hw =>
      simp only [List.length_cons] at hf
      have h1 := reads_val hw (t ++ [.cc] ++ rest) g (by omega)
      have := end_cls t rest ht g (by omega)
      simp only [List.append_assoc] at this h1
      simp only [List.cons_append, List.nil_append, pMem] at this h1 ⊢
      rw [h1, Option.bind_some]
      dsimp only
      rw [this]
      rfl
  | @more n v u l y hv h =>
    simp only [List.length_cons, List.length_append] at hf
    obtain ⟨g, rfl⟩ : ∃ g, f = g + 2 := ⟨f - 2, by omega⟩
    simp only [List.cons_append, List.append_assoc]
    rw [enter_dot b c _ hc]
    have := reads_cls h rest true [.comma] (.inr ⟨rfl, rfl⟩) g (by simp only [List.length_cons, List.length_nil]; omega)
    cases hv with
    | @ex e =>
      simp only [List.cons_append, List.nil_append, pMem, pAssign] at this ⊢
      rw [this]
      rfl
    | @list _ x hw =>
      simp only [List.length_cons] at hf
      have h1 := reads_val hw (.comma :: (y ++ rest)) g (by omega)
      simp only [List.cons_append, List.nil_append, pMem] at this h1 ⊢
      rw [h1, Option.bind_some]
      dsimp only
      rw [this]
      rfl
  termination_by 2 * w.length
end

/-- **C139.** A list written with commas between the values, and perhaps one behind the last, is read as it is written: nothing is
reported, and what is behind it is left alone. -/
theorem C139_reads_back (v : Val) (w rest : List Tok) (h : Writes v w) (f : Nat) (hf : 5 * w.length + 2 ≤ f) :
    pInit f (w ++ rest) = some (some v, rest, 0) := reads_val h rest f hf

/-- **C139.** What is written can be meant in one way only. -/
theorem C139_unique (v v' : Val) (w w' r r' : List Tok) (h : Writes v w) (h' : Writes v' w') (e : w ++ r = w' ++ r') :
    v = v' ∧ r = r' := by
  have a := C139_reads_back v w r h (5 * w.length + 5 * w'.length + 2) (by omega)
  have b := C139_reads_back v' w' r' h' (5 * w.length + 5 * w'.length + 2) (by omega)
  rw [e, b] at a
  simp only [Option.some.injEq, Prod.mk.injEq, and_true] at a
  exact ⟨a.1.symm, a.2.symm⟩

/-- What is read is an end of the tokens given, with the fuel given. -/
def Ok {α : Type} (x : Option (R α)) (ts : List Tok) : Prop := ∃ a r k, x = some (a, r, k) ∧ r <:+ ts

theorem Ok.up {α : Type} {x : Option (R α)} {ts us : List Tok} (h : Ok x ts) (hs : ts <:+ us) : Ok x us := by
  obtain ⟨a, r, k, h1, h2⟩ := h
  exact ⟨a, r, k, h1, h2.trans hs⟩

theorem Ok.map {α β : Type} {x : Option (R α)} {ts : List Tok} (h : Ok x ts) (g : α → β) : Ok (x.map (R.map g)) ts := by
  obtain ⟨a, r, k, h1, h2⟩ := h
  exact ⟨_, r, k, by rw [h1]; rfl, h2⟩

theorem Ok.add {α : Type} {x : Option (R α)} {ts : List Tok} (h : Ok x ts) (j : Nat) : Ok (x.map (R.add j)) ts := by
  obtain ⟨a, r, k, h1, h2⟩ := h
  exact ⟨_, r, k + j, by rw [h1]; rfl, h2⟩

theorem Ok.both {α β : Type} {x : Option (R α)} {ts : List Tok} (h : Ok x ts) (g : α → β) (j : Nat) :
    Ok (x.map fun y => (R.map g y).add j) ts := by
  obtain ⟨a, r, k, h1, h2⟩ := h
  exact ⟨_, r, k + j, by rw [h1]; rfl, h2⟩

theorem suffix_cons' (t : Tok) (l : List Tok) : l <:+ t :: l := List.suffix_cons t l

structure Stops (f : Nat) : Prop where
  init : ∀ ts : List Tok, 5 * ts.length + 4 ≤ f → Ok (pInit f ts) ts
  arr : ∀ (b : Bool) (ts : List Tok), 5 * ts.length + 3 ≤ f → Ok (pArr f b ts) ts
  item : ∀ (b c : Bool) (ts : List Tok), 5 * ts.length + 5 ≤ f → Ok (pItem f b c ts) ts
  missing : ∀ (b : Bool) (k : Nat) (ts : List Tok), 5 * ts.length + 4 ≤ f → Ok (pMissing f b k ts) ts
  cls : ∀ (b : Bool) (ts : List Tok), 5 * ts.length + 1 ≤ f → Ok (pCls f b ts) ts
  mem : ∀ ts : List Tok, 5 * ts.length + 1 ≤ f → Ok (pMem f ts) ts

theorem stops (f : Nat) : Stops f := by
  induction f using Nat.strongRecOn with
  | _ f all =>
  cases f with
  | zero => constructor <;> intros <;> omega
  | succ f =>
    have ih := all f (by omega)
    constructor
    · intro ts hf
      unfold pInit
      split
      · exact (ih.cls _ _ (by omega)).map _
      · exact ⟨_, _, _, rfl, suffix_cons' _ _⟩
      · exact (ih.arr _ _ (by omega)).map _
    · intro b ts hf
      unfold pArr
      split
      · exact ⟨_, _, _, rfl, suffix_cons' _ _⟩
      · exact ⟨_, _, _, rfl, List.suffix_rfl⟩
      · simp only [List.length_cons] at hf
        exact (ih.item _ _ _ (by omega)).up (suffix_cons' _ _)
      · simp only [List.length_cons] at hf
        exact (ih.item _ _ _ (by omega)).up (suffix_cons' _ _)
      · exact ⟨_, _, _, rfl, List.suffix_rfl⟩
      · rename_i h1 h2 h3 h4 h5
        cases b with
        | true => exact ⟨_, _, _, rfl, List.suffix_rfl⟩
        | false =>
          rw [if_neg (by simp)]
          obtain ⟨f, rfl⟩ : ∃ g, f = g + 2 := ⟨f - 2, by omega⟩
          cases ts with
          | nil => exact ⟨_, _, _, by simp only [pItem, pAssign, pMissing]; rfl, List.suffix_rfl⟩
          | cons t ts =>
            simp only [List.length_cons] at hf
            cases t with
            | ex e =>
              have := (all (f + 1) (by omega)).arr true ts (by omega)
              simp only [pItem, pAssign]
              exact (this.map _).up (suffix_cons' _ _)
            | cc => exact absurd rfl (h1 _)
            | dot => exact absurd rfl (h5 _)
            | oc => exact absurd rfl (h4 _)
            | comma => exact absurd rfl (h3 _)
            | semi => exact absurd rfl (h2 _)
            | eq => exact ⟨_, _, _, by simp only [pItem, pAssign, pMissing]; rfl, List.suffix_rfl⟩
            | junk n => exact ⟨_, _, _, by simp only [pItem, pAssign, pMissing]; rfl, List.suffix_rfl⟩
    · intro b c ts hf
      unfold pItem
      split
      · rename_i r0
        obtain ⟨a, r, k, e1, e2⟩ := ih.cls false (.dot :: r0) (by omega)
        have := e2.length_le
        rw [e1, Option.bind_some]
        cases a with
        | none => exact (ih.missing _ _ _ (by omega)).up e2
        | some m => exact ((ih.arr _ _ (by omega)).both _ _).up e2
      · rename_i r
        have hl : 5 * (r.length + 1) + 5 ≤ f + 1 := hf
        cases c with
        | true => exact ih.missing _ _ _ (by simp only [List.length_cons]; omega)
        | false =>
          rw [if_neg (by simp)]
          split
          · exact ((ih.arr _ _ (by omega)).map _).up (suffix_cons' _ _)
          · exact ((ih.arr _ _ (by omega)).map _).up (suffix_cons' _ _)
          · exact (ih.missing _ _ _ (by omega)).up (suffix_cons' _ _)
      · unfold pAssign
        split
        · rename_i e r h
          split at h
          · rename_i e' r'
            cases h
            simp only [List.length_cons] at hf
            exact ((ih.arr _ _ (by omega)).map _).up (suffix_cons' _ _)
          · cases h
        · rename_i r h
          split at h
          · cases h
          · cases h
            exact ih.missing _ _ _ (by omega)
    · intro b k ts hf
      unfold pMissing
      cases b with
      | true => exact (ih.arr _ _ (by omega)).add _
      | false => exact ⟨_, _, _, rfl, List.suffix_rfl⟩
    · intro b ts hf
      unfold pCls
      split
      · exact ⟨_, _, _, rfl, suffix_cons' _ _⟩
      · simp only [List.length_cons] at hf
        exact (ih.mem _ (by omega)).up ((suffix_cons' _ _).trans (suffix_cons' _ _))
      · exact ⟨_, _, _, rfl, (suffix_cons' _ _).trans (suffix_cons' _ _)⟩
      · exact ⟨_, _, _, rfl, suffix_cons' _ _⟩
      · simp only [List.length_cons] at hf
        cases b with
        | true => exact ⟨_, _, _, rfl, List.suffix_rfl⟩
        | false => exact (ih.mem _ (by omega)).up (suffix_cons' _ _)
      · exact ⟨_, _, _, rfl, List.suffix_rfl⟩
    · intro ts hf
      unfold pMem
      split
      · rename_i n r
        simp only [List.length_cons] at hf
        have up : r <:+ .ex (.name n) :: .eq :: .oc :: r :=
          (suffix_cons' _ _).trans ((suffix_cons' _ _).trans (suffix_cons' _ _))
        obtain ⟨a, r', k, e1, e2⟩ := ih.init r (by omega)
        have := e2.length_le
        rw [e1, Option.bind_some]
        cases a with
        | none => exact ⟨_, _, _, rfl, e2.trans up⟩
        | some m => exact ((ih.cls _ _ (by omega)).both _ _).up (e2.trans up)
      · rename_i n r _
        simp only [List.length_cons] at hf
        have up : r <:+ .ex (.name n) :: .eq :: r := (suffix_cons' _ _).trans (suffix_cons' _ _)
        unfold pAssign
        split
        · rename_i e r h
          split at h
          · rename_i e' r'
            cases h
            simp only [List.length_cons] at hf
            exact ((ih.cls _ _ (by omega)).map _).up ((suffix_cons' _ _).trans up)
          · cases h
        · rename_i r h
          split at h
          · cases h
          · cases h
            exact ⟨_, _, _, rfl, up⟩
      · exact ⟨_, _, _, rfl, suffix_cons' _ _⟩
      · exact ⟨_, _, _, rfl, List.suffix_rfl⟩

/-- **C139.** Whatever tokens it is given the parser stops, and what it leaves is an end of what it was given. -/
theorem C139_stops (ts : List Tok) (f : Nat) (hf : 5 * ts.length + 4 ≤ f) : ∃ v r k, pInit f ts = some (v, r, k) ∧ r <:+ ts :=
  (stops f).init ts hf

/-! What is read is written so: for lists without arrays -/

/-- Every opening bracket has a dot or a closing bracket behind it. -/
def NoArray (ts : List Tok) : Prop := ∀ a b, ts = a ++ .oc :: b → ∃ l, b = .dot :: l ∨ b = .cc :: l

theorem NoArray.tail {ts us : List Tok} (h : NoArray us) (hs : ts <:+ us) : NoArray ts := by
  obtain ⟨x, rfl⟩ := hs
  rintro a b rfl
  exact h (x ++ a) b (by simp)

structure Exact (f : Nat) : Prop where
  init : ∀ ts v r k, pInit f ts = some (some v, r, k) → NoArray (.oc :: ts) → k = 0 ∧ ∃ w, Writes v w ∧ ts = w ++ r
  cls : ∀ b ts m r k, pCls f b ts = some (some m, r, k) → NoArray ts → k = 0 ∧
    ((∃ t, IsEnd t ∧ m = .nil ∧ ts = t ++ [.cc] ++ r) ∨
     ∃ w, Members m w ∧ (ts = w ++ r ∧ b = false ∨ ts = .comma :: (w ++ r)))
  mem : ∀ ts m r k, pMem f ts = some (some m, r, k) → NoArray ts → k = 0 ∧ ∃ w, Members m (.dot :: w) ∧ ts = w ++ r

/-- A value and the rest of the members. -/
theorem exact_more {f : Nat} (ih : Exact f) {n : Nat} {v : Val} {u ts : List Tok} (hv : Value v u) (hn : NoArray ts) {m : Mems}
    {r : List Tok} {k : Nat} (h : (pCls f true ts).map (R.map (.cons n v)) = some (some m, r, k)) :
    k = 0 ∧ ∃ w, Members m (.dot :: w) ∧ .ex (.name n) :: .eq :: (u ++ ts) = w ++ r := by
  cases e : pCls f true ts with
  | none => rw [e] at h; cases h
  | some x =>
    obtain ⟨a, r', k'⟩ := x
    rw [e] at h
    cases a with
    | none => simp [R.map] at h
    | some l =>
      simp only [R.map, Option.map_some, Option.some.injEq, Prod.mk.injEq] at h
      obtain ⟨rfl, rfl, rfl⟩ := h
      obtain ⟨rfl, h⟩ := ih.cls _ _ _ _ _ e hn
      refine ⟨rfl, ?_⟩
      rcases h with ⟨t, ht, rfl, rfl⟩ | ⟨w, hw, ⟨_, hb⟩ | rfl⟩
      · exact ⟨_, .last hv ht, by simp⟩
      · cases hb
      · exact ⟨_, .more hv hw, by simp⟩

theorem exact (f : Nat) : Exact f := by
  induction f with
  | zero => constructor <;> intros <;> simp_all [pInit, pCls, pMem]
  | succ f ih =>
    constructor
    · intro ts v r k h hn
      obtain ⟨l, rfl | rfl⟩ := hn [] ts rfl
      · simp only [pInit] at h
        cases e : pCls f false (.dot :: l) with
        | none => rw [e] at h; cases h
        | some x =>
          obtain ⟨a, r', k'⟩ := x
          rw [e] at h
          cases a with
          | none => simp [R.map] at h
          | some m =>
            simp only [R.map, Option.map_some, Option.some.injEq, Prod.mk.injEq] at h
            obtain ⟨rfl, rfl, rfl⟩ := h
            obtain ⟨rfl, h⟩ := ih.cls _ _ _ _ _ e (hn.tail (suffix_cons' _ _))
            refine ⟨rfl, ?_⟩
            rcases h with ⟨t, ht, rfl, h⟩ | ⟨w, hw, ⟨h, _⟩ | h⟩
            · rcases ht with rfl | rfl <;> simp at h
            · exact ⟨w, .cls hw, h⟩
            · cases h
      · simp only [pInit, Option.some.injEq, Prod.mk.injEq] at h
        obtain ⟨rfl, rfl, rfl⟩ := h
        exact ⟨rfl, _, .empty, rfl⟩
    · intro b ts m r k h hn
      unfold pCls at h
      split at h
      · cases h; exact ⟨rfl, .inl ⟨[], .inl rfl, rfl, rfl⟩⟩
      · obtain ⟨rfl, w, h1, rfl⟩ := ih.mem _ _ _ _ h (hn.tail ((suffix_cons' _ _).trans (suffix_cons' _ _)))
        exact ⟨rfl, .inr ⟨_, h1, .inr rfl⟩⟩
      · cases h; exact ⟨rfl, .inl ⟨[.comma], .inr rfl, rfl, rfl⟩⟩
      · cases h
      · cases b with
        | true => simp at h
        | false =>
          obtain ⟨rfl, w, h1, rfl⟩ := ih.mem _ _ _ _ h (hn.tail (suffix_cons' _ _))
          exact ⟨rfl, .inr ⟨_, h1, .inl ⟨rfl, rfl⟩⟩⟩
      · cases h
    · intro ts m r k h hn
      unfold pMem at h
      split at h
      · rename_i n r0
        cases e : pInit f r0 with
        | none => rw [e] at h; cases h
        | some x =>
          obtain ⟨a, r', k'⟩ := x
          rw [e, Option.bind_some] at h
          cases a with
          | none => simp at h
          | some v =>
            obtain ⟨rfl, w, hw, rfl⟩ := ih.init _ _ _ _ e (hn.tail ((suffix_cons' _ _).trans (suffix_cons' _ _)))
            have := exact_more ih (.list hw) (hn.tail ⟨.ex (.name n) :: .eq :: .oc :: w, by simp⟩) h
            simpa using this
      · rename_i n r0 _
        unfold pAssign at h
        split at h
        · rename_i e' r' h'
          split at h'
          · cases h'
            have := exact_more ih .ex (hn.tail ⟨.ex (.name n) :: .eq :: [.ex e'], by simp⟩) h
            simpa using this
          · cases h'
        · cases h
      · cases h
      · cases h

/-- **C139, in part.** What is read without a report, or with, as a list is written as that list, if there is no list for an array in
it. -/
theorem C139_exactly_partial (ts rest : List Tok) (v : Val) (hn : NoArray (.oc :: ts)) (f : Nat) (hf : 5 * ts.length + 4 ≤ f) :
    (∃ k, pInit f ts = some (some v, rest, k)) ↔ ∃ w, Writes v w ∧ ts = w ++ rest := by
  constructor
  · rintro ⟨k, h⟩
    exact ((exact f).init ts v rest k h hn).2
  · rintro ⟨w, hw, rfl⟩
    refine ⟨0, C139_reads_back v w rest hw f ?_⟩
    simp only [List.length_append] at hf
    omega

/-- The items one after the other with commas between. -/
def commas : Ex → List Ex → List Tok
  | e, [] => [.ex e]
  | e, x :: xs => .ex e :: .comma :: commas x xs

def exItems : List Ex → Items
  | [] => .nil
  | e :: l => .ex e (exItems l)

theorem unclosed_loop (xs : List Ex) (e : Ex) (rest c : List Tok) (b : Bool)
    (hc : (b = false ∧ c = []) ∨ (b = true ∧ c = [.comma])) (f : Nat) (hf : 2 * xs.length + 3 ≤ f) :
    pArr f b (c ++ (commas e xs ++ .semi :: rest)) = some (some (exItems (e :: xs)), .semi :: rest, 0) := by
  induction xs generalizing e c b f with
  | nil =>
    obtain ⟨g, rfl⟩ : ∃ g, f = g + 2 := ⟨f - 2, by omega⟩
    obtain ⟨k, rfl⟩ : ∃ k, g = k + 1 := ⟨g - 1, by simp only [List.length_nil] at hf; omega⟩
    rw [commas, List.cons_append, enter_ex b c _ e hc]
    simp [pArr, R.map, exItems]
  | cons x xs ih =>
    obtain ⟨g, rfl⟩ : ∃ g, f = g + 2 := ⟨f - 2, by omega⟩
    rw [commas, List.cons_append, enter_ex b c _ e hc]
    have := ih x [.comma] true (.inr ⟨rfl, rfl⟩) g (by simp only [List.length_cons] at hf; omega)
    simp only [List.cons_append, List.nil_append] at this ⊢
    rw [this]
    rfl

theorem writes_ends {l : Items} {w : List Tok} (h : Many l w) : .cc ∈ w := by
  cases h with
  | lastEx _ => simp
  | moreEx h => have := writes_ends h; simp [this]
  | lastNone _ => simp
  | moreNone _ => simp
  | lastCls _ _ => simp
  | moreCls _ h => have := writes_ends h; simp [this]

/-- **C139 fails.** The bracket that closes a list for an array may be missing before a semicolon. -/
theorem C139_unclosed_fails (e : Ex) (xs : List Ex) (rest : List Tok) (f : Nat) (hf : 2 * xs.length + 4 ≤ f) :
    pInit f (commas e xs ++ .semi :: rest) = some (some (.arr (exItems (e :: xs))), .semi :: rest, 0) ∧
    ¬ ∃ v w, Writes v w ∧ commas e xs ++ .semi :: rest = w ++ .semi :: rest := by
  constructor
  · obtain ⟨g, rfl⟩ : ∃ g, f = g + 1 := ⟨f - 1, by omega⟩
    have := unclosed_loop xs e rest [] false (.inl ⟨rfl, rfl⟩) g (by omega)
    rw [List.nil_append] at this
    cases xs <;> simp only [commas, List.cons_append, List.nil_append] at this ⊢ <;> simp [pInit, this, R.map]
  · rintro ⟨v, w, hw, h⟩
    have h := List.append_cancel_right h
    subst h
    have no : ∀ (xs : List Ex) (e : Ex), Tok.cc ∉ commas e xs ∧ Tok.dot ∉ commas e xs := by
      intro xs
      induction xs with
      | nil => simp [commas]
      | cons x xs ih => intro e; simpa [commas] using ih x
    cases hw' : commas e xs with
    | nil => cases xs <;> simp [commas] at hw'
    | cons t l =>
      rw [hw'] at hw
      cases hw with
      | empty => exact (no xs e).1 (by rw [hw']; simp)
      | arr h => exact (no xs e).1 (by rw [hw']; exact writes_ends h)
      | cls h =>
        obtain ⟨r, h⟩ := members_head h
        exact (no xs e).2 (by rw [hw', h]; simp)

/-- **C139 fails.** An empty item without a comma behind it is left out without a report: `{ e, {} { .n = x } }`. -/
theorem C139_left_out_fails (e x : Ex) (n : Nat) (rest : List Tok) (f : Nat) (hf : 40 ≤ f) :
    pInit f (.ex e :: .comma :: .oc :: .cc :: .oc :: .dot :: .ex (.name n) :: .eq :: .ex x :: .cc :: .cc :: rest) =
      some (some (.arr (.ex e (.cls (.cons n (.ex x) .nil) .nil))), rest, 0) := by
  obtain ⟨g, rfl⟩ : ∃ g, f = g + 40 := ⟨f - 40, by omega⟩
  rfl

/-- **C139 fails.** Commas before the first item and several between items are accepted, and none is needed before a bracket; a
bracket before an expression is skipped: `{ , e,, x }`, `{ e { .n = x } }`, `{ e, { x }`. -/
theorem C139_commas_fails (e x : Ex) (n : Nat) (rest : List Tok) (f : Nat) (hf : 40 ≤ f) :
    pInit f (.comma :: .ex e :: .comma :: .comma :: .ex x :: .cc :: rest) = some (some (.arr (.ex e (.ex x .nil))), rest, 0) ∧
    pInit f (.ex e :: .oc :: .dot :: .ex (.name n) :: .eq :: .ex x :: .cc :: .cc :: rest) =
      some (some (.arr (.ex e (.cls (.cons n (.ex x) .nil) .nil))), rest, 0) ∧
    pInit f (.ex e :: .comma :: .oc :: .ex x :: .cc :: rest) = some (some (.arr (.ex e (.ex x .nil))), rest, 0) := by
  obtain ⟨g, rfl⟩ : ∃ g, f = g + 40 := ⟨f - 40, by omega⟩
  exact ⟨rfl, rfl, rfl⟩

/-- Nothing is dropped without an error, with the fuel given. -/
structure Rep (f : Nat) : Prop where
  init : ∀ ts r k, pInit f ts = some (none, r, k) → 0 < k
  arr : ∀ b ts r k, pArr f b ts = some (none, r, k) → 0 < k
  item : ∀ b c ts r k, pItem f b c ts = some (none, r, k) → 0 < k
  missing : ∀ b j ts r k, pMissing f b j ts = some (none, r, k) → 0 < k
  cls : ∀ b ts r k, pCls f b ts = some (none, r, k) → 0 < k
  mem : ∀ ts r k, pMem f ts = some (none, r, k) → 0 < k

theorem rep_map {α β : Type} {x : Option (R α)} {g : α → β} {j : Nat} (h : ∀ r k, x = some (none, r, k) → 0 < k) {r k}
    (e : x.map (fun y => (R.map g y).add j) = some (none, r, k)) : 0 < k := by
  match x, e with
  | some (none, r', k'), e =>
    have := h r' k' rfl
    simp [R.map, R.add] at e
    omega
  | some (some a, r', k'), e => simp [R.map, R.add] at e

theorem rep_map0 {α β : Type} {x : Option (R α)} {g : α → β} (h : ∀ r k, x = some (none, r, k) → 0 < k) {r k}
    (e : x.map (R.map g) = some (none, r, k)) : 0 < k :=
  rep_map (x := x) (g := g) (j := 0) (r := r) h e

theorem rep : ∀ f, Rep f
  | 0 => ⟨by simp [pInit], by simp [pArr], by simp [pItem], by simp [pMissing], by simp [pCls], by simp [pMem]⟩
  | f + 1 => by
    have ih := rep f
    refine ⟨?_, ?_, ?_, ?_, ?_, ?_⟩
    · intro ts r k h
      unfold pInit at h
      split at h
      · exact rep_map0 (ih.cls _ _) h
      · simp at h
      · exact rep_map0 (ih.arr _ _) h
    · intro b ts r k h
      unfold pArr at h
      split at h
      · simp at h
      · simp at h
      · exact ih.item _ _ _ _ _ h
      · exact ih.item _ _ _ _ _ h
      · simp at h; omega
      · split at h
        · simp at h; omega
        · exact ih.item _ _ _ _ _ h
    · intro b c ts r k h
      unfold pItem at h
      split at h
      · cases hx : pCls f false _ with
        | none => rw [hx] at h; simp at h
        | some x =>
          rw [hx] at h
          simp only [Option.bind_some] at h
          split at h
          · exact rep_map (ih.arr _ _) h
          · exact ih.missing _ _ _ _ _ h
      · split at h
        · exact ih.missing _ _ _ _ _ h
        · split at h
          · exact rep_map0 (ih.arr _ _) h
          · exact rep_map0 (ih.arr _ _) h
          · exact ih.missing _ _ _ _ _ h
      · split at h
        · exact rep_map0 (ih.arr _ _) h
        · exact ih.missing _ _ _ _ _ h
    · intro b j ts r k h
      unfold pMissing at h
      split at h
      · exact rep_map (g := fun y => y) (j := j) (ih.arr _ _) (by simpa [R.map] using h)
      · simp at h; omega
    · intro b ts r k h
      unfold pCls at h
      split at h
      · simp at h
      · exact ih.mem _ _ _ h
      · simp at h
      · simp at h; omega
      · split at h
        · simp at h; omega
        · exact ih.mem _ _ _ h
      · simp at h; omega
    · intro ts r k h
      unfold pMem at h
      split at h
      · cases hx : pInit f _ with
        | none => rw [hx] at h; simp at h
        | some x =>
          rw [hx] at h
          simp only [Option.bind_some] at h
          split at h
          · exact rep_map (ih.cls _ _) h
          · simp at h; omega
      · split at h
        · exact rep_map0 (ih.cls _ _) h
        · simp at h; omega
      · simp at h; omega
      · simp at h; omega

/-- **C139.** A list that is not taken is reported where it goes wrong, before the variable is said to have no value. -/
theorem C139_reported (ts r : List Tok) (k f : Nat) (h : pInit f ts = some (none, r, k)) : 0 < k := (rep f).init ts r k h

/-- `{ , ;` and `{ .a 1 }`. -/
example : pInit 40 [.comma, .semi] = some (none, [.semi], 1) := rfl
example : pInit 40 [.dot, .ex (.name 1), .ex (.other 2), .cc] = some (none, [.ex (.other 2), .cc], 1) := rfl

/-! Cases -/

/-- `{ {}, { .a = 1, .b = { 2, 3, }, }, };` with `a`, `b` the names 0 and 1. -/
def sample : List Tok := [.oc, .cc, .comma, .oc, .dot, .ex (.name 0), .eq, .ex (.other 1), .comma, .dot, .ex (.name 1), .eq, .oc,
  .ex (.other 2), .comma, .ex (.other 3), .comma, .cc, .comma, .cc, .comma, .cc]

theorem sample_writes : Writes (.arr (.cls .nil (.cls (.cons 0 (.ex (.other 1)) (.cons 1 (.arr (.ex (.other 2) (.ex (.other 3) .nil)))
    .nil)) .nil))) sample :=
  .arr (.moreNone (.lastCls (v := [.dot, .ex (.name 0), .eq, .ex (.other 1), .comma, .dot, .ex (.name 1), .eq, .oc,
    .ex (.other 2), .comma, .ex (.other 3), .comma, .cc, .comma, .cc]) (t := [.comma])
    (.more (u := [.ex (.other 1)]) .ex (.last (u := [.oc, .ex (.other 2), .comma, .ex (.other 3), .comma, .cc]) (t := [.comma])
      (.list (.arr (.moreEx (.lastEx (t := [.comma]) (.inr rfl))))) (.inr rfl))) (.inr rfl)))

example : pInit 200 (sample ++ [.semi]) = some (some (.arr (.cls .nil (.cls (.cons 0 (.ex (.other 1)) (.cons 1
    (.arr (.ex (.other 2) (.ex (.other 3) .nil))) .nil)) .nil))), [.semi], 0) :=
  C139_reads_back _ _ _ sample_writes _ (by decide)

/-- `{ .a = 1, 2 }` is reported, `{ .a = { .b = 1 } }` has no array in it. -/
example : pInit 50 [.dot, .ex (.name 0), .eq, .ex (.other 1), .comma, .ex (.other 2), .cc] = some (none, [.ex (.other 2), .cc], 1) := rfl

example : NoArray [.oc, .dot, .ex (.name 0), .eq, .oc, .dot, .ex (.name 1), .eq, .ex (.other 1), .cc, .cc] := by
  intro a b h
  rcases a with _ | ⟨_, _ | ⟨_, _ | ⟨_, _ | ⟨_, _ | ⟨_, _ | ⟨_, _ | ⟨_, _ | ⟨_, _ | ⟨_, _ | ⟨_, _ | ⟨_, a⟩⟩⟩⟩⟩⟩⟩⟩⟩⟩⟩ <;> simp at h <;>
    first | exact ⟨_, .inl h.symm⟩ | exact ⟨_, .inl h.2.2.2.2.symm⟩

end Ulam.InitParse
