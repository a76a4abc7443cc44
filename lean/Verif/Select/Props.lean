import Verif.Select.Model
import Mathlib.Tactic.SplitIfs
/-! # C119, C120: selecting members -/
namespace Ulam.Select

/-! ### C119: labelling -/

theorem finish_frame (x : Node) (e w : Nat) (flag f : Bool) (stack : List Nat) :
    (finish x e w flag f stack).flag = flag ∧ (finish x e w flag f stack).stack = stack ∧
    (finish x e w flag f stack).asked = some (f, x.cls :: stack) := by
  unfold finish
  split_ifs <;> exact ⟨rfl, rfl, rfl⟩

/-- **C119.** Whatever comes of it, constants are asked for afterwards as before, and names are looked up as before. -/
theorem C119_restored (x : Node) (flag : Bool) (stack : List Nat) (o : Out) (h : label x flag stack = some o) :
    o.flag = flag ∧ o.stack = stack := by
  unfold label at h
  split_ifs at h
  all_goals first
    | (cases h; exact ⟨rfl, rfl⟩)
    | cases h
    | skip
  split at h
  · cases h
  · cases h
    exact ⟨(finish_frame ..).1, (finish_frame ..).2.1⟩

/-- The left side is a single complete class that is ready. -/
structure Fine (x : Node) : Prop where
  type : x.left.type.good = true
  complete : x.complete = true
  cls : x.isClass = true
  scalar : x.scalar = true
  defined : x.defined = true
  block : x.block.good = true

/-- The first part: either the right side is reached, or there is an end before. -/
theorem label_cases (x : Node) (flag : Bool) (stack : List Nat) (o : Out) (h : label x flag stack = some o) :
    (Fine x ∧ (x.call = false → x.byId = false) ∧ ∃ f, rightFlag x flag = some f ∧
      o = finish x (storeMsgs x).1 (storeMsgs x).2 flag f stack) ∨
    (o.asked = none ∧ o.store = none ∧ ((o.type = .nav ∧ (o.errs > 0 ∨ x.was = .nav)) ∨ (o.type = .hzy ∧ o.again = true))) := by
  unfold label at h
  split at h
  · right
    split_ifs at h <;> cases h
    · exact ⟨rfl, rfl, Or.inl ⟨rfl, Or.inl (by simp [done])⟩⟩
    · exact ⟨rfl, rfl, Or.inl ⟨rfl, Or.inr ‹_›⟩⟩
    · exact ⟨rfl, rfl, Or.inr ⟨rfl, by simp [done]⟩⟩
  rename_i h1
  split at h
  · right
    cases h
    exact ⟨rfl, rfl, Or.inl ⟨rfl, Or.inl (by simp [done])⟩⟩
  rename_i h2
  split at h
  · right
    cases h
    exact ⟨rfl, rfl, Or.inl ⟨rfl, Or.inl (by simp [done]; omega)⟩⟩
  rename_i h3
  split at h
  · right
    cases h
    exact ⟨rfl, rfl, Or.inl ⟨rfl, Or.inl (by simp [done]; omega)⟩⟩
  rename_i h4
  split at h
  · right
    split at h
    · cases h
    · cases h
      exact ⟨rfl, rfl, Or.inr ⟨rfl, by simp [done]⟩⟩
  rename_i h5
  split at h
  · cases h
  rename_i f hf
  cases h
  left
  simp at h1 h2 h3 h4 h5
  exact ⟨⟨h1.1, h1.2, h3.1, h3.2, h4, h5⟩, fun q => h2 q, f, hf, rfl⟩

/-- **C119.** A selection gets a type only if its left side is a single complete class; the type is that of the right side, labelled with names
looked up in that class first, and constants asked for as before but not if the left side is a constant. A member is not selected by class
id unless it is a virtual function. It can be stored into, and referred to, if both sides can. -/
theorem C119_accepted (x : Node) (flag : Bool) (stack : List Nat) (o : Out) (h : label x flag stack = some o) (hg : o.type.good = true) :
    Fine x ∧ x.leftConst ≠ .hazy ∧ (x.byId = true → x.call = true ∧ x.virtual = true) ∧
    o.asked = some (flag && decide (x.leftConst ≠ .yes), x.cls :: stack) ∧
    o.type = (x.right (flag && decide (x.leftConst ≠ .yes)) (x.cls :: stack)).type ∧
    ∃ s r, o.store = some (s, r) ∧ (s = .yes ↔ x.leftStore = .yes ∧ x.rightStore = .yes) ∧
      (r = .yes ↔ x.leftRefer = .yes ∧ x.rightRefer = .yes) ∧ (s = .no ↔ x.leftStore = .no ∨ x.rightStore = .no) ∧
      (r = .no ↔ x.leftRefer = .no ∨ x.rightRefer = .no) := by
  have mt : ∀ a b, (minTri a b = .yes ↔ a = .yes ∧ b = .yes) ∧ (minTri a b = .no ↔ a = .no ∨ b = .no) := by
    intro a b; cases a <;> cases b <;> simp [minTri]
  rcases label_cases x flag stack o h with ⟨F, hb, f, hf, rfl⟩ | ⟨_, _, q | q⟩
  · have hff : f = (flag && decide (x.leftConst ≠ .yes)) ∧ x.leftConst ≠ .hazy := by
      unfold rightFlag at hf
      cases hc : x.leftConst <;> rw [hc] at hf <;> simp at hf <;> subst hf <;> simp
    obtain ⟨rfl, hz⟩ := hff
    refine ⟨F, hz, ?_⟩
    rw [(finish_frame ..).2.2]
    unfold finish at hg ⊢
    split at hg
    · rename_i hr
      split at hg
      · cases hg
      · rename_i hv
        rw [if_pos hr, if_neg hv]
        refine ⟨fun q => ?_, rfl, rfl, _, _, rfl, (mt _ _).1, (mt _ _).1, (mt _ _).2, (mt _ _).2⟩
        simp at hv
        cases hc : x.call with
        | false => rw [hb hc] at q; cases q
        | true => exact ⟨rfl, hv hc q⟩
    · rename_i hr
      exact absurd hg hr
  · rw [q.1] at hg; cases hg
  · rw [q.1] at hg; cases hg

/-- **C119.** One that is refused was reported, now or before; one that is waited for gets another round: provided that holds of the
right side. -/
theorem C119_reported (x : Node) (flag : Bool) (stack : List Nat) (o : Out) (h : label x flag stack = some o)
    (h1 : ∀ f s, (x.right f s).type = .nav → (x.right f s).errs > 0) (h2 : ∀ f s, (x.right f s).type = .hzy → (x.right f s).again = true) :
    (o.type = .nav → o.errs > 0 ∨ x.was = .nav) ∧ (o.type = .hzy → o.again = true) := by
  rcases label_cases x flag stack o h with ⟨F, hb, f, hf, rfl⟩ | ⟨_, _, q | q⟩
  · unfold finish
    split
    · split
      · exact ⟨fun _ => Or.inl (by dsimp only; omega), fun q => by cases q⟩
      · rename_i hr _
        refine ⟨fun q => ?_, fun q => ?_⟩ <;> (dsimp only at q; rw [q] at hr; cases hr)
    · refine ⟨fun q => Or.inl ?_, fun q => ?_⟩
      · have := h1 _ _ q
        dsimp only; omega
      · have := h2 _ _ q
        dsimp only; rw [this, Bool.or_true]
  · exact ⟨fun _ => q.2, fun e => by rw [q.1] at e; cases e⟩
  · exact ⟨fun e => (by rw [q.1] at e; cases e), fun _ => q.2⟩

/-- **C119 (partial: unless it is hazy whether the left side can be stored into).** A function is called only on a left side that can be
stored into, or there is an error. -/
theorem C119_modifiable_partial (x : Node) (flag : Bool) (stack : List Nat) (o : Out) (h : label x flag stack = some o)
    (hg : o.type.good = true) (hc : x.call = true) (hz : x.leftStore ≠ .hazy) : x.leftStore = .yes ∨ o.errs > 0 := by
  rcases label_cases x flag stack o h with ⟨F, hb, f, hf, rfl⟩ | ⟨_, _, q | q⟩
  · cases hs : x.leftStore with
    | yes => exact Or.inl rfl
    | hazy => exact absurd hs hz
    | no =>
      right
      have : (storeMsgs x).1 = 1 := by simp [storeMsgs, hc, hs]
      unfold finish
      split_ifs <;> (dsimp only; omega)
  · rw [q.1] at hg; cases hg
  · rw [q.1] at hg; cases hg

/-- **C119 (finding).** If that is hazy there is a message to wait, but the call gets its type all the same, and another round is asked for
only if one of its sides does. -/
theorem C119_hazy_fails (x : Node) (flag : Bool) (stack : List Nat) (o : Out) (h : label x flag stack = some o)
    (hg : o.type.good = true) (hc : x.call = true) (hz : x.leftStore = .hazy) :
    ∃ f s, o.type = (x.right f s).type ∧ o.waits = x.left.waits + 1 + (x.right f s).waits ∧ o.errs = x.left.errs + (x.right f s).errs ∧
      o.again = (x.left.again || (x.right f s).again) := by
  rcases label_cases x flag stack o h with ⟨F, hb, f, hf, rfl⟩ | ⟨_, _, q | q⟩
  · refine ⟨f, x.cls :: stack, ?_⟩
    have : storeMsgs x = (0, 1) := by simp [storeMsgs, hc, hz]
    rw [this] at hg ⊢
    unfold finish at hg ⊢
    split_ifs with a b
    · rw [if_pos a, if_pos b] at hg; cases hg
    · exact ⟨rfl, rfl, by simp, rfl⟩
    · exact ⟨rfl, rfl, by simp, rfl⟩
  · rw [q.1] at hg; cases hg
  · rw [q.1] at hg; cases hg

/-- A call of a function of class 3 on a variable. -/
def demo : Node :=
  { was := .nouti, left := { type := .ty 3 }, complete := true, leftStore := .yes, leftRefer := .yes, byId := false, isClass := true
    scalar := true, defined := true, block := .ty 3, leftConst := .no, cls := 3, call := true, virtual := false, rightStore := .no
    rightRefer := .no, right := fun f s => if s = [3, 7] then { type := .ty (if f then 11 else 12) } else { type := .nav, errs := 1 } }

example : label demo true [7] = some ⟨.ty 11, 0, 0, false, true, [7], some (.no, .no), some (true, [3, 7])⟩ ∧
    label { demo with leftConst := .yes } true [7] = some ⟨.ty 12, 0, 0, false, true, [7], some (.no, .no), some (false, [3, 7])⟩ ∧
    label { demo with byId := true } true [7] = some ⟨.nav, 1, 0, false, true, [7], some (.no, .no), some (true, [3, 7])⟩ ∧
    label { demo with leftStore := .hazy } true [7] = some ⟨.ty 11, 0, 1, false, true, [7], some (.no, .no), some (true, [3, 7])⟩ ∧
    label { demo with scalar := false } true [7] = some ⟨.nav, 1, 0, false, true, [7], none, none⟩ := by
  refine ⟨rfl, rfl, rfl, rfl, rfl⟩

/-- **C119.** A variable counts as used before its declaration if it is on the left, or on the right where it is known whether the left
side is constant; as not so used if on neither; and constants are asked for afterwards as before. -/
theorem C119_used_before (left leftConst : Tri) (right : Bool → Tri) (flag : Bool) :
    ((usedBefore left leftConst right flag).1 = .yes ↔
      left = .yes ∨ (leftConst ≠ .hazy ∧ right (flag && decide (leftConst ≠ .yes)) = .yes)) ∧
    ((usedBefore left leftConst right flag).1 = .no ↔
      left = .no ∧ leftConst ≠ .hazy ∧ right (flag && decide (leftConst ≠ .yes)) = .no) ∧
    (usedBefore left leftConst right flag).2 = flag := by
  unfold usedBefore
  cases left <;> cases leftConst <;> simp <;> split_ifs <;> simp_all

example : usedBefore .no .yes (fun f => if f then .yes else .no) true = (.no, true) := rfl

/-! ### C120: values -/

/-- `e` selects data members one out of the other, the first out of the constant whose bits are `c`, each lying within the bits of its left
side; it has `n` bits and starts at bit `q` of `c`. A member lies at its position in the class that declares it, after the bits
before this class in the left class, and after the 25 bits of the type in an element. -/
inductive Lies (c : List Bool) : Expr → Nat → Nat → Prop
  | named : Lies c (.named (some c)) 0 c.length
  | data {l : Expr} {q n : Nat} {element : Bool} {m : Mem} {p r : Nat} : Lies c l q n → m.pos = some p → m.rel = some r →
      p + r + (if element then 25 else 0) + m.len ≤ n → Lies c (.data l element m) (q + (p + r + if element then 25 else 0)) m.len

/-- All members are declared in the classes they are selected from, or in bases at their beginning. -/
def Own : Expr → Prop
  | .named _ => True
  | .const _ _ => True
  | .data l _ m => Own l ∧ m.rel = some 0

theorem lies_le {c : List Bool} {e : Expr} {q n : Nat} (h : Lies c e q n) : q + n ≤ c.length := by
  induction h with
  | named => omega
  | data _ _ _ hle ih => omega

/-- **C120.** The position given for it is where it starts, inherited or not. -/
theorem C120_position (c : List Bool) (e : Expr) (q n : Nat) (h : Lies c e q n) : position e = some q := by
  induction h with
  | named => rfl
  | data hl hp hr _ ih =>
    unfold position
    rw [ih]
    dsimp only
    unfold identPos
    rw [hp, hr]
    dsimp only
    split_ifs <;> rfl

theorem take_drop_take_drop (c : List Bool) (q n a b : Nat) (h : a + b ≤ n) :
    ((((c.drop q).take n).drop a).take b) = (c.drop (q + a)).take b := by
  rw [List.drop_take, List.take_take, List.drop_drop, Nat.min_eq_left (by omega)]

theorem value_at {c : List Bool} {l : Expr} {q n : Nat} {element : Bool} {m : Mem} {p : Nat}
    (hv : value l = some ((c.drop q).take n)) (hp : m.pos = some p) (h : p + (if element then 25 else 0) + m.len ≤ n) :
    value (.data l element m) = some ((c.drop (q + (p + if element then 25 else 0))).take m.len) := by
  unfold value
  rw [hp, hv]
  dsimp only
  have : (if element then p + 25 else p) = p + if element then 25 else 0 := by split <;> rfl
  rw [this, take_drop_take_drop _ _ _ _ _ h]

/-- **C120 (partial: for members that are not inherited, or from a base at the beginning).** The value of a data member of a constant is
the bits it takes up in the constant. -/
theorem C120_value_partial (c : List Bool) (e : Expr) (q n : Nat) (h : Lies c e q n) (ho : Own e) :
    value e = some ((c.drop q).take n) := by
  induction h with
  | named => simp [value]
  | data hl hp hr hle ih =>
    obtain ⟨o1, o2⟩ := ho
    rw [hr] at o2
    cases o2
    rw [value_at (ih o1) hp (by omega)]
    simp

/-- **C120 (finding).** The value given for a data member (an array or a class; single numbers are evaluated) inherited from a base that starts at bit `r` of the class is not the bits it takes up
but those `r` bits before. -/
theorem C120_inherited_fails (c : List Bool) (l : Expr) (q n : Nat) (element : Bool) (m : Mem) (h : Lies c (.data l element m) q n)
    (ho : Own l) (r : Nat) (hr : m.rel = some r) :
    position (.data l element m) = some q ∧ value (.data l element m) = some ((c.drop (q - r)).take n) := by
  refine ⟨C120_position _ _ _ _ h, ?_⟩
  cases h with
  | data hl hp hr' hle =>
    rw [hr] at hr'
    cases hr'
    rw [value_at (C120_value_partial _ _ _ _ hl ho) hp (by omega)]
    congr 3
    omega

/-- `transient D : B { Bits(2) a = 3; }`, `transient B { Bool b[2]; }`: the bits of a constant `D` are 1100; `b` lies at bit 2, as the
members of a class come before its bases, and its value is said to be 11. -/
example : Lies [true, true, false, false] (.data (.named (some [true, true, false, false])) false ⟨some 0, some 2, 2⟩) (0 + (0 + 2 + 0)) 2 ∧
    position (.data (.named (some [true, true, false, false])) false ⟨some 0, some 2, 2⟩) = some 2 ∧
    value (.data (.named (some [true, true, false, false])) false ⟨some 0, some 2, 2⟩) = some [true, true] :=
  ⟨.data .named rfl rfl (by decide), by decide, by decide⟩

end Ulam.Select
