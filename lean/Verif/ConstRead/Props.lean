import Verif.ConstRead.Model
import Verif.Select.Props
/-! # C121, C122: reading constants in the generated code -/
namespace Ulam.ConstRead
open Ulam.Select

/-! ### C121: positions -/

/-- One member selected from the constant, declared in the constant's own class or in a base at its beginning. -/
def Direct (e : Expr) : Prop := ∃ v element m, e = .data (.named v) element m ∧ m.rel = some 0

/-- **C121.** The constant as a whole is read as a whole. -/
theorem C121_whole (c : List Bool) (v : Option (List Bool)) : ∃ k, genRead (.named v) = some k ∧ run c k = c := ⟨.whole, rfl, rfl⟩

/-- **C121 (partial: for one selection of a member that is not inherited, or from a base at the beginning).** The code that reads a member
of a constant reads the bits it takes up in the constant. -/
theorem C121_read_partial (c : List Bool) (e : Expr) (q n : Nat) (h : Lies c e q n) (hd : Direct e) :
    ∃ k, genRead e = some k ∧ run c k = (c.drop q).take n := by
  obtain ⟨v, element, m, rfl, hr⟩ := hd
  cases h with
  | data hl hp hr' _ =>
    rw [hr] at hr'
    cases hr'
    cases hl
    simp only [genRead, hp, rootElement]
    refine ⟨_, rfl, ?_⟩
    cases element <;> simp [run]

/-- **C121 (partial: likewise).** The code that reads an item of an array that is a member reads the bits of that item. -/
theorem C121_item_partial (c : List Bool) (e : Expr) (q n i w count : Nat) (h : Lies c e q n) (hd : Direct e) (hn : n = count * w)
    (hi : i < count) : ∃ k, genItem i w e = some k ∧ run c k = (((c.drop q).take n).drop (i * w)).take w := by
  obtain ⟨v, element, m, rfl, hr⟩ := hd
  have hle : i * w + w ≤ n := by
    rw [hn, ← Nat.succ_mul]
    exact Nat.mul_le_mul_right _ hi
  rw [take_drop_take_drop _ _ _ _ _ hle]
  cases h with
  | data hl hp hr' _ =>
    rw [hr] at hr'
    cases hr'
    cases hl
    simp only [genItem, hp, rootElement]
    refine ⟨_, rfl, ?_⟩
    cases element <;> simp [run]
    congr 2
    omega

/-- **C121.** The code that reads an item of a constant array reads the bits of that item. -/
theorem C121_array (c : List Bool) (v : Option (List Bool)) (i w count : Nat) (hc : c.length = count * w) (hi : i < count) :
    ∃ k, genItem i w (.named v) = some k ∧ run c k = (c.drop (i * w)).take w ∧ (run c k).length = w := by
  refine ⟨.item i w, rfl, rfl, ?_⟩
  have : i * w + w ≤ count * w := by
    rw [← Nat.succ_mul]
    exact Nat.mul_le_mul_right _ hi
  simp only [run, List.length_take, List.length_drop]
  omega

/-- **C121 (finding).** In general, the position of the member in the class that declares it is all that counts, whatever it is selected
from, but for the 25 bits of the type if the constant is an element: so it is the member's only if what is left out adds up to nothing. -/
theorem C121_chain_fails (c : List Bool) (l : Expr) (element : Bool) (m : Mem) (q n a p r : Nat) (h : Lies c (.data l element m) q n)
    (ha : position l = some a) (hp : m.pos = some p) (hr : m.rel = some r) :
    ∃ x, genRead (.data l element m) = some (.ref x n) ∧ x = p + (if rootElement (.data l element m) then 25 else 0) ∧
      (x = q ↔ a + r + (if element then 25 else 0) = if rootElement (.data l element m) then 25 else 0) := by
  cases h with
  | data hl hp' hr' _ =>
    rw [hp] at hp'; cases hp'
    rw [hr] at hr'; cases hr'
    rw [C120_position _ _ _ _ hl] at ha
    cases ha
    simp only [genRead, hp]
    refine ⟨_, rfl, ?_, ?_⟩
    · split <;> rfl
    · split <;> omega

/-- `transient T { Bool s; Q q; }`, `quark Q { Bool a; Bool b; }`, in a function `constant T t = { .q = { .b = true } };`: the bits are 001; the code for
`t.q.b` reads the second of them. -/
example : Lies [false, false, true] (.data (.data (.named (some [false, false, true])) false ⟨some 1, some 0, 2⟩) false ⟨some 1, some 0, 1⟩)
      (0 + (1 + 0 + 0) + (1 + 0 + 0)) 1 ∧
    genRead (.data (.data (.named (some [false, false, true])) false ⟨some 1, some 0, 2⟩) false ⟨some 1, some 0, 1⟩) = some (.ref 1 1) ∧
    run [false, false, true] (.ref 1 1) = [false] ∧
    Direct (.data (.named (some [false, false, true])) false ⟨some 1, some 0, 2⟩) ∧
    genItem 1 1 (.data (.named (some [false, false, true])) false ⟨some 1, some 0, 2⟩) = some (.ref 2 1) :=
  ⟨.data (.data .named rfl rfl (by decide)) rfl rfl (by decide), rfl, rfl, ⟨_, _, _, rfl, rfl⟩, rfl⟩

/-! ### C122: names -/

/-- A C++ declaration of a constant: a static member of the class generated for a class, or for a file; or a variable of the function. -/
inductive Decl
  | static (cls id : Nat)
  | fileStatic (file id : Nat)
  | var (id : Nat)
  deriving DecidableEq

/-- The rules of C++: a qualified name is a static member of the class named; one that is not qualified is the variable of the function, if
one of that name is in scope, and otherwise the static member of the class compiled. -/
def denotes (here : Nat) (vars : List Nat) (q : Qual) (id : Nat) : Decl :=
  match q with
  | .cls c => .static c id
  | .file f => .fileStatic f id
  | .none => if id ∈ vars then .var id else .static here id

/-- Where `NodeConstantDef::genCode` declares a constant. The argument of a stub is that of the one instance of the same name among the
ancestors of the class it is selected from. -/
inductive Declared (E : Env) (from_ : Nat) (k : Const) : Decl → Prop
  | member {c : Nat} : k.home = .member c → Declared E from_ k (.static c k.id)
  | file {f : Nat} : k.home = .file f → Declared E from_ k (.fileStatic f k.id)
  | arg {c : Nat} : k.home = .arg c false → Declared E from_ k (.static c k.id)
  | stub {c b : Nat} : k.home = .arg c true → b ∈ E.bases from_ → E.name b = E.name c →
      (∀ b' ∈ E.bases from_, E.name b' = E.name c → b' = b) → (E.bases from_).count b = 1 → Declared E from_ k (.static b k.id)
  | function : k.home = .function → Declared E from_ k (.var k.id)

theorem ancestors_aux (E : Env) (n : Nat) : ∀ (bs : List Nat) (a : Nat × Option Nat),
    (bs.foldl (fun a b => if E.name b = n then (a.1 + 1, some b) else a) a) =
      (a.1 + (bs.filter fun b => E.name b = n).length, ((bs.filter fun b => E.name b = n).getLast?).or a.2)
  | [], a => by simp
  | b :: bs, a => by
    rw [List.foldl_cons, ancestors_aux E n bs]
    by_cases h : E.name b = n
    · rw [if_pos h, List.filter_cons_of_pos (by simpa using h)]
      refine Prod.ext (by simp; omega) ?_
      dsimp only
      rw [List.getLast?_cons]
      cases (bs.filter fun b => E.name b = n).getLast? <;> rfl
    · rw [if_neg h, List.filter_cons_of_neg (by simpa using h)]

/-- Only one ancestor bears the name. -/
theorem ancestors_one {E : Env} {c n b : Nat} (h1 : b ∈ E.bases c) (h2 : E.name b = n) (h3 : ∀ b' ∈ E.bases c, E.name b' = n → b' = b)
    (h4 : (E.bases c).count b = 1) : ancestors E c n = (1, some b) := by
  have hf : (E.bases c).filter (fun b => E.name b = n) = [b] := by
    have e : (E.bases c).filter (fun b => E.name b = n) = (E.bases c).filter (fun x => x == b) := by
      refine List.filter_congr fun x hx => ?_
      by_cases q : x = b
      · subst q; simp [h2]
      · have : E.name x ≠ n := fun w => q (h3 x hx w)
        simp [q, this]
    rw [e, List.filter_beq, h4]; rfl
  unfold ancestors
  rw [ancestors_aux, hf]
  rfl

/-- **C122 (partial: a constant of the class compiled is not hidden by one of a function).** The name written for a constant denotes it: for
one in a class, in a file, or an argument, its static member; for one of a function, the variable. -/
theorem C122_name_partial (E : Env) (here : Nat) (vars : List Nat) (left : Option Nat) (own : Nat) (k : Const) (d : Decl)
    (hd : Declared E (left.getD own) k d) (hf : k.home = .function → k.id ∈ vars ∧ left = none)
    (hv : k.home = .member here → k.id ∉ vars) : ∃ q, qualifier E here left own k = some q ∧ denotes here vars q k.id = d := by
  unfold qualifier
  cases hd with
  | @member c h =>
    rw [h]
    dsimp only
    by_cases e : c = here
    · subst e
      rw [if_pos rfl]
      exact ⟨_, rfl, if_neg (hv h)⟩
    · rw [if_neg e]
      exact ⟨_, rfl, rfl⟩
  | file h => rw [h]; exact ⟨_, rfl, rfl⟩
  | arg h => rw [h]; exact ⟨_, rfl, rfl⟩
  | stub h h1 h2 h3 h4 =>
    rw [h]
    dsimp only
    rw [if_pos rfl, ancestors_one h1 h2 h3 h4]
    exact ⟨_, rfl, rfl⟩
  | function h =>
    rw [h, (hf h).2]
    exact ⟨_, rfl, if_pos (hf h).1⟩

/-- **C122 (finding).** A constant of the class compiled, such as `self.k`, is written without qualification: where a constant of the function
bears the same name, it is that one that is read. -/
theorem C122_hidden_fails (E : Env) (here : Nat) (vars : List Nat) (left : Option Nat) (own : Nat) (k : Const) (hk : k.home = .member here)
    (hv : k.id ∈ vars) : ∃ q, qualifier E here left own k = some q ∧ denotes here vars q k.id = .var k.id ∧
      ¬ Declared E (left.getD own) k (denotes here vars q k.id) := by
  have hq : qualifier E here left own k = some .none := by unfold qualifier; rw [hk]; exact if_pos rfl
  have hd : denotes here vars .none k.id = .var k.id := if_pos hv
  refine ⟨_, hq, hd, fun h => ?_⟩
  rw [hd] at h
  cases h with
  | function h => rw [hk] at h; cases h

/-- **C122.** The compiler aborts only for an argument of a stub, if not exactly one ancestor bears its name. -/
theorem C122_abort (E : Env) (here : Nat) (left : Option Nat) (own : Nat) (k : Const) (h : qualifier E here left own k = none) :
    ∃ c, k.home = .arg c true ∧ ((E.bases (left.getD own)).filter fun b => E.name b = E.name c).length ≠ 1 := by
  unfold qualifier at h
  split at h
  · split at h <;> cases h
  · cases h
  · rename_i c stub hk
    split at h
    · rename_i hs
      subst hs
      refine ⟨c, hk, fun hl => ?_⟩
      obtain ⟨b, hb⟩ := List.length_eq_one_iff.1 hl
      unfold ancestors at h
      rw [ancestors_aux, hb] at h
      cases h
    · cases h
  · split at h <;> cases h

/-- Class 5 is compiled; 6 has the ancestors 7 and 8, named 70 and 80. -/
def demo : Env := ⟨fun n => n * 10, fun n => if n = 6 then [7, 8] else []⟩

example : qualifier demo 5 none 0 ⟨3, .member 5⟩ = some .none ∧ qualifier demo 5 none 0 ⟨3, .member 6⟩ = some (.cls 6) ∧
    qualifier demo 5 (some 6) 0 ⟨3, .arg 8 true⟩ = some (.cls 8) ∧ qualifier demo 5 (some 6) 0 ⟨3, .arg 9 true⟩ = none ∧
    denotes 5 [3] .none 3 = .var 3 ∧ denotes 5 [] .none 3 = .static 5 3 := by decide

example : Declared demo 6 ⟨3, .arg 8 true⟩ (.static 8 3) :=
  .stub rfl (by decide) rfl (by decide) (by decide)

end Ulam.ConstRead
