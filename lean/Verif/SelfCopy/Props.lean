import Verif.SelfCopy.Model
import Verif.SelfCopy.Spec
import Verif.BaseCopy.Props
namespace Ulam.SelfCopy
open Ulam.BaseCopy

theorem ownPos_eq {C : Cls} {r : Ref} {start n : Nat} (hp : Placed C r start n)
    (ha : AtOwn C r) : ownPos C r = r.pos := by
  have h1 := hp.own
  have h2 := hp.small
  have h3 := hp.pos
  unfold ownPos AtOwn at *
  rw [ha]
  have : (r.postoeff + 2 ^ 32 - r.postoeff) % 2 ^ 32 = 0 := by
    rw [Nat.add_sub_cancel_left]
  rw [this, Nat.add_zero]
  exact Nat.mod_eq_of_lt (by omega)

/-! ## C130: the assignment to self -/

/-- For quarks and transients `self = v` does what the assignment through a
reference to the class does (that of a quark, which keeps all bits, C124). -/
theorem C130_as_reference (k : Sort') (C : Cls) (r : Ref) (start : Nat)
    (st v : List Bool) (hp : Placed C r start st.length) (ha : AtOwn C r)
    (hk : k ≠ .element) (little : Bool) :
    writeSelf k C r st v = write .quark little C r st v := by
  unfold writeSelf write
  rw [ownPos_eq hp ha]
  simp only [if_neg hk]
  rfl

/-- `self = v` puts each bit of the value where the layout of the real object has it,
and leaves every other bit as it was, whatever the object.  No class is derived from an
element (NodeBlockClass.cpp:1114-1167), so an object with the members of an element is
of that class (`hk`). -/
theorem C130_write (k : Sort') (C : Cls) (r : Ref) (start : Nat) (st v : List Bool)
    (hc : Laid C) (hp : Placed C r start st.length) (ha : AtOwn C r) (hv : v.length = C.size)
    (hk : k ≠ .element ∨ C.id = r.eff) :
    ∃ st', writeSelf k C r st v = some st' ∧ st'.length = st.length ∧
      (∀ i q, Lies C r.pos (fun b => start + r.relPos b) i q → st'[q]? = v[i]?) ∧
      (∀ q, (∀ i, ¬ Lies C r.pos (fun b => start + r.relPos b) i q) → st'[q]? = st[q]?) := by
  have hw : writeSelf k C r st v = write .quark true C r st v := by
    rcases hk with hk | he
    · exact C130_as_reference k C r start st v hp ha hk true
    · unfold writeSelf write
      simp only [if_pos he]
  rw [hw]
  exact C124_write_partial .quark true C r start st v hc hp hv (.inl rfl)

/-- What was assigned is what a reference to the class reads. -/
theorem C130_roundtrip (k : Sort') (C : Cls) (r : Ref) (start : Nat)
    (st st' v : List Bool)
    (hc : Laid C) (hp : Placed C r start st.length) (ha : AtOwn C r) (hv : v.length = C.size)
    (hk : k ≠ .element ∨ C.id = r.eff) (hw : writeSelf k C r st v = some st') :
    read C r st' = some v := by
  have e : writeSelf k C r st v = write .quark true C r st v := by
    rcases hk with hk | he
    · exact C130_as_reference k C r start st v hp ha hk true
    · unfold writeSelf write
      simp only [if_pos he]
  rw [e] at hw
  exact C124_roundtrip_partial .quark true C r start st st' v hc hp hv (.inl rfl) hw

/-- In a function of an element class called for an object of a derived class
`self = v` would do nothing; no class may be derived from an element
(NodeBlockClass.cpp:1114-1167). -/
theorem write_derived_element (C : Cls) (r : Ref) (st v : List Bool) (hne : C.id ≠ r.eff) :
    writeSelf .element C r st v = some st := by
  unfold writeSelf
  by_cases hz : C.size = 0
  · rw [if_pos hz]
  · simp [hz, hne]

/-! ## C131: self as a value -/

/-- If the object is of the class itself, or no base of the class has bits, or in an
as-condition, then `self` as a value is what a reference to the class reads: the bits
where the layout of the object has them (C123). -/
theorem C131_self_partial (asCond : Bool) (C : Cls) (r : Ref) (start : Nat) (st : List Bool)
    (hc : Laid C) (hp : Placed C r start st.length)
    (h : asCond = true ∨ C.id = r.eff ∨ C.own = C.size) :
    readSelf asCond C r st = read C r st := by
  cases asCond with
  | true => simp [readSelf]
  | false =>
    have hown := hp.own
    obtain ⟨v, hv, hl, hg⟩ := C123_read C r start st hc hp
    have hlen : urLen C r = C.size ∧ r.pos + C.size ≤ st.length ∧
        ∀ i < C.size, Lies C r.pos (fun b => start + r.relPos b) i (r.pos + i) := by
      rcases h with h | he | ho
      · cases h
      · have hw := whole_le hc hp he
        have ⟨h1, h2⟩ := hp.same he
        have h3 := hp.pos
        refine ⟨by simp [urLen, he], hw, fun i hi => ?_⟩
        rcases hc.cover i hi with h4 | ⟨b, hb, h4, h5⟩
        · exact .inl ⟨h4, rfl⟩
        · exact .inr ⟨b, hb, h4, h5, by have := h2 b hb; simp only; omega⟩
      · refine ⟨by unfold urLen; split <;> omega, by omega, fun i hi => .inl ⟨by omega, rfl⟩⟩
    obtain ⟨h1, h2, h3⟩ := hlen
    have hr : readSelf false C r st = some (rd st r.pos C.size) := by
      simp only [readSelf, h1, if_pos h2]
      simp
    rw [hr, hv]
    congr 1
    apply List.ext_getElem?
    intro i
    rw [rd_get]
    by_cases hi : i < C.size
    · rw [if_pos hi, hg i _ (h3 i hi)]
    · rw [if_neg hi, List.getElem?_eq_none (by omega)]

/-- The claim is false for every other class of up to 64 bits and every object it is in:
there is a state of the storage in which the first bit of the value is wrong. -/
theorem C131_base_fails (C : Cls) (r : Ref) (start n : Nat) (hc : Laid C)
    (hp : Placed C r start n) (hne : C.id ≠ r.eff) (ho : C.own < C.size) (h64 : C.size ≤ 64) :
    ∃ st : List Bool, st.length = n ∧ ∃ v w, readSelf false C r st = some v ∧ v.length = C.size ∧
      read C r st = some w ∧ v[0]? = some false ∧ w[0]? = some true := by
  have hp' : Placed C r start (List.replicate n true).length := by simpa using hp
  obtain ⟨w, hw, hl, hg⟩ := C123_read C r start (List.replicate n true) hc hp'
  have hown := hp'.own
  refine ⟨List.replicate n true, by simp, List.replicate (C.size - C.own) false ++
    rd (List.replicate n true) r.pos C.own, w, ?_, ?_, hw, ?_, ?_⟩
  · simp only [readSelf, urLen, if_neg hne, if_pos h64, if_pos hown]
    simp
  · rw [List.length_append, rd_length _ _ _ hown]; simp; omega
  · rw [List.getElem?_append_left (by simp; omega), List.getElem?_replicate, if_pos (by omega)]
  · have : ∃ q, Lies C r.pos (fun b => start + r.relPos b) 0 q ∧ q < n := by
      rcases hc.cover 0 (by omega) with h1 | ⟨b, hb, h1, h2⟩
      · exact ⟨_, .inl ⟨h1, rfl⟩, by have := hp.own; omega⟩
      · exact ⟨_, .inr ⟨b, hb, h1, h2, rfl⟩, by have := hp.base b hb; simp only; omega⟩
    obtain ⟨q, hq, hqn⟩ := this
    rw [hg 0 q hq, List.getElem?_replicate, if_pos hqn]

/-- `self = self` leaves the storage as it is when `self` is read rightly. -/
theorem C131_assign_partial (k : Sort') (C : Cls) (r : Ref) (start : Nat) (st : List Bool)
    (hc : Laid C) (hp : Placed C r start st.length) (ha : AtOwn C r)
    (h : C.id = r.eff ∨ C.own = C.size) : selfAssign k C r st = some st := by
  obtain ⟨v, hv, hl, hg⟩ := C123_read C r start st hc hp
  have hr : readSelf false C r st = some v := by
    rw [C131_self_partial false C r start st hc hp (.inr h), hv]
  unfold selfAssign
  rw [hr, Option.bind_some]
  by_cases hk : k = .element ∧ C.id ≠ r.eff
  · rw [hk.1]; exact write_derived_element C r st v hk.2
  · obtain ⟨st', h1, h2, h3, h4⟩ := C130_write k C r start st v hc hp ha hl (by
      by_cases hk' : k = .element
      · right
        by_cases he : C.id = r.eff
        · exact he
        · exact absurd ⟨hk', he⟩ hk
      · exact .inl hk')
    rw [h1]
    congr 1
    apply List.ext_getElem?
    intro q
    by_cases hq : ∃ i, Lies C r.pos (fun b => start + r.relPos b) i q
    · obtain ⟨i, hi⟩ := hq
      rw [h3 i q hi, hg i q hi]
    · exact h4 q fun i hi => hq ⟨i, hi⟩

/-- In the other cases `self = self` changes some object. -/
theorem C131_assign_fails (k : Sort') (C : Cls) (r : Ref) (start n : Nat) (hc : Laid C)
    (hp : Placed C r start n) (ha : AtOwn C r) (hk : k ≠ .element) (hne : C.id ≠ r.eff)
    (ho : C.own < C.size) (h64 : C.size ≤ 64) :
    ∃ st st' : List Bool, st.length = n ∧ selfAssign k C r st = some st' ∧ st' ≠ st := by
  obtain ⟨st, hl, v, w, h1, h2, h3, h4, h5⟩ := C131_base_fails C r start n hc hp hne ho h64
  obtain ⟨st', h6, _⟩ := C130_write k C r start st v hc (by rw [hl]; exact hp) ha h2
    (.inl hk)
  refine ⟨st, st', hl, by rw [selfAssign, h1, Option.bind_some, h6], ?_⟩
  intro heq
  have := C130_roundtrip k C r start st st' v hc (by rw [hl]; exact hp) ha h2 (.inl hk) h6
  rw [heq, h3] at this
  cases this
  rw [h4] at h5
  cases h5

/-! ## A case: the class of `Verif.BaseCopy`, of 6 bits, 3 of them its own -/

def exR : Ref := ⟨7, 5, 9, fun i => if i = 1 then 5 else if i = 2 then 10 else if i = 3 then 1 else 0⟩

example : AtOwn exC exR := by unfold AtOwn; decide
example : Placed exC exR 2 exSt.length := by
  refine ⟨by decide, by decide, by decide, ?_, ?_, by decide, by decide⟩
  · intro b hb; simp [exC] at hb; rcases hb with rfl | rfl <;> simp [Apart, exC, exR]
  · simp [exC, Apart, exR]
example : exC.own < exC.size ∧ exC.id ≠ exR.eff := by decide

example : writeSelf .quark exC exR exSt (List.replicate 6 false) =
    some ([1,1,0,0,1,0,0,0,0,0,0,1,0,0,1,0].map (· == 1)) := by decide
example : read exC exR exSt = some [true, false, true, false, true, true] := by decide
example : readSelf false exC exR exSt = some [false, false, false, true, false, true] := by decide
example : selfAssign .quark exC exR exSt ≠ some exSt := by decide
example : writeSelf .element exC exR exSt (List.replicate 6 false) = some exSt := by decide

/-- The object is of the class itself. -/
def exR0 : Ref := ⟨2, 0, 1, fun i => if i = 2 then 3 else if i = 3 then 5 else 0⟩
example : AtOwn exC exR0 ∧ exC.id = exR0.eff ∧
    selfAssign .element exC exR0 exSt = some exSt := by
  refine ⟨?_, by decide, by decide⟩
  unfold AtOwn; decide

end Ulam.SelfCopy
