import Verif.AbsAssign.Spec
import Verif.Packed.Props
/-! # Assignments through pointers to the call stack: property C142 -/
namespace Ulam.AbsAssign
open Packed (Bits Holds Placed)

theorem lt_of_get {fs : List Val} {i : Nat} {v : Val} (h : fs[i]? = some v) : i < fs.length := by
  rcases Nat.lt_or_ge i fs.length with h1 | h1
  · exact h1
  · rw [List.getElem?_eq_none h1] at h; cases h

theorem only_set (fs : List Val) (i : Nat) (v : Val) : Only fs i (fs.set i v) :=
  ⟨List.length_set, fun j hj => by rw [List.getElem?_set_ne (fun h => hj h.symm)]⟩

theorem get_set {fs : List Val} {i : Nat} (h : i < fs.length) (v : Val) : (fs.set i v)[i]? = some v := by
  rw [List.getElem?_set_self h]

theorem index_eq {cur : Nat} {slot : Int} {i : Nat} (h : (cur : Int) + slot = i) : index cur slot = some i := by
  unfold index
  rw [if_pos (by omega), h]
  rfl

/-- The type a value gets in a slot of the frame. -/
theorem prepRel_data (fs : List Val) (tty ty : SlotTy) (b : Bits) : ∃ ty', prepRel fs tty (.data ty b) = some (.data ty' b) ∧
    (ty = .none → ty' = tty) ∧ (∀ c, ty = .cls c → ty' = ty) ∧ (∀ k c, ty = .prim k → tty = .cls c → ty' = .cls c) ∧
    (∀ k, ty = .prim k → (∀ c, tty ≠ .cls c) → ty' = ty) := by
  cases ty with
  | none => exact ⟨tty, rfl, fun _ => rfl, by simp, by simp, by simp⟩
  | cls c => exact ⟨.cls c, rfl, by simp, by simp, by simp, by simp⟩
  | prim k =>
    cases tty with
    | none => exact ⟨.prim k, rfl, by simp, by simp, by simp, by simp⟩
    | prim l => exact ⟨.prim k, rfl, by simp, by simp, by simp, by simp⟩
    | cls c => exact ⟨.cls c, rfl, by simp, by simp, by rintro _ _ _ ⟨⟩; rfl, by simp⟩

theorem prepAbs_data (tty ty : SlotTy) (b : Bits) : prepAbs tty (.data ty b) = some (.data (if ty = .none then tty else ty) b) := by
  cases ty <;> rfl

theorem put_data {fs : List Val} {i max : Nat} {t : Packed.Ty} {p : Packed.Ptr} {rb b b' : Bits} (ty : SlotTy) (hi : i < fs.length)
    (hl : p.len ≤ max) (hb : Packed.putDataIntoAtom t p rb b = some b') :
    put fs i max t p rb (.data ty b) = some (fs.set i (.data ty b')) := by
  simp only [put, if_pos hl, hb, Option.bind_some, setAt, if_pos hi]

/-- Property C142 where the whole slot is replaced: both ways have the same effect. -/
theorem C142_whole (fs : List Val) (cur : Nat) (slot : Int) (i : Nat) (hi : (cur : Int) + slot = i) (hfs : i < fs.length) (tty : SlotTy)
    (t : Packed.Ty) (p : Packed.Ptr) (hp : p.pack = .unpacked ∨ (p.pack = .packed ∧ p.scalar = true)) (rty : SlotTy) (rb : Bits) :
    ∃ gs, assignRel fs cur slot tty t p rty rb = some gs ∧ assignAbs fs i tty t p rty rb = some gs ∧ Only fs i gs ∧
      gs[i]? = some (.data rty rb) := by
  have hw : whole p = true := by rcases hp with h | ⟨h, h'⟩ <;> simp [whole, h] ; exact h'
  refine ⟨fs.set i (.data rty rb), ?_, ?_, only_set _ _ _, get_set hfs _⟩
  · simp only [assignRel, index_eq hi, Option.bind_some, hw, if_true, setAt, if_pos hfs]
  · simp only [assignAbs, hw, if_true, setAt, if_pos hfs]

/-- Property C142 for values of at most 64 bits that are part of a slot: both ways the number is stored there and nothing else is
changed, and the effect is the same, but for the type if a class is put into a slot of primitive type. Missing: arrays of more
bits (`C142_wide_fails`), slots with pointers (`C142_pointer_fails`), the type (`C142_type_fails`). -/
theorem C142_part_partial (fs : List Val) (cur : Nat) (slot : Int) (i : Nat) (hi : (cur : Int) + slot = i) (ty tty : SlotTy) (b : Bits)
    (hfs : fs[i]? = some (.data ty b)) (t : Packed.Ty) (p : Packed.Ptr) (hp : p.pack = .loadable) (hl : p.len ≤ 64)
    (hin : p.pos + p.len ≤ 96) (rty : SlotTy) (rb : Bits) (v : Nat) (hv : Holds rb (Packed.immPos t.cls p.len) p.len v) :
    ∃ gs hs, assignRel fs cur slot tty t p rty rb = some gs ∧ assignAbs fs i tty t p rty rb = some hs ∧
      Assigned fs i p.pos p.len v gs ∧ Assigned fs i p.pos p.len v hs ∧
      ((∀ k c, ty = .prim k → tty ≠ .cls c) → gs = hs ∧ typeAt gs i = some (if ty = .none then tty else ty)) := by
  have hlt := lt_of_get hfs
  have hw : whole p = false := by simp [whole, hp]
  have hput : Packed.putDataIntoAtom t p rb b = some (Packed.writeBits b p.pos p.len v) := by
    simp only [Packed.putDataIntoAtom, hp]
    exact Packed.putItem_eq t.cls p rb b v hl hin hv
  obtain ⟨ty', h1, h2, h3, h4, h5⟩ := prepRel_data fs tty ty b
  have hA : ∀ ty'', Assigned fs i p.pos p.len v (fs.set i (.data ty'' (Packed.writeBits b p.pos p.len v))) := fun ty'' =>
    ⟨only_set _ _ _, ty, b, ty'', _, hfs, get_set hlt _, Packed.writeBits_holds _ _ _ _ hv.1,
      fun j hj => Packed.writeBits_other _ _ _ _ _ hj⟩
  refine ⟨_, _, ?_, ?_, hA ty', hA (if ty = .none then tty else ty), fun hne => ?_⟩
  · simp only [assignRel, index_eq hi, Option.bind_some, hw, Bool.false_eq_true, if_false, hfs, h1]
    exact put_data ty' hlt (by omega) hput
  · simp only [assignAbs, Option.bind_some, hw, Bool.false_eq_true, if_false, hfs, prepAbs_data]
    exact put_data _ hlt hl hput
  · have hty : ty' = if ty = .none then tty else ty := by
      cases ty with
      | none => simpa using h2 rfl
      | cls c => simpa using h3 c rfl
      | prim k => simpa using h5 k rfl (fun c => hne k c rfl)
    refine ⟨by rw [hty], ?_⟩
    simp only [typeAt, get_set hlt, hty]

/-- Property C142 fails for every packed array of 65 to 71 bits: by its variable it is assigned, by a reference to it the compiler aborts. -/
theorem C142_wide_fails (fs : List Val) (cur : Nat) (slot : Int) (i : Nat) (hi : (cur : Int) + slot = i) (ty tty : SlotTy) (b : Bits)
    (hfs : fs[i]? = some (.data ty b)) (t : Packed.Ty) (p : Packed.Ptr) (hp : Placed t p) (hn : 0 < t.n) (hb : t.bits ≤ 64)
    (hlo : 64 < t.n * t.bits) (hhi : t.n * t.bits ≤ 71) (rty : SlotTy) (rb : Bits) :
    (∃ gs, assignRel fs cur slot tty t p rty rb = some gs ∧ Copied fs i p.pos (t.n * t.bits) rb gs) ∧
      assignAbs fs i tty t p rty rb = none := by
  have hlt := lt_of_get hfs
  have hpk : Packed.packable (t.n * t.bits) = .packed := by simp [Packed.packable, hhi, Nat.not_le.mpr hlo]
  have hpp : p.pack = .packed := hp.pack.trans hpk
  have hw : whole p = false := by simp [whole, hpp, hp.arr]
  have hlen := hp.len
  obtain ⟨d, h3, h4, h5⟩ := Packed.putLoop_spec t p hp hb rb t.n b (Nat.le_refl _) (by intro j hj; simp at hj)
  simp only [Nat.sub_self, Nat.zero_mul, Nat.add_zero] at h3
  have hput : Packed.putDataIntoAtom t p rb b = some d := by
    simp only [Packed.putDataIntoAtom, hpp, hp.arr, Bool.false_eq_true, if_false, Packed.putArray, Packed.scalarPtr_placed hp hn,
      Option.bind_some]
    exact h3
  obtain ⟨ty', h1, -⟩ := prepRel_data fs tty ty b
  constructor
  · refine ⟨fs.set i (.data ty' d), ?_, only_set _ _ _, ty, b, ty', d, hfs, get_set hlt _, h4, h5⟩
    simp only [assignRel, index_eq hi, Option.bind_some, hw, Bool.false_eq_true, if_false, hfs, h1]
    exact put_data ty' hlt (by omega) hput
  · simp only [assignAbs, Option.bind_some, hw, Bool.false_eq_true, if_false, hfs, prepAbs_data, put]
    rw [if_neg (by omega)]

/-- Property C142 fails for slots with a pointer in them: by an absolute pointer the compiler aborts; by the other the pointer is replaced
by a changed copy of what it leads to, which is itself not changed. -/
theorem C142_pointer_fails (fs : List Val) (cur : Nat) (slot : Int) (i n : Nat) (hi : (cur : Int) + slot = i) (ty tty : SlotTy) (b : Bits)
    (hfs : fs[i]? = some (.ptr n)) (hn : fs[n]? = some (.data ty b)) (t : Packed.Ty) (p : Packed.Ptr) (hp : p.pack = .loadable)
    (hl : p.len ≤ 64) (hin : p.pos + p.len ≤ 96) (rty : SlotTy) (rb : Bits) (v : Nat)
    (hv : Holds rb (Packed.immPos t.cls p.len) p.len v) :
    assignAbs fs i tty t p rty rb = none ∧
      ∃ gs b', assignRel fs cur slot tty t p rty rb = some gs ∧ Only fs i gs ∧ gs[i]? = some (.data ty b') ∧ Holds b' p.pos p.len v ∧
        gs[n]? = some (.data ty b) := by
  have hlt := lt_of_get hfs
  have hne : n ≠ i := by rintro rfl; rw [hfs] at hn; cases hn
  have hw : whole p = false := by simp [whole, hp]
  have hput : Packed.putDataIntoAtom t p rb b = some (Packed.writeBits b p.pos p.len v) := by
    simp only [Packed.putDataIntoAtom, hp]
    exact Packed.putItem_eq t.cls p rb b v hl hin hv
  constructor
  · simp only [assignAbs, hw, Bool.false_eq_true, if_false, hfs, Option.bind_some]
    rfl
  · refine ⟨_, _, ?_, only_set _ _ _, get_set hlt _, Packed.writeBits_holds b _ _ _ hv.1, ?_⟩
    · simp only [assignRel, index_eq hi, Option.bind_some, hw, Bool.false_eq_true, if_false, hfs, prepRel, getPtrTarget, follow, hn]
      exact put_data ty hlt (by omega) hput
    · rw [(only_set fs i _).2 n hne, hn]

/-- Property C142 fails for the type of the value: after a class is put into a slot of primitive type it is the class by the slot, and
still the primitive type by an absolute pointer. -/
theorem C142_type_fails (fs : List Val) (cur : Nat) (slot : Int) (i k c : Nat) (hi : (cur : Int) + slot = i) (b : Bits)
    (hfs : fs[i]? = some (.data (.prim k) b)) (t : Packed.Ty) (p : Packed.Ptr) (hp : p.pack = .loadable) (hl : p.len ≤ 64)
    (hin : p.pos + p.len ≤ 96) (rty : SlotTy) (rb : Bits) (v : Nat) (hv : Holds rb (Packed.immPos t.cls p.len) p.len v) :
    ∃ gs hs, assignRel fs cur slot (.cls c) t p rty rb = some gs ∧ assignAbs fs i (.cls c) t p rty rb = some hs ∧
      typeAt gs i = some (.cls c) ∧ typeAt hs i = some (.prim k) := by
  have hlt := lt_of_get hfs
  have hw : whole p = false := by simp [whole, hp]
  have hput : Packed.putDataIntoAtom t p rb b = some (Packed.writeBits b p.pos p.len v) := by
    simp only [Packed.putDataIntoAtom, hp]
    exact Packed.putItem_eq t.cls p rb b v hl hin hv
  refine ⟨fs.set i (.data (.cls c) (Packed.writeBits b p.pos p.len v)), fs.set i (.data (.prim k) (Packed.writeBits b p.pos p.len v)),
    ?_, ?_, ?_, ?_⟩
  · simp only [assignRel, index_eq hi, Option.bind_some, hw, Bool.false_eq_true, if_false, hfs, prepRel]
    exact put_data _ hlt (by omega) hput
  · simp only [assignAbs, hw, Bool.false_eq_true, if_false, hfs, Option.bind_some, prepAbs]
    exact put_data _ hlt hl hput
  · simp only [typeAt, get_set hlt]
  · simp only [typeAt, get_set hlt]

/-- Property C142 beyond the stack: neither way is anything stored. -/
theorem C142_beyond (fs : List Val) (cur : Nat) (slot : Int) (i : Nat) (hi : (cur : Int) + slot = i) (hfs : fs.length ≤ i) (tty : SlotTy)
    (t : Packed.Ty) (p : Packed.Ptr) (rty : SlotTy) (rb : Bits) :
    assignRel fs cur slot tty t p rty rb = none ∧ assignAbs fs i tty t p rty rb = none := by
  have hg : fs[i]? = none := List.getElem?_eq_none hfs
  constructor
  · simp only [assignRel, index_eq hi, Option.bind_some, hg, Option.bind_none, setAt, if_neg (Nat.not_lt.mpr hfs), ite_self]
  · simp only [assignAbs, hg, Option.bind_none, setAt, if_neg (Nat.not_lt.mpr hfs), ite_self]

/-- 5 into the 8 bits at the end of slot -1 of a frame at 1. -/
example : ∃ gs hs, assignRel [.data (.prim 3) (fun _ => true), .ptr 0] 1 (-1) (.prim 3) ⟨8, 1, false⟩ ⟨88, 8, .loadable, true⟩ (.prim 3)
      (Packed.writeBits (fun _ => false) 88 8 5) = some gs ∧
    assignAbs [.data (.prim 3) (fun _ => true), .ptr 0] 0 (.prim 3) ⟨8, 1, false⟩ ⟨88, 8, .loadable, true⟩ (.prim 3)
      (Packed.writeBits (fun _ => false) 88 8 5) = some hs ∧ gs = hs := by
  obtain ⟨gs, hs, h1, h2, -, -, h3⟩ := C142_part_partial [.data (.prim 3) (fun _ => true), .ptr 0] 1 (-1) 0 rfl (.prim 3) (.prim 3) _ rfl
    ⟨8, 1, false⟩ ⟨88, 8, .loadable, true⟩ rfl (by decide) (by decide) (.prim 3) _ 5 (Packed.writeBits_holds (fun _ => false) 88 8 5 (by decide))
  exact ⟨gs, hs, h1, h2, (h3 (by simp)).1⟩

/-- `Int(7) a[10]` and a reference to it. -/
example : assignAbs [.data (.prim 3) (fun _ => true)] 0 (.prim 3) ⟨7, 10, false⟩ ⟨26, 70, .packed, false⟩ (.prim 3) (fun _ => false) = none :=
  (C142_wide_fails [.data (.prim 3) (fun _ => true)] 0 0 0 rfl (.prim 3) (.prim 3) _ rfl ⟨7, 10, false⟩ ⟨26, 70, .packed, false⟩
    ⟨by decide, by decide, by decide, by decide, rfl⟩ (by decide) (by decide) (by decide) (by decide) (.prim 3) (fun _ => false)).2

end Ulam.AbsAssign
