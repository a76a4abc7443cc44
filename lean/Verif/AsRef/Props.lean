import Verif.AsRef.Spec
import Verif.BaseCopy.Props
namespace Ulam.AsRef

/-! ## C129: the variable of `as` -/

theorem good_of_ref (L : Lib) (w : World) (hL : LibOk L) (r : Ref) (c v k start : Nat)
    (hg : r.eff = k ∧ r.pos = start + w.rel k c ∧ r.postoeff = w.rel k c)
    (hs : start + w.rel k c < 2 ^ 32) (hv : start + w.rel k v < 2 ^ 32) :
    Good w (asOfRef L w r v) v k start := by
  obtain ⟨h1, h2, h3⟩ := hg
  refine ⟨⟨h1, ?_⟩, ?_, ?_⟩
  · simp only [asOfRef, fromRef]
    rw [h1, h2, h3]
    omega
  · simp only [asOfRef, fromRef]
    rw [hL.move, h1, h3]
    omega
  · intro hk
    simp only [asOfRef, fromRef, mkLen, h1]

/-- `self as V`, and `r as V` for a reference: the variable is a reference to the
members of V in the same object. -/
theorem C129_ref (L : Lib) (w : World) (hL : LibOk L) (r : Ref) (inside c v k start : Nat)
    (hg : Good w r c k start)
    (hs : start + w.rel k c < 2 ^ 32) (hv : start + w.rel k v < 2 ^ 32) :
    Good w (asVar L w inside (.ref r) v) v k start ∧
      Good w (asVar L w inside (.self r) v) v k start := by
  have := good_of_ref L w hL r c v k start ⟨hg.place.1, hg.place.2, hg.back⟩ hs hv
  exact ⟨this, this⟩

/-- Of a variable that is an object: the place is right for all classes. -/
theorem C129_object_place (L : Lib) (w : World) (inside c v : Nat) :
    AtPlace w (asVar L w inside (.object c) v) v c (startOf w c) := by
  unfold asVar startOf AtPlace
  cases hc : w.kind c
  · simp [hc, fromStoragePos]
  · by_cases hv : w.kind v = .quark
    · simp [hc, hv, fromStoragePos, firstStateBit]; omega
    · simp [hc, hv, fromStorage, firstStateBit]; omega
  · by_cases hv : w.kind v = .quark
    · simp [hc, hv, fromStoragePos]
    · simp [hc, hv, fromStorage]

/-- Of a variable that is an object, for a quark that is another class, or for an
element or transient that starts where the object starts: all is right. -/
theorem C129_object_partial (L : Lib) (w : World) (hL : LibOk L) (inside c v : Nat)
    (hkind : w.kind c = .quark → w.kind v = .quark)
    (h : (w.kind v = .quark ∧ (v = c → w.size v = w.own v)) ∨
      (w.kind v ≠ .quark ∧ w.rel c v = 0)) :
    Good w (asVar L w inside (.object c) v) v c (startOf w c) := by
  refine ⟨C129_object_place L w inside c v, ?_, ?_⟩
  · unfold asVar
    rcases h with ⟨hv, _⟩ | ⟨hv, h0⟩
    · cases hc : w.kind c <;> simp [hc, hv, fromStoragePos]
    · cases hc : w.kind c
      · exact absurd (hkind hc) hv
      · simp [hc, hv, fromStorage, hL.fresh, h0]
      · simp [hc, hv, fromStorage, hL.fresh, h0]
  · intro hne
    unfold asVar
    rcases h with ⟨hv, hsz⟩ | ⟨hv, h0⟩
    · cases hc : w.kind c <;> simp [hc, hv, fromStoragePos] <;> exact fun h => (hsz h).symm
    · cases hc : w.kind c
      · exact absurd (hkind hc) hv
      · cases hk : w.kind v <;> simp_all [hc, fromStorage, mkLen]
      · cases hk : w.kind v <;> simp_all [hc, fromStorage, mkLen]

/-- The full claim is false: for a quark with bases and `q as Q` of its own class
the variable has the bits of the own members only. -/
theorem C129_same_fails (L : Lib) (w : World) (inside c : Nat)
    (hc : w.kind c = .quark) (h : w.size c ≠ w.own c) (start : Nat) :
    (asVar L w inside (.object c) c).len = w.own c ∧
      ¬ Good w (asVar L w inside (.object c) c) c c start := by
  have hl : (asVar L w inside (.object c) c).len = w.own c := by
    simp [asVar, hc, fromStoragePos]
  refine ⟨hl, fun g => ?_⟩
  have := g.bits (by rw [hc]; decide)
  rw [hl, if_pos rfl] at this
  exact h this.symm

/-- And for a transient with a transient base that does not start where the object
starts, the variable does not know where the object starts. -/
theorem C129_transient_fails (L : Lib) (w : World) (hL : LibOk L) (inside c v : Nat)
    (hc : w.kind c = .transient) (hv : w.kind v = .transient) (h : w.rel c v ≠ 0) (start : Nat) :
    (asVar L w inside (.object c) v).postoeff = 0 ∧
      ¬ Good w (asVar L w inside (.object c) v) v c start := by
  have hp : (asVar L w inside (.object c) v).postoeff = 0 := by
    simp [asVar, hc, hv, fromStorage, hL.fresh]
  refine ⟨hp, fun g => ?_⟩
  have := g.back
  rw [hp] at this
  exact h this.symm

/-- Of an atom, in a variable, behind a reference, or as a data member (of the
class that `ur` refers to): the place is right.  The condition holds, so that for an
element the atom holds that very element. -/
theorem C129_atom_place (L : Lib) (w : World) (hw : w.Ok) (inside v : Nat) (r ur : Ref) (off : Nat)
    (hin : w.kind v ≠ .quark → v = inside)
    (h1 : r.pos + 25 + w.rel inside v < 2 ^ 32) (h2 : ur.pos + off + 25 + w.rel inside v < 2 ^ 32) :
    AtPlace w (asVar L w inside .atom v) v inside 25 ∧
      AtPlace w (asVar L w inside (.atomRef r) v) v inside (r.pos + 25) ∧
      AtPlace w (asVar L w inside (.atomMember ur off) v) v inside (ur.pos + off + 25) := by
  by_cases hv : w.kind v = .quark
  · refine ⟨⟨?_, ?_⟩, ⟨?_, ?_⟩, ⟨?_, ?_⟩⟩ <;>
      simp [asVar, hv, fromStorage, fromRef, firstStateBit] <;> omega
  · have he := hin hv
    subst he
    have h0 := hw v
    refine ⟨⟨?_, ?_⟩, ⟨?_, ?_⟩, ⟨?_, ?_⟩⟩ <;>
      simp [asVar, hv, fromStorage, fromRef, firstStateBit] <;> omega

/-- For an atom in a variable the variable of `as` knows where the object starts
just when V lies there. -/
theorem C129_atom_fails (L : Lib) (w : World) (hL : LibOk L) (inside v : Nat)
    (hv : w.kind v = .quark) :
    Good w (asVar L w inside .atom v) v inside 25 ↔ w.rel inside v = 0 := by
  constructor
  · intro g
    have := g.back
    simp only [asVar, hv, if_true, fromStorage, hL.fresh] at this
    exact this.symm
  · intro h0
    refine ⟨⟨by simp [asVar, hv, fromStorage], by simp [asVar, hv, fromStorage, firstStateBit]⟩,
      by simp [asVar, hv, fromStorage, hL.fresh, h0], fun _ => by
        simp [asVar, hv, fromStorage, mkLen]⟩

/-- A data member that is an object of a class, in an object of class `k`: the
variable refers to the members of V in the object around it, not to those in the
data member; this is the place of the latter just when the sums agree. -/
theorem C129_member_fails (L : Lib) (w : World) (hL : LibOk L) (ur : Ref)
    (inside c v k start decl off : Nat) (hg : Good w ur decl k start)
    (h1 : start + w.rel k decl + off < 2 ^ 32) (h2 : start + w.rel k v < 2 ^ 32) :
    AtPlace w (asVar L w inside (.member ur c off) v) v k start ∧
      ((asVar L w inside (.member ur c off) v).pos = ur.pos + off + w.rel c v ↔
        w.rel k v = w.rel k decl + off + w.rel c v) := by
  have h3 := hg.place.2
  have h4 := hg.back
  have h5 := hg.place.1
  have hmv : L.move ur off ur.eff = w.rel k decl + off := by
    rw [hL.move, h4]; omega
  have hpos : (asVar L w inside (.member ur c off) v).pos = start + w.rel k v := by
    simp only [asVar, asOfRef, fromRef]
    rw [hmv, h3, h5]
    omega
  refine ⟨⟨by simpa only [asVar, asOfRef, fromRef] using h5, hpos⟩, ?_⟩
  rw [hpos, h3]
  omega

/-- What is read through the variable of `r as V` is, bit for bit, what the object
has where its layout puts V and the bases of V (see C123). -/
theorem C129_read (L : Lib) (w : World) (hL : LibOk L) (r : Ref) (inside c v k start : Nat)
    (hg : Good w r c k start) (hs : start + w.rel k c < 2 ^ 32)
    (V : BaseCopy.Cls) (hV : V.id = v) (st : List Bool) (hlaid : BaseCopy.Laid V)
    (hp : BaseCopy.Placed V ⟨start + w.rel k v, w.rel k v, k, w.rel k⟩ start st.length) :
    ∃ x, BaseCopy.read V
        ⟨(asVar L w inside (.ref r) v).pos, (asVar L w inside (.ref r) v).postoeff,
          (asVar L w inside (.ref r) v).eff, w.rel k⟩ st = some x ∧ x.length = V.size ∧
      ∀ i q, BaseCopy.Lies V (start + w.rel k v) (fun b => start + w.rel k b) i q →
        x[i]? = st[q]? := by
  have hv : start + w.rel k v < 2 ^ 32 := by
    have := hp.own; have := hp.small; simp only at *; omega
  have g := (C129_ref L w hL r inside c v k start hg hs hv).1
  rw [g.place.1, g.place.2, g.back]
  exact BaseCopy.C123_read V _ start st hlaid hp

/-! ## Cases -/

/-- Element 0 with the quark bases 1 (of 3 bits at 4) and 2 (at 7), element 3 with a
member of class 1. -/
def exW : World where
  kind := fun c => if c = 0 ∨ c = 3 then .element else .quark
  own := fun c => if c = 1 then 3 else 4
  size := fun c => if c = 1 then 5 else 9
  rel := fun c b => if c = 0 then (if b = 1 then 4 else if b = 2 then 7 else 0) else
    if c = 1 ∧ b = 2 then 3 else 0

def exL : Lib := ⟨0, fun r i eff => if eff = r.eff then ((r.postoeff + i) % 2 ^ 32).toNat else 0⟩

example : LibOk exL := ⟨rfl, fun r i => by simp [exL]⟩
example : exW.Ok := by
  intro c; simp only [exW]; split <;> simp_all
/-- A reference to base 2 seen as base 1: a step back. -/
example : Good exW ⟨32, 4, 7, 0⟩ 2 0 25 ∧ 25 + exW.rel 0 2 < 2 ^ 32 ∧ 25 + exW.rel 0 1 < 2 ^ 32 :=
  ⟨⟨⟨rfl, rfl⟩, rfl, fun _ => rfl⟩, by decide, by decide⟩
example : asVar exL exW 0 (.ref ⟨32, 4, 7, 0⟩) 1 = ⟨29, 3, 4, 0⟩ := by decide
example : asVar exL exW 0 (.object 0) 1 = ⟨29, 3, 4, 0⟩ := by decide
example : (asVar exL exW 0 .atom 1).postoeff = 0 ∧ exW.rel 0 1 = 4 := by decide
example : exW.kind 1 = .quark ∧ exW.size 1 ≠ exW.own 1 := by decide
example : (asVar exL exW 0 (.object 1) 1).len = 3 := by decide
/-- A member of class 1 at 2 in element 3, seen as class 2. -/
example : Good exW ⟨25, 96, 0, 3⟩ 3 3 25 := ⟨⟨rfl, rfl⟩, rfl, fun h => absurd rfl h⟩
example : (asVar exL exW 0 (.member ⟨25, 96, 0, 3⟩ 1 2) 2).pos = 25 ∧
    25 + 2 + exW.rel 1 2 = 30 := by decide

end Ulam.AsRef
