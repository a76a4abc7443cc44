/-!
# The iterator over the bases of a class, and copying shared data (model)

`share/ulam/stdlib/ClassUtils.ulam`. The native functions are in the MFM library, which is not in this repository; what they
answer is a parameter.
-/
namespace Ulam.ClassIter

/-- The native functions of `share/ulam/stdlib/ClassUtils.ulam:46-213`: class ids, counts and sizes are `Unsigned(32)`,
element types and positions `Int(32)`. -/
structure Natives where
  count : Nat → Nat
  baseId : Nat → Nat → Nat
  isBase : Nat → Nat → Bool
  elementType : Nat → Int
  dataSize : Nat → Nat
  dataPos : Nat → Int → Int

/-- `Unsigned.maxof`, the id of no class. -/
def maxof : Nat := 4294967295

/-- The data members of `ClassBaseIterator`, `share/ulam/stdlib/ClassUtils.ulam:215-222`. -/
structure Iter where
  inst : Nat
  base : Nat
  cnt : Int
  cur : Int
  nxt : Nat
  deriving DecidableEq

/-- `share/ulam/stdlib/ClassUtils.ulam:234-241` `initFrom`; the cast of the count to `Int` saturates. -/
def initFrom (k : Natives) (inst base : Nat) : Iter := ⟨inst, base, min (k.count inst : Int) 2147483647, -1, maxof⟩

/-- `share/ulam/stdlib/ClassUtils.ulam:245-252` `hasNext`: the answer and the iterator after the call. -/
def hasNext (k : Natives) (it : Iter) : Bool × Iter :=
  if it.nxt = maxof then
    if it.cur + 1 ≥ it.cnt then (false, it)
    else
      if k.isBase (k.baseId it.inst (it.cur + 1).toNat) it.base then
        hasNext k { it with cur := it.cur + 1, nxt := k.baseId it.inst (it.cur + 1).toNat }
      else hasNext k { it with cur := it.cur + 1 }
  else (true, it)
termination_by (it.cnt - it.cur).toNat
decreasing_by all_goals omega

/-- `share/ulam/stdlib/ClassUtils.ulam:254-259` `next`; `none` is the failure. -/
def next (k : Natives) (it : Iter) : Option (Nat × Iter) :=
  match hasNext k it with
  | (false, _) => none
  | (true, i) => some (i.nxt, { i with nxt := maxof })

/-- `share/ulam/stdlib/ClassUtils.ulam:243-243` `currentIndex`. -/
def currentIndex (it : Iter) : Int := it.cur

/-! ## Copying -/

/-- An atom: the id of its class and its bits. -/
structure Atom where
  cls : Nat
  bit : Nat → Bool

/-- `AtomUtils.read`, native (`share/ulam/stdlib/AtomUtils.ulam`): `len` bits from `pos` on. -/
def read (a : Atom) (pos len : Nat) : List Bool := (List.range len).map fun i => a.bit (pos + i)

/-- `AtomUtils.writeCopy`, native: a copy of the atom with `val` in the `len` bits from `pos` on. -/
def writeCopy (a : Atom) (val : List Bool) (pos len : Nat) : Atom :=
  { a with bit := fun i => if pos ≤ i ∧ i < pos + len then val.getD (i - pos) false else a.bit i }

/-- How `copyClassDataMembers` ends: the number returned with the new `toelt`, or `\fails`. -/
inductive Result
  | done (r : Int) (to' : Atom) | failed

/-- `share/ulam/stdlib/ClassUtils.ulam:76-108` `copyClassDataMembers`. The two references are of two atoms. -/
def copyClass (k : Natives) (bci : Nat) (frm dst : Atom) : Result :=
  if ¬ k.isBase frm.cls bci = true then .done (-1) dst
  else if ¬ k.isBase dst.cls bci = true then .done (-1) dst
  else if k.dataSize bci = 0 then .done 0 dst
  else if k.dataSize bci > 32 then .failed
  else if k.dataPos bci (k.elementType dst.cls) < 0 then .done (-1) dst
  else if k.dataPos bci (k.elementType frm.cls) < 0 then .done (-1) dst
  else .done (k.dataSize bci)
    (writeCopy dst (read frm (25 + (k.dataPos bci (k.elementType frm.cls)).toNat) (k.dataSize bci))
      (25 + (k.dataPos bci (k.elementType dst.cls)).toNat) (k.dataSize bci))

/-- Addition of `Int(32)`s that are not negative. -/
def satAdd (a b : Int) : Int := min (a + b) 2147483647

/-- `hasNext` moves on, and never past the count. -/
theorem hasNext_measure (k : Natives) (it : Iter) :
    (hasNext k it).2.cnt = it.cnt ∧ it.cur ≤ (hasNext k it).2.cur ∧
      ((hasNext k it).1 = true → it.nxt = maxof → it.cur < (hasNext k it).2.cur ∧ (hasNext k it).2.cur < it.cnt) := by
  fun_induction hasNext k it with
  | case1 it h1 h2 => exact ⟨rfl, Int.le_refl _, fun q => (nomatch q)⟩
  | case2 it h1 h2 h3 ih =>
    obtain ⟨i1, i2, i3⟩ := ih
    dsimp only at i1 i2 i3
    refine ⟨i1, by omega, fun q _ => ?_⟩
    refine ⟨by omega, ?_⟩
    by_cases h : k.baseId it.inst (it.cur + 1).toNat = maxof
    · have := (i3 q h).2; omega
    · rw [hasNext, if_neg h]
      dsimp only
      omega
  | case3 it h1 h2 h3 ih =>
    obtain ⟨i1, i2, i3⟩ := ih
    dsimp only at i1 i2 i3
    refine ⟨i1, by omega, fun q _ => ?_⟩
    have := i3 q h1
    omega
  | case4 it h1 => exact ⟨rfl, Int.le_refl _, fun _ h => absurd h h1⟩

theorem hasNext_pending (k : Natives) (it : Iter) :
    ((hasNext k it).1 = false ↔ (hasNext k it).2.nxt = maxof) := by
  fun_induction hasNext k it with
  | case1 it h1 h2 => simp [h1]
  | case2 it h1 h2 h3 ih => exact ih
  | case3 it h1 h2 h3 ih => exact ih
  | case4 it h1 => simp [h1]

/-- What is left to do, for the loops that call `hasNext` and `next`. -/
def left (it : Iter) : Nat := 2 * (it.cnt - it.cur).toNat + (if it.nxt = maxof then 0 else 1)

theorem left_next (k : Natives) (it i : Iter) (ci : Nat) (h : next k it = some (ci, i)) : left i < left it := by
  unfold next at h
  have m := hasNext_measure k it
  split at h
  · cases h
  · rename_i j hj
    rw [hj] at m
    cases h
    dsimp only at m
    unfold left
    dsimp only
    rw [if_pos rfl]
    by_cases q : it.nxt = maxof
    · have := m.2.2 rfl q
      rw [if_pos q]; omega
    · rw [hasNext, if_neg q] at hj
      cases hj
      rw [if_neg q]; omega

theorem left_hasNext (k : Natives) (it : Iter) : left (hasNext k it).2 ≤ left it := by
  have m := hasNext_measure k it
  by_cases q : it.nxt = maxof
  · cases e : (hasNext k it).1
    · have := (hasNext_pending k it).1 e
      unfold left
      rw [if_pos q, if_pos this]
      omega
    · have := m.2.2 e q
      unfold left
      rw [if_pos q]
      split <;> omega
  · rw [hasNext, if_neg q]; exact Nat.le_refl _

/-- The loop of `share/ulam/stdlib/ClassUtils.ulam:130-136`. -/
def copyLoop (k : Natives) (frm : Atom) (it : Iter) (dst : Atom) (copied : Int) : Result :=
  match (hasNext k it).1 with
  | false => .done copied dst
  | true =>
    match h : next k (hasNext k it).2 with
    | none => .failed
    | some (ci, i) =>
      if ¬ k.isBase dst.cls ci = true then copyLoop k frm i dst copied
      else match copyClass k ci frm dst with
        | .failed => .failed
        | .done bits dst' => if bits < 0 then .done (-1) dst' else copyLoop k frm i dst' (satAdd copied bits)
termination_by left it
decreasing_by
  all_goals
    have h1 := left_next k _ _ _ h
    have h2 := left_hasNext k it
    omega

/-- `share/ulam/stdlib/ClassUtils.ulam:122-138` `copySharedData`; `ur` is `UrSelf.classidof`. -/
def copyShared (k : Natives) (ur : Nat) (frm dst : Atom) : Result :=
  if k.elementType dst.cls < 0 then .done (-1) dst
  else copyLoop k frm (initFrom k frm.cls ur) dst 0

end Ulam.ClassIter
