import Verif.ClassIter.Spec
/-! # C100: iterating over bases and copying what is shared -/
namespace Ulam.ClassIter
open Ulam.ClassIter.Spec

/-- What the iterator still has to give after the one it holds. -/
def rest (k : Natives) (it : Iter) : List Nat :=
  ((List.range (it.cnt - it.cur - 1).toNat).map fun j => k.baseId it.inst ((it.cur + 1).toNat + j)).filter
    fun ci => decide (ci ≠ maxof) && k.isBase ci it.base

theorem rest_step (k : Natives) (it : Iter) (h : it.cur + 1 < it.cnt) (h0 : -1 ≤ it.cur) :
    rest k it = (if k.baseId it.inst (it.cur + 1).toNat ≠ maxof ∧ k.isBase (k.baseId it.inst (it.cur + 1).toNat) it.base = true
      then [k.baseId it.inst (it.cur + 1).toNat] else []) ++ rest k { it with cur := it.cur + 1 } := by
  unfold rest
  dsimp only
  have e : (it.cnt - it.cur - 1).toNat = (it.cnt - (it.cur + 1) - 1).toNat + 1 := by omega
  rw [e, List.range_succ_eq_map, List.map_cons, List.map_map, List.filter_cons, Nat.add_zero]
  have f : ((fun j => k.baseId it.inst ((it.cur + 1).toNat + j)) ∘ Nat.succ) =
      fun j => k.baseId it.inst ((it.cur + 1 + 1).toNat + j) := by
    funext j
    have : (it.cur + 1).toNat + (j + 1) = (it.cur + 1 + 1).toNat + j := by omega
    simp only [Function.comp, Nat.succ_eq_add_one, this]
  rw [f]
  by_cases q : k.baseId it.inst (it.cur + 1).toNat ≠ maxof ∧ k.isBase (k.baseId it.inst (it.cur + 1).toNat) it.base = true
  · rw [if_pos q, if_pos (by simp only [Bool.and_eq_true, decide_eq_true_eq]; exact q)]
    rfl
  · rw [if_neg q, if_neg (by simp only [Bool.and_eq_true, decide_eq_true_eq]; exact q)]
    rfl

/-- One call of `hasNext` on an iterator that holds nothing. -/
theorem hasNext_rest (k : Natives) (it : Iter) (hn : it.nxt = maxof) (h0 : -1 ≤ it.cur) :
    match rest k it with
    | [] => (hasNext k it).1 = false
    | ci :: tl => ∃ i, hasNext k it = (true, i) ∧ i.nxt = ci ∧ ci ≠ maxof ∧ i.inst = it.inst ∧ i.base = it.base ∧ i.cnt = it.cnt ∧
        -1 ≤ i.cur ∧ rest k { i with nxt := maxof } = tl ∧ ci = k.baseId it.inst i.cur.toNat := by
  have key : ∀ m : Nat, ∀ it : Iter, (it.cnt - it.cur).toNat = m → it.nxt = maxof → -1 ≤ it.cur →
      match rest k it with
      | [] => (hasNext k it).1 = false
      | ci :: tl => ∃ i, hasNext k it = (true, i) ∧ i.nxt = ci ∧ ci ≠ maxof ∧ i.inst = it.inst ∧ i.base = it.base ∧ i.cnt = it.cnt ∧
          -1 ≤ i.cur ∧ rest k { i with nxt := maxof } = tl ∧ ci = k.baseId it.inst i.cur.toNat := by
    intro m
    induction m with
    | zero =>
      intro it hm hn h0
      have : rest k it = [] := by
        unfold rest
        rw [show (it.cnt - it.cur - 1).toNat = 0 by omega]
        rfl
      rw [this]
      dsimp only
      rw [hasNext, if_pos hn, if_pos (by omega)]
    | succ m ih =>
      intro it hm hn h0
      by_cases c : it.cur + 1 < it.cnt
      · rw [rest_step k it c h0, hasNext, if_pos hn, if_neg (show ¬ it.cur + 1 ≥ it.cnt by omega)]
        generalize hb : k.baseId it.inst (it.cur + 1).toNat = b
        have r : rest k { it with cur := it.cur + 1 } = rest k { it with cur := it.cur + 1, nxt := maxof } := rfl
        by_cases p : k.isBase b it.base = true
        · rw [if_pos p]
          by_cases q : b = maxof
          · rw [if_neg (fun z => z.1 q), List.nil_append]
            exact ih { it with cur := it.cur + 1, nxt := b } (by dsimp only; omega) q (by dsimp only; omega)
          · rw [if_pos ⟨q, p⟩]
            refine ⟨{ it with cur := it.cur + 1, nxt := b }, ?_, rfl, q, rfl, rfl, rfl, by dsimp only; omega, rfl, hb.symm⟩
            rw [hasNext, if_neg q]
        · rw [if_neg p, if_neg (fun z => p z.2), List.nil_append]
          exact ih { it with cur := it.cur + 1 } (by dsimp only; omega) hn (by dsimp only; omega)
      · have : rest k it = [] := by
          unfold rest
          rw [show (it.cnt - it.cur - 1).toNat = 0 by omega]
          rfl
        rw [this]
        dsimp only
        rw [hasNext, if_pos hn, if_pos (by omega)]
  exact key _ it rfl hn h0

theorem rest_init (k : Natives) (inst base : Nat) (hc : k.count inst ≤ 2147483647) :
    rest k (initFrom k inst base) = bases k inst base := by
  unfold rest bases initFrom
  dsimp only
  rw [show (min (k.count inst : Int) 2147483647 - -1 - 1).toNat = k.count inst by omega]
  have : (fun j => k.baseId inst ((-1 + 1 : Int).toNat + j)) = k.baseId inst := by
    funext j
    rw [show ((-1 + 1 : Int).toNat + j) = j by omega]
  rw [this]

theorem drain_rest (k : Natives) : ∀ (l : List Nat) (it : Iter), it.nxt = maxof → -1 ≤ it.cur → rest k it = l → drain k it = l := by
  intro l
  induction l with
  | nil =>
    intro it hn h0 hr
    have h := hasNext_rest k it hn h0
    rw [hr] at h
    dsimp only at h
    rw [drain]
    have : next k it = none := by
      unfold next
      cases e : hasNext k it with
      | mk a b => rw [e] at h; cases h; rfl
    split
    · rfl
    · rename_i q; rw [this] at q; cases q
  | cons ci tl ih =>
    intro it hn h0 hr
    have h := hasNext_rest k it hn h0
    rw [hr] at h
    obtain ⟨i, h1, h2, h3, h4, h5, h6, h7, h8, -⟩ := h
    have : next k it = some (ci, { i with nxt := maxof }) := by
      unfold next
      rw [h1]
      dsimp only
      rw [h2]
    rw [drain]
    split
    · rename_i q; rw [this] at q; cases q
    · rename_i c j q
      rw [this] at q
      cases q
      rw [ih { i with nxt := maxof } rfl h7 h8]

/-- A library with four classes: 1 has the bases 1, 2 and 3, of which 3 is not a base of 2 alone; class 0 is everybody's base. -/
def lib : Natives where
  count := fun c => if c = 1 ∨ c = 4 then 3 else 1
  baseId := fun c i => if c = 1 then i + 1 else if c = 4 then (if i = 0 then 4 else i + 1) else c
  isBase := fun c b => decide (b = 0 ∨ c = b) || ((c = 1 ∨ c = 4) && (b = 2 ∨ b = 3))
  elementType := fun c => if c = 1 then 10 else if c = 4 then 11 else -1
  dataSize := fun c => c
  dataPos := fun c e => if e = 10 then (if c = 2 then 0 else 5) else if c = 2 then 8 else 3

/-- **C100.** The iterator gives every base the library lists that passes the filter, each once, in the order of the list, and
then nothing more. -/
theorem C100_iterates (k : Natives) (inst base : Nat) (hc : k.count inst ≤ 2147483647) :
    drain k (initFrom k inst base) = bases k inst base :=
  drain_rest k _ _ rfl (Int.le_refl _) (rest_init k inst base hc)

example : bases lib 1 0 = [1, 2, 3] ∧ bases lib 1 2 = [1, 2] ∧ lib.count 1 ≤ 2147483647 := by decide +kernel

/-- **C100.** Asking again does not change the answer nor the iterator. -/
theorem C100_hasNext_idempotent (k : Natives) (it : Iter) : hasNext k (hasNext k it).2 = hasNext k it := by
  fun_induction hasNext k it with
  | case1 it h1 h2 => rw [hasNext, if_pos h1, if_pos h2]
  | case2 it h1 h2 h3 ih => exact ih
  | case3 it h1 h2 h3 ih => exact ih
  | case4 it h1 => rw [hasNext, if_neg h1]

/-- **C100.** `next` gives something exactly when `hasNext` says so, and the same whether it was asked before or not. -/
theorem C100_next (k : Natives) (it : Iter) :
    ((next k it).isSome = (hasNext k it).1) ∧ next k (hasNext k it).2 = next k it := by
  refine ⟨?_, ?_⟩
  · unfold next
    split <;> rename_i h <;> rw [h] <;> rfl
  · unfold next
    rw [C100_hasNext_idempotent]

/-- **C100.** After `next`, `currentIndex` is the place of what was given in the list of the library, and places grow. -/
theorem C100_index (k : Natives) (it i : Iter) (ci : Nat) (hn : it.nxt = maxof) (h0 : -1 ≤ it.cur) (h : next k it = some (ci, i)) :
    ci = k.baseId it.inst (currentIndex i).toNat ∧ currentIndex it < currentIndex i ∧ currentIndex i < it.cnt := by
  have r := hasNext_rest k it hn h0
  have m := hasNext_measure k it
  unfold next at h
  split at h
  · cases h
  · rename_i j hj
    cases h
    rw [hj] at m
    have m := m.2.2 rfl hn
    cases e : rest k it with
    | nil => rw [e] at r; dsimp only at r; rw [hj] at r; cases r
    | cons c tl =>
      rw [e] at r
      obtain ⟨i, h1, h2, -, -, -, -, -, -, h9⟩ := r
      rw [hj] at h1
      cases h1
      exact ⟨by rw [h2, h9]; rfl, m.1, m.2⟩

example : next lib (initFrom lib 1 2) = some (1, ⟨1, 2, 3, 0, maxof⟩) := by decide +kernel

/-! ## Copying -/

/-- The loop over a list of classes. -/
def copyList (k : Natives) (frm : Atom) : List Nat → Atom → Int → Result
  | [], dst, copied => .done copied dst
  | ci :: l, dst, copied =>
    if ¬ k.isBase dst.cls ci = true then copyList k frm l dst copied
    else match copyClass k ci frm dst with
      | .failed => .failed
      | .done bits dst' => if bits < 0 then .done (-1) dst' else copyList k frm l dst' (satAdd copied bits)

theorem copyLoop_rest (k : Natives) (frm : Atom) : ∀ (l : List Nat) (it : Iter) (dst : Atom) (copied : Int), it.nxt = maxof →
    -1 ≤ it.cur → rest k it = l → copyLoop k frm it dst copied = copyList k frm l dst copied := by
  intro l
  induction l with
  | nil =>
    intro it dst copied hn h0 hr
    have h := hasNext_rest k it hn h0
    rw [hr] at h
    dsimp only at h
    rw [copyLoop, h, copyList]
  | cons ci tl ih =>
    intro it dst copied hn h0 hr
    have h := hasNext_rest k it hn h0
    rw [hr] at h
    obtain ⟨i, h1, h2, h3, h4, h5, h6, h7, h8, -⟩ := h
    have hx : next k (hasNext k it).2 = some (ci, { i with nxt := maxof }) := by
      rw [(C100_next k it).2]
      unfold next
      rw [h1]
      dsimp only
      rw [h2]
    rw [copyLoop, show (hasNext k it).1 = true by rw [h1]]
    dsimp only
    split
    · rename_i q; rw [hx] at q; cases q
    · rename_i c j q
      rw [hx] at q
      cases q
      rw [copyList]
      split
      · exact ih { i with nxt := maxof } _ _ rfl h7 h8
      · cases copyClass k ci frm dst with
        | failed => rfl
        | done b d =>
          dsimp only
          split
          · rfl
          · exact ih { i with nxt := maxof } _ _ rfl h7 h8

theorem copyShared_list (k : Natives) (ur : Nat) (frm dst : Atom) (hc : k.count frm.cls ≤ 2147483647)
    (he : 0 ≤ k.elementType dst.cls) : copyShared k ur frm dst = copyList k frm (bases k frm.cls ur) dst 0 := by
  unfold copyShared
  rw [if_neg (by omega)]
  exact copyLoop_rest k frm _ _ _ _ rfl (Int.le_refl _) (rest_init k frm.cls ur hc)

theorem copyClass_placed (k : Natives) (frm dst : Atom) (ci : Nat) (p : Placed k frm dst ci) (hb : k.isBase dst.cls ci = true)
    (hs : k.dataSize ci ≤ 32) :
    ∃ d, copyClass k ci frm dst = .done (k.dataSize ci) d ∧ d.cls = dst.cls ∧
      (∀ i, Owns k dst ci i → d.bit i = frm.bit (start k frm ci + (i - start k dst ci))) ∧
      (∀ i, ¬ Owns k dst ci i → d.bit i = dst.bit i) := by
  have p1 := p.fromPos
  have p2 := p.toPos
  unfold copyClass
  rw [if_neg (by simp [p.fromBase]), if_neg (by simp [hb])]
  by_cases z : k.dataSize ci = 0
  · rw [if_pos z]
    refine ⟨dst, by rw [z]; rfl, rfl, ?_, fun _ _ => rfl⟩
    intro i q
    unfold Owns at q
    omega
  · rw [if_neg z, if_neg (by omega), if_neg (by omega), if_neg (by omega)]
    refine ⟨_, rfl, rfl, ?_, ?_⟩
    · intro i q
      unfold Owns at q
      dsimp only [writeCopy, read]
      unfold start at *
      rw [if_pos q]
      have : i - (25 + (k.dataPos ci (k.elementType dst.cls)).toNat) < k.dataSize ci := by omega
      simp [List.getD, this]
    · intro i q
      unfold Owns start at q
      dsimp only [writeCopy]
      rw [if_neg q]

theorem copyList_ok (k : Natives) (frm : Atom) : ∀ (l : List Nat) (dst : Atom) (copied : Int), 0 ≤ copied →
    (∀ ci ∈ shared k dst l, Placed k frm dst ci ∧ k.dataSize ci ≤ 32) → Apart k dst (shared k dst l) →
    copied + (((shared k dst l).map k.dataSize).sum : Int) ≤ 2147483647 →
    ∃ d, copyList k frm l dst copied = .done (copied + (((shared k dst l).map k.dataSize).sum : Int)) d ∧ d.cls = dst.cls ∧
      (∀ ci ∈ shared k dst l, ∀ i, Owns k dst ci i → d.bit i = frm.bit (start k frm ci + (i - start k dst ci))) ∧
      (∀ i, (∀ ci ∈ shared k dst l, ¬ Owns k dst ci i) → d.bit i = dst.bit i) := by
  intro l
  induction l with
  | nil =>
    intro dst copied _ _ _ _
    refine ⟨dst, ?_, rfl, ?_, fun _ _ => rfl⟩
    · simp [copyList, shared]
    · intro ci h; cases h
  | cons x l ih =>
    intro dst copied h0 hp ha hs
    by_cases b : k.isBase dst.cls x = true
    · have e : shared k dst (x :: l) = x :: shared k dst l := by simp [shared, b]
      rw [e] at hp ha hs ⊢
      rw [List.map_cons, List.sum_cons] at hs ⊢
      obtain ⟨d, h1, h2, h3, h4⟩ := copyClass_placed k frm dst x (hp x (List.mem_cons_self ..)).1 b (hp x (List.mem_cons_self ..)).2
      have es : shared k d l = shared k dst l := by unfold shared; rw [h2]
      have eo : ∀ ci i, Owns k d ci i ↔ Owns k dst ci i := by intro ci i; unfold Owns start; rw [h2]
      have est : ∀ ci, start k d ci = start k dst ci := by intro ci; unfold start; rw [h2]
      push_cast at hs
      have sa : satAdd copied (k.dataSize x) = copied + k.dataSize x := by
        unfold satAdd
        have : (0 : Int) ≤ (((shared k dst l).map k.dataSize).sum : Int) := Int.natCast_nonneg _
        omega
      obtain ⟨d', g1, g2, g3, g4⟩ := ih d (copied + k.dataSize x) (by omega)
        (by rw [es]; intro ci hc
            have := hp ci (List.mem_cons_of_mem _ hc)
            exact ⟨⟨this.1.fromBase, this.1.fromPos, by rw [h2]; exact this.1.toPos⟩, this.2⟩)
        (by rw [es]; intro a ha1 c hc1 i o1 o2
            exact ha a (List.mem_cons_of_mem _ ha1) c (List.mem_cons_of_mem _ hc1) i ((eo _ _).1 o1) ((eo _ _).1 o2))
        (by rw [es]; omega)
      rw [es] at g1 g3 g4
      have tail : ∀ ci ∈ shared k dst l, ∀ i, Owns k dst ci i → d'.bit i = frm.bit (start k frm ci + (i - start k dst ci)) := by
        intro ci hc i o
        rw [g3 ci hc i ((eo _ _).2 o), est]
      refine ⟨d', ?_, g2.trans h2, ?_, ?_⟩
      · rw [copyList, if_neg (by simp [b]), h1]
        dsimp only
        rw [if_neg (by omega), sa, g1]
        push_cast
        congr 1
        omega
      · intro ci hc i o
        rcases List.mem_cons.1 hc with rfl | hc
        · by_cases q : ∃ y ∈ shared k dst l, Owns k dst y i
          · obtain ⟨y, hy, oy⟩ := q
            have := ha ci (List.mem_cons_self ..) y (List.mem_cons_of_mem _ hy) i o oy
            subst this
            exact tail ci hy i o
          · rw [g4 i (fun y hy oy => q ⟨y, hy, (eo _ _).1 oy⟩)]
            exact h3 i o
        · exact tail ci hc i o
      · intro i hi
        rw [g4 i (fun y hy oy => hi y (List.mem_cons_of_mem _ hy) ((eo _ _).1 oy))]
        exact h4 i (hi x (List.mem_cons_self ..))
    · have e : shared k dst (x :: l) = shared k dst l := by simp [shared, b]
      rw [e] at hp ha hs ⊢
      rw [copyList, if_pos b]
      exact ih dst copied h0 hp ha hs

/-- **C100.** Copying what two atoms share leaves in the target, for every class both have, the data members of the source, every
other bit as it was and the class as it was, and returns how many bits that are; classes of more than 32 bits excepted. -/
theorem C100_copies_shared (k : Natives) (ur : Nat) (frm dst : Atom) (hc : k.count frm.cls ≤ 2147483647)
    (he : 0 ≤ k.elementType dst.cls)
    (hp : ∀ ci ∈ shared k dst (bases k frm.cls ur), Placed k frm dst ci ∧ k.dataSize ci ≤ 32)
    (ha : Apart k dst (shared k dst (bases k frm.cls ur)))
    (hs : ((shared k dst (bases k frm.cls ur)).map k.dataSize).sum ≤ 2147483647) :
    ∃ d, copyShared k ur frm dst = .done (((shared k dst (bases k frm.cls ur)).map k.dataSize).sum : Int) d ∧ d.cls = dst.cls ∧
      (∀ ci ∈ shared k dst (bases k frm.cls ur), ∀ j, j < k.dataSize ci → d.bit (start k dst ci + j) = frm.bit (start k frm ci + j)) ∧
      (∀ i, (∀ ci ∈ shared k dst (bases k frm.cls ur), ¬ Owns k dst ci i) → d.bit i = dst.bit i) := by
  rw [copyShared_list k ur frm dst hc he]
  obtain ⟨d, h1, h2, h3, h4⟩ := copyList_ok k frm (bases k frm.cls ur) dst 0 (Int.le_refl _) hp ha (by omega)
  refine ⟨d, by rw [h1, Int.zero_add], h2, fun ci hci j hj => ?_, h4⟩
  rw [h3 ci hci _ ⟨Nat.le_add_right .., by omega⟩, show start k dst ci + j - start k dst ci = j by omega]

theorem copyList_big (k : Natives) (frm : Atom) : ∀ (l : List Nat) (dst : Atom) (copied : Int), (∃ ci ∈ shared k dst l, k.dataSize ci > 32) →
    (∀ ci ∈ shared k dst l, Placed k frm dst ci) → copyList k frm l dst copied = .failed := by
  intro l
  induction l with
  | nil => rintro dst copied ⟨_, h, _⟩; cases h
  | cons x l ih =>
    intro dst copied hb hp
    by_cases b : k.isBase dst.cls x = true
    · have e : shared k dst (x :: l) = x :: shared k dst l := by simp [shared, b]
      rw [e] at hb hp
      rw [copyList, if_neg (by simp [b])]
      have px := hp x (List.mem_cons_self ..)
      by_cases z : k.dataSize x > 32
      · have : copyClass k x frm dst = .failed := by
          unfold copyClass
          rw [if_neg (by simp [px.fromBase]), if_neg (by simp [b]), if_neg (by omega), if_pos z]
        rw [this]
      · obtain ⟨d, h1, h2, -, -⟩ := copyClass_placed k frm dst x px b (by omega)
        rw [h1]
        dsimp only
        rw [if_neg (by omega)]
        have es : shared k d l = shared k dst l := by unfold shared; rw [h2]
        apply ih
        · rw [es]
          obtain ⟨c, hc, hz⟩ := hb
          rcases List.mem_cons.1 hc with rfl | hc
          · exact absurd hz z
          · exact ⟨c, hc, hz⟩
        · rw [es]
          intro c hc
          have := hp c (List.mem_cons_of_mem _ hc)
          exact ⟨this.fromBase, this.fromPos, by rw [h2]; exact this.toPos⟩
    · have e : shared k dst (x :: l) = shared k dst l := by simp [shared, b]
      rw [e] at hb hp
      rw [copyList, if_pos b]
      exact ih dst copied hb hp

/-- **C100.** When a shared class has more than 32 bits, the copy fails, as announced; it is not cut short. -/
theorem C100_big_class_fails_loudly (k : Natives) (ur : Nat) (frm dst : Atom) (hc : k.count frm.cls ≤ 2147483647)
    (he : 0 ≤ k.elementType dst.cls) (hp : ∀ ci ∈ shared k dst (bases k frm.cls ur), Placed k frm dst ci)
    (hb : ∃ ci ∈ shared k dst (bases k frm.cls ur), k.dataSize ci > 32) : copyShared k ur frm dst = .failed := by
  rw [copyShared_list k ur frm dst hc he]
  exact copyList_big k frm _ dst 0 hb hp

/-- **C100.** Nothing is copied into an atom that is of no element. -/
theorem C100_no_element (k : Natives) (ur : Nat) (frm dst : Atom) (he : k.elementType dst.cls < 0) :
    copyShared k ur frm dst = .done (-1) dst := by
  unfold copyShared
  rw [if_pos he]

def full : Atom := ⟨1, fun _ => true⟩
def empty : Atom := ⟨4, fun _ => false⟩

/-- The hypotheses of `C100_copies_shared` hold of two atoms that share the classes 2 and 3. -/
example : shared lib empty (bases lib full.cls 0) = [2, 3] ∧ 0 ≤ lib.elementType empty.cls ∧
    (∀ ci ∈ [2, 3], Placed lib full empty ci ∧ lib.dataSize ci ≤ 32) ∧ Apart lib empty [2, 3] := by
  refine ⟨by decide +kernel, by decide, ?_, ?_⟩
  · intro ci h
    simp only [List.mem_cons, List.not_mem_nil, or_false] at h
    rcases h with rfl | rfl <;> exact ⟨⟨by decide, by decide, by decide⟩, by decide⟩
  · intro x hx y hy i h1 h2
    simp only [List.mem_cons, List.not_mem_nil, or_false] at hx hy
    unfold Owns start at h1 h2
    rcases hx with rfl | rfl <;> rcases hy with rfl | rfl <;> simp [lib, empty] at h1 h2 ⊢ <;> omega

/-- Bits 33 and 34 are of class 2, bits 28 to 30 of class 3. -/
example : (match copyShared lib 0 full empty with
    | .done r d => decide (r = 5) && d.bit 33 && d.bit 34 && d.bit 28 && d.bit 29 && d.bit 30 && !d.bit 31 && !d.bit 32 && !d.bit 27
    | .failed => false) = true := by decide +kernel

/-- As `lib`, without a place for the data of class 3 in the element of class 4. -/
def holey : Natives := { lib with dataPos := fun c e => if e = 11 ∧ c = 3 then -1 else lib.dataPos c e }

/-- **C100.** That `-1` is returned does not mean that nothing was copied: the classes before the one without a place are. -/
theorem C100_unchanged_on_refusal_fails : ¬ ∀ (k : Natives) (ur : Nat) (frm dst d : Atom),
    copyShared k ur frm dst = .done (-1) d → d.bit = dst.bit := by
  intro h
  have e : (match copyShared holey 0 full empty with
    | .done r d => decide (r = -1) && d.bit 33
    | .failed => false) = true := by decide +kernel
  cases c : copyShared holey 0 full empty with
  | failed => rw [c] at e; cases e
  | done r d =>
    rw [c] at e
    simp only [Bool.and_eq_true, decide_eq_true_eq] at e
    obtain ⟨rfl, e⟩ := e
    have := congrFun (h holey 0 full empty d c) 33
    rw [e] at this
    cases this

end Ulam.ClassIter
