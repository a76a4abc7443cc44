import Verif.Layout.Spec
import Verif.Walker.Props
/-! # Helper lemmas for layout -/
namespace Ulam.Layout
open Walker Walker.Spec Spec
variable {n : Nat}

/-- Running starts of consecutive pieces. -/
def starts : Nat → List Nat → List Nat
  | _, [] => []
  | off, s :: ss => off :: starts (off + s) ss

theorem starts_length (off : Nat) (l : List Nat) : (starts off l).length = l.length := by
  induction l generalizing off with
  | nil => rfl
  | cons s l ih => simp [starts, ih]

theorem starts_get (off : Nat) (l : List Nat) (i : Nat) (h : i < l.length) :
    (starts off l)[i]? = some (off + (l.take i).sum) := by
  induction l generalizing off i with
  | nil => simp at h
  | cons s l ih =>
    cases i with
    | zero => simp [starts]
    | succ i =>
      simp only [starts, List.getElem?_cons_succ, List.take_succ_cons, List.sum_cons]
      rw [ih (off + s) i (by simpa using h)]
      congr 1; omega

theorem starts_cover (off : Nat) (l : List Nat) (x : Nat) :
    (∃ i q s : Nat, (starts off l)[i]? = some q ∧ l[i]? = some s ∧ Covers q s x) ↔ off ≤ x ∧ x < off + l.sum := by
  induction l generalizing off with
  | nil => simp [starts]
  | cons s l ih =>
    rw [List.sum_cons]
    constructor
    · rintro ⟨i, q, t, h1, h2, h3⟩
      cases i with
      | zero =>
        simp only [starts, List.getElem?_cons_zero, Option.some.injEq] at h1 h2
        subst h1; subst h2
        unfold Covers at h3
        omega
      | succ i =>
        simp only [starts, List.getElem?_cons_succ] at h1 h2
        have := (ih (off + s)).1 ⟨i, q, t, h1, h2, h3⟩
        omega
    · rintro ⟨h1, h2⟩
      by_cases hx : x < off + s
      · exact ⟨0, off, s, rfl, rfl, h1, hx⟩
      · obtain ⟨i, q, t, k1, k2, k3⟩ := (ih (off + s)).2 ⟨by omega, by omega⟩
        exact ⟨i + 1, q, t, k1, k2, k3⟩

theorem starts_unique (off : Nat) (l : List Nat) (x i j q r s t : Nat) (h1 : (starts off l)[i]? = some q) (h2 : l[i]? = some s)
    (h3 : Covers q s x) (k1 : (starts off l)[j]? = some r) (k2 : l[j]? = some t) (k3 : Covers r t x) : i = j := by
  induction l generalizing off i j with
  | nil => simp at h2
  | cons u l ih =>
    have low : ∀ i q s : Nat, (starts (off + u) l)[i]? = some q → l[i]? = some s → Covers q s x → off + u ≤ x := fun i q s a b c =>
      ((starts_cover (off + u) l x).1 ⟨i, q, s, a, b, c⟩).1
    cases i with
    | zero =>
      cases j with
      | zero => rfl
      | succ j =>
        simp only [starts, List.getElem?_cons_succ, List.getElem?_cons_zero, Option.some.injEq] at h1 h2 k1 k2
        have := low _ _ _ k1 k2 k3
        unfold Covers at h3
        omega
    | succ i =>
      cases j with
      | zero =>
        simp only [starts, List.getElem?_cons_succ, List.getElem?_cons_zero, Option.some.injEq] at h1 h2 k1 k2
        have := low _ _ _ h1 h2 h3
        unfold Covers at k3
        omega
      | succ j =>
        simp only [starts, List.getElem?_cons_succ] at h1 h2 k1 k2
        rw [ih (off + u) i j h1 h2 k1 k2]

theorem sizeof_eq (m : Member) (h : size m < 2 ^ 32) : m.sizeof = size m := by
  unfold Member.sizeof Member.totalBitSize bitsPerAtom Member.count
  unfold size at h ⊢
  cases hm : m.element <;> rw [hm] at h <;> simp only [if_true, Bool.false_eq_true, if_false] at h ⊢ <;> exact Nat.mod_eq_of_lt h

theorem packMembers_eq (off : Nat) (ms : List Member) (h : off + (ms.map size).sum < 2 ^ 32) :
    packMembers false off ms = (starts off (ms.map size), off + (ms.map size).sum) := by
  induction ms generalizing off with
  | nil => rfl
  | cons m ms ih =>
    rw [List.map_cons, List.sum_cons] at h
    simp only [packMembers, Bool.false_eq_true, if_false]
    rw [sizeof_eq m (by omega), Nat.mod_eq_of_lt (by omega), ih _ (by omega)]
    simp only [List.map_cons, starts, List.sum_cons, Prod.mk.injEq, true_and]
    omega

theorem packMembers_union (off : Nat) (ms : List Member) :
    packMembers true off ms = (List.replicate ms.length off, off) := by
  induction ms with
  | nil => rfl
  | cons m ms ih => simp only [packMembers, if_true, ih, List.length_cons, List.replicate_succ]

theorem counted_eq (transient : Bool) (m : Member) (ht : m.element = true → transient = true) (h : size m < 2 ^ 32) :
    (if (transient && m.element) = true then bitsPerAtom * m.count else m.totalBitSize) = size m := by
  unfold Member.totalBitSize bitsPerAtom Member.count
  unfold size at h ⊢
  cases hm : m.element
  · rw [hm] at h
    simp only [Bool.and_false, Bool.false_eq_true, if_false] at h ⊢
    exact Nat.mod_eq_of_lt h
  · rw [ht hm]; rfl

theorem total_eq (transient : Bool) (ms : List Member) (ht : ∀ m ∈ ms, m.element = true → transient = true) (t : Nat)
    (h : t + (ms.map size).sum < 2 ^ 32) :
    ms.foldl (fun t m => (t + (if transient && m.element then bitsPerAtom * m.count else m.totalBitSize)) % 2 ^ 32) t =
      t + (ms.map size).sum := by
  induction ms generalizing t with
  | nil => simp
  | cons m ms ih =>
    rw [List.map_cons, List.sum_cons] at h ⊢
    rw [List.foldl_cons, counted_eq transient m (ht m (by simp)) (by omega), Nat.mod_eq_of_lt (by omega),
      ih (fun x hx => ht x (by simp [hx])) _ (by omega)]
    omega

theorem max_eq (ms : List Member) (ht : ∀ m ∈ ms, m.element = false) (t : Nat)
    (h : ∀ m ∈ ms, size m < 2 ^ 32) :
    ms.foldl (fun t m => if m.totalBitSize > t then m.totalBitSize else t) t = max t ((ms.map size).foldr max 0) := by
  induction ms generalizing t with
  | nil => simp
  | cons m ms ih =>
    have e : m.totalBitSize = size m := by
      have h1 := sizeof_eq m (h m (by simp))
      unfold Member.sizeof at h1
      rw [ht m (by simp)] at h1
      exact h1
    rw [List.foldl_cons, ih (fun x hx => ht x (by simp [hx])) _ (fun x hx => h x (by simp [hx])), e]
    simp only [List.map_cons, List.foldr_cons]
    split <;> omega

theorem foldr_max_perm {l1 l2 : List Nat} (h : l1.Perm l2) : l1.foldr max 0 = l2.foldr max 0 := by
  induction h with
  | nil => rfl
  | cons x _ ih => simp [ih]
  | swap x y l => simp only [List.foldr_cons]; omega
  | trans _ _ ih1 ih2 => rw [ih1, ih2]

theorem sum_perm {l1 l2 : List Nat} (h : l1.Perm l2) : l1.sum = l2.sum := by
  induction h with
  | nil => rfl
  | cons x _ ih => simp [ih]
  | swap x y l => simp only [List.sum_cons]; omega
  | trans _ _ ih1 ih2 => rw [ih1, ih2]

theorem le_foldr_max {l : List Nat} {x : Nat} (h : x ∈ l) : x ≤ l.foldr max 0 := by
  induction l with
  | nil => cases h
  | cons y l ih =>
    rw [List.foldr_cons]
    rcases List.mem_cons.1 h with rfl | h
    · omega
    · have := ih h; omega

theorem le_sum {l : List Nat} {x : Nat} (h : x ∈ l) : x ≤ l.sum := by
  induction l with
  | nil => cases h
  | cons y l ih =>
    rw [List.sum_cons]
    rcases List.mem_cons.1 h with rfl | h
    · omega
    · have := ih h; omega

theorem sum_le_of_le {α : Type} (l : List α) (f g : α → Nat) (h : ∀ x ∈ l, f x ≤ g x) : (l.map f).sum ≤ (l.map g).sum := by
  induction l with
  | nil => simp
  | cons x l ih =>
    simp only [List.map_cons, List.sum_cons]
    have := h x (by simp)
    have := ih fun y hy => h y (by simp [hy])
    omega

theorem myBits_eq (k : Class) (wf : Wf k) (h : ownBits k < 2 ^ 32) : myBits k = ownBits k := by
  unfold myBits
  cases hu : k.isUnion
  · simp only [Bool.false_eq_true, if_false]
    unfold ownBits at h ⊢
    rw [hu] at h ⊢
    simp only [Bool.false_eq_true, if_false] at h ⊢
    have hp := sum_perm (wf.table_perm.map size)
    unfold totalVariableBits
    rw [total_eq, hp]
    · simp
    · intro m hm he
      exact decide_eq_true (wf.element_in_transient m (wf.table_perm.mem_iff.1 hm) he)
    · rw [hp]; simpa using h
  · simp only [if_true]
    unfold ownBits at h ⊢
    rw [hu] at h ⊢
    simp only [if_true] at h ⊢
    have hp := foldr_max_perm (wf.table_perm.map size)
    unfold maxVariableBits
    rw [max_eq, hp]
    · simp
    · intro m hm
      have hq := wf.union_quark hu
      cases he : m.element
      · rfl
      · have := wf.element_in_transient m (wf.table_perm.mem_iff.1 hm) he
        rw [hq] at this; cases this
    · intro m hm
      have := le_foldr_max (List.mem_map_of_mem (f := size) hm)
      rw [hp] at this
      omega

/-- Where `b` starts when the parts of `bs` are placed one after the other. -/
def posIn (sz : Fin n → Nat) : Nat → List (Fin n) → Fin n → Option Nat
  | _, [], _ => none
  | off, x :: xs, b => if x = b then some off else posIn sz (off + sz x) xs b

theorem posIn_none (sz : Fin n → Nat) (off : Nat) (l : List (Fin n)) (b : Fin n) : posIn sz off l b = none ↔ b ∉ l := by
  induction l generalizing off with
  | nil => simp [posIn]
  | cons x l ih =>
    simp only [posIn, List.mem_cons, not_or]
    split
    · rename_i h; subst h; simp
    · rename_i h
      rw [ih]
      exact ⟨fun q => ⟨fun e => h e.symm, q⟩, fun q => q.2⟩

theorem posIn_append (sz : Fin n → Nat) (off : Nat) (l1 l2 : List (Fin n)) (b : Fin n) :
    posIn sz off (l1 ++ l2) b = (posIn sz off l1 b).or (posIn sz (off + (l1.map sz).sum) l2 b) := by
  induction l1 generalizing off with
  | nil => simp [posIn]
  | cons x l ih =>
    simp only [List.cons_append, posIn, List.map_cons, List.sum_cons]
    split
    · rfl
    · rw [ih]; congr 2; omega

theorem posIn_bound (sz : Fin n → Nat) (off : Nat) (l : List (Fin n)) (b : Fin n) (p : Nat) (h : posIn sz off l b = some p) :
    off ≤ p ∧ p + sz b ≤ off + (l.map sz).sum := by
  induction l generalizing off with
  | nil => cases h
  | cons x l ih =>
    simp only [posIn] at h
    simp only [List.map_cons, List.sum_cons]
    split at h
    · rename_i e; subst e; cases h; omega
    · have := ih _ h; omega

theorem posIn_cover (sz : Fin n → Nat) (off : Nat) (l : List (Fin n)) (nd : l.Nodup) (x : Nat) :
    (∃ a p, posIn sz off l a = some p ∧ Covers p (sz a) x) ↔ off ≤ x ∧ x < off + (l.map sz).sum := by
  constructor
  · rintro ⟨a, p, h1, h2⟩
    have := posIn_bound sz off l a p h1
    unfold Covers at h2
    omega
  · intro ⟨h1, h2⟩
    induction l generalizing off with
    | nil => simp at h2; omega
    | cons y l ih =>
      simp only [List.map_cons, List.sum_cons] at h2
      rw [List.nodup_cons] at nd
      by_cases hx : x < off + sz y
      · exact ⟨y, off, by simp [posIn], h1, hx⟩
      · obtain ⟨a, p, k1, k2⟩ := ih (off + sz y) nd.2 (by omega) (by omega)
        refine ⟨a, p, ?_, k2⟩
        have : a ∈ l := by
          by_contra q
          rw [(posIn_none sz _ l a).2 q] at k1; cases k1
        simp only [posIn]
        rw [if_neg (by intro e; rw [e] at nd; exact nd.1 this)]
        exact k1

theorem posIn_unique (sz : Fin n → Nat) (off : Nat) (l : List (Fin n)) (x : Nat) (a b : Fin n) (p q : Nat)
    (h1 : posIn sz off l a = some p) (h2 : Covers p (sz a) x) (k1 : posIn sz off l b = some q) (k2 : Covers q (sz b) x) : a = b := by
  induction l generalizing off with
  | nil => cases h1
  | cons y l ih =>
    simp only [posIn] at h1 k1
    unfold Covers at h2 k2
    split at h1 <;> split at k1
    · rename_i e1 e2; rw [← e1, ← e2]
    · rename_i e1 e2
      subst e1
      have := posIn_bound sz _ l b q k1
      cases h1
      omega
    · rename_i e1 e2
      subst e2
      have := posIn_bound sz _ l a p h1
      cases k1
      omega
    · exact ih _ h1 k1

/-- The classes among the direct bases. -/
def direct (w : World n) (es : List (Entry n)) : List (Fin n) := (es.map (·.base)).filter fun b => decide (b ≠ w.nouti)

theorem direct_cons (w : World n) (e : Entry n) (es : List (Entry n)) :
    direct w (e :: es) = if e.base = w.nouti then direct w es else e.base :: direct w es := by
  unfold direct
  rw [List.map_cons]
  split
  · rename_i h; rw [List.filter_cons_of_neg (by simp [h])]
  · rename_i h; rw [List.filter_cons_of_pos (by simp [h])]

theorem packBases_ok (w : World n) (L : Fin n → Class) (off : Nat) (m : PosMap n) (es : List (Entry n))
    (nd : (direct w es).Nodup) (hm : ∀ b ∈ direct w es, m b = none)
    (fit : off + ((direct w es).map (baseBits L)).sum < 2 ^ 32) :
    ∃ bp m', packBases w L off m es = some (bp, m', off + ((direct w es).map (baseBits L)).sum) ∧
      (∀ b, m' b = (posIn (baseBits L) off (direct w es) b).or (m b)) ∧
      ∀ (i : Nat) (e : Entry n), es[i]? = some e → e.base ≠ w.nouti → (bp[i]?).join = posIn (baseBits L) off (direct w es) e.base := by
  induction es generalizing off m with
  | nil => exact ⟨[], m, rfl, fun b => by simp [direct, posIn], fun i e h => by simp at h⟩
  | cons e es ih =>
    rw [direct_cons] at nd hm fit ⊢
    simp only [packBases]
    split
    · rename_i h
      rw [if_pos h] at nd hm fit
      obtain ⟨bp, m', h1, h2, h3⟩ := ih off m nd hm fit
      refine ⟨none :: bp, m', by rw [h1]; rfl, h2, ?_⟩
      intro i x hx hb
      cases i with
      | zero => simp only [List.getElem?_cons_zero, Option.some.injEq] at hx; exact absurd (hx ▸ h) hb
      | succ i => exact h3 i x hx hb
    · rename_i h
      rw [if_neg h] at nd hm fit
      rw [List.nodup_cons] at nd
      rw [List.map_cons, List.sum_cons] at fit ⊢
      rw [hm e.base (by simp)]
      have hm' : ∀ b ∈ direct w es, Function.update m e.base (some off) b = none := by
        intro b hb
        rw [Function.update_of_ne (by intro q; rw [q] at hb; exact nd.1 hb)]
        exact hm b (by simp [hb])
      obtain ⟨bp, m', h1, h2, h3⟩ := ih (off + baseBits L e.base) _ nd.2 hm' (by omega)
      have hmod : (off + baseBits L e.base) % 2 ^ 32 = off + baseBits L e.base := Nat.mod_eq_of_lt (by omega)
      refine ⟨some off :: bp, m', ?_, ?_, ?_⟩
      · simp only [hmod, h1, Option.map_some, Nat.add_assoc]
      · intro b
        rw [h2]
        simp only [posIn]
        by_cases hb : e.base = b
        · subst hb
          rw [if_pos rfl, Function.update_self, (posIn_none _ _ _ _).2 nd.1]; rfl
        · rw [if_neg hb, Function.update_of_ne (fun q => hb q.symm)]
      · intro i x hx hb
        simp only [posIn]
        cases i with
        | zero =>
          simp only [List.getElem?_cons_zero, Option.some.injEq] at hx
          subst hx
          simp
        | succ i =>
          rw [List.getElem?_cons_succ] at hx
          have hmem : x.base ∈ direct w es := by
            unfold direct
            rw [List.mem_filter]
            exact ⟨List.mem_map_of_mem (List.mem_of_getElem? hx), by simpa using hb⟩
          rw [if_neg (by intro q; rw [q] at nd; exact nd.1 hmem)]
          exact h3 i x hx hb

theorem packBases_dup (w : World n) (L : Fin n → Class) (off : Nat) (m : PosMap n) (es : List (Entry n))
    (h : packBases w L off m es ≠ none) : (direct w es).Nodup ∧ ∀ b ∈ direct w es, m b = none := by
  induction es generalizing off m with
  | nil => simp [direct]
  | cons e es ih =>
    rw [direct_cons]
    simp only [packBases] at h
    split at h
    · rename_i he
      rw [if_pos he]
      exact ih off m (fun q => h (by rw [q]; rfl))
    · rename_i he
      rw [if_neg he]
      split at h
      · exact absurd rfl h
      · rename_i hm
        obtain ⟨h1, h2⟩ := ih _ _ (fun q => h (by rw [q]; rfl))
        have hnot : e.base ∉ direct w es := fun hb => by
          have := h2 _ hb
          rw [Function.update_self] at this; cases this
        refine ⟨List.nodup_cons.2 ⟨hnot, h1⟩, ?_⟩
        intro b hb
        rcases List.mem_cons.1 hb with rfl | hb
        · exact hm
        · have := h2 b hb
          rwa [Function.update_of_ne (by intro q; rw [q] at hb; exact hnot hb)] at this

theorem packShared_ok (w : World n) (L : Fin n → Class) (c : Fin n) (bp : List (Option Nat)) (m : PosMap n) (off : Nat)
    (bs : List (Fin n)) (nd : bs.Nodup) (hm : ∀ b ∈ bs, baseItem w c b = none → m b = none)
    (fit : off + ((bs.filter fun b => (baseItem w c b).isNone).map (baseBits L)).sum < 2 ^ 32) :
    (packShared w L c bp m off bs).2 = off + ((bs.filter fun b => (baseItem w c b).isNone).map (baseBits L)).sum ∧
    ∀ (i : Nat) (b : Fin n), bs[i]? = some b → ((packShared w L c bp m off bs).1[i]?).join =
      match baseItem w c b with
      | some k => (bp[k]?).join
      | none => posIn (baseBits L) off (bs.filter fun b => (baseItem w c b).isNone) b := by
  induction bs generalizing off with
  | nil => simp [packShared]
  | cons x bs ih =>
    rw [List.nodup_cons] at nd
    simp only [packShared]
    cases hb : baseItem w c x with
    | some k =>
      rw [List.filter_cons_of_neg (by simp [hb])] at fit ⊢
      obtain ⟨h1, h2⟩ := ih off nd.2 (fun b hb => hm b (by simp [hb])) fit
      refine ⟨h1, ?_⟩
      intro i b hi
      cases i with
      | zero =>
        simp only [List.getElem?_cons_zero, Option.some.injEq] at hi
        subst hi
        rw [hb]; rfl
      | succ i => exact h2 i b hi
    | none =>
      rw [List.filter_cons_of_pos (by simp [hb])] at fit ⊢
      rw [List.map_cons, List.sum_cons] at fit ⊢
      rw [hm x (by simp) hb]
      have hmod : (off + baseBits L x) % 2 ^ 32 = off + baseBits L x := Nat.mod_eq_of_lt (by omega)
      obtain ⟨h1, h2⟩ := ih (off + baseBits L x) nd.2 (fun b hb => hm b (by simp [hb])) (by omega)
      simp only [hmod]
      refine ⟨by rw [h1]; omega, ?_⟩
      intro i b hi
      cases i with
      | zero =>
        simp only [List.getElem?_cons_zero, Option.some.injEq] at hi
        subst hi
        rw [hb]; simp [posIn]
      | succ i =>
        rw [List.getElem?_cons_succ] at hi
        have := h2 i b hi
        rw [List.getElem?_cons_succ, this]
        cases hbb : baseItem w c b with
        | some k => rfl
        | none =>
          simp only [posIn]
          rw [if_neg (by intro q; rw [q] at nd; exact nd.1 (List.mem_of_getElem? hi))]

theorem sum_pos {l : List Nat} : 0 < l.sum ↔ ∃ x ∈ l, 0 < x := by
  induction l with
  | nil => simp
  | cons y l ih =>
    rw [List.sum_cons]
    constructor
    · intro h
      by_cases hy : 0 < y
      · exact ⟨y, by simp, hy⟩
      · obtain ⟨x, h1, h2⟩ := ih.1 (by omega)
        exact ⟨x, by simp [h1], h2⟩
    · rintro ⟨x, h1, h2⟩
      rcases List.mem_cons.1 h1 with rfl | h1
      · omega
      · have := ih.2 ⟨x, h1, h2⟩; omega

theorem mem_sharedTable {w : World n} (ok : Ok w) (sh : ∀ c, ∀ e ∈ w.table c, e.shared > 0) (c y : Fin n) :
    y ∈ sharedTable w c ↔ Ancestor w (w.root (w.deref c)) y := by
  unfold sharedTable
  rw [List.mem_filter, decide_eq_true_iff]
  obtain ⟨l, _, h2, h3⟩ := C14_shared_tally w ok c y fun _ => 0
  rw [h3, Nat.zero_add, gt_iff_lt, sum_pos, ancestor_iff]
  constructor
  · rintro ⟨_, k, hk, hpos⟩
    rw [List.mem_map] at hk
    obtain ⟨x, hx, rfl⟩ := hk
    obtain ⟨hd, hs⟩ := (h2 x).1 hx
    unfold sharedIn at hpos
    obtain ⟨e, he⟩ := List.exists_mem_of_length_pos hpos
    rw [List.mem_filter, decide_eq_true_iff] at he
    exact ⟨x, hd, hs, hd, e, he.1, he.2.1, he.2.2.2⟩
  · rintro ⟨x, hd, hs, _, e, he, h4, h5⟩
    refine ⟨List.mem_finRange y, _, List.mem_map_of_mem ((h2 x).2 ⟨hd, hs⟩), ?_⟩
    unfold sharedIn
    refine List.length_pos_of_mem (a := e) ?_
    rw [List.mem_filter, decide_eq_true_iff]
    exact ⟨he, h4, sh x e he, h5⟩

theorem sharedTable_nodup (w : World n) (c : Fin n) : (sharedTable w c).Nodup := (List.nodup_finRange n).filter _

theorem foldl_add (f : Fin n → Nat) (l : List (Fin n)) (t : Nat) (h : t + (l.map f).sum < 2 ^ 32) :
    l.foldl (fun t b => (t + f b) % 2 ^ 32) t = t + (l.map f).sum := by
  induction l generalizing t with
  | nil => simp
  | cons x l ih =>
    rw [List.map_cons, List.sum_cons] at h ⊢
    rw [List.foldl_cons, Nat.mod_eq_of_lt (by omega), ih _ (by omega)]; omega

theorem relLoop_none {w : World n} (ok : Ok w) (P : Fin n → Option Packed) (b : Fin n) (s : State n)
    (inv : ∀ y ∈ s.bases, ¬ Ancestor w (w.root y.1) (w.root b)) : relLoop w P b s = none := by
  generalize hk : n - s.seen.card = k
  induction k using Nat.strongRecOn generalizing s with
  | ind k ih =>
    rw [relLoop.eq_def]
    split
    · rfl
    · rename_i r t h1
      obtain ⟨g1, g2⟩ := getNextBase_some h1
      have lt : n - t.seen.card < k := hk ▸ fuel_lt g1 g2
      obtain ⟨⟨y, f1, f2⟩, f3, _⟩ := next_some h1
      have hr : w.root r = r := by rw [← f2, ok.root_root]
      have hna : ¬ Ancestor w r (w.root b) := by rw [← f2]; exact inv y f1
      split
      · rename_i hd
        rw [(C14_nearest w ok r b).2 (by rw [hr]; exact hna)]
        refine ih _ (by rw [add_seen]; exact lt) _ ?_ rfl
        intro z hz
        rw [add_bases] at hz
        rcases hz with hz | ⟨_, e, he, h3⟩
        · exact inv z (f3 z hz)
        · intro q
          by_cases hn : e.base = w.nouti
          · rw [← h3, hn] at q
            obtain ⟨x, hx, h4, h5⟩ := (ancestor_iff _ _).1 q
            have hc := ok.no_class
            rcases Relation.ReflTransGen.cases_head h4 with k1 | ⟨_, k1, _⟩
            · rw [k1, hx] at hc; cases hc
            · rw [k1.1] at hc; cases hc
          · exact hna (Relation.TransGen.head ⟨hd, e, he, hn, by rw [h3]⟩ q)
      · exact ih _ lt t (fun z hz => inv z (f3 z hz)) rfl

theorem relLoop_found {w : World n} (ok : Ok w) (P : Fin n → Option Packed) (c b : Fin n)
    (h : Ancestor w (w.root c) (w.root b)) : relLoop w P b (init w c) =
      match baseItem w (w.root c) b with
        | some i => (P (w.root c)).bind fun p => (p.bases[i]?).join
        | none =>
          match sharedItem w (w.root c) b with
          | some i => (P (w.root c)).bind fun p => (p.shared[i]?).join
          | none => some 0 := by
  have h0 : getNextBase w (init w c) = some (w.root c, ⟨[], {w.root c}⟩) := by
    simp [getNextBase, init, getNextBasePair]
  have hd : w.defined (w.root c) = true := by
    obtain ⟨x, hx, h4, h5⟩ := (ancestor_iff _ _).1 h
    rcases Relation.ReflTransGen.cases_head h4 with k1 | ⟨_, k1, _⟩
    · rw [k1]; exact hx
    · exact k1.1
  have hf := (C14_nearest w ok (w.root c) b).1 (by rw [ok.root_root]; exact h)
  rw [ok.root_root] at hf
  rw [relLoop.eq_def]
  split
  · rename_i q; rw [h0] at q; cases q
  · rename_i r t q
    rw [h0] at q; cases q
    rw [if_pos hd, hf]
    rfl

end Ulam.Layout
