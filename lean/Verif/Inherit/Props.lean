import Verif.Inherit.Model
import Mathlib.Logic.Relation
import Mathlib.Tactic.SplitIfs
import Mathlib.Tactic.Tauto
import Mathlib.Tactic.ByContra
/-!
# The check of base classes (properties)
-/
namespace Ulam.Inherit
variable {U : Type} [DecidableEq U]

/-! ## Specification -/

/-- A class may have quarks as bases, and a transient also transients. -/
def MayHave (k b : Kind) : Prop := b = .quark ∨ (k = .transient ∧ b = .transient)

theorem allowed_iff (k b : Kind) : allowed k b = true ↔ MayHave k b := by
  cases k <;> cases b <;> simp [allowed, MayHave]

/-- `b` is a base of `c`, shared or not. -/
def Parent (bases shared : U → List U) (c b : U) : Prop := b ∈ bases c ∨ b ∈ shared c

/-- Neither the class nor any class it inherits from has a base it may not have. -/
def Legal (kind : U → Kind) (bases shared : U → List U) (c : U) : Prop :=
  ∀ x y, Relation.ReflTransGen (Parent bases shared) c x → Parent bases shared x y → MayHave (kind x) (kind y)

/-! ## Sums -/

theorem sum_errs (l : List Acc) : (sum l).errs = true ↔ ∃ a ∈ l, a.errs = true := by
  induction l with
  | nil => simp [sum]
  | cons a l ih =>
    have : sum (a :: l) = a.add (sum l) := rfl
    rw [this]; simp [Acc.add, ih]

theorem sum_hazy (l : List Acc) : (sum l).hazy = true ↔ ∃ a ∈ l, a.hazy = true := by
  induction l with
  | nil => simp [sum]
  | cons a l ih =>
    have : sum (a :: l) = a.add (sum l) := rfl
    rw [this]; simp [Acc.add, ih]

theorem sum_msgs (l : List Acc) : 0 < (sum l).msgs ↔ ∃ a ∈ l, 0 < a.msgs := by
  induction l with
  | nil => simp [sum]
  | cons a l ih =>
    have : sum (a :: l) = a.add (sum l) := rfl
    rw [this]; simp only [Acc.add, List.mem_cons, exists_eq_or_imp, ← ih]; omega

@[simp] theorem add_errs (a b : Acc) : (a.add b).errs = (a.errs || b.errs) := rfl
@[simp] theorem add_hazy (a b : Acc) : (a.add b).hazy = (a.hazy || b.hazy) := rfl
@[simp] theorem add_msgs (a b : Acc) : (a.add b).msgs = a.msgs + b.msgs := rfl

/-- What the first loop adds for one base. -/
def firstAcc (T : Types U) (blk : U → Blk) (me b : U) : Acc := (settle T me b).2.2.add (unready T blk (settle T me b).2.1)

theorem first_eq (T : Types U) (blk : U → Blk) (me : U) (l : List U) :
    first T blk me l = (l.map fun b => (settle T me b).1, sum (l.map (firstAcc T blk me))) := by
  induction l with
  | nil => rfl
  | cons b l ih => rw [first, ih]; rfl

/-! ## One turn -/

theorem unready_errs (T : Types U) (blk : U → Blk) (b : U) : (unready T blk b).errs = false ∧ (unready T blk b).msgs = 0 := by
  unfold unready wait; split_ifs <;> exact ⟨rfl, rfl⟩

theorem settle_msgs (T : Types U) (me b : U) : 0 < (settle T me b).2.2.msgs ↔ (settle T me b).2.2.errs = true := by
  unfold settle
  dsimp only
  split_ifs <;> simp [bad, wait]

theorem firstAcc_msgs (T : Types U) (blk : U → Blk) (me b : U) :
    0 < (firstAcc T blk me b).msgs ↔ (firstAcc T blk me b).errs = true := by
  have h := unready_errs T blk (settle T me b).2.1
  simp only [firstAcc, add_errs, add_msgs, h.1, h.2, Bool.or_false, Nat.add_zero, settle_msgs]

theorem firstShared_errs (T : Types U) (blk : U → Blk) (s : U) :
    (firstShared T blk s).errs = false ∧ (firstShared T blk s).msgs = 0 := by
  unfold firstShared
  split_ifs
  · have := unready_errs T blk (T.root ((T.mapped s).getD s)); simp [this, wait]
  · have := unready_errs T blk s; simp [this, wait]
  · exact unready_errs T blk s
  · exact ⟨rfl, rfl⟩

theorem second_msgs (T : Types U) (blk : U → Blk) (say : Bool) (b : U) : 0 < (second T blk say b).msgs → (second T blk say b).errs = true := by
  unfold second; split_ifs <;> simp [wait]

theorem third_msgs (T : Types U) (me : U) (say : Bool) (b : U) : 0 < (third T me say b).msgs → (third T me say b).errs = true := by
  unfold third; split_ifs <;> simp

theorem second_quiet {T : Types U} {blk : U → Blk} {say : Bool} {b : U} (h1 : (second T blk say b).errs = false)
    (h2 : (second T blk say b).hazy = false) (hd : T.defined b = true) : ready T blk b = true := by
  unfold second at h1 h2
  rw [hd] at h1 h2
  cases hr : ready T blk b with
  | true => rfl
  | false =>
    rw [hr] at h1 h2
    by_cases hb : blk b = .nav <;> simp [hb, wait] at h1 h2

theorem third_quiet {T : Types U} {me : U} {say : Bool} {b : U} (h : (third T me say b).errs = false) (ho : T.ok b = true) :
    MayHave (T.kind me) (T.kind b) := by
  rw [← allowed_iff]
  unfold third at h
  rw [ho] at h
  cases ha : allowed (T.kind me) (T.kind b) with
  | true => rfl
  | false => rw [ha] at h; simp at h

theorem settle_quiet {T : Types U} {me b : U} (h1 : (settle T me b).2.2.errs = false) (h2 : (settle T me b).2.2.hazy = false) :
    T.ok b = true ∧ T.complete b = true ∧ T.holder b = false ∧
      ((settle T me b).1 = b ∨ (settle T me b).1 = T.root b ∧ T.isClass (T.root b) = true) := by
  unfold settle at h1 h2 ⊢
  dsimp only at h1 h2 ⊢
  by_cases ho : T.ok b = true
  · rw [if_pos ho] at h1 h2 ⊢
    by_cases hc : (T.holder b || !T.complete b) = true
    · rw [if_pos hc] at h1 h2
      split_ifs at h1 h2 <;> simp [bad, wait] at h1 h2
    · rw [if_neg hc] at h1 h2 ⊢
      simp only [Bool.or_eq_true, Bool.not_eq_true', not_or, Bool.not_eq_true, Bool.not_eq_false] at hc
      refine ⟨ho, hc.2, hc.1, ?_⟩
      split_ifs at h1 h2 ⊢ with hr hk
      · exact .inl rfl
      · unfold reset
        split_ifs
        · exact .inl rfl
        · exact .inr ⟨rfl, hk⟩
      · simp [bad] at h1
  · rw [if_neg ho] at h1 h2
    simp [wait] at h2

/-! ## The check -/

/-- What each loop has added when the check comes to its end. -/
theorem check_ok {T : Types U} {blk : U → Blk} {me : U} {bases shared : List U}
    (h : (checkBases T blk me bases shared).blk = .ok) :
    (∀ b ∈ bases, (firstAcc T blk me b).errs = false ∧ (firstAcc T blk me b).hazy = false) ∧
    (∀ s ∈ shared, (firstShared T blk s).hazy = false) ∧
    (∀ b ∈ (checkBases T blk me bases shared).bases, (second T blk true b).errs = false ∧ (second T blk true b).hazy = false ∧
      (third T me true b).errs = false) ∧
    (∀ s ∈ shared, ∃ say, (second T blk say s).errs = false ∧ (second T blk say s).hazy = false ∧ (third T me say s).errs = false) ∧
    (checkBases T blk me bases shared).msgs = 0 := by
  unfold checkBases at h ⊢
  rw [first_eq] at h ⊢
  dsimp only at h ⊢
  split_ifs at h ⊢ with h1 h2 h3 h4 h5
  simp only [add_errs, add_hazy, Bool.or_eq_true, not_or, sum_errs, sum_hazy, List.mem_map, not_exists, not_and,
    forall_exists_index, and_imp, forall_apply_eq_imp_iff₂, Bool.not_eq_true] at h1 h2 h3 h4 h5
  refine ⟨fun b hb => ⟨h1.1 b hb, h2.1 b hb⟩, fun s hs => h2.2 s hs, ?_, fun s hs => ⟨_, h3.2.2 s hs, h4.2.2 s hs, h5.2.2 s hs⟩, ?_⟩
  · intro b hb
    simp only [List.mem_map] at hb
    obtain ⟨x, hx, rfl⟩ := hb
    exact ⟨h3.2.1 x hx, h4.2.1 x hx, h5.2.1 x hx⟩
  · by_contra hm
    simp only [add_msgs] at hm
    have : 0 < (sum (bases.map (firstAcc T blk me))).msgs ∨ 0 < (sum (shared.map (firstShared T blk))).msgs ∨
        0 < (sum ((bases.map fun b => (settle T me b).1).map (second T blk true))).msgs ∨
        0 < (sum (shared.map fun s => second T blk (indirect T (bases.map fun b => (settle T me b).1) s) s)).msgs ∨
        0 < (sum ((bases.map fun b => (settle T me b).1).map (third T me true))).msgs ∨
        0 < (sum (shared.map fun s => third T me (indirect T (bases.map fun b => (settle T me b).1) s) s)).msgs := by omega
    simp only [sum_msgs, List.mem_map] at this
    rcases this with ⟨_, ⟨b, hb, rfl⟩, k⟩ | ⟨_, ⟨b, hb, rfl⟩, k⟩ | ⟨_, ⟨b, ⟨x, hx, rfl⟩, rfl⟩, k⟩ | ⟨_, ⟨b, hb, rfl⟩, k⟩ |
      ⟨_, ⟨b, ⟨x, hx, rfl⟩, rfl⟩, k⟩ | ⟨_, ⟨b, hb, rfl⟩, k⟩
    · rw [firstAcc_msgs, h1.1 b hb] at k; cases k
    · rw [(firstShared_errs T blk b).2] at k; omega
    · have := second_msgs _ _ _ _ k; rw [h3.2.1 x hx] at this; cases this
    · have := second_msgs _ _ _ _ k; rw [h3.2.2 b hb] at this; cases this
    · have := third_msgs _ _ _ _ k; rw [h5.2.1 x hx] at this; cases this
    · have := third_msgs _ _ _ _ k; rw [h5.2.2 b hb] at this; cases this

/-- **C108.** A class that passes the check: each base named is complete, those in the table after are of a kind the class may have,
and if they are classes of the program their own check was passed; so are shared bases that are known. No error is reported. -/
theorem C108_accepted (T : Types U) (hT : ∀ u, T.isClass u = true → T.ok u = true) (blk : U → Blk) (me : U) (bases shared : List U)
    (h : (checkBases T blk me bases shared).blk = .ok) :
    (∀ b ∈ bases, T.ok b = true ∧ T.complete b = true ∧ T.holder b = false) ∧
    (∀ b ∈ (checkBases T blk me bases shared).bases, MayHave (T.kind me) (T.kind b) ∧
      (T.defined b = true → ready T blk b = true)) ∧
    (∀ s ∈ shared, T.ok s = true → MayHave (T.kind me) (T.kind s) ∧ (T.defined s = true → ready T blk s = true)) ∧
    (checkBases T blk me bases shared).bases.length = bases.length ∧
    (checkBases T blk me bases shared).msgs = 0 := by
  obtain ⟨k1, k2, k3, k4, k5⟩ := check_ok h
  have q : ∀ b ∈ bases, _ := fun b hb => settle_quiet (T := T) (me := me) (b := b)
    (by have := (k1 b hb).1; simp only [firstAcc, add_errs, Bool.or_eq_false_iff] at this; exact this.1)
    (by have := (k1 b hb).2; simp only [firstAcc, add_hazy, Bool.or_eq_false_iff] at this; exact this.1)
  have e : (checkBases T blk me bases shared).bases = bases.map fun b => (settle T me b).1 := by
    unfold checkBases; rw [first_eq]; dsimp only; split_ifs <;> rfl
  refine ⟨fun b hb => ⟨(q b hb).1, (q b hb).2.1, (q b hb).2.2.1⟩, ?_, ?_, by rw [e, List.length_map], k5⟩
  · intro b hb
    obtain ⟨h1, h2, h3⟩ := k3 b hb
    rw [e, List.mem_map] at hb
    obtain ⟨x, hx, rfl⟩ := hb
    have ho : T.ok (settle T me x).1 = true := by
      rcases (q x hx).2.2.2 with h | ⟨h, hk⟩ <;> rw [h]
      · exact (q x hx).1
      · exact hT _ hk
    exact ⟨third_quiet h3 ho, second_quiet h1 h2⟩
  · intro s hs ho
    obtain ⟨say, h1, h2, h3⟩ := k4 s hs
    exact ⟨third_quiet h3 ho, second_quiet h1 h2⟩

/-- **C108.** A class that does not pass is reported: the message that is left out for a shared base that is a direct base too is
given for the direct base. `hk`: the types of the bases can be compared, `hs`: types that are the same are alike. -/
theorem C108_refused_reported (T : Types U) (blk : U → Blk) (me : U) (bases shared : List U)
    (hk : ∀ b ∈ (checkBases T blk me bases shared).bases, ∀ s ∈ shared, T.same b s ≠ none)
    (hs : ∀ b s, T.same b s = some true → T.ok b = T.ok s ∧ T.defined b = T.defined s ∧ T.kind b = T.kind s ∧ blk b = blk s ∧
      ready T blk b = ready T blk s)
    (h : (checkBases T blk me bases shared).blk = .nav) : 0 < (checkBases T blk me bases shared).msgs := by
  have e : (checkBases T blk me bases shared).bases = bases.map fun b => (settle T me b).1 := by
    unfold checkBases; rw [first_eq]; dsimp only; split_ifs <;> rfl
  rw [e] at hk
  have twin : ∀ s ∈ shared, indirect T (bases.map fun b => (settle T me b).1) s = false →
      ∃ b ∈ bases.map fun b => (settle T me b).1, T.same b s = some true := by
    intro s hs' hi
    unfold indirect at hi
    rw [List.all_eq_false] at hi
    obtain ⟨b, hb, hn⟩ := hi
    refine ⟨b, hb, ?_⟩
    have := hk b hb s hs'
    simp only [Bool.or_eq_true, not_or] at hn
    cases h : T.same b s with
    | none => exact absurd h this
    | some v => cases v with
      | true => rfl
      | false => rw [h] at hn; simp at hn
  have p1 : (sum (bases.map (firstAcc T blk me))).errs = true → 0 < (sum (bases.map (firstAcc T blk me))).msgs := by
    rw [sum_errs, sum_msgs]
    rintro ⟨a, ha, hb⟩
    obtain ⟨b, hb', rfl⟩ := List.mem_map.1 ha
    exact ⟨_, ha, (firstAcc_msgs _ _ _ _).2 hb⟩
  have p2 : (sum (shared.map (firstShared T blk))).errs = false := by
    rw [← Bool.not_eq_true, sum_errs]
    rintro ⟨a, ha, hb⟩
    obtain ⟨b, hb', rfl⟩ := List.mem_map.1 ha
    rw [(firstShared_errs T blk b).1] at hb; cases hb
  have d2 : ∀ b ∈ bases.map fun b => (settle T me b).1, (second T blk true b).errs = true →
      0 < (sum ((bases.map fun b => (settle T me b).1).map (second T blk true))).msgs := by
    intro b hb he
    rw [sum_msgs]
    refine ⟨_, List.mem_map.2 ⟨b, hb, rfl⟩, ?_⟩
    unfold second at he ⊢
    split_ifs at he ⊢ <;> simp [wait] at he ⊢
  have d3 : ∀ b ∈ bases.map fun b => (settle T me b).1, (third T me true b).errs = true →
      0 < (sum ((bases.map fun b => (settle T me b).1).map (third T me true))).msgs := by
    intro b hb he
    rw [sum_msgs]
    refine ⟨_, List.mem_map.2 ⟨b, hb, rfl⟩, ?_⟩
    unfold third at he ⊢
    split_ifs at he ⊢ <;> simp at he ⊢
  have s2 : ∀ s ∈ shared, (second T blk (indirect T (bases.map fun b => (settle T me b).1) s) s).errs = true →
      0 < (sum ((bases.map fun b => (settle T me b).1).map (second T blk true))).msgs +
        (sum (shared.map fun s => second T blk (indirect T (bases.map fun b => (settle T me b).1) s) s)).msgs := by
    intro s hs' he
    cases hi : indirect T (bases.map fun b => (settle T me b).1) s with
    | true =>
      have : 0 < (sum (shared.map fun s => second T blk (indirect T (bases.map fun b => (settle T me b).1) s) s)).msgs := by
        rw [sum_msgs]
        refine ⟨_, List.mem_map.2 ⟨s, hs', rfl⟩, ?_⟩
        rw [hi] at he ⊢
        unfold second at he ⊢
        split_ifs at he ⊢ <;> simp [wait] at he ⊢
      omega
    | false =>
      obtain ⟨b, hb, hsame⟩ := twin s hs' hi
      obtain ⟨_, g2, _, g4, g5⟩ := hs b s hsame
      have := d2 b hb (by
        unfold second at he ⊢
        rw [g2, g4, g5]
        split_ifs at he ⊢ <;> simp [wait] at he ⊢)
      omega
  have s3 : ∀ s ∈ shared, (third T me (indirect T (bases.map fun b => (settle T me b).1) s) s).errs = true →
      0 < (sum ((bases.map fun b => (settle T me b).1).map (third T me true))).msgs +
        (sum (shared.map fun s => third T me (indirect T (bases.map fun b => (settle T me b).1) s) s)).msgs := by
    intro s hs' he
    cases hi : indirect T (bases.map fun b => (settle T me b).1) s with
    | true =>
      have : 0 < (sum (shared.map fun s => third T me (indirect T (bases.map fun b => (settle T me b).1) s) s)).msgs := by
        rw [sum_msgs]
        refine ⟨_, List.mem_map.2 ⟨s, hs', rfl⟩, ?_⟩
        rw [hi] at he ⊢
        unfold third at he ⊢
        split_ifs at he ⊢ <;> simp at he ⊢
      omega
    | false =>
      obtain ⟨b, hb, hsame⟩ := twin s hs' hi
      obtain ⟨g1, _, g3, _, _⟩ := hs b s hsame
      have := d3 b hb (by
        unfold third at he ⊢
        rw [g1, g3]
        split_ifs at he ⊢ <;> simp at he ⊢)
      omega
  unfold checkBases at h ⊢
  rw [first_eq] at h ⊢
  dsimp only at h ⊢
  split_ifs at h ⊢ with h1 h2 h3 h4 h5
  · simp only [add_errs, add_msgs, p2, Bool.or_false] at h1 ⊢
    have := p1 h1; omega
  · simp only [add_errs, Bool.or_eq_true, Bool.not_eq_true] at h1 h3
    rcases h3 with h3 | h3 | h3
    · rcases h3 with h3 | h3 <;> simp [h3] at h1
    · obtain ⟨a, ha, hb⟩ := (sum_errs _).1 h3
      obtain ⟨b, hb', rfl⟩ := List.mem_map.1 ha
      have := d2 b hb' hb
      simp only [add_msgs]; omega
    · obtain ⟨a, ha, hb⟩ := (sum_errs _).1 h3
      obtain ⟨b, hb', rfl⟩ := List.mem_map.1 ha
      have := s2 b hb' hb
      simp only [add_msgs]; omega
  · simp only [add_errs, Bool.or_eq_true] at h1 h3 h5
    rcases h5 with h5 | h5 | h5
    · exact absurd h5 h3
    · obtain ⟨a, ha, hb⟩ := (sum_errs _).1 h5
      obtain ⟨b, hb', rfl⟩ := List.mem_map.1 ha
      have := d3 b hb' hb
      simp only [add_msgs]; omega
    · obtain ⟨a, ha, hb⟩ := (sum_errs _).1 h5
      obtain ⟨b, hb', rfl⟩ := List.mem_map.1 ha
      have := s3 b hb' hb
      simp only [add_msgs]; omega

/-! ## Classes all of whose bases are resolved -/

/-- The type is a class of the program, and stands for itself. -/
structure Settled (T : Types U) (b : U) : Prop where
  ok : T.ok b = true
  plain : T.holder b = false
  complete : T.complete b = true
  root : T.root b = b
  isClass : T.isClass b = true
  full : T.stub b = false
  defined : T.defined b = true

theorem Settled.ready {T : Types U} {b : U} (h : Settled T b) (blk : U → Blk) : ready T blk b = (blk b == .ok) := by
  simp [Inherit.ready, h.ok, h.plain, h.isClass, h.full]

theorem Settled.settle {T : Types U} {b : U} (h : Settled T b) (me : U) : settle T me b = (b, b, {}) := by
  simp [Inherit.settle, h.ok, h.plain, h.complete, h.root]

theorem Settled.unready {T : Types U} {b : U} (h : Settled T b) (blk : U → Blk) : unready T blk b = {} := by
  simp [Inherit.unready, h.complete]

/-- The check, when all bases are settled. -/
theorem check_settled (T : Types U) (blk : U → Blk) (me : U) (bases shared : List U) (hb : ∀ b ∈ bases, Settled T b)
    (hs : ∀ s ∈ shared, Settled T s) :
    (checkBases T blk me bases shared).bases = bases ∧
    ((∃ b, (b ∈ bases ∨ b ∈ shared) ∧ blk b = .nav) → (checkBases T blk me bases shared).blk = .nav) ∧
    ((∀ b, b ∈ bases ∨ b ∈ shared → blk b = .ok) →
      ((checkBases T blk me bases shared).blk = .ok ↔ ∀ b, b ∈ bases ∨ b ∈ shared → MayHave (T.kind me) (T.kind b)) ∧
      ((checkBases T blk me bases shared).blk = .nav ↔ ¬ ∀ b, b ∈ bases ∨ b ∈ shared → MayHave (T.kind me) (T.kind b))) := by
  have m : (bases.map fun b => (settle T me b).1) = bases := by
    conv_rhs => rw [← List.map_id bases]
    exact List.map_congr_left fun b h => by rw [(hb b h).settle]; rfl
  have f1 : ∀ b ∈ bases, firstAcc T blk me b = {} := fun b h => by
    unfold firstAcc; rw [(hb b h).settle]; dsimp only; rw [(hb b h).unready]; rfl
  have f2 : ∀ s ∈ shared, firstShared T blk s = {} := fun s h => by
    unfold firstShared; rw [if_pos (hs s h).ok, (hs s h).plain, (hs s h).complete, (hs s h).unready]; simp
  have z1 : ((sum (bases.map (firstAcc T blk me))).add (sum (shared.map (firstShared T blk)))).errs = false ∧
      ((sum (bases.map (firstAcc T blk me))).add (sum (shared.map (firstShared T blk)))).hazy = false := by
    rw [← Bool.not_eq_true, ← Bool.not_eq_true]
    simp only [add_errs, add_hazy, Bool.or_eq_true, sum_errs, sum_hazy, List.mem_map]
    constructor
    · rintro (⟨_, ⟨b, h, rfl⟩, k⟩ | ⟨_, ⟨b, h, rfl⟩, k⟩)
      · rw [f1 b h] at k; cases k
      · rw [f2 b h] at k; cases k
    · rintro (⟨_, ⟨b, h, rfl⟩, k⟩ | ⟨_, ⟨b, h, rfl⟩, k⟩)
      · rw [f1 b h] at k; cases k
      · rw [f2 b h] at k; cases k
  have g1 : ∀ b, Settled T b → ∀ say, (second T blk say b).errs = true ↔ blk b = .nav := fun b h say => by
    unfold second; rw [h.defined, h.ready]
    cases blk b <;> simp [wait]
  have g2 : ∀ b, Settled T b → ∀ say, (second T blk say b).hazy = true → blk b ≠ .ok := fun b h say => by
    unfold second; rw [h.defined, h.ready]
    cases blk b <;> simp
  have g3 : ∀ b, Settled T b → ∀ say, (third T me say b).errs = true ↔ ¬ MayHave (T.kind me) (T.kind b) := fun b h say => by
    rw [← allowed_iff]; unfold third; rw [h.ok]
    cases allowed (T.kind me) (T.kind b) <;> simp
  unfold checkBases
  rw [first_eq]
  dsimp only
  rw [m, if_neg (by rw [z1.1]; simp), if_neg (by rw [z1.2]; simp)]
  refine ⟨by split_ifs <;> rfl, ?_, ?_⟩
  · rintro ⟨b, h, hn⟩
    rw [if_pos]
    simp only [add_errs, Bool.or_eq_true, sum_errs, List.mem_map]
    rcases h with h | h
    · exact .inr (.inl ⟨_, ⟨b, h, rfl⟩, (g1 b (hb b h) _).2 hn⟩)
    · exact .inr (.inr ⟨_, ⟨b, h, rfl⟩, (g1 b (hs b h) _).2 hn⟩)
  · intro hok
    have n1 : ¬ (((sum (bases.map (firstAcc T blk me))).add (sum (shared.map (firstShared T blk)))).add
        ((sum (bases.map (second T blk true))).add (sum (shared.map fun s => second T blk (indirect T bases s) s)))).errs = true := by
      rw [add_errs, z1.1, Bool.false_or]
      simp only [add_errs, Bool.or_eq_true, sum_errs, List.mem_map]
      rintro (⟨_, ⟨b, h, rfl⟩, k⟩ | ⟨_, ⟨b, h, rfl⟩, k⟩)
      · rw [g1 b (hb b h), hok b (.inl h)] at k; cases k
      · rw [g1 b (hs b h), hok b (.inr h)] at k; cases k
    have n2 : ¬ (((sum (bases.map (firstAcc T blk me))).add (sum (shared.map (firstShared T blk)))).add
        ((sum (bases.map (second T blk true))).add (sum (shared.map fun s => second T blk (indirect T bases s) s)))).hazy = true := by
      rw [add_hazy, z1.2, Bool.false_or]
      simp only [add_hazy, Bool.or_eq_true, sum_hazy, List.mem_map]
      rintro (⟨_, ⟨b, h, rfl⟩, k⟩ | ⟨_, ⟨b, h, rfl⟩, k⟩)
      · exact g2 b (hb b h) _ k (hok b (.inl h))
      · exact g2 b (hs b h) _ k (hok b (.inr h))
    rw [if_neg n1, if_neg n2]
    have key : ∀ x : Acc, x.errs = false → ((x.add ((sum (bases.map (third T me true))).add
        (sum (shared.map fun s => third T me (indirect T bases s) s)))).errs = true ↔
        ¬ ∀ b, b ∈ bases ∨ b ∈ shared → MayHave (T.kind me) (T.kind b)) := by
      intro x hx
      rw [add_errs, hx, Bool.false_or]
      simp only [add_errs, Bool.or_eq_true, sum_errs, List.mem_map]
      constructor
      · rintro (⟨_, ⟨b, h, rfl⟩, k⟩ | ⟨_, ⟨b, h, rfl⟩, k⟩) hall
        · exact (g3 b (hb b h) _).1 k (hall b (.inl h))
        · exact (g3 b (hs b h) _).1 k (hall b (.inr h))
      · intro hn
        simp only [not_forall] at hn
        obtain ⟨b, h, k⟩ := hn
        rcases h with h | h
        · exact .inl ⟨_, ⟨b, h, rfl⟩, (g3 b (hb b h) _).2 k⟩
        · exact .inr ⟨_, ⟨b, h, rfl⟩, (g3 b (hs b h) _).2 k⟩
    have key' := key _ (Bool.eq_false_iff.2 n1)
    dsimp only
    split_ifs with h
    · have := key'.1 h; simp [this]
    · have := mt key'.2 h; simp only [not_not] at this; exact ⟨iff_of_true rfl this, iff_of_false (by simp) (not_not.2 this)⟩

/-- **C108.** If all bases are classes that are resolved and have passed, a class passes exactly if it may have each of them; the table
stays as it is. -/
theorem C108_accepted_iff (T : Types U) (blk : U → Blk) (me : U) (bases shared : List U) (hb : ∀ b ∈ bases, Settled T b)
    (hs : ∀ s ∈ shared, Settled T s) (hok : ∀ b, b ∈ bases ∨ b ∈ shared → blk b = .ok) :
    (checkBases T blk me bases shared).bases = bases ∧
    ((checkBases T blk me bases shared).blk = .ok ↔ ∀ b, b ∈ bases ∨ b ∈ shared → MayHave (T.kind me) (T.kind b)) :=
  ⟨(check_settled T blk me bases shared hb hs).1, ((check_settled T blk me bases shared hb hs).2.2 hok).1⟩

/-! ## Rounds -/

open Relation in
theorem legal_iff (kind : U → Kind) (bases shared : U → List U) (c : U) :
    Legal kind bases shared c ↔
      ∀ b, Parent bases shared c b → MayHave (kind c) (kind b) ∧ Legal kind bases shared b := by
  constructor
  · intro h b hb
    exact ⟨h c b .refl hb, fun x y hx hy => h x y (.head hb hx) hy⟩
  · intro h x y hx hy
    rcases ReflTransGen.cases_head hx with rfl | ⟨b, hb, hx⟩
    · exact (h y hy).1
    · exact (h b hb).2 x y hx hy

open Classical in
/-- What the check of a class should come to. -/
noncomputable def ideal (kind : U → Kind) (bases shared : U → List U) (c : U) : Blk :=
  if Legal kind bases shared c then .ok else .nav

theorem check_ideal (T : Types U) (bases shared : U → List U) (blk : U → Blk) (c : U) (hset : ∀ b, Parent bases shared c b → Settled T b)
    (hi : ∀ b, Parent bases shared c b → blk b = ideal T.kind bases shared b) :
    (checkBases T blk c (bases c) (shared c)).blk = ideal T.kind bases shared c := by
  obtain ⟨_, h2, h3⟩ := check_settled T blk c (bases c) (shared c) (fun b h => hset b (.inl h)) (fun b h => hset b (.inr h))
  by_cases hex : ∃ b, Parent bases shared c b ∧ ¬ Legal T.kind bases shared b
  · obtain ⟨b, hp, hn⟩ := hex
    rw [h2 ⟨b, hp, by rw [hi b hp]; unfold ideal; rw [if_neg hn]⟩]
    unfold ideal
    rw [if_neg fun h => hn (((legal_iff _ _ _ _).1 h) b hp).2]
  · simp only [not_exists, not_and, not_not] at hex
    obtain ⟨h4, h5⟩ := h3 fun b hp => by rw [hi b hp]; unfold ideal; rw [if_pos (hex b hp)]
    unfold ideal
    split_ifs with hl
    · exact h4.2 fun b hp => (((legal_iff _ _ _ _).1 hl) b hp).1
    · exact h5.2 fun hall => hl ((legal_iff _ _ _ _).2 fun b hp => ⟨hall b hp, hex b hp⟩)

/-- A program: a set of classes with `UrSelf`, which has no bases, closed under bases that are resolved and below in rank (no class
inherits from itself, C85). -/
structure Program (T : Types U) (bases shared : U → List U) (P : U → Prop) (rank : U → Nat) : Prop where
  closed : ∀ c b, P c → Parent bases shared c b → P b ∧ Settled T b ∧ rank b < rank c
  top : ∀ b, ¬ Parent bases shared T.urself b

theorem labelAll_ideal {T : Types U} {bases shared : U → List U} {P : U → Prop} {rank : U → Nat} (hP : Program T bases shared P rank)
    (k : Nat) (o : List U) : ∀ blk : U → Blk, blk T.urself = .ok →
    (∀ c, P c → rank c < k → blk c = ideal T.kind bases shared c) →
    (labelAll T bases shared o blk) T.urself = .ok ∧
    ∀ c, P c → (rank c < k ∨ rank c = k ∧ (c ∈ o ∨ blk c = ideal T.kind bases shared c)) →
      labelAll T bases shared o blk c = ideal T.kind bases shared c := by
  have top : ideal T.kind bases shared T.urself = .ok := by
    unfold ideal; rw [if_pos ((legal_iff _ _ _ _).2 fun b h => absurd h (hP.top b))]
  induction o with
  | nil =>
    intro blk hu hi
    refine ⟨hu, ?_⟩
    rintro c hc (h | ⟨_, h | h⟩)
    · exact hi c hc h
    · cases h
    · exact h
  | cons d o ih =>
    intro blk hu hi
    have hu' : label T bases shared blk d T.urself = .ok := by
      unfold label
      split_ifs with h
      · exact hu
      · dsimp only; rw [if_neg (Ne.symm h)]; exact hu
    have step : ∀ c, P c → rank c ≤ k → (c = d ∨ blk c = ideal T.kind bases shared c) →
        label T bases shared blk d c = ideal T.kind bases shared c := by
      intro c hc hr hcd
      unfold label
      by_cases hdu : d = T.urself
      · rw [if_pos hdu]
        rcases hcd with rfl | h
        · rw [hdu, hu, top]
        · exact h
      · rw [if_neg hdu]
        by_cases hx : c = d
        · rw [if_pos hx]
          subst hx
          exact check_ideal T bases shared blk c (fun b hb => (hP.closed c b hc hb).2.1) fun b hb =>
            hi b (hP.closed c b hc hb).1 (by have := (hP.closed c b hc hb).2.2; omega)
        · rw [if_neg hx]
          exact hcd.resolve_left hx
    obtain ⟨a, b⟩ := ih (label T bases shared blk d) hu' fun c hc hr => step c hc (by omega) (.inr (hi c hc hr))
    refine ⟨a, ?_⟩
    rintro c hc (h | ⟨hr, h | h⟩)
    · exact b c hc (.inl h)
    · rcases List.mem_cons.1 h with rfl | h
      · exact b c hc (.inr ⟨hr, .inr (step c hc (by omega) (.inl rfl))⟩)
      · exact b c hc (.inr ⟨hr, .inl h⟩)
    · exact b c hc (.inr ⟨hr, .inr (step c hc (by omega) (.inr h))⟩)

/-- **C108.** Whatever order the classes are labelled in, in each round, and whatever came of them before: after as many rounds as
there are levels of inheritance, a class has passed if neither it nor any class it inherits from has a base it may not have, and is
refused otherwise. -/
theorem C108_rounds (T : Types U) (bases shared : U → List U) (P : U → Prop) (rank : U → Nat) (hP : Program T bases shared P rank)
    (orders : List (List U)) (hall : ∀ o ∈ orders, ∀ c, P c → c ∈ o) (blk : U → Blk) (hu : blk T.urself = .ok) (c : U) (hc : P c)
    (hr : rank c < orders.length) :
    (Legal T.kind bases shared c → rounds T bases shared orders blk c = .ok) ∧
    (¬ Legal T.kind bases shared c → rounds T bases shared orders blk c = .nav) := by
  have key : ∀ (l : List (List U)) (k : Nat) (blk : U → Blk), (∀ o ∈ l, ∀ c, P c → c ∈ o) → blk T.urself = .ok →
      (∀ c, P c → rank c < k → blk c = ideal T.kind bases shared c) →
      ∀ c, P c → rank c < k + l.length → rounds T bases shared l blk c = ideal T.kind bases shared c := by
    intro l
    induction l with
    | nil => intro k blk _ _ hi c hc hr; exact hi c hc (by simpa using hr)
    | cons o l ih =>
      intro k blk ho hu hi c hc hr
      obtain ⟨a, b⟩ := labelAll_ideal hP k o blk hu hi
      rw [rounds]
      refine ih (k + 1) _ (fun o h => ho o (List.mem_cons_of_mem _ h)) a ?_ c hc (by simp at hr; omega)
      intro c hc hr
      refine b c hc ?_
      by_cases h : rank c < k
      · exact .inl h
      · exact .inr ⟨by omega, .inl (ho o List.mem_cons_self c hc)⟩
  have := key orders 0 blk hall hu (fun c _ h => absurd h (Nat.not_lt_zero _)) c hc (by omega)
  unfold ideal at this
  constructor <;> intro h <;> rw [this]
  · rw [if_pos h]
  · rw [if_neg h]

/-- **C108.** In a program whose classes all passed, whenever it was that each did, all that a quark or an element inherits from are
quarks, and all that a transient inherits from are quarks and transients. -/
theorem C108_ancestors (T : Types U) (hT : ∀ u, T.isClass u = true → T.ok u = true) (bases shared : U → List U) (P : U → Prop)
    (at_ : U → U → Blk)
    (hpass : ∀ c, P c → c ≠ T.urself → (checkBases T (at_ c) c (bases c) (shared c)).blk = .ok)
    (hsh : ∀ c, P c → ∀ s ∈ shared c, T.ok s = true) (htop : ∀ b, b ∉ bases T.urself ∧ b ∉ shared T.urself)
    (after : U → List U) (hafter : ∀ c, after c = if c = T.urself then [] else (checkBases T (at_ c) c (bases c) (shared c)).bases)
    (hcl : ∀ c b, P c → Parent after shared c b → P b) (c x : U) (hc : P c) (hx : Relation.TransGen (Parent after shared) c x) :
    T.kind x = .quark ∨ (T.kind c = .transient ∧ T.kind x = .transient) := by
  have one : ∀ c b, P c → Parent after shared c b → MayHave (T.kind c) (T.kind b) := by
    intro c b hc hb
    by_cases hu : c = T.urself
    · rcases hb with hb | hb
      · rw [hafter, if_pos hu] at hb; cases hb
      · rw [hu] at hb; exact absurd hb (htop b).2
    · obtain ⟨_, h2, h3, _⟩ := C108_accepted T hT (at_ c) c _ _ (hpass c hc hu)
      rcases hb with hb | hb
      · rw [hafter, if_neg hu] at hb; exact (h2 b hb).1
      · exact (h3 b hb (hsh c hc b hb)).1
  have hPx : ∀ x, Relation.TransGen (Parent after shared) c x → P x := by
    intro x hx
    induction hx with
    | single h => exact hcl _ _ hc h
    | tail _ h ih => exact hcl _ _ ih h
  induction hx with
  | single h => exact one _ _ hc h
  | tail h h' ih =>
    rcases one _ _ (hPx _ h) h' with k | ⟨k1, k2⟩
    · exact .inl k
    · rcases ih with ih | ih
      · rw [ih] at k1; cases k1
      · exact .inr ⟨ih.1, k2⟩

/-! ## A program: `UrSelf` 0, quark 1, element 2 of it, transient 3 of 1, transient 4 of 3, quark 5 of 2 (not allowed), quark 6 of 5. -/

def exTypes : Types Nat where
  ok u := u < 10
  holder _ := false
  complete u := u < 10
  isClass u := u < 10
  stub _ := false
  stubCopy _ := false
  defined u := u < 10
  mapped _ := none
  root u := u
  same a b := some (a == b)
  kind u := match u with | 2 => .element | 3 => .transient | 4 => .transient | _ => .quark
  navU := 20
  noU := 21
  urself := 0

def exBases : Nat → List Nat
  | 1 => [0] | 2 => [1] | 3 => [1] | 4 => [3] | 5 => [0, 2] | 6 => [5] | _ => []
def exShared : Nat → List Nat
  | 1 => [0] | 2 => [0, 1] | 5 => [0, 2] | 6 => [0] | _ => []
def exRank : Nat → Nat
  | 0 => 0 | 1 => 1 | 2 => 2 | 3 => 2 | 4 => 3 | 5 => 3 | 6 => 4 | _ => 0

theorem exProgram : Program exTypes exBases exShared (· < 7) exRank where
  closed := by
    intro c b hc hb
    have all : ∀ c : Fin 7, ∀ b ∈ exBases c ++ exShared c, b < 7 ∧ exRank b < exRank c := by decide
    have h := all ⟨c, hc⟩ b (List.mem_append.2 hb)
    refine ⟨h.1, ?_, h.2⟩
    have : b < 10 := by omega
    constructor <;> simp [exTypes, this]
  top := by intro b h; rcases h with h | h <;> simp [exTypes, exBases, exShared] at h

/-- In the first round 6 is labelled before 5, and passes; in the second it is refused. -/
example : (List.range 7).map (rounds exTypes exBases exShared [[6, 5, 4, 3, 2, 1, 0]] fun _ => .ok) =
      [.ok, .ok, .ok, .ok, .ok, .nav, .ok] ∧
    (List.range 7).map (rounds exTypes exBases exShared [[6, 5, 4, 3, 2, 1, 0], [6, 5, 4, 3, 2, 1, 0]] fun _ => .ok) =
      [.ok, .ok, .ok, .ok, .ok, .nav, .nav] ∧
    (checkBases exTypes (fun _ => .ok) 5 [0, 2] [0, 2]).msgs = 1 ∧
    (checkBases exTypes (fun _ => .ok) 5 [0] [2]).msgs = 1 := by decide +kernel

/-- A base that is not known yet, and one that turns out to be no class. -/
example : (checkBases { exTypes with ok := fun _ => true } (fun _ => .ok) 4 [11] []).blk = .nav ∧
    (checkBases { exTypes with ok := fun _ => true, holder := fun u => u == 11 } (fun _ => .ok) 4 [11] []).blk = .hazy := by
  decide +kernel

/-- The hypotheses of `C108_rounds` are met. -/
example : rounds exTypes exBases exShared [[0, 1, 2, 3, 4, 5, 6], [6, 5, 4, 3, 2, 1, 0], [3, 1, 2, 0, 4, 6, 5], [0, 1, 2, 3, 4, 5, 6]]
    (fun _ => .ok) 4 = .ok :=
  (C108_rounds exTypes exBases exShared (· < 7) exRank exProgram _
    (by
      intro o ho c hc
      have : ∀ o ∈ [[0, 1, 2, 3, 4, 5, 6], [6, 5, 4, 3, 2, 1, 0], [3, 1, 2, 0, 4, 6, 5], [0, 1, 2, 3, 4, 5, 6]], ∀ c : Fin 7, c.1 ∈ o := by decide
      exact this o ho ⟨c, hc⟩)
    (fun _ => .ok) rfl 4 (by decide) (by decide)).1
    ((legal_iff _ _ _ _).2 fun b hb => by
      simp [Parent, exBases, exShared] at hb; subst hb
      refine ⟨.inr ⟨rfl, rfl⟩, (legal_iff _ _ _ _).2 fun b hb => ?_⟩
      simp [Parent, exBases, exShared] at hb; subst hb
      refine ⟨.inl rfl, (legal_iff _ _ _ _).2 fun b hb => ?_⟩
      simp [Parent, exBases, exShared] at hb; subst hb
      exact ⟨.inl rfl, (legal_iff _ _ _ _).2 fun b hb => by simp [Parent, exBases, exShared] at hb⟩)

/-- What a base is known to stand for. -/
def standsFor (T : Types U) (b : U) : U := if T.holder b = true ∨ T.complete b = false then (T.mapped b).getD b else T.root b

/-- **C108.** A class with a base that turns out to be no class is refused at once; so is one with itself as a base, as long as it is
not complete. -/
theorem C108_no_class (T : Types U) (blk : U → Blk) (me : U) (bases shared : List U) (b : U) (hb : b ∈ bases) (hok : T.ok b = true)
    (h : (T.isClass (standsFor T b) = false ∧ T.holder (standsFor T b) = false ∧ (T.complete b = true → standsFor T b ≠ b)) ∨
      (T.complete b = false ∧ T.same me b = some true ∧ ∃ m, T.mapped b = some m ∧ T.isClass m = true)) :
    (checkBases T blk me bases shared).blk = .nav ∧ 0 < (checkBases T blk me bases shared).msgs := by
  have key : (settle T me b).2.2 = bad := by
    unfold settle
    rw [if_pos hok]
    rcases h with ⟨h1, h2, h3⟩ | ⟨h1, h2, m, h3, h4⟩
    · unfold standsFor at h1 h2 h3
      by_cases hc : T.holder b = true ∨ T.complete b = false
      · rw [if_pos hc] at h1 h2
        rw [if_pos (by rcases hc with hc | hc <;> simp [hc]), if_neg (by simp [h1]), if_pos (by simp [h1, h2])]
      · rw [if_neg hc] at h1 h2 h3
        simp only [not_or, Bool.not_eq_true, Bool.not_eq_false] at hc
        rw [if_neg (by simp [hc]), if_neg (h3 hc.2), if_neg (by simp [h1])]
    · rw [if_pos (by simp [h1]), if_pos (by simp [h3, h4]), if_pos h2]
  have e : (sum (bases.map (firstAcc T blk me))).errs = true ∧ 0 < (sum (bases.map (firstAcc T blk me))).msgs := by
    rw [sum_errs, sum_msgs]
    refine ⟨⟨_, List.mem_map.2 ⟨b, hb, rfl⟩, ?_⟩, ⟨_, List.mem_map.2 ⟨b, hb, rfl⟩, ?_⟩⟩ <;>
      simp [firstAcc, key, bad] <;> omega
  unfold checkBases
  rw [first_eq]
  dsimp only
  rw [if_pos (by rw [add_errs, e.1, Bool.true_or])]
  exact ⟨rfl, by dsimp only; rw [add_msgs]; omega⟩

/-- An unknown type that is no class, and an alias of one. -/
example : (checkBases { exTypes with ok := fun _ => true } (fun _ => .ok) 4 [0, 11] []).blk = .nav ∧
    (checkBases { exTypes with root := fun u => if u = 1 then 12 else u } (fun _ => .ok) 4 [1] []).blk = .nav ∧
    (checkBases { exTypes with complete := fun _ => false, mapped := some } (fun _ => .ok) 4 [4] []).blk = .nav :=
  ⟨(C108_no_class _ _ _ _ _ 11 (by simp) rfl (.inl (by decide))).1, (C108_no_class _ _ _ _ _ 1 (by simp) rfl (.inl (by decide))).1,
    (C108_no_class _ _ _ _ _ 4 (by simp) rfl (.inr ⟨rfl, rfl, 4, rfl, rfl⟩)).1⟩

end Ulam.Inherit
