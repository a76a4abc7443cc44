import Verif.Decl.Model
import Mathlib.Tactic.SplitIfs
import Mathlib.Tactic.Tauto
import Mathlib.Tactic.ByContra
/-!
# Declarations of variables with initial values (properties)
-/
namespace Ulam.Decl
variable {U : Type} [DecidableEq U]

/-! ## Specification -/

/-- The entries of the table that stand for no type are different, and not complete. -/
structure Types.Sane (T : Types U) : Prop where
  nav_hzy : T.nav ≠ T.hzy
  nav_void : T.nav ≠ T.void
  still : ∀ u, T.still u = true ↔ u = T.hzy
  nav : T.complete T.nav = false
  hzy : T.complete T.hzy = false
  nouti : T.nouti ≠ T.nav ∧ T.nouti ≠ T.hzy

/-- A list of `n` initial values is in order for a variable of the type: an empty one for an array or a class; others for an array with
room for all, or of no items. -/
def Fits (T : Types U) (n : Nat) (t : U) : Prop :=
  (n = 0 → T.scalar t = false ∨ T.cls t = true) ∧ (0 < n → 0 ≤ T.size t ∧ ((n : Int) ≤ T.size t ∨ T.size t = 0))

/-- An initial value may be given to a variable of the type: of the same type, or safe to cast and cast; a reference to a primitive
that may be changed needs something that is not constant. -/
def Castable (T : Types U) (D : Decl U) (i : Init U) (t : U) : Prop :=
  T.same i.label t = .same ∨ T.same t i.label = .same ∨
    i.forecast t = .clear ∧
    (D.isRef = false → i.explicitRef = false ∧ i.cast t = true) ∧
    (D.isRef = true → T.cls t = false → T.atom t = false → T.constRef t = false → i.const = .no)

/-- The initial value is a list that has no type of its own yet. -/
def Bare (T : Types U) (i : Init U) : Prop := i.list = true ∧ i.label = T.void

/-! ## Lemmas -/

theorem resize_ok (T : Types U) (d : U) (n : Nat) : (T.resize d n).ok = T.ok := by
  unfold Types.resize; split_ifs <;> rfl

theorem resize_nav (T : Types U) (d : U) (n : Nat) : (T.resize d n).nav = T.nav ∧ (T.resize d n).hzy = T.hzy ∧
    (T.resize d n).void = T.void ∧ (T.resize d n).ref = T.ref ∧ (T.resize d n).still = T.still ∧ (T.resize d n).nouti = T.nouti := by
  unfold Types.resize; split_ifs <;> exact ⟨rfl, rfl, rfl, rfl, rfl, rfl⟩

theorem sized_T (T : Types U) (D : Decl U) (i : Init U) (v : U) : (sized T D i v).1 = T ∨
    ∃ d, D.desc = some d ∧ (sized T D i v).1 = T.resize d.given i.n := by
  unfold sized
  split
  · exact .inl rfl
  · rename_i d hd
    by_cases h1 : (!T.complete v && d.emptySize && T.ok d.scalar && !T.complete d.label) = true
    · rw [if_pos h1]
      by_cases hn : i.n > 0
      · rw [if_pos hn]; dsimp only; right; refine ⟨d, hd, ?_⟩; split_ifs <;> rfl
      · rw [if_neg hn]; dsimp only; left; split_ifs <;> rfl
    · rw [if_neg h1]; exact .inl rfl

theorem sized_same (T : Types U) (D : Decl U) (i : Init U) (v : U) : (sized T D i v).1.ok = T.ok ∧ (sized T D i v).1.nav = T.nav ∧
    (sized T D i v).1.hzy = T.hzy ∧ (sized T D i v).1.ref = T.ref := by
  rcases sized_T T D i v with h | ⟨d, _, h⟩ <;> rw [h]
  · exact ⟨rfl, rfl, rfl, rfl⟩
  · exact ⟨resize_ok _ _ _, (resize_nav _ _ _).1, (resize_nav _ _ _).2.1, (resize_nav _ _ _).2.2.2.1⟩

theorem finish_T (T : Types U) (D : Decl U) (v : U) (a b : Nat) : (finish T D v a b).T = T := by
  unfold finish; split_ifs <;> rfl

theorem finish_ok {T : Types U} {D : Decl U} {v : U} {a b : Nat} (h : T.ok (finish T D v a b).ty = true) :
    (finish T D v a b).ty = v ∧ T.ok v = true ∧ (D.isRef = true → T.ref v = true) := by
  unfold finish at h ⊢
  split_ifs at h ⊢ with h1 h2 h3 h4
  · exact ⟨rfl, h1, fun _ => h3⟩
  · simp [Types.ok] at h
  · exact ⟨rfl, h1, fun k => absurd k h2⟩
  · exact absurd h h1
  · exact absurd h h1

theorem checkCast_ok {T : Types U} {D : Decl U} {i : Init U} {e v : U} (h : T.ok (checkCast T D i e v).1 = true) :
    (checkCast T D i e v).1 = v ∧ T.complete e = true ∧ T.complete v = true ∧
    (T.same e v = .same ∨ T.same v e = .same ∨ i.forecast v = .clear ∧
      (D.isRef = false → i.explicitRef = false ∧ i.cast v = true) ∧
      (D.isRef = true → T.cls v = false → T.atom v = false → T.constRef v = false → i.const = .no)) := by
  unfold checkCast at h ⊢
  by_cases hc : (!T.complete e || !T.complete v) = true
  · rw [if_pos hc] at h; simp [Types.ok] at h
  rw [if_neg hc] at h ⊢
  simp only [Bool.or_eq_true, Bool.not_eq_true', not_or, Bool.not_eq_false] at hc
  by_cases hs : T.same e v = .same
  · rw [if_pos hs]; exact ⟨rfl, hc.1, hc.2, .inl hs⟩
  rw [if_neg hs] at h ⊢
  dsimp only at h ⊢
  by_cases hs' : T.same v e = .same
  · rw [if_pos hs']; exact ⟨rfl, hc.1, hc.2, .inr (.inl hs')⟩
  rw [if_neg hs'] at h ⊢
  have nn : T.ok T.nav = false := by simp [Types.ok]
  have nh : T.ok T.hzy = false := by simp [Types.ok]
  by_cases hr : D.isRef = true
  · rw [if_pos hr] at h ⊢
    have k : (refCast T i v).1 = .clear := by
      cases hk : (refCast T i v).1 with
      | clear => rfl
      | bad => rw [hk] at h; dsimp only at h; rw [nn] at h; cases h
      | hazy => rw [hk] at h; dsimp only at h; rw [nh] at h; cases h
    rw [k]
    refine ⟨rfl, hc.1, hc.2, .inr (.inr ?_)⟩
    unfold refCast at k
    split_ifs at k with a b c d
    · exact absurd k a
    · refine ⟨by simpa using a, fun h => absurd hr (by simp [h]), fun _ h1 h2 _ => ?_⟩
      rw [h1, h2] at b; cases b
    · refine ⟨by simpa using a, fun h => absurd hr (by simp [h]), fun _ _ _ h3 => ?_⟩
      by_contra hn; exact c ⟨hn, h3⟩
  · rw [if_neg hr] at h ⊢
    have k : (declCast T i v).1 = .clear := by
      cases hk : (declCast T i v).1 with
      | clear => rfl
      | bad => rw [hk] at h; dsimp only at h; rw [nn] at h; cases h
      | hazy => rw [hk] at h; dsimp only at h; rw [nh] at h; cases h
    rw [k]
    refine ⟨rfl, hc.1, hc.2, .inr (.inr ?_)⟩
    unfold declCast at k
    split_ifs at k with a b c
    · exact absurd k a
    · exact ⟨by simpa using a, fun _ => ⟨by simpa using b, c⟩, fun h => absurd h hr⟩

theorem useAndFold_not_ok {T : Types U} {D : Decl U} {i : Init U} {has : Bool} {e : U} {o : Out U} (h : useAndFold T D i has e = some o) :
    o.T = T ∧ ((o.ty = T.nav ∧ 0 < o.errs) ∨ (o.ty = T.hzy ∧ o.again = true)) := by
  unfold useAndFold at h
  by_cases h1 : (T.ok e && T.complete e) = true
  · rw [if_pos h1] at h
    split at h
    · cases h; exact ⟨rfl, .inr ⟨rfl, rfl⟩⟩
    · cases h; exact ⟨rfl, .inl ⟨rfl, Nat.one_pos⟩⟩
    · by_cases h2 : (has && !D.ready && (!T.scalar e || T.cls e && i.list)) = true
      · rw [if_pos h2] at h
        split at h
        · cases h
        · cases h; exact ⟨rfl, .inl ⟨rfl, Nat.one_pos⟩⟩
        · cases h; exact ⟨rfl, .inr ⟨rfl, rfl⟩⟩
      · rw [if_neg h2] at h; cases h
  · rw [if_neg h1] at h; cases h

theorem useAndFold_none {T : Types U} {D : Decl U} {i : Init U} {has : Bool} {e : U} (h : useAndFold T D i has e = none)
    (ho : T.ok e = true) (hc : T.complete e = true) :
    i.self = .no ∧ (has = true → D.ready = false → (T.scalar e = false ∨ T.cls e = true ∧ i.list = true) → i.fold e = .done) := by
  unfold useAndFold at h
  rw [if_pos (by simp [ho, hc])] at h
  split at h
  · cases h
  · cases h
  · rename_i hs
    refine ⟨hs, fun h1 h2 h3 => ?_⟩
    rw [if_pos (by rcases h3 with h3 | ⟨h3, h4⟩ <;> simp [h1, h2, h3, *])] at h
    split at h
    · assumption
    · cases h
    · cases h

theorem not_ok_nav (T : Types U) : T.ok T.nav = false := by simp [Types.ok]
theorem not_ok_hzy (T : Types U) : T.ok T.hzy = false := by simp [Types.ok]

theorem rest_T (T : Types U) (D : Decl U) (i : Init U) (has : Bool) (e v : U) : (rest T D i has e v).T = T := by
  unfold rest
  split
  · rename_i o ho; exact (useAndFold_not_ok ho).1
  · split_ifs
    · exact finish_T ..
    · exact finish_T ..

theorem rest_ok {T : Types U} {D : Decl U} {i : Init U} {has : Bool} {e v : U} (he : T.ok e = true)
    (h : T.ok (rest T D i has e v).ty = true) :
    (rest T D i has e v).ty = v ∧ T.ok v = true ∧ (D.isRef = true → T.ref v = true) ∧ T.complete e = true ∧ T.complete v = true ∧
    i.self = .no ∧ (has = true → D.ready = false → (T.scalar e = false ∨ T.cls e = true ∧ i.list = true) → i.fold e = .done) ∧
    (T.same e v = .same ∨ T.same v e = .same ∨ i.forecast v = .clear ∧
      (D.isRef = false → i.explicitRef = false ∧ i.cast v = true) ∧
      (D.isRef = true → T.cls v = false → T.atom v = false → T.constRef v = false → i.const = .no)) := by
  unfold rest at h ⊢
  split at h
  · rename_i o ho
    rcases (useAndFold_not_ok ho).2 with ⟨k, _⟩ | ⟨k, _⟩ <;> rw [k] at h
    · rw [not_ok_nav] at h; cases h
    · rw [not_ok_hzy] at h; cases h
  · rename_i ho
    by_cases hv : T.ok v = true
    · rw [if_pos (by simp [he, hv])] at h
      dsimp only at h
      obtain ⟨h1, h2, h3⟩ := finish_ok h
      obtain ⟨h4, h5, h6, h7⟩ := checkCast_ok h2
      obtain ⟨h8, h9⟩ := useAndFold_none ho he h5
      rw [if_pos (by simp [he, hv])]
      dsimp only
      exact ⟨h1.trans h4, hv, h4 ▸ h3, h5, h6, h8, h9, h7⟩
    · rw [if_neg (by simp [hv])] at h
      exact absurd (finish_ok h).2.1 hv

theorem listFits_iff {T : Types U} {n : Nat} {v : U} (ho : T.ok v = true) (hc : T.complete v = true) :
    listFits T n v = true ↔ Fits T n v := by
  unfold listFits Fits
  rw [if_pos hc]
  by_cases hn : n = 0
  · subst hn
    simp only [if_pos, ho, Bool.true_and, Bool.not_and, Bool.not_not, Bool.or_eq_true, Bool.not_eq_true', true_implies]
    exact ⟨fun h => ⟨h, fun k => absurd k (by omega)⟩, fun h => h.1⟩
  · rw [if_neg hn]
    split_ifs with h1 h2
    · simp [hn]; omega
    · simp [hn]; omega
    · simp [hn]; omega

theorem secondType_ok {T : Types U} {v : U} (h : T.ok (secondType T v).1 = true) :
    (secondType T v) = (v, 0, 0) ∧ T.ok v = true ∧ T.complete v = true := by
  unfold secondType at h ⊢
  split_ifs at h ⊢ with h1 h2
  · rw [not_ok_hzy] at h; cases h
  · simp only [Bool.or_eq_true, not_or] at h2; exact absurd h h2.1
  · simp only [Bool.or_eq_true, Bool.not_eq_true', not_or, Bool.not_eq_false] at h1
    exact ⟨rfl, h1⟩

/-! ## Theorems -/

/-- **C109.** A variable that is accepted has a complete type; its initial value, if any, was accepted itself and does not use the
variable; a list fits; anything else has a complete type that is the same or safe to cast to that of the variable, and was cast. A
constant list was folded. -/
theorem C109_accepted (T : Types U) (hT : T.Sane) (D : Decl U) (hn : ∀ i, D.init = some i → i.label ≠ T.nouti)
    (hok : T.ok (label T D).ty = true) :
    (label T D).T.complete (label T D).ty = true ∧
    (D.isRef = true → T.ref (label T D).ty = true) ∧
    ∀ i, D.init = some i →
      i.label ≠ T.nav ∧ i.label ≠ T.hzy ∧ i.self = .no ∧
      (Bare T i → Fits (label T D).T i.n (label T D).ty ∧
        (D.ready = false → ((label T D).T.scalar (label T D).ty = false ∨ (label T D).T.cls (label T D).ty = true) →
          i.fold (label T D).ty = .done)) ∧
      (¬ Bare T i → T.complete i.label = true ∧ Castable T D i (label T D).ty ∧
        (D.hasInit = true → D.ready = false → T.scalar i.label = false → i.fold i.label = .done)) := by
  unfold label at hok ⊢
  cases hs : D.sym with
  | none => rw [hs] at hok; dsimp only at hok; rw [not_ok_nav] at hok; cases hok
  | some s =>
    rw [hs] at hok
    dsimp only at hok ⊢
    by_cases hv : T.isVoid (firstType T D s) = true
    · rw [if_pos hv] at hok; dsimp only at hok; rw [not_ok_nav] at hok; cases hok
    rw [if_neg hv] at hok ⊢
    cases hi : D.init with
    | none =>
      rw [hi] at hok
      have h : T.ok (finish T D (secondType T (firstType T D s)).1 0 0).ty = true := hok
      obtain ⟨h1, h2, h3⟩ := finish_ok h
      obtain ⟨h4, h5, h6⟩ := secondType_ok h2
      simp only [Out.plus, finish_T, h1]
      rw [h4] at h3 ⊢
      exact ⟨h6, h3, fun i h => by cases h⟩
    | some i =>
      rw [hi] at hok
      dsimp only [Out.plus] at hok ⊢
      generalize (secondType T (firstType T D s)).1 = v at hok ⊢
      unfold withInit at hok ⊢
      by_cases h1 : i.label = T.nav
      · rw [if_pos h1] at hok; dsimp only at hok; rw [not_ok_nav] at hok; cases hok
      by_cases h2 : T.still i.label = true
      · rw [if_neg h1, if_pos h2] at hok; dsimp only at hok; rw [not_ok_hzy] at hok; cases hok
      have h2' : i.label ≠ T.hzy := fun h => h2 ((hT.still _).2 h)
      rw [if_neg h1, if_neg h2] at hok ⊢
      dsimp only at hok ⊢
      have he : T.ok i.label = true := by
        simp [Types.ok, h1, h2', hn i hi, h2]
      generalize switchType T D i.label v = v at hok ⊢
      by_cases hb : Bare T i
      · rw [if_pos (by simp [hb.1, hb.2])] at hok ⊢
        obtain ⟨s1, s2, s3, s4⟩ := sized_same T D i v
        generalize sized T D i v = r at hok s1 s2 s3 s4 ⊢
        obtain ⟨T', v'⟩ := r
        dsimp only at hok s1 s2 s3 s4 ⊢
        by_cases hf : listFits T' i.n v' = true
        · rw [if_pos hf] at hok ⊢
          rw [← s1] at hok
          have hv' : T'.ok v' = true := by
            by_contra hv'
            unfold rest at hok
            split at hok
            · rename_i o ho
              rcases (useAndFold_not_ok ho).2 with ⟨k, _⟩ | ⟨k, _⟩ <;> rw [k] at hok
              · rw [not_ok_nav] at hok; cases hok
              · rw [not_ok_hzy] at hok; cases hok
            · rw [if_neg (by simp [hv'])] at hok
              exact hv' (finish_ok hok).2.1
          obtain ⟨k1, k2, k3, k4, k5, k6, k7, k8⟩ := rest_ok hv' hok
          rw [rest_T, k1]
          refine ⟨k5, fun h => by rw [← s4]; exact k3 h, ?_⟩
          intro j hj
          cases hj
          refine ⟨h1, h2', k6, fun _ => ⟨(listFits_iff hv' k5).1 hf, fun g1 g2 => k7 rfl g1 ?_⟩, fun h => absurd hb h⟩
          rcases g2 with g2 | g2
          · exact .inl g2
          · exact .inr ⟨g2, hb.1⟩
        · rw [if_neg hf] at hok
          dsimp only at hok; rw [not_ok_nav] at hok; cases hok
      · have hb' : ¬ ((i.list && i.label == T.void) = true) := by
          simpa [Bare] using hb
        rw [if_neg hb'] at hok ⊢
        obtain ⟨k1, k2, k3, k4, k5, k6, k7, k8⟩ := rest_ok he hok
        rw [rest_T, k1]
        refine ⟨k5, k3, ?_⟩
        intro j hj
        cases hj
        exact ⟨h1, h2', k6, fun h => absurd h hb, fun _ => ⟨k4, k8, fun g1 g2 g3 => k7 (by simp [g1]) g2 (.inl g3)⟩⟩

/-- **C109.** An array declared without a size that is accepted with a list has as many items as the list. -/
theorem C109_size (T : Types U) (hT : T.Sane) (D : Decl U) (d : Desc U) (i : Init U) (s : U) (hs : D.sym = some s) (hd : D.desc = some d)
    (hi : D.init = some i) (he : d.emptySize = true) (hb : Bare T i) (hsw : D.inSwitch = false) (hv : T.isVoid (firstType T D s) = false)
    (hc : T.ok d.given = true ∧ T.complete d.given = false ∧ T.complete (firstType T D s) = false)
    (hok : T.ok (label T D).ty = true) :
    (label T D).ty = d.given ∧ 0 < i.n ∧ (label T D).T.size (label T D).ty = i.n ∧ (label T D).T.scalar (label T D).ty = false := by
  have key : ∀ v, T.complete v = false → T.ok (withInit T D i v).ty = true → (withInit T D i v).ty = d.given ∧ 0 < i.n ∧
      (withInit T D i v).T.size (withInit T D i v).ty = i.n ∧ (withInit T D i v).T.scalar (withInit T D i v).ty = false := by
    intro v hcv hok
    unfold withInit at hok ⊢
    by_cases h1 : i.label = T.nav
    · rw [if_pos h1] at hok; dsimp only at hok; rw [not_ok_nav] at hok; cases hok
    by_cases h2 : T.still i.label = true
    · rw [if_neg h1, if_pos h2] at hok; dsimp only at hok; rw [not_ok_hzy] at hok; cases hok
    have hw : switchType T D i.label v = v := by unfold switchType; rw [hd]; simp [hsw]
    rw [if_neg h1, if_neg h2, hw] at hok ⊢
    dsimp only at hok ⊢
    rw [if_pos (by simp [hb.1, hb.2])] at hok ⊢
    obtain ⟨s1, -, -, -⟩ := sized_same T D i v
    have hz : (sized T D i v).1.complete (sized T D i v).2 = true → sized T D i v = (T.resize d.given i.n, d.given) ∧ 0 < i.n := by
      intro hcz
      unfold sized at hcz ⊢
      rw [hd] at hcz ⊢
      dsimp only at hcz ⊢
      by_cases hx : (!T.complete v && d.emptySize && T.ok d.scalar && !T.complete d.label) = true
      · rw [if_pos hx] at hcz ⊢
        by_cases hn : i.n > 0
        · rw [if_pos hn] at hcz ⊢
          split_ifs at hcz ⊢ with hy
          · exact ⟨rfl, hn⟩
          · exfalso
            dsimp only at hcz hy
            unfold Types.resize at hcz hy
            rw [if_pos (by simp [hc.1, hc.2.1])] at hcz hy
            dsimp only at hcz hy
            rw [if_pos rfl] at hy
            split_ifs at hcz with hq
            · exact hy hcz
            · rw [hcv] at hcz; cases hcz
        · rw [if_neg hn, if_neg (by simp [hc.2.1])] at hcz
          dsimp only at hcz; rw [hcv] at hcz; cases hcz
      · rw [if_neg hx] at hcz; dsimp only at hcz; rw [hcv] at hcz; cases hcz
    by_cases hf : listFits (sized T D i v).1 i.n (sized T D i v).2 = true
    · rw [if_pos hf] at hok ⊢
      rw [← s1] at hok
      have hv' : (sized T D i v).1.ok (sized T D i v).2 = true := by
        by_contra hv'
        unfold rest at hok
        split at hok
        · rename_i o ho
          rcases (useAndFold_not_ok ho).2 with ⟨k, _⟩ | ⟨k, _⟩ <;> rw [k] at hok
          · rw [not_ok_nav] at hok; cases hok
          · rw [not_ok_hzy] at hok; cases hok
        · rw [if_neg (by simp [hv'])] at hok
          exact hv' (finish_ok hok).2.1
      obtain ⟨k1, -, -, -, k5, -⟩ := rest_ok hv' hok
      obtain ⟨z1, z2⟩ := hz k5
      rw [rest_T, k1, z1]
      refine ⟨rfl, z2, ?_, ?_⟩ <;> unfold Types.resize <;> rw [if_pos (by simp [hc.1, hc.2.1])] <;> simp
    · rw [if_neg hf] at hok
      dsimp only at hok; rw [not_ok_nav] at hok; cases hok
  unfold label at hok ⊢
  rw [hs] at hok ⊢
  dsimp only at hok ⊢
  rw [if_neg (by simp [hv]), hi] at hok ⊢
  dsimp only [Out.plus] at hok ⊢
  refine key _ ?_ hok
  unfold secondType
  rw [if_pos (by simp [hc.2.2])]
  split_ifs
  · exact hT.hzy
  · exact hc.2.2

theorem finish_out {T : Types U} (hT : T.Sane) (D : Decl U) (v : U) (a b : Nat) (hv : v ≠ T.nouti) (hn : v = T.nav → 0 < a) :
    ((finish T D v a b).ty = T.nav ∧ 0 < (finish T D v a b).errs) ∨
    ((finish T D v a b).ty = T.hzy ∧ (finish T D v a b).again = true) ∨ T.ok (finish T D v a b).ty = true := by
  unfold finish
  split_ifs with h1 h2 h3 h4
  · exact .inr (.inr h1)
  · exact .inl ⟨rfl, Nat.succ_pos _⟩
  · exact .inr (.inr h1)
  · exact .inr (.inl ⟨h4, rfl⟩)
  · left
    have : v = T.nav := by
      by_contra hne
      apply h1
      have hs : T.still v = false := by rw [← Bool.not_eq_true, hT.still]; exact h4
      simp [Types.ok, hne, h4, hv, hs]
    exact ⟨this, hn this⟩

theorem cast_out {T : Types U} (D : Decl U) (i : Init U) (e v : U) (hv : T.ok v = true) :
    (checkCast T D i e v).1 = v ∨ (checkCast T D i e v).1 = T.hzy ∨ (checkCast T D i e v).1 = T.nav ∧ 0 < (checkCast T D i e v).2.1 := by
  unfold checkCast
  by_cases hc : (!T.complete e || !T.complete v) = true
  · rw [if_pos hc]; exact .inr (.inl rfl)
  rw [if_neg hc]
  by_cases hs : T.same e v = .same
  · rw [if_pos hs]; exact .inl rfl
  rw [if_neg hs]
  dsimp only
  by_cases hs' : T.same v e = .same
  · rw [if_pos hs']; exact .inl rfl
  rw [if_neg hs']
  by_cases hr : D.isRef = true
  · rw [if_pos hr]
    cases hk : (refCast T i v).1 with
    | clear => exact .inl rfl
    | hazy => exact .inr (.inl rfl)
    | bad =>
      refine .inr (.inr ⟨rfl, ?_⟩)
      unfold refCast at hk ⊢
      split_ifs at hk ⊢ with a b c d
      · dsimp only at hk ⊢; rw [hk]; exact Nat.one_pos
      · exact Nat.one_pos
  · rw [if_neg hr]
    cases hk : (declCast T i v).1 with
    | clear => exact .inl rfl
    | hazy => exact .inr (.inl rfl)
    | bad =>
      refine .inr (.inr ⟨rfl, ?_⟩)
      unfold declCast at hk ⊢
      split_ifs at hk ⊢ with a b c d
      · dsimp only at hk ⊢; rw [hk]; exact Nat.one_pos
      · exact Nat.one_pos
      · exact Nat.one_pos

theorem resize_sane {T : Types U} (hT : T.Sane) (d : U) (n : Nat) : (T.resize d n).Sane := by
  unfold Types.resize
  split_ifs with h
  · have hd : d ≠ T.nav ∧ d ≠ T.hzy := by
      simp only [Types.ok, Bool.and_eq_true, bne_iff_ne] at h; exact ⟨h.1.1.1.1, h.1.1.1.2⟩
    exact ⟨hT.nav_hzy, hT.nav_void, hT.still, by dsimp only; rw [if_neg hd.1.symm]; exact hT.nav,
      by dsimp only; rw [if_neg hd.2.symm]; exact hT.hzy, hT.nouti⟩
  · exact hT

theorem rest_out {T : Types U} (hT : T.Sane) (D : Decl U) (i : Init U) (has : Bool) (e v : U) (hv : v ≠ T.nouti) (k : Nat)
    (hn : v = T.nav → 0 < k) :
    ((rest T D i has e v).ty = T.nav ∧ 0 < (rest T D i has e v).errs + k) ∨
    ((rest T D i has e v).ty = T.hzy ∧ (rest T D i has e v).again = true) ∨ T.ok (rest T D i has e v).ty = true := by
  unfold rest
  split
  · rename_i o ho
    rcases (useAndFold_not_ok ho).2 with h | h
    · exact .inl ⟨h.1, by have := h.2; omega⟩
    · exact .inr (.inl h)
  · by_cases hx : (T.ok e && T.ok v) = true
    · rw [if_pos hx]
      simp only [Bool.and_eq_true] at hx
      dsimp only
      have hnv : v ≠ T.nav := by rintro rfl; rw [not_ok_nav] at hx; cases hx.2
      rcases finish_out hT D (checkCast T D i e v).1 (checkCast T D i e v).2.1 (checkCast T D i e v).2.2 (by
          rcases cast_out D i e v hx.2 with h | h | ⟨h, _⟩
          · rw [h]; exact hv
          · rw [h]; exact hT.nouti.2.symm
          · rw [h]; exact hT.nouti.1.symm) (by
          rcases cast_out D i e v hx.2 with h | h | ⟨h, h'⟩
          · rw [h]; exact fun h => absurd h hnv
          · rw [h]; exact fun h => absurd h.symm hT.nav_hzy
          · exact fun _ => h') with h | h | h
      · exact .inl ⟨h.1, by have := h.2; omega⟩
      · exact .inr (.inl h)
      · exact .inr (.inr h)
    · rw [if_neg hx]
      have nk : v = T.nav → 0 < k := hn
      by_cases hvn : v = T.nav
      · left
        subst hvn
        unfold finish
        rw [if_neg (by rw [not_ok_nav]; simp), if_neg hT.nav_hzy]
        exact ⟨rfl, by have := nk rfl; dsimp only; omega⟩
      · rcases finish_out hT D v 0 0 hv (fun h => absurd h hvn) with h | h | h
        · exact .inl ⟨h.1, by have := h.2; omega⟩
        · exact .inr (.inl h)
        · exact .inr (.inr h)

/-- **C109.** A declaration is refused and reported, or waited for, with another round asked for, or accepted. `hu`: there is a symbol,
and the types are in the table. -/
theorem C109_outcome (T : Types U) (hT : T.Sane) (D : Decl U) (s : U) (hs : D.sym = some s) (hu : s ≠ T.nouti)
    (hd : ∀ d, D.desc = some d → d.label ≠ T.nouti ∧ d.given ≠ T.nouti ∧ d.given ≠ T.nav)
    (hr : ∀ u, T.deref u ≠ T.nouti ∧ T.deref u ≠ T.nav) (hi : ∀ i, D.init = some i → i.label ≠ T.nouti) :
    ((label T D).ty = T.nav ∧ 0 < (label T D).errs) ∨ ((label T D).ty = T.hzy ∧ (label T D).again = true) ∨
    T.ok (label T D).ty = true := by
  unfold label
  rw [hs]
  dsimp only
  have hf : firstType T D s ≠ T.nouti := by
    unfold firstType
    split
    · exact hu
    · rename_i d hd'
      split_ifs
      · exact hT.nouti.1.symm
      · exact (hd d hd').1
      · exact hu
  by_cases hv : T.isVoid (firstType T D s) = true
  · rw [if_pos hv]; exact .inl ⟨rfl, Nat.one_pos⟩
  rw [if_neg hv]
  have h2 : (secondType T (firstType T D s)).1 ≠ T.nouti ∧
      ((secondType T (firstType T D s)).1 = T.nav → 0 < (secondType T (firstType T D s)).2.1) := by
    unfold secondType
    split_ifs with h1 h2
    · exact ⟨hT.nouti.2.symm, fun h => absurd h.symm hT.nav_hzy⟩
    · exact ⟨hf, fun _ => Nat.one_pos⟩
    · refine ⟨hf, fun h => ?_⟩
      dsimp only at h
      rw [h, not_ok_nav] at h1; simp at h1
  generalize secondType T (firstType T D s) = r at h2 ⊢
  obtain ⟨v, ke, kw⟩ := r
  dsimp only at h2 ⊢
  cases hin : D.init with
  | none =>
    dsimp only [Out.plus]
    by_cases hvn : v = T.nav
    · subst hvn
      left
      unfold finish
      rw [if_neg (by rw [not_ok_nav]; simp), if_neg hT.nav_hzy]
      exact ⟨rfl, by have := h2.2 rfl; dsimp only; omega⟩
    · rcases finish_out hT D v 0 0 h2.1 (fun h => absurd h hvn) with h | h | h
      · exact .inl ⟨h.1, by have := h.2; omega⟩
      · exact .inr (.inl h)
      · exact .inr (.inr h)
  | some i =>
    dsimp only [Out.plus]
    unfold withInit
    by_cases h3 : i.label = T.nav
    · rw [if_pos h3]; exact .inl ⟨rfl, by dsimp only; omega⟩
    by_cases h4 : T.still i.label = true
    · rw [if_neg h3, if_pos h4]; exact .inr (.inl ⟨rfl, rfl⟩)
    rw [if_neg h3, if_neg h4]
    dsimp only
    have hw : switchType T D i.label v ≠ T.nouti ∧ (switchType T D i.label v = T.nav → 0 < ke) := by
      unfold switchType
      split
      · rename_i d hd'
        by_cases hsw : D.inSwitch = true
        · rw [if_pos hsw]
          dsimp only
          by_cases hrf : T.ref (if (T.holder d.given && T.complete i.label) = true then i.label else d.given) = true
          · rw [if_pos hrf]; exact ⟨(hr _).1, fun h => absurd h (hr _).2⟩
          · rw [if_neg hrf]
            split_ifs
            · exact ⟨hi i hin, fun h => absurd h h3⟩
            · exact ⟨(hd d hd').2.1, fun h => absurd h (hd d hd').2.2⟩
        · rw [if_neg hsw]; exact h2
      · exact h2
    generalize switchType T D i.label v = v at hw ⊢
    by_cases hb : (i.list && i.label == T.void) = true
    · rw [if_pos hb]
      obtain ⟨s1, s2, s3, s4⟩ := sized_same T D i v
      have s5 : (sized T D i v).1.Sane ∧ (sized T D i v).1.nouti = T.nouti := by
        rcases sized_T T D i v with h | ⟨d, _, h⟩ <;> rw [h]
        · exact ⟨hT, rfl⟩
        · exact ⟨resize_sane hT _ _, (resize_nav _ _ _).2.2.2.2.2⟩
      have s6 : (sized T D i v).2 ≠ T.nouti ∧ ((sized T D i v).2 = T.nav → 0 < ke) := by
        unfold sized
        split
        · exact hw
        · rename_i d hd'
          by_cases hx : (!T.complete v && d.emptySize && T.ok d.scalar && !T.complete d.label) = true
          · rw [if_pos hx]
            dsimp only
            by_cases hy : (if i.n > 0 then T.resize d.given i.n else T).complete d.given = true
            · rw [if_pos hy]; exact ⟨(hd d hd').2.1, fun h => absurd h (hd d hd').2.2⟩
            · rw [if_neg hy]; exact hw
          · rw [if_neg hx]; exact hw
      generalize sized T D i v = r at s1 s2 s3 s4 s5 s6 ⊢
      obtain ⟨T', v'⟩ := r
      dsimp only at s1 s2 s3 s4 s5 s6 ⊢
      by_cases hl : listFits T' i.n v' = true
      · rw [if_pos hl]
        have := rest_out s5.1 D i true v' v' (by rw [s5.2]; exact s6.1) ke (by rw [s2]; exact s6.2)
        rw [s1, s2, s3] at this
        exact this
      · rw [if_neg hl]; exact .inl ⟨rfl, by dsimp only; omega⟩
    · rw [if_neg hb]
      exact rest_out hT D i _ i.label v hw.1 ke hw.2

/-- **C109.** A variable of a complete type other than `Void`, with no initial value or one that may be given to it, is accepted without
a message. -/
theorem C109_ok (T : Types U) (D : Decl U) (s : U) (hs : D.sym = some s) (hd : ∀ d, D.desc = some d → d.label = s)
    (hok : T.ok s = true) (hc : T.complete s = true) (hv : T.isVoid s = false) (hsw : D.inSwitch = false) (hr : D.isRef = true → T.ref s = true)
    (hi : ∀ i, D.init = some i → T.ok i.label = true ∧ i.self = .no ∧
      (Bare T i → Fits T i.n s ∧ T.same s s = .same ∧ i.fold s = .done) ∧
      (¬ Bare T i → T.complete i.label = true ∧ Castable T D i s ∧ i.fold i.label = .done)) :
    (label T D).ty = s ∧ (label T D).errs = 0 ∧ (label T D).waits = 0 ∧ (label T D).T = T := by
  have hnav : s ≠ T.nav := by rintro rfl; rw [not_ok_nav] at hok; cases hok
  have f1 : firstType T D s = s := by
    unfold firstType
    split
    · rfl
    · rename_i d hd'
      rw [hd d hd', if_neg hnav, if_neg (by simp)]
  have f2 : secondType T s = (s, 0, 0) := by
    unfold secondType; rw [if_neg (by simp [hok, hc])]
  have f3 : (finish T D s 0 0).ty = s ∧ (finish T D s 0 0).errs = 0 ∧ (finish T D s 0 0).waits = 0 ∧ (finish T D s 0 0).T = T := by
    unfold finish
    rw [if_pos hok]
    by_cases h : D.isRef = true
    · rw [if_pos h, if_pos (hr h)]; exact ⟨rfl, rfl, rfl, rfl⟩
    · rw [if_neg h]; exact ⟨rfl, rfl, rfl, rfl⟩
  unfold label
  rw [hs]
  dsimp only
  rw [f1, if_neg (by simp [hv]), f2]
  cases hin : D.init with
  | none => exact f3
  | some i =>
    obtain ⟨h1, h2, h3, h4⟩ := hi i hin
    have n1 : i.label ≠ T.nav := by intro h; rw [h, not_ok_nav] at h1; cases h1
    have n2 : ¬ T.still i.label = true := by
      intro h; simp [Types.ok, h] at h1
    have hw : switchType T D i.label s = s := by
      unfold switchType; split
      · rw [if_neg (by simp [hsw])]
      · rfl
    dsimp only [Out.plus]
    unfold withInit
    rw [if_neg n1, if_neg n2, hw]
    dsimp only
    have fold : ∀ has e, T.ok e = true → i.fold e = .done → useAndFold T D i has e = none := by
      intro has e ho hf
      unfold useAndFold
      rw [h2, hf]
      split_ifs <;> rfl
    by_cases hb : Bare T i
    · rw [if_pos (by simp [hb.1, hb.2])]
      obtain ⟨g1, g2, g3⟩ := h3 hb
      have hz : sized T D i s = (T, s) := by
        unfold sized; split
        · rfl
        · rw [if_neg (by simp [hc])]
      rw [hz]
      dsimp only
      rw [if_pos ((listFits_iff hok hc).2 g1)]
      unfold rest
      rw [fold _ _ hok g3]
      dsimp only
      rw [if_pos (by simp [hok])]
      have : checkCast T D i s s = (s, 0, 0) := by
        unfold checkCast; rw [if_neg (by simp [hc]), if_pos g2]
      rw [this]
      exact f3
    · rw [if_neg (by simpa [Bare] using hb)]
      obtain ⟨g1, g2, g3⟩ := h4 hb
      unfold rest
      rw [fold _ _ h1 g3]
      dsimp only
      rw [if_pos (by simp [hok, h1])]
      have : checkCast T D i i.label s = (s, 0, 0) := by
        unfold checkCast
        rw [if_neg (by simp [hc, g1])]
        by_cases hq : T.same i.label s = .same
        · rw [if_pos hq]
        rw [if_neg hq]
        by_cases hq' : T.same s i.label = .same
        · rw [if_pos hq']
        rw [if_neg hq']
        rcases g2 with g2 | g2 | ⟨p1, p2, p3⟩
        · exact absurd g2 hq
        · exact absurd g2 hq'
        · by_cases h : D.isRef = true
          · rw [if_pos h]
            have : refCast T i s = (.clear, 0, 0) := by
              unfold refCast
              rw [if_neg (by simp [p1])]
              split_ifs with a b c
              · rfl
              · simp only [Bool.or_eq_true, not_or, Bool.not_eq_true] at a
                exact absurd (p3 h a.1 a.2 b.2) b.1
              · simp only [Bool.or_eq_true, not_or, Bool.not_eq_true] at a
                exact absurd (p3 h a.1 a.2 b.2) b.1
              · rfl
            rw [this]
          · rw [if_neg h]
            have : declCast T i s = (.clear, 0, 0) := by
              unfold declCast
              rw [if_neg (by simp [p1]), if_neg (by simp [(p2 (by simpa using h)).1]), if_pos (p2 (by simpa using h)).2]
            rw [this]
      rw [this]
      exact f3

/-- **C109 (fails).** If the symbol is not found while a base class is not known yet, the declaration is refused, though nothing but a
message to wait is given, and no other round is asked for. -/
theorem C109_kin_fails (T : Types U) (D : Decl U) (h : D.sym = none) (hk : D.kin = true) :
    (label T D).ty = T.nav ∧ (label T D).errs = 0 ∧ (label T D).again = false := by
  unfold label; rw [h]; simp [hk]

/-! ## References -/

/-- **C110.** A reference that is accepted refers to something that may be referred to and stored into, unless it is a constant
reference, which may not be stored into itself; the initial value is of its type, or was cast to it, or the types cannot be compared. -/
theorem C110_accepted (T : Types U) (hT : T.Sane) (D : Decl U) (hD : D.isRef = true) (hn : ∀ i, D.init = some i → i.label ≠ T.nouti)
    (hok : T.ok (labelRef T D).ty = true) :
    (labelRef T D).T.complete (labelRef T D).ty = true ∧ T.ref (labelRef T D).ty = true ∧
    ∀ i, D.init = some i →
      (T.constRef (labelRef T D).ty = false → i.referable = .yes ∧ i.store = .yes ∧ (labelRef T D).store = .yes) ∧
      (T.constRef (labelRef T D).ty = true → (labelRef T D).store = .no) ∧
      (T.same i.label (labelRef T D).ty = .notSame → i.cast (labelRef T D).ty = true) := by
  have A := C109_accepted T hT D hn
  unfold labelRef at hok ⊢
  cases hi : D.init with
  | none =>
    rw [hi] at hok
    dsimp only at hok ⊢
    obtain ⟨a, b, _⟩ := A hok
    exact ⟨a, b hD, fun i h => by cases h⟩
  | some i =>
    rw [hi] at hok
    dsimp only at hok ⊢
    split_ifs at hok ⊢ with h1 h2 h3 h4 h5 h6 h7
    all_goals first
      | (dsimp only at hok; rw [not_ok_nav] at hok; cases hok; done)
      | (dsimp only at hok; rw [not_ok_hzy] at hok; cases hok; done)
      | skip
    all_goals
      dsimp only at hok ⊢
      obtain ⟨a, b, _⟩ := A hok
      refine ⟨a, b hD, fun j hj => ?_⟩
      cases hj
    · refine ⟨fun h => absurd h (by simp_all), fun _ => rfl, fun h => ?_⟩
      by_contra hc
      simp_all
    · refine ⟨fun h => ?_, fun h => absurd h (by simp_all), fun h => ?_⟩
      · simp_all
      · by_contra hc
        simp_all

/-- **C110 (fails).** A reference to something of which it is not known yet whether it may be referred to is not waited for, but
refused. -/
theorem C110_hazy_fails (T : Types U) (D : Decl U) (i : Init U) (hi : D.init = some i) (ho : T.ok (label T D).ty = true)
    (hl : T.ok i.label = true) (hc : T.constRef (label T D).ty = false) (hs : i.store = .yes) (hr : i.referable = .hazy) :
    (labelRef T D).ty = T.nav ∧ 0 < (labelRef T D).errs := by
  have n1 : (label T D).ty ≠ T.nav := by intro h; rw [h, not_ok_nav] at ho; cases ho
  have n2 : i.label ≠ T.nav := by intro h; rw [h, not_ok_nav] at hl; cases hl
  have n3 : ¬ T.still i.label = true := by intro h; simp [Types.ok, h] at hl
  have n4 : i.label ≠ T.nouti := by intro h; simp [Types.ok, h] at hl
  unfold labelRef
  rw [hi]
  dsimp only
  rw [if_neg (by simp [n1, n2]), if_neg (by simp [ho, n3, n4]), if_pos (by simp [hc, hr]), if_neg (by simp [hc, hs])]
  exact ⟨rfl, Nat.succ_pos _⟩

/-! ## Lists -/

/-- **C111.** A list of arguments is refused exactly if one of them is; otherwise it is waited for exactly if one is not complete. -/
theorem C111_list (T : Types U) (hT : T.Sane) (hv : T.void ≠ T.hzy) (l : List (Item U)) :
    ((∃ x ∈ l, x.label = T.nav) → listLabel T l T.void = T.nav) ∧
    ((∀ x ∈ l, x.label ≠ T.nav) → (∃ x ∈ l, T.complete x.label = false) → listLabel T l T.void = T.hzy) ∧
    ((∀ x ∈ l, x.label ≠ T.nav ∧ T.complete x.label = true) → listLabel T l T.void = T.void) := by
  have stay : ∀ l : List (Item U), listLabel T l T.nav = T.nav := by
    intro l
    induction l with
    | nil => rfl
    | cons x l ih => rw [listLabel]; simp [ih]
  have one : ∀ (l : List (Item U)) r, (∃ x ∈ l, x.label = T.nav) → listLabel T l r = T.nav := by
    intro l
    induction l with
    | nil => rintro r ⟨x, h, _⟩; cases h
    | cons x l ih =>
      rintro r ⟨y, hy, hn⟩
      rw [listLabel]
      by_cases hx : x.label = T.nav
      · rw [if_pos hx]; exact stay l
      · refine ih _ ⟨y, ?_, hn⟩
        rcases List.mem_cons.1 hy with rfl | h
        · exact absurd hn hx
        · exact h
  have keep : ∀ (l : List (Item U)), (∀ x ∈ l, x.label ≠ T.nav) → listLabel T l T.hzy = T.hzy := by
    intro l
    induction l with
    | nil => intro _; rfl
    | cons x l ih =>
      intro h
      rw [listLabel, if_neg (h x List.mem_cons_self), ite_self]
      exact ih fun y hy => h y (List.mem_cons_of_mem _ hy)
  refine ⟨one l _, ?_, ?_⟩
  · induction l with
    | nil => rintro _ ⟨x, h, _⟩; cases h
    | cons x l ih =>
      rintro h ⟨y, hy, hc⟩
      rw [listLabel, if_neg (h x List.mem_cons_self)]
      by_cases hx : T.complete x.label = false
      · rw [if_pos ⟨hT.nav_void.symm, hx⟩]
        exact keep l fun y hy => h y (List.mem_cons_of_mem _ hy)
      · rw [if_neg (by simp [hx])]
        refine ih (fun y hy => h y (List.mem_cons_of_mem _ hy)) ⟨y, ?_, hc⟩
        rcases List.mem_cons.1 hy with rfl | h'
        · exact absurd hc hx
        · exact h'
  · induction l with
    | nil => intro _; rfl
    | cons x l ih =>
      intro h
      rw [listLabel, if_neg (h x List.mem_cons_self).1, if_neg (by simp [(h x List.mem_cons_self).2])]
      exact ih fun y hy => h y (List.mem_cons_of_mem _ hy)

/-- An item of a list of initial values for an array: of a type other than `Void`, and constant. -/
def GoodItem (T : Types U) (x : Item U) : Prop := T.ok x.label = true ∧ x.label ≠ T.void ∧ x.const = .yes

/-- An item that is wrong. -/
def BadItem (T : Types U) (x : Item U) : Prop :=
  x.label = T.nav ∨ T.ok x.label = true ∧ (x.label = T.void ∨ x.const = .no)

instance (T : Types U) (x : Item U) : Decidable (BadItem T x) := by unfold BadItem; infer_instance

theorem items_not_ok (T : Types U) (l : List (Item U)) : ∀ r a b, T.ok r = false → T.ok (arrayItems T l (r, a, b)).1 = false := by
  induction l with
  | nil => intro r a b h; exact h
  | cons x l ih =>
    intro r a b h
    rw [arrayItems]
    by_cases h1 : T.ok x.label = false
    · rw [if_pos h1]; exact ih _ _ _ h1
    rw [if_neg h1]
    by_cases h2 : x.label = T.void
    · rw [if_pos h2]; exact ih _ _ _ (not_ok_nav T)
    rw [if_neg h2]
    cases x.const with
    | yes => exact ih _ _ _ h
    | no => exact ih _ _ _ (not_ok_nav T)
    | hazy =>
      dsimp only
      by_cases hr : r = T.nav
      · rw [if_neg (by simp [hr])]; exact ih _ _ _ h
      · rw [if_pos hr]; exact ih _ _ _ (not_ok_hzy T)

/-- **C111.** A list of initial values for an array is accepted exactly if each is: of a type other than `Void`, and constant; then
there are no messages and its type stays. -/
theorem C111_array (T : Types U) (l : List (Item U)) (hv : T.ok T.void = true) :
    (T.ok (arrayLabel T l T.void).1 = true ↔ ∀ x ∈ l, GoodItem T x) ∧
    ((∀ x ∈ l, GoodItem T x) → arrayLabel T l T.void = (T.void, 0, 0)) := by
  have hs : ¬ T.still T.void = true := by intro h; simp [Types.ok, h] at hv
  have e : arrayLabel T l T.void = arrayItems T l (T.void, 0, 0) := by
    unfold arrayLabel; rw [if_neg hs]; dsimp only; rw [if_neg (by simp [hv])]
  have good : ∀ (l : List (Item U)) r, (∀ x ∈ l, GoodItem T x) → arrayItems T l r = r := by
    intro l
    induction l with
    | nil => intro r _; rfl
    | cons x l ih =>
      rintro ⟨r, a, b⟩ h
      obtain ⟨g1, g2, g3⟩ := h x List.mem_cons_self
      rw [arrayItems, if_neg (by simp [g1]), if_neg g2, g3]
      exact ih _ fun y hy => h y (List.mem_cons_of_mem _ hy)
  rw [e]
  refine ⟨⟨?_, fun h => by rw [good l _ h]; exact hv⟩, good l _⟩
  have key : ∀ (l : List (Item U)) r a b, T.ok (arrayItems T l (r, a, b)).1 = true → ∀ x ∈ l, GoodItem T x := by
    intro l
    induction l with
    | nil => intro _ _ _ _ x hx; cases hx
    | cons y l ih =>
      intro r a b h
      rw [arrayItems] at h
      by_cases h1 : T.ok y.label = false
      · rw [if_pos h1, items_not_ok T l _ _ _ h1] at h; cases h
      by_cases h2 : y.label = T.void
      · rw [if_neg h1, if_pos h2, items_not_ok T l _ _ _ (not_ok_nav T)] at h; cases h
      rw [if_neg h1, if_neg h2] at h
      cases hc : y.const with
      | no => rw [hc] at h; dsimp only at h; rw [items_not_ok T l _ _ _ (not_ok_nav T)] at h; cases h
      | hazy =>
        rw [hc] at h
        dsimp only at h
        by_cases hr : r = T.nav
        · rw [if_neg (by simp [hr]), items_not_ok T l _ _ _ (by rw [hr]; exact not_ok_nav T)] at h; cases h
        · rw [if_pos hr, items_not_ok T l _ _ _ (not_ok_hzy T)] at h; cases h
      | yes =>
        rw [hc] at h
        intro x hx
        rcases List.mem_cons.1 hx with rfl | hx
        · exact ⟨by simpa using h1, h2, hc⟩
        · exact ih _ _ _ h x hx
  exact key l _ _ _

/-- **C111.** As many errors are reported as items are wrong. -/
theorem C111_errors (T : Types U) (l : List (Item U)) (hv : T.ok T.void = true) :
    (arrayLabel T l T.void).2.1 = l.countP fun x => decide (BadItem T x) := by
  have hs : ¬ T.still T.void = true := by intro h; simp [Types.ok, h] at hv
  have e : arrayLabel T l T.void = arrayItems T l (T.void, 0, 0) := by
    unfold arrayLabel; rw [if_neg hs]; dsimp only; rw [if_neg (by simp [hv])]
  rw [e]
  have key : ∀ (l : List (Item U)) r a b, (arrayItems T l (r, a, b)).2.1 = a + l.countP fun x => decide (BadItem T x) := by
    intro l
    induction l with
    | nil => intro _ _ _; rfl
    | cons x l ih =>
      intro r a b
      rw [arrayItems, List.countP_cons]
      by_cases h1 : T.ok x.label = false
      · by_cases h2 : x.label = T.nav
        · rw [if_pos h1, if_pos h2, ih, if_pos (by simp [BadItem, h2])]; omega
        · rw [if_pos h1, if_neg h2, ih, if_neg (by simp [BadItem, h2, h1])]; omega
      · have h1' : T.ok x.label = true := by simpa using h1
        have hn : x.label ≠ T.nav := by intro h; rw [h, not_ok_nav] at h1'; cases h1'
        rw [if_neg h1]
        by_cases h2 : x.label = T.void
        · rw [if_pos h2, ih, if_pos (by simp [BadItem, h2, hv])]; omega
        · rw [if_neg h2]
          cases hc : x.const with
          | no => dsimp only; rw [ih, if_pos (by simp [BadItem, h1', hc])]; omega
          | yes => dsimp only; rw [ih, if_neg (by simp [BadItem, hn, h2, hc])]; omega
          | hazy => dsimp only; rw [ih, if_neg (by simp [BadItem, hn, h2, hc])]; omega
  rw [key, Nat.zero_add]

/-- **C111 (fails).** A list with an item that is wrong is refused, unless one that is not known yet comes after it: then it is waited
for. -/
theorem C111_order_fails (T : Types U) (hv : T.ok T.void = true) (l : List (Item U)) (x : Item U) (hx : x.label = T.hzy) :
    (arrayLabel T (l ++ [x]) T.void).1 = T.hzy := by
  have hs : ¬ T.still T.void = true := by intro h; simp [Types.ok, h] at hv
  have e : arrayLabel T (l ++ [x]) T.void = arrayItems T (l ++ [x]) (T.void, 0, 0) := by
    unfold arrayLabel; rw [if_neg hs]; dsimp only; rw [if_neg (by simp [hv])]
  rw [e]
  have key : ∀ (l : List (Item U)) r, (arrayItems T (l ++ [x]) r).1 = T.hzy := by
    intro l
    induction l with
    | nil => rintro ⟨r, a, b⟩; rw [List.nil_append, arrayItems, if_pos (by rw [hx, not_ok_hzy])]; exact hx
    | cons y l ih => rintro ⟨r, a, b⟩; rw [List.cons_append, arrayItems]; exact ih _
  exact key l _

theorem const_no (l : List Tri) : ∀ r, r ≠ .no → (listConst l r = .no ↔ .no ∈ l) := by
  induction l with
  | nil => intro r hr; simp [listConst, hr]
  | cons x l ih =>
    intro r hr
    rw [listConst]
    cases x <;> cases r <;> simp_all

/-- **C111 (partial).** A list is not constant exactly if an item is not; if all are known to be constant or not, it is constant exactly
if all are. Of a list with items that are not known yet it should be said that it is not known (see `C111_const_fails`). -/
theorem C111_const_partial (l : List Tri) :
    (listConst l .yes = .no ↔ .no ∈ l) ∧ ((∀ x ∈ l, x ≠ .hazy) → (listConst l .yes = .yes ↔ ∀ x ∈ l, x = .yes)) := by
  refine ⟨const_no l .yes (by decide), fun h => ?_⟩
  induction l with
  | nil => simp [listConst]
  | cons x l ih =>
    have := ih fun y hy => h y (List.mem_cons_of_mem _ hy)
    rw [listConst]
    cases x with
    | no => simp
    | yes => simpa using this
    | hazy => exact absurd rfl (h _ List.mem_cons_self)

/-- **C111 (fails).** A list whose items are not known to be constant yet, followed by one that is, is said to be constant. -/
theorem C111_const_fails (l : List Tri) (h : ∀ x ∈ l, x ≠ .no) : listConst (l ++ [.yes]) .yes = .yes := by
  have key : ∀ (l : List Tri), (∀ x ∈ l, x ≠ .no) → ∀ r, r ≠ .no → listConst (l ++ [.yes]) r = .yes := by
    intro l
    induction l with
    | nil => intro _ r hr; cases r <;> simp_all [listConst]
    | cons x l ih =>
      intro h r hr
      have h' := ih fun y hy => h y (List.mem_cons_of_mem _ hy)
      have hx := h x List.mem_cons_self
      rw [List.cons_append, listConst]
      cases x <;> cases r <;> simp_all
  exact key l h .yes (by decide)

/-- **C111.** A list uses the variable exactly if an item does; otherwise it is not known exactly if it is not known of an item. -/
theorem C111_uses (l : List Tri) :
    (listUses l 0 = .yes ↔ .yes ∈ l) ∧ (listUses l 0 = .hazy ↔ .yes ∉ l ∧ .hazy ∈ l) := by
  have key : ∀ (l : List Tri) h, (listUses l h = .yes ↔ .yes ∈ l) ∧ (listUses l h = .hazy ↔ .yes ∉ l ∧ (0 < h ∨ .hazy ∈ l)) := by
    intro l
    induction l with
    | nil => intro h; rw [listUses]; by_cases k : h > 0 <;> simp [k]
    | cons x l ih =>
      intro h
      cases x with
      | yes => simp [listUses]
      | no => rw [listUses]; simpa using ih h
      | hazy => rw [listUses]; simpa using ih (h + 1)
  have := key l 0
  simpa using this

/-! ## Examples: 0 `Nav`, 1 `Hzy`, 2 `Nouti`, 3 `Void`, 4 `Int`, 5 `Int[]` not sized, 6 `Int[2]`, 7 `Int&`, 8 `Bool`. -/

def exTypes : Types Nat where
  nav := 0
  hzy := 1
  nouti := 2
  void := 3
  still u := u == 1
  complete u := decide (3 ≤ u) && u != 5
  holder _ := false
  scalar u := u != 5 && u != 6
  isVoid u := u == 3
  cls _ := false
  atom _ := false
  ref u := u == 7
  constRef _ := false
  deref u := if u = 7 then 4 else 9
  same a b := if a = b then .same else .notSame
  size u := if u = 6 then 2 else if u = 5 then -2 else -1
  sizable u := u == 5

theorem exSane : exTypes.Sane := ⟨by decide, by decide, by intro u; simp [exTypes], by decide, by decide, by decide⟩

/-- The initial value of type `u`, or a list of `n`. -/
def exInit (u : Nat) (n : Option Nat) : Init Nat where
  label := if n.isSome then 3 else u
  list := n.isSome
  n := n.getD 0
  const := if n.isSome then .yes else .no
  self := .no
  forecast t := if t = 7 ∧ u = 4 then .clear else if t = 4 ∧ u = 8 then .bad else .clear
  explicitRef := false
  cast _ := true
  fold _ := .done
  store := .yes
  referable := .yes

def exDecl (t : Nat) (i : Option (Init Nat)) : Decl Nat where
  isRef := t == 7
  sym := some t
  kin := false
  desc := some ⟨if t = 5 then 1 else t, t, 4, t == 5⟩
  param := false
  constParam := false
  inSwitch := false
  hasInit := false
  ready := false
  init := i

/-- `Int[] a = {1, 2, 3}`, `Int[2] a = {1, 2, 3}`, `Int[2] a = {1}`, `Int a = {}`, `Int a = true`, `Int& a = b`, `Void a`. -/
example : (label exTypes (exDecl 5 (some (exInit 4 (some 3))))).ty = 5 ∧
    (label exTypes (exDecl 5 (some (exInit 4 (some 3))))).T.size 5 = 3 ∧
    (label exTypes (exDecl 6 (some (exInit 4 (some 3))))).ty = 0 ∧
    (label exTypes (exDecl 6 (some (exInit 4 (some 1))))).ty = 6 ∧
    (label exTypes (exDecl 4 (some (exInit 4 (some 0))))).ty = 0 ∧
    (label exTypes (exDecl 4 (some (exInit 8 none)))).ty = 0 ∧
    (labelRef exTypes (exDecl 7 (some (exInit 4 none)))).ty = 7 ∧
    (label exTypes (exDecl 3 none)).ty = 0 := by decide +kernel

example : (label exTypes (exDecl 5 (some (exInit 4 (some 3))))).T.size (label exTypes (exDecl 5 (some (exInit 4 (some 3))))).ty = 3 :=
  (C109_size exTypes exSane (exDecl 5 (some (exInit 4 (some 3)))) ⟨1, 5, 4, true⟩ (exInit 4 (some 3)) 5 rfl rfl rfl rfl ⟨rfl, rfl⟩ rfl
    (by decide) (by decide) (by decide)).2.2.1

example : listConst [.hazy, .yes] .yes = .yes ∧ listConst [.yes, .hazy] .yes = .hazy ∧
    arrayLabel exTypes [⟨0, .yes⟩, ⟨1, .yes⟩] 3 = (1, 1, 1) ∧ arrayLabel exTypes [⟨1, .yes⟩, ⟨0, .yes⟩] 3 = (0, 1, 1) ∧
    arrayLabel exTypes [⟨4, .yes⟩, ⟨8, .yes⟩] 3 = (3, 0, 0) := by decide +kernel

example : (labelRef exTypes (exDecl 7 (some { exInit 4 none with referable := .hazy }))).ty = 0 :=
  (C110_hazy_fails exTypes _ _ rfl (by decide) (by decide) (by decide) rfl rfl).1

end Ulam.Decl
