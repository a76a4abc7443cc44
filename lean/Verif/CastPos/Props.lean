import Verif.CastPos.Model
import Verif.CastPos.Spec
import Verif.RefInit.Props
/-! # C138: casting to a base class leads to that part of the object -/
namespace Ulam.CastPos
open Ulam.CastPos.Spec Ulam.GenPos Ulam.GenPos.Spec Ulam.RefInit Ulam.RefInit.Spec
variable {C : Type} [DecidableEq C]

omit [DecidableEq C] in
theorem sub_self {L : Lay C} (hl : Laid L) (c : C) : L.sub c c = false := by
  cases h : L.sub c c with
  | false => rfl
  | true => exact absurd rfl ((hl.sub c c).1 h).1

omit [DecidableEq C] in
theorem badCast_never {L : Lay C} (hl : Laid L) (v b : C) : badCast L v b = false := by
  unfold badCast
  cases h : L.sub b v with
  | false => rfl
  | true =>
    have := ((hl.sub b v).1 h).2
    cases e : L.rel b v with
    | none => rw [e] at this; cases this
    | some q => rfl

omit [DecidableEq C] in
theorem kin_or {L : Lay C} {v b : C} (h : Kin L v b) : ¬ (L.sub v b = false ∧ L.sub b v = false ∧ v ≠ b) := by
  rintro ⟨a, e, n⟩
  rcases h with h | h | h
  · exact n h
  · rw [a] at h; cases h
  · rw [e] at h; cases h

/-- **C138.** From a whole variable to a base of its class: the part, the object and the distance between them are right. -/
theorem C138_variable (L : Lay C) (hl : Laid L) (ac : Acyclic L) (r : Ref C) (c b : C) (q : Nat) (hq : L.rel c b = some q) :
    castTo L r b [.loc c false] = some ⟨q, c, some q⟩ := by
  unfold castTo
  simp only [lastType, Option.bind_some]
  by_cases e : c = b
  · subst e
    rw [hl.self] at hq
    cases hq
    rw [if_neg (kin_or (.inl rfl)), if_neg (by rw [badCast_never hl]; simp)]
    simp [basePos, sub_self hl, isSelf]
  · have hs : L.sub c b = true := (hl.sub c b).2 ⟨e, by rw [hq]; rfl⟩
    rw [if_neg (kin_or (.inr (.inl hs))), if_neg (by rw [badCast_never hl]; simp)]
    simp [basePos, hs, ac c b hs, lastIsRef, hq]

/-- **C138.** From a whole reference, or `self`, to a related class, up or down: the part of that class in the object the reference
is to a part of, whatever the class of that object. If the object has no such part the program stops; it is not the `BAD_CAST` check
that stops it. -/
theorem C138_reference (L : Lay C) (hl : Laid L) (me c b : C) (r : Ref C) (start : Int) (ha : At L r c start) (x : Sym C)
    (hx : IsRef me c x) (hk : Kin L c b) :
    castTo L r b [x] = (L.rel r.eff b).map (fun q : Nat => (⟨start + q, r.eff, none⟩ : Made C)) ∧ badCast L c b = false := by
  obtain ⟨q0, k1, k2, k3⟩ := ha
  refine ⟨?_, badCast_never hl c b⟩
  have base : (basePos L r c b [x]).map (fun z => (⟨r.pos + z, r.eff, none⟩ : Made C)) =
      (L.rel r.eff b).map (fun q : Nat => (⟨start + q, r.eff, none⟩ : Made C)) := by
    have hr : lastIsRef [x] = true := by rcases hx with rfl | ⟨rfl, rfl⟩ <;> rfl
    have up : ((relPos L r.eff b).map (· - r.toEff)).map (fun z => (⟨r.pos + z, r.eff, none⟩ : Made C)) =
        (L.rel r.eff b).map (fun q : Nat => (⟨start + q, r.eff, none⟩ : Made C)) := by
      unfold relPos
      cases L.rel r.eff b with
      | none => rfl
      | some q =>
        simp only [Option.map_some, Option.some.injEq, Made.mk.injEq, and_true]
        rw [k2, k3]
        show start + (q0 : Int) + ((q : Int) - q0) = start + q
        ring
    unfold basePos
    rw [hr]
    by_cases h1 : L.sub b c = true
    · rw [if_pos h1, if_pos rfl, up]
    · rw [if_neg h1]
      by_cases h2 : L.sub c b = true
      · rw [if_pos h2, if_pos rfl, up]
      · rw [if_neg h2, if_neg (by simp)]
        rcases hk with rfl | hk | hk
        · rw [k1]
          simp only [Option.map_some, Option.some.injEq, Made.mk.injEq, and_true]
          rw [k2]; ring
        · exact absurd hk h2
        · exact absurd hk h1
  have ty : lastType [x] = some c := by rcases hx with rfl | ⟨rfl, rfl⟩ <;> rfl
  unfold castTo
  rw [ty, Option.bind_some, if_neg (kin_or hk), if_neg (by rw [badCast_never hl]; simp), ← base]
  rcases hx with rfl | ⟨rfl, rfl⟩ <;> rfl

omit [DecidableEq C] in
theorem flat_of_plain {L : Lay C} (hl : Laid L) (d t : C) (o : Nat) (l : List (Mem C)) (hn : PlainFrom L d t l) :
    Flat L (⟨d, o, t⟩ :: l) := by
  induction l generalizing d t o with
  | nil => trivial
  | cons m l ih =>
    obtain ⟨n1, n2, n3⟩ := hn
    exact ⟨by dsimp only; rw [n1]; exact hl.self t, ih m.decl m.ty m.off n3⟩

omit [DecidableEq C] in
theorem last_cases (d t : C) (o : Nat) (l : List (Sym C)) (hd : ∀ x ∈ l, ∃ d o t, x = .dm d o t) :
    ∃ k d' o' t', .dm d o t :: l = k ++ [.dm d' o' t'] := by
  rcases List.eq_nil_or_concat l with rfl | ⟨k, y, rfl⟩
  · exact ⟨[], d, o, t, rfl⟩
  · obtain ⟨d', o', t', rfl⟩ := hd y (by simp)
    exact ⟨.dm d o t :: k, d', o', t', by simp⟩

omit [DecidableEq C] in
theorem declared_first (x : Sym C) (d t : C) (o : Nat) (l : List (Sym C)) : declared (x :: .dm d o t :: l) = some d := by
  unfold declared
  cases l with
  | nil => simp [lastDecl, declOf]
  | cons y l => simp [declOf]

omit [DecidableEq C] in
theorem lastType_cons (x : Sym C) (d t : C) (o : Nat) (l : List (Sym C)) :
    lastType (x :: .dm d o t :: l) = lastType (.dm d o t :: l) := by
  cases x <;> rfl

omit [DecidableEq C] in
theorem lastIsRef_long (x y : Sym C) (l : List (Sym C)) : lastIsRef (x :: y :: l) = false := by
  cases x <;> rfl

omit [DecidableEq C] in
/-- From a member, the position of the base is that in the class of the member. -/
theorem basePos_member {L : Lay C} (ac : Acyclic L) (r : Ref C) (v b : C) (x y : Sym C) (l : List (Sym C)) (q : Nat)
    (hs : L.sub v b = true) (hq : L.rel v b = some q) : basePos L r v b (x :: y :: l) = some (q : Int) := by
  unfold basePos
  rw [if_neg (by rw [ac v b hs]; simp), if_pos hs, lastIsRef_long, if_neg (by simp), hq]
  rfl

theorem castTo_variable {L : Lay C} (hl : Laid L) (r : Ref C) (c v b d t : C) (o : Nat) (l : List (Sym C))
    (hv : lastType (.dm d o t :: l) = some v) (hk : Kin L v b) :
    castTo L r b (.loc c false :: .dm d o t :: l) =
      fromMemberOfVariable L r c v b (.loc c false :: .dm d o t :: l) (.dm d o t :: l) := by
  unfold castTo
  rw [lastType_cons, hv, Option.bind_some, if_neg (kin_or hk), if_neg (by rw [badCast_never hl]; simp)]

theorem castTo_ref {L : Lay C} (hl : Laid L) (r : Ref C) (me c v b d t : C) (o : Nat) (l : List (Sym C)) (x : Sym C)
    (hx : IsRef me c x) (hv : lastType (.dm d o t :: l) = some v) (hk : Kin L v b) :
    castTo L r b (x :: .dm d o t :: l) = fromMemberOfRef L r c v b (x :: .dm d o t :: l) (.dm d o t :: l) := by
  rcases hx with rfl | ⟨rfl, rfl⟩
  all_goals
    unfold castTo
    rw [lastType_cons, hv, Option.bind_some, if_neg (kin_or hk), if_neg (by rw [badCast_never hl]; simp)]

/-- **C138, in part.** From a member of a member of a variable to a base of the class of that member: right if each later member is
declared by the type of the one before, which is not a base of the class that declares the one before. -/
theorem C138_member_of_variable_partial (L : Lay C) (hl : Laid L) (ac : Acyclic L) (r : Ref C) (c v b d t : C) (o : Nat)
    (l : List (Sym C)) (hd : ∀ x ∈ l, ∃ d o t, x = .dm d o t) (hn : PlainFrom L d t (members l)) (p q : Nat)
    (hp : Place L c (members (.dm d o t :: l)) p) (hv : lastType (.dm d o t :: l) = some v) (hs : L.sub v b = true)
    (hq : L.rel v b = some q) :
    castTo L r b (.loc c false :: .dm d o t :: l) = some ⟨(p + q : Nat), v, some q⟩ := by
  rw [castTo_variable hl r c v b d t o l hv (.inr (.inl hs))]
  have hp' := hp
  obtain _ | ⟨h1, hp⟩ := hp
  rename_i q1 p
  dsimp only at h1 hp
  have key := fromFirstLoop_plain hl l hd d d t (.inl rfl) hn o p hp
  have flat := ((place_flat c ⟨d, o, t⟩ (members l) _ q1 h1 hp').2).2 (flat_of_plain hl d t o _ hn)
  have pass : passPos 0 (.loc c false :: .dm d o t :: l) = o + p := by
    show passPos (0 + o) l = _
    rw [passPos_offsets l hd]
    simp only [offsets] at flat
    omega
  have nb : b ≠ v := by
    rintro rfl
    rw [sub_self hl] at hs
    cases hs
  unfold fromMemberOfVariable
  rw [fromFirst, key, Option.bind_some, pass, if_neg (by push_cast; simp), basePos_member ac r v b _ _ l q hs hq, Option.bind_some,
    declared_first, Option.bind_some, if_neg nb]
  by_cases e : d = c
  · subst e
    rw [hl.self] at h1
    cases h1
    rw [if_pos rfl]
    simp only [Option.map_some, Option.some.injEq, Made.mk.injEq, and_true]
    push_cast
    ring
  · rw [if_neg e, h1]
    simp only [Option.map_some, Option.some.injEq, Made.mk.injEq, and_true]
    push_cast
    show (q : Int) + (o + p) + (q1 : Int) = _
    ring

/-- **C138, in part.** The same from a member of what a reference, or `self`, is to. -/
theorem C138_member_of_reference_partial (L : Lay C) (hl : Laid L) (ac : Acyclic L) (me c v b d t : C) (o : Nat) (r : Ref C)
    (start : Int) (ha : At L r c start) (x : Sym C) (hx : IsRef me c x)
    (l : List (Sym C)) (hd : ∀ x ∈ l, ∃ d o t, x = .dm d o t) (hn : PlainFrom L d t (members l)) (p q : Nat)
    (hp : Place L r.eff (members (.dm d o t :: l)) p) (hv : lastType (.dm d o t :: l) = some v) (hs : L.sub v b = true)
    (hq : L.rel v b = some q) :
    castTo L r b (x :: .dm d o t :: l) = some ⟨start + (p + q : Nat), v, none⟩ := by
  rw [castTo_ref hl r me c v b d t o l x hx hv (.inr (.inl hs))]
  obtain ⟨q0, k1, k2, k3⟩ := ha
  obtain _ | ⟨h1, hp⟩ := hp
  rename_i q1 p
  dsimp only at h1 hp
  have key := fromFirstLoop_plain hl l hd d d t (.inl rfl) hn o p hp
  have nb : b ≠ v := by
    rintro rfl
    rw [sub_self hl] at hs
    cases hs
  unfold fromMemberOfRef
  rw [fromFirst, key, Option.bind_some, if_neg nb, declared_first, Option.bind_some, basePos_member ac r v b _ _ l q hs hq]
  by_cases e : d = c
  · subst e
    rw [k1] at h1
    cases h1
    rw [if_pos rfl]
    simp only [Option.bind_some, Option.map_some, Option.some.injEq, Made.mk.injEq, and_true]
    rw [k2]
    push_cast
    ring
  · rw [if_neg e, relPos_eq h1]
    simp only [Option.bind_some, Option.map_some, Option.some.injEq, Made.mk.injEq, and_true]
    rw [k2, k3]
    push_cast
    ring

/-- **C138 fails.** For a member that the type of the member before inherits, the place of the class that declares it is left out,
both for a variable and for a reference. -/
theorem C138_inherited_fails (L : Lay C) (hl : Laid L) (ac : Acyclic L) (me c b d1 d2 t1 v : C) (o1 o2 q1 q2 q : Nat) (r : Ref C)
    (start : Int) (x : Sym C) (h2 : L.rel t1 d2 = some q2) (hn : L.rel d1 d2 = none) (hs : L.sub v b = true) (hq : L.rel v b = some q) :
    (L.rel c d1 = some q1 → Place L c (members [.dm d1 o1 t1, .dm d2 o2 v]) (q1 + o1 + (q2 + o2 + 0)) ∧
      castTo L r b [.loc c false, .dm d1 o1 t1, .dm d2 o2 v] =
        some ⟨((q1 + o1 + (q2 + o2 + 0) : Nat) : Int) + q - q2, v, some q⟩) ∧
    (At L r c start → IsRef me c x → L.rel r.eff d1 = some q1 →
      Place L r.eff (members [.dm d1 o1 t1, .dm d2 o2 v]) (q1 + o1 + (q2 + o2 + 0)) ∧
      castTo L r b [x, .dm d1 o1 t1, .dm d2 o2 v] =
        some ⟨start + (q1 + o1 + (q2 + o2 + 0) : Nat) + q - q2, v, none⟩) := by
  have nb : b ≠ v := by
    rintro rfl
    rw [sub_self hl] at hs
    cases hs
  have ff : fromFirst L [.dm d1 o1 t1, .dm d2 o2 v] = some ((o1 : Int) + o2) := by
    simp [fromFirst, fromFirstLoop, hn]
  constructor
  · intro h1
    refine ⟨.cons h1 (.cons h2 (.nil _)), ?_⟩
    rw [castTo_variable hl r c v b d1 t1 o1 _ rfl (.inr (.inl hs))]
    unfold fromMemberOfVariable
    rw [ff, Option.bind_some, if_neg (by simp [passPos]), basePos_member ac r v b _ _ _ q hs hq, Option.bind_some, declared_first,
      Option.bind_some, if_neg nb]
    by_cases e : d1 = c
    · subst e
      rw [hl.self] at h1
      cases h1
      rw [if_pos rfl]
      simp only [Option.map_some, Option.some.injEq, Made.mk.injEq, and_true]
      push_cast
      ring
    · rw [if_neg e, h1]
      simp only [Option.map_some, Option.some.injEq, Made.mk.injEq, and_true]
      push_cast
      show (q : Int) + (o1 + o2) + (q1 : Int) = _
      ring
  · intro ha hx h1
    refine ⟨.cons h1 (.cons h2 (.nil _)), ?_⟩
    obtain ⟨q0, k1, k2, k3⟩ := ha
    rw [castTo_ref hl r me c v b d1 t1 o1 _ x hx rfl (.inr (.inl hs))]
    unfold fromMemberOfRef
    rw [ff, Option.bind_some, if_neg nb, declared_first, Option.bind_some, basePos_member ac r v b _ _ _ q hs hq]
    by_cases e : d1 = c
    · subst e
      rw [k1] at h1
      cases h1
      rw [if_pos rfl]
      simp only [Option.bind_some, Option.map_some, Option.some.injEq, Made.mk.injEq, and_true]
      rw [k2]
      push_cast
      ring
    · rw [if_neg e, relPos_eq h1]
      simp only [Option.bind_some, Option.map_some, Option.some.injEq, Made.mk.injEq, and_true]
      rw [k2, k3]
      push_cast
      ring

/-- **C138 fails.** If the class that declares the first member has, not at its start, the base that declares the second, an
assertion of the compiler fails for a member of a variable. -/
theorem C138_assertion_fails (L : Lay C) (hl : Laid L) (c b d1 d2 t1 v : C) (o1 o2 q' : Nat) (r : Ref C)
    (hn : L.rel d1 d2 = some q') (h0 : 0 < q') (hs : L.sub v b = true) :
    castTo L r b [.loc c false, .dm d1 o1 t1, .dm d2 o2 v] = none := by
  rw [castTo_variable hl r c v b d1 t1 o1 _ rfl (.inr (.inl hs))]
  unfold fromMemberOfVariable
  have ff : fromFirst L [.dm d1 o1 t1, .dm d2 o2 v] = some ((o1 : Int) + q' + o2) := by simp [fromFirst, fromFirstLoop, hn]
  rw [ff, Option.bind_some, if_pos]
  simp only [passPos]
  push_cast
  omega

/-- **C138 fails.** A cast of a member to a reference of its own class forgets where the member is: `(Q&) v.m` is at the class that
declares `m`, `(Q&) r.m` where `r` is, and `(Q&) self.m` is right only for a class that is where `self` is. -/
theorem C138_same_fails (L : Lay C) (hl : Laid L) (c d v : C) (o q1 : Nat) (r : Ref C) (start : Int) (ha : At L r c start) :
    (L.rel c d = some q1 → Place L c (members [.dm d o v]) (q1 + o + 0) ∧
      castTo L r v [.loc c false, .dm d o v] = some ⟨(q1 : Nat), v, some 0⟩) ∧
    (L.rel r.eff d = some q1 → Place L r.eff (members [.dm d o v]) (q1 + o + 0) ∧
      castTo L r v [.loc c true, .dm d o v] = some ⟨r.pos, v, none⟩ ∧
      castTo L r v [.self c, .dm d o v] = some ⟨r.pos + o, v, none⟩ ∧
      (castTo L r v [.self c, .dm d o v] = some ⟨start + (q1 + o + 0 : Nat), v, none⟩ ↔ L.rel r.eff c = some q1)) := by
  obtain ⟨q0, k1, k2, k3⟩ := ha
  have ff : fromFirst L [.dm d o v] = some (o : Int) := rfl
  have self : castTo L r v [.self c, .dm d o v] = some ⟨r.pos + o, v, none⟩ := by
    rw [castTo_ref hl r c c v v d v o [] (.self c) (.inr ⟨rfl, rfl⟩) rfl (.inl rfl)]
    simp [fromMemberOfRef, ff, passPos, basePos, sub_self hl, isSelf, lastOffset]
  constructor
  · intro h1
    refine ⟨.cons h1 (.nil _), ?_⟩
    rw [castTo_variable hl r c v v d v o [] rfl (.inl rfl)]
    unfold fromMemberOfVariable
    rw [ff, Option.bind_some, if_neg (by simp [passPos]), declared_first]
    have : basePos L r v v [.loc c false, .dm d o v] = some 0 := by simp [basePos, sub_self hl, isSelf]
    rw [this, Option.bind_some, Option.bind_some, if_pos rfl]
    by_cases e : d = c
    · subst e
      rw [hl.self] at h1
      cases h1
      simp
    · rw [if_neg e, h1]
      simp
  · intro h1
    refine ⟨.cons h1 (.nil _), ?_, self, ?_⟩
    · rw [castTo_ref hl r c c v v d v o [] (.loc c true) (.inl rfl) rfl (.inl rfl)]
      simp [fromMemberOfRef, ff, passPos, basePos, sub_self hl, isSelf]
    · rw [self, k1, k2]
      simp only [Option.some.injEq, Made.mk.injEq, and_true]
      push_cast
      omega

/-! Cases, with the classes of C103 -/

theorem zoo_acyclic : Acyclic zoo := by
  intro c d
  cases c <;> cases d <;> simp [zoo]

/-- `(B&) m` for `M m`; `(A&) b` and `(M&) b` for a `B& b` to a part of an `M`; `(K&) b` stops. -/
example : castTo zoo ⟨.A, 0, 0⟩ .B [.loc .M false] = some ⟨1, .M, some 1⟩ ∧
    castTo zoo ⟨.M, 26, 1⟩ .A [.loc .B true] = some ⟨42, .M, none⟩ ∧ castTo zoo ⟨.M, 26, 1⟩ .M [.loc .B true] = some ⟨25, .M, none⟩ ∧
    castTo zoo ⟨.M, 26, 1⟩ .K [.loc .B true] = none ∧ At zoo ⟨.M, 26, 1⟩ .B 25 :=
  ⟨by decide +kernel, by decide +kernel, by decide +kernel, by decide +kernel, ⟨1, rfl, rfl, rfl⟩⟩

/-- `(A&) h.d` for `H h` and for `H& h`: `d` is 2 bits on, and the `A` of it 8 more. -/
example : castTo zoo ⟨.A, 0, 0⟩ .A [.loc .H false, symD] = some ⟨10, .D, some 8⟩ ∧
    castTo zoo ⟨.H, 25, 0⟩ .A [.loc .H true, symD] = some ⟨35, .D, none⟩ ∧
    castTo zoo ⟨.H, 25, 0⟩ .A [.self .H, symD] = some ⟨35, .D, none⟩ ∧
    Place zoo .H (members [symD]) 2 ∧ PlainFrom zoo .G .D (members ([] : List (Sym Zoo))) :=
  ⟨by decide +kernel, by decide +kernel, by decide +kernel, .cons (q := 2) rfl (.nil _), trivial⟩

/-- `(D&) h.d`, the class of `d` itself: 2 bits on for a variable only if `d` is the first member. -/
example : castTo zoo ⟨.A, 0, 0⟩ .D [.loc .H false, .dm .G 4 .D] = some ⟨2, .D, some 0⟩ ∧
    castTo zoo ⟨.H, 25, 0⟩ .D [.loc .H true, .dm .G 4 .D] = some ⟨25, .D, none⟩ ∧
    Place zoo .H (members [.dm .G 4 .D]) 6 := ⟨by decide +kernel, by decide +kernel, .cons (q := 2) rfl (.nil _)⟩

end Ulam.CastPos
