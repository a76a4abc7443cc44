import Verif.RefInit.Spec
import Verif.GenPos.Props
/-! # C137: a reference is to what it is initialised with -/
namespace Ulam.RefInit
open Ulam.GenPos Ulam.GenPos.Spec Ulam.RefInit.Spec
variable {C : Type} [DecidableEq C]

omit [DecidableEq C] in
theorem passPos_offsets (l : List (Sym C)) (hd : ∀ x ∈ l, ∃ d o t, x = .dm d o t) (pos : Nat) :
    passPos pos l = pos + offsets (members l) := by
  induction l generalizing pos with
  | nil => rfl
  | cons x l ih =>
    obtain ⟨d, o, t, rfl⟩ := hd x (by simp)
    rw [passPos, ih fun y hy => hd y (List.mem_cons_of_mem _ hy)]
    simp only [members, offsets]
    omega

omit [DecidableEq C] in
/-- The members are where their positions say, and then as far on as the classes that declare the later ones are. -/
theorem place_flat {L : Lay C} (c : C) (m : Mem C) (l : List (Mem C)) (p q : Nat) (hq : L.rel c m.decl = some q)
    (hp : Place L c (m :: l) p) : q + offsets (m :: l) ≤ p ∧ (p = q + offsets (m :: l) ↔ Flat L (m :: l)) := by
  induction l generalizing c m p q with
  | nil =>
    obtain _ | ⟨h, hp⟩ := hp
    obtain _ | _ := hp
    rw [hq] at h
    cases h
    simp [offsets, Flat]
  | cons n l ih =>
    obtain _ | ⟨h, hp⟩ := hp
    rename_i q' p
    rw [hq] at h
    cases h
    have hp' := hp
    obtain _ | ⟨h2, _⟩ := hp
    rename_i q2 p2 _
    obtain ⟨k1, k2⟩ := ih m.ty n _ q2 h2 hp'
    simp only [offsets, Flat, h2, Option.some.injEq] at k1 k2 ⊢
    refine ⟨by omega, ?_⟩
    rw [← k2]
    omega

omit [DecidableEq C] in
theorem lastDecl_snoc (l : List (Sym C)) (d t : C) (o : Nat) : lastDecl (l ++ [.dm d o t]) = some d := by simp [lastDecl, declOf]

omit [DecidableEq C] in
theorem lastType_snoc (l : List (Sym C)) (d t : C) (o : Nat) : lastType (l ++ [.dm d o t]) = some t := by
  induction l with
  | nil => rfl
  | cons x l ih =>
    cases l with
    | nil => cases x <;> rfl
    | cons y l => cases x <;> exact ih

/-- **C137.** A reference to a whole variable, to what another reference is to, or to `self`, is to that. -/
theorem C137_whole (L : Lay C) (me c : C) (r : Ref C) (x : Sym C) :
    refInit L me false c r [.loc c false] = some ⟨0, some c⟩ ∧
    (IsRef me c x → refInit L me false c r [x] = some ⟨r.pos, some r.eff⟩) := by
  refine ⟨by simp [refInit, fromVariable], ?_⟩
  rintro (rfl | ⟨rfl, rfl⟩) <;>
    simp [refInit, classFromRef, askEff, hasBase, lastMember, lastDecl, declOf, passPos]

/-- **C137.** A reference to a member of a member of a local variable is to that member, however it is named, with the type of the
member for its effective self. -/
theorem C137_local_variable (L : Lay C) (hl : Laid L) (me c : C) (prim : Bool) (r : Ref C) (l : List (Sym C)) (d t : C) (o : Nat)
    (hf : Follows (l ++ [.dm d o t])) (p : Nat) (hp : Place L c (members (l ++ [.dm d o t])) p) (hc : prim = false → t ≠ c) :
    refInit L me prim t r (.loc c false :: (l ++ [.dm d o t])) = some ⟨p, if prim then none else some t⟩ := by
  unfold refInit fromVariable
  dsimp only
  rw [if_neg (by rintro ⟨e, rfl⟩; exact hc e rfl)]
  have h1 : askEff me none (.loc c false :: (l ++ [.dm d o t])) = false := by simp [askEff]
  have h2 : lastMember (.loc c false :: (l ++ [.dm d o t])) = true := by
    show (lastDecl ((.loc c false :: l) ++ [.dm d o t])).isSome = true
    rw [lastDecl_snoc]
    rfl
  have h3 : (askEff me none (.loc c false :: (l ++ [.dm d o t])) = false ∨ (Sym.loc c false :: (l ++ [.dm d o t])).length > 2) ∧
      (hasBase (.loc c false :: (l ++ [.dm d o t])) = true ∨ lastMember (.loc c false :: (l ++ [.dm d o t])) = true) :=
    ⟨.inl h1, .inr h2⟩
  rw [if_pos h3, calcPos_static hl me c (.loc c false) _ hf p (.inr ⟨_, rfl⟩) hp]
  rw [← List.cons_append, lastType_snoc]
  rfl

theorem askEff_own (me c t : C) (o : Nat) (x : Sym C) (hx : IsRef me c x) (l : List (Sym C)) :
    askEff me none (x :: .dm c o t :: l) = false := by
  rcases hx with rfl | ⟨rfl, rfl⟩ <;> simp [askEff, declOf]

theorem askEff_other (me c d t : C) (o : Nat) (hd : d ≠ c) (x : Sym C) (hx : IsRef me c x) (l : List (Sym C)) :
    askEff me none (x :: .dm d o t :: l) = true := by
  rcases hx with rfl | ⟨rfl, rfl⟩ <;> simp [askEff, declOf, hd]

omit [DecidableEq C] in
theorem passPos_head (me c : C) (x : Sym C) (hx : IsRef me c x) (l : List (Sym C)) : passPos 0 (x :: l) = passPos 0 l := by
  rcases hx with rfl | ⟨rfl, rfl⟩ <;> rfl

theorem refInit_prim (L : Lay C) (me c v : C) (r : Ref C) (x : Sym C) (hx : IsRef me c x) (l : List (Sym C)) :
    refInit L me true v r (x :: l) = primFromRef L me r (x :: l) := by
  rcases hx with rfl | ⟨rfl, rfl⟩ <;> rfl

theorem refInit_class (L : Lay C) (me c v : C) (r : Ref C) (x : Sym C) (hx : IsRef me c x) (l : List (Sym C)) :
    refInit L me false v r (x :: l) = classFromRef L me r v (x :: l) := by
  rcases hx with rfl | ⟨rfl, rfl⟩ <;> rfl

/-- **C137, in part.** A reference to a number in a member of a member of what another reference is to, or of `self`: it is to that
number if the first member is one that the class of the reference itself declares, or if there is only one member, whether named
with its base or not. -/
theorem C137_primitive_partial (L : Lay C) (hl : Laid L) (me c v : C) (r : Ref C) (start : Int) (ha : At L r c start)
    (x : Sym C) (hx : IsRef me c x) (l : List (Sym C)) (hf : Follows l) (p : Nat) (hp : Place L r.eff (members l) p)
    (hs : (∃ o t m, l = .dm c o t :: m) ∨ ∃ bs d o t, (∀ x ∈ bs, ∃ c, x = .base c) ∧ l = bs ++ [.dm d o t]) :
    refInit L me true v r (x :: l) = some ⟨start + p, none⟩ := by
  obtain ⟨q0, k1, k2, k3⟩ := ha
  rw [refInit_prim L me c v r x hx]
  have own : ∀ o t m, l = .dm c o t :: m → primFromRef L me r (x :: l) = some ⟨start + p, none⟩ := by
    rintro o t m rfl
    unfold primFromRef
    rw [askEff_own me c t o x hx m, if_neg (by simp)]
    obtain _ | ⟨hq, hp⟩ := hp
    rename_i q p
    dsimp only at hq hp
    rw [k1] at hq
    cases hq
    have := calcPos_static hl me c x (.dm c o t :: m) hf (0 + o + p)
      (by rcases hx with rfl | ⟨rfl, rfl⟩ <;> simp) (.cons (hl.self c) hp)
    rw [this, k2]
    simp only [Option.map_some, Option.some.injEq, Made.mk.injEq, and_true]
    push_cast
    ring
  rcases hs with ⟨o, t, m, h⟩ | ⟨bs, d, o, t, hb, h⟩
  · exact own o t m h
  · subst h
    have hm : members (bs ++ [.dm d o t]) = [⟨d, o, t⟩] := by rw [members_bases bs hb]; rfl
    rw [hm] at hp
    obtain _ | ⟨hq, hp⟩ := hp
    rename_i q p
    obtain _ | _ := hp
    dsimp only at hq ⊢
    have ask : bs = [] ∧ d = c ∨ askEff me none (x :: (bs ++ [.dm d o t])) = true := by
      cases bs with
      | nil =>
        by_cases e : d = c
        · exact .inl ⟨rfl, e⟩
        · exact .inr (askEff_other me c d t o e x hx [])
      | cons b bs =>
        right
        obtain ⟨b', rfl⟩ := hb b (by simp)
        rcases hx with rfl | ⟨rfl, rfl⟩ <;> simp [askEff, declOf, hasBase]
    rcases ask with ⟨rfl, rfl⟩ | ask
    · exact own o t [] rfl
    · unfold primFromRef
      rw [if_pos ask, ← List.cons_append, lastDecl_snoc]
      simp only [Option.bind_some, relPos_eq hq, Option.map_some, Option.some.injEq, Made.mk.injEq, and_true]
      rw [k2, k3]
      have : passPos 0 ((x :: bs) ++ [.dm d o t]) = o := by
        rw [List.cons_append, passPos_head me c x hx]
        clear ask hf own hm
        induction bs with
        | nil => simp [passPos]
        | cons b bs ih =>
          obtain ⟨b', rfl⟩ := hb b (by simp)
          rw [List.cons_append, passPos]
          exact ih fun y hy => hb y (List.mem_cons_of_mem _ hy)
      rw [this]
      push_cast
      ring

/-- **C137 fails.** `r.a.x`, `a` being a member that the class of `r` inherits: the program is told to ask where the class that
declares `x` is, instead of the class that declares `a`. What `r` is to has, as a rule, no such part; the program then stops. (For a reference to a class this has been mended, t41642.) -/
theorem C137_primitive_fails (L : Lay C) (me c v : C) (r : Ref C) (start : Int) (ha : At L r c start) (x : Sym C) (hx : IsRef me c x)
    (d1 d2 t1 t2 : C) (o1 o2 q1 q2 : Nat) (hd : d1 ≠ c) (h1 : L.rel r.eff d1 = some q1) (h2 : L.rel t1 d2 = some q2)
    (hn : L.rel r.eff d2 = none) :
    Place L r.eff (members [.dm d1 o1 t1, .dm d2 o2 t2]) (q1 + o1 + (q2 + o2 + 0)) ∧
    refInit L me true v r [x, .dm d1 o1 t1, .dm d2 o2 t2] = none := by
  refine ⟨.cons h1 (.cons h2 (.nil _)), ?_⟩
  obtain ⟨q0, k1, k2, k3⟩ := ha
  rw [refInit_prim L me c v r x hx]
  unfold primFromRef
  rw [if_pos (askEff_other me c d1 t1 o1 hd x hx _), passPos_head me c x hx]
  have : lastDecl [x, .dm d1 o1 t1, .dm d2 o2 t2] = some d2 := by simp [lastDecl, declOf]
  rw [this]
  simp only [Option.bind_some, relPos, hn]
  rfl

/-- **C137, in part.** A reference to a member, of a class, of a member of what another reference is to, or of `self`, no base being
named: it has the class of the member for its effective self, and is to that member if each later member is declared by the type of
the member before it. -/
theorem C137_class_partial (L : Lay C) (me c v : C) (r : Ref C) (start : Int) (ha : At L r c start)
    (x : Sym C) (hx : IsRef me c x) (d t : C) (o : Nat) (l : List (Sym C)) (hd : ∀ x ∈ l, ∃ d o t, x = .dm d o t) (p : Nat)
    (hp : Place L r.eff (members (.dm d o t :: l)) p) :
    ∃ m, refInit L me false v r (x :: .dm d o t :: l) = some m ∧ m.eff = some v ∧ m.pos ≤ start + p ∧
      (m.pos = start + p ↔ Flat L (members (.dm d o t :: l))) := by
  obtain ⟨q0, k1, k2, k3⟩ := ha
  have hp' := hp
  obtain _ | ⟨hq, hp⟩ := hp
  rename_i q p
  dsimp only at hq hp
  obtain ⟨j1, j2⟩ := place_flat r.eff ⟨d, o, t⟩ (members l) _ q hq hp'
  have pass : passPos 0 (x :: .dm d o t :: l) = offsets (members (.dm d o t :: l)) := by
    rw [passPos_head me c x hx, passPos_offsets _ (by
      intro y hy
      rcases List.mem_cons.1 hy with rfl | hy
      · exact ⟨_, _, _, rfl⟩
      · exact hd y hy)]
    omega
  have last : lastMember (x :: .dm d o t :: l) = true := by
    have : ∃ k d' o' t', x :: .dm d o t :: l = k ++ [.dm d' o' t'] := by
      rcases List.eq_nil_or_concat l with rfl | ⟨k, y, rfl⟩
      · exact ⟨[x], d, o, t, rfl⟩
      · obtain ⟨d', o', t', rfl⟩ := hd y (by simp)
        exact ⟨x :: .dm d o t :: k, d', o', t', by simp⟩
    obtain ⟨k, d', o', t', e⟩ := this
    rw [e]
    simp [lastMember, lastDecl_snoc]
  have made : refInit L me false v r (x :: .dm d o t :: l) =
      some ⟨start + (q + offsets (members (.dm d o t :: l)) : Nat), some v⟩ := by
    rw [refInit_class L me c v r x hx]
    unfold classFromRef
    dsimp only
    rw [if_pos last]
    by_cases e : d = c
    · subst e
      rw [askEff_own me d t o x hx l, if_neg (by simp), pass, k2]
      rw [hq] at k1
      cases k1
      push_cast
      simp only [Option.some.injEq, Made.mk.injEq, and_true]
      ring
    · rw [askEff_other me c d t o e x hx l, if_pos rfl, pass]
      have : (if (x :: .dm d o t :: l).length > 2 then (x :: .dm d o t :: l)[1]?.bind declOf else lastDecl (x :: .dm d o t :: l))
          = some d := by
        cases l with
        | nil => simp [lastDecl, declOf]
        | cons y l => simp [declOf]
      rw [this]
      simp only [Option.bind_some, relPos_eq hq, Option.map_some, Option.some.injEq, Made.mk.injEq, and_true]
      rw [k2, k3]
      push_cast
      ring
  refine ⟨_, made, rfl, ?_, ?_⟩
  · show start + ((q + offsets (members (.dm d o t :: l)) : Nat) : Int) ≤ _
    simp only [members] at j1 ⊢
    omega
  · show start + ((q + offsets (members (.dm d o t :: l)) : Nat) : Int) = _ ↔ _
    simp only [members] at j1 j2 ⊢
    rw [← j2]
    omega

/-- **C137 fails.** `r.a.b`, `b` being a member that the type of `a` inherits: the reference is as many bits before `b` as the base
that declares `b` is into the type of `a`. -/
theorem C137_class_fails (L : Lay C) (me c v : C) (r : Ref C) (start : Int) (ha : At L r c start) (x : Sym C) (hx : IsRef me c x)
    (d1 d2 t1 t2 : C) (o1 o2 q1 q2 : Nat) (h1 : L.rel r.eff d1 = some q1) (h2 : L.rel t1 d2 = some q2) :
    Place L r.eff (members [.dm d1 o1 t1, .dm d2 o2 t2]) (q1 + o1 + (q2 + o2 + 0)) ∧
    refInit L me false v r [x, .dm d1 o1 t1, .dm d2 o2 t2] =
      some ⟨start + (q1 + o1 + (q2 + o2 + 0) : Nat) - q2, some v⟩ := by
  refine ⟨.cons h1 (.cons h2 (.nil _)), ?_⟩
  obtain ⟨q0, k1, k2, k3⟩ := ha
  rw [refInit_class L me c v r x hx]
  unfold classFromRef
  have last : lastMember [x, .dm d1 o1 t1, .dm d2 o2 t2] = true := by simp [lastMember, lastDecl, declOf]
  dsimp only
  rw [if_pos last, passPos_head me c x hx]
  by_cases e : d1 = c
  · subst e
    rw [askEff_own me d1 t1 o1 x hx, if_neg (by simp), k2]
    rw [h1] at k1
    cases k1
    simp only [passPos, Option.some.injEq, Made.mk.injEq, and_true]
    push_cast
    ring
  · rw [askEff_other me c d1 t1 o1 e x hx, if_pos rfl, if_pos (by simp)]
    simp only [passPos, List.getElem?_cons_succ, List.getElem?_cons_zero, Option.bind_some, declOf, relPos_eq h1, Option.map_some,
      Option.some.injEq, Made.mk.injEq, and_true]
    rw [k2, k3]
    push_cast
    ring

/-- **C137 fails.** Naming the base (`Q& q = r.Base.m`) fails an assertion of the compiler: it looks for the class that declares
`Base`. -/
theorem C137_base_fails (L : Lay C) (me c v b d t : C) (o : Nat) (r : Ref C) (x : Sym C) (hx : IsRef me c x) :
    refInit L me false v r [x, .base b, .dm d o t] = none := by
  rw [refInit_class L me c v r x hx]
  unfold classFromRef
  have ask : askEff me none [x, .base b, .dm d o t] = true := by
    rcases hx with rfl | ⟨rfl, rfl⟩ <;> simp [askEff, declOf, hasBase]
  dsimp only
  rw [if_pos ask]
  rfl

/-- **C137 fails.** Naming a base of a member (`Q& q = r.a.Base.m`, `a` being a member of the class of `r` itself): the position of
`a` is forgotten. -/
theorem C137_inner_base_fails (L : Lay C) (me c v b d t1 t2 : C) (o1 o2 q2 : Nat) (r : Ref C) (start : Int) (ha : At L r c start)
    (x : Sym C) (hx : IsRef me c x) (h2 : L.rel t1 d = some q2) :
    ∃ q, Place L r.eff (members [.dm c o1 t1, .base b, .dm d o2 t2]) (q + o1 + (q2 + o2 + 0)) ∧
    refInit L me false v r [x, .dm c o1 t1, .base b, .dm d o2 t2] = some ⟨start + (q + o2 : Nat), some v⟩ := by
  obtain ⟨q0, k1, k2, k3⟩ := ha
  refine ⟨q0, .cons k1 (.cons h2 (.nil _)), ?_⟩
  rw [refInit_class L me c v r x hx]
  unfold classFromRef
  have last : lastMember [x, .dm c o1 t1, .base b, .dm d o2 t2] = true := by simp [lastMember, lastDecl, declOf]
  dsimp only
  rw [if_pos last, passPos_head me c x hx, askEff_own me c t1 o1 x hx, if_neg (by simp), k2]
  simp only [passPos, Option.some.injEq, Made.mk.injEq, and_true]
  push_cast
  ring

/-! Cases, with the classes of C103 -/

/-- `Unsigned& u = h.d.x` for `H h`, and for a reference `G& g`: `x` is inherited by the type of `d`. -/
example : refInit zoo .A true .A ⟨.A, 0, 0⟩ [.loc .H false, symD, symX] = some ⟨10, none⟩ ∧
    refInit zoo .A true .A ⟨.H, 27, 2⟩ [.loc .G true, symD, symX] = some ⟨35, none⟩ ∧
    refInit zoo .G true .A ⟨.H, 27, 2⟩ [.self .G, symD, symX] = some ⟨35, none⟩ ∧
    At zoo ⟨.H, 27, 2⟩ .G 25 ∧ Place zoo .H (members [symD, symX]) 10 :=
  ⟨by decide +kernel, by decide +kernel, by decide +kernel, ⟨2, rfl, rfl, rfl⟩, .cons (q := 2) rfl (.cons (q := 8) rfl (.nil _))⟩

/-- The same from `H& h`: `d` is inherited by `H`. -/
example : refInit zoo .A true .A ⟨.H, 25, 0⟩ [.loc .H true, symD, symX] = none ∧
    At zoo ⟨.H, 25, 0⟩ .H 25 := ⟨by decide +kernel, ⟨0, rfl, rfl, rfl⟩⟩

/-- `D& e = h.d` is right; were `x` of a class, a reference to `g.d.x` would be 8 bits off. -/
example : refInit zoo .A false .D ⟨.H, 25, 0⟩ [.loc .H true, symD] = some ⟨27, some .D⟩ ∧
    refInit zoo .A false .A ⟨.H, 27, 2⟩ [.loc .G true, symD, symX] = some ⟨27, some .A⟩ ∧
    refInit zoo .A false .A ⟨.M, 25, 0⟩ [.loc .M true, .base .B, symX] = none ∧
    refInit zoo .A true .A ⟨.M, 25, 0⟩ [.loc .M true, .base .B, symX] = some ⟨42, none⟩ :=
  ⟨by decide +kernel, by decide +kernel, by decide +kernel, by decide +kernel⟩

end Ulam.RefInit
