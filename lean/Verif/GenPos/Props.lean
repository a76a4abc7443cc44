import Verif.GenPos.Spec
import Verif.Related.Props
import Mathlib.Tactic.Ring
import Mathlib.Tactic.Push
import Mathlib.Tactic.ByContra
/-! # C103: the generated code finds members of members where the layout puts them -/
namespace Ulam.GenPos
open Ulam.GenPos.Spec
variable {C : Type} [DecidableEq C]

theorem subPos_eq {L : Lay C} (hl : Laid L) {c d : C} {q : Nat} (h : L.rel c d = some q) : subPos L c d = some (q : Int) := by
  unfold subPos
  by_cases e : L.sub c d = true
  · rw [if_pos e, h]; rfl
  · rw [if_neg e]
    have : c = d := by
      by_contra z
      exact e ((hl.sub c d).2 ⟨z, by rw [h]; rfl⟩)
    subst this
    rw [hl.self] at h
    cases h
    rfl

/-- After the first data member. -/
theorem calcLoop_after {L : Lay C} (hl : Laid L) (asking : Bool) (l : List (Sym C)) (hf : Follows l) (i : Nat) (s : St C) (p : Nat)
    (hi : i > s.first) (hp : Place L s.cuti (members l) p) :
    ∃ t, calcLoop L asking i s l = some t ∧ t.pos = s.pos + p := by
  induction l generalizing i s p with
  | nil => cases hp; exact ⟨s, rfl, by simp⟩
  | cons x l ih =>
    have hf' : Follows l := fun y hy => hf y (List.mem_cons_of_mem _ hy)
    rcases hf x (by simp) with ⟨c, rfl⟩ | ⟨d, o, t, rfl⟩
    · unfold calcLoop calcStep
      dsimp only
      exact ih hf' (i + 1) ⟨s.pos, s.cuti, s.first + 1⟩ p (by dsimp only; omega) hp
    · obtain _ | ⟨hq, hp⟩ := hp
      rename_i q p
      unfold calcLoop calcStep
      dsimp only
      rw [if_pos hi, subPos_eq hl hq]
      dsimp only [Option.map_some]
      obtain ⟨u, hu, hv⟩ := ih hf' (i + 1) ⟨s.pos + q + o, t, s.first⟩ p (by dsimp only; omega) hp
      refine ⟨u, hu, ?_⟩
      rw [hv]; push_cast; ring

/-- Up to the first data member and on, the place known when compiling. -/
theorem calcLoop_static {L : Lay C} (hl : Laid L) (l : List (Sym C)) (hf : Follows l) (i : Nat) (s : St C) (p : Nat)
    (hi : i = s.first) (hp : Place L s.cuti (members l) p) :
    ∃ t, calcLoop L false i s l = some t ∧ t.pos = s.pos + p := by
  induction l generalizing i s p with
  | nil => cases hp; exact ⟨s, rfl, by simp⟩
  | cons x l ih =>
    have hf' : Follows l := fun y hy => hf y (List.mem_cons_of_mem _ hy)
    rcases hf x (by simp) with ⟨c, rfl⟩ | ⟨d, o, t, rfl⟩
    · unfold calcLoop calcStep
      dsimp only
      exact ih hf' (i + 1) ⟨s.pos, s.cuti, s.first + 1⟩ p (by dsimp only; omega) hp
    · obtain _ | ⟨hq, hp⟩ := hp
      rename_i q p
      unfold calcLoop calcStep
      dsimp only
      rw [if_neg (show ¬ i > s.first by omega), if_pos hi, if_neg (by simp), subPos_eq hl hq]
      dsimp only [Option.map_some]
      obtain ⟨u, hu, hv⟩ := calcLoop_after hl false l hf' (i + 1) ⟨s.pos + o + q, t, s.first⟩ p (by dsimp only; omega) hp
      refine ⟨u, hu, ?_⟩
      rw [hv]; push_cast; ring

/-- The same without the place of the class of the first member, which the program asks for. -/
theorem calcLoop_asking {L : Lay C} (hl : Laid L) (l : List (Sym C)) (hf : Follows l) (i : Nat) (s : St C) (m : Mem C)
    (rest : List (Mem C)) (p : Nat) (hi : i = s.first) (hm : members l = m :: rest) (hp : Place L m.ty rest p) :
    ∃ t, calcLoop L true i s l = some t ∧ t.pos = s.pos + m.off + p := by
  induction l generalizing i s with
  | nil => cases hm
  | cons x l ih =>
    have hf' : Follows l := fun y hy => hf y (List.mem_cons_of_mem _ hy)
    rcases hf x (by simp) with ⟨c, rfl⟩ | ⟨d, o, t, rfl⟩
    · unfold calcLoop calcStep
      dsimp only
      exact ih hf' (i + 1) ⟨s.pos, s.cuti, s.first + 1⟩ (by dsimp only; omega) hm
    · unfold members at hm
      cases hm
      unfold calcLoop calcStep
      dsimp only
      rw [if_neg (show ¬ i > s.first by omega), if_pos hi, if_pos rfl]
      dsimp only
      exact calcLoop_after hl true l hf' (i + 1) ⟨s.pos + o, t, s.first⟩ p (by dsimp only; omega) hp

theorem calcPos_static {L : Lay C} (hl : Laid L) (me c : C) (x : Sym C) (l : List (Sym C)) (hf : Follows l) (p : Nat)
    (hx : x = .self me ∧ c = me ∨ ∃ r, x = .loc c r) (hp : Place L c (members l) p) :
    calcPos L false me (x :: l) = some (p : Int) := by
  have key : calcStep L false 0 ⟨0, me, 0⟩ x = some ⟨0, c, 1⟩ := by
    rcases hx with ⟨rfl, rfl⟩ | ⟨r, rfl⟩ <;> simp [calcStep]
  unfold calcPos calcLoop
  rw [key]
  dsimp only
  obtain ⟨t, h1, h2⟩ := calcLoop_static hl l hf 1 ⟨0, c, 1⟩ p rfl hp
  rw [h1, Option.map_some, h2]; simp

theorem calcPos_asking {L : Lay C} (hl : Laid L) (me : C) (l : List (Sym C)) (hf : Follows l) (m : Mem C) (rest : List (Mem C))
    (p : Nat) (hm : members l = m :: rest) (hp : Place L m.ty rest p) :
    calcPos L true me (.self me :: l) = some ((m.off + p : Nat) : Int) := by
  have key : calcStep L true 0 ⟨0, me, 0⟩ (.self me) = some ⟨0, me, 1⟩ := by simp [calcStep]
  unfold calcPos calcLoop
  rw [key]
  dsimp only
  obtain ⟨t, h1, h2⟩ := calcLoop_asking hl l hf 1 ⟨0, me, 1⟩ m rest p rfl hm hp
  rw [h1, Option.map_some, h2]; simp

theorem relPos_eq {L : Lay C} {e c : C} {q : Nat} (h : L.rel e c = some q) : relPos L e c = some (q : Int) := by
  unfold relPos; rw [h]; rfl

/-- **C103.** A member of a member of a local variable is read where it is, however it is named. -/
theorem C103_local_variable (L : Lay C) (hl : Laid L) (me c : C) (r : Ref C) (l : List (Sym C)) (hf : Follows l) (p : Nat)
    (hp : Place L c (members l) p) : localRead L me r (.loc c false :: l) = some (p : Int) := by
  unfold localRead
  dsimp only
  rw [if_neg (by simp [askEff]), if_neg (by simp)]
  exact calcPos_static hl me c (.loc c false) l hf p (.inr ⟨_, rfl⟩) hp

/-! ## From `self` -/

theorem members_bases (bs : List (Sym C)) (h : ∀ x ∈ bs, ∃ c, x = .base c) (l : List (Sym C)) : members (bs ++ l) = members l := by
  induction bs with
  | nil => rfl
  | cons x bs ih =>
    obtain ⟨c, rfl⟩ := h x (by simp)
    rw [List.cons_append, members, ih fun y hy => h y (List.mem_cons_of_mem _ hy)]
    all_goals simp

theorem memberRead_head (L : Lay C) (hl : Laid L) (me : C) (ur : Ref C) (start : Int) (ha : At L ur me start)
    (d t : C) (o : Nat) (m : List (Sym C)) (hf : Follows (.dm d o t :: m)) (p : Nat)
    (hp : Place L ur.eff (members (.dm d o t :: m)) p) : memberRead L me ur (.self me :: .dm d o t :: m) = some (start + p) := by
  obtain ⟨q0, h1, h2, h3⟩ := ha
  have hp' := hp
  obtain _ | ⟨hq, hp⟩ := hp
  rename_i q p
  dsimp only at hq
  unfold memberRead
  by_cases e : d = me
  · have ask : askEff me none (.self me :: .dm d o t :: m) = false := by simp [askEff, declOf, e]
    rw [ask, calcPos_static hl me me (.self me) _ hf (0 + o + p) (.inl ⟨rfl, rfl⟩)
      (Place.cons (by dsimp only; rw [e]; exact hl.self me) hp)]
    rw [e, h1] at hq
    cases hq
    simp only [Bool.false_eq_true, if_false]
    rw [h2]; push_cast; congr 1; ring
  · have ask : askEff me none (.self me :: .dm d o t :: m) = true := by simp [askEff, declOf, e]
    rw [ask, calcPos_asking hl me _ hf ⟨d, o, t⟩ (members m) p rfl hp]
    have hc : askedClass (.self me :: .dm d o t :: m) = some d := by
      unfold askedClass
      cases m with
      | nil => simp [lastDecl, declOf]
      | cons y m => simp [declOf]
    rw [hc]
    simp only [if_true, Option.bind_some]
    rw [relPos_eq hq, Option.map_some, h2, h3]; push_cast; congr 1; ring

/-- **C103.** Whatever class the object is of, a member reached from `self` is read where it is: any members of members, or one
member after bases that are selected by name. Missing: members of a member after a base selected by name, see below. -/
theorem C103_self_read_partial (L : Lay C) (hl : Laid L) (me : C) (ur : Ref C) (start : Int) (ha : At L ur me start)
    (l : List (Sym C)) (hf : Follows l) (p : Nat) (hp : Place L ur.eff (members l) p)
    (hs : (∃ d o t m, l = .dm d o t :: m) ∨ ∃ bs d o t, (∀ x ∈ bs, ∃ c, x = .base c) ∧ l = bs ++ [.dm d o t]) :
    memberRead L me ur (.self me :: l) = some (start + p) := by
  obtain ⟨q0, h1, h2, h3⟩ := ha
  rcases hs with ⟨d, o, t, m, rfl⟩ | ⟨bs, d, o, t, hb, rfl⟩
  · exact memberRead_head L hl me ur start ⟨q0, h1, h2, h3⟩ d t o m hf p hp
  · rw [members_bases bs hb] at hp
    cases bs with
    | nil =>
      exact memberRead_head L hl me ur start ⟨q0, h1, h2, h3⟩ d t o [] hf p hp
    | cons x bs =>
      obtain ⟨c, rfl⟩ := hb x (by simp)
      obtain _ | ⟨hq, hp⟩ := hp
      rename_i q p
      cases hp
      dsimp only at hq
      unfold memberRead
      have ask : askEff me none (.self me :: (.base c :: bs ++ [.dm d o t])) = true := by simp [askEff, declOf, hasBase]
      have mm : members (.base c :: bs ++ [.dm d o t]) = [⟨d, o, t⟩] := by rw [members_bases _ hb]; rfl
      rw [ask, calcPos_asking hl me _ hf ⟨d, o, t⟩ [] 0 mm (.nil _)]
      have hc : askedClass (.self me :: (.base c :: bs ++ [.dm d o t])) = some d := by
        unfold askedClass
        have : lastDecl (.self me :: (.base c :: bs ++ [.dm d o t])) = some d := by
          unfold lastDecl
          rw [← List.cons_append, List.getLast?_append]
          simp [declOf]
        rw [this]
        simp [declOf]
      rw [hc]
      simp only [if_true, Option.bind_some]
      rw [relPos_eq hq, Option.map_some, h2, h3]; push_cast; congr 1; ring

/-! ## The programs of the counterexamples -/

/-- `quark A { Unsigned(4) x; }`, `quark B : A { Unsigned(8) y; }`, `quark D : A { Unsigned(8) z; }`, `quark G { D d; }`,
`quark H : G { Unsigned(2) w; }`, `quark K : B { Unsigned(16) v; }`, `quark M : B + D { Unsigned(1) u; }`: the own members of
a class come first, then its bases in order, then what these share. -/
inductive Zoo | A | B | D | G | H | K | M
  deriving DecidableEq

open Zoo in
def zoo : Lay Zoo where
  rel
    | B, A => some 8 | D, A => some 8 | H, G => some 2 | K, B => some 16 | K, A => some 24
    | M, B => some 1 | M, D => some 9 | M, A => some 17
    | a, b => if a = b then some 0 else none
  sub
    | B, A => true | D, A => true | H, G => true | K, B => true | K, A => true
    | M, B => true | M, D => true | M, A => true
    | _, _ => false

theorem zoo_laid : Laid zoo :=
  ⟨fun c => by cases c <;> rfl, fun c d => by cases c <;> cases d <;> simp [zoo]⟩

/-- The members `x`, `d`, and for the types of numbers any class does. -/
def symX : Sym Zoo := .dm .A 0 .A
def symD : Sym Zoo := .dm .G 0 .D

/-- `d.x` in a function of `H`: `x` is 10 bits from the start. -/
example : Place zoo .H (members [symD, symX]) 10 ∧ memberRead zoo .H ⟨.H, 25, 0⟩ [.self .H, symD, symX] = some 35 ∧
    localRead zoo .A ⟨.A, 0, 0⟩ [.loc .H false, symD, symX] = some 10 :=
  ⟨.cons (q := 2) rfl (.cons (q := 8) rfl (.nil _)), by decide +kernel, by decide +kernel⟩

/-- In a function of `B` called on an `M`, `x` is reached as `M` places it. -/
example : At zoo ⟨.M, 26, 1⟩ .B 25 ∧ memberRead zoo .B ⟨.M, 26, 1⟩ [.self .B, symX] = some 42 ∧
    memberRead zoo .B ⟨.M, 26, 1⟩ [.self .B, .base .A, symX] = some 42 :=
  ⟨⟨1, rfl, rfl, rfl⟩, by decide +kernel, by decide +kernel⟩

/-- **C103.** After a base selected by name, the class the program asks for is that of the last member, not of the first; the object
having no such part, the program stops. -/
theorem C103_self_base_fails (L : Lay C) (hl : Laid L) (me b : C) (ur : Ref C) (start : Int) (ha : At L ur me start)
    (d1 d2 t1 t2 : C) (o1 o2 q1 q2 : Nat) (h1 : L.rel ur.eff d1 = some q1) (h2 : L.rel t1 d2 = some q2)
    (hn : L.rel ur.eff d2 = none) :
    Place L ur.eff (members [.base b, .dm d1 o1 t1, .dm d2 o2 t2]) (q1 + o1 + (q2 + o2 + 0)) ∧
    memberRead L me ur [.self me, .base b, .dm d1 o1 t1, .dm d2 o2 t2] = none := by
  refine ⟨.cons h1 (.cons h2 (.nil _)), ?_⟩
  obtain ⟨q0, k1, k2, k3⟩ := ha
  have hf : Follows [.base b, .dm d1 o1 t1, .dm d2 o2 t2] := by
    intro x hx
    simp only [List.mem_cons, List.not_mem_nil, or_false] at hx
    rcases hx with rfl | rfl | rfl
    · exact .inl ⟨_, rfl⟩
    · exact .inr ⟨_, _, _, rfl⟩
    · exact .inr ⟨_, _, _, rfl⟩
  unfold memberRead
  have ask : askEff me none [.self me, .base b, .dm d1 o1 t1, .dm d2 o2 t2] = true := by simp [askEff, declOf, hasBase]
  rw [ask, calcPos_asking hl me _ hf ⟨d1, o1, t1⟩ [⟨d2, o2, t2⟩] (q2 + o2 + 0) rfl (.cons h2 (.nil _))]
  have hc : askedClass [.self me, .base b, .dm d1 o1 t1, .dm d2 o2 t2] = some d2 := by simp [askedClass, declOf, lastDecl]
  rw [hc]
  simp only [if_true, Option.bind_some]
  unfold relPos
  rw [hn]
  rfl

/-- `self.G.d.x` in a function of `H`. -/
example : memberRead zoo .H ⟨.H, 25, 0⟩ [.self .H, .base .G, symD, symX] = none := by decide +kernel

/-! ## From a reference -/

/-- **C103.** A member that the class of a reference declares itself, and members of it, are read where they are. -/
theorem C103_reference_own (L : Lay C) (hl : Laid L) (me c : C) (r : Ref C) (start : Int) (ha : At L r c start)
    (o : Nat) (t : C) (l : List (Sym C)) (hf : Follows l) (p : Nat) (hp : Place L r.eff (members (.dm c o t :: l)) p) :
    localRead L me r (.loc c true :: .dm c o t :: l) = some (start + p) := by
  obtain ⟨q0, h1, h2, h3⟩ := ha
  obtain _ | ⟨hq, hp⟩ := hp
  rename_i q p
  dsimp only at hq
  have hf' : Follows (.dm c o t :: l) := by
    intro x hx
    rcases List.mem_cons.1 hx with rfl | hx
    · exact .inr ⟨_, _, _, rfl⟩
    · exact hf x hx
  unfold localRead
  dsimp only
  rw [if_neg (by simp [askEff, declOf]), if_pos rfl,
    calcPos_static hl me c (.loc c true) _ hf' (0 + o + p) (.inr ⟨_, rfl⟩) (Place.cons (hl.self c) hp)]
  rw [h1] at hq
  cases hq
  rw [Option.map_some, h2]; push_cast; congr 1; ring

/-- **C103.** One member reached by a reference, inherited or not, after any bases selected by name, is read where it is. -/
theorem C103_reference_one (L : Lay C) (hl : Laid L) (me c : C) (r : Ref C) (start : Int) (ha : At L r c start)
    (bs : List (Sym C)) (hb : ∀ x ∈ bs, ∃ c, x = .base c) (d t : C) (o q : Nat) (hq : L.rel r.eff d = some q) :
    localRead L me r (.loc c true :: (bs ++ [.dm d o t])) = some (start + (q + o : Nat)) := by
  obtain ⟨q0, h1, h2, h3⟩ := ha
  have first : fromFirstDM (bs ++ [.dm d o t]) = [.dm d o t] := by
    unfold fromFirstDM
    rw [List.dropWhile_append_of_pos]
    · simp
    · intro x hx; obtain ⟨c, rfl⟩ := hb x hx; rfl
  by_cases e : askEff me none (.loc c true :: (bs ++ [.dm d o t])) = true
  · unfold localRead
    dsimp only
    rw [if_pos e, first]
    dsimp only
    rw [relPos_eq hq, Option.map_some, h2, h3]; push_cast; congr 1; ring
  · have hd : bs = [] ∧ d = c := by
      cases bs with
      | nil => simpa [askEff, declOf] using e
      | cons x bs =>
        obtain ⟨b, rfl⟩ := hb x (by simp)
        exact absurd (by simp [askEff, declOf, hasBase]) e
    obtain ⟨rfl, rfl⟩ := hd
    have := C103_reference_own L hl me d r start ⟨q0, h1, h2, h3⟩ o t [] (by intro x hx; cases hx) (q + o + 0) (.cons hq (.nil _))
    simpa using this

/-- The members after the first are declared by the class of the one before itself, and that class is not an ancestor of the one
that declares the one before. -/
def PlainFrom (L : Lay C) : C → C → List (Mem C) → Prop
  | _, _, [] => True
  | decl, ty, m :: l => m.decl = ty ∧ L.rel decl ty = none ∧ PlainFrom L m.decl m.ty l

theorem fromFirstLoop_plain {L : Lay C} (hl : Laid L) (l : List (Sym C)) (hd : ∀ x ∈ l, ∃ d o t, x = .dm d o t) (cuti decl ty : C)
    (hc : cuti = decl ∨ cuti = ty) (hn : PlainFrom L decl ty (members l)) (pos : Int) (p : Nat) (hp : Place L ty (members l) p) :
    fromFirstLoop L cuti pos l = some (pos + p) := by
  induction l generalizing cuti decl ty pos p with
  | nil => cases hp; simp [fromFirstLoop]
  | cons x l ih =>
    obtain ⟨d, o, t, rfl⟩ := hd x (by simp)
    have hd' : ∀ x ∈ l, ∃ d o t, x = .dm d o t := fun y hy => hd y (List.mem_cons_of_mem _ hy)
    obtain ⟨n1, n2, n3⟩ := hn
    dsimp only at n1 n3
    subst n1
    obtain _ | ⟨hq, hp⟩ := hp
    rename_i q p
    dsimp only at hq
    rw [hl.self] at hq
    cases hq
    unfold fromFirstLoop
    rcases hc with rfl | rfl
    · rw [n2]
      dsimp only
      rw [ih hd' t d t (.inr rfl) n3 _ p hp]; push_cast; congr 1; ring
    · rw [hl.self]
      dsimp only
      rw [ih hd' cuti cuti t (.inl rfl) n3 _ p hp]; push_cast; congr 1; ring

/-- **C103.** Members of an inherited member, by a reference, are read where they are when each is declared by the class of the one
before itself. Missing: members that are inherited, see below. -/
theorem C103_reference_partial (L : Lay C) (hl : Laid L) (me c : C) (r : Ref C) (start : Int) (ha : At L r c start)
    (d t : C) (o : Nat) (hdc : d ≠ c) (l : List (Sym C)) (hd : ∀ x ∈ l, ∃ d o t, x = .dm d o t) (p : Nat)
    (hp : Place L r.eff (members (.dm d o t :: l)) p) (hn : PlainFrom L d t (members l)) :
    localRead L me r (.loc c true :: .dm d o t :: l) = some (start + p) := by
  obtain ⟨q0, h1, h2, h3⟩ := ha
  obtain _ | ⟨hq, hp⟩ := hp
  rename_i q p
  dsimp only at hq hp
  have ask : askEff me none (.loc c true :: .dm d o t :: l) = true := by simp [askEff, declOf, hdc]
  have key := fromFirstLoop_plain hl l hd d d t (.inl rfl) hn o p hp
  unfold localRead
  dsimp only
  rw [if_pos ask]
  have first : fromFirstDM (.dm d o t :: l) = .dm d o t :: l := by simp [fromFirstDM]
  rw [first]
  cases l with
  | nil =>
    cases hp
    dsimp only
    rw [relPos_eq hq, Option.map_some, h2, h3]; push_cast; congr 1; ring
  | cons y l =>
    dsimp only
    unfold fromFirst
    dsimp only
    rw [key, Option.bind_some, relPos_eq hq, Option.map_some, h2, h3]; push_cast; congr 1; ring

/-- **C103.** An inherited member of an inherited member, by a reference, is read too early, by the place of the class that declares
it in the class of the member. -/
theorem C103_reference_fails (L : Lay C) (me c : C) (r : Ref C) (start : Int) (ha : At L r c start)
    (d1 t1 d2 t2 : C) (o1 o2 q1 q2 : Nat) (hdc : d1 ≠ c) (h1 : L.rel r.eff d1 = some q1) (h2 : L.rel t1 d2 = some q2)
    (hn : L.rel d1 d2 = none) :
    Place L r.eff (members [.dm d1 o1 t1, .dm d2 o2 t2]) (q1 + o1 + (q2 + o2 + 0)) ∧
    localRead L me r [.loc c true, .dm d1 o1 t1, .dm d2 o2 t2] = some (start + (q1 + o1 + (q2 + o2 + 0) : Nat) - q2) := by
  refine ⟨.cons h1 (.cons h2 (.nil _)), ?_⟩
  obtain ⟨q0, k1, k2, k3⟩ := ha
  have ask : askEff me none [.loc c true, .dm d1 o1 t1, .dm d2 o2 t2] = true := by simp [askEff, declOf, hdc]
  unfold localRead
  dsimp only
  rw [if_pos ask]
  have first : fromFirstDM [.dm d1 o1 t1, .dm d2 o2 t2] = [.dm d1 o1 t1, .dm d2 o2 t2] := by simp [fromFirstDM]
  rw [first]
  dsimp only [fromFirst, fromFirstLoop]
  rw [hn]
  dsimp only [fromFirstLoop, Option.bind_some]
  rw [relPos_eq h1, Option.map_some, k2, k3]; push_cast; congr 1; ring

/-- **C103.** If the class that declares the first member has the class that declares the second for a base, the place of that base
there is added instead of its place in the class of the member. -/
theorem C103_reference_other_fails (L : Lay C) (me c : C) (r : Ref C) (start : Int) (ha : At L r c start)
    (d1 t1 d2 t2 : C) (o1 o2 q1 q2 q : Nat) (hdc : d1 ≠ c) (h1 : L.rel r.eff d1 = some q1) (h2 : L.rel t1 d2 = some q2)
    (hn : L.rel d1 d2 = some q) :
    Place L r.eff (members [.dm d1 o1 t1, .dm d2 o2 t2]) (q1 + o1 + (q2 + o2 + 0)) ∧
    localRead L me r [.loc c true, .dm d1 o1 t1, .dm d2 o2 t2] = some (start + (q1 + o1 + (q2 + o2 + 0) : Nat) - q2 + q) := by
  refine ⟨.cons h1 (.cons h2 (.nil _)), ?_⟩
  obtain ⟨q0, k1, k2, k3⟩ := ha
  have ask : askEff me none [.loc c true, .dm d1 o1 t1, .dm d2 o2 t2] = true := by simp [askEff, declOf, hdc]
  unfold localRead
  dsimp only
  rw [if_pos ask]
  have first : fromFirstDM [.dm d1 o1 t1, .dm d2 o2 t2] = [.dm d1 o1 t1, .dm d2 o2 t2] := by simp [fromFirstDM]
  rw [first]
  dsimp only [fromFirst, fromFirstLoop]
  rw [hn]
  dsimp only [fromFirstLoop, Option.bind_some]
  rw [relPos_eq h1, Option.map_some, k2, k3]; push_cast; congr 1; ring

/-- `r.k.x` with `M& r`, `K k` being a member of `B`: read at 13 where it is at 29. -/
example : localRead zoo .A ⟨.M, 0, 0⟩ [.loc .M true, .dm .B 4 .K, symX] = some 13 ∧
    Place zoo .M (members [.dm .B 4 .K, symX]) 29 ∧ At zoo ⟨.M, 0, 0⟩ .M 0 ∧ zoo.rel .B .A = some 8 :=
  ⟨by decide +kernel, .cons (q := 1) rfl (.cons (q := 24) rfl (.nil _)), ⟨0, rfl, rfl, rfl⟩, rfl⟩

/-- `r.d.x` with `H& r`: read at 2 instead of 10. -/
example : localRead zoo .A ⟨.H, 0, 0⟩ [.loc .H true, symD, symX] = some 2 ∧ At zoo ⟨.H, 0, 0⟩ .H 0 ∧ zoo.rel .G .A = none :=
  ⟨by decide +kernel, ⟨0, rfl, rfl, rfl⟩, rfl⟩

/-- `r.d.z`, the member `z` being one of `D` itself. -/
example : localRead zoo .A ⟨.H, 0, 0⟩ [.loc .H true, symD, .dm .D 0 .A] = some 2 ∧
    PlainFrom zoo .G .D (members [.dm .D 0 .A]) ∧ Place zoo .H (members [symD, .dm .D 0 .A]) 2 :=
  ⟨by decide +kernel, ⟨rfl, rfl, trivial⟩, .cons (q := 2) rfl (.cons (q := 0) rfl (.nil _))⟩

/-! ## From `super` -/

theorem calcPos_super {L : Lay C} (hl : Laid L) (asking : Bool) (me s d t : C) (o qs q p : Nat) (l : List (Sym C)) (hf : Follows l)
    (hs : L.rel me s = some qs) (hq : L.rel s d = some q) (hp : Place L t (members l) p) :
    calcPos L asking me (.super s :: .dm d o t :: l) = some ((qs + o + p + if asking then 0 else q : Nat) : Int) := by
  have key : calcStep L asking 0 ⟨0, me, 0⟩ (.super s) = some ⟨qs, s, 1⟩ := by simp [calcStep, hs]
  unfold calcPos
  rw [calcLoop, key]
  dsimp only
  rw [calcLoop]
  unfold calcStep
  dsimp only
  rw [if_neg (show ¬ 0 + 1 > 1 by omega), if_pos rfl]
  cases asking with
  | true =>
    obtain ⟨u, h1, h2⟩ := calcLoop_after hl true l hf 2 ⟨qs + o, t, 1⟩ p (by dsimp only; omega) hp
    rw [if_pos rfl]
    dsimp only
    rw [h1, Option.map_some, h2]; push_cast; simp
  | false =>
    rw [if_neg (by simp), subPos_eq hl hq]
    dsimp only [Option.map_some]
    obtain ⟨u, h1, h2⟩ := calcLoop_after hl false l hf 2 ⟨qs + o + q, t, 1⟩ p (by dsimp only; omega) hp
    rw [h1, Option.map_some, h2]; push_cast; congr 1; ring

/-- **C103.** A member the superclass itself declares is read from `super` at the place it has in an object of the class of the
function. So it is the right place when the object is of that class. Missing: objects of derived classes, and members the
superclass inherits, see below. -/
theorem C103_super_partial (L : Lay C) (hl : Laid L) (me s t : C) (ur : Ref C) (start : Int) (ha : At L ur me start)
    (o qs : Nat) (hs : L.rel me s = some qs) (l : List (Sym C)) (hf : Follows l) (p : Nat) (hp : Place L t (members l) p) :
    memberRead L me ur (.super s :: .dm s o t :: l) = some (ur.pos + (qs + o + p : Nat)) ∧
    (ur.eff = me → Place L ur.eff (members (.dm s o t :: l)) (qs + o + p) ∧ ur.pos = start) := by
  constructor
  · have ask : askEff me none (.super s :: .dm s o t :: l) = false := by simp [askEff, declOf]
    unfold memberRead
    rw [ask, calcPos_super hl false me s s t o qs 0 p l hf hs (hl.self s) hp]
    simp
  · intro e
    obtain ⟨q0, h1, h2, h3⟩ := ha
    refine ⟨.cons (by rw [e]; exact hs) hp, ?_⟩
    rw [e, hl.self] at h1
    cases h1
    simpa using h2

/-- **C103.** For an object of a derived class that is wrong unless the place of the superclass in the object is that of the class
of the function and the one of the superclass in it together. -/
theorem C103_super_derived_fails (L : Lay C) (hl : Laid L) (me s t : C) (ur : Ref C) (start : Int) (ha : At L ur me start)
    (o qs qe : Nat) (hs : L.rel me s = some qs) (he : L.rel ur.eff s = some qe) :
    memberRead L me ur [.super s, .dm s o t] = some (start + (qe + o : Nat)) ↔ L.rel ur.eff me = some (qe - qs) ∧ qs ≤ qe := by
  rw [(C103_super_partial L hl me s t ur start ha o qs hs [] (by intro x hx; cases hx) 0 (.nil _)).1]
  obtain ⟨q0, h1, h2, h3⟩ := ha
  rw [h2, h1, Option.some.injEq, Option.some.injEq]
  push_cast
  omega

/-- `super.x` in a function of `D` called on an `M`: 42 is right. -/
example : memberRead zoo .D ⟨.M, 34, 9⟩ [.super .A, symX] = some 42 ∧ memberRead zoo .B ⟨.M, 26, 1⟩ [.super .A, symX] = some 34 ∧
    At zoo ⟨.M, 34, 9⟩ .D 25 ∧ At zoo ⟨.M, 26, 1⟩ .B 25 :=
  ⟨by decide +kernel, by decide +kernel, ⟨9, rfl, rfl, rfl⟩, ⟨1, rfl, rfl, rfl⟩⟩

/-- **C103.** A member the superclass inherits is read at a place in which the superclass counts twice and the class that declares
the member not at all. -/
theorem C103_super_inherited_fails (L : Lay C) (hl : Laid L) (me s d t : C) (ur : Ref C) (start : Int) (ha : At L ur me start)
    (hds : d ≠ s) (o qs qe qd q : Nat) (hs : L.rel me s = some qs) (he : L.rel ur.eff s = some qe) (hd : L.rel ur.eff d = some qd)
    (hq : L.rel s d = some q) :
    memberRead L me ur [.super s, .dm d o t] = some (start + (qe + qs + o : Nat)) ∧
    Place L ur.eff (members [.dm d o t]) (qd + o + 0) := by
  refine ⟨?_, .cons hd (.nil _)⟩
  obtain ⟨q0, h1, h2, h3⟩ := ha
  have ask : askEff me none [.super s, .dm d o t] = true := by simp [askEff, declOf, hds]
  unfold memberRead
  rw [ask, calcPos_super hl true me s d t o qs q 0 [] (by intro x hx; cases hx) hs hq (.nil _)]
  simp only [askedClass, if_true, Option.bind_some]
  rw [relPos_eq he, Option.map_some, h2, h3]; push_cast; congr 1; ring

/-- `super.x` in a function of `K`: read at 32, outside of the 28 bits of a `K`, instead of 24. -/
example : memberRead zoo .K ⟨.K, 0, 0⟩ [.super .B, symX] = some 32 ∧ zoo.rel .K .A = some 24 := by decide +kernel

/-! ## Calling a function of a member -/

/-- **C103.** A function called on a member reached from `self` is given the place of that member when the class of the function
calling declares the first member itself, or there is only one. Missing: members of an inherited member, see below. -/
theorem C103_call_partial (L : Lay C) (hl : Laid L) (me f : C) (ur : Ref C) (start : Int) (ha : At L ur me start)
    (d t : C) (o : Nat) (l : List (Sym C)) (hd : ∀ x ∈ l, ∃ d o t, x = .dm d o t) (p : Nat)
    (hp : Place L ur.eff (members (.dm d o t :: l)) p) (hs : d = me ∨ l = []) :
    selfCall L me ur f (.self me :: .dm d o t :: l) = some (start + p) := by
  obtain ⟨q0, h1, h2, h3⟩ := ha
  obtain _ | ⟨hq, hp⟩ := hp
  rename_i q p
  dsimp only at hq
  have hf : Follows (.dm d o t :: l) := by
    intro x hx
    rcases List.mem_cons.1 hx with rfl | hx
    · exact .inr ⟨_, _, _, rfl⟩
    · exact .inr (hd x hx)
  unfold selfCall
  by_cases e : d = me
  · have ask : askEff me (some f) (.self me :: .dm d o t :: l) = false := by simp [askEff, declOf, e]
    rw [ask, calcPos_static hl me me (.self me) _ hf (0 + o + p) (.inl ⟨rfl, rfl⟩)
      (Place.cons (by dsimp only; rw [e]; exact hl.self me) hp)]
    rw [e, h1] at hq
    cases hq
    simp only [Bool.false_eq_true, if_false]
    rw [h2]; push_cast; congr 1; ring
  · have hl' : l = [] := hs.resolve_left e
    subst hl'
    have ask : askEff me (some f) [.self me, .dm d o t] = true := by simp [askEff, declOf, e]
    rw [ask, calcPos_asking hl me _ hf ⟨d, o, t⟩ [] p rfl hp]
    simp only [lastDecl, declOf, if_true, List.getLast?_cons_cons, List.getLast?_singleton, Option.bind_some]
    rw [relPos_eq hq, Option.map_some, h2, h3]; push_cast; congr 1; ring

/-- **C103.** A function called on a member of an inherited member is looked for at the class of the last member in place of
that of the first; the object having no such part, the program stops. -/
theorem C103_call_fails (L : Lay C) (hl : Laid L) (me f : C) (ur : Ref C) (start : Int) (ha : At L ur me start)
    (d1 d2 t1 t2 : C) (o1 o2 q1 q2 : Nat) (hdm : d1 ≠ me) (h1 : L.rel ur.eff d1 = some q1) (h2 : L.rel t1 d2 = some q2)
    (hn : L.rel ur.eff d2 = none) :
    Place L ur.eff (members [.dm d1 o1 t1, .dm d2 o2 t2]) (q1 + o1 + (q2 + o2 + 0)) ∧
    selfCall L me ur f [.self me, .dm d1 o1 t1, .dm d2 o2 t2] = none := by
  refine ⟨.cons h1 (.cons h2 (.nil _)), ?_⟩
  obtain ⟨q0, k1, k2, k3⟩ := ha
  have hf : Follows [.dm d1 o1 t1, .dm d2 o2 t2] := by
    intro x hx
    simp only [List.mem_cons, List.not_mem_nil, or_false] at hx
    rcases hx with rfl | rfl
    · exact .inr ⟨_, _, _, rfl⟩
    · exact .inr ⟨_, _, _, rfl⟩
  unfold selfCall
  have ask : askEff me (some f) [.self me, .dm d1 o1 t1, .dm d2 o2 t2] = true := by simp [askEff, declOf, hdm]
  rw [ask, calcPos_asking hl me _ hf ⟨d1, o1, t1⟩ [⟨d2, o2, t2⟩] (q2 + o2 + 0) rfl (.cons h2 (.nil _))]
  have hc : lastDecl [.self me, .dm d1 o1 t1, .dm d2 o2 t2] = some d2 := by simp [declOf, lastDecl]
  rw [hc]
  simp only [if_true, Option.bind_some]
  unfold relPos
  rw [hn]
  rfl

/-- `d.f()` and `d.x.f()` in a function of `H`. -/
example : selfCall zoo .H ⟨.H, 25, 0⟩ .D [.self .H, symD] = some 27 ∧
    selfCall zoo .H ⟨.H, 25, 0⟩ .A [.self .H, symD, symX] = none := by decide +kernel

/-! ## The hypothesis about positions -/

open Ulam.Walker Ulam.Walker.Spec Ulam.Layout Ulam.Related.Spec in
/-- **C103.** The layouts of `Verif/Layout` are as the theorems above ask: in a hierarchy without a cycle, the classes that are laid
out. -/
theorem C103_layout {n : Nat} (w : World n) (ok : Ok w) (ac : Acyclic w) (P : Fin n → Option Packed) :
    Laid (C := { c : Fin n // IsClass w c ∧ ∀ b, SelfOrAncestor w c b → (relativePosition w P c b).isSome = true })
      ⟨fun a b => relativePosition w P a.1 b.1, fun a b => isClassASubclassOf w a.1 b.1⟩ := by
  refine ⟨fun c => (C15_query w ok P c.1 c.1).1 rfl, fun c d => ?_⟩
  rw [C14_subclass_iff_ancestor w ok ac, c.2.1.deref, c.2.1.root, d.2.1.deref, d.2.1.root]
  constructor
  · intro h
    refine ⟨fun e => ?_, c.2.2 d.1 h.to_reflTransGen⟩
    rw [e] at h
    exact ac _ h
  · rintro ⟨h1, h2⟩
    by_contra h
    have hn : ¬ SelfOrAncestor w c.1 d.1 := by
      intro z
      rcases Relation.reflTransGen_iff_eq_or_transGen.1 z with e | e
      · exact h1 (Subtype.ext e.symm)
      · exact h e
    have := (C15_query w ok P c.1 d.1).2 (by rw [c.2.1.deref, c.2.1.root, d.2.1.deref, d.2.1.root]; exact hn)
    dsimp only at h2
    rw [this] at h2
    cases h2

end Ulam.GenPos
