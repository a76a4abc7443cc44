/-
Whatever size is set is the right one: from one class to all the rounds.
-/
import Verif.Sizing.Sound

namespace Ulam.Sizing

variable {n : Nat} {p : Prog n} {Q : Keep n}

theorem baseSum_neg {s : St n} (l : List (Fin n)) : ∀ acc, 0 ≤ acc → baseSum s l acc < 0 →
    ∃ b ∈ l, baseSum s l acc = s.size b := by
  induction l with
  | nil => intro acc h h'; simp only [baseSum] at h'; omega
  | cons b l ih =>
    intro acc h h'
    unfold baseSum at h' ⊢
    split_ifs at h' ⊢ with h1
    · exact ⟨b, List.mem_cons_self .., rfl⟩
    · obtain ⟨x, hx, e⟩ := ih _ (by omega) h'
      exact ⟨x, List.mem_cons_of_mem _ hx, e⟩

theorem own_le {c : Fin n} (h : AllSizable p (p.members c)) :
    own p (totOf p) c ≤ ((p.members c).map (part p (fun _ => 8192) c)).sum := by
  have h2 : ((p.members c).map (part p (totOf p) c)).sum ≤
      ((p.members c).map (part p (fun _ => 8192) c)).sum := by
    generalize p.members c = ms at h
    induction ms with
    | nil => exact Nat.le_refl _
    | cons m ms ih =>
      simp only [List.map_cons, List.sum_cons]
      have := ih fun m hm => h m (List.mem_cons_of_mem _ hm)
      have := part_mono (p := p) (g := totOf p) (g' := fun _ => 8192) (c := c) (m := m)
        fun d hd => (h m (List.mem_cons_self ..) d hd).2
      omega
  unfold own
  split_ifs
  · exact Nat.le_trans (foldr_max_le_sum _) h2
  · exact h2

/-- Why the size of a class is not known yet: a base class without a size, or a data member. -/
def Wait (R : Fin n → List (Fin n) → St n → Option (Out n)) (p : Prog n) (v : View n) (Q : Keep n)
    (c : Fin n) : Prop :=
  (∃ b ∈ p.bases c, ∃ s, Inv p Q s ∧ s.size b < 0) ∨ ∃ m ∈ p.members c, Blocked R p v Q c m

theorem blockBits_good (L : Legal p) (F : Fits p) {R : Fin n → List (Fin n) → St n → Option (Out n)}
    (hR : Good p R) {v : View n} {c : Fin n} {seen : List (Fin n)} {s : St n} {o : Out n}
    (h : blockBits R p v c seen s = some o) (cl : Clean o.st) :
    Clean s ∧ ∀ Q, (Inv p Q s → Inv p Q o.st ∧ (((o.bits = UNKNOWN ∨ o.bits = CYCLE) ∧ Wait R p v Q c) ∨
      (o.bits = EMPTY ∧ p.members c = []) ∨
      (AllSizable p (p.members c) ∧ o.bits = own p (totOf p) c))) := by
  have hF := F c
  unfold blockBits at h
  split_ifs at h with h1 h2 h3 h4
  · simp only [Option.some.injEq] at h
    subst h
    refine ⟨cl, fun Q i => ⟨i, ?_⟩⟩
    obtain ⟨b, hb, e⟩ := baseSum_neg _ _ (Int.le_refl 0) h1
    dsimp only
    rw [e] at h1 ⊢
    refine .inl ⟨?_, .inl ⟨b, hb, s, i, h1⟩⟩
    rcases i.size_cases b with q | q | q
    · exact .inl q
    · exact .inr q
    · omega
  · simp only [Option.some.injEq] at h
    subst h
    simp only [Bool.and_eq_true, List.isEmpty_iff] at h3
    exact ⟨cl, fun Q i => ⟨i, .inr (.inl ⟨rfl, h3.1⟩)⟩⟩
  · refine ⟨maxMembers_clean hR v c _ _ _ _ _ h cl, fun Q i => ?_⟩
    obtain ⟨i', r⟩ := maxMembers_good hR v c (L.union_quark c h2) (p.members c) 0 seen s o (by omega) h cl i
    refine ⟨i', r.imp (fun q => ⟨.inl q.1, .inr q.2⟩) fun q => .inr ⟨q.1, ?_⟩⟩
    rw [q.2]
    simp [own, h2]
  · simp only [Option.some.injEq] at h
    subst h
    simp only [Bool.and_eq_true, List.isEmpty_iff] at h4
    exact ⟨cl, fun Q i => ⟨i, .inr (.inl ⟨rfl, h4.1.1⟩)⟩⟩
  · refine ⟨sumMembers_clean hR v c _ _ _ _ _ h cl, fun Q i => ?_⟩
    obtain ⟨i', r⟩ := sumMembers_good hR v c (p.members c) 0 seen s o (by omega) h cl i
    refine ⟨i', r.imp (fun q => ⟨.inl q.1, .inr q.2⟩) fun q => .inr ⟨q.1, ?_⟩⟩
    rw [q.2]
    simp [own, h2]

theorem own_nil {c : Fin n} (h : p.members c = []) (g : Fin n → Nat) : own p g c = 0 := by
  unfold own
  rw [h]
  split_ifs <;> rfl

theorem trySet_good (L : Legal p) (F : Fits p) {R : Fin n → List (Fin n) → St n → Option (Out n)}
    (hR : Good p R) {v : View n} {c : Fin n} {seen : List (Fin n)} {s : St n} {t : Try n}
    (h : trySet R p v c seen s = some t) (hc : complete p s c = false) (cl : Clean t.st) :
    Clean s ∧ ∀ Q, (Inv p Q s → Inv p Q t.st ∧ (t.ok = false → Wait R p v Q c) ∧
      (t.ok = true → AllSizable p (p.members c) ∧
      t.mybits = own p (totOf p) c)) := by
  unfold trySet at h
  rw [Option.map_eq_some_iff] at h
  obtain ⟨o, ho, e⟩ := h
  have clo : Clean o.st := by
    rw [← e] at cl
    unfold judge at cl
    split_ifs at cl
    all_goals first
      | exact cl
      | exact absurd cl (not_clean_fail _)
  obtain ⟨g1, g2⟩ := blockBits_good L F hR ho clo
  refine ⟨g1, fun Q i => ?_⟩
  obtain ⟨i', q⟩ := g2 _ i
  subst e
  unfold judge at cl ⊢
  rw [hc]
  split_ifs with h1 h2 h3 h4 h5
  · rw [if_pos h1] at cl
    exact absurd cl (not_clean_fail _)
  · rw [if_neg h1, if_pos h2, if_pos h3] at cl
    exact absurd cl (not_clean_fail _)
  · refine ⟨i', fun hh => (by cases hh), fun _ => ?_⟩
    have hm : p.members c = [] := by
      have hE : EMPTY = -11 := rfl
      have hU : UNKNOWN = -2 := rfl
      rcases q with ⟨q | q, _⟩ | q | q
      · omega
      · exact absurd q h1
      · exact q.2
      · have := q.2; omega
    refine ⟨fun m hm' => (by rw [hm] at hm'; cases hm'), ?_⟩
    rw [own_nil hm]
    rfl
  · have hU : UNKNOWN = -2 := rfl
    rcases q with ⟨q | q, _⟩ | q | q
    · omega
    · exact absurd q h1
    · exact absurd q.1 h2
    · have := q.2; omega
  · refine ⟨i', fun hh => (by cases hh), fun _ => ?_⟩
    rcases q with ⟨q | q, _⟩ | q | q
    · exact absurd q h4
    · exact absurd q h1
    · exact absurd q.1 h2
    · exact q
  · refine ⟨i', fun _ => ?_, fun hh => (by cases hh)⟩
    simp only [ne_eq, Decidable.not_not] at h4
    rcases q with q | q | q
    · exact q.2
    · exact absurd q.1 h2
    · have hU : UNKNOWN = -2 := rfl
      have := q.2; omega

theorem sharedBits_good {s : St n} (i : Inv p Q s) (l : List (Fin n)) (hl : ∀ a ∈ l, p.kind a ≠ .element) :
    ∀ (acc : Nat) sb, sharedBits p s l acc = (true, some sb) →
      (∀ a ∈ l, Sizable p a) ∧ sb = (acc + (l.map (ownOf p)).sum : Nat) ∧
        (l.map (ownOf p)).sum ≤ 8192 * l.length := by
  induction l with
  | nil =>
    intro acc sb h
    simp only [sharedBits, Prod.mk.injEq, Option.some.injEq, true_and] at h
    exact ⟨fun a ha => (by cases ha), by simp [h], by simp⟩
  | cons a l ih =>
    intro acc sb h
    unfold sharedBits at h
    split_ifs at h with h1 h2
    · simp at h
    · simp at h
    · have hk := hl a (List.mem_cons_self ..)
      have hc : complete p s a = true := by simpa using h1
      have b1 := i.base_ok a (complete_base i hc hk)
      have b2 := i.size_ok a (complete_size i hc)
      have b3 := limit_le (p.kind a)
      have b4 := b1.1.own_le
      have e : getBase p s a = ownOf p a := by
        rw [getBase, if_neg hk]
        exact b1.2
      rw [e, ← Int.natCast_add] at h
      obtain ⟨r1, r2, r3⟩ := ih (fun x hx => hl x (List.mem_cons_of_mem _ hx)) _ _ h
      refine ⟨?_, ?_, ?_⟩
      · intro x hx
        rcases List.mem_cons.1 hx with rfl | hx
        · exact b1.1
        · exact r1 x hx
      · rw [r2]
        simp only [List.map_cons, List.sum_cons]
        rw [Nat.add_assoc]
      · simp only [List.map_cons, List.sum_cons, List.length_cons]
        have := b2.2.1
        have := b2.2.2
        omega

theorem sharedBits_known {s : St n} (i : Inv p Q s) (l : List (Fin n))
    (hl : ∀ a ∈ l, p.kind a ≠ .element) : ∀ acc, (sharedBits p s l acc).1 = true →
      ∃ sb, sharedBits p s l acc = (true, some sb) := by
  induction l with
  | nil => intro acc _; exact ⟨acc, rfl⟩
  | cons a l ih =>
    intro acc h
    unfold sharedBits at h ⊢
    split_ifs at h ⊢ with h1 h2
    · exfalso
      have hk := hl a (List.mem_cons_self ..)
      have := complete_base i (by simpa using h1) hk
      rw [getBase, if_neg hk] at h2
      rw [h2] at this
      exact absurd this (by decide)
    · exact ih (fun x hx => hl x (List.mem_cons_of_mem _ hx)) _ h

theorem needs_sizable {c : Fin n} (h1 : AllSizable p (p.members c)) (h2 : ∀ a ∈ p.anc c, Sizable p a) :
    Sizable p c ∧ ownOf p c = own p (totOf p) c ∧
      totOf p c = own p (totOf p) c + ((p.anc c).map (ownOf p)).sum := by
  refine sizable_of fun d hd => ?_
  rcases hd with ⟨m, hm, e⟩ | hd
  · exact (h1 m hm d e).1
  · exact h2 d hd

/-- The sums made from a known table. -/
theorem total_good (L : Legal p) (F : Fits p) {s : St n} {c : Fin n} (i : Inv p Q s)
    (h1 : AllSizable p (p.members c)) {sb : Int}
    (h2 : sharedBits p s (p.anc c) 0 = (true, some sb)) :
    Sizable p c ∧ own p (totOf p) c = ownOf p c ∧
      s32 ((own p (totOf p) c : Int) + s32 sb) = totOf p c ∧
      s32 ((totOf p c : Int) - s32 sb) = ownOf p c := by
  have hF := F c
  have h0 := own_le h1
  obtain ⟨r1, r2, r3⟩ := sharedBits_good i (p.anc c) (L.base_kind c) 0 sb h2
  obtain ⟨q1, q2, q3⟩ := needs_sizable h1 r1
  have e1 : s32 sb = sb := s32_eq (by omega) (by omega)
  have e2 : s32 ((own p (totOf p) c : Int) + s32 sb) = totOf p c := by
    rw [e1, s32_eq (by omega) (by omega)]
    omega
  refine ⟨q1, q2.symm, e2, ?_⟩
  rw [e1, s32_eq (by omega) (by omega)]
  omega

theorem finish_good (L : Legal p) (F : Fits p) {d : Fin n} {t : Try n} (cl : Clean (finish p d t).st)
    (ht : t.ok = true → AllSizable p (p.members d) ∧ t.mybits = own p (totOf p) d) :
    Clean t.st ∧ ∀ Q, (Inv p Q t.st → Inv p Q (finish p d t).st ∧ (((finish p d t).bits = UNKNOWN ∧ t.ok = false) ∨
      (Sizable p d ∧ (finish p d t).bits = totOf p d))) := by
  by_cases ok : t.ok = true
  · obtain ⟨a1, a2⟩ := ht ok
    rcases hq : sharedBits p t.st (p.anc d) 0 with ⟨b, r⟩
    cases b with
    | false =>
      simp only [finish, ok, hq, if_true] at cl
      exact absurd cl (not_clean_stop _)
    | true =>
      cases r with
      | none =>
        have e : finish p d t = ⟨UNKNOWN, t.seen, t.st⟩ := by simp [finish, ok, hq]
        rw [e] at cl ⊢
        refine ⟨cl, fun Q i => ?_⟩
        obtain ⟨sb, hs⟩ := sharedBits_known i (p.anc d) (L.base_kind d) 0 (by rw [hq])
        rw [hq] at hs
        cases hs
      | some sb =>
        have e : finish p d t = ⟨if (setBase p d t.mybits t.st).1 then s32 (t.mybits + s32 sb) else UNKNOWN,
            t.seen, (setBase p d t.mybits t.st).2⟩ := by simp [finish, ok, hq]
        rw [e] at cl ⊢
        refine ⟨clean_setBase cl, fun Q i => ?_⟩
        obtain ⟨g1, g2, g3, _⟩ := total_good L F i a1 hq
        dsimp only at cl ⊢
        rw [a2]
        rw [a2, g2] at cl
        have r := inv_setBase i g1 cl
        rw [g3]
        rw [g2]
        rw [r.2.2]
        exact ⟨r.1, .inr ⟨g1, rfl⟩⟩
  · have e : finish p d t = ⟨UNKNOWN, t.seen, t.st⟩ := by simp [finish, ok]
    rw [e] at cl ⊢
    exact ⟨cl, fun Q i => ⟨i, .inl ⟨rfl, by simpa using ok⟩⟩⟩

theorem finish_clean {d : Fin n} {t : Try n} (cl : Clean (finish p d t).st) : Clean t.st := by
  by_cases ok : t.ok = true
  · rcases hq : sharedBits p t.st (p.anc d) 0 with ⟨b, r⟩
    cases b with
    | false =>
      simp only [finish, ok, hq, if_true] at cl
      exact absurd cl (not_clean_stop _)
    | true =>
      cases r with
      | none => simpa [finish, ok, hq] using cl
      | some sb =>
        simp only [finish, ok, hq, if_true] at cl
        exact clean_setBase cl
  · simpa [finish, ok] using cl

theorem incomplete_of {s : St n} {c : Fin n} (h : s.size c = UNKNOWN) : complete p s c = false := by
  unfold complete
  rw [h]
  simp

theorem classBits_good (L : Legal p) (F : Fits p) (v : View n) (fuel : Nat) :
    ∀ ctx, Good p (classBits p v fuel ctx) := by
  induction fuel with
  | zero => intro ctx d seen s o h; simp [classBits] at h
  | succ fuel ih =>
    intro ctx d seen s o h cl
    unfold classBits at h
    split_ifs at h with h1 h2 h3 h4 h5 h6
    · simp only [Option.some.injEq] at h
      subst h
      refine ⟨cl, fun Q i => ⟨i, .inr (.inr ?_)⟩⟩
      have := i.size_ok d h1
      exact ⟨this.1, this.2.1⟩
    · simp only [Option.some.injEq] at h
      subst h
      exact ⟨cl, fun Q i => ⟨i, .inr (.inl rfl)⟩⟩
    · simp only [Option.some.injEq] at h
      subst h
      refine ⟨cl, fun Q i => ?_⟩
      exfalso
      rcases i.size_cases d with e | e | e
      · rw [e] at h3; exact absurd h3 (by decide)
      · exact h2 e
      · exact h1 e
    · simp only [Option.some.injEq] at h
      subst h
      exact absurd cl (not_clean_stop _)
    · simp only [Option.some.injEq] at h
      subst h
      exact absurd cl (not_clean_fail _)
    · simp only [Option.some.injEq] at h
      subst h
      refine ⟨clean_setSize cl, fun Q i => ⟨inv_setCycle i (by simpa using h4) cl, .inr (.inl rfl)⟩⟩
    · rw [Option.map_eq_some_iff] at h
      obtain ⟨t, ht, e⟩ := h
      subst e
      have clt := finish_clean cl
      obtain ⟨g1, g2⟩ := trySet_good L F (ih d) ht (incomplete_of (by simpa using h4)) clt
      refine ⟨g1, fun Q i => ?_⟩
      obtain ⟨i', q⟩ := g2 _ i
      obtain ⟨i2, r⟩ := (finish_good L F cl q.2).2 _ i'
      exact ⟨i2, r.imp And.left .inr⟩

theorem settle_clean {c : Fin n} {t : Try n} (cl : Clean (settle p c t).2) : Clean t.st := by
  unfold settle at cl
  dsimp only at cl
  split_ifs at cl
  · split at cl
    · exact cl
    · split_ifs at cl
      · exact absurd cl (not_clean_fail _)
      · exact clean_setSize (clean_setBase cl)
  · exact absurd cl (not_clean_stop _)
  · exact cl

theorem settle_good (L : Legal p) (F : Fits p) {c : Fin n} {t : Try n} (cl : Clean (settle p c t).2)
    (ht : t.ok = true → AllSizable p (p.members c) ∧ t.mybits = own p (totOf p) c) (i : Inv p Q t.st) :
    Inv p Q (settle p c t).2 := by
  unfold settle at cl ⊢
  by_cases ok : t.ok = true
  · obtain ⟨a1, a2⟩ := ht ok
    rcases hq : sharedBits p t.st (p.anc c) 0 with ⟨b, r⟩
    rw [hq] at cl
    cases b with
    | false =>
      simp only [ok, if_true] at cl
      exact absurd cl (not_clean_stop _)
    | true =>
      cases r with
      | none => simpa [ok] using i
      | some sb =>
        obtain ⟨g1, g2, g3, g4⟩ := total_good L F i a1 hq
        simp only [ok, if_true] at cl ⊢
        rw [a2, g3] at cl ⊢
        split_ifs at cl ⊢ with h
        · exact absurd cl (not_clean_fail _)
        · rw [g4] at cl ⊢
          exact (inv_setBase (inv_setSize i g1 (clean_setBase cl)).1 g1 cl).1
  · simpa [ok] using i

theorem sizeClass_good (L : Legal p) (F : Fits p) {v : View n} {c : Fin n} {s : St n} {r : Bool × St n}
    (h : sizeClass p v c s = some r) (cl : Clean r.2) : Clean s ∧ ∀ Q, (Inv p Q s → Inv p Q r.2) := by
  unfold sizeClass at h
  split_ifs at h with h1
  · simp only [Option.some.injEq] at h
    subst h
    exact ⟨cl, fun _ i => i⟩
  · rw [Option.map_eq_some_iff] at h
    obtain ⟨t, ht, e⟩ := h
    subst e
    have clt := settle_clean cl
    obtain ⟨g1, g2⟩ := trySet_good L F (classBits_good L F v (n + 1) c) ht (by simpa using h1) clt
    refine ⟨g1, fun Q i => ?_⟩
    obtain ⟨i', q⟩ := g2 _ i
    exact settle_good L F cl q.2 i'

theorem pass_good (L : Legal p) (F : Fits p) {v : View n} (l : List (Fin n)) :
    ∀ ok s r, pass p v l ok s = some r → Clean r.2 → Clean s ∧ ∀ Q, (Inv p Q s → Inv p Q r.2) := by
  induction l with
  | nil =>
    intro ok s r h cl
    simp only [pass, Option.some.injEq] at h
    subst h
    exact ⟨cl, fun _ i => i⟩
  | cons c l ih =>
    intro ok s r h cl
    unfold pass at h
    rw [Option.bind_eq_some_iff] at h
    obtain ⟨r', hr', h⟩ := h
    obtain ⟨a1, a2⟩ := ih _ _ _ h cl
    obtain ⟨b1, b2⟩ := sizeClass_good L F hr' a1
    exact ⟨b1, fun Q i => a2 _ (b2 _ i)⟩

theorem len_update {f : Ty n → Nat → Bool} {a ty : Ty n} {j j' : Nat} (h : f ty j' = true) :
    Function.update f a (Function.update (f a) j true) ty j' = true := by
  by_cases e : ty = a
  · subst e
    by_cases e : j' = j
    · subst e; simp
    · simpa [Function.update_of_ne e] using h
  · simpa [Function.update_of_ne e] using h

theorem resolveArray_good {s : St n} {a : Ty n × Nat} (cl : Clean (resolveArray p s a)) :
    Clean s ∧ ∀ Q, (Inv p Q s → Inv p Q (resolveArray p s a)) := by
  obtain ⟨ty, j⟩ := a
  unfold resolveArray at cl ⊢
  cases ty with
  | prim b =>
    dsimp only at cl ⊢
    split_ifs at cl ⊢
    · exact ⟨cl, fun _ i => i⟩
    · exact absurd cl (not_clean_fail _)
    · refine ⟨cl, fun Q i => ⟨i.size_cases, i.base_cases, i.size_ok, i.base_ok, i.item_cases, i.item_ok, ?_,
        fun d j' hq => (by dsimp only; exact len_update (i.item_len d j' hq)), i.keep_size, i.keep_comp, fun ty j' hq => len_update (i.keep_len ty j' hq)⟩⟩
      intro d j' h
      refine i.len_item d j' ?_
      rw [← h]
      simp
  | cls d =>
    dsimp only at cl ⊢
    split_ifs at cl ⊢ with h1 h2 h3
    · exact ⟨cl, fun _ i => i⟩
    · exact absurd cl (not_clean_fail _)
    · refine ⟨cl, fun Q i => ?_⟩
      have h0 := complete_size i h2
      refine ⟨i.size_cases, i.base_cases, i.size_ok, i.base_ok, ?_, ?_, ?_, ?_,
        i.keep_size, i.keep_comp, fun ty j' hq => len_update (i.keep_len ty j' hq)⟩
      · intro d' j'
        by_cases e : d' = d
        · subst e
          by_cases e : j' = j
          · subst e; right; simpa using h0
          · simpa [Function.update_of_ne e] using i.item_cases d' j'
        · simpa [Function.update_of_ne e] using i.item_cases d' j'
      · intro d' j'
        by_cases e : d' = d
        · subst e
          by_cases e : j' = j
          · subst e; simp
          · simpa [Function.update_of_ne e] using i.item_ok d' j'
        · simpa [Function.update_of_ne e] using i.item_ok d' j'
      · intro d' j'
        by_cases e : d' = d
        · subst e
          by_cases e : j' = j
          · subst e; simpa using h0
          · simpa [Function.update_of_ne e] using i.len_item d' j'
        · have e' : (Ty.cls d') ≠ Ty.cls d := by simpa using e
          simpa [Function.update_of_ne e, Function.update_of_ne e'] using i.len_item d' j'
      · intro d' j'
        by_cases e : d' = d
        · subst e
          by_cases e : j' = j
          · subst e; simp
          · simpa [Function.update_of_ne e] using i.item_len d' j'
        · have e' : (Ty.cls d') ≠ Ty.cls d := by simpa using e
          simpa [Function.update_of_ne e, Function.update_of_ne e'] using i.item_len d' j'
    · exact ⟨cl, fun _ i => i⟩

theorem resolveArrays_good (l : List (Ty n × Nat)) : ∀ {s : St n},
    Clean (l.foldl (resolveArray p) s) → Clean s ∧ ∀ Q, (Inv p Q s → Inv p Q (l.foldl (resolveArray p) s)) := by
  induction l with
  | nil => intro s cl; exact ⟨cl, fun _ i => i⟩
  | cons a l ih =>
    intro s cl
    obtain ⟨a1, a2⟩ := ih cl
    obtain ⟨b1, b2⟩ := resolveArray_good a1
    exact ⟨b1, fun Q i => a2 _ (b2 _ i)⟩

theorem round_good (L : Legal p) (F : Fits p) {v : View n} (T : Tied v) {s : St n} {r : Bool × St n}
    (h : round p v s = some r) (cl : Clean r.2) : Clean s ∧ ∀ Q, (Inv p Q s → Inv p Q r.2) := by
  unfold round at h
  rw [show v.early = [] from T] at h
  obtain ⟨a1, a2⟩ := pass_good L F _ _ _ _ h cl
  obtain ⟨b1, b2⟩ := resolveArrays_good _ a1
  exact ⟨b1, fun Q i => a2 _ (b2 _ i)⟩

theorem rounds_good (L : Legal p) (F : Fits p) (vs : List (View n)) : (∀ v ∈ vs, Tied v) →
    ∀ s s', rounds p vs s = some s' → Clean s' → Clean s ∧ ∀ Q, (Inv p Q s → Inv p Q s') := by
  induction vs with
  | nil =>
    intro _ s s' h cl
    simp only [rounds, Option.some.injEq] at h
    subst h
    exact ⟨cl, fun _ i => i⟩
  | cons v vs ih =>
    intro T s s' h cl
    unfold rounds at h
    rw [Option.bind_eq_some_iff] at h
    obtain ⟨r, hr, h⟩ := h
    obtain ⟨a1, a2⟩ := ih (fun v hv => T v (List.mem_cons_of_mem _ hv)) _ _ h cl
    obtain ⟨b1, b2⟩ := round_good L F (T v (List.mem_cons_self ..)) hr a1
    exact ⟨b1, fun Q i => a2 _ (b2 _ i)⟩

/-- Nothing has to stay. -/
def nothing : Keep n := ⟨fun _ => False, fun _ => False, fun _ _ => False⟩

theorem inv_start : Inv p nothing (start : St n) := by
  refine ⟨fun _ => .inl rfl, fun _ => .inl rfl, ?_, ?_, fun _ _ => .inl rfl, ?_, ?_, ?_,
    fun _ h => h.elim, fun _ h => h.elim, fun _ _ h => h.elim⟩
  · intro c h; exact absurd h (by simp [start, UNKNOWN])
  · intro c h; exact absurd h (by simp [start, UNKNOWN])
  · intro d j h; exact absurd h (by simp [start, UNKNOWN])
  · intro d j h; exact absurd h (by simp [start])
  · intro d j h; exact absurd h (by simp [start, UNKNOWN])

end Ulam.Sizing
