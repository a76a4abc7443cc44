/-
Programs in which no class needs itself: the rounds.
-/
import Verif.Sizing.Complete

namespace Ulam.Sizing

variable {n : Nat} {p : Prog n} {Q : Keep n} {rank : Fin n → Nat}

theorem part_le_own {g : Fin n → Nat} {c : Fin n} {m : Member n} (hm : m ∈ p.members c) :
    part p g c m ≤ own p g c := by
  unfold own
  generalize p.members c = ms at hm
  split_ifs
  · induction ms with
    | nil => cases hm
    | cons x ms ih =>
      simp only [List.map_cons, List.foldr_cons]
      rcases List.mem_cons.1 hm with rfl | hm
      · omega
      · have := ih hm; omega
  · induction ms with
    | nil => cases hm
    | cons x ms ih =>
      simp only [List.map_cons, List.sum_cons]
      rcases List.mem_cons.1 hm with rfl | hm
      · omega
      · have := ih hm; omega

theorem part_le (f : Fine p rank) {c : Fin n} {m : Member n} (hm : m ∈ p.members c) :
    part p (totOf p) c m ≤ 8192 := by
  have h1 := part_le_own (p := p) (g := totOf p) hm
  have h2 := (f.sizable c).eqs
  have h3 := f.tot_le c
  have h4 := limit_le (p.kind c)
  omega

theorem arrayBits_le {b j k : Nat} (h : b * j ≤ k) (hk : k ≤ 8192) : ¬ 8192 < arrayBits b j := by
  have e : arrayBits b j = ((b * j : Nat) : Int) := by
    unfold arrayBits
    rw [if_neg (by omega)]
    rw [← Int.natCast_mul]
    omega
  rw [e]
  omega

theorem item_le (f : Fine p rank) {c : Fin n} {m : Member n} (hm : m ∈ p.members c) {d : Fin n}
    (hd : m.ty = .cls d) {j : Nat} (hj : m.count = some j) : totOf p d * j ≤ 8192 := by
  have h := part_le f hm
  unfold part at h
  rw [hd, hj] at h
  simp only [Option.getD_some] at h
  split_ifs at h with q
  · have := f.tot_le d
    rw [q.2] at this
    have : totOf p d ≤ 71 := by
      have e : limit Kind.element = 71 := rfl
      omega
    have : totOf p d * j ≤ 71 * j := Nat.mul_le_mul_right _ this
    omega
  · rw [Nat.mul_comm]; exact h

theorem resolveArray_fwd (f : Fine p rank) {s : St n} (w : Well p s) {a : Ty n × Nat}
    (ha : ∃ c, ∃ m ∈ p.members c, m.ty = a.1 ∧ m.count = some a.2) : Well p (resolveArray p s a) := by
  have key : Clean (resolveArray p s a) ∧ (resolveArray p s a).size = s.size ∧
      (resolveArray p s a).base = s.base := by
    obtain ⟨c, m, hm, h1, h2⟩ := ha
    obtain ⟨ty, j⟩ := a
    simp only at h1 h2
    cases ty with
    | prim b =>
      have hb : b * j ≤ 8192 := by
        have h := part_le f hm
        unfold part at h
        rw [h1, h2] at h
        simp only [Option.getD_some] at h
        rw [Nat.mul_comm]; exact h
      unfold resolveArray
      simp only [if_neg (arrayBits_le hb (Nat.le_refl _))]
      split_ifs
      · exact ⟨w.clean, rfl, rfl⟩
      · exact ⟨w.clean, rfl, rfl⟩
    | cls d =>
      unfold resolveArray
      dsimp only
      split_ifs with q1 q2 q3
      · exact ⟨w.clean, rfl, rfl⟩
      · exfalso
        have e := (w.inv.size_ok d (complete_size w.inv q2)).2.1
        rw [e] at q3
        exact arrayBits_le (item_le f hm h1 h2) (Nat.le_refl _) q3
      · exact ⟨w.clean, rfl, rfl⟩
      · exact ⟨w.clean, rfl, rfl⟩
  obtain ⟨cl, e1, e2⟩ := key
  refine ⟨cl, (resolveArray_good cl).2 _ w.inv, ?_, ?_, ?_⟩
  · rw [e1]; exact w.up
  · intro e a ha h
    rw [e1] at h
    rw [complete_congr (congrFun e1 a) (congrFun e2 a)]
    exact w.comp e a ha h
  · rw [e1]; exact w.cyc

theorem resolveArrays_fwd (f : Fine p rank) (l : List (Ty n × Nat)) :
    (∀ a ∈ l, ∃ c, ∃ m ∈ p.members c, m.ty = a.1 ∧ m.count = some a.2) →
    ∀ s, Well p s → Well p (l.foldl (resolveArray p) s) := by
  induction l with
  | nil => intro _ s w; exact w
  | cons a l ih =>
    intro h s w
    exact ih (fun x hx => h x (List.mem_cons_of_mem _ hx)) _
      (resolveArray_fwd f w (h a (List.mem_cons_self ..)))

/-- An array whose item is complete is resolved. -/
theorem resolveArray_len {s : St n} {a : Ty n × Nat} (i : Inv p Q s)
    (cl : Clean (resolveArray p s a)) (h : ∀ d, a.1 = .cls d → complete p s d = true) :
    (resolveArray p s a).len a.1 a.2 = true := by
  obtain ⟨ty, j⟩ := a
  unfold resolveArray at cl ⊢
  cases ty with
  | prim b =>
    dsimp only at cl ⊢
    split_ifs at cl ⊢ with h1 h2
    · exact h1
    · exact absurd cl (not_clean_fail _)
    · simp
  | cls d =>
    dsimp only at cl ⊢
    split_ifs at cl ⊢ with h1 h2 h3
    · refine i.item_len d j ?_
      rcases i.item_cases d j with e | e
      · rw [e] at h1; exact absurd h1 (by decide)
      · exact e
    · exact absurd cl (not_clean_fail _)
    · simp
    · exact absurd (h d rfl) h2

theorem resolveArrays_len {a : Ty n × Nat} (l : List (Ty n × Nat)) : ∀ Q s, Inv p Q s →
    Clean (l.foldl (resolveArray p) s) → (∀ d, a.1 = .cls d → Q.comp d) → (a ∈ l ∨ Q.len a.1 a.2) →
    (l.foldl (resolveArray p) s).len a.1 a.2 = true := by
  induction l with
  | nil =>
    intro Q s i _ _ h
    rcases h with h | h
    · cases h
    · exact i.keep_len _ _ h
  | cons x l ih =>
    intro Q s i cl hc h
    obtain ⟨cl1, _⟩ := resolveArrays_good l (s := resolveArray p s x) cl
    have i1 := (resolveArray_good cl1).2 _ i
    by_cases e : a = x
    · subst e
      have hl := resolveArray_len i cl1 fun d hd => i.keep_comp d (hc d hd)
      refine ih ⟨Q.size, Q.comp, fun ty j => Q.len ty j ∨ (ty, j) = a⟩ _ ?_ cl hc (.inr (.inr rfl))
      refine ⟨i1.size_cases, i1.base_cases, i1.size_ok, i1.base_ok, i1.item_cases, i1.item_ok,
        i1.len_item, i1.item_len, i1.keep_size, i1.keep_comp, ?_⟩
      rintro ty j (q | q)
      · exact i1.keep_len ty j q
      · have e1 : ty = a.1 := congrArg Prod.fst q
        have e2 : j = a.2 := congrArg Prod.snd q
        rw [e1, e2]
        exact hl
    · refine ih Q _ i1 cl hc ?_
      rcases h with h | h
      · rcases List.mem_cons.1 h with h | h
        · exact absurd h e
        · exact .inl h
      · exact .inr h

theorem round_fwd (L : Legal p) (F : Fits p) (f : Fine p rank) {v : View n} (T : Tied v) (U : Full p v)
    {s : St n} (w : Well p s) {r : Bool × St n} (h : round p v s = some r) : Well p r.2 := by
  unfold round at h
  rw [show v.early = [] from T] at h
  exact pass_fwd L F f _ _ _ _ (resolveArrays_fwd f _ (fun a ha => (U.2 a).1 ha) s w) h

/-- A round in which a class waits for nothing. -/
theorem round_done (L : Legal p) (F : Fits p) {v : View n} (T : Tied v) (U : Full p v)
    {s : St n} (i : Inv p Q s) {r : Bool × St n} (h : round p v s = some r) (cl : Clean r.2)
    {X : Fin n → Prop} (hX : ∀ x, X x → (∀ b ∈ p.bases x, 0 ≤ s.size b) ∧
      ∀ m ∈ p.members x, ∀ d, m.ty = .cls d → (m.count = none → X d ∨ 0 ≤ s.size d) ∧
        (m.count ≠ none → complete p s d = true))
    {c : Fin n} (hc : X c) (ho : c ∈ p.order) : complete p r.2 c = true := by
  unfold round at h
  rw [show v.early = [] from T] at h
  have cl1 : Clean (v.arrays.foldl (resolveArray p) s) := (pass_good L F _ _ _ _ h cl).1
  have i1 := (resolveArrays_good v.arrays cl1).2 _ (inv_snap i)
  -- what is known when the pass begins
  let Q1 := snap p (v.arrays.foldl (resolveArray p) s)
  have hsz : ∀ x, 0 ≤ s.size x → Q1.size x := fun x hx => i1.keep_size x hx
  have hlen : ∀ x m, X x → m ∈ p.members x → ∀ j, m.count = some j → Q1.len m.ty j := by
    intro x m hx hm j hj
    refine resolveArrays_len (a := (m.ty, j)) v.arrays _ s (inv_snap i) cl1 ?_
      (.inl ((U.2 (m.ty, j)).2 ⟨x, m, hm, rfl, hj⟩))
    intro d hd
    exact ((hX x hx).2 m hm d hd).2 (by rw [hj]; simp)
  have body : ∀ x, X x → (∀ b ∈ p.bases x, Q1.size b) ∧ ∀ m ∈ p.members x, v.typed x m = true ∧
      (∀ j, m.count = some j → Q1.len m.ty j) ∧
      (m.count = none → ∀ d, m.ty = .cls d → X d ∨ Q1.size d) := by
    intro x hx
    refine ⟨fun b hb => hsz b ((hX x hx).1 b hb), fun m hm => ⟨U.1 x m hm, hlen x m hx hm, fun hn d hd => ?_⟩⟩
    exact (((hX x hx).2 m hm d hd).1 hn).imp_right (hsz d)
  exact pass_done L F (X := fun x => X x ∨ Q1.size x) p.order Q1 _ _ _
    (fun x hx => hx.elim (fun hx => .inr (body x hx)) .inl) (.inl hc) (fun _ => body c hc) (.inl ho) h cl
    (inv_snap i1)

theorem bases_needs (L : Legal p) {c b : Fin n} (h : b ∈ p.bases c) : Needs p c b :=
  .inr ((L.anc_iff c b).2 (.single h))

theorem rounds_all (L : Legal p) (F : Fits p) (f : Fine p rank) (vs : List (View n)) :
    (∀ v ∈ vs, Tied v ∧ Full p v) → ∀ (k : Nat) (s s' : St n), Well p s →
      (∀ c, rank c < k → complete p s c = true) → rounds p vs s = some s' →
      Well p s' ∧ ∀ c, rank c < k + vs.length → complete p s' c = true := by
  induction vs with
  | nil =>
    intro _ k s s' w hk h
    simp only [rounds, Option.some.injEq] at h
    subst h
    exact ⟨w, hk⟩
  | cons v vs ih =>
    intro hv k s s' w hk h
    unfold rounds at h
    rw [Option.bind_eq_some_iff] at h
    obtain ⟨r, hr, h⟩ := h
    obtain ⟨T, U⟩ := hv v (List.mem_cons_self ..)
    have w1 := round_fwd L F f T U w hr
    have hk1 : ∀ c, rank c < k + 1 → complete p r.2 c = true := by
      intro c hc
      have need : ∀ d, Needs p c d → complete p s d = true := fun d hd =>
        hk d (by have := f.rank_lt c d hd; omega)
      refine round_done L F T U w.inv hr w1.clean (X := fun x => x = c) ?_ rfl (f.order c)
      rintro x rfl
      refine ⟨fun b hb => complete_size w.inv (need b (bases_needs L hb)), fun m hm d hd => ?_⟩
      have hd' := need d (.inl ⟨m, hm, hd⟩)
      exact ⟨fun _ => .inr (complete_size w.inv hd'), fun _ => hd'⟩
    obtain ⟨w2, a⟩ := ih (fun v hv' => hv v (List.mem_cons_of_mem _ hv')) (k + 1) _ _ w1 hk1 h
    refine ⟨w2, fun c hc => a c ?_⟩
    simp only [List.length_cons] at hc
    omega

theorem well_start : Well p (start : St n) := by
  refine ⟨⟨rfl, rfl⟩, inv_start, ?_, ?_, ?_⟩
  · intro c h; exact absurd h (by simp [start, UNKNOWN])
  · intro e a _ h; exact absurd h (by simp [start, UNKNOWN])
  · intro c; simp [start, UNKNOWN, CYCLE]

end Ulam.Sizing
