import Verif.Frame.Spec
import Mathlib.Tactic.Linarith
import Mathlib.Tactic.Ring
import Mathlib.Data.List.Nodup

namespace Ulam.Frame

/-! ### Without limit -/

mutual
theorem exprDepth_le : ∀ (e : Expr) (d : Nat), d ≤ exprDepth id e d
  | .leaf, d => le_rfl
  | .un e, d => exprDepth_le e d
  | .bin l r, d => (exprDepth_le l d).trans (exprDepth_le r _)
  | .ques c l r, d => by
    have := exprDepth_le c d
    simp only [exprDepth, id]
    omega
  | .stor n e, d => by
    have := exprDepth_le e (d + n)
    simp only [exprDepth, id]
    omega
  | .call as ret, d => by simp only [exprDepth, id]; omega
theorem argsDepth_le : ∀ (as : Args) (b : Nat), b ≤ argsDepth id as b
  | .nil, b => le_rfl
  | .cons e n as, b => by
    have := argsDepth_le as (b + max (exprDepth id e 0) n)
    simp only [argsDepth, id]
    omega
end

theorem depth_le (base : Nat) : ∀ (s : Stmt) (d m : Nat),
    d ≤ (depthOf id base s d m).depth ∧ m ≤ (depthOf id base s d m).maxd
  | .none, d, m => ⟨le_rfl, le_rfl⟩
  | .expr e, d, m => ⟨exprDepth_le e d, le_rfl⟩
  | .decl x n i, d, m => ⟨(Nat.le_add_right d n).trans (exprDepth_le i _), le_rfl⟩
  | .block s, d, m => by
    have := depth_le base s d m
    simp only [depthOf]
    omega
  | .seq s t, d, m => by
    have h := depth_le base s d m
    have := depth_le base t (depthOf id base s d m).depth (depthOf id base s d m).maxd
    simp only [depthOf]
    omega
  | .ifc c b e, d, m => by
    have hc := exprDepth_le c d
    have h := depth_le base b (exprDepth id c d) m
    have := depth_le base e (exprDepth id c d) (depthOf id base b (exprDepth id c d) m).maxd
    simp only [depthOf, id]
    omega
  | .ctl c b, d, m => by
    have hc := exprDepth_le c d
    have h := depth_le base b (exprDepth id c d) m
    simp only [depthOf]
    omega

/-! ### The limit is not reached -/

theorem w32_of_lt {n : Nat} (h : n < 2 ^ 32) : w32 n = n := Nat.mod_eq_of_lt h

mutual
theorem exprDepth_w : ∀ (e : Expr) (d : Nat), exprDepth id e d < 2 ^ 32 →
    exprDepth w32 e d = exprDepth id e d
  | .leaf, d, _ => rfl
  | .un e, d, h => exprDepth_w e d h
  | .bin l r, d, h => by
    simp only [exprDepth] at h ⊢
    have h1 := exprDepth_le r (exprDepth id l d)
    rw [exprDepth_w l d (by omega), exprDepth_w r _ h]
  | .ques c l r, d, h => by
    simp only [exprDepth, id] at h ⊢
    have e1 := exprDepth_w c d (by omega)
    rw [e1, exprDepth_w l _ (by omega), exprDepth_w r _ (by omega), w32_of_lt h]
  | .stor n e, d, h => by
    simp only [exprDepth, id] at h ⊢
    have h1 := exprDepth_le e (d + n)
    rw [w32_of_lt (by omega), exprDepth_w e _ h]
  | .call as ret, d, h => by
    simp only [exprDepth, id] at h ⊢
    rw [argsDepth_w as 0 (by omega), w32_of_lt (n := argsDepth id as 0 + ret) (by omega),
      w32_of_lt (n := argsDepth id as 0 + ret + 1) (by omega),
      w32_of_lt (n := argsDepth id as 0 + ret + 1 + 1) (by omega), w32_of_lt h]
theorem argsDepth_w : ∀ (as : Args) (b : Nat), argsDepth id as b < 2 ^ 32 →
    argsDepth w32 as b = argsDepth id as b
  | .nil, b, _ => rfl
  | .cons e n as, b, h => by
    simp only [argsDepth, id] at h ⊢
    have h1 := argsDepth_le as (b + max (exprDepth id e 0) n)
    rw [exprDepth_w e 0 (by omega), w32_of_lt (by omega), argsDepth_w as _ h]
end

theorem depthOf_w (base : Nat) : ∀ (s : Stmt) (d m : Nat),
    (depthOf id base s d m).depth < 2 ^ 32 → (depthOf id base s d m).maxd < 2 ^ 32 →
    depthOf w32 base s d m = depthOf id base s d m
  | .none, d, m, _, _ => rfl
  | .expr e, d, m, h, _ => by simp only [depthOf] at h ⊢; rw [exprDepth_w e d h]
  | .decl x n i, d, m, h, _ => by
    simp only [depthOf, id] at h ⊢
    have h1 := exprDepth_le i (d + n)
    rw [w32_of_lt (by omega), exprDepth_w i _ h]
  | .block s, d, m, h, g => by
    simp only [depthOf] at h g ⊢
    rw [depthOf_w base s d m (by omega) (by omega)]
  | .seq s t, d, m, h, g => by
    simp only [depthOf] at h g ⊢
    have h1 := depth_le base t (depthOf id base s d m).depth (depthOf id base s d m).maxd
    rw [depthOf_w base s d m (by omega) (by omega), depthOf_w base t _ _ (by omega) (by omega)]
  | .ifc c b e, d, m, h, g => by
    simp only [depthOf, id] at h g ⊢
    have h1 := depth_le base e (exprDepth id c d) (depthOf id base b (exprDepth id c d) m).maxd
    rw [exprDepth_w c d (by omega), depthOf_w base b _ m (by omega) (by omega),
      depthOf_w base e _ _ (by omega) (by omega), w32_of_lt (by omega)]
  | .ctl c b, d, m, h, g => by
    simp only [depthOf] at h g ⊢
    have h1 := depth_le base b (exprDepth id c d) m
    rw [exprDepth_w c d (by omega), depthOf_w base b _ m (by omega) (by omega)]

theorem s32_of_lt {n : Nat} (h : n < 2 ^ 31) : s32 n = n := by
  unfold s32
  have : n % 2 ^ 32 = n := Nat.mod_eq_of_lt (by omega)
  rw [if_pos (by omega)]
  omega

/-! ### Slots -/

/-- The slots of the variables of `E` are from the base up to the depth `d`. -/
def Within (base : Nat) (σ : Nat → Int × Nat) (E : List Nat) (d : Nat) : Prop :=
  ∀ x ∈ E, (base : Int) ≤ (σ x).1 ∧ (σ x).1 + (σ x).2 ≤ base + d

theorem Within.mono {base : Nat} {σ : Nat → Int × Nat} {E : List Nat} {d d' : Nat}
    (h : Within base σ E d) (g : d ≤ d') : Within base σ E d' :=
  fun x hx => ⟨(h x hx).1, by have := (h x hx).2; omega⟩

/-- Two ranges of slots have none in common. -/
def Apart (p q : Int × Nat) : Prop := p.1 + p.2 ≤ q.1 ∨ q.1 + q.2 ≤ p.1

theorem slots_main (base : Nat) (σ : Nat → Int × Nat) : ∀ (s : Stmt) (E : List Nat) (d m : Nat),
    (base + (depthOf id base s d m).depth < 2 ^ 31) → (base + (depthOf id base s d m).maxd < 2 ^ 31) →
    (∀ t ∈ (depthOf id base s d m).slots, σ t.1 = t.2) → Within base σ E d →
    (∀ p ∈ together E s, Apart (σ p.1) (σ p.2)) ∧
      Within base σ (leaves E s) (depthOf id base s d m).depth ∧
      ∀ t ∈ (depthOf id base s d m).slots, (base : Int) ≤ t.2.1 ∧
        t.2.1 + t.2.2 ≤ base + max (depthOf id base s d m).depth (depthOf id base s d m).maxd
  | .none, E, d, m, _, _, _, hE => ⟨by simp [together], hE, by simp [depthOf]⟩
  | .expr e, E, d, m, _, _, _, hE => ⟨by simp [together], hE.mono (exprDepth_le e d), by simp [depthOf]⟩
  | .decl x n i, E, d, m, h, _, hs, hE => by
    simp only [depthOf, id, List.mem_singleton, forall_eq] at h hs ⊢
    have h1 := exprDepth_le i (d + n)
    have h2 := s32_of_lt (n := d + base) (by omega)
    rw [h2] at hs
    refine ⟨?_, ?_, ?_⟩
    · simp only [together, List.mem_map, forall_exists_index, and_imp]
      rintro p y hy rfl
      have := (hE y hy).2
      left
      rw [hs]
      push_cast
      omega
    · intro y hy
      rcases List.mem_cons.1 hy with rfl | hy
      · rw [hs]; push_cast; omega
      · have := hE y hy; omega
    · rw [h2]; push_cast; omega
  | .block s, E, d, m, h, g, hs, hE => by
    simp only [depthOf] at h g hs ⊢
    have ih := slots_main base σ s E d m (by omega) (by omega) hs hE
    refine ⟨ih.1, hE, fun t ht => ?_⟩
    have := ih.2.2 t ht
    omega
  | .seq s t, E, d, m, h, g, hs, hE => by
    simp only [depthOf] at h g hs ⊢
    have l1 := depth_le base t (depthOf id base s d m).depth (depthOf id base s d m).maxd
    have i1 := slots_main base σ s E d m (by omega) (by omega)
      (fun t ht => hs t (List.mem_append_left _ ht)) hE
    have i2 := slots_main base σ t (leaves E s) _ _ (by omega) g
      (fun t ht => hs t (List.mem_append_right _ ht)) i1.2.1
    refine ⟨?_, i2.2.1.mono (le_max_left _ _), ?_⟩
    · intro p hp
      rcases List.mem_append.1 hp with hp | hp
      · exact i1.1 p hp
      · exact i2.1 p hp
    · intro p hp
      rcases List.mem_append.1 hp with hp | hp
      · have := i1.2.2 p hp; omega
      · have := i2.2.2 p hp; omega
  | .ifc c b e, E, d, m, h, g, hs, hE => by
    simp only [depthOf, id] at h g hs ⊢
    have l0 := exprDepth_le c d
    have l1 := depth_le base e (exprDepth id c d) (depthOf id base b (exprDepth id c d) m).maxd
    have i1 := slots_main base σ b E (exprDepth id c d) m (by omega) (by omega)
      (fun t ht => hs t (List.mem_append_left _ ht)) (hE.mono l0)
    have i2 := slots_main base σ e E (exprDepth id c d) _ (by omega) g
      (fun t ht => hs t (List.mem_append_right _ ht)) (hE.mono l0)
    refine ⟨?_, hE.mono (by omega), ?_⟩
    · intro p hp
      rcases List.mem_append.1 hp with hp | hp
      · exact i1.1 p hp
      · exact i2.1 p hp
    · intro p hp
      rcases List.mem_append.1 hp with hp | hp
      · have := i1.2.2 p hp; omega
      · have := i2.2.2 p hp; omega
  | .ctl c b, E, d, m, h, g, hs, hE => by
    simp only [depthOf] at h g hs ⊢
    have l0 := exprDepth_le c d
    have l1 := depth_le base b (exprDepth id c d) m
    have i1 := slots_main base σ b E (exprDepth id c d) m h g hs (hE.mono l0)
    exact ⟨i1.1, hE.mono (by omega), i1.2.2⟩

theorem slots_decls (w : Nat → Nat) (base : Nat) : ∀ (s : Stmt) (d m : Nat),
    (depthOf w base s d m).slots.map (·.1) = decls s
  | .none, d, m => rfl
  | .expr e, d, m => rfl
  | .decl x n i, d, m => rfl
  | .block s, d, m => slots_decls w base s d m
  | .seq s t, d, m => by simp [depthOf, decls, slots_decls w base s, slots_decls w base t]
  | .ifc c b e, d, m => by simp [depthOf, decls, slots_decls w base b, slots_decls w base e]
  | .ctl c b, d, m => slots_decls w base b _ m

/-- The slots as a function of the symbol. -/
def slotOf (l : List (Nat × Int × Nat)) (x : Nat) : Int × Nat :=
  ((l.find? fun t => t.1 = x).map (·.2)).getD (0, 0)

theorem slotOf_mem {l : List (Nat × Int × Nat)} (h : (l.map (·.1)).Nodup) :
    ∀ t ∈ l, slotOf l t.1 = t.2 := by
  induction l with
  | nil => simp
  | cons a l ih =>
    simp only [List.map_cons, List.nodup_cons] at h
    intro t ht
    rcases List.mem_cons.1 ht with rfl | ht
    · simp [slotOf]
    · have hne : a.1 ≠ t.1 := fun e => h.1 (e ▸ List.mem_map_of_mem ht)
      have := ih h.2 t ht
      simpa [slotOf, List.find?_cons, hne] using this

/-! ### A bound -/

theorem two_pow_pos' (n : Nat) : 1 ≤ 2 ^ n := Nat.one_le_two_pow

mutual
theorem exprDepth_bound : ∀ (e : Expr) (d : Nat),
    exprDepth id e d ≤ (d + exprWeight e) * 2 ^ exprChoices e
  | .leaf, d => by simp [exprDepth, exprWeight, exprChoices]
  | .un e, d => exprDepth_bound e d
  | .bin l r, d => by
    simp only [exprDepth, exprWeight, exprChoices, pow_add]
    have h1 := exprDepth_bound l d
    have h2 := exprDepth_bound r (exprDepth id l d)
    have p1 := two_pow_pos' (exprChoices l)
    have p2 := two_pow_pos' (exprChoices r)
    calc _ ≤ _ := h2
      _ ≤ ((d + exprWeight l) * 2 ^ exprChoices l + exprWeight r * 2 ^ exprChoices l) * 2 ^ exprChoices r := by
        refine Nat.mul_le_mul_right _ (Nat.add_le_add h1 ?_)
        nlinarith
      _ = _ := by ring
  | .ques c l r, d => by
    simp only [exprDepth, exprWeight, exprChoices, pow_add, id]
    have h1 := exprDepth_bound c d
    have h2 := exprDepth_bound l (exprDepth id c d)
    have h3 := exprDepth_bound r (exprDepth id c d)
    have p1 := two_pow_pos' (exprChoices c)
    have p2 := two_pow_pos' (exprChoices l)
    have p3 := two_pow_pos' (exprChoices r)
    generalize exprDepth id c d = D at *
    generalize 2 ^ exprChoices c = C at *
    generalize 2 ^ exprChoices l = L at *
    generalize 2 ^ exprChoices r = R at *
    have a0 : D + exprWeight l + exprWeight r ≤ (d + exprWeight c + exprWeight l + exprWeight r) * C := by
      nlinarith
    have a1 : exprDepth id l D ≤ (D + exprWeight l + exprWeight r) * (L * R) := by
      calc _ ≤ _ := h2
        _ ≤ (D + exprWeight l + exprWeight r) * L := Nat.mul_le_mul_right _ (by omega)
        _ ≤ _ := Nat.mul_le_mul_left _ (Nat.le_mul_of_pos_right _ p3)
    have a2 : exprDepth id r D ≤ (D + exprWeight l + exprWeight r) * (L * R) := by
      calc _ ≤ _ := h3
        _ ≤ (D + exprWeight l + exprWeight r) * R := Nat.mul_le_mul_right _ (by omega)
        _ ≤ _ := Nat.mul_le_mul_left _ (Nat.le_mul_of_pos_left _ p2)
    have a3 : D ≤ (D + exprWeight l + exprWeight r) * (L * R) := by
      calc D ≤ D + exprWeight l + exprWeight r := by omega
        _ ≤ _ := Nat.le_mul_of_pos_right _ (Nat.mul_pos p2 p3)
    have a4 := Nat.mul_le_mul_right (L * R) a0
    calc _ ≤ 2 * ((D + exprWeight l + exprWeight r) * (L * R)) := by omega
      _ ≤ 2 * ((d + exprWeight c + exprWeight l + exprWeight r) * C * (L * R)) := by omega
      _ = _ := by ring
  | .stor n e, d => by
    have := exprDepth_bound e (d + n)
    simp only [exprDepth, exprWeight, exprChoices, id]
    rwa [Nat.add_assoc] at this
  | .call as ret, d => by
    have := argsDepth_bound as 0
    have p := two_pow_pos' (argsChoices as)
    simp only [exprDepth, exprWeight, exprChoices, id]
    generalize argsDepth id as 0 = D at *
    generalize 2 ^ argsChoices as = P at *
    nlinarith
theorem argsDepth_bound : ∀ (as : Args) (b : Nat),
    argsDepth id as b ≤ (b + argsWeight as) * 2 ^ argsChoices as
  | .nil, b => by simp [argsDepth, argsWeight, argsChoices]
  | .cons e n as, b => by
    simp only [argsDepth, argsWeight, argsChoices, pow_add, id]
    have h1 := exprDepth_bound e 0
    have h2 := argsDepth_bound as (b + max (exprDepth id e 0) n)
    have p1 := two_pow_pos' (exprChoices e)
    have p2 := two_pow_pos' (argsChoices as)
    generalize exprDepth id e 0 = D at *
    generalize 2 ^ exprChoices e = P at *
    generalize 2 ^ argsChoices as = Q at *
    have a : b + max D n + argsWeight as ≤ (b + (exprWeight e + n + argsWeight as)) * P := by
      have : max D n ≤ (exprWeight e + n) * P := by
        refine max_le ?_ ?_ <;> nlinarith
      nlinarith
    calc _ ≤ _ := h2
      _ ≤ (b + (exprWeight e + n + argsWeight as)) * P * Q := Nat.mul_le_mul_right _ a
      _ = _ := by ring
end

theorem depth_bound (base : Nat) : ∀ (s : Stmt) (d m : Nat),
    (depthOf id base s d m).depth ≤ (d + weight s) * 2 ^ choices s ∧
      (depthOf id base s d m).maxd ≤ max m ((d + weight s) * 2 ^ choices s)
  | .none, d, m => by simp [depthOf, weight, choices]
  | .expr e, d, m => ⟨exprDepth_bound e d, le_max_left _ _⟩
  | .decl x n i, d, m => by
    have := exprDepth_bound i (d + n)
    rw [Nat.add_assoc] at this
    exact ⟨this, le_max_left _ _⟩
  | .block s, d, m => by
    have h := depth_bound base s d m
    have p := two_pow_pos' (choices s)
    simp only [depthOf, weight, choices]
    refine ⟨by nlinarith, max_le (h.1.trans (le_max_right _ _)) h.2⟩
  | .seq s t, d, m => by
    have h1 := depth_bound base s d m
    have h2 := depth_bound base t (depthOf id base s d m).depth (depthOf id base s d m).maxd
    have p1 := two_pow_pos' (choices s)
    have p2 := two_pow_pos' (choices t)
    simp only [depthOf, weight, choices, pow_add]
    generalize (depthOf id base s d m).maxd = M at *
    generalize (depthOf id base s d m).depth = D at *
    generalize 2 ^ choices s = P at *
    generalize 2 ^ choices t = Q at *
    have a : D + weight t ≤ (d + (weight s + weight t)) * P := by nlinarith
    have b : (D + weight t) * Q ≤ (d + (weight s + weight t)) * (P * Q) := by
      calc _ ≤ _ := Nat.mul_le_mul_right Q a
        _ = _ := by ring
    have c : (d + weight s) * P ≤ (d + (weight s + weight t)) * (P * Q) := by
      calc _ ≤ (d + (weight s + weight t)) * P := Nat.mul_le_mul_right _ (by omega)
        _ ≤ _ := Nat.mul_le_mul_left _ (Nat.le_mul_of_pos_right _ p2)
    have e : d ≤ (d + (weight s + weight t)) * (P * Q) := by
      calc d ≤ d + (weight s + weight t) := by omega
        _ ≤ _ := Nat.le_mul_of_pos_right _ (Nat.mul_pos p1 p2)
    omega
  | .ifc c b e, d, m => by
    have h0 := exprDepth_bound c d
    have h1 := depth_bound base b (exprDepth id c d) m
    have h2 := depth_bound base e (exprDepth id c d) (depthOf id base b (exprDepth id c d) m).maxd
    have p0 := two_pow_pos' (exprChoices c)
    have p1 := two_pow_pos' (choices b)
    have p2 := two_pow_pos' (choices e)
    simp only [depthOf, weight, choices, pow_add, id]
    generalize (depthOf id base b (exprDepth id c d) m).depth = B at *
    generalize (depthOf id base b (exprDepth id c d) m).maxd = M at *
    generalize exprDepth id c d = D at *
    generalize 2 ^ exprChoices c = C at *
    generalize 2 ^ choices b = L at *
    generalize 2 ^ choices e = R at *
    have a0 : D + weight b + weight e ≤ (d + (exprWeight c + weight b + weight e)) * C := by nlinarith
    have a1 : (D + weight b) * L ≤ (D + weight b + weight e) * (L * R) := by
      calc _ ≤ (D + weight b + weight e) * L := Nat.mul_le_mul_right _ (by omega)
        _ ≤ _ := Nat.mul_le_mul_left _ (Nat.le_mul_of_pos_right _ p2)
    have a2 : (D + weight e) * R ≤ (D + weight b + weight e) * (L * R) := by
      calc _ ≤ (D + weight b + weight e) * R := Nat.mul_le_mul_right _ (by omega)
        _ ≤ _ := Nat.mul_le_mul_left _ (Nat.le_mul_of_pos_left _ p1)
    have a3 : D ≤ (D + weight b + weight e) * (L * R) := by
      calc D ≤ D + weight b + weight e := by omega
        _ ≤ _ := Nat.le_mul_of_pos_right _ (Nat.mul_pos p1 p2)
    have a4 := Nat.mul_le_mul_right (L * R) a0
    have a5 : 2 * ((d + (exprWeight c + weight b + weight e)) * C * (L * R)) =
      (d + (exprWeight c + weight b + weight e)) * (C * L * R * 2 ^ 1) := by ring
    omega
  | .ctl c b, d, m => by
    have h0 := exprDepth_bound c d
    have h1 := depth_bound base b (exprDepth id c d) m
    have p0 := two_pow_pos' (exprChoices c)
    have p1 := two_pow_pos' (choices b)
    simp only [depthOf, weight, choices, pow_add]
    generalize exprDepth id c d = D at *
    generalize 2 ^ exprChoices c = C at *
    generalize 2 ^ choices b = L at *
    have a : D + weight b ≤ (d + (exprWeight c + weight b)) * C := by nlinarith
    have b : (D + weight b) * L ≤ (d + (exprWeight c + weight b)) * (C * L) := by
      calc _ ≤ _ := Nat.mul_le_mul_right L a
        _ = _ := by ring
    omega

/-! ### A call -/

theorem slotsUp_length (ns : List Nat) (s : Int) : (slotsUp ns s).length = ns.length := by
  induction ns generalizing s with
  | nil => rfl
  | cons n ns ih => simp [slotsUp, ih]

theorem slotsUp_get (ns : List Nat) (s : Int) (i : Nat) (h : i < ns.length) :
    (slotsUp ns s)[i]? = some (s + (ns.take i).sum) := by
  induction ns generalizing s i with
  | nil => simp at h
  | cons n ns ih =>
    cases i with
    | zero => simp [slotsUp]
    | succ i =>
      simp only [slotsUp, List.getElem?_cons_succ, List.take_succ_cons, List.sum_cons]
      rw [ih _ _ (by simpa using h)]
      push_cast
      congr 1
      ring

theorem foldl_append {V : Type} (l : List (List V)) (s : List V) :
    l.foldl (· ++ ·) s = s ++ l.flatten := by
  induction l generalizing s with
  | nil => simp
  | cons a l ih => simp [ih]

theorem flatten_get {V : Type} (l : List (List V)) (i j : Nat) (a : List V) (v : V)
    (h : l[i]? = some a) (g : a[j]? = some v) :
    l.flatten[((l.take i).map List.length).sum + j]? = some v := by
  induction l generalizing i with
  | nil => simp at h
  | cons b l ih =>
    cases i with
    | zero =>
      simp only [List.getElem?_cons_zero, Option.some.injEq] at h
      subst h
      have : j < b.length := (List.getElem?_eq_some_iff.1 g).1
      simp [List.getElem?_append_left this, g]
    | succ i =>
      simp only [List.getElem?_cons_succ] at h
      simp only [List.flatten_cons, List.take_succ_cons, List.map_cons, List.sum_cons]
      rw [List.getElem?_append_right (by omega)]
      have := ih i h
      rw [← this]
      congr 1
      omega

/-! ### References -/

theorem callees_sub {G : RProg} {h : Nat → Nat} (n : Nat) : ∀ (a : Act) (s s' : RSt) (t : RStmt),
    (∀ f, ∀ g ∈ callees (G f).body, h g < h f) → (∀ g ∈ callees t, h g < h a.f) →
    run G n a s t = some s' → (∀ f, h a.f < h f → s'.auto f = s.auto f) ∧
      (∀ f, f ≠ a.f → h a.f = h f → s'.auto f = s.auto f) ∧ s'.top = s.top := by
  induction n with
  | zero => intro a s s' t _ _ hr; simp [run] at hr
  | succ n ih =>
    intro a s s' t H ht hr
    cases t with
    | skip => simp only [run, Option.some.injEq] at hr; subst hr; simp
    | seq t u =>
      simp only [run, Option.bind_eq_some_iff] at hr
      obtain ⟨s1, h1, h2⟩ := hr
      have i1 := ih a s s1 t H (fun g hg => ht g (by simp [callees, hg])) h1
      have i2 := ih a s1 s' u H (fun g hg => ht g (by simp [callees, hg])) h2
      exact ⟨fun f hf => (i2.1 f hf).trans (i1.1 f hf),
        fun f h1 h2 => (i2.2.1 f h1 h2).trans (i1.2.1 f h1 h2), i2.2.2.trans i1.2.2⟩
    | bind r t =>
      simp only [run, Option.map_eq_some_iff] at hr
      obtain ⟨p, hp, rfl⟩ := hr
      refine ⟨fun f hf => ?_, fun f h1 _ => Function.update_of_ne h1 _ _, rfl⟩
      exact Function.update_of_ne (fun e => by rw [e] at hf; exact lt_irrefl _ hf) _ _
    | set t v =>
      simp only [run, Option.map_eq_some_iff] at hr
      obtain ⟨p, hp, rfl⟩ := hr
      simp
    | call f ts =>
      simp only [run, Option.bind_eq_some_iff, Option.map_eq_some_iff] at hr
      obtain ⟨ps, hps, s1, h1, rfl⟩ := hr
      have hf : h f < h a.f := ht f (by simp [callees])
      have i1 := ih ⟨f, s.top, ps⟩ _ s1 _ H (H f) h1
      exact ⟨fun g hg => i1.1 g (hf.trans hg), fun g _ hg => i1.1 g (hg ▸ hf), rfl⟩
    | cond t u =>
      simp only [run, Option.bind_eq_some_iff] at hr
      obtain ⟨p, hp, hr⟩ := hr
      split at hr
      · exact ih a s s' u H (fun g hg => ht g (by simpa [callees] using hg)) hr
      · simp only [Option.some.injEq] at hr; subst hr; simp

/-- The pointers kept with the symbols of the running function are where its references are. -/
def Agree (a : Act) (s : RSt) (ρ : Refs) : Prop :=
  ∀ r p, ρ r = some p → ∃ q, s.auto a.f r = some q ∧ place a q = p

theorem resolve_means {a : Act} {s : RSt} {ρ : Refs} (h : Agree a s ρ) {t : Tgt} {p : Nat}
    (g : means a ρ t = some p) : ∃ q, resolve s a t = some q ∧ place a q = p := by
  cases t with
  | loc x => simp only [means, Option.some.injEq] at g; exact ⟨.rel x, rfl, g⟩
  | par i =>
    simp only [means] at g
    exact ⟨.abs p, by simp [resolve, g], rfl⟩
  | ref r => exact h r p g

theorem places_meant {a : Act} {s : RSt} {ρ : Refs} (h : Agree a s ρ) {ts : List Tgt} {ps : List Nat}
    (g : meant a ρ ts = some ps) : places s a ts = some ps := by
  induction ts generalizing ps with
  | nil => simpa [places, meant] using g
  | cons t ts ih =>
    simp only [meant, Option.bind_eq_some_iff, Option.map_eq_some_iff] at g
    obtain ⟨p, hp, qs, hq, rfl⟩ := g
    obtain ⟨q, h1, h2⟩ := resolve_means h hp
    simp [places, h1, ih hq, h2]

theorem run_exec {G : RProg} {h : Nat → Nat} (H : ∀ f, ∀ g ∈ callees (G f).body, h g < h f) (n : Nat) :
    ∀ (a : Act) (s : RSt) (ρ : Refs) (t : RStmt) (r : (Nat → Int) × Refs),
    (∀ g ∈ callees t, h g < h a.f) → Agree a s ρ → exec G n a s.mem s.top ρ t = some r →
    ∃ s', run G n a s t = some s' ∧ s'.mem = r.1 ∧ Agree a s' r.2 := by
  induction n with
  | zero => intro a s ρ t r _ _ hr; simp [exec] at hr
  | succ n ih =>
    intro a s ρ t r ht ha hr
    cases t with
    | skip =>
      simp only [exec, Option.some.injEq] at hr
      subst hr
      exact ⟨s, rfl, rfl, ha⟩
    | seq t u =>
      simp only [exec, Option.bind_eq_some_iff] at hr
      obtain ⟨r1, h1, h2⟩ := hr
      have ht1 : ∀ g ∈ callees t, h g < h a.f := fun g hg => ht g (by simp [callees, hg])
      obtain ⟨s1, e1, m1, a1⟩ := ih a s ρ t r1 ht1 ha h1
      have tp := (callees_sub n a s s1 t H ht1 e1).2.2
      rw [← m1, ← tp] at h2
      obtain ⟨s2, e2, m2, a2⟩ := ih a s1 r1.2 u r (fun g hg => ht g (by simp [callees, hg])) a1 h2
      exact ⟨s2, by simp [run, e1, e2], m2, a2⟩
    | bind x t =>
      simp only [exec, Option.map_eq_some_iff] at hr
      obtain ⟨p, hp, rfl⟩ := hr
      obtain ⟨q, h1, h2⟩ := resolve_means ha hp
      refine ⟨{ s with auto := Function.update s.auto a.f (Function.update (s.auto a.f) x (some q)) },
        by simp only [run, h1, Option.map_some], rfl, fun y z hy => ?_⟩
      by_cases hyx : y = x
      · subst hyx
        simp only [Function.update_self, Option.some.injEq] at hy
        exact ⟨q, by simp, h2.trans hy⟩
      · simp only [Function.update_of_ne hyx] at hy
        obtain ⟨q', h3, h4⟩ := ha y z hy
        exact ⟨q', by simp [Function.update_of_ne hyx, h3], h4⟩
    | set t v =>
      simp only [exec, Option.map_eq_some_iff] at hr
      obtain ⟨p, hp, rfl⟩ := hr
      obtain ⟨q, h1, h2⟩ := resolve_means ha hp
      exact ⟨{ s with mem := Function.update s.mem (place a q) v },
        by simp only [run, h1, Option.map_some], by simp [h2], ha⟩
    | call f ts =>
      simp only [exec, Option.bind_eq_some_iff, Option.map_eq_some_iff] at hr
      obtain ⟨ps, hps, r1, h1, rfl⟩ := hr
      have hf : h f < h a.f := ht f (by simp [callees])
      obtain ⟨s1, e1, m1, a1⟩ := ih ⟨f, s.top, ps⟩ { s with top := s.top + (G f).slots }
        (fun _ => none) _ r1 (H f) (fun _ _ e => by simp at e) h1
      have k := (callees_sub n _ _ s1 _ H (H f) e1).1 a.f hf
      refine ⟨{ s1 with top := s.top }, by simp [run, places_meant ha hps, e1], m1, fun y z hy => ?_⟩
      obtain ⟨q, h3, h4⟩ := ha y z hy
      exact ⟨q, by simp only [k]; exact h3, h4⟩
    | cond t u =>
      simp only [exec, Option.bind_eq_some_iff] at hr
      obtain ⟨p, hp, hr⟩ := hr
      obtain ⟨q, h1, h2⟩ := resolve_means ha hp
      split at hr
      · rename_i hc
        obtain ⟨s1, e1, m1, a1⟩ := ih a s ρ u r (fun g hg => ht g (by simpa [callees] using hg)) ha hr
        exact ⟨s1, by simp [run, h1, h2, hc, e1], m1, a1⟩
      · rename_i hc
        simp only [Option.some.injEq] at hr
        subst hr
        exact ⟨s, by simp [run, h1, h2, hc], rfl, ha⟩

end Ulam.Frame
