import Verif.Mangle.Spec
import Verif.Leximited.Lemmas
import Mathlib.Data.List.Forall2
/-! # Helper lemmas for mangled names -/
namespace Ulam.Mangle
open Ulam.Leximited Spec

theorem ten_eq : "10".toList = lexS 32 0 := by simp [lexS, header, dec, digit]

theorem code_inj {a b : Code} (h : a.char = b.char) : a = b := by
  cases a <;> cases b <;> first | rfl | (simp [Code.char] at h)

theorem lexS_head (w : Nat) (a : Int) : ∃ c t, lexS w a = c :: t ∧ (c = 'n' ∨ ∃ d, c = digit d) := by
  rcases header_head 1 with ⟨d1, t1, h1⟩
  rcases header_head (digitCount a.natAbs) with ⟨d2, t2, h2⟩
  unfold lexS
  split
  · rw [h1]; exact ⟨_, _, rfl, .inr ⟨d1, rfl⟩⟩
  · split
    · split
      · exact ⟨_, _, rfl, .inl rfl⟩
      · exact ⟨_, _, rfl, .inl rfl⟩
    · rw [h2]; exact ⟨_, _, rfl, .inr ⟨d2, rfl⟩⟩

theorem digit_ne_r (d : Nat) : digit d ≠ 'r' := by
  intro h
  have := congrArg Char.toNat h
  rw [digit_toNat] at this
  have h2 : 'r'.toNat = 114 := rfl
  omega

theorem lexS_head_ne_r (w : Nat) (a : Int) (r s : Str) : lexS w a ++ r ≠ 'r' :: s := by
  obtain ⟨c, t, h, hc⟩ := lexS_head w a
  rw [h]
  intro he
  simp only [List.cons_append, List.cons.injEq] at he
  rcases hc with rfl | ⟨d, rfl⟩
  · exact absurd he.1 (by decide)
  · exact digit_ne_r d he.1

/-- The number standing for an array size. -/
def arrNum (a : Int) : Int := if a > 0 then a else if a = 0 then -1 else 0

theorem shapeText_eq (k : Shape) :
    shapeText k = (if k.ref then ['r'] else []) ++ lexS 32 (arrNum k.arr) ++ lexS 32 (if k.bits > 0 then k.bits else 0) := by
  unfold shapeText arrNum
  rw [ten_eq]
  split <;> (try split) <;> (try split) <;> (try split) <;> simp_all

theorem shape_prefix {k k' : Shape} {r s : Str} (h1 : Legal k) (h2 : Legal k')
    (h : shapeText k ++ r = shapeText k' ++ s) : k = k' ∧ r = s := by
  rw [shapeText_eq, shapeText_eq] at h
  obtain ⟨rf, ar, bt⟩ := k
  obtain ⟨rf', ar', bt'⟩ := k'
  simp only [Legal] at h1 h2
  simp only [List.append_assoc] at h
  have hr : rf = rf' ∧ lexS 32 (arrNum ar) ++ (lexS 32 (if bt > 0 then bt else 0) ++ r) =
      lexS 32 (arrNum ar') ++ (lexS 32 (if bt' > 0 then bt' else 0) ++ s) := by
    cases rf <;> cases rf' <;> simp only [if_true, if_false, Bool.false_eq_true, List.nil_append,
      List.singleton_append, List.cons.injEq, true_and] at h ⊢
    · exact h
    · exact absurd h (lexS_head_ne_r _ _ _ _)
    · exact absurd h.symm (lexS_head_ne_r _ _ _ _)
    · exact h
  obtain ⟨eq0, h2⟩ := hr
  clear h
  have h := h2
  clear h2
  subst eq0
  obtain ⟨ha, h⟩ := lexS_prefix_free' 32 _ _ _ _ h
  obtain ⟨hb, h⟩ := lexS_prefix_free' 32 _ _ _ _ h
  refine ⟨?_, h⟩
  have ha' : ar = ar' := by
    unfold arrNum at ha
    split at ha <;> split at ha <;> (try split at ha) <;> (try split at ha) <;> omega
  have hb' : bt = bt' := by
    split at hb <;> split at hb <;> omega
  rw [ha', hb']

theorem mangledType_prefix {k k' : Shape} {c c' : Code} {r s : Str} (h1 : Legal k) (h2 : Legal k')
    (h : mangledType k c ++ r = mangledType k' c' ++ s) : k = k' ∧ c = c' ∧ r = s := by
  unfold mangledType at h
  simp only [List.append_assoc] at h
  obtain ⟨e, h⟩ := shape_prefix h1 h2 h
  obtain ⟨e', h⟩ := lexStr_prefix_free' _ _ _ _ (by simp) (by simp) h
  simp only [List.cons.injEq, and_true] at e'
  exact ⟨e, code_inj e', h⟩

theorem hexDigit_inj {a b : Nat} (ha : a < 16) (hb : b < 16) (h : hexDigit a = hexDigit b) : a = b := by
  have hv : ∀ x, x < 16 → (hexDigit x).toNat = if x < 10 then 48 + x else 87 + x := by decide
  have := congrArg Char.toNat h
  rw [hv a ha, hv b hb] at this
  split at this <;> split at this <;> omega

theorem hexDigit_ne_f {a : Nat} (ha : a < 8) : hexDigit a ≠ 'f' := by
  have : ∀ x, x < 8 → hexDigit x ≠ 'f' := by decide
  exact this a ha

theorem hexDigit_mod (a : Nat) : hexDigit (a % 16) = hexDigit a := by
  unfold hexDigit; simp

theorem hexByte_prefix {a b : Nat} {r s : Str} (ha : a < 256) (hb : b < 256)
    (h : hexByte a ++ r = hexByte b ++ s) : a = b ∧ r = s := by
  have key : hexDigit (a / 16) = hexDigit (b / 16) → hexDigit a = hexDigit b → a = b := by
    intro h1 h2
    have e1 := hexDigit_inj (by omega) (by omega) h1
    rw [← hexDigit_mod a, ← hexDigit_mod b] at h2
    have e2 := hexDigit_inj (by omega) (by omega) h2
    omega
  unfold hexByte at h
  by_cases h1 : a < 128 <;> by_cases h2 : b < 128
  · simp only [h1, h2, if_true, List.cons_append, List.nil_append, List.cons.injEq] at h
    exact ⟨key h.1 h.2.1, h.2.2⟩
  · simp only [h1, h2, if_true, if_false, List.cons_append, List.nil_append, List.cons.injEq] at h
    exact absurd h.1 (hexDigit_ne_f (by omega))
  · simp only [h1, h2, if_true, if_false, List.cons_append, List.nil_append, List.cons.injEq] at h
    exact absurd h.1.symm (hexDigit_ne_f (by omega))
  · simp only [h1, h2, if_false, List.cons_append, List.nil_append, List.cons.injEq, true_and] at h
    exact ⟨key h.1 h.2.1, h.2.2⟩

theorem hexBytes_prefix : ∀ (xs ys : List Nat) (r s : Str), xs.length = ys.length → (∀ x ∈ xs, x < 256) →
    (∀ y ∈ ys, y < 256) → xs.flatMap hexByte ++ r = ys.flatMap hexByte ++ s → xs = ys ∧ r = s
  | [], [], r, s, _, _, _, h => ⟨rfl, by simpa using h⟩
  | [], _ :: _, _, _, hl, _, _, _ => by simp at hl
  | _ :: _, [], _, _, hl, _, _, _ => by simp at hl
  | x :: xs, y :: ys, r, s, hl, hx, hy, h => by
    simp only [List.flatMap_cons, List.append_assoc] at h
    obtain ⟨eq0, h2⟩ := hexByte_prefix (hx x (by simp)) (hy y (by simp)) h
    clear h
    have h := h2
    clear h2
    subst eq0
    obtain ⟨eq0, h2⟩ := hexBytes_prefix xs ys r s (by simpa using hl) (fun z hz => hx z (by simp [hz]))
      (fun z hz => hy z (by simp [hz])) h
    clear h
    have h := h2
    clear h2
    subst eq0
    exact ⟨rfl, h⟩

theorem userString_prefix {d e : List Nat} {r s : Str} (hd : UserString d) (he : UserString e)
    (nd : d ≠ [0]) (ne : e ≠ [0]) (h : d.dropLast.flatMap hexByte ++ r = e.dropLast.flatMap hexByte ++ s) : d = e ∧ r = s := by
  obtain ⟨cs, rfl, hl, hc⟩ := hd
  obtain ⟨ds, rfl, hl', hc'⟩ := he
  have n1 : cs ≠ [] := fun q => nd (if_pos q)
  have n2 : ds ≠ [] := fun q => ne (if_pos q)
  simp only [if_neg n1, if_neg n2] at h ⊢
  have q : ∀ (n : Nat) (l : List Nat), (n :: (l ++ [0])).dropLast = n :: l := by
    intro n l
    rw [← List.cons_append, List.dropLast_concat]
  rw [q, q] at h
  simp only [List.flatMap_cons, List.append_assoc] at h
  obtain ⟨e1, h3⟩ := hexByte_prefix hl hl' h
  clear h
  have h := h3
  clear h3
  obtain ⟨eq0, h2⟩ := hexBytes_prefix cs ds r s e1 hc hc' h
  clear h
  have h := h2
  clear h2
  subst eq0
  exact ⟨rfl, h⟩

theorem lexValue_total (pool : Nat → List Nat) {c : Code} {bs raw : Nat} (hc : ValueCode c) (hb : bs ≤ 64) :
    ∃ t, lexValue pool c bs raw = some t := by
  rcases hc with rfl | rfl | rfl | rfl | rfl | rfl <;> simp only [lexValue, hb, if_true] <;>
    first | exact ⟨_, rfl⟩ | (split <;> exact ⟨_, rfl⟩)

theorem lexValue_prefix (pool : Nat → List Nat) {c : Code} {bs x y : Nat} {t u r s : Str} (hc : ValueCode c)
    (hx : x < 2 ^ bs) (hy : y < 2 ^ bs)
    (hs : c = .string → (UserString (pool x) ∧ pool x ≠ [0]) ∧ UserString (pool y) ∧ pool y ≠ [0])
    (ht : lexValue pool c bs x = some t) (hu : lexValue pool c bs y = some u) (h : t ++ r = u ++ s) :
    meaning pool c bs x = meaning pool c bs y ∧ r = s := by
  have small : bs ≤ 32 → ∀ z, z < 2 ^ bs → z % 2 ^ 32 = z := by
    intro hb z hz
    exact Nat.mod_eq_of_lt (Nat.lt_of_lt_of_le hz (Nat.pow_le_pow_right (by omega) hb))
  have uns : (if bs ≤ 32 then some (lexU (x % 2 ^ 32)) else if bs ≤ 64 then some (lexU x) else none) = some t →
      (if bs ≤ 32 then some (lexU (y % 2 ^ 32)) else if bs ≤ 64 then some (lexU y) else none) = some u →
      x = y ∧ r = s := by
    intro ht hu
    split at ht
    · rename_i hb
      rw [if_pos hb] at hu
      rw [small hb x hx] at ht
      rw [small hb y hy] at hu
      cases ht; cases hu
      exact lexU_prefix_free' _ _ _ _ h
    · rename_i hb
      rw [if_neg hb] at hu
      split at ht
      · rename_i hb'
        rw [if_pos hb'] at hu
        cases ht; cases hu
        exact lexU_prefix_free' _ _ _ _ h
      · cases ht
  rcases hc with rfl | rfl | rfl | rfl | rfl | rfl <;> simp only [lexValue] at ht hu <;> simp only [meaning]
  · split at ht
    · rename_i hb
      rw [if_pos hb] at hu
      cases ht; cases hu
      obtain ⟨e, h⟩ := lexS_prefix_free' 32 _ _ _ _ h
      exact ⟨by rw [e], h⟩
    · rename_i hb
      rw [if_neg hb] at hu
      split at ht
      · rename_i hb'
        rw [if_pos hb'] at hu
        cases ht; cases hu
        obtain ⟨e, h⟩ := lexS_prefix_free' 64 _ _ _ _ h
        exact ⟨by rw [e], h⟩
      · cases ht
  · obtain ⟨e, h⟩ := uns ht hu
    exact ⟨by rw [e], h⟩
  · cases ht; cases hu
    split at h <;> split at h <;> obtain ⟨e, h⟩ := lexS_prefix_free' 32 _ _ _ _ h
    · rename_i g1 g2 _
      refine ⟨?_, h⟩
      rw [decide_eq_true g1, decide_eq_true g2]
    · exact absurd e (by decide)
    · exact absurd e (by decide)
    · rename_i g1 g2 _
      refine ⟨?_, h⟩
      rw [decide_eq_false g1, decide_eq_false g2]
  · cases ht; cases hu
    obtain ⟨e, h⟩ := lexS_prefix_free' 32 _ _ _ _ h
    exact ⟨by rw [e], h⟩
  · obtain ⟨e, h⟩ := uns ht hu
    exact ⟨by rw [e], h⟩
  · cases ht; cases hu
    obtain ⟨e, h⟩ := userString_prefix (hs rfl).1.1 (hs rfl).2.1 (hs rfl).1.2 (hs rfl).2.2 h
    exact ⟨by rw [e], h⟩

theorem concatM_cons {a : Option Str} {xs : List (Option Str)} {t : Str} (h : concatM (a :: xs) = some t) :
    ∃ u v, a = some u ∧ concatM xs = some v ∧ t = u ++ v := by
  cases a with
  | none => simp [concatM] at h
  | some u =>
    simp only [concatM, Option.map_eq_some_iff] at h
    obtain ⟨v, hv, rfl⟩ := h
    exact ⟨u, v, rfl, hv, rfl⟩

theorem concatM_total {xs : List (Option Str)} (h : ∀ x ∈ xs, ∃ t, x = some t) : ∃ t, concatM xs = some t := by
  induction xs with
  | nil => exact ⟨[], rfl⟩
  | cons a xs ih =>
    obtain ⟨u, rfl⟩ := h a (by simp)
    obtain ⟨v, hv⟩ := ih (fun x hx => h x (by simp [hx]))
    exact ⟨u ++ v, by simp [concatM, hv]⟩

theorem values_prefix (pool : Nat → List Nat) {c : Code} {bs : Nat} (hc : ValueCode c) :
    ∀ (xs ys : List Nat) (t u r s : Str), xs.length = ys.length → (∀ x ∈ xs, x < 2 ^ bs) → (∀ y ∈ ys, y < 2 ^ bs) →
    (c = .string → (∀ x ∈ xs, UserString (pool x) ∧ pool x ≠ [0]) ∧ ∀ y ∈ ys, UserString (pool y) ∧ pool y ≠ [0]) →
    concatM (xs.map (lexValue pool c bs)) = some t → concatM (ys.map (lexValue pool c bs)) = some u →
    t ++ r = u ++ s → xs.map (meaning pool c bs) = ys.map (meaning pool c bs) ∧ r = s
  | [], [], t, u, r, s, _, _, _, _, ht, hu, h => by
    simp [concatM] at ht hu; subst ht hu; exact ⟨rfl, by simpa using h⟩
  | [], _ :: _, _, _, _, _, hl, _, _, _, _, _, _ => by simp at hl
  | _ :: _, [], _, _, _, _, hl, _, _, _, _, _, _ => by simp at hl
  | x :: xs, y :: ys, t, u, r, s, hl, hx, hy, hs, ht, hu, h => by
    obtain ⟨t1, t2, e1, e2, rfl⟩ := concatM_cons ht
    obtain ⟨u1, u2, f1, f2, rfl⟩ := concatM_cons hu
    simp only [List.append_assoc] at h
    obtain ⟨m, h⟩ := lexValue_prefix pool hc (hx x (by simp)) (hy y (by simp))
      (fun e => ⟨(hs e).1 x (by simp), (hs e).2 y (by simp)⟩) e1 f1 h
    obtain ⟨m', h⟩ := values_prefix pool hc xs ys t2 u2 r s (by simpa using hl) (fun z hz => hx z (by simp [hz]))
      (fun z hz => hy z (by simp [hz]))
      (fun e => ⟨fun z hz => (hs e).1 z (by simp [hz]), fun z hz => (hs e).2 z (by simp [hz])⟩) e2 f2 h
    exact ⟨by simp [m, m'], h⟩

theorem foldl_bits_inj : ∀ (xs ys : List Bool) (a b : Nat), xs.length = ys.length →
    xs.foldl (fun n b => 2 * n + b.toNat) a = ys.foldl (fun n b => 2 * n + b.toNat) b → a = b ∧ xs = ys
  | [], [], a, b, _, h => ⟨by simpa using h, rfl⟩
  | [], _ :: _, _, _, hl, _ => by simp at hl
  | _ :: _, [], _, _, hl, _ => by simp at hl
  | x :: xs, y :: ys, a, b, hl, h => by
    simp only [List.foldl_cons] at h
    obtain ⟨e, rfl⟩ := foldl_bits_inj xs ys _ _ (by simpa using hl) h
    cases x <;> cases y <;> simp at e ⊢ <;> omega

theorem foldl_bits_lt : ∀ (xs : List Bool) (a : Nat),
    xs.foldl (fun n b => 2 * n + b.toNat) a < (a + 1) * 2 ^ xs.length
  | [], a => by simp
  | x :: xs, a => by
    simp only [List.foldl_cons, List.length_cons]
    have := foldl_bits_lt xs (2 * a + x.toNat)
    have hx : x.toNat ≤ 1 := by cases x <;> simp
    calc _ < (2 * a + x.toNat + 1) * 2 ^ xs.length := this
      _ ≤ (2 * (a + 1)) * 2 ^ xs.length := Nat.mul_le_mul_right _ (by omega)
      _ = (a + 1) * 2 ^ (xs.length + 1) := by rw [Nat.pow_succ]; ac_rfl

theorem readBits_lt (bs : List Bool) (p l : Nat) : readBits bs p l < 2 ^ l := by
  unfold readBits
  have h := foldl_bits_lt ((bs.drop p).take l) 0
  have : ((bs.drop p).take l).length ≤ l := by simp; omega
  have := Nat.pow_le_pow_right (n := 2) (by omega) this
  omega

theorem hexString_inj {as bs : List Bool} (hl : as.length = bs.length) (h8 : as.length < 8)
    (h : hexString as = hexString bs) : as = bs := by
  unfold hexString at h
  rw [← hl] at h
  by_cases h0 : as.length = 0
  · have : bs.length = 0 := by omega
    rw [List.length_eq_zero_iff] at h0 this
    rw [h0, this]
  · simp only [h0, if_false] at h
    have hlen : ∀ xs : List Bool, xs.length = as.length →
        ((List.range (as.length / 4)).map (fun i => hexDigit (readBits xs i 4))).length = as.length / 4 := by
      intro xs _; simp
    obtain ⟨e1, e2⟩ := List.append_inj h (by simp)
    have read_inj : ∀ p l, p + l ≤ as.length → readBits as p l = readBits bs p l →
        (as.drop p).take l = (bs.drop p).take l := by
      intro p l hp he
      unfold readBits at he
      exact (foldl_bits_inj _ _ _ _ (by simp; omega) he).2
    have hrem : readBits as (as.length / 4 * 4) (as.length - as.length / 4 * 4) =
        readBits bs (as.length / 4 * 4) (as.length - as.length / 4 * 4) := by
      generalize hrm : as.length - as.length / 4 * 4 = rm at e2 ⊢
      by_cases hz : rm > 0
      · simp only [hz, if_true, List.cons.injEq, and_true] at e2
        have hr3 : rm ≤ 3 := by omega
        have l1 := readBits_lt as (as.length / 4 * 4) rm
        have l2 := readBits_lt bs (as.length / 4 * 4) rm
        generalize readBits as (as.length / 4 * 4) rm = A at *
        generalize readBits bs (as.length / 4 * 4) rm = B at *
        have hb : rm = 1 ∨ rm = 2 ∨ rm = 3 := by omega
        rcases hb with rfl | rfl | rfl
        · have := hexDigit_inj (by omega) (by omega) e2; omega
        · have := hexDigit_inj (by omega) (by omega) e2; omega
        · have := hexDigit_inj (by omega) (by omega) e2; omega
      · have : rm = 0 := by omega
        subst this
        simp [readBits]
    have hr := read_inj _ _ (by omega) hrem
    by_cases h4 : as.length < 4
    · have hz : as.length / 4 = 0 := by omega
      rw [hz] at hr
      simp only [Nat.zero_mul, List.drop_zero, Nat.sub_zero] at hr
      rw [List.take_of_length_le (Nat.le_refl _), List.take_of_length_le (by omega)] at hr
      exact hr
    · have hz : as.length / 4 = 1 := by omega
      rw [hz] at e1 hr
      simp only [List.range_one, List.map_cons, List.map_nil, List.cons.injEq, and_true] at e1
      have l1 := readBits_lt as 0 4
      have l2 := readBits_lt bs 0 4
      have e := hexDigit_inj (by omega) (by omega) e1
      have hf := read_inj 0 4 (by omega) e
      simp only [List.drop_zero] at hf
      rw [List.take_of_length_le (by simp), List.take_of_length_le (by simp; omega)] at hr
      simp only [Nat.one_mul] at hr
      rw [← List.take_append_drop 4 as, ← List.take_append_drop 4 bs, hf, hr]

theorem hexString_length {bs : List Bool} : (hexString bs).length ≤ bs.length + 1 := by
  unfold hexString
  split
  · simp_all
  · simp only [List.length_append, List.length_map, List.length_range]
    split <;> simp <;> omega

theorem valueCode_not_cls {c : Code} (h : ValueCode c) : c ≠ .cls := by
  rcases h with rfl | rfl | rfl | rfl | rfl | rfl <;> decide

theorem argText_total (pool : Nat → List Nat) {a : Arg} (h : WF pool a) : ∃ t, argText pool a = some t := by
  cases a with
  | cls k bits => exact ⟨_, rfl⟩
  | prim k c items =>
    obtain ⟨-, -, hc, -, hb, -, -, -⟩ := h
    have : ∃ t, concatM (items.map (lexValue pool c k.bits.toNat)) = some t := by
      apply concatM_total
      intro x hx
      rw [List.mem_map] at hx
      obtain ⟨i, -, rfl⟩ := hx
      exact lexValue_total pool hc (by omega)
    obtain ⟨t, ht⟩ := this
    simp only [argText]
    rw [ht]
    split <;> (try split) <;> exact ⟨_, rfl⟩

/-- The text of a primitive argument, in one form. -/
theorem argText_prim (pool : Nat → List Nat) {k : Shape} {c : Code} {items : List Nat} {t : Str}
    (h : WF pool (.prim k c items)) (ht : argText pool (.prim k c items) = some t) :
    ∃ v, concatM (items.map (lexValue pool c k.bits.toNat)) = some v ∧
      t = mangledType k c ++ ((if k.arr = 0 then "10".toList else []) ++ v) := by
  obtain ⟨hL, -, hc, hb, -, hlen, -, -⟩ := h
  unfold argText at ht
  by_cases h1 : k.arr ≥ 0
  · simp only [h1, if_true] at ht
    by_cases h0 : k.arr = 0
    · simp only [h0, Int.mul_zero, if_true, Option.some.injEq] at ht
      have : items.length = 0 := by rw [hlen, count, h0]; simp
      rw [List.length_eq_zero_iff] at this
      subst this
      exact ⟨[], rfl, by simp [h0, ← ht]⟩
    · have : k.bits * k.arr ≠ 0 := Int.mul_ne_zero (by omega) h0
      simp only [this, if_false, Option.map_eq_some_iff] at ht
      obtain ⟨v, hv, rfl⟩ := ht
      exact ⟨v, hv, by simp [h0]⟩
  · simp only [h1, if_false, Option.map_eq_some_iff] at ht
    obtain ⟨v, hv, rfl⟩ := ht
    have h0 : k.arr ≠ 0 := by omega
    exact ⟨v, hv, by simp [h0]⟩

theorem argText_prefix (pool : Nat → List Nat) {a b : Arg} {t u r s : Str} (ha : WF pool a) (hb : WF pool b)
    (sa : Small pool a) (sb : Small pool b) (ht : argText pool a = some t) (hu : argText pool b = some u) (h : t ++ r = u ++ s) :
    SameArg pool a b ∧ r = s := by
  cases a with
  | prim k c xs =>
    obtain ⟨v, hv, rfl⟩ := argText_prim pool ha ht
    cases b with
    | prim k' c' ys =>
      obtain ⟨w, hw, rfl⟩ := argText_prim pool hb hu
      simp only [List.append_assoc] at h
      obtain ⟨hL, -, hc, -, -, hlen, hx, hsx⟩ := ha
      obtain ⟨hL', -, hc', -, -, hlen', hy, hsy⟩ := hb
      obtain ⟨eq0, eq1, h2⟩ := mangledType_prefix hL hL' h
      clear h
      have h := h2
      clear h2
      subst eq0
      subst eq1
      obtain ⟨m, h⟩ := values_prefix pool hc xs ys v w r s (by omega) hx hy (fun e => ⟨fun i hi => ⟨hsx e i hi, sa e i hi⟩, fun i hi => ⟨hsy e i hi, sb e i hi⟩⟩) hv hw
        (List.append_cancel_left h)
      exact ⟨.prim m, h⟩
    | cls k' bits =>
      obtain ⟨hL, -, hc, -⟩ := ha
      simp only [argText, Option.some.injEq] at hu
      subst hu
      simp only [List.append_assoc] at h
      obtain ⟨-, e, -⟩ := mangledType_prefix hL hb.1 h
      exact absurd e (valueCode_not_cls hc)
  | cls k bits =>
    simp only [argText, Option.some.injEq] at ht
    subst ht
    cases b with
    | prim k' c' ys =>
      obtain ⟨w, hw, rfl⟩ := argText_prim pool hb hu
      obtain ⟨hL', -, hc', -⟩ := hb
      simp only [List.append_assoc] at h
      obtain ⟨-, e, -⟩ := mangledType_prefix ha.1 hL' h
      exact absurd e.symm (valueCode_not_cls hc')
    | cls k' bits' =>
      simp only [argText, Option.some.injEq] at hu
      subst hu
      simp only [List.append_assoc] at h
      obtain ⟨eq0, -, h2⟩ := mangledType_prefix ha.1 hb.1 h
      clear h
      have h := h2
      clear h2
      subst eq0
      have l1 := hexString_length (bs := bits)
      have l2 := hexString_length (bs := bits')
      have m1 := ha.2.2.2.2
      have m2 := hb.2.2.2.2
      obtain ⟨e, hrs⟩ := lexStr_prefix_free' _ _ _ _ (by omega) (by omega) h
      have hll : bits.length = bits'.length := by
        have := ha.2.2.2.1; have := hb.2.2.2.1; omega
      have := hexString_inj hll sa e
      subst this
      exact ⟨.cls, hrs⟩

theorem argsText_prefix (pool : Nat → List Nat) : ∀ (as bs : List Arg) (t u r s : Str), as.length = bs.length →
    (∀ a ∈ as, WF pool a ∧ Small pool a) → (∀ b ∈ bs, WF pool b ∧ Small pool b) →
    concatM (as.map (argText pool)) = some t → concatM (bs.map (argText pool)) = some u → t ++ r = u ++ s →
    List.Forall₂ (SameArg pool) as bs ∧ r = s
  | [], [], t, u, r, s, _, _, _, ht, hu, h => by
    simp [concatM] at ht hu; subst ht hu; exact ⟨.nil, by simpa using h⟩
  | [], _ :: _, _, _, _, _, hl, _, _, _, _, _ => by simp at hl
  | _ :: _, [], _, _, _, _, hl, _, _, _, _, _ => by simp at hl
  | a :: as, b :: bs, t, u, r, s, hl, ha, hb, ht, hu, h => by
    obtain ⟨t1, t2, e1, e2, rfl⟩ := concatM_cons ht
    obtain ⟨u1, u2, f1, f2, rfl⟩ := concatM_cons hu
    simp only [List.append_assoc] at h
    obtain ⟨m, h⟩ := argText_prefix pool (ha a (by simp)).1 (hb b (by simp)).1 (ha a (by simp)).2 (hb b (by simp)).2 e1 f1 h
    obtain ⟨m', h⟩ := argsText_prefix pool as bs t2 u2 r s (by simpa using hl) (fun z hz => ha z (by simp [hz]))
      (fun z hz => hb z (by simp [hz])) e2 f2 h
    exact ⟨.cons m m', h⟩

theorem lexU_head_ne_r (a : Nat) (r s : Str) : lexU a ++ r ≠ 'r' :: s := by
  obtain ⟨d, t, h⟩ := lexU_head a
  rw [h]
  intro he
  simp only [List.cons_append, List.cons.injEq] at he
  exact digit_ne_r d he.1

theorem instanceKey_prefix (pool : Nat → List Nat) {ra rb : Bool} {as bs : List Arg} {t u r s : Str}
    (ha : ∀ a ∈ as, WF pool a ∧ Small pool a) (hb : ∀ b ∈ bs, WF pool b ∧ Small pool b)
    (ht : instanceKey pool ra as = some t) (hu : instanceKey pool rb bs = some u) (h : t ++ r = u ++ s) :
    ra = rb ∧ List.Forall₂ (SameArg pool) as bs ∧ r = s := by
  unfold instanceKey at ht hu
  rw [Option.map_eq_some_iff] at ht hu
  obtain ⟨t', ht', rfl⟩ := ht
  obtain ⟨u', hu', rfl⟩ := hu
  simp only [List.append_assoc] at h
  have hr : ra = rb ∧ lexU as.length ++ (t' ++ r) = lexU bs.length ++ (u' ++ s) := by
    cases ra <;> cases rb <;> simp only [if_true, if_false, Bool.false_eq_true, List.nil_append,
      List.singleton_append, List.cons.injEq, true_and] at h ⊢
    · exact h
    · exact absurd h (lexU_head_ne_r _ _ _)
    · exact absurd h.symm (lexU_head_ne_r _ _ _)
    · exact h
  obtain ⟨eq0, h2⟩ := hr
  clear h
  have h := h2
  clear h2
  subst eq0
  obtain ⟨hn, h⟩ := lexU_prefix_free' _ _ _ _ h
  obtain ⟨m, h⟩ := argsText_prefix pool as bs t' u' r s hn ha hb ht' hu' h
  exact ⟨rfl, m, h⟩

theorem code_lower (c : Code) : ¬ ('A' ≤ c.char ∧ c.char ≤ 'Z') := by
  cases c <;> decide

theorem paramText_prefix (pool : Nat → List Nat) (isT : Str → Bool) {a b : PTy} {t u r s : Str}
    (ha : WFTy pool isT a) (hb : WFTy pool isT b) (sa : SmallTy pool a) (sb : SmallTy pool b)
    (ht : paramText pool isT a = some t) (hu : paramText pool isT b = some u) (h : t ++ r = u ++ s) :
    SameTy pool a b ∧ r = s := by
  have cross : ∀ {k k' : Shape} {c : Code} {name x y : Str}, Legal k → Legal k' → name.length ≤ 255 →
      (∃ c t, name = c :: t ∧ 'A' ≤ c ∧ c ≤ 'Z') →
      mangledType k c ++ x ≠ mangledClassType k' name ++ y := by
    intro k k' c name x y hL hL' hlen hn he
    unfold mangledType mangledClassType at he
    simp only [List.append_assoc] at he
    obtain ⟨-, he⟩ := shape_prefix hL hL' he
    obtain ⟨e, -⟩ := lexStr_prefix_free' _ _ _ _ (by simp) (by omega) he
    obtain ⟨d, q, rfl, h1, h2⟩ := hn
    simp only [List.cons.injEq] at e
    rw [← e.1] at h1 h2
    exact code_lower c ⟨h1, h2⟩
  cases a with
  | prim k c =>
    simp only [paramText, Option.some.injEq] at ht
    subst ht
    cases b with
    | prim k' c' =>
      simp only [paramText, Option.some.injEq] at hu
      subst hu
      obtain ⟨eq0, eq1, h2⟩ := mangledType_prefix ha hb h
      clear h
      have h := h2
      clear h2
      subst eq0
      subst eq1
      exact ⟨.prim, h⟩
    | cls k' name args =>
      simp only [paramText, Option.map_eq_some_iff] at hu
      obtain ⟨v, -, rfl⟩ := hu
      rw [List.append_assoc] at h
      exact absurd h (cross ha hb.1 hb.2.1 hb.2.2.1)
  | cls k name args =>
    simp only [paramText, Option.map_eq_some_iff] at ht
    obtain ⟨v, hv, rfl⟩ := ht
    rw [List.append_assoc] at h
    cases b with
    | prim k' c' =>
      simp only [paramText, Option.some.injEq] at hu
      subst hu
      exact absurd h.symm (cross hb ha.1 ha.2.1 ha.2.2.1)
    | cls k' name' args' =>
      simp only [paramText, Option.map_eq_some_iff] at hu
      obtain ⟨w, hw, rfl⟩ := hu
      obtain ⟨hL, hlen, hn, hA, hpl⟩ := ha
      obtain ⟨hL', hlen', hn', hA', hpl'⟩ := hb
      unfold mangledClassType at h
      simp only [List.append_assoc] at h
      obtain ⟨eq0, h2⟩ := shape_prefix hL hL' h
      clear h
      have h := h2
      clear h2
      subst eq0
      obtain ⟨eq0, h2⟩ := lexStr_prefix_free' _ _ _ _ (by omega) (by omega) h
      clear h
      have h := h2
      clear h2
      subst eq0
      cases hT : isT name
      · simp only [hT] at hv hw
        simp at hv hw
        subst hv hw
        rw [hpl hT, hpl' hT]
        exact ⟨.cls .nil, by simpa using h⟩
      · simp only [hT, if_true] at hv hw
        obtain ⟨-, m, h⟩ := instanceKey_prefix pool (fun a h => ⟨hA a h, sa a h⟩) (fun a h => ⟨hA' a h, sb a h⟩) hv hw h
        exact ⟨.cls m, h⟩

theorem paramsText_prefix (pool : Nat → List Nat) (isT : Str → Bool) : ∀ (as bs : List PTy) (t u r s : Str),
    as.length = bs.length → (∀ a ∈ as, WFTy pool isT a ∧ SmallTy pool a) → (∀ b ∈ bs, WFTy pool isT b ∧ SmallTy pool b) →
    concatM (as.map (paramText pool isT)) = some t → concatM (bs.map (paramText pool isT)) = some u →
    t ++ r = u ++ s → List.Forall₂ (SameTy pool) as bs ∧ r = s
  | [], [], t, u, r, s, _, _, _, ht, hu, h => by
    simp [concatM] at ht hu; subst ht hu; exact ⟨.nil, by simpa using h⟩
  | [], _ :: _, _, _, _, _, hl, _, _, _, _, _ => by simp at hl
  | _ :: _, [], _, _, _, _, hl, _, _, _, _, _ => by simp at hl
  | a :: as, b :: bs, t, u, r, s, hl, ha, hb, ht, hu, h => by
    obtain ⟨t1, t2, e1, e2, rfl⟩ := concatM_cons ht
    obtain ⟨u1, u2, f1, f2, rfl⟩ := concatM_cons hu
    simp only [List.append_assoc] at h
    obtain ⟨m, h⟩ := paramText_prefix pool isT (ha a (by simp)).1 (hb b (by simp)).1 (ha a (by simp)).2 (hb b (by simp)).2 e1 f1 h
    obtain ⟨m', h⟩ := paramsText_prefix pool isT as bs t2 u2 r s (by simpa using hl)
      (fun z hz => ha z (by simp [hz])) (fun z hz => hb z (by simp [hz])) e2 f2 h
    exact ⟨.cons m m', h⟩

/-! With the same types, a scalar empty string is not confused with another string. -/

/-- Number of hexadecimal digits a text starts with. -/
def lead (t : Str) : Nat := (t.takeWhile isHex).length
where isHex (c : Char) : Bool := c ∈ ['0','1','2','3','4','5','6','7','8','9','a','b','c','d','e','f']

theorem lead_append {t x : Str} (h : ∀ c ∈ t, lead.isHex c = true) : lead (t ++ x) = t.length + lead x := by
  unfold lead
  rw [List.takeWhile_append_of_pos h, List.length_append]

theorem lead_append_neg {t x : Str} (h : ¬ ∀ c ∈ t, lead.isHex c = true) : lead (t ++ x) = lead t := by
  induction t with
  | nil => simp at h
  | cons c t ih =>
    unfold lead at ih ⊢
    by_cases hc : lead.isHex c = true
    · have : ¬ ∀ c ∈ t, lead.isHex c = true := by
        intro q; apply h; intro d hd
        rcases List.mem_cons.1 hd with rfl | hd
        · exact hc
        · exact q d hd
      rw [List.cons_append, List.takeWhile_cons_of_pos hc, List.takeWhile_cons_of_pos hc, List.length_cons,
        List.length_cons, ih this]
    · rw [List.cons_append, List.takeWhile_cons_of_neg hc, List.takeWhile_cons_of_neg hc]

theorem hexDigit_isHex (n : Nat) : lead.isHex (hexDigit n) = true := by
  rw [← hexDigit_mod]
  have : ∀ x, x < 16 → lead.isHex (hexDigit x) = true := by decide
  exact this _ (Nat.mod_lt _ (by omega))

theorem hexByte_isHex (b : Nat) : ∀ c ∈ hexByte b, lead.isHex c = true := by
  unfold hexByte
  intro c hc
  split at hc <;> simp only [List.mem_cons, List.not_mem_nil, or_false] at hc
  · rcases hc with rfl | rfl <;> exact hexDigit_isHex _
  · rcases hc with rfl | rfl | rfl | rfl | rfl | rfl | rfl | rfl <;> first | exact hexDigit_isHex _ | rfl

theorem hexBytes_isHex (d : List Nat) : ∀ c ∈ d.flatMap hexByte, lead.isHex c = true := by
  intro c hc
  obtain ⟨b, -, h⟩ := List.mem_flatMap.1 hc
  exact hexByte_isHex b c h

theorem dec_isHex (n : Nat) : ∀ c ∈ dec n, lead.isHex c = true := by
  have hd : ∀ m, lead.isHex (digit m) = true := by
    intro m
    have : ∀ x, x < 10 → lead.isHex (digit x) = true := by decide
    have e : digit (m % 10) = digit m := by unfold digit; simp
    rw [← e]; exact this _ (Nat.mod_lt _ (by omega))
  induction n using Nat.strongRecOn with
  | ind n ih =>
    rw [dec]
    split
    · intro c hc; rw [List.mem_singleton] at hc; subst hc; exact hd n
    · intro c hc
      rcases List.mem_append.1 hc with hc | hc
      · exact ih _ (by omega) c hc
      · rw [List.mem_singleton] at hc; subst hc; exact hd n

theorem header_isHex (n : Nat) : ∀ c ∈ header n, lead.isHex c = true := by
  induction n using Nat.strongRecOn with
  | ind n ih =>
    by_cases h : n < 9
    · rw [header, if_pos h]; exact dec_isHex n
    · rw [header_big h]
      intro c hc
      rcases List.mem_cons.1 hc with rfl | hc
      · rfl
      · rcases List.mem_append.1 hc with hc | hc
        · exact ih _ (digitCount_lt (by omega)) c hc
        · exact dec_isHex _ c hc

theorem hexString_isHex (bs : List Bool) : ∀ c ∈ hexString bs, lead.isHex c = true := by
  unfold hexString
  intro c hc
  split at hc
  · have : ∀ c ∈ "0".toList, lead.isHex c = true := by decide
    exact this c hc
  · rcases List.mem_append.1 hc with hc | hc
    · obtain ⟨i, -, rfl⟩ := List.mem_map.1 hc; exact hexDigit_isHex _
    · split at hc
      · rw [List.mem_singleton] at hc; subst hc; exact hexDigit_isHex _
      · simp at hc

theorem hexString_len_eq {as bs : List Bool} (h : as.length = bs.length) :
    (hexString as).length = (hexString bs).length := by
  unfold hexString
  rw [← h]
  split
  · rfl
  · simp only [List.length_append, List.length_map, List.length_range]
    split <;> simp

/-- A type text of hexadecimal digits only belongs to a Bool or a class. -/
theorem mangledType_isHex {k : Shape} {c : Code} (hc : ValueCode c ∨ c = .cls)
    (h : ∀ d ∈ mangledType k c, lead.isHex d = true) : c = .bool ∨ c = .cls := by
  have := h c.char (by simp [mangledType, lexStr])
  rcases hc with (rfl | rfl | rfl | rfl | rfl | rfl) | rfl <;> first | (left; rfl) | (right; rfl) | exact absurd this (by decide)

theorem bools_isHex (pool : Nat → List Nat) (bs : Nat) : ∀ (xs : List Nat) (v : Str),
    concatM (xs.map (lexValue pool .bool bs)) = some v →
    v.length = 2 * xs.length ∧ ∀ c ∈ v, lead.isHex c = true
  | [], v, h => by simp [concatM] at h; subst h; simp
  | x :: xs, v, h => by
    obtain ⟨u, w, e1, e2, rfl⟩ := concatM_cons h
    obtain ⟨l, g⟩ := bools_isHex pool bs xs w e2
    have one : lexS 32 1 = ['1', '1'] := by
      simp [lexS, header, dec, digit, digitCount]
    have hu : u.length = 2 ∧ ∀ c ∈ u, lead.isHex c = true := by
      simp only [lexValue, Option.some.injEq] at e1
      subst e1
      split
      · rw [one]; exact ⟨rfl, by decide⟩
      · rw [← ten_eq]; exact ⟨rfl, by decide⟩
    refine ⟨by rw [List.length_append, l, hu.1, List.length_cons]; omega, ?_⟩
    intro c hc
    rcases List.mem_append.1 hc with hc | hc
    · exact hu.2 c hc
    · exact g c hc

theorem lead_same (pool : Nat → List Nat) : ∀ (as bs : List Arg) (t u : Str), List.Forall₂ SameType as bs →
    (∀ a ∈ as, WF pool a) → (∀ b ∈ bs, WF pool b) → concatM (as.map (argText pool)) = some t →
    concatM (bs.map (argText pool)) = some u → lead t = lead u
  | [], [], t, u, _, _, _, ht, hu => by simp [concatM] at ht hu; subst ht hu; rfl
  | [], _ :: _, _, _, h, _, _, _, _ => by cases h
  | _ :: _, [], _, _, h, _, _, _, _ => by cases h
  | a :: as, b :: bs, t, u, h, ha, hb, ht, hu => by
    obtain ⟨t1, t2, e1, e2, rfl⟩ := concatM_cons ht
    obtain ⟨u1, u2, f1, f2, rfl⟩ := concatM_cons hu
    cases h with
    | cons hab h =>
      have ih := lead_same pool as bs t2 u2 h (fun a q => ha a (by simp [q])) (fun b q => hb b (by simp [q])) e2 f2
      have wa := ha a (by simp)
      have wb := hb b (by simp)
      cases a with
      | prim k c xs =>
        cases b with
        | cls => exact absurd hab (by simp [SameType])
        | prim k' c' ys =>
          obtain ⟨rfl, rfl⟩ := hab
          obtain ⟨v, hv, rfl⟩ := argText_prim pool wa e1
          obtain ⟨w, hw, rfl⟩ := argText_prim pool wb f1
          simp only [List.append_assoc]
          by_cases hT : ∀ d ∈ mangledType k c, lead.isHex d = true
          · rw [lead_append hT, lead_append hT]
            have hcode := mangledType_isHex (.inl wa.2.2.1) hT
            have hcb : c = .bool := by
              rcases hcode with h | h
              · exact h
              · exact absurd h (valueCode_not_cls wa.2.2.1)
            subst hcb
            obtain ⟨l1, g1⟩ := bools_isHex pool _ _ _ hv
            obtain ⟨l2, g2⟩ := bools_isHex pool _ _ _ hw
            have hz : ∀ d ∈ (if k.arr = 0 then "10".toList else []), lead.isHex d = true := by
              split <;> decide
            rw [lead_append hz, lead_append hz, lead_append g1, lead_append g2, ih, l1, l2, wa.2.2.2.2.2.1,
              wb.2.2.2.2.2.1]
          · rw [lead_append_neg hT, lead_append_neg hT]
      | cls k bits =>
        cases b with
        | prim => exact absurd hab (by simp [SameType])
        | cls k' bits' =>
          have hk : k = k' := hab
          subst hk
          simp only [argText, Option.some.injEq] at e1 f1
          subst e1 f1
          simp only [List.append_assoc, lexStr]
          by_cases hT : ∀ d ∈ mangledType k .cls, lead.isHex d = true
          · have hl : bits.length = bits'.length := by
              have := wa.2.2.2.1; have := wb.2.2.2.1; omega
            rw [lead_append hT, lead_append hT, lead_append (header_isHex _), lead_append (header_isHex _),
              lead_append (hexString_isHex _), lead_append (hexString_isHex _), ih, hexString_len_eq hl]
          · rw [lead_append_neg hT, lead_append_neg hT]

theorem userString_text {d : List Nat} (h : UserString d) (hne : d ≠ [0]) : d.dropLast.flatMap hexByte ≠ [] := by
  obtain ⟨cs, rfl, -, -⟩ := h
  have n1 : cs ≠ [] := fun q => hne (if_pos q)
  rw [if_neg n1, ← List.cons_append, List.dropLast_concat, List.flatMap_cons]
  unfold hexByte
  split <;> simp

theorem argsText_sameType (pool : Nat → List Nat) : ∀ (as bs : List Arg) (t : Str), List.Forall₂ SameType as bs →
    (∀ a ∈ as, WF pool a ∧ SmallItems pool a) → (∀ b ∈ bs, WF pool b ∧ SmallItems pool b) →
    concatM (as.map (argText pool)) = some t → concatM (bs.map (argText pool)) = some t →
    List.Forall₂ (SameArg pool) as bs
  | [], [], t, _, _, _, _, _ => .nil
  | [], _ :: _, _, h, _, _, _, _ => by cases h
  | _ :: _, [], _, h, _, _, _, _ => by cases h
  | a :: as, b :: bs, t, h, ha, hb, ht, hu => by
    obtain ⟨t1, t2, e1, e2, e3⟩ := concatM_cons ht
    obtain ⟨u1, u2, f1, f2, f3⟩ := concatM_cons hu
    rw [e3] at f3
    cases h with
    | cons hab h =>
      have wa := ha a (by simp)
      have wb := hb b (by simp)
      have ih : t2 = u2 → List.Forall₂ (SameArg pool) as bs := by
        intro q; subst q
        exact argsText_sameType pool as bs t2 h (fun a q => ha a (by simp [q])) (fun b q => hb b (by simp [q])) e2 f2
      have hlead := lead_same pool as bs t2 u2 h (fun a q => (ha a (by simp [q])).1) (fun b q => (hb b (by simp [q])).1)
        e2 f2
      by_cases hs : Small pool a ∧ Small pool b
      · obtain ⟨m, h2⟩ := argText_prefix pool wa.1 wb.1 hs.1 hs.2 e1 f1 f3
        exact .cons m (ih h2)
      · -- a scalar string, one of them empty
        cases a with
        | cls k bits =>
          cases b with
          | prim => exact absurd hab (by simp [SameType])
          | cls k' bits' => exact absurd ⟨wa.2, wb.2⟩ hs
        | prim k c xs =>
          cases b with
          | cls => exact absurd hab (by simp [SameType])
          | prim k' c' ys =>
            obtain ⟨rfl, rfl⟩ := hab
            by_cases hc : c = .string
            · subst hc
              have harr : k.arr < 0 := by
                by_cases q : k.arr < 0
                · exact q
                · exact absurd ⟨fun _ => wa.2 rfl (by omega), fun _ => wb.2 rfl (by omega)⟩ hs
              have h0 : k.arr ≠ 0 := by omega
              obtain ⟨v, hv, rfl⟩ := argText_prim pool wa.1 e1
              obtain ⟨w, hw, rfl⟩ := argText_prim pool wb.1 f1
              have lx := wa.1.2.2.2.2.2.1
              have ly := wb.1.2.2.2.2.2.1
              simp only [count, harr, if_true] at lx ly
              obtain ⟨x, rfl⟩ := List.length_eq_one_iff.1 lx
              obtain ⟨y, rfl⟩ := List.length_eq_one_iff.1 ly
              have ux := wa.1.2.2.2.2.2.2.2 rfl x (by simp)
              have uy := wb.1.2.2.2.2.2.2.2 rfl y (by simp)
              simp only [List.map_cons, List.map_nil, lexValue, concatM, Option.map_some, List.append_nil,
                Option.some.injEq] at hv hw
              subst hv hw
              simp only [List.append_assoc, h0, if_false, List.nil_append] at f3
              have f4 := List.append_cancel_left f3
              have hl := congrArg lead f4
              rw [lead_append (hexBytes_isHex _), lead_append (hexBytes_isHex _), hlead] at hl
              by_cases hx : pool x = [0]
              · by_cases hy : pool y = [0]
                · refine .cons (.prim ?_) (ih ?_)
                  · simp [meaning, hx, hy]
                  · simpa [hx, hy] using f4
                · have := userString_text uy hy
                  rw [hx] at hl
                  exact absurd (List.length_eq_zero_iff.1 (by simpa using hl.symm)) this
              · by_cases hy : pool y = [0]
                · have := userString_text ux hx
                  rw [hy] at hl
                  exact absurd (List.length_eq_zero_iff.1 (by simpa using hl)) this
                · exact absurd ⟨fun _ i hi => by simp at hi; subst hi; exact hx,
                    fun _ i hi => by simp at hi; subst hi; exact hy⟩ hs
            · exact absurd ⟨fun q => absurd q hc, fun q => absurd q hc⟩ hs

/-! Same arguments give the same text. -/

theorem lexValue_same (pool : Nat → List Nat) {c : Code} {bs x y : Nat} (hc : ValueCode c)
    (h : meaning pool c bs x = meaning pool c bs y) : lexValue pool c bs x = lexValue pool c bs y := by
  rcases hc with rfl | rfl | rfl | rfl | rfl | rfl <;> simp only [meaning, Meaning.num.injEq, Meaning.truth.injEq,
    Meaning.text.injEq] at h <;> simp only [lexValue]
  · rw [h]
  · have : x = y := by exact_mod_cast h
    rw [this]
  · simp only [decide_eq_decide] at h
    by_cases hb : 2 * Types.Spec.ones bs x > bs
    · rw [if_pos hb, if_pos (h.1 hb)]
    · rw [if_neg hb, if_neg (fun q => hb (h.2 q))]
  · rw [h]
  · have : x = y := by exact_mod_cast h
    rw [this]
  · rw [h]

theorem values_same (pool : Nat → List Nat) {c : Code} {bs : Nat} (hc : ValueCode c) : ∀ (xs ys : List Nat),
    xs.map (meaning pool c bs) = ys.map (meaning pool c bs) →
    xs.map (lexValue pool c bs) = ys.map (lexValue pool c bs)
  | [], [], _ => rfl
  | [], _ :: _, h => by simp at h
  | _ :: _, [], h => by simp at h
  | x :: xs, y :: ys, h => by
    simp only [List.map_cons, List.cons.injEq] at h ⊢
    exact ⟨lexValue_same pool hc h.1, values_same pool hc xs ys h.2⟩

theorem argText_same (pool : Nat → List Nat) {a b : Arg} (ha : WF pool a) (h : SameArg pool a b) :
    argText pool a = argText pool b := by
  cases h with
  | cls => rfl
  | prim h => simp only [argText]; rw [values_same pool ha.2.2.1 _ _ h]

theorem argsText_same (pool : Nat → List Nat) {as bs : List Arg} (h : List.Forall₂ (SameArg pool) as bs)
    (ha : ∀ a ∈ as, WF pool a) : as.map (argText pool) = bs.map (argText pool) := by
  induction h with
  | nil => rfl
  | cons h _ ih =>
    simp only [List.map_cons, List.cons.injEq]
    exact ⟨argText_same pool (ha _ (by simp)) h, ih (fun a q => ha a (by simp [q]))⟩

theorem instanceKey_same (pool : Nat → List Nat) (r : Bool) {as bs : List Arg}
    (h : List.Forall₂ (SameArg pool) as bs) (ha : ∀ a ∈ as, WF pool a) :
    instanceKey pool r as = instanceKey pool r bs := by
  unfold instanceKey
  rw [argsText_same pool h ha, h.length_eq]

end Ulam.Mangle
