import Verif.Storage.Model
import Verif.Storage.Angle
import Mathlib.Tactic.SplitIfs
import Mathlib.Tactic.Ring
import Mathlib.Tactic.Linarith
import Mathlib.Data.Nat.Bitwise
/-!
# Storage of bits, latches and angles (properties)
-/
namespace Ulam.Storage

/-! ## Checksums (C105) -/

theorem bits_length (v len : Nat) : (bits v len).length = len := by
  induction len with
  | zero => rfl
  | succ n ih => simp [bits, ih]

theorem number_bits (v len a : Nat) : number (bits v len) a = a * 2 ^ len + v % 2 ^ len := by
  induction len generalizing a with
  | zero => simp [bits, number, Nat.mod_one]
  | succ n ih =>
    have e : (v.testBit n).toNat = v / 2 ^ n % 2 := by
      rw [Nat.testBit_eq_decide_div_mod_eq]
      rcases Nat.mod_two_eq_zero_or_one (v / 2 ^ n) with h | h <;> rw [h] <;> rfl
    rw [bits, number, ih, Nat.mod_pow_succ, e]
    ring

theorem write_read {s t : List Bool} {v pos len : Nat} (h : write s v pos len = some t) :
    read t pos len = some (v % 2 ^ len) ∧ t.length = s.length ∧ t.take pos = s.take pos ∧ t.drop (pos + len) = s.drop (pos + len) := by
  unfold write at h
  split at h
  · cases h
  · rename_i hc
    have hc1 : ¬ len > 64 := fun h => hc (.inl h)
    have hc2 : pos + len ≤ s.length := by
      by_contra h; exact hc (.inr (by omega))
    cases h
    have l1 : (s.take pos).length = pos := by simp; omega
    have l2 : (s.take pos ++ bits v len ++ s.drop (pos + len)).length = s.length := by
      simp [bits_length]; omega
    refine ⟨?_, l2, ?_, ?_⟩
    · unfold read
      rw [if_neg (by rw [l2]; omega), List.append_assoc, List.drop_append_of_le_length (by omega), List.drop_of_length_le (by omega),
        List.nil_append, List.take_append_of_le_length (by rw [bits_length]), List.take_of_length_le (by rw [bits_length]), number_bits]
      simp
    · rw [List.append_assoc, List.take_append_of_le_length (by omega), List.take_of_length_le (by omega)]
    · rw [List.drop_append, List.drop_of_length_le (by simp [bits_length]), List.nil_append]
      simp only [List.length_append, bits_length, l1, Nat.sub_self, List.drop_zero]

/-- The shift of the generated code shifts, by less than the 32 bits there are. -/
def Shifts (shr : Nat → Nat → Nat) : Prop := ∀ v k, k < 32 → shr v k = v / 2 ^ k

theorem mask_eq {shr : Nat → Nat → Nat} (hs : Shifts shr) {k : Nat} (h0 : 0 < k) (hk : k ≤ 32) :
    shr (2 ^ 32 - 1) (32 - k) = 2 ^ k - 1 := by
  rw [hs _ _ (by omega)]
  have e : 2 ^ 32 = 2 ^ k * 2 ^ (32 - k) := by rw [← Nat.pow_add]; congr 1; omega
  have p := Nat.two_pow_pos (32 - k)
  have q := Nat.two_pow_pos k
  have key : (2 ^ 32 - 1) = (2 ^ k - 1) * 2 ^ (32 - k) + (2 ^ (32 - k) - 1) := by
    rw [e, Nat.sub_mul, Nat.one_mul]
    have : 2 ^ (32 - k) ≤ 2 ^ k * 2 ^ (32 - k) := Nat.le_mul_of_pos_left _ q
    omega
  rw [key, Nat.mul_comm, Nat.mul_add_div p, Nat.div_eq_of_lt (by omega)]
  rfl

/-- What can be read are `k` bits. -/
theorem number_lt (l : List Bool) (a : Nat) : number l a < (a + 1) * 2 ^ l.length := by
  induction l generalizing a with
  | nil => simp [number]
  | cons b l ih =>
    rw [number]
    refine lt_of_lt_of_le (ih _) ?_
    rw [List.length_cons, Nat.pow_succ]
    have : 2 * a + b.toNat + 1 ≤ 2 * (a + 1) := by cases b <;> simp <;> omega
    calc (2 * a + b.toNat + 1) * 2 ^ l.length ≤ (2 * (a + 1)) * 2 ^ l.length := Nat.mul_le_mul_right _ this
      _ = (a + 1) * (2 ^ l.length * 2) := by ring

/-- **C105.** A checksum of 1 to 32 bits is valid exactly if the bits after the first `len` are the rightmost bits of the checksum of
those. -/
theorem C105_valid_iff (crc : List Bool → Nat) (shr : Nat → Nat → Nat) (hs : Shifts shr) (s : List Bool) (len k : Nat)
    (h0 : 0 < k) (hk : k ≤ 32) (hl : len + k ≤ s.length) :
    isChecksumValid crc shr s len k = some (decide ((s.drop len).take k = bits (crc (s.take len)) k)) := by
  unfold isChecksumValid computeChecksum read
  rw [if_neg (by omega), if_neg (by omega), Option.bind_some, Option.map_some, mask_eq hs h0 hk, Nat.and_two_pow_sub_one_eq_mod]
  have hlen : ((s.drop len).take k).length = k := by simp; omega
  have hlt := number_lt ((s.drop len).take k) 0
  rw [hlen] at hlt
  have h32 : (2 : Nat) ^ k ≤ 2 ^ 32 := Nat.pow_le_pow_right (by decide) hk
  rw [Nat.mod_eq_of_lt (by omega : number ((s.drop len).take k) 0 < 2 ^ 32)]
  have inj : ∀ (l m : List Bool) (a b : Nat), l.length = m.length → number l a = number m b → a = b ∧ l = m := by
    intro l
    induction l with
    | nil => intro m a b h e; cases m with
      | nil => exact ⟨e, rfl⟩
      | cons => cases h
    | cons x l ih => intro m a b h e; cases m with
      | nil => cases h
      | cons y m =>
        obtain ⟨h1, h2⟩ := ih m _ _ (by simpa using h) e
        subst h2
        cases x <;> cases y <;> simp at h1 ⊢ <;> omega
  have nb := number_bits (crc (s.take len)) k 0
  rw [Nat.zero_mul, Nat.zero_add] at nb
  congr 1
  rw [← nb, Bool.eq_iff_iff, beq_iff_eq, decide_eq_true_iff]
  constructor
  · intro e; exact (inj _ _ 0 0 (by rw [hlen, bits_length]) e.symm).2
  · intro e; rw [e]

/-- **C105.** Updating a checksum of 1 to 32 bits that says it did makes it valid, and leaves the other bits as they are. -/
theorem C105_update_valid (crc : List Bool → Nat) (shr : Nat → Nat → Nat) (hs : Shifts shr) (usable : Nat) (s t : List Bool)
    (len k : Nat) (h0 : 0 < k) (hk : k ≤ 32) (h : updateChecksum crc usable s len k = some (true, t)) :
    isChecksumValid crc shr t len k = some true ∧ t.length = s.length ∧ t.take len = s.take len ∧
      t.drop (len + k) = s.drop (len + k) := by
  unfold updateChecksum at h
  split at h
  · simp at h
  unfold computeChecksum at h
  split at h
  · cases h
  rename_i hlen
  rw [Option.bind_some] at h
  cases hw : write s (crc (s.take len)) len k with
  | none => rw [hw] at h; cases h
  | some t' =>
    rw [hw, Option.map_some] at h
    cases h
    obtain ⟨a, b, c, d⟩ := write_read hw
    refine ⟨?_, b, c, d⟩
    unfold isChecksumValid computeChecksum
    rw [if_neg (by omega), Option.bind_some, a, Option.map_some, c, mask_eq hs h0 hk, Nat.and_two_pow_sub_one_eq_mod,
      Nat.mod_eq_of_lt (a := crc (s.take len) % 2 ^ k)]
    · simp
    · exact lt_of_lt_of_le (Nat.mod_lt _ (Nat.two_pow_pos k)) (Nat.pow_le_pow_right (by decide) hk)

/-- **C105.** In a storage that has as many bits as it says, updating never fails: it says no exactly if the checksum does not fit,
and then nothing is changed. -/
theorem C105_update_iff (crc : List Bool → Nat) (s : List Bool) (len k : Nat) (hk : k ≤ 32) (hu : s.length < 2 ^ 32 - 1) :
    (len + k ≤ s.length → ∃ t, updateChecksum crc s.length s len k = some (true, t)) ∧
    (s.length < len + k → updateChecksum crc s.length s len k = some (false, s)) := by
  constructor
  · intro h
    unfold updateChecksum computeChecksum write
    rw [if_neg (by omega), if_neg (by omega), Option.bind_some, if_neg (by omega)]
    exact ⟨_, rfl⟩
  · intro h
    unfold updateChecksum
    rw [if_pos (by omega)]

/-- **C105.** A checksum of no bits is valid exactly if shifting all ones by 32 leaves none of the checksum's: a shift that does
nothing for 32 (as the one of the processor) makes it invalid as soon as the checksum is not 0. -/
theorem C105_no_bits_fails (crc : List Bool → Nat) (shr : Nat → Nat → Nat) (s : List Bool) (len : Nat) (hl : len ≤ s.length) :
    isChecksumValid crc shr s len 0 = some (crc (s.take len) &&& shr (2 ^ 32 - 1) 32 == 0) := by
  unfold isChecksumValid computeChecksum read
  rw [if_neg (by omega), if_neg (by omega)]
  simp [number]

/-- **C105.** If a subclass says that more bits are usable than there are, updating fails. -/
theorem C105_usable_fails (crc : List Bool → Nat) (usable : Nat) (s : List Bool) (len k : Nat) (hf : s.length < len + k)
    (hu : len + k ≤ usable) : updateChecksum crc usable s len k = none := by
  unfold updateChecksum computeChecksum write
  rw [if_neg (by omega)]
  split
  · rfl
  · rw [Option.bind_some, if_pos (.inr (by omega))]; rfl

/-- A checksum that counts, in a storage of 12 bits. -/
def crcEx (l : List Bool) : Nat := l.count true
def storeEx : List Bool := [true, false, true, true, false, true, false, false, false, true, true, true]
example : updateChecksum crcEx 12 storeEx 6 5 =
    some (true, [true, false, true, true, false, true, false, false, true, false, false, true]) ∧
    isChecksumValid crcEx (fun v k => v / 2 ^ k) storeEx 6 5 = some false ∧
    updateChecksum crcEx 12 storeEx 6 7 = some (false, storeEx) ∧ updateChecksum crcEx 14 storeEx 6 7 = none := by decide +kernel
example : Shifts fun v k => v / 2 ^ k := fun _ _ _ => rfl

/-! ## The latch (C106) -/

/-- A latch as meant: the answers of the calls. -/
def ideal : List Event → Bool → List Bool
  | [], _ => []
  | .initted :: l, b => b :: ideal l b
  | .new :: l, b => (!b) :: ideal l true
  | .reset :: l, b => b :: ideal l false
  | .flip _ :: l, b => ideal l b

/-- No more than `p` bits are flipped between two calls that write; a call that writes is `reset`, or `new` of a latch that is not
set. `f` are the flips since the last write. -/
def Calm (p : Nat) : List Event → Bool → Nat → Prop
  | [], _, f => f ≤ p
  | .initted :: l, b, f => f ≤ p ∧ Calm p l b f
  | .new :: l, b, f => f ≤ p ∧ Calm p l true (if b then f else 0)
  | .reset :: l, _, f => f ≤ p ∧ Calm p l false 0
  | .flip _ :: l, b, f => Calm p l b (f + 1)

theorem count_flip (i : Nat) (b : Bool) (d : List Bool) : (d.modify i not).count b ≤ d.count b + 1 := by
  induction d generalizing i with
  | nil => simp
  | cons x d ih =>
    cases i with
    | zero =>
      rw [List.modify_zero_cons, List.count_cons, List.count_cons]
      split <;> split <;> omega
    | succ i =>
      rw [List.modify_succ_cons, List.count_cons, List.count_cons]
      have := ih i
      omega

theorem count_both (d : List Bool) : d.count true + d.count false = d.length := by
  induction d with
  | nil => rfl
  | cons x d ih => cases x <;> simp <;> omega

theorem isTrue_of {d : List Bool} {p : Nat} {b : Bool} (hl : d.length = width p) (hc : d.count (!b) ≤ p) : isTrue d = b := by
  have h := count_both d
  unfold width at hl
  unfold isTrue
  cases b
  · have : d.count true ≤ p := hc
    simp; omega
  · have : d.count false ≤ p := hc
    simp; omega

theorem run_ideal (p : Nat) (l : List Event) : ∀ (d : List Bool) (b : Bool) (f : Nat), d.length = width p → d.count (!b) ≤ f →
    Calm p l b f → run p l d = ideal l b := by
  induction l with
  | nil => intros; rfl
  | cons e l ih =>
    intro d b f hl hc hcalm
    cases e with
    | initted =>
      obtain ⟨h1, h2⟩ := hcalm
      have t := isTrue_of (b := b) hl (by omega)
      simp only [run, happen, initted, ideal, t]
      rw [ih d b f hl hc h2]; rfl
    | new =>
      obtain ⟨h1, h2⟩ := hcalm
      have t := isTrue_of (b := b) hl (by omega)
      simp only [run, happen, new, ideal, t]
      cases b
      · rw [if_neg (by simp)]
        dsimp only
        rw [ih _ true 0 (by simp) (by simp [List.count_replicate]) h2]; rfl
      · rw [if_pos rfl]
        dsimp only
        rw [ih d true f hl hc h2]; rfl
    | reset =>
      obtain ⟨h1, h2⟩ := hcalm
      have t := isTrue_of (b := b) hl (by omega)
      simp only [run, happen, reset, ideal, t]
      rw [ih _ false 0 (by simp) (by simp [List.count_replicate]) h2]; rfl
    | flip i =>
      simp only [run, happen, ideal]
      have hm := count_flip i (!b) d
      rw [ih _ b (f + 1) (by simp [hl]) (by omega) hcalm]; rfl

/-- **C106.** However it is called, and whichever bits are flipped between, no more than `bitpairs` from one write to the next, the
latch answers as one that is never disturbed. -/
theorem C106_latch (p : Nat) (l : List Event) (h : Calm p l false 0) : run p l (List.replicate (width p) false) = ideal l false :=
  run_ideal p l _ false 0 (by simp) (by simp [List.count_replicate]) h

/-- **C106.** One more may be too many. -/
theorem C106_more_flips_fails (p : Nat) :
    run p ((List.range (p + 1)).map .flip ++ [.initted]) (List.replicate (width p) false) = [true] := by
  have key : ∀ (m k : Nat) (e : List Event), run p ((List.range' k m).map .flip ++ e) (List.replicate k true ++ List.replicate (m + p) false) =
      run p e (List.replicate (k + m) true ++ List.replicate p false) := by
    intro m
    induction m with
    | zero => intro k e; simp
    | succ m ih =>
      intro k e
      rw [List.range'_succ, List.map_cons, List.cons_append, run]
      simp only [happen, Option.toList_none, List.nil_append]
      have : (List.replicate k true ++ List.replicate (m + 1 + p) false).modify k not =
          List.replicate (k + 1) true ++ List.replicate (m + p) false := by
        rw [show m + 1 + p = m + p + 1 by omega, List.replicate_succ, List.replicate_succ' (n := k), List.append_assoc]
        have gen : ∀ (a : List Bool) (x : Bool) (c : List Bool), (a ++ x :: c).modify a.length not = a ++ [!x] ++ c := by
          intro a
          induction a with
          | nil => intro x c; simp
          | cons y a ih => intro x c; rw [List.length_cons, List.cons_append, List.modify_succ_cons, ih]; simp
        have := gen (List.replicate k true) false (List.replicate (m + p) false)
        rw [List.length_replicate] at this
        simpa using this
      rw [this, ih (k + 1) e]
      congr 3; omega
  rw [List.range_eq_range', show width p = p + 1 + p by unfold width; omega]
  have := key (p + 1) 0 [.initted]
  rw [List.replicate_zero, List.nil_append] at this
  rw [this]
  have t : isTrue (List.replicate (0 + (p + 1)) true ++ List.replicate p false) = true := by
    unfold isTrue; simp [List.count_append, List.count_replicate]
  simp [run, happen, initted]
  simpa using t

/-- **C106.** On a latch not disturbed, `new` answers true exactly once from one `reset` to the next. -/
theorem C106_once (p n : Nat) (h : 0 < n) :
    run p (.reset :: List.replicate n .new) (List.replicate (width p) false) = false :: true :: List.replicate (n - 1) false := by
  rw [C106_latch]
  · obtain ⟨n, rfl⟩ := Nat.exists_eq_succ_of_ne_zero (by omega : n ≠ 0)
    rw [ideal, List.replicate_succ, ideal]
    simp only [Bool.not_false, Nat.succ_sub_one]
    congr 2
    induction n with
    | zero => rfl
    | succ n ih => rw [List.replicate_succ, ideal, ih (by omega), List.replicate_succ]; rfl
  · refine ⟨by omega, ?_⟩
    have : ∀ (n : Nat) (b : Bool), Calm p (List.replicate n .new) b 0 := by
      intro n
      induction n with
      | zero => intro b; exact Nat.zero_le _
      | succ n ih => intro b; rw [List.replicate_succ]; refine ⟨Nat.zero_le _, ?_⟩; rw [ite_self]; exact ih true
    exact this n false

/-- Three bits, disturbed twice. -/
example : Calm 1 [.flip 2, .new, .flip 0, .new, .reset] false 0 ∧
    run 1 [.flip 2, .new, .flip 0, .new, .reset] [false, false, false] = [true, false, true] := ⟨by simp [Calm], by decide +kernel⟩

/-! ## Roots and angles (C107) -/

/-- **C107.** `sqrt32` is 32 times the root, the fraction cut off, for all numbers that can be asked for. -/
theorem C107_sqrt32 (x : Nat) (hx : x < 64) : ∃ r, sqrt32 x = some r ∧ r * r ≤ 32 * 32 * x ∧ 32 * 32 * x < (r + 1) * (r + 1) := by
  have key : ∀ x : Fin 64, ∃ r : Fin 256, sqrt32 x = some r.1 ∧ r.1 * r.1 ≤ 32 * 32 * x.1 ∧ 32 * 32 * x.1 < (r.1 + 1) * (r.1 + 1) := by
    decide +kernel
  obtain ⟨r, h⟩ := key ⟨x, hx⟩
  exact ⟨r, h⟩

/-- The sites of the event window in the order of the MFM library: by distance, then by length, then by coordinates. -/
def sites : List (Int × Int) :=
  [(0, 0), (-1, 0), (0, -1), (0, 1), (1, 0), (-1, -1), (-1, 1), (1, -1), (1, 1), (-2, 0), (0, -2), (0, 2), (2, 0),
   (-2, -1), (-2, 1), (-1, -2), (-1, 2), (1, -2), (1, 2), (2, -1), (2, 1), (-3, 0), (0, -3), (0, 3), (3, 0),
   (-2, -2), (-2, 2), (2, -2), (2, 2), (-3, -1), (-3, 1), (-1, -3), (-1, 3), (1, -3), (1, 3), (3, -1), (3, 1),
   (-4, 0), (0, -4), (0, 4), (4, 0)]

def site (s : Nat) : Int × Int := sites.getD s (0, 0)

/-- Before in that order. -/
def before (v w : Int × Int) : Bool :=
  let m := fun (u : Int × Int) => u.1.natAbs + u.2.natAbs
  let e := fun (u : Int × Int) => u.1.natAbs ^ 2 + u.2.natAbs ^ 2
  m v < m w || m v == m w && (e v < e w || e v == e w && (v.1 < w.1 || v.1 == w.1 && v.2 < w.2))

/-- These are all points at a distance of up to 4, in that order. -/
theorem sites_sorted : (∀ i j : Fin 41, i < j → before (site i) (site j) = true) ∧
    ∀ i : Fin 41, (site i).1.natAbs + (site i).2.natAbs ≤ 4 := by decide +kernel

def dot (v w : Int × Int) : Int := v.1 * w.1 + v.2 * w.2
def cross (v w : Int × Int) : Int := v.1 * w.2 - v.2 * w.1

/-- The angle between two vectors. -/
noncomputable def angle (v w : Int × Int) : ℝ := Real.arccos ((dot v w : ℝ) / √((dot v v : ℝ) * (dot w w : ℝ)))

/-- The vectors are opposite, and not along an axis. -/
def OppositeOff (v w : Int × Int) : Prop := cross v w = 0 ∧ dot v w < 0 ∧ v.1 ≠ 0 ∧ v.2 ≠ 0
instance (v w : Int × Int) : Decidable (OppositeOff v w) := inferInstanceAs (Decidable (_ ∧ _))

/-- Number, numerator and denominator for the angles that are whole degrees. -/
def wholes : List (Nat × Nat × Nat) := [(0, 1, 1), (45, 1, 2), (90, 0, 1)]

/-- How the table and the products of the vectors go together. -/
def Fits (s1 s2 : Nat) : Prop :=
  let v := site s1
  let w := site s2
  let sq := fun (k : Nat × Nat × Nat) => dot v w ^ 2 * k.2.2 = k.2.1 * (dot v v * dot w w)
  (0 ≤ dot v w ∧ ∃ k ∈ acutes ++ wholes, acuteAngle s1 s2 = some k.1 ∧ sq k) ∨
  (dot v w < 0 ∧ ∃ k ∈ acutes, acuteAngle s1 s2 = some (179 - k.1) ∧ sq k) ∨
  (dot v w < 0 ∧ ∃ k ∈ wholes, acuteAngle s1 s2 = some (180 - k.1) ∧ sq k)
instance (s1 s2 : Nat) : Decidable (Fits s1 s2) := inferInstanceAs (Decidable (_ ∨ _))

theorem fits_all : ∀ i j : Fin 40, ¬ OppositeOff (site (i + 1)) (site (j + 1)) → Fits (i + 1) (j + 1) := by decide +kernel

theorem norm_pos_all : ∀ i : Fin 40, 0 < dot (site (i + 1)) (site (i + 1)) := by decide +kernel

theorem deg_180 (a : ℝ) : deg (180 - a) = Real.pi - deg a := by unfold deg; ring

theorem deg_lt (a : ℝ) : deg a < deg (a + 1) := by
  unfold deg; have := Real.pi_pos; rw [div_lt_div_iff_of_pos_right (by norm_num)]; nlinarith

theorem whole_deg {a p q : Nat} (h : (a, p, q) ∈ wholes) {c : ℝ} (hc : 0 ≤ c) (e : c ^ 2 * q = p) : Real.arccos c = deg a := by
  simp only [wholes, List.mem_cons, Prod.mk.injEq, List.not_mem_nil, or_false] at h
  rcases h with ⟨rfl, rfl, rfl⟩ | ⟨rfl, rfl, rfl⟩ | ⟨rfl, rfl, rfl⟩ <;> push_cast at e ⊢
  · have : c = 1 := by nlinarith
    rw [this, Real.arccos_one]; unfold deg; simp
  · have h2 : Real.cos (deg 45) = c := by
      have e1 : deg 45 = Real.pi / 4 := by unfold deg; ring
      rw [e1, Real.cos_pi_div_four]
      have : (√2 / 2) ^ 2 = c ^ 2 := by rw [div_pow, Real.sq_sqrt (by norm_num)]; linarith
      exact (pow_left_inj₀ (by positivity) hc (by norm_num)).1 this
    rw [← h2, Real.arccos_cos] <;> unfold deg <;> linarith [Real.pi_pos]
  · have : c = 0 := by nlinarith
    rw [this, Real.arccos_zero]; unfold deg; ring

theorem ratio_sq {v w : Int × Int} (hv : 0 < dot v v) (hw : 0 < dot w w) {p q : Nat}
    (e : dot v w ^ 2 * q = p * (dot v v * dot w w)) :
    ((dot v w : ℝ) / √((dot v v : ℝ) * (dot w w : ℝ))) ^ 2 * q = p := by
  have hv' : (0 : ℝ) < dot v v := by exact_mod_cast hv
  have hw' : (0 : ℝ) < dot w w := by exact_mod_cast hw
  have e' : (dot v w : ℝ) ^ 2 * q = p * ((dot v v : ℝ) * dot w w) := by exact_mod_cast e
  rw [div_pow, Real.sq_sqrt (by positivity), div_mul_eq_mul_div, div_eq_iff (by positivity), e']

/-- **C107.** Between two sites around the middle, `acuteAngle` is the angle in degrees, the fraction cut off, if they are not
opposite off the axes. Missing: those, see below. -/
theorem C107_angle_partial (s1 s2 : Nat) (h1 : 1 ≤ s1) (h1' : s1 ≤ 40) (h2 : 1 ≤ s2) (h2' : s2 ≤ 40)
    (ho : ¬ OppositeOff (site s1) (site s2)) :
    ∃ a : Nat, acuteAngle s1 s2 = some a ∧ deg a ≤ angle (site s1) (site s2) ∧ angle (site s1) (site s2) < deg (a + 1) := by
  have hf : Fits s1 s2 := by
    have := fits_all ⟨s1 - 1, by omega⟩ ⟨s2 - 1, by omega⟩
    simp only [Nat.sub_add_cancel h1, Nat.sub_add_cancel h2] at this
    exact this ho
  have hv : 0 < dot (site s1) (site s1) := by
    have := norm_pos_all ⟨s1 - 1, by omega⟩
    simpa only [Nat.sub_add_cancel h1] using this
  have hw : 0 < dot (site s2) (site s2) := by
    have := norm_pos_all ⟨s2 - 1, by omega⟩
    simpa only [Nat.sub_add_cancel h2] using this
  have hs := Real.sqrt_nonneg ((dot (site s1) (site s1) : ℝ) * (dot (site s2) (site s2) : ℝ))
  rcases hf with ⟨hd, ⟨a, p, q⟩, hk, e, hsq⟩ | ⟨hd, ⟨a, p, q⟩, hk, e, hsq⟩ | ⟨hd, ⟨a, p, q⟩, hk, e, hsq⟩
  · have hr := ratio_sq hv hw hsq
    have hc : 0 ≤ (dot (site s1) (site s2) : ℝ) / √((dot (site s1) (site s1) : ℝ) * (dot (site s2) (site s2) : ℝ)) :=
      div_nonneg (by exact_mod_cast hd) hs
    refine ⟨a, e, ?_⟩
    rcases List.mem_append.1 hk with hk | hk
    · exact ⟨(acute_deg hk hc hr).1.le, (acute_deg hk hc hr).2⟩
    · unfold angle
      rw [whole_deg hk hc hr]
      exact ⟨le_rfl, deg_lt _⟩
  · have hr := ratio_sq hv hw hsq
    have hc : 0 ≤ -((dot (site s1) (site s2) : ℝ) / √((dot (site s1) (site s1) : ℝ) * (dot (site s2) (site s2) : ℝ))) := by
      rw [neg_nonneg]; exact div_nonpos_of_nonpos_of_nonneg (by exact_mod_cast hd.le) hs
    rw [← neg_sq] at hr
    have hb := acute_deg hk hc hr
    rw [Real.arccos_neg] at hb
    have ha : a ≤ 179 := by
      have : ∀ k ∈ acutes, k.1 ≤ 179 := by decide
      exact this _ hk
    refine ⟨179 - a, e, ?_⟩
    unfold angle
    have e1 : deg ((179 - a : Nat) : ℝ) = Real.pi - deg (a + 1) := by
      rw [← deg_180]; congr 1; push_cast [ha]; ring
    have e2 : deg ((179 - a : Nat) + 1 : ℝ) = Real.pi - deg a := by
      rw [← deg_180]; congr 1; push_cast [ha]; ring
    rw [e1, e2]
    constructor <;> linarith [hb.1, hb.2]
  · have hr := ratio_sq hv hw hsq
    have hc : 0 ≤ -((dot (site s1) (site s2) : ℝ) / √((dot (site s1) (site s1) : ℝ) * (dot (site s2) (site s2) : ℝ))) := by
      rw [neg_nonneg]; exact div_nonpos_of_nonpos_of_nonneg (by exact_mod_cast hd.le) hs
    rw [← neg_sq] at hr
    have hb := whole_deg hk hc hr
    rw [Real.arccos_neg] at hb
    have ha : a ≤ 180 := by
      have : ∀ k ∈ wholes, k.1 ≤ 180 := by decide
      exact this _ hk
    refine ⟨180 - a, e, ?_⟩
    have e1 : angle (site s1) (site s2) = deg ((180 - a : Nat) : ℝ) := by
      unfold angle
      push_cast [ha]
      rw [deg_180]; linarith
    rw [e1]
    exact ⟨le_rfl, deg_lt _⟩

/-- **C107.** Between opposite sites off the axes it is one less than it should be. -/
theorem C107_opposite_fails (s1 s2 : Nat) (h1 : 1 ≤ s1) (h1' : s1 ≤ 40) (h2 : 1 ≤ s2) (h2' : s2 ≤ 40)
    (ho : OppositeOff (site s1) (site s2)) : acuteAngle s1 s2 = some 179 ∧ angle (site s1) (site s2) = deg 180 := by
  have key : ∀ i j : Fin 40, OppositeOff (site (i + 1)) (site (j + 1)) → acuteAngle (i + 1) (j + 1) = some 179 ∧
      dot (site (i + 1)) (site (j + 1)) ^ 2 * (1 : Nat) =
        (1 : Nat) * (dot (site (i + 1)) (site (i + 1)) * dot (site (j + 1)) (site (j + 1))) := by decide +kernel
  have hv : 0 < dot (site s1) (site s1) := by
    have := norm_pos_all ⟨s1 - 1, by omega⟩
    simpa only [Nat.sub_add_cancel h1] using this
  have hw : 0 < dot (site s2) (site s2) := by
    have := norm_pos_all ⟨s2 - 1, by omega⟩
    simpa only [Nat.sub_add_cancel h2] using this
  have := key ⟨s1 - 1, by omega⟩ ⟨s2 - 1, by omega⟩
  simp only [Nat.sub_add_cancel h1, Nat.sub_add_cancel h2] at this
  obtain ⟨a, b⟩ := this ho
  refine ⟨a, ?_⟩
  have hr := ratio_sq hv hw b
  have hneg : ((dot (site s1) (site s2) : ℝ) / √((dot (site s1) (site s1) : ℝ) * (dot (site s2) (site s2) : ℝ))) ≤ 0 :=
    div_nonpos_of_nonpos_of_nonneg (by exact_mod_cast ho.2.1.le) (Real.sqrt_nonneg _)
  unfold angle
  generalize (dot (site s1) (site s2) : ℝ) / √((dot (site s1) (site s1) : ℝ) * (dot (site s2) (site s2) : ℝ)) = c at *
  push_cast at hr
  have : c = -1 := by nlinarith
  rw [this, Real.arccos_neg_one]; unfold deg; ring

/-- **C107.** Sites outside of the window make it fail, although their numbers are an `Index`. -/
theorem C107_outside_fails (s1 s2 : Nat) (h1 : 40 < s1) (h2 : 1 ≤ s2) (hne : s1 ≠ s2) : acuteAngle s1 s2 = none := by
  have hl : angles.length = 40 := by decide +kernel
  have h39 : angles[39]? = some [] := by decide +kernel
  have out : ∀ i j, 39 ≤ i → item angles i j = none := by
    intro i j hi
    unfold item
    by_cases e : i = 39
    · rw [e, h39]; rfl
    · rw [List.getElem?_eq_none (by omega)]; rfl
  unfold acuteAngle
  rw [if_neg hne]
  split
  · rw [if_neg (by omega), out _ _ (by omega)]
  · rw [if_neg (by omega), out _ _ (by omega)]

/-- **C107.** The angle is the same both ways. -/
theorem C107_symmetric (s1 s2 : Nat) : acuteAngle s1 s2 = acuteAngle s2 s1 := by
  unfold acuteAngle
  split_ifs <;> first | rfl | omega | (subst_vars; rfl)

/-- **C107.** Clockwise, the two ways make a full turn, unless the sites are on one line with the middle. -/
theorem C107_clockwise (s1 s2 a : Nat) (ha : acuteAngle s1 s2 = some a) (hc : cross (site s1) (site s2) ≠ 0) (hle : a ≤ 360) :
    ∃ x y, angleCW site s1 s2 = some x ∧ angleCW site s2 s1 = some y ∧ x + y = 360 ∧
      (x = a ↔ (0 < cross (site s1) (site s2) ∨ a = 180)) := by
  have e : cross (site s2) (site s1) = - cross (site s1) (site s2) := by unfold cross; ring
  have ha' := C107_symmetric s1 s2 ▸ ha
  unfold cross at hc e
  unfold angleCW
  rw [ha, ha', Option.map_some, Option.map_some, e]
  unfold cross
  refine ⟨_, _, rfl, rfl, ?_⟩
  split_ifs <;> omega

/-- Sites 13 and 16, (-2, -1) and (-1, 2), are at a right angle; 6 and 7 opposite. -/
example : acuteAngle 13 16 = some 90 ∧ ¬ OppositeOff (site 13) (site 16) ∧ OppositeOff (site 6) (site 7) ∧
    acuteAngle 6 7 = some 179 ∧ angleCW site 13 29 = some 352 ∧ angleCW site 29 13 = some 8 := by decide +kernel

end Ulam.Storage
