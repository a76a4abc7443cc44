import Verif.BaseCopy.Lemmas
import Mathlib.Tactic.Set
namespace Ulam.BaseCopy

/-! ## C123: reading -/

/-- `read()` succeeds, gives all the bits of the class, and each of them is the
bit of the storage where the layout of the real object puts it, whether the
object is of the class itself or of a class derived from it. -/
theorem C123_read (C : Cls) (r : Ref) (start : Nat) (st : List Bool) (hc : Laid C)
    (hp : Placed C r start st.length) :
    ∃ v, read C r st = some v ∧ v.length = C.size ∧
      ∀ k q, Lies C r.pos (fun b => start + r.relPos b) k q → v[k]? = st[q]? := by
  by_cases he : C.id = r.eff
  · have hw := whole_le hc hp he
    refine ⟨rd st r.pos C.size, by rw [read, if_pos he, if_pos hw], rd_length _ _ _ hw, ?_⟩
    have ⟨h1, h2⟩ := hp.same he
    have h3 := hp.pos
    intro k q hk
    rw [rd_get]
    rcases hk with ⟨h4, h5⟩ | ⟨b, hb, h4, h5, h6⟩
    · have := hc.own
      rw [if_pos (by omega), h5]
    · have h7 := hc.base b hb
      have h8 := h2 b hb
      rw [if_pos (by omega), h6]
      congr 1
      simp only
      omega
  · have hown : ∃ t, (if C.own = 0 then some (List.replicate C.size false)
        else piece st (List.replicate C.size false) r.pos 0 C.own) = some t ∧
        t.length = C.size ∧ ∀ k < C.own, t[k]? = st[r.pos + k]? := by
      by_cases h0 : C.own = 0
      · exact ⟨_, if_pos h0, by simp, by omega⟩
      · obtain ⟨t, h1, h2, h3⟩ := piece_get st (List.replicate C.size false) r.pos 0 C.own
          hp.own (by simpa using hc.own)
        refine ⟨t, by rw [if_neg h0, h1], by simpa using h2, fun k hk => ?_⟩
        rw [h3 k, if_pos (by omega), Nat.sub_zero]
    obtain ⟨t, ht, hl, hg⟩ := hown
    obtain ⟨o, ho, hlo, hin, hout⟩ := readBases_get r st start C.bases t
      (fun b hb => basePos_eq hp hb) hp.base (fun b hb => by rw [hl]; exact hc.base b hb) hc.apart
    refine ⟨o, by rw [read, if_neg he, ht, Option.bind_some, ho], by omega, ?_⟩
    intro k q hk
    rcases hk with ⟨h4, h5⟩ | ⟨b, hb, h4, h5, h6⟩
    · rw [hout k, hg k h4, h5]
      intro b hb hbk
      have := hc.ownApart b hb
      unfold Apart at this
      omega
    · rw [hin b hb k h4 h5, h6]

/-- Reading depends on nothing but the bits of the parts of the class. -/
theorem C123_only (C : Cls) (r : Ref) (start : Nat) (st st' : List Bool) (hc : Laid C)
    (hp : Placed C r start st.length) (hlen : st'.length = st.length)
    (h : ∀ k q, Lies C r.pos (fun b => start + r.relPos b) k q → st'[q]? = st[q]?) :
    read C r st' = read C r st := by
  obtain ⟨v, hv, hl, hg⟩ := C123_read C r start st hc hp
  obtain ⟨v', hv', hl', hg'⟩ := C123_read C r start st' hc (by rw [hlen]; exact hp)
  rw [hv, hv']
  congr 1
  apply List.ext_getElem?
  intro k
  by_cases hk : k < C.size
  · have : ∃ q, Lies C r.pos (fun b => start + r.relPos b) k q := by
      rcases hc.cover k hk with h1 | ⟨b, hb, h1, h2⟩
      · exact ⟨_, .inl ⟨h1, rfl⟩⟩
      · exact ⟨_, .inr ⟨b, hb, h1, h2, rfl⟩⟩
    obtain ⟨q, hq⟩ := this
    rw [hg k q hq, hg' k q hq, h k q hq]
  · rw [List.getElem?_eq_none (by omega), List.getElem?_eq_none (by omega)]

/-- Seeing an object as a class `C` and the result as a base `B` of `C` is the
same as seeing the object as `B`: the bases of `B` are bases of `C`, at the places
that the layout of `C` gives. -/
theorem C123_upcast (C B : Cls) (r : Ref) (start : Nat) (st v : List Bool)
    (hc : Laid C) (hb : Laid B) (hp : Placed C r start st.length)
    (rb : Ref) (hrb : rb.eff = r.eff) (hrel : rb.relPos = r.relPos)
    (hpb : Placed B rb start st.length)
    (rv : Ref) (hpv : Placed B rv 0 C.size)
    (bown : ∃ b ∈ C.bases, b.len = B.own ∧ rv.postoeff = b.pos ∧ rb.postoeff = r.relPos b.id)
    (bbases : ∀ x ∈ B.bases, ∃ b ∈ C.bases, b.id = x.id ∧ b.len = x.len ∧ rv.relPos x.id = b.pos)
    (hv : read C r st = some v) : read B rv v = read B rb st := by
  obtain ⟨v0, hv0, hl, hg⟩ := C123_read C r start st hc hp
  rw [hv] at hv0
  cases hv0
  obtain ⟨w, hw, hlw, hgw⟩ := C123_read B rv 0 v hb (by rw [hl]; exact hpv)
  obtain ⟨u, hu, hlu, hgu⟩ := C123_read B rb start st hb hpb
  rw [hw, hu]
  congr 1
  apply List.ext_getElem?
  intro k
  have p1 := hpv.pos
  have p2 := hpb.pos
  by_cases hk : k < B.size
  · rcases hb.cover k hk with h1 | ⟨x, hx, h1, h2⟩
    · obtain ⟨b, hbm, e1, e2, e3⟩ := bown
      rw [hgw k _ (.inl ⟨h1, rfl⟩), hgu k _ (.inl ⟨h1, rfl⟩),
        hg (rv.pos + k) (start + r.relPos b.id + k)
          (.inr ⟨b, hbm, by omega, by omega, by simp only; omega⟩), p2, e3]
    · obtain ⟨b, hbm, e1, e2, e3⟩ := bbases x hx
      rw [hgw k _ (.inr ⟨x, hx, h1, h2, rfl⟩), hgu k _ (.inr ⟨x, hx, h1, h2, rfl⟩)]
      simp only [hrel]
      rw [hg (0 + rv.relPos x.id + (k - x.pos)) (start + r.relPos x.id + (k - x.pos))
          (.inr ⟨b, hbm, by omega, by omega, by simp only [e1]; omega⟩)]
  · rw [List.getElem?_eq_none (by omega), List.getElem?_eq_none (by omega)]

/-! ## C124: writing -/

/-- The values for which `write` keeps the bits: all but the transients of 33 to
64 bits seen as a base of another class. -/
def Kept (k : Kind) (C : Cls) (r : Ref) : Prop :=
  k = .quark ∨ C.size ≤ 32 ∨ 64 < C.size ∨ C.id = r.eff

/-- `write(v)` succeeds, puts each bit of the value where the layout of the real
object has it, and leaves every other bit of the storage as it was. -/
theorem C124_write_partial (k : Kind) (little : Bool) (C : Cls) (r : Ref) (start : Nat)
    (st v : List Bool) (hc : Laid C) (hp : Placed C r start st.length) (hv : v.length = C.size)
    (hk : Kept k C r) :
    ∃ st', write k little C r st v = some st' ∧ st'.length = st.length ∧
      (∀ i q, Lies C r.pos (fun b => start + r.relPos b) i q → st'[q]? = v[i]?) ∧
      (∀ q, (∀ i, ¬ Lies C r.pos (fun b => start + r.relPos b) i q) → st'[q]? = st[q]?) := by
  by_cases hz : C.size = 0
  · refine ⟨st, by rw [write, if_pos hz], rfl, ?_, fun _ _ => rfl⟩
    have := hc.own
    rintro i q (⟨h1, _⟩ | ⟨b, hb, h1, h2, _⟩)
    · omega
    · have := hc.base b hb; omega
  by_cases he : C.id = r.eff
  · have hw := whole_le hc hp he
    refine ⟨wr st r.pos v, by rw [write, if_neg hz, if_pos he, if_pos hw],
      wr_length _ _ _ (by omega), ?_, ?_⟩
    · have ⟨h1, h2⟩ := hp.same he
      have h3 := hp.pos
      have ho := hc.own
      intro i q hi
      rw [wr_get _ _ _ _ (by omega)]
      rcases hi with ⟨h4, h5⟩ | ⟨b, hb, h4, h5, h6⟩
      · rw [if_pos (by omega)]; congr 1; omega
      · have h7 := hc.base b hb
        have h8 := h2 b hb
        simp only at h6
        rw [if_pos (by omega)]; congr 1; omega
    · have ⟨h1, h2⟩ := hp.same he
      have h3 := hp.pos
      intro q hq
      rw [wr_get _ _ _ _ (by omega), if_neg]
      rintro ⟨h4, h5⟩
      rcases hc.cover (q - r.pos) (by omega) with h6 | ⟨b, hb, h6, h7⟩
      · exact hq (q - r.pos) (.inl ⟨h6, by omega⟩)
      · exact hq (q - r.pos) (.inr ⟨b, hb, h6, h7, by have := h2 b hb; simp only; omega⟩)
  · have hbv : toBV k little C.size v = v := by
      rcases hk with h | h | h | h
      · subst h; rfl
      · cases k
        · rfl
        · simp only [toBV]; rw [if_pos (.inl h)]
      · cases k
        · rfl
        · simp only [toBV]; rw [if_pos (.inr h)]
      · exact absurd h he
    have hown : ∃ t, (if C.own = 0 then some st else piece v st 0 r.pos C.own) = some t ∧
        t.length = st.length ∧ (∀ i < C.own, t[r.pos + i]? = v[i]?) ∧
        (∀ q, ¬(r.pos ≤ q ∧ q < r.pos + C.own) → t[q]? = st[q]?) := by
      by_cases h0 : C.own = 0
      · exact ⟨_, if_pos h0, rfl, by omega, fun _ _ => rfl⟩
      · obtain ⟨t, h1, h2, h3⟩ := piece_get v st 0 r.pos C.own
          (by have := hc.own; omega) hp.own
        refine ⟨t, by rw [if_neg h0, h1], h2, fun i hi => ?_, fun q hq => ?_⟩
        · rw [h3, if_pos (by omega)]; congr 1; omega
        · rw [h3, if_neg hq]
    obtain ⟨t, ht, hl, hg, hgo⟩ := hown
    obtain ⟨o, ho, hlo, hin, hout⟩ := writeBases_get r v start C.bases t
      (fun b hb => basePos_eq hp hb) (fun b hb => by rw [hl]; exact hp.base b hb)
      (fun b hb => by rw [hv]; exact hc.base b hb) hp.apart
    refine ⟨o, ?_, by omega, ?_, ?_⟩
    · rw [write, if_neg hz, if_neg he]
      simp only [hbv]
      rw [ht, Option.bind_some, ho]
    · intro i q hi
      rcases hi with ⟨h4, h5⟩ | ⟨b, hb, h4, h5, h6⟩
      · rw [hout q, h5, hg i h4]
        intro b hb hbk
        have := hp.ownApart b hb
        unfold Apart at this
        omega
      · have := hin b hb (i - b.pos) (by omega)
        rw [h6, this]
        congr 1; omega
    · intro q hq
      rw [hout q, hgo q]
      · intro h
        exact hq (q - r.pos) (.inl ⟨by omega, by omega⟩)
      · intro b hb h
        exact hq (q - (start + r.relPos b.id) + b.pos)
          (.inr ⟨b, hb, by omega, by omega, by simp only; omega⟩)

/-- What was written is read back. -/
theorem C124_roundtrip_partial (k : Kind) (little : Bool) (C : Cls) (r : Ref) (start : Nat)
    (st st' v : List Bool) (hc : Laid C) (hp : Placed C r start st.length)
    (hv : v.length = C.size) (hk : Kept k C r) (hw : write k little C r st v = some st') :
    read C r st' = some v := by
  obtain ⟨s, h1, h2, h3, _⟩ := C124_write_partial k little C r start st v hc hp hv hk
  rw [hw] at h1
  cases h1
  obtain ⟨w, hr, hl, hg⟩ := C123_read C r start st' hc (by rw [h2]; exact hp)
  rw [hr]
  congr 1
  apply List.ext_getElem?
  intro i
  by_cases hi : i < C.size
  · have : ∃ q, Lies C r.pos (fun b => start + r.relPos b) i q := by
      rcases hc.cover i hi with h1 | ⟨b, hb, h1, h2⟩
      · exact ⟨_, .inl ⟨h1, rfl⟩⟩
      · exact ⟨_, .inr ⟨b, hb, h1, h2, rfl⟩⟩
    obtain ⟨q, hq⟩ := this
    rw [hg i q hq, h3 i q hq]
  · rw [List.getElem?_eq_none (by omega), List.getElem?_eq_none (by omega)]

/-- Writing an object as one of its classes leaves alone what another class,
sharing no base with it, sees of the same storage. -/
theorem C124_others_partial (k : Kind) (little : Bool) (C D : Cls) (r rd : Ref) (start startD : Nat)
    (st st' v : List Bool) (hc : Laid C) (hp : Placed C r start st.length)
    (hd : Laid D) (hpd : Placed D rd startD st.length)
    (hv : v.length = C.size) (hk : Kept k C r)
    (hdis : ∀ i j q, Lies C r.pos (fun b => start + r.relPos b) i q →
      ¬ Lies D rd.pos (fun b => startD + rd.relPos b) j q)
    (hw : write k little C r st v = some st') : read D rd st' = read D rd st := by
  obtain ⟨s, h1, h2, _, h4⟩ := C124_write_partial k little C r start st v hc hp hv hk
  rw [hw] at h1
  cases h1
  exact C123_only D rd startD st st' hd hpd h2 fun j q hq =>
    h4 q fun i hi => hdis i j q hi hq

theorem num_zeros (n : Nat) : num (List.replicate n false) = 0 := by
  induction n with
  | zero => rfl
  | succ n ih => simp [List.replicate_succ, num, ih]

theorem num_one (n : Nat) : num (List.replicate n false ++ [true]) = 1 := by
  induction n with
  | zero => rfl
  | succ n ih => simp [List.replicate_succ, num, ih]

/-- The value one as a transient of 33 to 64 bits, on a host that keeps the low
byte first: its only bit is taken for the last bit of the first word. -/
theorem toBV_one_little (n : Nat) (h : 33 ≤ n) (h' : n ≤ 64) :
    (toBV .transient true n (List.replicate (n - 1) false ++ [true]))[31]? = some true := by
  simp only [toBV, num_one]
  rw [if_neg (by omega), if_pos trivial, List.getElem?_take, if_pos (by omega)]
  rfl

/-- The full claim is false: for every transient of 33 to 64 bits that is seen as
a base of another class, in whatever object it lies, there is a value that is not
read back after it was written (on a host that keeps the low byte first). -/
theorem C124_transient_fails (C : Cls) (r : Ref) (start : Nat)
    (st : List Bool) (hc : Laid C) (hp : Placed C r start st.length)
    (h1 : 33 ≤ C.size) (h2 : C.size ≤ 64) (hne : C.id ≠ r.eff) :
    ∃ v st', v.length = C.size ∧ write .transient true C r st v = some st' ∧
      read C r st' ≠ some v := by
  set v := List.replicate (C.size - 1) false ++ [true] with hvdef
  have hlen : v.length = C.size := by simp [v]; omega
  set w := toBV .transient true C.size v with hwdef
  have hwl : w.length = C.size := by
    have hb : ∀ n x, (bitsOf n x).length = n := by
      intro n x; induction n with
      | zero => rfl
      | succ n ih => simp [bitsOf, ih]
    simp only [w, toBV]
    rw [if_neg (by omega), if_pos trivial]
    simp [hb]; omega
  -- what the transient writes is what a quark would write of the changed bits
  have hsame : write .transient true C r st v = write .quark true C r st w := by
    have hz : C.size ≠ 0 := by omega
    simp only [write, if_neg hz, if_neg hne]
    rfl
  obtain ⟨st', hw, _⟩ := C124_write_partial .quark true C r start st w hc hp hwl (.inl rfl)
  refine ⟨v, st', hlen, by rw [hsame, hw], ?_⟩
  rw [C124_roundtrip_partial .quark true C r start st st' w hc hp hwl (.inl rfl) hw]
  intro heq
  have hwv : w = v := by injection heq
  have a : w[31]? = some true := toBV_one_little C.size h1 h2
  rw [hwv, hvdef, List.getElem?_append_left (by simp; omega), List.getElem?_replicate,
    if_pos (by omega)] at a
  cases a

/-! ## A case: class 1 (3 bits of its own) with the bases 2 (2 bits) and 3 (1 bit),
in an object of class 9 that puts base 3 before and base 2 far behind. -/

def exC : Cls := ⟨1, 3, [⟨2, 2, 3⟩, ⟨3, 1, 5⟩], 6⟩
def exR : Ref := ⟨7, 5, 9, fun i => if i = 2 then 10 else if i = 3 then 1 else 0⟩
def exSt : List Bool := [1,1,0,1,1,0,0,1,0,1,0,1,0,1,1,0].map (· == 1)

example : Laid exC := by
  refine ⟨by decide, by decide, ?_, ?_, by decide⟩
  · intro b hb; simp [exC] at hb; rcases hb with rfl | rfl <;> simp [Apart, exC]
  · simp [exC, Apart]

example : Placed exC exR 2 exSt.length := by
  refine ⟨by decide, by decide, by decide, ?_, ?_, by decide, by decide⟩
  · intro b hb; simp [exC] at hb; rcases hb with rfl | rfl <;> simp [Apart, exC, exR]
  · simp [exC, Apart, exR]

example : read exC exR exSt = some [true, false, true, false, true, true] := by decide
example : write .quark true exC exR exSt (List.replicate 6 false) =
    some ([1,1,0,0,1,0,0,0,0,0,0,1,0,0,1,0].map (· == 1)) := by decide
example : Kept .quark exC exR := .inl rfl

/-- A transient of 40 bits: 8 of its own, a base of 32. -/
def exT : Cls := ⟨1, 8, [⟨2, 32, 8⟩], 40⟩
def exTR : Ref := ⟨32, 32, 9, fun _ => 0⟩
example : Laid exT ∧ Placed exT exTR 0 40 ∧ exT.id ≠ exTR.eff := by
  refine ⟨⟨by decide, by decide, ?_, by simp [exT], by decide⟩,
    ⟨by decide, by decide, by decide, ?_, by simp [exT], by decide, by decide⟩, by decide⟩
  · intro b hb; simp [exT] at hb; subst hb; simp [Apart, exT]
  · intro b hb; simp [exT] at hb; subst hb; simp [Apart, exT, exTR]

/-- The base 2 of `exC` seen by itself and through `exC`. -/
def exB : Cls := ⟨2, 2, [], 2⟩
example : read exB ⟨3, 3, 1, fun _ => 0⟩ [true, false, true, false, true, true] =
    read exB ⟨12, 10, 9, exR.relPos⟩ exSt := by decide
example : Laid exB ∧ Placed exB ⟨3, 3, 1, fun _ => 0⟩ 0 6 ∧
    Placed exB ⟨12, 10, 9, exR.relPos⟩ 2 exSt.length := by
  refine ⟨⟨by decide, by decide, by simp [exB], by simp [exB], by decide⟩,
    ⟨by decide, by decide, by decide, by simp [exB], by simp [exB], by decide, by decide⟩,
    ⟨by decide, by decide, by decide, by simp [exB], by simp [exB], by decide, by decide⟩⟩

end Ulam.BaseCopy
