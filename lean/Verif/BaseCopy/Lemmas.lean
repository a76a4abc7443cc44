import Verif.BaseCopy.Spec
import Mathlib.Tactic.SplitIfs
namespace Ulam.BaseCopy

theorem wr_length (st : List Bool) (p : Nat) (v : List Bool) (h : p + v.length ≤ st.length) :
    (wr st p v).length = st.length := by
  simp [wr]; omega

theorem rd_length (st : List Bool) (p n : Nat) (h : p + n ≤ st.length) :
    (rd st p n).length = n := by
  simp [rd]; omega

theorem rd_get (st : List Bool) (p n i : Nat) :
    (rd st p n)[i]? = if i < n then st[p + i]? else none := by
  unfold rd
  rw [List.getElem?_take]
  split_ifs <;> simp [List.getElem?_drop]

theorem wr_get (st : List Bool) (p : Nat) (v : List Bool) (k : Nat)
    (h : p + v.length ≤ st.length) :
    (wr st p v)[k]? = if p ≤ k ∧ k < p + v.length then v[k - p]? else st[k]? := by
  unfold wr
  have ht : (st.take p).length = p := by simp; omega
  by_cases h1 : k < p
  · rw [if_neg (by omega), List.append_assoc, List.getElem?_append_left (by omega),
      List.getElem?_take, if_pos h1]
  · by_cases h2 : k < p + v.length
    · rw [if_pos ⟨by omega, h2⟩, List.append_assoc, List.getElem?_append_right (by omega),
        List.getElem?_append_left (by omega), ht]
    · rw [if_neg (by omega), List.getElem?_append_right (by simp; omega), List.getElem?_drop]
      congr 1
      simp only [List.length_append, ht]; omega

theorem piece_get (src dst : List Bool) (f t n : Nat)
    (h1 : f + n ≤ src.length) (h2 : t + n ≤ dst.length) :
    ∃ o, piece src dst f t n = some o ∧ o.length = dst.length ∧
      ∀ k, o[k]? = if t ≤ k ∧ k < t + n then src[f + (k - t)]? else dst[k]? := by
  have hl := rd_length src f n h1
  refine ⟨_, if_pos ⟨h1, h2⟩, wr_length _ _ _ (by omega), fun k => ?_⟩
  rw [wr_get _ _ _ _ (by omega), hl]
  by_cases hk : t ≤ k ∧ k < t + n
  · rw [if_pos hk, if_pos hk, rd_get, if_pos (by omega)]
  · rw [if_neg hk, if_neg hk]

theorem basePos_eq {C : Cls} {r : Ref} {start n : Nat} (hp : Placed C r start n) {b : Base}
    (hb : b ∈ C.bases) : basePos r b = start + r.relPos b.id := by
  have h1 := hp.pos
  have h2 := hp.base b hb
  have h3 := hp.small
  have h4 := hp.own
  unfold basePos
  omega

/-- The loop that reads. -/
theorem readBases_get (r : Ref) (st : List Bool) (start : Nat) :
    ∀ (bs : List Base) (tmp : List Bool),
      (∀ b ∈ bs, basePos r b = start + r.relPos b.id) →
      (∀ b ∈ bs, start + r.relPos b.id + b.len ≤ st.length) →
      (∀ b ∈ bs, b.pos + b.len ≤ tmp.length) →
      bs.Pairwise (fun a b => Apart a.pos a.len b.pos b.len) →
      ∃ o, readBases r st bs tmp = some o ∧ o.length = tmp.length ∧
        (∀ b ∈ bs, ∀ k, b.pos ≤ k → k < b.pos + b.len →
          o[k]? = st[start + r.relPos b.id + (k - b.pos)]?) ∧
        (∀ k, (∀ b ∈ bs, ¬(b.pos ≤ k ∧ k < b.pos + b.len)) → o[k]? = tmp[k]?) := by
  intro bs
  induction bs with
  | nil => intro tmp _ _ _ _; exact ⟨tmp, rfl, rfl, by simp, by simp⟩
  | cons b bs ih =>
    intro tmp hb hs ht hpw
    rw [List.pairwise_cons] at hpw
    have hb' : ∀ x ∈ bs, _ := fun x hx => hb x (List.mem_cons_of_mem _ hx)
    have hs' : ∀ x ∈ bs, _ := fun x hx => hs x (List.mem_cons_of_mem _ hx)
    have ht' : ∀ x ∈ bs, _ := fun x hx => ht x (List.mem_cons_of_mem _ hx)
    have b0 := hb b List.mem_cons_self
    have s0 := hs b List.mem_cons_self
    have t0 := ht b List.mem_cons_self
    by_cases h0 : b.len = 0
    · obtain ⟨o, ho, hl, hin, hout⟩ := ih tmp hb' hs' ht' hpw.2
      refine ⟨o, by rw [readBases, if_pos h0, ho], hl, ?_, ?_⟩
      · intro x hx k h1 h2
        rcases List.mem_cons.1 hx with rfl | hx
        · omega
        · exact hin x hx k h1 h2
      · intro k hk
        exact hout k fun x hx => hk x (List.mem_cons_of_mem _ hx)
    · obtain ⟨t, hpt, hlt, hget⟩ := piece_get st tmp (basePos r b) b.pos b.len
        (by omega) t0
      obtain ⟨o, ho, hl, hin, hout⟩ := ih t hb' hs' (fun x hx => by rw [hlt]; exact ht' x hx) hpw.2
      refine ⟨o, by rw [readBases, if_neg h0, hpt, Option.bind_some, ho], by omega, ?_, ?_⟩
      · intro x hx k h1 h2
        rcases List.mem_cons.1 hx with rfl | hx
        · rw [hout k, hget k, if_pos ⟨h1, h2⟩, b0]
          intro y hy hyk
          have := hpw.1 y hy
          unfold Apart at this
          omega
        · exact hin x hx k h1 h2
      · intro k hk
        rw [hout k fun x hx => hk x (List.mem_cons_of_mem _ hx), hget k,
          if_neg (hk b List.mem_cons_self)]

/-- The loop that writes. -/
theorem writeBases_get (r : Ref) (tmp : List Bool) (start : Nat) :
    ∀ (bs : List Base) (st : List Bool),
      (∀ b ∈ bs, basePos r b = start + r.relPos b.id) →
      (∀ b ∈ bs, start + r.relPos b.id + b.len ≤ st.length) →
      (∀ b ∈ bs, b.pos + b.len ≤ tmp.length) →
      bs.Pairwise (fun a b =>
        Apart (start + r.relPos a.id) a.len (start + r.relPos b.id) b.len) →
      ∃ o, writeBases r tmp bs st = some o ∧ o.length = st.length ∧
        (∀ b ∈ bs, ∀ i < b.len, o[start + r.relPos b.id + i]? = tmp[b.pos + i]?) ∧
        (∀ q, (∀ b ∈ bs, ¬(start + r.relPos b.id ≤ q ∧ q < start + r.relPos b.id + b.len)) →
          o[q]? = st[q]?) := by
  intro bs
  induction bs with
  | nil => intro st _ _ _ _; exact ⟨st, rfl, rfl, by simp, by simp⟩
  | cons b bs ih =>
    intro st hb hs ht hpw
    rw [List.pairwise_cons] at hpw
    have hb' : ∀ x ∈ bs, _ := fun x hx => hb x (List.mem_cons_of_mem _ hx)
    have hs' : ∀ x ∈ bs, _ := fun x hx => hs x (List.mem_cons_of_mem _ hx)
    have ht' : ∀ x ∈ bs, _ := fun x hx => ht x (List.mem_cons_of_mem _ hx)
    have b0 := hb b List.mem_cons_self
    have s0 := hs b List.mem_cons_self
    have t0 := ht b List.mem_cons_self
    by_cases h0 : b.len = 0
    · obtain ⟨o, ho, hl, hin, hout⟩ := ih st hb' hs' ht' hpw.2
      refine ⟨o, by rw [writeBases, if_pos h0, ho], hl, ?_, ?_⟩
      · intro x hx i hi
        rcases List.mem_cons.1 hx with rfl | hx
        · omega
        · exact hin x hx i hi
      · intro q hq
        exact hout q fun x hx => hq x (List.mem_cons_of_mem _ hx)
    · obtain ⟨t, hpt, hlt, hget⟩ := piece_get tmp st b.pos (basePos r b) b.len t0 (by omega)
      obtain ⟨o, ho, hl, hin, hout⟩ := ih t hb' (fun x hx => by rw [hlt]; exact hs' x hx) ht' hpw.2
      refine ⟨o, by rw [writeBases, if_neg h0, hpt, Option.bind_some, ho], by omega, ?_, ?_⟩
      · intro x hx i hi
        rcases List.mem_cons.1 hx with rfl | hx
        · rw [hout, hget, if_pos (by omega)]
          · congr 1; omega
          · intro y hy hyk
            have := hpw.1 y hy
            unfold Apart at this
            omega
        · exact hin x hx i hi
      · intro q hq
        rw [hout q fun x hx => hq x (List.mem_cons_of_mem _ hx), hget q,
          if_neg (by rw [b0]; exact hq b List.mem_cons_self)]

/-- With nothing left over in the class, and every part inside the storage, the
whole of an object of the class itself is inside the storage. -/
theorem whole_le {C : Cls} {r : Ref} {start n : Nat} (hc : Laid C) (hp : Placed C r start n)
    (he : C.id = r.eff) : r.pos + C.size ≤ n := by
  have ⟨h1, h2⟩ := hp.same he
  have h3 := hp.pos
  have h4 := hp.own
  by_cases hz : C.size = 0
  · omega
  rcases hc.cover (C.size - 1) (by omega) with h | ⟨b, hb, h5, h6⟩
  · omega
  · have := hp.base b hb
    have := h2 b hb
    omega

end Ulam.BaseCopy
