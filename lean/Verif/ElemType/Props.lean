import Verif.ElemType.Lemmas
/-
C35: element type numbers are unique, never reserved, and keep coming until
all are used.
-/
namespace Ulam.ElemType

/-- C35. Any history of up to 65534 requests is answered in full; the answers are all different,
none is 0 (undefined) or 0xFFFF (Empty), all are 16-bit numbers, and looking an answer up gives back
the class it was made for. -/
theorem C35_types_unique (cs : List Nat) (h : cs.length ≤ 65534) :
    ∃ ts g, requests Gen.init cs = some (ts, g) ∧ ts.length = cs.length ∧ ts.Nodup ∧
      (∀ t ∈ ts, t ≠ 0 ∧ t ≠ 0xFFFF ∧ t < 65536) ∧
      (∀ (i : Nat) t c, ts[i]? = some t → cs[i]? = some c → findElementTypeClass g t = c) := by
  obtain ⟨ts, g, hr, hg, hk, hl, hb, _⟩ := requests_ok cs Gen.init ginv_init (by
    show 0 + cs.length ≤ 65534; omega)
  have hk' : g.known = ts.reverse := by rw [hk]; simp [Gen.init]
  have hnd : ts.Nodup := by
    have := hg.inv.nodup
    rw [hk'] at this
    exact List.nodup_reverse.mp this
  refine ⟨ts, g, hr, hl, hnd, ?_, ?_⟩
  · intro t ht
    have := hg.inv.good t (by rw [hk']; exact List.mem_reverse.mpr ht)
    unfold okType at this
    omega
  · intro i t c ht hc
    unfold findElementTypeClass
    have hm : (t, c) ∈ g.byType := by
      rw [hb]
      refine List.mem_append_left _ (List.mem_reverse.mpr ?_)
      rw [List.mem_iff_getElem?]
      exact ⟨i, by rw [List.getElem?_zip_eq_some]; exact ⟨ht, hc⟩⟩
    rw [lookup_of_mem (by rw [hg.keys]; exact hg.inv.nodup) hm]
    rfl

/-- C35, exhaustion. 65534 is all of them: after that many requests every usable number has been
given out, and the next request never returns. -/
theorem C35_all_used (cs : List Nat) (h : cs.length = 65534) (c : Nat) :
    ∃ ts g, requests Gen.init cs = some (ts, g) ∧ (∀ t, 0 < t → t < 0xFFFF → t ∈ ts) ∧
      makeNextType g c = .neverEnds := by
  obtain ⟨ts, g, hr, hg, hk, hl, _, hnx⟩ := requests_ok cs Gen.init ginv_init (by
    show 0 + cs.length ≤ 65534; omega)
  have hk' : g.known = ts.reverse := by rw [hk]; simp [Gen.init]
  refine ⟨ts, g, hr, ?_, makeNextType_exhausted g c hg ?_⟩
  · intro t h1 h2
    have := (usable_card g.known hg.inv.good hg.inv.nodup).2.1 (by rw [hk']; simp; omega) t ⟨h1, h2⟩
    rw [hk'] at this
    exact List.mem_reverse.mp this
  · rw [hnx, h]; rfl

/-- The sequence is the same in every run: it does not depend on the classes asked for. -/
theorem C35_sequence_fixed (cs ds : List Nat) (h : cs.length = ds.length) :
    (requests Gen.init cs).map (·.1) = (requests Gen.init ds).map (·.1) := by
  suffices H : ∀ (cs ds : List Nat) (g g' : Gen), cs.length = ds.length → g.next = g'.next →
      g.counter = g'.counter → g.known = g'.known → g.byType.map (·.1) = g'.byType.map (·.1) →
      (requests g cs).map (·.1) = (requests g' ds).map (·.1) from H cs ds _ _ h rfl rfl rfl rfl
  intro cs
  induction cs with
  | nil =>
    intro ds g g' hl _ _ _ _
    cases ds with
    | nil => rfl
    | cons => simp at hl
  | cons c cs ih =>
    intro ds g g' hl hn hc hk hb
    cases ds with
    | nil => simp at hl
    | cons d ds =>
      simp only [List.length_cons, Nat.add_right_cancel_iff] at hl
      simp only [requests, makeNextType]
      rw [hn, hc, hk]
      have hlk : ∀ t, (g.byType.lookup t).isSome = (g'.byType.lookup t).isSome := by
        intro t
        have : ∀ (l l' : List (Nat × Nat)), l.map (·.1) = l'.map (·.1) →
            (l.lookup t).isSome = (l'.lookup t).isSome := by
          intro l
          induction l with
          | nil => intro l' h; cases l' with
            | nil => rfl
            | cons => simp at h
          | cons a l ih =>
            intro l' h
            cases l' with
            | nil => simp at h
            | cons b l' =>
              obtain ⟨a1, a2⟩ := a
              obtain ⟨b1, b2⟩ := b
              simp only [List.map_cons, List.cons.injEq] at h
              obtain ⟨rfl, h⟩ := h
              simp only [List.lookup_cons]
              cases t == a1
              · exact ih _ h
              · rfl
        exact this _ _ hb
      by_cases hlt : g'.next < emptyType
      · rw [if_pos hlt, if_pos hlt]
        cases hm : makeAType u32Range g'.counter g'.known with
        | none => rfl
        | some r =>
          obtain ⟨t, c', k⟩ := r
          simp only [hlk]
          by_cases hs : (g'.byType.lookup t).isSome
          · simp [hs]
          · simp only [hs, List.lookup_cons, beq_self_eq_true]
            have := ih ds ⟨g'.next + 1, c', (g'.next, t) :: g.sequential, k, (t, c) :: g.byType⟩
              ⟨g'.next + 1, c', (g'.next, t) :: g'.sequential, k, (t, d) :: g'.byType⟩ hl rfl rfl rfl
              (by simp [hb])
            simp only [Bool.false_eq_true, if_false, Option.map_map]
            revert this
            generalize requests _ cs = x
            generalize requests _ ds = y
            intro this
            cases x <;> cases y <;> simp_all
      · rw [if_neg hlt, if_neg hlt]

/-- The first types of the sequence, far apart as intended. -/
example : [3, 4, 5, 6, 7].map tryType = [0xFFFF, 0, 0xFF, 0xFF00, 0xFFFF] := by decide

example : ∃ ts g, requests Gen.init [50, 51, 50] = some (ts, g) ∧ ts = [0xFF, 0xFF00, 0x1F] :=
  ⟨_, _, rfl, rfl⟩

end Ulam.ElemType
