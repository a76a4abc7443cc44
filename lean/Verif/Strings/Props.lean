import Verif.Strings.Lemmas
/-! # Properties C18 (interning), C19 (user string table), C20 (emitted literals), C21 (escapes), C50 (shown text) -/
namespace Ulam.Strings
open Spec

/-! ## C18 -/

/-- C18. From a new pool, every history of fewer than 2^32 requests succeeds with one index per request; indexes are equal
exactly when the requested strings are, are never 0, and the final pool gives back the string each was given out for. -/
theorem C18_interning (dummy : Bytes) (rs : List Req) (hn : rs.length < 2 ^ 32) :
    ∃ idxs p, run (.new dummy) rs = some (idxs, p) ∧ idxs.length = rs.length ∧
      ∀ i j (hi : i < rs.length) (hj : j < rs.length) (a b : Nat), idxs[i]? = some a → idxs[j]? = some b →
        (a = b ↔ text rs[i] = text rs[j]) ∧ a ≠ 0 ∧ getData p a = some (text rs[i]) := by
  obtain ⟨idxs, p, ext, h1, h2, h3⟩ := run_inv rs _ _ (inv_new dummy) (by simpa using hn)
  rw [List.nil_append] at h2 h3
  refine ⟨idxs, p, h1, h3.length_eq.symm, ?_⟩
  intro i j hi hj a b ha hb
  obtain ⟨la, ea⟩ := List.getElem?_eq_some_iff.1 ha
  obtain ⟨lb, eb⟩ := List.getElem?_eq_some_iff.1 hb
  have fi := h3.get hi la
  have fj := h3.get hj lb
  simp only [List.get_eq_getElem, ea, eb] at fi fj
  refine ⟨?_, by omega, getData_inv h2 fi.1 fi.2⟩
  rw [← nodup_index h2.nodup fi.2 fj.2]
  omega

/-- C18. What a pool returns for an index does not change with later requests. -/
theorem C18_stable (dummy : Bytes) (rs qs : List Req) (hn : rs.length + qs.length < 2 ^ 32) :
    ∃ i1 p1 i2 p2, run (.new dummy) rs = some (i1, p1) ∧ run p1 qs = some (i2, p2) ∧
      ∀ k s, getData p1 k = some s → getData p2 k = some s := by
  obtain ⟨i1, p1, e1, h1, h2, h3⟩ := run_inv rs _ _ (inv_new dummy) (by simp only [List.length_nil]; omega)
  rw [List.nil_append] at h2 h3
  have hl : e1.length ≤ rs.length := by
    have : ∀ (rs : List Req) (p : Pool) (strs : List Bytes) i p' ss, Inv dummy p strs → strs.length + rs.length < 2 ^ 32 →
        run p rs = some (i, p') → Inv dummy p' ss → ss.length ≤ strs.length + rs.length := by
      intro rs
      induction rs with
      | nil =>
        intro p strs i p' ss hp _ hr hs
        simp only [run, Option.some.injEq, Prod.mk.injEq] at hr
        obtain ⟨_, rfl⟩ := hr
        have := congrArg List.length (hp.data.symm.trans hs.data)
        simp only [List.length_cons, enumN_length] at this
        simp only [List.length_nil]; omega
      | cons r rs ih =>
        intro p strs i p' ss hp hl hr hs
        simp only [List.length_cons] at hl ⊢
        obtain ⟨k, q, ext, g1, g2, g3, _, _⟩ := getIndex_inv hp (by omega) (text r)
        rw [run, ask_eq, g1] at hr
        simp only [Option.map_eq_some_iff] at hr
        obtain ⟨⟨x, y⟩, hr1, hr2⟩ := hr
        simp only [Prod.mk.injEq] at hr2
        obtain ⟨_, rfl⟩ := hr2
        have := ih q _ x y ss g2 (by rw [List.length_append]; omega) hr1 hs
        rw [List.length_append] at this; omega
    have := this rs _ _ i1 p1 e1 (inv_new dummy) (by simp only [List.length_nil]; omega) h1 h2
    simpa using this
  obtain ⟨i2, p2, e2, f1, f2, f3⟩ := run_inv qs p1 e1 h2 (by omega)
  refine ⟨i1, p1, i2, p2, h1, f1, ?_⟩
  intro k s hk
  have hk0 := hk
  unfold getData at hk
  split at hk
  · rename_i hc
    rw [h2.data] at hk
    simp only [mget] at hk
    rw [if_neg (by omega), mget_enumN _ _ _ (by omega)] at hk
    refine getData_inv f2 (by omega) ?_
    rw [List.getElem?_append_left (List.getElem?_eq_some_iff.1 hk).1]; exact hk
  · cases hk

example : run (.new []) [.str [97], .num 12, .str [49, 50], .str [97]] =
    some ([1, 2, 2, 1], ⟨[(0, []), (1, [97]), (2, [49, 50])], [([97], 1), ([49, 50], 2)]⟩) := by
  rw [run, ask, getIndex]; decide +kernel

/-! ## C19 -/

/-- Sizes that keep the 32-bit counters from wrapping. -/
def Fits (ss : List Bytes) : Prop :=
  (∀ s ∈ ss, Valid s) ∧ ss.length < 2 ^ 32 ∧ (ss.map fun s => s.length + 2).sum + 1 < 2 ^ 32

theorem total_eq (ss : List Bytes) : total ss = (ss.map fun s => s.length + 2).sum := by
  induction ss with
  | nil => rfl
  | cons s ss ih => simp [total, ih]

/-- C19. For every history of string literals: the emitted table, read as C++, is an array whose declared size leaves room
for the terminating zero; at the offset of each string stand its length, its characters and a zero; the numbers emitted
beside the table are these offsets; equal strings share an index and different strings lie in disjoint regions; the
compiler's own and the generated length and character functions agree with the string. -/
theorem C19_table (ind : Nat) (ss : List Bytes) (h : Fits ss) :
    ∃ idxs p A, uRun .new ss = some (idxs, p) ∧ idxs.length = ss.length ∧
      cInit (emitEntries ind p) = some A ∧ A.length + 1 = declaredSize p ∧
      readNums 0 (emitIndexes p) = p.offs ∧
      (∀ i (hi : i < ss.length) (u : Nat), idxs[i]? = some u →
        ∃ o, p.offs[u]? = some o ∧ u ≠ 0 ∧ (A.drop o).take (ss[i].length + 2) = image ss[i] ∧
          uStringLength p u = some ss[i].length ∧
          (∀ k (hk : k < ss[i].length), uByteOf p u k = some ss[i][k]) ∧
          genGetString p.offs u = some (o + 1) ∧ genGetStringLength A p.offs u = some ss[i].length) ∧
      (∀ i j (hi : i < ss.length) (hj : j < ss.length) (u v o q : Nat), idxs[i]? = some u → idxs[j]? = some v →
        p.offs[u]? = some o → p.offs[v]? = some q →
        (u = v ↔ ss[i] = ss[j]) ∧
        (u ≠ v → o + (ss[i].length + 2) ≤ q ∨ q + (ss[j].length + 2) ≤ o)) := by
  obtain ⟨hv, hn, ht⟩ := h
  rw [← total_eq] at ht
  obtain ⟨idxs, p, ext, h1, h2, h3, h4⟩ := uRun_inv ss .new [] uinv_new hv (by simpa using hn)
    (by simp only [total]; omega) (by simp)
  rw [List.nil_append] at h2 h3 h4
  have hA := cInit_emit ind h2 h3
  have get : ∀ i (hi : i < ss.length) u, idxs[i]? = some u → 1 ≤ u ∧ ext[u - 1]? = some ss[i] := by
    intro i hi u hu
    obtain ⟨lu, eu⟩ := List.getElem?_eq_some_iff.1 hu
    have := h4.get hi lu
    simpa only [List.get_eq_getElem, eu] using this
  have offsu : ∀ u, 1 ≤ u → p.offs[u]? = (offsets 1 ext)[u - 1]? := by
    intro u hu
    rw [h2.offs]
    obtain ⟨k, rfl⟩ : ∃ k, u = k + 1 := ⟨u - 1, by omega⟩
    simp
  refine ⟨idxs, p, _, h1, h4.length_eq.symm, hA, ?_, readNums_emit h2, ?_, ?_⟩
  · rw [List.length_cons, flatMap_image_length, declaredSize, h2.running]; omega
  · intro i hi u hu
    obtain ⟨g1, g2⟩ := get i hi u hu
    obtain ⟨o, k1, k2, k3, k4⟩ := offsets_spec ext [0] (u - 1) ss[i] g2
    simp only [List.length_cons, List.length_nil, List.singleton_append, Nat.zero_add] at k1 k2 k3 k4
    have ho : p.offs[u]? = some o := by rw [offsu u g1]; exact k1
    have hd := uGetData_inv h2 g1 g2
    have hlen := (hv ss[i] (List.getElem_mem hi)).1
    have hol : u < p.offs.length := (List.getElem?_eq_some_iff.1 ho).1
    have hog : p.offs.getD u 0 = o := by simp [List.getD, ho]
    refine ⟨o, ho, by omega, k4, ?_, ?_, ?_, ?_⟩
    · unfold uStringLength
      rw [hd]
      simp only [first_stored]
      have : (stored ss[i]).length = if ss[i].length = 0 then 1 else ss[i].length + 2 := by
        unfold stored; split <;> simp
      rw [this]
      by_cases h0 : ss[i].length = 0
      · simp [h0]
      · simp only [h0, if_false]
        simp
    · intro k hk
      unfold uByteOf
      rw [hd]
      have hs : stored ss[i] = ss[i].length :: (ss[i] ++ [0]) := by unfold stored; rw [if_neg (by omega)]
      simp only [hs]
      rw [if_pos (by simp; omega)]
      simp [List.getD, List.getElem?_append_left hk, hk]
    · unfold genGetString
      rw [if_neg (by omega), if_neg (by omega), hog]
    · unfold genGetStringLength
      rw [if_neg (by omega), if_neg (by omega), hog]
      have := congrArg (fun l => l[0]?) k4
      simp only [image, List.getElem?_cons_zero] at this
      rw [List.getElem?_take_of_lt (by omega), List.getElem?_drop] at this
      simp only [Nat.add_zero] at this
      simp [List.getD, this]
  · intro i j hi hj u v o q hu hv' ho hq
    obtain ⟨g1, g2⟩ := get i hi u hu
    obtain ⟨f1, f2⟩ := get j hj v hv'
    rw [offsu u g1] at ho
    rw [offsu v f1] at hq
    constructor
    · rw [← nodup_index h2.nodup g2 f2]; omega
    · intro hne
      rcases Nat.lt_or_gt_of_ne hne with hlt | hgt
      · exact .inl (offsets_lt ext 1 _ _ _ _ _ (by omega) g2 ho hq)
      · exact .inr (offsets_lt ext 1 _ _ _ _ _ (by omega) f2 hq ho)

example : Fits [[97, 98], [], [0, 255], [97, 98]] := ⟨by unfold Valid; decide, by decide, by decide⟩

/-- C19. The index check in `isValidUserStringIndex` compares an index with the byte size of the pool, so it accepts
indexes that no string has. -/
theorem C19_index_check_too_weak : ∃ ss idxs p, Fits ss ∧ uRun .new ss = some (idxs, p) ∧ uValidIndex p 2 = true ∧
    uGetData p 2 = none :=
  ⟨[[97, 98]], [1], ⟨[(0, []), (1, [2, 97, 98, 0])], [([2, 97, 98, 0], 1)], [0, 1], 5⟩,
    ⟨by unfold Valid; decide, by decide, by decide⟩, by decide, by decide, by decide⟩

/-! ## C20 -/

/-- C20. For every allowed string the emitted literal, whatever follows it in the file, is one C++ string literal that
denotes the length byte, the characters and a zero. -/
theorem C20_emitted_literal (s : Bytes) (h : Valid s) :
    ∃ d body, formatUser s = some d ∧ writeDoubleQuotedString d = 34 :: body ∧
      ∀ rest, cBody (body ++ rest) = some (image s, rest) := by
  obtain ⟨body, e1, _⟩ := cBody_stored h []
  refine ⟨stored s, body, formatUser_valid h, e1, ?_⟩
  intro rest
  obtain ⟨body', e2, e3⟩ := cBody_stored h rest
  rw [e1] at e2
  injection e2 with _ e2
  rw [e2]; exact e3

example : Valid [34, 92, 63, 63, 10, 0, 49, 255] := ⟨by decide, by decide⟩

/-! ## C21 -/

/-- C21. One item of a literal is read as the grammar says, and nothing else is accepted. -/
theorem C21_item (s : Bytes) (b : Nat) (r : Bytes) :
    nextByte s = some (b, r) ↔ ∃ i, s = i ++ r ∧ Item i r.head? b := nextByte_iff s b r

/-- C21. A double-quoted literal is accepted exactly when the text up to some closing quote denotes a string of at most 255
bytes, and that string is what is stored. -/
theorem C21_string_literal (s d r : Bytes) :
    doubleQuoted s = some (d, r) ↔
      ∃ t bs, s = t ++ 34 :: r ∧ Denotes 34 t bs ∧ bs.length ≤ 255 ∧ formatUser bs = some d := by
  unfold doubleQuoted
  constructor
  · intro h
    split at h
    · cases h
    · rename_i bs r' hq
      rw [Option.map_eq_some_iff] at h
      obtain ⟨d', h1, h2⟩ := h
      simp only [Prod.mk.injEq] at h2
      obtain ⟨rfl, rfl⟩ := h2
      obtain ⟨t, e, hd⟩ := quoted_to _ _ _ _ (Nat.le_refl _) hq
      exact ⟨t, bs, e, hd, (formatUser_some.1 h1).1, h1⟩
  · rintro ⟨t, bs, rfl, hd, _, hf⟩
    rw [quoted_of 34 rfl hd r]
    simp [hf]

/-- C21. The text of an accepted literal denotes only one string. -/
theorem C21_unambiguous (t u bs cs r q : Bytes) (h1 : Denotes 34 t bs) (h2 : Denotes 34 u cs)
    (h : t ++ 34 :: r = u ++ 34 :: q) : t = u ∧ bs = cs ∧ r = q := by
  have e1 := quoted_of 34 rfl h1 r
  have e2 := quoted_of 34 rfl h2 q
  rw [h, e2] at e1
  simp only [Option.some.injEq, Prod.mk.injEq] at e1
  obtain ⟨rfl, rfl⟩ := e1
  exact ⟨List.append_cancel_right h, rfl, rfl⟩

/-- C21. Every string of at most 255 bytes can be written with printable ASCII characters, and is stored exactly. -/
theorem C21_every_string (s : Bytes) (h : Valid s) :
    ∃ t, (∀ c ∈ t, 32 ≤ c ∧ c ≤ 126) ∧ ∀ r, doubleQuoted (t ++ 34 :: r) =
      some (if s = [] then [0] else s.length :: (s ++ [0]), r) := by
  refine ⟨s.flatMap fun c => [92, odigit (c / 64), odigit (c / 8), odigit c], ?_, ?_⟩
  · intro c hc
    rw [List.mem_flatMap] at hc
    obtain ⟨a, _, h2⟩ := hc
    simp only [List.mem_cons, List.not_mem_nil, or_false] at h2
    unfold odigit at h2
    omega
  · intro r
    rw [C21_string_literal]
    refine ⟨_, s, rfl, denotes_octal s h.2, h.1, ?_⟩
    rw [formatUser_valid h]
    unfold stored
    cases s <;> simp

/-- C21. Longer strings are rejected. -/
theorem C21_too_long (t bs r : Bytes) (h : Denotes 34 t bs) (hl : 255 < bs.length) : doubleQuoted (t ++ 34 :: r) = none := by
  unfold doubleQuoted
  rw [quoted_of 34 rfl h r]
  simp [formatUser, hl]

/-- C21. An octal escape above 255 is rejected. -/
theorem C21_octal_out_of_range (a b c : Nat) (r : Bytes) (ha : isOct a = true) (hb : isOct b = true)
    (hc : isOct c = true) (hv : 255 < (a - 48) * 64 + (b - 48) * 8 + (c - 48)) :
    nextByte (92 :: a :: b :: c :: r) = none := by
  have h1 := isOct_iff.1 ha
  simp only [nextByte, if_true]
  rw [if_pos (by omega), octal3 r ha hb hc, if_neg (by omega)]

/-- C21. A character literal is accepted exactly when one item other than a bare tic is followed by the closing tic. -/
theorem C21_char_literal (s : Bytes) (b : Nat) (r : Bytes) :
    singleQuoted s = some (b, r) ↔ ∃ i, s = i ++ 39 :: r ∧ i.head? ≠ some 39 ∧ Item i (some 39) b := by
  constructor
  · intro h
    cases s with
    | nil => simp [singleQuoted] at h
    | cons c s =>
      simp only [singleQuoted] at h
      split at h
      · cases h
      · rename_i hc
        split at h
        · cases h
        · rename_i b' r' hb
          split at h
          · cases h
            obtain ⟨i, h3, h4⟩ := (nextByte_iff _ _ _).1 hb
            refine ⟨i, h3, ?_, h4⟩
            cases i with
            | nil => exact absurd rfl (item_ne h4)
            | cons d i =>
              injection h3 with h3 _
              subst h3
              simpa using hc
          · cases h
  · rintro ⟨i, rfl, h1, h2⟩
    have hn : nextByte (i ++ 39 :: r) = some (b, 39 :: r) := (nextByte_iff _ _ _).2 ⟨i, rfl, h2⟩
    cases i with
    | nil => exact absurd rfl (item_ne h2)
    | cons c i =>
      have hc : c ≠ 39 := by rintro rfl; exact h1 rfl
      rw [List.cons_append] at hn ⊢
      simp only [singleQuoted, hc, if_false, hn]

example : Denotes 34 [92, 49, 56, 92, 120, 52, 49, 92, 110, 33] [1, 56, 65, 10, 33] :=
  .cons (i := [92, 49]) (.oct1 rfl rfl) (by simp) (.cons (i := [56]) (.raw (by decide)) (by simp)
    (.cons (i := [92, 120, 52, 49]) (.hex2 (v := 4) (w := 1) (.inl rfl) rfl rfl) (by simp)
      (.cons (i := [92, 110]) (.named (by decide)) (by simp) (.cons (i := [33]) (.raw (by decide)) (by simp) .nil))))

/-! ## C50 -/

/-- C50 (partial: strings with a double quote, or with a short octal escape before an octal digit, are excluded; see the
witnesses below). The text shown for a user string, read as a literal, denotes that string. -/
theorem C50_shown_text_partial (s d r : Bytes) (h : Valid s) (hc : Clean s)
    (hd : formatUser s = some d) : ∃ t, formatDoubleQuoted d = 34 :: t ∧ doubleQuoted (t ++ r) = some (d, r) := by
  rw [formatUser_valid h] at hd
  cases hd
  have hl : (stored s).length ≠ 0 := by unfold stored; split <;> simp
  unfold formatDoubleQuoted
  rw [if_neg hl, first_stored, Nat.mod_eq_of_lt (show s.length < 2 ^ 8 by have := h.1; omega),
    flatMap_range (fun i => (stored s).getD (i + 1) 0) formatChar, stored_chars]
  refine ⟨s.flatMap formatChar ++ [34], by simp, ?_⟩
  rw [List.append_assoc, List.singleton_append, C21_string_literal]
  exact ⟨_, s, rfl, denotes_format s h.2 hc, h.1, formatUser_valid h⟩

example : Clean [104, 105, 1, 56, 200, 55, 92] := by
  refine ⟨by decide, ?_⟩
  intro pre a b post e hs
  rcases pre with _ | ⟨p0, _ | ⟨p1, _ | ⟨p2, _ | ⟨p3, _ | ⟨p4, _ | ⟨p5, pre⟩⟩⟩⟩⟩⟩ <;>
    simp only [List.nil_append, List.cons_append, List.cons.injEq] at e <;> unfold ShortOctal at hs
  · omega
  · omega
  · obtain ⟨_, _, _, rfl, _⟩ := e; rfl
  · omega
  · omega
  · omega
  · have := congrArg List.length e.2.2.2.2.2.2; simp at this; omega

/-- C50 does not hold for all strings: a double quote is shown unescaped. -/
theorem C50_quote_not_escaped : ∃ s d t, Valid s ∧ formatUser s = some d ∧ formatDoubleQuoted d = 34 :: t ∧
    doubleQuoted t ≠ some (d, []) := by
  refine ⟨[34], [1, 34, 0], [34, 34], ⟨by decide, by decide⟩, by decide, by decide, ?_⟩
  have := quoted_of 34 rfl .nil [34]
  rw [List.nil_append] at this
  unfold doubleQuoted
  rw [this]
  decide

/-- C50 does not hold for all strings: byte 1 followed by `1` is shown as `\11`, which is one byte. -/
theorem C50_octal_merges : ∃ s d t, Valid s ∧ 34 ∉ s ∧ formatUser s = some d ∧ formatDoubleQuoted d = 34 :: t ∧
    doubleQuoted t = some ([1, 9, 0], []) ∧ d ≠ [1, 9, 0] := by
  refine ⟨[1, 49], [2, 1, 49, 0], [92, 49, 49, 34], ⟨by decide, by decide⟩, by decide, by decide, by decide, ?_, by decide⟩
  rw [C21_string_literal]
  exact ⟨[92, 49, 49], [9], rfl, .cons (i := [92, 49, 49]) (.oct2 (n := 34) rfl rfl rfl) (by simp) .nil, by decide, by decide⟩

end Ulam.Strings
