import Verif.Lexer.Skip
/-
The lexer looks at most one byte past what a token takes. Two inputs `v ++ x :: q` and `v ++ x' :: q'` are
compared, `x` and `x'` being the same byte, or white space and the slash that starts a comment.
-/
namespace Ulam.Lexer
open Ulam.Token

/-- The bytes that may follow `v`: equal ones, or white space and a slash, the latter not after a star or
a slash. -/
def Fits (x x' : Nat) (v : List Nat) : Prop :=
  x = x' ∨ (isSpace x = true ∧ x' = 47 ∧ v.getLast? ≠ some 42 ∧ v.getLast? ≠ some 47)

theorem Fits.suffix {x x' : Nat} {u v : List Nat} (h : Fits x x' u) (hv : v <:+ u) : Fits x x' v := by
  rcases h with h | ⟨h1, h2, h3, h4⟩
  · exact Or.inl h
  · obtain ⟨p, rfl⟩ := hv
    rcases List.eq_nil_or_concat v with rfl | ⟨v0, b, rfl⟩
    · exact Or.inr ⟨h1, h2, by simp, by simp⟩
    · refine Or.inr ⟨h1, h2, ?_, ?_⟩
      · simpa using h3
      · simpa using h4

theorem Fits.class {x x' : Nat} {v : List Nat} (h : Fits x x' v) (p : Nat → Bool)
    (hp : ∀ b, isSpace b = true → p b = p 47) : p x = p x' := by
  rcases h with rfl | ⟨h1, rfl, _⟩
  · rfl
  · exact hp x h1

theorem space_cases (b : Nat) (h : isSpace b = true) : b = 32 ∨ b = 9 ∨ b = 10 ∨ b = 11 ∨ b = 12 ∨ b = 13 := by
  simp only [isSpace, Bool.or_eq_true, decide_eq_true_eq, Bool.and_eq_true] at h
  omega

/-- Two results of a part of the lexer on `v ++ x :: q` and on `v ++ x' :: q'`: an error; or `x` is taken;
or the results agree. -/
def Agree {α : Type} (x : Nat) (q : List Nat) (x' : Nat) (q' : List Nat) (v : List Nat) (r r' : Option α × Str) : Prop :=
  r.1 = none ∨ r.2.rest.length ≤ q.length ∨
    (r.1 = r'.1 ∧ ∃ w, w <:+ v ∧ r.2.rest = w ++ x :: q ∧ r'.2.rest = w ++ x' :: q')

section
variable {x x' : Nat} {q q' : List Nat}

theorem readWhile_local (p : Nat → Bool) (hp : p x = p x') (v acc : List Nat) :
    (unread (readWhile p (v ++ x :: q) acc).2.2).rest.length ≤ q.length ∨
    ((readWhile p (v ++ x :: q) acc).1 = (readWhile p (v ++ x' :: q') acc).1 ∧
      ∃ w, w <:+ v ∧ (unread (readWhile p (v ++ x :: q) acc).2.2).rest = w ++ x :: q ∧
        (unread (readWhile p (v ++ x' :: q') acc).2.2).rest = w ++ x' :: q') := by
  induction v generalizing acc with
  | nil =>
    simp only [List.nil_append, readWhile]
    cases hx : p x with
    | true =>
      left
      simp only [if_true]
      have : ∀ (l acc : List Nat), (unread (readWhile p l acc).2.2).rest.length ≤ l.length := by
        intro l
        induction l with
        | nil => intro acc; simp [readWhile, unread]
        | cons b r ih =>
          intro acc
          unfold readWhile
          split
          · exact Nat.le_trans (ih _) (by simp)
          · simp [unread]
      exact this q _
    | false =>
      right
      rw [hx] at hp
      simp [← hp, unread]
  | cons b v ih =>
    simp only [List.cons_append, readWhile]
    cases hb : p b with
    | true =>
      simp only [if_true]
      rcases ih (acc ++ [b]) with h | ⟨h1, w, hw, h2, h3⟩
      · exact Or.inl h
      · exact Or.inr ⟨h1, w, hw.trans (suffix_tail b v), h2, h3⟩
    | false =>
      right
      refine ⟨by simp, b :: v, List.suffix_refl _, by simp [unread], by simp [unread]⟩

/-! Spellings. -/

set_option maxRecDepth 10000 in
theorem table_last_space : ∀ t < lastOne, ∀ b ∈ [32, 9, 10, 11, 12, 13], (spelling t).getLast? ≠ some b := by
  decide +kernel

set_option maxRecDepth 10000 in
theorem table_last_slash : ∀ t < lastOne, (spelling t).getLast? = some 47 →
    spelling t = [47] ∨ spelling t = [42, 47] ∨ spelling t = [47, 47] := by
  decide +kernel

set_option maxRecDepth 10000 in
theorem table_one : ∀ t ∈ [tokEllipsis, tokShiftLeft, tokShiftRight], (spelling t).length ≠ 1 := by
  decide +kernel

theorem typeOf_nil : typeOf [] = lastOne := by decide +kernel

theorem ttypeOf_space (b : Nat) (h : isSpace b = true) : ttypeOf [b] = lastOne := by
  rcases space_cases b h with rfl | rfl | rfl | rfl | rfl | rfl <;> decide +kernel

theorem cstr_zero (r : Bytes) : cstr (0 :: r) = [] := by simp [cstr]

theorem cstr_pair (c d : Nat) (hc : c ≠ 0) (hd : d ≠ 0) : cstr [c, d] = [c, d] :=
  cstr_id _ (by simp [Ne.symm hc, Ne.symm hd])

theorem ttypeOf_then_space (c b : Nat) (h : isSpace b = true) : ttypeOf [c, b] = lastOne := by
  by_contra hn
  unfold ttypeOf at hn
  by_cases hc : c = 0
  · subst hc; rw [cstr_zero, typeOf_nil] at hn; exact hn rfl
  · have hb : b ≠ 0 := by rintro rfl; simp [isSpace] at h
    rw [cstr_pair c b hc hb] at hn
    obtain ⟨h1, h2⟩ := spelling_of_typeOf _ hn
    refine table_last_space _ h1 b ?_ (by rw [h2]; simp)
    rcases space_cases b h with rfl | rfl | rfl | rfl | rfl | rfl <;> simp

theorem ttypeOf_then_slash (c : Nat) (h1 : c ≠ 42) (h2 : c ≠ 47) : ttypeOf [c, 47] = lastOne := by
  by_contra hn
  unfold ttypeOf at hn
  by_cases hc : c = 0
  · subst hc; rw [cstr_zero, typeOf_nil] at hn; exact hn rfl
  · rw [cstr_pair c 47 hc (by decide)] at hn
    obtain ⟨h3, h4⟩ := spelling_of_typeOf _ hn
    rcases table_last_slash _ h3 (by rw [h4]; simp) with h | h | h <;> rw [h4] at h <;> simp_all

theorem ttypeOf_one (b t : Nat) (ht : t ∈ [tokEllipsis, tokShiftLeft, tokShiftRight]) : ttypeOf [b] ≠ t := by
  intro h
  have hl : t ≠ lastOne := by
    rintro rfl
    revert ht; decide
  unfold ttypeOf at h
  by_cases hb : b = 0
  · subst hb; rw [cstr_zero, typeOf_nil] at h; exact hl h.symm
  · rw [cstr_id [b] (by simp [Ne.symm hb])] at h
    have := (spelling_of_typeOf [b] (by rw [h]; exact hl)).2
    rw [h] at this
    exact table_one t ht (by rw [this]; rfl)

/-! Operators. -/

theorem makeOperator_nil (a : Bytes) (l : Option Nat) : makeOperator a ⟨[], l⟩ = simpleOperator a ⟨[], none⟩ := rfl

theorem makeOperator_cons (a : Bytes) (c : Nat) (r : List Nat) (l : Option Nat) :
    makeOperator a ⟨c :: r, l⟩ =
      if ttypeOf (a ++ [c]) ≠ lastOne then
        if ttypeOf (a ++ [c]) = tokEllipsis then
          match checkEllipsis ⟨r, some c⟩ with
          | (false, s2) => (none, a ++ [c], s2)
          | (true, s2) => (some (ttypeOf (a ++ [c])), a ++ [c] ++ [46], s2)
        else if ttypeOf (a ++ [c]) = tokShiftLeft ∨ ttypeOf (a ++ [c]) = tokShiftRight then
          match checkShiftEqual ⟨r, some c⟩ with
          | (none, s2) => (none, a ++ [c], s2)
          | (some true, s2) => (some (ttypeOf (a ++ [c] ++ [61])), a ++ [c] ++ [61], s2)
          | (some false, s2) => (some (ttypeOf (a ++ [c])), a ++ [c], s2)
        else (some (ttypeOf (a ++ [c])), a ++ [c], ⟨r, some c⟩)
      else simpleOperator ((a ++ [c]).take 1) ⟨r, some c⟩ := rfl

theorem makeOperator_takes (a : Bytes) (c : Nat) (r : List Nat) (l : Option Nat) (h : ttypeOf (a ++ [c]) ≠ lastOne) :
    (makeOperator a ⟨c :: r, l⟩).2.2.rest.length ≤ r.length := by
  rw [makeOperator_cons, if_pos h]
  split
  · cases r with
    | nil => simp [checkEllipsis, read]
    | cons d r =>
      unfold checkEllipsis
      simp only [read]
      by_cases hd : d = 46 <;> simp [hd, unread]
  · split
    · cases r with
      | nil => simp [checkShiftEqual, read]
      | cons d r =>
        unfold checkShiftEqual
        simp only [read]
        by_cases hd : d = 61 <;> simp [hd, unread]
    · simp

theorem makeOperator_local (a v : List Nat) (l l' : Option Nat) (ha : a = [] ∨ ∃ c, a = [c])
    (hf : Fits x x' (a ++ v)) :
    (makeOperator a ⟨v ++ x :: q, l⟩).1 = none ∨ (makeOperator a ⟨v ++ x :: q, l⟩).2.2.rest.length ≤ q.length ∨
    ((makeOperator a ⟨v ++ x :: q, l⟩).1 = (makeOperator a ⟨v ++ x' :: q', l'⟩).1 ∧
      ∃ w, w <:+ v ∧ (makeOperator a ⟨v ++ x :: q, l⟩).2.2.rest = w ++ x :: q ∧
        (makeOperator a ⟨v ++ x' :: q', l'⟩).2.2.rest = w ++ x' :: q') := by
  cases v with
  | nil =>
    simp only [List.nil_append, List.append_nil] at hf ⊢
    by_cases hx : ttypeOf (a ++ [x]) ≠ lastOne
    · exact Or.inr (Or.inl (makeOperator_takes a x q l hx))
    · rw [makeOperator_cons a x q l, makeOperator_cons a x' q' l', if_neg hx]
      rcases hf with rfl | ⟨h1, rfl, h3, h4⟩
      · rw [if_neg hx]
        right; right
        unfold simpleOperator
        dsimp only
        split <;> exact ⟨rfl, [], List.suffix_refl _, by simp [unread], by simp [unread]⟩
      · rcases ha with rfl | ⟨c, rfl⟩
        · left
          unfold simpleOperator
          dsimp only [List.nil_append, List.take]
          rw [if_neg (by rw [ttypeOf_space x h1]; simp)]
        · have e : ttypeOf ([c] ++ [47]) = lastOne :=
            ttypeOf_then_slash c (by simpa using h3) (by simpa using h4)
          rw [if_neg (by rw [e]; simp)]
          right; right
          unfold simpleOperator
          dsimp only [List.cons_append, List.take]
          split <;> exact ⟨rfl, [], List.suffix_refl _, by simp [unread], by simp [unread]⟩
  | cons b v =>
    simp only [List.cons_append]
    rw [makeOperator_cons a b _ l, makeOperator_cons a b _ l']
    have h46 : (decide (x = 46)) = decide (x' = 46) := Fits.class hf (fun b => decide (b = 46)) (by
      intro b hb; rcases space_cases b hb with rfl | rfl | rfl | rfl | rfl | rfl <;> decide)
    have h61 : (decide (x = 61)) = decide (x' = 61) := Fits.class hf (fun b => decide (b = 61)) (by
      intro b hb; rcases space_cases b hb with rfl | rfl | rfl | rfl | rfl | rfl <;> decide)
    have same : v <:+ b :: v := suffix_tail b v
    split
    · split
      · cases v with
        | nil =>
          unfold checkEllipsis
          simp only [List.nil_append, read]
          by_cases hx : x = 46
          · right; left; simp [hx]
          · left; simp [hx]
        | cons d v =>
          unfold checkEllipsis
          simp only [List.cons_append, read]
          by_cases hd : d = 46
          · right; right
            simp only [hd, ne_eq, not_true_eq_false, if_false, true_and]
            exact ⟨v, (suffix_tail 46 v).trans (hd ▸ same), rfl, rfl⟩
          · left; simp [hd]
      · split
        · cases v with
          | nil =>
            unfold checkShiftEqual
            simp only [List.nil_append, read]
            by_cases hx : x = 61
            · right; left; simp [hx]
            · have hx' : x' ≠ 61 := by
                intro h; simp [h] at h61; exact hx h61
              right; right
              simp only [hx, hx', if_false, true_and]
              exact ⟨[], List.nil_suffix, by simp [unread], by simp [unread]⟩
          | cons d v =>
            unfold checkShiftEqual
            simp only [List.cons_append, read]
            right; right
            by_cases hd : d = 61
            · simp only [hd, if_true, true_and]
              exact ⟨v, (suffix_tail 61 v).trans (hd ▸ same), rfl, rfl⟩
            · simp only [hd, if_false, true_and]
              exact ⟨d :: v, same, by simp [unread], by simp [unread]⟩
        · right; right
          exact ⟨rfl, v, same, rfl, rfl⟩
    · right; right
      unfold simpleOperator
      dsimp only
      split <;> exact ⟨rfl, b :: v, List.suffix_refl _, by simp [unread], by simp [unread]⟩

/-- The first step of an overload name: one byte. -/
theorem makeOperator_first (b : Nat) (r : List Nat) (l : Option Nat) :
    (makeOperator [] ⟨b :: r, l⟩).1 = none ∨ makeOperator [] ⟨b :: r, l⟩ = (some (ttypeOf [b]), [b], ⟨r, some b⟩) := by
  rw [makeOperator_cons]
  simp only [List.nil_append]
  by_cases h : ttypeOf [b] ≠ lastOne
  · rw [if_pos h, if_neg (ttypeOf_one b _ (by simp)), if_neg]
    · exact Or.inr rfl
    · rintro (h | h)
      · exact ttypeOf_one b _ (by simp) h
      · exact ttypeOf_one b _ (by simp) h
  · rw [if_neg h]
    left
    unfold simpleOperator
    dsimp only [List.take]
    rw [if_neg h]

/-! Words, numbers, flags. -/

theorem word_boundary {v : List Nat} (hf : Fits x x' v) : isWord x = isWord x' := hf.class isWord (by
  intro b hb; rcases space_cases b hb with rfl | rfl | rfl | rfl | rfl | rfl <;> decide)

theorem unread_last (s : Str) : (unread s).last = none := by
  obtain ⟨r, l⟩ := s
  cases l <;> rfl

theorem unread_eq (s : Str) : unread s = ⟨(unread s).rest, none⟩ := by
  rw [← unread_last s]

/-- The second half of `makeWord`. -/
def wordEnd (name : Bytes) (s2 : Str) : Option Tok × Str :=
  let t := ttypeOf name
  let ident : Option Tok :=
    if name.length > maxLength then none
    else if isUpper (name.headD 0) then some ⟨tokTypeIdentifier, .text name⟩
    else some ⟨tokIdentifier, .text name⟩
  if t ≠ lastOne then
    match special t with
    | .keyword | .typekeyword | .ctlkeyword => (some ⟨t, .none⟩, s2)
    | .operatorkeyword =>
      match makeOperator [] s2 with
      | (none, _, s3) => (none, s3)
      | (some _, opstr, s3) =>
        match makeOperator opstr s3 with
        | (none, _, s4) => (none, s4)
        | (some op, _, s4) =>
          match fullName op with
          | some nm => (some ⟨tokIdentifier, .text nm⟩, s4)
          | none => (none, s4)
    | _ => (none, s2)
  else (ident, s2)

theorem makeWord_eq (a : Bytes) (s : Str) :
    makeWord a s = wordEnd (readWhile isWord s.rest a).1 (unread (readWhile isWord s.rest a).2.2) := rfl

theorem wordEnd_suffix (name : Bytes) (s : Str) : (wordEnd name s).2.rest <:+ s.rest := by
  unfold wordEnd
  dsimp only
  split
  · split
    · exact List.suffix_refl _
    · exact List.suffix_refl _
    · exact List.suffix_refl _
    · have h1 := makeOperator_suffix [] s
      generalize makeOperator [] s = m at h1
      obtain ⟨o, opstr, s3⟩ := m
      cases o with
      | none => exact h1
      | some t =>
        have h2 := makeOperator_suffix opstr s3
        dsimp only
        generalize makeOperator opstr s3 = m at h2
        obtain ⟨o, opstr, s4⟩ := m
        cases o with
        | none => exact h2.trans h1
        | some op =>
          dsimp only
          split <;> exact h2.trans h1
    · exact List.suffix_refl _
  · exact List.suffix_refl _

theorem wordEnd_local (name v : List Nat) (hf : Fits x x' v) :
    Agree x q x' q' v (wordEnd name ⟨v ++ x :: q, none⟩) (wordEnd name ⟨v ++ x' :: q', none⟩) := by
  have same : ∀ t : Option Tok, Agree x q x' q' v (t, ⟨v ++ x :: q, none⟩) (t, ⟨v ++ x' :: q', none⟩) :=
    fun t => Or.inr (Or.inr ⟨rfl, v, List.suffix_refl _, rfl, rfl⟩)
  unfold wordEnd
  dsimp only
  split
  · split
    · exact same _
    · exact same _
    · exact same _
    · cases v with
      | nil =>
        rcases hf with rfl | ⟨h1, h2, _⟩
        · simp only [List.nil_append]
          rcases makeOperator_first x q none with h | h
          · left
            generalize makeOperator [] ⟨x :: q, none⟩ = m at h
            obtain ⟨o, opstr, s3⟩ := m
            simp only at h
            subst h
            rfl
          · right; left
            rw [h]
            dsimp only
            have h2 := makeOperator_suffix [x] ⟨q, some x⟩
            generalize makeOperator [x] ⟨q, some x⟩ = m at h2
            obtain ⟨o, opstr, s4⟩ := m
            cases o with
            | none => exact h2.length_le
            | some op =>
              dsimp only
              split <;> exact h2.length_le
        · left
          rw [List.nil_append, makeOperator_cons]
          simp only [List.nil_append]
          rw [if_neg (by rw [ttypeOf_space x h1]; simp)]
          unfold simpleOperator
          dsimp only [List.take]
          rw [if_neg (by rw [ttypeOf_space x h1]; simp)]
      | cons b v =>
        simp only [List.cons_append]
        rcases makeOperator_first b (v ++ x :: q) none with h | h
        · left
          generalize makeOperator [] ⟨b :: (v ++ x :: q), none⟩ = m at h
          obtain ⟨o, opstr, s3⟩ := m
          simp only at h
          subst h
          rfl
        · have h' : makeOperator [] ⟨b :: (v ++ x' :: q'), none⟩ =
              (some (ttypeOf [b]), [b], ⟨v ++ x' :: q', some b⟩) := by
            rw [makeOperator_cons] at h ⊢
            simp only [List.nil_append] at h ⊢
            by_cases hl : ttypeOf [b] ≠ lastOne
            · rw [if_pos hl, if_neg (ttypeOf_one b _ (by simp)), if_neg]
              rintro (h | h)
              · exact ttypeOf_one b _ (by simp) h
              · exact ttypeOf_one b _ (by simp) h
            · rw [if_neg hl] at h
              unfold simpleOperator at h
              dsimp only [List.take] at h
              rw [if_neg hl] at h
              simp at h
          rw [h, h']
          dsimp only
          have hm := makeOperator_local (q := q) (q' := q') [b] v (some b) (some b) (Or.inr ⟨b, rfl⟩) hf
          generalize makeOperator [b] ⟨v ++ x :: q, some b⟩ = m at hm
          generalize makeOperator [b] ⟨v ++ x' :: q', some b⟩ = m' at hm
          obtain ⟨o, opstr, s4⟩ := m
          obtain ⟨o', opstr', s4'⟩ := m'
          simp only at hm
          rcases hm with rfl | hm | ⟨rfl, w, hw, h2, h3⟩
          · left; rfl
          · right; left
            cases o with
            | none => exact hm
            | some op => dsimp only; split <;> exact hm
          · right; right
            cases o with
            | none => exact ⟨rfl, w, hw.trans (suffix_tail b v), h2, h3⟩
            | some op =>
              dsimp only
              split <;> exact ⟨rfl, w, hw.trans (suffix_tail b v), h2, h3⟩
    · exact same _
  · exact same _

theorem makeWord_local (a v : List Nat) (l l' : Option Nat) (hf : Fits x x' v) :
    Agree x q x' q' v (makeWord a ⟨v ++ x :: q, l⟩) (makeWord a ⟨v ++ x' :: q', l'⟩) := by
  rw [makeWord_eq, makeWord_eq]
  rcases readWhile_local (q := q) (q' := q') isWord (word_boundary hf) v a with h | ⟨h1, w, hw, h2, h3⟩
  · right; left
    exact Nat.le_trans (wordEnd_suffix _ _).length_le h
  · dsimp only
    rw [← h1, unread_eq (readWhile isWord (v ++ x :: q) a).2.2, unread_eq (readWhile isWord (v ++ x' :: q') a).2.2,
      h2, h3]
    rcases wordEnd_local (q := q) (q' := q') (readWhile isWord (v ++ x :: q) a).1 w (hf.suffix hw) with
      h | h | ⟨h4, w', hw', h5, h6⟩
    · exact Or.inl h
    · exact Or.inr (Or.inl h)
    · exact Or.inr (Or.inr ⟨h4, w', hw'.trans hw, h5, h6⟩)

theorem makeFlag_local (v : List Nat) (l l' : Option Nat) (hf : Fits x x' v) :
    Agree x q x' q' v (makeFlag ⟨v ++ x :: q, l⟩) (makeFlag ⟨v ++ x' :: q', l'⟩) := by
  cases v with
  | nil =>
    unfold makeFlag
    simp only [List.nil_append, read]
    by_cases hx : isUpper x = true
    · right; left
      rw [if_pos hx]
      have := readWhile_suffix isWord q [64, x]
      split <;> exact this.length_le
    · left
      rw [if_neg hx]
  | cons b v =>
    unfold makeFlag
    simp only [List.cons_append, read]
    by_cases hb : isUpper b = true
    · rw [if_pos hb, if_pos hb]
      rcases readWhile_local (q := q) (q' := q') isWord (word_boundary hf) v [64, b] with h | ⟨h1, w, hw, h2, h3⟩
      · right; left
        split <;> exact h
      · rw [← h1]
        split
        · exact Or.inr (Or.inr ⟨rfl, w, hw.trans (suffix_tail b v), h2, h3⟩)
        · exact Or.inl rfl
    · left
      rw [if_neg hb]

theorem makeSubstitute_local (v : List Nat) (l l' : Option Nat) (hf : Fits x x' v) :
    Agree x q x' q' v (makeSubstitute ⟨v ++ x :: q, l⟩) (makeSubstitute ⟨v ++ x' :: q', l'⟩) := by
  cases v with
  | nil =>
    unfold makeSubstitute
    simp only [List.nil_append, read]
    by_cases hx : x = 95
    · right; left
      rw [if_pos hx]
      have := readWhile_suffix (fun b => isUpper b || b = 95) q [95, x]
      split <;> exact this.length_le
    · left
      rw [if_neg hx]
  | cons b v =>
    unfold makeSubstitute
    simp only [List.cons_append, read]
    by_cases hb : b = 95
    · rw [if_pos hb, if_pos hb]
      rcases readWhile_local (q := q) (q' := q') (fun b => isUpper b || b = 95)
        (hf.class (fun b => isUpper b || decide (b = 95)) (by
          intro b hb; rcases space_cases b hb with rfl | rfl | rfl | rfl | rfl | rfl <;> decide)) v [95, b] with
        h | ⟨h1, w, hw, h2, h3⟩
      · right; left
        split <;> exact h
      · rw [← h1]
        split
        · exact Or.inr (Or.inr ⟨rfl, w, hw.trans (suffix_tail b v), h2, h3⟩)
        · exact Or.inl rfl
    · left
      rw [if_neg hb]

theorem numberLoop_local (v acc : List Nat) (f : NumFlags) (hf : Fits x x' v) :
    (unread (numberLoop (v ++ x :: q) acc f).2.2.2).rest.length ≤ q.length ∨
    ((numberLoop (v ++ x :: q) acc f).1 = (numberLoop (v ++ x' :: q') acc f).1 ∧
     (numberLoop (v ++ x :: q) acc f).2.1 = (numberLoop (v ++ x' :: q') acc f).2.1 ∧
     ((∃ b w, b :: w <:+ v ∧ (numberLoop (v ++ x :: q) acc f).2.2 = (some b, ⟨w ++ x :: q, some b⟩) ∧
        (numberLoop (v ++ x' :: q') acc f).2.2 = (some b, ⟨w ++ x' :: q', some b⟩)) ∨
      ((numberLoop (v ++ x :: q) acc f).2.2 = (some x, ⟨q, some x⟩) ∧
        (numberLoop (v ++ x' :: q') acc f).2.2 = (some x', ⟨q', some x'⟩)))) := by
  induction v generalizing acc f with
  | nil =>
    simp only [List.nil_append, numberLoop]
    have hp : (isXDigit x || decide (x = 46)) = (isXDigit x' || decide (x' = 46)) :=
      hf.class (fun b => isXDigit b || decide (b = 46)) (by
        intro b hb; rcases space_cases b hb with rfl | rfl | rfl | rfl | rfl | rfl <;> decide)
    cases hx : (isXDigit x || decide (x = 46)) with
    | true =>
      left
      simp only [if_true]
      have : ∀ (l acc : List Nat) (f), (unread (numberLoop l acc f).2.2.2).rest.length ≤ l.length := by
        intro l
        induction l with
        | nil => intro acc f; simp [numberLoop, unread]
        | cons b r ih =>
          intro acc f
          unfold numberLoop
          split
          · exact Nat.le_trans (ih _ _) (by simp)
          · simp [unread]
      exact this q _ _
    | false =>
      right
      rw [hx] at hp
      rw [← hp]
      simp
  | cons b v ih =>
    simp only [List.cons_append, numberLoop]
    cases hb : (isXDigit b || decide (b = 46)) with
    | true =>
      simp only [if_true]
      rcases ih (acc ++ [b]) (laterFlags f b) (hf.suffix (suffix_tail b v)) with h | ⟨h1, h2, h3⟩
      · exact Or.inl h
      · refine Or.inr ⟨h1, h2, ?_⟩
        rcases h3 with ⟨c, w, hw, h4⟩ | h3
        · exact Or.inl ⟨c, w, hw.trans (suffix_tail b v), h4⟩
        · exact Or.inr h3
    | false =>
      right
      simp only [Bool.false_eq_true, if_false, true_and]
      exact Or.inl ⟨b, v, List.suffix_refl _, rfl, rfl⟩

theorem finishNumber_past (acc : Bytes) (f : NumFlags) (c : Option Nat) (s : Str) :
    (finishNumber acc f c s).2.rest.length ≤ (unread s).rest.length := by
  have h := (rest_suffix_unread s).length_le
  unfold finishNumber
  dsimp only
  by_cases hu : c = some 117 ∨ c = some 85
  · simp only [if_pos hu]
    split
    · exact h
    · split
      · exact h
      · split <;> exact h
  · simp only [if_neg hu]
    split
    · exact Nat.le_refl _
    · split
      · exact Nat.le_refl _
      · split <;> exact Nat.le_refl _

/-- Ending a number at a byte that comes before the boundary. -/
theorem finishNumber_before (acc : Bytes) (f : NumFlags) (b : Nat) (w : List Nat) :
    Agree x q x' q' (b :: w) (finishNumber acc f (some b) ⟨w ++ x :: q, some b⟩)
      (finishNumber acc f (some b) ⟨w ++ x' :: q', some b⟩) := by
  unfold finishNumber
  dsimp only
  right; right
  by_cases hu : some b = some 117 ∨ some b = some 85
  · simp only [if_pos hu]
    refine ⟨?_, w, suffix_tail b w, ?_, ?_⟩
    · split
      · rfl
      · split
        · rfl
        · split <;> rfl
    · split
      · rfl
      · split
        · rfl
        · split <;> rfl
    · split
      · rfl
      · split
        · rfl
        · split <;> rfl
  · simp only [if_neg hu]
    refine ⟨?_, b :: w, List.suffix_refl _, ?_, ?_⟩
    · split
      · rfl
      · split
        · rfl
        · split <;> rfl
    · split
      · rfl
      · split
        · rfl
        · split <;> rfl
    · split
      · rfl
      · split
        · rfl
        · split <;> rfl

/-- Ending a number at the boundary. -/
theorem finishNumber_on (acc : Bytes) (f : NumFlags) (v : List Nat) (hf : Fits x x' v) :
    Agree x q x' q' [] (finishNumber acc f (some x) ⟨q, some x⟩) (finishNumber acc f (some x') ⟨q', some x'⟩) := by
  by_cases hu : some x = some 117 ∨ some x = some 85
  · right; left
    unfold finishNumber
    simp only [if_pos hu]
    split
    · exact Nat.le_refl _
    · split
      · exact Nat.le_refl _
      · split <;> exact Nat.le_refl _
  · have hu' : ¬ (some x' = some 117 ∨ some x' = some 85) := by
      rcases hf with rfl | ⟨_, rfl, _⟩
      · exact hu
      · simp
    right; right
    unfold finishNumber
    simp only [if_neg hu, if_neg hu']
    refine ⟨?_, [], List.suffix_refl _, ?_, ?_⟩
    · split
      · rfl
      · split
        · rfl
        · split <;> rfl
    · split
      · rfl
      · split
        · rfl
        · split <;> rfl
    · split
      · rfl
      · split
        · rfl
        · split <;> rfl

theorem Agree.mono {α : Type} {v w : List Nat} {r r' : Option α × Str} (h : Agree x q x' q' w r r') (hw : w <:+ v) :
    Agree x q x' q' v r r' := by
  rcases h with h | h | ⟨h1, u, hu, h2, h3⟩
  · exact Or.inl h
  · exact Or.inr (Or.inl h)
  · exact Or.inr (Or.inr ⟨h1, u, hu.trans hw, h2, h3⟩)

theorem makeNumber_local (first : Nat) (v : List Nat) (l l' : Option Nat) (hf : Fits x x' v) :
    Agree x q x' q' v (makeNumber first ⟨v ++ x :: q, l⟩) (makeNumber first ⟨v ++ x' :: q', l'⟩) := by
  cases v with
  | nil =>
    have hp := hf.class (fun c => isXDigit c || c = 120 || c = 88 || c = 46) (by
        intro b hb; rcases space_cases b hb with rfl | rfl | rfl | rfl | rfl | rfl <;> decide)
    unfold makeNumber
    simp only [List.nil_append, read]
    by_cases hx : (isXDigit x || decide (x = 120) || decide (x = 88) || decide (x = 46)) = true
    · right; left
      rw [if_pos hx]
      have : ∀ (l acc : List Nat) (f), (unread (numberLoop l acc f).2.2.2).rest.length ≤ l.length := by
        intro l
        induction l with
        | nil => intro acc f; simp [numberLoop, unread]
        | cons b r ih =>
          intro acc f
          unfold numberLoop
          split
          · exact Nat.le_trans (ih _ _) (by simp)
          · simp [unread]
      exact Nat.le_trans (finishNumber_past _ _ _ _) (this _ _ _)
    · rw [if_neg hx]
      rw [hp] at hx
      rw [if_neg hx]
      exact finishNumber_on _ _ [] hf
  | cons b v =>
    unfold makeNumber
    simp only [List.cons_append, read]
    by_cases hb : (isXDigit b || decide (b = 120) || decide (b = 88) || decide (b = 46)) = true
    · rw [if_pos hb, if_pos hb]
      have hn := numberLoop_local (q := q) (q' := q') v [first, b] (secondFlags (decide (first = 48)) b)
        (hf.suffix (suffix_tail b v))
      generalize numberLoop (v ++ x :: q) [first, b] (secondFlags (decide (first = 48)) b) = m at hn
      generalize numberLoop (v ++ x' :: q') [first, b] (secondFlags (decide (first = 48)) b) = m' at hn
      obtain ⟨acc, f, c, s⟩ := m
      obtain ⟨acc', f', c', s'⟩ := m'
      simp only at hn ⊢
      rcases hn with hn | ⟨rfl, rfl, ⟨d, w, hw, h1, h2⟩ | ⟨h1, h2⟩⟩
      · exact Or.inr (Or.inl (Nat.le_trans (finishNumber_past _ _ _ _) hn))
      · simp only [Prod.mk.injEq] at h1 h2
        obtain ⟨rfl, rfl⟩ := h1
        obtain ⟨rfl, rfl⟩ := h2
        exact (finishNumber_before _ _ d w).mono (hw.trans (suffix_tail b v))
      · simp only [Prod.mk.injEq] at h1 h2
        obtain ⟨rfl, rfl⟩ := h1
        obtain ⟨rfl, rfl⟩ := h2
        exact (finishNumber_on _ _ _ hf).mono List.nil_suffix
    · rw [if_neg hb, if_neg hb]
      exact finishNumber_before _ _ b v

/-! Quotes. -/

theorem octalLoop_local (k n val : Nat) (v : List Nat) (l l' : Option Nat) (hf : Fits x x' v) :
    Agree x q x' q' v (octalLoop k n val ⟨v ++ x :: q, l⟩) (octalLoop k n val ⟨v ++ x' :: q', l'⟩) := by
  induction k generalizing n val v l l' with
  | zero => exact Or.inr (Or.inr ⟨rfl, v, List.suffix_refl _, rfl, rfl⟩)
  | succ k ih =>
    unfold octalLoop
    cases v with
    | nil =>
      simp only [List.nil_append, read]
      have hp := hf.class (fun c => decide (48 ≤ c ∧ c < 56)) (by
        intro b hb; rcases space_cases b hb with rfl | rfl | rfl | rfl | rfl | rfl <;> decide)
      by_cases hx : 48 ≤ x ∧ x < 56
      · right; left
        rw [if_pos hx]
        exact octalLoop_length _ _ _ ⟨q, some x⟩
      · have hx' : ¬ (48 ≤ x' ∧ x' < 56) := by
          intro h; simp only [decide_eq_decide] at hp; exact hx (hp.2 h)
        rw [if_neg hx, if_neg hx']
        by_cases hn : n = 0
        · left; rw [if_pos hn]
        · rw [if_neg hn, if_neg hn]
          exact Or.inr (Or.inr ⟨rfl, [], List.suffix_refl _, by simp [unread], by simp [unread]⟩)
    | cons b v =>
      simp only [List.cons_append, read]
      by_cases hb : 48 ≤ b ∧ b < 56
      · rw [if_pos hb, if_pos hb]
        exact (ih _ _ v _ _ (hf.suffix (suffix_tail b v))).mono (suffix_tail b v)
      · rw [if_neg hb, if_neg hb]
        by_cases hn : n = 0
        · left; rw [if_pos hn]
        · rw [if_neg hn, if_neg hn]
          exact Or.inr (Or.inr ⟨rfl, b :: v, List.suffix_refl _, by simp [unread], by simp [unread]⟩)

theorem hexLoop_local (k n val : Nat) (v : List Nat) (l l' : Option Nat) (hf : Fits x x' v) :
    Agree x q x' q' v (hexLoop k n val ⟨v ++ x :: q, l⟩) (hexLoop k n val ⟨v ++ x' :: q', l'⟩) := by
  induction k generalizing n val v l l' with
  | zero => exact Or.inr (Or.inr ⟨rfl, v, List.suffix_refl _, rfl, rfl⟩)
  | succ k ih =>
    unfold hexLoop
    cases v with
    | nil =>
      simp only [List.nil_append, read]
      cases hx : hexValue x with
      | some d =>
        right; left
        exact hexLoop_length _ _ _ ⟨q, some x⟩
      | none =>
        have hx' : hexValue x' = none := by
          rcases hf with rfl | ⟨_, rfl, _⟩
          · exact hx
          · decide
        rw [hx']
        dsimp only
        by_cases hn : n = 0
        · left; rw [if_pos hn]
        · rw [if_neg hn, if_neg hn]
          exact Or.inr (Or.inr ⟨rfl, [], List.suffix_refl _, by simp [unread], by simp [unread]⟩)
    | cons b v =>
      simp only [List.cons_append, read]
      cases hb : hexValue b with
      | some d =>
        exact (ih _ _ v _ _ (hf.suffix (suffix_tail b v))).mono (suffix_tail b v)
      | none =>
        dsimp only
        by_cases hn : n = 0
        · left; rw [if_pos hn]
        · rw [if_neg hn, if_neg hn]
          exact Or.inr (Or.inr ⟨rfl, b :: v, List.suffix_refl _, by simp [unread], by simp [unread]⟩)

theorem nextByte_local (v : List Nat) (l l' : Option Nat) (hf : Fits x x' v) :
    Agree x q x' q' v (nextByte ⟨v ++ x :: q, l⟩) (nextByte ⟨v ++ x' :: q', l'⟩) := by
  cases v with
  | nil =>
    right; left
    have := nextByte_length x q l
    simp only [List.length_cons] at this
    exact Nat.le_of_lt_succ this
  | cons b v =>
    unfold nextByte
    simp only [List.cons_append, read]
    by_cases hb : b = 92
    · rw [if_pos hb, if_pos hb]
      cases v with
      | nil =>
        right; left
        simp only [List.nil_append]
        split
        · rename_i hd
          simp only [unread]
          show (octalLoop (2 + 1) 0 0 ⟨x :: q, none⟩).2.rest.length ≤ q.length
          unfold octalLoop
          simp only [read]
          rw [if_pos (by omega)]
          exact octalLoop_length _ _ _ ⟨q, some x⟩
        · split
          · exact hexLoop_length _ _ _ ⟨q, some x⟩
          · exact Nat.le_refl _
      | cons d v =>
        simp only [List.cons_append]
        have hv : v <:+ b :: d :: v := (suffix_tail d v).trans (suffix_tail b _)
        split
        · simp only [unread]
          exact (octalLoop_local 3 0 0 (d :: v) none none (hf.suffix (suffix_tail b _))).mono (suffix_tail b _)
        · split
          · exact (hexLoop_local 2 0 0 v _ _ (hf.suffix hv)).mono hv
          · exact Or.inr (Or.inr ⟨rfl, v, hv, rfl, rfl⟩)
    · rw [if_neg hb, if_neg hb]
      exact Or.inr (Or.inr ⟨rfl, v, suffix_tail b v, rfl, rfl⟩)

theorem quoteLoop_cons (b : Nat) (r : List Nat) (l : Option Nat) (acc : Bytes) :
    quoteLoop ⟨b :: r, l⟩ acc =
      if b = 34 then (some acc, ⟨r, some b⟩)
      else match nextByte ⟨b :: r, none⟩ with
        | (none, s1) => (none, s1)
        | (some y, s1) => quoteLoop s1 (acc ++ [y]) := by
  rw [quoteLoop.eq_def]
  dsimp only
  split
  · rfl
  · split
    · rename_i s1 e; rw [e]
    · rename_i y s1 e; rw [e]

theorem quoteLoop_past (b : Nat) (r : List Nat) (l : Option Nat) (acc : Bytes) :
    (quoteLoop ⟨b :: r, l⟩ acc).2.rest.length ≤ r.length := by
  rw [quoteLoop_cons]
  split
  · exact Nat.le_refl _
  · have h := nextByte_length b r none
    generalize nextByte ⟨b :: r, none⟩ = m at h
    obtain ⟨o, s1⟩ := m
    simp only [List.length_cons] at h
    cases o with
    | none => exact Nat.le_of_lt_succ h
    | some y => exact Nat.le_trans (quoteLoop_suffix s1 (acc ++ [y])).length_le (Nat.le_of_lt_succ h)

theorem quoteLoop_local (v : List Nat) (l l' : Option Nat) (acc : Bytes) (hf : Fits x x' v) :
    Agree x q x' q' v (quoteLoop ⟨v ++ x :: q, l⟩ acc) (quoteLoop ⟨v ++ x' :: q', l'⟩ acc) := by
  induction hn : v.length using Nat.strong_induction_on generalizing v l l' acc with
  | _ n ih =>
    subst hn
    cases v with
    | nil => exact Or.inr (Or.inl (quoteLoop_past x q l acc))
    | cons b v =>
      simp only [List.cons_append]
      rw [quoteLoop_cons, quoteLoop_cons]
      by_cases hb : b = 34
      · rw [if_pos hb, if_pos hb]
        exact Or.inr (Or.inr ⟨rfl, v, suffix_tail b v, rfl, rfl⟩)
      · rw [if_neg hb, if_neg hb]
        have h1 := nextByte_local (q := q) (q' := q') (b :: v) none none hf
        have h2 := nextByte_length b (v ++ x :: q) none
        simp only [List.cons_append] at h1
        generalize nextByte ⟨b :: (v ++ x :: q), none⟩ = m at h1 h2
        generalize nextByte ⟨b :: (v ++ x' :: q'), none⟩ = m' at h1
        obtain ⟨o, s⟩ := m
        obtain ⟨o', s'⟩ := m'
        rcases h1 with h | h | ⟨h, w, hw, e1, e2⟩
        · simp only at h; subst h; exact Or.inl rfl
        · cases o with
          | none => exact Or.inl rfl
          | some y => exact Or.inr (Or.inl (Nat.le_trans (quoteLoop_suffix s (acc ++ [y])).length_le h))
        · simp only at h e1 e2
          subst h
          cases o with
          | none => exact Or.inl rfl
          | some y =>
            obtain ⟨r, l1⟩ := s
            obtain ⟨r', l1'⟩ := s'
            simp only at e1 e2 h2
            subst e1 e2
            refine (ih w.length ?_ w l1 l1' _ (hf.suffix hw) rfl).mono hw
            simp only [List.length_append, List.length_cons] at h2 ⊢
            omega

theorem makeDoubleQuote_local (v : List Nat) (l l' : Option Nat) (hf : Fits x x' v) :
    Agree x q x' q' v (makeDoubleQuote ⟨v ++ x :: q, l⟩) (makeDoubleQuote ⟨v ++ x' :: q', l'⟩) := by
  have h := quoteLoop_local (q := q) (q' := q') v l l' [] hf
  unfold makeDoubleQuote
  generalize quoteLoop ⟨v ++ x :: q, l⟩ [] = m at h
  generalize quoteLoop ⟨v ++ x' :: q', l'⟩ [] = m' at h
  obtain ⟨o, s⟩ := m
  obtain ⟨o', s'⟩ := m'
  rcases h with h | h | ⟨h, w, hw, e1, e2⟩
  · simp only at h; subst h; exact Or.inl rfl
  · cases o <;> exact Or.inr (Or.inl h)
  · simp only at h; subst h
    cases o <;> exact Or.inr (Or.inr ⟨rfl, w, hw, e1, e2⟩)

/-- The end of `makeSingleQuote`. -/
def quoteEnd (str : Bytes) (s1 : Str) : Option Tok × Str :=
  match read s1 with
  | (c, s2) => if c = some 39 then (some ⟨tokSquotedString, .text str⟩, s2) else (none, unread s2)

theorem quoteEnd_suffix (str : Bytes) (s : Str) : (quoteEnd str s).2.rest <:+ s.rest := by
  obtain ⟨r, l⟩ := s
  unfold quoteEnd read
  cases r with
  | nil => simp [unread]
  | cons b r =>
    dsimp only
    split
    · exact suffix_tail b r
    · simp [unread]

theorem quoteEnd_local (str v : List Nat) (l l' : Option Nat) :
    Agree x q x' q' v (quoteEnd str ⟨v ++ x :: q, l⟩) (quoteEnd str ⟨v ++ x' :: q', l'⟩) := by
  unfold quoteEnd read
  cases v with
  | nil =>
    dsimp only [List.nil_append]
    split
    · exact Or.inr (Or.inl (Nat.le_refl _))
    · exact Or.inl rfl
  | cons b v =>
    dsimp only [List.cons_append]
    split
    · exact Or.inr (Or.inr ⟨rfl, v, suffix_tail b v, rfl, rfl⟩)
    · exact Or.inl rfl

theorem makeSingleQuote_cons (b : Nat) (r : List Nat) (l : Option Nat) :
    makeSingleQuote ⟨b :: r, l⟩ =
      if b = 39 then (none, ⟨r, some b⟩)
      else match nextByte ⟨b :: r, none⟩ with
        | (none, s2) => (none, s2)
        | (some y, s2) => quoteEnd [y] s2 := rfl

theorem makeSingleQuote_local (v : List Nat) (l l' : Option Nat) (hf : Fits x x' v) :
    Agree x q x' q' v (makeSingleQuote ⟨v ++ x :: q, l⟩) (makeSingleQuote ⟨v ++ x' :: q', l'⟩) := by
  cases v with
  | nil =>
    simp only [List.nil_append]
    rw [makeSingleQuote_cons]
    by_cases hx : x = 39
    · left; rw [if_pos hx]
    · right; left
      rw [if_neg hx]
      have h := nextByte_length x q none
      generalize nextByte ⟨x :: q, none⟩ = m at h
      obtain ⟨o, s⟩ := m
      simp only [List.length_cons] at h
      cases o with
      | none => exact Nat.le_of_lt_succ h
      | some y => exact Nat.le_trans (quoteEnd_suffix [y] s).length_le (Nat.le_of_lt_succ h)
  | cons b v =>
    simp only [List.cons_append]
    rw [makeSingleQuote_cons, makeSingleQuote_cons]
    by_cases hb : b = 39
    · left; rw [if_pos hb]
    · rw [if_neg hb, if_neg hb]
      have h := nextByte_local (q := q) (q' := q') (b :: v) none none hf
      simp only [List.cons_append] at h
      generalize nextByte ⟨b :: (v ++ x :: q), none⟩ = m at h
      generalize nextByte ⟨b :: (v ++ x' :: q'), none⟩ = m' at h
      obtain ⟨o, s⟩ := m
      obtain ⟨o', s'⟩ := m'
      rcases h with h | h | ⟨h, w, hw, e1, e2⟩
      · simp only at h; subst h; exact Or.inl rfl
      · cases o with
        | none => exact Or.inl rfl
        | some y => exact Or.inr (Or.inl (Nat.le_trans (quoteEnd_suffix [y] s).length_le h))
      · simp only at h e1 e2
        subst h
        cases o with
        | none => exact Or.inl rfl
        | some y =>
          obtain ⟨r, l1⟩ := s
          obtain ⟨r', l1'⟩ := s'
          simp only at e1 e2
          subst e1 e2
          exact (quoteEnd_local [y] w l1 l1').mono hw

theorem dispatch_local (c : Nat) (v : List Nat) (l : Option Nat) (hf : Fits x x' (c :: v)) :
    Agree x q x' q' v (dispatch (some c) ⟨v ++ x :: q, l⟩) (dispatch (some c) ⟨v ++ x' :: q', l⟩) := by
  have hv := hf.suffix (suffix_tail c v)
  unfold dispatch
  dsimp only
  split
  · exact Or.inr (Or.inr ⟨rfl, v, List.suffix_refl _, rfl, rfl⟩)
  · exact makeDoubleQuote_local v l l hv
  · exact makeSingleQuote_local v l l hv
  · split
    · exact makeWord_local _ v l l hv
    · split
      · exact makeNumber_local _ v l l hv
      · split
        · exact makeFlag_local v l l hv
        · split
          · exact makeSubstitute_local v l l hv
          · have h := makeOperator_local (q := q) (q' := q') [c] v l l (Or.inr ⟨c, rfl⟩) hf
            simp only [Option.getD_some]
            generalize makeOperator [c] ⟨v ++ x :: q, l⟩ = m at h
            generalize makeOperator [c] ⟨v ++ x' :: q', l⟩ = m' at h
            obtain ⟨o, str, s⟩ := m
            obtain ⟨o', str', s'⟩ := m'
            rcases h with h | h | ⟨h, w, hw, e1, e2⟩
            · simp only at h; subst h; exact Or.inl rfl
            · cases o <;> exact Or.inr (Or.inl h)
            · simp only at h; subst h
              cases o <;> exact Or.inr (Or.inr ⟨rfl, w, hw, e1, e2⟩)

/-! Comments. -/

/-- Results of skipping: the byte and the stream after it. Either `x` is taken and passed; or both end before
`x`; or the first ends on `x`. -/
def Skipped (x : Nat) (q : List Nat) (x' : Nat) (q' v : List Nat) (r r' : Option Nat × Str) : Prop :=
  (unread r.2).rest.length ≤ q.length ∨
  (∃ b w l, b :: w <:+ v ∧ (l = none ∨ l = some b) ∧ r = (some b, ⟨w ++ x :: q, l⟩) ∧ r' = (some b, ⟨w ++ x' :: q', l⟩)) ∨
  (r = (some x, ⟨q, some x⟩) ∧ (x = x' → r' = (some x', ⟨q', some x'⟩)))

theorem Skipped.mono {v w : List Nat} {r r' : Option Nat × Str} (h : Skipped x q x' q' w r r') (hw : w <:+ v) :
    Skipped x q x' q' v r r' := by
  rcases h with h | ⟨b, u, l, h1, h2⟩ | h
  · exact Or.inl h
  · exact Or.inr (Or.inl ⟨b, u, l, h1.trans hw, h2⟩)
  · exact Or.inr (Or.inr h)

theorem read_skipped (v : List Nat) (l l' : Option Nat) :
    Skipped x q x' q' v (read ⟨v ++ x :: q, l⟩) (read ⟨v ++ x' :: q', l'⟩) := by
  cases v with
  | nil => exact Or.inr (Or.inr ⟨rfl, fun _ => rfl⟩)
  | cons b w => exact Or.inr (Or.inl ⟨b, w, some b, List.suffix_refl _, Or.inr rfl, rfl, rfl⟩)

theorem eatLine_local (v : List Nat) :
    Skipped x q x' q' v (eatLine (v ++ x :: q)) (eatLine (v ++ x' :: q')) := by
  induction v with
  | nil =>
    simp only [List.nil_append, eatLine]
    by_cases hx : x = 10
    · right; right
      rw [if_pos hx]
      refine ⟨rfl, ?_⟩
      rintro rfl
      rw [if_pos hx]
    · left
      rw [if_neg hx]
      exact (eatLine_suffix q).length_le
  | cons b v ih =>
    simp only [List.cons_append, eatLine]
    by_cases hb : b = 10
    · rw [if_pos hb, if_pos hb]
      exact Or.inr (Or.inl ⟨b, v, some b, List.suffix_refl _, Or.inr rfl, rfl, rfl⟩)
    · rw [if_neg hb, if_neg hb]
      exact ih.mono (suffix_tail b v)

theorem eatBlock_end (r : List Nat) : eatBlock (42 :: 47 :: r) = read ⟨r, some 47⟩ := rfl

theorem eatBlock_step (b : Nat) (r : List Nat) (h : ¬ (b = 42 ∧ r.head? = some 47)) : eatBlock (b :: r) = eatBlock r := by
  rw [eatBlock]
  intro r' h1 h2
  exact h ⟨h1, by simp [h2]⟩

theorem eatBlock_past (b : Nat) (r : List Nat) : (unread (eatBlock (b :: r)).2).rest.length ≤ r.length := by
  by_cases h : b = 42 ∧ r.head? = some 47
  · obtain ⟨rfl, h⟩ := h
    cases r with
    | nil => simp at h
    | cons d r =>
      simp only [List.head?_cons, Option.some.injEq] at h
      subst h
      rw [eatBlock_end]
      cases r <;> simp [read, unread]
  · rw [eatBlock_step b r h]
    exact (eatBlock_suffix r).length_le

theorem eatBlock_local (v : List Nat) (hf : Fits x x' v) :
    Skipped x q x' q' v (eatBlock (v ++ x :: q)) (eatBlock (v ++ x' :: q')) := by
  induction hn : v.length using Nat.strong_induction_on generalizing v with
  | _ n ih =>
    subst hn
    cases v with
    | nil => exact Or.inl (eatBlock_past x q)
    | cons b v =>
      by_cases h : b = 42 ∧ v.head? = some 47
      · obtain ⟨rfl, h⟩ := h
        cases v with
        | nil => simp at h
        | cons d v =>
          simp only [List.head?_cons, Option.some.injEq] at h
          subst h
          simp only [List.cons_append]
          rw [eatBlock_end, eatBlock_end]
          exact (read_skipped v _ _).mono ((suffix_tail 47 v).trans (suffix_tail 42 _))
      · cases v with
        | nil =>
          left
          simp only [List.cons_append, List.nil_append]
          by_cases h2 : b = 42 ∧ (x :: q).head? = some 47
          · simp only [List.head?_cons, Option.some.injEq] at h2
            obtain ⟨rfl, rfl⟩ := h2
            rw [eatBlock_end]
            cases q <;> simp [read, unread]
          · rw [eatBlock_step b _ h2]
            exact eatBlock_past x q
        | cons d v =>
          simp only [List.cons_append]
          rw [eatBlock_step b _ (by simpa using h), eatBlock_step b _ (by simpa using h)]
          exact (ih (d :: v).length (by simp) (d :: v) (hf.suffix (suffix_tail b _)) rfl).mono (suffix_tail b _)

theorem structured_end (r : List Nat) (acc : Bytes) :
    structured (42 :: 47 :: r) acc = (⟨tokStructuredComment, .text acc⟩, read ⟨r, some 47⟩) := rfl

theorem structured_step (b d : Nat) (r : List Nat) (acc : Bytes) (h : ¬ (b = 42 ∧ d = 47)) :
    structured (b :: d :: r) acc = structured (d :: r) (acc ++ [b]) := by
  rw [structured]
  · intro r' h1 h2
    simp only [List.cons.injEq] at h2
    exact h ⟨h1, h2.1⟩
  · intro _ h2
    simp at h2

theorem structured_past (b : Nat) (r : List Nat) (acc : Bytes) :
    (unread (structured (b :: r) acc).2.2).rest.length ≤ r.length := by
  cases r with
  | nil =>
    by_cases hb : b = 42
    · subst hb; simp [structured, unread]
    · rw [structured]
      · simp [structured, unread]
      · simp
      · simp [hb]
  | cons d r =>
    by_cases h : b = 42 ∧ d = 47
    · obtain ⟨rfl, rfl⟩ := h
      rw [structured_end]
      cases r <;> simp [read, unread]
    · rw [structured_step b d r acc h]
      exact (structured_suffix (d :: r) _).length_le

/-- Skipping a structured comment: also the token. -/
def SkippedT (x : Nat) (q : List Nat) (x' : Nat) (q' v : List Nat) (t t' : Option Tok) (r r' : Option Nat × Str) : Prop :=
  (unread r.2).rest.length ≤ q.length ∨
  (∃ b w l, b :: w <:+ v ∧ (l = none ∨ l = some b) ∧ t = t' ∧ r = (some b, ⟨w ++ x :: q, l⟩) ∧
    r' = (some b, ⟨w ++ x' :: q', l⟩)) ∨
  (r = (some x, ⟨q, some x⟩) ∧ (x = x' → t = t' ∧ r' = (some x', ⟨q', some x'⟩)))

theorem Skipped.tok {v : List Nat} {r r' : Option Nat × Str} (t : Option Tok) (h : Skipped x q x' q' v r r') :
    SkippedT x q x' q' v t t r r' := by
  rcases h with h | ⟨b, u, l, h1, h2, h3⟩ | ⟨h1, h2⟩
  · exact Or.inl h
  · exact Or.inr (Or.inl ⟨b, u, l, h1, h2, rfl, h3⟩)
  · exact Or.inr (Or.inr ⟨h1, fun e => ⟨rfl, h2 e⟩⟩)

theorem SkippedT.mono {v w : List Nat} {t t' : Option Tok} {r r' : Option Nat × Str}
    (h : SkippedT x q x' q' w t t' r r') (hw : w <:+ v) : SkippedT x q x' q' v t t' r r' := by
  rcases h with h | ⟨b, u, l, h1, h2⟩ | h
  · exact Or.inl h
  · exact Or.inr (Or.inl ⟨b, u, l, h1.trans hw, h2⟩)
  · exact Or.inr (Or.inr h)

theorem structured_local (v : List Nat) (acc : Bytes) (hf : Fits x x' v) :
    SkippedT x q x' q' v (some (structured (v ++ x :: q) acc).1) (some (structured (v ++ x' :: q') acc).1)
      (structured (v ++ x :: q) acc).2 (structured (v ++ x' :: q') acc).2 := by
  induction hn : v.length using Nat.strong_induction_on generalizing v acc with
  | _ n ih =>
    subst hn
    cases v with
    | nil => exact Or.inl (structured_past x q acc)
    | cons b v =>
      cases v with
      | nil =>
        left
        simp only [List.cons_append, List.nil_append]
        by_cases h2 : b = 42 ∧ x = 47
        · obtain ⟨rfl, rfl⟩ := h2
          rw [structured_end]
          cases q <;> simp [read, unread]
        · rw [structured_step b _ _ _ h2]
          exact structured_past x q _
      | cons d v =>
        simp only [List.cons_append]
        by_cases h : b = 42 ∧ d = 47
        · obtain ⟨rfl, rfl⟩ := h
          rw [structured_end, structured_end]
          exact (Skipped.tok _ (read_skipped v _ _)).mono ((suffix_tail 47 v).trans (suffix_tail 42 _))
        · rw [structured_step b _ _ _ h, structured_step b _ _ _ h]
          exact (ih (d :: v).length (by simp) (d :: v) _ (hf.suffix (suffix_tail b _)) rfl).mono (suffix_tail b _)

theorem eatComment_line (r : List Nat) :
    eatComment (fresh (47 :: 47 :: r)) = ((eatLine r).1, none, (eatLine r).2) := rfl

theorem eatComment_open (r : List Nat) (h : r.head? ≠ some 42) :
    eatComment (fresh (47 :: 42 :: r)) = ((eatBlock r).1, none, (eatBlock r).2) := by
  cases r with
  | nil => rfl
  | cons e r =>
    have he : ¬ e = 42 := by simpa using h
    unfold eatComment fresh
    simp only [read, if_true, if_neg he]
    rfl

theorem eatComment_empty (r : List Nat) :
    eatComment (fresh (47 :: 42 :: 42 :: 47 :: r)) = ((read ⟨r, some 47⟩).1, none, (read ⟨r, some 47⟩).2) := rfl

theorem eatComment_doc (r : List Nat) (h : r.head? ≠ some 47) :
    eatComment (fresh (47 :: 42 :: 42 :: r)) =
      ((structured r []).2.1, some (structured r []).1, (structured r []).2.2) := by
  cases r with
  | nil => rfl
  | cons e r =>
    have he : ¬ e = 47 := by simpa using h
    unfold eatComment fresh
    simp only [read, if_true, if_neg he]
    rfl

theorem eatComment_past (b : Nat) (r : List Nat) (d : Nat) (hb : b = 47) (hd : d = 47 ∨ d = 42) :
    (unread (eatComment (fresh (b :: d :: r))).2.2).rest.length ≤ r.length := by
  subst hb
  rcases hd with rfl | rfl
  · rw [eatComment_line]; exact (eatLine_suffix r).length_le
  · by_cases h : r.head? = some 42
    · cases r with
      | nil => simp at h
      | cons e r =>
        simp only [List.head?_cons, Option.some.injEq] at h
        subst h
        by_cases h : r.head? = some 47
        · cases r with
          | nil => simp at h
          | cons e r =>
            simp only [List.head?_cons, Option.some.injEq] at h
            subst h
            rw [eatComment_empty]
            cases r <;> simp [read, unread] <;> omega
        · rw [eatComment_doc r h]
          exact Nat.le_trans (structured_suffix r []).length_le (by simp)
    · rw [eatComment_open r h]; exact (eatBlock_suffix r).length_le

theorem eatComment_local (b : Nat) (v : List Nat) (hf : Fits x x' (b :: v)) :
    SkippedT x q x' q' (b :: v) (eatComment (fresh (b :: v ++ x :: q))).2.1 (eatComment (fresh (b :: v ++ x' :: q'))).2.1
      ((eatComment (fresh (b :: v ++ x :: q))).1, (eatComment (fresh (b :: v ++ x :: q))).2.2)
      ((eatComment (fresh (b :: v ++ x' :: q'))).1, (eatComment (fresh (b :: v ++ x' :: q'))).2.2) := by
  simp only [List.cons_append]
  by_cases hb : b = 47
  · subst hb
    cases v with
    | nil =>
      simp only [List.nil_append]
      by_cases hx : x = 47 ∨ x = 42
      · left
        exact eatComment_past 47 q x rfl hx
      · rcases hf with rfl | ⟨_, _, _, h4⟩
        · rw [eatComment_slash (x :: q) (by simp; tauto) (by simp; tauto),
            eatComment_slash (x :: q') (by simp; tauto) (by simp; tauto)]
          exact Or.inr (Or.inl ⟨47, [], none, List.suffix_refl _, Or.inl rfl, rfl, rfl, rfl⟩)
        · simp at h4
    | cons d v =>
      simp only [List.cons_append]
      have s2 : v <:+ 47 :: d :: v := (suffix_tail d v).trans (suffix_tail 47 _)
      by_cases hd : d = 47
      · subst hd
        rw [eatComment_line, eatComment_line]
        exact (Skipped.tok none (eatLine_local v)).mono s2
      · by_cases hd2 : d = 42
        · subst hd2
          cases v with
          | nil =>
            simp only [List.nil_append]
            left
            by_cases hx : x = 42
            · subst hx
              by_cases hq : q.head? = some 47
              · cases q with
                | nil => simp at hq
                | cons e q =>
                  simp only [List.head?_cons, Option.some.injEq] at hq
                  subst hq
                  rw [eatComment_empty]
                  cases q <;> simp [read, unread]
              · rw [eatComment_doc q hq]
                exact (structured_suffix q []).length_le
            · rw [eatComment_open (x :: q) (by simpa using hx)]
              exact eatBlock_past x q
          | cons e v =>
            simp only [List.cons_append]
            have s3 : v <:+ 47 :: 42 :: e :: v := (suffix_tail e v).trans s2
            by_cases he : e = 42
            · subst he
              cases v with
              | nil =>
                left
                simp only [List.nil_append]
                by_cases hx : x = 47
                · subst hx
                  rw [eatComment_empty]
                  cases q <;> simp [read, unread]
                · rw [eatComment_doc (x :: q) (by simpa using hx)]
                  exact structured_past x q []
              | cons f v =>
                simp only [List.cons_append]
                by_cases hf' : f = 47
                · subst hf'
                  rw [eatComment_empty, eatComment_empty]
                  exact (Skipped.tok none (read_skipped v _ _)).mono ((suffix_tail 47 v).trans s3)
                · rw [eatComment_doc _ (by simpa using hf'), eatComment_doc _ (by simpa using hf')]
                  exact (structured_local (f :: v) [] (hf.suffix s3)).mono s3
            · rw [eatComment_open _ (by simpa using he), eatComment_open _ (by simpa using he)]
              exact (Skipped.tok none (eatBlock_local (e :: v) (hf.suffix s2))).mono s2
        · rw [eatComment_slash _ (by simpa using hd) (by simpa using hd2),
            eatComment_slash _ (by simpa using hd) (by simpa using hd2)]
          exact Or.inr (Or.inl ⟨47, d :: v, none, List.suffix_refl _, Or.inl rfl, rfl, rfl, rfl⟩)
  · rw [eatComment_plain _ _ hb, eatComment_plain _ _ hb]
    exact Or.inr (Or.inl ⟨b, v, some b, List.suffix_refl _, Or.inr rfl, rfl, rfl, rfl⟩)

theorem skipSpace_past (s : Str) (com : Option Tok) (h : s.rest.length ≤ q.length) :
    (unread (skipSpace s com).2.2).rest.length ≤ q.length :=
  Nat.le_trans (skipSpace_suffix s com).1.length_le h

/-- The results of skipping white space: `x` is passed; or the same byte before `x`; or `x` itself, in both. -/
def SkippedW (x : Nat) (q : List Nat) (x' : Nat) (q' v : List Nat) (r r' : Option Nat × Option Tok × Str) : Prop :=
  (unread r.2.2).rest.length ≤ q.length ∨
  (∃ b w l, b :: w <:+ v ∧ (l = none ∨ l = some b) ∧ r.2.1 = r'.2.1 ∧ r.1 = some b ∧ r'.1 = some b ∧
    r.2.2 = ⟨w ++ x :: q, l⟩ ∧ r'.2.2 = ⟨w ++ x' :: q', l⟩) ∨
  (r.2.1 = r'.2.1 ∧ r.2.2 = ⟨q, some x⟩ ∧ r'.2.2 = ⟨q', some x'⟩)

theorem eatComment_slash_past (r : List Nat) : (unread (eatComment (fresh (47 :: r))).2.2).rest.length ≤ r.length := by
  cases r with
  | nil => simp [eatComment, fresh, read, unread]
  | cons d r =>
    by_cases hd : d = 47 ∨ d = 42
    · exact Nat.le_trans (eatComment_past 47 r d rfl hd) (by simp)
    · rw [eatComment_slash (d :: r) (by simp; tauto) (by simp; tauto)]
      simp [unread]

theorem skipSpace_local (v : List Nat) (l l' : Option Nat) (com : Option Tok) (hf : Fits x x' v) :
    SkippedW x q x' q' v (skipSpace ⟨v ++ x :: q, l⟩ com) (skipSpace ⟨v ++ x' :: q', l'⟩ com) := by
  induction hn : v.length using Nat.strong_induction_on generalizing v l l' com with
  | _ n ih =>
    subst hn
    cases v with
    | nil =>
      simp only [List.nil_append]
      rw [skipSpace_cons x q, skipSpace_cons x' q']
      by_cases hx : x = 47
      · left
        subst hx
        have h := eatComment_slash_past q
        generalize eatComment (fresh (47 :: q)) = m at h
        obtain ⟨c, t, s⟩ := m
        dsimp only at h ⊢
        split
        · exact skipSpace_past s _ (Nat.le_trans (rest_suffix_unread s).length_le h)
        · exact h
      · rw [eatComment_plain x q hx]
        simp only [Option.any_some]
        cases hsp : isSpace x with
        | true =>
          left
          simp only [if_true]
          exact skipSpace_past _ _ (Nat.le_refl _)
        | false =>
          rcases hf with rfl | ⟨h, _⟩
          · rw [eatComment_plain x q' hx]
            simp only [Option.any_some, hsp, Bool.false_eq_true, if_false]
            exact Or.inr (Or.inr ⟨rfl, rfl, rfl⟩)
          · rw [hsp] at h; simp at h
    | cons b v =>
      have he := eatComment_local (q := q) (q' := q') b v hf
      simp only [List.cons_append] at he ⊢
      rw [skipSpace_cons b _ l, skipSpace_cons b _ l']
      generalize eatComment (fresh (b :: (v ++ x :: q))) = m at he
      generalize eatComment (fresh (b :: (v ++ x' :: q'))) = m' at he
      obtain ⟨c, t, s⟩ := m
      obtain ⟨c', t', s'⟩ := m'
      dsimp only at he ⊢
      rcases he with h | ⟨d, w, l1, hw, hl, rfl, h1, h2⟩ | ⟨h1, h2⟩
      · left
        dsimp only at h
        split
        · exact skipSpace_past s _ (Nat.le_trans (rest_suffix_unread s).length_le h)
        · exact h
      · simp only [Prod.mk.injEq] at h1 h2
        obtain ⟨rfl, rfl⟩ := h1
        obtain ⟨rfl, rfl⟩ := h2
        simp only [Option.any_some]
        have hw' : w <:+ b :: v := (suffix_tail d w).trans hw
        by_cases hsp : isSpace d = true
        · rw [if_pos hsp, if_pos hsp]
          have hlt : w.length < (b :: v).length := by
            have := hw.length_le
            simp only [List.length_cons] at this ⊢
            omega
          rcases ih w.length hlt w l1 l1 (t.or com) (hf.suffix hw') rfl with h | ⟨e, u, l2, h1, h2⟩ | h
          · exact Or.inl h
          · exact Or.inr (Or.inl ⟨e, u, l2, h1.trans hw', h2⟩)
          · exact Or.inr (Or.inr h)
        · rw [if_neg hsp, if_neg hsp]
          exact Or.inr (Or.inl ⟨d, w, l1, hw, hl, rfl, rfl, rfl, rfl, rfl⟩)
      · simp only [Prod.mk.injEq] at h1
        obtain ⟨rfl, rfl⟩ := h1
        simp only [Option.any_some]
        by_cases hsp : isSpace x = true
        · left
          rw [if_pos hsp]
          exact skipSpace_past _ _ (Nat.le_refl _)
        · rcases hf with rfl | ⟨h, _⟩
          · obtain ⟨rfl, h3⟩ := h2 rfl
            simp only [Prod.mk.injEq] at h3
            obtain ⟨rfl, rfl⟩ := h3
            simp only [Option.any_some]
            rw [if_neg hsp, if_neg hsp]
            exact Or.inr (Or.inr ⟨rfl, rfl, rfl⟩)
          · exact absurd h hsp

/-- A token and the byte after it: if the request is answered without error and leaves `x` unread, another
continuation, from a byte that fits, changes nothing. -/
theorem nextToken_local (v : List Nat) (l l' : Option Nat) (hf : Fits x x' v) :
    (nextToken ⟨v ++ x :: q, l⟩).1 = false ∨ (nextToken ⟨v ++ x :: q, l⟩).2.2.rest.length ≤ q.length ∨
    ((nextToken ⟨v ++ x :: q, l⟩).1 = (nextToken ⟨v ++ x' :: q', l'⟩).1 ∧
      (nextToken ⟨v ++ x :: q, l⟩).2.1 = (nextToken ⟨v ++ x' :: q', l'⟩).2.1 ∧
      ∃ w, w <:+ v ∧ (nextToken ⟨v ++ x :: q, l⟩).2.2.rest = w ++ x :: q ∧
        (nextToken ⟨v ++ x' :: q', l'⟩).2.2.rest = w ++ x' :: q') := by
  have hs := skipSpace_local (q := q) (q' := q') v l l' none hf
  unfold nextToken
  generalize skipSpace ⟨v ++ x :: q, l⟩ none = m at hs
  generalize skipSpace ⟨v ++ x' :: q', l'⟩ none = m' at hs
  obtain ⟨c, t, s⟩ := m
  obtain ⟨c', t', s'⟩ := m'
  rcases hs with h | ⟨b, w, l1, hw, hl, h1, h2, h3, h4, h5⟩ | ⟨h1, h2, h3⟩
  · dsimp only at h
    right; left
    cases t with
    | some t => exact h
    | none =>
      dsimp only
      have hd := dispatch_suffix c s
      generalize dispatch c s = m at hd
      obtain ⟨o, s2⟩ := m
      have := Nat.le_trans hd.length_le (Nat.le_trans (rest_suffix_unread s).length_le h)
      cases o <;> exact this
  · dsimp only at h1 h2 h3 h4 h5
    subst h1 h2 h3 h4 h5
    cases t with
    | some t =>
      right; right
      dsimp only
      refine ⟨rfl, rfl, ?_⟩
      rcases hl with rfl | rfl
      · exact ⟨w, (suffix_tail b w).trans hw, rfl, rfl⟩
      · exact ⟨b :: w, hw, rfl, rfl⟩
    | none =>
      dsimp only
      have hd := dispatch_local (q := q) (q' := q') b w l1 (hf.suffix hw)
      generalize dispatch (some b) ⟨w ++ x :: q, l1⟩ = m at hd
      generalize dispatch (some b) ⟨w ++ x' :: q', l1⟩ = m' at hd
      obtain ⟨o, s⟩ := m
      obtain ⟨o', s'⟩ := m'
      rcases hd with h | h | ⟨h, u, hu, e1, e2⟩
      · dsimp only at h; subst h; exact Or.inl rfl
      · right; left; cases o <;> exact h
      · dsimp only at h; subst h
        right; right
        have hu' : u <:+ v := hu.trans ((suffix_tail b w).trans hw)
        cases o <;> exact ⟨rfl, rfl, u, hu', e1, e2⟩
  · dsimp only at h1 h2 h3
    subst h1 h2 h3
    cases t with
    | some t =>
      right; right
      exact ⟨rfl, rfl, [], List.nil_suffix, rfl, rfl⟩
    | none =>
      right; left
      dsimp only
      have hd := dispatch_suffix c ⟨q, some x⟩
      generalize dispatch c ⟨q, some x⟩ = m at hd
      obtain ⟨o, s2⟩ := m
      cases o <;> exact hd.length_le

theorem after_le (k : Nat) (s : Str) : (after k s).rest.length ≤ s.rest.length := by
  induction k generalizing s with
  | zero => exact Nat.le_refl _
  | succ k ih =>
    refine Nat.le_trans (ih _) ?_
    obtain ⟨r, l⟩ := s
    cases r with
    | nil => rw [nextToken_nil]
    | cons b r => exact Nat.le_trans (nextToken_suffix b r l).length_le (by simp)

/-- The same for several requests. -/
theorem answers_local (k : Nat) (v : List Nat) (l l' : Option Nat) (hf : Fits x x' v)
    (hok : ∀ a ∈ answers k ⟨v ++ x :: q, l⟩, a.1 = true) (hk : (after k ⟨v ++ x :: q, l⟩).rest = x :: q) :
    answers k ⟨v ++ x' :: q', l'⟩ = answers k ⟨v ++ x :: q, l⟩ ∧ (after k ⟨v ++ x' :: q', l'⟩).rest = x' :: q' := by
  induction k generalizing v l l' with
  | zero =>
    simp only [after] at hk ⊢
    have : v = [] := by simpa using hk
    subst this
    exact ⟨rfl, rfl⟩
  | succ k ih =>
    simp only [after, answers, List.mem_cons, forall_eq_or_imp] at hk hok ⊢
    rcases nextToken_local (q := q) (q' := q') v l l' hf with h | h | ⟨h1, h2, w, hw, h3, h4⟩
    · rw [h] at hok; simp at hok
    · have := after_le k (nextToken ⟨v ++ x :: q, l⟩).2.2
      rw [hk] at this
      simp only [List.length_cons] at this
      omega
    · rw [← h1, ← h2]
      generalize (nextToken ⟨v ++ x :: q, l⟩).2.2 = s at hk hok h3 ⊢
      generalize (nextToken ⟨v ++ x' :: q', l'⟩).2.2 = s' at h4 ⊢
      obtain ⟨r, l1⟩ := s
      obtain ⟨r', l1'⟩ := s'
      dsimp only at h3 h4
      subst h3 h4
      obtain ⟨i1, i2⟩ := ih w l1 l1' (hf.suffix hw) hok.2 hk
      exact ⟨by rw [i1], i2⟩

end
end Ulam.Lexer
