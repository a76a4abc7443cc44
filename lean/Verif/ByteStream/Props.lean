import Verif.ByteStream.Spec
import Mathlib.Tactic.Linarith
import Mathlib.Tactic.Ring
import Aesop
/-! # C41, C42, C59: byte streams -/
namespace Ulam.ByteStream
open Spec

/-! ### The array stream -/

/-- The array holds the queue. -/
structure Holds (len : Nat) (s : Arr) (q : Queue) : Prop where
  size : s.data.length = len
  fits : s.write ≤ len
  bytes : q.bytes = s.data.take s.write
  taken : q.taken = s.read

theorem holds_blank (len : Nat) : Holds len (blank len) ⟨[], 0⟩ := ⟨by simp [blank], by simp [blank], by simp [blank], rfl⟩

theorem holds_length {len : Nat} {s : Arr} {q : Queue} (h : Holds len s q) : q.bytes.length = s.write := by
  rw [h.bytes, List.length_take, h.size]; exact Nat.min_eq_left h.fits

theorem next_write_room {len : Nat} {q : Queue} (x : Nat) (h : q.bytes.length < len) :
    next len q (.write x) = (⟨q.bytes ++ [x], q.taken⟩, 0) := by simp [next, h]

theorem next_write_full {len : Nat} {q : Queue} (x : Nat) (h : ¬ q.bytes.length < len) : next len q (.write x) = (q, -1) := by
  simp [next, h]

theorem take_set_succ (l : List Nat) (i x : Nat) (h : i < l.length) : (l.set i x).take (i + 1) = l.take i ++ [x] := by
  rw [List.take_add_one, List.take_set_of_le (Nat.le_refl i)]
  simp [h]

theorem step_holds {len : Nat} {s : Arr} {q : Queue} (h : Holds len s q) (o : Op) :
    ∃ t, step len s o = some (t, (next len q o).2) ∧ Holds len t (next len q o).1 := by
  have hl := holds_length h
  cases o with
  | write x =>
    unfold step writeByte stillRoom
    by_cases c : s.write < len
    · rw [next_write_room x (by rw [hl]; exact c)]
      have hs : s.write < s.data.length := by rw [h.size]; exact c
      refine ⟨{ s with write := s.write + 1, data := s.data.set s.write x }, ?_, ?_⟩
      · simp [c, store, hs]
      · refine ⟨by simp [h.size], c, ?_, h.taken⟩
        simp only
        rw [take_set_succ _ _ _ hs, h.bytes]
    · rw [next_write_full x (by rw [hl]; exact c)]
      exact ⟨s, by simp [c], h⟩
  | read =>
    have key : q.bytes[q.taken]? = if s.read < s.write then s.data[s.read]? else none := by
      rw [h.bytes, h.taken, List.getElem?_take]
    unfold step readByte stillRoom next
    by_cases c : s.read < s.write
    · have hlt : s.read < s.data.length := by have := h.fits; rw [h.size]; omega
      obtain ⟨b, hb⟩ : ∃ b, s.data[s.read]? = some b := ⟨_, List.getElem?_eq_getElem hlt⟩
      rw [if_pos c] at key ⊢
      rw [key, hb]
      refine ⟨{ s with read := s.read + 1 }, by simp, ⟨h.size, h.fits, h.bytes, ?_⟩⟩
      simp [h.taken]
    · rw [if_neg c] at key ⊢
      rw [key]
      refine ⟨s, ?_, h⟩
      by_cases d : s.write < len <;> simp [d, hl]
  | reread => exact ⟨reread s, rfl, ⟨h.size, h.fits, h.bytes, rfl⟩⟩
  | rewrite => exact ⟨rewrite s, rfl, ⟨h.size, by simp [rewrite], by simp [next, rewrite], h.taken⟩⟩
  | reset => exact ⟨reset s, rfl, ⟨h.size, by simp [reset, rewrite, reread], by simp [next, reset, rewrite, reread], rfl⟩⟩

theorem run_holds {len : Nat} (os : List Op) {s : Arr} {q : Queue} (h : Holds len s q) :
    ∃ t, run len s os = some (t, answers len q os) := by
  induction os generalizing s q with
  | nil => exact ⟨s, rfl⟩
  | cons o os ih =>
    obtain ⟨t, e, ht⟩ := step_holds h o
    obtain ⟨u, e2⟩ := ih ht
    exact ⟨u, by simp [run, e, e2, answers]⟩

/-- **C41.** For every capacity and every history of calls, the stream never fails and answers as a bounded first-in first-out queue
does: a write is accepted exactly while there is room, a read gives the next byte not yet read, and otherwise says "none yet" exactly
while there is room for more, "end of file" when there is not. -/
theorem C41_queue (len : Nat) (os : List Op) : ∃ t, run len (blank len) os = some (t, answers len ⟨[], 0⟩ os) :=
  run_holds os (holds_blank len)

example : (run 2 (blank 2) [.write 65, .read, .read, .write 66, .write 67, .read, .read, .reread, .read]).map Prod.snd =
    some [0, 65, -2, 0, -1, 66, -1, 0, 65] := by decide +kernel

/-- **C41.** After any history of writes and reads, the bytes read are a beginning of the bytes offered that fitted, in order; a read
answers a byte unless all of those have been read, in which case it answers -2 if more could be written and -1 if not. -/
theorem C41_first_in_first_out (len : Nat) (os : List Op) (h : OnlyReadsAndWrites os) :
    ∃ t as, run len (blank len) os = some (t, as) ∧ got os as = ((offered os).take len).take (got os as).length ∧
      ∀ u a, step len t .read = some (u, a) → a =
        (((offered os).take len)[(got os as).length]?.elim (if (offered os).length < len then (-2 : Int) else -1) fun b => (b : Int)) := by
  suffices gen : ∀ (os : List Op) (s : Arr) (q : Queue), OnlyReadsAndWrites os → Holds len s q → q.bytes.length ≤ len →
      q.taken ≤ q.bytes.length →
      ∃ t as q', run len s os = some (t, as) ∧ Holds len t q' ∧ q'.bytes = (q.bytes ++ offered os).take len ∧
        q'.taken = q.taken + (got os as).length ∧
        q.bytes.take q.taken ++ got os as = ((q.bytes ++ offered os).take len).take (q.taken + (got os as).length) by
    obtain ⟨t, as, q', e1, e2, e3, e4, e5⟩ := gen os _ _ h (holds_blank len) (by simp) (by simp)
    refine ⟨t, as, e1, by simpa using e5, ?_⟩
    intro u a hu
    obtain ⟨v, hv, _⟩ := step_holds e2 .read
    rw [hu] at hv
    have : a = (next len q' .read).2 := by simpa using congrArg (fun o => o.map Prod.snd) hv
    rw [this]
    unfold next
    simp only [List.nil_append, Nat.zero_add] at e3 e4
    rw [e4, e3]
    cases hh : ((offered os).take len)[(got os as).length]? with
    | some b => simp
    | none => simp only [List.length_take, Option.elim]; congr 1; simp
  intro os
  induction os with
  | nil =>
    intro s q _ hs hl ht
    refine ⟨s, [], q, rfl, hs, ?_, by simp [got], ?_⟩
    · simp [offered, List.take_of_length_le hl]
    · simp [got, offered, List.take_of_length_le hl]
  | cons o os ih =>
    intro s q ho hs hl ht
    obtain ⟨t, e, h2⟩ := step_holds hs o
    have ho' : OnlyReadsAndWrites os := fun x hx => ho x (List.mem_cons_of_mem _ hx)
    rcases ho o (by simp) with rfl | ⟨x, rfl⟩
    · unfold next at e h2
      cases hb : q.bytes[q.taken]? with
      | some b =>
        rw [hb] at e h2
        obtain ⟨u, as, q', r1, r2, r3, r4, r5⟩ := ih t _ ho' h2 hl (List.getElem?_eq_some_iff.1 hb).1
        have hlt := (List.getElem?_eq_some_iff.1 hb).1
        have hg : got (.read :: os) ((b : Int) :: as) = b :: got os as := by simp [got]
        refine ⟨u, b :: as, q', by simp [run, e, r1], r2, by simpa [offered] using r3, ?_, ?_⟩
        · rw [hg, r4, List.length_cons]; simp only; omega
        · rw [hg]
          simp only [offered, List.length_cons] at r5 ⊢
          have : q.taken + ((got os as).length + 1) = q.taken + 1 + (got os as).length := by omega
          rw [this, ← r5, List.take_add_one, hb]
          simp
      | none =>
        rw [hb] at e h2
        obtain ⟨u, as, q', r1, r2, r3, r4, r5⟩ := ih t _ ho' h2 hl ht
        simp only at e
        have hg : got (.read :: os) ((if q.bytes.length < len then (-2 : Int) else -1) :: as) = got os as := by
          split <;> simp [got]
        exact ⟨u, _, q', by simp only [run, e, Option.bind_some, r1, Option.map_some]; rfl, r2, by simpa [offered] using r3,
          by rw [hg]; exact r4, by rw [hg]; simpa [offered] using r5⟩
    · by_cases c : q.bytes.length < len
      · rw [next_write_room x c] at e h2
        obtain ⟨u, as, q', r1, r2, r3, r4, r5⟩ := ih t _ ho' h2 (by simp; omega) (by simp; omega)
        refine ⟨u, 0 :: as, q', by simp [run, e, r1], r2, by simpa [offered] using r3, by simpa [got] using r4, ?_⟩
        have : (q.bytes ++ [x]).take q.taken = q.bytes.take q.taken := by
          rw [List.take_append_of_le_length ht]
        simp only [this] at r5
        simpa [got, offered] using r5
      · rw [next_write_full x c] at e h2
        obtain ⟨u, as, q', r1, r2, r3, r4, r5⟩ := ih t _ ho' h2 hl ht
        have e1 : (q.bytes ++ offered os).take len = (q.bytes ++ x :: offered os).take len := by
          have : len = q.bytes.length := by omega
          rw [this, List.take_append_length, List.take_append_length]
        rw [e1] at r3 r5
        exact ⟨u, -1 :: as, q', by simp [run, e, r1], r2, by simpa [offered] using r3, by simpa [got] using r4,
          by simpa [got, offered] using r5⟩

example : OnlyReadsAndWrites [.write 65, .read, .write 66, .write 67, .read] ∧
    got [.write 65, .read, .write 66, .write 67, .read] [0, 65, 0, -1, 66] = [65, 66] := by
  refine ⟨?_, by decide⟩
  intro o ho; simp at ho; aesop

/-- **C41.** A refused write changes nothing. -/
theorem C41_refused_without_effect (len : Nat) (s t : Arr) (x : Nat) (a : Int) (h : step len s (.write x) = some (t, a)) :
    (a = 0 ∨ a = -1) ∧ (a = -1 → t = s ∧ len ≤ s.write) := by
  change writeByte len s x = _ at h
  unfold writeByte stillRoom at h
  by_cases c : s.write < len
  · rw [if_pos (by simpa using c)] at h
    obtain ⟨u, _, hu⟩ := Option.map_eq_some_iff.1 h
    cases hu
    exact ⟨Or.inl rfl, fun q => by cases q⟩
  · rw [if_neg (by simpa using c)] at h
    cases h
    exact ⟨Or.inr rfl, fun _ => ⟨rfl, by omega⟩⟩

/-! ### Printing -/

theorem digits_get (d : Nat) (h : d < 36) : digits[d]? = some (digitChar d) := by
  have : ∀ d : Fin 36, digits[(d : Nat)]? = some (digitChar d) := by decide +kernel
  exact this ⟨d, h⟩

theorem value_append (b : Nat) (ds : List Nat) (d : Nat) : value b (ds ++ [d]) = value b ds * b + d := by simp [value]

/-- A stream that never fails and only remembers what it is sent behaves as a list. -/
theorem printString_fold {σ : Type} (w : σ → Nat → σ) (s : σ) (bs : List Nat) :
    printString (fun s x => some (w s x)) s bs = some (bs.foldl w s) := by
  induction bs generalizing s with
  | nil => rfl
  | cons b bs ih => simp [printString, ih]

theorem printDigits_ok {σ : Type} (w : σ → Nat → Option σ) (base : Nat) (hb : 2 ≤ base ∧ base ≤ 36) (s : σ) (n : Nat) (hn : n ≠ 0) :
    ∃ ds : List Nat, printDigits w base s n = printString w s (ds.map digitChar) ∧ (∀ d ∈ ds, d < base) ∧ value base ds = n ∧
      ds ≠ [] ∧ ds.head? ≠ some 0 := by
  induction n using Nat.strong_induction_on with
  | _ n ih =>
    have hm : n % base < base := Nat.mod_lt _ (by omega)
    rw [printDigits]
    by_cases c : n ≥ base ∧ base ≥ 2
    · rw [dif_pos c]
      have hlt : n / base < n := Nat.div_lt_self (by omega) (by omega)
      have h0 : n / base ≠ 0 := by
        intro q; rw [Nat.div_eq_zero_iff] at q; omega
      obtain ⟨ds, e1, e2, e3, e4, e5⟩ := ih _ hlt h0
      refine ⟨ds ++ [n % base], ?_, ?_, ?_, by simp, ?_⟩
      · rw [e1, digits_get _ (by omega)]
        simp only [List.map_append, List.map_cons, List.map_nil, Option.bind_some]
        generalize ds.map digitChar = cs
        clear e1 ih
        induction cs generalizing s with
        | nil => simp [printString]
        | cons a cs ih2 =>
          simp only [printString, List.cons_append]
          cases w s a with
          | none => rfl
          | some t => simpa using ih2 t
      · intro d hd
        rcases List.mem_append.1 hd with h | h
        · exact e2 d h
        · simp at h; omega
      · rw [value_append, e3]; exact Nat.div_add_mod' n base
      · rw [List.head?_append]
        cases ds with
        | nil => exact absurd rfl e4
        | cons d ds => simpa using e5
    · rw [dif_neg c]
      have : n < base := by omega
      rw [Nat.mod_eq_of_lt this]
      refine ⟨[n], ?_, by simpa using this, by simp [value], by simp, by simpa using hn⟩
      rw [digits_get _ (by omega)]
      simp [printString]

theorem printBase_ok {σ : Type} (w : σ → Nat → Option σ) (base : Nat) (hb : 2 ≤ base ∧ base ≤ 35) (s : σ) (n : Nat) :
    ∃ cs, printBase w s n base = printString w s cs ∧ Numeral base cs n := by
  unfold printBase
  by_cases h : n = 0
  · subst h
    rw [if_pos rfl]
    refine ⟨_, rfl, [0], by decide, ?_, by simp [value], by simp, fun _ => rfl⟩
    intro d hd; simp at hd; omega
  · rw [if_neg h, if_neg (by omega : ¬ base = 0)]
    have hl : digits.length = 36 := by decide +kernel
    simp only
    rw [if_neg (by rw [hl]; omega)]
    obtain ⟨ds, e1, e2, e3, e4, e5⟩ := printDigits_ok w base ⟨hb.1, by omega⟩ s n h
    exact ⟨_, e1, ds, rfl, e2, e3, e4, fun q => absurd q e5⟩

/-- **C42.** Printing an `Unsigned` in base 2 to 35 sends the stream, whatever it does with them, exactly the characters of the
numeral of that number in that base, without leading zeros; base 0 means 10. -/
theorem C42_print_unsigned {σ : Type} (w : σ → Nat → Option σ) (s : σ) (n base : Nat) (h : 2 ≤ base ∧ base ≤ 35) :
    (∃ cs, printBase w s n base = printString w s cs ∧ Numeral base cs n) ∧
    (∃ cs, printUnsigned w s n = printString w s cs ∧ Numeral 10 cs n) ∧
    ∃ cs, printBase w s n 0 = printString w s cs ∧ Numeral 10 cs n := by
  refine ⟨printBase_ok w base h s n, printBase_ok w 10 (by omega) s n, ?_⟩
  obtain ⟨cs, e1, e2⟩ := printBase_ok w 10 (by omega) s n
  refine ⟨cs, ?_, e2⟩
  rw [← e1]
  unfold printBase
  simp

/-- **C42.** Printing an `Int` sends the stream its decimal numeral, with a minus sign if it is negative. -/
theorem C42_print_int {σ : Type} (w : σ → Nat → Option σ) (s : σ) (n : Int) :
    ∃ cs, printInt w s n = printString w s cs ∧ SignedNumeral cs n := by
  unfold printInt SignedNumeral
  by_cases h : n = -2147483648
  · subst h
    rw [if_pos rfl]
    simp only [show ((-2147483648 : Int) < 0) from by norm_num, if_true]
    refine ⟨_, rfl, [2,1,4,7,4,8,3,6,4,8].map digitChar, by decide +kernel, [2,1,4,7,4,8,3,6,4,8], rfl, by decide, by decide, by decide,
      by decide⟩
  · rw [if_neg h]
    by_cases h2 : n < 0
    · simp only [h2, if_true]
      have hs : "-".toList.map Char.toNat = [45] := by decide
      rw [hs]
      cases hw : w s 45 with
      | none =>
        obtain ⟨cs, e1, e2⟩ := printBase_ok w 10 (by omega) s n.natAbs
        exact ⟨45 :: cs, by simp [printString, hw], cs, rfl, e2⟩
      | some t =>
        obtain ⟨cs, e1, e2⟩ := printBase_ok w 10 (by omega) t n.natAbs
        refine ⟨45 :: cs, ?_, cs, rfl, e2⟩
        have : toUnsigned (-n) = n.natAbs := by unfold toUnsigned; omega
        simp [printString, hw, this, e1]
    · simp only [h2, if_false]
      obtain ⟨cs, e1, e2⟩ := printBase_ok w 10 (by omega) s n.natAbs
      refine ⟨cs, ?_, e2⟩
      have : toUnsigned n = n.natAbs := by unfold toUnsigned; omega
      rw [this, e1]

theorem printString_sink (s cs : List Nat) : printString sink s cs = some (s ++ cs) := by
  induction cs generalizing s with
  | nil => simp [printString]
  | cons c cs ih => simp [printString, sink, ih]

example : printBase sink [] 255 16 = some [102, 102] ∧ printInt sink [] (-120) = some [45, 49, 50, 48] := by
  constructor
  · unfold printBase
    rw [if_neg (by decide), if_neg (by decide)]
    rw [if_neg (by decide +kernel), printDigits, dif_pos (by decide), printDigits, dif_neg (by decide)]
    decide +kernel
  · unfold printInt printBase
    rw [if_neg (by decide), if_pos (by decide)]
    have : printString sink [] (("-".toList).map Char.toNat) = some [45] := by decide +kernel
    rw [this, Option.bind_some, if_neg (by decide +kernel), if_neg (by decide), if_neg (by decide +kernel)]
    have : toUnsigned (- -120) = 120 := by decide
    rw [this, printDigits, dif_pos (by decide), printDigits, dif_pos (by decide), printDigits, dif_neg (by decide)]
    decide +kernel

/-- **C42.** A numeral stands for one number only, so what was printed can be read back. -/
theorem C42_read_back (base : Nat) (hb : 2 ≤ base ∧ base ≤ 36) (cs : List Nat) (n m : Nat) (h : Numeral base cs n) (h2 : Numeral base cs m) :
    n = m := by
  obtain ⟨ds, e1, l1, v1, _, _⟩ := h
  obtain ⟨es, e2, l2, v2, _, _⟩ := h2
  have inj : ∀ (ds es : List Nat), (∀ d ∈ ds, d < base) → (∀ d ∈ es, d < base) → ds.map digitChar = es.map digitChar → ds = es := by
    intro ds
    induction ds with
    | nil => intro es _ _ h; cases es with
      | nil => rfl
      | cons e es => cases h
    | cons d ds ih =>
      intro es h1 h2 h
      cases es with
      | nil => cases h
      | cons e es =>
        simp only [List.map_cons, List.cons.injEq] at h
        have a := h1 d (by simp)
        have b := h2 e (by simp)
        have : d = e := by
          have := h.1
          unfold digitChar at this
          split at this <;> split at this <;> omega
        rw [this, ih es (fun x hx => h1 x (by simp [hx])) (fun x hx => h2 x (by simp [hx])) h.2]
  rw [← v1, ← v2, inj ds es l1 l2 (by rw [← e1, e2])]

/-- **C42.** Other bases are refused (the element fails), unless the number is zero. Base 36 is one of them, although there are
characters for its digits. -/
theorem C42_other_bases {σ : Type} (w : σ → Nat → Option σ) (s : σ) (n base : Nat) (hn : n ≠ 0) (h : base = 1 ∨ 36 ≤ base) :
    printBase w s n base = none := by
  have hl : digits.length = 36 := by decide +kernel
  unfold printBase
  simp only [hn, if_false, show ¬ base = 0 by omega]
  rw [if_pos (by rw [hl]; omega)]

/-- **C42.** On an array stream with room for them, the characters are then found in it by reading. -/
theorem C42_print_to_array (len : Nat) (cs : List Nat) (h : cs.length ≤ len) :
    ∃ s, printString (arrWriter len) (blank len) cs = some s ∧ Holds len s ⟨cs, 0⟩ := by
  have gen : ∀ (cs : List Nat) (s : Arr) (q : Queue), Holds len s q → q.bytes.length + cs.length ≤ len →
      ∃ t, printString (arrWriter len) s cs = some t ∧ Holds len t ⟨q.bytes ++ cs, q.taken⟩ := by
    intro cs
    induction cs with
    | nil => intro s q hs _; exact ⟨s, rfl, by simpa using hs⟩
    | cons c cs ih =>
      intro s q hs hl
      simp only [List.length_cons] at hl
      obtain ⟨t, e, ht⟩ := step_holds hs (.write c)
      have hn : next len q (.write c) = (⟨q.bytes ++ [c], q.taken⟩, 0) := next_write_room c (by omega)
      rw [hn] at e ht
      obtain ⟨u, e2, hu⟩ := ih t _ ht (by simp; omega)
      refine ⟨u, ?_, by simpa using hu⟩
      have : arrWriter len s c = some t := by unfold arrWriter; rw [show writeByte len s c = step len s (.write c) from rfl, e]; rfl
      simp [printString, this, e2]
  simpa using gen cs _ _ (holds_blank len) (by simpa using h)

/-! ### Copying -/

theorem strRead_end (q : Str) (h : q.index ≥ q.str.length) : strRead q = some (q, -1) := by unfold strRead; rw [if_pos h]

theorem strRead_more (q : Str) (h : q.index < q.str.length) :
    strRead q = some (⟨q.str, q.index + 1⟩, (q.str[q.index] : Int)) := by
  unfold strRead; rw [if_neg (by omega), List.getElem?_eq_getElem h]; rfl

/-- **C59.** Copying a string stream: it moves the next `max` bytes, or all that are left if there are fewer, sends each of them to the
writer once and in order, advances the reader by that many, and returns how many they were. -/
theorem C59_copy_string {σ : Type} (w : σ → Nat → σ) (s : σ) (q : Str) (max : Nat) (hb : ∀ b ∈ q.str, b < 256) (hq : q.index ≤ q.str.length) :
    let moved := (q.str.drop q.index).take max
    writeBytes (fun s x => some (w s x)) strRead s q max =
      some (moved.foldl w s, ⟨q.str, q.index + moved.length⟩, moved.length) := by
  suffices gen : ∀ (max : Nat) (s : σ) (q : Str) (i : Nat), (∀ b ∈ q.str, b < 256) → q.index ≤ q.str.length →
      copyLoop (fun s x => some (w s x)) strRead s q i max =
        some (((q.str.drop q.index).take max).foldl w s, ⟨q.str, q.index + ((q.str.drop q.index).take max).length⟩,
          i + ((q.str.drop q.index).take max).length) by
    have := gen max s q 0 hb hq
    rw [Nat.zero_add] at this
    exact this
  intro max
  induction max with
  | zero => intro s q i _ _; simp [copyLoop]
  | succ max ih =>
    intro s q i hb hq
    unfold copyLoop
    by_cases c : q.index ≥ q.str.length
    · rw [strRead_end q c]
      simp only [Option.bind_some]
      rw [if_pos (by decide), List.drop_of_length_le c]
      simp
    · have hlt : q.index < q.str.length := by omega
      have hd : q.str.drop q.index = q.str[q.index] :: q.str.drop (q.index + 1) := List.drop_eq_getElem_cons hlt
      rw [strRead_more q hlt]
      simp only [Option.bind_some]
      rw [if_neg (by omega)]
      have hc : toASCII (q.str[q.index] : Int) = q.str[q.index] := by
        have := hb _ (List.getElem_mem hlt)
        unfold toASCII; simp; omega
      rw [hc, ih _ ⟨q.str, q.index + 1⟩ _ hb hlt, hd]
      simp only [List.take_succ_cons, List.foldl_cons, List.length_cons]
      refine congrArg some ?_
      refine Prod.ext rfl (Prod.ext ?_ ?_)
      · simp only [Str.mk.injEq, true_and]; omega
      · simp only; omega

example : writeBytes sink strRead [] (readFrom [72, 105, 33]) 2 = some ([72, 105], ⟨[72, 105, 33], 2⟩, 2) := by rfl

/-- **C59** fails when the writer refuses bytes: copying to an array stream that is full takes the bytes from the reader, stores none of
them, and reports them as copied. -/
theorem C59_full_writer_fails (len : Nat) (s : Arr) (h : len ≤ s.write) (q : Str) (hb : ∀ b ∈ q.str, b < 256)
    (hq : q.index ≤ q.str.length) :
    writeBytes (arrWriter len) strRead s q q.str.length = some (s, ⟨q.str, q.str.length⟩, q.str.length - q.index) := by
  have hw : ∀ x, arrWriter len s x = some s := by
    intro x; unfold arrWriter writeByte stillRoom; rw [if_neg (by simpa using h)]; rfl
  have gen : ∀ (max : Nat) (q : Str) (i : Nat), (∀ b ∈ q.str, b < 256) → q.index ≤ q.str.length → q.str.length - q.index ≤ max →
      copyLoop (arrWriter len) strRead s q i max = some (s, ⟨q.str, q.str.length⟩, i + (q.str.length - q.index)) := by
    intro max
    induction max with
    | zero =>
      intro q i _ h1 h2
      have : q.index = q.str.length := by omega
      obtain ⟨a, b⟩ := q
      simp only at this; subst this
      simp [copyLoop]
    | succ max ih =>
      intro q i hb h1 h2
      unfold copyLoop
      by_cases c : q.index ≥ q.str.length
      · rw [strRead_end q c]
        have : q.index = q.str.length := by omega
        obtain ⟨a, b⟩ := q
        simp only at this; subst this
        simp
      · have hlt : q.index < q.str.length := by omega
        rw [strRead_more q hlt]
        simp only [Option.bind_some]
        rw [if_neg (by omega), hw, Option.bind_some, ih ⟨q.str, q.index + 1⟩ _ hb hlt (by simp only; omega)]
        simp only
        refine congrArg some ?_
        refine Prod.ext rfl (Prod.ext rfl ?_)
        simp only; omega
  have := gen q.str.length q 0 hb hq (by omega)
  rw [Nat.zero_add] at this
  exact this

example : writeBytes (arrWriter 0) strRead (blank 0) (readFrom [72, 105]) 2 = some (blank 0, ⟨[72, 105], 2⟩, 2) := by rfl

end Ulam.ByteStream
