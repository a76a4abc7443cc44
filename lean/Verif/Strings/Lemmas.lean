import Verif.Strings.Spec
import Verif.Leximited.Lemmas
import Mathlib.Data.List.Forall2
import Mathlib.Data.List.Nodup
/-! # Helper lemmas for string pools -/
namespace Ulam.Strings
open Spec

/-- `n, n+1, ...` paired with a list. -/
def enumN {α} : Nat → List α → List (Nat × α)
  | _, [] => []
  | n, x :: xs => (n, x) :: enumN (n + 1) xs

def enumR {α} : Nat → List α → List (α × Nat)
  | _, [] => []
  | n, x :: xs => (x, n) :: enumR (n + 1) xs

theorem enumN_length {α} (xs : List α) (n : Nat) : (enumN n xs).length = xs.length := by
  induction xs generalizing n with
  | nil => rfl
  | cons x xs ih => simp [enumN, ih]

theorem enumR_length {α} (xs : List α) (n : Nat) : (enumR n xs).length = xs.length := by
  induction xs generalizing n with
  | nil => rfl
  | cons x xs ih => simp [enumR, ih]

theorem mget_enumN {α} (xs : List α) (n k : Nat) (h : n ≤ k) : mget (enumN n xs) k = xs[k - n]? := by
  induction xs generalizing n with
  | nil => rfl
  | cons x xs ih =>
    simp only [enumN, mget]
    by_cases hk : n = k
    · subst hk; simp
    · rw [if_neg hk, ih (n + 1) (by omega)]
      have : k - n = (k - (n + 1)) + 1 := by omega
      rw [this, List.getElem?_cons_succ]

theorem ninsert_enumN {α} (xs : List α) (n : Nat) (x : α) :
    ninsert (enumN n xs) (n + xs.length) x = enumN n (xs ++ [x]) := by
  induction xs generalizing n with
  | nil => simp [enumN, ninsert]
  | cons y ys ih =>
    simp only [enumN, ninsert, List.length_cons, List.cons_append]
    rw [if_neg (by omega), if_neg (by omega)]
    have := ih (n + 1)
    rw [show n + (ys.length + 1) = n + 1 + ys.length by omega, this]

theorem mget_enumR_none {α} [DecidableEq α] (xs : List α) (n : Nat) (x : α) :
    mget (enumR n xs) x = none ↔ x ∉ xs := by
  induction xs generalizing n with
  | nil => simp [enumR, mget]
  | cons y ys ih =>
    simp only [enumR, mget, List.mem_cons, not_or]
    by_cases h : y = x
    · simp [h]
    · rw [if_neg h, ih]
      exact ⟨fun q => ⟨fun e => h e.symm, q⟩, fun q => q.2⟩

theorem mget_enumR_some {α} [DecidableEq α] (xs : List α) (n k : Nat) (x : α)
    (h : mget (enumR n xs) x = some k) : n ≤ k ∧ xs[k - n]? = some x := by
  induction xs generalizing n with
  | nil => simp [enumR, mget] at h
  | cons y ys ih =>
    simp only [enumR, mget] at h
    by_cases hy : y = x
    · rw [if_pos hy] at h
      cases h
      simp [hy]
    · rw [if_neg hy] at h
      obtain ⟨h1, h2⟩ := ih (n + 1) h
      refine ⟨by omega, ?_⟩
      have : k - n = (k - (n + 1)) + 1 := by omega
      rw [this, List.getElem?_cons_succ]; exact h2

theorem enumR_append {α} (xs : List α) (n : Nat) (x : α) :
    enumR n xs ++ [(x, n + xs.length)] = enumR n (xs ++ [x]) := by
  induction xs generalizing n with
  | nil => simp [enumR]
  | cons y ys ih =>
    simp only [enumR, List.cons_append, List.length_cons]
    rw [← ih (n + 1)]
    rw [show n + (ys.length + 1) = n + 1 + ys.length by omega]

theorem minsert_enumR {α} [DecidableEq α] (xs : List α) (n : Nat) (x : α) (h : x ∉ xs) :
    minsert (enumR n xs) x (n + xs.length) = enumR n (xs ++ [x]) := by
  unfold minsert
  rw [(mget_enumR_none xs n x).2 h]
  simp [enumR_append]

/-! ## The compiler's pool -/

structure Inv (d : Bytes) (p : Pool) (strs : List Bytes) : Prop where
  data : p.data = (0, d) :: enumN 1 strs
  index : p.index = enumR 1 strs
  nodup : strs.Nodup

theorem inv_new (d : Bytes) : Inv d (.new d) [] := ⟨rfl, rfl, List.nodup_nil⟩

theorem getIndex_inv {d : Bytes} {p : Pool} {strs : List Bytes} (h : Inv d p strs) (hn : strs.length < 2 ^ 32 - 1)
    (s : Bytes) : ∃ k p' ext, getIndex p s = some (k, p') ∧ Inv d p' (strs ++ ext) ∧ ext.length ≤ 1 ∧ 1 ≤ k ∧
      (strs ++ ext)[k - 1]? = some s := by
  unfold getIndex
  rw [h.index]
  by_cases hs : s ∈ strs
  · cases hm : mget (enumR 1 strs) s with
    | none => exact absurd hs ((mget_enumR_none _ _ _).1 hm)
    | some k =>
      obtain ⟨h1, h2⟩ := mget_enumR_some _ _ _ _ hm
      exact ⟨k, p, [], rfl, by simpa using h, by simp, h1, by simpa using h2⟩
  · rw [(mget_enumR_none _ _ _).2 hs]
    simp only [enumR_length]
    have e : (strs.length + 1) % 2 ^ 32 = strs.length + 1 := Nat.mod_eq_of_lt (by omega)
    rw [e, h.data]
    simp only [List.length_cons, enumN_length, if_true]
    refine ⟨strs.length + 1, _, [s], rfl, ⟨?_, ?_, ?_⟩, by simp, by omega, by simp⟩
    · have := ninsert_enumN strs 1 s
      rw [show strs.length + 1 = 1 + strs.length by omega]
      simp only [ninsert]
      rw [if_neg (by omega), if_neg (by omega), this]
    · have := minsert_enumR strs 1 s hs
      rw [show strs.length + 1 = 1 + strs.length by omega]
      exact this
    · rw [List.nodup_append]
      exact ⟨h.nodup, by simp, fun a ha b hb => by rw [List.mem_singleton] at hb; subst hb; exact fun e => hs (e ▸ ha)⟩

theorem getData_inv {d : Bytes} {p : Pool} {strs : List Bytes} (h : Inv d p strs) {k : Nat} {s : Bytes} (hk : 1 ≤ k)
    (hs : strs[k - 1]? = some s) : getData p k = some s := by
  unfold getData
  have hl : k - 1 < strs.length := (List.getElem?_eq_some_iff.1 hs).1
  rw [h.data]
  rw [if_pos (by simp only [List.length_cons, enumN_length]; omega)]
  simp only [mget]
  rw [if_neg (by omega), mget_enumN _ _ _ hk, hs]

theorem digit_eq (n : Nat) : Leximited.digit n = (n % 10).digitChar := by
  have h : ∀ d, d < 10 → Leximited.digit d = d.digitChar := by decide
  have : Leximited.digit n = Leximited.digit (n % 10) := by unfold Leximited.digit; rw [Nat.mod_mod]
  rw [this, h _ (by omega)]

theorem dec_eq (n : Nat) : Leximited.dec n = Nat.toDigits 10 n := by
  induction n using Nat.strongRecOn with
  | ind n ih =>
    rw [Leximited.dec.eq_def]
    split
    · rename_i h; rw [Nat.toDigits_of_lt_base h, digit_eq, Nat.mod_eq_of_lt h]
    · rename_i h
      rw [ih (n / 10) (by omega), Nat.toDigits_of_base_le (n := n) (by omega) (by omega), digit_eq]

theorem decBytes_eq (n : Nat) : decBytes n = text (.num n) := by
  simp only [decBytes, text]
  rw [dec_eq, Nat.toString_eq_ofList_toDigits]; simp

theorem ask_eq (p : Pool) (r : Req) : ask p r = getIndex p (text r) := by
  cases r with
  | str s => rfl
  | num n => rw [← decBytes_eq]; rfl

theorem run_inv {d : Bytes} : ∀ (rs : List Req) (p : Pool) (strs : List Bytes), Inv d p strs →
    strs.length + rs.length < 2 ^ 32 →
    ∃ idxs p' ext, run p rs = some (idxs, p') ∧ Inv d p' (strs ++ ext) ∧
      List.Forall₂ (fun r k => 1 ≤ k ∧ (strs ++ ext)[k - 1]? = some (text r)) rs idxs
  | [], p, strs, h, _ => ⟨[], p, [], rfl, by simpa using h, .nil⟩
  | r :: rs, p, strs, h, hn => by
    simp only [List.length_cons] at hn
    obtain ⟨k, p1, e1, g1, g2, g3, g4, g5⟩ := getIndex_inv h (by omega) (text r)
    obtain ⟨idxs, p2, e2, f1, f2, f3⟩ := run_inv rs p1 (strs ++ e1) g2 (by rw [List.length_append]; omega)
    refine ⟨k :: idxs, p2, e1 ++ e2, ?_, by rw [← List.append_assoc]; exact f2, ?_⟩
    · have : ask p r = some (k, p1) := by
        rw [← g1, ask_eq]
      rw [run, this]
      simp [f1]
    · rw [← List.append_assoc]
      refine .cons ⟨g4, ?_⟩ f3
      rw [List.getElem?_append_left (List.getElem?_eq_some_iff.1 g5).1]
      exact g5

theorem nodup_index {α} {l : List α} (h : l.Nodup) {i j : Nat} {a b : α} (hi : l[i]? = some a) (hj : l[j]? = some b) :
    i = j ↔ a = b := by
  obtain ⟨h1, rfl⟩ := List.getElem?_eq_some_iff.1 hi
  obtain ⟨h2, rfl⟩ := List.getElem?_eq_some_iff.1 hj
  exact (h.getElem_inj_iff).symm

/-! ## The user pool -/

/-- What is stored for a valid string. -/
def stored (s : Bytes) : Bytes := if s.length = 0 then [0] else s.length :: (s ++ [0])

theorem formatUser_valid {s : Bytes} (h : Valid s) : formatUser s = some (stored s) := by
  unfold formatUser stored
  rw [if_neg (by have := h.1; omega)]
  split
  · rfl
  · rw [Nat.mod_eq_of_lt (by have := h.1; omega)]

theorem stored_inj {s t : Bytes} (h : stored s = stored t) : s = t := by
  unfold stored at h
  split at h <;> split at h
  · rename_i h1 h2
    rw [List.length_eq_zero_iff] at h1 h2
    rw [h1, h2]
  · simp only [List.cons.injEq] at h; rename_i h2; exact absurd h.1.symm h2
  · simp only [List.cons.injEq] at h; rename_i h2 _; exact absurd h.1 h2
  · simp only [List.cons.injEq] at h
    exact List.append_inj_left' h.2 rfl

theorem first_stored (s : Bytes) : first (stored s) = s.length := by
  unfold first stored
  split
  · rename_i h; simp [h]
  · rfl

/-- Positions of consecutive images. -/
def offsets : Nat → List Bytes → List Nat
  | _, [] => []
  | n, s :: ss => n :: offsets (n + (s.length + 2)) ss

def total : List Bytes → Nat
  | [] => 0
  | s :: ss => s.length + 2 + total ss

theorem offsets_length (n : Nat) (ss : List Bytes) : (offsets n ss).length = ss.length := by
  induction ss generalizing n with
  | nil => rfl
  | cons s ss ih => simp [offsets, ih]

theorem offsets_append (n : Nat) (ss : List Bytes) (s : Bytes) :
    offsets n (ss ++ [s]) = offsets n ss ++ [n + total ss] := by
  induction ss generalizing n with
  | nil => simp [offsets, total]
  | cons t ss ih =>
    simp only [List.cons_append, offsets, total, ih]
    rw [show n + (t.length + 2) + total ss = n + (t.length + 2 + total ss) by omega]

theorem total_append (ss : List Bytes) (s : Bytes) : total (ss ++ [s]) = total ss + (s.length + 2) := by
  induction ss with
  | nil => simp [total]
  | cons t ss ih => simp only [List.cons_append, total, ih]; omega

structure UInv (p : UPool) (strs : List Bytes) : Prop where
  data : p.data = (0, []) :: enumN 1 (strs.map stored)
  index : p.index = enumR 1 (strs.map stored)
  offs : p.offs = 0 :: offsets 1 strs
  running : p.running = 1 + total strs
  nodup : strs.Nodup

theorem uinv_new : UInv .new [] := ⟨rfl, rfl, rfl, rfl, List.nodup_nil⟩

theorem uGetIndex_inv {p : UPool} {strs : List Bytes} (h : UInv p strs) {s : Bytes} (hs : Valid s)
    (hn : strs.length < 2 ^ 32 - 1) (ht : 1 + total strs + (s.length + 2) < 2 ^ 32) :
    ∃ k p' ext, uGetIndex p (stored s) = (k, p') ∧ UInv p' (strs ++ ext) ∧ (ext = [] ∨ ext = [s]) ∧ 1 ≤ k ∧
      (strs ++ ext)[k - 1]? = some s := by
  unfold uGetIndex
  rw [h.index]
  by_cases hm : s ∈ strs
  · cases hg : mget (enumR 1 (strs.map stored)) (stored s) with
    | none => exact absurd (List.mem_map_of_mem hm) ((mget_enumR_none _ _ _).1 hg)
    | some k =>
      obtain ⟨h1, h2⟩ := mget_enumR_some _ _ _ _ hg
      refine ⟨k, p, [], rfl, by simpa using h, .inl rfl, h1, ?_⟩
      rw [List.append_nil]
      rw [List.getElem?_map, Option.map_eq_some_iff] at h2
      obtain ⟨t, h3, h4⟩ := h2
      rw [h3, stored_inj h4]
  · have hm' : stored s ∉ strs.map stored := by
      intro q
      obtain ⟨t, h1, h2⟩ := List.mem_map.1 q
      exact hm (stored_inj h2 ▸ h1)
    rw [(mget_enumR_none _ _ _).2 hm']
    simp only
    rw [h.offs, h.data, h.running, first_stored, Nat.mod_eq_of_lt (show s.length < 2 ^ 8 by have := hs.1; omega)]
    simp only [List.length_cons, offsets_length]
    have e : (strs.length + 1) % 2 ^ 32 = strs.length + 1 := Nat.mod_eq_of_lt (by omega)
    rw [e, Nat.mod_eq_of_lt ht]
    have hl : (strs.map stored).length = strs.length := List.length_map ..
    refine ⟨strs.length + 1, _, [s], rfl, ⟨?_, ?_, ?_, ?_, ?_⟩, .inr rfl, by omega, by simp⟩
    · have := ninsert_enumN (strs.map stored) 1 (stored s)
      rw [hl] at this
      rw [show strs.length + 1 = 1 + strs.length by omega]
      simp only [ninsert]
      rw [if_neg (by omega), if_neg (by omega), this]
      simp
    · have := minsert_enumR (strs.map stored) 1 (stored s) hm'
      rw [hl] at this
      rw [show strs.length + 1 = 1 + strs.length by omega]
      simp only
      rw [this]
      simp
    · simp only [offsets_append, List.cons_append]
    · simp only [total_append]; omega
    · rw [List.nodup_append]
      exact ⟨h.nodup, by simp, fun a ha b hb => by rw [List.mem_singleton] at hb; subst hb; exact fun e => hm (e ▸ ha)⟩

theorem uRun_inv : ∀ (ss : List Bytes) (p : UPool) (strs : List Bytes), UInv p strs → (∀ s ∈ ss, Valid s) →
    strs.length + ss.length < 2 ^ 32 → 1 + total strs + total ss < 2 ^ 32 → (∀ s ∈ strs, Valid s) →
    ∃ idxs p' ext, uRun p ss = some (idxs, p') ∧ UInv p' (strs ++ ext) ∧ (∀ s ∈ strs ++ ext, Valid s) ∧
      List.Forall₂ (fun s k => 1 ≤ k ∧ (strs ++ ext)[k - 1]? = some s) ss idxs
  | [], p, strs, h, _, _, _, hV => ⟨[], p, [], rfl, by simpa using h, by simpa using hV, .nil⟩
  | s :: ss, p, strs, h, hv, hn, ht, hV => by
    simp only [List.length_cons, total] at hn ht
    have hs := hv s (by simp)
    obtain ⟨k, p1, e1, g1, g2, g3, g4, g5⟩ := uGetIndex_inv h hs (by omega) (by omega)
    have t1 : total (strs ++ e1) ≤ total strs + (s.length + 2) := by
      rcases g3 with rfl | rfl
      · simp
      · rw [total_append]; omega
    have l1 : (strs ++ e1).length ≤ strs.length + 1 := by
      rcases g3 with rfl | rfl <;> simp
    have v1 : ∀ s ∈ strs ++ e1, Valid s := by
      intro t htm
      rcases List.mem_append.1 htm with q | q
      · exact hV t q
      · rcases g3 with rfl | rfl
        · simp at q
        · rw [List.mem_singleton] at q; subst q; exact hs
    obtain ⟨idxs, p2, e2, f1, f2, fv, f3⟩ := uRun_inv ss p1 (strs ++ e1) g2 (fun t q => hv t (by simp [q]))
      (by omega) (by omega) v1
    refine ⟨k :: idxs, p2, e1 ++ e2, ?_, by rw [← List.append_assoc]; exact f2,
      by rw [← List.append_assoc]; exact fv, ?_⟩
    · rw [uRun, formatUser_valid hs]
      simp [g1, f1]
    · rw [← List.append_assoc]
      refine .cons ⟨g4, ?_⟩ f3
      rw [List.getElem?_append_left (List.getElem?_eq_some_iff.1 g5).1]
      exact g5

/-! ## Emitted literals -/

theorem odigit_oct (n : Nat) : isOct (odigit n) = true := by
  unfold isOct odigit; simp; omega

theorem cBody_quote (r : Bytes) : cBody (34 :: r) = some ([], r) := by
  rw [cBody.eq_def]; simp

theorem cBody_char {c : Nat} (hc : c < 256) (t : Bytes) :
    cBody (writeDblQuotedChar c ++ t) = (cBody t).map fun x => (c :: x.1, x.2) := by
  unfold writeDblQuotedChar
  by_cases h1 : c = 34
  · subst h1; simp only [beq_self_eq_true, Bool.true_or, if_true, List.cons_append, List.nil_append]
    rw [cBody.eq_def]; simp [isOct, cSimple]
  · by_cases h2 : c = 92
    · subst h2; simp only [beq_self_eq_true, Bool.or_true, if_true, List.cons_append, List.nil_append]
      rw [cBody.eq_def]; simp [isOct, cSimple]
    · have hb : (c == 34 || c == 92) = false := by simp [h1, h2]
      rw [hb]
      simp only [Bool.false_eq_true, if_false]
      unfold writeEscaped
      by_cases h3 : (!isGraph c || c == 63) = true
      · rw [if_pos h3]
        simp only [List.cons_append, List.nil_append]
        rw [cBody.eq_def]
        simp only [show ¬ (92 = 34) by decide, if_false, if_true, odigit_oct]
        have hv : (odigit (c / 64) - 48) * 64 + (odigit (c / 8) - 48) * 8 + (odigit c - 48) = c := by
          unfold odigit; omega
        rw [hv, if_pos (by omega)]
      · rw [if_neg h3]
        simp only [List.cons_append, List.nil_append]
        rw [cBody.eq_def]
        have h4 : isGraph c = true ∧ c ≠ 63 := by simpa using h3
        have h5 : 33 ≤ c ∧ c ≤ 126 := by simpa [isGraph] using h4.1
        simp only [h1, h2, if_false]
        rw [if_pos ⟨by omega, by omega, fun q => h4.2 q.1⟩]

theorem writeNull : writeEscaped 0 = writeDblQuotedChar 0 := rfl

theorem cBody_chars (cs : Bytes) (hc : ∀ c ∈ cs, c < 256) (t : Bytes) :
    cBody (cs.flatMap writeDblQuotedChar ++ t) = (cBody t).map fun x => (cs ++ x.1, x.2) := by
  induction cs with
  | nil => simp
  | cons c cs ih =>
    simp only [List.flatMap_cons, List.append_assoc]
    rw [cBody_char (hc c (by simp)), ih (fun d hd => hc d (by simp [hd]))]
    simp [Option.map_map, Function.comp_def]

theorem range_getD (s : Bytes) (t : Bytes) (a : Nat) :
    (List.range s.length).map (fun i => (a :: (s ++ t)).getD (i + 1) 0) = s := by
  apply List.ext_getElem
  · simp
  · intro i h1 h2
    simp only [List.length_map, List.length_range] at h1
    simp only [List.getElem_map, List.getElem_range, List.getD_cons_succ]
    simp [List.getD, List.getElem?_append_left h1, List.getElem?_eq_getElem h1]

theorem stored_chars (s : Bytes) : (List.range s.length).map (fun i => (stored s).getD (i + 1) 0) = s := by
  unfold stored
  split
  · rename_i h
    rw [h]
    rw [List.length_eq_zero_iff] at h
    simp [h]
  · exact range_getD s [0] _

theorem flatMap_range {α} (f : Nat → α) (g : α → Bytes) (n : Nat) :
    (List.range n).flatMap (fun i => g (f i)) = ((List.range n).map f).flatMap g := by
  rw [List.flatMap_map]

theorem cBody_stored {s : Bytes} (h : Valid s) (rest : Bytes) :
    ∃ body, writeDoubleQuotedString (stored s) = 34 :: body ∧ cBody (body ++ rest) = some (image s, rest) := by
  have hne : (stored s).length ≠ 0 := by unfold stored; split <;> simp
  unfold writeDoubleQuotedString
  rw [if_neg hne]
  simp only [first_stored]
  rw [Nat.mod_eq_of_lt (show s.length < 2 ^ 8 by have := h.1; omega)]
  rw [flatMap_range (fun i => (stored s).getD (i + 1) 0) writeDblQuotedChar, stored_chars]
  refine ⟨_, by rw [List.append_assoc, List.append_assoc, List.append_assoc, List.singleton_append], ?_⟩
  simp only [List.append_assoc]
  rw [cBody_char (by have := h.1; omega), cBody_chars s h.2, writeNull, cBody_char (by omega)]
  rw [List.singleton_append, cBody_quote]
  simp [image]

theorem cInit_spaces (n : Nat) (t : Bytes) : cInit (List.replicate n 32 ++ t) = cInit t := by
  induction n with
  | zero => simp
  | succ n ih =>
    rw [List.replicate_succ, List.cons_append, cInit.eq_def]
    simp only [show ¬ (32 = 59) by decide, if_false, true_or, if_true]
    exact ih

theorem cInit_newline (t : Bytes) : cInit (10 :: t) = cInit t := by
  rw [cInit.eq_def]; simp

theorem cInit_literal {body t b : Bytes} (h : cBody (body ++ t) = some (b, t)) :
    cInit (34 :: (body ++ t)) = (cInit t).map (b ++ ·) := by
  rw [cInit.eq_def]
  simp only [show ¬ (34 = 59) by decide, show ¬ (34 = 32 ∨ 34 = 10) by decide, if_false, if_true]
  split
  · rename_i h2; rw [h] at h2; cases h2
  · rename_i b' r' h2
    rw [h] at h2; cases h2; rfl

theorem cInit_entries (ind : Nat) : ∀ (strs : List Bytes) (n : Nat), (∀ s ∈ strs, Valid s) →
    cInit ((enumN n (strs.map stored)).flatMap (fun e => List.replicate ind 32 ++ writeDoubleQuotedString e.2 ++ [10]) ++
      List.replicate ind 32 ++ [59]) = some (strs.flatMap image)
  | [], n, _ => by
    simp only [List.map_nil, enumN, List.flatMap_nil, List.nil_append]
    rw [cInit_spaces, cInit.eq_def]; simp
  | s :: strs, n, h => by
    simp only [List.map_cons, enumN, List.flatMap_cons, List.append_assoc]
    have ih := cInit_entries ind strs (n + 1) (fun t q => h t (by simp [q]))
    simp only [List.append_assoc] at ih
    obtain ⟨body, e1, e2⟩ := cBody_stored (h s (by simp)) ([10] ++ ((enumN (n + 1) (strs.map stored)).flatMap
      (fun e => List.replicate ind 32 ++ (writeDoubleQuotedString e.2 ++ [10])) ++ (List.replicate ind 32 ++ [59])))
    rw [cInit_spaces, e1, List.cons_append, cInit_literal e2, List.singleton_append, cInit_newline, ih]
    rfl

theorem cInit_emit (ind : Nat) {p : UPool} {strs : List Bytes} (h : UInv p strs) (hv : ∀ s ∈ strs, Valid s) :
    cInit (emitEntries ind p) = some (0 :: strs.flatMap image) := by
  unfold emitEntries
  rw [h.data]
  simp only [List.flatMap_cons, List.append_assoc]
  have ih := cInit_entries ind strs 1 hv
  simp only [List.append_assoc] at ih
  have e : writeDoubleQuotedString [] = 34 :: ([92, 48, 48, 48, 34] : Bytes) := rfl
  rw [cInit_spaces, e, List.cons_append, cInit_literal (b := [0]), List.singleton_append, cInit_newline, ih]
  · rfl
  · have : ∀ t : Bytes, cBody ([92, 48, 48, 48, 34] ++ t) = some ([0], t) := by
      intro t
      have h1 : ([92, 48, 48, 48, 34] : Bytes) = writeDblQuotedChar 0 ++ [34] := rfl
      rw [h1, List.append_assoc, cBody_char (by omega), List.singleton_append, cBody_quote]; rfl
    exact this _

theorem image_length (s : Bytes) : (image s).length = s.length + 2 := by simp [image]

theorem flatMap_image_length (strs : List Bytes) : (strs.flatMap image).length = total strs := by
  induction strs with
  | nil => rfl
  | cons s ss ih => simp only [List.flatMap_cons, List.length_append, image_length, total, ih]

theorem offsets_spec : ∀ (strs : List Bytes) (pre : Bytes) (k : Nat) (s : Bytes), strs[k]? = some s →
    ∃ o, (offsets pre.length strs)[k]? = some o ∧ pre.length ≤ o ∧ o + (s.length + 2) ≤ pre.length + total strs ∧
      ((pre ++ strs.flatMap image).drop o).take (s.length + 2) = image s
  | [], pre, k, s, h => by simp at h
  | t :: strs, pre, 0, s, h => by
    simp only [List.getElem?_cons_zero, Option.some.injEq] at h
    subst h
    refine ⟨pre.length, by simp [offsets], Nat.le_refl _, by simp only [total]; omega, ?_⟩
    rw [List.drop_left, List.flatMap_cons, List.take_append_of_le_length (Nat.le_of_eq (image_length _).symm),
      List.take_of_length_le (Nat.le_of_eq (image_length _))]
  | t :: strs, pre, k + 1, s, h => by
    simp only [List.getElem?_cons_succ] at h
    obtain ⟨o, h1, h2, h3, h4⟩ := offsets_spec strs (pre ++ image t) k s h
    have hl : (pre ++ image t).length = pre.length + (t.length + 2) := by rw [List.length_append, image_length]
    rw [hl] at h1 h2 h3
    refine ⟨o, by simpa [offsets] using h1, by omega, by simp only [total]; omega, ?_⟩
    rw [List.flatMap_cons, ← List.append_assoc]
    exact h4

theorem offsets_lt : ∀ (strs : List Bytes) (n i j oi oj : Nat) (s : Bytes), i < j → strs[i]? = some s →
    (offsets n strs)[i]? = some oi → (offsets n strs)[j]? = some oj → oi + (s.length + 2) ≤ oj
  | [], n, i, j, oi, oj, s, _, h, _, _ => by simp at h
  | t :: strs, n, 0, j + 1, oi, oj, s, _, h, h1, h2 => by
    simp only [List.getElem?_cons_zero, Option.some.injEq] at h
    subst h
    simp only [offsets, List.getElem?_cons_zero, Option.some.injEq, List.getElem?_cons_succ] at h1 h2
    subst h1
    have : ∀ (ss : List Bytes) (m k o : Nat), (offsets m ss)[k]? = some o → m ≤ o := by
      intro ss
      induction ss with
      | nil => intro m k o h; simp [offsets] at h
      | cons a ss ih =>
        intro m k o h
        cases k with
        | zero => simp [offsets] at h; omega
        | succ k => simp [offsets] at h; have := ih _ _ _ h; omega
    exact this _ _ _ _ h2
  | t :: strs, n, i + 1, 0, _, _, _, h, _, _, _ => by omega
  | t :: strs, n, i + 1, j + 1, oi, oj, s, hij, h, h1, h2 => by
    simp only [offsets, List.getElem?_cons_succ] at h h1 h2
    exact offsets_lt strs _ i j oi oj s (by omega) h h1 h2

theorem uGetData_inv {p : UPool} {strs : List Bytes} (h : UInv p strs) {k : Nat} {s : Bytes} (hk : 1 ≤ k)
    (hs : strs[k - 1]? = some s) : uGetData p k = some (stored s) := by
  unfold uGetData
  rw [h.data]
  simp only [mget]
  rw [if_neg (by omega), mget_enumN _ _ _ hk, List.getElem?_map, hs]; rfl

/-! ## Reading literals -/

theorem isOct_iff {c : Nat} : isOct c = true ↔ 48 ≤ c ∧ c < 56 := by
  unfold isOct; rw [decide_eq_true_iff]; omega

theorem not_isOct_iff {c : Nat} : isOct c = false ↔ ¬ (48 ≤ c ∧ c < 56) := by
  rw [← isOct_iff]; simp

theorem hexNum_eq (c : Nat) : hexNum c = hexVal c := by
  unfold hexNum hexVal
  repeat' split
  all_goals first | rfl | (exfalso; omega) | (congr 1; omega) | omega

theorem hexVal_lt {c v : Nat} (h : hexVal c = some v) : v < 16 := by
  unfold hexVal at h
  repeat' split at h
  all_goals first | (cases h; omega) | cases h

theorem oct_le {a b : Nat} : (a - 48) * 8 + (b - 48) = (0 * 8 + (a - 48)) * 8 + (b - 48) := by omega

theorem octal1 {a n : Nat} (r : Bytes) (ha : isOct a = true) (hn : isOct n = false) :
    octalConstant (a :: n :: r) = some (a - 48, n :: r) := by
  have h1 := isOct_iff.1 ha
  have h2 := not_isOct_iff.1 hn
  simp only [octalConstant, octalLoop, h1, h2, and_self, if_true, if_false, show (0:Nat) < 3 by decide,
    show 0 + 1 < 3 by decide]
  simp; omega

theorem octal2 {a b n : Nat} (r : Bytes) (ha : isOct a = true) (hb : isOct b = true) (hn : isOct n = false) :
    octalConstant (a :: b :: n :: r) = some ((a - 48) * 8 + (b - 48), n :: r) := by
  have h1 := isOct_iff.1 ha
  have h2 := isOct_iff.1 hb
  have h3 := not_isOct_iff.1 hn
  simp only [octalConstant, octalLoop, h1, h2, h3, and_self, if_true, if_false, show (0:Nat) < 3 by decide,
    show 0 + 1 < 3 by decide, show 0 + 1 + 1 < 3 by decide]
  simp; omega

theorem octal3 {a b c : Nat} (r : Bytes) (ha : isOct a = true) (hb : isOct b = true) (hc : isOct c = true) :
    octalConstant (a :: b :: c :: r) = if (a - 48) * 64 + (b - 48) * 8 + (c - 48) ≤ 255
      then some ((a - 48) * 64 + (b - 48) * 8 + (c - 48), r) else none := by
  have h1 := isOct_iff.1 ha
  have h2 := isOct_iff.1 hb
  have h3 := isOct_iff.1 hc
  have e : ((0 * 8 + (a - 48)) * 8 + (b - 48)) * 8 + (c - 48) = (a - 48) * 64 + (b - 48) * 8 + (c - 48) := by omega
  have : octalLoop 0 0 (a :: b :: c :: r) = ((a - 48) * 64 + (b - 48) * 8 + (c - 48), 3, false, r) := by
    simp only [octalLoop, h1, h2, h3, and_self, if_true, show (0:Nat) < 3 by decide,
      show 0 + 1 < 3 by decide, show 0 + 1 + 1 < 3 by decide, e]
    cases r <;> simp [octalLoop]
  simp only [octalConstant, this]
  simp

theorem octal_end1 {a : Nat} (ha : isOct a = true) : octalConstant [a] = none := by
  have h1 := isOct_iff.1 ha
  simp [octalConstant, octalLoop, h1]

theorem octal_end2 {a b : Nat} (ha : isOct a = true) (hb : isOct b = true) : octalConstant [a, b] = none := by
  have h1 := isOct_iff.1 ha
  have h2 := isOct_iff.1 hb
  simp [octalConstant, octalLoop, h1, h2]

theorem hex1' {a n v : Nat} (r : Bytes) (ha : hexVal a = some v) (hn : hexVal n = none) :
    hexConstant (a :: n :: r) = some (v, n :: r) := by
  have := hexVal_lt ha
  simp only [hexConstant, hexLoop, hexNum_eq, ha, hn, if_true, show (0:Nat) < 2 by decide, show 0 + 1 < 2 by decide]
  simp; omega

theorem hex2' {a b v w : Nat} (r : Bytes) (ha : hexVal a = some v) (hb : hexVal b = some w) :
    hexConstant (a :: b :: r) = some (v * 16 + w, r) := by
  have h1 := hexVal_lt ha
  have h2 := hexVal_lt hb
  have : hexLoop 0 0 (a :: b :: r) = (v * 16 + w, 2, false, r) := by
    simp only [hexLoop, hexNum_eq, ha, hb, if_true, show (0:Nat) < 2 by decide, show 0 + 1 < 2 by decide]
    cases r <;> simp [hexLoop]
  simp only [hexConstant, this]
  simp; omega

theorem hex_none {a : Nat} (r : Bytes) (ha : hexVal a = none) : hexConstant (a :: r) = none := by
  simp [hexConstant, hexLoop, hexNum_eq, ha]

theorem hex_end1 {a v : Nat} (ha : hexVal a = some v) : hexConstant [a] = none := by
  simp [hexConstant, hexLoop, hexNum_eq, ha]

theorem hex_end : hexConstant [] = none := by simp [hexConstant, hexLoop]

theorem escape_named {d v : Nat} (h : (d, v) ∈ named) : escapeByte d = v ∧ isOct d = false ∧ d ≠ 120 ∧ d ≠ 88 := by
  simp only [named, List.mem_cons, Prod.mk.injEq, List.not_mem_nil, or_false] at h
  rcases h with h | h | h | h | h | h | h | h | h | h <;> obtain ⟨rfl, rfl⟩ := h <;> decide

theorem escape_other {d : Nat} (h : ∀ v, (d, v) ∉ named) : escapeByte d = d := by
  unfold escapeByte
  repeat' split
  all_goals first | rfl | (exfalso; subst_vars; revert h; simp [named])

theorem nextByte_iff (s : Bytes) (b : Nat) (r : Bytes) :
    nextByte s = some (b, r) ↔ ∃ i, s = i ++ r ∧ Item i r.head? b := by
  constructor
  · intro h
    cases s with
    | nil => simp [nextByte] at h
    | cons c t =>
      simp only [nextByte] at h
      split at h
      · rename_i hc
        subst hc
        cases t with
        | nil => simp at h
        | cons d r' =>
          simp only at h
          split at h
          · rename_i hd
            have hd : isOct d = true := isOct_iff.2 (by omega)
            cases r' with
            | nil => rw [octal_end1 hd] at h; cases h
            | cons e r2 =>
              cases he : isOct e with
              | false =>
                rw [octal1 r2 hd he] at h; cases h
                exact ⟨[92, d], rfl, .oct1 hd he⟩
              | true =>
                cases r2 with
                | nil => rw [octal_end2 hd he] at h; cases h
                | cons f r3 =>
                  cases hf : isOct f with
                  | false =>
                    rw [octal2 r3 hd he hf] at h; cases h
                    exact ⟨[92, d, e], rfl, .oct2 hd he hf⟩
                  | true =>
                    rw [octal3 r3 hd he hf] at h
                    split at h
                    · rename_i hv
                      cases h
                      exact ⟨[92, d, e, f], rfl, .oct3 hd he hf hv⟩
                    · cases h
          · rename_i hd
            have hd : isOct d = false := not_isOct_iff.2 (by omega)
            split at h
            · rename_i hx
              cases r' with
              | nil => rw [hex_end] at h; cases h
              | cons a r2 =>
                cases ha : hexVal a with
                | none => rw [hex_none r2 ha] at h; cases h
                | some v =>
                  cases r2 with
                  | nil => rw [hex_end1 ha] at h; cases h
                  | cons e r3 =>
                    cases he : hexVal e with
                    | none =>
                      rw [hex1' r3 ha he] at h; cases h
                      exact ⟨[92, d, a], rfl, .hex1 hx ha he⟩
                    | some w =>
                      rw [hex2' r3 ha he] at h; cases h
                      exact ⟨[92, d, a, e], rfl, .hex2 hx ha he⟩
            · rename_i hx
              simp only [Option.some.injEq, Prod.mk.injEq] at h
              obtain ⟨h1, rfl⟩ := h
              by_cases hn : ∃ v, (d, v) ∈ named
              · obtain ⟨v, hv⟩ := hn
                rw [(escape_named hv).1] at h1
                subst h1
                exact ⟨[92, d], rfl, .named hv⟩
              · have hn : ∀ v, (d, v) ∉ named := fun v hv => hn ⟨v, hv⟩
                rw [escape_other hn] at h1
                subst h1
                exact ⟨[92, d], rfl, .other hd (by omega) (by omega) hn⟩
      · rename_i hc
        cases h
        exact ⟨[_], rfl, .raw hc⟩
  · rintro ⟨i, rfl, h⟩
    have key : ∀ n, r.head? = some n → ∃ r', r = n :: r' := by
      intro n hn; cases r with
      | nil => simp at hn
      | cons a r' => simp at hn; exact ⟨r', by rw [hn]⟩
    have oc : ∀ a, isOct a = true → (48 ≤ a ∧ a ≤ 55) := fun a ha => by have := isOct_iff.1 ha; omega
    generalize hh : r.head? = m at h
    cases h with
    | raw hc => simp [nextByte, hc]
    | named hv =>
      obtain ⟨h1, h2, h3, h4⟩ := escape_named hv
      have := not_isOct_iff.1 h2
      simp only [List.cons_append, List.nil_append, nextByte, if_true]
      rw [if_neg (by omega), if_neg (by omega), h1]
    | oct1 ha hn =>
      obtain ⟨r', rfl⟩ := key _ hh
      simp only [List.cons_append, List.nil_append, nextByte, if_true]
      rw [if_pos (oc _ ha), octal1 r' ha hn]
    | oct2 ha hb hn =>
      obtain ⟨r', rfl⟩ := key _ hh
      simp only [List.cons_append, List.nil_append, nextByte, if_true]
      rw [if_pos (oc _ ha), octal2 r' ha hb hn]
    | oct3 ha hb hc hv =>
      simp only [List.cons_append, List.nil_append, nextByte, if_true]
      rw [if_pos (oc _ ha), octal3 r ha hb hc, if_pos hv]
    | hex1 hx ha hn =>
      obtain ⟨r', rfl⟩ := key _ hh
      simp only [List.cons_append, List.nil_append, nextByte, if_true]
      rw [if_neg (by omega), if_pos hx, hex1' r' ha hn]
    | hex2 hx ha hb =>
      simp only [List.cons_append, List.nil_append, nextByte, if_true]
      rw [if_neg (by omega), if_pos hx, hex2' r ha hb]
    | other ho h1 h2 hn =>
      have := not_isOct_iff.1 ho
      simp only [List.cons_append, List.nil_append, nextByte, if_true]
      rw [if_neg (by omega), if_neg (by omega), escape_other hn]

theorem item_ne {i : Bytes} {n : Option Nat} {b : Nat} (h : Item i n b) : i ≠ [] := by
  cases h <;> simp

theorem head_append_quote (t r : Bytes) (q : Nat) : (t ++ q :: r).head? = (t ++ [q]).head? := by
  cases t <;> rfl

theorem quoted_of (q : Nat) (hq : q = 34) {t bs : Bytes} (h : Denotes q t bs) (r : Bytes) :
    quoted (t ++ q :: r) = some (bs, r) := by
  induction h with
  | nil => rw [List.nil_append, quoted.eq_def]; simp [hq]
  | @cons i t b bs hi hne _ ih =>
    have hn : nextByte (i ++ (t ++ q :: r)) = some (b, t ++ q :: r) :=
      (nextByte_iff _ _ _).2 ⟨i, rfl, by rw [head_append_quote]; exact hi⟩
    rw [List.append_assoc]
    cases i with
    | nil => exact absurd rfl (item_ne hi)
    | cons c i =>
      rw [List.cons_append] at hn ⊢
      rw [quoted.eq_def]
      have hc : c ≠ 34 := by rintro rfl; exact hne (by rw [hq]; rfl)
      simp only [hc, if_false]
      split
      · rename_i h2; rw [hn] at h2; cases h2
      · rename_i b' r' h2
        rw [hn] at h2; cases h2
        rw [ih]

theorem quoted_to : ∀ (n : Nat) (s bs r : Bytes), s.length ≤ n → quoted s = some (bs, r) →
    ∃ t, s = t ++ 34 :: r ∧ Denotes 34 t bs := by
  intro n
  induction n with
  | zero => intro s bs r hn h; cases s with
    | nil => rw [quoted.eq_def] at h; cases h
    | cons c s => simp at hn
  | succ n ih =>
    intro s bs r hn h
    cases s with
    | nil => rw [quoted.eq_def] at h; cases h
    | cons c s =>
      rw [quoted.eq_def] at h
      simp only at h
      split at h
      · rename_i hc; cases h; subst hc; exact ⟨[], rfl, .nil⟩
      · rename_i hc
        split at h
        · cases h
        · rename_i b r' hb
          split at h
          · cases h
          · rename_i bs' r'' hq
            cases h
            have hl := nextByte_len hb
            obtain ⟨t, rfl, h2⟩ := ih r' bs' _ (by omega) hq
            obtain ⟨i, h3, h4⟩ := (nextByte_iff _ _ _).1 hb
            refine ⟨i ++ t, by rw [h3, List.append_assoc], .cons (by rw [← head_append_quote t r]; exact h4) ?_ h2⟩
            cases i with
            | nil => exact absurd rfl (item_ne h4)
            | cons d i =>
              rw [List.cons_append] at h3
              injection h3 with h3 _
              subst h3
              simpa using hc

theorem formatUser_some {bs d : Bytes} : formatUser bs = some d ↔ bs.length ≤ 255 ∧ d = stored bs := by
  unfold formatUser stored
  split
  · constructor
    · intro h; cases h
    · rintro ⟨h, _⟩; omega
  · rename_i h
    rw [Nat.mod_eq_of_lt (show bs.length < 2 ^ 8 by omega)]
    split <;> simp only [Option.some.injEq] <;> exact ⟨fun q => ⟨by omega, q.symm⟩, fun q => q.2.symm⟩

/-! ## Printing and reading back -/

theorem odigit_sub (n : Nat) : odigit n - 48 = n % 8 := by unfold odigit; omega

theorem item_octBytes {c : Nat} (hc : c < 256) {n : Nat} (hn : isOct n = false ∨ 64 ≤ c) :
    Item (92 :: octBytes c) (some n) c := by
  unfold octBytes
  split
  · have := @Item.oct1 (odigit c) n (odigit_oct _) (hn.resolve_right (by omega))
    rw [odigit_sub, Nat.mod_eq_of_lt (by omega)] at this; exact this
  · split
    · have := @Item.oct2 (odigit (c / 8)) (odigit c) n (odigit_oct _) (odigit_oct _) (hn.resolve_right (by omega))
      rw [odigit_sub, odigit_sub, show c / 8 % 8 * 8 + c % 8 = c by omega] at this; exact this
    · have := @Item.oct3 (odigit (c / 64)) (odigit (c / 8)) (odigit c) (some n) (odigit_oct _) (odigit_oct _)
        (odigit_oct _)
      rw [odigit_sub, odigit_sub, odigit_sub, show c / 64 % 8 * 64 + c / 8 % 8 * 8 + c % 8 = c by omega] at this
      exact this (by omega)

theorem clean_tail {a : Nat} {s : Bytes} (h : Clean (a :: s)) : Clean s := by
  refine ⟨fun q => h.1 (by simp [q]), ?_⟩
  intro pre x y post e hx
  exact h.2 (a :: pre) x y post (by rw [e]; rfl) hx

set_option maxRecDepth 4000 in
theorem formatChar_head {b : Nat} (hb : b < 256) : ∃ n t, formatChar b = n :: t ∧ (isOct n = true → n = b) := by
  have : ∀ b < 256, (formatChar b).head?.isSome ∧ ∀ n ∈ (formatChar b).head?, isOct n = true → n = b := by decide +kernel
  obtain ⟨h1, h2⟩ := this b hb
  cases h : formatChar b with
  | nil => rw [h] at h1; simp at h1
  | cons n t => exact ⟨n, t, rfl, h2 n (by rw [h]; rfl)⟩

set_option maxRecDepth 4000 in
theorem item_formatChar {a : Nat} (ha : a < 256) (hq : a ≠ 34) {n : Nat}
    (hn : ShortOctal a → isOct n = false) : Item (formatChar a) (some n) a ∧ (formatChar a).head? ≠ some 34 := by
  by_cases hs : isPrint a = true ∧ a ≠ 92
  · have h2 : 32 ≤ a ∧ a ≤ 126 := by simpa [isPrint] using hs.1
    have e : formatChar a = [a] := by
      unfold formatChar
      repeat' split
      all_goals first | omega | (subst_vars; rfl) | rfl | (exfalso; omega) | skip
      · exact absurd hs.1 (by assumption)
    rw [e]
    exact ⟨.raw hs.2, by simpa using hq⟩
  · by_cases hm : (7 ≤ a ∧ a ≤ 13) ∨ a = 92
    · have : ∀ a < 256, ((7 ≤ a ∧ a ≤ 13) ∨ a = 92) →
          ∃ d ∈ (named.map Prod.fst), formatChar a = [92, d] ∧ (d, a) ∈ named := by decide +kernel
      obtain ⟨d, _, h1, h2⟩ := this a ha hm
      rw [h1]
      exact ⟨.named h2, by simp⟩
    · have e : formatChar a = 92 :: octBytes a := by
        have hp : ¬ isPrint a = true := fun q => hs ⟨q, fun e => hm (.inr e)⟩
        have : ¬ (32 ≤ a ∧ a ≤ 126) := by simpa [isPrint] using hp
        unfold formatChar
        repeat' split
        all_goals first | (exfalso; omega) | rfl | (exact absurd (by assumption) hp)
      have hp : ¬ (32 ≤ a ∧ a ≤ 126) := by
        intro q
        exact hs ⟨by simpa [isPrint] using q, fun e => hm (.inr e)⟩
      rw [e]
      refine ⟨item_octBytes ha ?_, by simp⟩
      by_cases h64 : 64 ≤ a
      · exact .inr h64
      · exact .inl (hn (by unfold ShortOctal; omega))

theorem denotes_format : ∀ (s : Bytes), (∀ c ∈ s, c < 256) → Clean s → Denotes 34 (s.flatMap formatChar) s
  | [], _, _ => .nil
  | a :: s, hv, hc => by
    have ih := denotes_format s (fun c h => hv c (by simp [h])) (clean_tail hc)
    rw [List.flatMap_cons]
    have hq : a ≠ 34 := fun e => hc.1 (by simp [e])
    cases s with
    | nil =>
      have := item_formatChar (hv a (by simp)) hq (n := 34) (fun _ => rfl)
      exact .cons (by simpa using this.1) this.2 ih
    | cons b s =>
      obtain ⟨n, t, h1, h2⟩ := formatChar_head (hv b (by simp))
      have := item_formatChar (hv a (by simp)) hq (n := n) (fun hs => by
        have hb := hc.2 [] a b s rfl hs
        cases hn : isOct n with
        | false => rfl
        | true => rw [← h2 hn, hn] at hb; exact hb)
      refine .cons ?_ this.2 ih
      rw [List.flatMap_cons, h1]
      exact this.1

theorem denotes_octal : ∀ (s : Bytes), (∀ c ∈ s, c < 256) →
    Denotes 34 (s.flatMap fun c => [92, odigit (c / 64), odigit (c / 8), odigit c]) s
  | [], _ => .nil
  | a :: s, hv => by
    rw [List.flatMap_cons]
    have ha := hv a (by simp)
    refine .cons ?_ (by simp) (denotes_octal s (fun c h => hv c (by simp [h])))
    have := @Item.oct3 (odigit (a / 64)) (odigit (a / 8)) (odigit a)
      ((s.flatMap fun c => [92, odigit (c / 64), odigit (c / 8), odigit c]) ++ [34]).head?
      (odigit_oct _) (odigit_oct _) (odigit_oct _)
    rw [odigit_sub, odigit_sub, odigit_sub, show a / 64 % 8 * 64 + a / 8 % 8 * 8 + a % 8 = a by omega] at this
    exact this (by omega)

theorem readNums_digits (ds : List Char) (hd : ∀ c ∈ ds, c.toNat ≠ 44) (cur : Nat) (r : Bytes) :
    readNums cur (ds.map Char.toNat ++ r) = readNums (ds.foldl (fun a c => a * 10 + (c.toNat - 48)) cur) r := by
  induction ds generalizing cur with
  | nil => rfl
  | cons c ds ih =>
    simp only [List.map_cons, List.cons_append, readNums, List.foldl_cons]
    rw [if_neg (hd c (by simp)), ih (fun x h => hd x (by simp [h]))]

theorem dec_ne_comma (n : Nat) : ∀ c ∈ Leximited.dec n, c.toNat ≠ 44 := by
  induction n using Nat.strongRecOn with
  | ind n ih =>
    rw [Leximited.dec.eq_def]
    have hd : (Leximited.digit n).toNat ≠ 44 := by rw [Leximited.digit_toNat]; omega
    split
    · simpa using hd
    · intro c hc
      rcases List.mem_append.1 hc with q | q
      · exact ih _ (by omega) c q
      · rw [List.mem_singleton] at q; subst q; exact hd

theorem readNums_dec (n : Nat) (r : Bytes) : readNums 0 (decBytes n ++ r) = readNums n r := by
  unfold decBytes
  rw [readNums_digits _ (dec_ne_comma n)]
  have := Leximited.undec_dec n
  unfold Leximited.undec at this
  rw [this]

theorem readNums_list (os : List Nat) (h : ∀ o ∈ os, o > 0) (n : Nat) :
    readNums n (os.flatMap fun o => (if o > 0 then [44] else []) ++ decBytes o) = n :: os := by
  induction os generalizing n with
  | nil => simp [readNums]
  | cons o os ih =>
    rw [List.flatMap_cons, if_pos (h o (by simp)), List.append_assoc, List.singleton_append, readNums, if_pos rfl,
      readNums_dec, ih (fun x hx => h x (by simp [hx]))]

theorem offsets_pos (strs : List Bytes) (n : Nat) (hn : n > 0) : ∀ o ∈ offsets n strs, o > 0 := by
  induction strs generalizing n with
  | nil => simp [offsets]
  | cons s ss ih =>
    intro o ho
    rw [offsets, List.mem_cons] at ho
    rcases ho with rfl | ho
    · exact hn
    · exact ih _ (by omega) o ho

theorem readNums_emit {p : UPool} {strs : List Bytes} (h : UInv p strs) : readNums 0 (emitIndexes p) = p.offs := by
  unfold emitIndexes
  rw [h.offs, List.flatMap_cons]
  simp only [show ¬ ((0:Nat) > 0) by omega, if_false, List.nil_append]
  rw [readNums_dec, readNums_list _ (offsets_pos _ _ (by omega))]

end Ulam.Strings
