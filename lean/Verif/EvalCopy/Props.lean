import Verif.EvalCopy.Model
import Verif.EvalCopy.Spec
import Verif.ClassInfo.Props
import Verif.BaseCopy.Lemmas
/-! # C133: base classes in the evaluator -/
namespace Ulam.EvalCopy
open Walker Walker.Spec Layout Layout.Spec Related Related.Spec ClassInfo ClassInfo.Spec EvalCopy.Spec
open BaseCopy (piece wr rd wr_length rd_length wr_get rd_get)
variable {n : Nat}

/-- The places of the parts. -/
def relOf (w : World n) (L : Fin n → Class) (c a : Fin n) : Option Nat := relativePosition w (fun x => pack w L x) c a

theorem piece_ok (fm to' : List Bool) (f t k : Nat) (hf : f + k ≤ fm.length) (ht : t + k ≤ to'.length) :
    ∃ r, piece fm to' f t k = some r ∧ r.length = to'.length ∧ (∀ i < k, r[t + i]? = fm[f + i]?) ∧
      ∀ q, ¬ Covers t k q → r[q]? = to'[q]? := by
  have hl := rd_length fm f k hf
  refine ⟨wr to' t (rd fm f k), by simp [piece, hf, ht], wr_length _ _ _ (by omega), fun i hi => ?_, fun q hq => ?_⟩
  · rw [wr_get _ _ _ _ (by omega), hl, if_pos (by omega), Nat.add_sub_cancel_left, rd_get, if_pos hi]
  · rw [wr_get _ _ _ _ (by omega), hl]
    exact if_neg hq

theorem fold_spec (w : World n) (L : Fin n → Class) (limit : Nat) (c t : Fin n) (fm : List Bool) (l : List (Fin n)) (nd : l.Nodup)
    (hlim : ∀ a ∈ l, baseBits L a ≤ limit)
    (hfm : ∀ a ∈ l, ∀ f, relOf w L c a = some f → 25 + f + baseBits L a ≤ fm.length) (to' : List Bool)
    (hto : ∀ a ∈ l, ∀ r, relOf w L t a = some r → 25 + r + baseBits L a ≤ to'.length)
    (dis : ∀ a ∈ l, ∀ a' ∈ l, ∀ r r' q, relOf w L t a = some r → relOf w L t a' = some r' → Covers (25 + r) (baseBits L a) q →
      Covers (25 + r') (baseBits L a') q → a = a') :
    ∃ v, l.foldlM (copyPart w L (fun x => pack w L x) limit c t fm) to' = some v ∧ v.length = to'.length ∧
      (∀ a ∈ l, ∀ f r, relOf w L c a = some f → relOf w L t a = some r → ∀ i < baseBits L a, v[25 + r + i]? = fm[25 + f + i]?) ∧
      ∀ q, (∀ a ∈ l, ∀ f r, relOf w L c a = some f → relOf w L t a = some r → ¬ Covers (25 + r) (baseBits L a) q) → v[q]? = to'[q]? := by
  induction l generalizing to' with
  | nil => exact ⟨to', rfl, rfl, (fun a ha => by cases ha), fun _ _ => rfl⟩
  | cons b l ih =>
    rw [List.nodup_cons] at nd
    have hb := List.mem_cons_self (a := b) (l := l)
    have one : ∃ u, copyPart w L (fun x => pack w L x) limit c t fm to' b = some u ∧ u.length = to'.length ∧
        (∀ f r, relOf w L c b = some f → relOf w L t b = some r → ∀ i < baseBits L b, u[25 + r + i]? = fm[25 + f + i]?) ∧
        ∀ q, (∀ f r, relOf w L c b = some f → relOf w L t b = some r → ¬ Covers (25 + r) (baseBits L b) q) → u[q]? = to'[q]? := by
      unfold copyPart
      dsimp only
      rw [if_neg (by have := hlim b hb; omega)]
      by_cases hz : baseBits L b > 0
      · rw [if_pos hz]
        cases hc : relOf w L c b with
        | none =>
          refine ⟨to', ?_, rfl, (by intro f r h; cases h), fun _ _ => rfl⟩
          unfold relOf at hc; rw [hc]
        | some f =>
          cases ht : relOf w L t b with
          | none =>
            refine ⟨to', ?_, rfl, (by intro f r _ h; cases h), fun _ _ => rfl⟩
            unfold relOf at hc ht; rw [hc, ht]
          | some r =>
            obtain ⟨u, u1, u2, u3, u4⟩ := piece_ok fm to' (25 + f) (25 + r) (baseBits L b) (hfm b hb f hc) (hto b hb r ht)
            refine ⟨u, ?_, u2, ?_, fun q hq => u4 q (hq f r rfl rfl)⟩
            · unfold relOf at hc ht; rw [hc, ht]; exact u1
            · intro f' r' h1 h2; cases h1; cases h2; exact u3
      · rw [if_neg hz]
        exact ⟨to', rfl, rfl, fun f r _ _ i hi => absurd hi (by omega), fun _ _ => rfl⟩
    obtain ⟨u, u1, u2, u3, u4⟩ := one
    obtain ⟨v, v1, v2, v3, v4⟩ := ih nd.2 (fun a ha => hlim a (List.mem_cons_of_mem _ ha))
      (fun a ha => hfm a (List.mem_cons_of_mem _ ha)) u (fun a ha => by rw [u2]; exact hto a (List.mem_cons_of_mem _ ha))
      (fun a ha a' ha' => dis a (List.mem_cons_of_mem _ ha) a' (List.mem_cons_of_mem _ ha'))
    refine ⟨v, ?_, by rw [v2, u2], ?_, ?_⟩
    · rw [List.foldlM_cons, u1]; exact v1
    · intro a ha f r hf hr i hi
      rcases List.mem_cons.1 ha with rfl | ha'
      · rw [v4 (25 + r + i), u3 f r hf hr i hi]
        intro a' ha' f' r' _ hr' hcov
        have : a = a' := dis a hb a' (List.mem_cons_of_mem _ ha') r r' _ hr hr' ⟨by omega, by omega⟩ hcov
        exact nd.1 (this ▸ ha')
      · exact v3 a ha' f r hf hr i hi
    · intro q hq
      rw [v4 q fun a ha => hq a (List.mem_cons_of_mem _ ha), u4 q (hq b hb)]

/-- The parts of an object are apart. -/
theorem parts_apart {w : World n} {L : Fin n → Class} {c : Fin n} {anc : List (Fin n)} (g : Good w L c anc) (a a' : Fin n) (r r' q : Nat)
    (ha : SelfOrAncestor w c a) (ha' : SelfOrAncestor w c a') (hr : relOf w L c a = some r) (hr' : relOf w L c a' = some r')
    (hq : Covers (25 + r) (ownBits (L a)) q) (hq' : Covers (25 + r') (ownBits (L a')) q) : a = a' := by
  obtain ⟨t1, p, t2, t4, _, t3⟩ := C15_layout_partial w L g.ok g.ac g.tb g.wf c g.cls.root g.cls.deref g.cls.defined g.no_union g.nd
    anc g.nodup g.mem_anc g.fit
  obtain ⟨_, own2, _⟩ := t3 (fun x => pack w L x) t2
  obtain ⟨_, s, _, _, s1, _, _, s2, s3⟩ := place g a ha
  obtain ⟨_, s', _, _, s1', _, _, s2', s3'⟩ := place g a' ha'
  unfold relOf at hr hr'
  rw [s1] at hr; cases hr
  rw [s1'] at hr'; cases hr'
  obtain ⟨q1, q2⟩ := hq
  obtain ⟨q1', q2'⟩ := hq'
  have anc_of : ∀ x, SelfOrAncestor w c x → x ≠ c → Ancestor w c x := by
    intro x hx hne
    rcases Relation.reflTransGen_iff_eq_or_transGen.1 hx with h | h
    · exact absurd h hne
    · exact h
  by_cases e : a = c
  · by_cases e' : a' = c
    · rw [e, e']
    · have h1 := s2 e; have h2 := s3' e'; rw [e] at q2; omega
  · by_cases e' : a' = c
    · have h1 := s2' e'; have h2 := s3 e; rw [e'] at q2'; omega
    · exact Owner.ancestor.inj (own2 (q - 25) (.ancestor a) (.ancestor a')
        ⟨anc_of a ha e, _, s1, by omega, by omega⟩ ⟨anc_of a' ha' e', _, s1', by omega, by omega⟩)

theorem no_place {w : World n} {L : Fin n → Class} {c : Fin n} {anc : List (Fin n)} (g : Good w L c anc) (a : Fin n) (ha : IsClass w a)
    (r : Nat) (h : relOf w L c a = some r) : SelfOrAncestor w c a := by
  by_contra hn
  have := (C15_query w g.ok (fun x => pack w L x) c a).2 (by rw [g.cls.deref, g.cls.root, ha.deref, ha.root]; exact hn)
  unfold relOf at h
  rw [this] at h; cases h

/-- The bits copied: the parts that both objects have, of the class `b` and of its ancestors, and no others. -/
theorem extract_spec (w : World n) (L : Fin n → Class) (limit : Nat) (c t b : Fin n) (ac at' : List (Fin n))
    (gc : Good w L c ac) (gt : Good w L t at') (hb : IsClass w b) (hk : (L b).kind ≠ .element)
    (hlim : ∀ a, SelfOrAncestor w b a → ownBits (L a) ≤ limit) (hown : ∀ a, SelfOrAncestor w b a → ownBits (L a) < 2 ^ 32)
    (fm to' : List Bool) (hfm : fm.length = 96) (hto : to'.length = 96)
    (sc : totalBits w L c ≤ 71) (st : totalBits w L t ≤ 71) :
    ∃ v, extract w L (fun x => pack w L x) limit c t b fm to' = some v ∧ v.length = 96 ∧
      (∀ a f r, SelfOrAncestor w b a → relOf w L c a = some f → relOf w L t a = some r → ∀ i < ownBits (L a),
        v[25 + r + i]? = fm[25 + f + i]?) ∧
      ∀ q, (∀ a f r, SelfOrAncestor w b a → relOf w L c a = some f → relOf w L t a = some r →
        ¬ Covers (25 + r) (ownBits (L a)) q) → v[q]? = to'[q]? := by
  have hmem : ∀ a, a ∈ classes w false (w.deref b) ↔ SelfOrAncestor w b a := by
    intro a
    rw [(C13_visits_each_ancestor_once w gc.ok false (w.deref b)).2.1, hb.deref, hb.root]
    exact ⟨fun h => h.2, fun h => ⟨(class_of gc.tb hb h).defined, h⟩⟩
  have hbits : ∀ a, SelfOrAncestor w b a → baseBits L a = ownBits (L a) := by
    intro a ha
    unfold baseBits
    rw [if_neg, myBits_eq _ (gc.wf a) (hown a ha)]
    rcases Relation.reflTransGen_iff_eq_or_transGen.1 ha with rfl | h
    · exact hk
    · exact (anc_props gc.tb h).2.2.2.2
  have inC : ∀ {x : Fin n} {anc : List (Fin n)}, Good w L x anc → totalBits w L x ≤ 71 → ∀ a, SelfOrAncestor w b a → ∀ r,
      relOf w L x a = some r → SelfOrAncestor w x a ∧ 25 + r + ownBits (L a) ≤ 96 := by
    intro x anc g hs a ha r hr
    have h1 := no_place g a (class_of gc.tb hb ha) r hr
    obtain ⟨_, s, _, _, s1, s2, _⟩ := place g a h1
    unfold relOf at hr
    rw [s1] at hr; cases hr
    exact ⟨h1, by omega⟩
  obtain ⟨v, v1, v2, v3, v4⟩ := fold_spec w L limit c t fm (classes w false (w.deref b))
    (C13_visits_each_ancestor_once w gc.ok false (w.deref b)).1
    (fun a ha => by rw [hbits a ((hmem a).1 ha)]; exact hlim a ((hmem a).1 ha))
    (fun a ha f hf => by rw [hbits a ((hmem a).1 ha), hfm]; exact (inC gc sc a ((hmem a).1 ha) f hf).2) to'
    (fun a ha f hf => by rw [hbits a ((hmem a).1 ha), hto]; exact (inC gt st a ((hmem a).1 ha) f hf).2)
    (fun a ha a' ha' r r' q hr hr' hq hq' => by
      rw [hbits a ((hmem a).1 ha)] at hq
      rw [hbits a' ((hmem a').1 ha')] at hq'
      exact parts_apart gt a a' r r' q (inC gt st a ((hmem a).1 ha) r hr).1 (inC gt st a' ((hmem a').1 ha') r' hr').1 hr hr' hq hq')
  refine ⟨v, v1, by omega, ?_, ?_⟩
  · intro a f r ha hf hr i hi
    exact v3 a ((hmem a).2 ha) f r hf hr i (by rw [hbits a ha]; exact hi)
  · intro q hq
    refine v4 q fun a ha f r hf hr => ?_
    rw [hbits a ((hmem a).1 ha)]
    exact hq a f r ((hmem a).1 ha) hf hr

/-- A class of values: laid out within the 71 bits of the state. -/
structure Value (w : World n) (L : Fin n → Class) (c : Fin n) : Prop where
  good : ∃ anc, Good w L c anc
  size : totalBits w L c ≤ 71

theorem Value.own {w : World n} {L : Fin n → Class} {c : Fin n} (h : Value w L c) (a : Fin n) (ha : SelfOrAncestor w c a) :
    ownBits (L a) ≤ totalBits w L c := by
  obtain ⟨anc, g⟩ := h.good
  obtain ⟨_, _, _, _, _, h4, _⟩ := place g a ha
  omega

theorem Value.rel {w : World n} {L : Fin n → Class} {c : Fin n} (h : Value w L c) (a : Fin n) (ha : SelfOrAncestor w c a) :
    ∃ r, relOf w L c a = some r := by
  obtain ⟨anc, g⟩ := h.good
  obtain ⟨_, r, _, _, h3, _⟩ := place g a ha
  exact ⟨r, h3⟩

theorem limit_ok {w : World n} {L : Fin n → Class} {c : Fin n} (h : Value w L c) :
    ∃ limit, limitFor (totalBits w L c) = some limit ∧ totalBits w L c ≤ limit := by
  have := h.size
  unfold limitFor longBits stateBits
  by_cases h1 : totalBits w L c ≤ 64
  · exact ⟨64, by rw [if_pos h1], h1⟩
  · exact ⟨71, by rw [if_neg h1, if_pos this], this⟩

theorem member_in {w : World n} {L : Fin n → Class} {c : Fin n} (h : Value w L c) {a : Fin n} (ha : SelfOrAncestor w c a)
    {i : Nat} {m : Member} (hm : (L a).members[i]? = some m) : offset (L a) i + size m ≤ ownBits (L a) := by
  obtain ⟨anc, g⟩ := h.good
  have h1 := h.own a ha
  have h2 := h.size
  exact (offset_eq (L a) (g.wf a) (by omega) i m hm).2

/-- **C133.** A cast of an object to a base class: the value has each data member of the base and of the base's ancestors as
the object has it, and all its other bits are 0. -/
theorem C133_cast (w : World n) (L : Fin n → Class) (c b : Fin n) (hc : Value w L c) (hb : Value w L b)
    (hk : (L b).kind ≠ .element) (hs : SelfOrAncestor w c b) (fm : List Bool) (hfm : fm.length = 96) :
    ∃ v, castBase w L (fun x => pack w L x) c b fm = some v ∧ v.length = 96 ∧ SameParts w L (relOf w L) b c fm b v ∧
      ∀ q < 96, ¬ InPart w L (relOf w L) b b q → v[q]? = some false := by
  obtain ⟨ac, gc⟩ := hc.good
  obtain ⟨ab, gb⟩ := hb.good
  obtain ⟨limit, l1, l2⟩ := limit_ok hb
  obtain ⟨v, v1, v2, v3, v4⟩ := extract_spec w L limit c b b ac ab gc gb gb.cls hk
    (fun a ha => by have := hb.own a ha; omega) (fun a ha => by have := hb.own a ha; have := hb.size; omega)
    fm (List.replicate atomBits false) hfm (by simp [atomBits]) hc.size hb.size
  refine ⟨v, by unfold castBase; rw [l1, Option.bind_some, v1], v2, ?_, ?_⟩
  · rintro a i j q q' ha ⟨m, f, m1, m2, m3, rfl⟩ ⟨m', r, k1, k2, k3, rfl⟩
    rw [m1] at k1; cases k1
    have := member_in hb ha m1
    have h := v3 a f r ha m3 k3 (offset (L a) i + j) (by omega)
    rw [← Nat.add_assoc, ← Nat.add_assoc] at h
    exact h.symm
  · intro q hq hn
    rw [v4 q fun a f r ha _ hr hcov => hn ⟨a, r, ha, hr, hcov⟩, List.getElem?_replicate, if_pos (by simpa [atomBits] using hq)]

/-- **C133.** The cast of a reference does the same, if the base and its ancestors have at most 64 bits each. -/
theorem C133_reference_partial (w : World n) (L : Fin n → Class) (c b : Fin n) (hc : Value w L c) (hb : Value w L b)
    (hk : (L b).kind ≠ .element) (hs : SelfOrAncestor w c b) (fm : List Bool) (hfm : fm.length = 96)
    (h64 : ∀ a, SelfOrAncestor w b a → ownBits (L a) ≤ 64) :
    ∃ v, castBaseFromRef w L (fun x => pack w L x) c b fm = some v ∧ v.length = 96 ∧ SameParts w L (relOf w L) b c fm b v ∧
      ∀ q < 96, ¬ InPart w L (relOf w L) b b q → v[q]? = some false := by
  obtain ⟨ac, gc⟩ := hc.good
  obtain ⟨ab, gb⟩ := hb.good
  obtain ⟨v, v1, v2, v3, v4⟩ := extract_spec w L longBits c b b ac ab gc gb gb.cls hk
    (fun a ha => h64 a ha) (fun a ha => by have := hb.own a ha; have := hb.size; omega)
    fm (List.replicate atomBits false) hfm (by simp [atomBits]) hc.size hb.size
  refine ⟨v, v1, v2, ?_, ?_⟩
  · rintro a i j q q' ha ⟨m, f, m1, m2, m3, rfl⟩ ⟨m', r, k1, k2, k3, rfl⟩
    rw [m1] at k1; cases k1
    have := member_in hb ha m1
    have h := v3 a f r ha m3 k3 (offset (L a) i + j) (by omega)
    rw [← Nat.add_assoc, ← Nat.add_assoc] at h
    exact h.symm
  · intro q hq hn
    rw [v4 q fun a f r ha _ hr hcov => hn ⟨a, r, ha, hr, hcov⟩, List.getElem?_replicate, if_pos (by simpa [atomBits] using hq)]

theorem fold_none (w : World n) (L : Fin n → Class) (P : Fin n → Option Packed) (limit : Nat) (c t : Fin n) (fm : List Bool)
    (l : List (Fin n)) (a : Fin n) (ha : a ∈ l) (h : limit < baseBits L a) (to' : List Bool) :
    l.foldlM (copyPart w L P limit c t fm) to' = none := by
  induction l generalizing to' with
  | nil => cases ha
  | cons b l ih =>
    rw [List.foldlM_cons]
    rcases List.mem_cons.1 ha with rfl | ha
    · have : copyPart w L P limit c t fm to' a = none := by
        unfold copyPart; dsimp only; rw [if_pos h]
      rw [this]; rfl
    · cases hu : copyPart w L P limit c t fm to' b with
      | none => rfl
      | some u => exact ih ha u

/-- **C133.** What is missing: in the cast of a reference to a transient an assertion fails, for every object, if the transient
or one of its ancestors has more than 64 bits of its own. -/
theorem C133_reference_fails (w : World n) (L : Fin n → Class) (c b : Fin n) (hb : Value w L b) (hk : (L b).kind ≠ .element)
    (a : Fin n) (ha : SelfOrAncestor w b a) (h64 : 64 < ownBits (L a)) (fm : List Bool) :
    castBaseFromRef w L (fun x => pack w L x) c b fm = none := by
  obtain ⟨ab, gb⟩ := hb.good
  have hne : (L a).kind ≠ .element := by
    rcases Relation.reflTransGen_iff_eq_or_transGen.1 ha with rfl | h
    · exact hk
    · exact (anc_props gb.tb h).2.2.2.2
  refine fold_none w L _ longBits c b fm _ a ?_ ?_ _
  · rw [(C13_visits_each_ancestor_once w gb.ok false (w.deref b)).2.1, gb.cls.deref, gb.cls.root]
    exact ⟨(class_of gb.tb gb.cls ha).defined, ha⟩
  · have h1 := hb.own a ha
    have h2 := hb.size
    unfold baseBits longBits
    rw [if_neg hne, myBits_eq _ (gb.wf a) (by omega)]
    exact h64

/-- **C133.** An assignment to a base class of an object: each data member of the base and of its ancestors is then that of the
value assigned, which is of the base class or of one derived from it; no other bit of the object has changed. -/
theorem C133_assign (w : World n) (L : Fin n → Class) (c l t : Fin n) (hc : Value w L c) (ht : Value w L t)
    (hl : IsClass w l) (hk : (L l).kind ≠ .element) (hs : SelfOrAncestor w c l) (hs' : SelfOrAncestor w t l)
    (ruv lval : List Bool) (hr : ruv.length = 96) (hv : lval.length = 96) :
    ∃ v, assignBase w L (fun x => pack w L x) c l t ruv lval = some v ∧ v.length = 96 ∧ SameParts w L (relOf w L) l c ruv t v ∧
      ∀ q, ¬ InPart w L (relOf w L) l t q → v[q]? = lval[q]? := by
  obtain ⟨ac, gc⟩ := hc.good
  obtain ⟨at', gt⟩ := ht.good
  obtain ⟨limit, l1, l2⟩ := limit_ok hc
  have up : ∀ a, SelfOrAncestor w l a → SelfOrAncestor w c a := fun a ha => hs.trans ha
  obtain ⟨v, v1, v2, v3, v4⟩ := extract_spec w L limit c t l ac at' gc gt hl hk
    (fun a ha => by have := hc.own a (up a ha); omega) (fun a ha => by have := hc.own a (up a ha); have := hc.size; omega)
    ruv lval hr hv hc.size ht.size
  refine ⟨v, by unfold assignBase; rw [l1, Option.bind_some, v1], v2, ?_, ?_⟩
  · rintro a i j q q' ha ⟨m, f, m1, m2, m3, rfl⟩ ⟨m', r, k1, k2, k3, rfl⟩
    rw [m1] at k1; cases k1
    have := member_in hc (up a ha) m1
    have h := v3 a f r ha m3 k3 (offset (L a) i + j) (by omega)
    rw [← Nat.add_assoc, ← Nat.add_assoc] at h
    exact h.symm
  · intro q hn
    exact v4 q fun a f r ha _ hr hcov => hn ⟨a, r, ha, hr, hcov⟩

/-- **C133.** The value assigned to a base class is the one a cast to it gives afterwards. -/
theorem C133_roundtrip (w : World n) (L : Fin n → Class) (l t : Fin n) (hl : Value w L l) (ht : Value w L t)
    (hk : (L l).kind ≠ .element) (hs' : SelfOrAncestor w t l) (ruv lval v u : List Bool)
    (hr : ruv.length = 96) (hv : lval.length = 96) (h1 : assignBase w L (fun x => pack w L x) l l t ruv lval = some v)
    (h2 : castBase w L (fun x => pack w L x) t l v = some u) : SameParts w L (relOf w L) l l ruv l u := by
  obtain ⟨al, gl⟩ := hl.good
  obtain ⟨v', a1, a2, a3, _⟩ := C133_assign w L l l t hl ht gl.cls hk .refl hs' ruv lval hr hv
  rw [h1] at a1; cases a1
  obtain ⟨u', b1, _, b3, _⟩ := C133_cast w L t l ht hl hk hs' v a2
  rw [h2] at b1; cases b1
  intro a i j q q' ha hq hq'
  obtain ⟨r, hr⟩ := ht.rel a (hs'.trans ha)
  obtain ⟨m, f, m1, m2, _, _⟩ := hq
  have mid : IsBit L (relOf w L) t a i j (25 + r + offset (L a) i + j) := ⟨m, r, m1, m2, hr, rfl⟩
  rw [a3 a i j q _ ha ⟨m, f, m1, m2, by assumption, by assumption⟩ mid]
  exact b3 a i j _ q' ha mid hq'

/-- **C133.** A cast in two steps gives the same data members as the cast in one. -/
theorem C133_compose (w : World n) (L : Fin n → Class) (c b d : Fin n) (hc : Value w L c) (hb : Value w L b) (hd : Value w L d)
    (kb : (L b).kind ≠ .element) (kd : (L d).kind ≠ .element) (hs : SelfOrAncestor w c b) (hs' : SelfOrAncestor w b d)
    (fm v u u' : List Bool) (hfm : fm.length = 96) (h1 : castBase w L (fun x => pack w L x) c b fm = some v)
    (h2 : castBase w L (fun x => pack w L x) b d v = some u) (h3 : castBase w L (fun x => pack w L x) c d fm = some u') :
    SameParts w L (relOf w L) d d u d u' := by
  obtain ⟨_, e1, e2, e3, _⟩ := C133_cast w L c b hc hb kb hs fm hfm
  rw [h1] at e1; cases e1
  obtain ⟨_, f1, _, f3, _⟩ := C133_cast w L b d hb hd kd hs' v e2
  rw [h2] at f1; cases f1
  obtain ⟨_, g1, _, g3, _⟩ := C133_cast w L c d hc hd kd (hs.trans hs') fm hfm
  rw [h3] at g1; cases g1
  intro a i j q q' ha hq hq'
  obtain ⟨r, hr⟩ := hb.rel a (hs'.trans ha)
  obtain ⟨s, hs2⟩ := hc.rel a ((hs.trans hs').trans ha)
  have hq0 := hq
  obtain ⟨m, f, m1, m2, _, _⟩ := hq
  have mid : IsBit L (relOf w L) b a i j (25 + r + offset (L a) i + j) := ⟨m, r, m1, m2, hr, rfl⟩
  have start : IsBit L (relOf w L) c a i j (25 + s + offset (L a) i + j) := ⟨m, s, m1, m2, hs2, rfl⟩
  rw [← f3 a i j _ q ha mid hq0, ← e3 a i j _ _ (hs'.trans ha) start mid, g3 a i j _ q' ha start hq']

/-! ## A case: the diamond of `Verif/Layout/Props.lean`, cast to class 3 -/

theorem vee3_anc (a : Fin 6) : a ∈ [(4 : Fin 6)] ↔ Ancestor vee 3 a := by
  have h := mem_sharedTable vee_ok (vee_tables true).shared 3 a
  have e : sharedTable vee 3 = [4] := by decide +kernel
  rw [e] at h
  exact h

theorem vee1_value : Value vee (veeClasses false) 1 := ⟨⟨_, vee_good⟩, by decide +kernel⟩

theorem vee3_value : Value vee (veeClasses false) 3 :=
  ⟨⟨[4], vee_ok, vee_acyclic, vee_tables false, vee_wf false, vee_class 3 (by decide), by unfold NoDuplicates; decide, rfl, by decide,
    vee3_anc, fun a ha => by
      have := (vee3_anc a).2 ha
      simp only [List.mem_cons, List.not_mem_nil, or_false] at this
      subst this; decide +kernel, by decide⟩, by decide +kernel⟩

example : SelfOrAncestor vee 1 3 := .single ⟨by decide, ⟨3, 1⟩, by decide, by decide, rfl⟩

def exBits : List Bool := List.replicate 25 false ++ [true, false, true, true, false, true, true, true, false, true] ++
  List.replicate 61 false

example : exBits.length = 96 := by decide

example : (castBase vee (veeClasses false) (fun x => pack vee (veeClasses false) x) 1 3 exBits).map (fun v => (v.drop 25).take 8) =
    some [true, false, true, true, true, false, true, false] := by decide +kernel

example : (assignBase vee (veeClasses false) (fun x => pack vee (veeClasses false) x) 3 3 1 (List.replicate 96 false) exBits).map
    (fun v => (v.drop 25).take 11) = some [true, false, true, false, false, false, false, false, false, false, false] := by
  decide +kernel

/-- A transient of 70 bits. -/
def bigClasses : Fin 6 → Class := fun _ => ⟨.transient, false, [⟨false, 70, none⟩], [⟨false, 70, none⟩]⟩

theorem vee4_no_anc (a : Fin 6) : ¬ Ancestor vee 4 a := by
  have h := mem_sharedTable vee_ok (vee_tables true).shared 4 a
  have e : sharedTable vee 4 = [] := by decide +kernel
  rw [e] at h
  intro ha
  exact absurd (h.2 ha) (by simp)

example : Value vee bigClasses 4 ∧ 64 < ownBits (bigClasses 4) ∧
    castBaseFromRef vee bigClasses (fun x => pack vee bigClasses x) 4 4 exBits = none := by
  refine ⟨⟨⟨[], vee_ok, vee_acyclic, ⟨fun _ _ _ => rfl, fun _ _ _ => rfl, fun c e _ h => by simpa [vee] using h, by decide,
    fun _ _ _ _ h => by cases h⟩, fun x => ?_, vee_class 4 (by decide), by unfold NoDuplicates; decide, rfl, by decide,
    fun a => ⟨(fun h => by cases h), fun h => absurd h (vee4_no_anc a)⟩, fun a ha => absurd ha (vee4_no_anc a), by decide⟩,
    by decide +kernel⟩, by decide, by decide +kernel⟩
  refine ⟨fun m h1 h2 => rfl, (fun h => by cases h), List.Perm.refl _⟩

end Ulam.EvalCopy
