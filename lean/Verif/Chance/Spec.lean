import Verif.Chance.Model
/-! What fair choices are, said by weights only. -/
namespace Ulam.Chance.Spec

/-- A history of calls on `WindowServices`: the scan moves to a site, or a hit is reported there. -/
inductive Ev
  | move (site : Nat)
  | hit (slot weight : Nat)

/-- Doing them. -/
def runEv (s : Services) : List Ev → Rand Services
  | [] => .done s
  | .move i :: es => runEv { s with current := i } es
  | .hit slot w :: es => (hit s slot w).bind fun p => runEv p.1 es

/-- The hits of a slot, each with the site it was at; the scan is at `site` to begin with. -/
def hitsOf (slot site : Nat) : List Ev → List (Nat × Nat)
  | [] => []
  | .move i :: es => hitsOf slot i es
  | .hit sl w :: es => if sl = slot then (site, w) :: hitsOf slot site es else hitsOf slot site es

/-- All the weight reported. -/
def total (h : List (Nat × Nat)) : Nat := (h.map Prod.snd).sum

/-- The weight reported for one site (or key). -/
def share (i : Nat) (h : List (Nat × Nat)) : Nat := ((h.filter fun p => p.1 = i).map Prod.snd).sum

/-- All hits have a positive weight. -/
def Positive (es : List Ev) : Prop := ∀ slot w, .hit slot w ∈ es → 0 < w

/-- Calls of `categorize`: site, category, weight. -/
def runCat (s : Scanner) : List (Nat × Nat × Nat) → Rand Scanner
  | [] => .done s
  | (sn, categ, w) :: es => (categorize s sn categ w).bind fun p => runCat p.1 es

/-- The calls for a category: site and weight. -/
def callsOf (categ : Nat) (es : List (Nat × Nat × Nat)) : List (Nat × Nat) :=
  (es.filter fun p => p.2.1 = categ).map fun p => (p.1, p.2.2)

/-- The calls from the last one on that had a greater weight than all before it and than `m`; none if there is no such call. -/
def since (m : Nat) : List (Nat × Nat) → Option (List (Nat × Nat))
  | [] => none
  | (sn, w) :: h => if m < w then some ((since w h).getD ((sn, w) :: h)) else since m h

/-- How many of the calls had weight `m`, and how many of these were for site `i`. -/
def ofWeight (m : Nat) (h : List (Nat × Nat)) : Nat := (h.filter fun p => p.2 = m).length
def ofWeightAt (m i : Nat) (h : List (Nat × Nat)) : Nat := (h.filter fun p => p.2 = m ∧ p.1 = i).length

/-- The site wanted by a scan for type `t`, its atom having type `a`, the empty atom type `e`: WindowServices.ulam:85-89. -/
def Wanted (e a t : Int) : Prop := t = -4 ∨ (t = -2 ∧ a = e) ∨ (t = -3 ∧ a ≠ e) ∨ (0 ≤ t ∧ a = t)

instance (e a t : Int) : Decidable (Wanted e a t) := by unfold Wanted; infer_instance

/-- The sites from `first` to `last` with a known type that are wanted. -/
def wantedSites (first last : Nat) (types : Nat → Int) (e t : Int) : List Nat :=
  (List.range' first (last + 1 - first)).filter fun i => decide (0 ≤ types i ∧ Wanted e (types i) t)

/-- Calls of `minimize` (or `maximize`) in turn: key and value. -/
def runMin (s : Selector) : List (Int × Int) → Rand Selector
  | [] => .done s
  | (k, v) :: es => (minimize s k v).bind fun t => runMin t es

def runMax (s : Selector) : List (Int × Int) → Rand Selector
  | [] => .done s
  | (k, v) :: es => (maximize s k v).bind fun t => runMax t es

/-- Calls of `count` in turn: key and weight. -/
def runCount (s : Selector) : List (Int × Nat) → Rand Selector
  | [] => .done s
  | (k, w) :: es => (count s k w).bind fun t => runCount t es

/-- The weight counted for one key. -/
def keyShare (k : Int) (h : List (Int × Nat)) : Nat := ((h.filter fun p => p.1 = k).map Prod.snd).sum

def keyTotal (h : List (Int × Nat)) : Nat := (h.map Prod.snd).sum

/-- Calls of `count` of a timer, `n` of them: the time after, and how many of them were made before the alarm. -/
def runTimer (step : Nat → Rand Nat) (level time : Nat) : Nat → Rand (Nat × Nat)
  | 0 => .done (time, 0)
  | n + 1 => (step time).bind fun t => (runTimer step level t n).bind fun p => .done (p.1, p.2 + if time < level then 1 else 0)

end Ulam.Chance.Spec
