import Verif.RefRec.Spec
/-!
# References of functions that call themselves (properties)
-/
namespace Ulam.RefRec
open Spec

theorem run_other (r : Nat) : ∀ (x : Acts) (a : Auto) (cur size : Int) (ps : List (Option Ptr)), r ∉ declared x → (run a cur size ps x).1 r = a r
  | .done, _, _, _, _, _ => rfl
  | .decl q s rest, a, cur, size, ps, h => by
    simp only [declared, List.mem_cons, not_or] at h
    rw [run, run_other r rest _ cur size ps h.2, Auto.set, if_neg h.1]
  | .use s rest, a, cur, size, ps, h => run_other r rest a cur size ps h
  | .call room depth args body rest, a, cur, size, ps, h => by
    simp only [declared, List.mem_append, not_or] at h
    simp only [run]
    rw [run_other r rest _ cur size ps h.2, run_other r body _ _ _ _ h.1]

theorem run_fix (fix : Nat → Option Int) (r : Nat) (k : Int) (hk : fix r = some k) : ∀ (x : Acts) (d : List Nat) (a : Auto) (cur size : Int)
    (ps : List (Option Ptr)), Good fix d x → a r = some (.rel k) → (run a cur size ps x).1 r = some (.rel k)
  | .done, _, _, _, _, _, _, h => h
  | .decl q s rest, d, a, cur, size, ps, hg, h => by
    rw [run]
    refine run_fix fix r k hk rest (q :: d) _ cur size ps hg.2.2 ?_
    unfold Auto.set
    split
    · rename_i he; subst he; rw [hg.2.1 k hk]; rfl
    · exact h
  | .use s rest, d, a, cur, size, ps, hg, h => run_fix fix r k hk rest d a cur size ps hg.2 h
  | .call room depth args body rest, d, a, cur, size, ps, hg, h => by
    simp only [run]
    exact run_fix fix r k hk rest d _ cur size ps hg.2.2.2 (run_fix fix r k hk body [] a _ _ _ hg.2.1 h)

/-- The pointers kept for the references of the activation lead where they should. -/
def Inv (fix : Nat → Option Int) (d : List Nat) (a : Auto) (cur : Int) (env : Nat → Option Int) : Prop :=
  ∀ r ∈ d, (a r).map (place cur) = env r ∧ ∀ k, fix r = some k → a r = some (.rel k)

theorem resolve_meaning {fix d a cur env ps ps'} (hi : Inv fix d a cur env) (hp : ps' = ps.map (·.map (place cur))) (s : Src) (hv : Visible d s) :
    (resolve a ps s).map (place cur) = meaning env ps' cur s := by
  cases s with
  | var k => rfl
  | param i =>
    simp only [resolve, meaning, hp, List.getElem?_map]
    cases h : ps[i]? with
    | none => rfl
    | some x => rfl
  | ref r => exact (hi r hv).1
  | data n => rfl

theorem main (fix : Nat → Option Int) : ∀ (x : Acts) (d : List Nat) (a : Auto) (cur size : Int) (ps : List (Option Ptr))
    (env : Nat → Option Int) (ps' : List (Option Int)), Good fix d x → Inv fix d a cur env → ps' = ps.map (·.map (place cur)) →
    (run a cur size ps x).2 = ideal env cur size ps' x
  | .done, _, _, _, _, _, _, _, _, _, _ => rfl
  | .decl r s rest, d, a, cur, size, ps, env, ps', hg, hi, hp => by
    rw [run, ideal]
    refine main fix rest (r :: d) _ cur size ps _ ps' hg.2.2 ?_ hp
    intro q hq
    unfold Auto.set
    dsimp only
    by_cases he : q = r
    · rw [if_pos he, if_pos he]
      refine ⟨resolve_meaning hi hp s hg.1, ?_⟩
      intro k hk
      rw [he] at hk
      rw [hg.2.1 k hk]
      rfl
    · rw [if_neg he, if_neg he]
      exact hi q (by simpa [he] using hq)
  | .use s rest, d, a, cur, size, ps, env, ps', hg, hi, hp => by
    simp only [run, ideal]
    rw [resolve_meaning hi hp s hg.1, main fix rest d a cur size ps env ps' hg.2 hi hp]
  | .call room depth args body rest, d, a, cur, size, ps, env, ps', hg, hi, hp => by
    obtain ⟨h1, h2, h3, h4⟩ := hg
    simp only [run, ideal]
    congr 1
    · refine main fix body [] a _ _ _ _ _ h2 (by intro r hr; simp at hr) ?_
      rw [List.map_map]
      refine List.map_congr_left fun s hs => ?_
      rw [← resolve_meaning hi hp s (h1 s hs)]
      simp only [Function.comp]
      cases resolve a ps s with
      | none => rfl
      | some p => cases p <;> rfl
    · refine main fix rest d _ cur size ps env ps' h4 ?_ hp
      intro r hr
      have := hi r hr
      by_cases hd : r ∈ declared body
      · obtain ⟨k, hk⟩ := h3 r hr hd
        have e := this.2 k hk
        rw [run_fix fix r k hk body [] a _ _ _ h2 e]
        rw [e] at this
        exact this
      · rw [run_other r body _ _ _ _ hd]
        exact this

/-- **C141 (part).** In every execution, every use of a name leads to the variable it is for: a reference to what it was initialized with in the
same activation of its function, whatever references are passed on and however deep the calls. Missing: references that are declared again during their
life, by a call of their function, unless they are always initialized with the same variable of the function. -/
theorem C141_references_partial (fix : Nat → Option Int) (x : Acts) (a : Auto) (cur size : Int) (ps : List (Option Ptr)) (h : Good fix [] x) :
    (run a cur size ps x).2 = ideal (fun _ => none) cur size (ps.map (·.map (place cur))) x :=
  main fix x [] a cur size ps _ _ h (by intro r hr; simp at hr) rfl

/-- What a function does that has `T& r = p;` for its parameter `p`, calls itself with the variable in slot `k`, and then uses `r`. -/
def again (r room depth : Nat) (k : Int) : Acts :=
  .decl r (.param 0) (.call room depth [.var k] (.decl r (.param 0) .done) (.use (.ref r) .done))

/-- **C141 (fails).** When a function with `T& r = p;` for its parameter `p` has called itself, `r` is no longer to what was passed to it but to
what it passed on: whatever was passed, and whatever variable it passed on. -/
theorem C141_recursion_fails (a : Auto) (cur size : Int) (n : Int) (r room depth : Nat) (k : Int) :
    (run a cur size [some (.abs n)] (again r room depth k)).2 = [some (cur + k)] ∧
    ideal (fun _ => none) cur size [some n] (again r room depth k) = [some n] := by
  simp [again, run, ideal, resolve, meaning, Auto.set, toAbs, place]

/-- **C141 (fails).** The same for a reference to the data members of the object the function is called on. -/
theorem C141_member_fails (a : Auto) (cur size : Int) (n m : Int) (r room depth : Nat) :
    (run a cur size [] (.decl r (.data n) (.call room depth [] (.decl r (.data m) .done) (.use (.ref r) .done)))).2 = [some m] ∧
    ideal (fun _ => none) cur size [] (.decl r (.data n) (.call room depth [] (.decl r (.data m) .done) (.use (.ref r) .done))) = [some n] := by
  simp [run, ideal, resolve, meaning, Auto.set, place]

/-- `g` with `Int& q = p;` calls `h(q)`, which has `Int& s = p;` and uses it; then `g` uses `q`: nothing is declared again. -/
def plain : Acts :=
  .decl 0 (.param 0) (.call 3 2 [.ref 0] (.decl 1 (.param 0) (.use (.ref 1) .done)) (.use (.ref 0) .done))
example : (run (fun _ => none) 10 20 [some (.abs 4)] plain).2 = [some 4, some 4] ∧
    Good (fun _ => none) [] plain := by
  refine ⟨rfl, ?_⟩
  simp [plain, Good, Visible, declared]
/-- `f` with `Int& q = x;` for its variable `x` in slot 1 calls itself, with `q`: the slot is the same, in another frame. -/
def local' : Acts :=
  .decl 0 (.var 1) (.call 3 2 [.ref 0] (.decl 0 (.var 1) (.use (.ref 0) (.use (.param 0) .done))) (.use (.ref 0) .done))
example : (run (fun _ => none) 10 20 [] local').2 = [some 25, some 11, some 11] ∧
    Good (fun r => if r = 0 then some 1 else none) [] local' := by
  refine ⟨rfl, ?_⟩
  simp [local', Good, Visible, declared]
/-- `f(Int& p)` with `Int& q = p;` where 4 was passed to `f`, and it passes on its variable at 11: `q` is at 11 afterwards. -/
example : (run (fun _ => none) 10 20 [some (.abs 4)] (again 0 3 2 1)).2 = [some 11] := rfl

end Ulam.RefRec
