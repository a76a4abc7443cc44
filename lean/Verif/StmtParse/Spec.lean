import Verif.StmtParse.Model
/-
The grammar of statements: how a tree is written, and which trees a text may
stand for.  No parser.
-/
namespace Ulam.StmtParse

/-- An optional expression. -/
def wOpt : Option Ex → List Tok
  | some e => [.simp (.ex e)]
  | none => []

/-- The optional first part of a for. -/
def wInit : Option Simp → List Tok
  | some x => [.simp x]
  | none => []

/-- Labels. -/
def wLabels : List (Option Ex) → List Tok
  | [] => []
  | some e :: ls => .kCase :: .simp (.ex e) :: .colon :: wLabels ls
  | none :: ls => .kOther :: .colon :: wLabels ls

mutual
/-- A statement as it is written. -/
def write : Tree → List Tok
  | .simp x => [.simp x, .semi]
  | .empty => [.semi]
  | .brk => [.kBrk, .semi]
  | .cont => [.kCont, .semi]
  | .ret e => .kRet :: (wOpt e ++ [.semi])
  | .block ts => .oc :: (writes ts ++ [.cc])
  | .ite c t => .kIf :: .op :: .simp (.ex c) :: .cp :: write t
  | .iteElse c t e => .kIf :: .op :: .simp (.ex c) :: .cp :: (write t ++ .kElse :: write e)
  | .whil c b => .kWhile :: .op :: .simp (.ex c) :: .cp :: write b
  | .forr i c st b => .kFor :: .op :: (wInit i ++ .semi :: (wOpt c ++ .semi :: (wOpt st ++ .cp :: write b)))
  | .which e gs => .kWhich :: .op :: (wOpt e ++ .cp :: .oc :: (writeG gs ++ [.cc]))
def writes : Trees → List Tok
  | .nil => []
  | .cons t ts => write t ++ writes ts
def writeG : Groups → List Tok
  | .nil => []
  | .cons ls b gs => wLabels ls ++ (write b ++ writeG gs)
end

/-- Does the statement end with an if that has no else? -/
def openEnd : Tree → Bool
  | .ite _ _ => true
  | .iteElse _ _ e => openEnd e
  | .whil _ b => openEnd b
  | .forr _ _ _ b => openEnd b
  | _ => false

/-- A for begins with a declaration or with an expression that begins with an identifier. -/
def initOk : Option Simp → Bool
  | none => true
  | some (.ex e) => e.ident
  | some (.decl _ _) => true
  | some (.ldef _ _) => false

/-- Is it a block? -/
def isBlock : Tree → Bool
  | .block _ => true
  | _ => false

/-- `otherwise` comes last, if at all. -/
def labelsOk (last : Bool) : List (Option Ex) → Bool
  | [] => true
  | some _ :: ls => labelsOk last ls
  | none :: ls => last && ls.isEmpty

/-- No more groups. -/
def Groups.isNil : Groups → Bool
  | .nil => true
  | _ => false

mutual
/-- The trees of the grammar: an else belongs to the nearest if that has none, so the statement
between `if` and its `else` does not end with an open if. -/
def good : Tree → Bool
  | .block ts => goods ts
  | .ite _ t => good t
  | .iteElse _ t e => good t && !openEnd t && good e
  | .whil _ b => good b
  | .forr i _ _ b => initOk i && good b
  | .which _ gs => goodG gs
  | _ => true
def goods : Trees → Bool
  | .nil => true
  | .cons t ts => good t && goods ts
/-- At least one label, a block, `otherwise` last. -/
def goodG : Groups → Bool
  | .nil => true
  | .cons ls b gs => !ls.isEmpty && labelsOk gs.isNil ls && isBlock b && good b && goodG gs
end

/-- An `as` is all of a condition, if there is one. -/
def condAs (c : Ex) : Bool := c.as != .inside

/-- No `as`. -/
def noAs (c : Ex) : Bool := c.as == .no

/-- The labels of a group: no `as`, or one label alone in a which without a value. -/
def labelsAs (valued : Bool) (ls : List (Option Ex)) : Bool :=
  ls.all (fun l => l.all noAs) || (!valued && ls.all (fun l => l.any condAs) && ls.length == 1)

mutual
/-- An `as` in a condition of an if or a loop is all of that condition; an `as` in a label is all of
the only label of the group, in a which without a value. -/
def condsOk : Tree → Bool
  | .block ts => condsOks ts
  | .ite c t => condAs c && condsOk t
  | .iteElse c t e => condAs c && condsOk t && condsOk e
  | .whil c b => condAs c && condsOk b
  | .forr _ c _ b => c.all condAs && condsOk b
  | .which e gs => condsOkG e.isSome gs
  | _ => true
def condsOks : Trees → Bool
  | .nil => true
  | .cons t ts => condsOk t && condsOks ts
def condsOkG (valued : Bool) : Groups → Bool
  | .nil => true
  | .cons ls b gs => labelsAs valued ls && condsOk b && condsOkG valued gs
end

mutual
/-- There is no `as` anywhere else. -/
def noStray : Tree → Bool
  | .simp x => !x.hasAs
  | .ret e => e.all noAs
  | .block ts => noStrays ts
  | .ite _ t => noStray t
  | .iteElse _ t e => noStray t && noStray e
  | .whil _ b => noStray b
  | .forr i _ st b => !(i.any Simp.hasAs) && st.all noAs && noStray b
  | .which e gs => e.all noAs && noStrayG gs
  | _ => true
def noStrays : Trees → Bool
  | .nil => true
  | .cons t ts => noStray t && noStrays ts
def noStrayG : Groups → Bool
  | .nil => true
  | .cons _ b gs => noStray b && noStrayG gs
end

end Ulam.StmtParse
