/-
Model of the source stream: `src/ulam/SourceStream.cpp`, `include/SourceStream.h`,
`src/ulam/Locator.cpp`, `FileString::read` (`src/ulam/FileString.cpp:23-45`) and the
line store of `CompilerState` (`src/ulam/CompilerState.cpp:6617-6690`).

Simplifications.
* A filename is its index in the string pool (distinct names have distinct indexes: C12);
  the pool itself is not part of this state.
* The file system is a function from filenames to contents; contents do not change
  during a run, opening gives the whole contents, reading cannot fail otherwise than by
  reaching the end (the negative codes of `FileString::read` for a wrong mode or a
  closed file cannot arise: files are opened with READ and a closed one is deleted).
* The file manager is present (`SourceStream.cpp:110-116` not taken).
* Ulam version numbers of files are left out.
-/
namespace Ulam.Source

/-- `Locator` (`include/Locator.h`): `m_pathIdx`, `m_fullPathIdx`, `m_lineNo`, `m_byteNo`. -/
structure Loc where
  path : Nat
  full : Nat
  line : Nat
  byte : Nat
deriving DecidableEq, Repr

/-- `Locator::Locator(0)` (`Locator.cpp:5-6`). -/
def Loc.init : Loc := ⟨0, 0, 0, 0⟩

/-- `Locator::updateLineByteNo` (`Locator.cpp:39-62`); both counters are `u16`. -/
def Loc.update (l : Loc) (c : Int) : Loc :=
  if c < 0 then l
  else
    let l1 := if l.line = 0 then { l with line := 1 } else l
    if c = 10 then { l1 with byte := 0, line := (l1.line + 1) % 65536 }
    else { l1 with byte := (l1.byte + 1) % 65536 }

/-- `Locator::hasNeverBeenRead` (`Locator.cpp:64-67`). -/
def Loc.neverRead (l : Loc) : Bool := l.line = 0 && l.byte = 0

/-- `SourceStream::filerec` (`SourceStream.h:170-190`): `fp` is the part of an open file
not read yet (`none`: `m_fp == NULL`), `unreadByte = none` an indeterminate value (the
constructor leaves it alone). -/
structure Rec where
  loc : Loc
  fp : Option (List Nat)
  unreadLoc : Loc
  unreadByte : Option Int
  have_ : Bool
  text : List Nat

/-- `filerec::filerec()` (`SourceStream.h:180`). -/
def Rec.fresh : Rec := ⟨Loc.init, none, Loc.init, none, false, []⟩

/-- `filerec::init` (`SourceStream.h:188-197`) on a new record. -/
def Rec.opened (path full : Nat) (contents : List Nat) : Rec :=
  let l : Loc := ⟨path, full, 0, 0⟩
  { Rec.fresh with loc := l, fp := some contents, unreadLoc := l }

/-- The data members of `SourceStream` (`SourceStream.h:260-272`), and
`CompilerState::m_textByLinePerFilePath` (an absent entry is `none`). -/
structure St where
  recs : Nat → Rec
  size : Nat
  registered : List (Nat × Nat)
  stack : List Nat
  lastByte : Option Int
  lastLoc : Loc
  lines : Nat → Option (List (List Nat))

/-- `SourceStream::SourceStream` (`SourceStream.cpp:11-16`): one invalid record at position 0. -/
def St.init : St :=
  ⟨fun _ => Rec.fresh, 1, [], [], none, Loc.init, fun _ => none⟩

/-- `m_fileRecords[id] = r`. -/
def St.setRec (s : St) (id : Nat) (r : Rec) : St :=
  { s with recs := fun i => if i = id then r else s.recs i }

/-- What `m_fileManager->open(name, READ, fullpath)` finds: index of the full path, contents. -/
abbrev Disk := Nat → Option (Nat × List Nat)

/-- `FileString::read` (`FileString.cpp:22-41`) / `fgetc`: next byte as a non-negative
number, or -1 at the end; and what is left. -/
def fileRead : List Nat → Int × List Nat
  | [] => (-1, [])
  | b :: r => ((b : Int), r)

/-- `CompilerState::appendNextLineOfText` (`CompilerState.cpp:6617-6652`). -/
def appendLine (lines : Nat → Option (List (List Nat))) (loc : Loc) (text : List Nat) :
    Nat → Option (List (List Nat)) :=
  let v := (lines loc.path).getD []
  let v1 := if v.length < loc.line then v ++ List.replicate (loc.line - v.length) [10] else v
  fun p => if p = loc.path then some (v1 ++ [text]) else lines p

/-- `CompilerState::getLineOfText` (`CompilerState.cpp:6654-6690`); `none` stands for the
placeholder texts. -/
def getLine (s : St) (path line : Nat) : Option (List Nat) :=
  match s.lines path with
  | none => none
  | some v => v[line]?

/-- A `(char)` conversion of an int, as the byte it stores. -/
def toByte (c : Int) : Nat := (c % 256).toNat

/-- `SourceStream::updateLineOfText` (`SourceStream.cpp:303-313`). -/
def updateLineOfText (s : St) (id : Nat) (c : Int) : St :=
  let r := s.recs id
  let r1 := { r with text := r.text ++ [toByte c] }
  if toByte c = 10 then
    { (s.setRec id { r1 with text := [] }) with lines := appendLine s.lines r.loc r1.text }
  else s.setRec id r1

/-- `SourceStream::discardTop` (`SourceStream.cpp:194-204`), with `filerec::closeFile`. -/
def discardTop (s : St) : St :=
  match s.stack with
  | [] => s
  | id :: st => { (s.setRec id { s.recs id with fp := none }) with stack := st }

/-- `SourceStream::unread` (`SourceStream.cpp:28-44`); the debugging message is left out. -/
def unread (s : St) : St :=
  match s.stack with
  | [] => s
  | id :: _ => s.setRec id { s.recs id with have_ := true }

/-- The physical read of `SourceStream::read` (`SourceStream.cpp:58-68`): from the file of
record `id`, of which `rest` is left. -/
def readFile (s : St) (id : Nat) (rest : List Nat) : St :=
  let (b, rest') := fileRead rest
  let s1 := s.setRec id { s.recs id with fp := some rest' }
  let s2 := { s1 with lastByte := some b }
  let s3 := updateLineOfText s2 id b
  let r := s3.recs id
  let loc := r.loc.update b
  let r' := { r with loc := loc, have_ := false, unreadByte := some b, unreadLoc := s3.lastLoc }
  { (s3.setRec id r') with lastLoc := loc }

theorem readFile_stack (s : St) (id : Nat) (rest : List Nat) : (readFile s id rest).stack = s.stack := by
  unfold readFile updateLineOfText
  dsimp only
  split <;> rfl

/-- `SourceStream::read` (`SourceStream.cpp:46-82`); result `none` is an indeterminate value. -/
def read (s : St) : Option Int × St :=
  match h : s.stack with
  | [] => (some (-1), s)
  | id :: _ =>
    if (s.recs id).have_ then
      ((s.recs id).unreadByte, s.setRec id { s.recs id with have_ := false })
    else
      match (s.recs id).fp with
      | none => (s.lastByte, s)
      | some rest =>
        let s1 := readFile s id rest
        if s1.lastByte = some (-1) then read (discardTop s1)
        else (s1.lastByte, s1)
termination_by s.stack.length
decreasing_by
  have e : (readFile s id rest).stack = s.stack := readFile_stack s id rest
  simp only [discardTop]
  rw [e, h]
  simp

/-- `SourceStream::isPushed` (`SourceStream.cpp:90-99`): `m_registeredFilenames.find`. -/
def findName (s : St) (name : Nat) : Option Nat := s.registered.lookup name

/-- `SourceStream::push` (`SourceStream.cpp:101-160`). `true`: returned 0; `false`: an error index;
`none`: the assertion fails. -/
def push (disk : Disk) (s : St) (name : Nat) (onlyOnce : Bool) : Option Bool × St :=
  if onlyOnce && (findName s name).isSome then (some true, s)
  else match disk name with
    | none => (some false, s)
    | some (full, contents) =>
      match findName s name with
      | none =>
        let id := (s.registered.length + 1) % 65536
        let s1 := s.setRec s.size (Rec.opened name full contents)
        (some true, { s1 with size := s.size + 1,
                              registered := s.registered ++ [(name, id)],
                              stack := id :: s.stack })
      | some id =>
        if onlyOnce then (none, s)
        else
          let s1 := s.setRec id (Rec.opened name full contents)
          (some true, { s1 with stack := id :: s.stack })

/-- `SourceStream::exists` (`SourceStream.cpp:162-192`). -/
def exists_ (disk : Disk) (s : St) (name : Nat) : Bool :=
  (findName s name).isSome || (disk name).isSome

/-- `SourceStream::getLocator` (`SourceStream.cpp:212-236`). -/
def getLocator (s : St) : Loc :=
  match s.stack with
  | [] => if s.size > 1 then (s.recs 1).loc else (s.recs 0).loc
  | id :: _ =>
    let r := s.recs id
    if r.fp.isSome && r.loc.neverRead then s.lastLoc
    else if r.have_ then r.unreadLoc
    else r.loc

/-- The calls a client can make. -/
inductive Op where
  | read
  | unread
  | load (name : Nat) (onlyOnce : Bool)
  | probe (name : Nat)

/-- What a client sees of a call. -/
inductive Out where
  | byte (b : Option Int)
  | unit
  | loaded (r : Option Bool)
  | known (r : Bool)
deriving DecidableEq, Repr

/-- One call. -/
def step (disk : Disk) (s : St) : Op → Out × St
  | .read => (.byte (read s).1, (read s).2)
  | .unread => (.unit, unread s)
  | .load n once => (.loaded (push disk s n once).1, (push disk s n once).2)
  | .probe n => (.known (exists_ disk s n), s)

/-- The state after a sequence of calls. -/
def run (disk : Disk) (s : St) : List Op → St
  | [] => s
  | o :: os => run disk (step disk s o).2 os

/-- What a client sees of a sequence of calls. -/
def outs (disk : Disk) (s : St) : List Op → List Out
  | [] => []
  | o :: os => (step disk s o).1 :: outs disk (step disk s o).2 os

end Ulam.Source
