import Verif.Util.Model
import Mathlib.Logic.Function.Basic
/-
Model of the compiler driver: the message handler (/repo/src/ulam/ErrorMessageHandler.cpp), the
stages of a compilation and the conditions between them (/repo/src/ulam/Compiler.cpp:58-402), the
reading of files for classes that were named but not declared (/repo/src/ulam/Compiler.cpp:75-107,
151-205, /repo/src/ulam/Parser.cpp:105-175, /repo/src/ulam/CompilerState.cpp:3338-3372, 3515-3568,
3605-3659) and the command line of `culam` (/repo/src/drivers/culam/main.cpp:137-164, 175-192,
232-335).

What a stage does to the program is not modelled here: a stage is an arbitrary list of messages it
reports and, where the code looks at it, an arbitrary answer.  The parser is an arbitrary list of
events, chosen from the file and from the whole state, that touches the program's table of classes
through the functions that really do so.  Everything proved is for all such choices.

Simplifications.  The counters are natural numbers (in the code `u32`: they come round to 0 after
2^32 errors).  Messages for debugging go to `std::cerr` and to no counter; they are left out.  The
file system does not change during a compilation.
-/
namespace Ulam.Driver
open Ulam.Util

/-- `MSGTYPE`; ErrorMessageHandler.h:57. -/
inductive Kind
  | err | warn | info | note | debug | wait
  deriving DecidableEq, Repr

/-- A call of `buildMessage`: its place, its text, and the answer `turnWaitMessageIntoErrorMessage`
gives at that moment (only looked at for a message of kind `wait`). -/
structure Msg where
  kind : Kind
  loc : String
  text : String
  turn : Bool
  deriving DecidableEq, Repr

/-- What `outputMsg` is given for the user: ErrorMessageHandler.cpp:135. -/
structure Line where
  loc : String
  label : String
  text : String
  deriving DecidableEq, Repr

/-- The text of a line; ErrorMessageHandler.cpp:147. -/
def Line.render (l : Line) : String := l.loc ++ " " ++ l.label ++ ": " ++ l.text ++ ".\n"

/-- What is written to the user's file: a message, or a text the driver writes itself. -/
inductive Written
  | line (l : Line)
  | raw (s : String)
  deriving DecidableEq, Repr

/-- `m_infoMode`, `m_noteMode`, `m_warnMode`, set once; ErrorMessageHandler.cpp:20-31. -/
structure Modes where
  info : Bool
  note : Bool
  warn : Bool
  deriving DecidableEq, Repr

/-- `ErrorMessageHandler`: `m_waitMode`, whether `m_fOut` is set, the counts, `m_seenToUserMessages`
and the contents of the user's file.  `failed` is not in the code: all messages ever counted as
errors, in order. -/
structure Handler where
  waiting : Bool
  attached : Bool
  errors : Nat
  warnings : Nat
  seen : List String
  out : List Written
  failed : List Line
  deriving DecidableEq, Repr

/-- After the constructor and `init` with no file; ErrorMessageHandler.cpp:9-31,
CompilerState.cpp:151. -/
def Handler.start : Handler := ⟨true, false, 0, 0, [], [], []⟩

/-- `outputMsg` to the user; ErrorMessageHandler.cpp:135-162. -/
def outputMsg (h : Handler) (l : Line) : Handler :=
  if h.attached then
    if l.render ∈ h.seen then h
    else { h with seen := h.seen ++ [l.render], out := h.out ++ [Written.line l] }
  else h

/-- `incErrorCount`; ErrorMessageHandler.cpp:108-111 (and the record of it). -/
def incError (h : Handler) (l : Line) : Handler :=
  { h with errors := h.errors + 1, failed := h.failed ++ [l] }

/-- `buildMessage`; ErrorMessageHandler.cpp:54-99. -/
def build (d : Modes) (h : Handler) (m : Msg) : Handler :=
  match m.kind with
  | .err => incError (outputMsg h ⟨m.loc, "ERROR", m.text⟩) ⟨m.loc, "ERROR", m.text⟩
  | .warn =>
    let h' := if d.warn then outputMsg h ⟨m.loc, "Warning", m.text⟩ else h
    { h' with warnings := h'.warnings + 1 }
  | .info => if d.info then outputMsg h ⟨m.loc, "Info", m.text⟩ else h
  | .note => if d.note then outputMsg h ⟨m.loc, "NOTE", m.text⟩ else h
  | .debug => h
  | .wait =>
    if h.waiting then h
    else if m.turn then
      incError (outputMsg h ⟨m.loc, "ERROR", m.text⟩) ⟨m.loc, "ERROR", m.text⟩
    else h

/-- `clearCounts`; ErrorMessageHandler.cpp:128-132. -/
def clear (h : Handler) : Handler := { h with errors := 0, warnings := 0 }

/-- `setFileOutput` with a file; ErrorMessageHandler.cpp:102-105. -/
def attach (h : Handler) : Handler := { h with attached := true }

/-- `changeWaitToErrMode`; ErrorMessageHandler.cpp:33-36. -/
def harden (h : Handler) : Handler := { h with waiting := false }

/-- `revertToWaitMode`; ErrorMessageHandler.cpp:38-41. -/
def soften (h : Handler) : Handler := { h with waiting := true }

/-- `errput->write` of the driver. -/
def write (h : Handler) (s : String) : Handler := { h with out := h.out ++ [Written.raw s] }

/-- Messages reported one after the other. -/
def reports (d : Modes) (h : Handler) (ms : List Msg) : Handler := ms.foldl (build d) h

/-- The stages after parsing, in the order of Compiler.cpp: 240, 379-386 (the six of
`resolvingLoop`), 270-326, 331-341, 123-124, 134. -/
inductive Phase
  | lineage
  | sizes | arguments | instances | unknownTypes | locals | labels
  | customArrays | duplicates | maxDepth | virtuals | abstracts | pack | printSizes | defaults
  | unknownNames | longNames | urSelfSize | navNodes
  | registration | urSelfNumber | generation
  deriving DecidableEq, Repr

/-- What the parser does to the table of classes, to the files and to the messages. -/
inductive Ev
  /-- a message -/
  | report (m : Msg)
  /-- a class name used: `addIncompleteClassSymbolToProgramTable`; CompilerState.cpp:3515-3538, and
  for templates 3541-3568 -/
  | mention (c : Bytes)
  /-- a type name that may be a class: CompilerState.cpp:540-545 and 3985-3986 -/
  | guess (c : Bytes)
  /-- the head of a class declaration; Parser.cpp:254-373 -/
  | begin (c : Bytes)
  /-- its end, parsed; Parser.cpp:379-387 -/
  | finish
  /-- its end, not parsed; Parser.cpp:388-402 -/
  | fail
  /-- `removeIncompleteClassSymbolFromProgramTable`; CompilerState.cpp:3338-3372 -/
  | drop (c : Bytes)
  /-- another file read in place: `Preparser::preparseKeywordLoad`; Preparser.cpp:100-126 -/
  | load (f : Bytes)
  deriving Repr

/-- The state while parsing: the handler, `m_registeredFilenames`, the classes of `m_programDefST`
(`some false` for `UC_UNSEEN`), `m_unseenClasses`, and the class being parsed.  `parsed` is not in
the code: the files `parseProgram` was called for. -/
structure St where
  h : Handler
  pushed : List Bytes
  table : Bytes → Option Bool
  unseen : List Bytes
  current : Option Bytes
  parsed : List Bytes

/-- Everything outside the driver. -/
structure World where
  modes : Modes
  /-- `m_fileManager->open` for reading succeeds -/
  opens : Bytes → Bool
  /-- what the parser does with a file, in a state -/
  body : Bytes → St → List Ev
  /-- the order in which the set of unseen classes is gone through -/
  order : List Bytes → List Bytes
  /-- what a stage reports, and its answer, the n-th time it runs -/
  stage : Phase → Nat → List Msg × Bool

/-- `str` of a file or class name. -/
def str (b : Bytes) : String := String.ofList (b.map Char.ofNat)

/-- An error message made by the driver or the parser itself. -/
def errMsg (t : String) : Msg := ⟨.err, "", t, true⟩

/-- One event; `true` when the parsing of the file stops there. -/
def step (w : World) (s : St) : Ev → St × Bool
  | .report m => ({ s with h := build w.modes s.h m }, false)
  | .mention c =>
    (if s.table c = none then
      { s with table := Function.update s.table c (some false), unseen := s.unseen ++ [c] }
    else s, false)
  | .guess c => ({ s with unseen := if c ∈ s.unseen then s.unseen else s.unseen ++ [c] }, false)
  | .begin c =>
    if s.table c = some true then
      ({ s with h := build w.modes s.h (errMsg ("Duplicate or incomplete class '" ++ str c ++ "'")) },
        true)
    else ({ s with table := Function.update s.table c (some true), current := some c }, false)
  | .finish =>
    match s.current with
    | none => (s, false)
    | some c => ({ s with unseen := s.unseen.filter (· ≠ c), current := none }, false)
  | .fail =>
    match s.current with
    | none => (s, false)
    | some c =>
      ({ s with
          table := Function.update s.table c (some false)
          current := none
          h := build w.modes s.h (errMsg ("Empty/Incomplete Class Definition '" ++ str c ++
            "'; Possible missing ending curly brace")) }, false)
  | .drop c =>
    (if s.table c = some false then
      { s with table := Function.update s.table c none, unseen := s.unseen.filter (· ≠ c) }
    else s, false)
  | .load f =>
    (if w.opens f ∧ f ∉ s.pushed then { s with pushed := s.pushed ++ [f] } else s, false)

/-- The events of a file, up to the one that stops; Parser.cpp:129. -/
def runEvents (w : World) (s : St) : List Ev → St
  | [] => s
  | e :: es =>
    match step w s e with
    | (s', true) => s'
    | (s', false) => runEvents w s' es

/-- Whether the class the file is named after was declared; Parser.cpp:131-158.  (A class whose
declaration failed is reported twice by the code, once here.) -/
def verdict (w : World) (c : Bytes) (s : St) : Handler :=
  match s.table c with
  | some false => build w.modes s.h (errMsg ("Invalid Type: " ++ str c))
  | none => build w.modes s.h (errMsg ("No parse tree for This Class: " ++ str c))
  | some true => s.h

/-- The warnings; Parser.cpp:160-166. -/
def tellWarnings (w : World) (c : Bytes) (h : Handler) : Handler :=
  if h.warnings > 0 then
    build w.modes h ⟨.info, "", toString h.warnings ++ " warnings during parsing: " ++ str c, true⟩
  else h

/-- The errors; Parser.cpp:168-174. -/
def tellErrors (w : World) (c : Bytes) (h : Handler) : Handler :=
  if h.errors > 0 then
    build w.modes h ⟨.info, "", toString h.errors ++ " TOO MANY PARSE ERRORS: " ++ str c, true⟩
  else h

/-- The end of `parseProgram`; Parser.cpp:131-174: it returns the number of errors counted so far. -/
def parseEnd (w : World) (c : Bytes) (s : St) : Nat × St :=
  let h := tellWarnings w c (verdict w c s)
  (h.errors, { s with h := tellErrors w c h })

/-- What the parsing of a file starts from; Parser.cpp:107-108. -/
def opened (f : Bytes) (s : St) : St := { s with h := attach s.h, parsed := s.parsed ++ [f] }

/-- `Parser::parseProgram`; Parser.cpp:105-175. -/
def parseProgram (w : World) (f : Bytes) (s : St) : Nat × St :=
  match classNameFromFile f with
  | none =>
    (1, { opened f s with h := build w.modes (attach s.h) (errMsg ("File name <" ++ str f ++ ">")) })
  | some c => parseEnd w c (runEvents w (opened f s) (w.body f (opened f s)))

/-- `SourceStream::exists`; SourceStream.cpp:162-192. -/
def fileExists (w : World) (s : St) (f : Bytes) : Bool := decide (f ∈ s.pushed) || w.opens f

/-- `ssref.push` of a file not pushed before, and its failure; SourceStream.cpp:101-160,
Compiler.cpp:183-194. -/
def pushFile (w : World) (f : Bytes) (s : St) : Nat × St :=
  if w.opens f then (0, { s with pushed := s.pushed ++ [f] })
  else (1, { s with h := write s.h ("Compilation initialization FAILURE " ++ str f) })

/-- `Compiler::compileFile`; Compiler.cpp:151-205. -/
def compileFile (w : World) (f : Bytes) (s : St) : Nat × St :=
  if f ∈ s.pushed then
    match classNameFromFile f with
    | none => (1, { s with h := build w.modes s.h (errMsg ("File name <" ++ str f ++ ">")) })
    | some c =>
      if s.table c = some false then
        let m := errMsg ("No class '" ++ str c ++ "' in <" ++ str f ++ ">")
        (1, { s with h := build w.modes s.h m })
      else (0, s)
  else
    let r := pushFile w f s
    let q := parseProgram w f r.2
    if r.1 + q.1 = 0 then (0, q.2)
    else (r.1 + q.1, { q.2 with
      h := write q.2.h ("Unrecoverable Program Parse FAILURE: <" ++ str f ++ ">\n") })

/-- Files compiled one after the other, whatever happened before; Compiler.cpp:75-81, 98-104. -/
def compileList (w : World) : List Bytes → Nat × St → Nat × St
  | [], r => r
  | f :: fs, r =>
    let q := compileFile w f r.2
    compileList w fs (r.1 + q.1, q.2)

/-- The loop over the classes named but not seen; Compiler.cpp:83-107 with
`getUnseenClassFilenames`, CompilerState.cpp:3645-3659.  `none`: not finished within `fuel` rounds. -/
def unseenLoop (w : World) : Nat → Nat × St → Option (Nat × St)
  | 0, _ => none
  | fuel + 1, (perrs, s) =>
    if perrs ≠ 0 then some (perrs, s)
    else
      let names := (w.order s.unseen).map (· ++ suffix)
      let s := { s with unseen := [] }
      if names = [] then some (perrs, s)
      else
        let existing := names.filter (fileExists w s)
        unseenLoop w fuel (compileList w existing (perrs, s))

/-- The state before the first file. -/
def St.start : St := ⟨Handler.start, [], fun _ => none, [], none, []⟩

/-- The whole of parsing; Compiler.cpp:75-107. -/
def parseAll (w : World) (files : List Bytes) (fuel : Nat) : Option (Nat × St) :=
  unseenLoop w fuel (compileList w files (0, St.start))

/-- A stage that only reports. -/
def say (w : World) (p : Phase) (n : Nat) (h : Handler) : Handler :=
  reports w.modes h (w.stage p n).1

/-- `resolvingLoop`; Compiler.cpp:375-390: the six passes, all of them whatever they answer. -/
def resolvingLoop (w : World) (n : Nat) (h : Handler) : Handler × Bool :=
  [Phase.sizes, .arguments, .instances, .unknownTypes, .locals, .labels].foldl
    (fun r p => (say w p n r.1, r.2 && (w.stage p n).2)) (h, true)

/-- `MAX_ITERATIONS`; Constants.h:206. -/
def maxIterations : Nat := 99

/-- The resolving loop; Compiler.cpp:243-264, from its `n`-th round: the handler, and how many
rounds there were. -/
def resolve (w : World) (n : Nat) (h : Handler) : Handler × Nat :=
  let r := resolvingLoop w n (clear h)
  if n + 1 > maxIterations ∨ r.1.errors > 0 then (r.1, n + 1)
  else
    let h' := if n + 1 = maxIterations then harden r.1 else r.1
    if r.2 then (h', n + 1) else resolve w (n + 1) h'
termination_by maxIterations + 1 - n
decreasing_by simp_all [maxIterations]; omega

/-- The loop for the virtual functions; Compiler.cpp:290-305. -/
def virtualLoop (w : World) (n : Nat) (h : Handler) : Handler :=
  let h' := say w .virtuals n h
  if n + 1 > maxIterations then
    build w.modes h' (errMsg "Incomplete calc of max index for virtual functions")
  else
    let h'' := if n + 1 = maxIterations then harden h' else h'
    if (w.stage .virtuals n).2 then h'' else virtualLoop w (n + 1) h''
termination_by maxIterations + 1 - n
decreasing_by simp_all [maxIterations]; omega

/-- `if(!errCnt) …; errCnt = getErrorCount()`. -/
def sayIf (w : World) (p : Phase) (h : Handler) : Handler :=
  if h.errors = 0 then say w p 0 h else h

/-- The checks after the resolving loop; Compiler.cpp:266-328. -/
def checks (w : World) (rounds : Nat) (h : Handler) : Handler :=
  let h := say w .customArrays 0 h
  let h := sayIf w .duplicates h
  let h := sayIf w .maxDepth h
  let h := if h.errors = 0 then virtualLoop w 0 (soften h) else h
  let h := if rounds ≥ maxIterations then harden h else h
  let h := sayIf w .abstracts h
  let h := sayIf w .pack h
  let h := sayIf w .printSizes h
  sayIf w .defaults h

/-- The two lines that sum up; Compiler.cpp:344-358. -/
def summary (w : World) (h : Handler) : Handler :=
  let h := if h.warnings > 0 then
      build w.modes h ⟨.info, "", toString h.warnings ++ " warnings during type labeling", true⟩
    else h
  if h.errors > 0 then
    build w.modes h ⟨.info, "", toString h.errors ++ " TOO MANY TYPELABEL ERRORS", true⟩
  else h

/-- `checkAndTypeLabelProgram`; Compiler.cpp:233-373. -/
def checkProgram (w : World) (h : Handler) : Handler :=
  let h := clear (attach h)
  let h := say w .lineage 0 h
  let (h, rounds) := if h.errors = 0 then resolve w 0 h else (h, 0)
  let h := if h.errors = 0 then checks w rounds h else h
  let h := sayIf w .unknownNames h
  let h := say w .longNames 0 h
  let h := say w .urSelfSize 0 h
  let h := say w .navNodes 0 h
  summary w h

/-- The end of a compilation: what `compileFiles` returns, the handler as it was when code
generation was started (if it was), and the handler at the end. -/
structure Result where
  status : Nat
  generated : Option Handler
  last : Handler

/-- The stages after parsing; Compiler.cpp:109-148. -/
def stages (w : World) (perrs : Nat) (h : Handler) : Result :=
  if perrs ≠ 0 then ⟨perrs, none, h⟩
  else
    let h := checkProgram w h
    let perrs := h.errors
    if perrs > 0 then ⟨perrs, none, write h "Unrecoverable Program Type Label FAILURE.\n"⟩
    else
      let h := say w .registration 0 h
      let h := say w .urSelfNumber 0 h
      let perrs := h.errors
      if perrs > 0 then ⟨perrs, none, write h "Unrecoverable Registry Number Assignment FAILURE.\n"⟩
      else
        let h' := say w .generation 0 h
        let perrs := h'.errors
        ⟨perrs, some h, if perrs > 0 then write h' "Unrecoverable Program GenCode FAILURE.\n" else h'⟩

/-- `compileFiles`; Compiler.cpp:67-149. -/
def compileFiles (w : World) (files : List Bytes) (fuel : Nat) : Option Result :=
  (parseAll w files fuel).map fun r => stages w r.1 r.2.h

/-- What the process that started the compiler sees of the number `main` returns
(src/drivers/culam/main.cpp, 290 and 330): its lowest eight bits. -/
def exitStatus (r : Result) : Nat := r.status % 256

/-- `isalnum` of <cctype>, C locale. -/
def isAlnum (c : Nat) : Bool :=
  decide (48 ≤ c ∧ c ≤ 57) || decide (65 ≤ c ∧ c ≤ 90) || decide (97 ≤ c ∧ c ≤ 122)

/-- `DriverState::AddClassName`; src/drivers/culam/main.cpp, 137-164: the file put on the list, or `none` when the
program ends with a complaint. -/
def addClassName (path : Bytes) : Option Bytes :=
  let classname := if suffix.isSuffixOf path then path.take (path.length - suffix.length) else path
  match classname with
  | [] => none
  | c :: _ =>
    if classname.all isAlnum then
      if c < 65 ∨ c > 90 then none else some (classname ++ suffix)
    else none

end Ulam.Driver
