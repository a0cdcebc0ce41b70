import Verif.Log.Text
import Verif.Log.Queue

/-
The configuration of the logger (`src/Xsmp/Services/XsmpLogger.cpp:151-184, 299-431, 489-544`):
the file `XsmpLogger.properties`, the appenders made from it, and what an appender writes for an
entry.

Strings are lists of characters as in `Verif.Log.Text`. Three things of the standard library and
of the `date` library are parameters (`Env`): regular expressions, the text of a time in a format,
and which files can be opened.
-/
namespace Verif.Log

/-- `LogEntry` (XsmpLogger.cpp:151-159). Times are numbers of nanoseconds. -/
structure Entry where
  sender : List Char
  msg : List Char
  kind : List Char
  zuluTime : Int
  simulationTime : Int
  epochTime : Int
  missionTime : Int
  deriving DecidableEq, Repr

/-- What is not modelled: `std::regex` (XsmpLogger.cpp:328-335, 348), `DateTime::to_stream` and
`Duration::to_stream` (183, 208), `std::ofstream::open` (389). -/
structure Env where
  /-- a regular expression, or none if the constructor throws; then the texts matched entirely -/
  regex : List Char → Option (List Char → Bool)
  /-- the text of a time in a format; `true` for a date, `false` for a duration -/
  time : Bool → List Char → Int → List Char
  /-- the file can be opened for writing -/
  opens : List Char → Bool

/-! ### `parseProperties` -/

/-- The lines given by the loop over `std::getline` (XsmpLogger.cpp:495): a newline ends a line, the
last line needs none. -/
def getLines : List Char → List (List Char)
  | [] => []
  | c :: r =>
    if c = '\n' then [] :: getLines r
    else
      match getLines r with
      | [] => [[c]]
      | l :: ls => (c :: l) :: ls

/-- The body of the loop for one line (XsmpLogger.cpp:496-513): the property, if the line gives
one. The message about an invalid line (512) is not modelled. -/
def parseLine (line : List Char) : Option (List Char × List Char) :=
  if (trim line).isEmpty || (trim line).head? == some '#' then none
  else
    match find (trim line) '=' 0 with
    | some p => some (rtrim ((trim line).take p), ltrim ((trim line).drop (p + 1)))
    | none => none

/-- The properties, a `std::map`. (XsmpLogger.cpp:491.) The order of the keys does not matter. -/
abbrev Properties := List (List Char × List Char)

/-- `std::map::find`. (XsmpLogger.cpp:303, 321, 327, 398, 413, 524.) -/
def Properties.get (m : Properties) (key : List Char) : Option (List Char) :=
  (m.find? (fun p => p.1 == key)).map (·.2)

/-- `std::map::try_emplace` (XsmpLogger.cpp:509): nothing if the key is there. -/
def Properties.tryEmplace (m : Properties) (name value : List Char) : Properties :=
  match m.get name with
  | some _ => m
  | none => m ++ [(name, value)]

/-- The loop of `parseProperties` (XsmpLogger.cpp:495-514). -/
def parseLines (m : Properties) : List (List Char) → Properties
  | [] => m
  | l :: ls =>
    match parseLine l with
    | some (n, v) => parseLines (m.tryEmplace n v) ls
    | none => parseLines m ls

/-- `parseProperties` (XsmpLogger.cpp:489-518) on the content of the file, if there is one. -/
def parseProperties (file : Option (List Char)) : Properties :=
  match file with
  | some text => parseLines [] (getLines text)
  | none => []

/-! ### The appenders -/

/-- `SimpleLayout` (XsmpLogger.cpp:174-186) or `PatternLayout` with its pattern (188-298). -/
inductive Layout
  | simple
  | pattern (p : List Char)
  deriving DecidableEq, Repr

/-- `ConsoleAppender` (XsmpLogger.cpp:367-382) or `FileAppender` with its file (386-407). -/
inductive Target
  | console
  | file (name : List Char)
  deriving DecidableEq, Repr

/-- `Appender` (XsmpLogger.cpp:299-365). -/
structure Appender where
  target : Target
  /-- `_layout`; `none` is the null pointer -/
  layout : Option Layout
  /-- `_levels` -/
  levels : List (List Char)
  /-- `_pathRegex` -/
  path : Option (List Char → Bool)

/-- The layout made by the constructor (XsmpLogger.cpp:302-320): none for a name that does not
exist. The outer `none` is a fault of `unescape`. -/
def newLayout (path : List Char) (props : Properties) : Option (Option Layout) :=
  let key := path ++ ".layout".toList
  match props.get key with
  | some v =>
    if v = "SimpleLayout".toList then some (some .simple)
    else if v = "PatternLayout".toList then
      (computePattern (props.get (key ++ ".conversionPattern".toList))).map (fun p => some (.pattern p))
    else some none
  | none =>
    (computePattern (props.get (key ++ ".conversionPattern".toList))).map (fun p => some (.pattern p))

/-- `_levels` as made by the constructor (XsmpLogger.cpp:321-326). -/
def newLevels (path : List Char) (props : Properties) : Option (List (List Char)) :=
  match props.get (path ++ ".levels".toList) with
  | some v => split v ','
  | none => some []

/-- `_pathRegex` as made by the constructor (XsmpLogger.cpp:327-336): none if the expression is
not valid. -/
def newRegex (env : Env) (path : List Char) (props : Properties) :
    Option (Option (List Char → Bool)) :=
  match props.get (path ++ ".path".toList) with
  | some v => (unescape v).map env.regex
  | none => some none

/-- The constructor of `Appender` (XsmpLogger.cpp:301-337). The `none` is a fault of `split` or
`unescape`. -/
def newAppender (env : Env) (target : Target) (path : List Char) (props : Properties) :
    Option Appender := do
  let layout ← newLayout path props
  let levels ← newLevels path props
  let regex ← newRegex env path props
  return { target := target, layout := layout, levels := levels, path := regex }

/-- `GetFileName` (XsmpLogger.cpp:395-403). -/
def fileName (path : List Char) (props : Properties) : List Char :=
  (props.get (path ++ ".File".toList)).getD "simulator.log".toList

/-- `CreateAppender` (XsmpLogger.cpp:520-544): the appenders added, at most one. The messages are
not modelled. -/
def createAppender (env : Env) (name : List Char) (props : Properties) : Option (List Appender) :=
  let path := "log.appender.".toList ++ name
  match props.get path with
  | some v =>
    if v = "ConsoleAppender".toList then (newAppender env .console path props).map ([·])
    else if v = "FileAppender".toList then
      (newAppender env (.file (fileName path props)) path props).map ([·])
    else some []
  | none => some []

/-- The loop over the names of `log.rootLogger` (XsmpLogger.cpp:415-417). -/
def createAppenders (env : Env) (props : Properties) : List (List Char) → Option (List Appender)
  | [] => some []
  | n :: ns => do
    let a ← createAppender env n props
    let as ← createAppenders env props ns
    return a ++ as

/-- The constructor of `LoggerProcessor` (XsmpLogger.cpp:410-424): the appenders it makes. -/
def newProcessor (env : Env) (file : Option (List Char)) : Option (List Appender) :=
  let props := parseProperties file
  match props.get "log.rootLogger".toList with
  | some v => do
    let names ← split v ','
    createAppenders env props names
  | none => (newAppender env .console "log.appender.default".toList props).map ([·])

/-! ### What an appender writes -/

/-- The time meant by a letter of a pattern (XsmpLogger.cpp:225-236), and whether it is a date. -/
def Entry.timeOf (e : Entry) (which : Char) : Bool × Int :=
  if which = 'd' then (true, e.zuluTime) else
  if which = 'S' then (false, e.simulationTime) else
  if which = 'E' then (true, e.epochTime) else (false, e.missionTime)

/-- What is sent to the stream for a piece of a pattern (XsmpLogger.cpp:202-250). An empty format
prints the number (205-206). -/
def Piece.text (env : Env) (e : Entry) : Piece → List Char
  | .chr c => [c]
  | .sender => e.sender
  | .kind => e.kind
  | .msg => e.msg
  | .time which fmt =>
    if fmt = [] then (toString (e.timeOf which).2).toList
    else env.time (e.timeOf which).1 fmt (e.timeOf which).2

/-- `Layout::Append`: `SimpleLayout` (XsmpLogger.cpp:182-185, with the time as in
Duration.cpp:71-74) or `PatternLayout` (199-258). -/
def Layout.text (strict : Bool) (env : Env) (e : Entry) : Layout → Option (List Char)
  | .simple =>
    some (env.time false "%T".toList e.simulationTime ++ ['\t'] ++ e.sender ++ ['\t'] ++ e.kind ++
      ['\t'] ++ e.msg ++ ['\n'])
  | .pattern p => (patternAppend strict p).map (fun ps => ps.flatMap (Piece.text env e))

/-- The condition of `Appender::Append` (XsmpLogger.cpp:347-348). -/
def Appender.accepts (a : Appender) (e : Entry) : Bool :=
  (a.levels.isEmpty || a.levels.contains e.kind) &&
    (match a.path with
      | none => true
      | some m => m e.sender)

/-- `Appender::Append` (XsmpLogger.cpp:345-357): what is sent to the stream; `none` is the null
pointer `_layout` used, or a read outside of the pattern. -/
def Appender.append (strict : Bool) (env : Env) (a : Appender) (e : Entry) : Option (List Char) :=
  if a.accepts e then
    match a.layout with
    | none => none
    | some l => l.text strict env e
  else some []

/-- Console, files, and the position in its file of the stream of each appender. A write goes to
the file at once: `PatternLayout` flushes (XsmpLogger.cpp:257); that `SimpleLayout` leaves it in
the buffer is not modelled. -/
structure Disk where
  console : List Char
  file : List Char → List Char
  pos : Nat → Nat

/-- Writing `text` at position `p` of a file: what was there is replaced. (`std::ofstream`,
XsmpLogger.cpp:389, 392.) -/
def overwrite (old : List Char) (p : Nat) (text : List Char) : List Char :=
  old.take p ++ text ++ old.drop (p + text.length)

/-- The text of the appender `i` sent to its stream (`DoAppend`, XsmpLogger.cpp:377-380, 392). A
stream of a file that could not be opened takes nothing. -/
def Disk.put (env : Env) (i : Nat) (t : Target) (text : List Char) (d : Disk) : Disk :=
  match t with
  | .console => { d with console := d.console ++ text }
  | .file f =>
    if env.opens f then
      { d with
        file := fun g => if g = f then overwrite (d.file f) (d.pos i) text else d.file g
        pos := fun j => if j = i then d.pos i + text.length else d.pos j }
    else d

/-- Opening the streams (XsmpLogger.cpp:386-390): an opened file becomes empty. -/
def Disk.opened (env : Env) (d : Disk) : List Appender → Disk
  | [] => d
  | a :: as =>
    match a.target with
    | .console => d.opened env as
    | .file f =>
      if env.opens f then
        Disk.opened env { d with file := fun g => if g = f then [] else d.file g } as
      else d.opened env as

/-- One call `appender->Append(log)` of the working thread (XsmpLogger.cpp:471-473, 483-485) for
the appender of index `i`. -/
def callAppender (strict : Bool) (env : Env) (apps : List Appender) (d : Disk) (i : Nat)
    (e : Entry) : Option Disk :=
  match apps[i]? with
  | none => some d
  | some a => (a.append strict env e).map (fun t => if a.accepts e then d.put env i a.target t else d)

/-- The calls of the appenders made one after the other by the working thread. Of the model only
(the loops of XsmpLogger.cpp:463-488 run in one thread). -/
def callAll (strict : Bool) (env : Env) (apps : List Appender) (d : Disk) :
    List (Nat × Entry) → Option Disk
  | [] => some d
  | (i, e) :: cs => (callAppender strict env apps d i e).bind (fun d' => callAll strict env apps d' cs)

namespace Queue

/-- The call of an appender that a step makes, if any: its index and the entry. Of the model only
(XsmpLogger.cpp:471-473, 483-485). -/
def callOf {α : Type} (apps : List (α → Bool)) (s : State α) : Act α → List (Nat × α)
  | .worker =>
    match s.w, s.q with
    | .append k, a :: _ => if k < apps.length then [(k, a)] else []
    | .drainAppend k, a :: _ => if k < apps.length then [(k, a)] else []
    | _, _ => []
  | _ => []

/-- The calls of appenders made in a run, in their order. Of the model only (XsmpLogger.cpp:471-473,
483-485). -/
def calls {α : Type} (apps : List (α → Bool)) (s : State α) : List (Act α) → List (Nat × α)
  | [] => []
  | a :: as =>
    callOf apps s a ++
      (match step apps s a with
        | some s' => calls apps s' as
        | none => [])

end Queue

end Verif.Log
