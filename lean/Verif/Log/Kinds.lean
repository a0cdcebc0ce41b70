/-
The message kinds of the logger (`src/Xsmp/Services/XsmpLogger.cpp:559-617`,
`src/Xsmp/Services/XsmpLogger.h:79-82`).

`QueryLogMessageKind` and `Log` hold `_mutex` during the whole call (XsmpLogger.cpp:561, 586),
so calls of several threads are a sequence. A kind is a 32 bits number
(`Smp::Services::LogMessageKind` is `Smp::Int32`).
-/
namespace Verif.Log.Kinds

/-- `_logMessageKinds`, XsmpLogger.h:80. -/
abbrev Table := List String

/-- The predefined kinds, XsmpLogger.h:79-82. The names are those of the SMP standard
(`Smp/Services/ILogger.h`, a dependency). -/
def predefined : Table := ["Information", "Event", "Warning", "Error", "Debug"]

/-- `std::find` of a name: its first index. (XsmpLogger.cpp:559-582.) -/
def indexOf (t : Table) (name : String) : Option Nat :=
  if t.findIdx (· == name) < t.length then some (t.findIdx (· == name)) else none

/-- `QueryLogMessageKind` (XsmpLogger.cpp:559-582): the kind and the new table. -/
def query (t : Table) (name : String) : BitVec 32 × Table :=
  match indexOf t name with
  | some i => (BitVec.ofNat 32 i, t)
  | none => (BitVec.ofNat 32 t.length, t ++ [name])

/-- The name which `Log` gives to a kind (XsmpLogger.cpp:588-595). -/
def kindName (t : Table) (kind : BitVec 32) : String :=
  match t[kind.toNat]? with
  | some n => n
  | none => "<unknown: " ++ toString kind.toInt ++ ">"

/-- A history of queries: the kinds returned and the final table. Of the model only (sequences of
calls of XsmpLogger.cpp:559-582). -/
def queries (t : Table) : List String → List (BitVec 32) × Table
  | [] => ([], t)
  | n :: ns => ((query t n).1 :: (queries (query t n).2 ns).1, (queries (query t n).2 ns).2)

/-- `Store` (XsmpLogger.cpp:614-617) writes the whole table, `Restore` (609-612) replaces it by
the stored one. The format is that of `Verif.Persist`. -/
def restore (_current stored : Table) : Table := stored

end Verif.Log.Kinds
