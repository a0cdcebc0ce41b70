import Verif.Field.Published
import Verif.Sim.Breakpoint
import Verif.Sim.Library
import Verif.Sim.Service
import Verif.Raise.Objects

/-!
What the exceptions of data flow, of the state of the simulator, of libraries and of the storage
carry (`src/Xsmp/Exception.cpp:127-207, 1178-1216, 1340-1361` and the places that raise them): the
calls of Field/Tree.lean, Field/Published.lean, Sim/Service.lean, Sim/Library.lean and
Sim/Breakpoint.lean with the data of the exception they raise.
-/
namespace Verif.Raise.Flow
open Verif.Field (FTree World PWorld equivalent canConnect)
open Verif.Raise (nullCheck)

/-! ### Data flow -/

/-- A field, by its address. Of the model only (the pointers of Exception.cpp:153-154). -/
abbrev Id := Nat × Nat

/-- The exceptions of `Connect`, with what `GetSource` and `GetTarget` return (a null target is
`none`). -/
inductive FEx
  /-- `FieldAlreadyConnected` (Exception.cpp:127-155) -/
  | alreadyConnected (source : Id) (target : Option Id)
  /-- `InvalidTarget` (Exception.cpp:157-182) -/
  | invalidTarget (source : Id) (target : Option Id)
  /-- undefined behaviour: `target->IsInput()` of a null target (Field.cpp:369) -/
  | ub
  deriving DecidableEq, Repr

/-- What `Connect` of the four kinds of dataflow fields raises before it connects (Field.cpp:368-376,
394-402, 465-473, 493-501). What the connection itself raises (values that a target refuses) is in
Field/Tree.lean. -/
def connectRaises (w : World) (t : FTree) : Option FTree → Option FEx
  | none => if !w.output t then some (.invalidTarget t.key none) else some .ub
  | some u =>
    if !w.output t || !w.input u || u.is t || !equivalent w t u then
      some (.invalidTarget t.key (some u.key))
    else if !canConnect w t u then some (.alreadyConnected t.key (some u.key))
    else none

/-- What `DataflowField::Connect` of published fields raises before it connects
(Publication/Field.cpp:143-150). -/
def pconnectRaises (p : PWorld) (t : FTree) : Option FTree → Option FEx
  | none => if !p.w.output t then some (.invalidTarget t.key none) else some .ub
  | some u =>
    if (p.outs t.key).any (fun x => x.key == u.key) then
      some (.alreadyConnected t.key (some u.key))
    else if !p.w.output t || !p.w.input u || u.is t || !equivalent p.w t u then
      some (.invalidTarget t.key (some u.key))
    else none

/-! ### State of the simulator -/

/-- What `AddModel` and `AddService` raise because of the state: `InvalidSimulatorState`
(Exception.cpp:1340-1361), with what `GetInvalidState` returns (Simulator.cpp:573-581, 585-593). -/
def stateRaises (st : Verif.Sim.St) : Option Verif.Sim.St :=
  match st with
  | .building | .connecting | .standby => none
  | _ => some st

/-! ### Libraries -/

/-- The exceptions of `LoadLibrary`, with what `GetLibraryName` and `GetMessage` return. -/
inductive LEx
  /-- `LibraryNotFound` (Exception.cpp:1178-1195) -/
  | notFound (name message : String)
  /-- `InvalidLibrary` (Exception.cpp:1197-1216) -/
  | invalid (name message : String)
  /-- undefined behaviour: `std::string(nullptr)` (Simulator.cpp:671) -/
  | ub
  deriving DecidableEq, Repr

/-- The message for a library without `Initialise` (Simulator.cpp:690-694). -/
def noInitialise (name error : String) : String :=
  "Library '" ++ name ++ "' does not provide function 'bool Initialize(::Smp::ISimulator *, " ++
    "::Smp::Publication::ITypeRegistry *)': " ++ error

/-- The message for a library without `Finalise` (Simulator.cpp:704-706). -/
def noFinalise (name error : String) : String :=
  "Library '" ++ name ++ "' does not provide function 'bool Finalise()': " ++ error

/-- The message when `Initialise` returns false (Simulator.cpp:722-723). -/
def initialiseFailed (name : String) : String :=
  "Initialise() of library '" ++ name ++ "' failed."

/-- What `LoadLibrary` itself raises (Simulator.cpp:666-730), given what the library is like
(Sim/Library.lean): `returned` is what `Initialise` returns, `none` when it raises (the exception goes
through). `error` is what the operating system says (LibraryHelper.cpp:78-110). For a null name no
library is found (LibraryHelper.cpp:44-47), but with a logger the name is used before. -/
def loadRaises (logger : Bool) (name : Option String) (found hasInit hasFinal : Bool)
    (returned : Option Bool) (error : String) : Option LEx :=
  match name with
  | none => if logger then some .ub else some (.notFound (nullCheck none) error)
  | some n =>
    if !found then some (.notFound (nullCheck (some n)) error)
    else if !hasInit then some (.invalid (nullCheck (some n)) (noInitialise n error))
    else if !hasFinal then some (.invalid (nullCheck (some n)) (noFinalise n error))
    else match returned with
      | some false => some (.invalid (nullCheck (some n)) (initialiseFailed n))
      | _ => none

/-! ### Storage -/

/-- The `std::ifstream` of a `StorageReader` (StorageReader.cpp:50-64): the bytes that were not read
yet, and the three flags. -/
structure In where
  left : List UInt8
  bad : Bool
  fail : Bool
  eof : Bool
  deriving DecidableEq, Repr

/-- `std::istream::read` (StorageReader.cpp:51): nothing is read once a flag is set, and then
`failbit` is set; at the end of the file, `failbit` and `eofbit` are set. `broken`: the device fails. -/
def In.read (s : In) (broken : Bool) (n : Nat) : In :=
  if s.bad || s.fail || s.eof then { s with fail := true }
  else if broken then { s with bad := true }
  else if n ≤ s.left.length then { s with left := s.left.drop n }
  else { left := [], bad := s.bad, fail := true, eof := true }

/-- The messages of `CannotRestore` raised by `StorageReader::Restore`. -/
inductive RMsg
  /-- "Read/ error on input operation" (StorageReader.cpp:53-54) -/
  | read
  /-- "Logical error on input operation" (StorageReader.cpp:57-58) -/
  | logical
  /-- "End-of-File reached on input operation" (StorageReader.cpp:61-62) -/
  | endOfFile
  deriving DecidableEq, Repr

/-- `StorageReader::Restore` (StorageReader.cpp:50-64). -/
def In.restore (s : In) (broken : Bool) (n : Nat) : In × Option RMsg :=
  let s := s.read broken n
  (s, if s.bad then some .read
    else if s.fail then some .logical
    else if s.eof then some .endOfFile
    else none)

/-- Calls of `Restore`, one after the other (StorageReader.cpp:50-64). -/
def In.run (s : In) : List (Bool × Nat) → In
  | [] => s
  | (broken, n) :: rest => (s.restore broken n).1.run rest

/-- What opening the storage for writing raises. -/
inductive WEx
  /-- `std::filesystem::filesystem_error`, which is not an `Smp::Exception`
  (StorageWriter.cpp:33-35) -/
  | filesystem
  /-- `CannotStore` (Exception.cpp:184-194, StorageWriter.cpp:39-42) -/
  | cannotStore
  deriving DecidableEq, Repr

/-- `createOutputStream` (StorageWriter.cpp:31-45): `dir`, the directory is there; `mkdir`, it could
be made; `opens`, the file could be opened. -/
def openRaises (dir mkdir opens : Bool) : Option WEx :=
  if !dir && !mkdir then some .filesystem
  else if !opens then some .cannotStore
  else none

/-! ### Restoring a breakpoint -/
open Verif.Sim.Bp (Bytes Fld Kind Obj)

/-- The messages of `CannotRestore` while a breakpoint is restored. -/
inductive Why
  /-- "Logical error on input operation": the file ends (StorageReader.cpp:56-59) -/
  | ended
  /-- "Wrong check": another mark is there (Simulator.cpp:428-430) -/
  | wrongCheck
  deriving DecidableEq, Repr

/-- `StorageReader::Restore` (StorageReader.cpp:50-64). -/
def readWhy (n : Nat) (b : Bytes) : Option Why := if n ≤ b.length then none else some .ended

/-- `check` (Simulator.cpp:423-431). -/
def checkWhy (k : Kind) (b : Bytes) : Option Why :=
  match Verif.Sim.Bp.read 4 b with
  | some (h, _) => if h = k.bytes then none else some .wrongCheck
  | none => some .ended

/-- One step after another: the first exception leaves (C++ semantics of Simulator.cpp:432-456).
`w` is what the first step raises, `p` what it leaves, `v` what the second one raises. -/
def andThen {α : Type} (w : Option Why) (p : Option (α × Bytes)) (v : α → Bytes → Option Why) :
    Option Why :=
  match w with
  | some e => some e
  | none => match p with
    | some (x, r) => v x r
    | none => none

mutual
/-- `Restore` of a field (Publication/Field.cpp:462-476, 491-495, 641-649, 821-827): the message of
the reader is kept (Publication/Field.cpp:646). -/
def fldWhy : Fld → Bytes → Option Why
  | .simple st d, b => if st then readWhy d.length b else none
  | .group st items, b => if st then allWhy items b else none
/-- The loop over the fields inside (Publication/Field.cpp:462-468, 821-827). -/
def allWhy : List Fld → Bytes → Option Why
  | [], _ => none
  | f :: fs, b => andThen (fldWhy f b) (f.restore b) fun _ b => allWhy fs b
end

/-- The fields of a component, each with its mark (Simulator.cpp:437-445). -/
def fieldsWhy : List Fld → Bytes → Option Why
  | [], _ => none
  | f :: fs, b =>
    andThen (checkWhy .FIELD b) ((Verif.Sim.Bp.check .FIELD b).map ((), ·)) fun _ b =>
      andThen (fldWhy f b) (f.restore b) fun _ b => fieldsWhy fs b

/-- The containers of a composite (Simulator.cpp:447-455). -/
def ctnsWhy : List (List Obj) → Bytes → Option Why
  | [], _ => none
  | _ :: cs, b =>
    andThen (checkWhy .CONTAINER b) ((Verif.Sim.Bp.check .CONTAINER b).map ((), ·)) fun _ b =>
      ctnsWhy cs b

/-- The own data of an object (Simulator.cpp:433-436). -/
def persistWhy : Option Bytes → Bytes → Option Why
  | none, _ => none
  | some d, b =>
    andThen (checkWhy .PERSIST b) ((Verif.Sim.Bp.check .PERSIST b).map ((), ·)) fun _ b =>
      readWhy d.length b

/-- The fields of an object (Simulator.cpp:437-445). -/
def componentWhy : Option (List Fld) → Bytes → Option Why
  | none, _ => none
  | some fs, b =>
    andThen (checkWhy .COMPONENT b) ((Verif.Sim.Bp.check .COMPONENT b).map ((), ·)) fun _ b =>
      fieldsWhy fs b

/-- The containers of an object (Simulator.cpp:447-455). -/
def compositeWhy : Option (List (List Obj)) → Bytes → Option Why
  | none, _ => none
  | some cs, b =>
    andThen (checkWhy .COMPOSITE b) ((Verif.Sim.Bp.check .COMPOSITE b).map ((), ·)) fun _ b =>
      ctnsWhy cs b

/-- What is left to read after the own data (Simulator.cpp:433-436). -/
def persistRest : Option Bytes → Bytes → Option (Unit × Bytes)
  | none, b => some ((), b)
  | some d, b => do
    let b ← Verif.Sim.Bp.check .PERSIST b
    let (_, b) ← Verif.Sim.Bp.read d.length b
    pure ((), b)

/-- What is left to read after the fields (Simulator.cpp:437-445). -/
def componentRest : Option (List Fld) → Bytes → Option (Unit × Bytes)
  | none, b => some ((), b)
  | some fs, b => do
    let b ← Verif.Sim.Bp.check .COMPONENT b
    let (_, b) ← Verif.Sim.Bp.restoreFields fs b
    pure ((), b)

/-- What `Restore` of an object raises (Simulator.cpp:432-456). -/
def restoreWhy : Obj → Bytes → Option Why
  | .mk p f c, b =>
    andThen (persistWhy p b) (persistRest p b) fun _ b =>
      andThen (componentWhy f b) (componentRest f b) fun _ b => compositeWhy c b

end Verif.Raise.Flow
