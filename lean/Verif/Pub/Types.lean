import Verif.Any.Model
import Verif.Path.Model

/-!
Model of the type registry: `src/Xsmp/Publication/TypeRegistry.cpp` and
`src/Xsmp/Publication/Type.cpp`.

Simplified: a UUID is a natural number; the UUIDs of the sixteen primitive types are the
numbers 0 to 15 and those of the nine other predefined types 16 to 24 (the code takes them
from the ECSS headers, which are not part of the repository; they are pairwise different).
Descriptions, units, offsets, views and the state/input/output flags are left out. The
registry is the list of its types in the order of registration (the code has an unordered
map and never iterates over it). Type pointers are the UUIDs: a type is never removed.
-/
namespace Verif.Pub
open Verif.Any (Kind Fl Any)
open Verif.Path (Str checkName)

/-- Of the model only: a number for a `Smp::Uuid`, which TypeRegistry.cpp:416-436 only compares.
-/
abbrev Uuid := Nat

/-- `Smp::Uuids::Uuid_Xxx` of a primitive type: the argument of the `case` of
`TypeRegistry::GetType(PrimitiveTypeKind)` (TypeRegistry.cpp:375-414). -/
def primUuid : Kind → Uuid
  | .Bool => 0 | .Char8 => 1 | .Float32 => 2 | .Float64 => 3 | .Int8 => 4 | .Int16 => 5
  | .Int32 => 6 | .Int64 => 7 | .Duration => 8 | .DateTime => 9 | .UInt8 => 10
  | .UInt16 => 11 | .UInt32 => 12 | .UInt64 => 13 | .String8 => 14 | .None => 15

/-- `Smp::Uuids::Uuid_Void`. (TypeRegistry.cpp:31-81.) -/
def voidUuid : Uuid := primUuid .None

/-- `StructureType::Field` (Type.h), name and type only. (Type.cpp:187-198.) -/
structure FieldDef where
  name : Str
  uuid : Uuid
  deriving DecidableEq

/-- The classes of Type.cpp. -/
inductive TypeDef
  /-- `PrimitiveType` (Type.cpp:168-171). -/
  | primitive (k : Kind)
  /-- `FloatType` (Type.cpp:134-142). -/
  | float (k : Kind) (min max : Fl) (minInc maxInc : Bool)
  /-- `IntegerType` (Type.cpp:154-160). -/
  | integer (k : Kind) (min max : Int)
  /-- `EnumerationType` (Type.cpp:112-127): kind and literals, value first. -/
  | enumeration (k : Kind) (literals : List (Int × Str))
  /-- `StringType` (Type.cpp:173-180). -/
  | string (length : Int)
  /-- `ArrayType` (Type.cpp:54-84). -/
  | array (item : Uuid) (itemSize count : Nat) (simple : Bool)
  /-- `StructureType` (Type.cpp:182-198). -/
  | struct (fields : List FieldDef)
  /-- `ClassType` (Type.cpp:200-221). -/
  | cls (base : Uuid) (fields : List FieldDef)

/-- `IType::GetPrimitiveTypeKind` (Type.cpp:37-39, 91-93): `PTK_None` unless simple. -/
def TypeDef.kind : TypeDef → Kind
  | .primitive k | .float k .. | .integer k .. | .enumeration k _ => k
  | .string _ => .String8
  | .array .. | .struct _ | .cls .. => .None

/-- `StructureType::GetFields` (Type.cpp:196-198); also of a class, without its base. -/
def TypeDef.fields : TypeDef → List FieldDef
  | .struct f | .cls _ f => f
  | _ => []

/-- A registered type under its UUID (TypeRegistry.cpp:423-436). -/
structure Entry where
  uuid : Uuid
  name : Str
  type : TypeDef

/-- The registered types (TypeRegistry.cpp:423-436). -/
abbrev Registry := List Entry

/-- The exceptions of the registry. (TypeRegistry.cpp:375-510, Type.cpp:54-200.) -/
inductive Exn
  | typeAlreadyRegistered | typeNotRegistered | invalidPrimitiveType | incompatibleType
  | duplicateLiteral | invalidObjectName
  deriving DecidableEq, Repr

/-- `TypeRegistry::GetType(Uuid)` (TypeRegistry.cpp:416-421). -/
def getType (R : Registry) (u : Uuid) : Option TypeDef :=
  (R.find? (fun e => e.uuid == u)).map Entry.type

/-- `TypeRegistry::GetType(PrimitiveTypeKind)` (TypeRegistry.cpp:375-414). -/
def getTypeOfKind (R : Registry) (k : Kind) : Option TypeDef := getType R (primUuid k)

/-- A constructor of Type.cpp: the type or the exception. (Type.cpp:28-200.) -/
abbrev Ctor := Except Exn TypeDef

/-- `Type::Type` (Type.cpp:28-31): the name is checked first. -/
def named (name : Option Str) (rest : Ctor) : Ctor :=
  match checkName name with
  | .ok _ => rest
  | .invalidObjectName => .error .invalidObjectName

/-- `ArrayType::ArrayType` (Type.cpp:54-74). -/
def mkArray (R : Registry) (item : Uuid) (itemSize count : Int) (simple : Bool) : Ctor :=
  match getType R item with
  | none => .error .typeNotRegistered
  | some _ =>
    if item = primUuid .String8 ∨ item = voidUuid then .error .incompatibleType
    else .ok (.array item (if itemSize ≥ 0 then itemSize.toNat else 0)
      (if count ≥ 0 then count.toNat else 0) simple)

/-- `kind` (Type.cpp:96-110), for the size of the enumeration in bytes. -/
def enumKind (memorySize : Int) : Option Kind :=
  if memorySize = 1 then some .Int8 else if memorySize = 2 then some .Int16
  else if memorySize = 4 then some .Int32 else if memorySize = 8 then some .Int64 else none

/-- `ClassType::ClassType` (Type.cpp:200-221). -/
def mkClass (R : Registry) (u base : Uuid) : Ctor :=
  if base = voidUuid then .ok (.cls base [])
  else if base = u then .error .incompatibleType
  else match getType R base with
    | none => .error .typeNotRegistered
    | some (.cls ..) => .ok (.cls base [])
    | some _ => .error .incompatibleType

/-- `TypeRegistry::AddType` (TypeRegistry.cpp:423-436). -/
def addType (R : Registry) (u : Uuid) (name : Option Str) (ctor : Ctor) :
    Registry × Option Exn :=
  match getType R u with
  | some _ => (R, some .typeAlreadyRegistered)
  | none =>
    match ctor with
    | .error e => (R, some e)
    | .ok t => (R ++ [⟨u, name.getD [], t⟩], none)

/-- Calls that change the registry or one of its types. (TypeRegistry.cpp:438-510,
Type.cpp:118-127, 187-194.) -/
inductive Op
  | addFloat (u : Uuid) (name : Option Str) (min max : Fl) (minInc maxInc : Bool) (k : Kind)
  | addInteger (u : Uuid) (name : Option Str) (min max : Int) (k : Kind)
  | addEnumeration (u : Uuid) (name : Option Str) (memorySize : Int)
  | addArray (u : Uuid) (name : Option Str) (item : Uuid) (itemSize count : Int)
      (simple : Bool)
  | addString (u : Uuid) (name : Option Str) (length : Int)
  | addStructure (u : Uuid) (name : Option Str)
  | addClass (u : Uuid) (name : Option Str) (base : Uuid)
  | addLiteral (u : Uuid) (name : Str) (value : Int)
  | addField (u : Uuid) (field : FieldDef)

/-- Replaces the type registered with a UUID (`AddField` and `AddLiteral` act on the object the
registry owns). (Type.cpp:118-127, 187-194.) -/
def modify (R : Registry) (u : Uuid) (t : TypeDef) : Registry :=
  R.map (fun e => if e.uuid = u then { e with type := t } else e)

/-- `EnumerationType::AddLiteral` (Type.cpp:118-127) of the literals. -/
def addLiteral (lits : List (Int × Str)) (name : Str) (value : Int) :
    Except Exn (List (Int × Str)) :=
  if lits.any (fun l => l.1 == value) then .error .duplicateLiteral
  else .ok (lits ++ [(value, name)])

/-- One call (TypeRegistry.cpp:438-510, Type.cpp:118-127, 187-194). `addLiteral` and
`addField` need the pointer an earlier `AddEnumerationType`, `AddStructureType` or
`AddClassType` returned: for any other UUID there is no such call and nothing happens. -/
def step (R : Registry) : Op → Registry × Option Exn
  | .addFloat u n min max i j k =>
      if k = .Float32 ∨ k = .Float64 then
        addType R u n (named n (.ok (.float k min max i j)))
      else (R, some .invalidPrimitiveType)
  | .addInteger u n min max k =>
      if k = .Int8 ∨ k = .Int16 ∨ k = .Int32 ∨ k = .Int64 ∨ k = .UInt8 ∨ k = .UInt16 ∨
          k = .UInt32 ∨ k = .UInt64 then
        addType R u n (named n (.ok (.integer k min max)))
      else (R, some .invalidPrimitiveType)
  | .addEnumeration u n size =>
      addType R u n (match enumKind size with
        | none => .error .invalidPrimitiveType
        | some k => named n (.ok (.enumeration k [])))
  | .addArray u n item size count simple =>
      addType R u n (named n (mkArray R item size count simple))
  | .addString u n len => addType R u n (named n (.ok (.string len)))
  | .addStructure u n => addType R u n (named n (.ok (.struct [])))
  | .addClass u n base => addType R u n (named n (mkClass R u base))
  | .addLiteral u n v =>
      match getType R u with
      | some (.enumeration k lits) =>
        match addLiteral lits n v with
        | .ok lits' => (modify R u (.enumeration k lits'), none)
        | .error e => (R, some e)
      | _ => (R, none)
  | .addField u f =>
      match getType R u with
      | some (.struct fs) => (modify R u (.struct (fs ++ [f])), none)
      | some (.cls b fs) => (modify R u (.cls b (fs ++ [f])), none)
      | _ => (R, none)

/-- Of the model only (sequences of the calls of TypeRegistry.cpp:438-510). -/
def run (R : Registry) : List Op → Registry
  | [] => R
  | op :: ops => run (step R op).1 ops

/-- The primitive types in the order the constructor registers them (TypeRegistry.cpp:31-81). -/
def primOrder : List Kind :=
  [.Char8, .String8, .Bool, .Int8, .Int16, .Int32, .Int64, .UInt8, .UInt16, .UInt32, .UInt64,
   .Float32, .Float64, .Duration, .DateTime, .None]

/-- The name under which the constructor registers a primitive type (TypeRegistry.cpp:32-79). -/
def primName : Kind → Str
  | .Char8 => "Char8".toList | .String8 => "String8".toList | .Bool => "Bool".toList
  | .Int8 => "Int8".toList | .Int16 => "Int16".toList | .Int32 => "Int32".toList
  | .Int64 => "Int64".toList | .UInt8 => "UInt8".toList | .UInt16 => "UInt16".toList
  | .UInt32 => "UInt32".toList | .UInt64 => "UInt64".toList | .Float32 => "Float32".toList
  | .Float64 => "Float64".toList | .Duration => "Duration".toList
  | .DateTime => "DateTime".toList | .None => "Void".toList

/-- The literals of `PrimitiveTypeKind` (TypeRegistry.cpp:88-109). -/
def kindLiterals : List (Int × Str) :=
  [(0, "PTK_None".toList), (1, "PTK_Char8".toList), (2, "PTK_Bool".toList),
   (3, "PTK_Int8".toList), (4, "PTK_UInt8".toList), (5, "PTK_Int16".toList),
   (6, "PTK_UInt16".toList), (7, "PTK_Int32".toList), (8, "PTK_UInt32".toList),
   (9, "PTK_Int64".toList), (10, "PTK_UInt64".toList), (11, "PTK_Float32".toList),
   (12, "PTK_Float64".toList), (13, "PTK_Duration".toList), (14, "PTK_DateTime".toList),
   (15, "PTK_String8".toList)]

/-- The literals of `TimeKind` (TypeRegistry.cpp:136-139). -/
def timeLiterals : List (Int × Str) :=
  [(0, "TK_SimulationTime".toList), (1, "TK_MissionTime".toList), (2, "TK_EpochTime".toList),
   (3, "TK_ZuluTime".toList)]

/-- The literals of `ViewKind` (TypeRegistry.cpp:150-162). -/
def viewLiterals : List (Int × Str) :=
  [(0, "VK_None".toList), (1, "VK_Debug".toList), (2, "VK_Expert".toList),
   (3, "VK_All".toList)]

/-- The literals of `ParameterDirectionKind` (TypeRegistry.cpp:172-188). -/
def directionLiterals : List (Int × Str) :=
  [(0, "PDK_In".toList), (1, "PDK_Out".toList), (2, "PDK_InOut".toList),
   (3, "PDK_Return".toList)]

/-- The literals of `ComponentStateKind` (TypeRegistry.cpp:199-242). -/
def componentLiterals : List (Int × Str) :=
  [(0, "CSK_Created".toList), (1, "CSK_Publishing".toList), (2, "CSK_Configured".toList),
   (3, "CSK_Connected".toList), (4, "CSK_Disconnected".toList)]

/-- The literals of `AccessKind` (TypeRegistry.cpp:251-256). -/
def accessLiterals : List (Int × Str) :=
  [(0, "AK_ReadWrite".toList), (1, "AK_ReadOnly".toList), (2, "AK_WriteOnly".toList)]

/-- The literals of `SimulatorStateKind` (TypeRegistry.cpp:268-364). -/
def simulatorLiterals : List (Int × Str) :=
  [(0, "SSK_Building".toList), (1, "SSK_Connecting".toList), (2, "SSK_Initialising".toList),
   (3, "SSK_Standby".toList), (4, "SSK_Executing".toList), (5, "SSK_Storing".toList),
   (6, "SSK_Restoring".toList), (7, "SSK_Reconnecting".toList), (8, "SSK_Exiting".toList),
   (9, "SSK_Aborting".toList)]

/-- The other predefined types (TypeRegistry.cpp:81-366). -/
def predefined : List Entry :=
  [⟨16, "PrimitiveTypeKind".toList, .enumeration .Int32 kindLiterals⟩,
   ⟨17, "EventId".toList, .integer .Int64 (-9223372036854775808) 9223372036854775807⟩,
   ⟨18, "LogMessageKind".toList, .integer .Int32 0 2147483647⟩,
   ⟨19, "TimeKind".toList, .enumeration .Int32 timeLiterals⟩,
   ⟨20, "ViewKind".toList, .enumeration .Int32 viewLiterals⟩,
   ⟨21, "ParameterDirectionKind".toList, .enumeration .Int32 directionLiterals⟩,
   ⟨22, "ComponentStateKind".toList, .enumeration .Int32 componentLiterals⟩,
   ⟨23, "AccessKind".toList, .enumeration .Int32 accessLiterals⟩,
   ⟨24, "SimulatorStateKind".toList, .enumeration .Int32 simulatorLiterals⟩]

/-- `TypeRegistry::TypeRegistry` (TypeRegistry.cpp:31-366): what the registry then contains; the
calls of the constructor are in Pub/Predefined.lean. -/
def initial : Registry :=
  primOrder.map (fun k => ⟨primUuid k, primName k, .primitive k⟩) ++ predefined

end Verif.Pub
