import Verif.Pub.Types

/-!
The constructor of the type registry as the calls it makes (`TypeRegistry.cpp:31-366`), the lookup
by the number of a primitive kind (`TypeRegistry.cpp:375-414`), and the enumerations of the
standard as Python sees them (`src/python/Smp/*KindBinding.h`).
-/
namespace Verif.Pub
open Verif.Any (Kind)
open Verif.Path (Str)

/-- A call of the constructor: `AddType<PrimitiveType>` with its name and its kind, or one of the
public calls. (TypeRegistry.cpp:32-366.) -/
inductive CtorCall
  | primitive (name : Str) (u : Uuid) (k : Kind)
  | call (op : Op)

/-- One call of the constructor (TypeRegistry.cpp:423-436, 438-510). -/
def ctorStep (R : Registry) : CtorCall → Registry × Option Exn
  | .primitive n u k => addType R u (some n) (named (some n) (.ok (.primitive k)))
  | .call op => step R op

/-- The calls one after the other; an exception leaves the constructor. (TypeRegistry.cpp:31-366.)
-/
def ctorRun (R : Registry) : List CtorCall → Registry × Option Exn
  | [] => (R, none)
  | c :: cs =>
    match ctorStep R c with
    | (R', none) => ctorRun R' cs
    | (R', some e) => (R', some e)

/-- The `AddType<PrimitiveType>` calls (TypeRegistry.cpp:32-79). -/
def ctorPrimitives : List CtorCall :=
  [.primitive "Char8".toList (primUuid .Char8) .Char8,
   .primitive "String8".toList (primUuid .String8) .String8,
   .primitive "Bool".toList (primUuid .Bool) .Bool,
   .primitive "Int8".toList (primUuid .Int8) .Int8,
   .primitive "Int16".toList (primUuid .Int16) .Int16,
   .primitive "Int32".toList (primUuid .Int32) .Int32,
   .primitive "Int64".toList (primUuid .Int64) .Int64,
   .primitive "UInt8".toList (primUuid .UInt8) .UInt8,
   .primitive "UInt16".toList (primUuid .UInt16) .UInt16,
   .primitive "UInt32".toList (primUuid .UInt32) .UInt32,
   .primitive "UInt64".toList (primUuid .UInt64) .UInt64,
   .primitive "Float32".toList (primUuid .Float32) .Float32,
   .primitive "Float64".toList (primUuid .Float64) .Float64,
   .primitive "Duration".toList (primUuid .Duration) .Duration,
   .primitive "DateTime".toList (primUuid .DateTime) .DateTime,
   .primitive "Void".toList voidUuid .None]

/-- `AddEnumerationType` of an enumeration of four bytes and `AddLiteral` of its literals.
(TypeRegistry.cpp:81-109, 129-139, 141-162, 164-188, 190-242, 243-256, 258-364.) The size of the
enumerations of the standard is in headers that are not part of the repository: four bytes, as
each of them has the underlying type `Int32`. -/
def ctorEnum (u : Uuid) (name : Str) (lits : List (Int × Str)) : List CtorCall :=
  .call (.addEnumeration u (some name) 4) :: lits.map (fun l => .call (.addLiteral u l.2 l.1))

/-- All calls of the constructor (TypeRegistry.cpp:31-366). -/
def ctorCalls : List CtorCall :=
  ctorPrimitives ++
  ctorEnum 16 "PrimitiveTypeKind".toList kindLiterals ++
  [.call (.addInteger 17 (some "EventId".toList) (-9223372036854775808) 9223372036854775807 .Int64),
   .call (.addInteger 18 (some "LogMessageKind".toList) 0 2147483647 .Int32)] ++
  ctorEnum 19 "TimeKind".toList timeLiterals ++
  ctorEnum 20 "ViewKind".toList viewLiterals ++
  ctorEnum 21 "ParameterDirectionKind".toList directionLiterals ++
  ctorEnum 22 "ComponentStateKind".toList componentLiterals ++
  ctorEnum 23 "AccessKind".toList accessLiterals ++
  ctorEnum 24 "SimulatorStateKind".toList simulatorLiterals

/-- The registered object with a UUID: `_types.find` (TypeRegistry.cpp:416-421). -/
def getEntry (R : Registry) (u : Uuid) : Option Entry := R.find? (fun e => e.uuid == u)

/-- `TypeRegistry::GetType(PrimitiveTypeKind)` of the kind with a number (TypeRegistry.cpp:375-414);
the numbers of the kinds are those of TypeRegistry.cpp:88-109. -/
def getTypeByNumber (R : Registry) (n : Int) : Option Entry :=
  match n with
  | 2 => getEntry R (primUuid .Bool)
  | 1 => getEntry R (primUuid .Char8)
  | 11 => getEntry R (primUuid .Float32)
  | 12 => getEntry R (primUuid .Float64)
  | 3 => getEntry R (primUuid .Int8)
  | 5 => getEntry R (primUuid .Int16)
  | 7 => getEntry R (primUuid .Int32)
  | 9 => getEntry R (primUuid .Int64)
  | 13 => getEntry R (primUuid .Duration)
  | 14 => getEntry R (primUuid .DateTime)
  | 4 => getEntry R (primUuid .UInt8)
  | 6 => getEntry R (primUuid .UInt16)
  | 8 => getEntry R (primUuid .UInt32)
  | 10 => getEntry R (primUuid .UInt64)
  | 15 => getEntry R (primUuid .String8)
  | 0 => getEntry R voidUuid
  | _ => none

/-- A class made by `py::enum_`: its name, and the name of each value with the C++ enumerator it
stands for. (src/python/Smp/ViewKindBinding.h:22-37.) -/
structure PyEnum where
  name : String
  values : List (String × String)

/-- The classes of the Python module for the enumerations of the standard
(src/python/Smp/ViewKindBinding.h:22-37, src/python/Smp/Services/TimeKindBinding.h:22-34,
src/python/Smp/SimulatorStateKindBinding.h:22-89, src/python/Smp/ComponentStateKindBinding.h:22-53,
src/python/Smp/AccessKindBinding.h:22-33, src/python/Smp/PrimitiveTypeKindBinding.h:22-70,
src/python/Smp/Publication/ParameterDirectionKindBinding.h:22-40). -/
def pyEnums : List PyEnum :=
  [⟨"ViewKind", [("VK_None", "VK_None"), ("VK_Debug", "VK_Debug"), ("VK_Expert", "VK_Expert"),
    ("VK_All", "VK_All")]⟩,
   ⟨"TimeKind", [("TK_SimulationTime", "TK_SimulationTime"), ("TK_MissionTime", "TK_MissionTime"),
    ("TK_EpochTime", "TK_EpochTime"), ("TK_ZuluTime", "TK_ZuluTime")]⟩,
   ⟨"SimulatorStateKind", [("SSK_Building", "SSK_Building"), ("SSK_Connecting", "SSK_Connecting"),
    ("SSK_Initialising", "SSK_Initialising"), ("SSK_Standby", "SSK_Standby"),
    ("SSK_Executing", "SSK_Executing"), ("SSK_Storing", "SSK_Storing"),
    ("SSK_Restoring", "SSK_Restoring"), ("SSK_Reconnecting", "SSK_Reconnecting"),
    ("SSK_Exiting", "SSK_Exiting"), ("SSK_Aborting", "SSK_Aborting")]⟩,
   ⟨"ComponentStateKind", [("CSK_Created", "CSK_Created"), ("CSK_Publishing", "CSK_Publishing"),
    ("CSK_Configured", "CSK_Configured"), ("CSK_Connected", "CSK_Connected"),
    ("CSK_Disconnected", "CSK_Disconnected")]⟩,
   ⟨"AccessKind", [("AK_ReadWrite", "AK_ReadWrite"), ("AK_ReadOnly", "AK_ReadOnly"),
    ("AK_WriteOnly", "AK_WriteOnly")]⟩,
   ⟨"PrimitiveTypeKind", [("PTK_None", "PTK_None"), ("PTK_Char8", "PTK_Char8"),
    ("PTK_Bool", "PTK_Bool"), ("PTK_Int8", "PTK_Int8"), ("PTK_UInt8", "PTK_UInt8"),
    ("PTK_Int16", "PTK_Int16"), ("PTK_UInt16", "PTK_UInt16"), ("PTK_Int32", "PTK_Int32"),
    ("PTK_UInt32", "PTK_UInt32"), ("PTK_Int64", "PTK_Int64"), ("PTK_UInt64", "PTK_UInt64"),
    ("PTK_Float32", "PTK_Float32"), ("PTK_Float64", "PTK_Float64"),
    ("PTK_Duration", "PTK_Duration"), ("PTK_DateTime", "PTK_DateTime"),
    ("PTK_String8", "PTK_String8")]⟩,
   ⟨"ParameterDirectionKind", [("PDK_In", "PDK_In"), ("PDK_Out", "PDK_Out"),
    ("PDK_InOut", "PDK_InOut"), ("PDK_Return", "PDK_Return")]⟩]

end Verif.Pub
