import Verif.Python.Value

/-
Model of what becomes of a C++ exception that reaches Python: the classes registered by the module
(src/python/ecss_smp.cpp:573-731, 810-876), in the order of registration, and pybind11's rule: the
translators are tried from the last one registered to the first, the one of the library last. The classes
of the exceptions that the library raises are those of src/Xsmp/Exception.cpp:91-1362.

Simplified: translators registered by other modules are left out; of the classes of Python only those
between the exceptions met here and `Exception`.
-/
namespace Verif.Python.Except
open Verif.Python.Value (decode)

/-- A class of exceptions of the standard: its namespace, which is also the Python module, and its name
(ecss_smp.cpp:570-571, 579, 810-876). -/
structure Name where
  space : String
  name : String
  deriving DecidableEq

/-- `::Smp::Exception` (ecss_smp.cpp:573-577). -/
def root : Name := ⟨"Smp", "Exception"⟩

/-- The others, in the order of their registration (ecss_smp.cpp:579-731, 810-876). -/
def registered : List Name :=
  [⟨"Smp", "CannotDelete"⟩, ⟨"Smp", "CannotRemove"⟩, ⟨"Smp", "CannotRestore"⟩, ⟨"Smp", "CannotStore"⟩,
   ⟨"Smp", "ContainerFull"⟩, ⟨"Smp", "DuplicateName"⟩, ⟨"Smp", "DuplicateUuid"⟩,
   ⟨"Smp", "EventSinkAlreadySubscribed"⟩, ⟨"Smp", "EventSinkNotSubscribed"⟩,
   ⟨"Smp", "FieldAlreadyConnected"⟩, ⟨"Smp", "InvalidAnyType"⟩, ⟨"Smp", "InvalidArrayIndex"⟩,
   ⟨"Smp", "InvalidArraySize"⟩, ⟨"Smp", "InvalidArrayValue"⟩, ⟨"Smp", "InvalidComponentState"⟩,
   ⟨"Smp", "InvalidEventSink"⟩, ⟨"Smp", "InvalidFieldName"⟩, ⟨"Smp", "InvalidFieldType"⟩,
   ⟨"Smp", "InvalidFieldValue"⟩, ⟨"Smp", "InvalidLibrary"⟩, ⟨"Smp", "InvalidObjectName"⟩,
   ⟨"Smp", "InvalidObjectType"⟩, ⟨"Smp", "InvalidOperationName"⟩, ⟨"Smp", "InvalidParameterCount"⟩,
   ⟨"Smp", "InvalidParameterIndex"⟩, ⟨"Smp", "InvalidParameterType"⟩, ⟨"Smp", "InvalidParameterValue"⟩,
   ⟨"Smp", "InvalidReturnValue"⟩, ⟨"Smp", "InvalidSimulatorState"⟩, ⟨"Smp", "InvalidTarget"⟩,
   ⟨"Smp", "LibraryNotFound"⟩, ⟨"Smp", "NotContained"⟩, ⟨"Smp", "NotReferenced"⟩, ⟨"Smp", "ReferenceFull"⟩,
   ⟨"Smp", "VoidOperation"⟩, ⟨"Smp.Publication", "DuplicateLiteral"⟩,
   ⟨"Smp.Publication", "InvalidPrimitiveType"⟩, ⟨"Smp.Publication", "TypeAlreadyRegistered"⟩,
   ⟨"Smp.Publication", "TypeNotRegistered"⟩, ⟨"Smp.Services", "EntryPointAlreadySubscribed"⟩,
   ⟨"Smp.Services", "EntryPointNotSubscribed"⟩, ⟨"Smp.Services", "InvalidCycleTime"⟩,
   ⟨"Smp.Services", "InvalidEventId"⟩, ⟨"Smp.Services", "InvalidEventName"⟩,
   ⟨"Smp.Services", "InvalidEventTime"⟩, ⟨"Smp.Services", "InvalidSimulationTime"⟩]

/-- The exception classes of `Exception.cpp` (Exception.cpp:127-1362): each is also the class of the
standard of that name, and `::Smp::Exception`. -/
def raised : List Name :=
  [⟨"Smp", "FieldAlreadyConnected"⟩, ⟨"Smp", "InvalidTarget"⟩, ⟨"Smp", "CannotStore"⟩,
   ⟨"Smp", "CannotRestore"⟩, ⟨"Smp", "InvalidObjectName"⟩, ⟨"Smp", "ContainerFull"⟩,
   ⟨"Smp", "DuplicateName"⟩, ⟨"Smp", "NotContained"⟩, ⟨"Smp", "CannotDelete"⟩,
   ⟨"Smp", "InvalidComponentState"⟩, ⟨"Smp", "InvalidObjectType"⟩, ⟨"Smp", "NotReferenced"⟩,
   ⟨"Smp", "ReferenceFull"⟩, ⟨"Smp", "CannotRemove"⟩, ⟨"Smp", "InvalidEventSink"⟩,
   ⟨"Smp", "EventSinkAlreadySubscribed"⟩, ⟨"Smp", "EventSinkNotSubscribed"⟩,
   ⟨"Smp", "InvalidOperationName"⟩, ⟨"Smp", "InvalidParameterCount"⟩, ⟨"Smp", "InvalidParameterType"⟩,
   ⟨"Smp", "InvalidArrayIndex"⟩, ⟨"Smp", "InvalidFieldValue"⟩, ⟨"Smp", "InvalidArrayValue"⟩,
   ⟨"Smp", "InvalidArraySize"⟩, ⟨"Smp.Services", "InvalidEventName"⟩, ⟨"Smp.Services", "InvalidEventId"⟩,
   ⟨"Smp.Services", "InvalidCycleTime"⟩, ⟨"Smp.Services", "InvalidEventTime"⟩,
   ⟨"Smp.Services", "EntryPointNotSubscribed"⟩, ⟨"Smp.Services", "EntryPointAlreadySubscribed"⟩,
   ⟨"Smp", "InvalidFieldName"⟩, ⟨"Smp.Publication", "TypeNotRegistered"⟩, ⟨"Smp", "InvalidParameterIndex"⟩,
   ⟨"Smp", "VoidOperation"⟩, ⟨"Smp", "InvalidAnyType"⟩, ⟨"Smp", "InvalidReturnValue"⟩,
   ⟨"Smp", "InvalidParameterValue"⟩, ⟨"Smp", "InvalidFieldType"⟩, ⟨"Smp", "DuplicateUuid"⟩,
   ⟨"Smp", "LibraryNotFound"⟩, ⟨"Smp", "InvalidLibrary"⟩, ⟨"Smp.Services", "InvalidSimulationTime"⟩,
   ⟨"Smp.Publication", "TypeAlreadyRegistered"⟩, ⟨"Smp.Publication", "DuplicateLiteral"⟩,
   ⟨"Smp.Publication", "InvalidPrimitiveType"⟩, ⟨"Smp", "InvalidSimulatorState"⟩]

/-- The classes of the C++ library that pybind11 tells apart. (pybind11's own translator, which is
registered first; ecss_smp.cpp:561.) -/
inductive Std
  | badAlloc | domainError | invalidArgument | lengthError | outOfRange | rangeError | overflowError
  /-- another `std::exception` -/
  | other
  /-- no `std::exception` -/
  | unknown
  deriving DecidableEq

/-- A C++ exception: which classes of the standard it is an instance of, what it is otherwise, and what
`what()` returns. (Exception.cpp:91-125.) -/
structure Thrown where
  classes : List Name
  std : Std
  what : List Nat

/-- Classes of Python exceptions. (ecss_smp.cpp:573-577.) -/
inductive Cls
  | smp (n : Name)
  | runtimeError | memoryError | valueError | indexError | overflowError | unicodeDecodeError
  deriving DecidableEq

/-- The base class (ecss_smp.cpp:573-579, 810-876), as far as it matters here. -/
def Cls.base : Cls → Option Cls
  | .smp n => if n = root then some .runtimeError else some (.smp root)
  | .unicodeDecodeError => some .valueError
  | .overflowError => none
  | _ => none

/-- A Python exception: its class and its text. (ecss_smp.cpp:573.) -/
structure Py where
  cls : Cls
  text : List Char

/-- `except q:` catches an exception of class `p`: `p` is `q` or inherits from it. (Python;
ecss_smp.cpp:573-577.) -/
def catches (q p : Cls) : Bool :=
  p == q || match p.base with
    | none => false
    | some b => b == q || b.base == some q

/-- `PyErr_SetString`, which pybind11 calls with `what()`: a text that is not UTF-8 raises
`UnicodeDecodeError` in its place. (ecss_smp.cpp:573-577.) The text of that exception is left out. -/
def set (c : Cls) (what : List Nat) : Py :=
  match decode what with
  | some t => ⟨c, t⟩
  | none => ⟨.unicodeDecodeError, []⟩

/-- pybind11's own translator. (ecss_smp.cpp:561.) -/
def builtin : Std → Cls
  | .badAlloc => .memoryError
  | .domainError | .invalidArgument | .lengthError | .rangeError => .valueError
  | .outOfRange => .indexError
  | .overflowError => .overflowError
  | .other | .unknown => .runtimeError

/-- The exception that Python gets: the last class registered that the C++ exception is an instance of
(ecss_smp.cpp:573-731, 810-876). -/
def translate (t : Thrown) : Py :=
  match (root :: registered).reverse.find? (t.classes.contains ·) with
  | some n => set (.smp n) t.what
  | none => set (builtin t.std) t.what

/-- `cstring::c_str()` read as a C string. (Exception.cpp:99-101.) -/
def cstr (s : List Nat) : List Nat := s.takeWhile (· ≠ 0)

/-- `_whatStr` (Exception.cpp:99-101), with the bytes of `(` and `): `. -/
def whatOf (name description message : List Nat) : List Nat :=
  cstr (cstr name ++ [40] ++ cstr description ++ [41, 58, 32] ++ cstr message)

/-- An exception of the library of class `n` (Exception.cpp:127-1362, 1374-1633). -/
def throwClass (n : Name) (name description message : List Nat) : Thrown :=
  ⟨[root, n], .other, whatOf name description message⟩

/-- `throwException` and `throwIncompatibleType` (Exception.cpp:1367-1370, 1635-1639): the name is in the
text only. -/
def throwNamed (name description message : List Nat) : Thrown :=
  ⟨[root], .other, whatOf name description message⟩

end Verif.Python.Except
