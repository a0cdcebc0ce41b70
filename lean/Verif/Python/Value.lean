import Verif.Any.Model

/-
Model of the conversions between Python values and `AnySimple`: the two functions `convert` of
src/python/ecss_smp.cpp (426-459 and 461-536), and of the operators of fields and properties that
use them (ISimpleFieldBinding.h, IPropertyBinding.h, IObjectBinding.h).

The casts of pybind11 (version 2.13.6, CMakeLists.txt:292-296) are not part of the repository; they
are modelled from its documentation and source: `castInt`, `castChar`, `castString`, `castFloat`,
`castBool`, and in the other direction `Char8` by Latin-1 and `String8` by UTF-8.
-/
namespace Verif.Python.Value

open Verif.Any

/-- A Python value, as far as `convert` distinguishes them (ecss_smp.cpp:461-536). Simplified: of the
other objects only fields are told apart; objects with `__index__`, `__float__` or `__bool__` and
`bytes` are left out; a `str` has no surrogates. -/
inductive Py
  | none
  | bool (b : Bool)
  | int (v : Int)
  | float (x : Fl)
  | str (s : List Char)
  /-- An `ISimpleField` of the simulator with its current value. (ecss_smp.cpp:466.) -/
  | field (a : Any)
  /-- Any other object, such as a list. (ecss_smp.cpp:503-536.) -/
  | other

/-- How a call ends. (ecss_smp.cpp:426-536.) -/
inductive Res (α : Type)
  | ok (a : α)
  /-- `RuntimeError` or `TypeError` for a value that pybind11 does not convert (`py::cast_error`). -/
  | castError
  /-- `ValueError` for a text that is not one character. -/
  | valueError
  /-- `UnicodeDecodeError`. -/
  | unicodeError
  /-- `TypeError` of a Python operator. -/
  | typeError
  /-- `Smp.InvalidAnyType`. (AnySimple.cpp:92-106.) -/
  | invalidAnyType
  | ub

/-- The first failure ends the call; sequencing of the model. (ecss_smp.cpp:426-536.) -/
def Res.bind {α β : Type} (r : Res α) (f : α → Res β) : Res β :=
  match r with
  | .ok a => f a
  | .castError => .castError
  | .valueError => .valueError
  | .unicodeError => .unicodeError
  | .typeError => .typeError
  | .invalidAnyType => .invalidAnyType
  | .ub => .ub

/-- UTF-8, which CPython uses for `str`. (`handle.cast<std::string>`, ecss_smp.cpp:505.) -/
def encode (s : List Char) : List Nat := (s.flatMap String.utf8EncodeChar).map UInt8.toNat

/-- Decoding of UTF-8. (`py::cast(const char *)`, ecss_smp.cpp:429.) -/
def decode (b : List Nat) : Option (List Char) :=
  ((b.map UInt8.ofNat).toByteArray.utf8Decode?).map Array.toList

/-- Latin-1, which pybind11 uses for a `char`. (ecss_smp.cpp:431.) -/
def latin1 (c : Nat) : List Char := [Char.ofNat c]

/-- The Python form of an `AnySimple`. (`convert`, ecss_smp.cpp:426-459.) -/
def toPy (a : Any) : Res Py :=
  match a.type with
  | .String8 => match getString a with
    | .ok none => .ok .none
    | .ok (some b) => match decode b with
      | some s => .ok (.str s)
      | none => .unicodeError
    | .throw => .invalidAnyType
    | .ub => .ub
  | .Char8 => match getChar a with
    | .ok c => .ok (.str (latin1 c))
    | .throw => .invalidAnyType
    | .ub => .ub
  | .Bool => match getBool a with
    | .ok b => .ok (.bool b)
    | .throw => .invalidAnyType
    | .ub => .ub
  | .Int8 => int .i8
  | .Int16 => int .i16
  | .Int32 => int .i32
  | .Int64 | .DateTime | .Duration => int .i64
  | .UInt8 => int .u8
  | .UInt16 => int .u16
  | .UInt32 => int .u32
  | .UInt64 => int .u64
  | .Float32 => match getF32 id a with
    | .ok x => .ok (.float x)
    | .throw => .invalidAnyType
    | .ub => .ub
  | .Float64 => match getF64 a with
    | .ok x => .ok (.float x)
    | .throw => .invalidAnyType
    | .ub => .ub
  | .None => .ok .none
where
  /-- The cases of the integer kinds. (ecss_smp.cpp:434-451.) -/
  int (t : ITy) : Res Py :=
    match getInt t a with
    | .ok v => .ok (.int v)
    | .throw => .invalidAnyType
    | .ub => .ub

/-- `handle.cast<T>()` of an integer type: an `int` or a `bool` that fits, nothing else. (pybind11;
ecss_smp.cpp:510-527.) -/
def castInt (t : ITy) : Py → Res Int
  | .int v => if t.lowest ≤ v ∧ v ≤ t.max then .ok v else .castError
  | .bool b => .ok (if b then 1 else 0)
  | _ => .castError

/-- `handle.cast<Char8>()`: a `str` of one character below 256. (pybind11; ecss_smp.cpp:507.) -/
def castChar : Py → Res Nat
  | .str [c] => if c.toNat < 256 then .ok c.toNat else .valueError
  | .str _ => .valueError
  | .none => .valueError
  | _ => .castError

/-- `handle.cast<std::string>().c_str()` as a C string: the encoded text up to the first zero byte.
(pybind11; ecss_smp.cpp:505; AnySimple.cpp:141-146.) -/
def castString : Py → Res (List Nat)
  | .str s => .ok ((encode s).takeWhile (· ≠ 0))
  | _ => .castError

/-- `handle.cast<Bool>()`: the truth value of `None`, of a `bool` or of a number. (pybind11;
ecss_smp.cpp:509.) -/
def castBool : Py → Res Bool
  | .none => .ok false
  | .bool b => .ok b
  | .int v => .ok (decide (v ≠ 0))
  | .float x => .ok (decide (x ≠ .fin 0))
  | _ => .castError

/-- `handle.cast<double>()`: a `float`, or an `int` or `bool` rounded to a double; an `int` beyond the
largest double is refused. (pybind11; ecss_smp.cpp:531.) -/
def castFloat : Py → Res Fl
  | .float x => .ok x
  | .int v => if (roundBits 53 v).natAbs < 2 ^ 1024 then .ok (.fin (roundBits 53 v)) else .castError
  | .bool b => .ok (.fin (if b then 1 else 0))
  | _ => .castError

/-- `{kind, value}`: the constructor of `AnySimple`. (ecss_smp.cpp:468-496, 505-531;
AnySimple.cpp:110-638.) -/
def make (narrow : Fl → Fl) (kind : Kind) (arg : Arg) : Res Any :=
  match newValue narrow kind arg with
  | .ok v => .ok ⟨kind, v⟩
  | .throw => .invalidAnyType
  | .ub => .ub

/-- The value of a field, read in its own type. (ecss_smp.cpp:466-496.) -/
def fieldArg (a : Any) : Option Arg :=
  match a.type with
  | .String8 => match getString a with | .ok s => some (.str s) | _ => none
  | .Char8 => match getChar a with | .ok c => some (.char c) | _ => none
  | .Bool => match getBool a with | .ok b => some (.bool b) | _ => none
  | .Int8 => int .i8
  | .Int16 => int .i16
  | .Int32 => int .i32
  | .Int64 | .DateTime | .Duration => int .i64
  | .UInt8 => int .u8
  | .UInt16 => int .u16
  | .UInt32 => int .u32
  | .UInt64 => int .u64
  | .Float32 => match getF32 id a with | .ok x => some (.f32 x) | _ => none
  | .Float64 => match getF64 a with | .ok x => some (.f64 x) | _ => none
  | .None => none
where
  /-- The cases of the integer kinds. (ecss_smp.cpp:474-491.) -/
  int (t : ITy) : Option Arg :=
    match getInt t a with
    | .ok v => some (.int t v)
    | _ => none

/-- The first part of `convert`, for a field. A field without a value gives an empty `AnySimple`.
Simplified: reading a value in its own type does not fail (`fieldArg`; C118_read).
(ecss_smp.cpp:464-499.) -/
def ofField (narrow : Fl → Fl) (a : Any) (kind : Kind) : Res Any :=
  match fieldArg a with
  | some arg => make narrow kind arg
  | none => .ok ⟨.None, .none⟩

/-- The second part of `convert`, for any other Python value. `narrow` is the conversion of a double
to a float. (ecss_smp.cpp:503-536.) -/
def ofValue (narrow : Fl → Fl) (p : Py) (kind : Kind) : Res Any :=
  match kind with
  | .String8 => (castString p).bind fun b => make narrow kind (.str (some b))
  | .Char8 => (castChar p).bind fun c => make narrow kind (.char c)
  | .Bool => (castBool p).bind fun b => make narrow kind (.bool b)
  | .Int8 => int .i8
  | .Int16 => int .i16
  | .Int32 => int .i32
  | .Int64 | .DateTime | .Duration => int .i64
  | .UInt8 => int .u8
  | .UInt16 => int .u16
  | .UInt32 => int .u32
  | .UInt64 => int .u64
  | .Float32 => (castFloat p).bind fun x => make narrow kind (.f32 (narrow x))
  | .Float64 => (castFloat p).bind fun x => make narrow kind (.f64 x)
  | .None => .ok ⟨.None, .none⟩
where
  /-- The cases of the integer kinds. (ecss_smp.cpp:510-527.) -/
  int (t : ITy) : Res Any := (castInt t p).bind fun v => make narrow kind (.int t v)

/-- `convert` of a Python value to an `AnySimple` of a kind. (ecss_smp.cpp:461-536.) -/
def ofPy (narrow : Fl → Fl) (p : Py) (kind : Kind) : Res Any :=
  match p with
  | .field a => ofField narrow a kind
  | p => ofValue narrow p kind

/-- `SetValue` of a simple field: a value of another kind is refused, otherwise it is the new value.
Simplified: the exception is `InvalidFieldValue` in the code. (`ISimpleField::SetValue`,
ISimpleFieldBinding.h:40-46; Field.cpp of the publication, C16.) -/
def store (kind : Kind) (v : Any) : Res Any := if v.type = kind then .ok v else .invalidAnyType

/-- `field.SetValue(p)`, and `component.field = p` for another object than the field itself.
(ISimpleFieldBinding.h:40-46; IObjectBinding.h:26-51.) -/
def assign (narrow : Fl → Fl) (a : Any) (p : Py) : Res Any :=
  (ofPy narrow p a.type).bind (store a.type)

/-- `field + n` for an `int`: the Python sum. (ISimpleFieldBinding.h:83-86.) Simplified: of the sums
only those of integers and booleans are modelled. -/
def plus (a : Any) (n : Int) : Res Py :=
  (toPy a).bind fun p => match p with
    | .int v => .ok (.int (v + n))
    | .bool b => .ok (.int ((if b then 1 else 0) + n))
    | _ => .typeError

/-- `component.field += n`: the field defines no `__iadd__`, so Python adds and assigns.
(ISimpleFieldBinding.h:83-86; IObjectBinding.h:66-73.) -/
def increment (narrow : Fl → Fl) (a : Any) (n : Int) : Res Any :=
  (plus a n).bind (assign narrow a)

/-- `bool(field)`, `if field:` (ISimpleFieldBinding.h:48-51; IPropertyBinding.h:50-53.) -/
def truth (a : Any) : Res Bool := (toPy a).bind castBool

end Verif.Python.Value
