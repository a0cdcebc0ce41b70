/-
Model of `src/Smp/AnySimple.cpp` and of `in_range` in `src/Smp/utility.h`.

Integers are mathematical integers together with their C++ type; every conversion between
integer types wraps as the machine does, so that a missing range check shows. Floating
point values are exact rationals, infinities and NaN; the rounding of an integer to a
binary format is modelled here, that of a double to a float is the parameter `narrow`, which is
`Float.narrow` (Mem/Float.lean) in the theorems of Mem/FloatProps.lean.
-/
namespace Verif.Any

/-- The C++ integer types of the overloads of `SetValue` and of the conversion operators.
(AnySimple.cpp:158-597, 691-965.) -/
inductive ITy
  | u8 | u16 | u32 | u64 | i8 | i16 | i32 | i64
  deriving DecidableEq, Repr

/-- The number of bits of the type; the types are those of the SMP standard (used in
AnySimple.cpp:158-597, 691-965). -/
def ITy.width : ITy → Nat
  | .u8 | .i8 => 8
  | .u16 | .i16 => 16
  | .u32 | .i32 => 32
  | .u64 | .i64 => 64

/-- The type is signed (`std::is_signed`, utility.h:67-89). -/
def ITy.signed : ITy → Bool
  | .u8 | .u16 | .u32 | .u64 => false
  | .i8 | .i16 | .i32 | .i64 => true

/-- `std::numeric_limits<T>::lowest()`. (utility.h:91-108.) -/
def ITy.lowest (t : ITy) : Int := if t.signed then -(2 ^ (t.width - 1)) else 0
/-- `std::numeric_limits<T>::max()`. (utility.h:91-108.) -/
def ITy.max (t : ITy) : Int := if t.signed then 2 ^ (t.width - 1) - 1 else 2 ^ t.width - 1

/-- Conversion of an integer to the type: modulo `2 ^ width`. (`static_cast<T>`, AnySimple.cpp:96,
and the implicit conversions of lines 158-597.) -/
def wrap (t : ITy) (v : Int) : Int :=
  if t.signed then Int.bmod v (2 ^ t.width) else v % (2 ^ t.width : Nat)

/-- Conversion to the unsigned type of the same width. (`std::make_unsigned`, utility.h:67-89.) -/
def toUnsigned (t : ITy) (v : Int) : Int := v % (2 ^ t.width : Nat)

/-- `cmp_less` (utility.h:67-89) of `t : T` and `u : U`. -/
def cmpLess (T U : ITy) (t u : Int) : Bool :=
  if T.signed = U.signed then t < u
  else if T.signed then (if t < 0 then true else toUnsigned T t < u)
  else (if u < 0 then false else t < toUnsigned U u)

/-- `in_range<U>(t)` (utility.h:91-108). -/
def inRange (U T : ITy) (t : Int) : Bool :=
  !cmpLess T U t U.lowest && !cmpLess U T U.max t

/-- `Smp::PrimitiveTypeKind`. The values are those of `src/Smp/StreamOperators.cpp:145-177`; the
header is not part of the repository. -/
inductive Kind
  | None | Char8 | Bool | Int8 | Int16 | Int32 | Int64 | UInt8 | UInt16 | UInt32 | UInt64
  | Float32 | Float64 | Duration | DateTime | String8
  deriving DecidableEq, Repr

/-- The type of the union member of an integer kind. (AnySimple.cpp:158-597.) -/
def Kind.int : Kind → Option ITy
  | .Int8 => some .i8 | .Int16 => some .i16 | .Int32 => some .i32 | .Int64 => some .i64
  | .UInt8 => some .u8 | .UInt16 => some .u16 | .UInt32 => some .u32 | .UInt64 => some .u64
  | .Duration => some .i64 | .DateTime => some .i64
  | _ => none

/-- Floating point values. Simplified: zero has no sign, a NaN no payload (AnySimple.cpp:599-638,
967-1029). -/
inductive Fl
  | fin (q : Rat)
  | inf (negative : Bool)
  | nan
  deriving DecidableEq

/-- The union: the member of the current kind. A string is `none` for a null pointer. (`value` of
AnySimple.cpp:37; its header is not part of the repository.) -/
inductive Val
  | none
  | bool (b : Bool)
  | char (c : Nat)
  | int (v : Int)
  | float (x : Fl)
  | str (s : Option (List Nat))
  deriving DecidableEq

/-- `AnySimple`. (`type` and `value`, AnySimple.cpp:37.) -/
structure Any where
  type : Kind
  value : Val
  deriving DecidableEq

/-- The result of a call: a value, an `InvalidAnyType` exception, or undefined behaviour.
(`throwInvalidAnyType`, AnySimple.cpp:92-106, 119.) -/
inductive Out (α : Type)
  | ok (a : α)
  | throw
  | ub
  deriving DecidableEq

/-- A function applied to the value of a result; of the model only (sequencing in
AnySimple.cpp:110-1029). -/
def Out.map {α β} (f : α → β) : Out α → Out β
  | .ok a => .ok (f a)
  | .throw => .throw
  | .ub => .ub

/-- How an integer is converted: by implicit conversion, by `convertIntegral`, by implicit
conversion to a floating point type with that precision, by `convertFloat`, or not.
(AnySimple.cpp:90-108, 158-597, 691-1029.) -/
inductive Conv
  | direct | checked | float (precision : Nat) | floatChecked (precision : Nat) | reject
  deriving DecidableEq

/-- How `SetValue(kind, newValue)` converts a value of type `UInt8` (AnySimple.cpp:158-206). -/
def setUInt8 : Kind → Conv
  | .UInt8 | .UInt16 | .UInt32 | .UInt64 | .Int16 | .Int32 | .Int64 | .Duration | .DateTime => .direct
  | .Int8 => .checked
  | .Float32 => .float 24
  | .Float64 => .float 53
  | _ => .reject

/-- How `SetValue(kind, newValue)` converts a value of type `UInt16` (AnySimple.cpp:208-259). -/
def setUInt16 : Kind → Conv
  | .UInt8 | .Int8 | .Int16 => .checked
  | .UInt16 | .UInt32 | .UInt64 | .Int32 | .Int64 | .Duration | .DateTime => .direct
  | .Float32 => .float 24
  | .Float64 => .float 53
  | _ => .reject

/-- How `SetValue(kind, newValue)` converts a value of type `UInt32` (AnySimple.cpp:261-315). -/
def setUInt32 : Kind → Conv
  | .UInt8 | .UInt16 | .Int8 | .Int16 | .Int32 => .checked
  | .UInt32 | .UInt64 | .Int64 | .Duration | .DateTime => .direct
  | .Float32 => .floatChecked 24
  | .Float64 => .float 53
  | _ => .reject

/-- How `SetValue(kind, newValue)` converts a value of type `UInt64` (AnySimple.cpp:317-376). -/
def setUInt64 : Kind → Conv
  | .UInt8 | .UInt16 | .UInt32 | .Int8 | .Int16 | .Int32 | .Int64 | .DateTime | .Duration => .checked
  | .UInt64 => .direct
  | .Float32 => .floatChecked 24
  | .Float64 => .floatChecked 53
  | _ => .reject

/-- How `SetValue(kind, newValue)` converts a value of type `Int8` (AnySimple.cpp:378-429). -/
def setInt8 : Kind → Conv
  | .UInt8 | .UInt16 | .UInt32 | .UInt64 => .checked
  | .Int8 | .Int16 | .Int32 | .Int64 | .Duration | .DateTime => .direct
  | .Float32 => .float 24
  | .Float64 => .float 53
  | _ => .reject

/-- How `SetValue(kind, newValue)` converts a value of type `Int16` (AnySimple.cpp:431-483). -/
def setInt16 : Kind → Conv
  | .UInt8 | .UInt16 | .UInt32 | .UInt64 | .Int8 => .checked
  | .Int16 | .Int32 | .Int64 | .Duration | .DateTime => .direct
  | .Float32 => .float 24
  | .Float64 => .float 53
  | _ => .reject

/-- How `SetValue(kind, newValue)` converts a value of type `Int32` (AnySimple.cpp:485-539). -/
def setInt32 : Kind → Conv
  | .UInt8 | .UInt16 | .UInt32 | .UInt64 | .Int8 | .Int16 => .checked
  | .Int32 | .Int64 | .Duration | .DateTime => .direct
  | .Float32 => .floatChecked 24
  | .Float64 => .float 53
  | _ => .reject

/-- How `SetValue(kind, newValue)` converts a value of type `Int64` (AnySimple.cpp:541-597). -/
def setInt64 : Kind → Conv
  | .UInt8 | .UInt16 | .UInt32 | .UInt64 | .Int8 | .Int16 | .Int32 => .checked
  | .Int64 | .Duration | .DateTime => .direct
  | .Float32 => .floatChecked 24
  | .Float64 => .floatChecked 53
  | _ => .reject

/-- How the stored value is converted when read as `UInt8` (AnySimple.cpp:691-726). -/
def getUInt8 : Kind → Conv
  | .Int8 | .Int16 | .Int32 | .Int64 | .DateTime | .Duration | .UInt16 | .UInt32 | .UInt64 => .checked
  | .UInt8 => .direct
  | _ => .reject

/-- How the stored value is converted when read as `UInt16` (AnySimple.cpp:728-762). -/
def getUInt16 : Kind → Conv
  | .Int8 | .Int16 | .Int32 | .Int64 | .DateTime | .Duration | .UInt32 | .UInt64 => .checked
  | .UInt8 | .UInt16 => .direct
  | _ => .reject

/-- How the stored value is converted when read as `UInt32` (AnySimple.cpp:764-797). -/
def getUInt32 : Kind → Conv
  | .Int8 | .Int16 | .Int32 | .Int64 | .DateTime | .Duration | .UInt64 => .checked
  | .UInt8 | .UInt16 | .UInt32 => .direct
  | _ => .reject

/-- How the stored value is converted when read as `UInt64` (AnySimple.cpp:799-831). -/
def getUInt64 : Kind → Conv
  | .Int8 | .Int16 | .Int32 | .Int64 | .DateTime | .Duration => .checked
  | .UInt8 | .UInt16 | .UInt32 | .UInt64 => .direct
  | _ => .reject

/-- How the stored value is converted when read as `Int8` (AnySimple.cpp:833-868). -/
def getInt8 : Kind → Conv
  | .Int8 => .direct
  | .Int16 | .Int32 | .Int64 | .DateTime | .Duration | .UInt8 | .UInt16 | .UInt32 | .UInt64 => .checked
  | _ => .reject

/-- How the stored value is converted when read as `Int16` (AnySimple.cpp:870-903). -/
def getInt16 : Kind → Conv
  | .Int8 | .Int16 | .UInt8 => .direct
  | .Int32 | .Int64 | .DateTime | .Duration | .UInt16 | .UInt32 | .UInt64 => .checked
  | _ => .reject

/-- How the stored value is converted when read as `Int32` (AnySimple.cpp:905-936). -/
def getInt32 : Kind → Conv
  | .Int8 | .Int16 | .Int32 | .UInt8 | .UInt16 => .direct
  | .Int64 | .DateTime | .Duration | .UInt32 | .UInt64 => .checked
  | _ => .reject

/-- How the stored value is converted when read as `Int64` (AnySimple.cpp:938-965). -/
def getInt64 : Kind → Conv
  | .Int8 | .Int16 | .Int32 | .Int64 | .Duration | .DateTime | .UInt8 | .UInt16 | .UInt32 => .direct
  | .UInt64 => .checked
  | _ => .reject

/-- How the stored value is converted when read as `Float32` (AnySimple.cpp:967-999). -/
def getFloat32 : Kind → Conv
  | .UInt8 | .UInt16 | .Int8 | .Int16 => .float 24
  | .Int32 | .Int64 | .UInt32 | .UInt64 => .floatChecked 24
  | _ => .reject

/-- How the stored value is converted when read as `Float64` (AnySimple.cpp:1001-1029). -/
def getFloat64 : Kind → Conv
  | .UInt8 | .UInt16 | .UInt32 | .Int8 | .Int16 | .Int32 => .float 53
  | .Int64 | .UInt64 => .floatChecked 53
  | _ => .reject

/-- The overload of `SetValue` for an integer type. (AnySimple.cpp:158-597.) -/
def setTable : ITy → Kind → Conv
  | .u8 => setUInt8 | .u16 => setUInt16 | .u32 => setUInt32 | .u64 => setUInt64
  | .i8 => setInt8 | .i16 => setInt16 | .i32 => setInt32 | .i64 => setInt64

/-- The conversion operator to an integer type. (AnySimple.cpp:691-965.) -/
def getTable : ITy → Kind → Conv
  | .u8 => getUInt8 | .u16 => getUInt16 | .u32 => getUInt32 | .u64 => getUInt64
  | .i8 => getInt8 | .i16 => getInt16 | .i32 => getInt32 | .i64 => getInt64

/-- `convertIntegral<T>(U newValue)` (AnySimple.cpp:90-97). -/
def convertIntegral (T U : ITy) (v : Int) : Out Int :=
  if inRange T U v then .ok (wrap T v) else .throw

/-- Rounding of an integer to a binary floating point format with `p` significant bits, to
nearest, ties to even. (Integers of 64 bits are within the exponent range of both formats.) (The
conversions to `Float32` and `Float64` of AnySimple.cpp:99-108, 158-597, 967-1029.) -/
def roundBits (p : Nat) (v : Int) : Int :=
  let n := v.natAbs
  if n < 2 ^ p then v
  else
    let e := n.log2 + 1 - p
    let q := n / 2 ^ e
    let r := n % 2 ^ e
    let q' := if r > 2 ^ (e - 1) ∨ (r = 2 ^ (e - 1) ∧ q % 2 = 1) then q + 1 else q
    (if v < 0 then -1 else 1) * (q' * 2 ^ e : Nat)

/-- `convertFloat<T>(U newValue)` for an integer type `U` (AnySimple.cpp:99-108): epsilon of
an integer type is 0, so the value is rejected iff converting to floating point and back
changes it; converting back a value outside `U` is undefined. -/
def convertFloatInt (p : Nat) (U : ITy) (v : Int) : Out Int :=
  let f := roundBits p v
  if U.lowest ≤ f ∧ f ≤ U.max then (if v - f ≠ 0 then .throw else .ok f) else .ub

/-- Convert an integer of type `U` as told. (AnySimple.cpp:158-597, 691-1029.) -/
def conv (U : ITy) (dest : Option ITy) (v : Int) : Conv → Out Val
  | .direct => match dest with
    | some T => .ok (.int (wrap T v))
    | none => .throw
  | .checked => match dest with
    | some T => (convertIntegral T U v).map .int
    | none => .throw
  | .float p => .ok (.float (.fin (roundBits p v)))
  | .floatChecked p => (convertFloatInt p U v).map fun (f : Int) => .float (.fin f)
  | .reject => .throw

/-- `_releaseContent` (AnySimple.cpp:27-32). -/
def release (a : Any) : Any := if a.type = .String8 then { a with value := .str none } else a

/-- The arguments of the overloads of `SetValue`. (AnySimple.cpp:110-638.) -/
inductive Arg
  | bool (b : Bool)
  | char (c : Nat)
  | str (s : Option (List Nat))
  | int (t : ITy) (v : Int)
  | f32 (x : Fl)
  | f64 (x : Fl)

/-- `a - b` and `fabs`, compared with a bound; a comparison with NaN is false. The difference is
exact (the rounding of the subtraction is not modelled). (AnySimple.cpp:1043-1099.) -/
def distLe (a b : Fl) (eps : Rat) : Bool :=
  match a, b with
  | .fin p, .fin q => decide ((if p - q < 0 then -(p - q) else p - q) ≤ eps)
  | _, _ => false

/-- `fabs(a - b) > eps`. (AnySimple.cpp:99-108.) -/
def distGt (a b : Fl) (eps : Rat) : Bool :=
  match a, b with
  | .fin p, .fin q => decide (eps < (if p - q < 0 then -(p - q) else p - q))
  | .nan, _ => false
  | _, .nan => false
  | .inf s, .inf t => s != t
  | _, _ => true

/-- `std::numeric_limits<Float32>::epsilon()`, 2^-23 (AnySimple.cpp:1043-1099). -/
def eps32 : Rat := (1 : Rat) / 8388608
/-- `std::numeric_limits<Float64>::epsilon()`, 2^-52 (AnySimple.cpp:99-108, 1043-1099). -/
def eps64 : Rat := (1 : Rat) / 4503599627370496

/-- `convertFloat<Float32>(Float64)` (AnySimple.cpp:99-108). -/
def convertFloat64 (narrow : Fl → Fl) (x : Fl) : Out Fl :=
  if distGt x (narrow x) eps64 then .throw else .ok (narrow x)

/-- The new value, or the exception (AnySimple.cpp:110-638). -/
def newValue (narrow : Fl → Fl) (kind : Kind) : Arg → Out Val
  | .bool b => if kind = .Bool then .ok (.bool b) else .throw
  | .char c => if kind = .Char8 then .ok (.char c) else .throw
  | .str s => if kind = .String8 then .ok (.str s) else .throw
  | .int t v => conv t kind.int v (setTable t kind)
  | .f32 x => match kind with
    | .Float32 | .Float64 => .ok (.float x)
    | _ => .throw
  | .f64 x => match kind with
    | .Float32 => (convertFloat64 narrow x).map .float
    | .Float64 => .ok (.float x)
    | _ => .throw

/-- `SetValue` (AnySimple.cpp:110-638): the old content is released first, the kind is
assigned last. The second component tells whether it threw. -/
def setValue (narrow : Fl → Fl) (a : Any) (kind : Kind) (arg : Arg) : Out (Any × Bool) :=
  let a1 := release a
  match newValue narrow kind arg with
  | .ok v => .ok ({ type := kind, value := v }, false)
  | .throw => .ok (a1, true)
  | .ub => .ub

/-- `AnySimple(kind)` (AnySimple.cpp:37-39): all bits zero. -/
def ofKind (k : Kind) : Any :=
  { type := k
    value := match k with
      | .None => .none
      | .Bool => .bool false
      | .Char8 => .char 0
      | .Float32 | .Float64 => .float (.fin 0)
      | .String8 => .str none
      | _ => .int 0 }

/-- Read as an integer type (AnySimple.cpp:691-965). -/
def getInt (T : ITy) (a : Any) : Out Int :=
  match a.type.int, a.value with
  | some U, .int v => match conv U (some T) v (getTable T a.type) with
    | .ok (.int w) => .ok w
    | .ub => .ub
    | _ => .throw
  | _, _ => .throw

/-- Read as `Bool` (AnySimple.cpp:640-673): floating point kinds and `None` are rejected; a
string is true iff not a null pointer. -/
def getBool (a : Any) : Out Bool :=
  match a.value with
  | .bool b => .ok b
  | .int v => .ok (v ≠ 0)
  | .char c => .ok (c ≠ 0)
  | .str s => .ok s.isSome
  | _ => .throw

/-- Read as `Char8` (AnySimple.cpp:675-681). -/
def getChar (a : Any) : Out Nat :=
  match a.type, a.value with
  | .Char8, .char c => .ok c
  | _, _ => .throw

/-- Read as `String8` (AnySimple.cpp:683-689). -/
def getString (a : Any) : Out (Option (List Nat)) :=
  match a.type, a.value with
  | .String8, .str s => .ok s
  | _, _ => .throw

/-- Convert an integer for a floating point reader. (AnySimple.cpp:967-1029.) -/
def convFl (a : Any) (c : Conv) : Out Fl :=
  match a.type.int, a.value with
  | some U, .int v => match conv U none v c with
    | .ok (.float x) => .ok x
    | .ub => .ub
    | _ => .throw
  | _, _ => .throw

/-- Read as `Float32` (AnySimple.cpp:967-999). -/
def getF32 (narrow : Fl → Fl) (a : Any) : Out Fl :=
  match a.type, a.value with
  | .Float32, .float x => .ok x
  | .Float64, .float x => convertFloat64 narrow x
  | _, _ => convFl a (getFloat32 a.type)

/-- Read as `Float64` (AnySimple.cpp:1001-1029). -/
def getF64 (a : Any) : Out Fl :=
  match a.type, a.value with
  | .Float32, .float x => .ok x
  | .Float64, .float x => .ok x
  | _, _ => convFl a (getFloat64 a.type)

/-- An exception makes two values different. (AnySimple.cpp:1043-1099.) -/
def orFalse {α} (o : Out α) (f : α → Bool) : Out Bool :=
  match o with
  | .ok x => .ok (f x)
  | .throw => .ok false
  | .ub => .ub

/-- `operator==` (AnySimple.cpp:1043-1099). -/
def eq (narrow : Fl → Fl) (a b : Any) : Out Bool :=
  match a.type with
  | .None => .ok true
  | .Bool => orFalse (getBool b) fun x => a.value = .bool x
  | .UInt8 => orFalse (getInt .u8 b) fun x => a.value = .int x
  | .UInt16 => orFalse (getInt .u16 b) fun x => a.value = .int x
  | .UInt32 => orFalse (getInt .u32 b) fun x => a.value = .int x
  | .UInt64 => orFalse (getInt .u64 b) fun x => a.value = .int x
  | .Int8 => orFalse (getInt .i8 b) fun x => a.value = .int x
  | .Int16 => orFalse (getInt .i16 b) fun x => a.value = .int x
  | .Int32 => orFalse (getInt .i32 b) fun x => a.value = .int x
  | .Int64 => orFalse (getInt .i64 b) fun x => a.value = .int x
  | .Duration => orFalse (getInt .i64 b) fun x => a.value = .int x
  | .DateTime => orFalse (getInt .i64 b) fun x => a.value = .int x
  | .Float32 => orFalse (getF32 narrow b) fun x =>
      match a.value with
      | .float y => distLe y x eps32
      | _ => false
  | .Float64 => orFalse (getF64 b) fun x =>
      match a.value with
      | .float y => distLe y x eps64
      | _ => false
  | .Char8 => orFalse (getChar b) fun x => a.value = .char x
  | .String8 => orFalse (getString b) fun x => a.value = .str x

/-- `operator=(const AnySimple &)` and the copy constructor (AnySimple.cpp:41-43, 51-73): a
copy of the string, the same value otherwise. -/
def copyOf (other : Any) : Any := other

/-- `operator=(AnySimple &&)` of another object (AnySimple.cpp:75-86): the new value of the
target and of the source. -/
def moveAssign (other : Any) : Any × Any := (other, { type := .None, value := .none })

/-- The same with source and target the same object. (AnySimple.cpp:75-86.) -/
def selfMove (_ : Any) : Any := { type := .None, value := .none }

end Verif.Any
