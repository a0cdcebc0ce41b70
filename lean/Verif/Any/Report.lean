import Verif.Any.Props

/-!
Model of what the exception `InvalidAnyType` of `AnySimple` carries
(`src/Smp/AnySimple.cpp`, `src/Xsmp/Exception.cpp:1044-1071`): the same functions as in Any/Model.lean
with the two kinds of the exception instead of the mere fact that it is raised.
-/
namespace Verif.Any

/-- `InvalidAnyType`: what `GetExpectedType` and `GetInvalidType` return (Exception.cpp:1060-1066);
the message is `The AnySimple type '<invalid>' is invalid: expected '<expected>'.` (lines 1052-1053).
-/
structure Report where
  expected : Kind
  invalid : Kind
  deriving DecidableEq, Repr

/-- The result of a call, with the data of the exception. (`throwInvalidAnyType`,
Exception.cpp:1562-1566; called in AnySimple.cpp:90-1039.) -/
inductive OutE (α : Type)
  | ok (a : α)
  | bad (r : Report)
  | ub
  deriving DecidableEq

/-- `throwInvalidAnyType(nullptr, expectedType, invalidType)` (Exception.cpp:1562-1566). -/
def throwInvalidAnyType {α} (expectedType invalidType : Kind) : OutE α :=
  .bad ⟨expectedType, invalidType⟩

/-- The result without the data; of the model only (Any/Model.lean, AnySimple.cpp:90-1039). -/
def OutE.forget {α} : OutE α → Out α
  | .ok a => .ok a
  | .bad _ => .throw
  | .ub => .ub

/-- A function applied to the value of a result; of the model only (sequencing in
AnySimple.cpp:110-1029). -/
def OutE.map {α β} (f : α → β) : OutE α → OutE β
  | .ok a => .ok (f a)
  | .bad r => .bad r
  | .ub => .ub

/-- `convertIntegral<T>(newValue, kind, expected)` (AnySimple.cpp:90-97). -/
def convertIntegralE (T U : ITy) (v : Int) (kind expected : Kind) : OutE Int :=
  if inRange T U v then .ok (wrap T v) else throwInvalidAnyType expected kind

/-- `convertFloat<T>(newValue, kind, expected)` of an integer (AnySimple.cpp:99-108). -/
def convertFloatIntE (p : Nat) (U : ITy) (v : Int) (kind expected : Kind) : OutE Int :=
  if U.lowest ≤ roundBits p v ∧ roundBits p v ≤ U.max then
    (if v - roundBits p v ≠ 0 then throwInvalidAnyType expected kind else .ok (roundBits p v))
  else .ub

/-- `convertFloat<Float32>(newValue, kind, expected)` of a `Float64` (AnySimple.cpp:99-108). -/
def convertFloat64E (narrow : Fl → Fl) (x : Fl) (kind expected : Kind) : OutE Fl :=
  if distGt x (narrow x) eps64 then throwInvalidAnyType expected kind else .ok (narrow x)

/-- Convert an integer of type `U` as told. In `SetValue` as in the conversion operators the second
argument of `convertIntegral` and `convertFloat` and the first kind given to `throwInvalidAnyType` are
the kind of the `AnySimple` (`k`), the other one that of the C++ type of the overload or operator
(`p`). (AnySimple.cpp:158-597, 691-1029.) -/
def convE (U : ITy) (dest : Option ITy) (v : Int) (k p : Kind) : Conv → OutE Val
  | .direct => match dest with
    | some T => .ok (.int (wrap T v))
    | none => throwInvalidAnyType k p
  | .checked => match dest with
    | some T => (convertIntegralE T U v k p).map .int
    | none => throwInvalidAnyType k p
  | .float b => .ok (.float (.fin (roundBits b v)))
  | .floatChecked b => (convertFloatIntE b U v k p).map fun (f : Int) => .float (.fin f)
  | .reject => throwInvalidAnyType k p

/-- The kind named in an overload of `SetValue` for an integer type. (AnySimple.cpp:158-597.) -/
def ITy.named : ITy → Kind
  | .u8 => .UInt8 | .u16 => .UInt16 | .u32 => .UInt32 | .u64 => .UInt64
  | .i8 => .Int8 | .i16 => .Int16 | .i32 => .Int32 | .i64 => .Int64

/-- The new value, or the exception (AnySimple.cpp:110-638). -/
def newValueE (narrow : Fl → Fl) (kind : Kind) : Arg → OutE Val
  | .bool b => if kind = .Bool then .ok (.bool b) else throwInvalidAnyType kind .Bool
  | .char c => if kind = .Char8 then .ok (.char c) else throwInvalidAnyType kind .Char8
  | .str s => if kind = .String8 then .ok (.str s) else throwInvalidAnyType kind .String8
  | .int t v => convE t kind.int v kind t.named (setTable t kind)
  | .f32 x => match kind with
    | .Float32 | .Float64 => .ok (.float x)
    | _ => throwInvalidAnyType kind .Float32
  | .f64 x => match kind with
    | .Float32 => (convertFloat64E narrow x kind .Float64).map .float
    | .Float64 => .ok (.float x)
    | _ => throwInvalidAnyType kind .Float64

/-- `SetValue` (AnySimple.cpp:110-638): the AnySimple afterwards, and the data of the exception. -/
def setValueE (narrow : Fl → Fl) (a : Any) (kind : Kind) (arg : Arg) : OutE (Any × Option Report) :=
  match newValueE narrow kind arg with
  | .ok v => .ok ({ type := kind, value := v }, none)
  | .bad r => .ok (release a, some r)
  | .ub => .ub

/-- The conversion operators, and `MoveString`. (AnySimple.cpp:640-1039.) -/
inductive Reader
  | bool | char | str | move | int (t : ITy) | f32 | f64
  deriving DecidableEq, Repr

/-- Read as an integer type (AnySimple.cpp:691-965). -/
def getIntE (T : ITy) (a : Any) : OutE Int :=
  match a.type.int, a.value with
  | some U, .int v => match convE U (some T) v a.type T.named (getTable T a.type) with
    | .ok (.int w) => .ok w
    | .ub => .ub
    | .bad r => .bad r
    | .ok _ => throwInvalidAnyType a.type T.named
  | _, _ => throwInvalidAnyType a.type T.named

/-- Read as `Bool` (AnySimple.cpp:640-673). -/
def getBoolE (a : Any) : OutE Bool :=
  match a.value with
  | .bool b => .ok b
  | .int v => .ok (v ≠ 0)
  | .char c => .ok (c ≠ 0)
  | .str s => .ok s.isSome
  | _ => throwInvalidAnyType a.type .Bool

/-- Read as `Char8` (AnySimple.cpp:675-681). -/
def getCharE (a : Any) : OutE Nat :=
  match a.type, a.value with
  | .Char8, .char c => .ok c
  | _, _ => throwInvalidAnyType a.type .Char8

/-- Read as `String8`, and `MoveString` (AnySimple.cpp:683-689, 1031-1039). -/
def getStringE (a : Any) : OutE (Option (List Nat)) :=
  match a.type, a.value with
  | .String8, .str s => .ok s
  | _, _ => throwInvalidAnyType a.type .String8

/-- Convert an integer for a floating point reader. (AnySimple.cpp:967-1029.) -/
def convFlE (a : Any) (p : Kind) (c : Conv) : OutE Fl :=
  match a.type.int, a.value with
  | some U, .int v => match convE U none v a.type p c with
    | .ok (.float x) => .ok x
    | .ub => .ub
    | .bad r => .bad r
    | .ok _ => throwInvalidAnyType a.type p
  | _, _ => throwInvalidAnyType a.type p

/-- Read as `Float32` (AnySimple.cpp:967-999). -/
def getF32E (narrow : Fl → Fl) (a : Any) : OutE Fl :=
  match a.type, a.value with
  | .Float32, .float x => .ok x
  | .Float64, .float x => convertFloat64E narrow x a.type .Float32
  | _, _ => convFlE a .Float32 (getFloat32 a.type)

/-- Read as `Float64` (AnySimple.cpp:1001-1029). -/
def getF64E (a : Any) : OutE Fl :=
  match a.type, a.value with
  | .Float32, .float x => .ok x
  | .Float64, .float x => .ok x
  | _, _ => convFlE a .Float64 (getFloat64 a.type)

/-- Any of the conversion operators, or `MoveString`: what it raises, `none` if it returns or if its
behaviour is undefined. (AnySimple.cpp:640-1039.) -/
def raised {α} : OutE α → Option Report
  | .bad r => some r
  | _ => none

/-- Any of the conversion operators, or `MoveString`: what it raises. (AnySimple.cpp:640-1039.) -/
def readRaises (narrow : Fl → Fl) (a : Any) : Reader → Option Report
  | .bool => raised (getBoolE a)
  | .char => raised (getCharE a)
  | .str => raised (getStringE a)
  | .move => raised (getStringE a)
  | .int t => raised (getIntE t a)
  | .f32 => raised (getF32E narrow a)
  | .f64 => raised (getF64E a)

/-- What `EventSink<void>::Notify` raises (EventSink.cpp:60-66). -/
def notifyVoid (value : Any) : Option Report :=
  if value.type ≠ .None then raised (α := Unit) (throwInvalidAnyType value.type .None) else none

end Verif.Any
