import Verif.Field.Arrays
import Verif.Any.Report

/-!
What the exceptions of fields carry when a value, an index or a number of values is refused
(`src/Xsmp/Exception.cpp:700-808`; raised in `include/Xsmp/Field.h:586-807` and
`src/Xsmp/Publication/Field.cpp:226-631, 744-799`): the calls of Field/Arrays.lean and Field/Net.lean
with the data of the exception they raise.
-/
namespace Verif.Raise
open Verif.Any (Kind Fl Val Any Report OutE)
open Verif.Field (Arr Cell)

/-- `static_cast<Int64>` of a `UInt64` (Exception.cpp:1483-1508). -/
def toInt64 (n : Nat) : Int := (BitVec.ofNat 64 n).toInt

/-- The exceptions of fields, with what their accessors return. -/
inductive FEx
  /-- `InvalidArrayIndex` (Exception.cpp:703-729): `GetArraySize`, `GetInvalidIndex` -/
  | arrayIndex (size index : Int)
  /-- `InvalidArraySize` (Exception.cpp:783-808): `GetArraySize`, `GetInvalidSize` -/
  | arraySize (size given : Int)
  /-- `InvalidArrayValue` (Exception.cpp:755-781): `GetInvalidValueIndex`, `GetInvalidValue` -/
  | arrayValue (index : Int) (value : Any)
  /-- `InvalidFieldValue` (Exception.cpp:731-753): `GetInvalidFieldValue` -/
  | fieldValue (value : Any)
  /-- `InvalidAnyType` of the conversion of the value (AnySimple.cpp:640-1039) -/
  | anyType (r : Report)
  /-- `InvalidPrimitiveType` (Publication/Field.cpp:330, 543, 797): `GetType` -/
  | primitive (kind : Kind)
  /-- undefined behaviour -/
  | ub
  deriving DecidableEq

/-- An exception whose message shows the value (Exception.cpp:740, 764-765): a null string is read
(StreamOperators.cpp:243-244). -/
def refuse (a : Any) (e : FEx) : FEx := if a.value = .str none then .ub else e

/-- The reader of a value as the C++ type of a primitive kind, with the data of its exception
(AnySimpleConverter.h:27-76, Publication/Field.cpp:553-601, 746-795). No C++ type has the kind
`None`. -/
def readerOf : Kind → Any.Reader
  | .None | .Int64 | .Duration | .DateTime => .int .i64
  | .Bool => .bool
  | .Char8 => .char
  | .Float32 => .f32
  | .Float64 => .f64
  | .String8 => .str
  | .Int8 => .int .i8
  | .Int16 => .int .i16
  | .Int32 => .int .i32
  | .UInt8 => .int .u8
  | .UInt16 => .int .u16
  | .UInt32 => .int .u32
  | .UInt64 => .int .u64

/-- What an outcome raises; of the model only (AnySimple.cpp:640-1039). -/
def ofOut {α} : OutE α → Option FEx
  | .ok _ => none
  | .bad r => some (.anyType r)
  | .ub => some .ub

/-- What the conversion of a value raises (AnySimple.cpp:640-1039). -/
def convRaises (narrow : Fl → Fl) (k : Kind) (a : Any) : Option FEx :=
  match readerOf k with
  | .bool => ofOut (Any.getBoolE a)
  | .char => ofOut (Any.getCharE a)
  | .str | .move => ofOut (Any.getStringE a)
  | .int t => ofOut (Any.getIntE t a)
  | .f32 => ofOut (Any.getF32E narrow a)
  | .f64 => ofOut (Any.getF64E a)

/-- `SetValue(index, value)` (Field.h:774-782, Publication/Field.cpp:547-607, 334-382). -/
def itemSetRaises (narrow : Fl → Fl) (c : Arr) (k : Nat) (a : Any) : Option FEx :=
  if c.values.length ≤ k then some (.arrayIndex (toInt64 c.values.length) (toInt64 k))
  else match c.style with
    | .plain =>
      if a.type ≠ c.kind then some (refuse a (.fieldValue a)) else convRaises narrow c.kind a
    | .published =>
      if c.kind = .None then some (refuse a (.arrayValue (toInt64 k) a))
      else if c.kind = .String8 ∧ c.len = none then some .ub
      else convRaises narrow c.kind a
    | .anonymous =>
      if c.kind = .None ∨ c.kind = .String8 then some (refuse a (.arrayValue (toInt64 k) a))
      else convRaises narrow c.kind a

/-- The loop of `SetValues` (Field.h:801-806, Publication/Field.cpp:625-630, 399-401): the kinds and
the size of the array do not change. -/
def itemsSetRaises (narrow : Fl → Fl) (c : Arr) : Nat → List Any → Option FEx
  | _, [] => none
  | k, a :: as =>
    if c.style ≠ .anonymous ∧ a.type ≠ c.kind then some (refuse a (.arrayValue (toInt64 k) a))
    else match itemSetRaises narrow c k a with
      | some e => some e
      | none => itemsSetRaises narrow c (k + 1) as

/-- `SetValues(length, values)` (Field.h:796-807, Publication/Field.cpp:619-631, 394-402). -/
def allSetRaises (narrow : Fl → Fl) (c : Arr) (as : List Any) : Option FEx :=
  if as.length ≠ c.values.length then
    some (.arraySize (toInt64 c.values.length) (toInt64 as.length))
  else itemsSetRaises narrow c 0 as

/-- `GetValue(index)` (Field.h:766-772, Publication/Field.cpp:505-545, 297-332). -/
def itemGetRaises (c : Arr) (k : Nat) : Option FEx :=
  if c.values.length ≤ k then some (.arrayIndex (toInt64 c.values.length) (toInt64 k))
  else if c.kind = .None ∨ (c.style = .anonymous ∧ c.kind = .String8) then some (.primitive c.kind)
  else none

/-- `GetItem(index)` of an array of `size` fields (Field.h:590-595, Publication/Field.cpp:230-235,
455-460). -/
def getItemRaises (size k : Nat) : Option FEx :=
  if size ≤ k then some (.arrayIndex (toInt64 size) (toInt64 k)) else none

/-- `SetValue(value)` of a simple field that pushes to no other (Field.h:428-430,
Publication/Field.cpp:744-799): the value is converted, then looked for among the literals of an
enumeration of four bytes (Publication/Field.cpp:759-763). -/
def fieldSetRaises (narrow : Fl → Fl) (c : Cell) (a : Any) : Option FEx :=
  if c.kind = .None then some (.primitive c.kind)
  else match convRaises narrow c.kind a with
  | some e => some e
  | none => match Field.coerce narrow c.kind c.len a with
    | .ok v => if c.held || c.accepts v then none else some (refuse a (.fieldValue a))
    | _ => none

end Verif.Raise
