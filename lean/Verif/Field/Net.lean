import Verif.Any.Props

/-! Simple fields, forcing and data flow: `Xsmp::SimpleField` (include/Xsmp/Field.h,
src/Xsmp/Field.cpp) and `Xsmp::Publication::SimpleField` (src/Xsmp/Publication/Field.cpp). -/
namespace Verif.Field
open Verif.Any (Kind Fl Val Any Out ITy getInt getBool getChar getString getF32 getF64)

/-- Read an `AnySimple` as the C++ type of a primitive kind: `AnySimpleConverter<T>::convert`
(AnySimpleConverter.h:27-76) and the `switch` of `Publication::SimpleField::SetValue`
(Publication/Field.cpp:744-799). `len` is the number of characters a string can hold:
`CopyString` (Helper.cpp:453-464) truncates, and stores the empty string for a null pointer.
`T` is taken to be the type of the field's kind. -/
def coerce (narrow : Fl → Fl) (k : Kind) (len : Nat) (a : Any) : Out Val :=
  match k with
  | .None => .throw
  | .Bool => (getBool a).map .bool
  | .Char8 => (getChar a).map .char
  | .Float32 => (getF32 narrow a).map .float
  | .Float64 => (getF64 a).map .float
  | .String8 => (getString a).map fun s => .str (some ((s.getD []).take len))
  | .Int8 => (getInt .i8 a).map .int
  | .Int16 => (getInt .i16 a).map .int
  | .Int32 => (getInt .i32 a).map .int
  | .Int64 | .Duration | .DateTime => (getInt .i64 a).map .int
  | .UInt8 => (getInt .u8 a).map .int
  | .UInt16 => (getInt .u16 a).map .int
  | .UInt32 => (getInt .u32 a).map .int
  | .UInt64 => (getInt .u64 a).map .int

/-- A simple field. `connectable` and `forcible` are the annotations of Field.h:84-103 (both
false for a published field, which does not push when written); `lits` are the literals of a
published field of enumeration type (Publication/Field.cpp:39-46), `none` otherwise. -/
structure Cell where
  kind : Kind
  len : Nat
  input : Bool
  output : Bool
  connectable : Bool
  forcible : Bool
  lits : Option (List Int)
  value : Val
  /-- `_forced` (Field.h:159) -/
  forced : Bool
  /-- `_connectedFields._fields` (Field.h:225): the fields pushed to, in order -/
  targets : List Nat

/-- All the simple fields, by identity. (Field.h:399-533.) -/
abbrev Net := Nat → Cell

/-- Replaces one field. Of the model only (assignments to members in Field.h:428-453). -/
def Net.set (n : Net) (i : Nat) (c : Cell) : Net := fun j => if j = i then c else n j

/-- `GetValue` (Field.h:428-430): `AnySimple{kind, value}` where the value has the type of the
kind, hence is stored as it is. -/
def Cell.get (c : Cell) : Any := ⟨c.kind, c.value⟩

/-- `IsForced` matters for forcible fields only (Field.h:523-528). -/
def Cell.held (c : Cell) : Bool := c.forcible && c.forced

/-- `!isInvalidEnumerationValue` (Publication/Field.cpp:39-46). It is only consulted for fields of
kind `Int32` (Publication/Field.cpp:759-762), that is for enumerations of four bytes. -/
def Cell.accepts (c : Cell) (v : Val) : Bool :=
  match c.lits, v with
  | none, _ => true
  | some ls, .int x => c.kind != .Int32 || ls.contains x
  | some _, _ => c.kind != .Int32

/-- How a call ends: normally, with an exception (and the state it leaves), with undefined
behaviour, or with an infinite recursion (fuel ran out). Of the model only (the outcomes of
Field.h:428-453 and Field.cpp:359-386). -/
inductive Res
  | ok (n : Net)
  | raised (n : Net)
  | ub
  | diverges

/-- `internal_push` (Field.cpp:359-363): the value is read again for each target. `set` is
`SetValue` of a field. -/
def pushLoop (set : Net → Nat → Any → Res) (n : Net) (i : Nat) : List Nat → Res
  | [] => .ok n
  | t :: ts => match set n t (n i).get with
    | .ok n' => pushLoop set n' i ts
    | r => r

/-- `SetValue(const T &)` (Field.h:516-529); for a published field, the end of
`Publication::SimpleField::SetValue` (Publication/Field.cpp:759-764). -/
def store (set : Net → Nat → Any → Res) (n : Net) (i : Nat) (v : Val) : Res :=
  if (n i).held then .ok n
  else if (n i).accepts v then
    let n1 := n.set i { n i with value := v }
    if (n i).connectable then pushLoop set n1 i (n i).targets else .ok n1
  else .raised n

/-- `SetValue(AnySimple)` (Field.h:428-430, Publication/Field.cpp:744-799). -/
def setValue (narrow : Fl → Fl) : Nat → Net → Nat → Any → Res
  | 0, _, _, _ => .diverges
  | f + 1, n, i, a =>
    match coerce narrow (n i).kind (n i).len a with
    | .ok v => store (setValue narrow f) n i v
    | .throw => .raised n
    | .ub => .ub

/-- `operator=(const T &)` and the compound assignments (Field.h:480-513), `v` being the new
value computed by the operator. They are declared `noexcept`: an exception terminates the
program (a `raised` result here). -/
def assign (narrow : Fl → Fl) (f : Nat) (n : Net) (i : Nat) (v : Val) : Res :=
  store (setValue narrow f) n i v

/-- `AbstractForcibleField::Force` (Field.cpp:543-547). -/
def force (narrow : Fl → Fl) (f : Nat) (n : Net) (i : Nat) (a : Any) : Res :=
  match setValue narrow f (n.set i { n i with forced := false }) i a with
  | .ok n' => .ok (n'.set i { n' i with forced := true })
  | r => r

/-- `SimpleDataflowField::Connect` (Field.cpp:368-378) with `AreEquivalent` (Helper.cpp:247-250)
and `FieldHelper::Connect` (Field.cpp:44-49). -/
def connect (narrow : Fl → Fl) (f : Nat) (n : Net) (i j : Nat) : Res :=
  if !(n i).output || !(n j).input || j == i || (n i).kind != (n j).kind then .raised n
  else if (n i).targets.contains j then .raised n
  else
    let n1 := n.set i { n i with targets := (n i).targets ++ [j] }
    setValue narrow f n1 j (n1 i).get

/-- `SimpleDataflowField::Disconnect` (Field.cpp:380-385) with `InputFieldCollection::remove`
(Field.cpp:450-457). -/
def disconnect (n : Net) (i j : Nat) : Net :=
  n.set i { n i with targets := (n i).targets.erase j }

/-- The calls on the fields. -/
inductive Op
  /-- an assignment in the component's code (not for published fields) -/
  | assign (i : Nat) (v : Val)
  /-- `ISimpleField::SetValue` -/
  | set (i : Nat) (a : Any)
  | force (i : Nat) (a : Any) | unforce (i : Nat) | freeze (i : Nat)
  | connect (i j : Nat) | disconnect (i j : Nat)
  /-- `SimpleDataflowField::Push` (Field.cpp:386) -/
  | push (i : Nat)
  /-- `Restore` (Field.h:432-442, Field.cpp:531-534): the value and the flag are read back -/
  | restore (i : Nat) (v : Val) (forced : Bool)

/-- One call (Field.h:428-529, Field.cpp:359-386). -/
def step (narrow : Fl → Fl) (f : Nat) (n : Net) : Op → Res
  | .assign i v => assign narrow f n i v
  | .set i a => setValue narrow f n i a
  | .force i a => if (n i).forcible then force narrow f n i a else .ok n
  | .unforce i => .ok (n.set i { n i with forced := false })
  | .freeze i => .ok (n.set i { n i with forced := true })
  | .connect i j => connect narrow f n i j
  | .disconnect i j => .ok (disconnect n i j)
  | .push i => pushLoop (setValue narrow f) n i (n i).targets
  | .restore i v b => .ok (n.set i { n i with value := v, forced := b })

/-- A history; the caller catches the exceptions. `none` when a call does not end normally. Of the
model only (sequences of the calls of Field.h:428-529). -/
def run (narrow : Fl → Fl) (f : Nat) (n : Net) : List Op → Option Net
  | [] => some n
  | o :: os => match step narrow f n o with
    | .ok n' | .raised n' => run narrow f n' os
    | .ub | .diverges => none

end Verif.Field
