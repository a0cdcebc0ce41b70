import Verif.Field.NetLemmas

/-! Fields that are arrays of simple items: `Xsmp::SimpleArrayField` (include/Xsmp/Field.h),
`Xsmp::Publication::SimpleArrayField` and `AnonymousSimpleArrayField`
(src/Xsmp/Publication/Field.cpp). -/
namespace Verif.Field
open Verif.Any (Kind Fl Val Any Out)

/-- The class of the field. (Field.h:740, Publication/Field.h:188-300.) -/
inductive Style
  /-- `Xsmp::SimpleArrayField` -/
  | plain
  /-- `Xsmp::Publication::SimpleArrayField` -/
  | published
  /-- `Xsmp::Publication::AnonymousSimpleArrayField` -/
  | anonymous
deriving DecidableEq

/-- An array of simple items. `kind` is the primitive kind of the items, `len` the length of a
string item (`none`: the items are of the primitive type `String8`, which has no length). Item
types that are enumerations are not distinguished: the only check there is, is made on the array
type (Publication/Field.cpp:567), which is never one. -/
structure Arr where
  style : Style
  kind : Kind
  len : Option Nat
  input : Bool
  output : Bool
  /-- writes of an element from the component's code are pushed (Field.h:900-905) -/
  connectable : Bool
  values : List Val
  /-- `_connectedFields` / `_targets` (a set ordered by address there) -/
  targets : List Nat

/-- All the arrays of simple values, by identity (Field.h:740-900). -/
abbrev Arrs := Nat → Arr

/-- Replaces one array. Of the model only (assignments to members in Field.h:766-807). -/
def Arrs.set (n : Arrs) (i : Nat) (c : Arr) : Arrs := fun j => if j = i then c else n j

/-- How a call ends. Of the model only (the outcomes of Field.h:766-807). -/
inductive ARes
  | ok (n : Arrs)
  | raised (n : Arrs)
  | ub

/-- `GetType()->GetPrimitiveTypeKind()`: the type of an anonymous array is the one of its items
(Publication/Field.cpp:237-246), the others are array types, of kind `PTK_None`. -/
def Arr.typeKind (c : Arr) : Kind := if c.style = .anonymous then c.kind else .None

/-- The value stored for an element: kind check and conversion of Field.h:778-781, conversion
of Publication/Field.cpp:553-606 (no kind check; the length of a `String8` item is read through
a null pointer), of Publication/Field.cpp:339-381 (no strings). -/
def Arr.item (narrow : Fl → Fl) (c : Arr) (a : Any) : Out Val :=
  match c.style with
  | .plain => if a.type ≠ c.kind then .throw else coerce narrow c.kind (c.len.getD 0) a
  | .published =>
    if c.kind = .String8 then
      match c.len with
      | none => .ub
      | some l => coerce narrow c.kind l a
    else coerce narrow c.kind 0 a
  | .anonymous => if c.kind = .String8 then .throw else coerce narrow c.kind 0 a

/-- `GetValue(index)` (Field.h:766-772, Publication/Field.cpp:505-545, 297-332). -/
def Arr.get (c : Arr) (k : Nat) : Out Any :=
  match c.values[k]? with
  | none => .throw
  | some v => if c.kind = .None ∨ (c.style = .anonymous ∧ c.kind = .String8) then .throw
    else .ok ⟨c.kind, v⟩

/-- `SetValue(index, value)` (Field.h:774-782, Publication/Field.cpp:547-607, 334-382). -/
def aset (narrow : Fl → Fl) (n : Arrs) (i k : Nat) (a : Any) : ARes :=
  if (n i).values.length ≤ k then .raised n
  else match (n i).item narrow a with
    | .ok v => .ok (n.set i { n i with values := (n i).values.set k v })
    | .throw => .raised n
    | .ub => .ub

/-- The loop of `SetValues`. -/
def asetLoop (narrow : Fl → Fl) (n : Arrs) (i : Nat) : Nat → List Any → ARes
  | _, [] => .ok n
  | k, a :: as =>
    -- the anonymous array has no check of the kinds (Publication/Field.cpp:399-401)
    if (n i).style ≠ .anonymous ∧ a.type ≠ (n i).kind then .raised n
    else match aset narrow n i k a with
      | .ok n' => asetLoop narrow n' i (k + 1) as
      | r => r

/-- `SetValues(length, values)` (Field.h:796-807, Publication/Field.cpp:619-631, 394-402); the
caller's array has `length` elements. -/
def asetAll (narrow : Fl → Fl) (n : Arrs) (i : Nat) (as : List Any) : ARes :=
  if as.length ≠ (n i).values.length then .raised n else asetLoop narrow n i 0 as

/-- `GetValues(length, values)` (Field.h:784-794, Publication/Field.cpp:609-617, 384-392): the
values written in the caller's array. -/
def Arr.getAll (c : Arr) (length : Nat) : Out (List Any) :=
  if length ≠ c.values.length then .throw
  else (List.range length).foldr (fun k acc => match c.get k, acc with
    | .ok a, .ok l => .ok (a :: l)
    | .ub, _ => .ub
    | .throw, _ => .throw
    | _, r => r) (.ok [])

/-- `internal_push(index)` (Field.cpp:519-524). A target does not push further. -/
def apush (narrow : Fl → Fl) (n : Arrs) (i k : Nat) : List Nat → ARes
  | [] => .ok n
  | t :: ts => match (n i).get k with
    | .ok a => match aset narrow n t k a with
      | .ok n' => apush narrow n' i k ts
      | r => r
    | .throw => .raised n
    | .ub => .ub

/-- `field[index] = value` (Field.h:842-898, 1064-1071), for a connectable field (`index` in
range: unchecked in the code); `noexcept`, so that an exception ends the program. -/
def awrite (narrow : Fl → Fl) (n : Arrs) (i k : Nat) (v : Val) : ARes :=
  if (n i).values.length ≤ k then .ub
  else
    let n1 := n.set i { n i with values := (n i).values.set k v }
    if (n i).connectable then apush narrow n1 i k (n i).targets else .ok n1

/-- The copy of an array to another (Field.cpp:67-70, Publication/Field.cpp:167-170). -/
def acopy (narrow : Fl → Fl) (n : Arrs) (i t : Nat) : List Nat → ARes
  | [] => .ok n
  | k :: ks => match (n i).get k with
    | .ok a => match aset narrow n t k a with
      | .ok n' => acopy narrow n' i t ks
      | r => r
    | .throw => .raised n
    | .ub => .ub

/-- `AreEquivalent` of simple arrays (Helper.cpp:252-257). -/
def Arr.equivalent (c d : Arr) : Bool :=
  d.values.length == c.values.length && d.typeKind == c.typeKind

/-- `SimpleArrayDataflowField::Connect` (Field.cpp:394-404) with `FieldHelper::Connect`
(Field.cpp:63-71); `DataflowField::Connect` (Publication/Field.cpp:143-154) makes the same checks
in the other order. -/
def aconnect (narrow : Fl → Fl) (n : Arrs) (i j : Nat) : ARes :=
  if !(n i).output || !(n j).input || j == i || !(n i).equivalent (n j) then .raised n
  else if (n i).targets.contains j then .raised n
  else
    let n1 := n.set i { n i with targets := (n i).targets ++ [j] }
    acopy narrow n1 i j (List.range (n i).values.length)

/-- `SimpleArrayDataflowField::Disconnect` (Field.cpp:406-412). -/
def adisconnect (n : Arrs) (i j : Nat) : Arrs :=
  n.set i { n i with targets := (n i).targets.erase j }

/-- `SimpleArrayDataflowField::Push` (Field.cpp:76-81): element by element, each to all the
targets. -/
def apushAll (narrow : Fl → Fl) (n : Arrs) (i : Nat) : List Nat → ARes
  | [] => .ok n
  | k :: ks => match apush narrow n i k (n i).targets with
    | .ok n' => apushAll narrow n' i ks
    | r => r

end Verif.Field
