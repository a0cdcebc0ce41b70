import Verif.Raise.Values

/-!
What the exception of a write carries that a connected field refuses: `SetValue` of a field
(`include/Xsmp/Field.h:428-430, 516-529`, `src/Xsmp/Publication/Field.cpp:744-799`) and the push to the
fields connected to it (`src/Xsmp/Field.cpp:359-363, 386`), as in Field/Net.lean, with the sender and the
data of the exception.
-/
namespace Verif.Raise
open Verif.Any (Kind Fl Val Any)
open Verif.Field (Cell Net)

/-- How a call ends. An exception has a sender, `none` for a null pointer, and data. Of the model only
(Exception.cpp:731-753, AnySimple.cpp:94). -/
inductive ResE
  | ok (n : Net)
  | raised (n : Net) (sender : Option Nat) (e : FEx)
  | ub
  | diverges

/-- `internal_push` (Field.cpp:359-363): an exception leaves the loop. -/
def pushLoopE (set : Net → Nat → Any → ResE) (n : Net) (i : Nat) : List Nat → ResE
  | [] => .ok n
  | t :: ts => match set n t (n i).get with
    | .ok n' => pushLoopE set n' i ts
    | r => r

/-- `SetValue(const T &)` (Field.h:516-529), the end of `Publication::SimpleField::SetValue`
(Publication/Field.cpp:759-764): `a` is the value given, `v` what it is converted to. Only enumerations of
four bytes refuse values here, which are numbers, so that the message can be written (see `refuse`). -/
def storeE (set : Net → Nat → Any → ResE) (n : Net) (i : Nat) (a : Any) (v : Val) : ResE :=
  if (n i).held then .ok n
  else if (n i).accepts v then
    let n1 := n.set i { n i with value := v }
    if (n i).connectable then pushLoopE set n1 i (n i).targets else .ok n1
  else .raised n (some i) (.fieldValue a)

/-- `SetValue(AnySimple)` (Field.h:428-430, Publication/Field.cpp:744-799). The exception of the
conversion is raised by the value, with no sender (AnySimple.cpp:94, 105, 118, 131). -/
def setValueE (narrow : Fl → Fl) : Nat → Net → Nat → Any → ResE
  | 0, _, _, _ => .diverges
  | f + 1, n, i, a =>
    if (n i).kind = .None then .raised n (some i) (.primitive .None)
    else match convRaises narrow (n i).kind a with
      | some .ub => .ub
      | some e => .raised n none e
      | none => match Field.coerce narrow (n i).kind (n i).len a with
        | .ok v => storeE (setValueE narrow f) n i a v
        | _ => .ub

/-- `SimpleDataflowField::Push` (Field.cpp:386). -/
def pushE (narrow : Fl → Fl) (f : Nat) (n : Net) (i : Nat) : ResE :=
  pushLoopE (setValueE narrow f) n i (n i).targets

end Verif.Raise
