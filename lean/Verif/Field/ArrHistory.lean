import Verif.Field.ArrProps

/-!
Histories of arrays of simple items: the calls of Arrays.lean one after the other, exceptions caught by
the caller (Field.h:766-898, Field.cpp:59-81, 392-417, 519-524).
-/
namespace Verif.Field.ArrHist
open Verif.Any (Kind Fl Val Any Out)

/-- The calls on arrays. -/
inductive Op
  /-- `SetValue(index, value)` (Field.h:774-782) -/
  | set (i k : Nat) (a : Any)
  /-- `SetValues(length, values)` (Field.h:796-807) -/
  | setAll (i : Nat) (as : List Any)
  /-- `field[index] = value` in the component's code (Field.h:842-898) -/
  | write (i k : Nat) (v : Val)
  /-- `Connect` (Field.cpp:394-404) -/
  | connect (i j : Nat)
  /-- `Disconnect` (Field.cpp:406-412) -/
  | disconnect (i j : Nat)
  /-- `Push` (Field.cpp:392) -/
  | push (i : Nat)

/-- One call (Field.h:766-898, Field.cpp:392-412). -/
def step (narrow : Fl → Fl) (n : Arrs) : Op → ARes
  | .set i k a => aset narrow n i k a
  | .setAll i as => asetAll narrow n i as
  | .write i k v => awrite narrow n i k v
  | .connect i j => aconnect narrow n i j
  | .disconnect i j => .ok (adisconnect n i j)
  | .push i => apushAll narrow n i (List.range (n i).values.length)

/-- The call is `noexcept` (Field.h:841-893): an exception ends the program. -/
def Op.noexcept : Op → Bool
  | .write .. => true
  | _ => false

/-- A history; the caller catches the exceptions, `none` when the program ends (an exception leaves a
`noexcept` function) or is undefined. (Sequences of the calls of Field.h:766-898.) -/
def run (narrow : Fl → Fl) (n : Arrs) : List Op → Option Arrs
  | [] => some n
  | o :: os => match step narrow n o with
    | .ok n' => run narrow n' os
    | .raised n' => if o.noexcept then none else run narrow n' os
    | .ub => none

end Verif.Field.ArrHist
