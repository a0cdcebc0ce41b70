import Verif.Field.Floating
import Verif.Field.Flags

/-!
The operators `+=`, `-=`, `*=`, `/=` of fields of truth values and of characters with an operand of type
`float` or `double` (include/Xsmp/Field.h:490-501). The other operators do not compile for such operands.
-/
namespace Verif.Field.Flags
open Verif.Any (Fl Val ITy)
open Verif.Float
open Verif.Chrono.Floating (Kind conv)
open Verif.Field.Floating (FOp opFloat)

/-- A floating point number converted to `Bool`: whether it differs from 0, so a NaN is true (the argument
of `SetValue`, Field.h:490-501, 516). -/
def truth : Fl → Bool
  | .fin q => decide (q ≠ 0)
  | _ => true

/-- The value that an operator hands to `SetValue` (Field.h:490-501, 516), for a field of type `Bool`:
the truth value is converted to the type of the operand. -/
def flagFloat (k : Kind) (op : FOp) (b : Bool) (x : Fl) : Bool :=
  truth (op.run k.fmt (conv k (ofBool b)) x)

/-- The same for a field of type `Char8` (Field.h:490-501, 516); `char` has the range of `Int8`. `none`
when the conversion to `char` is undefined. -/
def charFloat (k : Kind) (op : FOp) (c : Nat) (x : Fl) : Option Nat :=
  match opFloat (.int .i8) (.flt k) op (.int (ofCode c)) (.float x) with
  | some (.int r) => some (r % 256).toNat
  | _ => none

/-- The operators of a field of type `Bool` or `Char8` with an operand of floating point type
(Field.h:490-501). -/
def opFlt (narrow : Fl → Fl) (f : Nat) (n : Net) (i : Nat) (k : Kind) (op : FOp) (x : Fl) : Res :=
  match (n i).value with
  | .bool b => assign narrow f n i (.bool (flagFloat k op b x))
  | .char c => match charFloat k op c x with
    | none => .ub
    | some r => assign narrow f n i (.char r)
  | _ => .ub

end Verif.Field.Flags
