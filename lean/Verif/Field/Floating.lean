import Verif.Field.Ops
import Verif.Chrono.Floating

/-!
The operators of simple fields when the field or the operand has a floating point type
(include/Xsmp/Field.h:482-501, 846-871). `Verif.Field.Ops` has those between integers.

Assumed as in `Verif.Chrono.Floating`: the arithmetic of IEEE 754 without excess precision.
-/
namespace Verif.Field.Floating
open Verif.Any (Fl Val ITy)
open Verif.Float
open Verif.Chrono.Floating (Kind conv)

/-- `+=`, `-=`, `*=`, `/=` (Field.h:490-501). -/
abbrev FOp := Verif.Chrono.Floating.Op

/-- The type of a field or operand (`T` and `U` in Field.h:482-501). Fields and operands of type
`bool` and `char` are in FlagsFloat.lean. -/
inductive Ty
  | int (t : ITy)
  | flt (k : Kind)
  deriving DecidableEq

/-- The usual arithmetic conversions: the floating point type the expression is computed in, if one
operand has such a type (the expressions of Field.h:490-501). -/
def commonF : Ty → Ty → Option Kind
  | .flt .double, _ | _, .flt .double => some .double
  | .flt .single, _ | _, .flt .single => some .single
  | .int _, .int _ => none

/-- An operand converted to the type of the computation: integers are rounded to nearest, a `float`
is a `double` (the expressions of Field.h:490-501). -/
def toF (k : Kind) : Val → Option Fl
  | .int v => some (conv k v)
  | .float x => some x
  | _ => none

/-- The result converted to the type of the field: to an integer the fraction is cut off, undefined
(`none`) when it does not fit; a `double` is rounded to a `float` (the argument of `SetValue`,
Field.h:490-501, 516). -/
def back : Ty → Fl → Option Val
  | .int t, .fin q =>
    let n := if q < 0 then -(-q).floor else q.floor
    if t.lowest ≤ n ∧ n ≤ t.max then some (.int n) else none
  | .int _, _ => none
  | .flt .single, x => some (.float (narrow x))
  | .flt .double, x => some (.float x)

/-- The value handed to `SetValue` by `+=`, `-=`, `*=`, `/=` of a field of type `t` with an operand of
type `u`, one of them floating point (Field.h:490-501, 856-871). The other operators do not compile
for them. `none` when the expression is undefined. -/
def opFloat (t u : Ty) (op : FOp) (v x : Val) : Option Val :=
  match commonF t u with
  | none => none
  | some k => match toF k v, toF k x with
    | some a, some b => back t (op.run k.fmt a b)
    | _, _ => none

/-- `++` and `--` of a field with a floating point type: `_value + 1` (Field.h:482-483, 846-847). -/
def incr (k : Kind) (op : FOp) (v : Val) : Option Val := opFloat (.flt k) (.int .i32) op v (.int 1)

/-- The operators of `SimpleField` (Field.h:482-501): the new value is computed even when the field
is forced. -/
def opAssignF (narrow : Fl → Fl) (f : Nat) (n : Net) (i : Nat) (t u : Ty) (op : FOp) (x : Val) : Res :=
  match opFloat t u op (n i).value x with
  | none => .ub
  | some r => assign narrow f n i r

end Verif.Field.Floating
