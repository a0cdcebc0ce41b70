import Verif.Field.OpsProps

/-!
The operators of fields of truth values and of characters (include/Xsmp/Field.h:482-513): `Bool` and `Char8`
are promoted to `int` like the small integer types, and the result is converted back, to a truth value by
comparing it with 0, to a character modulo 256. Expressions on integers are those of Ops.lean; `Bool` and
`Char8` operands are promoted like `UInt8` and `Int8` (`char` is signed, as on x86).
-/
namespace Verif.Field.Flags
open Verif.Any (Fl Val ITy wrap)
open Verif.Field.Ops (BinOp promote common arith)

/-- The expression `_value op _i` (Field.h:482-513) before it is converted to the type of the field, for
operands of integer types; see `Ops.opValue`. -/
def expr (t u : ITy) (op : BinOp) (v x : Int) : Option Int :=
  match op with
  | .shl =>
    if x < 0 ∨ (promote t).width ≤ x then none
    else if (promote t).signed ∧ (v < 0 ∨ (2 : Int) ^ (promote t).width ≤ v * 2 ^ x.toNat) then none
    else some (wrap (promote t) (v * 2 ^ x.toNat))
  | .shr =>
    if x < 0 ∨ (promote t).width ≤ x then none else some (v / 2 ^ x.toNat)
  | _ => arith (common t u) op (wrap (common t u) v) (wrap (common t u) x)

/-- A truth value as a number (promotion of `bool`, Field.h:482-513). -/
def ofBool (b : Bool) : Int := if b then 1 else 0

/-- A character as a number (promotion of `char`, Field.h:482-513). -/
def ofCode (c : Nat) : Int := if c < 128 then c else (c : Int) - 256

/-- The value that an operator hands to `SetValue` (Field.h:482-513, 516), for a field of type `Bool` and
an operand of type `u`. `none` when the expression is undefined. -/
def flagValue (u : ITy) (op : BinOp) (b : Bool) (x : Int) : Option Bool :=
  (expr .u8 u op (ofBool b) x).map (· != 0)

/-- The same for a field of type `Char8` (Field.h:482-513, 516). -/
def charValue (u : ITy) (op : BinOp) (c : Nat) (x : Int) : Option Nat :=
  (expr .i8 u op (ofCode c) x).map fun r => (r % 256).toNat

/-- The operators of a field of type `Bool` or `Char8` (Field.h:482-513), with an operand of an integer
type. -/
def opAssign (narrow : Fl → Fl) (f : Nat) (n : Net) (i : Nat) (u : ITy) (op : BinOp) (x : Int) : Res :=
  match (n i).value with
  | .bool b => match flagValue u op b x with
    | none => .ub
    | some r => assign narrow f n i (.bool r)
  | .char c => match charValue u op c x with
    | none => .ub
    | some r => assign narrow f n i (.char r)
  | _ => .ub

/-- With an operand of type `Bool` (Field.h:482-513). -/
def opBool (narrow : Fl → Fl) (f : Nat) (n : Net) (i : Nat) (op : BinOp) (c : Bool) : Res :=
  opAssign narrow f n i .u8 op (ofBool c)

/-- With an operand of type `Char8` (Field.h:482-513). -/
def opChar (narrow : Fl → Fl) (f : Nat) (n : Net) (i : Nat) (op : BinOp) (c : Nat) : Res :=
  opAssign narrow f n i .i8 op (ofCode c)

/-- `++` (Field.h:482). -/
def increment (narrow : Fl → Fl) (f : Nat) (n : Net) (i : Nat) : Res := opAssign narrow f n i .i32 .add 1

/-- `--` (Field.h:483). -/
def decrement (narrow : Fl → Fl) (f : Nat) (n : Net) (i : Nat) : Res := opAssign narrow f n i .i32 .sub 1

end Verif.Field.Flags
