import Verif.Chrono.Model
import Verif.Field.Ops

/-! The assignments of `Duration` with operands of integer types (include/Xsmp/Duration.h:61-87,
98-159): the built-in operators on the 64-bit count, after the usual arithmetic conversions. Shifts are
those of C++17 (CMakeLists.txt:277). Floating point operands are in `Verif.Chrono.Floating`. -/
namespace Verif.Chrono.Integral
open Verif.Any (ITy wrap)
open Verif.Field.Ops (BinOp opValue)

/-- `operator=` (Duration.h:61-64, 98-101): the number is converted to 64 bits. -/
def assign (x : Int) : Int := wrap .i64 x

/-- `operator+=`, ..., `operator^=`, `operator<<=`, `operator>>=` (Duration.h:70-87, 120-159) of the
duration `v`, with the operand `x` of type `u`: `_value op= _i`. A `Duration` as operand is its 64-bit
count. `none` when the behaviour is undefined. -/
def compound (u : ITy) (op : BinOp) (v x : Int) : Option Int := opValue .i64 u op v x

/-- `operator++(int)` and `operator--(int)` (Duration.h:102-111): what is returned, and what the
duration becomes. -/
def postfix_ (inc : Bool) (v : Int) : Option (Int × Int) :=
  (if inc then incr v else decr v).map fun w => (v, w)

/-- A statement on a duration (Duration.h:61-87, 98-159). -/
inductive Stmt
  | assign (u : ITy) (x : Int)
  | compound (op : BinOp) (u : ITy) (x : Int)
  | pre (inc : Bool)
  | post (inc : Bool)
deriving DecidableEq

/-- What a duration becomes by a statement (Duration.h:61-87, 98-159). -/
def Stmt.exec (v : Int) : Stmt → Option Int
  | .assign _ x => some (Integral.assign x)
  | .compound op u x => Integral.compound u op v x
  | .pre inc => if inc then incr v else decr v
  | .post inc => (postfix_ inc v).map (·.2)

/-- What a duration becomes by a sequence of statements. Of the model only (sequences of the
statements of Duration.h:61-87, 98-159). -/
def exec (v : Int) : List Stmt → Option Int
  | [] => some v
  | s :: ss => (s.exec v).bind fun w => exec w ss

end Verif.Chrono.Integral
