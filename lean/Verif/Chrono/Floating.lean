import Verif.Mem.Float
import Verif.Sched.Pacing

/-!
`Duration` with operands of type `float` and `double` (include/Xsmp/Duration.h:38-246). The templates
apply the built-in operators to `_value`, an `Int64`: the usual arithmetic conversions make both
operands of the floating point type, and the result is converted back.

Assumed: the arithmetic of the type itself, without excess precision (`FLT_EVAL_METHOD` is 0), and the
default rounding mode. As in `Verif.Float`, zero has no sign.
-/
namespace Verif.Chrono.Floating
open Verif.Any (Fl)
open Verif.Float
open Verif.Sched.Pacing (ltD castD)

/-- The type of the operand: `T` of the templates (Duration.h:98-211). `long double` is not
modelled. -/
inductive Kind
  | single
  | double
  deriving DecidableEq

/-- `float` and `double` are the formats of IEEE 754 (`T` in Duration.h:98-211). -/
def Kind.fmt : Kind → Fmt
  | .single => f32
  | .double => f64

/-- `_value` converted to the type of the operand: rounded to nearest (Duration.h:99, 129-141, 162,
177, 202). -/
def conv (k : Kind) (v : Int) : Fl := k.fmt.round v

/-- The built-in `a == b`: false as soon as one is a NaN (Duration.h:162). -/
def eqF : Fl → Fl → Bool
  | .fin a, .fin b => decide (a = b)
  | .inf n, .inf m => n == m
  | _, _ => false

/-- The built-in `-b` (for Duration.h:133). -/
def negF : Fl → Fl
  | .fin b => .fin (-b)
  | .inf n => .inf (!n)
  | .nan => .nan

/-- The built-in `a + b` (Duration.h:129). -/
def addF (f : Fmt) : Fl → Fl → Fl
  | .fin a, .fin b => f.round (a + b)
  | .fin _, .inf n => .inf n
  | .inf n, .fin _ => .inf n
  | .inf n, .inf m => if n = m then .inf n else .nan
  | _, _ => .nan

/-- The built-in `a - b` (Duration.h:133). -/
def subF (f : Fmt) (a b : Fl) : Fl := addF f a (negF b)

/-- The built-in `a * b` (Duration.h:137). -/
def mulF (f : Fmt) : Fl → Fl → Fl
  | .fin a, .fin b => f.round (a * b)
  | .fin a, .inf n => if a = 0 then .nan else .inf (n != decide (a < 0))
  | .inf n, .fin b => if b = 0 then .nan else .inf (n != decide (b < 0))
  | .inf n, .inf m => .inf (n != m)
  | _, _ => .nan

/-- The built-in `a / b` (Duration.h:141). A division by zero takes the sign of `a`: which infinity it
is makes no difference to a duration. -/
def divF (f : Fmt) : Fl → Fl → Fl
  | .fin a, .fin b =>
    if b = 0 then (if a = 0 then .nan else .inf (decide (a < 0))) else f.round (a / b)
  | .fin _, .inf _ => .fin 0
  | .inf n, .fin b => .inf (n != decide (b < 0))
  | _, _ => .nan

/-- `operator=(T)` (Duration.h:98-101): the conversion of a floating point number to `Int64` cuts off
the fraction; `none` (undefined behaviour) when it does not fit. -/
def assign (x : Fl) : Option Int := castD x

/-- The compound assignments (Duration.h:128-143). -/
inductive Op
  | add
  | sub
  | mul
  | div
  deriving DecidableEq

/-- The floating point operation of a compound assignment (Duration.h:129, 133, 137, 141). -/
def Op.run (f : Fmt) : Op → Fl → Fl → Fl
  | .add => addF f
  | .sub => subF f
  | .mul => mulF f
  | .div => divF f

/-- `operator+=`, `-=`, `*=`, `/=` with a floating point operand: `_value op= x` (Duration.h:128-143). -/
def compound (k : Kind) (op : Op) (v : Int) (x : Fl) : Option Int :=
  castD (op.run k.fmt (conv k v) x)

/-- `operator==` (Duration.h:160-163). -/
def eq (k : Kind) (v : Int) (x : Fl) : Bool := eqF (conv k v) x
/-- `operator!=` (Duration.h:171-174). -/
def ne (k : Kind) (v : Int) (x : Fl) : Bool := !eq k v x
/-- `operator<` (Duration.h:175-178). -/
def lt (k : Kind) (v : Int) (x : Fl) : Bool := ltD (conv k v) x
/-- `operator>` (Duration.h:200-203): `rhs < lhs` is the built-in operator, the duration on the right
is converted to its `Int64`. -/
def gt (k : Kind) (v : Int) (x : Fl) : Bool := ltD x (conv k v)
/-- `operator<=` (Duration.h:204-207). -/
def le (k : Kind) (v : Int) (x : Fl) : Bool := !gt k v x
/-- `operator>=` (Duration.h:208-211). -/
def ge (k : Kind) (v : Int) (x : Fl) : Bool := !lt k v x

/-- `duration_cast<nanoseconds>(d).count()` of a `std::chrono::duration<T, std::ratio<num, den>>` whose
count has floating point type: computed in that type, with the reduced ratio of the periods; a factor
or divisor of one is left out (the C++ standard; Duration.h:41-44, 57-60, 74-77, 83-86). -/
def castNs (k : Kind) (num den : Nat) (x : Fl) : Option Int :=
  let g := Nat.gcd (num * 1000000000) den
  let a := num * 1000000000 / g
  let b := den / g
  let y := if a = 1 then x else mulF k.fmt x (conv k a)
  castD (if b = 1 then y else divF k.fmt y (conv k b))

end Verif.Chrono.Floating
