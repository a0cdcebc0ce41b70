import Verif.Chrono.Model
import Verif.Field.Ops

/-! The comparisons of `Duration`, and its literals (include/Xsmp/Duration.h:160-335). -/
namespace Verif.Chrono.Compare
open Verif.Any (ITy wrap)
open Verif.Field.Ops (common)

/-- What a duration is compared with (Duration.h:160-246): a number of an integer type, a duration,
a `std::chrono::duration` with 64-bit count whose period is `num / den` seconds, or the `double` that
is not a number. Other floating point operands are those of `Verif.Chrono.Floating`. -/
inductive Operand
  | int (u : ITy) (x : Int)
  | dur (y : Int)
  | chrono (num den : Nat) (c : Int)
  | nan
deriving DecidableEq

/-- The built-in `==` of two integer types (Duration.h:162). -/
def eqB (t u : ITy) (a b : Int) : Bool := wrap (common t u) a == wrap (common t u) b

/-- The built-in `<` of two integer types (Duration.h:177, 202). -/
def ltB (t u : ITy) (a b : Int) : Bool := decide (wrap (common t u) a < wrap (common t u) b)

/-- `duration_cast<nanoseconds>(d).count()` of the C++ standard (Duration.h:169, 184, 191, 198), for a
64-bit count: the ratio of the periods is reduced, the count multiplied and then divided; `none` when
the product overflows. -/
def castNs (num den : Nat) (c : Int) : Option Int :=
  (chk (c * ((num * 1000000000 / Nat.gcd (num * 1000000000) den : Nat) : Int))).map fun p =>
    p.tdiv ((den / Nat.gcd (num * 1000000000) den : Nat) : Int)

/-- `operator==` (Duration.h:160-170). -/
def eq (v : Int) : Operand → Option Bool
  | .int u x => some (eqB .i64 u v x)
  | .dur y => some (eqB .i64 .i64 v y)
  | .chrono n d c => (castNs n d c).map fun r => v == r
  | .nan => some false

/-- `operator!=` (Duration.h:171-174). -/
def ne (v : Int) (r : Operand) : Option Bool := (eq v r).map fun b => !b

/-- `operator<` (Duration.h:175-185). -/
def lt (v : Int) : Operand → Option Bool
  | .int u x => some (ltB .i64 u v x)
  | .dur y => some (ltB .i64 .i64 v y)
  | .chrono n d c => (castNs n d c).map fun r => decide (v < r)
  | .nan => some false

/-- `operator>` (Duration.h:186-192, 200-203): the operands change places, except for chrono
durations. -/
def gt (v : Int) : Operand → Option Bool
  | .int u x => some (ltB u .i64 x v)
  | .dur y => some (ltB .i64 .i64 y v)
  | .chrono n d c => (castNs n d c).map fun r => decide (v > r)
  | .nan => some false

/-- `operator<=` (Duration.h:193-199, 204-207). -/
def le (v : Int) : Operand → Option Bool
  | .chrono n d c => (castNs n d c).map fun r => decide (v ≤ r)
  | r => (gt v r).map fun b => !b

/-- `operator>=` (Duration.h:208-211). -/
def ge (v : Int) (r : Operand) : Option Bool := (lt v r).map fun b => !b

/-! With the chrono duration on the left. -/

/-- `operator==` (Duration.h:214-218). -/
def eqL (r : Operand) (v : Int) : Option Bool := eq v r
/-- `operator!=` (Duration.h:219-223). -/
def neL (r : Operand) (v : Int) : Option Bool := ne v r
/-- `operator<` (Duration.h:225-229). -/
def ltL (r : Operand) (v : Int) : Option Bool := gt v r
/-- `operator>` (Duration.h:230-234). -/
def gtL (r : Operand) (v : Int) : Option Bool := lt v r
/-- `operator<=` (Duration.h:235-240). -/
def leL (r : Operand) (v : Int) : Option Bool := ge v r
/-- `operator>=` (Duration.h:241-246). -/
def geL (r : Operand) (v : Int) : Option Bool := le v r

/-! Literals. -/

/-- `operator""_ns` (Duration.h:298-300): the `unsigned long long` is cast. -/
def litNs (n : Nat) : Int := wrap .i64 n
/-- `operator""_us` (Duration.h:302-304). -/
def litUs (n : Nat) : Option Int := chk (wrap .i64 n * litNs 1000)
/-- `operator""_ms` (Duration.h:307-309). -/
def litMs (n : Nat) : Option Int := (litUs 1000).bind fun u => chk (wrap .i64 n * u)
/-- `operator""_s` (Duration.h:312-314). -/
def litS (n : Nat) : Option Int := (litMs 1000).bind fun u => chk (wrap .i64 n * u)
/-- `operator""_mn` (Duration.h:317-319). -/
def litMn (n : Nat) : Option Int := (litS 60).bind fun u => chk (wrap .i64 n * u)
/-- `operator""_h` (Duration.h:322-324). -/
def litH (n : Nat) : Option Int := (litMn 60).bind fun u => chk (wrap .i64 n * u)
/-- `operator""_d` (Duration.h:326-328). -/
def litD (n : Nat) : Option Int := (litH 24).bind fun u => chk (wrap .i64 n * u)
/-- `operator""_w` (Duration.h:331-333). -/
def litW (n : Nat) : Option Int := (litD 7).bind fun u => chk (wrap .i64 n * u)

end Verif.Chrono.Compare
