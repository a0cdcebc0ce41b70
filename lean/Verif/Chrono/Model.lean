/-
Model of the arithmetic of `include/Xsmp/Duration.h` and `include/Xsmp/DateTime.h`.

Both types wrap a 64-bit signed number of nanoseconds. A value is an integer; signed
overflow, undefined in C++, is `none`. Text formatting and parsing are done by the external
`date` library (Text.lean takes it as a parameter); `<<=`, `>>=` and the bit
operations of `Duration` are not modelled.
-/
namespace Verif.Chrono

/-- The least `std::int64_t` (the representation of Duration.h:290). -/
def minI64 : Int := -9223372036854775808
/-- The greatest `std::int64_t` (the representation of Duration.h:290). -/
def maxI64 : Int := 9223372036854775807

/-- The result of a signed 64-bit operation. Undefined behaviour if it is out of range (the
operators of Duration.h:68-147). -/
def chk (v : Int) : Option Int := if minI64 ≤ v ∧ v ≤ maxI64 then some v else none

/-! ### Duration -/

/-- `operator-()` (Duration.h:68). -/
def neg (d : Int) : Option Int := chk (-d)
/-- `operator+=` (Duration.h:70-78, 128-131). -/
def addAssign (d e : Int) : Option Int := chk (d + e)
/-- `operator-=` (Duration.h:79-87, 132-135). -/
def subAssign (d e : Int) : Option Int := chk (d - e)
/-- `operator*=` (Duration.h:136-139), integer factor. -/
def mulAssign (d k : Int) : Option Int := chk (d * k)
/-- `operator/=` (Duration.h:140-143), integer divisor: rounds towards zero; division by zero
and `min / -1` are undefined. -/
def divAssign (d k : Int) : Option Int := if k = 0 then none else chk (d.tdiv k)
/-- `operator%=` (Duration.h:144-147): sign of the dividend; undefined where `/=` is. -/
def modAssign (d k : Int) : Option Int :=
  if k = 0 then none else (chk (d.tdiv k)).map fun _ => d.tmod k
/-- `operator++` (Duration.h:112-115). -/
def incr (d : Int) : Option Int := chk (d + 1)
/-- `operator--` (Duration.h:116-119). -/
def decr (d : Int) : Option Int := chk (d - 1)

/-- `Duration::nanoseconds` (Duration.h:249-251). -/
def nanoseconds (v : Int) : Option Int := some v
/-- `Duration::microseconds` (Duration.h:253-255). -/
def microseconds (v : Int) : Option Int := (nanoseconds 1000).bind fun u => chk (v * u)
/-- `Duration::milliseconds` (Duration.h:258-260). -/
def milliseconds (v : Int) : Option Int := (microseconds 1000).bind fun u => chk (v * u)
/-- `Duration::seconds` (Duration.h:263-265). -/
def seconds (v : Int) : Option Int := (milliseconds 1000).bind fun u => chk (v * u)
/-- `Duration::minutes` (Duration.h:268-270). -/
def minutes (v : Int) : Option Int := (seconds 60).bind fun u => chk (v * u)
/-- `Duration::hours` (Duration.h:273-275). -/
def hours (v : Int) : Option Int := (minutes 60).bind fun u => chk (v * u)
/-- `Duration::days` (Duration.h:277-279). -/
def days (v : Int) : Option Int := (hours 24).bind fun u => chk (v * u)
/-- `Duration::weeks` (Duration.h:282-284). -/
def weeks (v : Int) : Option Int := (days 7).bind fun u => chk (v * u)

/-! ### DateTime -/

/-- `_epochToMjd` (DateTime.h:244). -/
def epochToMjd : Int := 946728000 * 1000000000

/-- `operator+(DateTime, Duration)` and `operator+(Duration, DateTime)`, `operator+=`
(DateTime.h:156-159, 165-171, 192-200, 207-222). -/
def add (t d : Int) : Option Int := chk (t + d)
/-- `operator-(DateTime, Duration)`, `operator-=` (DateTime.h:160-163, 173-179, 201-205, 223-230). Also taken
for the difference of two date-times (the second converts to a duration). -/
def sub (t d : Int) : Option Int := chk (t - d)

/-- `convert(time_point)` for a time point with a resolution of `res` nanoseconds
(DateTime.h:248-256): `duration_cast` to nanoseconds is a multiplication. -/
def fromTimePoint (res : Int) (n : Int) : Option Int :=
  (chk (n * res)).bind fun ns => chk (ns - epochToMjd)

/-- `operator time_point<Clock, FromDuration>` (DateTime.h:184-190): `duration_cast` from
nanoseconds is a division rounding towards zero. -/
def toTimePoint (res : Int) (v : Int) : Option Int :=
  (chk (v + epochToMjd)).map fun ns => ns.tdiv res

end Verif.Chrono
