import Verif.Mem.Float

/-!
How the run loop of the scheduler keeps simulation time in step with Zulu time: the target speed
and the delay it waits before each change of the simulation time
(src/Xsmp/Services/XsmpScheduler.cpp:113-123, 592-665). `Verif.Sched.Model` has the same loop
without clocks: there a turn may or may not wait.

Simplified: only this loop sets the simulation time, and the target speed stays the same during a
run. The samples of `_speed` and `_load` (lines 631-634, 672-698) are left out: nothing reads them.
-/
namespace Verif.Sched.Pacing
open Verif.Any (Fl)
open Verif.Float

/-- A literal of type `double`: the number nearest to it (XsmpScheduler.cpp:114-117). -/
def lit (q : Rat) : Fl := f64.round q

/-- `a < b` on `double`: false as soon as one is a NaN (XsmpScheduler.cpp:114, 116). -/
def ltD : Fl → Fl → Bool
  | .fin a, .fin b => decide (a < b)
  | .fin _, .inf n => !n
  | .inf n, .fin _ => n
  | .inf n, .inf m => n && !m
  | _, _ => false

/-- `SetTargetSpeed`: the speed kept (XsmpScheduler.cpp:113-121). -/
def setTargetSpeed (speed : Fl) : Fl :=
  if ltD speed (lit (1 / 100)) then lit (1 / 100)
  else if ltD (lit 100) speed then lit 100
  else speed

/-- The target speed of a new scheduler (XsmpScheduler.h:416). -/
def defaultSpeed : Fl := lit 100

/-- `static_cast<double>` of a duration: rounded to nearest (XsmpScheduler.cpp:624). -/
def toD (d : Int) : Fl := f64.round d

/-- `a / b` on `double`. Zero has no sign in `Fl`, a division by it takes the sign of `a`
(XsmpScheduler.cpp:624-625). -/
def divD : Fl → Fl → Fl
  | .fin a, .fin b =>
    if b = 0 then (if a = 0 then .nan else .inf (decide (a < 0))) else f64.round (a / b)
  | .fin _, .inf _ => .fin 0
  | .inf n, .fin b => .inf (n != decide (b < 0))
  | _, _ => .nan

/-- The value of a signed 64-bit operation, `none` (undefined behaviour) when it does not fit
(XsmpScheduler.cpp:623-626). -/
def i64 (z : Int) : Option Int := if -2 ^ 63 ≤ z ∧ z < 2 ^ 63 then some z else none

/-- `static_cast<Duration>` of a `double`: the fraction is cut off; undefined for a NaN and for a
value that does not fit (XsmpScheduler.cpp:624). -/
def castD : Fl → Option Int
  | .fin q => i64 (if q < 0 then -(-q).floor else q.floor)
  | _ => none

/-- The time in which a duration is to pass: line 624-625 of XsmpScheduler.cpp. -/
def scaled (speed : Fl) (duration : Int) : Option Int := castD (divD (toD duration) speed)

/-- One turn of the loop: the time of the slot reached (`it->first`), the Zulu time as read in the
computation of the delay, as read just after, and when the simulation time is set
(XsmpScheduler.cpp:623, 626, 628, 651). -/
structure Turn where
  slot : Int
  z1 : Int
  z2 : Int
  change : Int
  deriving DecidableEq

/-- The variables of the loop: `startZuluTime`, `delay` and the simulation time
(XsmpScheduler.cpp:595, 602, 623). -/
structure Pace where
  start : Int
  delay : Int
  sim : Int
  deriving DecidableEq

/-- Lines 623-635 of a turn, and line 651. The waiting of lines 639-648 takes `delay` nanoseconds
when that is positive (XsmpScheduler.cpp:623-651). -/
def turn (speed : Fl) (p : Pace) (t : Turn) : Option Pace := do
  let duration ← i64 (t.slot - p.sim)
  let a ← scaled speed duration
  let b ← i64 (t.z1 - p.start)
  let c ← i64 (a - b)
  let delay ← i64 (p.delay + c)
  return { start := t.z2, delay := delay, sim := t.slot }

/-- The delays of the turns of a run (XsmpScheduler.cpp:611-660). -/
def delays (speed : Fl) : Pace → List Turn → Option (List Int)
  | _, [] => some []
  | p, t :: ts => do
    let p' ← turn speed p t
    let ds ← delays speed p' ts
    return p'.delay :: ds

/-- The variables at the start of a run, at simulation time `sim0` and Zulu time `zulu0`
(XsmpScheduler.cpp:594-602). -/
def begin0 (sim0 zulu0 : Int) : Pace := { start := zulu0, delay := 0, sim := sim0 }

end Verif.Sched.Pacing
