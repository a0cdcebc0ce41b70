import Verif.Mem.Float
import Verif.Sim.Loop

/-
Model of `Run(nanoseconds, microseconds, milliseconds, seconds, minutes, hours, days, weeks)` of the
Python module (src/python/Smp/ISimulatorBinding.h:80-109, 326-332).

Simplified: the amounts are finite; the sum of the simulation time and the duration does not overflow
(XsmpScheduler.cpp:172-174); the wait for the end of the execution is left out (lines 99-105).
-/
namespace Verif.Python.Run
open Verif.Any (Fl)
open Verif.Float Verif.Sim

/-- The arguments, doubles; each is 0 when not given. (ISimulatorBinding.h:80-81, 326-330.) -/
structure Amounts where
  ns : Rat := 0
  us : Rat := 0
  ms : Rat := 0
  s : Rat := 0
  mn : Rat := 0
  h : Rat := 0
  d : Rat := 0
  w : Rat := 0
  deriving DecidableEq, Repr

/-- `x += k * y` in doubles. The compiler may round the product and the sum, or only the sum
(`fused`: contraction to a fused multiply-add). (ISimulatorBinding.h:82-88.) -/
def add (fused : Bool) (x : Rat) (k : Nat) : Fl → Fl
  | .fin y =>
    if fused then f64.round (x + k * y)
    else match f64.round (k * y) with
      | .fin m => f64.round (x + m)
      | z => z
  | z => z

/-- `ns` after the additions; the compiler decides for each of them. (ISimulatorBinding.h:82-88.) -/
def sum (fused : Nat → Bool) (a : Amounts) : Fl :=
  add (fused 6) a.ns 1000 (add (fused 5) a.us 1000 (add (fused 4) a.ms 1000
    (add (fused 3) a.s 60 (add (fused 2) a.mn 60 (add (fused 1) a.h 24
      (add (fused 0) a.d 7 (.fin a.w)))))))

/-- `static_cast<Duration>` of a double: towards zero; undefined (`none`) when the result is not an
`Int64`. (ISimulatorBinding.h:89.) -/
def asDuration : Fl → Option Int
  | .fin q =>
    if -2 ^ 63 ≤ (if q < 0 then -(-q).floor else q.floor) ∧
        (if q < 0 then -(-q).floor else q.floor) < 2 ^ 63 then
      some (if q < 0 then -(-q).floor else q.floor)
    else none
  | _ => none

/-- The local `duration`. (ISimulatorBinding.h:82-89.) -/
def duration (fused : Nat → Bool) (a : Amounts) : Option Int := asDuration (sum fused a)

/-- How a call ends. (ISimulatorBinding.h:80-109; Simulator.cpp:306-329.) -/
inductive Out
  /-- the simulator executes, with a hold posted after that duration (lines 95, 97) -/
  | started (d : Int)
  /-- `Run` of the simulator refuses and the call returns; `left`: the scheduler keeps an event that
  points to the entry point `hold`, which does not exist any more (lines 92-95, 109;
  Simulator.cpp:286-297) -/
  | refused (left : Option Int)
  /-- `InvalidEventTime` (XsmpScheduler.cpp:145-150) -/
  | invalidTime
  /-- undefined behaviour (line 89) -/
  | ub
  deriving DecidableEq, Repr

/-- `Run` from Python in that state of the simulator, `last` being `_lastGlobalEventId`. The event is
posted before `ISimulator::Run` makes its test. (ISimulatorBinding.h:80-109.) -/
def pyRun (fused : Nat → Bool) (a : Amounts) (st : St) (last : Option Ev) : Out :=
  match duration fused a with
  | none => .ub
  | some d =>
    if st = .standby then
      if d < 0 then .invalidTime
      else if Op.guard .run st last then .started d
      else .refused (some d)
    else .refused none

/-- `Simulator::Run(Duration)`: the test is made before the event is posted.
(Simulator.cpp:306-329.) -/
def cppRun (d : Int) (st : St) (last : Option Ev) : Out :=
  if Op.guard .runFor st last then
    if d < 0 then .invalidTime else .started d
  else .refused none

end Verif.Python.Run
