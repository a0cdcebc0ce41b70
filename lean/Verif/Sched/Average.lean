import Verif.Chrono.Floating

/-! The moving average of the scheduler: `XsmpScheduler::MovingAverage` (XsmpScheduler.h:425-438,
XsmpScheduler.cpp:672-695). The lock is left out: the calls come one after the other. -/
namespace Verif.Sched.Average
open Verif.Any (Fl)
open Verif.Float (f64)
open Verif.Chrono.Floating (addF subF divF)

/-- `sampleCount` (XsmpScheduler.h:433). -/
def sampleCount : Nat := 20

/-- The members (XsmpScheduler.h:432-436). `samples` has `sampleCount` elements. -/
structure Avg where
  sum : Fl
  samples : List Fl
  index : Nat
  size : Nat

/-- `clear` (XsmpScheduler.cpp:688-695). -/
def clear (_ : Avg) : Avg := ⟨.fin 0, List.replicate sampleCount (.fin 0), 0, 0⟩

/-- `AddSample` (XsmpScheduler.cpp:672-683); the sum is computed from left to right. The index is below
`sampleCount` always; an element that is not there counts as a NaN here. -/
def addSample (a : Avg) (x : Fl) : Avg :=
  { sum := subF f64 (addF f64 a.sum x) (a.samples.getD a.index .nan)
    samples := a.samples.set a.index x
    index := if a.index + 1 = sampleCount then 0 else a.index + 1
    size := if a.size < sampleCount then a.size + 1 else a.size }

/-- `GetAverage` (XsmpScheduler.cpp:684-687). -/
def average (a : Avg) : Fl := if a.size = 0 then .fin 0 else divF f64 a.sum (.fin a.size)

/-- The calls (XsmpScheduler.cpp:599-600, 631, 663-664). -/
inductive Op
  | clear
  | add (x : Fl)

/-- One call (XsmpScheduler.cpp:672-695). -/
def step (a : Avg) : Op → Avg
  | .clear => Average.clear a
  | .add x => addSample a x

/-- A history of calls. Of the model only (sequences of the calls of XsmpScheduler.cpp:672-695). -/
def run (a : Avg) (os : List Op) : Avg := os.foldl step a

end Verif.Sched.Average
