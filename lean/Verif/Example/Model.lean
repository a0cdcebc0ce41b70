import Verif.Gen.Model
import Verif.Sched.Model

/-!
Model of the example project (examples/project1): `Counter` and `CounterManager` with the code
generated for them, and the counters driven by the scheduler.

Simplified: one manager; its container is filled before (C32 is about containers); a published
field of type `Int32` is assigned what `coerce` reads; counters are numbers.
-/
namespace Verif.Example
open Verif.Any (Kind Fl Val Any Out)
open Verif.Path (Str)
open Verif.Pub
open Verif.Gen (Ends)
open Verif.Field (coerce)

/-- The container `counters` of the manager, in order, and the field `count` of every counter
(CounterManagerGen.cpp:29, CounterGen.h:126, CounterGen.cpp:35). -/
structure World where
  counters : List Nat
  count : Nat → Int

/-- The assignment to the field `count` of the counter `c`. Of the model only (Counter.cpp:23-25,
CounterManager.cpp:37). -/
def World.store (w : World) (c : Nat) (v : Int) : World :=
  { w with count := fun d => if d = c then v else w.count d }

/-- The result of an `Int32` addition; `none` is the undefined overflow. Of the model only (the
additions of Counter.cpp:23, 25 and CounterManager.cpp:26). -/
def i32 (v : Int) : Option Int := if -2147483648 ≤ v ∧ v ≤ 2147483647 then some v else none

/-- `Counter::_IncrementCount` (Counter.cpp:23). -/
def increment (w : World) (c : Nat) : Option World := (i32 (w.count c + 1)).map (w.store c)

/-- `Counter::ResetCount` (Counter.cpp:24). -/
def resetCount (w : World) (c : Nat) : World := w.store c 0

/-- `Counter::_Add` (Counter.cpp:25). -/
def add (w : World) (c : Nat) (v : Int) : Option World := (i32 (w.count c + v)).map (w.store c)

/-- `CounterManager::get_sum` (CounterManager.cpp:23-28): `std::accumulate` from 0, in `Int32`. -/
def getSum (w : World) : Option Int :=
  w.counters.foldl (fun a c => a.bind fun n => i32 (n + w.count c)) (some 0)

/-- `CounterManager::get_average` (CounterManager.cpp:29-34). `rnd` rounds the quotient to the
nearest `Float64`; the conversions of the operands are exact (a `size()` below 2^53). -/
def getAverage (rnd : Rat → Fl) (w : World) : Option Fl :=
  if w.counters = [] then some (.fin 0)
  else (getSum w).map fun s : Int => rnd ((s : Rat) / (w.counters.length : Rat))

/-- `CounterManager::set_count` (CounterManager.cpp:35-38). -/
def setCount (w : World) (v : Int) : World := w.counters.foldl (fun u c => u.store c v) w

/-- The request handlers of the manager (CounterManagerGen.cpp:84-112). -/
inductive Handler
  | getSum
  | getAverage
  | setCount
  deriving DecidableEq

/-- `requestHandlers` of the manager; the names differ, so no `find` succeeds
(CounterManagerGen.cpp:84-112). -/
def handlers : List (Str × Handler) :=
  [("get_sum".toList, .getSum), ("get_average".toList, .getAverage),
   ("set_count".toList, .setCount)]

/-- The function of a handler (CounterManagerGen.cpp:87-110). -/
def Handler.run (narrow : Fl → Fl) (rnd : Rat → Fl) (R : Registry) (w : World) (q : AnyReq) :
    Handler → World × AnyReq × Ends
  | .getSum => match Example.getSum w with
    | none => (w, q, .ub)
    | some s => (w, Gen.setReturn R q ⟨.Int32, .int s⟩)
  | .getAverage => match Example.getAverage rnd w with
    | none => (w, q, .ub)
    | some x => (w, Gen.setReturn R q ⟨.Float64, .float x⟩)
  | .setCount => match Gen.param narrow q "count".toList ⟨false, 0, .Int32, 0⟩ with
    | .ok (.int v) => (Example.setCount w v, q, .ok)
    | .ub => (w, q, .ub)
    | _ => (w, q, .raised)

/-- `CounterManagerGen::Invoke` (CounterManagerGen.cpp:114-125); `Model::Invoke` raises. -/
def managerInvoke (narrow : Fl → Fl) (rnd : Rat → Fl) (R : Registry) (w : World) (q : AnyReq) :
    World × AnyReq × Ends :=
  match handlers.find? (fun e => e.1 == q.opName) with
  | some e => e.2.run narrow rnd R w q
  | none => (w, q, .raised)

/-- `CounterGen::Invoke` (CounterGen.cpp:81-103): the only operation resets the counter, and takes
nothing from the request. -/
def counterInvoke (w : World) (c : Nat) (q : AnyReq) : World × Ends :=
  if q.opName = "ResetCount".toList then (resetCount w c, .ok) else (w, .raised)

/-- `CounterManagerGen::Publish` (CounterManagerGen.cpp:31-50). -/
def publish (R : Registry) : Pubn :=
  let P1 := (Pubn.publishProperty R ⟨[], []⟩ (some "sum".toList) (primUuid .Int32) .readOnly).1
  let P2 := (P1.publishProperty R (some "average".toList) (primUuid .Float64) .readOnly).1
  (P2.publishProperty R (some "count".toList) (primUuid .Int32) .writeOnly).1

/-- `Property::GetValue` (Property.cpp:153-164) of a property of the manager. -/
def getValue (narrow : Fl → Fl) (rnd : Rat → Fl) (R : Registry) (w : World) (p : Prp) :
    World × Out Any :=
  if p.access = .writeOnly then (w, .throw)
  else match managerInvoke narrow rnd R w (.getter ⟨p, noValue⟩) with
    | (w', .getter g, .ok) => (w', .ok g.ret)
    | (w', _, .ub) => (w', .ub)
    | (w', _, _) => (w', .throw)

/-- `Property::SetValue` (Property.cpp:166-176) of a property of the manager. -/
def setValue (narrow : Fl → Fl) (rnd : Rat → Fl) (R : Registry) (w : World) (p : Prp) (v : Any) :
    World × Ends :=
  if p.access = .readOnly then (w, .raised)
  else match validFor R p.uuid v with
    | .ok true =>
      ((managerInvoke narrow rnd R w (.setter ⟨p, v⟩)).1,
        (managerInvoke narrow rnd R w (.setter ⟨p, v⟩)).2.2)
    | .ub => (w, .ub)
    | _ => (w, .raised)

/-- What can be called from outside: the entry point, the event sink, `Invoke` and the field of a
counter, and a property of the manager (CounterGen.h:116-126, CounterManagerGen.h:114-130). -/
inductive Act
  | execute (c : Nat)
  | notify (c : Nat) (v : Any)
  | invoke (c : Nat) (q : AnyReq)
  | write (c : Nat) (v : Any)
  | set (p : Str) (v : Any)

/-- One call; `none` is undefined behaviour, and a call that raises changes nothing
(Counter.cpp:23-25, EventSink.h:103-105, CounterGen.cpp:42-43, 92-103, Property.cpp:166-176). -/
def act (narrow : Fl → Fl) (rnd : Rat → Fl) (R : Registry) (w : World) : Act → Option World
  | .execute c => increment w c
  | .notify c v => match coerce narrow .Int32 0 v with
    | .ok (.int n) => add w c n
    | .ub => none
    | _ => some w
  | .invoke c q => some (counterInvoke w c q).1
  | .write c v => match coerce narrow .Int32 0 v with
    | .ok (.int n) => some (w.store c n)
    | .ub => none
    | _ => some w
  | .set n v => match Gen.propOf (publish R) n with
    | none => some w
    | some p => match setValue narrow rnd R w p v with
      | (_, .ub) => none
      | (w', _) => some w'

/-- A sequence of calls. Of the model only (sequences of the calls of Counter.cpp:23-25). -/
def acts (narrow : Fl → Fl) (rnd : Rat → Fl) (R : Registry) (w : World) : List Act → Option World
  | [] => some w
  | a :: as => (act narrow rnd R w a).bind fun w' => acts narrow rnd R w' as

/-! ### The counters and the scheduler -/

/-- The scheduler and the counters. `ub` tells that an addition has overflowed. Of the model only
(XsmpScheduler.cpp:412-419 calling Counter.cpp:23). -/
structure Sys where
  sched : Sched.State
  world : World
  ub : Bool

/-- What happens: a step of the scheduler, or a call from outside. Of the model only (the calls of
XsmpScheduler.cpp:80-390 and Counter.cpp:23-25). -/
inductive Input
  | sched (i : Sched.Input)
  | act (a : Act)

/-- The entry points called between two logs of the scheduler, oldest first
(XsmpScheduler.cpp:412-419). -/
def calledSince (old new : List Sched.Obs) : List Nat :=
  (new.take (new.length - old.length)).reverse.filterMap fun
    | .called _ ep _ => some ep
    | .skipped .. => none

/-- The execution of an entry point by the scheduler: that of the counter `owner ep`, if it is the
`IncrementCount` of one (EntryPoint.cpp:46, CounterGen.cpp:27-28, Counter.cpp:23). -/
def Sys.call (owner : Nat → Option Nat) (s : Sys) (ep : Nat) : Sys :=
  match owner ep with
  | none => s
  | some c => match increment s.world c with
    | some w => { s with world := w }
    | none => { s with ub := true }

/-- One step; nothing happens any more after undefined behaviour. Of the model only
(XsmpScheduler.cpp:412-419, Counter.cpp:23-25). -/
def Sys.step (narrow : Fl → Fl) (rnd : Rat → Fl) (R : Registry) (owner : Nat → Option Nat)
    (s : Sys) (i : Input) : Sys :=
  if s.ub then s
  else match i with
    | .sched i => (calledSince s.sched.log (Sched.step s.sched i).log).foldl (Sys.call owner)
        { s with sched := Sched.step s.sched i }
    | .act a => match act narrow rnd R s.world a with
      | some w => { s with world := w }
      | none => { s with ub := true }

/-- An execution. Of the model only (sequences of the steps above, XsmpScheduler.cpp:412-419). -/
def Sys.exec (narrow : Fl → Fl) (rnd : Rat → Fl) (R : Registry) (owner : Nat → Option Nat)
    (s : Sys) (is : List Input) : Sys := is.foldl (Sys.step narrow rnd R owner) s

end Verif.Example
