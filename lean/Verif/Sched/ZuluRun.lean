import Verif.Sched.Inv

/-
Model of the Zulu thread of the scheduler: `XsmpScheduler::InternalZuluRun`,
`ExecuteZulu` and the calls that post, move and remove Zulu events
(src/Xsmp/Services/XsmpScheduler.cpp).

`PC` says where the thread is; `tick` performs the code up to the next point. At
the points marked as holding `_zuluEventsTableMutex` the calls that need this
mutex have no effect (they wait there). At the others, calls can be made by any
thread, the called entry point included. The Zulu clock advances at any point.

Simplifications, everywhere in this file:
* only the Zulu events of `_events` are kept; the events of the other time scales
  only use up numbers (`Input.other`). `_currentEventId` equals a Zulu event's
  number exactly while its entry point runs, since it is set and reset with
  `_execMutex` held (453-458, 414-419);
* the Zulu clock never goes back, and the clock of `wait_for` advances with it;
* whether the simulator is in state Executing or Standby is a flag, set freely;
* logging, `_events_table` (the key erased from it at line 365) and the order in which the
  mutexes are taken (`Sched/Locks.lean`) are left out.
-/
namespace Verif.Sched.Zulu
open Verif

/-- A Zulu event (XsmpScheduler.h:377-384; `time` is not read for them). -/
structure Ev where
  ep : Nat
  /-- `nextScheduleSimulationTime`, here a Zulu time -/
  next : Int
  cycle : Int
  /-- `repeat` -/
  rep : Int
  deriving DecidableEq, Repr

/-- Position of the Zulu thread (XsmpScheduler.cpp:514-570). `k` is the key of the iterator `it`,
`rest` the part of the local list `events` still to visit. -/
inductive PC
  /-- line 521, condition of `for`; mutex held -/
  | header
  /-- line 526, `while (!it->second.empty())`; mutex held -/
  | slot (k : Int)
  /-- line 535, before `ExecuteZulu(id)` -/
  | toExec (k id : Int) (rest : List Int)
  /-- line 455, the entry point of `id` is running -/
  | cb (k id : Int) (rest : List Int)
  /-- line 537, `ExecuteZulu` has returned -/
  | back (k : Int) (rest : List Int)
  /-- line 554, waiting for an event to be posted -/
  | waitAny
  /-- line 557, waiting, at most until the clock shows `d` -/
  | waitFor (d : Int)
  /-- the thread has ended -/
  | ended
  deriving DecidableEq, Repr

/-- The thread holds `_zuluEventsTableMutex`. (XsmpScheduler.cpp:514-570.) -/
def PC.locked : PC → Bool
  | .header => true
  | .slot _ => true
  | _ => false

/-- What the application can observe of the thread. Of the model only (what
XsmpScheduler.cpp:439-473 does). -/
inductive Obs
  /-- the entry point of `id` is invoked when the Zulu clock shows `at_` -/
  | called (id : Int) (ep : Nat) (at_ : Int)
  /-- an occurrence of `id` passes without a call: the simulator is in neither Executing nor
  Standby (448-451) -/
  | skipped (id : Int) (at_ : Int)
  deriving DecidableEq, Repr

/-- Data of the scheduler used by the thread (XsmpScheduler.h:393-418). -/
structure State where
  /-- the Zulu events of `_events` -/
  events : OMap Ev
  /-- `_zulu_events_table` -/
  table : OMap (List Int)
  /-- `_lastEventId` -/
  lastId : Int
  /-- `_terminate` -/
  terminate : Bool
  /-- the Zulu clock (`GetZuluTime`) -/
  clock : Int
  /-- the simulator is in state Executing or Standby -/
  active : Bool
  /-- the thread has something to look at before it can sleep (again): it has just entered the
  wait, or it was notified -/
  notified : Bool
  pc : PC
  fault : Option Fault
  /-- newest first -/
  log : List Obs
  deriving DecidableEq, Repr

/-- After `DoConnect` (XsmpScheduler.cpp:88-96). -/
def init (clock : Int) : State :=
  { events := [], table := [], lastId := -1, terminate := false, clock := clock, active := false,
    notified := false, pc := .header, fault := none, log := [] }

/-- Entering a wait with a predicate: it is evaluated before sleeping.
(XsmpScheduler.cpp:521-537.) -/
def State.enterWait (s : State) (pc : PC) : State := { s with pc := pc, notified := true }

/-- The end of `ExecuteZulu` (XsmpScheduler.cpp:461-472). -/
def State.finish (s : State) (k id : Int) (rest : List Int) : State :=
  match s.events.find id with
  | none => { s with fault := some .danglingEvent }
  | some e =>
    if e.rep = 0 then { s with events := s.events.erase id, pc := .back k rest }
    else match chk (e.next + e.cycle) with
      | none => { s with fault := some .overflow }
      | some t =>
        { s with
          events := s.events.insert id { e with rep := if e.rep > 0 then e.rep - 1 else e.rep,
                                                next := t }
          table := post s.table t id
          pc := .back k rest }

/-- The predicates of the two waits (XsmpScheduler.cpp:555, 563-568). -/
def State.pred (s : State) : Bool :=
  match s.pc with
  | .waitAny => s.terminate || !s.table.isEmpty
  | .waitFor _ => s.terminate || (match s.table.minKey with
      | none => false
      | some k => decide (k ≤ s.clock))
  | _ => false

/-- The time limit of the wait has passed. (XsmpScheduler.cpp:526-537.) -/
def State.timedOut (s : State) : Bool :=
  match s.pc with
  | .waitFor d => decide (d ≤ s.clock)
  | _ => false

/-- The thread looks at the predicate of its wait; the wait ends if it holds or if the time limit
has passed, then comes `while (!_terminate)` (XsmpScheduler.cpp:518). Otherwise the thread sleeps
again, until the same time limit. -/
def State.look (s : State) : State :=
  if s.pred || s.timedOut then
    { s with notified := false, pc := if s.terminate then .ended else .header }
  else { s with notified := false }

/-- The thread sleeps and nothing wakes it. (XsmpScheduler.cpp:521-537.) -/
def State.asleep (s : State) : Bool :=
  match s.pc with
  | .waitAny => !s.notified
  | .waitFor _ => !s.notified && !s.timedOut
  | _ => false

/-- One step of the thread (XsmpScheduler.cpp:439-473, 514-570). -/
def State.tick (s : State) : State :=
  match s.pc with
  | .header => match s.table.minKey with
    | none => s.enterWait .waitAny
    | some k => if k ≤ s.clock then { s with pc := .slot k } else s.enterWait (.waitFor k)
  | .slot k => match slotOf s.table k with
    | [] => { s with table := s.table.erase k, pc := .header }
    | id :: rest => { s with table := s.table.insert k [], pc := .toExec k id rest }
  | .toExec k id rest => match s.events.find id with
    | none => { s with fault := some .outOfRange }
    | some e =>
      if s.active then { s with pc := .cb k id rest, log := .called id e.ep s.clock :: s.log }
      else { s with log := .skipped id s.clock :: s.log }.finish k id rest
  | .cb k id rest => s.finish k id rest
  | .back k rest =>
    if s.terminate then { s with pc := .ended }
    else match rest with
      | [] => { s with pc := .slot k }
      | id :: rest => { s with pc := .toExec k id rest }
  | .waitAny => if s.asleep then s else s.look
  | .waitFor _ => if s.asleep then s else s.look
  | .ended => s

/-- `_currentEventId`, as far as Zulu events go. (XsmpScheduler.cpp:439-473.) -/
def PC.current : PC → Option Int
  | .cb _ id _ => some id
  | _ => none

/-- `AddZuluTimeEvent` (XsmpScheduler.cpp:203-232); `seen` is the clock it read. -/
def State.add (s : State) (seen : Int) (ep : Nat) (t c r : Int) : State :=
  if t < seen then s
  else if r ≠ 0 ∧ c ≤ 0 then s
  else match chk (s.lastId + 1) with
    | none => { s with fault := some .overflow }
    | some n =>
      { s with lastId := n, events := s.events.insert n ⟨ep, t, c, r⟩, table := post s.table t n,
               notified := true }

/-- `SetEventZuluTime` (XsmpScheduler.cpp:289-314); `seen` is the clock it read. The slot of the
old time is created if it is not there, and is left there when it becomes empty. -/
def State.setTime (s : State) (seen id t : Int) : State :=
  match s.events.find id with
  | none => s
  | some e =>
    let tb := s.table.insert e.next (IdSet.erase id (slotOf s.table e.next))
    if t < seen then { s with table := tb, events := s.events.erase id }
    else { s with table := post tb t id, events := s.events.insert id { e with next := t },
                  notified := true }

/-- `SetEventCycleTime` (XsmpScheduler.cpp:316-328). -/
def State.setCycle (s : State) (id c : Int) : State :=
  match s.events.find id with
  | none => s
  | some e => if e.rep > 0 ∧ c ≤ 0 then s
    else { s with events := s.events.insert id { e with cycle := c } }

/-- `SetEventRepeat` (XsmpScheduler.cpp:330-343). -/
def State.setRepeat (s : State) (id r : Int) : State :=
  match s.events.find id with
  | none => s
  | some e => if r ≠ 0 ∧ e.cycle ≤ 0 then s
    else { s with events := s.events.insert id { e with rep := r } }

/-- `RemoveEvent` (XsmpScheduler.cpp:345-378) of a Zulu event. -/
def State.remove (s : State) (id : Int) : State :=
  match s.events.find id with
  | none => s
  | some e =>
    if s.pc.current = some id then { s with events := s.events.insert id { e with rep := 0 } }
    else { s with table := s.table.insert e.next (IdSet.erase id (slotOf s.table e.next)),
                  events := s.events.erase id }

/-- What can happen. -/
inductive Input
  | tick
  /-- a wait may end early for no reason -/
  | spurious
  | advance (d : Nat)
  | simState (active : Bool)
  /-- an event of another time scale gets a number -/
  | other
  | add (seen : Int) (ep : Nat) (t c r : Int)
  | setTime (seen id t : Int)
  | setCycle (id c : Int)
  | setRepeat (id r : Int)
  | remove (id : Int)
  /-- `DoDisconnect` (XsmpScheduler.cpp:98-112), until the thread is joined -/
  | disconnect
  deriving DecidableEq, Repr

/-- The input needs `_zuluEventsTableMutex` (XsmpScheduler.cpp:219, 293, 358, 101). `RemoveEvent`
of the event that is running does not, but no event is running while the thread holds it. -/
def Input.needs : Input → Bool
  | .add .. => true
  | .setTime .. => true
  | .remove _ => true
  | .disconnect => true
  | _ => false

/-- One step of the whole. The time a call has read was shown by the clock before.
(XsmpScheduler.cpp:203-378, 439-570.) -/
def step (s : State) (i : Input) : State :=
  if s.fault.isSome then s
  else if i.needs && s.pc.locked then s
  else match i with
    | .tick => s.tick
    | .spurious => match s.pc with
      | .waitAny => s.look
      | .waitFor _ => s.look
      | _ => s
    | .advance d => { s with clock := s.clock + d }
    | .simState a => { s with active := a }
    | .other => match chk (s.lastId + 1) with
      | none => { s with fault := some .overflow }
      | some n => { s with lastId := n }
    | .add seen ep t c r => if seen ≤ s.clock then s.add seen ep t c r else s
    | .setTime seen id t => if seen ≤ s.clock then s.setTime seen id t else s
    | .setCycle id c => s.setCycle id c
    | .setRepeat id r => s.setRepeat id r
    | .remove id => s.remove id
    | .disconnect => { s with terminate := true, notified := true }

/-- Of the model only (executions of XsmpScheduler.cpp:203-378 and 439-570). -/
def run (s : State) (is : List Input) : State := is.foldl step s

end Verif.Sched.Zulu
