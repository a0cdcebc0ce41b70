import Verif.Base.OMap
import Verif.Base.IdSet

/-
Model of the scheduler service `src/Xsmp/Services/XsmpScheduler.{h,cpp}` together
with the part of the time keeper (`src/Xsmp/Services/XsmpTimeKeeper.cpp`) it
reads and writes.

The run loop `_EnterExecuting` and the functions it calls are modelled as a
small-step machine: `PC` records where the simulation thread is, including the
contents of the local variables `events`/`current` (the swapped-out batches) and
the key the loop iterator `it` points to. One `tick` performs the code up to the
next such point. API calls can be interleaved at every point, so the model
covers calls made by entry points executed by the loop, by subscribers of
PreSimTimeChange/PostSimTimeChange, by the application while held, and (at the
granularity of a whole call) by other threads.

Signed 64-bit overflow, use of an erased iterator or event and exceptions that
escape the loop are explicit outcomes (`Fault`).

Simplifications, everywhere in this file:
* logging, the wall-clock pacing (`delay`, `_load`, `_speed`) and condition
  variables are left out; whether the loop waits is a Boolean input of `tick`;
* entry points are identified by a number;
* the Zulu thread is not a thread of this machine (see `Sched/ZuluRun.lean` and
  `Sched/Locks.lean`); Zulu events are posted, moved and removed here, and the Zulu clock is an
  argument of the calls that read it;
* the time keeper, itself a subscriber of Pre/PostSimTimeChange, runs first when
  these events are emitted;
* `_EnterExecuting` is not nested (`run` is ignored unless the loop is idle).
-/
namespace Verif.Sched

/-- `::Smp::Services::TimeKind`. (Used in XsmpScheduler.h:377-384.) -/
inductive TimeKind | simulation | mission | epoch | zulu
  deriving DecidableEq, Repr

/-- The time scales of the calls that post in `_events_table`
(`Add/SetEvent{Simulation,Mission,Epoch}Time`). (XsmpScheduler.cpp:168-201, 263-287.) -/
inductive SimKind | simulation | mission | epoch
  deriving DecidableEq, Repr

/-- The `TimeKind` passed by these calls (XsmpScheduler.cpp:176, 188, 200, 268, 277, 286). -/
def SimKind.kind : SimKind → TimeKind
  | .simulation => .simulation
  | .mission => .mission
  | .epoch => .epoch

/-- `XsmpScheduler::Event` (XsmpScheduler.h:377-384). -/
structure Event where
  ep : Nat
  /-- `nextScheduleSimulationTime` -/
  next : Int
  /-- `time`, in the time scale of `kind` -/
  time : Int
  cycle : Int
  /-- `repeat` -/
  rep : Int
  kind : TimeKind
  deriving DecidableEq, Repr

/-- Outcomes that end the modelled execution. Of the model only (the outcomes of
XsmpScheduler.cpp:393-665). -/
inductive Fault
  /-- signed 64-bit overflow (undefined behaviour) -/
  | overflow
  /-- the loop iterator `it` is used after its node was erased (undefined behaviour) -/
  | danglingIter
  /-- `Execute` uses its `Event &` after the event was erased (undefined behaviour) -/
  | danglingEvent
  /-- `_events.at(id)` throws `std::out_of_range` out of the run loop -/
  | outOfRange
  /-- `SetSimulationTime` throws `InvalidSimulationTime` out of the run loop -/
  | badTime
  deriving DecidableEq, Repr

/-- Where `ExecuteImmediateEvents` (XsmpScheduler.cpp:494-512) was called from:
line 605 (`start`), line 657 (`slot`), or line 485 with the not yet executed
part of the local batch `current` (`inSlot`). -/
inductive Ret
  | start
  | slot
  | inSlot (rest : List Int)
  deriving DecidableEq, Repr

/-- Where `Execute` (XsmpScheduler.cpp:393-437) was called from: line 502 with the
rest of the local batch `events`, or line 483 with the rest of `current`. -/
inductive Frame
  | imm (rest : List Int) (r : Ret)
  | due (rest : List Int)
  deriving DecidableEq, Repr

/-- Position of the simulation thread. -/
inductive PC
  /-- not inside `_EnterExecuting` -/
  | idle
  /-- XsmpScheduler.cpp:496, `while (!_immediate_events.empty())` -/
  | immTest (r : Ret)
  /-- XsmpScheduler.cpp:501, `for`, with the elements still to visit -/
  | immFor (rest : List Int) (r : Ret)
  /-- XsmpScheduler.cpp:617, subscribers of PreSimTimeChange are running -/
  | preEmit
  /-- XsmpScheduler.cpp:623-647, pacing before the time change -/
  | waiting
  /-- XsmpScheduler.cpp:653, subscribers of PostSimTimeChange are running -/
  | postEmit
  /-- XsmpScheduler.cpp:478, `while (!events.empty())` -/
  | slotTest
  /-- XsmpScheduler.cpp:482, `for`, with the elements still to visit -/
  | slotFor (rest : List Int)
  /-- XsmpScheduler.cpp:416, the entry point of event `id` is running -/
  | cb (id : Int) (f : Frame)
  deriving DecidableEq, Repr

/-- What the application can observe of the loop. -/
inductive Obs
  /-- entry point `ep` invoked for event `id` at simulation time `t` -/
  | called (id : Int) (ep : Nat) (t : Int)
  /-- occurrence of a mission/epoch event skipped (XsmpScheduler.cpp:399-410) -/
  | skipped (id : Int) (t : Int)
  deriving DecidableEq, Repr

/-- Scheduler (XsmpScheduler.h:393-418) and time keeper
(XsmpTimeKeeper.h: `_simulationTime`, `_missionStartTime`, `_epochStart`,
`_simTimeChanging`) data, and the position of the loop. -/
structure State where
  /-- `_events` -/
  events : OMap Event
  /-- `_events_table` -/
  table : OMap (List Int)
  /-- `_zulu_events_table` -/
  zulu : OMap (List Int)
  /-- `_immediate_events` -/
  imm : List Int
  /-- `_lastEventId` -/
  lastId : Int
  /-- `_currentEventId` -/
  current : Int
  /-- `_simulationStatus == Status::Hold` -/
  hold : Bool
  /-- time keeper `_simulationTime` -/
  now : Int
  /-- time keeper `_epochStart` -/
  epochStart : Int
  /-- time keeper `_missionStartTime` -/
  missionStart : Int
  /-- time keeper `_simTimeChanging` -/
  changing : Bool
  /-- position in the run loop -/
  pc : PC
  /-- `it->first` of the loop iterator of XsmpScheduler.cpp:612 -/
  iter : Int
  /-- the node of the loop iterator has not been erased -/
  itOk : Bool
  /-- undefined behaviour or escaped exception -/
  fault : Option Fault
  /-- observations, newest first -/
  log : List Obs
  deriving DecidableEq, Repr

/-- `std::numeric_limits<Int64>::max()` (XsmpScheduler.cpp:67-68). -/
def maxI64 : Int := 9223372036854775807
/-- `std::numeric_limits<Int64>::min()`. (Signed overflow in XsmpTimeKeeper.cpp:48-93.) -/
def minI64 : Int := -9223372036854775808

/-- Result of a signed 64-bit arithmetic operation; `none` is overflow. (Signed overflow in
XsmpScheduler.cpp:139-287, XsmpTimeKeeper.cpp:48-93.) -/
def chk (x : Int) : Option Int := if minI64 ≤ x ∧ x ≤ maxI64 then some x else none

/-- The constructor (XsmpScheduler.cpp:70-81): the hold event with id -2 (entry
point number 0) at the maximal duration. Time keeper values start at 0
(XsmpTimeKeeper.h). -/
def init : State where
  events := [(-2, { ep := 0, next := maxI64, time := maxI64, cycle := 0, rep := 0,
                    kind := .simulation })]
  table := [(maxI64, [-2])]
  zulu := []
  imm := []
  lastId := -1
  current := -1
  hold := true
  now := 0
  epochStart := 0
  missionStart := 0
  changing := false
  pc := .idle
  iter := 0
  itOk := true
  fault := none
  log := []

/-- Exceptions of the public calls. (XsmpScheduler.cpp:125-378.) -/
inductive Exn
  | InvalidEventTime | InvalidCycleTime | InvalidEventId | InvalidSimulationTime
  deriving DecidableEq, Repr

/-- Result of a public call. Of the model only (what XsmpScheduler.cpp:125-391 returns). -/
inductive Res
  | id (i : Int)
  | done
  | exn (e : Exn)
  /-- undefined behaviour inside the call; the state carries the `Fault` -/
  | ub
  deriving DecidableEq, Repr

/-- The list stored at key `k`, empty if there is none (`_events_table[k]`,
`try_emplace(k).first->second`). (XsmpScheduler.cpp:160.) -/
def slotOf (m : OMap (List Int)) (k : Int) : List Int := (m.find k).getD []

/-- `table.try_emplace(k).first->second.emplace(id)` (e.g. XsmpScheduler.cpp:160). -/
def post (m : OMap (List Int)) (k id : Int) : OMap (List Int) :=
  m.insert k (IdSet.insert id (slotOf m k))

/-- Undefined behaviour or escaping exception. Of the model only (the outcomes of
XsmpScheduler.cpp:393-665). -/
def State.fail (s : State) (f : Fault) : State := { s with fault := some f }

/-- `_events_table.erase(k)`: if the loop iterator points to `k` it becomes invalid.
(XsmpScheduler.cpp:245-251, 369-375, 487-488, 657-659.) -/
def State.eraseKey (s : State) (k : Int) : State :=
  { s with table := s.table.erase k, itOk := s.itOk && decide (k ≠ s.iter) }

/-- `auto &events = _events_table[k]; events.erase(id);
if (events.empty()) _events_table.erase(k);` (XsmpScheduler.cpp:245-251, 369-375). -/
def State.unpost (s : State) (k id : Int) : State :=
  let l := IdSet.erase id (slotOf s.table k)
  if l = [] then s.eraseKey k else { s with table := s.table.insert k l }

/-- `TimeKeeper::GetEpochTime` (XsmpTimeKeeper.cpp:48-50). -/
def State.epochTime (s : State) : Option Int := chk (s.now - s.epochStart)

/-- `TimeKeeper::GetMissionTime` (XsmpTimeKeeper.cpp:52-55). -/
def State.missionTime (s : State) : Option Int :=
  (chk (s.now - s.epochStart)).bind fun a => chk (a - s.missionStart)

/-- `GetNextScheduledEventTime` (XsmpScheduler.cpp:385-391). -/
def State.nextScheduled (s : State) : Int := (s.table.minKey).getD maxI64

/-! ### Public calls -/

/-- `AddImmediateEvent` (XsmpScheduler.cpp:125-137). `_events.try_emplace` is `insert` here and below:
the identifier is larger than every one in `_events`, but after a `Restore` that failed
(`C133_id_fails`, which does not depend on this). -/
def addImmediate (s : State) (ep : Nat) : State × Res :=
  match chk (s.lastId + 1) with
  | none => (s.fail .overflow, .ub)
  | some n =>
    ({ s with
        lastId := n
        events := s.events.insert n
          { ep := ep, next := s.now, time := s.now, cycle := 0, rep := 0, kind := .simulation }
        imm := IdSet.insert n s.imm }, .id n)

/-- `AddEvent` (XsmpScheduler.cpp:139-166). -/
def addEvent (s : State) (ep : Nat) (simTime time cycle rep : Int) (kind : TimeKind) :
    State × Res :=
  if simTime < s.now then (s, .exn .InvalidEventTime)
  else if rep ≠ 0 ∧ cycle ≤ 0 then (s, .exn .InvalidCycleTime)
  else match chk (s.lastId + 1) with
    | none => (s.fail .overflow, .ub)
    | some n =>
      ({ s with
          lastId := n
          events := s.events.insert n
            { ep := ep, next := simTime, time := time, cycle := cycle, rep := rep, kind := kind }
          table := post s.table simTime n }, .id n)

/-- Simulation time corresponding to a relative simulation time
(XsmpScheduler.cpp:172-174, 266-267). -/
def simTarget (s : State) (dt : Int) : Option Int := chk (s.now + dt)

/-- Simulation time corresponding to a mission time (XsmpScheduler.cpp:183-185, 273-275). -/
def missionTarget (s : State) (mt : Int) : Option Int :=
  (chk (s.now + mt)).bind fun a => s.missionTime.bind fun m => chk (a - m)

/-- Simulation time corresponding to an epoch time (XsmpScheduler.cpp:195-197, 282-284). -/
def epochTarget (s : State) (et : Int) : Option Int :=
  (chk (s.now + et)).bind fun a => s.epochTime.bind fun m => chk (a - m)

/-- Simulation time targeted by a call of kind `k` with argument `x` (dispatch of the three
functions above). (XsmpScheduler.cpp:168-201, 263-287.) -/
def target (s : State) (k : SimKind) (x : Int) : Option Int :=
  match k with
  | .simulation => simTarget s x
  | .mission => missionTarget s x
  | .epoch => epochTarget s x

/-- The value stored in `Event::time`: the absolute simulation time for
simulation events (XsmpScheduler.cpp:172-176), the argument otherwise
(XsmpScheduler.cpp:187, 199). -/
def stampOf (k : SimKind) (simTime x : Int) : Int :=
  match k with
  | .simulation => simTime
  | _ => x

/-- `AddSimulationTimeEvent`, `AddMissionTimeEvent`, `AddEpochTimeEvent`
(XsmpScheduler.cpp:168-201). -/
def addTimed (s : State) (k : SimKind) (ep : Nat) (x cycle rep : Int) : State × Res :=
  match target s k x with
  | none => (s.fail .overflow, .ub)
  | some t => addEvent s ep t (stampOf k t x) cycle rep k.kind

/-- `AddZuluTimeEvent` (XsmpScheduler.cpp:203-232); `zuluNow` is the Zulu clock. -/
def addZulu (s : State) (ep : Nat) (zuluTime cycle rep zuluNow : Int) : State × Res :=
  if zuluTime < zuluNow then (s, .exn .InvalidEventTime)
  else if rep ≠ 0 ∧ cycle ≤ 0 then (s, .exn .InvalidCycleTime)
  else match chk (s.lastId + 1) with
    | none => (s.fail .overflow, .ub)
    | some n =>
      ({ s with
          lastId := n
          events := s.events.insert n
            { ep := ep, next := zuluTime, time := zuluTime, cycle := cycle, rep := rep,
              kind := .zulu }
          zulu := post s.zulu zuluTime n }, .id n)

/-- `SetEventTime` (XsmpScheduler.cpp:234-261). -/
def setEventTime (s : State) (id simTime time : Int) (kind : TimeKind) : State × Res :=
  match s.events.find id with
  | none => (s, .exn .InvalidEventId)
  | some e =>
    if e.kind ≠ kind then (s, .exn .InvalidEventId)
    else
      let s1 := s.unpost e.next id
      if simTime < s.now then ({ s1 with events := s1.events.erase id }, .done)
      else
        ({ s1 with
            events := s1.events.insert id { e with next := simTime, time := time }
            table := post s1.table simTime id }, .done)

/-- `SetEventSimulationTime`, `SetEventMissionTime`, `SetEventEpochTime`
(XsmpScheduler.cpp:263-287). -/
def setTimed (s : State) (k : SimKind) (id x : Int) : State × Res :=
  match target s k x with
  | none => (s.fail .overflow, .ub)
  | some t => setEventTime s id t (stampOf k t x) k.kind

/-- `SetEventZuluTime` (XsmpScheduler.cpp:289-314). -/
def setZulu (s : State) (id zuluTime zuluNow : Int) : State × Res :=
  match s.events.find id with
  | none => (s, .exn .InvalidEventId)
  | some e =>
    if e.kind ≠ .zulu then (s, .exn .InvalidEventId)
    else
      let z1 := s.zulu.insert e.next (IdSet.erase id (slotOf s.zulu e.next))
      if zuluTime < zuluNow then
        ({ s with zulu := z1, events := s.events.erase id }, .done)
      else
        ({ s with
            events := s.events.insert id { e with next := zuluTime }
            zulu := post z1 zuluTime id }, .done)

/-- `SetEventCycleTime` (XsmpScheduler.cpp:316-328). -/
def setCycle (s : State) (id cycle : Int) : State × Res :=
  match s.events.find id with
  | none => (s, .exn .InvalidEventId)
  | some e =>
    if e.rep > 0 ∧ cycle ≤ 0 then (s, .exn .InvalidCycleTime)
    else ({ s with events := s.events.insert id { e with cycle := cycle } }, .done)

/-- `SetEventRepeat` (XsmpScheduler.cpp:330-343). -/
def setRepeat (s : State) (id rep : Int) : State × Res :=
  match s.events.find id with
  | none => (s, .exn .InvalidEventId)
  | some e =>
    if rep ≠ 0 ∧ e.cycle ≤ 0 then (s, .exn .InvalidCycleTime)
    else ({ s with events := s.events.insert id { e with rep := rep } }, .done)

/-- `RemoveEvent` (XsmpScheduler.cpp:345-378). The Zulu branch erases the key from
`_events_table`, as the code does (lines 364-366). -/
def remove (s : State) (id : Int) : State × Res :=
  match s.events.find id with
  | none => (s, .exn .InvalidEventId)
  | some e =>
    if s.current = id then
      ({ s with events := s.events.insert id { e with rep := 0 } }, .done)
    else if e.kind = .zulu then
      let l := IdSet.erase id (slotOf s.zulu e.next)
      let s1 := { s with zulu := s.zulu.insert e.next l }
      let s2 := if l = [] then s1.eraseKey e.next else s1
      ({ s2 with events := s2.events.erase id }, .done)
    else
      let s1 := s.unpost e.next id
      ({ s1 with events := s1.events.erase id }, .done)

/-- `TimeKeeper::SetSimulationTime` (XsmpTimeKeeper.cpp:81-93). -/
def setSimTime (s : State) (t : Int) : State × Res :=
  if !s.changing then (s, .done)
  else if t < s.now ∨ t > s.nextScheduled then (s, .exn .InvalidSimulationTime)
  else ({ s with now := t }, .done)

/-- `TimeKeeper::SetEpochTime` (XsmpTimeKeeper.cpp:61-65), without its event. -/
def setEpochTime (s : State) (t : Int) : State × Res :=
  match chk (s.now - t) with
  | none => (s.fail .overflow, .ub)
  | some x => ({ s with epochStart := x }, .done)

/-- `TimeKeeper::SetMissionStartTime` (XsmpTimeKeeper.cpp:67-71), without its event. -/
def setMissionStart (s : State) (t : Int) : State × Res := ({ s with missionStart := t }, .done)

/-- `TimeKeeper::SetMissionTime` (XsmpTimeKeeper.cpp:73-79), without its event. -/
def setMissionTime (s : State) (t : Int) : State × Res :=
  match (chk (s.now - s.epochStart)).bind fun a => chk (a - t) with
  | none => (s.fail .overflow, .ub)
  | some x => ({ s with missionStart := x }, .done)

/-- A public call. -/
inductive Op
  | addImmediate (ep : Nat)
  | addTimed (k : SimKind) (ep : Nat) (x cycle rep : Int)
  | addZulu (ep : Nat) (zuluTime cycle rep zuluNow : Int)
  | setTimed (k : SimKind) (id x : Int)
  | setZulu (id zuluTime zuluNow : Int)
  | setCycle (id cycle : Int)
  | setRepeat (id rep : Int)
  | remove (id : Int)
  /-- `_LeaveExecuting` (XsmpScheduler.cpp:584-590), the effect of `Hold(true)` -/
  | hold
  | setSimTime (t : Int)
  | setEpochTime (t : Int)
  | setMissionStart (t : Int)
  | setMissionTime (t : Int)
  deriving DecidableEq, Repr

/-- Effect and result of a public call. (XsmpScheduler.cpp:125-391.) -/
def apply (s : State) : Op → State × Res
  | .addImmediate ep => addImmediate s ep
  | .addTimed k ep x c r => addTimed s k ep x c r
  | .addZulu ep z c r zn => addZulu s ep z c r zn
  | .setTimed k id x => setTimed s k id x
  | .setZulu id z zn => setZulu s id z zn
  | .setCycle id c => setCycle s id c
  | .setRepeat id r => setRepeat s id r
  | .remove id => remove s id
  | .hold => ({ s with hold := true }, .done)
  | .setSimTime t => setSimTime s t
  | .setEpochTime t => setEpochTime s t
  | .setMissionStart t => setMissionStart s t
  | .setMissionTime t => setMissionTime s t

/-! ### The run loop -/

/-- `events.insert(++it, current.end()); return false;` and leaving the loop
(XsmpScheduler.cpp:487-488, 657-659). `events` is `it->second`. -/
def storeRest (s : State) (rest : List Int) : State :=
  if !s.itOk then s.fail .danglingIter
  else
    { s with
      table := s.table.insert s.iter (IdSet.insertAll rest (slotOf s.table s.iter))
      pc := .idle }

/-- `ExecuteImmediateEvents` returned false (lines 605-607, 657-659, 485-488). -/
def immFalse (s : State) : Ret → State
  | .start => { s with pc := .idle }
  | .slot => { s with pc := .idle }
  | .inSlot rest => storeRest s rest

/-- Entering the loop of line 612 at key `k`: PreSimTimeChange is emitted
(line 617), whose time keeper subscriber sets `_simTimeChanging`
(XsmpTimeKeeper.cpp:106). -/
def enterSlot (s : State) (k : Int) : State :=
  { s with iter := k, itOk := true, changing := true, pc := .preEmit }

/-- `ExecuteImmediateEvents` returned true. (XsmpScheduler.cpp:494-512.) -/
def immTrue (s : State) : Ret → State
  | .start =>
    match s.table.minKey with
    | none => { s with pc := .idle }
    | some k => enterSlot s k
  | .slot => { s with pc := .slotTest }
  | .inSlot rest => { s with pc := .slotFor rest }

/-- What follows `Execute(*it)` (lines 485-489 and 504-508). -/
def resume (s : State) : Frame → State
  | .imm rest r =>
    if s.hold then immFalse { s with imm := IdSet.insertAll rest s.imm } r
    else { s with pc := .immFor rest r }
  | .due rest =>
    if s.hold then storeRest s rest
    else { s with pc := .immTest (.inSlot rest) }

/-- End of `Execute` (lines 421-436), after the entry point or the skip. -/
def finish (s : State) (id : Int) (f : Frame) : State :=
  match s.events.find id with
  | none => s.fail .danglingEvent
  | some e =>
    if e.rep = 0 then resume { s with events := s.events.erase id } f
    else
      match chk (e.next + e.cycle), chk (e.time + e.cycle) with
      | some n, some t =>
        resume
          { s with
            events := s.events.insert id
              { e with rep := (if e.rep > 0 then e.rep - 1 else e.rep), next := n, time := t }
            table := post s.table n id } f
      | _, _ => s.fail .overflow

/-- The skip test of `Execute` (lines 399-410). -/
def skipTest (s : State) (e : Event) : Option Bool :=
  match e.kind with
  | .epoch => s.epochTime.map (fun t => decide (e.time < t))
  | .mission => s.missionTime.map (fun t => decide (e.time < t))
  | _ => some false

/-- Start of `Execute(id)` (lines 393-416). -/
def startExec (s : State) (id : Int) (f : Frame) : State :=
  match s.events.find id with
  | none => s.fail .outOfRange
  | some e =>
    match skipTest s e with
    | none => s.fail .overflow
    | some true => finish { s with log := .skipped id s.now :: s.log } id f
    | some false =>
      { s with current := id, pc := .cb id f, log := .called id e.ep s.now :: s.log }

/-- One step of the simulation thread. `delayed` says whether the pacing wait of
lines 638-647 takes place (`delay > 0`). -/
def tick (s : State) (delayed : Bool) : State :=
  match s.pc with
  | .idle => s
  | .immTest r =>
    if s.imm = [] then immTrue s r
    else { s with imm := [], pc := .immFor s.imm r }
  | .immFor [] r => { s with pc := .immTest r }
  | .immFor (id :: rest) r => startExec s id (.imm rest r)
  | .preEmit => if s.hold then { s with pc := .idle } else { s with pc := .waiting }
  | .waiting =>
    if !s.itOk then s.fail .danglingIter
    else if delayed && s.hold then { s with pc := .idle }
    else
      match setSimTime s s.iter with
      | (_, .exn _) => s.fail .badTime
      | (s', _) => { s' with changing := false, pc := .postEmit }
  | .postEmit => { s with pc := .immTest .slot }
  | .slotTest =>
    if !s.itOk then s.fail .danglingIter
    else if slotOf s.table s.iter = [] then
      -- `it = _events_table.erase(it)` (line 613) and the loop test (line 612)
      match s.table.nextKey s.iter with
      | none => { s with table := s.table.erase s.iter, pc := .idle }
      | some k => enterSlot { s with table := s.table.erase s.iter } k
    else
      { s with table := s.table.insert s.iter [], pc := .slotFor (slotOf s.table s.iter) }
  | .slotFor [] => { s with pc := .slotTest }
  | .slotFor (id :: rest) => startExec s id (.due rest)
  | .cb id f => finish { s with current := -1 } id f

/-- Inputs of the machine. -/
inductive Input
  | op (o : Op)
  /-- `_EnterExecuting` is invoked (XsmpScheduler.cpp:592-605) -/
  | run
  | tick (delayed : Bool)
  deriving DecidableEq, Repr

/-- One step. Nothing happens after a fault. (XsmpScheduler.cpp:125-665.) -/
def step (s : State) (i : Input) : State :=
  if s.fault.isSome then s
  else match i with
    | .op o => (apply s o).1
    | .run => if s.pc = .idle then { s with hold := false, pc := .immTest .start } else s
    | .tick d => tick s d

/-- An execution: any list of inputs, from any state. Of the model only (executions of
XsmpScheduler.cpp:125-665). -/
def exec (s : State) (is : List Input) : State := is.foldl step s

end Verif.Sched
