import Verif.Sched.ZuluRun

/-! `Store` and `Restore` of the scheduler while its Zulu thread is there
(src/Xsmp/Services/XsmpScheduler.cpp:572-582): `_events`, `_events_table`, `_immediate_events` and
`_lastEventId` are stored and restored, `_zulu_events_table` is not. The Zulu thread and the calls
on Zulu events are those of `Verif/Sched/ZuluRun.lean`; the events of the other time scales are kept
here as well, since the thread looks for a number in `_events` whatever its time scale is.

Simplifications: the run loop executes one of its events at any time (`In.fires`), and the keys of
`_events_table` and the order of its events are left out, which `Verif/Sched/Model.lean` has. -/
namespace Verif.Sched.ZuluRestore
open Verif Verif.Sched.Zulu

/-- What `Store` writes (XsmpScheduler.cpp:578-582): `_events`, here the Zulu events and the others,
the numbers that `_events_table` and `_immediate_events` contain, and `_lastEventId`. -/
structure File where
  zulu : OMap Ev
  sims : OMap Ev
  simIds : List Int
  lastId : Int
  deriving DecidableEq, Repr

/-- The scheduler (XsmpScheduler.h:393-418). -/
structure S where
  /-- the Zulu thread, `_zulu_events_table`, and the Zulu events of `_events` -/
  z : Zulu.State
  /-- the other events of `_events` -/
  sims : OMap Ev
  /-- the numbers in `_events_table` and `_immediate_events` -/
  simIds : List Int
  /-- the file of the breakpoint -/
  file : File
  /-- `ExecuteZulu` has a reference to an event that `Restore` has destroyed -/
  stale : Bool
  deriving DecidableEq, Repr

/-- A scheduler after `DoConnect` (XsmpScheduler.cpp:88-96), and a file that may have been written
by another process. -/
def init (clock : Int) (f : File) : S := ⟨Zulu.init clock, [], [], f, false⟩

/-- What can happen. -/
inductive In
  /-- a step of the Zulu thread, a call on a Zulu event, or the clock -/
  | z (i : Zulu.Input)
  /-- `AddSimulationTimeEvent`, and those of mission and epoch time (XsmpScheduler.cpp:113-202) -/
  | addSim (ep : Nat) (t c r : Int)
  /-- `RemoveEvent` of such an event (XsmpScheduler.cpp:345-378) -/
  | removeSim (id : Int)
  /-- the run loop executes such an event (XsmpScheduler.cpp:394-437) -/
  | fires (id : Int)
  | store
  | restore
  deriving DecidableEq, Repr

/-- The end of `ExecuteZulu` for an event of another time scale (XsmpScheduler.cpp:461-472). -/
def S.finishSim (s : S) (k id : Int) (rest : List Int) (e : Ev) : S :=
  if e.rep = 0 then { s with sims := s.sims.erase id, z := { s.z with pc := .back k rest } }
  else match chk (e.next + e.cycle) with
    | none => { s with z := { s.z with fault := some .overflow } }
    | some t =>
      { s with
        sims := s.sims.insert id { e with rep := if e.rep > 0 then e.rep - 1 else e.rep, next := t }
        z := { s.z with table := post s.z.table t id, pc := .back k rest } }

/-- One step of the Zulu thread: `_events.at(eventId)` finds events of any time scale
(XsmpScheduler.cpp:439-473). -/
def S.tick (s : S) : S :=
  match s.z.pc with
  | .toExec k id rest =>
    match s.z.events.find id, s.sims.find id with
    | none, some e =>
      if s.z.active then
        { s with z := { s.z with pc := .cb k id rest, log := .called id e.ep s.z.clock :: s.z.log } }
      else s.finishSim k id rest e
    | _, _ => { s with z := s.z.tick }
  | .cb k id rest =>
    if s.stale then { s with z := { s.z with fault := some .danglingEvent } }
    else match s.z.events.find id, s.sims.find id with
      | none, some e => s.finishSim k id rest e
      | _, _ => { s with z := s.z.tick }
  | _ => { s with z := s.z.tick }

/-- One step of the whole (XsmpScheduler.cpp:113-202, 345-378, 394-473, 572-582). -/
def step (s : S) (i : In) : S :=
  if s.z.fault.isSome then s
  else match i with
    | .z .tick => s.tick
    -- the numbers of the other time scales are given by `addSim`
    | .z .other => s
    | .z i => { s with z := Zulu.step s.z i }
    -- XsmpScheduler.cpp:113-202
    | .addSim ep t c r =>
      if r ≠ 0 ∧ c ≤ 0 then s
      else match chk (s.z.lastId + 1) with
        | none => { s with z := { s.z with fault := some .overflow } }
        | some n => { s with z := { s.z with lastId := n }, sims := s.sims.insert n ⟨ep, t, c, r⟩,
                             simIds := s.simIds ++ [n] }
    -- XsmpScheduler.cpp:345-378
    | .removeSim id => match s.sims.find id with
      | none => s
      | some e =>
        if s.z.pc.current = some id then { s with sims := s.sims.insert id { e with rep := 0 } }
        else { s with sims := s.sims.erase id, simIds := s.simIds.filter (· ≠ id) }
    -- XsmpScheduler.cpp:394-437; an event is reposted with the same number
    | .fires id =>
      if id ∉ s.simIds then s
      else match s.sims.find id with
        | none => { s with z := { s.z with fault := some .outOfRange } }
        | some e =>
          if e.rep = 0 then
            { s with sims := s.sims.erase id, simIds := s.simIds.filter (· ≠ id) }
          else match chk (e.next + e.cycle) with
            | none => { s with z := { s.z with fault := some .overflow } }
            | some t =>
              { s with sims := s.sims.insert id { e with rep := if e.rep > 0 then e.rep - 1 else e.rep,
                                                         next := t } }
    -- XsmpScheduler.cpp:578-582
    | .store => { s with file := ⟨s.z.events, s.sims, s.simIds, s.z.lastId⟩ }
    -- XsmpScheduler.cpp:572-576: `clear` of the map destroys the events
    -- (include/Xsmp/Persist/StdMap.h:38-49)
    | .restore =>
      { s with z := { s.z with events := s.file.zulu, lastId := s.file.lastId },
               sims := s.file.sims, simIds := s.file.simIds,
               stale := s.stale || s.z.pc.current.isSome }

/-- Of the model only (executions of XsmpScheduler.cpp:113-582). -/
def run (s : S) (is : List In) : S := is.foldl step s

end Verif.Sched.ZuluRestore
