/-! The end of a simulator while the Zulu thread of its scheduler is running: `Simulator::Exit`,
`Abort` and the destructor (src/Xsmp/Simulator.cpp:117-151, 519-549), `DoConnect`, `DoDisconnect`
and the destructor of the scheduler (src/Xsmp/Services/XsmpScheduler.cpp:83-112), and what the
thread does (XsmpScheduler.cpp:439-473, 514-570). -/
namespace Verif.Sim.Ending

/-- What the entry point of a Zulu event does at its end: nothing of interest, raise (then
`SafeExecute` aborts, src/Xsmp/Helper.cpp:55-95), or call `Exit` (Simulator.cpp:519). -/
inductive Act
  | quiet
  | raises
  | exits
deriving DecidableEq

/-- A Zulu event: the component its entry point belongs to, and what it does
(XsmpScheduler.h:377-384). -/
structure Ev where
  owner : Nat
  act : Act
deriving DecidableEq

/-- The state of the simulator: before Standby, Standby or Executing, Exiting, Aborting
(Simulator.h:404). Executing counts as Standby: the destructor calls `Hold(true)` first
(Simulator.cpp:119-121). -/
inductive Phase
  | before
  | active
  | exiting
  | aborting
deriving DecidableEq

/-- The Zulu thread: not started, waiting or between events, in an entry point, ended
(XsmpScheduler.cpp:514-570). -/
inductive Thr
  | none
  | idle
  | running (e : Ev)
  | ended
deriving DecidableEq

/-- The thread that owns the simulator: outside of the calls, in the `join` of `DoDisconnect`
(XsmpScheduler.cpp:110) called by `Exit`, by the destructor of the simulator or by that of the
scheduler, or in the destructor of the simulator, deleting (Simulator.h:386-387). -/
inductive Main
  | free
  | joinExit
  | joinDestroy
  | joinDelete
  | deleting
deriving DecidableEq

/-- What goes wrong: a component is deleted while its entry point is running, an entry point of a
deleted component is called, the thread uses the deleted time keeper (XsmpScheduler.cpp:523), a
`std::thread` that was not joined is destroyed, which ends the program (XsmpScheduler.h:423). -/
inductive Fault
  | deletedInUse (c : Nat)
  | calledDeleted (c : Nat)
  | noTimeKeeper
  | terminate
deriving DecidableEq

/-- The scheduler and the time keeper among the components (Simulator.h:397-399). -/
def scheduler : Nat := 0
/-- (Simulator.h:397.) -/
def timeKeeper : Nat := 1

/-- The simulator, its scheduler and the two threads. `comps` are the components alive, in the
order in which the destructor deletes them: the models, then the services, each container from its
end (Simulator.h:386-387, Container.h:227-233). -/
structure St where
  phase : Phase
  thr : Thr
  /-- `_terminate` (XsmpScheduler.h:418) -/
  term : Bool
  /-- `_zuluThread.joinable()` (XsmpScheduler.h:423) -/
  joinable : Bool
  main : Main
  comps : List Nat
  fault : Option Fault
deriving DecidableEq

/-- A simulator with these components (Simulator.h:404). -/
def St.start (comps : List Nat) : St :=
  { phase := .before, thr := .none, term := false, joinable := false, main := .free,
    comps := comps, fault := none }

/-- A step of one of the threads. -/
inductive Step
  /-- `Connect`: the scheduler starts its thread, the simulator becomes Standby
  (XsmpScheduler.cpp:95) -/
  | connect
  /-- the thread takes up an event that is due (XsmpScheduler.cpp:521-536) -/
  | poll (e : Ev)
  /-- the entry point ends (XsmpScheduler.cpp:453-473, 536-541) -/
  | done
  /-- the thread sees `_terminate` (XsmpScheduler.cpp:518) -/
  | stop
  /-- the owner calls `Exit` (Simulator.cpp:519) -/
  | exit
  /-- the owner calls `Abort` (Simulator.cpp:545) -/
  | abort
  /-- the owner destroys the simulator (Simulator.cpp:117) -/
  | destroy
  /-- `join` returns (XsmpScheduler.cpp:110) -/
  | joined
  /-- the next component is deleted (Container.h:227-233) -/
  | delete
deriving DecidableEq

/-- What the thread does after an entry point (XsmpScheduler.cpp:537-541). -/
def St.back (s : St) : St := { s with thr := if s.term then .ended else .idle }

/-- The thread takes up an event: it reads the Zulu time (XsmpScheduler.cpp:523), and calls the
entry point if the simulator is Standby or Executing (XsmpScheduler.cpp:446-453). That the
simulator is asked for its state and time keeper while its destructor is running is not modelled. -/
def St.poll (s : St) (e : Ev) : St :=
  if timeKeeper ∉ s.comps then { s with fault := some .noTimeKeeper }
  else if s.phase ≠ .active then s
  else if e.owner ∉ s.comps then { s with fault := some (.calledDeleted e.owner) }
  else { s with thr := .running e }

/-- The end of an entry point. If it calls `Exit`, the thread comes to `DoDisconnect`: when
`_terminate` is not yet set, it sets it and joins itself; `join` raises `std::system_error`, which
leaves `Exit` and the entry point, and `SafeExecute` aborts (XsmpScheduler.cpp:98-112,
Simulator.cpp:519-543, Helper.cpp:79-85). -/
def St.done (s : St) (e : Ev) : St :=
  match e.act with
  | .quiet => s.back
  | .raises => { s with phase := .aborting }.back
  | .exits =>
    if s.phase ≠ .active then s.back
    else if s.term then { s with phase := .exiting }.back
    else { s with phase := .aborting, term := true }.back

/-- `Exit` by the owner, up to the `join` (Simulator.cpp:519-543, XsmpScheduler.cpp:98-111);
afterwards it is at `k`, or waits at `j`. -/
def St.leave (s : St) (j k : Main) : St :=
  if s.term then { s with phase := .exiting, main := k }
  else if s.joinable then { s with phase := .exiting, term := true, main := j }
  else { s with phase := .exiting, term := true, main := k }

/-- The next component is deleted (Container.h:227-233). The destructor of the scheduler calls
`DoDisconnect`, then the `std::thread` is destroyed (XsmpScheduler.cpp:83-112,
XsmpScheduler.h:423). -/
def St.delete (s : St) : St :=
  match s.comps with
  | [] => s
  | c :: cs =>
    if c = scheduler then
      if s.term then
        if s.joinable then { s with fault := some .terminate } else { s with comps := cs }
      else if s.joinable then { s with term := true, main := .joinDelete }
      else { s with term := true, comps := cs }
    else match s.thr with
      | .running e =>
        if e.owner = c then { s with fault := some (.deletedInUse c) } else { s with comps := cs }
      | _ => { s with comps := cs }

/-- The thread to be joined does no more steps (XsmpScheduler.cpp:110). -/
def St.joinedNow (s : St) : Bool := s.thr = .ended || s.thr = .none

/-- A step, if it is possible there (otherwise nothing happens; nothing happens after a fault).
(Simulator.cpp:117-151, 519-549, XsmpScheduler.cpp:83-112, 514-570.) -/
def step (s : St) (x : Step) : St :=
  if s.fault ≠ none then s
  else match x with
    | .connect =>
      if s.phase = .before ∧ s.main = .free then
        { s with phase := .active, thr := .idle, joinable := true }
      else s
    | .poll e => if s.thr = .idle ∧ s.term = false then s.poll e else s
    | .done =>
      match s.thr with
      | .running e => s.done e
      | _ => s
    | .stop => if s.thr = .idle ∧ s.term = true then { s with thr := .ended } else s
    | .exit => if s.main = .free ∧ s.phase = .active then s.leave .joinExit .free else s
    | .abort => if s.main = .free then { s with phase := .aborting } else s
    | .destroy =>
      if s.main = .free then
        if s.phase = .active then s.leave .joinDestroy .deleting
        else { s with main := .deleting }
      else s
    | .joined =>
      if s.joinedNow then
        match s.main with
        | .joinExit => { s with joinable := false, main := .free }
        | .joinDestroy => { s with joinable := false, main := .deleting }
        | .joinDelete => { s with joinable := false, main := .deleting, comps := s.comps.drop 1 }
        | _ => s
      else s
    | .delete => if s.main = .deleting then s.delete else s

/-- A run (Simulator.cpp:117-151). -/
def run (s : St) : List Step → St
  | [] => s
  | x :: xs => run (step s x) xs

end Verif.Sim.Ending
