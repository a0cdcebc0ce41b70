/-! `Simulator::Hold(false)`: the simulation is held at the next change of simulation time
(src/Xsmp/Simulator.cpp:66-73, 331-359). The request is a subscription of the entry point
`_holdImmediately` to PreSimTimeChange; that entry point ends the subscription and calls
`Hold(true)`. The subscriptions are those of `XsmpEventManager` (Services/XsmpEventManager.cpp:124-199),
the loop is the one of `XsmpScheduler::_EnterExecuting` (Services/XsmpScheduler.cpp:592-665).

Simplifications: which events there are and when they are due is left to the inputs
(`Verif/Sched/Model.lean` has them); the subscribers of the events of the transitions do nothing but
what the scheduler does (`Verif/Sim/Model.lean` and `Verif/Sim/Loop.lean` have them), so that `Hold`,
`Run` and `Abort` are one step; there is one run loop at a time; the subscribers of
PostSimTimeChange are among the entry points of `In.event`. -/
namespace Verif.Sched.HoldLater

/-- The states of the simulator that matter here (Simulator.h:405). -/
inductive St
  | standby | executing | aborting
  deriving DecidableEq, Repr

/-- A subscriber of PreSimTimeChange: `_holdImmediately` (Simulator.cpp:66-73), or another entry
point. -/
inductive Sub
  | holdImmediately
  | other (n : Nat)
  deriving DecidableEq, Repr

/-- Where the run loop is (XsmpScheduler.cpp:592-665). -/
inductive Phase
  /-- there is none -/
  | idle
  /-- between two entry points, or between two slots -/
  | ready
  /-- PreSimTimeChange is emitted; the copy of the subscribers that are still to be executed
  (XsmpEventManager.cpp:192-198) -/
  | pre (todo : List Sub)
  /-- it waits for the Zulu time, before it adds `d` to the simulation time
  (XsmpScheduler.cpp:638-647) -/
  | wait (d : Nat)
  deriving DecidableEq, Repr

/-- What happens, oldest first. Of the model only. -/
inductive Obs
  /-- the simulator comes to Standby, at that simulation time -/
  | held (now : Nat)
  /-- the simulation time has changed to that one -/
  | changed (now : Nat)
  deriving DecidableEq, Repr

/-- The simulator, the subscriptions to PreSimTimeChange, the scheduler and the time keeper
(Simulator.h:405, XsmpEventManager.h:119-125, XsmpScheduler.h:393-418). -/
structure S where
  st : St
  subs : List Sub
  /-- `_simulationStatus == Status::Hold` -/
  flag : Bool
  phase : Phase
  now : Nat
  log : List Obs
  deriving DecidableEq, Repr

/-- After `Connect`. -/
def S.init : S := ⟨.standby, [], true, .idle, 0, []⟩

/-- A call made by an entry point, or by another thread. -/
inductive Act
  | holdLater
  | holdNow
  | abort
  | subscribe (n : Nat)
  | unsubscribe (n : Nat)
  /-- any other exception -/
  | raise
  deriving DecidableEq, Repr

/-- `Subscribe` (XsmpEventManager.cpp:124-149); the second part tells that it raises
`EntryPointAlreadySubscribed`. -/
def S.subscribe (s : S) (x : Sub) : S × Bool :=
  if x ∈ s.subs then (s, true) else ({ s with subs := s.subs ++ [x] }, false)

/-- `Unsubscribe` (XsmpEventManager.cpp:151-180), which raises `EntryPointNotSubscribed`. -/
def S.unsubscribe (s : S) (x : Sub) : S × Bool :=
  if x ∈ s.subs then ({ s with subs := s.subs.erase x }, false) else (s, true)

/-- `Hold(true)` (Simulator.cpp:333-351, XsmpScheduler.cpp:584-590). -/
def S.holdNow (s : S) : S :=
  if s.st = .executing then
    { s with st := .standby, flag := true, log := s.log ++ [.held s.now] }
  else s

/-- `Hold(false)` (Simulator.cpp:333-343, 352-358). -/
def S.holdLater (s : S) : S × Bool :=
  if s.st = .executing then s.subscribe .holdImmediately else (s, false)

/-- `Abort` (Simulator.cpp:545-549). -/
def S.abort (s : S) : S := { s with st := .aborting }

/-- One call (Simulator.cpp:331-359, 545-549, XsmpEventManager.cpp:124-180). -/
def S.act (s : S) : Act → S × Bool
  | .holdLater => s.holdLater
  | .holdNow => (s.holdNow, false)
  | .abort => (s.abort, false)
  | .subscribe n => s.subscribe (.other n)
  | .unsubscribe n => s.unsubscribe (.other n)
  | .raise => (s, true)

/-- The calls of an entry point, until one raises (Simulator.cpp:331-359). -/
def S.acts (s : S) : List Act → S × Bool
  | [] => (s, false)
  | a :: l => match s.act a with
    | (t, true) => (t, true)
    | (t, false) => t.acts l

/-- `SafeExecute`: an exception ends the simulation (src/Xsmp/Helper.cpp:55-95). -/
def S.safe (s : S) (l : List Act) : S :=
  match s.acts l with
  | (t, true) => t.abort
  | (t, false) => t

/-- `_holdImmediately`, with `SafeExecute` (Simulator.cpp:66-73, Helper.cpp:55-95). -/
def S.holdEntry (s : S) : S :=
  match s.unsubscribe .holdImmediately with
  | (t, true) => t.abort
  | (t, false) => t.holdNow

/-- What happens next. -/
inductive In
  /-- `Run` (Simulator.cpp:284-304) -/
  | run
  /-- the loop executes an entry point that makes these calls -/
  | event (l : List Act)
  /-- the loop goes to the next slot -/
  | next
  /-- the next subscriber of PreSimTimeChange is executed; if it is not `_holdImmediately` it makes
  these calls -/
  | tell (l : List Act)
  /-- the loop is back from PreSimTimeChange; the next slot is `d` later, and it has to `wait` for it -/
  | change (d : Nat) (wait : Bool)
  /-- the wait is over -/
  | wake
  /-- there are no events left, not even the one of the scheduler that holds the simulation at the
  end of time (XsmpScheduler.cpp:66-82): it was removed or executed -/
  | finish
  /-- another thread makes a call; it is told of an exception -/
  | ext (a : Act)
  deriving DecidableEq, Repr

/-- The simulation time changes (XsmpScheduler.cpp:649-653). -/
def S.advance (s : S) (d : Nat) : S :=
  { s with now := s.now + d, log := s.log ++ [.changed (s.now + d)], phase := .ready }

/-- One step (Simulator.cpp:284-359, XsmpScheduler.cpp:475-513, 592-665). -/
def step (s : S) : In → S
  | .run =>
    if s.st = .standby ∧ s.phase = .idle then
      { s with st := .executing, flag := false, phase := .ready }
    else s
  | .event l =>
    if s.phase = .ready then
      let t := s.safe l
      if t.flag then { t with phase := .idle } else t
    else s
  | .next => if s.phase = .ready then { s with phase := .pre s.subs } else s
  | .tell l => match s.phase with
    | .pre (.holdImmediately :: todo) => { s.holdEntry with phase := .pre todo }
    | .pre (.other _ :: todo) => { s.safe l with phase := .pre todo }
    | _ => s
  | .change d w => match s.phase with
    | .pre [] =>
      if s.flag then { s with phase := .idle }
      else if w then { s with phase := .wait d }
      else s.advance d
    | _ => s
  | .wake => match s.phase with
    | .wait d => if s.flag then { s with phase := .idle } else s.advance d
    | _ => s
  | .finish => if s.phase = .ready then { s with phase := .idle } else s
  | .ext a => (s.act a).1

/-- Of the model only (executions of Simulator.cpp:284-359 and XsmpScheduler.cpp:592-665). -/
def run (s : S) (l : List In) : S := l.foldl step s

end Verif.Sched.HoldLater
