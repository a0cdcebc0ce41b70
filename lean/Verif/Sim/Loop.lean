import Verif.Sim.Model

/-!
Model of the simulator and the run loop of the scheduler together, with any number of threads:
`Simulator::Run` emits EnterExecuting, whose subscriber `XsmpScheduler::_EnterExecuting`
(`src/Xsmp/Services/XsmpScheduler.cpp:592-665`) is the run loop; `Simulator::Hold(true)` emits
LeaveExecuting, whose subscriber `_LeaveExecuting` (lines 584-590) makes the loop return at its next
test. Both are subscribed by `DoConnect` (lines 88-97); subscribers are told in the order in which
they subscribed, so that other subscribers may run before and after them.

The loop is here its tests of `_simulationStatus`: which events there are and when they are due is
left to the inputs (Sched/Model.lean has them).

Simplified: initialisation entry points are not executed (Sim/Model.lean has them); exceptions do not
leave entry points and subscribers (they are caught, `Helper.cpp:55-95`); the accesses of several
threads to `_state`, `_lastGlobalEventId` and `_simulationStatus` are atomic.
-/
namespace Verif.Sim

/-- Where a run loop is. -/
inductive Phase
  /-- about to execute an event, to go to the next slot, or to end: the tests made so far have been
  passed (XsmpScheduler.cpp:485, 504, 612-613) -/
  | ready
  /-- an entry point is running (line 416) -/
  | entry
  /-- subscribers of PreSimTimeChange are running (lines 617-618) -/
  | pre
  /-- computing how long to wait (lines 623-636) -/
  | calc
  /-- waiting (lines 638-647) -/
  | wait
  /-- subscribers of PostSimTimeChange are running (line 653) -/
  | post
  deriving DecidableEq, Repr

/-- What is on the stack of a thread: an operation of the simulator with its remaining
instructions and the event the scheduler still has to be told of, or a run loop.
(Simulator.cpp:165-569, XsmpScheduler.cpp:592-665.) -/
inductive Frame
  | op (rest : List M) (pending : Option Ev)
  | loop (p : Phase)
  deriving DecidableEq, Repr

/-- What happens, oldest first. -/
inductive Obs
  /-- `_simulationStatus = Status::Running` (line 597) -/
  | started (t : Nat)
  /-- `_simulationStatus = Status::Hold` (line 587) -/
  | held (t : Nat)
  /-- an entry point is called, in that state of the simulator -/
  | called (t : Nat) (id : Nat) (s : St)
  deriving DecidableEq, Repr

/-- `_state`, `_lastGlobalEventId`, `_simulationStatus == Status::Hold`, the threads.
(Simulator.h:383, XsmpScheduler.h:417.) -/
structure Sys where
  state : St
  last : Option Ev
  hold : Bool
  stack : Nat → List Frame
  log : List Obs

/-- A connected simulation in standby (`Simulator.cpp:244-245`). Nothing initialises
`_simulationStatus` (`XsmpScheduler.h:417`): any value. -/
def Sys.init (hold : Bool) : Sys := ⟨.standby, none, hold, fun _ => [], []⟩

/-- The stack of a thread becomes another one. Of the model only (Simulator.cpp:165-569,
XsmpScheduler.cpp:592-665). -/
def Sys.setStack (s : Sys) (t : Nat) (l : List Frame) : Nat → List Frame :=
  fun u => if u = t then l else s.stack u

/-- User code runs on the thread: outside everything, in a subscriber, in a visit of the
components, in an entry point. Of the model only (Simulator.cpp:165-569, XsmpScheduler.cpp:416).
-/
def userFrame : List Frame → Bool
  | [] => true
  | .op (.endEmit :: _) _ :: _ => true
  | .op (.work :: _) _ :: _ => true
  | .loop .entry :: _ => true
  | .loop .pre :: _ => true
  | .loop .post :: _ => true
  | _ => false

/-- The events the scheduler subscribes to (XsmpScheduler.cpp:92-95). -/
def subscribed (e : Ev) : Option Ev :=
  if e = .enterExecuting ∨ e = .leaveExecuting then some e else none

/-- An operation with nothing left to do has returned. Of the model only (the ends of
Simulator.cpp:165-569). -/
def pushOp (r : List M) (p : Option Ev) (fs : List Frame) : List Frame :=
  if r = [] then fs else .op r p :: fs

/-- One instruction of an operation (`Sim/Model.lean`, `S.micro`). An emission ends when all
subscribers have been told (`Simulator.cpp:248-254`). -/
def Sys.micro (s : Sys) (t : Nat) (m : M) (r : List M) (p : Option Ev) (fs : List Frame) : Sys :=
  match m with
  | .set st => { s with state := st, stack := s.setStack t (pushOp r none fs) }
  | .emit e => { s with last := some e, stack := s.setStack t (.op r (subscribed e) :: fs) }
  | .endEmit =>
    if p = none then { s with last := none, stack := s.setStack t (pushOp r none fs) } else s
  | _ => { s with stack := s.setStack t (pushOp r none fs) }

/-- Inputs: what a thread does next. -/
inductive Act
  /-- user code calls an operation -/
  | call (o : Op)
  /-- the innermost operation goes on -/
  | go
  /-- the scheduler's subscriber to the event being emitted is called -/
  | tell
  /-- the loop executes an event: its entry point is called -/
  | exec (id : Nat)
  /-- the loop executes an event without calling its entry point (XsmpScheduler.cpp:399-410) -/
  | skip
  /-- the loop goes to the next slot: PreSimTimeChange is emitted -/
  | slot
  /-- the loop ends since there are no events left (line 612) -/
  | finish
  /-- the entry point or the subscribers return, or the pacing goes on (`delayed`: it has to wait) -/
  | ret (delayed : Bool)
  deriving DecidableEq, Repr

/-- One step of a thread. (Simulator.cpp:165-569, XsmpScheduler.cpp:592-665.) -/
def Sys.step (s : Sys) (t : Nat) (a : Act) : Sys :=
  match a with
  | .call o =>
    if userFrame (s.stack t) && o.guard s.state s.last then
      { s with stack := s.setStack t (.op o.prog none :: s.stack t) }
    else s
  | .go => match s.stack t with
    | .op (m :: r) p :: fs => s.micro t m r p fs
    | _ => s
  | .tell => match s.stack t with
    | .op (.endEmit :: r) (some .enterExecuting) :: fs =>
      { s with hold := false,
               stack := s.setStack t (.loop .ready :: .op (.endEmit :: r) none :: fs),
               log := s.log ++ [.started t] }
    | .op (.endEmit :: r) (some .leaveExecuting) :: fs =>
      { s with hold := true,
               stack := s.setStack t (.op (.endEmit :: r) none :: fs),
               log := s.log ++ [.held t] }
    | _ => s
  | .exec id => match s.stack t with
    | .loop .ready :: fs =>
      { s with stack := s.setStack t (.loop .entry :: fs),
               log := s.log ++ [.called t id s.state] }
    | _ => s
  | .skip => match s.stack t with
    | .loop .ready :: fs =>
      { s with stack := s.setStack t (if s.hold then fs else .loop .ready :: fs) }
    | _ => s
  | .slot => match s.stack t with
    | .loop .ready :: fs => { s with stack := s.setStack t (.loop .pre :: fs) }
    | _ => s
  | .finish => match s.stack t with
    | .loop .ready :: fs => { s with stack := s.setStack t fs }
    | _ => s
  | .ret delayed => match s.stack t with
    | .loop .entry :: fs =>
      { s with stack := s.setStack t (if s.hold then fs else .loop .ready :: fs) }
    | .loop .pre :: fs =>
      { s with stack := s.setStack t (if s.hold then fs else .loop .calc :: fs) }
    | .loop .calc :: fs =>
      { s with stack := s.setStack t (.loop (if delayed then .wait else .post) :: fs) }
    | .loop .wait :: fs =>
      { s with stack := s.setStack t (if s.hold then fs else .loop .post :: fs) }
    | .loop .post :: fs => { s with stack := s.setStack t (.loop .ready :: fs) }
    | _ => s

/-- A history: which thread does what. Of the model only (interleavings of Simulator.cpp:165-569
and XsmpScheduler.cpp:592-665). -/
def Sys.run (s : Sys) (l : List (Nat × Act)) : Sys := l.foldl (fun s i => s.step i.1 i.2) s

end Verif.Sim
