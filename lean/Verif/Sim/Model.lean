/-
Model of the simulator's state machine: `src/Xsmp/Simulator.cpp:165-569`.

Each operation is a small program of micro-instructions. User code runs while an event is being
emitted, while the components are visited and while an initialisation entry point is executed; at
these points it may call any operation again, to any depth, so the machine has a stack of the
operations in progress. One thread: the operations of the simulator are not protected against
concurrent calls.

Not here: what the visits of the components and the storage do (`Verif/Sim/Tree.lean`), logging, the
services, and the subscription of `Hold(false)`, which changes no state of the simulator.
-/

namespace Verif.Sim

/-- `Smp::SimulatorStateKind`. (Used in Simulator.cpp:165-569.) -/
inductive St where
  | building | connecting | initialising | standby | executing | storing | restoring
  | reconnecting | exiting | aborting
  deriving DecidableEq, Repr

/-- The global events the simulator emits (`IEventManager::SMP_…Id`). (Used in
Simulator.cpp:217-548.) -/
inductive Ev where
  | leaveConnecting | enterInitialising | leaveInitialising | enterStandby | leaveStandby
  | enterExecuting | leaveExecuting | enterStoring | leaveStoring | enterRestoring
  | leaveRestoring | enterReconnecting | leaveReconnecting | enterExiting | enterAborting
  deriving DecidableEq, Repr

/-- Micro-instructions. -/
inductive M where
  /-- `_state = s` -/
  | set (s : St)
  /-- `EmitGlobalEvent`, first half (`Simulator.cpp:249-251`): `_lastGlobalEventId` is set and the
  subscribers start to run. -/
  | emit (e : Ev)
  /-- `EmitGlobalEvent`, second half (`Simulator.cpp:253`): the subscribers have returned. -/
  | endEmit
  /-- The components are visited, or the breakpoint file is written or read: user code. -/
  | work
  /-- `entryPoints.swap(_initEntryPoints)` (`Simulator.cpp:236-237`, `274-275`). -/
  | swapInit
  /-- `entryPoint->Execute()` starts (`Simulator.cpp:238-240`, `276-278`). -/
  | runInit (p : Nat)
  /-- … and returns. -/
  | endInit
  deriving DecidableEq, Repr

/-- The operations. (Simulator.cpp:165-569.) -/
inductive Op where
  | publish | configure | connect | initialise | run | runFor | hold | store | restore
  | reconnect | exit | abort
  deriving DecidableEq, Repr

/-- The test at the start of each operation: `last` is `_lastGlobalEventId`, `none` for -1.
`Simulator.cpp:167`, `186`, `208`, `258-260`, `286-290`, `308-312`, `333-335`, `396-398`,
`460-462`, `487-489`, `521-523`; `Abort` has none. `hold` is `Hold(true)`. -/
def Op.guard (o : Op) (st : St) (last : Option Ev) : Bool :=
  match o with
  | .publish | .configure | .connect => st = .building
  | .run | .runFor => st = .standby ∧ last ≠ some .leaveStandby ∧ last ≠ some .enterStandby
  | .initialise | .store | .restore | .reconnect | .exit =>
    st = .standby ∧ last ≠ some .leaveStandby
  | .hold => st = .executing ∧ last ≠ some .leaveExecuting
  | .abort => true

/-- The body of each operation, after the test. -/
def Op.prog : Op → List M
  -- `Simulator.cpp:177-181`, `196-203`
  | .publish | .configure => [.work]
  -- `Simulator.cpp:217-245`
  | .connect =>
    [.set .connecting, .work, .emit .leaveConnecting, .endEmit,
     .set .initialising, .emit .enterInitialising, .endEmit,
     .swapInit,
     .emit .leaveInitialising, .endEmit,
     .set .standby, .emit .enterStandby, .endEmit]
  -- `Simulator.cpp:269-282`
  | .initialise =>
    [.emit .leaveStandby, .endEmit,
     .set .initialising, .emit .enterInitialising, .endEmit,
     .swapInit,
     .emit .leaveInitialising, .endEmit,
     .set .standby, .emit .enterStandby, .endEmit]
  -- `Simulator.cpp:299-303`, and `322-328`: the test of `Run()` cannot fail after that of
  -- `Run(duration)`
  | .run | .runFor =>
    [.emit .leaveStandby, .endEmit, .set .executing, .emit .enterExecuting, .endEmit]
  -- `Simulator.cpp:345-351`
  | .hold =>
    [.emit .leaveExecuting, .endEmit, .set .standby, .emit .enterStandby, .endEmit]
  -- `Simulator.cpp:407-420`
  | .store =>
    [.emit .leaveStandby, .endEmit, .set .storing, .emit .enterStoring, .endEmit, .work,
     .emit .leaveStoring, .endEmit, .set .standby, .emit .enterStandby, .endEmit]
  -- `Simulator.cpp:471-482`
  | .restore =>
    [.emit .leaveStandby, .endEmit, .set .restoring, .emit .enterRestoring, .endEmit, .work,
     .emit .leaveRestoring, .endEmit, .set .standby, .emit .enterStandby, .endEmit]
  -- `Simulator.cpp:498-516`: no event when the state is left
  | .reconnect =>
    [.emit .leaveStandby, .endEmit, .set .reconnecting, .emit .enterReconnecting, .endEmit, .work,
     .set .standby, .emit .enterStandby, .endEmit]
  -- `Simulator.cpp:533-542`
  | .exit =>
    [.emit .leaveStandby, .endEmit, .set .exiting, .emit .enterExiting, .endEmit, .work]
  -- `Simulator.cpp:547-548`
  | .abort => [.emit .enterAborting, .endEmit, .set .aborting]

/-- What an observer sees, oldest first: an event emitted in a state, a change of the state, an
entry point accepted by `AddInitEntryPoint`, an entry point executed. Of the model only (what
Simulator.cpp:165-569 does). -/
inductive Entry where
  | emitted (e : Ev) (s : St)
  | changed (s s' : St)
  | accepted (p : Nat)
  | executed (p : Nat)
  deriving DecidableEq, Repr

/-- The simulator: `_state`, `_lastGlobalEventId`, `_initEntryPoints`, the rest of each operation
in progress (innermost first), and the observations. (Simulator.h:383.) -/
structure S where
  state : St
  last : Option Ev
  init : List Nat
  stack : List (List M)
  log : List Entry
  deriving DecidableEq, Repr

/-- A new simulator (`Simulator.h:383`, `405`). -/
def S.new : S := ⟨.building, none, [], [], []⟩

/-- An operation with nothing left to do has returned. Of the model only (the ends of
Simulator.cpp:165-569). -/
def push (r : List M) (stack : List (List M)) : List (List M) :=
  if r = [] then stack else r :: stack

/-- Is user code running? Outside of any operation, or at one of the points named above. Of the
model only (Simulator.cpp:165-569). -/
def S.user (s : S) : Bool :=
  match s.stack with
  | [] => true
  | (.endEmit :: _) :: _ => true
  | (.work :: _) :: _ => true
  | (.endInit :: _) :: _ => true
  | _ => false

/-- One micro-instruction of the innermost operation. (Simulator.cpp:165-569.) -/
def S.micro (s : S) : S :=
  match s.stack with
  | [] => s
  | [] :: fs => { s with stack := fs }
  | (m :: r) :: fs =>
    match m with
    | .set t => { s with state := t, stack := push r fs, log := s.log ++ [.changed s.state t] }
    | .emit e => { s with last := some e, stack := push r fs, log := s.log ++ [.emitted e s.state] }
    | .endEmit => { s with last := none, stack := push r fs }
    | .work => { s with stack := push r fs }
    | .swapInit =>
      { s with
        init := []
        stack := push (s.init.flatMap (fun p => [.runInit p, .endInit]) ++ r) fs }
    | .runInit p => { s with stack := push r fs, log := s.log ++ [.executed p] }
    | .endInit => { s with stack := push r fs }

/-- Inputs: user code calls an operation, registers an entry point or raises an exception that
leaves the innermost operation (not from the subscribers of an event: the event manager catches
their exceptions, `Helper.cpp:55-95`); or the innermost operation goes on. -/
inductive In where
  | call (o : Op)
  | addInit (p : Nat)
  | raise
  | go
  deriving DecidableEq, Repr

/-- The states in which `AddInitEntryPoint` accepts (`Simulator.cpp:555-560`). -/
def acceptsInit (st : St) : Bool := st = .building ∨ st = .connecting ∨ st = .standby

/-- One step. Calls are only possible while user code runs. (Simulator.cpp:165-569.) -/
def step (s : S) : In → S
  | .call o =>
    if s.user && o.guard s.state s.last then { s with stack := o.prog :: s.stack } else s
  | .addInit p =>
    if s.user && acceptsInit s.state then
      { s with init := s.init ++ [p], log := s.log ++ [.accepted p] }
    else s
  | .raise =>
    match s.stack with
    | (.work :: _) :: fs => { s with stack := fs }
    | (.endInit :: _) :: fs => { s with stack := fs }
    | _ => s
  | .go => s.micro

/-- A history. Of the model only (executions of Simulator.cpp:165-569). -/
def run (s : S) (ins : List In) : S := ins.foldl step s

end Verif.Sim
