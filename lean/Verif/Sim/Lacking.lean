import Verif.Sim.Service

/-! Simulators that have only some of the standard services: which pointers of the simulator are
followed without a test, from the constructor of the simulator to `Exit`.

The calls are executed by a machine that pops commands from a stack, so that entry points and hooks
of users, which make any calls, nest as they do in the code. Times are left out: the calls say where
an event goes in the table. The getters of the simulator return null for a service that is absent
(src/Xsmp/Simulator.cpp:621-639); all services present are those of this library
(src/Xsmp/Services). After `Exit` the services themselves lose the simulator, which is what property
C139 is about. -/
namespace Verif.Sim.Lacking
open Verif.Sim.Service (Kind)

/-- The pointers to the standard services that are not null (Simulator.h, `_logger` …). -/
structure Have where
  logger : Bool
  eventManager : Bool
  linkRegistry : Bool
  resolver : Bool
  scheduler : Bool
  timeKeeper : Bool
deriving DecidableEq, Repr

/-- The getter of a service (Simulator.cpp:621-639). -/
def Have.get (h : Have) : Kind → Bool
  | .logger => h.logger
  | .eventManager => h.eventManager
  | .linkRegistry => h.linkRegistry
  | .resolver => h.resolver
  | .scheduler => h.scheduler
  | .timeKeeper => h.timeKeeper

/-- `AddService` of a service of a kind, as far as the pointers go (Simulator.cpp:595-613). -/
def Have.add (h : Have) : Kind → Have
  | .logger => { h with logger := true }
  | .eventManager => { h with eventManager := true }
  | .linkRegistry => { h with linkRegistry := true }
  | .resolver => { h with resolver := true }
  | .scheduler => { h with scheduler := true }
  | .timeKeeper => { h with timeKeeper := true }

/-- The events of the event manager that matter here; `other` are those of the other phases and of
the users (XsmpEventManager.cpp:30-75). -/
inductive Ev
  | preSimTimeChange | postSimTimeChange | enterExecuting | leaveExecuting
  | leaveStandby | enterStandby | other (n : Nat)
deriving DecidableEq, Repr

/-- The entry points: `PreSimTimeChange` and `PostSimTimeChange` of the time keeper
(XsmpTimeKeeper.cpp:110-111), `EnterExecuting`, `LeaveExecuting` and `HoldEvent` of the scheduler
(XsmpScheduler.cpp:584-667), `_holdImmediately` and the local `hold` of the simulator
(Simulator.cpp:66-73, 322-324), and those of the users. -/
inductive Point
  | keeperPre | keeperPost | schedEnter | schedLeave | holdEvent | holdImmediately | hold
  | user (n : Nat)
deriving DecidableEq, Repr

/-- The kinds of times of events, and immediate events (XsmpScheduler.cpp:126-232). -/
inductive Time
  | immediate | simulation | mission | epoch | zulu
deriving DecidableEq, Repr

/-- An event of the table: the kind of its time, its entry point and whether it is repeated
(XsmpScheduler.h, `Event`). -/
structure Job where
  time : Time
  point : Point
  again : Bool
deriving DecidableEq, Repr

/-- The states of the simulator, those in which services can be added being told apart
(Simulator.cpp:586-588). -/
inductive Phase
  | building | connecting | initialising | standby | executing | storing | restoring | aborting
deriving DecidableEq, Repr

/-- What users call. A user calls a service only where its getter is not null: the other calls do
nothing here. `AddEvent` is told where the event goes in the table, or that it is refused; `restore`
has the events that are read. (Simulator.cpp:204-549, XsmpEventManager.cpp:120-200,
XsmpTimeKeeper.cpp:60-94, XsmpScheduler.cpp:126-314.) -/
inductive Call
  | addService (k : Kind)
  | connect | initialise | run | runFor (place : Option Nat) | holdAt (immediate : Bool)
  | store | restore (jobs : List Job) | abort
  | subscribe (e : Ev) (n : Nat) | unsubscribe (e : Ev) (n : Nat) | emit (e : Ev)
  | post (t : Time) (n : Nat) (again : Bool) (place : Option Nat)
  | move (t : Time)
  | setEpochTime | setMissionStartTime | setMissionTime | setSimulationTime
deriving DecidableEq, Repr

/-- Where the scheduler is in `_EnterExecuting` (XsmpScheduler.cpp:592-663). -/
inductive Loc
  | start | immediate (next : Bool) | immediateDone (next : Bool)
  | table | changed | events (j : Job) | eventsDone
deriving DecidableEq, Repr

/-- The commands of the machine. (Of the model: the statements of Simulator.cpp:204-549,
XsmpScheduler.cpp:126-663, XsmpEventManager.cpp:120-200, Helper.cpp:55-95.) -/
inductive Cmd
  /-- A pointer to a service is followed without a test. -/
  | follow (k : Kind)
  | call (c : Call)
  | hook
  | phase (p : Phase)
  | global (e : Ev)
  | last (e : Option Ev)
  | emit (e : Ev)
  | subscribe (e : Ev) (p : Point)
  | unsubscribe (e : Ev) (p : Point)
  | startZulu
  | safe (p : Point)
  | body (p : Point)
  | hold (immediate : Bool)
  | abort
  | sched (l : Loc)
  | insert (t : Time) (p : Point) (again : Bool) (place : Nat)
  | execute (t : Time) (p : Point)
  | reload (jobs : List Job)
  | setSimulationTime
deriving DecidableEq, Repr

/-- The state: the services, the phase, `_lastGlobalEventId`, the subscriptions, the immediate
events, the table of events, the number of zulu events, whether the Zulu thread is started,
`_simulationStatus`, `_simTimeChanging`, and what remains to be done. (Simulator.h,
XsmpScheduler.h, XsmpTimeKeeper.h, XsmpEventManager.h.) -/
structure State where
  have_ : Have
  phase : Phase
  last : Option Ev
  subs : List (Ev × Point)
  immediates : List Point
  table : List Job
  zulu : List Point
  thread : Bool
  running : Bool
  changing : Bool
  todo : List Cmd
deriving DecidableEq, Repr

/-- A simulator that was given some services, in any order: `AddService` only sets the pointers. The
constructor of the scheduler posts the event that holds the simulation (XsmpScheduler.cpp:69-80).
The scheduler of a simulator without scheduler is there too, and never used. -/
def start (h : Have) : State :=
  ⟨h, .building, none, [], [], [⟨.simulation, .holdEvent, false⟩], [], false, false, false, []⟩

/-- What the environment decides in a step: the calls that the main program, an entry point or a
hook makes, whether the entry point raises an exception afterwards, and whether it is the turn of
the Zulu thread. Of the model only (XsmpScheduler.cpp:514-570). -/
structure Input where
  calls : List Call
  raises : Bool
  zulu : Bool
deriving DecidableEq, Repr

/-- The commands of a call of the user, in a state (see the cited lines of each). -/
def Call.cmds (s : State) : Call → List Cmd
  -- Simulator.cpp:584-614
  | .addService _ => []
  -- Simulator.cpp:204-246; XsmpTimeKeeper.cpp:30-39; XsmpScheduler.cpp:88-96. The other components
  -- are connected before, in between or after: `hook`.
  | .connect =>
    if s.phase = .building then
      [.phase .connecting, .hook] ++
      (if s.have_.timeKeeper then
        [.follow .eventManager, .subscribe .preSimTimeChange .keeperPre,
         .follow .eventManager, .subscribe .postSimTimeChange .keeperPost] else []) ++
      [.hook] ++
      (if s.have_.scheduler then
        [.follow .eventManager, .subscribe .enterExecuting .schedEnter,
         .follow .eventManager, .subscribe .leaveExecuting .schedLeave, .startZulu] else []) ++
      [.hook, .global (.other 0), .phase .initialising, .global (.other 1), .hook,
       .global (.other 2), .phase .standby, .global .enterStandby]
    else []
  -- Simulator.cpp:256-280
  | .initialise =>
    if s.phase = .standby ∧ s.last ≠ some .leaveStandby then
      [.global .leaveStandby, .phase .initialising, .global (.other 1), .hook, .global (.other 2),
       .phase .standby, .global .enterStandby]
    else []
  -- Simulator.cpp:281-303
  | .run =>
    if s.phase = .standby ∧ s.last ≠ some .leaveStandby ∧ s.last ≠ some .enterStandby then
      [.global .leaveStandby, .phase .executing, .global .enterExecuting]
    else []
  -- Simulator.cpp:305-330; XsmpScheduler.cpp:168-178, 138-166. The pointer to the scheduler is
  -- tested.
  | .runFor place =>
    if s.phase = .standby ∧ s.last ≠ some .leaveStandby ∧ s.last ≠ some .enterStandby then
      (if s.have_.scheduler then
        [.follow .timeKeeper] ++
        (match place with
         | some i => [.insert .simulation .hold false i, .follow .logger]
         | none => []) else []) ++
      [.global .leaveStandby, .phase .executing, .global .enterExecuting]
    else []
  -- Simulator.cpp:332-363
  | .holdAt i => [.hold i]
  -- Simulator.cpp:394-421; nothing of the services is needed to write their states.
  | .store =>
    if s.phase = .standby ∧ s.last ≠ some .leaveStandby then
      [.global .leaveStandby, .phase .storing, .global (.other 3), .global (.other 4),
       .phase .standby, .global .enterStandby]
    else []
  -- Simulator.cpp:458-483; XsmpScheduler.cpp:572-576; SmpIObject.h:35-40: the entry point of each
  -- event that is read is resolved.
  | .restore jobs =>
    if s.phase = .standby ∧ s.last ≠ some .leaveStandby then
      [.global .leaveStandby, .phase .restoring, .global (.other 5)] ++
      (if s.have_.scheduler then jobs.map (fun _ => Cmd.follow .resolver) ++ [.reload jobs]
       else []) ++
      [.global (.other 6), .phase .standby, .global .enterStandby]
    else []
  -- Simulator.cpp:545-549
  | .abort => [.abort]
  -- XsmpEventManager.cpp:120-152
  | .subscribe e n => if s.have_.eventManager then [.subscribe e (.user n)] else []
  -- XsmpEventManager.cpp:154-179
  | .unsubscribe e n => if s.have_.eventManager then [.unsubscribe e (.user n)] else []
  -- XsmpEventManager.cpp:181-199
  | .emit e => if s.have_.eventManager then [.emit e] else []
  -- XsmpScheduler.cpp:126-232. An event in the past is refused after the time keeper was asked.
  | .post t n again place =>
    if s.have_.scheduler then
      [.follow .timeKeeper] ++
      (if t = .immediate then [.insert t (.user n) false 0] else
       match place with
       | some i => [.insert t (.user n) again i, .follow .logger]
       | none => [])
    else []
  -- XsmpScheduler.cpp:263-314; that the event changes its place is left out.
  | .move _ => if s.have_.scheduler then [.follow .timeKeeper] else []
  -- XsmpTimeKeeper.cpp:61-65
  | .setEpochTime =>
    if s.have_.timeKeeper then [.follow .eventManager, .emit (.other 7)] else []
  -- XsmpTimeKeeper.cpp:67-71
  | .setMissionStartTime =>
    if s.have_.timeKeeper then [.follow .eventManager, .emit (.other 8)] else []
  -- XsmpTimeKeeper.cpp:73-79
  | .setMissionTime =>
    if s.have_.timeKeeper then [.follow .eventManager, .emit (.other 8)] else []
  -- XsmpTimeKeeper.cpp:81-94
  | .setSimulationTime => if s.have_.timeKeeper then [.setSimulationTime] else []

/-- The end of `SafeExecute` (Helper.cpp:65-90): a message, or a message and `Abort`. -/
def ends (raises : Bool) : List Cmd :=
  if raises then [.follow .logger, .abort] else [.follow .logger]

/-- Puts an element at a place, or at the end. Of the model only (the tables of XsmpScheduler.h are
sorted by time). -/
def place {α : Type} (x : α) : Nat → List α → List α
  | 0, l => x :: l
  | _ + 1, [] => [x]
  | i + 1, y :: l => y :: place x i l

/-- The next commands of `_EnterExecuting` (XsmpScheduler.cpp:592-663, 474-511). Each event is given
a time of its own; that the thread waits is left out. -/
def schedule (s : State) : Loc → State
  -- 594-605
  | .start =>
    { s with running := true, todo := .follow .timeKeeper :: .sched (.immediate false) :: s.todo }
  -- 494-511
  | .immediate next =>
    match s.immediates with
    | [] => { s with todo := (if next then [] else [Cmd.sched .table]) ++ s.todo }
    | p :: ps => 
      { s with
        immediates := ps
        todo := .execute .immediate p :: .sched (.immediateDone next) :: s.todo }
  -- 503-508
  | .immediateDone next =>
    if s.running then { s with todo := .sched (.immediate next) :: s.todo } else s
  -- 612-618
  | .table =>
    if s.table = [] then s
    else
      { s with
        todo := .follow .eventManager :: .emit .preSimTimeChange :: .sched .changed :: s.todo }
  -- 620-657: `eventManager` and `timeKeeper` are the pointers that were followed before.
  | .changed =>
    if s.running then
      match s.table with
      | [] => s
      | j :: _ =>
        { s with
          todo := .follow .timeKeeper :: .setSimulationTime ::
            .follow .eventManager :: .emit .postSimTimeChange :: .sched (.immediate true) ::
            .sched (.events j) :: s.todo }
    else s
  -- 474-492, 392-436
  | .events j =>
    if s.running then
      { s with
        table := if j.again then place j s.table.length (s.table.erase j) else s.table.erase j
        todo := .execute j.time j.point :: .sched .eventsDone :: s.todo }
    else s
  -- 484-488
  | .eventsDone => if s.running then { s with todo := .sched (.immediate false) :: s.todo } else s

/-- What a command does; `none`: a null pointer is followed. (See the lines cited at `Call.cmds`.) -/
def exec (s : State) (i : Input) : Cmd → Option State
  | .follow k => if s.have_.get k then some s else none
  | .call (.addService k) =>
    -- Simulator.cpp:584-591
    if s.phase = .building ∨ s.phase = .connecting ∨ s.phase = .standby then
      some { s with have_ := s.have_.add k }
    else some s
  | .call c => some { s with todo := c.cmds s ++ s.todo }
  | .hook => some { s with todo := i.calls.map .call ++ s.todo }
  | .phase p => some { s with phase := p }
  -- Simulator.cpp:248-254
  | .global e =>
    some { s with
      last := some e
      todo := (if s.have_.eventManager then [Cmd.emit e] else []) ++ .last none :: s.todo }
  | .last e => some { s with last := e }
  -- XsmpEventManager.cpp:181-199: the logger is tested, the entry points are copied.
  | .emit e =>
    some { s with
      todo := ((s.subs.filter (·.1 = e)).map (fun x => Cmd.safe x.2)) ++ s.todo }
  -- XsmpEventManager.cpp:120-152, the exception if it is subscribed already left out
  | .subscribe e p => some (if (e, p) ∈ s.subs then s else { s with subs := s.subs ++ [(e, p)] })
  -- XsmpEventManager.cpp:154-179, the exception if it is not subscribed left out
  | .unsubscribe e p => some { s with subs := s.subs.erase (e, p) }
  -- XsmpScheduler.cpp:95
  | .startZulu => some { s with thread := true }
  -- Helper.cpp:57-63
  | .safe p => some { s with todo := .follow .logger :: .body p :: s.todo }
  -- XsmpTimeKeeper.cpp:110
  | .body .keeperPre => some { s with changing := true, todo := ends false ++ s.todo }
  -- XsmpTimeKeeper.cpp:111
  | .body .keeperPost => some { s with changing := false, todo := ends false ++ s.todo }
  | .body .schedEnter => some { s with todo := .sched .start :: (ends false ++ s.todo) }
  -- XsmpScheduler.cpp:584-590
  | .body .schedLeave => some { s with running := false, todo := ends false ++ s.todo }
  -- XsmpScheduler.cpp:664-667
  | .body .holdEvent => some { s with todo := .hold true :: (ends false ++ s.todo) }
  -- Simulator.cpp:66-73, XsmpEventManager.cpp:160-179
  | .body .holdImmediately =>
    some { s with
      todo := .follow .eventManager ::
        (if (.preSimTimeChange, .holdImmediately) ∈ s.subs then
          .unsubscribe .preSimTimeChange .holdImmediately :: .hold true :: ends false
         else ends true) ++ s.todo }
  -- Simulator.cpp:322-324
  | .body .hold => some { s with todo := .hold false :: (ends false ++ s.todo) }
  | .body (.user _) => some { s with todo := i.calls.map .call ++ (ends i.raises ++ s.todo) }
  -- Simulator.cpp:332-363
  | .hold imm =>
    if s.phase = .executing ∧ s.last ≠ some .leaveExecuting then
      if imm then
        some { s with
          todo := .global .leaveExecuting :: .phase .standby :: .global .enterStandby :: s.todo }
      else
        some { s with
          todo := (if s.have_.eventManager then
            [Cmd.subscribe .preSimTimeChange .holdImmediately] else []) ++ s.todo }
    else some s
  -- Simulator.cpp:545-549
  | .abort => some { s with todo := .global (.other 9) :: .phase .aborting :: s.todo }
  | .sched l => some (schedule s l)
  -- XsmpScheduler.cpp:131-135, 154-160, 215-224
  | .insert .immediate p _ _ => some { s with immediates := s.immediates ++ [p] }
  | .insert .zulu p _ i => some { s with zulu := place p i s.zulu }
  | .insert t p again i => some { s with table := place ⟨t, p, again⟩ i s.table }
  -- XsmpScheduler.cpp:392-418
  | .execute t p =>
    some { s with
      todo := (if t = .epoch ∨ t = .mission then [Cmd.follow .timeKeeper] else []) ++
        .safe p :: s.todo }
  -- XsmpScheduler.cpp:572-576; the entry points are those of users and of the scheduler
  | .reload jobs => some { s with table := jobs }
  -- XsmpTimeKeeper.cpp:81-87
  | .setSimulationTime =>
    if s.changing then some { s with todo := .follow .scheduler :: s.todo } else some s

/-- A turn of the Zulu thread: it asks the time keeper, and executes the first event in the states
in which it does (XsmpScheduler.cpp:514-570, 438-472). What is repeated is left out, and the
commands of the thread are executed before the others go on. -/
def turn (s : State) : State :=
  match s.zulu with
  | [] => s
  | p :: ps =>
    if s.phase = .executing ∨ s.phase = .standby then
      { s with zulu := ps, todo := .follow .timeKeeper :: .safe p :: s.todo }
    else { s with zulu := ps, todo := .follow .timeKeeper :: s.todo }

/-- One step: of the Zulu thread if it is started and it is its turn, of what remains to be done,
or else the main program makes calls. (Of the model: see `exec`, `turn`; XsmpScheduler.cpp:95.) -/
def step (s : State) (i : Input) : Option State :=
  if i.zulu then some (if s.thread then turn s else s)
  else match s.todo with
    | [] => some { s with todo := i.calls.map .call }
    | c :: cs => exec { s with todo := cs } i c

/-- Steps, until a null pointer is followed. (Of the model only: sequences of `step`,
XsmpScheduler.cpp:95.) -/
def run : Option State → List Input → Option State
  | none, _ => none
  | some s, [] => some s
  | some s, i :: is => run (step s i) is

end Verif.Sim.Lacking
