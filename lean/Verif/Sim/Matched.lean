import Verif.Tree.Life

/-! The life of the components of a simulator, from their creation to their destruction: which of
their `Connect` and `Disconnect` are called by the simulator (src/Xsmp/Simulator.cpp:77-112,
117-244, 254-356, 392-581), by a container that deletes a component
(src/Xsmp/Container.cpp:189-198, include/Xsmp/Container.h:227-304), and what is left connected when
the component is destroyed. Hooks that add or delete components, entry points that call the
simulator and other threads are not modelled here (C32, C77, C123, C129 are about them). -/
namespace Verif.Sim.Matched
open Verif.Tree (LState)

/-- An operation of a service that `DoDisconnect` of a component may call. -/
inductive SvcOp
  /-- `Log` (src/Xsmp/Services/XsmpLogger.cpp:589-607) -/
  | log
  /-- `RemoveEvent` (src/Xsmp/Services/XsmpScheduler.cpp:345-379) -/
  | removeEvent
  /-- `Add…TimeEvent` (XsmpScheduler.cpp:113-232) -/
  | addEvent
  /-- `Unsubscribe` of what is subscribed (src/Xsmp/Services/XsmpEventManager.cpp:156-180) -/
  | unsubscribe
  /-- `Emit` (XsmpEventManager.cpp:182-199) -/
  | emit
deriving DecidableEq, Repr

/-- Does the operation follow the pointer `GetSimulator()` of the service without a test? `Log`
tests it (XsmpLogger.cpp:597), `RemoveEvent` does not use it (XsmpScheduler.cpp:345-379), the
others call `GetSimulator()->GetLogger()` or `GetTimeKeeper()` (XsmpScheduler.cpp:229,
XsmpEventManager.cpp:168, 186). -/
def SvcOp.follows : SvcOp → Bool
  | .log | .removeEvent => false
  | .addEvent | .unsubscribe | .emit => true

/-- What the hooks of a component do during a call: raise or not, and the services that
`DoDisconnect` calls, in their order (include/Xsmp/ComponentHelper.h:30-122). -/
structure Hooks where
  pub : Bool
  conf : Bool
  con : Bool
  dis : Bool
  calls : List (Nat × SvcOp)
deriving DecidableEq, Repr

/-- Hooks that do nothing (ComponentHelper.h:30-122). -/
def Hooks.quiet : Hooks := ⟨false, false, false, false, []⟩

/-- The hooks of the components during a call (ComponentHelper.h:30-122). -/
abbrev Env := Nat → Hooks

/-- The components of a container and below them: a component, what is in its containers, one
container after the other, and the components after it (Container.h:380, `Composite::GetContainers`,
src/Xsmp/Composite.cpp). -/
inductive Forest
  | nil
  | cons (id : Nat) (st : LState) (kids rest : Forest)
deriving DecidableEq, Repr

/-- What can be seen from outside: `DoConnect` is called, `DoDisconnect` is called, a call of a
service returns, `Disconnect` is complete, the destructor is called (Component.cpp:81-99,
ComponentHelper.h:81-115, Container.h:227-233). -/
inductive Obs
  | connect (c : Nat)
  | leaving (c : Nat)
  | called (c svc : Nat)
  | disconnect (c : Nat)
  | destroy (c : Nat)
deriving DecidableEq, Repr

/-- How a call ends. `crash` is the use of a null or dangling pointer, or `std::terminate`. Of the
model only. -/
inductive Res
  | ok | raised | crash
deriving DecidableEq, Repr

/-- What a call has done so far: the components whose pointer to the simulator is null or that are
destroyed (Component.cpp:98), what was seen, and whether it goes on. -/
structure W where
  off : List Nat
  tr : List Obs
  res : Res
deriving DecidableEq, Repr

/-- The calls of services in `DoDisconnect` of `c` (XsmpEventManager.cpp:156-199,
XsmpScheduler.cpp:113-379, XsmpLogger.cpp:589-607). -/
def calls (c : Nat) : List (Nat × SvcOp) → W → W
  | [], w => w
  | (s, op) :: l, w =>
    if op.follows && w.off.contains s then { w with res := .crash }
    else calls c l { w with tr := w.tr ++ [.called c s] }

/-- The generated `Disconnect`: `DoDisconnect`, which may raise, and then `Component::Disconnect`
(src-gen/Xsmp/Services/XsmpSchedulerGen.cpp:75-82, Component.cpp:91-99). -/
def leave (h : Hooks) (c : Nat) (w : W) : LState × W :=
  let w := calls c h.calls { w with tr := w.tr ++ [.leaving c] }
  if w.res = .crash then (.connected, w)
  else if h.dis then (.connected, { w with res := .raised })
  else (.disconnected, { w with off := c :: w.off, tr := w.tr ++ [.disconnect c] })

/-- What `Exit` does with a component (Simulator.cpp:538-542). -/
def visitExit (e : Env) (c : Nat) (st : LState) (w : W) : LState × W :=
  if st = .connected then leave (e c) c w else (st, w)

/-- What `Publish` does with a component: a hook that raises does so when the component has its new
state (Simulator.cpp:175-179, XsmpSchedulerGen.cpp:47-57). -/
def visitPublish (e : Env) (c : Nat) (st : LState) (w : W) : LState × W :=
  if st = .created then (.publishing, if (e c).pub then { w with res := .raised } else w)
  else (st, w)

/-- What `Configure` does with a component (Simulator.cpp:194-201, XsmpSchedulerGen.cpp:59-64). -/
def visitConfigure (e : Env) (c : Nat) (st : LState) (w : W) : LState × W :=
  let (st, w) := visitPublish e c st w
  if w.res = .ok ∧ st = .publishing then
    (.configured, if (e c).conf then { w with res := .raised } else w)
  else (st, w)

/-- What `Connect` and `Reconnect` do with a component (Simulator.cpp:217-227, 504-514,
XsmpSchedulerGen.cpp:66-73). -/
def visitConnect (e : Env) (c : Nat) (st : LState) (w : W) : LState × W :=
  let (st, w) := visitConfigure e c st w
  if w.res = .ok ∧ st = .configured then
    (.connected, { w with tr := w.tr ++ [.connect c], res := if (e c).con then .raised else .ok })
  else (st, w)

/-- `recursive_action`: the component, what is below it, and the next one, until one raises
(Simulator.cpp:77-112). -/
def walk (f : Nat → LState → W → LState × W) : Forest → W → Forest × W
  | .nil, w => (.nil, w)
  | .cons c st kids rest, w =>
    if w.res ≠ .ok then (.cons c st kids rest, w)
    else
      let (st', w) := f c st w
      let (kids', w) := walk f kids w
      let (rest', w) := walk f rest w
      (.cons c st' kids' rest', w)

/-- `recursive_action` for what is below the component `r`; nothing if there is no such component
(Simulator.cpp:502-515). -/
def walkBelow (f : Nat → LState → W → LState × W) (r : Nat) : Forest → W → Forest × W
  | .nil, w => (.nil, w)
  | .cons c st kids rest, w =>
    if c = r then
      let (kids', w) := walk f kids w
      (.cons c st kids' rest, w)
    else
      let (kids', w) := walkBelow f r kids w
      let (rest', w) := walkBelow f r rest w
      (.cons c st kids' rest', w)

/-- The destructors of the components of a container: from its end, each one before what is below
it (Container.h:227-233). -/
def destroyed : Forest → List Nat
  | .nil => []
  | .cons c _ kids rest => destroyed rest ++ c :: destroyed kids

/-- The component `c`, what is below it, and the others (Container.h:297-304). -/
def take (c : Nat) : Forest → Option (LState × Forest × Forest)
  | .nil => none
  | .cons d st kids rest =>
    if d = c then some (st, kids, rest)
    else match take c kids with
      | some (x, k, kids') => some (x, k, .cons d st kids' rest)
      | none => match take c rest with
        | some (x, k, rest') => some (x, k, .cons d st kids rest')
        | none => none

/-- A component is added at the end (Container.h:284-291). -/
def Forest.push (c : Nat) : Forest → Forest
  | .nil => .cons c .created .nil .nil
  | .cons d st kids rest => .cons d st kids (rest.push c)

/-- A component is added to a container of the component `p` (Container.h:284-291). -/
def Forest.pushIn (p c : Nat) : Forest → Forest
  | .nil => .nil
  | .cons d st kids rest =>
    if d = p then .cons d st (kids.push c) rest
    else .cons d st (kids.pushIn p c) (rest.pushIn p c)

/-- The components, each one before what is below it (Simulator.cpp:77-112). -/
def Forest.flat : Forest → List (Nat × LState)
  | .nil => []
  | .cons c st kids rest => (c, st) :: (kids.flat ++ rest.flat)

/-- The states of the simulator (`Smp::SimulatorStateKind`, Simulator.h:404), and the simulator that
is destroyed or that has crashed. -/
inductive Phase
  | building | connecting | initialising | standby | executing | storing | restoring | reconnecting
  | exiting | aborting | destroyed | crashed
deriving DecidableEq, Repr

/-- The simulator: its state, `_services` and `_models` (Simulator.h:385-386), the components whose
pointer to the simulator is null or that are destroyed, every component that was ever added, and
what was seen. -/
structure St where
  phase : Phase
  svcs : Forest
  models : Forest
  off : List Nat
  seen : List Nat
  tr : List Obs
deriving DecidableEq, Repr

/-- A new simulator (Simulator.cpp:52-75). -/
def St.init : St := ⟨.building, .nil, .nil, [], [], []⟩

/-- A call. Those that execute hooks are given what the hooks do, and those that execute entry
points, or store and restore, whether an exception leaves them. -/
inductive Op
  /-- `AddService` (Simulator.cpp:583-590) -/
  | addService (c : Nat)
  /-- `AddModel` (Simulator.cpp:571-581) -/
  | addModel (c : Nat)
  /-- `AddComponent` of a container of a component (Container.h:284-291) -/
  | addIn (p c : Nat)
  | publish (e : Env)
  | configure (e : Env)
  | connect (e : Env) (initRaises : Bool)
  | initialise (raises : Bool)
  | run
  | hold
  | store (raises : Bool)
  | restore (raises : Bool)
  | reconnect (e : Env) (root : Nat)
  | exit (e : Env)
  | abort
  /-- `DeleteComponent` of the container that contains `c` (Container.h:297-304) -/
  | delete (e : Env) (c : Nat)
  /-- the destructor of the simulator (Simulator.cpp:117-151) -/
  | destroy (e : Env)

/-- `recursive_action(this, …)`: the services, then the models (Simulator.cpp:104-112,
Simulator.h:385-386). -/
def St.all (f : Nat → LState → W → LState × W) (s : St) : St × Res :=
  let (svcs, w) := walk f s.svcs ⟨s.off, s.tr, .ok⟩
  let (models, w) := walk f s.models w
  ({ s with svcs := svcs, models := models, off := w.off, tr := w.tr }, w.res)

/-- `Simulator::Connect` (Simulator.cpp:204-244). -/
def St.connect (s : St) (e : Env) (initRaises : Bool) : St :=
  if s.phase ≠ .building then s
  else
    match ({ s with phase := .connecting } : St).all (visitConnect e) with
    | (s, .ok) => { s with phase := if initRaises then .initialising else .standby }
    | (s, _) => s

/-- `Simulator::Exit` (Simulator.cpp:519-543). -/
def St.exit (s : St) (e : Env) : St × Res :=
  if s.phase ≠ .standby then (s, .ok)
  else
    let (s, r) := ({ s with phase := .exiting } : St).all (visitExit e)
    (if r = .crash then { s with phase := .crashed } else s, r)

/-- The simulator destroys its members: the models, then the services (Simulator.h:385-386,
Container.h:227-233). -/
def St.clear (s : St) : St :=
  let l := destroyed s.models ++ destroyed s.svcs
  { s with phase := .destroyed, svcs := .nil, models := .nil, off := l ++ s.off,
           tr := s.tr ++ l.map .destroy }

/-- The destructor of the simulator: `Hold(true)` when it is executing, `Exit` when it is in
Standby, and then the members; an exception ends the program, as a destructor is `noexcept`
(Simulator.cpp:117-151). The libraries are in `Verif/Sim/Library.lean`. -/
def St.destroy (s : St) (e : Env) : St :=
  if s.phase = .destroyed ∨ s.phase = .crashed then s
  else
    let s := if s.phase = .executing then { s with phase := .standby } else s
    match s.exit e with
    | (s, .ok) => s.clear
    | (s, _) => { s with phase := .crashed }

/-- `DeleteComponent`: the component is disconnected if it is connected, and destroyed with what is
below it (Container.cpp:189-198, Container.h:297-304, 227-233). The lower bound of the container is
in `Verif/Tree/Model.lean`. -/
def St.delete (s : St) (e : Env) (c : Nat) : St :=
  let found := match take c s.svcs with
    | some (st, kids, rest) => some (st, kids, rest, s.models)
    | none => match take c s.models with
      | some (st, kids, rest) => some (st, kids, s.svcs, rest)
      | none => none
  match found with
  | none => s
  | some (st, kids, svcs, models) =>
    let (_, w) := visitExit e c st ⟨s.off, s.tr, .ok⟩
    match w.res with
    | .ok =>
      let l := c :: destroyed kids
      { s with svcs := svcs, models := models, off := l ++ w.off, tr := w.tr ++ l.map .destroy }
    | .raised => { s with off := w.off, tr := w.tr }
    | .crash => { s with phase := .crashed, off := w.off, tr := w.tr }

/-- Is the component there? -/
def Forest.has (f : Forest) (c : Nat) : Bool := (f.flat.map (·.1)).contains c

/-- One call. Nothing is called when the simulator is destroyed or has crashed. -/
def step (s : St) : Op → St
  -- `AddService`; a component is added once (Simulator.cpp:583-593)
  | .addService c =>
    if (s.phase = .building ∨ s.phase = .connecting ∨ s.phase = .standby) ∧ c ∉ s.seen then
      { s with svcs := s.svcs.push c, seen := c :: s.seen }
    else s
  -- `AddModel` (Simulator.cpp:571-581)
  | .addModel c =>
    if (s.phase = .building ∨ s.phase = .connecting ∨ s.phase = .standby) ∧ c ∉ s.seen then
      { s with models := s.models.push c, seen := c :: s.seen }
    else s
  -- `AddComponent` (Container.h:284-291)
  | .addIn p c =>
    if s.phase ≠ .destroyed ∧ s.phase ≠ .crashed ∧ c ∉ s.seen
        ∧ (s.svcs.has p || s.models.has p) then
      { s with svcs := s.svcs.pushIn p c, models := s.models.pushIn p c, seen := c :: s.seen }
    else s
  -- `Publish` (Simulator.cpp:163-180)
  | .publish e => if s.phase ≠ .building then s else (s.all (visitPublish e)).1
  -- `Configure` (Simulator.cpp:182-202)
  | .configure e => if s.phase ≠ .building then s else (s.all (visitConfigure e)).1
  -- `Connect` (Simulator.cpp:204-244)
  | .connect e r => s.connect e r
  -- `Initialise` (Simulator.cpp:254-283)
  | .initialise r =>
    if s.phase ≠ .standby then s else { s with phase := if r then .initialising else .standby }
  -- `Run` (Simulator.cpp:284-304)
  | .run => if s.phase ≠ .standby then s else { s with phase := .executing }
  -- `Hold(true)` (Simulator.cpp:331-350)
  | .hold => if s.phase ≠ .executing then s else { s with phase := .standby }
  -- `Store` (Simulator.cpp:392-421)
  | .store r =>
    if s.phase ≠ .standby then s else { s with phase := if r then .storing else .standby }
  -- `Restore` (Simulator.cpp:457-484)
  | .restore r =>
    if s.phase ≠ .standby then s else { s with phase := if r then .restoring else .standby }
  -- `Reconnect` (Simulator.cpp:486-517)
  | .reconnect e r =>
    if s.phase ≠ .standby then s
    else
      let (svcs, w) := walkBelow (visitConnect e) r s.svcs ⟨s.off, s.tr, .ok⟩
      let (models, w) := walkBelow (visitConnect e) r s.models w
      { s with svcs := svcs, models := models, off := w.off, tr := w.tr,
               phase := if w.res = .ok then .standby else .reconnecting }
  -- `Exit` (Simulator.cpp:519-543)
  | .exit e => (s.exit e).1
  -- `Abort` (Simulator.cpp:545-549)
  | .abort => if s.phase = .destroyed ∨ s.phase = .crashed then s else { s with phase := .aborting }
  -- `DeleteComponent` (Container.cpp:189-198)
  | .delete e c => if s.phase = .destroyed ∨ s.phase = .crashed then s else s.delete e c
  -- the destructor (Simulator.cpp:117-151)
  | .destroy e => s.destroy e

/-- A program. -/
def run (s : St) (ops : List Op) : St := ops.foldl step s

end Verif.Sim.Matched
