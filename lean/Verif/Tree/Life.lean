/-
Model of the life cycle of a component, as generated components implement it.

Sources: `src/Xsmp/Component.cpp:58-99`, `include/Xsmp/ComponentHelper.h:30-122`,
`src-gen/Xsmp/Services/XsmpSchedulerGen.cpp:47-82` (the same in every generated component).

Hooks are taken as atomic: a hook that itself calls a life cycle operation of its own component is
modelled in `Verif/Tree/Hooks.lean`.
-/
import Verif.Tree.Model

namespace Verif.Tree

/-- `Smp::ComponentStateKind`. (Component.cpp:58-99.) -/
inductive LState where
  | created | publishing | configured | connected | disconnected
  deriving DecidableEq, Repr

/-- The operations of `IComponent` that change the state, which are also the names of the hooks.
(Component.cpp:58-99.) -/
inductive LCall where
  | publish | configure | connect | disconnect
  deriving DecidableEq, Repr

/-- The outcome of a call. Of the model only (the outcomes of Component.cpp:58-99). -/
inductive LOut where
  | ok | invalidState | nullPointer | hookRaised
  deriving DecidableEq, Repr

/-- A component: state, whether it has a publication and a simulator, and the executions of the
user's hooks, oldest first. (Component.cpp:36-99.) -/
structure Life where
  state : LState
  publication : Bool
  simulator : Bool
  hooks : List LCall
  deriving DecidableEq, Repr

/-- A new component (`Component.cpp:36-39`), given a simulator that is not null. -/
def Life.init : Life := ⟨.created, false, true, []⟩

/-- The state each operation requires (`Component.cpp:59`, `74`, `82`, `92`). -/
def LCall.needs : LCall → LState
  | .publish => .created
  | .configure => .publishing
  | .connect => .configured
  | .disconnect => .connected

/-- `Component::Publish`, `Configure`, `Connect`, `Disconnect` (`Component.cpp:58-99`); `arg` is
false when the receiver, or the simulator, is null. -/
def Life.base (s : Life) (arg : Bool) : LCall → Life × LOut
  | .publish =>
    if s.state ≠ .created then (s, .invalidState)
    else if !arg then (s, .nullPointer)
    else ({ s with state := .publishing, publication := true }, .ok)
  | .configure =>
    if s.state ≠ .publishing then (s, .invalidState)
    else ({ s with state := .configured }, .ok)
  | .connect =>
    if s.state ≠ .configured then (s, .invalidState)
    else ({ s with state := .connected, simulator := arg }, .ok)
  | .disconnect =>
    if s.state ≠ .connected then (s, .invalidState)
    else ({ s with state := .disconnected, simulator := false }, .ok)

/-- One execution of a hook. (ComponentHelper.h:30-122.) -/
def Life.hook (s : Life) (c : LCall) (raises : Bool) : Life × LOut :=
  ({ s with hooks := s.hooks ++ [c] }, if raises then .hookRaised else .ok)

/-- The operations of a generated component whose class has all four hooks. `raises`: the hook
raises an exception, at its first execution. `Configure` executes its hook twice
(`ComponentHelper.h:53` and `58`); `Disconnect` executes it before the check of the state
(`XsmpSchedulerGen.cpp:76-82`). -/
def Life.call (s : Life) (arg raises : Bool) (c : LCall) : Life × LOut :=
  match c with
  | .disconnect =>
    let h := s.hook .disconnect raises
    if h.2 = .ok then h.1.base arg .disconnect else h
  | .configure =>
    let b := s.base arg .configure
    if b.2 = .ok then
      let h := b.1.hook .configure raises
      if h.2 = .ok then h.1.hook .configure false else h
    else b
  | c =>
    let b := s.base arg c
    if b.2 = .ok then b.1.hook c raises else b

/-- A call with its arguments. (Component.cpp:58-99.) -/
structure LArgs where
  call : LCall
  arg : Bool
  raises : Bool
  deriving DecidableEq, Repr

/-- A sequence of calls. Of the model only (sequences of the calls of Component.cpp:58-99). -/
def lifeRun (s : Life) (ops : List LArgs) : Life :=
  ops.foldl (fun s o => (s.call o.arg o.raises o.call).1) s

/-- The states the component is in after each call of a sequence, without the repetitions. Of the
model only (sequences of the calls of Component.cpp:58-99). -/
def lifeStates (s : Life) : List LArgs → List LState
  | [] => []
  | o :: os =>
    let t := (s.call o.arg o.raises o.call).1
    if t.state = s.state then lifeStates t os else t.state :: lifeStates t os

end Verif.Tree
