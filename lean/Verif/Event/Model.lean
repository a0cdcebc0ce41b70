import Verif.Base.Assoc

/-
Model of the event manager `src/Xsmp/Services/XsmpEventManager.{h,cpp}`.

Simplifications, everywhere in this file: logging is left out; entry points are
numbers (the code compares pointers); event ids are unbounded (64 bits in the
code, which would need 2^63 names to overflow); names are `Option String`, `none`
being the null pointer.
-/
namespace Verif.Event

/-- Data of the event manager (XsmpEventManager.h: `_events`, `_ids`, `_subscriptions`). (Lines
117, 121, 125.) -/
structure Mgr where
  /-- `_events`: name to id -/
  events : Assoc String Int
  /-- `_ids`: id to name -/
  ids : Assoc Int String
  /-- `_subscriptions`: id to subscribed entry points, in order -/
  subs : Assoc Int (List Nat)
  deriving DecidableEq, Repr

/-- The predefined events with their ids: the names of the constructor
(XsmpEventManager.cpp:47-84), the numbers of the SMP standard (`Smp/Services/IEventManager.h`). -/
def predefined : List (String × Int) :=
  [("SMP_LeaveConnecting", 1), ("SMP_EnterInitialising", 2), ("SMP_LeaveInitialising", 3),
   ("SMP_EnterStandby", 4), ("SMP_LeaveStandby", 5), ("SMP_EnterExecuting", 6),
   ("SMP_LeaveExecuting", 7), ("SMP_EnterStoring", 8), ("SMP_LeaveStoring", 9),
   ("SMP_EnterRestoring", 10), ("SMP_LeaveRestoring", 11), ("SMP_EnterExiting", 12),
   ("SMP_EnterAborting", 13), ("SMP_EpochTimeChanged", 14), ("SMP_MissionTimeChanged", 15),
   ("SMP_EnterReconnecting", 16), ("SMP_LeaveReconnecting", 17), ("SMP_PreSimTimeChange", 18),
   ("SMP_PostSimTimeChange", 19)]

/-- `for (auto &[name, id] : _events) _ids.try_emplace(id, name)`
(XsmpEventManager.cpp:87-90, 207-209). -/
def rebuildIds (events : Assoc String Int) : Assoc Int String :=
  events.foldl (fun m p => m.tryEmplace p.2 p.1) []

/-- The constructor (XsmpEventManager.cpp:40-91). -/
def Mgr.init : Mgr where
  events := predefined.foldl (fun m p => m.tryEmplace p.1 p.2) []
  ids := rebuildIds (predefined.foldl (fun m p => m.tryEmplace p.1 p.2) [])
  subs := []

/-- Exceptions of the event manager. (XsmpEventManager.cpp:96, 119, 137, 179.) -/
inductive Exn
  | InvalidEventName | InvalidEventId | EntryPointAlreadySubscribed | EntryPointNotSubscribed
  deriving DecidableEq, Repr

/-- `QueryEventId` (XsmpEventManager.cpp:93-113), without concurrency. -/
def Mgr.query (m : Mgr) (name : Option String) : Mgr × Except Exn Int :=
  match name with
  | none => (m, .error .InvalidEventName)
  | some n =>
    if n = "" then (m, .error .InvalidEventName)
    else match m.events.find n with
      | some i => (m, .ok i)
      | none =>
        let i : Int := m.events.length + 1
        ({ m with events := m.events.tryEmplace n i, ids := m.ids.tryEmplace i n }, .ok i)

/-- `GetEventName` (XsmpEventManager.cpp:115-123). -/
def Mgr.eventName (m : Mgr) (i : Int) : Except Exn String :=
  match m.ids.find i with
  | none => .error .InvalidEventId
  | some n => .ok n

/-- `Subscribe` (XsmpEventManager.cpp:125-153). -/
def Mgr.subscribe (m : Mgr) (i : Int) (ep : Nat) : Mgr × Except Exn Unit :=
  match m.eventName i with
  | .error e => (m, .error e)
  | .ok _ =>
    match m.subs.find i with
    | some l =>
      if ep ∈ l then (m, .error .EntryPointAlreadySubscribed)
      else ({ m with subs := m.subs.set i (l ++ [ep]) }, .ok ())
    | none => ({ m with subs := m.subs.tryEmplace i [ep] }, .ok ())

/-- `Unsubscribe` (XsmpEventManager.cpp:155-180). -/
def Mgr.unsubscribe (m : Mgr) (i : Int) (ep : Nat) : Mgr × Except Exn Unit :=
  match m.eventName i with
  | .error e => (m, .error e)
  | .ok _ =>
    match m.subs.find i with
    | some l =>
      if ep ∈ l then ({ m with subs := m.subs.set i (l.erase ep) }, .ok ())
      else (m, .error .EntryPointNotSubscribed)
    | none => (m, .error .EntryPointNotSubscribed)

/-- The snapshot taken by `Emit` (XsmpEventManager.cpp:185-194). -/
def Mgr.snapshot (m : Mgr) (i : Int) : Except Exn (List Nat) :=
  match m.eventName i with
  | .error e => .error e
  | .ok _ => .ok ((m.subs.find i).getD [])

/-- `Restore` (XsmpEventManager.cpp:201-210) of a breakpoint taken in manager `b`;
`_ids` is rebuilt. -/
def Mgr.restore (b : Mgr) : Mgr :=
  { events := b.events, ids := rebuildIds b.events, subs := b.subs }

/-- An emission in progress: its number and the part of the local copy
`entryPoints` not yet executed (XsmpEventManager.cpp:193-197). -/
structure Frame where
  em : Nat
  rest : List Nat
  deriving DecidableEq, Repr

/-- The event manager with the emissions in progress on the calling thread (innermost first).
`log` lists the executions (emission, entry point), newest first; `next` is the number of the next
emission. (XsmpEventManager.cpp:182-199.) -/
structure State where
  mgr : Mgr
  stack : List Frame
  log : List (Nat × Nat)
  next : Nat
  deriving DecidableEq, Repr

/-- Initial state. (XsmpEventManager.cpp:40-91.) -/
def init : State := { mgr := Mgr.init, stack := [], log := [], next := 0 }

/-- What can happen next: a call by the running code (application or running entry point), or the
running entry point returns, so that the innermost emission goes on.
(XsmpEventManager.cpp:93-199.) -/
inductive Input
  | query (name : Option String)
  | subscribe (i : Int) (ep : Nat)
  | unsubscribe (i : Int) (ep : Nat)
  | emit (i : Int)
  | advance
  deriving DecidableEq, Repr

/-- One step; `advance` is one round of the loop XsmpEventManager.cpp:195-197 (each
entry point runs under `SafeExecute`, which returns even if it throws). -/
def step (s : State) : Input → State
  | .query n => { s with mgr := (s.mgr.query n).1 }
  | .subscribe i ep => { s with mgr := (s.mgr.subscribe i ep).1 }
  | .unsubscribe i ep => { s with mgr := (s.mgr.unsubscribe i ep).1 }
  | .emit i =>
    match s.mgr.snapshot i with
    | .error _ => s
    | .ok l => { s with stack := ⟨s.next, l⟩ :: s.stack, next := s.next + 1 }
  | .advance =>
    match s.stack with
    | [] => s
    | ⟨_, []⟩ :: st => { s with stack := st }
    | ⟨em, ep :: r⟩ :: st => { s with stack := ⟨em, r⟩ :: st, log := (em, ep) :: s.log }

/-- Executions. (XsmpEventManager.cpp:93-199.) -/
def exec (s : State) (is : List Input) : State := is.foldl step s

/-! ### QueryEventId with several threads -/

/-- Shared data, the threads that are between the two critical sections of
`QueryEventId` (XsmpEventManager.cpp:110-111: thread, name, id), and the ids
returned so far (thread, name, id). -/
structure CState where
  mgr : Mgr
  pending : List (Nat × String × Int)
  returned : List (Nat × String × Int)
  deriving DecidableEq, Repr

/-- Initial state: no call in progress. (XsmpEventManager.cpp:40-91.) -/
def CState.init : CState := { mgr := Mgr.init, pending := [], returned := [] }

/-- Steps of the threads. (XsmpEventManager.cpp:93-113.) -/
inductive CInput
  /-- thread `t` calls `QueryEventId(name)` and executes its first critical section -/
  | start (t : Nat) (name : String)
  /-- thread `t` executes its second critical section and returns -/
  | finish (t : Nat)
  deriving DecidableEq, Repr

/-- One critical section (XsmpEventManager.cpp:98-110 / 111-112). -/
def CState.step (s : CState) : CInput → CState
  | .start t n =>
    if s.pending.any (fun p => p.1 = t) || n = "" then s
    else match s.mgr.events.find n with
      | some i => { s with returned := (t, n, i) :: s.returned }
      | none =>
        let i : Int := s.mgr.events.length + 1
        { s with mgr := { s.mgr with events := s.mgr.events.tryEmplace n i }
                 pending := (t, n, i) :: s.pending }
  | .finish t =>
    match s.pending.find? (fun p => p.1 = t) with
    | none => s
    | some (t, n, i) =>
      { mgr := { s.mgr with ids := s.mgr.ids.tryEmplace i n }
        pending := s.pending.erase (t, n, i)
        returned := (t, n, i) :: s.returned }

/-- Interleavings. (XsmpEventManager.cpp:93-113.) -/
def CState.exec (s : CState) (is : List CInput) : CState := is.foldl CState.step s

end Verif.Event
