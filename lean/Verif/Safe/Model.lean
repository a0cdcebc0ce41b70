/-
Execution of entry points which may throw: `Helper::SafeExecute` (`src/Xsmp/Helper.cpp:55-96`),
`XsmpEventManager::Emit` (`src/Xsmp/Services/XsmpEventManager.cpp:182-199`),
`Simulator::Abort` (`src/Xsmp/Simulator.cpp:545-549`, `EmitGlobalEvent` 248-254) and the call
sites of the scheduler (`src/Xsmp/Services/XsmpScheduler.cpp:412-419, 450-455`).

An entry point is a program: given the world it does some calls and then returns or throws.
The calls are those which come back to the event manager: subscriptions, emissions, `Abort`.
Emissions and `Abort` nest without bound; the functions are therefore given a depth of the
call stack (`fuel`), `none` meaning that the stack is exhausted: a call which is `none` for
every depth never returns.

Simplifications: the logger and `GetPath` do not throw; the locks are left out (no lock is held
while an entry point runs in `Emit`, XsmpEventManager.cpp:194); what an entry point does
besides those calls is left out; `_lastGlobalEventId` is left out (see `Verif.Sim`).
-/
namespace Verif.Safe

/-- An entry point. (Its address, Helper.cpp:55-96.) -/
abbrev Ep := Nat
/-- An event identifier. (XsmpEventManager.cpp:182.) -/
abbrev Event := Nat

/-- How an execution ends: it returns, or it throws an `Smp::Exception`, a `std::exception` or
something else. (Helper.cpp:58-92.) -/
inductive Outcome
  | ret
  | smp
  | std
  | other
  deriving DecidableEq, Repr

/-- A call made by an entry point. (XsmpEventManager.cpp:125-199.) -/
inductive Cmd
  | subscribe (e : Event) (ep : Ep)
  | unsubscribe (e : Event) (ep : Ep)
  | emit (e : Event)
  | abort
  deriving DecidableEq, Repr

/-- What can be observed. -/
inductive Ev
  /-- `Emit` logs the event, XsmpEventManager.cpp:186-188 -/
  | emitted (e : Event)
  /-- `Log(entryPoint, "Execute()")` and the start of the execution, Helper.cpp:60-63 -/
  | start (ep : Ep)
  /-- "return from Execute()", Helper.cpp:65 -/
  | done (ep : Ep)
  /-- an error is logged for the entry point, Helper.cpp:70-73, 81-83, 88-90 -/
  | error (ep : Ep)
  /-- the message of an `Smp::Exception` is logged for its sender, Helper.cpp:74 -/
  | message
  /-- the simulator is in state Aborting, Simulator.cpp:548 -/
  | aborting
  deriving DecidableEq, Repr

/-- The world: the subscriptions of each event (`_subscriptions`; events without subscription have
none) and what has been observed. (XsmpEventManager.cpp:115-199.) -/
structure World where
  subs : Event → List Ep
  trace : List Ev

/-- Recording an observation. Of the model only (what Helper.cpp:55-96 does). -/
def World.note (w : World) (l : List Ev) : World := { w with trace := w.trace ++ l }

/-- The event of `Abort`, `SMP_EnterAbortingId`. (Simulator.cpp:548.) -/
def enterAborting : Event := 13

/-- Which events exist; `GetEventName` throws for the others (XsmpEventManager.cpp:115-123). -/
abbrev Known := Event → Bool

/-- The entry points: what they call and how they end, as a function of the world. Of the model
only (the entry points executed in Helper.cpp:65). -/
abbrev Body := Ep → World → List Cmd × Outcome

/-- `Subscribe` (XsmpEventManager.cpp:125-145); `none` if it throws. -/
def subscribe (known : Known) (w : World) (e : Event) (ep : Ep) : Option World :=
  if known e = true ∧ ep ∉ w.subs e then
    some { w with subs := fun x => if x = e then w.subs e ++ [ep] else w.subs x }
  else none

/-- `Unsubscribe` (XsmpEventManager.cpp:155-180); `none` if it throws. -/
def unsubscribe (known : Known) (w : World) (e : Event) (ep : Ep) : Option World :=
  if known e = true ∧ ep ∈ w.subs e then
    some { w with subs := fun x => if x = e then (w.subs e).erase ep else w.subs x }
  else none

mutual

/-- `SafeExecute` with a simulator (Helper.cpp:58-92). The outcome is what reaches the caller. -/
def safeExecute (known : Known) (body : Body) : Nat → World → Ep → Option (World × Outcome)
  | 0, _, _ => none
  | n + 1, w, ep => do
    let (w, o) ← execute known body n (w.note [.start ep]) ep
    match o with
    | .ret => some (w.note [.done ep], .ret)
    | .smp => do
      let w ← abort known body n (w.note [.error ep, .message])
      some (w, .ret)
    | .std => do
      let w ← abort known body n (w.note [.error ep])
      some (w, .ret)
    | .other => do
      let w ← abort known body n (w.note [.error ep])
      some (w, .ret)

/-- `entryPoint->Execute()`: the calls, then the end. An exception of a call (unknown event, wrong
subscription) is one of the entry point. (Helper.cpp:65.) -/
def execute (known : Known) (body : Body) : Nat → World → Ep → Option (World × Outcome)
  | 0, _, _ => none
  | n + 1, w, ep => commands known body n w (body ep w).1 (body ep w).2

/-- The calls of an entry point. Of the model only (the entry points executed in Helper.cpp:65).
-/
def commands (known : Known) (body : Body) :
    Nat → World → List Cmd → Outcome → Option (World × Outcome)
  | 0, _, _, _ => none
  | _ + 1, w, [], o => some (w, o)
  | n + 1, w, .subscribe e ep :: cs, o =>
    match subscribe known w e ep with
    | some w => commands known body n w cs o
    | none => some (w, .smp)
  | n + 1, w, .unsubscribe e ep :: cs, o =>
    match unsubscribe known w e ep with
    | some w => commands known body n w cs o
    | none => some (w, .smp)
  | n + 1, w, .emit e :: cs, o => do
    let (w, r) ← emit known body n w e
    match r with
    | .ret => commands known body n w cs o
    | r => some (w, r)
  | n + 1, w, .abort :: cs, o => do
    let w ← abort known body n w
    commands known body n w cs o

/-- `Emit` (XsmpEventManager.cpp:182-199). -/
def emit (known : Known) (body : Body) : Nat → World → Event → Option (World × Outcome)
  | 0, _, _ => none
  | n + 1, w, e =>
    if known e = true then each known body n (w.note [.emitted e]) (w.subs e)
    else some (w, .smp)

/-- The loop of `Emit` on the copy of the subscriptions (XsmpEventManager.cpp:195-197). An
exception of `SafeExecute` would end it. -/
def each (known : Known) (body : Body) : Nat → World → List Ep → Option (World × Outcome)
  | 0, _, _ => none
  | _ + 1, w, [] => some (w, .ret)
  | n + 1, w, ep :: eps => do
    let (w, o) ← safeExecute known body n w ep
    match o with
    | .ret => each known body n w eps
    | o => some (w, o)

/-- `Simulator::Abort` (Simulator.cpp:545-549); the event is predefined, so it is known. -/
def abort (known : Known) (body : Body) : Nat → World → Option World
  | 0, _ => none
  | n + 1, w => do
    let (w, _) ← emit known body n w enterAborting
    some (w.note [.aborting])

end

/-- The execution of due events by the scheduler (XsmpScheduler.cpp:412-437 or 446-472, for
each event in turn): the entry point runs under `SafeExecute`, then the event is removed or
posted again, which `post` records. An exception would skip the rest. -/
def runEvents (known : Known) (body : Body) (fuel : Nat) :
    World → List (Nat × Ep) → Option (World × List Nat × Outcome)
  | w, [] => some (w, [], .ret)
  | w, (id, ep) :: r => do
    let (w, o) ← safeExecute known body fuel w ep
    match o with
    | .ret => do
      let (w, posted, o) ← runEvents known body fuel w r
      some (w, id :: posted, o)
    | o => some (w, [], o)

end Verif.Safe
