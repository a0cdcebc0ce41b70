import Verif.Event.Model

/-!
Model of the event manager used by several threads
(`src/Xsmp/Services/XsmpEventManager.cpp:93-199`). Every locked part of a call is one step; between
two locked parts of a call, and between the entry points an `Emit` executes, other threads may do
anything. Entry points and subscribers may call the event manager again, to any depth.

Simplified: the part of a call between locking and unlocking is one step (what it accesses is locked
from its first to its last access, see `Conc/Lock.lean`); the name of an event that `GetEventName`
returns by reference is only used for messages, which are left out; `Restore` is not called meanwhile.
-/
namespace Verif.Event

/-- The calls. (XsmpEventManager.cpp:93, 125, 155, 182.) -/
inductive Call
  | query (name : String)
  | subscribe (i : Int) (ep : Nat)
  | unsubscribe (i : Int) (ep : Nat)
  | emit (i : Int)
  deriving DecidableEq, Repr

/-- The event id of a call (0 for a query, which has none). (XsmpEventManager.cpp:125, 155, 182.)
-/
def Call.target : Call → Int
  | .subscribe i _ => i
  | .unsubscribe i _ => i
  | .emit i => i
  | .query _ => 0

/-- Results: an id, nothing, an exception. (XsmpEventManager.cpp:93-199.) -/
inductive Res
  | id (i : Int)
  | done
  | exn (e : Exn)
  deriving DecidableEq, Repr

/-- What happens, oldest first; `n` is the number of the call. Of the model only (what
XsmpEventManager.cpp:93-199 does). -/
inductive Obs
  /-- thread `t` calls -/
  | called (n t : Nat) (c : Call)
  /-- the locked part of the call that reads or changes `_events` or `_subscriptions`, and its
  result -/
  | effect (n : Nat) (c : Call) (r : Res)
  /-- the locked part of `Emit`, and the copy it makes -/
  | copied (n : Nat) (i : Int) (l : List Nat)
  /-- `Emit` executes an entry point -/
  | executed (n : Nat) (ep : Nat)
  /-- the call returns or raises -/
  | returned (n : Nat) (r : Res)
  deriving DecidableEq, Repr

/-- The number of the call. Of the model only (numbers the calls of XsmpEventManager.cpp:93-199).
-/
def Obs.num : Obs → Nat
  | .called n _ _ => n
  | .effect n _ _ => n
  | .copied n _ _ => n
  | .executed n _ => n
  | .returned n _ => n

/-- A call in progress. -/
inductive TFrame
  /-- before its first locked part (XsmpEventManager.cpp:98, 117) -/
  | naming (n : Nat) (c : Call)
  /-- the id is known; before `_subscriptions` is locked (lines 130, 160, 189) -/
  | acting (n : Nat) (c : Call)
  /-- in `QueryEventId` between `_events` and `_ids` (lines 110-111) -/
  | registering (n : Nat) (i : Int) (name : String)
  /-- in the loop of `Emit` (lines 195-197): what is left, and whether an entry point is running -/
  | running (n : Nat) (rest : List Nat) (inside : Bool)
  /-- about to return -/
  | leaving (n : Nat) (r : Res)
  deriving DecidableEq, Repr

/-- The number of the call. Of the model only (numbers the calls of XsmpEventManager.cpp:93-199).
-/
def TFrame.num : TFrame → Nat
  | .naming n _ => n
  | .acting n _ => n
  | .registering n _ _ => n
  | .running n _ _ => n
  | .leaving n _ => n

/-- The manager, the calls in progress of each thread (innermost first), the number of the next
call, and what happened. (XsmpEventManager.h:117-125; the stacks are those of the threads in
XsmpEventManager.cpp:93-199.) -/
structure TSys where
  mgr : Mgr
  stack : Nat → List TFrame
  next : Nat
  log : List Obs

/-- Before the first call. (XsmpEventManager.cpp:40-91.) -/
def TSys.init : TSys := ⟨Mgr.init, fun _ => [], 0, []⟩

/-- The stack of a thread becomes another one. Of the model only (XsmpEventManager.cpp:93-199). -/
def TSys.setStack (s : TSys) (t : Nat) (l : List TFrame) : Nat → List TFrame :=
  fun u => if u = t then l else s.stack u

/-- The code of the application or of an entry point is running on the thread.
(XsmpEventManager.cpp:195-197.) -/
def userRuns : List TFrame → Bool
  | [] => true
  | .running _ _ inside :: _ => inside
  | _ => false

/-- `Subscribe` once the id is known (XsmpEventManager.cpp:130-144). -/
def doSubscribe (subs : Assoc Int (List Nat)) (i : Int) (ep : Nat) :
    Assoc Int (List Nat) × Res :=
  match subs.find i with
  | some l =>
    if ep ∈ l then (subs, .exn .EntryPointAlreadySubscribed)
    else (subs.set i (l ++ [ep]), .done)
  | none => (subs.tryEmplace i [ep], .done)

/-- `Unsubscribe` once the id is known (XsmpEventManager.cpp:160-179). -/
def doUnsubscribe (subs : Assoc Int (List Nat)) (i : Int) (ep : Nat) :
    Assoc Int (List Nat) × Res :=
  match subs.find i with
  | some l =>
    if ep ∈ l then (subs.set i (l.erase ep), .done)
    else (subs, .exn .EntryPointNotSubscribed)
  | none => (subs, .exn .EntryPointNotSubscribed)

/-- A call goes on: the new frame of the thread (`fs` are the outer ones). -/
def TSys.advance (s : TSys) (t : Nat) (f : TFrame) (fs : List TFrame) : TSys :=
  match f with
  -- XsmpEventManager.cpp:95-110
  | .naming n (.query name) =>
    if name = "" then
      { s with stack := s.setStack t (.leaving n (.exn .InvalidEventName) :: fs) }
    else match s.mgr.events.find name with
      | some i => { s with stack := s.setStack t (.leaving n (.id i) :: fs),
                           log := s.log ++ [.effect n (.query name) (.id i)] }
      | none =>
        { s with mgr := { s.mgr with
                   events := s.mgr.events.tryEmplace name (s.mgr.events.length + 1) },
                 stack := s.setStack t
                   (.registering n (s.mgr.events.length + 1) name :: fs),
                 log := s.log ++ [.effect n (.query name) (.id (s.mgr.events.length + 1))] }
  -- XsmpEventManager.cpp:115-123
  | .naming n c =>
    match s.mgr.ids.find c.target with
    | none => { s with stack := s.setStack t (.leaving n (.exn .InvalidEventId) :: fs) }
    | some _ => { s with stack := s.setStack t (.acting n c :: fs) }
  | .acting n (.subscribe i ep) =>
    { s with mgr := { s.mgr with subs := (doSubscribe s.mgr.subs i ep).1 },
             stack := s.setStack t (.leaving n (doSubscribe s.mgr.subs i ep).2 :: fs),
             log := s.log ++ [.effect n (.subscribe i ep) (doSubscribe s.mgr.subs i ep).2] }
  | .acting n (.unsubscribe i ep) =>
    { s with mgr := { s.mgr with subs := (doUnsubscribe s.mgr.subs i ep).1 },
             stack := s.setStack t (.leaving n (doUnsubscribe s.mgr.subs i ep).2 :: fs),
             log := s.log ++ [.effect n (.unsubscribe i ep) (doUnsubscribe s.mgr.subs i ep).2] }
  -- XsmpEventManager.cpp:189-194
  | .acting n (.emit i) =>
    { s with stack := s.setStack t (.running n ((s.mgr.subs.find i).getD []) false :: fs),
             log := s.log ++ [.copied n i ((s.mgr.subs.find i).getD [])] }
  | .acting _ (.query _) => s
  -- XsmpEventManager.cpp:111
  | .registering n i name =>
    { s with mgr := { s.mgr with ids := s.mgr.ids.tryEmplace i name },
             stack := s.setStack t (.leaving n (.id i) :: fs) }
  -- XsmpEventManager.cpp:195-197
  | .running n rest true => { s with stack := s.setStack t (.running n rest false :: fs) }
  | .running n [] false => { s with stack := s.setStack t (.leaving n .done :: fs) }
  | .running n (ep :: rest) false =>
    { s with stack := s.setStack t (.running n rest true :: fs),
             log := s.log ++ [.executed n ep] }
  | .leaving n r => { s with stack := s.setStack t fs, log := s.log ++ [.returned n r] }

/-- What a thread does next: the application or an entry point calls, or the innermost call goes
on (an entry point that is running returns, possibly by an exception that `SafeExecute` catches).
(XsmpEventManager.cpp:93-199.) -/
inductive TInput
  | call (t : Nat) (c : Call)
  | go (t : Nat)
  deriving DecidableEq, Repr

/-- One step. (XsmpEventManager.cpp:93-199.) -/
def TSys.step (s : TSys) : TInput → TSys
  | .call t c =>
    if userRuns (s.stack t) then
      { s with stack := s.setStack t (.naming s.next c :: s.stack t), next := s.next + 1,
               log := s.log ++ [.called s.next t c] }
    else s
  | .go t => match s.stack t with
    | [] => s
    | f :: fs => s.advance t f fs

/-- An interleaving. (XsmpEventManager.cpp:93-199.) -/
def TSys.run (s : TSys) (l : List TInput) : TSys := l.foldl TSys.step s

end Verif.Event
