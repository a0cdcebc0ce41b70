import Verif.Event.Threads

/-!
Model of `Restore` of the event manager (`src/Xsmp/Services/XsmpEventManager.cpp:201-210`) together
with the calls of `Event/Threads.lean`, with the strings that `_ids` refers to: the keys of `_events`
are objects in memory, `_ids` maps an id to a *reference* to such a key (`XsmpEventManager.h:117-123`),
and `Restore` destroys the keys.

Simplified: a part of a call between locking and unlocking is one step, except the loop of `Restore`
over `_events`, which holds the lock of `_ids` only (the lock returned by `_events.read()` is released
before the first round of the loop, line 207). A string object that is destroyed has an address that
no later one gets (a reference to it is dangling for ever). What the reader delivers until it raises is
a parameter (`Data`); how it is read is modelled in `Persist/Model.lean`.
-/
namespace Verif.Event.Restoring

/-- A key of `_events`: its address, its characters, and the id. (XsmpEventManager.h:117-119.) -/
abbrev Node := Nat × String × Int

/-- What the storage delivers to `Persist::Restore` (Persist.h:178-191, StdUnorderedMap.h:38-49)
until it raises `CannotRestore`. -/
inductive Data
  /-- the hash of the type of `_events` is missing or wrong -/
  | refused
  /-- the storage ends within `_events`, after these entries -/
  | eventsCut (events : List (String × Int))
  /-- the hash of the type of `_subscriptions` is missing or wrong, or the storage ends within
  them, after these entries; `begun` tells whether the hash was right -/
  | subsCut (events : List (String × Int)) (begun : Bool) (subs : List (Int × List Nat))
  /-- everything is there -/
  | whole (events : List (String × Int)) (subs : List (Int × List Nat))
  deriving DecidableEq, Repr

/-- A call in progress. (XsmpEventManager.cpp:93-210.) -/
inductive Frame
  /-- before its first locked part (lines 98, 117) -/
  | naming (c : Call)
  /-- `QueryEventId` between `_events` and `_ids` (lines 110-111), with the reference `name` -/
  | registering (x : String) (i : Int) (r : Nat)
  /-- `Emit` with the reference `event_name`, before the message (lines 185-188) -/
  | emitting (i : Int) (r : Nat)
  /-- `Emit` before `_subscriptions` is locked (line 189) -/
  | copying (i : Int)
  /-- the loop of `Emit` (lines 195-197): what is left, and whether an entry point is running -/
  | running (i : Int) (rest : List Nat) (inside : Bool)
  /-- `Subscribe` with the reference `event_name`, before `_subscriptions` is locked (line 130) -/
  | subscribing (i : Int) (ep : Nat) (r : Nat)
  /-- `Subscribe` before the message (lines 146-152) -/
  | subscribed (i : Int) (ep : Nat) (r : Nat)
  /-- `Unsubscribe` with the reference `event_name`, before `_subscriptions` is locked (line 160) -/
  | unsubscribing (i : Int) (ep : Nat) (r : Nat)
  /-- `Restore` before `_events` and `_subscriptions` are locked (line 202) -/
  | restoring (d : Data)
  /-- `Restore` before `_ids` is locked (line 205) -/
  | rebuilding (d : Data)
  /-- the loop of `Restore` (lines 207-209): the keys still to come -/
  | iterating (d : Data) (rest : List Node)
  deriving DecidableEq, Repr

/-- What has happened, newest first. Of the model only (XsmpEventManager.cpp:93-210). -/
inductive Done
  | returned (t : Nat) (c : Call) (r : Res)
  | executed (t : Nat) (ep : Nat)
  | restored (t : Nat) (d : Data)
  | failed (t : Nat) (d : Data)
  deriving DecidableEq, Repr

/-- The event manager and the threads. (XsmpEventManager.h:117-125; the stacks are those of the
threads in XsmpEventManager.cpp:93-210.) -/
structure Sys where
  /-- `_events` -/
  events : List Node
  /-- `_ids`: an id and the address of the string it refers to -/
  ids : Assoc Int Nat
  /-- `_subscriptions` -/
  subs : Assoc Int (List Nat)
  /-- the next address -/
  fresh : Nat
  /-- whether the simulator has a logger -/
  logger : Bool
  /-- the thread that holds the lock of `_ids` in the loop of `Restore` -/
  owner : Option Nat
  /-- the calls in progress, innermost first -/
  stack : Nat → List Frame
  /-- undefined behaviour has happened -/
  ub : Bool
  log : List Done

/-- `_events.find(name)` (XsmpEventManager.cpp:100). -/
def findName (x : String) : List Node → Option Node
  | [] => none
  | p :: r => if p.2.1 = x then some p else findName x r

/-- The characters at an address, if the string is alive: reads of `event_name`
(XsmpEventManager.cpp:138, 149, 171, 179, 187). -/
def nameAt (r : Nat) : List Node → Option String
  | [] => none
  | p :: l => if p.1 = r then some p.2.1 else nameAt r l

/-- `value.emplace(k, v)` for each entry (StdUnorderedMap.h:43-48), a new key at a new address. -/
def addAll (fresh : Nat) (ev : List Node) : List (String × Int) → List Node × Nat
  | [] => (ev, fresh)
  | (x, i) :: l =>
    match findName x ev with
    | some _ => addAll fresh ev l
    | none => addAll (fresh + 1) (ev ++ [(fresh, x, i)]) l

/-- `value.emplace(k, v)` for each entry of `_subscriptions` (StdUnorderedMap.h:43-48). -/
def addSubs (m : Assoc Int (List Nat)) : List (Int × List Nat) → Assoc Int (List Nat)
  | [] => m
  | p :: l => addSubs (m.tryEmplace p.1 p.2) l

/-- `_ids.try_emplace(id, name)` for each key (XsmpEventManager.cpp:88-90). -/
def register (ids : Assoc Int Nat) : List Node → Assoc Int Nat
  | [] => ids
  | p :: l => register (ids.tryEmplace p.2.2 p.1) l

/-- The constructor (XsmpEventManager.cpp:40-91). -/
def Sys.init (logger : Bool) : Sys where
  events := (addAll 0 [] predefined).1
  ids := register [] (addAll 0 [] predefined).1
  subs := []
  fresh := (addAll 0 [] predefined).2
  logger := logger
  owner := none
  stack := fun _ => []
  ub := false
  log := []

/-- The stack of a thread becomes another one. Of the model only (XsmpEventManager.cpp:93-210). -/
def Sys.setStack (s : Sys) (t : Nat) (l : List Frame) : Nat → List Frame :=
  fun u => if u = t then l else s.stack u

/-- The thread goes on with these frames. Of the model only (XsmpEventManager.cpp:93-210). -/
def Sys.to (s : Sys) (t : Nat) (l : List Frame) : Sys := { s with stack := s.setStack t l }

/-- A call returns or raises. Of the model only (XsmpEventManager.cpp:93-210). -/
def Sys.ret (s : Sys) (t : Nat) (fs : List Frame) (o : Done) : Sys :=
  { s with stack := s.setStack t fs, log := o :: s.log }

/-- Undefined behaviour. Of the model only (the reads of XsmpEventManager.cpp:138, 149, 171, 179,
187 and the loop of lines 207-209). -/
def Sys.crash (s : Sys) : Sys := { s with ub := true }

/-- A read of `event_name` for a message, if there is one (XsmpEventManager.cpp:138, 146-152,
168-174, 179, 186-188): undefined if the string is destroyed. -/
def Sys.reading (s : Sys) (needed : Bool) (r : Nat) (s' : Sys) : Sys :=
  if needed then
    match nameAt r s.events with
    | none => s.crash
    | some _ => s'
  else s'

/-- The code of the application or of an entry point is running on the thread.
(XsmpEventManager.cpp:195-197.) -/
def userRuns : List Frame → Bool
  | [] => true
  | .running _ _ inside :: _ => inside
  | _ => false

/-- A call goes on: the new frame of the thread (`fs` are the outer ones). -/
def Sys.advance (s : Sys) (t : Nat) (f : Frame) (fs : List Frame) : Sys :=
  match f with
  -- XsmpEventManager.cpp:95-110; the loop of `Restore` reads `_events` without the lock
  | .naming (.query x) =>
    if x = "" then s.ret t fs (.returned t (.query x) (.exn .InvalidEventName))
    else match findName x s.events with
      | some p => s.ret t fs (.returned t (.query x) (.id p.2.2))
      | none =>
        if s.owner.isSome then s.crash
        else { s with events := s.events ++ [(s.fresh, x, (s.events.length : Int) + 1)],
                      fresh := s.fresh + 1,
                      stack := s.setStack t
                        (.registering x ((s.events.length : Int) + 1) s.fresh :: fs) }
  -- XsmpEventManager.cpp:115-123, called in lines 128, 158, 185
  | .naming (.subscribe i ep) =>
    if s.owner.isSome then s
    else match s.ids.find i with
      | none => s.ret t fs (.returned t (.subscribe i ep) (.exn .InvalidEventId))
      | some r => s.to t (.subscribing i ep r :: fs)
  | .naming (.unsubscribe i ep) =>
    if s.owner.isSome then s
    else match s.ids.find i with
      | none => s.ret t fs (.returned t (.unsubscribe i ep) (.exn .InvalidEventId))
      | some r => s.to t (.unsubscribing i ep r :: fs)
  | .naming (.emit i) =>
    if s.owner.isSome then s
    else match s.ids.find i with
      | none => s.ret t fs (.returned t (.emit i) (.exn .InvalidEventId))
      | some r => s.to t (.emitting i r :: fs)
  -- XsmpEventManager.cpp:111: the reference is stored, the string is not read
  | .registering x i r =>
    if s.owner.isSome then s
    else { s with ids := s.ids.tryEmplace i r,
                  stack := s.setStack t fs,
                  log := .returned t (.query x) (.id i) :: s.log }
  -- XsmpEventManager.cpp:186-188
  | .emitting i r => s.reading s.logger r (s.to t (.copying i :: fs))
  -- XsmpEventManager.cpp:189-194
  | .copying i =>
    match s.subs.find i with
    | some l => s.to t (.running i l false :: fs)
    | none => s.ret t fs (.returned t (.emit i) .done)
  -- XsmpEventManager.cpp:195-197
  | .running i rest true => s.to t (.running i rest false :: fs)
  | .running i [] false => s.ret t fs (.returned t (.emit i) .done)
  | .running i (ep :: rest) false => s.ret t (.running i rest true :: fs) (.executed t ep)
  -- XsmpEventManager.cpp:130-144
  | .subscribing i ep r =>
    match s.subs.find i with
    | some l =>
      if ep ∈ l then
        s.reading true r
          (s.ret t fs (.returned t (.subscribe i ep) (.exn .EntryPointAlreadySubscribed)))
      else { s with subs := s.subs.set i (l ++ [ep]),
                    stack := s.setStack t (.subscribed i ep r :: fs) }
    | none => { s with subs := s.subs.tryEmplace i [ep],
                       stack := s.setStack t (.subscribed i ep r :: fs) }
  -- XsmpEventManager.cpp:146-152
  | .subscribed i ep r =>
    s.reading s.logger r (s.ret t fs (.returned t (.subscribe i ep) .done))
  -- XsmpEventManager.cpp:160-179
  | .unsubscribing i ep r =>
    match s.subs.find i with
    | some l =>
      if ep ∈ l then
        s.reading s.logger r
          { s with subs := s.subs.set i (l.erase ep),
                   stack := s.setStack t fs,
                   log := .returned t (.unsubscribe i ep) .done :: s.log }
      else s.reading true r
        (s.ret t fs (.returned t (.unsubscribe i ep) (.exn .EntryPointNotSubscribed)))
    | none => s.reading true r
        (s.ret t fs (.returned t (.unsubscribe i ep) (.exn .EntryPointNotSubscribed)))
  -- XsmpEventManager.cpp:202-203, Persist.h:178-191, StdUnorderedMap.h:38-49
  | .restoring .refused => s.ret t fs (.failed t .refused)
  | .restoring (.eventsCut ev) =>
    if s.owner.isSome then s.crash
    else { s with events := (addAll s.fresh [] ev).1,
                  fresh := (addAll s.fresh [] ev).2,
                  stack := s.setStack t fs,
                  log := .failed t (.eventsCut ev) :: s.log }
  | .restoring (.subsCut ev begun su) =>
    if s.owner.isSome then s.crash
    else { s with events := (addAll s.fresh [] ev).1,
                  fresh := (addAll s.fresh [] ev).2,
                  subs := if begun then addSubs [] su else s.subs,
                  stack := s.setStack t fs,
                  log := .failed t (.subsCut ev begun su) :: s.log }
  | .restoring (.whole ev su) =>
    if s.owner.isSome then s.crash
    else { s with events := (addAll s.fresh [] ev).1,
                  fresh := (addAll s.fresh [] ev).2,
                  subs := addSubs [] su,
                  stack := s.setStack t (.rebuilding (.whole ev su) :: fs) }
  -- XsmpEventManager.cpp:205-207
  | .rebuilding d =>
    if s.owner.isSome then s
    else { s with ids := [], owner := some t,
                  stack := s.setStack t (.iterating d s.events :: fs) }
  -- XsmpEventManager.cpp:207-210
  | .iterating d (p :: rest) =>
    { s with ids := s.ids.tryEmplace p.2.2 p.1,
             stack := s.setStack t (.iterating d rest :: fs) }
  | .iterating d [] =>
    { s with owner := none, stack := s.setStack t fs, log := .restored t d :: s.log }

/-- What a thread does next: the application or an entry point calls, or the innermost call goes
on. (XsmpEventManager.cpp:93-210.) -/
inductive Input
  | call (t : Nat) (c : Call)
  | restore (t : Nat) (d : Data)
  | go (t : Nat)
  deriving DecidableEq, Repr

/-- One step; nothing happens after undefined behaviour. (XsmpEventManager.cpp:93-210.) -/
def Sys.step (s : Sys) (x : Input) : Sys :=
  if s.ub then s else
  match x with
  | .call t c => if userRuns (s.stack t) then s.to t (.naming c :: s.stack t) else s
  | .restore t d => if userRuns (s.stack t) then s.to t (.restoring d :: s.stack t) else s
  | .go t => match s.stack t with
    | [] => s
    | f :: fs => s.advance t f fs

/-- An interleaving. (XsmpEventManager.cpp:93-210.) -/
def Sys.run (s : Sys) (l : List Input) : Sys := l.foldl Sys.step s

end Verif.Event.Restoring
