/-!
Model of the pointers to entry points that the simulator and its services keep: the events of the
scheduler, the subscriptions of the event manager, the entry points to call at initialisation, and
the copies that are being worked through, while components are created and deleted.
(src/Xsmp/Services/XsmpScheduler.cpp, src/Xsmp/Services/XsmpEventManager.cpp, src/Xsmp/Simulator.cpp,
src/Xsmp/Helper.cpp.)

An entry point is known by its address, and so is a component. What the entry points do is any
sequence of the operations below, made while they are in the stack. `none` stands for undefined
behaviour (an entry point that does not exist is used) or for `std::out_of_range` in the scheduler.

Simplified: one thread (the Zulu thread is in `Verif.Sim.Ending`); the times of events, which decide
when the scheduler takes them, are left open (see `Verif.Sched`): it may take any events that wait,
and it calls all those that it takes (not so those of epoch and mission time that have passed).
The logger exists. An exception that a call raises leaves the pointers as they are; exceptions that
entry points raise are not modelled, nor are the conditions on the state of the simulator.
-/
namespace Verif.Sim.Holders

/-- An event of the scheduler: its identifier, its entry point and how often it repeats.
(XsmpScheduler.h:377-385.) -/
structure Ev where
  id : Nat
  ep : Nat
  rep : Int
  deriving DecidableEq, Repr

/-- What a loop works through: events of the table, immediate events (XsmpScheduler.cpp:475-512),
subscribers (XsmpEventManager.cpp:192-197), entry points of the initialisation
(Simulator.cpp:236-240, 274-278). -/
inductive Kind
  | table
  | immediate
  | emission
  | inits
  deriving DecidableEq, Repr

/-- Whether the loop is one of the scheduler, which keeps identifiers instead of pointers.
(XsmpScheduler.cpp:475-512.) -/
def Kind.sched : Kind → Bool
  | .table => true
  | .immediate => true
  | .emission => false
  | .inits => false

/-- A loop that is not at its end: the item whose entry point is being executed, with that entry
point, and the copy of the items that follow (identifiers of events, or entry points).
(XsmpScheduler.cpp:479-483, 497-502; XsmpEventManager.cpp:193-197; Simulator.cpp:236-240.) -/
structure Frame where
  kind : Kind
  cur : Option (Nat × Nat)
  rest : List Nat
  deriving DecidableEq, Repr

/-- The components that exist, their entry points (each with its component), what the scheduler
(`_events`, `_immediate_events`, `_lastEventId`), the event manager (`_subscriptions`) and the
simulator (`_initEntryPoints`) keep, and the loops in progress, innermost first.
(XsmpScheduler.h:377-410; XsmpEventManager.h:123-125; Simulator.h:388.) -/
structure St where
  comps : List Nat
  owner : List (Nat × Nat)
  events : List Ev
  imm : List Nat
  last : Nat
  subs : List (Nat × Nat)
  init : List Nat
  stack : List Frame
  deriving DecidableEq, Repr

/-- Whether the entry point at an address exists. Of the model only (what a pointer passed to
Helper.cpp:55-66 points to). -/
def St.live (s : St) (ep : Nat) : Bool := s.owner.any (·.1 == ep)

/-- The identifiers of events that a loop of the scheduler has taken.
(XsmpScheduler.cpp:479-483, 497-502.) -/
def Frame.ids (f : Frame) : List Nat :=
  if f.kind.sched then f.cur.toList.map (·.1) ++ f.rest else []

/-- The identifiers of events that are in a loop. Of the model only (XsmpScheduler.cpp:475-512). -/
def St.busy (s : St) : List Nat := s.stack.flatMap Frame.ids

/-- `_currentEventId`: the event whose entry point is being executed.
(XsmpScheduler.cpp:412-419.) -/
def St.current (s : St) : Option Nat :=
  s.stack.findSome? (fun f => if f.kind.sched then f.cur.map (·.1) else none)

/-- The event with an identifier. (`_events.find`, XsmpScheduler.cpp:348, 397.) -/
def St.event? (s : St) (id : Nat) : Option Ev := s.events.find? (·.id == id)

/-- A component is made, with its entry points, at addresses that are free.
(EntryPoint.h:31-50; Factory.cpp:39-49.) -/
def St.create (s : St) (c : Nat) (eps : List Nat) : St :=
  if s.comps.contains c || eps.any s.live || !decide eps.Nodup then s
  else { s with comps := s.comps ++ [c], owner := s.owner ++ eps.map (fun e => (e, c)) }

/-- A component is deleted, and its entry points with it. Nothing is told to those who keep pointers
to them: the destructor of `EntryPoint` is the default one. What the component does in `Disconnect`
comes before. (EntryPoint.h:53; Container.cpp:189-198.) -/
def St.delete (s : St) (c : Nat) : Option St :=
  if s.comps.contains c then
    some { s with comps := s.comps.filter (· != c), owner := s.owner.filter (·.2 != c) }
  else none

/-- `AddEvent`: the entry point is the sender of the entry in the log.
(XsmpScheduler.cpp:139-166, 203-232.) -/
def St.post (s : St) (ep : Nat) (rep : Int) : Option St :=
  if s.live ep then
    some { s with events := s.events ++ [⟨s.last + 1, ep, rep⟩], last := s.last + 1 }
  else none

/-- `AddImmediateEvent`: nothing is logged. (XsmpScheduler.cpp:124-137.) -/
def St.postImmediate (s : St) (ep : Nat) : St :=
  { s with
    events := s.events ++ [⟨s.last + 1, ep, 0⟩]
    imm := s.imm ++ [s.last + 1]
    last := s.last + 1 }

/-- `RemoveEvent`: the current event is removed later, at its end; an unknown one is refused. An
immediate event stays in `_immediate_events`. (XsmpScheduler.cpp:345-378.) -/
def St.removeEvent (s : St) (id : Nat) : St :=
  match s.event? id with
  | none => s
  | some _ =>
    if s.current = some id then
      { s with events := s.events.map (fun e => if e.id = id then { e with rep := 0 } else e) }
    else { s with events := s.events.filter (·.id != id) }

/-- `Subscribe`: the path of the entry point is logged, or is in the text of the exception.
(XsmpEventManager.cpp:125-153.) -/
def St.subscribe (s : St) (evt ep : Nat) : Option St :=
  if s.live ep then
    if s.subs.contains (evt, ep) then some s else some { s with subs := s.subs ++ [(evt, ep)] }
  else none

/-- `Unsubscribe`: the path of the entry point is logged, or is in the text of the exception.
(XsmpEventManager.cpp:155-180.) -/
def St.unsubscribe (s : St) (evt ep : Nat) : Option St :=
  if s.live ep then some { s with subs := s.subs.erase (evt, ep) } else none

/-- `AddInitEntryPoint`. There is no function that takes an entry point back.
(Simulator.cpp:553-569.) -/
def St.addInit (s : St) (ep : Nat) : St := { s with init := s.init ++ [ep] }

/-- The scheduler takes the events of a slot of the table: events that wait, and no loop of the
scheduler is executing an entry point. (XsmpScheduler.cpp:475-482.) -/
def St.slot (s : St) (ids : List Nat) : St :=
  if s.current = none ∧ ids.Nodup ∧ (∀ i ∈ ids, i ∈ s.events.map (·.id) ∧ i ∉ s.imm ∧ i ∉ s.busy) then
    { s with stack := ⟨.table, none, ids⟩ :: s.stack }
  else s

/-- The scheduler takes the immediate events. (XsmpScheduler.cpp:494-499.) -/
def St.immediates (s : St) : St :=
  if s.current = none then { s with imm := [], stack := ⟨.immediate, none, s.imm⟩ :: s.stack }
  else s

/-- `Emit`: the subscribers are copied. (XsmpEventManager.cpp:182-194.) -/
def St.emit (s : St) (evt : Nat) : St :=
  { s with
    stack := ⟨.emission, none, (s.subs.filter (·.1 == evt)).map (·.2)⟩ :: s.stack }

/-- `Connect` and `Initialise`: the entry points are taken. (Simulator.cpp:236-238, 274-276.) -/
def St.initialise (s : St) : St :=
  { s with init := [], stack := ⟨.inits, none, s.init⟩ :: s.stack }

/-- The innermost loop goes on: it calls the entry point of the next item, or ends.
(XsmpScheduler.cpp:397, 416; XsmpEventManager.cpp:195-197; Simulator.cpp:238-240.) -/
def St.next (s : St) : Option St :=
  match s.stack with
  | ⟨k, none, x :: r⟩ :: fs =>
    if k.sched then
      match s.event? x with
      | none => none
      | some e =>
        if s.live e.ep then some { s with stack := ⟨k, some (x, e.ep), r⟩ :: fs } else none
    else if s.live x then some { s with stack := ⟨k, some (x, x), r⟩ :: fs } else none
  | ⟨_, none, []⟩ :: fs => some { s with stack := fs }
  | _ => some s

/-- The end of `Execute` of the scheduler: an event that does not repeat is removed, another one
waits again. (XsmpScheduler.cpp:421-436.) -/
def finish (id : Nat) (es : List Ev) : List Ev :=
  es.filterMap (fun e =>
    if e.id = id then
      if e.rep = 0 then none else if 0 < e.rep then some { e with rep := e.rep - 1 } else some e
    else some e)

/-- The entry point that is being executed returns: its return is logged, with the entry point as
sender, or its function is left. (Helper.cpp:63-66; Simulator.cpp:239.) -/
def St.ret (s : St) : Option St :=
  match s.stack with
  | ⟨k, some (x, ep), r⟩ :: fs =>
    if s.live ep then
      some { s with
        events := if k.sched then finish x s.events else s.events
        stack := ⟨k, none, r⟩ :: fs }
    else none
  | _ => some s

/-- The scheduler stops because of a hold: the events that are left wait again; the immediate ones
are a set ordered by identifier, and those left are older than those posted meanwhile.
(XsmpScheduler.cpp:485-489, 504-508.) -/
def St.hold (s : St) : St :=
  match s.stack with
  | ⟨.table, none, _⟩ :: fs => { s with stack := fs }
  | ⟨.immediate, none, r⟩ :: fs => { s with imm := r ++ s.imm, stack := fs }
  | _ => s

/-- `Store` of the scheduler and of the event manager: the paths of the entry points are written.
(XsmpScheduler.cpp:48-55, 578-582; XsmpEventManager.cpp:212-215.) -/
def St.store (s : St) : Option St :=
  if s.events.all (fun e => s.live e.ep) && s.subs.all (fun p => s.live p.2) then some s else none

/-- What happens. (The functions of this file.) -/
inductive Op
  | create (c : Nat) (eps : List Nat)
  | delete (c : Nat)
  | post (ep : Nat) (rep : Int)
  | postImmediate (ep : Nat)
  | removeEvent (id : Nat)
  | subscribe (evt ep : Nat)
  | unsubscribe (evt ep : Nat)
  | addInit (ep : Nat)
  | slot (ids : List Nat)
  | immediates
  | emit (evt : Nat)
  | initialise
  | next
  | ret
  | hold
  | store
  deriving DecidableEq, Repr

/-- One step. (The functions of this file.) -/
def St.step (s : St) : Op → Option St
  | .create c eps => some (s.create c eps)
  | .delete c => s.delete c
  | .post ep rep => s.post ep rep
  | .postImmediate ep => some (s.postImmediate ep)
  | .removeEvent id => some (s.removeEvent id)
  | .subscribe evt ep => s.subscribe evt ep
  | .unsubscribe evt ep => s.unsubscribe evt ep
  | .addInit ep => some (s.addInit ep)
  | .slot ids => some (s.slot ids)
  | .immediates => some s.immediates
  | .emit evt => some (s.emit evt)
  | .initialise => some s.initialise
  | .next => s.next
  | .ret => s.ret
  | .hold => some s.hold
  | .store => s.store

/-- A sequence of steps. Of the model only. -/
def St.run (s : St) : List Op → Option St
  | [] => some s
  | o :: os => match s.step o with
    | some s' => s'.run os
    | none => none

/-- A new simulator. (Simulator.h:380-395; the event that the scheduler posts for itself,
XsmpScheduler.cpp:75-80, is left out.) -/
def start : St := ⟨[], [], [], [], 0, [], [], []⟩

end Verif.Sim.Holders
