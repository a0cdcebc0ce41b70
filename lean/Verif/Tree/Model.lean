/-
Model of the object tree: containers, references, collections, event sources, publications
(their names) and factories.

Sources: `include/Xsmp/Container.h`, `src/Xsmp/Container.cpp`, `include/Xsmp/Reference.h`,
`include/Xsmp/Collection.h`, `src/Xsmp/EventSource.cpp`, `src/Xsmp/Publication/Publication.cpp`,
`src/Xsmp/FactoryCollection.cpp`, `src/Xsmp/Simulator.cpp:641-660`.

Objects are identified by a number (their address). Names never change after construction.
-/

namespace Verif.Tree

/-- Exceptions raised by the operations of this file. (Container.cpp:95-178, Reference.h:145-448,
EventSource.cpp:46-64.) -/
inductive Exn where
  | InvalidObjectType | ContainerFull | DuplicateName | InvalidParent | InvalidFieldName
  | NotContained | CannotDelete
  | ReferenceFull | NotReferenced | CannotRemove
  | InvalidEventSink | EventSinkAlreadySubscribed | EventSinkNotSubscribed
  | TypeNotRegistered | DuplicateUuid
  deriving DecidableEq, Repr

/-- `static_cast<std::size_t>(x)` of an `Int64` (64-bit `size_t`). (Container.cpp:95-198.) -/
def toSize (x : Int) : Nat := (x % 18446744073709551616).toNat

/-! ### Components and containers -/

/-- What a container and a reference see of a component: its address, name, parent, and the C++
types it can be cast to (`dynamic_cast<T *>`). (Container.cpp:95-178.) -/
structure Comp where
  id : Nat
  name : String
  parent : Nat
  types : List Nat
  deriving DecidableEq, Repr

/-- `Container<T>` (`include/Xsmp/Container.h:188-233`): bounds, `T`, `_vector`. -/
structure Ctn where
  lower : Int
  upper : Int
  ty : Nat
  comps : List Comp
  deriving DecidableEq, Repr

/-- A composite with its registered containers (`Composite::_containers`). `published`: the
composite is a component with a publication (`Component::_publication`); `fields`: the names
`Publication::GetField` resolves; `members`: the names of its entry points, operations,
properties, event sources, event sinks and failures (`src/Xsmp/Container.cpp:114-155`). -/
structure Composite where
  self : Nat
  containers : List Ctn
  published : Bool
  fields : List String
  members : List String
  deriving DecidableEq, Repr

/-- `Container::GetComponent(name)` (`Container.h:241-248`): the first of that name. -/
def Ctn.getByName (c : Ctn) (n : String) : Option Comp := c.comps.find? (fun x => x.name = n)

/-- `Container::GetComponent(index)` (`Container.h:256-261`). -/
def Ctn.getByIndex (c : Ctn) (i : Nat) : Option Comp := c.comps[i]?

/-- `CheckComposite` (`Container.cpp:95-106`). -/
def Composite.nameTaken (s : Composite) (n : String) : Bool :=
  s.containers.any (fun c => (c.getByName n).isSome)

/-- `CheckComponent` (`Container.cpp:108-156`): `GetField` of a published component raises
`InvalidFieldName` when there is no field of that name (`Component.cpp:50-52`,
`Publication.cpp:220-228`). -/
def Composite.checkComponent (s : Composite) (n : String) : Option Exn :=
  if s.published then
    if n ∈ s.fields then some .DuplicateName else some .InvalidFieldName
  else if n ∈ s.members then some .DuplicateName
  else none

/-- `CheckNoDuplicateName` (`Container.cpp:158-178`); the composite is a component iff
`isComp`. -/
def Composite.check (s : Composite) (isComp : Bool) (x : Comp) : Option Exn :=
  if s.nameTaken x.name then some .DuplicateName
  else match (if isComp then s.checkComponent x.name else none) with
    | some e => some e
    | none => if s.self ≠ x.parent then some .InvalidParent else none

/-- `Container<T>::AddComponent` (`Container.h:275-283`, `Container.cpp:181-188`) of the
container number `i`. -/
def addComponent (s : Composite) (isComp : Bool) (i : Nat) (x : Comp) : Composite × Option Exn :=
  match s.containers[i]? with
  | none => (s, none)
  | some c =>
    if c.ty ∉ x.types then (s, some .InvalidObjectType)
    else if c.comps.length ≥ toSize c.upper then (s, some .ContainerFull)
    else match s.check isComp x with
      | some e => (s, some e)
      | none =>
        ({ s with containers := s.containers.set i { c with comps := c.comps ++ [x] } }, none)

/-- `Container<T>::DeleteComponent` (`Container.h:294-301`, `Container.cpp:189-198`) of the
container number `i`. A component that is not a `T` is cast to null, which is not contained. -/
def deleteComponent (s : Composite) (i : Nat) (x : Comp) : Composite × Option Exn :=
  match s.containers[i]? with
  | none => (s, none)
  | some c =>
    if x ∉ c.comps then (s, some .NotContained)
    else if c.comps.length ≤ toSize c.lower then (s, some .CannotDelete)
    else ({ s with containers := s.containers.set i { c with comps := c.comps.erase x } }, none)

/-- Calls on the containers of one composite, and the changes of the composite that matter to
them: its publication with these field names (`Component::Publish`, `Component.cpp:58-70`), and a
new entry point, event source, … -/
inductive COp where
  | add (i : Nat) (x : Comp)
  | del (i : Nat) (x : Comp)
  | publish (fields : List String)
  | member (n : String)
  deriving DecidableEq, Repr

/-- One call. (Container.cpp:181-198.) -/
def cstep (isComp : Bool) (s : Composite) : COp → Composite × Option Exn
  | .add i x => addComponent s isComp i x
  | .del i x => deleteComponent s i x
  | .publish fs => ({ s with published := true, fields := fs }, none)
  | .member n => ({ s with members := n :: s.members }, none)

/-- A sequence of calls. Of the model only (sequences of the calls of Container.cpp:181-198). -/
def crun (isComp : Bool) (s : Composite) (ops : List COp) : Composite :=
  ops.foldl (fun s o => (cstep isComp s o).1) s

/-! ### References -/

/-- `Reference<T>` (`include/Xsmp/Reference.h:145-448`). -/
structure Ref where
  lower : Int
  upper : Int
  ty : Nat
  comps : List Comp
  deriving DecidableEq, Repr

/-- `Reference::AddComponent` (`Reference.h:231-242`). -/
def Ref.add (r : Ref) (x : Comp) : Ref × Option Exn :=
  if r.comps.length ≥ toSize r.upper then (r, some .ReferenceFull)
  else if r.ty ∉ x.types then (r, some .InvalidObjectType)
  else ({ r with comps := r.comps ++ [x] }, none)

/-- `Reference::RemoveComponent` (`Reference.h:252-262`). -/
def Ref.remove (r : Ref) (x : Comp) : Ref × Option Exn :=
  if x ∉ r.comps then (r, some .NotReferenced)
  else if r.comps.length ≤ toSize r.lower then (r, some .CannotRemove)
  else ({ r with comps := r.comps.erase x }, none)

/-- `Reference::RemoveLinks` (`Reference.h:432-444`): erase until not found. -/
def Ref.removeLinks (r : Ref) (x : Comp) : Ref :=
  if r.ty ∉ x.types then r else { r with comps := r.comps.filter (fun y => y ≠ x) }

/-- `Reference::GetComponent(name)` (`Reference.h:199-206`). -/
def Ref.getByName (r : Ref) (n : String) : Option Comp := r.comps.find? (fun x => x.name = n)

/-- Calls on a reference. (Reference.h:199-262.) -/
inductive ROp where
  | add (x : Comp)
  | remove (x : Comp)
  | removeLinks (x : Comp)
  deriving DecidableEq, Repr

/-- One call. (Reference.h:199-262.) -/
def rstep (r : Ref) : ROp → Ref × Option Exn
  | .add x => r.add x
  | .remove x => r.remove x
  | .removeLinks x => (r.removeLinks x, none)

/-- A sequence of calls. Of the model only (sequences of the calls of Reference.h:199-262). -/
def rrun (r : Ref) (ops : List ROp) : Ref := ops.foldl (fun r o => (rstep r o).1) r

/-! ### Collections -/

/-- An element of a collection: its address and its name. (Collection.h:44-123.) -/
structure Elem where
  id : Nat
  name : String
  deriving DecidableEq, Repr

/-- `AbstractCollection::at(name)` and `ContainingCollection::at(name)`
(`Collection.h:44-55`, `161-172`); a null name gives null. -/
def atName (v : List Elem) : Option String → Option Elem
  | none => none
  | some n => v.find? (fun x => x.name = n)

/-- `at(index)` (`Collection.h:61-63`, `178-180`). -/
def atIndex (v : List Elem) (i : Nat) : Option Elem := if i < v.length then v[i]? else none

/-- `Add` (`Collection.h:83-104`, `211-220`), for `AllowDuplicates = dup`. -/
def addElem (dup : Bool) (v : List Elem) (x : Elem) : List Elem × Option Exn :=
  if dup = false ∧ (atName v (some x.name)).isSome then (v, some .DuplicateName)
  else (v ++ [x], none)

/-- `Remove` (`Collection.h:108-123`, `224-234`): the first occurrence of that element. -/
def removeElem (v : List Elem) (x : Elem) : List Elem × Bool :=
  if x ∈ v then (v.erase x, true) else (v, false)

/-- Calls on a collection. (Collection.h:44-123.) -/
inductive LOp where
  | add (x : Elem)
  | remove (x : Elem)
  | clear
  deriving DecidableEq, Repr

/-- One call. (Collection.h:44-123.) -/
def lstep (dup : Bool) (v : List Elem) : LOp → List Elem
  | .add x => (addElem dup v x).1
  | .remove x => (removeElem v x).1
  | .clear => []

/-- A sequence of calls. Of the model only (sequences of the calls of Collection.h:44-123). -/
def lrun (dup : Bool) (v : List Elem) (ops : List LOp) : List Elem := ops.foldl (lstep dup) v

/-! ### Publication of fields -/

/-- `Publication::_fields` (owned, created by name) and the own elements of
`Publication::_allFields`, whose delegate is `_fields` (`Publication.h:517-518`). -/
structure Pub where
  fields : List Elem
  extra : List Elem
  deriving DecidableEq, Repr

/-- `DelegateCollection::at(name)` (`Collection.h:263-266`). -/
def Pub.atName (p : Pub) (n : Option String) : Option Elem :=
  (Tree.atName p.fields n).or (Tree.atName p.extra n)

/-- `DelegateCollection::at(index)` (`Collection.h:272-277`). -/
def Pub.atIndex (p : Pub) (i : Nat) : Option Elem :=
  if i < p.fields.length then Tree.atIndex p.fields i
  else Tree.atIndex p.extra (i - p.fields.length)

/-- `DelegateCollection::size` (`Collection.h:281-283`). -/
def Pub.size (p : Pub) : Nat := p.extra.length + p.fields.length

/-- The calls that publish fields: `byName` is any of the calls creating the field
(`Publication.cpp:48-154`, `158-188`; `typed = false`: the type is not registered), `object` is
`PublishField(IField *)` (`Publication.cpp:156`). -/
inductive POp where
  | byName (x : Elem) (typed : Bool)
  | object (x : Elem)
  | unpublish
  deriving DecidableEq, Repr

/-- One publication. -/
def pstep (p : Pub) : POp → Pub × Option Exn
  | .byName x typed =>
    if !typed then (p, some .TypeNotRegistered)
    else
      let r := addElem false p.fields x
      ({ p with fields := r.1 }, r.2)
  | .object x =>
    -- `_allFields.Add` with the virtual `at` (`Collection.h:83-89`, `263-266`)
    if (p.atName (some x.name)).isSome then (p, some .DuplicateName)
    else ({ p with extra := p.extra ++ [x] }, none)
  | .unpublish => (⟨[], []⟩, none)

/-- A sequence of publications. Of the model only (sequences of the calls of
Publication.cpp:48-154). -/
def prun (p : Pub) (ops : List POp) : Pub := ops.foldl (fun p o => (pstep p o).1) p

/-! ### Event sources -/

/-- What does not change of the sinks, which are identified by their addresses: their argument
type (`GetEventArgType`) and their parent. (EventSource.cpp:46-79.) -/
structure SinkEnv where
  arg : Nat → Nat
  parent : Nat → Nat

/-- A running `DoEmit` loop (`EventSource.cpp:80-85`): the number of the emission, the sink being
notified, the value, and whether the element of the set at which the loop is was erased (it stays so when
the sink is subscribed again, as another element); the thread it runs in. -/
structure Frame where
  thread : Nat
  eid : Nat
  cur : Nat
  value : Nat
  gone : Bool
  deriving DecidableEq, Repr

/-- A call of `IEventSink::Notify`. (EventSource.cpp:80-85.) -/
structure Note where
  eid : Nat
  sink : Nat
  value : Nat
  deriving DecidableEq, Repr

/-- `AbstractEventSource` (`include/Xsmp/EventSource.h:37-72`): the argument type, the set
`_event_sinks` in the order of the addresses, the running loops (the innermost of each thread first: a sink
may emit again), the notifications (oldest first), the number of emissions so far, and whether a loop
continued from an element that had been erased (undefined behaviour). -/
structure Src where
  arg : Nat
  sinks : List Nat
  frames : List Frame
  log : List Note
  count : Nat
  ub : Bool
  deriving DecidableEq, Repr

/-- `std::set<IEventSink *>::insert`. (EventSource.cpp:46-57.) -/
def insertSink (x : Nat) : List Nat → List Nat
  | [] => [x]
  | y :: ys => if x < y then x :: y :: ys else if x = y then y :: ys else y :: insertSink x ys

/-- `Subscribe` (`EventSource.cpp:46-57`). -/
def Src.subscribe (env : SinkEnv) (s : Src) (x : Nat) : Src × Option Exn :=
  if env.arg x ≠ s.arg then (s, some .InvalidEventSink)
  else if x ∈ s.sinks then (s, some .EventSinkAlreadySubscribed)
  else ({ s with sinks := insertSink x s.sinks }, none)

/-- Elements of `_event_sinks` are erased: the loops at them are left with an iterator to nothing.
(EventSource.cpp:63, 74, 82.) -/
def Frame.lose (p : Nat → Bool) (f : Frame) : Frame := if p f.cur then { f with gone := true } else f

/-- `Unsubscribe` (`EventSource.cpp:58-64`). -/
def Src.unsubscribe (s : Src) (x : Nat) : Src × Option Exn :=
  if x ∉ s.sinks then (s, some .EventSinkNotSubscribed)
  else ({ s with sinks := s.sinks.erase x, frames := s.frames.map (·.lose (· == x)) }, none)

/-- `RemoveLinks` (`EventSource.cpp:69-79`). -/
def Src.removeLinks (env : SinkEnv) (s : Src) (target : Nat) : Src :=
  { s with
    sinks := s.sinks.filter (fun x => env.parent x ≠ target)
    frames := s.frames.map (·.lose (fun x => env.parent x == target)) }

/-- The loop of emission `eid` arrives at an element, or at the end. (EventSource.cpp:80-85.) -/
def Src.notify (s : Src) (t eid value : Nat) : Option Nat → Src
  | none => s
  | some x =>
    { s with
      frames := ⟨t, eid, x, value, false⟩ :: s.frames
      log := s.log ++ [⟨eid, x, value⟩] }

/-- Start of `DoEmit` with a value in thread `t` (`EventSource.cpp:80-83`). -/
def Src.emit (s : Src) (t v : Nat) : Src :=
  { s with count := s.count + 1 }.notify t s.count v s.sinks.head?

/-- The sink being notified by the innermost loop of thread `t` returns: the loop goes on to the next element
of the set, that is, the smallest greater one. (EventSource.cpp:80-85.) -/
def Src.next (s : Src) (t : Nat) : Src :=
  match s.frames.find? (·.thread == t) with
  | none => s
  | some f =>
    if f.gone then { s with ub := true, frames := [] }
    else { s with frames := s.frames.erase f }.notify t f.eid f.value (s.sinks.find? (fun y => f.cur < y))

/-- The sink being notified by the innermost loop of thread `t` raises an exception, which leaves the loop.
(EventSource.cpp:80-85.) -/
def Src.raise (s : Src) (t : Nat) : Src :=
  match s.frames.find? (·.thread == t) with
  | none => s
  | some f => { s with frames := s.frames.erase f }

/-- Calls and steps of an event source, with their thread where it matters. All the calls may also be made by
a sink that is being notified. The source has no lock. Simplified: the steps are atomic (calls that change
the set while another thread reads it are data races in the code). (EventSource.cpp:46-85.) -/
inductive EOp where
  | subscribe (x : Nat)
  | unsubscribe (x : Nat)
  | removeLinks (target : Nat)
  | emit (t v : Nat)
  | next (t : Nat)
  | raise (t : Nat)
  deriving DecidableEq, Repr

/-- One step. (EventSource.cpp:46-85.) -/
def estep (env : SinkEnv) (s : Src) : EOp → Src
  | .subscribe x => (s.subscribe env x).1
  | .unsubscribe x => (s.unsubscribe x).1
  | .removeLinks t => s.removeLinks env t
  | .emit t v => s.emit t v
  | .next t => s.next t
  | .raise t => s.raise t

/-- A sequence of steps. Of the model only (sequences of the calls of EventSource.cpp:46-85). -/
def erun (env : SinkEnv) (s : Src) (ops : List EOp) : Src := ops.foldl (estep env) s

/-- A new event source. (EventSource.cpp:25-38.) -/
def Src.init (arg : Nat) : Src := ⟨arg, [], [], [], 0, false⟩

/-! ### Factories -/

/-- A factory: its address, UUID and name. (FactoryCollection.cpp:32-68.) -/
structure Fac where
  id : Nat
  uuid : Nat
  name : String
  deriving DecidableEq, Repr

/-- `FactoryCollection` (`FactoryCollection.h:53-58`): `_uuid_map`, `_factory_map`,
`_factories`. -/
structure Facs where
  byUuid : List (Nat × Fac)
  byName : List (String × Fac)
  all : List Fac
  deriving DecidableEq, Repr

/-- Lookup in an `unordered_map`. (FactoryCollection.cpp:40-47.) -/
def lookup {κ α : Type} [DecidableEq κ] (m : List (κ × α)) (k : κ) : Option α :=
  (m.find? (fun p => p.1 = k)).map (·.2)

/-- `try_emplace`. (FactoryCollection.cpp:58-68.) -/
def tryEmplace {κ α : Type} [DecidableEq κ] (m : List (κ × α)) (k : κ) (v : α) : List (κ × α) :=
  if (lookup m k).isSome then m else m ++ [(k, v)]

/-- `FactoryCollection::Add` (`FactoryCollection.cpp:58-68`). -/
def Facs.add (s : Facs) (f : Fac) : Facs × Option Exn :=
  if (lookup s.byUuid f.uuid).isSome then (s, some .DuplicateUuid)
  else
    ({ byUuid := tryEmplace s.byUuid f.uuid f
       byName := tryEmplace s.byName f.name f
       all := s.all ++ [f] }, none)

/-- `FactoryCollection::at(uuid)` (`FactoryCollection.cpp:44-47`), `Simulator::GetFactory`
(`Simulator.cpp:654-656`). -/
def Facs.atUuid (s : Facs) (u : Nat) : Option Fac := lookup s.byUuid u

/-- `FactoryCollection::at(name)` (`FactoryCollection.cpp:32-38`). -/
def Facs.atName (s : Facs) : Option String → Option Fac
  | none => none
  | some n => lookup s.byName n

/-- `FactoryCollection::at(index)` (`FactoryCollection.cpp:40-42`). -/
def Facs.atIndex (s : Facs) (i : Nat) : Option Fac := if i < s.all.length then s.all[i]? else none

/-- `Simulator::CreateInstance` (`Simulator.cpp:645-652`): the factory that creates the instance
and the name it is given, or null. -/
def Facs.createInstance (s : Facs) (u : Nat) (name : String) : Option (Fac × String) :=
  match s.atUuid u with
  | some f => some (f, name)
  | none => none

/-- A sequence of registrations. Of the model only (sequences of the calls of
FactoryCollection.cpp:58-68). -/
def frun (s : Facs) (fs : List Fac) : Facs := fs.foldl (fun s f => (s.add f).1) s

end Verif.Tree
