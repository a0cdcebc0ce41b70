import Verif.Tree.Life
import Verif.Event.Model
import Verif.Sched.Model
import Verif.Pub.Types

/-!
What the exceptions of containers, references, collections, event sources, factories, components,
the event manager, the scheduler, the time keeper and the type registry carry
(`src/Xsmp/Exception.cpp` and the places that raise them): the calls of Tree/Model.lean,
Tree/Life.lean, Event/Model.lean, Sched/Model.lean and Pub/Types.lean with the data of the exception
they raise. Objects are their addresses, as there; a null argument is `none`.
-/
namespace Verif.Raise
open Verif.Tree (Comp Ctn Composite Ref Elem Src SinkEnv Fac Facs LState LCall Life toSize)

/-- `nullCheck` (Exception.cpp:115-117). -/
def nullCheck (s : Option String) : String := s.getD "<null>"

/-! ### Objects -/

/-- The exceptions of the object tree, with what their accessors return. -/
inductive TEx
  /-- `ContainerFull` (Exception.cpp:232-256): `GetContainerName`, `GetContainerSize` -/
  | containerFull (container : String) (size : Int)
  /-- `DuplicateName` (Exception.cpp:258-283): `GetDuplicateName` -/
  | duplicateName (name : String)
  /-- `InvalidFieldName` (Exception.cpp:949-970): `GetFieldName` -/
  | invalidFieldName (name : String)
  /-- `InvalidParent` (Container.cpp:174-176): no data -/
  | invalidParent
  /-- `NotContained` (Exception.cpp:285-310): `GetContainerName`, `GetComponent` -/
  | notContained (container : String) (component : Option Nat)
  /-- `CannotDelete` (Exception.cpp:312-343): `GetContainerName`, `GetComponent`, `GetLowerLimit` -/
  | cannotDelete (container : String) (component : Option Nat) (lower : Int)
  /-- `InvalidObjectType` (Exception.cpp:376-400): `GetInvalidObject` -/
  | invalidObjectType (object : Nat)
  /-- `NotReferenced` (Exception.cpp:402-430): `GetReferenceName`, `GetComponent` -/
  | notReferenced (reference : String) (component : Option Nat)
  /-- `ReferenceFull` (Exception.cpp:432-458): `GetReferenceName`, `GetReferenceSize` -/
  | referenceFull (reference : String) (size : Int)
  /-- `CannotRemove` (Exception.cpp:463-496): `GetReferenceName`, `GetComponent`, `GetLowerLimit` -/
  | cannotRemove (reference : String) (component : Option Nat) (lower : Int)
  /-- `InvalidEventSink` (Exception.cpp:498-528): `GetEventSource`, `GetEventSink` -/
  | invalidEventSink (source : Nat) (sink : Option Nat)
  /-- `EventSinkAlreadySubscribed` (Exception.cpp:530-562): `GetEventSource`, `GetEventSink` -/
  | sinkAlreadySubscribed (source : Nat) (sink : Option Nat)
  /-- `EventSinkNotSubscribed` (Exception.cpp:564-593): `GetEventSource`, `GetEventSink` -/
  | sinkNotSubscribed (source : Nat) (sink : Option Nat)
  /-- `DuplicateUuid` (Exception.cpp:1148-1176): `GetOldName`, `GetNewName` -/
  | duplicateUuid (old new : String)
  /-- `InvalidComponentState` (Exception.cpp:345-374): `GetInvalidState`, `GetExpectedState` -/
  | componentState (invalid expected : LState)
  /-- `NullPointerException` (Component.cpp:64-65): no data -/
  | nullPointer
  /-- `std::bad_typeid`, not an exception of the standard: `typeid(*object)` of a null pointer
  (Helper.cpp:449-451, evaluated at Exception.cpp:384) -/
  | badTypeid
  /-- undefined behaviour (a null pointer is followed) -/
  | ub
  deriving DecidableEq, Repr

/-- `throwInvalidObjectType<T>(sender, object)` (Exception.cpp:376-388, 1425-1429): the message names
the class of the object (Helper.cpp:449-451). -/
def throwInvalidObjectType : Option Comp → TEx
  | none => .badTypeid
  | some x => .invalidObjectType x.id

/-- `CheckNoDuplicateName` (Container.cpp:95-178), raised for a component that is a `T`. -/
def checkRaises (s : Composite) (isComp : Bool) (x : Comp) : Option TEx :=
  if s.containers.any (fun c => (c.getByName x.name).isSome) then some (.duplicateName x.name)
  else if isComp && s.published then
    if x.name ∈ s.fields then some (.duplicateName x.name) else some (.invalidFieldName x.name)
  else if isComp && decide (x.name ∈ s.members) then some (.duplicateName x.name)
  else if s.self ≠ x.parent then some .invalidParent
  else none

/-- `Container<T>::AddComponent` (Container.h:275-283, Container.cpp:181-188) of the container number
`i`, whose name is `name`. -/
def addRaises (name : String) (s : Composite) (isComp : Bool) (i : Nat) (x : Option Comp) :
    Option TEx :=
  match s.containers[i]? with
  | none => none
  | some c => match x with
    | none => some (throwInvalidObjectType none)
    | some x =>
      if c.ty ∉ x.types then some (throwInvalidObjectType (some x))
      else if c.comps.length ≥ toSize c.upper then some (.containerFull name c.comps.length)
      else checkRaises s isComp x

/-- `Container<T>::DeleteComponent` (Container.h:294-301, Container.cpp:189-198) of the container
number `i`, whose name is `name`. A null component is not found (Container.h:295: no element is
null). -/
def deleteRaises (name : String) (s : Composite) (i : Nat) (x : Option Comp) : Option TEx :=
  match s.containers[i]? with
  | none => none
  | some c => match x with
    | none => some (.notContained name none)
    | some x =>
      if x ∉ c.comps then some (.notContained name (some x.id))
      else if c.comps.length ≤ toSize c.lower then
        some (.cannotDelete name (some x.id) c.lower)
      else none

/-- `Reference<T>::AddComponent` (Reference.h:231-242) of the reference called `name`. -/
def refAddRaises (name : String) (r : Ref) (x : Option Comp) : Option TEx :=
  if r.comps.length ≥ toSize r.upper then some (.referenceFull name r.comps.length)
  else match x with
    | none => some (throwInvalidObjectType none)
    | some x => if r.ty ∉ x.types then some (throwInvalidObjectType (some x)) else none

/-- `Reference<T>::RemoveComponent` (Reference.h:252-262) of the reference called `name`. -/
def refRemoveRaises (name : String) (r : Ref) (x : Option Comp) : Option TEx :=
  match x with
  | none => some (.notReferenced name none)
  | some x =>
    if x ∉ r.comps then some (.notReferenced name (some x.id))
    else if r.comps.length ≤ toSize r.lower then some (.cannotRemove name (some x.id) r.lower)
    else none

/-- `Collection::Add` (Collection.h:83-104), for `AllowDuplicates = dup`. -/
def collectionRaises (dup : Bool) (v : List Elem) (x : Elem) : Option TEx :=
  if dup = false ∧ (Tree.atName v (some x.name)).isSome then some (.duplicateName x.name) else none

/-- `AbstractEventSource::Subscribe` (EventSource.cpp:46-57) of the source `me`: a null sink is asked
for its type. -/
def subscribeRaises (env : SinkEnv) (me : Nat) (s : Src) : Option Nat → Option TEx
  | none => some .ub
  | some x =>
    if env.arg x ≠ s.arg then some (.invalidEventSink me (some x))
    else if x ∈ s.sinks then some (.sinkAlreadySubscribed me (some x))
    else none

/-- `AbstractEventSource::Unsubscribe` (EventSource.cpp:58-64) of the source `me`. -/
def unsubscribeRaises (me : Nat) (s : Src) : Option Nat → Option TEx
  | none => some (.sinkNotSubscribed me none)
  | some x => if x ∉ s.sinks then some (.sinkNotSubscribed me (some x)) else none

/-- `FactoryCollection::Add` (FactoryCollection.cpp:58-68). -/
def factoryRaises (s : Facs) (f : Fac) : Option TEx :=
  match Tree.lookup s.byUuid f.uuid with
  | some old => some (.duplicateUuid old.name f.name)
  | none => none

/-- `Component::Publish`, `Configure`, `Connect`, `Disconnect` (Component.cpp:58-99); `arg` is false
when the receiver, or the simulator, is null. -/
def lifeRaises (s : Life) (arg : Bool) : LCall → Option TEx
  | .publish =>
    if s.state ≠ .created then some (.componentState s.state .created)
    else if !arg then some .nullPointer
    else none
  | .configure =>
    if s.state ≠ .publishing then some (.componentState s.state .publishing) else none
  | .connect =>
    if s.state ≠ .configured then some (.componentState s.state .configured) else none
  | .disconnect =>
    if s.state ≠ .connected then some (.componentState s.state .connected) else none

/-! ### Event manager -/

/-- The exceptions of the event manager, with what their accessors return. -/
inductive VEx
  /-- `InvalidEventName` (Exception.cpp:810-823): the name in the message (line 819) -/
  | eventName (name : String)
  /-- `InvalidEventId` (Exception.cpp:825-851): `GetInvalidEventId` -/
  | eventId (id : Int)
  /-- `EntryPointAlreadySubscribed` (Exception.cpp:916-947): `GetEntryPoint`, `GetEventName` -/
  | alreadySubscribed (ep : Nat) (name : String)
  /-- `EntryPointNotSubscribed` (Exception.cpp:884-914): `GetEntryPoint`, `GetEventName` -/
  | notSubscribed (ep : Nat) (name : String)
  deriving DecidableEq, Repr

/-- The calls of the event manager (XsmpEventManager.cpp:93-199). -/
inductive VCall
  | query (name : Option String)
  | subscribe (i : Int) (ep : Nat)
  | unsubscribe (i : Int) (ep : Nat)
  | emit (i : Int)
  deriving DecidableEq, Repr

/-- What the calls of the event manager raise (XsmpEventManager.cpp:93-199). -/
def eventRaises (m : Event.Mgr) : VCall → Option VEx
  | .query none => some (.eventName (nullCheck none))
  | .query (some n) => if n = "" then some (.eventName (nullCheck (some n))) else none
  | .subscribe i ep => match m.ids.find i with
    | none => some (.eventId i)
    | some n => match m.subs.find i with
      | some l => if ep ∈ l then some (.alreadySubscribed ep n) else none
      | none => none
  | .unsubscribe i ep => match m.ids.find i with
    | none => some (.eventId i)
    | some n => match m.subs.find i with
      | some l => if ep ∈ l then none else some (.notSubscribed ep n)
      | none => some (.notSubscribed ep n)
  | .emit i => match m.ids.find i with
    | none => some (.eventId i)
    | some _ => none

/-! ### Scheduler and time keeper -/

/-- The exceptions of the scheduler and of the time keeper, with what their accessors return or, when
they have none, the values in the message. -/
inductive SEx
  /-- `InvalidEventId` (Exception.cpp:825-851): `GetInvalidEventId` -/
  | eventId (id : Int)
  /-- `InvalidCycleTime` (Exception.cpp:853-867): in the message (line 862) -/
  | cycleTime (cycle : Int)
  /-- `InvalidEventTime` (Exception.cpp:869-883): in the message (lines 878-879) -/
  | eventTime (event current : Int)
  /-- `InvalidSimulationTime` (Exception.cpp:1217-1248): `GetCurrentTime`, `GetProvidedTime`,
  `GetMaximumTime` -/
  | simulationTime (current provided max : Int)
  deriving DecidableEq, Repr

/-- What `AddEvent` and `AddZuluTimeEvent` raise (XsmpScheduler.cpp:139-153, 203-214): `time` and
`current` are in the same time scale. -/
def addEventRaises (time current cycle rep : Int) : Option SEx :=
  if time < current then some (.eventTime time current)
  else if rep ≠ 0 ∧ cycle ≤ 0 then some (.cycleTime cycle)
  else none

/-- What the calls of the scheduler and of the time keeper raise (XsmpScheduler.cpp:125-378,
XsmpTimeKeeper.cpp:81-93). Calls whose arithmetic overflows are left out (undefined behaviour). -/
def schedRaises (s : Sched.State) : Sched.Op → Option SEx
  | .addTimed k _ x cycle rep => match Sched.target s k x with
    | none => none
    | some t => addEventRaises t s.now cycle rep
  | .addZulu _ z cycle rep zuluNow => addEventRaises z zuluNow cycle rep
  | .setTimed k id x => match Sched.target s k x with
    | none => none
    | some _ => match s.events.find id with
      | none => some (.eventId id)
      | some e => if e.kind ≠ k.kind then some (.eventId id) else none
  | .setZulu id _ _ => match s.events.find id with
    | none => some (.eventId id)
    | some e => if e.kind ≠ .zulu then some (.eventId id) else none
  | .setCycle id cycle => match s.events.find id with
    | none => some (.eventId id)
    | some e => if e.rep > 0 ∧ cycle ≤ 0 then some (.cycleTime cycle) else none
  | .setRepeat id rep => match s.events.find id with
    | none => some (.eventId id)
    | some e => if rep ≠ 0 ∧ e.cycle ≤ 0 then some (.cycleTime e.cycle) else none
  | .remove id => match s.events.find id with
    | none => some (.eventId id)
    | some _ => none
  | .setSimTime t =>
    if !s.changing then none
    else if t < s.now ∨ t > s.nextScheduled then
      some (.simulationTime s.now t s.nextScheduled)
    else none
  | _ => none

/-! ### Types -/

open Verif.Pub (Uuid Registry)
open Verif.Any (Kind)
open Verif.Path (Str)

/-- The exceptions of the type registry, with what their accessors return. -/
inductive YEx
  /-- `TypeAlreadyRegistered` (Exception.cpp:1250-1278): `GetTypeName`, and the UUID and the name of
  `GetType` -/
  | alreadyRegistered (name : Str) (uuid : Uuid) (existing : Str)
  /-- `TypeNotRegistered` (Exception.cpp:972-990): `GetUuid` -/
  | notRegistered (uuid : Uuid)
  /-- `InvalidPrimitiveType` (Exception.cpp:1311-1338): `GetTypeName`, `GetType` -/
  | primitive (name : Str) (kind : Kind)
  /-- `IncompatibleType` (Exception.cpp:1635-1639): the UUID in the message -/
  | incompatible (uuid : Uuid)
  /-- `DuplicateLiteral` (Exception.cpp:1280-1309): `GetLiteralName`, `GetLiteralValue` -/
  | literal (name : Str) (value : Int)
  /-- `InvalidObjectName` (Exception.cpp:209-230): `GetInvalidName` -/
  | objectName (name : Str)
  deriving DecidableEq

/-- `nullCheck` (Exception.cpp:115-117), of a text. -/
def nullText (s : Option Str) : Str := s.getD "<null>".toList

/-- `Type::Type` (Type.cpp:28-31): the name is checked first. -/
def namedRaises (name : Option Str) (rest : Option YEx) : Option YEx :=
  match Path.checkName name with
  | .ok _ => rest
  | .invalidObjectName => some (.objectName (nullText name))

/-- `ArrayType::ArrayType` (Type.cpp:54-74). -/
def arrayRaises (R : Registry) (item : Uuid) : Option YEx :=
  match Pub.getType R item with
  | none => some (.notRegistered item)
  | some _ =>
    if item = Pub.primUuid .String8 ∨ item = Pub.voidUuid then some (.incompatible item) else none

/-- `ClassType::ClassType` (Type.cpp:200-221). -/
def classRaises (R : Registry) (u base : Uuid) : Option YEx :=
  if base = Pub.voidUuid then none
  else if base = u then some (.incompatible base)
  else match Pub.getType R base with
    | none => some (.notRegistered base)
    | some (.cls ..) => none
    | some _ => some (.incompatible base)

/-- `TypeRegistry::AddType` (TypeRegistry.cpp:423-436). -/
def addTypeRaises (R : Registry) (u : Uuid) (name : Option Str) (ctor : Option YEx) : Option YEx :=
  match R.find? (fun e => e.uuid == u) with
  | some e => some (.alreadyRegistered (nullText name) e.uuid e.name)
  | none => ctor

/-- What the calls that change the registry or one of its types raise (TypeRegistry.cpp:438-510,
Type.cpp:112-127). -/
def typeRaises (R : Registry) : Pub.Op → Option YEx
  | .addFloat u n _ _ _ _ k =>
      if k = .Float32 ∨ k = .Float64 then addTypeRaises R u n (namedRaises n none)
      else some (.primitive (nullText n) k)
  | .addInteger u n _ _ k =>
      if k = .Int8 ∨ k = .Int16 ∨ k = .Int32 ∨ k = .Int64 ∨ k = .UInt8 ∨ k = .UInt16 ∨
          k = .UInt32 ∨ k = .UInt64 then
        addTypeRaises R u n (namedRaises n none)
      else some (.primitive (nullText n) k)
  | .addEnumeration u n size =>
      addTypeRaises R u n (match Pub.enumKind size with
        | none => some (.primitive (nullText n) .None)
        | some _ => namedRaises n none)
  | .addArray u n item _ _ _ => addTypeRaises R u n (namedRaises n (arrayRaises R item))
  | .addString u n _ => addTypeRaises R u n (namedRaises n none)
  | .addStructure u n => addTypeRaises R u n (namedRaises n none)
  | .addClass u n base => addTypeRaises R u n (namedRaises n (classRaises R u base))
  | .addLiteral u _ v =>
      match Pub.getType R u with
      | some (.enumeration _ lits) =>
        (lits.find? (fun l => l.1 == v)).map fun l => .literal l.2 v
      | _ => none
  | .addField _ _ => none

end Verif.Raise
