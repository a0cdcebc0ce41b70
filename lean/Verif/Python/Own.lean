/-!
Model of who destroys the objects that Python refers to: the wrappers that pybind11 makes for the
objects of a simulator (src/python/ecss_smp.cpp:299-424), the return value policies of the functions
that return objects (src/python/Smp/*.h), and what C++ destroys.

An object is known by its address. `within` lists the pairs of an object and an object that its
destructor destroys (its members, the components of its containers, and what is in them): it is the
closure of what the destructors do, and a pair stays when something else destroys the second of the
two, as the pointer does. `none` stands for undefined behaviour (an object that does not exist is
destroyed or used).

Simplified: the policies are those of pybind11, which is not part of the repository: a function that
returns a pointer and names no policy has `automatic`, which takes the ownership. References to one
wrapper are counted, as CPython does. A component that is refused (by `AddComponent` for example) is
not modelled here: see `Verif.Tree`. Exceptions and threads are not modelled.
-/
namespace Verif.Python.Own

/-- The functions of the bindings that return an object or a collection, by class and name.
(The `.def` of each file of src/python/Smp, see `Fn.policy`.) -/
inductive Fn
  | createSimulator
  | objectGetattr | objectGetitem | objectGetParent
  | collectionAt | collectionGetitem
  | componentGetField | compositeGetContainer
  | containerGetitem | containerGetComponent
  | referenceGetitem | referenceGetComponent
  | aggregateGetReference | entryPointPublisherGetEntryPoint
  | eventConsumerGetEventSink | eventProviderGetEventSource
  | factoryCreateInstance | fallibleModelGetFailure
  | fieldGetType | arrayFieldGetitem | arrayFieldGetItem | structureFieldGetField
  | operationGetParameter | operationGetReturnParameter | parameterGetType
  | simulatorGetLogger | simulatorGetTimeKeeper | simulatorGetScheduler
  | simulatorGetEventManager | simulatorGetResolver | simulatorGetLinkRegistry
  | simulatorCreateInstance | simulatorGetFactory | simulatorGetFactories
  | arrayTypeGetItemType | typeRegistryGetType | typeRegistryAddType
  | resolverResolveAbsolute | resolverResolveRelative
  | linkRegistryGetLinkSources
  deriving DecidableEq, Repr

/-- `py::return_value_policy`, as far as it is used. (ISimulatorBinding.h:292-295,
IObjectBinding.h:64.) -/
inductive Policy
  | reference
  | automatic
  | takeOwnership
  deriving DecidableEq, Repr

/-- The policy of each function. `automatic` is that of a function that names none.
(IObjectBinding.h:56-64, 75-83, 100-102; ICollectionBinding.h:34-62; IComponentBinding.h:29-33;
ICompositeBinding.h:25-28; IContainerBinding.h:40-57, 80-82; IReferenceBinding.h:40-57, 80-84;
IAggregateBinding.h:25-28; IEntryPointPublisherBinding.h:25-28; IEventConsumerBinding.h:25-28;
IEventProviderBinding.h:25-28; IFactoryBinding.h:32-35; IFallibleModelBinding.h:29-32;
IFieldBinding.h:36-38; IArrayFieldBinding.h:29-43; IStructureFieldBinding.h:24-26;
IOperationBinding.h:110-119; IParameterBinding.h:25-27; ISimulatorBinding.h:292-295, 386-429;
IArrayTypeBinding.h:28-30; ITypeRegistryBinding.h:25-85; IResolverBinding.h:26-34;
ILinkRegistryBinding.h:46-49.) -/
def Fn.policy : Fn → Policy
  | .createSimulator => .takeOwnership
  | .containerGetComponent => .automatic
  | .referenceGetComponent => .automatic
  | .resolverResolveAbsolute => .automatic
  | .resolverResolveRelative => .automatic
  | .linkRegistryGetLinkSources => .automatic
  | _ => .reference

/-- `wrapper->owned`: whether a new wrapper destroys its object. Of pybind11
(`type_caster_generic::cast`); used by ecss_smp.cpp:391-408. -/
def Policy.owns : Policy → Bool
  | .reference => false
  | .automatic => true
  | .takeOwnership => true

/-- A C++ object that exists: its address, its dynamic type, and whether it was made by `new`
(components, the simulator) or is a part of another object (fields, containers, entry points,
collections). (Container.h:227-233; Component.h; XsmpLinkRegistry.h:130-133.) -/
structure Obj where
  addr : Nat
  type : Nat
  heap : Bool
  deriving DecidableEq, Repr

/-- A wrapper: the pointer, the type of its class, whether it owns the object (then its holder was
constructed, ecss_smp.cpp:391-408), and the number of references to it in Python. -/
structure Wrap where
  addr : Nat
  type : Nat
  owned : Bool
  refs : Nat
  deriving DecidableEq, Repr

/-- The objects that exist, what each destructor destroys, and the wrappers.
(ecss_smp.cpp:299-408; Container.h:227-233.) -/
structure St where
  objs : List Obj
  within : List (Nat × Nat)
  wraps : List Wrap
  deriving DecidableEq, Repr

/-- The object at an address. Of the model only (what a pointer read by ecss_smp.cpp:410-424 points
to). -/
def St.at? (s : St) (x : Nat) : Option Obj := s.objs.find? (·.addr == x)

/-- Whether there is an object at an address. Of the model only (ecss_smp.cpp:413-414). -/
def St.live (s : St) (x : Nat) : Bool := s.objs.any (·.addr == x)

/-- The objects whose destructors run when that at `x` is destroyed.
(Container.h:227-233: the components of a container; the members of a class.) -/
def St.dead (s : St) (x : Nat) : List Nat := x :: (s.within.filter (·.1 == x)).map (·.2)

/-- The destructor of the object at `x`: undefined if an object that it destroys does not exist or
is destroyed twice. Pointers of other objects to it stay. (Container.h:227-233.) -/
def St.destroy (s : St) (x : Nat) : Option St :=
  let d := s.dead x
  if d.all s.live && decide d.Nodup then
    some { s with
      objs := s.objs.filter (fun o => !d.contains o.addr)
      within := s.within.filter (fun p => !d.contains p.1) }
  else none

/-- `delete x`: undefined if the object was not made by `new`. (`~holder_type()`,
ecss_smp.cpp:362-377; Factory.cpp:51 for `DeleteInstance`.) -/
def St.delete (s : St) (x : Nat) : Option St :=
  match s.at? x with
  | some o => if o.heap then s.destroy x else none
  | none => none

/-- `DeleteComponent` of the container that holds the component at `x`: it deletes it and forgets
the pointer (Container.h:294-301, Container.cpp:189-198); without such a container, `NotContained`
is raised and nothing changes. -/
def St.remove (s : St) (x : Nat) : Option St :=
  if s.within.any (·.2 == x) then
    match s.delete x with
    | some s' => some { s' with within := s'.within.filter (fun p => !(s.dead x).contains p.2) }
    | none => none
  else some s

/-- The wrapper of an object: the one registered for the pointer and the type.
(`find_registered_python_instance` of pybind11; registered in ecss_smp.cpp:349-355.) -/
def St.wrap? (s : St) (x t : Nat) : Option Wrap :=
  s.wraps.find? (fun w => w.addr == x && w.type == t)

/-- Changes the number of references of a wrapper. Of the model only (CPython). -/
def St.count (s : St) (x t : Nat) (g : Nat → Nat) : St :=
  { s with
    wraps := s.wraps.map
      (fun w => if w.addr == x && w.type == t then { w with refs := g w.refs } else w) }

/-- A function returns the object at `x`: the wrapper that there is, or a new one, which owns the
object if the policy says so. The class of the wrapper is found with `typeid` of the object.
(ecss_smp.cpp:346-358, 391-424.) -/
def St.get (s : St) (p : Policy) (x : Nat) : Option St :=
  match s.at? x with
  | none => none
  | some o =>
    match s.wrap? x o.type with
    | some _ => some (s.count x o.type (· + 1))
    | none => some { s with wraps := s.wraps ++ [⟨x, o.type, p.owns, 1⟩] }

/-- A reference to a wrapper is dropped; with the last one the wrapper goes away, and the object if
the wrapper owns it. (ecss_smp.cpp:362-377.) -/
def St.drop (s : St) (x t : Nat) : Option St :=
  match s.wrap? x t with
  | none => some s
  | some w =>
    if w.refs ≤ 1 then
      let s' := { s with wraps := s.wraps.filter (fun v => !(v.addr == x && v.type == t)) }
      if w.owned then s'.delete x else some s'
    else some (s.count x t (· - 1))

/-- A method of the object is called through its wrapper: undefined if the object does not exist
any more, or if another one of another type is at its address. (Any `.def` with `self`,
IObjectBinding.h:56-110 for example.) -/
def St.use (s : St) (x t : Nat) : Option St :=
  match s.wrap? x t with
  | none => some s
  | some _ =>
    match s.at? x with
    | some o => if o.type = t then some s else none
    | none => none

/-- A component is made by `new` at `x`, with its parts, at addresses that are free; an allocator
gives no others. (Factory.cpp:39-49.) -/
def St.make (s : St) (x t : Nat) (parts : List (Nat × Nat)) : St :=
  if (x :: parts.map (·.1)).any s.live || !decide (x :: parts.map (·.1)).Nodup then s
  else
    { s with
      objs := s.objs ++ ⟨x, t, true⟩ :: parts.map (fun p => ⟨p.1, p.2, false⟩)
      within := s.within ++ parts.map (fun p => (x, p.1)) }

/-- `AddComponent` of the container at `k`, accepted: the container holds the component, and what
destroys the container destroys it and what is in it. (Container.h:275-283.) -/
def St.add (s : St) (k c : Nat) : Option St :=
  if s.live k && s.live c then
    let above := k :: (s.within.filter (·.2 == k)).map (·.1)
    some { s with
      within := s.within ++ above.flatMap (fun a => (s.dead c).map (fun b => (a, b))) }
  else none

/-- What a Python program, and the components while it calls them, do. (ISimulatorBinding.h:410-414;
IContainerBinding.h:59-78, 84-112; IFactoryBinding.h:32-39.) -/
inductive Op
  /-- A function returns the object at `x`. -/
  | get (f : Fn) (x : Nat)
  /-- Another reference to a wrapper (an assignment). -/
  | again (x t : Nat)
  | drop (x t : Nat)
  | use (x t : Nat)
  /-- `CreateInstance`. -/
  | create (x t : Nat) (parts : List (Nat × Nat))
  /-- A component is created and added to the container at `k` by C++ code. -/
  | inside (k x t : Nat) (parts : List (Nat × Nat))
  /-- `AddComponent`. -/
  | add (k c : Nat)
  /-- `DeleteComponent`, or `del` of an item of a container. -/
  | remove (c : Nat)
  /-- `DeleteInstance` of a factory. -/
  | deleteInstance (c : Nat)
  deriving DecidableEq, Repr

/-- One step. (The functions of this file.) -/
def St.step (s : St) : Op → Option St
  | .get f x => s.get f.policy x
  | .again x t => some (s.count x t (· + 1))
  | .drop x t => s.drop x t
  | .use x t => s.use x t
  | .create x t parts =>
    let s' := s.make x t parts
    if s'.objs = s.objs then some s else s'.get Fn.simulatorCreateInstance.policy x
  | .inside k x t parts =>
    let s' := s.make x t parts
    if s'.objs = s.objs then some s else s'.add k x
  | .add k c => s.add k c
  | .remove c => s.remove c
  | .deleteInstance c => s.delete c

/-- The steps of a program. Of the model only. -/
def St.run (s : St) : List Op → Option St
  | [] => some s
  | o :: os => match s.step o with
    | some s' => s'.run os
    | none => none

/-- After `createSimulator`: the simulator, with its parts, and its wrapper, which owns it.
(ISimulatorBinding.h:57-78, 292-295.) -/
def start (x t : Nat) (parts : List (Nat × Nat)) : Option St :=
  ((St.mk [] [] []).make x t parts).get Fn.createSimulator.policy x

end Verif.Python.Own
