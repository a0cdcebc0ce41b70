/-
Model of the Python classes that the module makes for the types of the objects of the simulator
(src/python/ecss_smp.cpp:173-343, 410-424) and of the order in which Python searches their bases
(the C3 linearisation that CPython uses for every class).

Simplified: the services and the types of the publication are named without their namespace.
-/
namespace Verif.Python.Class

/-- The interfaces that the module registers for objects; `ICollection item` is `ICollection<item>`.
(ecss_smp.cpp:197-298; IFactoryBinding.h:22; ICollectionBinding.h:26.) -/
inductive Ifc
  | IObject
  | IComponent
  | IAggregate
  | IDynamicInvocation
  | IEventConsumer
  | IEventProvider
  | ILinkingComponent
  | IModel
  | IFallibleModel
  | IService
  | IEventManager
  | ILinkRegistry
  | ILogger
  | IResolver
  | IScheduler
  | ITimeKeeper
  | IComposite
  | ISimulator
  | IContainer
  | IEntryPoint
  | IEntryPointPublisher
  | IEventSink
  | IEventSource
  | IOperation
  | IPersist
  | IFailure
  | IField
  | IArrayField
  | ISimpleArrayField
  | ISimpleField
  | IForcibleField
  | IStructureField
  | IDataflowField
  | IProperty
  | IReference
  | IParameter
  | IType
  | IArrayType
  | IEnumerationType
  | IStructureType
  | IClassType
  | IFactory
  | ICollection (item : Ifc)
  deriving DecidableEq, Repr

/-- The base of a registered class: the second argument of `py::class_`. pybind11 compiles it only if
the first derives from the second in C++. -/
def Ifc.base : Ifc → Option Ifc
  -- IObjectBinding.h:54
  | .IObject => none
  -- IComponentBinding.h:22
  | .IComponent => some .IObject
  -- IAggregateBinding.h:22
  | .IAggregate => some .IComponent
  -- IDynamicInvocationBinding.h:22
  | .IDynamicInvocation => some .IComponent
  -- IEventConsumerBinding.h:22
  | .IEventConsumer => some .IComponent
  -- IEventProviderBinding.h:22
  | .IEventProvider => some .IComponent
  -- ILinkingComponentBinding.h:22
  | .ILinkingComponent => some .IComponent
  -- IModelBinding.h:22
  | .IModel => some .IComponent
  -- IFallibleModelBinding.h:22
  | .IFallibleModel => some .IModel
  -- IServiceBinding.h:22
  | .IService => some .IComponent
  -- IEventManagerBinding.h:23
  | .IEventManager => some .IService
  -- ILinkRegistryBinding.h:23
  | .ILinkRegistry => some .IService
  -- ILoggerBinding.h:23
  | .ILogger => some .IService
  -- IResolverBinding.h:23
  | .IResolver => some .IService
  -- ISchedulerBinding.h:23
  | .IScheduler => some .IService
  -- ITimeKeeperBinding.h:23
  | .ITimeKeeper => some .IService
  -- ICompositeBinding.h:22
  | .IComposite => some .IObject
  -- ISimulatorBinding.h:297
  | .ISimulator => some .IComposite
  -- IContainerBinding.h:25
  | .IContainer => some .IObject
  -- IEntryPointBinding.h:22
  | .IEntryPoint => some .IObject
  -- IEntryPointPublisherBinding.h:22
  | .IEntryPointPublisher => some .IObject
  -- IEventSinkBinding.h:38
  | .IEventSink => some .IObject
  -- IEventSourceBinding.h:33
  | .IEventSource => some .IObject
  -- IOperationBinding.h:102
  | .IOperation => some .IObject
  -- IPersistBinding.h:22
  | .IPersist => some .IObject
  -- IFailureBinding.h:22
  | .IFailure => some .IPersist
  -- IFieldBinding.h:22
  | .IField => some .IPersist
  -- IArrayFieldBinding.h:24
  | .IArrayField => some .IField
  -- ISimpleArrayFieldBinding.h:27
  | .ISimpleArrayField => some .IField
  -- ISimpleFieldBinding.h:27
  | .ISimpleField => some .IField
  -- IForcibleFieldBinding.h:24
  | .IForcibleField => some .ISimpleField
  -- IStructureFieldBinding.h:22
  | .IStructureField => some .IField
  -- IDataflowFieldBinding.h:23
  | .IDataflowField => some .IField
  -- IPropertyBinding.h:28
  | .IProperty => some .IObject
  -- IReferenceBinding.h:25
  | .IReference => some .IObject
  -- IParameterBinding.h:22
  | .IParameter => some .IObject
  -- ITypeBinding.h:22
  | .IType => some .IObject
  -- IArrayTypeBinding.h:22
  | .IArrayType => some .IType
  -- IEnumerationTypeBinding.h:22
  | .IEnumerationType => some .IType
  -- IStructureTypeBinding.h:22
  | .IStructureType => some .IType
  -- IClassTypeBinding.h:22
  | .IClassType => some .IStructureType
  -- IFactoryBinding.h:22
  | .IFactory => some .IObject
  -- ICollectionBinding.h:26
  | .ICollection _ => some .IObject

/-- `TypeHierarchy`: an interface and those derived from it. (ecss_smp.cpp:173-195.) -/
inductive Hier
  | node (ifc : Ifc) (childs : List Hier)

/-- `IObjectHierarchy`. (ecss_smp.cpp:197-298.) -/
def table : Hier :=
  .node .IObject [
    .node .IComponent [
      .node .IAggregate [],
      .node .IDynamicInvocation [],
      .node .IEventConsumer [],
      .node .IEventProvider [],
      .node .ILinkingComponent [],
      .node .IModel [
        .node .IFallibleModel []],
      .node .IService [
        .node .IEventManager [],
        .node .ILinkRegistry [],
        .node .ILogger [],
        .node .IResolver [],
        .node .IScheduler [],
        .node .ITimeKeeper []]],
    .node .IComposite [
      .node .ISimulator []],
    .node .IContainer [],
    .node .IEntryPoint [],
    .node .IEntryPointPublisher [],
    .node .IEventSink [],
    .node .IEventSource [],
    .node .IOperation [],
    .node .IPersist [
      .node .IFailure [],
      .node .IField [
        .node .IArrayField [],
        .node .ISimpleArrayField [],
        .node .ISimpleField [
          .node .IForcibleField []],
        .node .IStructureField [],
        .node .IDataflowField []]],
    .node .IProperty [],
    .node .IReference [],
    .node .IParameter [],
    .node .IType [
      .node .IArrayType [],
      .node .IEnumerationType [],
      .node .IStructureType [
        .node .IClassType []]]]

mutual

/-- `processHierarchy`: whether the interface or one below it has been added (`ignore`), and what
`record.add_base` has been called with, in order. `inst` is `isInstance` of the object, a
`dynamic_cast`. (ecss_smp.cpp:330-343.) -/
def Hier.process (inst : Ifc → Bool) : Hier → Bool × List Ifc
  | .node i cs =>
    if !(processAll inst cs).1 && inst i then (true, (processAll inst cs).2 ++ [i])
    else processAll inst cs

/-- The loop over `childs`. (ecss_smp.cpp:335-337.) -/
def processAll (inst : Ifc → Bool) : List Hier → Bool × List Ifc
  | [] => (false, [])
  | c :: cs =>
    ((c.process inst).1 || (processAll inst cs).1, (c.process inst).2 ++ (processAll inst cs).2)

end

/-- What Python searches for a registered class, given the number of bases there can be above it: the
class, its base, … up to `object`. (`py::class_` with one base, as in IComponentBinding.h:22.) -/
def lin : Nat → Ifc → List Ifc
  | 0, i => [i]
  | n + 1, i => match i.base with
    | some b => i :: lin n b
    | none => [i]

/-- The same without the number. (The hierarchy is not deeper than 5; IForcibleFieldBinding.h:24,
ISimpleFieldBinding.h:27, IFieldBinding.h:22, IPersistBinding.h:22, IObjectBinding.h:54.) Simplified:
`pybind11_object` and `object`, which are the last for every class, are left out. -/
def Ifc.lin (i : Ifc) : List Ifc := Class.lin 8 i

/-- CPython's merge of the lists of the bases: the first head that is in no tail comes next. `none`:
"Cannot create a consistent method resolution order". `n` bounds the number of rounds. (Called for
`py::detail::generic_type::initialize`, ecss_smp.cpp:327.) -/
def merge : Nat → List (List Ifc) → Option (List Ifc)
  | 0, _ => some []
  | n + 1, ls =>
    if ls.all List.isEmpty then some []
    else match ls.find? (good ls) with
      | some (h :: _) => (merge n (ls.map (pop h))).map (h :: ·)
      | _ => none
where
  /-- The head of the list is in no tail. -/
  good (ls : List (List Ifc)) : List Ifc → Bool
    | [] => false
    | h :: _ => ls.all fun l => !(l.tail.contains h)
  /-- The head that has been chosen is taken from every list. -/
  pop (h : Ifc) : List Ifc → List Ifc
    | [] => []
    | x :: xs => if x = h then xs else x :: xs

/-- The bases of the class that is made for a type. (ecss_smp.cpp:325.) -/
def bases (inst : Ifc → Bool) : List Ifc := (table.process inst).2

/-- Where Python looks for the methods of an object whose type has no class yet: the bases of the new
class, in order; `none` if the class cannot be made. (ecss_smp.cpp:304-328, 410-424.) -/
def mro (inst : Ifc → Bool) : Option (List Ifc) :=
  merge (((bases inst).map Ifc.lin ++ [bases inst]).map List.length).sum
    ((bases inst).map Ifc.lin ++ [bases inst])

/-- `isinstance(object, interface)` in Python. (ecss_smp.cpp:325-327.) -/
def isInstance (inst : Ifc → Bool) (i : Ifc) : Bool :=
  match mro inst with
  | some l => l.contains i
  | none => false

end Verif.Python.Class
