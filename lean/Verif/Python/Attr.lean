import Verif.Path.Model
import Verif.Python.Class
import Verif.Python.Value

/-
Model of the attributes and items of simulator objects in Python: `object.name`, `object["path"]`,
`object.name = value`, `object["path"] = value` and `object.name += value`
(src/python/Smp/IObjectBinding.h:26-93).

The search of Python for attributes and for `__getitem__` is that of CPython: the attributes of the
classes come first, in the order of `Class.mro`, then `__getattr__` is called. The objects have no
`__dict__` (no class is registered with `py::dynamic_attr`).

Simplified: names and paths are texts without zero byte; attributes of `object` itself, all with two
underscores, are not listed.
-/
namespace Verif.Python.Attr
open Verif.Path (Node Addr Refs Str Resolve kindAt)
open Verif.Any (Any Fl)
open Verif.Python.Class (Ifc mro)
open Verif.Python.Value (Py Res assign ofPy plus)

/-- What the module defines in the class of an interface. -/
def methods : Ifc → List String
  -- IObjectBinding.h:56-104
  | .IObject => ["__getattr__", "__setattr__", "__getitem__", "__setitem__", "GetName",
      "GetDescription", "GetParent", "__repr__"]
  -- IComponentBinding.h:25-35
  | .IComponent => ["GetState", "GetField", "GetUuid"]
  -- IAggregateBinding.h:25-25
  | .IAggregate => ["GetReference"]
  -- IDynamicInvocationBinding.h:22
  | .IDynamicInvocation => []
  -- IEventConsumerBinding.h:25-25
  | .IEventConsumer => ["GetEventSink"]
  -- IEventProviderBinding.h:25-25
  | .IEventProvider => ["GetEventSource"]
  -- ILinkingComponentBinding.h:25-25
  | .ILinkingComponent => ["RemoveLinks"]
  -- IModelBinding.h:22
  | .IModel => []
  -- IFallibleModelBinding.h:25-29
  | .IFallibleModel => ["IsFailed", "GetFailure"]
  -- IServiceBinding.h:22
  | .IService => []
  -- IEventManagerBinding.h:26-45
  | .IEventManager => ["QueryEventId", "Subscribe", "Unsubscribe", "Emit"]
  -- ILinkRegistryBinding.h:26-59
  | .ILinkRegistry => ["AddLink", "GetLinkCount", "RemoveLink", "GetLinkSources", "CanRemove", "RemoveLinks"]
  -- ILoggerBinding.h:26-116
  | .ILogger => ["QueryLogMessageKind", "Log", "LogDebug", "LogEvent", "LogInfo", "LogWarning",
      "LogError", "LMK_Information", "LMK_Event", "LMK_Warning", "LMK_Error", "LMK_Debug",
      "LMK_InformationName", "LMK_EventName", "LMK_WarningName", "LMK_ErrorName",
      "LMK_DebugName"]
  -- IResolverBinding.h:26-32
  | .IResolver => ["ResolveAbsolute", "ResolveRelative"]
  -- ISchedulerBinding.h:26-136
  | .IScheduler => ["AddImmediateEvent", "AddSimulationTimeEvent", "AddMissionTimeEvent",
      "AddEpochTimeEvent", "AddZuluTimeEvent", "SetEventSimulationTime",
      "SetEventMissionTime", "SetEventEpochTime", "SetEventZuluTime", "SetEventCycleTime",
      "SetEventRepeat", "RemoveEvent", "GetCurrentEventId", "GetNextScheduledEventTime"]
  -- ITimeKeeperBinding.h:26-76
  | .ITimeKeeper => ["GetSimulationTime", "GetMissionTime", "GetEpochTime", "GetMissionStartTime",
      "GetZuluTime", "SetSimulationTime", "SetEpochTime", "SetMissionStartTime",
      "SetMissionTime"]
  -- ICompositeBinding.h:25-25
  | .IComposite => ["GetContainer"]
  -- ISimulatorBinding.h:300-445
  | .ISimulator => ["Initialise", "Publish", "Configure", "Connect", "Run", "Hold", "Store", "Restore",
      "Reconnect", "Exit", "Abort", "GetState", "AddInitEntryPoint", "AddModel",
      "AddService", "GetLogger", "GetTimeKeeper", "GetScheduler", "GetEventManager",
      "GetResolver", "GetLinkRegistry", "CreateInstance", "GetFactory", "GetFactories",
      "GetTypeRegistry", "LoadLibrary", "generate_python_type_hints"]
  -- IContainerBinding.h:28-104
  | .IContainer => ["__len__", "GetCount", "GetUpper", "GetLower", "__getitem__", "__delitem__",
      "GetComponent", "AddComponent", "DeleteComponent", "__iadd__", "__isub__"]
  -- IEntryPointBinding.h:25-27
  | .IEntryPoint => ["__call__", "Execute"]
  -- IEntryPointPublisherBinding.h:25-25
  | .IEntryPointPublisher => ["GetEntryPoint"]
  -- IEventSinkBinding.h:41-68
  | .IEventSink => ["Subscribe", "__iadd__", "Unsubscribe", "__isub__", "GetEventArgType", "Notify",
      "__call__"]
  -- IEventSourceBinding.h:36-51
  | .IEventSource => ["Subscribe", "__iadd__", "Unsubscribe", "__isub__"]
  -- IOperationBinding.h:105-116
  | .IOperation => ["__call__", "GetView", "GetParameter", "GetReturnParameter"]
  -- IPersistBinding.h:22
  | .IPersist => []
  -- IFailureBinding.h:25-31
  | .IFailure => ["Fail", "Unfail", "IsFailed"]
  -- IFieldBinding.h:25-36
  | .IField => ["IsInput", "IsOutput", "IsState", "GetView", "GetType"]
  -- IArrayFieldBinding.h:27-41
  | .IArrayField => ["__len__", "__getitem__", "GetSize", "GetItem"]
  -- ISimpleArrayFieldBinding.h:30-41
  | .ISimpleArrayField => ["__len__", "__getitem__", "__setitem__"]
  -- ISimpleFieldBinding.h:30-190
  | .ISimpleField => ["GetPrimitiveTypeKind", "GetValue", "SetValue", "__bool__", "__eq__", "__nq__",
      "__lt__", "__le__", "__gt__", "__ge__", "__add__", "__sub__", "__mul__", "__truediv__",
      "__lshift__", "__rshift__", "__and__", "__xor__", "__or__", "__radd__", "__rsub__",
      "__rmul__", "__rtruediv__", "__rlshift__", "__rrshift__", "__rand__", "__rxor__",
      "__ror__", "__neg__", "__pos__", "__invert__", "__repr__"]
  -- IForcibleFieldBinding.h:27-41
  | .IForcibleField => ["Force", "Unforce", "IsForced", "Freeze"]
  -- IStructureFieldBinding.h:24-24
  | .IStructureField => ["GetField"]
  -- IDataflowFieldBinding.h:26-30
  | .IDataflowField => ["Connect", "Push"]
  -- IPropertyBinding.h:31-191
  | .IProperty => ["GetAccess", "GetView", "GetValue", "SetValue", "__bool__", "__eq__", "__nq__",
      "__lt__", "__le__", "__gt__", "__ge__", "__add__", "__sub__", "__mul__", "__truediv__",
      "__lshift__", "__rshift__", "__and__", "__xor__", "__or__", "__radd__", "__rsub__",
      "__rmul__", "__rtruediv__", "__rlshift__", "__rrshift__", "__rand__", "__rxor__",
      "__ror__", "__neg__", "__pos__", "__invert__", "__repr__"]
  -- IReferenceBinding.h:28-106
  | .IReference => ["__len__", "GetCount", "GetUpper", "GetLower", "__getitem__", "__delitem__",
      "GetComponent", "AddComponent", "RemoveComponent", "__iadd__", "__isub__"]
  -- IParameterBinding.h:25-29
  | .IParameter => ["GetType", "GetDirection"]
  -- ITypeBinding.h:25-30
  | .IType => ["GetPrimitiveTypeKind", "GetUuid"]
  -- IArrayTypeBinding.h:25-28
  | .IArrayType => ["GetSize", "GetItemType"]
  -- IEnumerationTypeBinding.h:25-25
  | .IEnumerationType => ["AddLiteral"]
  -- IStructureTypeBinding.h:25-25
  | .IStructureType => ["AddField"]
  -- IClassTypeBinding.h:22
  | .IClassType => []
  -- IFactoryBinding.h:25-37
  | .IFactory => ["GetUuid", "GetTypeName", "CreateInstance", "DeleteInstance"]
  -- ICollectionBinding.h:29-55
  | .ICollection _ => ["__len__", "size", "at", "__getitem__"]

/-- The objects of a simulator: the tree, what the references refer to, the interfaces that each object
implements (see `Class`), and the value of each simple field or property (`none` for other objects).
Simplified: the value of a property is what its getter gives. (IObjectBinding.h:29, 39-48.) -/
structure Sim where
  tree : Node
  refs : Refs
  inst : Addr → Ifc → Bool
  val : Addr → Option Any

/-- The class of the object has an attribute of that name. (ecss_smp.cpp:304-328; CPython.) -/
def Sim.hides (S : Sim) (a : Addr) (n : Str) : Bool :=
  ((mro (S.inst a)).getD []).any fun i => (methods i).any fun m => m.toList == n

/-- The interface whose method of that name is called. (ecss_smp.cpp:304-328; CPython.) -/
def Sim.provider (S : Sim) (a : Addr) (m : String) : Option Ifc :=
  ((mro (S.inst a)).getD []).find? fun i => (methods i).contains m

/-- How reading an attribute or an item ends. (IObjectBinding.h:56-83.) -/
inductive Got
  | object (b : Addr)
  /-- the attribute of a class, such as a method -/
  | method
  | attributeError
  | keyError
  /-- the item is not asked from `IObject` (IArrayFieldBinding.h:29, IContainerBinding.h:40) -/
  | elsewhere (i : Option Ifc)
  /-- undefined behaviour: `path[0]` of a null pointer (Helper.cpp:383) -/
  | ub
  deriving DecidableEq

/-- `getattr(object, name)`. (IObjectBinding.h:56-64.) -/
def Sim.getAttr (S : Sim) (a : Addr) (n : Str) : Got :=
  if S.hides a n then .method
  else match Resolve S.tree S.refs a n with
    | some b => .object b
    | none => .attributeError

/-- `object[path]`; `none` is `None`, which pybind11 converts to a null `const char *`.
(IObjectBinding.h:75-83.) -/
def Sim.getItem (S : Sim) (a : Addr) (path : Option Str) : Got :=
  match S.provider a "__getitem__" with
  | some .IObject => match path with
    | none => .ub
    | some p => match Resolve S.tree S.refs a p with
      | some b => .object b
      | none => .keyError
  | i => .elsewhere i

/-- A value that is assigned: an object of the simulator or any other Python value.
(IObjectBinding.h:32, 40-46.) -/
inductive Val
  | obj (b : Addr)
  | py (p : Py)

/-- What `convert` sees of a value: a simple field has a value; any other object of the simulator is an
object like a list. Simplified: `bool(property)` is not used by a conversion to `Bool`.
(ecss_smp.cpp:464-499.) -/
def Sim.toPy (S : Sim) : Val → Py
  | .py p => p
  | .obj b => match kindAt S.tree b, S.val b with
    | some .simpleField, some v => .field v
    | some .failure, some v => .field v
    | _, _ => .other

/-- How an assignment ends. (IObjectBinding.h:26-51.) -/
inductive Done
  /-- the object itself has been assigned -/
  | unchanged
  /-- `SetValue` of that object with that value (lines 40, 45) -/
  | set (b : Addr) (v : Any)
  /-- the conversion or `SetValue` raises -/
  | failed (r : Res Unit)
  /-- `false`: the caller raises `AttributeError` or `KeyError` -/
  | refused

/-- An error without its result; of the model only. (ecss_smp.cpp:426-536.) -/
def asError {α : Type} (r : Res α) : Res Unit := r.bind fun _ => .ok ()

/-- `SetValue(self, name, value)`. A property and a simple field take the value converted to their
kind; a value of another kind is refused. Simplified: the kind of a property is that of its value, and
its setter takes what a field takes. (IObjectBinding.h:26-51.) -/
def Sim.setValue (S : Sim) (narrow : Fl → Fl) (a : Addr) (n : Str) (x : Val) : Done :=
  match Resolve S.tree S.refs a n with
  | none => .refused
  | some b =>
    if isObj x b then .unchanged
    else match S.val b with
      | some v => match assign narrow v (S.toPy x) with
        | .ok w => .set b w
        | e => .failed (asError e)
      | none => .refused
where
  /-- `child == value.cast<IObject *>()`; any other value raises `cast_error`, which is ignored.
  (IObjectBinding.h:31-37.) -/
  isObj : Val → Addr → Bool
    | .obj c, b => c == b
    | .py _, _ => false

/-- How `object.name = value` ends; no class defines another `__setattr__`. (IObjectBinding.h:66-73.) -/
inductive Stored
  | ok (S : Sim)
  | attributeError
  | failed (r : Res Unit)

/-- `object.name = value`. (IObjectBinding.h:66-73.) -/
def Sim.setAttr (S : Sim) (narrow : Fl → Fl) (a : Addr) (n : Str) (x : Val) : Stored :=
  match S.setValue narrow a n x with
  | .unchanged => .ok S
  | .set b w => .ok { S with val := fun c => if c = b then some w else S.val c }
  | .failed r => .failed r
  | .refused => .attributeError

/-- `object.name += k` for an `int`: Python reads the attribute, adds, and assigns the sum; `none` when
the attribute is not a field or property. (ISimpleFieldBinding.h:83-86; IPropertyBinding.h:85-88;
IObjectBinding.h:56-73.) -/
def Sim.addAttr (S : Sim) (narrow : Fl → Fl) (a : Addr) (n : Str) (k : Int) : Option Stored :=
  match S.getAttr a n with
  | .object b => match S.val b with
    | some v => match plus v k with
      | .ok p => some (S.setAttr narrow a n (.py p))
      | e => some (.failed (asError e))
    | none => none
  | _ => none

/-- `object.name += other` where the attribute defines `__iadd__` and returns itself: an event source or
sink, a container, a reference. `effect` is what `__iadd__` does; the attribute is then assigned to
itself. (IEventSourceBinding.h:20-24, 42; IContainerBinding.h:97-102; IObjectBinding.h:66-73.) -/
def Sim.iaddAttr (S : Sim) (narrow : Fl → Fl) (a : Addr) (n : Str) (effect : Sim → Sim) :
    Option Stored :=
  match S.getAttr a n with
  | .object b => some ((effect S).setAttr narrow a n (.obj b))
  | _ => none

end Verif.Python.Attr
