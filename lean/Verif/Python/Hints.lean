import Verif.Path.Model
import Verif.Python.Class

/-
Model of `generate_python_type_hints`, which writes a Python file with one class for each component and
field of a simulator (src/python/Smp/ISimulatorBinding.h:111-290).

Simplified: names and descriptions are texts without zero byte; the file can be opened and written.
-/
namespace Verif.Python.Hints
open Verif.Path (Str)
open Verif.Python.Class (Ifc)

/-- What `generate` reads of an object, apart from the objects it contains: name, description, the
interfaces it implements, and the names of its references, operations, properties, event sinks, event
sources and entry points. A collection that is null and tested for it counts as empty. `published`:
`GetFields`, `GetOperations` and `GetProperties` of a component are not null, that is, `Publish` has
been called (Component.cpp:54-56, 116-122). (ISimulatorBinding.h:120-238, 263-270.) -/
structure Head where
  name : Str
  desc : Str
  inst : Ifc → Bool
  references : List Str := []
  operations : List Str := []
  properties : List Str := []
  sinks : List Str := []
  sources : List Str := []
  entryPoints : List Str := []
  published : Bool := true

mutual

/-- An object with its fields and its containers; the fields are those of a component
(ISimulatorBinding.h:191) or of a structure (line 237). -/
inductive Obj
  | mk (head : Head) (fields : List Obj) (containers : List Box)

/-- A container with its components, a collection that is never null (Container.cpp:88-90).
(ISimulatorBinding.h:202-208.) -/
inductive Box
  | mk (name : Str) (components : List Obj)

end

/-- The head of an object. Of the model only (the pointer of ISimulatorBinding.h:114). -/
def Obj.head : Obj → Head | .mk h _ _ => h
/-- `GetFields`. (ISimulatorBinding.h:191, 237.) -/
def Obj.fields : Obj → List Obj | .mk _ f _ => f
/-- `GetContainers`. (ISimulatorBinding.h:201.) -/
def Obj.containers : Obj → List Box | .mk _ _ c => c

/-- The name of a container. (ISimulatorBinding.h:203.) -/
def Box.name : Box → Str | .mk n _ => n
/-- `GetComponents`. (ISimulatorBinding.h:206.) -/
def Box.components : Box → List Obj | .mk _ l => l

/-- `INDENT`. (ISimulatorBinding.h:111.) -/
def INDENT : Str := "    ".toList

/-- The text written for an interface, here for those that `generate` writes.
(ISimulatorBinding.h:122-250.) -/
def text : Ifc → Str
  | .IModel => "ecss_smp.Smp.IModel".toList
  | .IEventManager => "ecss_smp.Smp.Services.IEventManager".toList
  | .ILinkRegistry => "ecss_smp.Smp.Services.ILinkRegistry".toList
  | .ILogger => "ecss_smp.Smp.Services.ILogger".toList
  | .IResolver => "ecss_smp.Smp.Services.IResolver".toList
  | .IScheduler => "ecss_smp.Smp.Services.IScheduler".toList
  | .ITimeKeeper => "ecss_smp.Smp.Services.ITimeKeeper".toList
  | .IService => "ecss_smp.Smp.IService".toList
  | .IAggregate => "ecss_smp.Smp.IAggregate".toList
  | .IReference => "ecss_smp.Smp.IReference".toList
  | .IDynamicInvocation => "ecss_smp.Smp.IDynamicInvocation".toList
  | .IProperty => "ecss_smp.Smp.IProperty".toList
  | .IEventConsumer => "ecss_smp.Smp.IEventConsumer".toList
  | .IEventSink => "ecss_smp.Smp.IEventSink".toList
  | .IEventProvider => "ecss_smp.Smp.IEventProvider".toList
  | .IEventSource => "ecss_smp.Smp.IEventSource".toList
  | .ILinkingComponent => "ecss_smp.Smp.ILinkingComponent".toList
  | .ISimulator => "ecss_smp.Smp.ISimulator".toList
  | .IComposite => "ecss_smp.Smp.IComposite".toList
  | .IContainer => "ecss_smp.Smp.IContainer".toList
  | .IEntryPointPublisher => "ecss_smp.Smp.IEntryPointPublisher".toList
  | .IEntryPoint => "ecss_smp.Smp.IEntryPoint".toList
  | .IForcibleField => "ecss_smp.Smp.IForcibleField".toList
  | .ISimpleField => "ecss_smp.Smp.ISimpleField".toList
  | .IArrayField => "ecss_smp.Smp.IArrayField".toList
  | .ISimpleArrayField => "ecss_smp.Smp.ISimpleArrayField".toList
  | .IStructureField => "ecss_smp.Smp.IStructureField".toList
  | .IDataflowField => "ecss_smp.Smp.IDataflowField".toList
  | .IFailure => "ecss_smp.Smp.IFailure".toList
  | .IPersist => "ecss_smp.Smp.IPersist".toList
  | _ => []

/-- The kind of a component: model or service, and which. (ISimulatorBinding.h:121-138.) -/
def kindBases (inst : Ifc → Bool) : List Ifc :=
  if inst .IModel then [.IModel]
  else if inst .IService then
    if inst .IEventManager then [.IEventManager]
    else if inst .ILinkRegistry then [.ILinkRegistry]
    else if inst .ILogger then [.ILogger]
    else if inst .IResolver then [.IResolver]
    else if inst .IScheduler then [.IScheduler]
    else if inst .ITimeKeeper then [.ITimeKeeper]
    else [.IService]
  else []

/-- What is written to `bases` for a component. (ISimulatorBinding.h:120-189.) -/
def componentBases (inst : Ifc → Bool) : List Ifc :=
  kindBases inst ++ (if inst .IAggregate then [.IAggregate] else []) ++
    (if inst .IDynamicInvocation then [.IDynamicInvocation] else []) ++
    (if inst .IEventConsumer then [.IEventConsumer] else []) ++
    (if inst .IEventProvider then [.IEventProvider] else []) ++
    (if inst .ILinkingComponent then [.ILinkingComponent] else [])

/-- What is written to `bases` for an object with a state to store. (ISimulatorBinding.h:221-251.) -/
def persistBases (inst : Ifc → Bool) : List Ifc :=
  if inst .IField then
    (if inst .ISimpleField then (if inst .IForcibleField then [.IForcibleField] else [.ISimpleField])
     else if inst .IArrayField then [.IArrayField]
     else if inst .ISimpleArrayField then [.ISimpleArrayField]
     else if inst .IStructureField then [.IStructureField]
     else []) ++ (if inst .IDataflowField then [.IDataflowField] else []) ++
      (if inst .IFailure then [.IFailure] else [])
  else if inst .IFailure then [.IFailure]
  else [.IPersist]

/-- The interfaces written to `bases`, in order. (ISimulatorBinding.h:116, 120-252.) -/
def bases (inst : Ifc → Bool) : List Ifc :=
  (if inst .IComponent then componentBases inst else []) ++
    (if inst .IComposite then (if inst .ISimulator then [.ISimulator] else [.IComposite]) else []) ++
    (if inst .IEntryPointPublisher then [.IEntryPointPublisher] else []) ++
    (if inst .IPersist then persistBases inst else [])

/-- `bases.str()`: a comma and a space follow every interface. (ISimulatorBinding.h:122-250.) -/
def basesText (inst : Ifc → Bool) : Str := (bases inst).flatMap fun i => text i ++ ", ".toList

/-- A line `name: interface`. (ISimulatorBinding.h:146-147, 161-162, 171-172, 182-183, 203-204,
215-216.) -/
def attrLine (indent name : Str) (i : Ifc) : Str :=
  indent ++ name ++ ": ".toList ++ text i ++ "\n".toList

/-- A line `def name(self, ): ...`. (ISimulatorBinding.h:157-158.) -/
def operationLine (indent name : Str) : Str :=
  indent ++ "def ".toList ++ name ++ "(self, ".toList ++ "): ...\n".toList

/-- An empty line. (ISimulatorBinding.h:148, 173, 184, 205.) -/
def blank : Str := "\n".toList

/-- What is written to `body` for a component before its fields; `none`: a null pointer is dereferenced.
(ISimulatorBinding.h:140-189.) -/
def componentBody (indent : Str) (h : Head) : Option Str := do
  let refs := if h.inst .IAggregate then
    h.references.flatMap fun n => attrLine indent ('_' :: n) .IReference ++ blank else []
  let invocation ← (if h.inst .IDynamicInvocation then
      if h.published then
        some (h.operations.flatMap (operationLine indent) ++
          h.properties.flatMap fun n => attrLine indent n .IProperty)
      else none
    else some [])
  let sinks := if h.inst .IEventConsumer then
    h.sinks.flatMap fun n => attrLine indent n .IEventSink ++ blank else []
  let sources := if h.inst .IEventProvider then
    h.sources.flatMap fun n => attrLine indent n .IEventSource ++ blank else []
  return refs ++ invocation ++ sinks ++ sources

/-- The nested fields are written: a field that is a structure and not simple or an array.
(ISimulatorBinding.h:219-238.) -/
def nested (inst : Ifc → Bool) : Bool :=
  inst .IPersist && inst .IField && !inst .ISimpleField && !inst .IArrayField &&
    !inst .ISimpleArrayField && inst .IStructureField

/-- The class and what follows it, given the body. (ISimulatorBinding.h:254-273.) -/
def wrap (indent : Str) (h : Head) (body : Str) : Str :=
  let body := if body.isEmpty then indent ++ INDENT ++ "pass\n".toList else body
  if h.inst .ISimulator then
    indent ++ "class Simulator(".toList ++ basesText h.inst ++ "):\n".toList ++ body ++ "\n".toList
  else
    indent ++ "class __".toList ++ h.name ++ "(".toList ++ basesText h.inst ++ "):\n".toList ++
      body ++ "\n".toList ++
      indent ++ h.name ++ ": __".toList ++ h.name ++ "\n".toList ++
      (if h.desc.isEmpty then []
       else indent ++ "\"\"\"".toList ++ h.desc ++ "\"\"\"\n".toList) ++
      "\n".toList

mutual

/-- `generate`; `none`: a null pointer is dereferenced. (ISimulatorBinding.h:113-274.) -/
def generate (indent : Str) : Obj → Option Str
  | .mk h fields containers => do
    let component ← (if h.inst .IComponent then componentBody (indent ++ INDENT) h else some [])
    let own ← (if h.inst .IComponent then
        if h.published then generateAll (indent ++ INDENT) fields else none
      else some [])
    let composite ← (if h.inst .IComposite then generateBoxes (indent ++ INDENT) containers
      else some [])
    let entryPoints := if h.inst .IEntryPointPublisher then
      h.entryPoints.flatMap fun n => attrLine (indent ++ INDENT) n .IEntryPoint else []
    let members ← (if nested h.inst then generateAll (indent ++ INDENT) fields else some [])
    return wrap indent h (component ++ own ++ composite ++ entryPoints ++ members)

/-- The loops over fields and over components. (ISimulatorBinding.h:191-192, 206-207, 237-238.) -/
def generateAll (indent : Str) : List Obj → Option Str
  | [] => some []
  | o :: l => do return (← generate indent o) ++ (← generateAll indent l)

/-- The loop over containers. (ISimulatorBinding.h:201-208.) -/
def generateBoxes (indent : Str) : List Box → Option Str
  | [] => some []
  | .mk n l :: bs => do
    return attrLine indent ('_' :: n) .IContainer ++ blank ++ (← generateAll indent l) ++
      (← generateBoxes indent bs)

end

/-- `generatePythonTypeHints`: the content of the file. (ISimulatorBinding.h:276-290.) -/
def hints (sim : Obj) : Option Str := do
  return "import ecss_smp\n".toList ++ "\n".toList ++ "\n".toList ++ (← generate [] sim) ++ "\n".toList

end Verif.Python.Hints
