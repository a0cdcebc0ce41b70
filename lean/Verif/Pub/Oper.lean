import Verif.Pub.Request

/-!
Model of published operations and properties: `src/Xsmp/Publication/Operation.cpp`,
`src/Xsmp/Publication/Property.cpp` and the operations and properties of
`src/Xsmp/Publication/Publication.cpp`.

Simplified: descriptions and views are left out; the parent component is reduced to whether it
implements `IDynamicInvocation` and to what it does when invoked.
-/
namespace Verif.Pub
open Verif.Any (Kind Fl Val Any Out)
open Verif.Path (Str checkName)

/-- `Smp::Publication::ParameterDirectionKind`. (Used in Operation.cpp:72-105, 143-182.) -/
inductive Dir
  | in | out | inOut | return
  deriving DecidableEq, Repr

/-- `Smp::AccessKind`. (Property.cpp:137-186.) -/
inductive Access
  | readWrite | readOnly | writeOnly
  deriving DecidableEq, Repr

/-- `Operation::Parameter` (Operation.cpp:37-57). -/
structure Param where
  name : Str
  uuid : Uuid
  dir : Dir

/-- `Operation` (Operation.cpp:59-65). -/
structure Oper where
  name : Str
  params : List Param
  ret : Option Param

/-- The exceptions (Operation.cpp:128-182, Property.cpp:153-186). -/
inductive PExn
  | typeNotRegistered | invalidParameterDirection | duplicateName | invalidObjectName
  deriving DecidableEq, Repr

/-- `Operation::PublishParameter` (Operation.cpp:72-105). A null name is refused by `checkName`
(line 42), unless a return parameter exists already: `strcmp` then dereferences it; names here
are not null. `ContainingCollection::Add` (Collection.h:203-220) constructs the parameter before
it looks for a duplicate. -/
def Oper.publishParameter (R : Registry) (o : Oper) (name : Str) (u : Uuid) (dir : Dir) :
    Oper × Option PExn :=
  match getType R u with
  | none => (o, some .typeNotRegistered)
  | some _ =>
    if dir = .return then
      if o.ret.isSome then (o, some .invalidParameterDirection)
      else if o.params.any (fun p => p.name == name) then (o, some .duplicateName)
      else match checkName (some name) with
        | .invalidObjectName => (o, some .invalidObjectName)
        | .ok n => ({ o with ret := some ⟨n, u, dir⟩ }, none)
    else
      if o.ret.any (fun p => p.name == name) then (o, some .duplicateName)
      else match checkName (some name) with
        | .invalidObjectName => (o, some .invalidObjectName)
        | .ok n =>
          if o.params.any (fun p => p.name == n) then (o, some .duplicateName)
          else ({ o with params := o.params ++ [⟨n, u, dir⟩] }, none)

/-- `GetPrimitiveTypeKind` of the type a pointer refers to (types are never removed, so the
pointer is valid: the default is never used for published parameters). (Operation.cpp:143-182.) -/
def kindOf (R : Registry) (u : Uuid) : Kind := ((getType R u).map TypeDef.kind).getD .None

/-- `Operation::CreateRequest` (Operation.cpp:128-141): only if all the parameters and the
return value have a primitive kind. `none` is a null pointer. The fuel is enough: all types are
simple. -/
def Oper.createRequest (R : Registry) (o : Oper) : Option Req :=
  if o.params.any (fun p => kindOf R p.uuid == .None) then none
  else if o.ret.any (fun p => kindOf R p.uuid == .None) then none
  else (flattenAll (o.params.map fun p => (p.name, expand R 1 p.uuid))).map build

/-- An implementation of `IRequest`, as `Operation::Invoke` uses it. `value` is `none` when
`GetParameterValue` raises an exception. (Operation.cpp:143-182.) -/
structure IReq where
  opName : Option Str
  count : Int
  index : Option Str → Int
  value : Int → Option Any

/-- What `Operation::Invoke` does: call the component's `Invoke` or raise.
(Operation.cpp:143-182.) -/
inductive IRes
  | called | invalidOperationName | invalidParameterCount | invalidParameterType
  | raisedByRequest
  deriving DecidableEq, Repr

/-- The loop over the parameters (Operation.cpp:162-178). -/
def checkParams (R : Registry) (r : IReq) : List Param → IRes
  | [] => .called
  | p :: ps =>
    if p.dir = .out then checkParams R r ps
    else match r.value (r.index (some p.name)) with
      | none => .raisedByRequest
      | some v => if v.type ≠ kindOf R p.uuid then .invalidParameterType else checkParams R r ps

/-- `Operation::Invoke` (Operation.cpp:143-182); `dynamic` tells whether the parent implements
`IDynamicInvocation`. -/
def Oper.invoke (R : Registry) (o : Oper) (dynamic : Bool) : Option IReq → IRes
  | none => .invalidOperationName
  | some r =>
    if r.opName ≠ some o.name then .invalidOperationName
    else if !dynamic then .invalidOperationName
    else if toSize r.count ≠ o.params.length then .invalidParameterCount
    else checkParams R r o.params

/-- A `Request` seen through `IRequest`. (Publication/Request.cpp:127-187.) -/
def Req.iface (o : Oper) (r : Req) : IReq :=
  { opName := some o.name
    count := r.values.length
    index := r.index
    value := r.get }

/-! ### Properties -/

/-- `Property` (Property.cpp:137-151). -/
structure Prp where
  name : Str
  uuid : Uuid
  access : Access

/-- `Property::Getter` (Property.cpp:33-80), its return value. -/
structure Getter where
  prop : Prp
  ret : Any

/-- `Property::Setter` (Property.cpp:82-135), its value. -/
structure Setter where
  prop : Prp
  val : Any

/-- `GetOperationName` (Property.cpp:33-80). -/
def Getter.opName (g : Getter) : Str := "get_".toList ++ g.prop.name
/-- `GetOperationName` (Property.cpp:82-135). -/
def Setter.opName (g : Setter) : Str := "set_".toList ++ g.prop.name

/-- `isValid` on the type a pointer refers to. (Publication/Request.cpp:34-81.) -/
def validFor (R : Registry) (u : Uuid) (v : Any) : Out Bool :=
  match getType R u with
  | none => .ub
  | some t => isValid t v

/-- `Getter::SetReturnValue` (Property.cpp:64-70); the flag tells that an exception is raised. -/
def Getter.setReturn (R : Registry) (g : Getter) (v : Any) : Getter × Bool :=
  match validFor R g.prop.uuid v with
  | .ok true => ({ g with ret := v }, false)
  | _ => (g, true)

/-- `Setter::SetParameterValue` (Property.cpp:103-113). -/
def Setter.set (R : Registry) (g : Setter) (i : Int) (v : Any) : Setter × Bool :=
  if i ≠ 0 then (g, true)
  else match validFor R g.prop.uuid v with
    | .ok true => ({ g with val := v }, false)
    | _ => (g, true)

/-- What the component does when its `Invoke` is called with a getter: the return values it sets,
one after the other (an exception of `SetReturnValue` ends it), and whether it raises an exception
itself at the end. Of the model only (what the component does in Property.cpp:153-176). -/
structure Behaviour where
  sets : List Any
  raises : Bool

/-- The component runs (not modelled further). (Property.cpp:153-164.) -/
def runGetter (R : Registry) (g : Getter) : List Any → Getter × Bool
  | [] => (g, false)
  | v :: vs => match g.setReturn R v with
    | (g', true) => (g', true)
    | (g', false) => runGetter R g' vs

/-- How `GetValue` ends (Property.cpp:153-164). -/
inductive GetRes
  | invalidAccessKind
  /-- The component was called and an exception left it. -/
  | raised
  | value (v : Any)

/-- `Property::GetValue` (Property.cpp:153-164). -/
def Prp.getValue (R : Registry) (p : Prp) (dynamic : Bool) (b : Behaviour) : GetRes :=
  if !dynamic || p.access == .writeOnly then .invalidAccessKind
  else match runGetter R ⟨p, noValue⟩ b.sets with
    | (_, true) => .raised
    | (g, false) => if b.raises then .raised else .value g.ret

/-- How `SetValue` ends (Property.cpp:166-176). -/
inductive SetRes
  | invalidAccessKind | refused
  /-- The component was called with this value in the request. -/
  | called (v : Any)

/-- `Property::SetValue` (Property.cpp:166-176). -/
def Prp.setValue (R : Registry) (p : Prp) (dynamic : Bool) (v : Any) : SetRes :=
  if !dynamic || p.access == .readOnly then .invalidAccessKind
  else match Setter.set R ⟨p, noValue⟩ 0 v with
    | (_, true) => .refused
    | (g, false) => .called g.val

/-! ### Publication -/

/-- Operations and properties of a component (Publication.h). (Publication.cpp:190-291.) -/
structure Pubn where
  opers : List Oper
  props : List Prp

/-- A request of any of the three classes. (Publication/Request.cpp:83-90, Property.cpp:33-135.)
-/
inductive AnyReq
  | oper (o : Oper) (r : Req)
  | getter (g : Getter)
  | setter (g : Setter)

/-- `IRequest::GetOperationName` (Request.cpp:127-129, Property.cpp:44-46, 93-95). -/
def AnyReq.opName : AnyReq → Str
  | .oper o _ => o.name
  | .getter g => g.opName
  | .setter g => g.opName

/-- `Publication::PublishOperation` (Publication.cpp:190-201): an operation known already is
cleared (`Operation::Update`, Operation.cpp:186-192). -/
def Pubn.publishOperation (P : Pubn) (name : Option Str) : Pubn × Option PExn :=
  match P.opers.find? (fun o => some o.name == name) with
  | some _ => ({ P with opers := P.opers.map fun o =>
      if (some o.name) = name then { o with params := [], ret := none } else o }, none)
  | none => match checkName name with
    | .invalidObjectName => (P, some .invalidObjectName)
    | .ok n => ({ P with opers := P.opers ++ [⟨n, [], none⟩] }, none)

/-- `PublishParameter` on the operation of that name. (Operation.cpp:72-105.) -/
def Pubn.publishParameter (R : Registry) (P : Pubn) (op name : Str) (u : Uuid) (dir : Dir) :
    Pubn :=
  { P with opers := P.opers.map fun o =>
      if o.name = op then (o.publishParameter R name u dir).1 else o }

/-- `Publication::PublishProperty` (Publication.cpp:203-218). -/
def Pubn.publishProperty (R : Registry) (P : Pubn) (name : Option Str) (u : Uuid) (a : Access) :
    Pubn × Option PExn :=
  match getType R u with
  | none => (P, some .typeNotRegistered)
  | some _ =>
    match P.props.find? (fun p => some p.name == name) with
    | some _ => ({ P with props := P.props.map fun p =>
        if (some p.name) = name then { p with uuid := u, access := a } else p }, none)
    | none => match checkName name with
      | .invalidObjectName => (P, some .invalidObjectName)
      | .ok n => ({ P with props := P.props ++ [⟨n, u, a⟩] }, none)

/-- `Publication::CreateGetRequest` and `Property::CreateGetRequest` (Publication.cpp:259-265,
Property.cpp:178-181). -/
def Pubn.createGet (P : Pubn) (n : Str) : Option AnyReq :=
  match P.props.find? (fun p => p.name == n) with
  | none => none
  | some p => if p.access = .writeOnly then none else some (.getter ⟨p, noValue⟩)

/-- `Publication::CreateSetRequest` and `Property::CreateSetRequest` (Publication.cpp:267-273,
Property.cpp:183-186). -/
def Pubn.createSet (P : Pubn) (n : Str) : Option AnyReq :=
  match P.props.find? (fun p => p.name == n) with
  | none => none
  | some p => if p.access = .readOnly then none else some (.setter ⟨p, noValue⟩)

/-- `Publication::CreateRequest` (Publication.cpp:242-257). -/
def Pubn.createRequest (R : Registry) (P : Pubn) : Option Str → Option AnyReq
  | none => none
  | some n =>
    match P.opers.find? (fun o => o.name == n) with
    | some o => (o.createRequest R).map (AnyReq.oper o)
    | none =>
      if "get_".toList.isPrefixOf n then P.createGet (n.drop 4)
      else if "set_".toList.isPrefixOf n then P.createSet (n.drop 4)
      else none

/-- Calls on the registry and the publication. -/
inductive PCall
  | reg (op : Op)
  | operation (name : Option Str)
  | parameter (op name : Str) (u : Uuid) (dir : Dir)
  | property (name : Option Str) (u : Uuid) (a : Access)
  /-- `Publication::Unpublish` (Publication.cpp:286-291). -/
  | unpublish

/-- One call (Publication.cpp:190-257, Operation.cpp:72-105). -/
def pstep (s : Registry × Pubn) : PCall → Registry × Pubn
  | .reg op => ((step s.1 op).1, s.2)
  | .operation n => (s.1, (s.2.publishOperation n).1)
  | .parameter o n u d => (s.1, s.2.publishParameter s.1 o n u d)
  | .property n u a => (s.1, (s.2.publishProperty s.1 n u a).1)
  | .unpublish => (s.1, ⟨[], []⟩)

/-- Of the model only (sequences of the calls of Publication.cpp:190-257). -/
def prun (s : Registry × Pubn) : List PCall → Registry × Pubn
  | [] => s
  | c :: cs => prun (pstep s c) cs

end Verif.Pub
