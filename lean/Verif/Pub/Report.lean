import Verif.Any.Report
import Verif.Pub.Marshal
import Verif.Pub.Oper

/-!
Model of what the exceptions of requests and operations carry (`src/Xsmp/Publication/Request.cpp`,
`Property.cpp`, `Operation.cpp`, `src/Xsmp/Request.cpp`, `src/Xsmp/Exception.cpp`): the functions of
Request.lean, Oper.lean and Marshal.lean with the data of the exception they raise.
-/
namespace Verif.Pub
open Verif.Any (Kind Fl Val Any Out OutE Report throwInvalidAnyType getIntE getF64E getStringE)
open Verif.Path (Str)

/-- The exceptions, with what their accessors return. -/
inductive REx
  /-- `InvalidAnyType` (Exception.cpp:1044-1071) -/
  | anyType (r : Report)
  /-- `InvalidParameterIndex` (Exception.cpp:992-1025): `GetOperationName` (the name of the sender),
  `GetParameterIndex`, `GetParameterCount` -/
  | index (op : Str) (i count : Int)
  /-- `InvalidParameterValue` (Exception.cpp:1098-1123): `GetParameterName`, `GetValue` -/
  | value (param : Str) (v : Any)
  /-- `InvalidReturnValue` (Exception.cpp:1073-1096): `GetOperationName` (the name of the sender),
  `GetValue` -/
  | returnValue (op : Str) (v : Any)
  /-- `VoidOperation` (Exception.cpp:1027-1042): `GetOperationName` (the name of the sender) -/
  | void (op : Str)
  /-- `InvalidOperationName` (Exception.cpp:595-621): `GetOperationName` -/
  | operationName (op : Str)
  /-- `InvalidParameterCount` (Exception.cpp:623-657): `GetOperationName` (the name of the sender),
  `GetOperationParameters`, `GetRequestParameters` -/
  | count (op : Str) (operation request : Int)
  /-- `InvalidParameterType` (Exception.cpp:659-701): `GetOperationName`, `GetParameterName`,
  `GetInvalidType`, `GetExpectedType` -/
  | parameterType (op param : Str) (invalid expected : Kind)
  /-- undefined behaviour -/
  | ub
  deriving DecidableEq

/-- `Request::isValid` (Publication/Request.cpp:34-81). -/
def isValidE (t : TypeDef) (a : Any) : OutE Bool :=
  if t.kind ≠ a.type then throwInvalidAnyType a.type t.kind
  else match t with
    | .integer _ min max => (getIntE .i64 a).map fun v => !(decide (v < min) || decide (v > max))
    | .float _ min max minInc maxInc => (getF64E a).map fun x =>
        !((if minInc then flLt x min else flLe x min) ||
          (if maxInc then flLt max x else flLe max x))
    | .string len => (getStringE a).map fun s => match s with
        | none => true
        | some l => !decide (l.length > toSize len)
    | .enumeration _ lits => (getIntE .i32 a).map fun v => lits.any (fun l => l.1 == v)
    | _ => .ok true

/-- The calls on a request (Publication/Request.cpp:144-187, Property.cpp:55-130). -/
inductive QCall
  | set (i : Int) (v : Any)
  | get (i : Int)
  | setReturn (v : Any)
  | getReturn

/-- What the calls of `Xsmp::Publication::Request` raise (Publication/Request.cpp:144-187). `o` is
`_operation`. Simplified: `_indexes` is searched in the order of insertion instead of that of the
names (lines 151-155); the numbers in it differ. -/
def Req.raises (R : Registry) (o : Oper) (r : Req) : QCall → Option REx
  | .set i v =>
    if i < 0 ∨ r.values.length ≤ i.toNat then some (.index o.name i r.values.length)
    else match r.values[i.toNat]? with
      | none => some .ub
      | some (_, u) => match getType R u with
        | none => some .ub
        | some t => match isValidE t v with
          | .bad e => some (.anyType e)
          | .ub => some .ub
          | .ok false => match r.indexes.find? (fun e => (e.2 : Int) == i) with
            | some e => some (.value e.1 v)
            | none => some .ub
          | .ok true => none
  | .get i =>
    if i < 0 ∨ r.values.length ≤ i.toNat then some (.index o.name i r.values.length) else none
  | .setReturn v => match o.ret with
    | none => some (.void o.name)
    | some p => match getType R p.uuid with
      | none => some .ub
      | some t => match isValidE t v with
        | .bad e => some (.anyType e)
        | .ub => some .ub
        | .ok false => some (.returnValue o.name v)
        | .ok true => none
  | .getReturn => match o.ret with
    | none => some (.void o.name)
    | some _ => none

/-- What the calls of `Property::Getter` raise (Property.cpp:48-74). The sender is the property. -/
def Getter.raises (R : Registry) (g : Getter) : QCall → Option REx
  | .set i _ => some (.index g.prop.name i 0)
  | .get i => some (.index g.prop.name i 0)
  | .setReturn v => match getType R g.prop.uuid with
    | none => some .ub
    | some t => match isValidE t v with
      | .bad e => some (.anyType e)
      | .ub => some .ub
      | .ok false => some (.returnValue g.prop.name v)
      | .ok true => none
  | .getReturn => none

/-- What the calls of `Property::Setter` raise (Property.cpp:97-129). The sender is the property. -/
def Setter.raises (R : Registry) (g : Setter) : QCall → Option REx
  | .set i v =>
    if i ≠ 0 then some (.index g.prop.name i 0)
    else match getType R g.prop.uuid with
      | none => some .ub
      | some t => match isValidE t v with
        | .bad e => some (.anyType e)
        | .ub => some .ub
        | .ok false => some (.value g.prop.name v)
        | .ok true => none
  | .get i => if i ≠ 0 then some (.index g.prop.name i 0) else none
  | .setReturn _ => some (.void g.prop.name)
  | .getReturn => some (.void g.prop.name)

/-- `GetParameterCount` (Publication/Request.cpp:131-133). -/
def Req.count (r : Req) : Int := r.values.length
/-- `GetParameterCount` (Property.cpp:48). -/
def Getter.count (_ : Getter) : Int := 0
/-- `GetParameterCount` (Property.cpp:97). -/
def Setter.count (_ : Setter) : Int := 1

/-! ### Operation::Invoke -/

/-- The loop over the parameters (Operation.cpp:162-178). An exception of the request itself is left
out (`none`): it is one of those above. -/
def checkParamsE (R : Registry) (op : Str) (r : IReq) : List Param → Option REx
  | [] => none
  | p :: ps =>
    if p.dir = .out then checkParamsE R op r ps
    else match r.value (r.index (some p.name)) with
      | none => none
      | some v =>
        if v.type ≠ kindOf R p.uuid then some (.parameterType op p.name v.type (kindOf R p.uuid))
        else checkParamsE R op r ps

/-- `nullCheck` (Exception.cpp:115-117). -/
def nullCheck (s : Option Str) : Str := s.getD "<null>".toList

/-- What `Operation::Invoke` raises (Operation.cpp:143-182), apart from the exceptions of the request
and of the component. -/
def Oper.invokeRaises (R : Registry) (o : Oper) (dynamic : Bool) : Option IReq → Option REx
  | none => some (.operationName (nullCheck none))
  | some r =>
    if r.opName ≠ some o.name then some (.operationName (nullCheck r.opName))
    else if !dynamic then some (.operationName (nullCheck r.opName))
    else if toSize r.count ≠ o.params.length then some (.count o.name o.params.length r.count)
    else checkParamsE R o.name r o.params

/-! ### A missing parameter -/

/-- The class `Exception` (Exception.cpp:91-125): `GetName`, `GetDescription`, `GetMessage`. -/
structure Plain3 where
  name : Str
  description : Str
  message : Str

/-- `FormatString(args…)` of strings (include/Xsmp/Exception.h:54-62): one after the other. -/
def formatString (args : List Str) : Str := args.flatten

/-- `throwException(sender, name, description, message…)` (include/Xsmp/Exception.h:70-76,
Exception.cpp:1367-1370). -/
def throwException (name description : Str) (message : List Str) : Plain3 :=
  ⟨name, description, formatString [formatString message]⟩

/-- `what()` (Exception.cpp:99-106). -/
def Plain3.what (e : Plain3) : Str :=
  e.name ++ "(".toList ++ e.description ++ "): ".toList ++ e.message

/-- What `setValue`, `getValue`, `extract` and `inject` raise when the request does not know the
parameter (src/Xsmp/Request.cpp:33-38, 48-57, 73-80, 94-98, 129-135, 145-150). -/
def noParameter (name op : Str) : Plain3 :=
  throwException name
    ("No Parameter named ".toList ++ name ++ " in Operation ".toList ++ op ++ ".".toList) []

end Verif.Pub
