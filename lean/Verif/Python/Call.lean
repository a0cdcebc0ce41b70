import Verif.Pub.Oper
import Verif.Python.Value

/-
Model of the call of an operation from Python: `callOperation` (src/python/Smp/IOperationBinding.h:30-98)
and `GetPythonName` (src/python/ecss_smp.cpp:546-559).
-/
namespace Verif.Python.Call

open Verif.Any (Kind Fl Any)
open Verif.Path (Str)
open Verif.Pub (Registry Req Oper Param IRes getType kindOf)
open Verif.Python.Value (Py ofPy toPy)

/-- Why a call fails. (IOperationBinding.h:30-98.) -/
inductive Err
  /-- `TypeError`: a parameter has no simple type. (IOperationBinding.h:37-38.) -/
  | notInvokable
  /-- `TypeError`: too many positional arguments. (IOperationBinding.h:41-45.) -/
  | tooMany
  /-- `TypeError`: unexpected keyword argument. (IOperationBinding.h:58-61.) -/
  | unexpected (name : Str)
  /-- `TypeError`: multiple values for an argument. (IOperationBinding.h:62-65.) -/
  | multiple (name : Str)
  /-- A value that cannot be converted. (ecss_smp.cpp:461-536.) -/
  | convert
  /-- A value that the request refuses. (Publication/Request.cpp:144-161.) -/
  | refused (r : Verif.Pub.Res)
  /-- An exception of `Operation::Invoke`. (Operation.cpp:143-179.) -/
  | invoke (r : IRes)
  /-- An exception of the component. (IOperationBinding.h:72.) -/
  | component
  /-- A result without a Python form. (IOperationBinding.h:78-92.) -/
  | result
  | ub

/-- The value of a conversion. (IOperationBinding.h:49-52, 66-69.) -/
def converted {α : Type} : Verif.Python.Value.Res α → Except Err α
  | .ok a => .ok a
  | .ub => .error .ub
  | _ => .error .convert

/-- `request->SetParameterValue(i, convert(arg, parameters->at(i)->GetType()->GetPrimitiveTypeKind()))`;
`at` with an index outside would raise `out_of_range`. (IOperationBinding.h:49-52, 66-69.) -/
def put (R : Registry) (narrow : Fl → Fl) (ps : List Param) (r : Req) (i : Nat) (p : Py) :
    Except Err Req :=
  match ps[i]? with
  | none => .error .ub
  | some par => match converted (ofPy narrow p (kindOf R par.uuid)) with
    | .error e => .error e
    | .ok v => match r.set R i v with
      | (r', .ok) => .ok r'
      | (_, e) => .error (.refused e)

/-- The loop over the positional arguments, from argument `k` on. (IOperationBinding.h:46-53.) -/
def positional (R : Registry) (narrow : Fl → Fl) (ps : List Param) :
    Nat → List Py → Req → Except Err Req
  | _, [], r => .ok r
  | k, p :: args, r => match put R narrow ps r k p with
    | .error e => .error e
    | .ok r' => positional R narrow ps (k + 1) args r'

/-- `_name.c_str()`: the name up to the first zero character. (IOperationBinding.h:56-57.) -/
def cName (n : Str) : Str := n.takeWhile (· ≠ Char.ofNat 0)

/-- The loop over the keyword arguments; `nargs` is the number of positional ones, so that `index` is
`nargs - 1`. (IOperationBinding.h:55-70.) -/
def keywords (R : Registry) (narrow : Fl → Fl) (ps : List Param) (nargs : Nat) :
    List (Str × Py) → Req → Except Err Req
  | [], r => .ok r
  | (n, p) :: kw, r =>
    let i := r.index (some (cName n))
    if i = -1 then .error (.unexpected n)
    else if i ≤ (nargs : Int) - 1 then .error (.multiple n)
    else match put R narrow ps r i.toNat p with
      | .error e => .error e
      | .ok r' => keywords R narrow ps nargs kw r'

/-- `callOperation` up to the call of the component: the request that the component gets.
`dynamic` tells whether the parent implements `IDynamicInvocation`.
(IOperationBinding.h:33-72; Operation.cpp:128-179.) -/
def prepare (R : Registry) (narrow : Fl → Fl) (o : Oper) (dynamic : Bool) (args : List Py)
    (kwargs : List (Str × Py)) : Except Err Req :=
  match o.createRequest R with
  | none => .error .notInvokable
  | some r =>
    if o.params.length < args.length then .error .tooMany
    else match positional R narrow o.params 0 args r with
      | .error e => .error e
      | .ok r => match keywords R narrow o.params args.length kwargs r with
        | .error e => .error e
        | .ok r => match o.invoke R dynamic (some (r.iface o)) with
          | .called => .ok r
          | e => .error (.invoke e)

/-- What a component does with its request. (Publication/Request.cpp:144-180.) -/
inductive Effect
  | set (i : Int) (v : Any)
  | ret (v : Any)

/-- The component runs; an exception of the request ends it. Simplified: the component does not
register types meanwhile. (IOperationBinding.h:72.) -/
def runComponent (R : Registry) (o : Oper) : List Effect → Req → Except Err Req
  | [], r => .ok r
  | .set i v :: es, r => match r.set R i v with
    | (r', .ok) => runComponent R o es r'
    | _ => .error .component
  | .ret v :: es, r => match r.setReturn R (o.ret.map Param.uuid) v with
    | (r', .ok) => runComponent R o es r'
    | _ => .error .component

/-- `reservedPythonKeywords` (ecss_smp.cpp:546-551). -/
def reserved : List Str :=
  ["False", "def", "if", "raise", "None", "del", "import", "return", "True", "elif", "in", "try",
    "and", "else", "is", "while", "as", "except", "lambda", "with", "assert", "finally", "nonlocal",
    "yield", "break", "for", "not", "class", "from", "or", "continue", "global", "pass"].map
    String.toList

/-- `GetPythonName` (ecss_smp.cpp:553-559). -/
def pythonName (n : Str) : Str := if n ∈ reserved then '_' :: n else n

/-- The attributes of a `SimpleNamespace`. (IOperationBinding.h:74-76.) -/
abbrev Attrs := List (Str × Py)

/-- `setattr`. (IOperationBinding.h:79, 87.) -/
def setAttr (a : Attrs) (n : Str) (p : Py) : Attrs := (n, p) :: a.filter (fun e => e.1 ≠ n)

/-- `getattr`. (Of the reader of the result, IOperationBinding.h:97.) -/
def getAttr (a : Attrs) (n : Str) : Option Py := (a.find? (fun e => e.1 = n)).map Prod.snd

/-- The loop over the parameters that are not only inputs. (IOperationBinding.h:84-92.) -/
def outputs (r : Req) : List Param → Attrs → Except Err Attrs
  | [], a => .ok a
  | p :: ps, a =>
    if p.dir = .in then outputs r ps a
    else match r.get (r.index (some p.name)) with
      | none => .error .ub
      | some v => match converted (toPy v) with
        | .error _ => .error .result
        | .ok x => outputs r ps (setAttr a (pythonName p.name) x)

/-- The result: `none` is Python's `None`. (IOperationBinding.h:74-97.) -/
def result (o : Oper) (r : Req) : Except Err (Option Attrs) :=
  match o.ret with
  | none => match outputs r o.params [] with
    | .error e => .error e
    | .ok a => .ok (if o.params.all (fun p => p.dir = .in) then none else some a)
  | some par => match converted (toPy r.ret) with
    | .error _ => .error .result
    | .ok x => match outputs r o.params (setAttr [] (pythonName par.name) x) with
      | .error e => .error e
      | .ok a => .ok (some a)

/-- `callOperation`: `body` is what the component does with the request it gets, `none` an exception.
(IOperationBinding.h:30-98.) -/
def call (R : Registry) (narrow : Fl → Fl) (o : Oper) (dynamic : Bool)
    (body : Req → Option (List Effect)) (args : List Py) (kwargs : List (Str × Py)) :
    Except Err (Option Attrs) :=
  match prepare R narrow o dynamic args kwargs with
  | .error e => .error e
  | .ok r => match body r with
    | none => .error .component
    | some es => match runComponent R o es r with
      | .error e => .error e
      | .ok r => result o r

end Verif.Python.Call
