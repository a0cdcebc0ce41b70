import Verif.Pub.Oper

/-! `Operation::GetParameter`, `GetParameters` and `GetReturnParameter`
(`src/Xsmp/Publication/Operation.cpp:107-126`). -/
namespace Verif.Pub.Lookup
open Verif.Path (Str)

/-- What `GetParameter` does: it gives a parameter or null, or its behaviour is undefined
(Operation.cpp:111-120). -/
inductive Found
  | param (p : Param)
  | null
  | undefined

/-- `Operation::GetParameter` (Operation.cpp:111-120). The argument `none` is a null pointer, for which
`_parameters.at` gives null (Collection.h:44-47) and which `strcmp` dereferences. -/
def getParameter (o : Oper) (name : Option Str) : Found :=
  match o.params.find? (fun p => some p.name == name) with
  | some p => .param p
  | none =>
    match o.ret, name with
    | none, _ => .null
    | some _, none => .undefined
    | some r, some n => if r.name == n then .param r else .null

/-- All parameters of an operation: `GetParameters` (Operation.cpp:107-109) and `GetReturnParameter`
(Operation.cpp:122-124). -/
def allParams (o : Oper) : List Param := o.params ++ o.ret.toList

end Verif.Pub.Lookup
