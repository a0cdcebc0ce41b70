import Verif.Pub.Request
import Verif.Field.Net

/-!
Model of `src/Xsmp/Request.cpp` and `include/Xsmp/Request.h`: how the code of an operation
writes structured values in a request and reads them.

The structured value is held in a temporary field of the caller (Request.h:95-123, 146-157): it
has no annotation, is not connected and cannot be forced. `GetParameterIndex`,
`SetParameterValue` and `GetParameterValue` are those of `Xsmp::Publication::Request`.
-/
namespace Verif.Pub.Marshal
open Verif.Any (Kind Fl Val Any Out)
open Verif.Path (Str)
open Verif.Pub
open Verif.Field (coerce)

/-- The temporary field: `Xsmp::Field<T>` for a simple type, an array of simple items, an array
or a structure (include/Xsmp/Field.h:399-533, 740-900, 1128-1195). `k` is the primitive kind of
the type in the registry and `len` the number of characters a string can hold; `T` is taken to
be the C++ type of the kind. -/
inductive PField
  | simple (k : Kind) (len : Nat) (v : Val)
  | sarray (k : Kind) (len : Nat) (vs : List Val)
  | array (items : List PField)
  | struct (fields : List (Str × PField))

/-! ### Writing -/

/-- How `inject` ends. Of the model only (the outcomes of Request.cpp:66-123). -/
inductive IRes
  | ok
  /-- `No Parameter named …` -/
  | noParameter (name : Str)
  /-- an exception of `SetParameterValue` (or undefined behaviour there) -/
  | refused (e : Res)
  deriving DecidableEq

/-- The branch of `inject` for one simple value (Request.cpp:128-136, 142-151); also
`Request::setValue` (Request.cpp:29-40). -/
def injectLeaf (R : Registry) (r : Req) (name : Str) (a : Any) : Req × IRes :=
  if r.index (some name) = -1 then (r, .noParameter name)
  else match r.set R (r.index (some name)) a with
    | (r', .ok) => (r', .ok)
    | (r', e) => (r', .refused e)

/-- The loop over the items of a simple array (Request.cpp:141-152), from the item `i`. -/
def injectSimples (R : Registry) (r : Req) (name : Str) (k : Kind) : Nat → List Val → Req × IRes
  | _, [] => (r, .ok)
  | i, v :: vs => match injectLeaf R r (name ++ idx i) ⟨k, v⟩ with
    | (r', .ok) => injectSimples R r' name k (i + 1) vs
    | e => e

mutual
/-- `Request::inject` (Request.cpp:124-173). -/
def inject (R : Registry) (r : Req) (name : Str) : PField → Req × IRes
  | .simple k _ v => injectLeaf R r name ⟨k, v⟩
  | .sarray k _ vs => injectSimples R r name k 0 vs
  | .array ts => injectItems R r name 0 ts
  | .struct fs => injectFields R r name fs
/-- The loop over the items of an array (Request.cpp:156-159), from the item `i`. -/
def injectItems (R : Registry) (r : Req) (name : Str) (i : Nat) : List PField → Req × IRes
  | [] => (r, .ok)
  | t :: ts => match inject R r (name ++ idx i) t with
    | (r', .ok) => injectItems R r' name (i + 1) ts
    | e => e
/-- The loop over the fields of a structure (Request.cpp:164-167). -/
def injectFields (R : Registry) (r : Req) (name : Str) : List (Str × PField) → Req × IRes
  | [] => (r, .ok)
  | (f, t) :: fs => match inject R r (name ++ '.' :: f) t with
    | (r', .ok) => injectFields R r' name fs
    | e => e
end

/-! ### Reading -/

/-- How `extract` ends. Of the model only (the outcomes of Request.cpp:124-173). -/
inductive XRes
  | ok
  /-- `No Parameter named …` -/
  | noParameter (name : Str)
  /-- `InvalidParameterIndex` of `GetParameterValue` -/
  | invalidIndex
  /-- `InvalidFieldValue`: the item of a simple array is not of the kind of the value -/
  | invalidFieldValue
  /-- `InvalidAnyType`: the value cannot be converted -/
  | invalidAnyType
  | ub
  deriving DecidableEq

/-- The branch of `extract` for one simple value (Request.cpp:70-80, 86-99): `v` is the value
of the field before, `strict` tells the item of a simple array, whose `SetValue` compares the
kinds (include/Xsmp/Field.h:774-782); that of a simple field converts (include/Xsmp/Field.h:428-430). -/
def extractLeaf (narrow : Fl → Fl) (r : Req) (ign strict : Bool) (name : Str) (k : Kind)
    (len : Nat) (v : Val) : Val × XRes :=
  if r.index (some name) = -1 then (if ign then (v, .ok) else (v, .noParameter name))
  else match r.get (r.index (some name)) with
    | none => (v, .invalidIndex)
    | some a =>
      if strict && a.type != k then (v, .invalidFieldValue)
      else match coerce narrow k len a with
        | .ok w => (w, .ok)
        | .throw => (v, .invalidAnyType)
        | .ub => (v, .ub)

/-- The loop over the items of a simple array (Request.cpp:85-100), from the item `i`. -/
def extractSimples (narrow : Fl → Fl) (r : Req) (ign : Bool) (name : Str) (k : Kind)
    (len : Nat) : Nat → List Val → List Val × XRes
  | _, [] => ([], .ok)
  | i, v :: vs => match extractLeaf narrow r ign true (name ++ idx i) k len v with
    | (w, .ok) =>
      let rest := extractSimples narrow r ign name k len (i + 1) vs
      (w :: rest.1, rest.2)
    | (w, e) => (w :: vs, e)

mutual
/-- `Request::extract` (Request.cpp:66-123): the field afterwards. -/
def extract (narrow : Fl → Fl) (r : Req) (ign : Bool) (name : Str) : PField → PField × XRes
  | .simple k len v =>
    let x := extractLeaf narrow r ign false name k len v
    (.simple k len x.1, x.2)
  | .sarray k len vs =>
    let x := extractSimples narrow r ign name k len 0 vs
    (.sarray k len x.1, x.2)
  | .array ts =>
    let x := extractItems narrow r ign name 0 ts
    (.array x.1, x.2)
  | .struct fs =>
    let x := extractFields narrow r ign name fs
    (.struct x.1, x.2)
/-- The loop over the items of an array (Request.cpp:103-107), from the item `i`. -/
def extractItems (narrow : Fl → Fl) (r : Req) (ign : Bool) (name : Str) (i : Nat) :
    List PField → List PField × XRes
  | [] => ([], .ok)
  | t :: ts => match extract narrow r ign (name ++ idx i) t with
    | (t', .ok) =>
      let rest := extractItems narrow r ign name (i + 1) ts
      (t' :: rest.1, rest.2)
    | (t', e) => (t' :: ts, e)
/-- The loop over the fields of a structure (Request.cpp:113-117). -/
def extractFields (narrow : Fl → Fl) (r : Req) (ign : Bool) (name : Str) :
    List (Str × PField) → List (Str × PField) × XRes
  | [] => ([], .ok)
  | (f, t) :: fs => match extract narrow r ign (name ++ '.' :: f) t with
    | (t', .ok) =>
      let rest := extractFields narrow r ign name fs
      ((f, t') :: rest.1, rest.2)
    | (t', e) => ((f, t') :: fs, e)
end

/-! ### Simple parameters -/

/-- How `Request::get` of a simple type ends. Of the model only (the outcomes of Request.h:61-87).
-/
inductive GRes
  | value (v : Val)
  | noParameter | invalidIndex | invalidParameterType | invalidAnyType | ub

/-- `Request::get<T>(component, request, name, kind[, defaultValue])` (Request.h:61-87) with
`getValue` (Request.cpp:42-64); `dflt` is the default value, if one is given. Simplified: the
`AnySimple` of kind `PTK_None` that `getValue` returns for a missing parameter is the missing
parameter itself, as a value found has the kind asked for; `kind` is not `PTK_None`. -/
def getSimple (narrow : Fl → Fl) (r : Req) (name : Str) (k : Kind) (len : Nat)
    (dflt : Option Val) : GRes :=
  if r.index (some name) = -1 then
    match dflt with
    | some v => .value v
    | none => .noParameter
  else match r.get (r.index (some name)) with
    | none => .invalidIndex
    | some a =>
      if a.type ≠ k then .invalidParameterType
      else match coerce narrow k len a with
        | .ok w => .value w
        | .throw => .invalidAnyType
        | .ub => .ub

end Verif.Pub.Marshal
