import Verif.Pub.Types

/-!
Model of `src/Xsmp/Publication/Request.cpp`: flattening of the parameters, storage and
validation of the values.

A type pointer is the UUID of the type; validation looks at the type as it is in the registry
at the time of the call (literals may have been added in the meantime).
-/
namespace Verif.Pub
open Verif.Any (Kind Fl Val Any Out getInt getF64 getString)
open Verif.Path (Str checkName)

/-! ### isValid -/

/-- `<` of `double`. (Publication/Request.cpp:34-81.) -/
def flLt : Fl → Fl → Bool
  | .fin a, .fin b => decide (a < b)
  | .fin _, .inf neg => !neg
  | .inf neg, .fin _ => neg
  | .inf a, .inf b => a && !b
  | _, _ => false

/-- `<=` of `double`. (Publication/Request.cpp:34-81.) -/
def flLe : Fl → Fl → Bool
  | .fin a, .fin b => decide (a ≤ b)
  | .fin _, .inf neg => !neg
  | .inf neg, .fin _ => neg
  | .inf a, .inf b => a || !b
  | _, _ => false

/-- `static_cast<std::size_t>` of an `Int64`. (Publication/Request.cpp:34-81.) -/
def toSize (v : Int) : Nat := (v % (2 ^ 64 : Nat)).toNat

/-- `Request::isValid` (Request.cpp:34-81). `throw` is `InvalidAnyType`, also the one the
conversion operators of `AnySimple` raise. A string is its characters before the terminating
zero. -/
def isValid (t : TypeDef) (a : Any) : Out Bool :=
  if t.kind ≠ a.type then .throw
  else match t with
    | .integer _ min max => (getInt .i64 a).map fun v => !(decide (v < min) || decide (v > max))
    | .float _ min max minInc maxInc => (getF64 a).map fun x =>
        !((if minInc then flLt x min else flLe x min) ||
          (if maxInc then flLt max x else flLe max x))
    | .string len => (getString a).map fun s => match s with
        | none => true
        | some l => !decide (l.length > toSize len)
    | .enumeration _ lits => (getInt .i32 a).map fun v => lits.any (fun l => l.1 == v)
    | _ => .ok true

/-! ### Flattening -/

/-- A type with its references followed, as `Request::init` does (Request.cpp:92-125). -/
inductive Shape
  /-- A type with a primitive kind. -/
  | simple (u : Uuid)
  | array (n : Nat) (item : Shape)
  | struct (fields : List (Str × Shape))
  /-- The registry does not know the type. -/
  | missing
  /-- `Void`: neither simple, nor an array, nor a structure. -/
  | unsupported
  /-- Not followed to the end. -/
  | deep

/-- Follows the references of a type, at most `fuel` deep. (Publication/Request.cpp:92-125.) -/
def expand (R : Registry) : Nat → Uuid → Shape
  | 0, _ => .deep
  | fuel + 1, u =>
    match getType R u with
    | none => .missing
    | some t =>
      if t.kind ≠ .None then .simple u
      else match t with
        | .array item _ n _ => .array n (expand R fuel item)
        | .struct fs | .cls _ fs => .struct (fs.map fun f => (f.name, expand R fuel f.uuid))
        | _ => .unsupported

/-- `"[" + std::to_string(i) + "]"`. (Publication/Request.cpp:92-125.) -/
def idx (i : Nat) : Str := '[' :: (Nat.toDigits 10 i ++ [']'])

/-- A loop from 0 to `n - 1` that appends; `none` is an exception.
(Publication/Request.cpp:92-125.) -/
def loop {α} (f : Nat → Option (List α)) : Nat → Option (List α)
  | 0 => some []
  | n + 1 => match loop f n, f n with
    | some a, some b => some (a ++ b)
    | _, _ => none

mutual
/-- `Request::init` (Request.cpp:92-125): the names and types of the simple parameters a
parameter becomes; `none` is an exception (or, for `deep`, an endless recursion). -/
def flatten (name : Str) : Shape → Option (List (Str × Uuid))
  | .simple u => some [(name, u)]
  | .array n item => loop (fun i => flatten (name ++ idx i) item) n
  | .struct fs => flattenFields name fs
  | .missing | .unsupported | .deep => none
/-- The loop over the fields (Request.cpp:110-119). -/
def flattenFields (name : Str) : List (Str × Shape) → Option (List (Str × Uuid))
  | [] => some []
  | (f, s) :: fs => match flatten (name ++ '.' :: f) s, flattenFields name fs with
    | some a, some b => some (a ++ b)
    | _, _ => none
end

/-- The constructor of a request (Request.cpp:83-90): all the parameters, flattened. -/
def flattenAll (ps : List (Str × Shape)) : Option (List (Str × Uuid)) :=
  match ps with
  | [] => some []
  | (n, s) :: ps => match flatten n s, flattenAll ps with
    | some a, some b => some (a ++ b)
    | _, _ => none

/-! ### Request -/

/-- `Xsmp::Publication::Request` (Request.h): `_values`, `_indexes` and `_returnValue`.
(Publication/Request.cpp:83-90.) -/
structure Req where
  values : List (Any × Uuid)
  indexes : List (Str × Nat)
  ret : Any

/-- `AnySimple{}`. (Publication/Request.cpp:163-187.) -/
def noValue : Any := ⟨.None, .none⟩

/-- The branch of `init` for a simple type (Request.cpp:97-100): `emplace_back` and
`try_emplace`, which does nothing if the name is known. -/
def Req.push (r : Req) (p : Str × Uuid) : Req :=
  { r with
    values := r.values ++ [(noValue, p.2)]
    indexes := if r.indexes.any (fun e => e.1 == p.1) then r.indexes
      else r.indexes ++ [(p.1, r.indexes.length)] }

/-- `Request::Request` (Request.cpp:83-90) for the flattened parameters. -/
def build (ps : List (Str × Uuid)) : Req := ps.foldl Req.push ⟨[], [], noValue⟩

/-- `Request::GetParameterIndex` (Request.cpp:135-142). -/
def Req.index (r : Req) : Option Str → Int
  | none => -1
  | some n => match r.indexes.find? (fun e => e.1 == n) with
    | some e => e.2
    | none => -1

/-- Results of the accessors; `ub` is undefined behaviour. Of the model only (the outcomes of
Publication/Request.cpp:127-187). -/
inductive Res
  | ok | invalidParameterIndex | invalidAnyType | invalidParameterValue | voidOperation
  | invalidReturnValue | ub
  deriving DecidableEq, Repr

/-- `Request::SetParameterValue` (Request.cpp:144-161). When the value is refused the name of
the parameter is searched in `_indexes`; if it is not there the iterator dereferenced is
`end()`. -/
def Req.set (R : Registry) (r : Req) (i : Int) (v : Any) : Req × Res :=
  if i < 0 ∨ r.values.length ≤ i.toNat then (r, .invalidParameterIndex)
  else match r.values[i.toNat]? with
    | none => (r, .ub)
    | some (_, u) => match getType R u with
      | none => (r, .ub)
      | some t => match isValid t v with
        | .throw => (r, .invalidAnyType)
        | .ub => (r, .ub)
        | .ok false =>
          if r.indexes.any (fun e => (e.2 : Int) == i) then (r, .invalidParameterValue)
          else (r, .ub)
        | .ok true => ({ r with values := r.values.set i.toNat (v, u) }, .ok)

/-- `Request::GetParameterValue` (Request.cpp:163-169); `none` is `InvalidParameterIndex`. -/
def Req.get (r : Req) (i : Int) : Option Any :=
  if i < 0 ∨ r.values.length ≤ i.toNat then none
  else r.values[i.toNat]?.map Prod.fst

/-- `Request::SetReturnValue` (Request.cpp:171-180); `u` is the type of the return parameter
the operation has at the time of the call. -/
def Req.setReturn (R : Registry) (r : Req) (u : Option Uuid) (v : Any) : Req × Res :=
  match u with
  | none => (r, .voidOperation)
  | some u => match getType R u with
    | none => (r, .ub)
    | some t => match isValid t v with
      | .throw => (r, .invalidAnyType)
      | .ub => (r, .ub)
      | .ok false => (r, .invalidReturnValue)
      | .ok true => ({ r with ret := v }, .ok)

/-- `Request::GetReturnValue` (Request.cpp:182-187); `none` is `VoidOperation`. -/
def Req.getReturn (r : Req) (u : Option Uuid) : Option Any :=
  match u with
  | none => none
  | some _ => some r.ret

/-- Calls that interleave: on the registry and on the request. (Publication/Request.cpp:144-187.)
-/
inductive RCall
  | reg (op : Op)
  | set (i : Int) (v : Any)
  | setReturn (u : Option Uuid) (v : Any)

/-- One call (Publication/Request.cpp:144-187). -/
def rstep (s : Registry × Req) : RCall → Registry × Req
  | .reg op => ((step s.1 op).1, s.2)
  | .set i v => (s.1, (s.2.set s.1 i v).1)
  | .setReturn u v => (s.1, (s.2.setReturn s.1 u v).1)

/-- Of the model only (sequences of the calls of Publication/Request.cpp:144-187). -/
def rrun (s : Registry × Req) : List RCall → Registry × Req
  | [] => s
  | c :: cs => rrun (rstep s c) cs

end Verif.Pub
