import Verif.Pub.Oper
import Verif.Pub.Marshal

/-!
Model of the properties of generated components: the request handlers, `Invoke` and the accessors
of a generated class (`src-gen/Xsmp/Tests/ModelWithPropertiesGen.cpp:211-640`, the same in every
generated class), together with the properties it publishes (lines 65-175) and
`Property::GetValue` and `SetValue` that call them.

Simplified: the accessors of a property are those generated for a property attached to a field
(`get_p` returns the field, `set_p` assigns it); accessors written by the user, and operations, are
not modelled here. Fields hold values of their kind.
-/
namespace Verif.Gen
open Verif.Any (Kind Fl Val Any Out)
open Verif.Path (Str)
open Verif.Pub
open Verif.Field (coerce)

/-- A field of a generated class: static or not, its number, the primitive kind of its type and,
for a string, the number of characters it can hold (ModelWithPropertiesGen.h).
(ModelWithPropertiesGen.cpp:40-175.) -/
structure Cell where
  static : Bool
  index : Nat
  kind : Kind
  len : Nat
  deriving DecidableEq

/-- The values of the fields: those of each component, and the static ones.
(ModelWithPropertiesGen.cpp:40-175.) -/
structure World where
  own : Nat → Nat → Val
  shared : Nat → Val

/-- The value of a field of the component `c`. (ModelWithPropertiesGen.cpp:217-235.) -/
def World.get (w : World) (c : Nat) (x : Cell) : Val :=
  if x.static then w.shared x.index else w.own c x.index

/-- The assignment to a field of the component `c`. (ModelWithPropertiesGen.cpp:217-235.) -/
def World.set (w : World) (c : Nat) (x : Cell) (v : Val) : World :=
  if x.static then { w with shared := fun i => if i = x.index then v else w.shared i }
  else { w with own := fun d i => if d = c ∧ i = x.index then v else w.own d i }

/-- A property of a generated class: name, type, access and attached field
(ModelWithPropertiesGen.cpp:65-175, 537-656). -/
structure PropDef where
  name : Str
  uuid : Uuid
  access : Access
  cell : Cell

/-- A request handler (ModelWithPropertiesGen.cpp:216-517): of a getter the field it returns, of a
setter the name of the parameter it reads and the field it assigns. -/
inductive Handler
  | getter (x : Cell)
  | setter (param : Str) (x : Cell)

/-- `requestHandlers` of one class. (ModelWithPropertiesGen.cpp:214-519.) -/
abbrev Handlers := List (Str × Handler)

/-- `if (handlers.find(n) == handlers.end()) handlers[n] = h`
(ModelWithPropertiesGen.cpp:217-225 and all the others). -/
def Handlers.add (hs : Handlers) (n : Str) (h : Handler) : Handlers :=
  if hs.any (fun e => e.1 == n) then hs else hs ++ [(n, h)]

/-- The handlers of a property: a getter unless it is write-only, a setter unless it is read-only
(ModelWithPropertiesGen.cpp:217-235, 291-336). -/
def Handlers.addProperty (hs : Handlers) (p : PropDef) : Handlers :=
  let hs := if p.access = .writeOnly then hs
    else hs.add ("get_".toList ++ p.name) (.getter p.cell)
  if p.access = .readOnly then hs
  else hs.add ("set_".toList ++ p.name) (.setter p.name p.cell)

/-- `InitRequestHandlers` (ModelWithPropertiesGen.cpp:214-519). -/
def initHandlers (ps : List PropDef) : Handlers := ps.foldl Handlers.addProperty []

/-- How `Invoke` ends. Of the model only (the outcomes of ModelWithPropertiesGen.cpp:521-532). -/
inductive Ends
  | ok
  /-- an exception -/
  | raised
  | ub
  deriving DecidableEq, Repr

/-- `IRequest::GetParameterIndex` (Publication/Request.cpp:135-142, Property.cpp:50-52, 99-101). -/
def index (q : AnyReq) (n : Str) : Int :=
  match q with
  | .oper _ r => r.index (some n)
  | .getter _ => -1
  | .setter _ => 0

/-- `IRequest::GetParameterValue` (Publication/Request.cpp:163-169, Property.cpp:59-62, 115-121); `none` is
`InvalidParameterIndex`. -/
def value (q : AnyReq) (i : Int) : Option Any :=
  match q with
  | .oper _ r => r.get i
  | .getter _ => none
  | .setter g => if i ≠ 0 then none else some g.val

/-- `IRequest::SetReturnValue` (Publication/Request.cpp:171-180, Property.cpp:64-70, 123-125). -/
def setReturn (R : Registry) (q : AnyReq) (v : Any) : AnyReq × Ends :=
  match q with
  | .oper o r => match r.setReturn R (o.ret.map Param.uuid) v with
    | (r', .ok) => (.oper o r', .ok)
    | (r', .ub) => (.oper o r', .ub)
    | (r', _) => (.oper o r', .raised)
  | .getter g => match validFor R g.prop.uuid v with
    | .ok true => (.getter { g with ret := v }, .ok)
    | .ub => (.getter g, .ub)
    | _ => (.getter g, .raised)
  | .setter g => (.setter g, .raised)

/-- `Request::get<T>(component, request, name, kind)` (Request.h:61-67, Request.cpp:42-64): the
value of the parameter, if it has the kind of the field. -/
def param (narrow : Fl → Fl) (q : AnyReq) (n : Str) (x : Cell) : Out Val :=
  if index q n = -1 then .throw
  else match value q (index q n) with
    | none => .throw
    | some a => if a.type ≠ x.kind then .throw else coerce narrow x.kind x.len a

/-- The function of a handler, called for the component `c` (ModelWithPropertiesGen.cpp:218-234 with
the accessors at 537-560). -/
def Handler.run (narrow : Fl → Fl) (R : Registry) (w : World) (c : Nat) (q : AnyReq) :
    Handler → World × AnyReq × Ends
  | .getter x => (w, setReturn R q ⟨x.kind, w.get c x⟩)
  | .setter n x => match param narrow q n x with
    | .ok v => (w.set c x v, q, .ok)
    | .throw => (w, q, .raised)
    | .ub => (w, q, .ub)

/-- `Invoke` of a generated class whose bases are generated too, down to `Component::Invoke`
(ModelWithPropertiesGen.cpp:521-532, Component.cpp:101-104). The handlers of the classes come
most derived first. -/
def invokeIn (narrow : Fl → Fl) (R : Registry) (w : World) (c : Nat) (q : AnyReq) :
    List Handlers → World × AnyReq × Ends
  | [] => (w, q, .raised)
  | hs :: base => match hs.find? (fun e => e.1 == q.opName) with
    | some e => e.2.run narrow R w c q
    | none => invokeIn narrow R w c q base

/-- `Invoke` on a pointer (ModelWithPropertiesGen.cpp:522-524, Component.cpp:101-104): a null
request is ignored by a generated class. -/
def invoke (narrow : Fl → Fl) (R : Registry) (cls : List (List PropDef)) (w : World) (c : Nat) :
    Option AnyReq → World × Option AnyReq × Ends
  | none => (w, none, if cls = [] then .raised else .ok)
  | some q =>
    let r := invokeIn narrow R w c q (cls.map initHandlers)
    (r.1, some r.2.1, r.2.2)

/-- `Publish` of a generated class: that of its base first, then its properties in order
(ModelWithPropertiesGen.cpp:40-175). -/
def publish (R : Registry) : List (List PropDef) → Pubn
  | [] => ⟨[], []⟩
  | ps :: base =>
    ps.foldl (fun P p => (P.publishProperty R (some p.name) p.uuid p.access).1) (publish R base)

/-- The published property of that name (Publication.cpp: `GetProperties()->at(name)`).
(Publication.cpp:203-218.) -/
def propOf (P : Pubn) (n : Str) : Option Prp := P.props.find? (fun p => p.name == n)

/-- `Property::GetValue` (Property.cpp:153-164) of a property of the component `c`. -/
def getValue (narrow : Fl → Fl) (R : Registry) (cls : List (List PropDef)) (w : World) (c : Nat)
    (p : Prp) : World × Out Any :=
  if p.access = .writeOnly then (w, .throw)
  else match invokeIn narrow R w c (.getter ⟨p, noValue⟩) (cls.map initHandlers) with
    | (w', .getter g, .ok) => (w', .ok g.ret)
    | (w', _, .ub) => (w', .ub)
    | (w', _, _) => (w', .throw)

/-- `Property::SetValue` (Property.cpp:166-176) of a property of the component `c`. -/
def setValue (narrow : Fl → Fl) (R : Registry) (cls : List (List PropDef)) (w : World) (c : Nat)
    (p : Prp) (v : Any) : World × Ends :=
  if p.access = .readOnly then (w, .raised)
  else match validFor R p.uuid v with
    | .ok true =>
      let r := invokeIn narrow R w c (.setter ⟨p, v⟩) (cls.map initHandlers)
      (r.1, r.2.2)
    | .ub => (w, .ub)
    | _ => (w, .raised)

/-- A history of calls of `SetValue`: component, name of the property, value. Of the model only
(sequences of calls of Property.cpp:166-176). -/
def sets (narrow : Fl → Fl) (R : Registry) (cls : List (List PropDef)) (w : World) :
    List (Nat × Str × Any) → World
  | [] => w
  | (c, n, v) :: os => match propOf (publish R cls) n with
    | none => sets narrow R cls w os
    | some p => sets narrow R cls (setValue narrow R cls w c p v).1 os

end Verif.Gen
