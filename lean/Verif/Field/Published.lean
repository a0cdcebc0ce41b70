import Verif.Field.RemoveLinks

/-! Outputs that are published fields: `Xsmp::Publication::DataflowField`
(src/Xsmp/Publication/Field.h, src/Xsmp/Publication/Field.cpp:143-201). -/
namespace Verif.Field
open Verif.Any (Kind Fl Val Any Out)

/-- Class and identity of a field: its address. Of the model only (compared in
Publication/Field.cpp:143-201). -/
def FTree.key : FTree → Nat × Nat
  | .simple i => (0, i)
  | .sarray i => (1, i)
  | .node _ id _ => (2, id)

/-- All the fields, and the sets of targets of the published ones (`_targets`,
Publication/Field.h:111) in the order of the addresses. `before` is that order. -/
structure PWorld where
  w : World
  outs : Nat × Nat → List FTree
  before : Nat × Nat → Nat × Nat → Bool

mutual
/-- `DataflowField::Push(source, target)` (Publication/Field.cpp:156-195). It is called on
equivalent fields; for others a null pointer is followed. -/
def pcopy (narrow : Fl → Fl) (f : Nat) (w : World) : FTree → FTree → WRes
  | .simple i => fun u => match u with
    | .simple j => (setValue narrow f w.net j (w.net i).get).world w
    | _ => .ub
  | .sarray i => fun u => match u with
    | .sarray j => (acopy narrow w.arrs i j (List.range (w.arrs i).values.length)).world w
    | _ => .ub
  | .node _ _ ts => fun u => match u with
    | .node _ _ us => pcopies narrow f w ts us
    | _ => .ub
/-- The loops on the items (Publication/Field.cpp:176-178, 186-189). -/
def pcopies (narrow : Fl → Fl) (f : Nat) (w : World) : List FTree → List FTree → WRes
  | [] => fun _ => .ok w
  | t :: ts => fun us => match us with
    | [] => .ub
    | u :: us => match pcopy narrow f w t u with
      | .ok w' => pcopies narrow f w' ts us
      | r => r
end

/-- `std::set::emplace` of a field that is not there. (Publication/Field.cpp:176-178.) -/
def insertField (before : Nat × Nat → Nat × Nat → Bool) (u : FTree) : List FTree → List FTree
  | [] => [u]
  | x :: xs => if before x.key u.key then x :: insertField before u xs else u :: x :: xs

/-- How a call ends, with the state it leaves. Of the model only (the outcomes of
Publication/Field.cpp:143-201). -/
inductive PRes
  | ok (p : PWorld)
  | raised (p : PWorld)
  | ub
  | diverges

/-- The outcome of a connection seen with the published fields unchanged. Of the model only
(Publication/Field.cpp:156-195). -/
def WRes.pub (p : PWorld) : WRes → PRes
  | .ok w => .ok { p with w := w }
  | .raised w => .raised { p with w := w }
  | .ub => .ub
  | .diverges => .diverges

/-- `DataflowField::Connect` (Publication/Field.cpp:143-154). -/
def pconnect (narrow : Fl → Fl) (f : Nat) (p : PWorld) (t u : FTree) : PRes :=
  if (p.outs t.key).any (fun x => x.key == u.key) then .raised p
  else if !p.w.output t || !p.w.input u || u.is t || !equivalent p.w t u then .raised p
  else
    let p1 := { p with outs := fun k =>
      if k = t.key then insertField p.before u (p.outs k) else p.outs k }
    (pcopy narrow f p.w t u).pub p1

/-- The loop of `DataflowField::Push()` (Publication/Field.cpp:197-201). -/
def ppushLoop (narrow : Fl → Fl) (f : Nat) (w : World) (t : FTree) : List FTree → WRes
  | [] => .ok w
  | u :: us => match pcopy narrow f w t u with
    | .ok w' => ppushLoop narrow f w' t us
    | r => r

/-- `DataflowField::Push()` (Publication/Field.cpp:197-201). -/
def ppush (narrow : Fl → Fl) (f : Nat) (p : PWorld) (t : FTree) : PRes :=
  (ppushLoop narrow f p.w t (p.outs t.key)).pub p

/-- `Component::RemoveLinks`: `RemoveFieldLinks` (Component.cpp:153-184) has no case for published
fields. -/
def PWorld.removeLinks (e : Where) (target : Nat) (p : PWorld) (ts : List FTree) : PWorld :=
  { p with w := removeFieldsLinks e target p.w ts }

end Verif.Field
