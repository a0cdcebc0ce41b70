import Verif.Field.Arrays

/-! Connecting fields that are arrays and structures of fields: `FieldHelper`
(src/Xsmp/Field.cpp) and `AreEquivalent` (src/Xsmp/Helper.cpp). -/
namespace Verif.Field
open Verif.Any (Kind Fl Val Any Out)

/-- A field and the fields in it. The numbers are identities: of simple fields in the `Net`, of
arrays of simple items in the `Arrs`, of arrays and structures in the `World`. (Field.h:399, 536,
740, 1128.) -/
inductive FTree
  | simple (i : Nat)
  | sarray (i : Nat)
  /-- `IStructureField` (`struct`) or `IArrayField` -/
  | node (struct : Bool) (id : Nat) (items : List FTree)

/-- All the fields. For arrays and structures of fields: `nin`, `nout` are `IsInput` and
`IsOutput`, `nflow` tells the dataflow fields (`ArrayDataflowField`, `StructureDataflowField`),
`ntargets` their `_connectedFields` (Field.h:225, 337). -/
structure World where
  net : Net
  arrs : Arrs
  nin : Nat → Bool
  nout : Nat → Bool
  nflow : Nat → Bool
  ntargets : Nat → List Nat

/-- How a call ends. Of the model only (the outcomes of Field.cpp:368-529). -/
inductive WRes
  | ok (w : World)
  | raised (w : World)
  | ub
  | diverges

/-- The outcome on a simple field as one on the whole. Of the model only (Field.cpp:368-378). -/
def Res.world (w : World) : Res → WRes
  | .ok n => .ok { w with net := n }
  | .raised n => .raised { w with net := n }
  | .ub => .ub
  | .diverges => .diverges

/-- The outcome on an array of simple values as one on the whole. Of the model only
(Field.cpp:394-404). -/
def ARes.world (w : World) : ARes → WRes
  | .ok n => .ok { w with arrs := n }
  | .raised n => .raised { w with arrs := n }
  | .ub => .ub

mutual
/-- `AreEquivalent` (Helper.cpp:247-290, 480-511). -/
def equivalent (w : World) : FTree → FTree → Bool
  | .simple i => fun u => match u with
    | .simple j => (w.net j).kind == (w.net i).kind
    | _ => false
  | .sarray i => fun u => match u with
    | .sarray j => (w.arrs i).equivalent (w.arrs j)
    | _ => false
  | .node s _ ts => fun u => match u with
    | .node s' _ us => s == s' && equivalents w ts us
    | _ => false
/-- The items, one by one; the sizes must be equal (Helper.cpp:260-264, 275-277). -/
def equivalents (w : World) : List FTree → List FTree → Bool
  | [] => fun us => us.isEmpty
  | t :: ts => fun us => match us with
    | [] => false
    | u :: us => equivalent w t u && equivalents w ts us
end

mutual
/-- `FieldHelper::CanConnect` (Field.cpp:40-43, 59-62, 82-91, 114-118, 131-152, 179-235);
`InputFieldCollection::contains` (Field.cpp:443-445) is true when the field is *not* there. -/
def canConnect (w : World) : FTree → FTree → Bool
  | .simple i => fun u => match u with
    | .simple j => (w.net i).connectable && !(w.net i).targets.contains j
    | _ => false
  | .sarray i => fun u => match u with
    | .sarray j => (w.arrs i).connectable && !(w.arrs i).targets.contains j
    | _ => false
  | .node s id ts => fun u => match u with
    | .node s' id' us => s == s' && (!w.nflow id || !(w.ntargets id).contains id') &&
        canConnects w ts us
    | _ => false
/-- The items; called on arrays of the same size only (Field.cpp:84-90, 142-151). -/
def canConnects (w : World) : List FTree → List FTree → Bool
  | [] => fun us => us.isEmpty
  | t :: ts => fun us => match us with
    | [] => false
    | u :: us => canConnect w t u && canConnects w ts us
end

mutual
/-- `FieldHelper::Connect` (Field.cpp:44-49, 63-71, 93-99, 119-122, 154-162, 185-189, 236-264),
for fields that can be connected. -/
def link (narrow : Fl → Fl) (f : Nat) (w : World) : FTree → FTree → WRes
  | .simple i => fun u => match u with
    | .simple j =>
      let n1 := w.net.set i { w.net i with targets := (w.net i).targets ++ [j] }
      (setValue narrow f n1 j (n1 i).get).world w
    | _ => .ub
  | .sarray i => fun u => match u with
    | .sarray j =>
      let n1 := w.arrs.set i { w.arrs i with targets := (w.arrs i).targets ++ [j] }
      (acopy narrow n1 i j (List.range (w.arrs i).values.length)).world w
    | _ => .ub
  | .node _ id ts => fun u => match u with
    | .node _ id' us =>
      links narrow f (if w.nflow id then
        { w with ntargets := fun k => if k = id then w.ntargets k ++ [id'] else w.ntargets k }
        else w) ts us
    | _ => .ub
/-- The loops over the fields inside (Field.cpp:84-90, 142-151). -/
def links (narrow : Fl → Fl) (f : Nat) (w : World) : List FTree → List FTree → WRes
  | [] => fun _ => .ok w
  | t :: ts => fun us => match us with
    | [] => .ub
    | u :: us => match link narrow f w t u with
      | .ok w' => links narrow f w' ts us
      | r => r
end

/-- `IsOutput` of a field. (Field.h:342-395.) -/
def World.output (w : World) : FTree → Bool
  | .simple i => (w.net i).output
  | .sarray i => (w.arrs i).output
  | .node _ id _ => w.nout id

/-- `IsInput` of a field. (Field.h:342-395.) -/
def World.input (w : World) : FTree → Bool
  | .simple i => (w.net i).input
  | .sarray i => (w.arrs i).input
  | .node _ id _ => w.nin id

/-- The same object. Of the model only (the comparisons of pointers in Helper.cpp:480-511). -/
def FTree.is : FTree → FTree → Bool
  | .simple i, .simple j => i == j
  | .sarray i, .sarray j => i == j
  | .node _ i _, .node _ j _ => i == j
  | _, _ => false

/-- `Connect` of the four kinds of dataflow fields (Field.cpp:368-378, 394-404, 465-475,
493-503). -/
def wconnect (narrow : Fl → Fl) (f : Nat) (w : World) (t u : FTree) : WRes :=
  if !w.output t || !w.input u || u.is t || !equivalent w t u then .raised w
  else if !canConnect w t u then .raised w
  else link narrow f w t u

mutual
/-- `FieldHelper::Disconnect` (Field.cpp:51-54, 72-75, 100-106, 124-129, 163-171, 190-195,
265-297), for fields of the same shape. -/
def unlink (w : World) : FTree → FTree → World
  | .simple i => fun u => match u with
    | .simple j => { w with net := disconnect w.net i j }
    | _ => w
  | .sarray i => fun u => match u with
    | .sarray j => { w with arrs := adisconnect w.arrs i j }
    | _ => w
  | .node _ id ts => fun u => match u with
    | .node _ id' us =>
      if w.nflow id then
        if (w.ntargets id).contains id' then
          unlinks { w with ntargets := fun k =>
            if k = id then (w.ntargets k).erase id' else w.ntargets k } ts us
        else w
      else unlinks w ts us
    | _ => w
/-- The loops over the fields inside (Field.cpp:93-106, 154-171). -/
def unlinks (w : World) : List FTree → List FTree → World
  | [] => fun _ => w
  | t :: ts => fun us => match us with
    | [] => w
    | u :: us => unlinks (unlink w t u) ts us
end

end Verif.Field
