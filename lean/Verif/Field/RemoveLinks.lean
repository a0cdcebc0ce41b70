import Verif.Field.Tree

/-! `Component::RemoveLinks` (src/Xsmp/Component.cpp:129-202), the part about fields. -/
namespace Verif.Field

/-- What the code asks about the fields that are connected, by class of field (`0` simple, `1`
array of simple items, `2` array or structure of fields) and identity. `chain` is the field, its
parent, the parent of the parent and so on, as far as the components are concerned (`GetParent`);
`shape` is the array or structure with that identity. (Component.cpp:153-184.) -/
structure Where where
  chain : Nat → Nat → List Nat
  shape : Nat → FTree

/-- `IsAncestor` (Helper.cpp:466-478) of a component and a field. -/
def Where.inside (e : Where) (target k j : Nat) : Bool := (e.chain k j).contains target

/-- The class of a field. (The casts in Component.cpp:159-180.) -/
def FTree.cls : FTree → Nat
  | .simple _ => 0
  | .sarray _ => 1
  | .node _ _ _ => 2

/-- `GetInputFields` (Field.cpp:364-366, 388-390, 414-416, 484-486, 511-513, 527-529). -/
def World.inputs (w : World) : FTree → List Nat
  | .simple i => (w.net i).targets
  | .sarray i => (w.arrs i).targets
  | .node _ id _ => w.ntargets id

/-- The field with identity `j` among the inputs of a field. (Field.cpp:380-385, 406-412, 477-482,
505-509.) -/
def Where.field (e : Where) : FTree → Nat → FTree
  | .simple _, j => .simple j
  | .sarray _, j => .sarray j
  | .node _ _ _, j => e.shape j

/-- One turn of the loop (Component.cpp:159-163). The iterators of a collection are indexes
(Field.cpp:435-441): `at(index)` gives a null pointer past the end (Field.cpp:427-429), of which
nothing is an ancestor. `Disconnect` is Field.cpp:380-385, 406-412, 477-482, 505-509. -/
def turn (e : Where) (target : Nat) (t : FTree) (w : World) (index : Nat) : World :=
  match (w.inputs t)[index]? with
  | none => w
  | some j => if e.inside target t.cls j then unlink w t (e.field t j) else w

/-- The loop on the inputs of a dataflow field; its end is the size before the loop
(Field.cpp:439-441). -/
def sweep (e : Where) (target : Nat) (w : World) (t : FTree) : World :=
  (List.range (w.inputs t).length).foldl (turn e target t) w

mutual
/-- `Component::RemoveFieldLinks` (Component.cpp:153-184). A field is an
`IDataflowFieldExtension` when it is connectable and an output (Field.h:84-103, 240, 267, 211,
324); published fields are not (`Cell.connectable` is false for them). -/
def removeFieldLinks (e : Where) (target : Nat) (w : World) : FTree → World
  | .simple i =>
    if (w.net i).connectable && (w.net i).output then sweep e target w (.simple i) else w
  | .sarray i =>
    if (w.arrs i).connectable && (w.arrs i).output then sweep e target w (.sarray i) else w
  | .node s id ts =>
    if w.nflow id then sweep e target w (.node s id ts) else removeFieldsLinks e target w ts
/-- The fields of a structure, of an array (Component.cpp:169-180) or of the component
(Component.cpp:197-202), one after the other. -/
def removeFieldsLinks (e : Where) (target : Nat) (w : World) : List FTree → World
  | [] => w
  | t :: ts => removeFieldsLinks e target (removeFieldLinks e target w t) ts
end

end Verif.Field
