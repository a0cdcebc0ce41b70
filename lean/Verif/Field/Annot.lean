import Verif.Field.Tree

/-! The annotations of fields: how the annotations of a field declared as
`Field<T>::input::output...` reach the fields inside it (include/Xsmp/Field.h). -/
namespace Verif.Field.Annot

/-- The annotations (Field.h:84-103). -/
inductive Ann
  | transient | input | output | forcible | failure | connectable
deriving DecidableEq

/-- The parameter pack `Annotations...` (Field.h:73-75). -/
abbrev Anns := List Ann

mutual
/-- The type of a field (Field.h:1205-1241): a simple type; `Xsmp::Array<T, n, ...>`, `marked` when
it has the annotation `simpleArray` (Array.h:29-33, 63); a generated structure, with the suffixes
of each of its members (`typename _BASE::template Field<T>::input`,
src-gen/Xsmp/Tests/Types/StructureWithCustomFields.h:461-560). -/
inductive Ty
  | simple
  | array (marked : Bool) (n : Nat) (item : Ty)
  | struct (members : Members)
/-- The members of a structure, in order (StructureWithCustomFields.h:461-560). -/
inductive Members
  | nil
  | cons (decl : Anns) (ty : Ty) (rest : Members)
end

mutual
/-- The class of a field with its annotations, and those of the fields in it: `SimpleField`,
`SimpleArrayField`, `ArrayField` (whose items are all of the same class), `StructureField`
(Field.h:399, 536, 740, 1128). -/
inductive FT
  | simple (anns : Anns)
  | sarray (n : Nat) (anns : Anns)
  | array (n : Nat) (anns : Anns) (item : FT)
  | struct (anns : Anns) (members : FTs)
/-- The fields of a structure (Field.h:1128). -/
inductive FTs
  | nil
  | cons (f : FT) (rest : FTs)
end

/-- The annotations after `::transient`, `::input`, ... (Field.h:350-360). -/
def suffix (anns : Anns) : Ann → Anns
  | .output => anns ++ [.output, .connectable]
  | a => anns ++ [a]

/-- The annotations after several suffixes (Field.h:350-360). -/
def declare (anns : Anns) (decl : Anns) : Anns := decl.foldl suffix anns

/-- The suffixes that `apply_options` of `ArrayField` gives to the type of the items for one
annotation (Field.h:547-571). -/
def itemSuffix : Ann → Anns
  | .output => [.output]
  | .connectable => [.connectable]
  | .input => [.input]
  | .forcible => [.forcible]
  | _ => []

/-- `value_type` of `ArrayField` (Field.h:625-626). -/
def itemAnns (anns : Anns) : Anns := declare [] (anns.flatMap itemSuffix)

/-- The suffixes that `apply_options` of `StructureField` gives to the type of a member for one
annotation (Field.h:1170-1187). -/
def memberSuffix : Ann → Anns
  | .output => [.connectable]
  | .forcible => [.forcible]
  | _ => []

/-- `StructureField::Field<U>` (Field.h:1189-1191). -/
def memberAnns (anns : Anns) : Anns := declare [] (anns.flatMap memberSuffix)

/-- `is_simple_type_v` (Field.h:1213-1218). Of the model only for the other shapes. -/
def Ty.isSimple : Ty → Bool
  | .simple => true
  | _ => false

mutual
/-- `Xsmp::Field<T, Annotations...>` (Field.h:73-75) with `FieldTypeHelper` (Field.h:1205-1241) and
`is_simple_array_field` (Field.h:125-134); `none` when the assertion that an array of simple values
is not forcible fails, and the program is not compiled (Field.h:745-747). -/
def build : Ty → Anns → Option FT
  | .simple, anns => some (.simple anns)
  | .array marked n item, anns =>
    if marked && item.isSimple then
      if anns.contains .forcible then none else some (.sarray n anns)
    else (build item (itemAnns anns)).map (.array n anns)
  | .struct members, anns => (builds members anns).map (.struct anns)
/-- The members of a structure with the annotations `anns` (StructureWithCustomFields.h:461-560). -/
def builds : Members → Anns → Option FTs
  | .nil, _ => some .nil
  | .cons decl ty rest, anns =>
    match build ty (declare (memberAnns anns) decl), builds rest anns with
    | some f, some fs => some (.cons f fs)
    | _, _ => none
end

/-- The annotations of a field (Field.h:342-395). -/
def FT.anns : FT → Anns
  | .simple a => a
  | .sarray _ a => a
  | .array _ a _ => a
  | .struct a _ => a

/-- `IsState` (Field.h:370-373). -/
def FT.isState (f : FT) : Bool := !f.anns.contains .transient
/-- `IsInput` (Field.h:374-377). -/
def FT.isInput (f : FT) : Bool := f.anns.contains .input
/-- `IsOutput` (Field.h:378-381). -/
def FT.isOutput (f : FT) : Bool := f.anns.contains .output
/-- The field is an `IForcibleField`: only `SimpleField` derives from `ForcibleFieldType`
(Field.h:158-161, 401). -/
def FT.isForcible : FT → Bool
  | .simple a => a.contains .forcible
  | _ => false
/-- The field is a `SimpleConnectableField` or `SimpleArrayConnectableField`, or one derived from
those (Field.h:248-254, 275-281). -/
def FT.isConnectable : FT → Bool
  | .simple a => a.contains .output || a.contains .connectable
  | .sarray _ a => a.contains .output || a.contains .connectable
  | _ => false
/-- The field is an `IDataflowField` (Field.h:224-228, 248-254, 275-281, 336-340). -/
def FT.isDataflow (f : FT) : Bool := f.anns.contains .output

mutual
/-- The field at a path, given by the indexes in `GetFields()` and of `GetItem`
(Field.h:590-595, 310-312). -/
def FT.at : FT → List Nat → Option FT
  | f, [] => some f
  | .array n _ item, i :: p => if i < n then item.at p else none
  | .struct _ fs, i :: p => fs.at i p
  | .simple _, _ :: _ => none
  | .sarray _ _, _ :: _ => none
/-- The field at a path from member `i` (Field.h:310-312). -/
def FTs.at : FTs → Nat → List Nat → Option FT
  | .nil, _, _ => none
  | .cons f _, 0, p => f.at p
  | .cons _ fs, i + 1, p => fs.at i p
end

mutual
/-- The fields of `t` in the world `w` are objects of the classes of `f`: what their annotations
make of them (Field.h:158-161, 224-228, 248-254, 275-281, 336-381). -/
def shows (w : World) : FT → FTree → Bool
  | f@(.simple _), .simple i =>
    (w.net i).input == f.isInput && (w.net i).output == f.isOutput &&
    (w.net i).connectable == f.isConnectable && (w.net i).forcible == f.isForcible
  | f@(.sarray n _), .sarray i =>
    (w.arrs i).input == f.isInput && (w.arrs i).output == f.isOutput &&
    (w.arrs i).connectable == f.isConnectable && (w.arrs i).values.length == n
  | f@(.array n _ item), .node false id ts =>
    w.nin id == f.isInput && w.nout id == f.isOutput && w.nflow id == f.isDataflow &&
    ts.length == n && ts.all fun t => shows w item t
  | f@(.struct _ fs), .node true id ts =>
    w.nin id == f.isInput && w.nout id == f.isOutput && w.nflow id == f.isDataflow &&
    showsAll w fs ts
  | _, _ => false
/-- The members of a structure (Field.h:310-312). -/
def showsAll (w : World) : FTs → List FTree → Bool
  | .nil, [] => true
  | .cons f fs, t :: ts => shows w f t && showsAll w fs ts
  | _, _ => false
end

end Verif.Field.Annot
