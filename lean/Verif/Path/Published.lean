import Verif.Path.Model

/-! `IComponent::GetField` with the path of a field below a component (`src/Xsmp/Component.cpp:50-52`,
`src/Xsmp/Publication/Publication.cpp:220-228`, `src/Xsmp/Helper.cpp:321-339`). -/
namespace Verif.Path.Published

/-- `Resolve(const FieldCollection *, path)` (Helper.cpp:321-339) for the fields of the component at `a`,
on the segments of the path: the parent of the collection is the component (Publication.cpp:40,
Collection.h:303), so that `..` goes to the parent of the component. The fields of a component are its
children that are fields, in the order of the tree (the code has those it owns first,
Collection.h:263-266). -/
def resolveFields (T : Node) (refs : Refs) (a : Addr) : List Seg → Option Addr
  | [] => none
  | (_, s) :: rest =>
    if s = ['.', '.'] then
      match parent T a with
      | none => none
      | some p => resolve T refs .obj p rest
    else
      match get T a with
      | none => none
      | some n =>
        match child n Kind.isField s with
        | some i => resolve T refs .field (i :: a) rest
        | none => none

/-- `Publication::GetField` (Publication.cpp:220-228) of the component at `a`; the result `none` is the
exception `InvalidFieldName`, the argument `none` is a null pointer. -/
def getField (T : Node) (refs : Refs) (a : Addr) : Option Str → Option Addr
  | none => none
  | some path =>
    match resolveFields T refs a (segments path) with
    | none => none
    | some b => if (kindAt T b).map Kind.isField = some true then some b else none

end Verif.Path.Published
