import Verif.Field.NetProps

/-! Arrays that are assigned to fields of array types as a whole, and read as a whole: `operator=` and the
conversion of `Xsmp::ArrayField` (include/Xsmp/Field.h:616-624). -/
namespace Verif.Field.Whole
open Verif.Any (Kind Fl Val Any Out)

/-- A field of an array type with fields as items (Field.h:535-696): `internalArray` has simple fields, or
fields of array types again. Items that are structures, or simple arrays, have no `operator=` and cannot
be assigned in this way. -/
inductive Item
  | simple (i : Nat)
  | array (items : List Item)

/-- A value of the type `T` of a field: `Xsmp::Array` of values, or of arrays (Array.h:67-82). -/
inductive Value
  | one (v : Val)
  | many (vs : List Value)

mutual
/-- `operator=(const T &)`: of a simple field (Field.h:480), and of a field of an array type
(Field.h:621-624). Where the types do not agree the code does not compile (`ub` here). -/
def assignTo (narrow : Fl → Fl) (f : Nat) : Item → Net → Value → Res
  | .simple i => fun n v => match v with
    | .one x => assign narrow f n i x
    | .many _ => .ub
  | .array ts => fun n v => match v with
    | .one _ => .ub
    | .many vs => copyTo narrow f ts n vs

/-- `std::copy(other.cbegin(), other.cend(), this->begin())` (Field.h:622): the items one after the
other. -/
def copyTo (narrow : Fl → Fl) (f : Nat) : List Item → Net → List Value → Res
  | [] => fun n vs => match vs with
    | [] => .ok n
    | _ :: _ => .ub
  | t :: ts => fun n vs => match vs with
    | [] => .ub
    | v :: vs => match assignTo narrow f t n v with
      | .ok n' => copyTo narrow f ts n' vs
      | r => r
end

mutual
/-- The conversions: `operator const T &` of a simple field (Field.h:471), `operator T` of a field of an
array type (Field.h:616-620). -/
def readOf (n : Net) : Item → Value
  | .simple i => .one (n i).value
  | .array ts => .many (copyFrom n ts)

/-- `std::copy(this->cbegin(), this->cend(), value.begin())` (Field.h:618). -/
def copyFrom (n : Net) : List Item → List Value
  | [] => []
  | t :: ts => readOf n t :: copyFrom n ts
end

end Verif.Field.Whole
