/-
Model of the access by index and by name that the Python module gives to collections, containers,
references and array fields (src/python/ecss_smp.cpp:537-544 and the bindings in src/python/Smp).

An `Int64` is an integer from `-2 ^ 63` to `2 ^ 63 - 1`, an `UInt64` and a `size_t` a natural number
below `2 ^ 64`. pybind11 refuses a Python integer that does not fit the type of the parameter.
-/
namespace Verif.Python.Index

/-- How a call from Python ends: with a value, with one of the exceptions that the bindings raise
(ecss_smp.cpp:541; ICollectionBinding.h:51, 60; ISimpleArrayFieldBinding.h:46, 53), with an exception
of the library that pybind11 hands on (ecss_smp.cpp:573-578), or outside of what C++ defines. -/
inductive Res (α : Type)
  | ok (a : α)
  /-- `IndexError`. (ecss_smp.cpp:541.) -/
  | indexError
  /-- `KeyError`. (IContainerBinding.h:55.) -/
  | keyError
  /-- `TypeError`: the argument does not convert to the type of the parameter (pybind11). -/
  | typeError
  /-- `Smp.CannotDelete`. (Container.cpp:190-192.) -/
  | cannotDelete
  /-- `Smp.CannotRemove`. (Reference.h:258-260.) -/
  | cannotRemove
  /-- `Smp.InvalidArrayIndex`. (Field.h:768, 776.) -/
  | invalidArrayIndex
  /-- Undefined behaviour of C++ (signed overflow in ecss_smp.cpp:539). -/
  | ub
  deriving DecidableEq, Repr

/-- `static_cast<Smp::Int64>` of an `UInt64`: modulo `2 ^ 64`. (ecss_smp.cpp:539.) -/
def asInt64 (n : Nat) : Int := Int.bmod n (2 ^ 64)

/-- `static_cast<Smp::UInt64>` of an `Int64`: modulo `2 ^ 64`. (ecss_smp.cpp:540, 543.) -/
def asUInt64 (i : Int) : Nat := (i % (2 ^ 64 : Nat)).toNat

/-- The local `result` of `GetIndex`; the addition may overflow. (ecss_smp.cpp:538-539.) -/
def shifted (index : Int) (size : Nat) : Res Int :=
  if index < 0 then
    if asInt64 size + index < -2 ^ 63 then .ub else .ok (asInt64 size + index)
  else .ok index

/-- `GetIndex`. The second test is on `index`, not on `result`. (ecss_smp.cpp:537-544.) -/
def getIndex (index : Int) (size : Nat) : Res Nat :=
  match shifted index size with
  | .ok result =>
    if result < 0 ∨ size ≤ asUInt64 index then .indexError else .ok (asUInt64 result)
  | _ => .ub

/-- `at(size_t)`: null when there is no such element. (Collection.h:60-62; Container.h:256-261;
Reference.h:212-217; for an array field the index is below the size, Field.h:590-595.) -/
def at? {α : Type} (l : List α) (i : Nat) : Option α := l[i]?

/-- `__getitem__` with an integer, of a collection (ICollectionBinding.h:46-53), of a container
(IContainerBinding.h:40-48), of a reference (IReferenceBinding.h:40-48) and of an array field
(IArrayFieldBinding.h:29-36). pybind11 converts the Python integer to `Int64` or refuses it.
Simplified: an array field raises `InvalidArrayIndex` itself where the others return null; `GetIndex`
lets neither happen. -/
def getItem {α : Type} (l : List α) (i : Int) : Res α :=
  if i < -2 ^ 63 ∨ 2 ^ 63 ≤ i then .typeError
  else match getIndex i l.length with
    | .ok k => match at? l k with
      | some a => .ok a
      | none => .indexError
    | .ub => .ub
    | _ => .indexError

/-- An element with its name (`GetName`, Collection.h:50-53). -/
structure Item where
  /-- Which object it is: the address. (Collection.h:133.) -/
  id : Nat
  /-- Its name. (Collection.h:50-53.) -/
  name : String
  deriving DecidableEq, Repr

/-- `at(String8)`: the first element of that name. (Collection.h:44-57; Container.h:241-248;
Reference.h:197-204.) -/
def named (l : List Item) (n : String) : Option Item := l.find? (fun c => n = c.name)

/-- `__getitem__` with a string. (ICollectionBinding.h:55-62; IContainerBinding.h:50-57;
IReferenceBinding.h:50-57.) -/
def getNamed (l : List Item) (n : String) : Res Item :=
  match named l n with
  | some c => .ok c
  | none => .keyError

/-- The iterator `Container::DeleteComponent` and `Reference::RemoveComponent` erase: the first that
points to the component. (Container.h:295-297; Reference.h:254-261.) -/
def eraseFirst (l : List Item) (c : Item) : List Item :=
  match l with
  | [] => []
  | x :: xs => if x.id = c.id then xs else x :: eraseFirst xs c

/-- `Container::DeleteComponent` of a contained component: `CannotDelete` at the lower limit.
Simplified: the component has no hooks that change the container. (Container.h:294-301;
Container.cpp:189-198.) -/
def deleteComponent (l : List Item) (lower : Nat) (c : Item) : Res (List Item) :=
  if l.length ≤ lower then .cannotDelete else .ok (eraseFirst l c)

/-- `Reference::RemoveComponent` of a referenced component. (Reference.h:252-262.) -/
def removeComponent (l : List Item) (lower : Nat) (c : Item) : Res (List Item) :=
  if l.length ≤ lower then .cannotRemove else .ok (eraseFirst l c)

/-- `__delitem__` with an integer; `remove` is the `DeleteComponent` of a container
(IContainerBinding.h:59-68) or the `RemoveComponent` of a reference (IReferenceBinding.h:59-68). -/
def delItem (remove : List Item → Nat → Item → Res (List Item)) (l : List Item) (lower : Nat)
    (i : Int) : Res (List Item) :=
  match getItem l i with
  | .ok c => remove l lower c
  | .typeError => .typeError
  | .ub => .ub
  | _ => .indexError

/-- `__delitem__` with a string. (IContainerBinding.h:70-78; IReferenceBinding.h:70-78.) -/
def delNamed (remove : List Item → Nat → Item → Res (List Item)) (l : List Item) (lower : Nat)
    (n : String) : Res (List Item) :=
  match named l n with
  | some c => remove l lower c
  | none => .keyError

/-- `__setitem__` of an array of simple values: the index is an `UInt64`, so pybind11 refuses a
negative one; beyond the end `SetValue` raises `InvalidArrayIndex`. Simplified: the value is already
converted to the type of the items. (ISimpleArrayFieldBinding.h:41-54; Field.h:774-779.) -/
def setItem {α : Type} (l : List α) (i : Int) (a : α) : Res (List α) :=
  if i < 0 ∨ 2 ^ 64 ≤ i then .typeError
  else if l.length ≤ i.toNat then .invalidArrayIndex
  else .ok (l.set i.toNat a)

/-- `__getitem__` of an array of simple values: `read` converts the value to Python, which works for
every value of a kind that an array can have (C118_read). Every exception of the library becomes an
`IndexError`. (ISimpleArrayFieldBinding.h:32-39.) -/
def getValue {α β : Type} (read : α → β) (l : List α) (i : Int) : Res β :=
  match getItem l i with
  | .ok a => .ok (read a)
  | .typeError => .typeError
  | .ub => .ub
  | _ => .indexError

/-- `for x in l` in Python, for a type with `__getitem__` and without `__iter__`: the items 0, 1, 2, …
until the first `IndexError`; `n` bounds the number of rounds. (The bindings define no `__iter__`:
ICollectionBinding.h:26-62, IContainerBinding.h:25-78, IReferenceBinding.h:25-78,
IArrayFieldBinding.h:24-36.) -/
def iterate {α : Type} (l : List α) : Nat → Nat → List α
  | 0, _ => []
  | n + 1, i => match getItem l i with
    | .ok a => a :: iterate l n (i + 1)
    | _ => []

end Verif.Python.Index
