import Verif.Uuid.Props

/-
Model of the class `Uuid` in Python (src/python/Smp/UuidBinding.h:22-127): which operations there are, and
what pybind11 does for them. The module does not include `pybind11/stl.h` (ecss_smp.h:19,
ecss_smp.cpp:16), so that `std::array` is not converted; the class defines no `__eq__`, so that Python
compares identities. Texts and values are those of Verif/Uuid.

Simplified: the constructor from five numbers is left out (its code is not in the repository); texts have
characters of one byte.
-/
namespace Verif.Python.Ids
open Verif.Uuid (Uuid Str)

/-- An object of the class: its value, and whether it is one of the constants of `Smp::Uuids`, which
Python refers to (UuidBinding.h:43-122). -/
structure Obj where
  value : Uuid
  constant : Bool
  deriving DecidableEq

/-- The objects; an object is a position. Objects are never removed: simplified. (UuidBinding.h:22-38.) -/
abbrev Heap := List Obj

/-- How an operation ends. Of the model only (UuidBinding.h:22-38). -/
inductive Res (α : Type)
  | ok (a : α)
  /-- `TypeError` of pybind11 -/
  | typeError
  /-- `InvalidUUID` (Uuid.cpp:50-51) -/
  | invalid
  /-- a constant is written -/
  | ub
  deriving DecidableEq

/-- The members (UuidBinding.h:33-37). -/
inductive Member
  | data1 | data2 | data3
  deriving DecidableEq

/-- `c_str()` of the text: what comes after a NUL is not seen. (`py::init<const char *>`,
UuidBinding.h:28-29.) -/
def cstr (s : Str) : Str := s.takeWhile (· ≠ Char.ofNat 0)

/-- `Uuid(text)`, `Uuid(None)` (UuidBinding.h:28-29, Uuid.cpp:31-80): the new object is the last one. -/
def make (h : Heap) (t : Option Str) : Res Heap :=
  match Verif.Uuid.parse (t.map cstr) with
  | some u => .ok (h ++ [⟨u, false⟩])
  | none => .invalid

/-- `Uuid(u)` (UuidBinding.h:31), and what a function gives back that returns a Uuid or a reference to one:
a new object (pybind11's policy for both). (`GetUuid`: IComponentBinding.h:35, IFactoryBinding.h:25,
ITypeBinding.h:30.) -/
def fresh (h : Heap) (u : Uuid) : Heap := h ++ [⟨u, false⟩]

/-- Reading a member (UuidBinding.h:33-37): `std::array` is not converted. -/
def read (h : Heap) (a : Nat) : Member → Res Nat
  | .data1 => match h[a]? with
    | some o => .ok o.value.d1.toNat
    | none => .typeError
  | .data2 | .data3 => .typeError

/-- Writing a member (UuidBinding.h:33-37); of a constant: the object is written all the same. -/
def write (h : Heap) (a : Nat) (m : Member) (v : Int) : Res Heap :=
  match m with
  | .data1 =>
    if v < 0 ∨ 2 ^ 32 ≤ v then .typeError
    else match h[a]? with
      | none => .typeError
      | some o => if o.constant then .ub
        else .ok (h.set a { o with value := { o.value with d1 := BitVec.ofNat 32 v.toNat } })
  | .data2 | .data3 => .typeError

/-- `u == v` (no `__eq__` in UuidBinding.h:22-38). -/
def equal (a b : Nat) : Bool := a == b

/-- What a function of the simulator gets that takes a Uuid (ITypeRegistryBinding.h:32-85). -/
def given (h : Heap) (a : Nat) : Option Uuid := h[a]?.map (·.value)

/-- Operations of a Python program. Of the model only (UuidBinding.h:22-38). -/
inductive Op
  | make (t : Option Str)
  | fresh (u : Uuid)
  | write (a : Nat) (m : Member) (v : Int)

/-- One operation; exceptions are caught; `none` when the behaviour is undefined. (UuidBinding.h:22-38.) -/
def step (h : Heap) : Op → Option Heap
  | .make t => match make h t with
    | .ok h' => some h'
    | .ub => none
    | _ => some h
  | .fresh u => some (fresh h u)
  | .write a m v => match write h a m v with
    | .ok h' => some h'
    | .ub => none
    | _ => some h

/-- A program. Of the model only (UuidBinding.h:22-38). -/
def run (h : Heap) : List Op → Option Heap
  | [] => some h
  | o :: os => (step h o).bind (run · os)

end Verif.Python.Ids
