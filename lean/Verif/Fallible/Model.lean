/-
Fallible models: `src/Xsmp/FallibleModel.cpp:21-38`, `include/Xsmp/FallibleModel.h:57-64`,
failures `src/Xsmp/Field.cpp:336-354`, `include/Xsmp/Field.h:163-176, 342-400` and the collection
`include/Xsmp/Collection.h:36-131`.

A failure is numbered in the order of construction. Its parent is a fallible model (by its
number) or something else. Simplifications: destruction is left out (failures are members of
the model's own class and die before its base `FallibleModel`); a restored byte is a `bool`.
-/
namespace Verif.Fallible

/-- A failure: name, parent if it is a `FallibleModel`, `_failed` (Field.h:175). -/
structure Failure where
  name : String
  parent : Option Nat
  failed : Bool
  deriving DecidableEq, Repr

/-- The failures constructed so far and, for each model, the `_vector` of its `_failures`
(FallibleModel.h:64, Collection.h:129) as numbers of failures. -/
structure State where
  all : List Failure
  models : Nat → List Nat

/-- The initial state: no failure. (FallibleModel.cpp:21.) -/
def init : State := { all := [], models := fun _ => [] }

/-- What can happen. -/
inductive Op
  /-- construction of a field with the annotation `failure` (Field.h:361-368) -/
  | new (name : String) (parent : Option Nat)
  /-- `Fail`, Field.cpp:346 -/
  | fail (i : Nat)
  /-- `Unfail`, Field.cpp:344 -/
  | unfail (i : Nat)
  /-- `Restore`, Field.cpp:348-350 -/
  | restore (i : Nat) (b : Bool)
  deriving DecidableEq, Repr

/-- `Collection::at(name)` (Collection.h:44-58): the first element of that name. -/
def at? (s : State) (m : Nat) (name : String) : Option Nat :=
  (s.models m).find? (fun i => (s.all[i]?.map Failure.name) == some name)

/-- Setting `_failed`. (Field.cpp:344-350.) -/
def setFailed (s : State) (i : Nat) (b : Bool) : State :=
  { s with all := s.all.modify i (fun f => { f with failed := b }) }

/-- One operation. A construction whose name the model already has throws `DuplicateName` in
`Collection::Add` (Collection.h:83-88) and constructs nothing; without a fallible parent the
failure is not registered (Field.cpp:338-342). -/
def step (s : State) : Op → State
  | .new name parent =>
    match parent with
    | none => { s with all := s.all ++ [⟨name, none, false⟩] }
    | some m =>
      match at? s m name with
      | some _ => s
      | none =>
        { all := s.all ++ [⟨name, some m, false⟩]
          models := fun x => if x = m then s.models m ++ [s.all.length] else s.models x }
  | .fail i => setFailed s i true
  | .unfail i => setFailed s i false
  | .restore i b => setFailed s i b

/-- A history. (Field.cpp:336-354.) -/
def run (s : State) (ops : List Op) : State := ops.foldl step s

/-- `Failure::IsFailed` (Field.cpp:336). -/
def failureIsFailed (s : State) (i : Nat) : Bool := (s.all[i]?.map Failure.failed).getD false

/-- The loop of `FallibleModel::IsFailed` (FallibleModel.cpp:23-31). -/
def anyFailed (s : State) : List Nat → Bool
  | [] => false
  | i :: is => if failureIsFailed s i then true else anyFailed s is

/-- `FallibleModel::IsFailed` (FallibleModel.cpp:23-31). -/
def isFailed (s : State) (m : Nat) : Bool := anyFailed s (s.models m)

/-- `FallibleModel::GetFailure` (FallibleModel.cpp:36-38). -/
def getFailure (s : State) (m : Nat) (name : String) : Option Nat := at? s m name

end Verif.Fallible
