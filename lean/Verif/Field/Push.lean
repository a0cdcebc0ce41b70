/-! An output whose connections change while it is pushed: `internal_push` of a simple field
(src/Xsmp/Field.cpp:359-363) step by step, with `Connect` and `Disconnect`
(src/Xsmp/Field.cpp:40-56, 368-388) of other threads, or of the fields that are written, in between.

The loop is over an `InputFieldCollection`, whose iterators are a collection and an index
(src/Xsmp/Field.cpp:434-440): the end is the size at the start, and an element is `at(index)`
(424-426), as in the collections of ECSS SMP. Simplified: the accesses to the vector are atomic (in
the code they are data races); the values that are written are left out. Arrays have the same loop
(src/Xsmp/Field.cpp:519-525). -/
namespace Verif.Field.Push

/-- A loop of `internal_push` (Field.cpp:360): its thread, its number, its index, its end, and, of
the model, the fields that it has written. -/
structure Loop where
  thread : Nat
  id : Nat
  index : Nat
  stop : Nat
  done : List Nat
deriving DecidableEq, Repr

/-- An output (Field.h:229-238): the vector `_fields` of its collection, the loops that go on, the
last one first, those that ended, the number of loops, and whether a null pointer was followed. -/
structure Out where
  fields : List Nat
  loops : List Loop
  ended : List Loop
  count : Nat
  null : Bool
deriving DecidableEq, Repr

/-- A field that was just constructed (Field.cpp:355-357). -/
def Out.init : Out := ⟨[], [], [], 0, false⟩

/-- `Connect` of a field that is equivalent (Field.cpp:40-49, 368-379, 442-448): nothing if it is
connected already (an exception in the code). That the value is written to it is left out. -/
def Out.connect (o : Out) (x : Nat) : Out :=
  if x ∈ o.fields then o else { o with fields := o.fields ++ [x] }

/-- `Disconnect` (Field.cpp:51-54, 381-386, 449-456). -/
def Out.disconnect (o : Out) (x : Nat) : Out := { o with fields := o.fields.erase x }

/-- `internal_push` begins in a thread: the two iterators (Field.cpp:359-360, 434-440). -/
def Out.push (o : Out) (t : Nat) : Out :=
  { o with loops := ⟨t, o.count, 0, o.fields.length, []⟩ :: o.loops, count := o.count + 1 }

/-- The innermost loop of a thread, with the loops before and after it. Of the model only (the stack
of calls of `internal_push`, Field.cpp:359-363). -/
def split (t : Nat) : List Loop → Option (List Loop × Loop × List Loop)
  | [] => none
  | l :: ls =>
    if l.thread = t then some ([], l, ls)
    else (split t ls).map fun (a, x, b) => (l :: a, x, b)

/-- The innermost loop of a thread takes a step (Field.cpp:360-362): it ends, or `at(index)` is
written, or is null and followed. -/
def Out.go (o : Out) (t : Nat) : Out :=
  match split t o.loops with
  | none => o
  | some (a, l, b) =>
    if l.index = l.stop then { o with loops := a ++ b, ended := l :: o.ended }
    else match o.fields[l.index]? with
      | none => { o with null := true }
      | some x =>
        { o with loops := a ++ { l with index := l.index + 1, done := l.done ++ [x] } :: b }

/-- A field that is written raises an exception, which leaves the loop (Field.cpp:361). -/
def Out.raise (o : Out) (t : Nat) : Out :=
  match split t o.loops with
  | none => o
  | some (a, l, b) => { o with loops := a ++ b, ended := l :: o.ended }

/-- What happens. (Field.cpp:40-56, 359-363.) -/
inductive Op
  | connect (x : Nat) | disconnect (x : Nat) | push (t : Nat) | go (t : Nat) | raise (t : Nat)
deriving DecidableEq, Repr

/-- One step; nothing happens after a null pointer was followed. (Field.cpp:40-56, 359-363.) -/
def Out.step (o : Out) (p : Op) : Out :=
  if o.null then o else match p with
    | .connect x => o.connect x
    | .disconnect x => o.disconnect x
    | .push t => o.push t
    | .go t => o.go t
    | .raise t => o.raise t

/-- A history. Of the model only (sequences of the steps of Field.cpp:40-56, 359-363). -/
def Out.run (o : Out) (ps : List Op) : Out := ps.foldl Out.step o

end Verif.Field.Push
