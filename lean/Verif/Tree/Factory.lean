import Verif.Tree.Model
import Verif.Path.Model

/-!
Factories and the instances they make, with the memory of both: `src/Xsmp/Factory.cpp`,
`include/Xsmp/Factory.h`, `src/Xsmp/FactoryCollection.cpp`, `src/Xsmp/Simulator.cpp:641-656`.

Simplified: an address is a number that is never used again; descriptions, parents and the name of
the C++ type are left out.
-/
namespace Verif.Tree.Make
open Verif.Tree (Fac Facs)
open Verif.Path (Str checkName)

/-- An address. (The pointers of Factory.h:49-118.) -/
abbrev Addr := Nat

/-- What the calls throw: `InvalidObjectName` (Helper.cpp:514-572), `DuplicateUuid`
(FactoryCollection.cpp:62-63), `InvalidFactory` (Factory.cpp:44-47), or what the constructor of a
component throws. -/
inductive Err
  | invalidObjectName | duplicateUuid | invalidFactory | constructor (code : Nat)
  deriving DecidableEq, Repr

/-- What `_callback` does with a name (Factory.h:43-46): the constructor throws, there is a new
instance with this UUID, or the pointer it returns is null. -/
inductive Made
  | throws (e : Err)
  | instance (uuid : Nat)
  | null
  deriving DecidableEq, Repr

/-- A `Factory` (Factory.h:119-130). -/
structure FacObj where
  name : String
  uuid : Nat
  callback : Option Str → Made

/-- The callback of `Factory::Create<T>` (Factory.h:64-78): `make_unique<T>`, whose constructor
checks the name (Component.cpp:36-40, Helper.cpp:514-572). -/
def callbackOf (uuid : Nat) (name : Option Str) : Made :=
  match checkName name with
  | .ok _ => .instance uuid
  | .invalidObjectName => .throws .invalidObjectName

/-- An instance: its UUID and its name. (Factory.cpp:39-50.) -/
structure Inst where
  uuid : Nat
  name : Str
  deriving DecidableEq, Repr

/-- The factories and instances that exist, by address, the collection of the simulator
(FactoryCollection.h:53-58), and the next address. (Factory.cpp:25-61.) -/
structure W where
  facs : List (Addr × FacObj)
  insts : List (Addr × Inst)
  coll : Facs
  next : Addr

/-- Nothing was made yet. (FactoryCollection.cpp:25-26.) -/
def W.init : W := ⟨[], [], ⟨[], [], []⟩, 0⟩

/-- What a call gives: nothing, a pointer that may be null, an exception, or undefined behaviour.
(Factory.cpp:25-61, FactoryCollection.cpp:58-68.) -/
inductive Res
  | done
  | ptr (p : Option Addr)
  | exn (e : Err)
  | ub
  deriving DecidableEq, Repr

/-- The object at an address, if there is one. (The dereferenced pointers of Factory.cpp:39-51,
FactoryCollection.cpp:58-68.) -/
def find {α : Type} (m : List (Addr × α)) (p : Addr) : Option α :=
  (m.find? (fun x => x.1 = p)).map (·.2)

/-- `delete` of an object. (FactoryCollection.cpp:60, Factory.cpp:43, 51.) -/
def free {α : Type} (m : List (Addr × α)) (p : Addr) : List (Addr × α) :=
  m.filter (fun x => x.1 ≠ p)

/-- `Factory::Create` (Factory.cpp:25-32, 54-61): the constructor checks the name of the factory. -/
def W.make (w : W) (name : Option Str) (uuid : Nat) (cb : Option Str → Made) : W × Res :=
  match name, checkName name with
  | some n, .ok _ =>
    ({ facs := w.facs ++ [(w.next, ⟨String.ofList n, uuid, cb⟩)], insts := w.insts,
       coll := w.coll, next := w.next + 1 }, .ptr (some w.next))
  | _, _ => (w, .exn .invalidObjectName)

/-- `FactoryCollection::Add` (FactoryCollection.cpp:58-68): the pointer is owned from the first line
on; if the UUID is known, the exception destroys the factory that was given. -/
def W.register (w : W) (p : Addr) : W × Res :=
  match find w.facs p with
  | none => (w, .ub)
  | some f =>
    match w.coll.add ⟨p, f.uuid, f.name⟩ with
    | (coll, none) => ({ facs := w.facs, insts := w.insts, coll := coll, next := w.next }, .done)
    | (coll, some _) =>
      ({ facs := free w.facs p, insts := w.insts, coll := coll, next := w.next },
        .exn .duplicateUuid)

/-- `Factory::CreateInstance` (Factory.cpp:39-50): the instance is owned by a `unique_ptr`, which
destroys it if its UUID is not that of the factory. A null instance is dereferenced. -/
def W.createBy (w : W) (f : FacObj) (name : Option Str) : W × Res :=
  match f.callback name with
  | .throws e => (w, .exn e)
  | .null => (w, .ub)
  | .instance u =>
    let insts := w.insts ++ [(w.next, ⟨u, name.getD []⟩)]
    if u ≠ f.uuid then
      ({ facs := w.facs, insts := free insts w.next, coll := w.coll, next := w.next + 1 },
        .exn .invalidFactory)
    else
      ({ facs := w.facs, insts := insts, coll := w.coll, next := w.next + 1 },
        .ptr (some w.next))

/-- `Simulator::CreateInstance` (Simulator.cpp:645-652). -/
def W.create (w : W) (u : Nat) (name : Option Str) : W × Res :=
  match w.coll.atUuid u with
  | none => (w, .ptr none)
  | some g =>
    match find w.facs g.id with
    | none => (w, .ub)
    | some f => w.createBy f name

/-- `Factory::DeleteInstance` (Factory.cpp:51): a null pointer is allowed, another one must be
that of an instance. -/
def W.delete (w : W) : Option Addr → W × Res
  | none => (w, .done)
  | some p =>
    match find w.insts p with
    | none => (w, .ub)
    | some _ =>
      ({ facs := w.facs, insts := free w.insts p, coll := w.coll, next := w.next }, .done)

/-- The destructor of the collection: `_uuid_map` deletes its factories one after the other
(FactoryCollection.h:55). -/
def freeAll (facs : List (Addr × FacObj)) : List (Nat × Fac) → Option (List (Addr × FacObj))
  | [] => some facs
  | (_, g) :: rest =>
    match find facs g.id with
    | none => none
    | some _ => freeAll (free facs g.id) rest

/-- The calls. (Factory.cpp:39-61, FactoryCollection.cpp:58-68, Simulator.cpp:641-652.) -/
inductive Call
  | make (name : Option Str) (uuid : Nat) (cb : Option Str → Made)
  | register (p : Addr)
  | create (u : Nat) (name : Option Str)
  | delete (p : Option Addr)

/-- One call. (Factory.cpp:39-61, FactoryCollection.cpp:58-68, Simulator.cpp:641-652.) -/
def step (w : W) : Call → W × Res
  | .make n u cb => w.make n u cb
  | .register p => w.register p
  | .create u n => w.create u n
  | .delete p => w.delete p

/-- Calls one after the other. Of the model only (sequences of the calls of Factory.cpp:39-61,
FactoryCollection.cpp:58-68, Simulator.cpp:641-652). -/
def run (w : W) : List Call → W
  | [] => w
  | c :: cs => run (step w c).1 cs

end Verif.Tree.Make
