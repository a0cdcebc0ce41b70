import Verif.Mem.Layout
import Verif.Raise.Objects

/-!
The objects that exist while a field is published, a type is registered or a component is built,
and the object an exception names as its sender (`GetSender`, src/Xsmp/Exception.cpp:112).

An exception that leaves a constructor destroys the object under construction and what it owns so
far; a `unique_ptr` destroys its object when an exception passes.

Simplified: an address is a number that is never used again; a member that is an object of its own
(the collection of fields of a structure) has its own address.
-/
namespace Verif.Raise.Life
open Verif.Path (Str checkName)
open Verif.Pub (Uuid primUuid voidUuid Registry)
open Verif.Mem (Types TDef FDef Err itemName simpleItem)

/-- An address. (The pointers of Exception.cpp:112, 120.) -/
abbrev Addr := Nat

/-- The objects that exist, and the next address. (Of the model only: the memory behind the
`make_unique` of Publication/Field.cpp:97-136 and TypeRegistry.cpp:430.) -/
structure Heap where
  alive : List Addr
  next : Addr
  deriving DecidableEq

/-- Memory for one more object. (Publication/Field.cpp:97-136, TypeRegistry.cpp:430.) -/
def Heap.new (m : Heap) : Heap := ⟨m.next :: m.alive, m.next + 1⟩

/-- Destroys objects. (The destructors of `unique_ptr`, Publication/Field.cpp:97-136.) -/
def Heap.free (m : Heap) (ps : List Addr) : Heap :=
  ⟨m.alive.filter (fun a => decide (a ∉ ps)), m.next⟩

/-- How making a field ends: with the objects that were made (the field first), with an exception
and its sender, or never (the stack overflows). (Publication/Field.cpp:87-141.) -/
inductive Out
  | made (ps : List Addr) (m : Heap)
  | raised (e : Err) (sender : Addr) (m : Heap)
  | overflow
  deriving DecidableEq

/-- An object that owns `own` is under construction: an exception that leaves its constructor
destroys it. (Publication/Field.cpp:60-71, 435-451, 801-819.) -/
def under (own : List Addr) : Out → Out
  | .made ps m => .made (own ++ ps) m
  | .raised e s m => .raised e s (m.free own)
  | .overflow => .overflow

/-- The loop of the constructor of `ArrayField` (Publication/Field.cpp:443-450); `done` are the
objects of the items made so far, which `_fields` owns. -/
def items (make : Nat → Heap → Out) (done : List Addr) (m : Heap) : List Nat → Out
  | [] => .made done m
  | i :: is => match make i m with
    | .made ps m' => items make (done ++ ps) m' is
    | .raised e s m' => .raised e s (m'.free done)
    | .overflow => .overflow

/-- The loop of the constructor of `StructureField` (Publication/Field.cpp:809-818). The sender of
`DuplicateName` is the collection `coll` (Collection.h:211-220). -/
def members (make : FDef → Heap → Out) (coll : Addr) (names : List Str) (done : List Addr)
    (m : Heap) : List FDef → Out
  | [] => .made done m
  | fd :: fds => match make fd m with
    | .made ps m' =>
      if fd.name ∈ names then .raised .duplicateName coll ((m'.free ps).free done)
      else members make coll (fd.name :: names) (done ++ ps) m' fds
    | .raised e s m' => .raised e s (m'.free done)
    | .overflow => .overflow

/-- `Field::Create` (Publication/Field.cpp:87-141) and the constructors it calls
(Publication/Field.cpp:60-71, 435-451, 478-489, 632-640, 801-819), for a type registered with the
UUID `u`: the name is checked for `parent` (Helper.cpp:514-572), a type that no field can have is
reported for `parent` (Publication/Field.cpp:140), `String8` and `Void` for the field itself
(Publication/Field.cpp:48-57), a type that is not registered for the field that needs it
(Publication/Field.cpp:816, Publication.cpp:152). The first argument bounds the recursion. -/
def create (T : Types) : Nat → Addr → Option Str → Uuid → Heap → Out
  | 0, _, _, _, _ => .overflow
  | n + 1, parent, name, u, m =>
    match T u with
    | none => .raised .typeNotRegistered parent m
    | some (.simple l) =>
      if l.kind = .None then .raised .invalidFieldType parent m
      else under [m.next] (match checkName name with
        | .invalidObjectName => .raised .invalidObjectName parent m.new
        | .ok _ =>
          if u = primUuid .String8 ∨ u = voidUuid then .raised .incompatibleType m.next m.new
          else .made [] m.new)
    | some (.array item _ count simple) =>
      under [m.next] (match checkName name with
        | .invalidObjectName => .raised .invalidObjectName parent m.new
        | .ok _ =>
          if u = primUuid .String8 ∨ u = voidUuid then .raised .incompatibleType m.next m.new
          else match simpleItem T simple item with
            | some _ => .made [] m.new
            | none => items (fun i h => create T n m.next (some (itemName i)) item h) [] m.new
                (List.range count))
    | some (.struct fds) =>
      under [m.next] (match checkName name with
        | .invalidObjectName => .raised .invalidObjectName parent m.new
        | .ok _ =>
          under [m.new.next] (members
            (fun fd h => create T n m.next (some fd.name) fd.uuid h) m.new.next [] [] m.new.new fds))

/-- `Publication::PublishField` (Publication.cpp:144-154) for an object `parent` whose publication
has the collection `coll` with fields named `names`. -/
def publish (T : Types) (n : Nat) (parent coll : Addr) (names : List Str) (name : Option Str)
    (u : Uuid) (m : Heap) : Out :=
  match create T n parent name u m with
  | .made ps m' =>
    if name.getD [] ∈ names then .raised .duplicateName coll (m'.free ps) else .made ps m'
  | .raised e s m' => .raised e s m'
  | .overflow => .overflow

/-! ### Types -/

/-- An exception and its sender, which may be null. (Exception.cpp:93-125.) -/
abbrev Ex := YEx × Option Addr

/-- `Type::Type` (Type.cpp:28-31): the name is checked for the registry. -/
def named (reg : Addr) (name : Option Str) (rest : Option Ex) : Option Ex :=
  match checkName name with
  | .ok _ => rest
  | .invalidObjectName => some (.objectName (nullText name), some reg)

/-- `ArrayType::ArrayType` (Type.cpp:54-74) of the type at `p`. -/
def array (R : Registry) (item : Uuid) (p : Addr) : Option Ex :=
  match Pub.getType R item with
  | none => some (.notRegistered item, some p)
  | some _ =>
    if item = primUuid .String8 ∨ item = voidUuid then some (.incompatible item, some p) else none

/-- `ClassType::ClassType` (Type.cpp:200-221) of the type at `p`. -/
def cls (R : Registry) (u base : Uuid) (p : Addr) : Option Ex :=
  if base = voidUuid then none
  else if base = u then some (.incompatible base, some p)
  else match Pub.getType R base with
    | none => some (.notRegistered base, some p)
    | some (.cls ..) => none
    | some _ => some (.incompatible base, some p)

/-- The type registry with the address of itself and of its types. (TypeRegistry.h, `_types`;
TypeRegistry.cpp:416-436.) -/
structure Reg where
  reg : Registry
  self : Addr
  places : List (Uuid × Addr)
  heap : Heap

/-- The address of a type. (TypeRegistry.cpp:416-421.) -/
def Reg.addr (w : Reg) (u : Uuid) : Option Addr := (w.places.find? (fun x => x.1 == u)).map (·.2)

/-- `TypeRegistry::AddType` (TypeRegistry.cpp:423-436): `ctor` is what the constructor of the new
type raises, given its address. If it does, the memory of the type is given back. -/
def Reg.add (w : Reg) (o : Pub.Op) (u : Uuid) (name : Option Str) (ctor : Addr → Option Ex) :
    Reg × Option Ex :=
  match w.reg.find? (fun e => e.uuid == u) with
  | some e => (w, some (.alreadyRegistered (nullText name) e.uuid e.name, some w.self))
  | none =>
    let p := w.heap.next
    match ctor p with
    | some e => (⟨w.reg, w.self, w.places, w.heap.new.free [p]⟩, some e)
    | none => (⟨(Pub.step w.reg o).1, w.self, w.places ++ [(u, p)], w.heap.new⟩, none)

/-- The calls that change the registry or one of its types (TypeRegistry.cpp:438-510,
Type.cpp:96-127, 187-194). The wrong size of an enumeration is reported without a sender. -/
def Reg.step (w : Reg) (o : Pub.Op) : Reg × Option Ex :=
  match o with
  | .addFloat u n _ _ _ _ k =>
      if k = .Float32 ∨ k = .Float64 then w.add o u n (fun _ => named w.self n none)
      else (w, some (.primitive (nullText n) k, some w.self))
  | .addInteger u n _ _ k =>
      if k = .Int8 ∨ k = .Int16 ∨ k = .Int32 ∨ k = .Int64 ∨ k = .UInt8 ∨ k = .UInt16 ∨
          k = .UInt32 ∨ k = .UInt64 then
        w.add o u n (fun _ => named w.self n none)
      else (w, some (.primitive (nullText n) k, some w.self))
  | .addEnumeration u n size =>
      w.add o u n (fun _ => match Pub.enumKind size with
        | none => some (.primitive (nullText n) .None, none)
        | some _ => named w.self n none)
  | .addArray u n item _ _ _ => w.add o u n (fun p => named w.self n (array w.reg item p))
  | .addString u n _ => w.add o u n (fun _ => named w.self n none)
  | .addStructure u n => w.add o u n (fun _ => named w.self n none)
  | .addClass u n base => w.add o u n (fun p => named w.self n (cls w.reg u base p))
  | .addLiteral u _ v =>
      match Pub.getType w.reg u with
      | some (.enumeration _ lits) =>
        match lits.find? (fun l => l.1 == v) with
        | some l => (w, some (.literal l.2 v, w.addr u))
        | none => (⟨(Pub.step w.reg o).1, w.self, w.places, w.heap⟩, none)
      | _ => (⟨(Pub.step w.reg o).1, w.self, w.places, w.heap⟩, none)
  | .addField _ _ => (⟨(Pub.step w.reg o).1, w.self, w.places, w.heap⟩, none)

/-- The registry once it is built (TypeRegistry.cpp:31-366): itself and one object for each
predefined type. -/
def Reg.init : Reg where
  reg := Pub.initial
  self := 0
  places := (Pub.initial.map (·.uuid)).zip (List.range' 1 Pub.initial.length)
  heap := ⟨List.range (Pub.initial.length + 1), Pub.initial.length + 1⟩

/-- Calls one after the other. Of the model only (sequences of the calls of
TypeRegistry.cpp:438-510). -/
def Reg.run (w : Reg) : List Pub.Op → Reg
  | [] => w
  | o :: os => Reg.run (w.step o).1 os

/-! ### Components -/

/-- The constructors of the fields that a component has as members (Field.h:404-417, 573-586,
750-763, 1132-1141): the name of a field is checked for the component, a type that is not
registered is reported for the field (Field.h:109-125). `done` are the fields made so far. Simplified:
the fields inside these fields are left out. -/
def fields (comp : Addr) (known : Uuid → Bool) (done : List Addr) (m : Heap) :
    List (Option Str × Uuid) → Out
  | [] => .made done m
  | (name, u) :: rest =>
    match checkName name with
    | .invalidObjectName => .raised .invalidObjectName comp ((m.new.free [m.next]).free done)
    | .ok _ =>
      if known u then fields comp known (done ++ [m.next]) m.new rest
      else .raised .invalidFieldType m.next ((m.new.free [m.next]).free done)

/-- `make_unique` of a component (Factory.h:64-78, Component.cpp:36-40) with these fields. -/
def component (parent : Addr) (known : Uuid → Bool) (name : Option Str)
    (fs : List (Option Str × Uuid)) (m : Heap) : Out :=
  under [m.next] (match checkName name with
    | .invalidObjectName => .raised .invalidObjectName parent m.new
    | .ok _ => fields m.next known [] m.new fs)

end Verif.Raise.Life
