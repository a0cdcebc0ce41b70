import Verif.Pub.Types

/-!
Fields published with a registered type: which fields `Xsmp::Publication::Field::Create`
(src/Xsmp/Publication/Field.cpp:87-141) makes, and at which addresses.

Simplified: addresses are integers (no end of the address space); a type is looked up by its UUID
where the code follows a pointer; descriptions and parents are left out. A class is a structure
(`ClassType` derives from `StructureType`; the fields of its base class are not looked at).
-/
namespace Verif.Mem
open Verif.Any (Kind)
open Verif.Path (Str checkName)
open Verif.Pub (Uuid primUuid voidUuid)

/-- `view`, `state`, `input` and `output` of a field (Publication/Field.h:96-99). -/
structure Flags where
  view : Nat
  state : Bool
  input : Bool
  output : Bool
  deriving DecidableEq

/-- `StructureType::Field` (Publication/Type.h). (Type.cpp:182-198.) -/
structure FDef where
  name : Str
  uuid : Uuid
  offset : Int
  flags : Flags
  deriving DecidableEq

/-- What a simple field needs of its type: the kind, the literals if it is an enumeration, the
length if it is a string. (Publication/Field.cpp:87-141.) -/
structure Leaf where
  kind : Kind
  lits : Option (List Int)
  len : Int
  deriving DecidableEq

/-- The types of Publication/Type.cpp, as far as fields depend on them. -/
inductive TDef
  /-- `SimpleType` (Type.cpp:86-93); `PTK_None` is the primitive type Void -/
  | simple (l : Leaf)
  /-- `ArrayType` (Type.cpp:54-84) -/
  | array (item : Uuid) (itemSize count : Nat) (simple : Bool)
  /-- `StructureType` (Type.cpp:182-198) -/
  | struct (fields : List FDef)
  deriving DecidableEq

/-- The type registry (`TypeRegistry::GetType`, TypeRegistry.cpp:416-421). -/
abbrev Types := Uuid → Option TDef

/-- The fields of Publication/Field.h: `SimpleField` at an address, `SimpleArrayField`,
`ArrayField` with its items, `StructureField` with the names and fields of its collection. (The
dataflow variants differ by `output` only.) (Publication/Field.cpp:87-141.) -/
inductive PTree
  | simple (l : Leaf) (addr : Int) (fl : Flags)
  | sarray (l : Leaf) (addr : Int) (itemSize count : Nat) (fl : Flags)
  | array (items : List PTree) (fl : Flags)
  | struct (names : List Str) (items : List PTree) (fl : Flags)

/-- The exceptions; `overflow`: the recursion does not end (the stack overflows). Of the model
only (the outcomes of Publication/Field.cpp:87-141). -/
inductive Err
  | invalidFieldType | invalidObjectName | incompatibleType | typeNotRegistered | duplicateName
  | overflow
  deriving DecidableEq

/-- Runs a loop whose body may raise an exception, and collects the results. (The loops of
Publication/Field.cpp:435-451, 809-818.) -/
def mapE {α β : Type} (f : α → Except Err β) : List α → Except Err (List β)
  | [] => .ok []
  | x :: xs => match f x with
    | .error e => .error e
    | .ok y => match mapE f xs with
      | .error e => .error e
      | .ok ys => .ok (y :: ys)

/-- The name of an item, `"[" + std::to_string(i) + "]"` (Publication/Field.cpp:447). -/
def itemName (i : Nat) : Str := '[' :: (Nat.toDigits 10 i ++ [']'])

/-- The loop of the constructor of `StructureField` (Publication/Field.cpp:809-818): `create`
makes one field; `done` are the names already in `_fields`, whose `Add` refuses a second field
with one of them (`ContainingCollection::Add`, Collection.h:211-220). -/
def createFields (create : FDef → Except Err PTree) (done : List Str) :
    List FDef → Except Err (List PTree)
  | [] => .ok []
  | fd :: fds => match create fd with
    | .error e => .error e
    | .ok t => if fd.name ∈ done then .error .duplicateName
      else match createFields create (fd.name :: done) fds with
        | .error e => .error e
        | .ok ts => .ok (t :: ts)

/-- `array->IsSimpleArray() && array->GetItemType()->GetPrimitiveTypeKind() != PTK_None`
(Publication/Field.cpp:106-108): the item type if so. -/
def simpleItem (T : Types) (simple : Bool) (item : Uuid) : Option Leaf :=
  match simple, T item with
  | true, some (.simple l) => if l.kind = .None then none else some l
  | _, _ => none

/-- `Field::Create` (Publication/Field.cpp:87-141) and the constructors it calls
(Publication/Field.cpp:60-71, 435-451, 478-489, 632-640, 801-819), for a type registered with
the UUID `u`. The first argument bounds the depth of the recursion. -/
def create (T : Types) : Nat → Option Str → Uuid → Int → Flags → Except Err PTree
  | 0, _, _, _, _ => .error .overflow
  | n + 1, name, u, addr, fl =>
    match T u with
    | none => .error .typeNotRegistered
    | some (.simple l) =>
      if l.kind = .None then .error .invalidFieldType
      else match checkName name with
        | .invalidObjectName => .error .invalidObjectName
        | .ok _ =>
          if u = primUuid .String8 ∨ u = voidUuid then .error .incompatibleType
          else .ok (.simple l addr fl)
    | some (.array item itemSize count simple) =>
      match checkName name with
      | .invalidObjectName => .error .invalidObjectName
      | .ok _ =>
        if u = primUuid .String8 ∨ u = voidUuid then .error .incompatibleType
        else match simpleItem T simple item with
          | some l => .ok (.sarray l addr itemSize count fl)
          | none =>
            match mapE (fun (i : Nat) => create T n (some (itemName i)) item (addr + i * itemSize) fl)
                (List.range count) with
            | .error e => .error e
            | .ok ts => .ok (.array ts fl)
    | some (.struct fds) =>
      match checkName name with
      | .invalidObjectName => .error .invalidObjectName
      | .ok _ =>
        match createFields (fun fd => create T n (some fd.name) fd.uuid (addr + fd.offset)
            ⟨fd.flags.view, fd.flags.state, fd.flags.input || fl.input, fd.flags.output || fl.output⟩)
            [] fds with
        | .error e => .error e
        | .ok ts => .ok (.struct (fds.map (·.name)) ts fl)

/-- A step from a field to one inside. Of the model only (`GetItem` and `GetField`,
Publication/Field.cpp:455-460, 841-843). -/
inductive Step
  | item (i : Nat)
  | field (name : Str)
  deriving DecidableEq

/-- `GetFields()->at(name)` (Collection.h): the field of that name. (Collection.h:211-220.) -/
def lookup (name : Str) : List Str → List PTree → Option PTree
  | s :: ss, t :: ts => if s = name then some t else lookup name ss ts
  | _, _ => none

/-- The simple field, or the item of an array of simple values, reached by `GetItem` and
`GetField` (Publication/Field.cpp:455-460, 505-508, 841-843): its type, address and flags. -/
def PTree.find : List Step → PTree → Option (Leaf × Int × Flags)
  | [], .simple l a fl => some (l, a, fl)
  | [.item i], .sarray l a itemSize count fl =>
      if i < count then some (l, a + i * itemSize, fl) else none
  | .item i :: p, .array ts _ => match ts[i]? with
    | some t => t.find p
    | none => none
  | .field s :: p, .struct ns ts _ => match lookup s ns ts with
    | some t => t.find p
    | none => none
  | _, _ => none

end Verif.Mem
