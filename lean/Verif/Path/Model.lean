/-
Model of object names and paths: `checkName`, `GetNextSegment`, `GetPath` and the
`Resolve` overloads of `src/Xsmp/Helper.cpp`, and `src/Xsmp/Services/XsmpResolver.cpp`.

C strings are lists of characters without the terminating NUL (a NUL inside the list is an
ordinary character here; a C string has none). `isalpha`, `isalnum`, `isdigit`, `isspace`
are those of the "C" locale. Objects are the nodes of a tree and are named by their
address, the list of child indices from the object up to the root. The tree of a component
contains its components directly: the parent of a component is the composite, not the
container (`Container.cpp:161-179` checks it), and containers are childless nodes.
Factories (whose parent is the simulator) and components used as a parent outside the
tree are left out.
-/
namespace Verif.Path

/-- Characters of a `Smp::String8` (Helper.cpp:98-141). -/
abbrev Str := List Char

/-! ### checkName -/

/-- Outcome of `checkName`: the accepted name or `InvalidObjectName`. (Helper.cpp:514-572.) -/
inductive Checked
  | ok (s : Str)
  | invalidObjectName
  deriving DecidableEq, Repr

/-- `std::isalnum(c) || c == '_'` (Helper.cpp:528). -/
def isWord (c : Char) : Bool := c.isAlpha || c.isDigit || c == '_'

/-- `checkName` (Helper.cpp:514-572); `none` is the null pointer. -/
def checkName : Option Str → Checked
  | none => .invalidObjectName
  | some s =>
    match s with
    | [] => .invalidObjectName
    | c :: rest =>
      if c.isAlpha then
        if rest.dropWhile isWord = [] then .ok s else .invalidObjectName
      else if c = '[' then
        match rest with
        | [] => .invalidObjectName
        | d :: rest =>
          if d.isDigit then
            match rest.dropWhile Char.isDigit with
            | ']' :: tail => if tail = [] then .ok s else .invalidObjectName
            | _ => .invalidObjectName
          else .invalidObjectName
      else .invalidObjectName

/-! ### Segments of a path -/

/-- A segment and whether the last separator skipped before it is `'.'`. The code only
distinguishes `'.'` from `'/'` and from no separator at all (Helper.cpp:415). -/
abbrev Seg := Bool × Str

/-- First loop of `GetNextSegment` (Helper.cpp:102-114): skips `'/'` and any `'.'` that is
not followed by another `'.'`; the flag tells if the last character skipped is `'.'`. -/
def skip : Bool → Str → Bool × Str
  | _, '/' :: p => skip false p
  | d, '.' :: p => if p.head? = some '.' then (d, '.' :: p) else skip true p
  | d, p => (d, p)

/-- Second loop of `GetNextSegment` (Helper.cpp:119-140): characters up to a separator or
an opening bracket; two or more dots belong to the segment and end it. -/
def scan : Str → Str × Str
  | [] => ([], [])
  | '.' :: '.' :: p => ('.' :: '.' :: p.takeWhile (· == '.'), p.dropWhile (· == '.'))
  | '.' :: p => ([], '.' :: p)
  | '/' :: p => ([], '/' :: p)
  | '[' :: p => ([], '[' :: p)
  | c :: p => (c :: (scan p).1, (scan p).2)

/-- The segment starting at the current position (Helper.cpp:115-140): an opening bracket
in front is part of it. -/
def segment : Str → Str × Str
  | '[' :: p => ('[' :: (scan p).1, (scan p).2)
  | p => scan p

/-- Successive results of `GetNextSegment` (Helper.cpp:98-141), at most `n`, until the
empty segment. -/
def segmentsN : Nat → Str → List Seg
  | 0, _ => []
  | n + 1, p =>
    match skip false p with
    | (_, []) => []
    | (d, q) => (d, (segment q).1) :: segmentsN n (segment q).2

/-- All segments of a path. The `Resolve` functions pass the rest of the string along and
cut one segment each (Helper.cpp:340-349, 381-394), so they see this list. -/
def segments (p : Str) : List Seg := segmentsN p.length p

/-! ### Objects -/

/-- What the dynamic casts of `Resolve` and `GetPath` distinguish. `simpleField` is any field
without nested fields, `anonArray` an array created by `IPublication::PublishArray`.
(Helper.cpp:143-227, 294-319.) -/
inductive Kind
  | simulator | component | container | reference
  | sink | source | entryPoint | operation | property | failure | parameter
  | simpleField | structField | arrayField | anonArray
  deriving DecidableEq, Repr

/-- `dynamic_cast<IField *>`. A failure is a field with the `failure` annotation
(Field.h:340-392); it is taken to be of a simple type. -/
def Kind.isField : Kind → Bool
  | .simpleField | .structField | .arrayField | .anonArray | .failure => true
  | _ => false

/-- `dynamic_cast<IArrayField *>`. (Helper.cpp:294-319, 350-378.) -/
def Kind.isArray : Kind → Bool
  | .arrayField | .anonArray => true
  | _ => false

/-- An object with its name and the objects it gives access to. (What `GetName`, `GetFields`,
`GetContainers`… give, Helper.cpp:143-227.) -/
inductive Node
  | mk (kind : Kind) (name : Str) (children : List Node)

/-- The kind of an object (the casts of Helper.cpp:180-227). -/
def Node.kind : Node → Kind | mk k _ _ => k
/-- `GetName` (used in Helper.cpp:294-319). -/
def Node.name : Node → Str | mk _ s _ => s
/-- The objects an object gives access to (Helper.cpp:143-227). -/
def Node.children : Node → List Node | mk _ _ l => l

/-- Address of an object: child indices, the last step first; `[]` is the root. Of the model only
(the pointers of Helper.cpp:294-319). -/
abbrev Addr := List Nat

/-- The object at an address. Of the model only (the pointers of Helper.cpp:294-319). -/
def get (T : Node) : Addr → Option Node
  | [] => some T
  | i :: p => (get T p).bind (·.children[i]?)

/-- The kind of the object at an address. Of the model only (the casts of Helper.cpp:294-319). -/
def kindAt (T : Node) (a : Addr) : Option Kind := (get T a).map Node.kind
/-- The name of the object at an address. Of the model only (`GetName` in Helper.cpp:294-319). -/
def nameAt (T : Node) (a : Addr) : Str := ((get T a).map Node.name).getD []

/-- The object that the children of the object at this address get as parent: the object
itself, except that `AnonymousArrayField` passes its own parent on to its items
(Publication/Field.cpp:203-208, Publication.cpp:149-187; compare line 409). -/
def scope (T : Node) : Addr → Addr
  | [] => []
  | i :: p => if kindAt T (i :: p) = some .anonArray then scope T p else i :: p

/-- `IObject::GetParent`; the simulator has none (Simulator.cpp:158). -/
def parent (T : Node) : Addr → Option Addr
  | [] => none
  | _ :: p => some (scope T p)

/-- Path of an object and path of the object its children get as parent. (Helper.cpp:294-319.) -/
def paths (T : Node) : Addr → Str × Str
  | [] => (['/'], ['/'])
  | i :: p =>
    let up := (paths T p).2
    let own :=
      if scope T p = [] then up ++ nameAt T (i :: p)
      else if kindAt T (i :: p) = some .component then up ++ '/' :: nameAt T (i :: p)
      else if ((kindAt T (scope T p)).map Kind.isArray) = some true then
        up ++ nameAt T (i :: p)
      else up ++ '.' :: nameAt T (i :: p)
    (own, if kindAt T (i :: p) = some .anonArray then up else own)

/-- `GetPath` (Helper.cpp:294-319): the recursion goes through `GetParent`. The root of
the tree is the simulator. -/
def getPath (T : Node) (a : Addr) : Str := (paths T a).1

/-! ### Resolve -/

/-- First child of one of the given kinds with that name (`Collection::at(name)`,
`GetEventSink(name)`, ... all return the first match). (Helper.cpp:143-227.) -/
def child (n : Node) (ok : Kind → Bool) (s : Str) : Option Nat :=
  n.children.findIdx? (fun c => ok c.kind && c.name == s)

/-- `std::isspace`. (Used by `std::stoll` in Helper.cpp:357-377.) -/
def isSpace (c : Char) : Bool :=
  c == ' ' || (9 ≤ c.toNat && c.toNat ≤ 13)

/-- `std::stoll(s, &pos)`: optional white space, optional sign, at least one digit; `none` is
`invalid_argument` or `out_of_range`. The result is the value and `pos`. (Used in
Helper.cpp:357-377.) -/
def stoll (s : Str) : Option (Int × Nat) :=
  let ws := s.takeWhile isSpace
  let s1 := s.dropWhile isSpace
  let neg := s1.head? = some '-'
  let signed := decide (s1.head? = some '-') || decide (s1.head? = some '+')
  let s2 := if signed then s1.drop 1 else s1
  let ds := s2.takeWhile Char.isDigit
  if ds = [] then none
  else
    let m : Int := Nat.ofDigitChars 10 ds 0
    let v := if neg then -m else m
    if -9223372036854775808 ≤ v ∧ v ≤ 9223372036854775807 then
      some (v, ws.length + (if signed then 1 else 0) + ds.length)
    else none

/-- Index designated by a segment in an array of that size (Helper.cpp:357-377). The
conversions to and from `UInt64` are exact for sizes below 2^63; a negative sum becomes a
huge index, which is out of range. -/
def arrayIndex (s : Str) (size : Nat) : Option Nat :=
  if s.head? = some '[' ∧ s.getLast? = some ']' then
    match stoll (s.drop 1) with
    | none => none
    | some (v, pos) =>
      if pos + 2 = s.length then
        let index := if v < 0 then (size : Int) + v else v
        if 0 ≤ index ∧ index < size then some index.toNat else none
      else none
  else none

/-- The static type with which `Resolve` is called: `IObject *` or `IField *`. (Helper.cpp:340,
381.) -/
inductive St
  | obj | field
  deriving DecidableEq, Repr

/-- What the resolution does not find in the tree: the components an aggregate refers to, in the
order of its references (`IReference::GetComponent`). (Helper.cpp:154-164, 229-245.) -/
abbrev Refs := Addr → List Addr

/-- First component with that name among the references (Helper.cpp:154-164). -/
def refNamed (T : Node) (refs : Refs) (a : Addr) (s : Str) : Option Addr :=
  (refs a).find? (fun b => nameAt T b == s)

/-- `a`, or `b` if it is null. (The successive tests of Helper.cpp:180-227.) -/
def orElse (a b : Option Addr) : Option Addr :=
  match a with
  | some x => some x
  | none => b

/-- `Resolve(IObject *, path)` (Helper.cpp:381-419, with 143-245) and
`Resolve(IField *, path)` (Helper.cpp:340-379) on the segments of the path. -/
def resolve (T : Node) (refs : Refs) : St → Addr → List Seg → Option Addr
  | _, a, [] => some a
  | st, a, (dot, s) :: rest =>
    if s = ['.', '.'] then
      match parent T a with
      | none => none
      | some p => resolve T refs .obj p rest
    else
      match get T a with
      | none => none
      | some n =>
        match st with
        | .field =>
          -- Helper.cpp:350-378
          if n.kind = .structField then
            match child n Kind.isField s with
            | some i => resolve T refs .field (i :: a) rest
            | none => none
          else if n.kind.isArray then
            match arrayIndex s n.children.length with
            | some i => resolve T refs .field (i :: a) rest
            | none => none
          else none
        | .obj =>
          -- Helper.cpp:397-410
          let under : Option Nat :=
            match s with
            | '_' :: s' =>
              match child n (· == .container) s' with
              | some i => some i
              | none => child n (· == .reference) s'
            | _ => none
          match under with
          | some i => resolve T refs .obj (i :: a) rest
          | none =>
            -- Helper.cpp:180-227
            let first : Option Addr :=
              match child n (· == .sink) s with
              | some i => resolve T refs .obj (i :: a) rest
              | none =>
              match child n (· == .source) s with
              | some i => resolve T refs .obj (i :: a) rest
              | none =>
              match child n (· == .entryPoint) s with
              | some i => resolve T refs .obj (i :: a) rest
              | none =>
              orElse
                (match child n (· == .operation) s with
                | some i => resolve T refs .obj (i :: a) rest
                | none =>
                match child n (· == .property) s with
                | some i => resolve T refs .obj (i :: a) rest
                | none => none)
                (match child n (· == .failure) s with
                | some i => resolve T refs .obj (i :: a) rest
                | none =>
                -- the cast to IComponent; then the cast to IField: the segment is lost
                if n.kind = .component then
                  match child n Kind.isField s with
                  | some i => resolve T refs .field (i :: a) rest
                  | none => none
                else if n.kind.isField then resolve T refs .field a rest
                else none)
            orElse first
              (if dot then none
              else
                -- Helper.cpp:229-245
                orElse
                  (match child n (· == .component) s with
                  | some i => resolve T refs .obj (i :: a) rest
                  | none => none)
                  (match refNamed T refs a s with
                  | some b => resolve T refs .obj b rest
                  | none => none))

/-- `Resolve(object, path)` from an object known as `IObject *`. (Helper.cpp:381-419.) -/
def Resolve (T : Node) (refs : Refs) (a : Addr) (path : Str) : Option Addr :=
  resolve T refs .obj a (segments path)

/-- `XsmpResolver::ResolveAbsolute` (XsmpResolver.cpp:24-30); `none` is a null path. -/
def resolveAbsolute (T : Node) (refs : Refs) : Option Str → Option Addr
  | some ('/' :: p) => Resolve T refs [] ('/' :: p)
  | _ => none

/-- `XsmpResolver::ResolveRelative` (XsmpResolver.cpp:32-40). -/
def resolveRelative (T : Node) (refs : Refs) (path : Option Str) (sender : Addr) :
    Option Addr :=
  match path with
  | none => none
  | some p => if p.head? = some '/' then none else Resolve T refs sender p

end Verif.Path
