/-
Model of the binary persistence layer: `include/Xsmp/Persist.h`, the helpers of
`include/Xsmp/Persist/*.h`, and the file reader/writer `src/Xsmp/StorageReader.cpp`,
`src/Xsmp/StorageWriter.cpp`.

A stream is the list of the bytes that are still to be read; a byte is a natural number.
An arithmetic or enumeration value is its object representation (a list of `sizeof` bytes).
`size_t` is 8 bytes, little endian.

Not modelled: opening the file, write errors (disk full), exceptions thrown by the allocator
when a corrupted stream announces a huge size.
-/

namespace Verif.Persist

/-- The types that `Xsmp::Persist::Helper` supports (`Persist.h:79-90`, `126-139`;
`Persist/StdString.h`, `StdArray.h`, `StdPair.h`, `StdAtomic.h`, `StdVector.h`, `StdSet.h`,
`StdUnorderedSet.h`, `StdMap.h`, `StdUnorderedMap.h`, `SmpIObject.h`).
`num n`: arithmetic or enumeration type of `n` bytes. `str c`: `basic_string` whose characters
have `c` bytes. `arr n t`: `T[N]` and `std::array<T, N>`. `set (some c)`/`map (some c)`:
`std::set`/`std::map` with the comparison number `c`; `set none`/`map none`: the unordered
variants. `obj`: pointer to an `IObject`. -/
inductive Ty where
  | num (n : Nat)
  | str (c : Nat)
  | arr (n : Nat) (t : Ty)
  | pair (a b : Ty)
  | atomic (t : Ty)
  | vec (t : Ty)
  | set (cmp : Option Nat) (t : Ty)
  | map (cmp : Option Nat) (k v : Ty)
  | obj
  deriving DecidableEq

/-- C++ values of a type. A string is the list of the bytes of its characters. A set or map is
listed in the order of its elements (for the unordered containers: in an arbitrary fixed order of
all values, which makes equality of lists the equality `==` of the containers). A pointer is an
object identifier. (The types of Persist.h:79-191.) -/
@[reducible] def Ty.Val : Ty → Type
  | .num _ => List Nat
  | .str _ => List Nat
  | .arr _ t => List t.Val
  | .pair a b => a.Val × b.Val
  | .atomic t => t.Val
  | .vec t => List t.Val
  | .set _ t => List t.Val
  | .map _ k v => List (k.Val × v.Val)
  | .obj => Nat

/-- Value of a variable that was just declared (`K k;`, `Persist/StdVector.h:42`). For
arithmetic types C++ leaves it indeterminate; it is never read before it was restored. -/
def Ty.fresh : (t : Ty) → t.Val
  | .num n => List.replicate n 0
  | .str _ => []
  | .arr n t => List.replicate n t.fresh
  | .pair a b => (a.fresh, b.fresh)
  | .atomic t => t.fresh
  | .vec _ => []
  | .set _ _ => []
  | .map _ _ _ => []
  | .obj => 0

/-- What the helpers take from their surroundings: the comparisons of the ordered containers
(`Compare`; for an unordered container an order of the values that serves to list them), the iteration order of the unordered containers, and the
conversion between objects and absolute paths (`Helper::GetPath`, `IResolver::ResolveAbsolute`,
`Persist/SmpIObject.h:30-40`). -/
structure Env where
  lt : Option Nat → (t : Ty) → t.Val → t.Val → Bool
  iterSet : (t : Ty) → List t.Val → List t.Val
  iterMap : (k v : Ty) → List (k.Val × v.Val) → List (k.Val × v.Val)
  path : Nat → List Nat
  resolve : List Nat → Nat

/-- Object representation of a `size_t` (`Persist.h:82-85` for `T = size_t`). -/
def encSize (n : Nat) : List Nat :=
  [n % 256, n / 256 % 256, n / 256 ^ 2 % 256, n / 256 ^ 3 % 256,
   n / 256 ^ 4 % 256, n / 256 ^ 5 % 256, n / 256 ^ 6 % 256, n / 256 ^ 7 % 256]

/-- The `size_t` with a given object representation. (Read in Persist/StdVector.h:41-45.) -/
def decSize (bs : List Nat) : Nat := bs.foldr (fun b acc => b + 256 * acc) 0

/-- `StorageReader::Restore` (`StorageReader.cpp:50-64`): reads `n` bytes to the beginning of
`buf`. A short stream leaves the bytes that were available in the buffer and throws
`CannotRestore` (`none`). -/
def readInto (buf : List Nat) (n : Nat) (s : List Nat) : List Nat × Option (List Nat) :=
  if n ≤ s.length then (s.take n ++ buf.drop n, some (s.drop n))
  else (s ++ buf.drop s.length, none)

/-- Restore of a local `size_t` (`Persist.h:86-89`): value and remaining stream. -/
def readSize (s : List Nat) : Option (Nat × List Nat) :=
  match readInto (encSize 0) 8 s with
  | (b, some s') => some (decSize b, s')
  | (_, none) => none

/-- `basic_string::resize` on the bytes of the characters. (Persist/StdString.h:38-45.) -/
def resize (b : List Nat) (m : Nat) : List Nat := b.take m ++ List.replicate (m - b.length) 0

/-- `Helper<basic_string>::Store` (`Persist/StdString.h:28-36`): the number of characters, then
as many *bytes* of the data. -/
def storeStr (c : Nat) (v : List Nat) : List Nat :=
  let size := v.length / c
  encSize size ++ v.take size

/-- `Helper<basic_string>::Restore` (`Persist/StdString.h:38-45`). -/
def restoreStr (c : Nat) (old s : List Nat) : List Nat × Option (List Nat) :=
  match readSize s with
  | none => (old, none)
  | some (size, s) =>
    let v := resize old (size * c)
    if size = 0 then (v, some s) else readInto v size s

/-- Restore of the elements of a fixed size array, in order (`Persist.h:133-138`,
`Persist/StdArray.h`). -/
def restoreEach {α : Type} (rd : α → List Nat → α × Option (List Nat)) :
    List α → List Nat → List α × Option (List Nat)
  | [], s => ([], some s)
  | x :: xs, s =>
    match rd x s with
    | (x', some s') => let r := restoreEach rd xs s'; (x' :: r.1, r.2)
    | (x', none) => (x' :: xs, none)

/-- The loop of the dynamic containers (`Persist/StdVector.h:41-45`, `StdSet.h:40-44`,
`StdMap.h:43-48`): restore a fresh element, then insert it. -/
def restoreLoop {α : Type} (rd : List Nat → α × Option (List Nat))
    (ins : List α → α → List α) : Nat → List α → List Nat → List α × Option (List Nat)
  | 0, acc, s => (acc, some s)
  | n + 1, acc, s =>
    match rd s with
    | (k, some s') => restoreLoop rd ins n (ins acc k) s'
    | (_, none) => (acc, none)

/-- `emplace` of the associative containers, on the ordered list of the elements: an element whose
key is equivalent to one that is present is not inserted. (StdMap.h:43-48, StdSet.h:40-44.) -/
def emplace {α : Type} (lt : α → α → Bool) : List α → α → List α
  | [], x => [x]
  | y :: ys, x =>
    if lt y x then y :: emplace lt ys x
    else if lt x y then x :: y :: ys
    else y :: ys

/-- Restore of a pair: first, then second (`Persist/StdPair.h`, and the variadic
`Persist.h:117-121` for `k, v`). -/
def restorePair {α β : Type} (ra : α → List Nat → α × Option (List Nat))
    (rb : β → List Nat → β × Option (List Nat)) (old : α × β) (s : List Nat) :
    (α × β) × Option (List Nat) :=
  match ra old.1 s with
  | (a, none) => ((a, old.2), none)
  | (a, some s') => let r := rb old.2 s'; ((a, r.1), r.2)

/-- Restore of a dynamic container: `clear`, size, loop (`Persist/StdVector.h:34-46`,
`StdSet.h:34-45`, `StdMap.h:38-49`). -/
def restoreDyn {α : Type} (rd : List Nat → α × Option (List Nat))
    (ins : List α → α → List α) (s : List Nat) : List α × Option (List Nat) :=
  match readSize s with
  | none => ([], none)
  | some (size, s) => restoreLoop rd ins size [] s

/-- `Helper<T>::Store`: the bytes that are written. (Persist.h:79-191.) -/
def store (E : Env) : (t : Ty) → t.Val → List Nat
  | .num _, v => v
  | .str c, v => storeStr c v
  | .arr _ t, v => v.flatMap (store E t)
  | .pair a b, v => store E a v.1 ++ store E b v.2
  | .atomic t, v => store E t v
  | .vec t, v => encSize v.length ++ v.flatMap (store E t)
  | .set o t, v =>
    encSize v.length ++ (if o.isSome then v else E.iterSet t v).flatMap (store E t)
  | .map o k w, v =>
    encSize v.length ++ (if o.isSome then v else E.iterMap k w v).flatMap
      (fun e => store E k e.1 ++ store E w e.2)
  | .obj, v => storeStr 1 (E.path v)

/-- `Helper<T>::Restore`: new content of the target (also when an exception is thrown) and the
remaining stream, or `none` when `CannotRestore` is thrown. -/
def restore (E : Env) : (t : Ty) → t.Val → List Nat → t.Val × Option (List Nat)
  | .num n, old, s => readInto old n s
  | .str c, old, s => restoreStr c old s
  | .arr _ t, old, s => restoreEach (restore E t) old s
  | .pair a b, old, s => restorePair (restore E a) (restore E b) old s
  | .atomic t, old, s =>
    -- `Persist/StdAtomic.h:32-37`: through a local variable
    match restore E t t.fresh s with
    | (v, some s') => (v, some s')
    | (_, none) => (old, none)
  | .vec t, _, s => restoreDyn (restore E t t.fresh) (fun l x => l ++ [x]) s
  | .set o t, _, s => restoreDyn (restore E t t.fresh) (emplace (E.lt o t)) s
  | .map o k w, _, s =>
    restoreDyn (restorePair (restore E k) (restore E w) (k.fresh, w.fresh))
      (emplace (fun a b => E.lt o k a.1 b.1)) s
  | .obj, old, s =>
    -- `Persist/SmpIObject.h:34-40`: through a local string
    match restoreStr 1 [] s with
    | (p, some s') => (E.resolve p, some s')
    | (_, none) => (old, none)

/-- A value of some type. Of the model only (the arguments of Persist.h:178-191). -/
abbrev Dyn := (t : Ty) × t.Val

/-- `Persist::Store(simulator, writer, args...)` (`Persist.h:101-105`). -/
def storeAll (E : Env) : List Dyn → List Nat
  | [] => []
  | x :: xs => store E x.1 x.2 ++ storeAll E xs

/-- `Persist::Restore(simulator, reader, args...)` (`Persist.h:117-121`). -/
def restoreAll (E : Env) : List Dyn → List Nat → List Dyn × Option (List Nat)
  | [], s => ([], some s)
  | x :: xs, s =>
    match restore E x.1 x.2 s with
    | (v, some s') => let r := restoreAll E xs s'; (⟨x.1, v⟩ :: r.1, r.2)
    | (v, none) => (⟨x.1, v⟩ :: xs, none)

/-- One argument of the typed `Persist::Store(simulator, sender, writer, args...)`
(`Persist.h:156-160`): the hash of the type, then the value. `hash` is
`typeid(T).hash_code()`. -/
def storeTyped1 (E : Env) (hash : Ty → Nat) (x : Dyn) : List Nat :=
  encSize (hash x.1) ++ store E x.1 x.2

/-- The typed `Persist::Store` of several values (`Persist.h:156-160`). -/
def storeTyped (E : Env) (hash : Ty → Nat) (xs : List Dyn) : List Nat :=
  xs.flatMap (storeTyped1 E hash)

/-- One argument of the typed `Persist::Restore` (`Persist.h:182-189`). -/
def restoreTyped1 (E : Env) (hash : Ty → Nat) (x : Dyn) (s : List Nat) :
    Dyn × Option (List Nat) :=
  match readSize s with
  | none => (x, none)
  | some (h, s') =>
    if h ≠ hash x.1 then (x, none)
    else let r := restore E x.1 x.2 s'; (⟨x.1, r.1⟩, r.2)

/-- The typed `Persist::Restore(simulator, sender, reader, args...)` (`Persist.h:178-191`). -/
def restoreTyped (E : Env) (hash : Ty → Nat) : List Dyn → List Nat →
    List Dyn × Option (List Nat)
  | [], s => ([], some s)
  | x :: xs, s =>
    match restoreTyped1 E hash x s with
    | (y, some s') => let r := restoreTyped E hash xs s'; (y :: r.1, r.2)
    | (y, none) => (y :: xs, none)

end Verif.Persist
