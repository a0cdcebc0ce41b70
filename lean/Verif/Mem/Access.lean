import Verif.Mem.Layout
import Verif.Mem.Float
import Verif.Field.Net

/-!
Reading, writing, storing and restoring published fields, in the memory they are published at
(src/Xsmp/Publication/Field.cpp).

Simplified: memory is a function from addresses to bytes, without an end; numbers are
little-endian (as on the supported machines). A `Bool` whose byte is neither 0 nor 1, and a string
without terminator, are undefined behaviour when read.
-/
namespace Verif.Mem
open Verif.Any (Kind Fl Val Any Out wrap)
open Verif.Float (f32 f64)
open Verif.Field (coerce)

/-- A byte of memory (addressed in Publication/Field.cpp:661-799). -/
abbrev Byte := BitVec 8
/-- The memory the fields refer to (addressed in Publication/Field.cpp:661-799). -/
abbrev Memory := Int → Byte

/-- The `n` bytes at `a`. (Publication/Field.cpp:706-742.) -/
def read (m : Memory) (a : Int) (n : Nat) : List Byte := (List.range n).map fun (i : Nat) => m (a + i)

/-- Memory after the bytes have been written at `a`. (Publication/Field.cpp:744-799.) -/
def write (m : Memory) (a : Int) (bs : List Byte) : Memory :=
  fun x => if a ≤ x ∧ x < a + bs.length then bs.getD (x - a).toNat 0 else m x

/-- The low `w` bytes of a number, least significant first. (The objects accessed in
Publication/Field.cpp:744-799.) -/
def leBytes : Nat → Nat → List Byte
  | 0, _ => []
  | w + 1, n => BitVec.ofNat 8 n :: leBytes w (n / 256)

/-- The number with these bytes. (The objects accessed in Publication/Field.cpp:706-742.) -/
def leNat : List Byte → Nat
  | [] => 0
  | b :: bs => b.toNat + 256 * leNat bs

/-- The characters before the terminator; `none` if there is none. (Publication/Field.cpp:39-46,
706-742.) -/
def cstring : List Byte → Option (List Nat)
  | [] => none
  | b :: bs => if b = 0 then some [] else (cstring bs).map (b.toNat :: ·)

/-- `SimpleField::GetValue` (Publication/Field.cpp:706-742) and `SimpleArrayField::GetValue`
(Publication/Field.cpp:505-545), for the value at `a`. The string is copied by the constructor of
`AnySimple`. -/
def getValue (m : Memory) (l : Leaf) (a : Int) : Out Any :=
  match l.kind with
  | .None => .throw
  | .Bool => if m a = 0 then .ok ⟨.Bool, .bool false⟩ else if m a = 1 then .ok ⟨.Bool, .bool true⟩ else .ub
  | .Char8 => .ok ⟨.Char8, .char (m a).toNat⟩
  | .Float32 => .ok ⟨.Float32, .float (f32.decode (leNat (read m a 4)))⟩
  | .Float64 => .ok ⟨.Float64, .float (f64.decode (leNat (read m a 8)))⟩
  | .String8 => match cstring (read m a (l.len + 1).toNat) with
    | some s => .ok ⟨.String8, .str (some s)⟩
    | none => .ub
  | .Int8 => .ok ⟨.Int8, .int (wrap .i8 (leNat (read m a 1)))⟩
  | .Int16 => .ok ⟨.Int16, .int (wrap .i16 (leNat (read m a 2)))⟩
  | .Int32 => .ok ⟨.Int32, .int (wrap .i32 (leNat (read m a 4)))⟩
  | .Int64 => .ok ⟨.Int64, .int (wrap .i64 (leNat (read m a 8)))⟩
  | .Duration => .ok ⟨.Duration, .int (wrap .i64 (leNat (read m a 8)))⟩
  | .DateTime => .ok ⟨.DateTime, .int (wrap .i64 (leNat (read m a 8)))⟩
  | .UInt8 => .ok ⟨.UInt8, .int (wrap .u8 (leNat (read m a 1)))⟩
  | .UInt16 => .ok ⟨.UInt16, .int (wrap .u16 (leNat (read m a 2)))⟩
  | .UInt32 => .ok ⟨.UInt32, .int (wrap .u32 (leNat (read m a 4)))⟩
  | .UInt64 => .ok ⟨.UInt64, .int (wrap .u64 (leNat (read m a 8)))⟩

/-- The bytes an assignment `*static_cast<T *>(address) = value` writes; for a string those of
`CopyString` (Helper.cpp:453-464), which leaves the rest of the buffer as it is. -/
def encode (k : Kind) : Val → List Byte
  | .none => []
  | .bool b => [if b then 1 else 0]
  | .char c => [BitVec.ofNat 8 c]
  | .int z => match k with
    | .Int8 | .UInt8 => leBytes 1 (z % 256).toNat
    | .Int16 | .UInt16 => leBytes 2 (z % 65536).toNat
    | .Int32 | .UInt32 => leBytes 4 (z % 4294967296).toNat
    | _ => leBytes 8 (z % 18446744073709551616).toNat
  | .float x => if k = .Float32 then leBytes 4 (f32.encode x) else leBytes 8 (f64.encode x)
  | .str s => (s.getD []).map (BitVec.ofNat 8) ++ [0]

/-- How a call ends: normally, with an exception (and the memory it leaves), or with undefined
behaviour. Of the model only (the outcomes of Publication/Field.cpp:505-607, 706-799). -/
inductive Res
  | ok (m : Memory)
  | raised (m : Memory)
  | ub

/-- `isInvalidEnumerationValue` (Publication/Field.cpp:39-46), consulted for kind `Int32` only
(Publication/Field.cpp:759-764). -/
def refused (l : Leaf) (v : Val) : Bool :=
  match l.kind, l.lits, v with
  | .Int32, some ls, .int x => !ls.contains x
  | _, _, _ => false

/-- `SimpleField::SetValue` (Publication/Field.cpp:744-799) and `SimpleArrayField::SetValue`
(Publication/Field.cpp:547-607), for the value at `a`. `check`: the literals of an enumeration
are looked at (`GetType()` of an array is not an enumeration). `GetLength()` of a string type may
be negative; it is converted to `std::size_t`, and the copy is not bounded by the buffer. -/
def setValue (m : Memory) (l : Leaf) (check : Bool) (a : Int) (v : Any) : Res :=
  if l.kind = .String8 ∧ l.len < 0 then .ub
  else match coerce Float.narrow l.kind l.len.toNat v with
    | .throw => .raised m
    | .ub => .ub
    | .ok w => if check && refused l w then .raised m else .ok (write m a (encode l.kind w))

/-- The path ends at a simple field, not at an item of an array of simple values. Of the model
only (Publication/Field.cpp:505-607 against 706-799). -/
def PTree.simpleAt : List Step → PTree → Bool
  | [], .simple .. => true
  | .item i :: p, .array ts _ => match ts[i]? with
    | some t => t.simpleAt p
    | none => false
  | .field s :: p, .struct ns ts _ => match lookup s ns ts with
    | some t => t.simpleAt p
    | none => false
  | _, _ => false

/-- `GetValue` of the field, or item, at a path (`none`: there is none; `GetItem` or `GetValue`
raises `InvalidArrayIndex`, `GetField` returns null). (Publication/Field.cpp:505-545, 706-742.) -/
def PTree.get (m : Memory) (t : PTree) (p : List Step) : Option (Out Any) :=
  match t.find p with
  | some (l, a, _) => some (getValue m l a)
  | none => none

/-- `SetValue` of the field, or item, at a path. (Publication/Field.cpp:547-607, 744-799.) -/
def PTree.set (m : Memory) (t : PTree) (p : List Step) (v : Any) : Res :=
  match t.find p with
  | some (l, a, _) => setValue m l (t.simpleAt p) a v
  | none => .raised m

/-- `SimpleField::GetSize` (Publication/Field.cpp:661-700). -/
def Leaf.size (l : Leaf) : Nat :=
  match l.kind with
  | .None => 0
  | .Bool | .Char8 | .Int8 | .UInt8 => 1
  | .Int16 | .UInt16 => 2
  | .Int32 | .UInt32 | .Float32 => 4
  | .Int64 | .UInt64 | .Float64 | .Duration | .DateTime => 8
  | .String8 => ((l.len + 1) % 18446744073709551616).toNat

mutual
/-- `Store` of the fields (Publication/Field.cpp:470-476, 497-501, 651-659, 829-835): the bytes
written. -/
def PTree.store (m : Memory) : PTree → List Byte
  | .simple l a fl => if fl.state then read m a l.size else []
  | .sarray _ a itemSize count fl => if fl.state then read m a (itemSize * count) else []
  | .array ts fl => if fl.state then storeAll m ts else []
  | .struct _ ts fl => if fl.state then storeAll m ts else []
/-- The loop over the fields inside (Publication/Field.cpp:462-468, 491-495). -/
def storeAll (m : Memory) : List PTree → List Byte
  | [] => []
  | t :: ts => t.store m ++ storeAll m ts
end

/-- `reader->Restore(address, size)` (StorageReader.cpp:50-64): the bytes are read; too few are an
exception (what has been written by then is not modelled). -/
def restoreBytes (m : Memory) (a : Int) (n : Nat) (bs : List Byte) : Option (Memory × List Byte) :=
  if n ≤ bs.length then some (write m a (bs.take n), bs.drop n) else none

mutual
/-- `Restore` of the fields (Publication/Field.cpp:462-468, 491-495, 641-649, 821-827): the memory
after it and the bytes not read; `none`: an exception. -/
def PTree.restore (m : Memory) (bs : List Byte) : PTree → Option (Memory × List Byte)
  | .simple l a fl => if fl.state then restoreBytes m a l.size bs else some (m, bs)
  | .sarray _ a itemSize count fl => if fl.state then restoreBytes m a (itemSize * count) bs else some (m, bs)
  | .array ts fl => if fl.state then restoreAll m bs ts else some (m, bs)
  | .struct _ ts fl => if fl.state then restoreAll m bs ts else some (m, bs)
/-- The loop over the fields inside (Publication/Field.cpp:470-476, 497-501). -/
def restoreAll (m : Memory) (bs : List Byte) : List PTree → Option (Memory × List Byte)
  | [] => some (m, bs)
  | t :: ts => match t.restore m bs with
    | some (m', bs') => restoreAll m' bs' ts
    | none => none
end

end Verif.Mem
