import Verif.Mem.Layout
import Verif.Path.Spec

/-! What the property about published fields speaks about (C83). -/
namespace Verif.Mem
open Verif.Any (Kind)
open Verif.Path (Str Grammar)
open Verif.Pub (Uuid primUuid voidUuid)

/-- The simple parts of a variable of type `u`: `Part T u p l o` says that the part reached by the
path `p` has the simple type `l` and lies `o` bytes after the beginning of the variable. -/
inductive Part (T : Types) : Uuid → List Step → Leaf → Int → Prop
  | simple {u l} (h : T u = some (.simple l)) (hk : l.kind ≠ .None) : Part T u [] l 0
  | item {u item size count s i p l o} (h : T u = some (.array item size count s)) (hi : i < count)
      (hp : Part T item p l o) : Part T u (.item i :: p) l (i * size + o)
  | field {u fds fd p l o} (h : T u = some (.struct fds)) (hf : fd ∈ fds)
      (hp : Part T fd.uuid p l o) : Part T u (.field fd.name :: p) l (fd.offset + o)

/-- The annotations of a part, for a variable published with `fl`: those of the innermost
structure field; a part of an input (output) is an input (output). -/
inductive Annotated (T : Types) : Uuid → Flags → List Step → Flags → Prop
  | here {u fl} : Annotated T u fl [] fl
  | item {u item size count s i p fl fl'} (h : T u = some (.array item size count s))
      (hp : Annotated T item fl p fl') : Annotated T u fl (.item i :: p) fl'
  | field {u fds fd p fl fl'} (h : T u = some (.struct fds)) (hf : fd ∈ fds)
      (hp : Annotated T fd.uuid ⟨fd.flags.view, fd.flags.state, fd.flags.input || fl.input,
        fd.flags.output || fl.output⟩ p fl') : Annotated T u fl (.field fd.name :: p) fl'

/-- The number of bytes of a simple value (the primitive types of SMP; a string has a
terminator). -/
def Leaf.width (l : Leaf) : Nat :=
  match l.kind with
  | .None => 0
  | .Bool | .Char8 | .Int8 | .UInt8 => 1
  | .Int16 | .UInt16 => 2
  | .Int32 | .UInt32 | .Float32 => 4
  | .Int64 | .UInt64 | .Float64 | .Duration | .DateTime => 8
  | .String8 => (l.len + 1).toNat

/-- The sizes and offsets registered for `u` are right: a variable of type `u` has `size` bytes,
the items of an array and the fields of a structure lie in it without overlapping. -/
inductive Sized (T : Types) : Uuid → Nat → Prop
  | simple {u l size} (h : T u = some (.simple l)) (hs : l.width ≤ size) : Sized T u size
  | array {u item isz count s size} (h : T u = some (.array item isz count s)) (hi : Sized T item isz)
      (hs : count * isz ≤ size) : Sized T u size
  | struct {u fds} {size : Nat} (sz : FDef → Nat) (h : T u = some (.struct fds))
      (hf : ∀ fd, fd ∈ fds → Sized T fd.uuid (sz fd))
      (hb : ∀ fd, fd ∈ fds → 0 ≤ fd.offset ∧ fd.offset + sz fd ≤ size)
      (hd : fds.Pairwise fun x y => x.offset + sz x ≤ y.offset ∨ y.offset + sz y ≤ x.offset) :
      Sized T u size

/-- A variable of type `u` can be published: nothing in it is of type String8 or Void, the fields
of a structure have valid and different names. -/
inductive Publishable (T : Types) : Uuid → Prop
  | simple {u l} (h : T u = some (.simple l)) (hk : l.kind ≠ .None) (hs : u ≠ primUuid .String8)
      (hv : u ≠ voidUuid) : Publishable T u
  | values {u item size count l} (h : T u = some (.array item size count true))
      (hi : T item = some (.simple l)) (hk : l.kind ≠ .None) (hs : u ≠ primUuid .String8)
      (hv : u ≠ voidUuid) : Publishable T u
  | array {u item size count s} (h : T u = some (.array item size count s))
      (hi : 0 < count → Publishable T item) (hs : u ≠ primUuid .String8) (hv : u ≠ voidUuid) :
      Publishable T u
  | struct {u fds} (h : T u = some (.struct fds)) (hd : (fds.map (·.name)).Nodup)
      (hn : ∀ fd, fd ∈ fds → Grammar fd.name) (hf : ∀ fd, fd ∈ fds → Publishable T fd.uuid) : Publishable T u

end Verif.Mem
