/-! Breakpoints that are stored while another one is: `Simulator::Store` (src/Xsmp/Simulator.cpp:394-421)
emits `SMP_EnterStandby` while its `StorageWriter` still exists, and the simulator is in Standby then,
so that an entry point may call `Store` again.

The file is closed, and the rest of the buffer written, by the destructor of the `std::ofstream`
(src/Xsmp/StorageWriter.cpp:31-52). Simplified: the device has room, and files are opened without
errors (those are in `Verif.Sim.Writer`); files are numbers instead of paths. -/
namespace Verif.Sim.Nested

/-- The bytes of a file (StorageWriter.cpp:54-55). -/
abbrev Data := List UInt8

/-- The `std::ofstream` of a `StorageWriter` (StorageWriter.cpp:48-52): its file, how many bytes it
has written to it, and the bytes in its buffer. Of the model only: all the bytes that were given to
it. -/
structure Stream where
  file : Nat
  pos : Nat
  buf : Data
  all : Data
deriving DecidableEq, Repr

/-- The files, and the writers that exist, the innermost first (Simulator.cpp:413). Of the model only:
the state that was stored in a file by the last `Store` that returned. -/
structure Disk where
  files : Nat → Data
  streams : List Stream
  saved : Nat → Option Data

/-- Bytes are written to a file at a position; a gap is filled with zeros, as POSIX has it
(StorageWriter.cpp:55). -/
def writeAt (file : Data) (pos : Nat) (bs : Data) : Data :=
  if bs = [] then file
  else file.take pos ++ List.replicate (pos - file.length) 0 ++ bs ++ file.drop (pos + bs.length)

/-- A function with another value at one point. Of the model only (a file of Simulator.cpp:413). -/
def update {α : Type} (g : Nat → α) (f : Nat) (x : α) : Nat → α := fun i => if i = f then x else g i

/-- The first `n` bytes of the buffer of a writer go to its file (StorageWriter.cpp:55; when, is up to
the standard library). -/
def Disk.write (d : Disk) (s : Stream) (n : Nat) : Disk :=
  { d with files := update d.files s.file (writeAt (d.files s.file) s.pos (s.buf.take n)) }

/-- What happens to the writers: one is created, which empties its file (StorageWriter.cpp:31-46);
the innermost one stores bytes (54-64); some of its buffer goes to the file; it is destroyed
(Simulator.cpp:421). -/
inductive Op
  | create (f : Nat) | put (bs : Data) | flush (n : Nat) | destroy
deriving DecidableEq, Repr

/-- One step. (Simulator.cpp:413-421, StorageWriter.cpp:31-64.) -/
def Disk.step (d : Disk) : Op → Disk
  | .create f => { d with files := update d.files f [], streams := ⟨f, 0, [], []⟩ :: d.streams }
  | .put bs => match d.streams with
    | [] => d
    | s :: ss => { d with streams := { s with buf := s.buf ++ bs, all := s.all ++ bs } :: ss }
  | .flush n => match d.streams with
    | [] => d
    | s :: ss =>
      { d.write s n with
        streams := { s with pos := s.pos + (s.buf.take n).length, buf := s.buf.drop n } :: ss }
  | .destroy => match d.streams with
    | [] => d
    | s :: ss =>
      { d.write s s.buf.length with streams := ss, saved := update d.saved s.file (some s.all) }

/-- A history. Of the model only (sequences of the steps of Simulator.cpp:413-421). -/
def Disk.run (d : Disk) (ps : List Op) : Disk := ps.foldl Disk.step d

/-- No writer exists, and nothing was stored (before Simulator.cpp:413). -/
def Disk.init (files : Nat → Data) : Disk := ⟨files, [], fun _ => none⟩

end Verif.Sim.Nested
