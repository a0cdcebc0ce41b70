import Verif.Sim.Breakpoint
/-! How the breakpoint file gets to the disk: `Simulator::Store` (src/Xsmp/Simulator.cpp:394-421)
and the `StorageWriter` (src/Xsmp/StorageWriter.cpp:30-67). The contents are those of
Breakpoint.lean. -/
namespace Verif.Sim.Writer
open Verif.Sim.Bp

/-- What `Xsmp::Store` does (Simulator.cpp:363-391): it calls `StorageWriter::Store` with a block of
bytes, or something raises (the own `Store` of a component, Simulator.cpp:366). `k` is how many of
the bytes that are then in the buffer of the `std::ofstream` go to the file: this is up to the
standard library. -/
inductive Call
  | block (d : Bytes) (k : Nat)
  | raise

/-- The file and the open `std::ofstream` (StorageWriter.h): the contents of the file, and the
bytes in the buffer. -/
structure Out where
  file : Bytes
  pending : Bytes
deriving DecidableEq

/-- `k` bytes of the buffer go to the file, which can hold `room` bytes on its device; `true` when
they do not fit (then the file is filled up; what is left in the buffer is dropped)
(StorageWriter.cpp:55). -/
def Out.flush (room k : Nat) (o : Out) : Out × Bool :=
  if o.file.length + (o.pending.take k).length ≤ room then
    (⟨o.file ++ o.pending.take k, o.pending.drop k⟩, false)
  else (⟨o.file ++ o.pending.take (room - o.file.length), []⟩, true)

/-- `StorageWriter::Store` (StorageWriter.cpp:54-64): `true` for `CannotStore`. -/
def Out.write (room : Nat) (o : Out) (d : Bytes) (k : Nat) : Out × Bool :=
  Out.flush room k { o with pending := o.pending ++ d }

/-- The calls one after the other, up to the first exception (Simulator.cpp:415). -/
def Out.calls (room : Nat) (o : Out) : List Call → Out × Bool
  | [] => (o, false)
  | .raise :: _ => (o, true)
  | .block d k :: cs =>
    if (o.write room d k).2 then ((o.write room d k).1, true)
    else Out.calls room (o.write room d k).1 cs

/-- The destructor of the `std::ofstream`: the buffer goes to the file; errors are ignored
(StorageWriter.h; it runs at the end of the block, Simulator.cpp:421, or when an exception leaves). -/
def Out.close (room : Nat) (o : Out) : Bytes :=
  o.file ++ o.pending.take (room - o.file.length)

/-- What `Simulator::Store` leads to: whether it raises, the file as it is when the entry points of
`SMP_LeaveStoring` and `SMP_EnterStandby` are executed (Simulator.cpp:417-420; `none` if it raises
before), and the file afterwards. -/
structure Result where
  raised : Bool
  standby : Option Bytes
  file : Bytes
deriving DecidableEq

/-- `Simulator::Store` in Standby (Simulator.cpp:394-421) to a file with these contents. `opens`:
the directories can be made and the file opened, which empties it (StorageWriter.cpp:31-46). The
events before (Simulator.cpp:407-411) are not modelled. -/
def store (room : Nat) (opens : Bool) (old : Bytes) (cs : List Call) : Result :=
  if !opens then ⟨true, none, old⟩
  else if (Out.calls room ⟨[], []⟩ cs).2 then
    ⟨true, none, (Out.calls room ⟨[], []⟩ cs).1.close room⟩
  else ⟨false, some (Out.calls room ⟨[], []⟩ cs).1.file,
    (Out.calls room ⟨[], []⟩ cs).1.close room⟩

end Verif.Sim.Writer
