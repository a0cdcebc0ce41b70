import Verif.Field.RefusedProps

/-!
Fields written by several threads, as by an entry point of Zulu time (XsmpScheduler.cpp:440-456), by a
handler of a global event in the thread of the simulation (XsmpEventManager.cpp:182-199, called at
XsmpScheduler.cpp:617, 653 without `_execMutex`), or by a thread of the application:
`SimpleField::SetValue` and `internal_push` instruction by instruction (include/Xsmp/Field.h:484-529,
src/Xsmp/Field.cpp:359-363). Nothing locks.

Simplified: the instructions are atomic (in the code the accesses are data races); the fields take
every value as it is (same types; C144 has those that refuse); connections do not change meanwhile.
-/
namespace Verif.Field.Racing
open Verif.Any (Kind Fl Val Any Out ITy)

/-- Where a thread is. -/
inductive Frame
  /-- about to read the field and to compute the new value (`SetValue(_value + 1)`,
  Field.h:484-513) -/
  | update (i : Nat) (g : Val → Val)
  /-- at the start of `SetValue` (Field.h:516-524) -/
  | write (i : Nat) (v : Val)
  /-- in `internal_push`, with these targets left (Field.cpp:360) -/
  | push (i : Nat) (ts : List Nat)

/-- The fields and the threads (Field.h:399-533). -/
structure Sys where
  net : Net
  stack : Nat → List Frame

/-- The stack of a thread becomes another one. Of the model only (calls of Field.h:484-529). -/
def Sys.setStack (s : Sys) (t : Nat) (fs : List Frame) : Nat → List Frame :=
  fun u => if u = t then fs else s.stack u

/-- What a thread does. -/
inductive Act
  /-- an assignment of the component's code (Field.h:480) -/
  | assign (i : Nat) (v : Val)
  /-- a compound assignment or `++` (Field.h:482-513) -/
  | update (i : Nat) (g : Val → Val)
  /-- the next instruction -/
  | go

/-- The instruction at the top of a stack: the new fields, and what takes its place
(Field.h:516-529, Field.cpp:359-363). -/
def instr (n : Net) : Frame → Net × List Frame
  | .update i g => (n, [.write i (g (n i).value)])
  | .write i v =>
    if (n i).held then (n, [])
    else (n.set i { n i with value := v },
      if (n i).connectable then [.push i (n i).targets] else [])
  | .push _ [] => (n, [])
  | .push i (t :: ts) => (n, [.write t (n i).value, .push i ts])

/-- One step of a thread; it starts a write when it is in none (Field.h:480-529,
Field.cpp:359-363). -/
def Sys.step (s : Sys) (t : Nat) : Act → Sys
  | .assign i v => if (s.stack t).isEmpty then { s with stack := s.setStack t [.write i v] } else s
  | .update i g => if (s.stack t).isEmpty then { s with stack := s.setStack t [.update i g] } else s
  | .go => match s.stack t with
    | [] => s
    | f :: fs => ⟨(instr s.net f).1, s.setStack t ((instr s.net f).2 ++ fs)⟩

/-- A history: which thread does what. Of the model only (interleavings of Field.h:480-529). -/
def Sys.run (s : Sys) (l : List (Nat × Act)) : Sys := l.foldl (fun s x => s.step x.1 x.2) s

/-- No write is going on. (Field.h:399-533.) -/
def Sys.init (n : Net) : Sys := ⟨n, fun _ => []⟩

end Verif.Field.Racing
