import Verif.Field.RacingProps

/-!
Fields written by the entry points that the scheduler executes, of simulation time and of Zulu time:
`XsmpScheduler::Execute` and `ExecuteZulu` hold `_execMutex` while an entry point runs
(XsmpScheduler.cpp:413-419, 450-456). The handlers of global events are called without it
(XsmpEventManager.cpp:182-199).

Simplified: of an entry point only its writes of fields are left; the instructions of a write are those
of Racing.lean; the other mutexes are left out (C66 has them, and the deadlock they can cause).
-/
namespace Verif.Field.Guarded
open Verif.Any (Val)
open Verif.Field.Racing (Sys Act Frame)

/-- A write in the code of an entry point: an assignment, or a compound assignment (Field.h:480-513). -/
inductive Wr
  | set (i : Nat) (v : Val)
  | upd (i : Nat) (g : Val → Val)

/-- The write, as a thread starts it (Field.h:480-513). -/
def Wr.act : Wr → Act
  | .set i v => .assign i v
  | .upd i g => .update i g

/-- The fields and the threads, the thread that has `_execMutex` (XsmpScheduler.h:420), and the writes
its entry point has still to start. -/
structure St where
  sys : Sys
  holder : Option Nat
  todo : List Wr

/-- What happens next. -/
inductive In
  /-- a thread comes to `scoped_lock lck2(_execMutex)` to execute this entry point
  (XsmpScheduler.cpp:413, 450) -/
  | enter (t : Nat) (prog : List Wr)
  /-- the next instruction of a thread in its entry point, or the release of the mutex
  (XsmpScheduler.cpp:416-419, 453-456) -/
  | go (t : Nat)
  /-- an instruction of a handler of a global event (XsmpEventManager.cpp:193-196) -/
  | handler (t : Nat) (a : Act)

/-- One step. A thread that finds the mutex taken waits: nothing happens (XsmpScheduler.cpp:413-419,
450-456; XsmpEventManager.cpp:193-196). -/
def St.step (s : St) : In → St
  | .enter t p => match s.holder with
    | none => ⟨s.sys, some t, p⟩
    | some _ => s
  | .go t => if s.holder = some t then
      match s.sys.stack t, s.todo with
      | [], [] => ⟨s.sys, none, []⟩
      | [], w :: ws => ⟨s.sys.step t w.act, some t, ws⟩
      | _ :: _, ws => ⟨s.sys.step t .go, some t, ws⟩
    else s
  | .handler t a => { s with sys := s.sys.step t a }

/-- A history. Of the model only (interleavings of XsmpScheduler.cpp:413-419, 450-456). -/
def St.run (s : St) (l : List In) : St := l.foldl St.step s

/-- No entry point is being executed, and the mutex is free. (XsmpScheduler.h:420.) -/
def St.init (n : Net) : St := ⟨.init n, none, []⟩

end Verif.Field.Guarded
