/-!
Model of `ThreadSafeData` (`src/Xsmp/ThreadSafeData.h`): data behind reader-writer locks, used by
several threads, and of expressions such as
`_epochStart.write().get() = _simulationTime.read().get() - epochTime`
(`src/Xsmp/Services/XsmpTimeKeeper.cpp:48-75`), which take several locks one after the other and
keep all of them up to the end of the expression (the temporaries live that long).

Simplified: the value of a cell is read when its lock is taken (the code reads it some time later,
with the lock still held); the data race that an access without lock would be is not modelled, all
accesses of the expressions considered are under their lock.
-/
namespace Verif.Conc

/-- A `ThreadSafeData` object (ThreadSafeData.h:25-95). -/
abbrev Cell := Nat

/-- The data (`_data`, ThreadSafeData.h). (Lines 40, 64.) -/
abbrev Mem := Cell → Int

/-- An expression: the locks in the order they are taken (`true`: `write()`,
ThreadSafeData.h:87-89; `false`: `read()`, lines 82-84), what it assigns and what it returns, from
the values read. -/
structure Tx where
  acq : List (Cell × Bool)
  writes : Mem → List (Cell × Int)
  res : Mem → List Int

/-- An assignment to each of some cells, in order (`WriteLock::get`, ThreadSafeData.h). (Line 64.)
-/
def assign (m : Mem) : List (Cell × Int) → Mem
  | [] => m
  | (c, v) :: ws => assign (fun d => if d = c then v else m d) ws

/-- Where a thread is. `held` are the locks it has, the last one first. (ThreadSafeData.h:32-90.)
-/
inductive Phase
  | idle
  /-- taking the locks `todo`; `regs` are the values read so far -/
  | taking (tx : Tx) (todo held : List (Cell × Bool)) (regs : Mem)
  /-- all locks taken, assigning `ws` -/
  | writing (ws : List (Cell × Int)) (held : List (Cell × Bool)) (r : List Int)
  /-- the locks are given back -/
  | leaving (held : List (Cell × Bool)) (r : List Int)

/-- What happens: a call, the moment at which all locks are held, a return. Of the model only (the
locks are taken at ThreadSafeData.h:83-90). -/
inductive Event
  | call (t : Nat) (tx : Tx)
  | effect (t : Nat) (tx : Tx) (r : List Int)
  | ret (t : Nat) (r : List Int)

/-- The data, the holders of each `std::shared_mutex` (thread, exclusive or not), the threads, and
what has happened so far. (ThreadSafeData.h:24-90.) -/
structure State where
  mem : Mem
  holders : Cell → List (Nat × Bool)
  th : Nat → Phase
  hist : List Event

/-- No thread has called yet. (ThreadSafeData.h:26-29.) -/
def init (m : Mem) : State := ⟨m, fun _ => [], fun _ => .idle, []⟩

/-- The next step of a thread. (ThreadSafeData.h:32-90.) -/
inductive Input
  | start (t : Nat) (tx : Tx)
  | advance (t : Nat)

/-- The mutex can be taken: exclusively if nobody has it, shared if nobody has it exclusively
(`std::unique_lock`, `std::shared_lock`, ThreadSafeData.h:83, 88). -/
def free (hs : List (Nat × Bool)) (exclusive : Bool) : Bool :=
  if exclusive then hs.isEmpty else hs.all (fun h => !h.2)

/-- The thread goes to another place of its expression. Of the model only
(ThreadSafeData.h:32-90). -/
def setTh (s : State) (t : Nat) (p : Phase) : Nat → Phase := fun u => if u = t then p else s.th u

/-- The thread takes or gives back a mutex. (ThreadSafeData.h:83-90.) -/
def setHolders (s : State) (c : Cell) (l : List (Nat × Bool)) : Cell → List (Nat × Bool) :=
  fun d => if d = c then l else s.holders d

/-- One step of the thread; `none` if it has to wait or has nothing to do. Locks are given back by
the destructors of `ReadLock` and `WriteLock`, the last one taken first. (ThreadSafeData.h:32-90.)
-/
def advance (s : State) (t : Nat) : Option State :=
  match s.th t with
  | .idle => none
  | .taking tx [] held regs =>
    some { s with th := setTh s t (.writing (tx.writes regs) held (tx.res regs)),
                  hist := s.hist ++ [.effect t tx (tx.res regs)] }
  | .taking tx ((c, x) :: todo) held regs =>
    if free (s.holders c) x then
      some { s with holders := setHolders s c ((t, x) :: s.holders c),
                    th := setTh s t (.taking tx todo ((c, x) :: held)
                      (fun d => if d = c then s.mem c else regs d)) }
    else none
  | .writing [] held r => some { s with th := setTh s t (.leaving held r) }
  | .writing ((c, v) :: ws) held r =>
    some { s with mem := fun d => if d = c then v else s.mem d,
                  th := setTh s t (.writing ws held r) }
  | .leaving ((c, x) :: held) r =>
    some { s with holders := setHolders s c ((s.holders c).erase (t, x)),
                  th := setTh s t (.leaving held r) }
  | .leaving [] r =>
    some { s with th := setTh s t .idle, hist := s.hist ++ [.ret t r] }

/-- One step of the system; a thread that has to wait stays. (ThreadSafeData.h:32-90.) -/
def step (s : State) : Input → State
  | .start t tx => match s.th t with
    | .idle => { s with th := setTh s t (.taking tx tx.acq [] (fun _ => 0)),
                        hist := s.hist ++ [.call t tx] }
    | _ => s
  | .advance t => (advance s t).getD s

/-- Interleavings. (ThreadSafeData.h:32-90.) -/
def run (s : State) (is : List Input) : State := is.foldl step s

end Verif.Conc
