/-
The queue of the logger (`LoggerProcessor`, `src/Xsmp/Services/XsmpLogger.cpp:408-488`) as a
transition system: any number of threads which call `Log`, the worker thread which runs
`Process`, and the thread which runs the destructor.

One step is one thing a thread does between two points where another thread can be seen:
taking the mutex, the work done while holding it, one call of an appender, one notification.
A thread which waits for the mutex has no step until the mutex is free.

Simplifications: an entry is an abstract value (it is copied when pushed, lines 459-461); an
appender is its filter (`Appender::Append`, lines 345-351: levels and path) and the list of
the entries it has written; the appenders do not throw; memory is not exhausted.
`std::queue::push` keeps the references to the other elements valid, so `log` of line 468
stays the front while other threads push. `notify_one` is modelled as waking the worker, the
only thread which waits on `_cv`; the worker may also wake up spuriously at any time.
-/
namespace Verif.Log.Queue

/-- Positions of the worker in `Process` (XsmpLogger.cpp:463-488). -/
inductive WPos
  /-- before line 464 takes the mutex -/
  | begin
  /-- line 465, mutex held -/
  | loop
  /-- line 466, mutex held -/
  | inner
  /-- lines 471-474, mutex released: appender `k` is the next; after the last one, waiting for
  the mutex -/
  | append (k : Nat)
  /-- line 475, mutex held: before `pop` -/
  | pop
  /-- line 477: the predicate of the wait is evaluated, mutex held -/
  | pred
  /-- line 477: asleep, mutex released -/
  | asleep
  /-- line 477: awake, waiting for the mutex -/
  | woken
  /-- line 481, mutex held -/
  | drain
  /-- lines 482-486, mutex held: appender `k` is the next -/
  | drainAppend (k : Nat)
  /-- the thread has returned, mutex released by the destructor of `lck` -/
  | ended
  deriving DecidableEq, Repr

/-- Positions of a thread in `Log` (XsmpLogger.cpp:441-447, 454-462). -/
inductive CPos (α : Type)
  /-- outside of `Log` -/
  | out
  /-- `Push`, mutex held -/
  | push (a : α)
  /-- after `Push`, before `notify_one` -/
  | notify
  deriving DecidableEq, Repr

/-- Positions of the destructor (XsmpLogger.cpp:433-440, 450-453). -/
inductive DPos
  /-- not called -/
  | before
  /-- in `Stop`, mutex held -/
  | stop
  /-- after `Stop`, before `notify_one` -/
  | notify
  /-- in `join` -/
  | join
  /-- returned -/
  | returned
  deriving DecidableEq, Repr

/-- The holder of `_mutex`. (XsmpLogger.cpp:433-488.) -/
inductive Who
  | worker
  | client (t : Nat)
  | dtor
  deriving DecidableEq, Repr

/-- The state. `accepted`, `done` and `stopAt` are only observed: the entries in the order of
their `push`, the entries popped, and the number of entries accepted when `running` was cleared.
`fault` tells that the front of an empty queue was used. (XsmpLogger.cpp:408-488.) -/
structure State (α : Type) where
  /-- `_logs` -/
  q : List α
  /-- `running` -/
  running : Bool
  owner : Option Who
  w : WPos
  cl : Nat → CPos α
  d : DPos
  /-- what the appender of each index has written -/
  written : Nat → List α
  accepted : List α
  done : List α
  stopAt : Nat
  fault : Bool

/-- What happens next. Of the model only (XsmpLogger.cpp:433-488). -/
inductive Act (α : Type)
  /-- thread `t` calls `Log` with entry `a`, or goes on in its call -/
  | client (t : Nat) (a : α)
  | worker
  /-- the worker wakes up without a notification -/
  | spurious
  | dtor
  deriving DecidableEq, Repr

variable {α : Type}

/-- The state after the constructor (XsmpLogger.cpp:410-428, the thread has just started). -/
def init : State α :=
  { q := [], running := true, owner := none, w := .begin, cl := fun _ => .out, d := .before,
    written := fun _ => [], accepted := [], done := [], stopAt := 0, fault := false }

/-- Setting the position of one logging thread. Of the model only (XsmpLogger.cpp:441-462). -/
def setCl (cl : Nat → CPos α) (t : Nat) (p : CPos α) : Nat → CPos α :=
  fun u => if u = t then p else cl u

/-- `notify_one` on `_cv`. (XsmpLogger.cpp:433-462.) -/
def wake (w : WPos) : WPos := if w = .asleep then .woken else w

/-- One call `appender->Append(log)` (XsmpLogger.cpp:471-473, 483-485) for the appender `k`
of filter `f`: the entry is written if the filter accepts it. -/
def write (written : Nat → List α) (k : Nat) (f : α → Bool) (a : α) : Nat → List α :=
  fun j => if j = k ∧ f a = true then written j ++ [a] else written j

/-- One step of a logging thread: `Log` (441-447) and `Push` (454-462). (XsmpLogger.cpp:441-462.)
-/
def stepClient (s : State α) (t : Nat) (a : α) : Option (State α) :=
  match s.cl t with
  | .out =>
    if s.owner = none then
      some { s with owner := some (.client t), cl := setCl s.cl t (.push a) }
    else none
  | .push b =>
    some { s with
      q := s.q ++ [b]
      accepted := s.accepted ++ [b]
      owner := none
      cl := setCl s.cl t .notify }
  | .notify => some { s with w := wake s.w, cl := setCl s.cl t .out }

/-- One step of the worker: `Process` (XsmpLogger.cpp:463-488). -/
def stepWorker (apps : List (α → Bool)) (s : State α) : Option (State α) :=
  match s.w with
  | .begin =>
    if s.owner = none then some { s with owner := some .worker, w := .loop } else none
  | .loop => some { s with w := if s.running then .inner else .drain }
  | .inner =>
    if s.q.isEmpty then some { s with w := .pred }
    else some { s with owner := none, w := .append 0 }
  | .append k =>
    match apps[k]? with
    | some f =>
      match s.q with
      | [] => some { s with fault := true }
      | a :: _ => some { s with written := write s.written k f a, w := .append (k + 1) }
    | none =>
      if s.owner = none then some { s with owner := some .worker, w := .pop } else none
  | .pop =>
    match s.q with
    | [] => some { s with fault := true }
    | a :: r => some { s with q := r, done := s.done ++ [a], w := .inner }
  | .pred =>
    if !s.running || !s.q.isEmpty then some { s with w := .loop }
    else some { s with owner := none, w := .asleep }
  | .asleep => none
  | .woken =>
    if s.owner = none then some { s with owner := some .worker, w := .pred } else none
  | .drain =>
    if s.q.isEmpty then some { s with owner := none, w := .ended }
    else some { s with w := .drainAppend 0 }
  | .drainAppend k =>
    match s.q with
    | [] => some { s with fault := true }
    | a :: r =>
      match apps[k]? with
      | some f => some { s with written := write s.written k f a, w := .drainAppend (k + 1) }
      | none => some { s with q := r, done := s.done ++ [a], w := .drain }
  | .ended => none

/-- One step of the destructor (XsmpLogger.cpp:433-440) and `Stop` (450-453). -/
def stepDtor (s : State α) : Option (State α) :=
  match s.d with
  | .before => if s.owner = none then some { s with owner := some .dtor, d := .stop } else none
  | .stop =>
    some { s with
      running := false
      owner := none
      d := .notify
      stopAt := s.accepted.length }
  | .notify => some { s with w := wake s.w, d := .join }
  | .join => if s.w = .ended then some { s with d := .returned } else none
  | .returned => none

/-- One step; `none` if the thread cannot move. (XsmpLogger.cpp:433-488.) -/
def step (apps : List (α → Bool)) (s : State α) : Act α → Option (State α)
  | .client t a => stepClient s t a
  | .worker => stepWorker apps s
  | .spurious => if s.w = .asleep then some { s with w := .woken } else none
  | .dtor => stepDtor s

/-- A run: every action is possible when it is taken. Of the model only (interleavings of
XsmpLogger.cpp:433-488). -/
def run (apps : List (α → Bool)) (s : State α) : List (Act α) → Option (State α)
  | [] => some s
  | a :: as => (step apps s a).bind (fun s' => run apps s' as)

/-- The states which some interleaving reaches. Of the model only (interleavings of
XsmpLogger.cpp:433-488). -/
def Reach (apps : List (α → Bool)) (s : State α) : Prop := ∃ as, run apps init as = some s

end Verif.Log.Queue
