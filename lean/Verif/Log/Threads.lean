import Verif.Log.Kinds

/-!
Model of the logger used by several threads (`src/Xsmp/Services/XsmpLogger.cpp:559-617`):
`QueryLogMessageKind` and `Log` hold `_mutex` from their beginning to their end, `Store` and
`Restore` do not; all of them lock the table of kinds for each access.

Simplified: the part of a call between locking and unlocking the table is one step (what it accesses
is locked from its first to its last access, see `Conc/Lock.lean`). A `Restore` that raises is not
modelled. Of the times in an entry the simulation time and the epoch time are there; the simulation
time does not go back, the epoch is not set meanwhile, and the sum does not overflow. The delivery of
the entries is in `Log/Queue.lean`.
-/
namespace Verif.Log.Threads
open Verif.Log.Kinds

/-- The calls (XsmpLogger.cpp:559, 584, 609, 614); a message is a number. -/
inductive Call
  | query (name : String)
  | log (msg : Nat) (kind : BitVec 32)
  | store
  | restore (stored : Table)
  deriving DecidableEq, Repr

/-- What a call gives: a kind (XsmpLogger.cpp:570, 581), the name of the kind that is written
(592-594), the table that is stored (614-617), nothing (609-612). -/
inductive Res
  | kind (k : BitVec 32)
  | named (n : String)
  | table (t : Table)
  | done
  deriving DecidableEq, Repr

/-- An entry handed over to the processor (XsmpLogger.cpp:597-606). -/
structure Entry where
  msg : Nat
  kind : String
  sim : Int
  epoch : Int
  deriving DecidableEq, Repr

/-- Where a thread is. -/
inductive Pc
  | idle
  /-- before its first lock (XsmpLogger.cpp:561, 586, 610, 615) -/
  | entering (c : Call)
  /-- it has `_mutex` (XsmpLogger.cpp:561, 586) -/
  | inside (c : Call)
  /-- in `QueryLogMessageKind`, the name was not found and the table is not locked
  (XsmpLogger.cpp:574-576) -/
  | missed (name : String)
  /-- in `Log`, the name is known and some of the times are read (XsmpLogger.cpp:597-601) -/
  | reading (msg : Nat) (name : String) (sim epoch : Option Int)
  /-- before the return; `held`: it has `_mutex` -/
  | leaving (r : Res) (held : Bool)
  deriving DecidableEq, Repr

/-- What happens: a call, the moment at which it reads or changes the table for the last time, the
return. Of the model only (what XsmpLogger.cpp:559-617 does). -/
inductive Obs
  | called (t : Nat) (c : Call)
  | effect (t : Nat) (c : Call) (r : Res)
  | returned (t : Nat) (r : Res)
  deriving DecidableEq, Repr

/-- The logger (XsmpLogger.h:79-84), the simulation time of the time keeper, the threads, the entries
handed over and what has happened, oldest first. -/
structure State where
  table : Table
  owner : Option Nat
  now : Int
  th : Nat → Pc
  entries : List Entry
  hist : List Obs

/-- Before the first call (XsmpLogger.h:79-82). -/
def init (now : Int) : State := ⟨predefined, none, now, fun _ => .idle, [], []⟩

/-- What happens next: a thread calls, a thread goes on (`b`: which of two operands it evaluates
first, the order is not specified by C++), the simulation time advances. Of the model only
(interleavings of XsmpLogger.cpp:559-617). -/
inductive Act
  | call (t : Nat) (c : Call)
  | go (t : Nat) (b : Bool)
  | tick (d : Nat)
  deriving DecidableEq, Repr

/-- The thread goes to another place. Of the model only (XsmpLogger.cpp:559-617). -/
def State.to (s : State) (t : Nat) (p : Pc) : Nat → Pc := fun u => if u = t then p else s.th u

/-- One step of a thread (XsmpLogger.cpp:559-617); `start` is `_epochStart` (`GetSimulationTime`,
`GetEpochTime`: XsmpTimeKeeper.cpp:40-42, 48-50). A thread that has to wait stays. -/
def go (start : Int) (s : State) (t : Nat) (b : Bool) : State :=
  match s.th t with
  | .idle => s
  | .entering .store =>
    { s with hist := s.hist ++ [.effect t .store (.table s.table)],
             th := s.to t (.leaving (.table s.table) false) }
  | .entering (.restore u) =>
    { s with table := u, hist := s.hist ++ [.effect t (.restore u) .done],
             th := s.to t (.leaving .done false) }
  | .entering c => if s.owner = none then { s with owner := some t, th := s.to t (.inside c) } else s
  | .inside (.query n) =>
    match indexOf s.table n with
    | some i =>
      { s with hist := s.hist ++ [.effect t (.query n) (.kind (BitVec.ofNat 32 i))],
               th := s.to t (.leaving (.kind (BitVec.ofNat 32 i)) true) }
    | none => { s with th := s.to t (.missed n) }
  | .missed n =>
    { s with table := s.table ++ [n],
             hist := s.hist ++ [.effect t (.query n) (.kind (BitVec.ofNat 32 s.table.length))],
             th := s.to t (.leaving (.kind (BitVec.ofNat 32 s.table.length)) true) }
  | .inside (.log m k) =>
    { s with hist := s.hist ++ [.effect t (.log m k) (.named (kindName s.table k))],
             th := s.to t (.reading m (kindName s.table k) none none) }
  | .inside _ => s
  | .reading m n none none =>
    if b then { s with th := s.to t (.reading m n (some s.now) none) }
    else { s with th := s.to t (.reading m n none (some (s.now - start))) }
  | .reading m n none (some e) => { s with th := s.to t (.reading m n (some s.now) (some e)) }
  | .reading m n (some x) none =>
    { s with th := s.to t (.reading m n (some x) (some (s.now - start))) }
  | .reading m n (some x) (some e) =>
    { s with entries := s.entries ++ [⟨m, n, x, e⟩], th := s.to t (.leaving (.named n) true) }
  | .leaving r held =>
    { s with owner := if held then none else s.owner, hist := s.hist ++ [.returned t r],
             th := s.to t .idle }

/-- One step of the system. A thread makes one call at a time (XsmpLogger.cpp:559-617). -/
def step (start : Int) (s : State) : Act → State
  | .call t c =>
    match s.th t with
    | .idle => { s with hist := s.hist ++ [.called t c], th := s.to t (.entering c) }
    | _ => s
  | .go t b => go start s t b
  | .tick d => { s with now := s.now + d }

/-- An interleaving. Of the model only (interleavings of XsmpLogger.cpp:559-617). -/
def run (start : Int) (s : State) (as : List Act) : State := as.foldl (step start) s

end Verif.Log.Threads
