import Verif.Sim.ThreadsSpec

/-!
Operations of the simulator called by several Python threads. A Python thread executes Python code,
and the C++ code it calls, while it owns the global interpreter lock. The interpreter gives the lock
to another thread between instructions of Python code only; none of the functions of the module
(src/python/ecss_smp.cpp, src/python/Smp/ISimulatorBinding.h:300-447) releases it
(`gil_scoped_release` and `call_guard` are not used). The simulator and its run loop are those of
`Verif/Sim/Loop.lean`.

Simplified: only Python threads are here. Threads of components, and the Zulu thread, which do not
need the lock, are those of C143.
-/
namespace Verif.Python.Gil
open Verif.Sim

/-- The simulator, and the owner of the interpreter lock
(src/python/Smp/ISimulatorBinding.h:300-447). -/
structure Py where
  sys : Sys
  gil : Option Nat

/-- What a Python thread does. -/
inductive Do
  /-- it takes the interpreter lock -/
  | take
  /-- it gives the lock away, between instructions of Python code -/
  | give
  /-- it calls an operation, or goes on in C++ code -/
  | act (a : Act)
  deriving DecidableEq, Repr

/-- Nothing is running (ISimulatorBinding.h:290-295): a connected simulation. -/
def Py.init (hold : Bool) : Py := ⟨.init hold, none⟩

/-- One step of a thread; a thread that cannot do it waits. In C++ code, that is while it is in an
operation (ISimulatorBinding.h:300-447), the lock is kept. -/
def Py.step (p : Py) (t : Nat) : Do → Py
  | .take => if p.gil = none then { p with gil := some t } else p
  | .give => if p.gil = some t ∧ p.sys.stack t = [] then { p with gil := none } else p
  | .act a => if p.gil = some t then { p with sys := p.sys.step t a } else p

/-- A history. Of the model only (interleavings of calls of ISimulatorBinding.h:300-447). -/
def Py.run (p : Py) (l : List (Nat × Do)) : Py := l.foldl (fun p x => p.step x.1 x.2) p

end Verif.Python.Gil
