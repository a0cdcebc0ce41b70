import Verif.Sim.Loop
import Verif.Sim.Inv

/-! C143: which calls of operations of the simulator by several threads are in order. The simulator,
the run loop and the threads are those of `Verif/Sim/Loop.lean`, the documented transitions are
`legal` (`Verif/Sim/Inv.lean`). -/
namespace Verif.Sim.Threads

/-- The thread may call the operation and its test passes (Simulator.cpp:165-569). -/
def Accepted (s : Sys) (t : Nat) (o : Op) : Prop :=
  userFrame (s.stack t) = true ∧ o.guard s.state s.last = true

/-- A thread that executes the simulation, or has done so: `Run` has nothing left to do but to return
(Simulator.cpp:301-303, XsmpScheduler.cpp:592-665). -/
def Running (fs : List Frame) : Prop := ∀ f ∈ fs, f = .op [.endEmit] none ∨ ∃ p, f = .loop p

/-- Whether a thread has held the simulation that another one executes. -/
inductive Mode
  | free
  | holding (t : Nat)
  deriving DecidableEq, Repr

/-- The calls that are in order:
* those that are not accepted, and all that are not calls of operations;
* any operation, from anywhere, while all other threads are outside of the operations; but `Abort`
  not in the middle of a transition, as in C25;
* `Hold(true)` by a thread that is outside of the operations, while another one executes the
  simulation; no operation is accepted then until both have returned. -/
inductive Permit (s : Sys) : Mode → Nat → Act → Mode → Prop
  | quiet (m : Mode) (t : Nat) (a : Act) (h : ∀ o, a = .call o → ¬ Accepted s t o) : Permit s m t a m
  | alone (t : Nat) (o : Op) (h : ∀ u, u ≠ t → s.stack u = [])
      (ha : o = .abort → ∀ r p, Frame.op r p ∈ s.stack t → transit r = false) :
      Permit s .free t (.call o) .free
  | hold (t u : Nat) (hne : u ≠ t) (ha : Accepted s t .hold) (ht : s.stack t = [])
      (hu : Running (s.stack u)) (h : ∀ v, v ≠ t → v ≠ u → s.stack v = []) :
      Permit s .free t (.call .hold) (.holding t)

/-- The histories in which all calls are in order. -/
inductive Reach (h0 : Bool) : Mode → Sys → Prop
  | init : Reach h0 .free (.init h0)
  | step {m m' : Mode} {s : Sys} {t : Nat} {a : Act} (hr : Reach h0 m s) (hp : Permit s m t a m') :
      Reach h0 m' (s.step t a)
  | over {t : Nat} {s : Sys} (hr : Reach h0 (.holding t) s) (h : ∀ u, s.stack u = []) :
      Reach h0 .free s

/-- A run loop is on the stack. -/
def InLoop (fs : List Frame) : Prop := ∃ p, Frame.loop p ∈ fs

end Verif.Sim.Threads
