import Verif.Python.Value
import Verif.Emit.Model

/-
Model of event sinks called from Python: `sink.Notify(sender, arg)` and `sink(sender, arg)`, which are
the same function (src/python/Smp/IEventSinkBinding.h:33-36, 63-72). The conversion of the argument is
that of Value.lean, what the sink does with it that of Emit/Model.lean.

Simplified: the sender is left out; `callback` is the result of the callback of the sink.
-/
namespace Verif.Python.Notify
open Verif.Any (Kind Fl Any)
open Verif.Text (Buf)
open Verif.Emit (Sink Given)
open Verif.Python.Value (Py Res ofPy)

/-- How the call ends. (IEventSinkBinding.h:33-36.) -/
inductive End
  | returns
  /-- the argument is not converted (ecss_smp.cpp:461-536) -/
  | badArgument
  /-- `InvalidAnyType` of the sink (EventSink.cpp:60-66, AnySimple.cpp:92-106) -/
  | refused
  /-- an exception of the callback -/
  | raised
  | ub
  deriving DecidableEq

/-- The sink gets an argument: what its callback gets, if it is called, and how the call ends
(EventSink.h:103-105, EventSink.cpp:60-66). -/
def receive (narrow : Fl → Fl) (g : Nat → Buf) (s : Sink) (a : Any) : Option Given × End :=
  match Verif.Emit.notify narrow g s a with
  | .ok v => (some v, if s.raises then .raised else .returns)
  | .throw => (none, .refused)
  | .ub => (none, .ub)

/-- `sink.Notify(sender, arg)`, `sink(sender, arg)` (IEventSinkBinding.h:33-36). -/
def notify (narrow : Fl → Fl) (g : Nat → Buf) (s : Sink) (arg : Py) : Option Given × End :=
  match ofPy narrow arg s.kind with
  | .ok a => receive narrow g s a
  | .ub => (none, .ub)
  | .invalidAnyType => (none, .refused)
  | _ => (none, .badArgument)

/-- `sink.Notify(sender)`, `sink()`: the argument is `None` (IEventSinkBinding.h:63-64, 68-69). -/
def notifyDefault (narrow : Fl → Fl) (g : Nat → Buf) (s : Sink) : Option Given × End :=
  notify narrow g s .none

end Verif.Python.Notify
