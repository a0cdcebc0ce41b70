import Verif.Python.Case

/-! What C140 speaks of. -/
namespace Verif.Python.Case
open Verif.Sim.Matched

/-- The call uses no service in `DoDisconnect` in a way that needs the simulator. -/
def Soft : Op → Prop
  | .exit e | .delete e _ => ∀ c, ∀ x ∈ (e c).calls, x.2 = .log ∨ x.2 = .removeEvent
  | _ => True

/-- `DoDisconnect` returns, and calls of the services only `Log` and `RemoveEvent`. -/
def Calm (e : Env) : Prop :=
  ∀ c, (e c).dis = false ∧ ∀ x ∈ (e c).calls, x.2 = .log ∨ x.2 = .removeEvent

/-- A test that may fail in `setUp` and in its body, abort the simulation or leave it in any state,
but whose components can be disconnected, that keeps no other reference, and where no exception is
raised that is not an `Exception` before the test begins. -/
structure Gentle (c : Case) : Prop where
  loads : ∀ p ∈ c.loads, p.2 ≠ .base ∧ ∀ o ∈ p.1, Soft o
  hints : c.hints ≠ .base
  body : ∀ o ∈ c.body, Soft o
  other : c.other = false
  exit : Calm c.exitEnv
  ending : Calm c.endEnv

/-- A call that does not raise, does not abort and deletes no component. -/
def Neat : Op → Prop
  | .connect e r => (∀ c, (e c).pub = false ∧ (e c).conf = false ∧ (e c).con = false) ∧ r = false
  | .reconnect e _ => ∀ c, (e c).pub = false ∧ (e c).conf = false ∧ (e c).con = false
  | .initialise r | .store r | .restore r => r = false
  | .exit e => Calm e
  | .abort | .delete _ _ => False
  | _ => True

/-- A test that uses the simulator without exceptions of the simulator. It may fail. -/
structure Tidy (c : Case) : Prop extends Gentle c where
  loadsNeat : ∀ p ∈ c.loads, ∀ o ∈ p.1, Neat o
  bodyNeat : ∀ o ∈ c.body, Neat o
  con : (∀ d, (c.conEnv d).pub = false ∧ (c.conEnv d).conf = false ∧ (c.conEnv d).con = false)
    ∧ c.conInit = false

/-- A call that leaves a simulator in Building state in Building state. -/
def Builds : Op → Prop
  | .addService _ | .addModel _ | .addIn _ _ | .publish _ | .configure _ => True
  | _ => False

end Verif.Python.Case
