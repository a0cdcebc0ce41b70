import Verif.Tree.Model
import Verif.Sim.Model

/-! The services of the simulator: `AddService`, `GetService` and the getters of the standard
services (src/Xsmp/Simulator.cpp:571-639). The containers are those of `Verif/Tree/Model.lean`. -/
namespace Verif.Sim.Service
open Verif.Tree (Comp Ctn Composite addComponent deleteComponent)

/-- The standard services, in the order of Simulator.cpp:608-613. -/
inductive Kind
  | logger | eventManager | linkRegistry | resolver | scheduler | timeKeeper
deriving DecidableEq, Repr

/-- The number of the interface in `Comp.types` (`dynamic_cast`, Simulator.cpp:600). -/
def Kind.type : Kind → Nat
  | .logger => 2
  | .eventManager => 3
  | .linkRegistry => 4
  | .resolver => 5
  | .scheduler => 6
  | .timeKeeper => 7

/-- `_services` (interface 0, `IService`) and `_models` (interface 1, `IModel`), as containers 0 and
1 of the simulator, which is a composite (Simulator.h:48, 385-386), and the pointers to the standard
services (`_logger`, …). -/
structure Reg where
  comp : Composite
  std : Kind → Option Comp

/-- After the constructor (Simulator.cpp:58-63). -/
def Reg.init (self : Nat) : Reg :=
  ⟨⟨self, [⟨0, -1, 0, []⟩, ⟨0, -1, 1, []⟩], false, [], []⟩, fun _ => none⟩

/-- What a call raises. (Simulator.cpp:571-614.) -/
inductive Exn
  | invalidState
  | container (e : Verif.Tree.Exn)
deriving DecidableEq, Repr

/-- The states in which components may be added (Simulator.cpp:574-576, 586-588). -/
def open? : Verif.Sim.St → Bool
  | .building | .connecting | .standby => true
  | _ => false

/-- `RegisterService` (Simulator.cpp:595-607), without the message that is logged. -/
def register (service : Comp) (std : Kind → Option Comp) (k : Kind) : Kind → Option Comp :=
  fun j => if j = k then
    match std k with
    | some v => some v
    | none => if k.type ∈ service.types then some service else none
  else std j

/-- `AddService` in a state of the simulator (Simulator.cpp:584-614). -/
def Reg.addService (r : Reg) (st : Verif.Sim.St) (x : Comp) : Reg × Option Exn :=
  if open? st then
    match addComponent r.comp false 0 x with
    | (_, some e) => (r, some (.container e))
    | (c, none) =>
      (⟨c, [.logger, .eventManager, .linkRegistry, .resolver, .scheduler, .timeKeeper].foldl
        (register x) r.std⟩, none)
  else (r, some .invalidState)

/-- `AddModel` (Simulator.cpp:571-582). -/
def Reg.addModel (r : Reg) (st : Verif.Sim.St) (x : Comp) : Reg × Option Exn :=
  if open? st then
    match addComponent r.comp false 1 x with
    | (_, some e) => (r, some (.container e))
    | (c, none) => (⟨c, r.std⟩, none)
  else (r, some .invalidState)

/-- `DeleteComponent` of one of the two containers, which anyone gets by `GetContainer`
(Container.h:294-301): nothing tells the simulator. -/
def Reg.delete (r : Reg) (i : Nat) (x : Comp) : Reg × Option Exn :=
  match deleteComponent r.comp i x with
  | (_, some e) => (r, some (.container e))
  | (c, none) => (⟨c, r.std⟩, none)

/-- `GetService` (Simulator.cpp:616-619). For a null name a `string_view` is built from a null
pointer, which is undefined: `none`. -/
def Reg.getService (r : Reg) : Option String → Option (Option Comp)
  | none => none
  | some n => some ((r.comp.containers[0]?).bind fun c => c.comps.find? fun x => x.name = n)

/-- The calls. (Simulator.cpp:571-619.) -/
inductive Op
  | addService (st : Verif.Sim.St) (x : Comp)
  | addModel (st : Verif.Sim.St) (x : Comp)
  | delete (i : Nat) (x : Comp)

/-- One call. (Simulator.cpp:571-619.) -/
def step (r : Reg) : Op → Reg × Option Exn
  | .addService st x => r.addService st x
  | .addModel st x => r.addModel st x
  | .delete i x => r.delete i x

/-- A sequence of calls. Of the model only (sequences of the calls of Simulator.cpp:571-619). -/
def run (r : Reg) (ops : List Op) : Reg := ops.foldl (fun r o => (step r o).1) r

end Verif.Sim.Service
