import Verif.Sim.Matched

/-! What C138 and C139 speak of. -/
namespace Verif.Sim.Matched
open Verif.Tree (LState)

/-- What was seen of the life of the component `c`: `DoConnect` was called, it was disconnected, it
was destroyed. -/
def life (c : Nat) (tr : List Obs) : List Obs :=
  tr.filter (fun o => o = .connect c || o = .disconnect c || o = .destroy c)

/-- The component was destroyed, once, and what was connected was disconnected before, once. -/
def Matched (c : Nat) (tr : List Obs) : Prop :=
  life c tr = [.destroy c] ∨ life c tr = [.connect c, .disconnect c, .destroy c]

/-- The component was destroyed connected. -/
def Left (c : Nat) (tr : List Obs) : Prop := life c tr = [.connect c, .destroy c]

/-- The component `c` is in the forest, in this state. -/
inductive Has : Forest → Nat → LState → Prop
  | here {c st kids rest} : Has (.cons c st kids rest) c st
  | kid {c st kids rest d x} : Has kids d x → Has (.cons c st kids rest) d x
  | rest {c st kids rest d x} : Has rest d x → Has (.cons c st kids rest) d x

/-- The component `d` is below the component `c`. -/
inductive Under (c : Nat) : Forest → Nat → LState → Prop
  | here {st kids rest d x} : Has kids d x → Under c (.cons c st kids rest) d x
  | kid {b st kids rest d x} : Under c kids d x → Under c (.cons b st kids rest) d x
  | rest {b st kids rest d x} : Under c rest d x → Under c (.cons b st kids rest) d x

/-- A component of the simulator. -/
def St.Has (s : St) (c : Nat) (st : LState) : Prop :=
  Matched.Has s.svcs c st ∨ Matched.Has s.models c st

/-- A component of the simulator below another one. -/
def St.Under (s : St) (c d : Nat) (st : LState) : Prop :=
  Matched.Under c s.svcs d st ∨ Matched.Under c s.models d st

/-- `DoDisconnect` returns, and calls only what a disconnected service can do. -/
def Mild (h : Hooks) : Prop := h.dis = false ∧ ∀ x ∈ h.calls, x.2.follows = false

/-- What a careful program does: `Connect` and `Reconnect` do not raise, nor do the entry points of
the initialisation, `Store` and `Restore`; it does not abort; `DoDisconnect` is mild in `Exit` and
in the destructor of the simulator; and it deletes a component only if nothing below it is
connected, whose `DoDisconnect` may raise but calls only services that are still connected. -/
def Careful (s : St) : Op → Prop
  | .connect e r =>
    (∀ c, (e c).pub = false ∧ (e c).conf = false ∧ (e c).con = false) ∧ r = false
  | .reconnect e _ => ∀ c, (e c).pub = false ∧ (e c).conf = false ∧ (e c).con = false
  | .initialise r | .store r | .restore r => r = false
  | .exit e | .destroy e => ∀ c, Mild (e c)
  | .abort => False
  | .delete e c =>
    (∀ x ∈ (e c).calls, x.2.follows = true → x.1 ∉ s.off) ∧
      ∀ d st, s.Under c d st → st ≠ .connected
  | _ => True

/-- The states a careful program comes to. -/
inductive Reach : St → Prop
  | init : Reach St.init
  | step {s op} : Reach s → Careful s op → Reach (step s op)

end Verif.Sim.Matched
