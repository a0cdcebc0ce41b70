import Verif.Sim.Holders

/-!
What C137 says: who keeps a pointer to an entry point, and what a careful program does.
-/
namespace Verif.Sim.Holders

/-- Somebody keeps a pointer to the entry point: an event, a subscription, the list of the
initialisation, or a loop in progress (that executes it, or that has it in its copy). -/
def Held (s : St) (ep : Nat) : Prop :=
  (∃ e ∈ s.events, e.ep = ep) ∨ (∃ evt, (evt, ep) ∈ s.subs) ∨ ep ∈ s.init ∨
  ∃ f ∈ s.stack, (∃ x, f.cur = some (x, ep)) ∨
    ((f.kind = .emission ∨ f.kind = .inits) ∧ ep ∈ f.rest)

/-- A careful program deletes only components whose entry points nobody keeps, removes no event that
the scheduler has already taken or that is immediate, and passes entry points that exist. -/
def Careful (s : St) : Op → Prop
  | .delete c => c ∈ s.comps ∧ ∀ ep, (ep, c) ∈ s.owner → ¬ Held s ep
  | .removeEvent id => id ∉ s.imm ∧
      ∀ f ∈ s.stack, (f.kind = .table ∨ f.kind = .immediate) → id ∉ f.rest
  | .post ep _ => s.live ep = true
  | .postImmediate ep => s.live ep = true
  | .subscribe _ ep => s.live ep = true
  | .unsubscribe _ ep => s.live ep = true
  | .addInit ep => s.live ep = true
  | _ => True

/-- The states of careful programs. -/
inductive Reach : St → Prop
  | start : Reach start
  | step {s op s'} : Reach s → Careful s op → s.step op = some s' → Reach s'

end Verif.Sim.Holders
