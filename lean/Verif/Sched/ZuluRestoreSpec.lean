import Verif.Sched.ZuluRestore
import Verif.Sched.ZuluRunLive

/-! Words used by the theorems on breakpoints and the Zulu thread. -/
namespace Verif.Sched.ZuluRestore
open Verif Verif.Sched.Zulu

/-- What a scheduler writes: numbers given out before, one event for a number, a number in
`_events_table` only for an event that exists, and a positive period for an event that repeats. -/
structure FileOk (f : File) : Prop where
  ids : ∀ id, (∃ e, f.zulu.find id = some e) ∨ (∃ e, f.sims.find id = some e) →
    0 ≤ id ∧ id ≤ f.lastId
  disj : ∀ id e, f.zulu.find id = some e → f.sims.find id = none
  table : ∀ id ∈ f.simIds, ∃ e, f.sims.find id = some e
  pos : ∀ id e, f.zulu.find id = some e → e.rep ≠ 0 → 0 < e.cycle
  last : -1 ≤ f.lastId ∧ f.lastId ≤ maxI64

/-- The Zulu events of the file are those that exist now, at the same times. -/
def Agrees (s : S) : Prop :=
  ∀ id, (s.file.zulu.find id).map (·.next) = (s.z.events.find id).map (·.next)

/-- Inputs that do not meet the known defects: those of the Zulu thread without a breakpoint
(`Input.ok`); and `Restore` only while no entry point runs in the Zulu thread and while the Zulu
events are those of the file. -/
def In.ok (s : S) : In → Prop
  | .z i => i.ok s.z
  | .restore => Agrees s ∧ s.z.pc.current = none
  | _ => True

/-- Schedulers reached by such inputs, from a file that a scheduler wrote. -/
inductive Reach : S → Prop
  | init (c : Int) (f : File) : FileOk f → Reach (init c f)
  | step {s i} : Reach s → In.ok s i → Reach (step s i)

/-- `id` waits nowhere: neither in `_zulu_events_table` nor in the list that the thread is going
through. -/
def Nowhere (s : S) (id : Int) : Prop :=
  (∀ k, id ∉ slotOf s.z.table k) ∧ id ∉ s.z.pc.rest ∧ s.z.pc.cur ≠ some id

/-- No call moves or removes event `id`, and there is no other `Restore`. -/
def In.leaves (id : Int) : In → Prop
  | .z (.setTime _ j _) => j ≠ id
  | .z (.remove j) => j ≠ id
  | .restore => False
  | _ => True

end Verif.Sched.ZuluRestore
