import Verif.Sched.Reach

/-
Vocabulary of the scheduler property statements.
-/
namespace Verif.Sched

/-- Event an observation is about. -/
def Obs.id : Obs → Int
  | .called i _ _ => i
  | .skipped i _ => i

/-- Simulation time of an observation. -/
def Obs.time : Obs → Int
  | .called _ _ t => t
  | .skipped _ t => t

/-- Occurrences of event `n` in a log (same order as the log: newest first). -/
def occ (n : Int) (log : List Obs) : List Obs := log.filter (fun o => o.id = n)

/-- The call is about event `n`: it moves, changes or removes it. -/
def Op.touches (n : Int) : Op → Prop
  | .setTimed _ id _ => id = n
  | .setZulu id _ _ => id = n
  | .setCycle id _ => id = n
  | .setRepeat id _ => id = n
  | .remove id => id = n
  | _ => False

/-- No call of the execution is about event `n`. -/
def Untouched (n : Int) (is : List Input) : Prop :=
  ∀ i ∈ is, ∀ o, i = .op o → ¬ o.touches n

/-- Simulation time denoted by argument `x` of an `Add/SetEvent...Time` call made in
state `s`: relative to now for simulation events, the time at which mission or
epoch time reads `x` otherwise. -/
def dueAt (s : State) : SimKind → Int → Int
  | .simulation, x => s.now + x
  | .mission, x => x + s.missionStart + s.epochStart
  | .epoch, x => x + s.epochStart

/-- Event `id` is a pending or running immediate event. -/
def Immediate (s : State) (id : Int) : Prop :=
  id ∈ s.imm ∨ id ∈ s.pc.immRest ∨ s.pc.immRun = some id

/-- Identifiers returned by the calls of an execution, in order. -/
def returned : State → List Input → List Int
  | _, [] => []
  | s, i :: is =>
    match s.fault, i with
    | none, .op o =>
      match (apply s o).2 with
      | .id n => n :: returned (step s i) is
      | _ => returned (step s i) is
    | _, _ => returned (step s i) is

/-- Where a single-threaded application can make calls: while the loop is idle, in
a running entry point, or in a subscriber of Pre/PostSimTimeChange. -/
def PC.callable : PC → Bool
  | .idle => true
  | .cb _ _ => true
  | .preEmit => true
  | .postEmit => true
  | _ => false

/-- Immediate events are posted by the thread that runs the loop only. -/
def ImmLocal : State → List Input → Prop
  | _, [] => True
  | s, i :: is =>
    ((∃ ep, i = .op (.addImmediate ep)) → s.pc.callable = true) ∧ ImmLocal (step s i) is

end Verif.Sched
