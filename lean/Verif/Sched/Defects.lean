import Verif.Sched.Props

/-
Histories of the scheduler model that violate the properties C01-C03, C06, C08-C10,
C12 and C13. Each of them uses only public calls made at points where the
application can make them, and each shows that one of the exclusions of `Op.ok` is
needed. The corresponding code is cited at the definitions of `Sched/Model.lean`.
-/
namespace Verif.Sched

/-- `n` steps of the loop. -/
def ticks (n : Nat) : List Input := List.replicate n (.tick false)

/-- Every call of the execution is made where a single-threaded application can. -/
def Callable : State → List Input → Prop
  | _, [] => True
  | s, i :: is =>
    ((∃ o, i = .op o) → s.pc.callable = true) ∧ Callable (step s i) is

instance decCallable : (s : State) → (is : List Input) → Decidable (Callable s is)
  | _, [] => isTrue trivial
  | s, i :: is =>
    have := decCallable (step s i) is
    have : Decidable (∃ o, i = .op o) := by
      cases i with
      | op o => exact isTrue ⟨o, rfl⟩
      | _ => exact isFalse (by rintro ⟨_, h⟩; cases h)
    inferInstanceAs (Decidable (((∃ o, i = .op o) → s.pc.callable = true) ∧
      Callable (step s i) is))

/-! ### C01, C06: moving the running event posts it twice -/

/-- The entry point of event 0 (time 10, cycle 5, 3 repetitions) posts another event at
the current time and then moves event 0 by 5. -/
def moveSelf (n : Nat) : List Input :=
  [.op (.addTimed .simulation 1 10 5 3), .run] ++ ticks 7 ++
  [.op (.addTimed .simulation 2 0 0 0), .op (.setTimed .simulation 0 5)] ++ ticks n

/-- **C01 fails** without the exclusion: event 0 is invoked at time 15 although its due
time is 20. -/
theorem C01_fails : ∃ is e, Callable init is ∧ (exec init is).fault = none ∧
    (step (exec init is) (.tick false)).log = .called 0 1 15 :: (exec init is).log ∧
    (exec init is).events.find 0 = some e ∧ ¬ Immediate (exec init is) 0 ∧ e.next = 20 :=
  ⟨moveSelf 14, ⟨1, 20, 20, 5, 2, .simulation⟩, by decide, by decide, by decide, by decide,
    by unfold Immediate; decide, rfl⟩

/-- **C06 fails** without the exclusion: event 0 waits in two slots. -/
theorem C06_fails : ∃ is, Callable init is ∧ (exec init is).fault = none ∧
    0 ∈ slotOf (exec init is).table 15 ∧ 0 ∈ slotOf (exec init is).table 20 :=
  ⟨moveSelf 8, by decide, by decide, by decide, by decide⟩

/-! ### C02, C13: removing a Zulu event erases a slot of the simulation-time table -/

/-- Event 0 at simulation time 10, event 1 at Zulu time 10; event 1 is removed. -/
def zuluRemoved (n : Nat) : List Input :=
  [.op (.addTimed .simulation 1 10 0 0), .op (.addZulu 2 10 0 0 0), .op (.remove 1),
   .op (.addTimed .simulation 3 20 0 0), .run] ++ ticks n

/-- **C02 fails** without the exclusion: event 0, never touched, has not been executed
although the simulation time is past its due time. -/
theorem C02_fails : ∃ is, Callable init is ∧ Untouched 0 is ∧ (exec init is).fault = none ∧
    (.op (.addTimed .simulation 1 10 0 0)) ∈ is ∧ returned init is = [0, 1, 2] ∧
    10 < (exec init is).now ∧ occ 0 (exec init is).log = [] := by
  refine ⟨zuluRemoved 12, by decide, ?_, by decide, by decide, by decide, by decide, by decide⟩
  intro i hi o ho
  simp only [zuluRemoved, ticks, List.mem_append, List.mem_cons, List.not_mem_nil, or_false,
    List.mem_replicate] at hi
  rcases hi with (rfl | rfl | rfl | rfl | rfl) | ⟨_, rfl⟩ <;>
    simp only [Input.op.injEq, reduceCtorEq] at ho <;> subst ho <;> simp [Op.touches]

/-- **C13 fails** without the exclusion: the same execution with and without the removal
of the Zulu event; with it, the simulation event is not executed any more. -/
theorem C13_fails : ∃ (s : State) (e : Event) (is : List Input), Reach s ∧
    s.events.find 1 = some e ∧ e.kind = .zulu ∧
    occ 0 (exec s is).log = [.called 0 1 10] ∧
    occ 0 (exec (apply s (.remove 1)).1 is).log = [] ∧
    10 < (exec (apply s (.remove 1)).1 is).now := by
  refine ⟨exec init [.op (.addTimed .simulation 1 10 0 0), .op (.addZulu 2 10 0 0 0),
    .op (.addTimed .simulation 3 20 0 0)], ⟨2, 10, 10, 0, 0, .zulu⟩, .run :: ticks 20,
    ⟨_, ?_, rfl, ?_⟩, ?_, rfl, ?_, ?_, ?_⟩ <;> decide

/-- **C04 fails** without the exclusion: events 0 and 2 have the same due time and are left alone,
event 2 is executed and event 0, which comes first, never is. -/
theorem C04_order_fails : ∃ is, Callable init is ∧ (exec init is).fault = none ∧
    returned init is = [0, 1, 2] ∧
    (.op (.addTimed .simulation 1 10 0 0)) ∈ is ∧ (.op (.addTimed .simulation 3 10 0 0)) ∈ is ∧
    (∀ o ∈ is.filterMap (fun i => match i with | .op o => some o | _ => none),
      ¬ o.touches 0 ∧ ¬ o.touches 2) ∧
    occ 2 (exec init is).log = [.called 2 3 10] ∧ occ 0 (exec init is).log = [] := by
  refine ⟨[.op (.addTimed .simulation 1 10 0 0), .op (.addZulu 2 10 0 0 0), .op (.remove 1),
    .op (.addTimed .simulation 3 10 0 0), .run] ++ ticks 12, ?_⟩
  refine ⟨by decide, by decide, by decide, by decide, by decide, ?_, by decide, by decide⟩
  intro o ho
  simp [ticks, List.filterMap_append, List.filterMap_replicate] at ho
  rcases ho with rfl | rfl | rfl | rfl <;> simp [Op.touches]

/-- **C11 fails** without the exclusion: event 0 is due at time 10 and has not been executed,
`GetNextScheduledEventTime` answers 20. -/
theorem C11_fails : ∃ is e, Callable init is ∧ (exec init is).fault = none ∧
    (exec init is).events.find 0 = some e ∧ e.kind = .simulation ∧ e.next = 10 ∧
    occ 0 (exec init is).log = [] ∧ (exec init is).now = 0 ∧
    (exec init is).nextScheduled = 20 :=
  ⟨zuluRemoved 0, ⟨1, 10, 10, 0, 0, .simulation⟩, by decide, by decide, by decide, rfl, rfl,
    by decide, by decide, by decide⟩

/-! ### C03, C10: a non-positive cycle time is accepted for an endless event -/

/-- Event 0 at 10, endless with cycle 5, then the cycle is set to `c`. -/
def badCycle (c : Int) (n : Nat) : List Input :=
  [.op (.addTimed .simulation 1 10 5 (-1)), .op (.setCycle 0 c), .run] ++ ticks n

/-- **C10 fails** without the exclusion: a repeating event with a negative cycle. -/
theorem C10_fails : ∃ is e, Callable init is ∧ (exec init is).fault = none ∧
    (exec init is).events.find 0 = some e ∧ e.rep ≠ 0 ∧ e.cycle = -5 :=
  ⟨badCycle (-5) 0, ⟨1, 10, 10, -5, -1, .simulation⟩, by decide, by decide, by decide, by decide,
    rfl⟩

/-- **C03 fails** without the exclusion: an event waits for a time that has passed. -/
theorem C03_no_skip_fails : ∃ is e, Callable init is ∧ (exec init is).fault = none ∧
    (exec init is).events.find 0 = some e ∧ e.kind ≠ .zulu ∧ ¬ Immediate (exec init is) 0 ∧
    e.next < (exec init is).now :=
  ⟨badCycle (-5) 8, ⟨1, 5, 5, -5, -1, .simulation⟩, by decide, by decide, by decide, by decide,
    by unfold Immediate; decide, by decide⟩

/-- The loop at time 10 with an endless event of cycle 0, after any history `L`. -/
def stuck (L : List Obs) : State where
  events := [(-2, ⟨0, maxI64, maxI64, 0, 0, .simulation⟩), (0, ⟨1, 10, 10, 0, -1, .simulation⟩)]
  table := [(10, []), (maxI64, [-2])]
  zulu := []
  imm := []
  lastId := 0
  current := -1
  hold := false
  now := 10
  epochStart := 0
  missionStart := 0
  changing := false
  pc := .slotFor [0]
  iter := 10
  itOk := true
  fault := none
  log := L

/-- With cycle time 0 one round of the loop ends where it began. -/
theorem stuck_round (L : List Obs) :
    exec (stuck L) (ticks 5) = stuck (.called 0 1 10 :: L) := by
  simp only [ticks, List.replicate, exec, List.foldl, stuck, step, tick, startExec, skipTest,
    OMap.find, finish, resume]
  simp [chk, maxI64, minI64, tick, immTrue, slotOf, post, OMap.insert, OMap.find, IdSet.insert]

/-- **C10, consequence.** With a cycle time 0 the loop never leaves time 10: whatever
the number of rounds, the simulation time stays there and the event with the later
due time is not executed. -/
theorem C10_livelock_fails (n : Nat) :
    (exec init (badCycle 0 6 ++ ticks (5 * n))).now = 10 ∧
    (occ 0 (exec init (badCycle 0 6 ++ ticks (5 * n))).log).length = n := by
  have hstart : exec init (badCycle 0 6) = stuck [] := by decide
  have hrep : ∀ n L, exec (stuck L) (ticks (5 * n)) =
      stuck (List.replicate n (.called 0 1 10) ++ L) := by
    intro n
    induction n with
    | zero => intro L; rfl
    | succ n ih =>
      intro L
      have : ticks (5 * (n + 1)) = ticks 5 ++ ticks (5 * n) := by
        unfold ticks; rw [List.replicate_append_replicate]; congr 1; omega
      rw [this, exec_append, stuck_round, ih]
      congr 1
      rw [List.replicate_succ', List.append_assoc]; rfl
  rw [exec_append, hstart, hrep]
  refine ⟨by rfl, ?_⟩
  simp only [stuck, List.append_nil, occ, List.filter_replicate]
  rw [if_pos (by decide)]; simp

/-! ### C08, C09: removing or moving a pending immediate event -/

/-- **C08 fails** without the exclusion: after an immediate event is removed the run
loop ends with an exception and the other event at time 10 is not executed. -/
theorem C08_fails : ∃ (s : State) (is : List Input), Reach s ∧
    (apply s (.remove 0)).2 = .done ∧
    occ 1 (exec s is).log = [.called 1 2 10] ∧
    (exec (apply s (.remove 0)).1 is).fault = some .outOfRange ∧
    occ 1 (exec (apply s (.remove 0)).1 is).log = [] := by
  refine ⟨exec init [.op (.addImmediate 1), .op (.addTimed .simulation 2 10 0 0)],
    .run :: ticks 20, ⟨_, ?_, rfl, ?_⟩, ?_, ?_, ?_, ?_⟩ <;> decide

/-- **C08 fails** also for an event of the batch being executed: event 0 removes event 1
due at the same time. -/
theorem C08_batch_fails : ∃ (s : State) (is : List Input), Reach s ∧
    (apply s (.remove 1)).2 = .done ∧ s.current = 0 ∧
    (exec (apply s (.remove 1)).1 is).fault = some .outOfRange := by
  refine ⟨exec init ([.op (.addTimed .simulation 1 10 0 0), .op (.addTimed .simulation 2 10 0 0),
    .run] ++ ticks 7), ticks 5, ⟨_, ?_, rfl, ?_⟩, ?_, ?_, ?_⟩ <;> decide

/-- **C09 fails** without the exclusion: an immediate event moved by 10 is executed at
the old time nevertheless. -/
theorem C09_fails : ∃ (s : State) (is : List Input), Reach s ∧
    (apply s (.setTimed .simulation 0 10)).2 = .done ∧
    (exec (apply s (.setTimed .simulation 0 10)).1 is).fault = none ∧
    occ 0 (exec (apply s (.setTimed .simulation 0 10)).1 is).log = [.called 0 1 0] := by
  refine ⟨exec init [.op (.addImmediate 1)], .run :: ticks 3, ⟨_, ?_, rfl, ?_⟩, ?_, ?_, ?_⟩ <;>
    decide

/-! ### C12: every fault can happen -/

/-- **C12 fails**: public calls make the loop use an erased iterator. -/
theorem C12_iterator_fails : ∃ is, Callable init is ∧
    (exec init is).fault = some .danglingIter :=
  ⟨[.op (.addTimed .simulation 1 10 0 0), .run] ++ ticks 7 ++ [.op (.setTimed .simulation 0 5)] ++
    ticks 6, by decide, by decide⟩

/-- **C12 fails**: public calls make `Execute` use an erased event. -/
theorem C12_event_fails : ∃ is, Callable init is ∧
    (exec init is).fault = some .danglingEvent :=
  ⟨[.op (.addTimed .simulation 1 10 0 0), .run] ++ ticks 7 ++
    [.op (.setTimed .simulation 0 (-5))] ++ ticks 6, by decide, by decide⟩

/-- **C12 fails**: public calls make the loop look up an unknown event. -/
theorem C12_lookup_fails : ∃ is, Callable init is ∧ (exec init is).fault = some .outOfRange :=
  ⟨[.op (.addImmediate 1), .op (.remove 0), .run] ++ ticks 4, by decide, by decide⟩

/-- **C12 fails**: an event posted by a subscriber of PreSimTimeChange before the
announced time ends the loop with `InvalidSimulationTime`. -/
theorem C12_announce_fails : ∃ is, Callable init is ∧ (exec init is).fault = some .badTime :=
  ⟨[.op (.addTimed .simulation 1 10 0 0), .run] ++ ticks 1 ++
    [.op (.addTimed .simulation 2 5 0 0)] ++ ticks 4, by decide, by decide⟩

/-- **C12 fails**: rescheduling a repeating event overflows. -/
theorem C12_overflow_fails : ∃ is, Callable init is ∧ (exec init is).fault = some .overflow :=
  ⟨[.op (.addTimed .simulation 1 10 maxI64 1), .run] ++ ticks 10, by decide, by decide⟩

/-- **C12 fails** even without extreme values in the application: the relative time of a
call is added to the simulation time before it is checked. -/
theorem C12_add_overflow_fails : ∃ is, Callable init is ∧
    (exec init is).fault = some .overflow :=
  ⟨[.op (.addTimed .simulation 1 1 0 0), .run] ++ ticks 11 ++
    [.op (.addTimed .simulation 1 maxI64 0 0)], by decide, by decide⟩

end Verif.Sched
