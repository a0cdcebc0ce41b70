import Verif.Sched.Defects

/-
Properties C20 and C21 of the time keeper (XsmpTimeKeeper.cpp), on the scheduler
machine, which contains the time keeper.
-/
namespace Verif.Sched

/-! ### C20 -/

/-- Calls that change the epoch offset. -/
def Op.setsEpoch : Op → Prop
  | .setEpochTime _ => True
  | _ => False

/-- Calls that change the mission start. -/
def Op.setsMission : Op → Prop
  | .setMissionStart _ | .setMissionTime _ => True
  | _ => False

/-- Epoch time in state `s` (without the 64-bit limit). -/
def epochOf (s : State) : Int := s.now - s.epochStart
/-- Mission time in state `s` (without the 64-bit limit). -/
def missionOf (s : State) : Int := s.now - s.epochStart - s.missionStart

/-- The values returned by the code are these, whenever it does not overflow. -/
theorem epochTime_some {s : State} {v : Int} (h : s.epochTime = some v) : v = epochOf s :=
  (chk_some h).1

theorem missionTime_some {s : State} {v : Int} (h : s.missionTime = some v) : v = missionOf s := by
  unfold State.missionTime at h
  simp only [Option.bind_eq_some_iff] at h
  obtain ⟨a, ha, hv⟩ := h
  rw [(chk_some ha).1] at hv
  exact (chk_some hv).1

theorem apply_offsets (s : State) (o : Op) :
    (¬ o.setsEpoch → (apply s o).1.epochStart = s.epochStart) ∧
    (¬ o.setsMission → (apply s o).1.missionStart = s.missionStart) := by
  have hu : ∀ k id, (s.unpost k id).epochStart = s.epochStart ∧
      (s.unpost k id).missionStart = s.missionStart := by
    intro k id; unfold State.unpost State.eraseKey; simp only; split <;> exact ⟨rfl, rfl⟩
  cases o <;> simp only [apply, addImmediate, addTimed, addEvent, addZulu, setTimed, setEventTime,
    setZulu, setCycle, setRepeat, remove, setSimTime, setEpochTime, setMissionStart,
    setMissionTime, State.fail, State.eraseKey, Op.setsEpoch, Op.setsMission] <;>
    (repeat' split) <;> simp_all

theorem resume_offsets (s : State) (f : Frame) : (resume s f).epochStart = s.epochStart ∧
    (resume s f).missionStart = s.missionStart := by
  cases f with
  | imm rest r =>
    cases r <;> simp only [resume, immFalse, storeRest] <;> (repeat' split) <;> simp [State.fail]
  | due rest => simp only [resume, storeRest]; (repeat' split) <;> simp [State.fail]

theorem finish_offsets (s : State) (id : Int) (f : Frame) :
    (finish s id f).epochStart = s.epochStart ∧ (finish s id f).missionStart = s.missionStart := by
  unfold finish
  (repeat' split) <;> simp [State.fail, resume_offsets]

theorem tick_offsets (s : State) (d : Bool) : (tick s d).epochStart = s.epochStart ∧
    (tick s d).missionStart = s.missionStart := by
  have hse : ∀ id f, (startExec s id f).epochStart = s.epochStart ∧
      (startExec s id f).missionStart = s.missionStart := by
    intro id f
    unfold startExec
    (repeat' split) <;> simp [State.fail, finish_offsets]
  unfold tick
  split
  · simp
  · split
    · rename_i r _ _
      cases r <;> simp only [immTrue, enterSlot] <;> (repeat' split) <;> simp
    · simp
  · simp
  · simp [hse]
  · split <;> simp
  · split
    · simp [State.fail]
    · split
      · simp
      · have h1 := apply_offsets s (.setSimTime s.iter)
        simp only [apply, Op.setsEpoch, Op.setsMission, not_false_eq_true, true_implies] at h1
        split
        · simp [State.fail]
        · rename_i heq; rw [heq] at h1; exact h1
  · simp
  · (repeat' split) <;> simp [State.fail, enterSlot]
  · simp
  · simp [hse]
  · simp [finish_offsets]

theorem step_offsets (s : State) (i : Input) :
    ((∀ o, i = .op o → ¬ o.setsEpoch) → (step s i).epochStart = s.epochStart) ∧
    ((∀ o, i = .op o → ¬ o.setsMission) → (step s i).missionStart = s.missionStart) := by
  unfold step
  split
  · simp
  · cases i with
    | op o =>
      exact ⟨fun h => (apply_offsets s o).1 (h o rfl), fun h => (apply_offsets s o).2 (h o rfl)⟩
    | run => simp only; split <;> simp
    | tick d => exact ⟨fun _ => (tick_offsets s d).1, fun _ => (tick_offsets s d).2⟩

theorem exec_offsets (s : State) (is : List Input) :
    ((∀ i ∈ is, ∀ o, i = .op o → ¬ o.setsEpoch) → (exec s is).epochStart = s.epochStart) ∧
    ((∀ i ∈ is, ∀ o, i = .op o → ¬ o.setsMission) →
      (exec s is).missionStart = s.missionStart) := by
  induction is generalizing s with
  | nil => exact ⟨fun _ => rfl, fun _ => rfl⟩
  | cons i is ih =>
    rw [exec_cons]
    refine ⟨fun h => ?_, fun h => ?_⟩
    · rw [(ih _).1 (fun j hj => h j (List.mem_cons_of_mem _ hj)),
        (step_offsets s i).1 (h i List.mem_cons_self)]
    · rw [(ih _).2 (fun j hj => h j (List.mem_cons_of_mem _ hj)),
        (step_offsets s i).2 (h i List.mem_cons_self)]

/-- **C20, epoch.** After `SetEpochTime(e)` the epoch time is `e` plus the progress of the
simulation time since, until the next `SetEpochTime`. -/
theorem C20_epoch {s : State} {e : Int} (h : (apply s (.setEpochTime e)).2 = .done)
    (is : List Input) (hno : ∀ i ∈ is, ∀ o, i = .op o → ¬ o.setsEpoch) :
    epochOf (exec (apply s (.setEpochTime e)).1 is) =
      e + ((exec (apply s (.setEpochTime e)).1 is).now - s.now) := by
  have h1 := (exec_offsets (apply s (.setEpochTime e)).1 is).1 hno
  have h2 : (apply s (.setEpochTime e)).1.epochStart = s.now - e := by
    simp only [apply, setEpochTime] at h ⊢
    split at h
    · simp at h
    · rename_i x hx; exact (chk_some hx).1
  unfold epochOf; rw [h1, h2]; omega

/-- **C20, mission.** After `SetMissionTime(m)` the mission time is `m` plus the progress
of the simulation time since, until the next setter; the epoch time is not affected. -/
theorem C20_mission {s : State} {m : Int} (h : (apply s (.setMissionTime m)).2 = .done)
    (is : List Input) (hno : ∀ i ∈ is, ∀ o, i = .op o → ¬ o.setsMission ∧ ¬ o.setsEpoch) :
    missionOf (exec (apply s (.setMissionTime m)).1 is) =
      m + ((exec (apply s (.setMissionTime m)).1 is).now - s.now) ∧
    epochOf (apply s (.setMissionTime m)).1 = epochOf s := by
  have h1 := exec_offsets (apply s (.setMissionTime m)).1 is
  have h1b := h1.2 (fun i hi o ho => (hno i hi o ho).1)
  have h1a := h1.1 (fun i hi o ho => (hno i hi o ho).2)
  have h2 : (apply s (.setMissionTime m)).1.missionStart = s.now - s.epochStart - m ∧
      (apply s (.setMissionTime m)).1.epochStart = s.epochStart ∧
      (apply s (.setMissionTime m)).1.now = s.now := by
    simp only [apply, setMissionTime] at h ⊢
    split at h
    · simp at h
    · rename_i x hx
      simp only [Option.bind_eq_some_iff] at hx
      obtain ⟨a, ha, hv⟩ := hx
      rw [(chk_some ha).1] at hv
      exact ⟨(chk_some hv).1, rfl, rfl⟩
  unfold missionOf epochOf
  rw [h1a, h1b, h2.1, h2.2.1, h2.2.2]
  constructor <;> omega

/-- **C20, mission start.** After `SetMissionStartTime(t)` the mission time is the epoch
time minus `t`, until the next setter of the mission start; the epoch time is not affected. -/
theorem C20_mission_start (s : State) (t : Int) (is : List Input)
    (hno : ∀ i ∈ is, ∀ o, i = .op o → ¬ o.setsMission) :
    missionOf (exec (apply s (.setMissionStart t)).1 is) =
      epochOf (exec (apply s (.setMissionStart t)).1 is) - t ∧
    epochOf (apply s (.setMissionStart t)).1 = epochOf s := by
  have h1 := (exec_offsets (apply s (.setMissionStart t)).1 is).2 hno
  unfold missionOf epochOf
  rw [h1]
  constructor
  · simp [apply, setMissionStart]
  · simp [apply, setMissionStart]

/-- The values read are those of the specification for every value in range. -/
theorem C20_read (s : State) (v : Int) :
    (s.epochTime = some v → v = epochOf s) ∧ (s.missionTime = some v → v = missionOf s) :=
  ⟨epochTime_some, missionTime_some⟩

/-- The setters are used while running; time then advances from 10 to 20. -/
example : (apply (exec init (sample 17)) (.setEpochTime 1000)).2 = .done ∧
    (apply (exec init (sample 17)) (.setMissionTime 500)).2 = .done ∧
    (∀ i ∈ ticks 12, ∀ o, i = .op o → ¬ o.setsMission ∧ ¬ o.setsEpoch) ∧
    (exec (apply (exec init (sample 17)) (.setEpochTime 1000)).1 (ticks 12)).epochTime
      = some 1005 ∧
    (exec (apply (exec init (sample 17)) (.setMissionTime 500)).1 (ticks 12)).missionTime
      = some 505 := by
  refine ⟨by decide, by decide, ?_, by decide, by decide⟩
  intro i hi o ho
  rw [List.eq_of_mem_replicate hi] at ho; simp at ho

/-! ### C21 -/

/-- **C21, calls.** The only call that can change the simulation time is
`SetSimulationTime`, only while a time change is announced, never backwards and never
beyond the next scheduled event; outside of these limits it changes nothing. -/
theorem C21_calls (s : State) (o : Op) :
    (apply s o).1.now = s.now ∨
    ∃ t, o = .setSimTime t ∧ s.changing = true ∧ s.now ≤ t ∧ t ≤ s.nextScheduled ∧
      (apply s o).1.now = t := by
  have hu : ∀ k id, (s.unpost k id).now = s.now := by
    intro k id; unfold State.unpost State.eraseKey; simp only; split <;> rfl
  cases o with
  | setSimTime t =>
    simp only [apply, setSimTime]
    split
    · exact Or.inl rfl
    · split
      · exact Or.inl rfl
      · rename_i h1 h2
        exact Or.inr ⟨t, rfl, by simpa using h1, by omega, by omega, rfl⟩
  | _ =>
    left
    simp only [apply, addImmediate, addTimed, addEvent, addZulu, setTimed, setEventTime,
      setZulu, setCycle, setRepeat, remove, setEpochTime, setMissionStart,
      setMissionTime, State.fail, State.eraseKey]
    repeat' (first | rfl | exact hu _ _ | split)

/-- **C21, loop.** The loop changes the simulation time only in the step between
PreSimTimeChange and PostSimTimeChange, to the announced time, never backwards. -/
theorem C21_loop (s : State) (d : Bool) :
    (tick s d).now = s.now ∨
    (s.pc = .waiting ∧ s.changing = true ∧ (tick s d).now = s.iter ∧ s.now ≤ s.iter ∧
      s.iter ≤ s.nextScheduled ∧ (tick s d).pc = .postEmit) := by
  have hse : ∀ id f, (startExec s id f).now = s.now := by
    intro id f
    unfold startExec
    (repeat' split) <;> simp [State.fail, finish_log]
  match hpc : s.pc with
  | .idle => left; simp [tick, hpc]
  | .immTest r =>
    left
    simp only [tick, hpc]
    split
    · cases r <;> simp only [immTrue, enterSlot] <;> (repeat' split) <;> rfl
    · rfl
  | .immFor [] r => left; simp [tick, hpc]
  | .immFor (id :: rest) r => left; simp [tick, hpc, hse]
  | .preEmit => left; simp only [tick, hpc]; split <;> rfl
  | .waiting =>
    simp only [tick, hpc]
    split
    · exact Or.inl rfl
    · split
      · exact Or.inl rfl
      · have hc := C21_calls s (.setSimTime s.iter)
        simp only [apply] at hc
        split
        · exact Or.inl rfl
        · rename_i heq
          rw [heq] at hc
          rcases hc with hc | ⟨t, ht, h1, h2, h3, h4⟩
          · exact Or.inl hc
          · simp only [Op.setSimTime.injEq] at ht
            subst ht
            exact Or.inr ⟨trivial, h1, h4, h2, h3, rfl⟩
  | .postEmit => left; simp [tick, hpc]
  | .slotTest => left; simp only [tick, hpc]; (repeat' split) <;> simp [State.fail, enterSlot]
  | .slotFor [] => left; simp [tick, hpc]
  | .slotFor (id :: rest) => left; simp [tick, hpc, hse]
  | .cb id f => left; simp [tick, hpc, finish_log]

/-- **C21, window (partial).** While the loop is running, `SetSimulationTime` can have an
effect only between PreSimTimeChange and PostSimTimeChange. Missing: the time keeper
stays in the announced state when the loop is left between the two, see `C21_fails`;
and the calls excluded by `Op.ok`. -/
theorem C21_window_partial {s : State} (hs : Reach s) (hlive : s.pc.live = true) {t : Int}
    (h : (apply s (.setSimTime t)).1.now ≠ s.now) : s.pc = .preEmit ∨ s.pc = .waiting := by
  rcases C21_calls s (.setSimTime t) with hc | ⟨_, _, hc, _⟩
  · exact absurd hc h
  · cases he : s.pc.early with
    | true =>
      unfold PC.early at he
      split at he
      · rename_i h; exact Or.inl h
      · rename_i h; exact Or.inr h
      · simp at he
    | false =>
      have := (hs.inv.late hlive he).2
      rw [this] at hc; simp at hc

/-- Held by a subscriber of PreSimTimeChange, which is what `Hold(false)` does. -/
def heldAtPre : List Input :=
  [.op (.addTimed .simulation 1 10 0 0), .run, .tick false, .op .hold, .tick false]

/-- **C21 fails**: after a hold between the two events, the simulation time can be moved
while the simulation is held (the loop is not running). -/
theorem C21_fails : Reach (exec init heldAtPre) ∧ (exec init heldAtPre).pc = .idle ∧
    (exec init heldAtPre).now = 0 ∧ (apply (exec init heldAtPre) (.setSimTime 7)).1.now = 7 :=
  ⟨⟨_, by decide, rfl, by decide⟩, by decide, by decide, by decide⟩

example : Reach (exec init (sample 5)) ∧ (exec init (sample 5)).pc.live = true ∧
    (apply (exec init (sample 5)) (.setSimTime 7)).1.now = 7 ∧
    (apply (exec init (sample 5)) (.setSimTime 11)).2 = .exn .InvalidSimulationTime ∧
    (apply (exec init (sample 17)) (.setSimTime 12)).1 = exec init (sample 17) :=
  ⟨sample_reach 5 (by decide), by decide, by decide, by decide, by decide⟩

end Verif.Sched
