import Verif.Sched.Defects

/-
`Simulator::Run(Duration)` (src/Xsmp/Simulator.cpp:306-329) and the delayed form of
`Simulator::Hold` (Simulator.cpp:331-359) on top of the scheduler machine of
`Sched/Model.lean`.

`Run(d)` posts a one-shot event whose entry point, a local variable of `Run`, calls
`Hold(false)`; that subscribes `_holdImmediately` to PreSimTimeChange; at the next
emission of it `_holdImmediately` unsubscribes itself and calls `Hold(true)`, which
makes the scheduler leave its loop.

Simplifications: the simulator state is `Executing` exactly while `hold` is false (see
`Sim/` for the simulator itself); a second `Hold(false)` while one is pending, which
throws `EntryPointAlreadySubscribed` in the code, has no effect; `_holdImmediately`
runs after the other subscribers of PreSimTimeChange.
-/
namespace Verif.Sched.RunFor

/-- The scheduler and what `Run(duration)` has posted (Simulator.cpp:306-329). -/
structure RState where
  s : State
  /-- `_holdImmediately` is subscribed to PreSimTimeChange -/
  armed : Bool
  deriving DecidableEq, Repr

/-- The step from log `l` to log `l'` invoked entry point `H`. Of the model only (the calls of
XsmpScheduler.cpp:416). -/
def invoked (H : Nat) (l l' : List Obs) : Bool :=
  match l' with
  | .called _ ep _ :: l₀ => (ep == H) && (l₀ == l)
  | _ => false

/-- What happens next (Simulator.cpp:284-359, XsmpScheduler.cpp:125-665). -/
inductive RInput
  | op (o : Op)
  /-- `Hold(false)` called by the application -/
  | holdLater
  | run
  | tick (delayed : Bool)
  deriving DecidableEq, Repr

/-- `Hold(false)` (Simulator.cpp:333-335, 352-358); no effect unless executing. -/
def holdLater (f : RState) : RState := { f with armed := f.armed || !f.s.hold }

/-- One step. At the end of the emission of PreSimTimeChange `_holdImmediately`, if
subscribed, unsubscribes itself and calls `Hold(true)` (Simulator.cpp:340-347 and
Simulator.h). Entry point `H` of `Run(d)` calls `Hold(false)` (Simulator.cpp:322-324);
entry point 0 is the scheduler's own `_HoldEvent`, which calls `Hold(true)`
(XsmpScheduler.cpp:667-670). -/
def rstep (H : Nat) (f : RState) : RInput → RState
  | .op o => { f with s := step f.s (.op o) }
  | .holdLater => holdLater f
  | .run => { f with s := step f.s .run }
  | .tick d =>
    if f.s.pc = .preEmit ∧ f.armed = true then
      { s := step (step f.s (.op .hold)) (.tick d), armed := false }
    else
      let f' : RState := { f with s := step f.s (.tick d) }
      if invoked 0 f.s.log f'.s.log then { f' with s := step f'.s (.op .hold) }
      else if invoked H f.s.log f'.s.log then holdLater f' else f'

/-- Of the model only (executions of Simulator.cpp:284-359 and XsmpScheduler.cpp:592-665). -/
def rexec (H : Nat) (f : RState) (is : List RInput) : RState := is.foldl (rstep H) f

/-- `Run(d)` up to the start of the loop (Simulator.cpp:314-317, 284-304). If the
scheduler rejects the event the exception leaves `Run` before the loop. -/
def runFor (H : Nat) (f : RState) (d : Int) : RState :=
  match apply f.s (.addTimed .simulation H d 0 0) with
  | (s1, .id _) => { f with s := step s1 .run }
  | (s1, _) => { f with s := s1 }

/-! ### Vocabulary -/

def RInput.ok (f : RState) : RInput → Prop
  | .op o => o.ok f.s
  | _ => True

/-- The calls of the execution avoid the defects listed at `Op.ok`. -/
def ROk (H : Nat) : RState → List RInput → Prop
  | _, [] => True
  | f, i :: is => i.ok f ∧ ROk H (rstep H f i) is

/-- No call of the execution is about event `n`. -/
def RUntouched (n : Int) (is : List RInput) : Prop :=
  ∀ i ∈ is, ∀ o, i = .op o → ¬ o.touches n

/-- Nobody sets the simulation time directly (`ITimeKeeper::SetSimulationTime`). -/
def NoJump (is : List RInput) : Prop := ∀ t, .op (.setSimTime t) ∉ is

/-! ### Lemmas -/

/-- The scheduler inputs of one step. (Simulator.cpp:306-329 in terms of
XsmpScheduler.cpp:168-177, 592-605.) -/
def lower (f : RState) : RInput → List Input
  | .op o => [.op o]
  | .holdLater => []
  | .run => [.run]
  | .tick d =>
    if f.s.pc = .preEmit ∧ f.armed = true then [.op .hold, .tick d]
    else if invoked 0 f.s.log (step f.s (.tick d)).log then [.tick d, .op .hold] else [.tick d]

theorem rstep_s (H : Nat) (f : RState) (i : RInput) :
    (rstep H f i).s = exec f.s (lower f i) := by
  cases i with
  | tick d =>
    simp only [rstep, lower]
    split
    · rfl
    · split
      · rfl
      · split <;> rfl
  | _ => rfl

theorem lower_ok {f : RState} {i : RInput} (h : i.ok f) : OkRun f.s (lower f i) := by
  cases i with
  | op o => exact ⟨h, trivial⟩
  | holdLater => trivial
  | run => exact ⟨trivial, trivial⟩
  | tick d =>
    simp only [lower]; split
    · exact ⟨trivial, trivial, trivial⟩
    · split
      · exact ⟨trivial, trivial, trivial⟩
      · exact ⟨trivial, trivial⟩

theorem lower_untouched {f : RState} {i : RInput} {n : Int}
    (h : ∀ o, i = .op o → ¬ o.touches n) : Untouched n (lower f i) := by
  intro j hj o ho
  subst ho
  cases i with
  | op o' => simp [lower] at hj; subst hj; exact h _ rfl
  | holdLater => simp [lower] at hj
  | run => simp [lower] at hj
  | tick d =>
    simp only [lower] at hj
    split at hj
    · simp at hj; subst hj; simp [Op.touches]
    · split at hj <;> simp at hj
      subst hj; simp [Op.touches]

theorem step_fault_none {H : Nat} {f : RState} {i : RInput} (h : (rstep H f i).s.fault = none) :
    f.s.fault = none := by
  rw [rstep_s] at h; exact fault_none_of_exec h

/-- The loop only advances the time when it is waiting to do so, and it only gets there
from the emission of PreSimTimeChange without hold. -/
theorem tick_still {s : State} (d : Bool) (hw : s.pc ≠ .waiting) :
    (tick s d).now = s.now ∧
    ((tick s d).pc = .waiting → s.pc = .preEmit ∧ s.hold = false) := by
  have hstore : ∀ (s : State) rest, s.pc ≠ .waiting → (storeRest s rest).now = s.now ∧
      (storeRest s rest).pc ≠ .waiting := by
    intro s rest h; unfold storeRest; split <;> simp [State.fail, h]
  have himmF : ∀ (s : State) r, s.pc ≠ .waiting → (immFalse s r).now = s.now ∧
      (immFalse s r).pc ≠ .waiting := by
    intro s r h; cases r <;> simp only [immFalse]
    · simp
    · simp
    · exact hstore _ _ h
  have hres : ∀ (s : State) f, s.pc ≠ .waiting → (resume s f).now = s.now ∧
      (resume s f).pc ≠ .waiting := by
    intro s f h; cases f <;> simp only [resume] <;> split
    · exact himmF _ _ h
    · simp
    · exact hstore _ _ h
    · simp
  have hfin : ∀ (s : State) id f, s.pc ≠ .waiting → (finish s id f).now = s.now ∧
      (finish s id f).pc ≠ .waiting := by
    intro s id f h
    unfold finish
    split
    · simp [State.fail, h]
    · split
      · exact hres _ _ h
      · split
        · exact hres _ _ h
        · simp [State.fail, h]
  have hse : ∀ (s : State) id f, s.pc ≠ .waiting → (startExec s id f).now = s.now ∧
      (startExec s id f).pc ≠ .waiting := by
    intro s id f h
    unfold startExec
    split
    · simp [State.fail, h]
    · split
      · simp [State.fail, h]
      · exact hfin _ _ _ h
      · simp
  have himmT : ∀ (s : State) r, (immTrue s r).now = s.now ∧ (s.pc ≠ .waiting →
      (immTrue s r).pc ≠ .waiting) := by
    intro s r; cases r <;> simp only [immTrue, enterSlot] <;> (try split) <;> simp
  unfold tick
  split <;> rename_i hpc
  · simp [hpc]
  · split
    · exact ⟨(himmT _ _).1, fun h => absurd h ((himmT _ _).2 hw)⟩
    · simp
  · simp
  · exact ⟨(hse s _ _ hw).1, fun h => absurd h (hse s _ _ hw).2⟩
  · split <;> simp_all
  · exact absurd hpc hw
  · simp
  · split
    · simp [State.fail, hpc]
    · split
      · split <;> simp [enterSlot]
      · simp
  · simp
  · exact ⟨(hse s _ _ hw).1, fun h => absurd h (hse s _ _ hw).2⟩
  · exact ⟨(hfin { s with current := -1 } _ _ hw).1,
      fun h => absurd h (hfin { s with current := -1 } _ _ hw).2⟩

theorem storeRest_hold (s : State) (rest : List Int) :
    (storeRest s rest).hold = s.hold ∧ ((storeRest s rest).fault = none →
      (storeRest s rest).pc = .idle) := by
  unfold storeRest; split <;> simp [State.fail]

theorem resume_hold (s : State) (f : Frame) :
    (resume s f).hold = s.hold ∧ (s.pc ≠ .idle → (resume s f).pc = .idle → s.hold = true) := by
  have hstore : ∀ (s : State) rest, (storeRest s rest).hold = s.hold :=
    fun s rest => (storeRest_hold s rest).1
  cases f with
  | imm rest r =>
    simp only [resume]; split
    · rename_i h
      refine ⟨?_, fun _ _ => h⟩
      cases r <;> simp only [immFalse] <;> (try rfl)
      exact hstore _ _
    · simp
  | due rest =>
    simp only [resume]; split
    · rename_i h; exact ⟨hstore _ _, fun _ _ => h⟩
    · simp

theorem finish_hold (s : State) (id : Int) (f : Frame) :
    (finish s id f).hold = s.hold ∧ (s.pc ≠ .idle → (finish s id f).pc = .idle → s.hold = true) := by
  unfold finish
  split
  · exact ⟨rfl, fun h h' => absurd h' h⟩
  · split
    · exact resume_hold _ _
    · split
      · exact resume_hold _ _
      · exact ⟨rfl, fun h h' => absurd h' h⟩

theorem startExec_hold (s : State) (id : Int) (f : Frame) :
    (startExec s id f).hold = s.hold ∧
    (s.pc ≠ .idle → (startExec s id f).pc = .idle → s.hold = true) := by
  unfold startExec
  split
  · exact ⟨rfl, fun h h' => absurd h' h⟩
  · split
    · exact ⟨rfl, fun h h' => absurd h' h⟩
    · exact finish_hold _ _ _
    · simp

/-- The loop does not change the hold request, and it ends only because of one or because
the table of events is exhausted. -/
theorem tick_hold (s : State) (d : Bool) :
    (tick s d).hold = s.hold ∧ (s.pc ≠ .idle → (tick s d).pc = .idle →
      s.hold = true ∨ (s.pc = .immTest .start ∧ s.imm = [] ∧ s.table.minKey = none) ∨
      (s.pc = .slotTest ∧ slotOf s.table s.iter = [] ∧ s.table.nextKey s.iter = none)) := by
  unfold tick
  split <;> rename_i hpc
  · exact ⟨rfl, fun h => absurd hpc h⟩
  · rename_i r
    split
    · rename_i hi
      cases r <;> simp only [immTrue, enterSlot]
      · split <;> simp_all
      · simp
      · simp
    · simp
  · simp
  · exact ⟨(startExec_hold s _ _).1, fun h h' => Or.inl ((startExec_hold s _ _).2 h h')⟩
  · split <;> simp_all
  · split
    · exact ⟨rfl, fun h h' => absurd h' h⟩
    · split
      · rename_i h1 h2; simp at h2; exact ⟨rfl, fun _ _ => Or.inl h2.2⟩
      · split
        · exact ⟨rfl, fun h h' => absurd h' h⟩
        · rename_i hs
          have := congrArg (fun p => p.1.hold) hs
          simp only [setSimTime] at this
          refine ⟨?_, fun _ h => by simp at h⟩
          simp only
          rw [← this]
          (repeat' split) <;> rfl
  · simp
  · split
    · exact ⟨rfl, fun h h' => absurd h' h⟩
    · split
      · rename_i h1
        split
        · rename_i h2; exact ⟨rfl, fun _ _ => Or.inr (Or.inr ⟨hpc, h1, h2⟩)⟩
        · simp [enterSlot]
      · simp
  · simp
  · exact ⟨(startExec_hold s _ _).1, fun h h' => Or.inl ((startExec_hold s _ _).2 h h')⟩
  · refine ⟨(finish_hold _ _ _).1, fun h h' => Or.inl ?_⟩
    exact (finish_hold { s with current := -1 } _ _).2 h h'

/-- A step that appends an observation is a tick that appends one, about the current time,
and leaves the loop away from `waiting`. -/
theorem tick_newlog {s : State} (d : Bool) (h : (tick s d).log ≠ s.log) :
    (∃ o, (tick s d).log = o :: s.log ∧ o.time = s.now) ∧ s.pc ≠ .waiting ∧ s.pc ≠ .preEmit := by
  cases hsil : s.pc.silent with
  | true => exact absurd (tick_silent d hsil).2.1 h
  | false =>
    have key : ∀ id f, (startExec s id f).log ≠ s.log →
        ∃ o, (startExec s id f).log = o :: s.log ∧ o.time = s.now := by
      intro id f hh
      rcases startExec_id (s := s) (id := id) (f := f) with h1 | ⟨_, h1 | ⟨e, _, _, h1⟩⟩
      · exact absurd h1 hh
      · exact ⟨_, h1, rfl⟩
      · exact ⟨_, h1, rfl⟩
    match hpc : s.pc with
    | .immFor (id' :: rest) r' =>
      have e : tick s d = startExec s id' (.imm rest r') := by simp [tick, hpc]
      rw [e] at h ⊢
      exact ⟨key _ _ h, by simp, by simp⟩
    | .slotFor (id' :: rest) =>
      have e : tick s d = startExec s id' (.due rest) := by simp [tick, hpc]
      rw [e] at h ⊢
      exact ⟨key _ _ h, by simp, by simp⟩
    | .cb id' f =>
      have e : tick s d = finish { s with current := -1 } id' f := by simp [tick, hpc]
      rw [e] at h
      exact absurd (by rw [(finish_log _ _ _).1]) h
    | .idle | .immTest _ | .immFor [] _ | .preEmit | .waiting | .postEmit | .slotTest
    | .slotFor [] => rw [hpc] at hsil; simp [PC.silent] at hsil

/-- What holds of event `n` posted by `Run(d)` for time `t`, between the start of the
loop and the next `Run`. -/
structure Track (n t : Int) (H : Nat) (f : RState) : Prop where
  prog : ∃ m, Prog n t 0 0 .simulation H [] f.s m
  held : occ n f.s.log ≠ [] → f.s.now = t ∧
    (f.s.pc = .idle ∨ (f.s.pc ≠ .waiting ∧ (f.armed = true ∨ f.s.hold = true)))

theorem Prog.next_le {n t : Int} {H : Nat} {s : State} {m : Nat} (hs : Reach s)
    (h : Prog n t 0 0 .simulation H [] s m) (h0 : occ n s.log = []) : s.now ≤ t := by
  have hb := (h.bounds hs.inv (by simp)).2
  obtain ⟨O, hO, hS⟩ := h.occs
  rw [h0] at hO
  have : O = [] := by simpa using hO.symm
  subst this
  have hm : m = 0 := by have := congrArg List.length hS.1; simpa using this.symm
  apply Classical.byContradiction
  intro hc
  have := hb 0 (by simp) (by simp; omega)
  omega

theorem apply_now {s : State} {o : Op} (h : ∀ t, o ≠ .setSimTime t) :
    (apply s o).1.now = s.now := by
  cases o <;> simp only [apply, addImmediate, addTimed, addEvent, addZulu, setTimed, setEventTime,
    setZulu, setCycle, setRepeat, remove, setEpochTime, setMissionStart,
    setMissionTime, State.fail, State.eraseKey] <;> (repeat' split) <;>
    first | rfl | (exact (unpost_fields s _ _).2.2.2.2.2.2.1) | skip
  rename_i t; exact absurd rfl (h t)

theorem after_tick (H : Nat) (f : RState) (d : Bool) (hf0 : f.s.fault = none)
    (hft : (tick f.s d).fault = none) :
    let F := (if invoked 0 f.s.log (step f.s (.tick d)).log = true then
        ({ s := step (step f.s (.tick d)) (.op .hold), armed := f.armed } : RState)
      else if invoked H f.s.log (step f.s (.tick d)).log = true then
        holdLater { s := step f.s (.tick d), armed := f.armed }
      else { s := step f.s (.tick d), armed := f.armed })
    F.s.log = (tick f.s d).log ∧ F.s.now = (tick f.s d).now ∧ F.s.pc = (tick f.s d).pc ∧
    ((tick f.s d).hold = true → F.s.hold = true) ∧ (f.armed = true → F.armed = true) ∧
    (invoked H f.s.log (tick f.s d).log = true → F.armed = true ∨ F.s.hold = true) := by
  simp only [step_tick d hf0, step_op _ hft, apply]
  split
  · simp
  · split
    · simp only [holdLater]
      refine ⟨trivial, trivial, trivial, id, fun h => by simp [h], fun _ => ?_⟩
      cases (tick f.s d).hold <;> simp
    · rename_i h1 h2
      exact ⟨rfl, rfl, rfl, fun h => h, fun h => h, fun h => absurd h h2⟩

theorem Track.step {n t : Int} {H : Nat} {f : RState} {i : RInput} (h : Track n t H f)
    (hs : Reach f.s) (hok : i.ok f) (hu : ∀ o, i = .op o → ¬ o.touches n)
    (hrun : i ≠ .run) (hj : ∀ t, i ≠ .op (.setSimTime t))
    (hf : (rstep H f i).s.fault = none) :
    Reach (rstep H f i).s ∧ Track n t H (rstep H f i) := by
  have hf0 := hs.fault
  have hfe := hf
  rw [rstep_s] at hfe
  have hr : Reach (rstep H f i).s := by rw [rstep_s]; exact hs.exec (lower_ok hok) hfe
  refine ⟨hr, ?_, ?_⟩
  · obtain ⟨m, hm⟩ := h.prog
    rw [rstep_s]
    exact hm.exec hs (lower_ok hok) (lower_untouched hu) hfe
  · intro hocc
    cases i with
    | op o =>
      simp only [rstep, step_op o hf0] at hocc ⊢
      obtain ⟨g1, g2, _, _⟩ := apply_log f.s o
      rw [g1] at hocc
      obtain ⟨q1, q2⟩ := h.held hocc
      rw [g2, apply_now (fun t ht => hj t (by rw [ht])), q1]
      refine ⟨rfl, ?_⟩
      rcases q2 with q2 | ⟨q2, q3⟩
      · exact Or.inl q2
      · refine Or.inr ⟨q2, ?_⟩
        rcases q3 with q3 | q3
        · exact Or.inl q3
        · right
          cases o <;> simp only [apply, addImmediate, addTimed, addEvent, addZulu, setTimed,
            setEventTime, setZulu, setCycle, setRepeat, remove, setSimTime, setEpochTime,
            setMissionStart, setMissionTime, State.fail, State.eraseKey] <;> (repeat' split) <;>
            simp_all [unpost_fields]
    | holdLater =>
      simp only [rstep, holdLater] at hocc ⊢
      obtain ⟨q1, q2⟩ := h.held hocc
      refine ⟨q1, ?_⟩
      rcases q2 with q2 | ⟨q2, q3⟩
      · exact Or.inl q2
      · refine Or.inr ⟨q2, ?_⟩
        rcases q3 with q3 | q3
        · left; simp [q3]
        · exact Or.inr q3
    | run => exact absurd rfl hrun
    | tick d =>
      simp only [rstep] at hocc hf ⊢
      split
      · rename_i hpre
        rw [if_pos hpre] at hocc hf
        have e : Sched.step (Sched.step f.s (.op .hold)) (.tick d) =
            { f.s with hold := true, pc := .idle } := by
          rw [step_op _ hf0, step_tick d (by exact hf0)]
          simp only [apply, tick, hpre.1]
          simp
        rw [e] at hocc ⊢
        exact ⟨(h.held hocc).1, Or.inl rfl⟩
      · rename_i hpre
        rw [if_neg hpre] at hocc hf
        have hft : (tick f.s d).fault = none := by
          simp only [step_tick d hf0] at hf
          split at hf
          · exact step_fault_none (H := H) (f := ⟨tick f.s d, false⟩) (i := .op .hold) hf
          · split at hf <;> exact hf
        obtain ⟨g1, g2, g3, g4, g5, g6⟩ := after_tick H f d hf0 hft
        generalize hF : (if invoked 0 f.s.log (Sched.step f.s (.tick d)).log = true then
            ({ s := Sched.step (Sched.step f.s (.tick d)) (.op .hold), armed := f.armed } : RState)
          else if invoked H f.s.log (Sched.step f.s (.tick d)).log = true then
            holdLater { s := Sched.step f.s (.tick d), armed := f.armed }
          else { s := Sched.step f.s (.tick d), armed := f.armed }) = F at *
        rw [g1] at hocc
        rw [g2, g3]
        by_cases hold : occ n f.s.log = []
        · -- the event is called now
          have hne : (tick f.s d).log ≠ f.s.log := by
            intro hh; apply hocc; rw [hh]; exact hold
          obtain ⟨⟨o, ho, hot⟩, hw, hp⟩ := tick_newlog d hne
          obtain ⟨m', hm'⟩ : ∃ m, Prog n t 0 0 .simulation H [] (tick f.s d) m := by
            obtain ⟨m, hm⟩ := h.prog
            have e1 : exec f.s [.tick d] = tick f.s d := by
              rw [exec_cons, step_tick d hf0]; rfl
            rw [← e1]
            refine hm.exec hs (is := [.tick d]) ⟨trivial, trivial⟩ ?_ ?_
            · intro j hj o' ho'; simp at hj; subst hj; cases ho'
            · rw [e1]; exact hft
          have hon : o.id = n := by
            apply Classical.byContradiction
            intro hc
            apply hocc
            rw [ho]; unfold occ; rw [List.filter_cons_of_neg (by simpa using hc)]; exact hold
          have hocc' : occ n (tick f.s d).log = [o] := by
            rw [ho]; unfold occ
            rw [List.filter_cons_of_pos (by simpa using hon)]
            have : List.filter (fun o => decide (o.id = n)) f.s.log = [] := hold
            rw [this]
          obtain ⟨O, hO, hS⟩ := hm'.occs
          rw [hocc', List.append_nil] at hO
          subst hO
          have hcall : o = .called n H o.time := by
            rcases hS.2 o (by simp) with hh | hh
            · exact hh
            · exact absurd rfl hh.2
          have hm1 : m' = 1 := by have := congrArg List.length hS.1; simpa using this.symm
          subst hm1
          have htime : o.time = t := by
            have := hS.1; simpa using this
          have hch : invoked H f.s.log (tick f.s d).log = true := by
            rw [ho, hcall]; simp [invoked]
          have hst := tick_still d hw
          exact ⟨by rw [hst.1, ← hot, htime], Or.inr ⟨fun hh => hp (hst.2 hh).1, g6 hch⟩⟩
        · obtain ⟨q1, q2⟩ := h.held hold
          rcases q2 with q2 | ⟨q2, q3⟩
          · have : tick f.s d = f.s := by simp [tick, q2]
            rw [this]; exact ⟨q1, Or.inl q2⟩
          · have hst := tick_still d q2
            refine ⟨by rw [hst.1, q1], Or.inr ⟨?_, ?_⟩⟩
            · intro hw
              obtain ⟨w1, w2⟩ := hst.2 hw
              rcases q3 with q3 | q3
              · exact hpre ⟨w1, q3⟩
              · rw [w2] at q3; simp at q3
            · rcases q3 with q3 | q3
              · exact Or.inl (g5 q3)
              · exact Or.inr (g4 (by rw [(tick_hold _ _).1]; exact q3))

theorem Track.exec {n t : Int} {H : Nat} {f : RState} {is : List RInput} (h : Track n t H f)
    (hs : Reach f.s) (hok : ROk H f is) (hu : RUntouched n is) (hrun : .run ∉ is)
    (hj : NoJump is) (hf : (rexec H f is).s.fault = none) :
    Reach (rexec H f is).s ∧ Track n t H (rexec H f is) := by
  induction is generalizing f with
  | nil => exact ⟨hs, h⟩
  | cons i is ih =>
    have hfi : (rstep H f i).s.fault = none := by
      have key : ∀ (is : List RInput) (g : RState), (rexec H g is).s.fault = none →
          g.s.fault = none := by
        intro is
        induction is with
        | nil => exact fun _ h => h
        | cons i is ih => intro g hg; exact step_fault_none (ih (rstep H g i) hg)
      exact key is _ hf
    obtain ⟨r1, r2⟩ := h.step hs hok.1 (hu i (by simp)) (fun hh => hrun (by simp [hh]))
      (fun t hh => hj t (by simp [hh])) hfi
    exact ih r2 r1 hok.2 (fun k hk => hu k (List.mem_cons_of_mem _ hk))
      (fun hh => hrun (List.mem_cons_of_mem _ hh)) (fun t hh => hj t (List.mem_cons_of_mem _ hh)) hf

theorem runFor_track {f : RState} {H : Nat} {d n : Int} (hs : Reach f.s)
    (hidle : f.s.pc = .idle)
    (hadd : (apply f.s (.addTimed .simulation H d 0 0)).2 = .id n) :
    (runFor H f d).s.fault = none → Reach (runFor H f d).s ∧
      Track n (f.s.now + d) H (runFor H f d) := by
  intro hf
  have e : (runFor H f d).s = exec f.s [.op (.addTimed .simulation H d 0 0), .run] := by
    rw [exec_cons, step_op _ hs.fault, exec_cons]
    unfold runFor
    generalize hp : apply f.s (.addTimed .simulation H d 0 0) = pr at hadd
    obtain ⟨s1, r⟩ := pr
    simp only at hadd; subst hadd; rfl
  have hok : OkRun f.s [.op (.addTimed .simulation H d 0 0), .run] := by
    refine ⟨?_, trivial, trivial⟩
    intro t _; simp [PostOk, hidle, PC.early]
  rw [e] at hf
  have hr : Reach (runFor H f d).s := by rw [e]; exact hs.exec hok hf
  obtain ⟨hid, hlast⟩ := apply_id hadd
  have hfresh : occ n f.s.log = [] := hs.occ_fresh (by omega)
  have hs1 : (apply f.s (.addTimed .simulation H d 0 0)).1.fault = none := by
    have := fault_none_of_exec (s := step f.s (.op (.addTimed .simulation H d 0 0))) (is := [.run])
      (by exact hf)
    rw [step_op _ hs.fault] at this; exact this
  have hr1 : Reach (apply f.s (.addTimed .simulation H d 0 0)).1 := by
    have := hs.step (i := .op (.addTimed .simulation H d 0 0)) hok.1
      (by rw [step_op _ hs.fault]; exact hs1)
    rw [step_op _ hs.fault] at this; exact this
  have hrec : n ∈ slotOf (apply f.s (.addTimed .simulation H d 0 0)).1.table (f.s.now + d) ∧
      (apply f.s (.addTimed .simulation H d 0 0)).1.events.find n =
        some ⟨H, f.s.now + d, f.s.now + d, 0, 0, .simulation⟩ ∧
      (apply f.s (.addTimed .simulation H d 0 0)).1.log = f.s.log := by
    simp only [apply, addTimed, target, simTarget] at hadd ⊢
    split at hadd
    · simp at hadd
    · rename_i t ht
      have ht' := (chk_some ht).1
      unfold addEvent at hadd ⊢
      split at hadd
      · simp at hadd
      · rename_i h1
        simp only [ne_eq, not_true_eq_false, false_and, if_false] at hadd ⊢
        split at hadd
        · simp at hadd
        · rename_i m hm
          simp only [Res.id.injEq] at hadd
          subst hadd
          try simp only [if_neg h1]
          subst ht'
          exact ⟨by rw [mem_slotOf_post]; exact Or.inl ⟨rfl, rfl⟩,
            OMap.find_insert_self _ _ _, trivial⟩
  generalize hg : (apply f.s (.addTimed .simulation H d 0 0)).1 = s1 at *
  obtain ⟨hslot, hfind, hlog⟩ := hrec
  have huq := hr1.inv.uniq n
  have hprog : Prog n (f.s.now + d) 0 0 .simulation H [] s1 0 := by
    refine ⟨⟨[], by rw [hlog, hfresh]; rfl, by simp [Seen]⟩, ⟨?_, ?_, ?_⟩, by omega, by simp, ?_⟩
    · intro h; have := huq .slot .imm ⟨_, hslot⟩ h; simp at this
    · intro h; have := huq .slot .immRest ⟨_, hslot⟩ h; simp at this
    · intro h; have := huq .slot .running ⟨_, hslot⟩ (PC.immRun_running h); simp at this
    · left
      refine ⟨?_, _, hfind, rfl, rfl, rfl, by simp, by simp, by simp⟩
      intro h; have := huq .slot .running ⟨_, hslot⟩ h; simp at this
  have e2 : (runFor H f d).s = step s1 .run := by
    rw [e, exec_cons, step_op _ hs.fault, hg]; rfl
  refine ⟨hr, ?_, ?_⟩
  · have := hprog.exec hr1 (is := [.run]) ⟨trivial, trivial⟩
      (by intro j hj o ho; simp at hj; subst hj; cases ho)
      (by have := hr.fault; rw [e2] at this; exact this)
    rw [e2]; exact this
  · intro hocc
    exfalso; apply hocc
    rw [e2]
    have : (step s1 .run).log = s1.log := by
      unfold step; rw [if_neg (by simp [hs1])]; simp only; split <;> rfl
    rw [this, hlog]; exact hfresh

/-! ### C14 -/

/-- **C14 (partial), time.** From `Run(d)` until the next `Run`, whatever is posted,
moved, removed and held meanwhile, the simulation time is never later than start + d; and
once the hold event of `Run(d)` has been executed it stays exactly start + d and the
scheduler no longer knows the event when the loop has ended. Missing: `SetSimulationTime`
(see `C14_jump_fails`), the calls excluded by `Op.ok`, and the event of an interrupted
`Run(d)` (see `C14_fails`). -/
theorem C14_bound_partial {f : RState} {H : Nat} {d n : Int} (hs : Reach f.s)
    (hidle : f.s.pc = .idle)
    (hadd : (apply f.s (.addTimed .simulation H d 0 0)).2 = .id n)
    {is : List RInput} (hok : ROk H (runFor H f d) is) (hu : RUntouched n is)
    (hrun : .run ∉ is) (hj : NoJump is)
    (hf : (rexec H (runFor H f d) is).s.fault = none) :
    let g := (rexec H (runFor H f d) is).s
    g.now ≤ f.s.now + d ∧
    (occ n g.log ≠ [] → g.now = f.s.now + d ∧ (g.pc = .idle → g.events.find n = none)) := by
  intro g
  have hf0 : (runFor H f d).s.fault = none := by
    have key : ∀ (is : List RInput) (g : RState), (rexec H g is).s.fault = none →
        g.s.fault = none := by
      intro is
      induction is with
      | nil => exact fun _ h => h
      | cons i is ih => intro g hg; exact step_fault_none (ih (rstep H g i) hg)
    exact key is _ hf
  obtain ⟨r0, t0⟩ := runFor_track hs hidle hadd hf0
  obtain ⟨r1, t1⟩ := t0.exec r0 hok hu hrun hj hf
  obtain ⟨m, hm⟩ := t1.prog
  refine ⟨?_, fun ho => ⟨(t1.held ho).1, ?_⟩⟩
  · by_cases ho : occ n g.log = []
    · exact Prog.next_le r1 hm ho
    · have := (t1.held ho).1; show g.now ≤ _; rw [show g.now = _ from this]; omega
  · intro hpc
    obtain ⟨O, hO, hS⟩ := hm.occs
    rw [List.append_nil] at hO
    have hml : O.length = m := by have := congrArg List.length hS.1; simpa using this
    rcases hm.status with ⟨_, e, _, _, _, _, _, _, h7⟩ | ⟨h1, _⟩ | ⟨_, h2, _⟩
    · have : m = 0 := by have := h7 (by omega); omega
      rw [this] at hml
      exact absurd (hO.trans (List.eq_nil_of_length_eq_zero hml)) ho
    · have : g.pc.running = some n := h1
      rw [hpc] at this; simp [PC.running] at this
    · exact h2

/-- What holds of the scheduler's own hold event `z`. -/
structure Ends (z t : Int) (b : Nat) (f : RState) : Prop where
  prog : ∃ m base, base.length = b ∧ Prog z t 0 0 .simulation 0 base f.s m
  done : b < (occ z f.s.log).length → f.s.hold = true
  idle : f.s.pc = .idle → f.s.hold = true

/-- Nothing is left in the table and nothing is running: the event has been executed. -/
theorem gone {z t : Int} {base : List Obs} {s : State} {m : Nat} (hs : Reach s)
    (h : Prog z t 0 0 .simulation 0 base s m) (hslot : ∀ k, z ∉ slotOf s.table k)
    (hd : z ∉ s.pc.dueRest) (hr : s.pc.running ≠ some z) :
    base.length < (occ z s.log).length := by
  have hnone : s.events.find z = none := by
    cases hf : s.events.find z with
    | none => rfl
    | some e =>
      exfalso
      have hk : e.kind ≠ .zulu := by
        rcases h.status with ⟨_, e', h1, _, _, h4, _⟩ | ⟨h1, _⟩ | ⟨_, h2, _⟩
        · rw [hf] at h1; cases h1; rw [h4]; simp
        · exact absurd h1 hr
        · rw [hf] at h2; cases h2
      obtain ⟨l, hl⟩ := hs.inv.cover z e hf hk
      cases l with
      | slot => obtain ⟨k, hk⟩ := hl; exact hslot k hk
      | imm => exact h.noimm.1 hl
      | immRest => exact h.noimm.2.1 hl
      | dueRest => exact hd hl
      | running => exact hr hl
  rcases h.status with ⟨_, e', h1, _⟩ | ⟨h1, _⟩ | ⟨_, _, _, hm⟩
  · rw [hnone] at h1; cases h1
  · exact absurd h1 hr
  · obtain ⟨O, hO, hS⟩ := h.occs
    have : O.length = m := by have := congrArg List.length hS.1; simpa using this
    rw [hO, List.length_append]; omega

theorem apply_hold {s : State} (o : Op) (h : s.hold = true) : (apply s o).1.hold = true := by
  cases o <;> simp only [apply, addImmediate, addTimed, addEvent, addZulu, setTimed,
    setEventTime, setZulu, setCycle, setRepeat, remove, setSimTime, setEpochTime,
    setMissionStart, setMissionTime, State.fail, State.eraseKey] <;> (repeat' split) <;>
    simp_all [unpost_fields]

theorem Ends.step {z t : Int} {b : Nat} {H : Nat} {f : RState} {i : RInput} (h : Ends z t b f)
    (hs : Reach f.s) (hok : i.ok f) (hu : ∀ o, i = .op o → ¬ o.touches z)
    (hrun : i ≠ .run) (hf : (rstep H f i).s.fault = none) :
    Reach (rstep H f i).s ∧ Ends z t b (rstep H f i) := by
  have hf0 := hs.fault
  have hfe := hf
  rw [rstep_s] at hfe
  have hr : Reach (rstep H f i).s := by rw [rstep_s]; exact hs.exec (lower_ok hok) hfe
  obtain ⟨m, base, hb, hm⟩ := h.prog
  have hprog : ∃ m base, base.length = b ∧ Prog z t 0 0 .simulation 0 base (rstep H f i).s m := by
    obtain ⟨m', hm'⟩ := hm.exec hs (lower_ok hok) (lower_untouched hu) hfe
    exact ⟨m', base, hb, by rw [rstep_s]; exact hm'⟩
  suffices hh : (b < (occ z (rstep H f i).s.log).length → (rstep H f i).s.hold = true) ∧
      ((rstep H f i).s.pc = .idle → (rstep H f i).s.hold = true) from ⟨hr, hprog, hh.1, hh.2⟩
  cases i with
  | op o =>
    simp only [rstep, step_op o hf0]
    obtain ⟨g1, g2, _, _⟩ := apply_log f.s o
    rw [g1, g2]
    exact ⟨fun hh => apply_hold o (h.done hh), fun hh => apply_hold o (h.idle hh)⟩
  | holdLater => exact ⟨h.done, h.idle⟩
  | run => exact absurd rfl hrun
  | tick d =>
    simp only [rstep] at hf ⊢
    split
    · rename_i hpre
      have e : Sched.step (Sched.step f.s (.op .hold)) (.tick d) =
          { f.s with hold := true, pc := .idle } := by
        rw [step_op _ hf0, step_tick d (by exact hf0)]
        simp only [apply, tick, hpre.1]
        simp
      rw [e]; exact ⟨fun _ => rfl, fun _ => rfl⟩
    · rename_i hpre
      rw [if_neg hpre] at hf
      have hft : (tick f.s d).fault = none := by
        simp only [step_tick d hf0] at hf
        split at hf
        · exact step_fault_none (H := H) (f := ⟨tick f.s d, false⟩) (i := .op .hold) hf
        · split at hf <;> exact hf
      by_cases hinv : invoked 0 f.s.log (Sched.step f.s (.tick d)).log = true
      · rw [if_pos hinv]
        simp only [step_tick d hf0, step_op _ hft, apply]
        exact ⟨fun _ => trivial, fun _ => trivial⟩
      · rw [if_neg hinv]
        have e1 : exec f.s [.tick d] = tick f.s d := by rw [exec_cons, step_tick d hf0]; rfl
        have hrt : Reach (tick f.s d) := by
          rw [← e1]; exact hs.exec (is := [.tick d]) ⟨trivial, trivial⟩ (by rw [e1]; exact hft)
        obtain ⟨m', hm'⟩ : ∃ m, Prog z t 0 0 .simulation 0 base (tick f.s d) m := by
          rw [← e1]
          refine hm.exec hs (is := [.tick d]) ⟨trivial, trivial⟩ ?_ (by rw [e1]; exact hft)
          intro j hj o' ho'; simp at hj; subst hj; cases ho'
        have hdone : b < (occ z (tick f.s d).log).length → (tick f.s d).hold = true := by
          intro hlt
          rw [(tick_hold _ _).1]
          by_cases hlog : (tick f.s d).log = f.s.log
          · rw [hlog] at hlt; exact h.done hlt
          · obtain ⟨⟨o, ho, _⟩, _, _⟩ := tick_newlog d hlog
            by_cases hon : o.id = z
            · have hmem : o ∈ occ z (tick f.s d).log := by
                rw [ho]; unfold occ; rw [List.filter_cons_of_pos (by simpa using hon)]; simp
              obtain ⟨O, hO, hS⟩ := hm'.occs
              have hOc : ∃ O', O = o :: O' := by
                cases O with
                | nil =>
                  exfalso
                  rw [hO] at hlt; simp only [List.nil_append] at hlt; omega
                | cons a O' =>
                  rw [ho] at hO; unfold occ at hO
                  rw [List.filter_cons_of_pos (by simpa using hon)] at hO
                  simp only [List.cons_append, List.cons.injEq] at hO
                  exact ⟨O', by rw [hO.1]⟩
              obtain ⟨O', rfl⟩ := hOc
              have hcall : o = .called z 0 o.time := by
                rcases hS.2 o (by simp) with hh | hh
                · exact hh
                · exact absurd rfl hh.2
              exfalso; apply hinv
              rw [step_tick d hf0, ho, hcall]; simp [invoked]
            · apply h.done
              rw [ho] at hlt; unfold occ at hlt ⊢
              rw [List.filter_cons_of_neg (by simpa using hon)] at hlt; exact hlt
        have hidle : (tick f.s d).pc = .idle → (tick f.s d).hold = true := by
          intro hpc
          by_cases hi : f.s.pc = .idle
          · rw [(tick_hold _ _).1]; exact h.idle hi
          · rcases (tick_hold f.s d).2 hi hpc with hh | ⟨h1, h2, h3⟩ | ⟨h1, h2, h3⟩
            · rw [(tick_hold _ _).1]; exact hh
            · rw [(tick_hold _ _).1]
              apply h.done
              rw [← hb]
              refine gone hs hm ?_ (by simp [h1, PC.dueRest, Ret.dueRest])
                (by simp [h1, PC.running])
              intro k hk; rw [OMap.minKey_none h3] at hk; simp [slotOf] at hk
            · rw [(tick_hold _ _).1]
              apply h.done
              rw [← hb]
              refine gone hs hm ?_ (by simp [h1, PC.dueRest]) (by simp [h1, PC.running])
              intro k hk
              obtain ⟨l, hl, _⟩ := mem_slotOf hk
              have a1 := OMap.nextKey_none h3 hl
              have a2 := hs.inv.liveKeys (by simp [h1, PC.live]) k l hl
              have : k = f.s.iter := by omega
              rw [this, h2] at hk; simp at hk
        simp only [step_tick d hf0]
        split <;> exact ⟨hdone, hidle⟩

/-- **C14 (partial), held.** As long as the scheduler's own hold event `z` (entry point 0)
is waiting when `Run` or `Run(d)` starts the loop and the application does not touch it,
the loop ends only with a hold in effect. Missing: as above. -/
theorem C14_held_partial {f : RState} {H : Nat} (hs : Reach f.s) (hnidle : f.s.pc ≠ .idle)
    {z : Int} {e : Event} (he : f.s.events.find z = some e) (hep : e.ep = 0) (hrep : e.rep = 0)
    (hcyc : e.cycle = 0) (hk : e.kind = .simulation) (hslot : z ∈ slotOf f.s.table e.next)
    {is : List RInput} (hok : ROk H f is) (hu : RUntouched z is) (hrun : .run ∉ is)
    (hf : (rexec H f is).s.fault = none) :
    (rexec H f is).s.pc = .idle → (rexec H f is).s.hold = true := by
  have huq := hs.inv.uniq z
  have h0 : Ends z e.next (occ z f.s.log).length f := by
    refine ⟨⟨0, occ z f.s.log, rfl, ⟨[], rfl, by simp [Seen]⟩, ⟨?_, ?_, ?_⟩, ?_, by simp, ?_⟩,
      fun h => absurd h (by omega), fun h => absurd h hnidle⟩
    · intro h; have := huq .slot .imm ⟨_, hslot⟩ h; simp at this
    · intro h; have := huq .slot .immRest ⟨_, hslot⟩ h; simp at this
    · intro h; have := huq .slot .running ⟨_, hslot⟩ (PC.immRun_running h); simp at this
    · have := hs.inv.ids z e he; have := hs.inv.last; omega
    · left
      refine ⟨?_, e, he, hep, hcyc, hk, by simp, by simp [hrep], by simp⟩
      intro h; have := huq .slot .running ⟨_, hslot⟩ h; simp at this
  clear hnidle he hslot huq
  generalize (occ z f.s.log).length = b at h0
  induction is generalizing f with
  | nil => exact h0.idle
  | cons i is ih =>
    have hfi : (rstep H f i).s.fault = none := by
      have key : ∀ (is : List RInput) (g : RState), (rexec H g is).s.fault = none →
          g.s.fault = none := by
        intro is
        induction is with
        | nil => exact fun _ h => h
        | cons i is ih => intro g hg; exact step_fault_none (ih (rstep H g i) hg)
      exact key is _ hf
    obtain ⟨r1, r2⟩ := h0.step hs hok.1 (hu i (by simp)) (fun hh => hrun (by simp [hh])) hfi
    exact ih r1 hok.2 (fun k hk => hu k (List.mem_cons_of_mem _ hk))
      (fun hh => hrun (List.mem_cons_of_mem _ hh)) hf r2

/-- `n` steps of the loop. Of the model only (the loop of XsmpScheduler.cpp:592-665). -/
def rticks (n : Nat) : List RInput := List.replicate n (.tick false)

instance decROk (H : Nat) : (f : RState) → (is : List RInput) → Decidable (ROk H f is)
  | _, [] => isTrue trivial
  | f, i :: is =>
    have := decROk H (rstep H f i) is
    have : Decidable (i.ok f) := by cases i <;> unfold RInput.ok <;> infer_instance
    inferInstanceAs (Decidable (i.ok f ∧ ROk H (rstep H f i) is))

/-- An event every 4 units, then `Run(10)`. -/
def start : RState := ⟨exec init [.op (.addTimed .simulation 1 4 4 (-1))], false⟩

/-- The hypotheses of the two theorems are met; `Run(10)` ends at time 10. -/
example : Reach start.s ∧ start.s.pc = .idle ∧
    (apply start.s (.addTimed .simulation 9 10 0 0)).2 = .id 1 ∧
    ROk 9 (runFor 9 start 10) (rticks 60) ∧ RInput.run ∉ rticks 60 ∧
    (rexec 9 (runFor 9 start 10) (rticks 60)).s.fault = none ∧
    (rexec 9 (runFor 9 start 10) (rticks 60)).s.pc = .idle ∧
    (rexec 9 (runFor 9 start 10) (rticks 60)).s.now = 10 ∧
    (runFor 9 start 10).s.events.find (-2) = some ⟨0, maxI64, maxI64, 0, 0, .simulation⟩ ∧
    (-2) ∈ slotOf (runFor 9 start 10).s.table maxI64 ∧
    (rexec 9 (runFor 9 start 10) (rticks 60)).s.hold = true := by
  refine ⟨⟨_, ?_, rfl, ?_⟩, ?_, ?_, ?_, ?_, ?_, ?_, ?_, ?_, ?_, ?_⟩ <;> decide +kernel

/-- **C14 fails**: `Run(10)` interrupted at time 4 by another party returns with its hold
event still in the scheduler, referring to a local variable of `Run`; the next run
executes it. -/
theorem C14_fails : ∃ (f : RState) (is js : List RInput) (n : Int), Reach f.s ∧
    f.s.pc = .idle ∧ (apply f.s (.addTimed .simulation 9 10 0 0)).2 = .id n ∧
    (∃ g, g = rexec 9 (runFor 9 f 10) is ∧ g.s.fault = none ∧ g.s.pc = .idle ∧ g.s.hold = true ∧
      (g.s.events.find n).isSome ∧
      occ n (rexec 9 g (.run :: js)).s.log = [.called n 9 10]) :=
  ⟨start, rticks 7 ++ [.op .hold] ++ rticks 2, rticks 40, 1, ⟨_, by decide, rfl, by decide⟩,
    by decide, by decide, ⟨_, rfl, by decide, by decide, by decide, by decide, by decide +kernel⟩⟩

/-- **C14 fails** if a subscriber of PreSimTimeChange advances the simulation time after
the hold event was executed: the run ends later than start + d. -/
theorem C14_jump_fails : ∃ (f : RState) (is : List RInput) (n : Int), Reach f.s ∧
    f.s.pc = .idle ∧ (apply f.s (.addTimed .simulation 9 10 0 0)).2 = .id n ∧
    (rexec 9 (runFor 9 f 10) is).s.fault = none ∧
    (rexec 9 (runFor 9 f 10) is).s.pc = .idle ∧ f.s.now + 10 < (rexec 9 (runFor 9 f 10) is).s.now :=
  ⟨⟨init, false⟩, rticks 11 ++ [.op (.setSimTime 12)] ++ rticks 2, 0,
    ⟨[], trivial, rfl, rfl⟩, by decide, by decide, by decide, by decide, by decide⟩

end Verif.Sched.RunFor
