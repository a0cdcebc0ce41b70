import Verif.Sched.ZuluRunProps

/-! Periods of repeated Zulu events (C79). -/
namespace Verif.Sched.Zulu
open Verif

/-- Every event that is repeated a number of times has a positive period. -/
def State.Periods (s : State) : Prop :=
  ∀ id e, s.events.find id = some e → 0 < e.rep → 0 < e.cycle

theorem periods_events {s s' : State} (h : s'.events = s.events) (hs : s.Periods) : s'.Periods := by
  intro id e he; rw [h] at he; exact hs id e he

theorem periods_insert {s s' : State} {id : Int} {e : Ev} (h : s'.events = s.events.insert id e)
    (he : 0 < e.rep → 0 < e.cycle) (hs : s.Periods) : s'.Periods := by
  intro j f hf
  rw [h, OMap.find_insert] at hf
  split at hf
  · cases hf; exact he
  · exact hs j f hf

theorem periods_erase {s s' : State} {id : Int} (h : s'.events = s.events.erase id)
    (hs : s.Periods) : s'.Periods := by
  intro j f hf
  rw [h, OMap.find_erase] at hf
  split at hf
  · cases hf
  · exact hs j f hf

theorem periods_finish {s : State} {k id : Int} {rest : List Int} (hs : s.Periods) :
    (s.finish k id rest).Periods := by
  unfold State.finish
  split
  · exact periods_events (s := s) rfl hs
  · rename_i e he
    split
    · exact periods_erase (s := s) rfl hs
    · split
      · exact periods_events (s := s) rfl hs
      · refine periods_insert (s := s) rfl ?_ hs
        have := hs id e he
        simp only
        split
        · intro _; exact this (by omega)
        · omega

theorem look_events (s : State) : s.look.events = s.events := by
  unfold State.look; split <;> rfl

theorem periods_tick {s : State} (hs : s.Periods) : s.tick.Periods := by
  unfold State.tick
  split
  · split
    · exact periods_events (s := s) rfl hs
    · split <;> exact periods_events (s := s) rfl hs
  · split <;> exact periods_events (s := s) rfl hs
  · split
    · exact periods_events (s := s) rfl hs
    · split
      · exact periods_events (s := s) rfl hs
      · exact periods_finish (periods_events (s := s) rfl hs)
  · exact periods_finish hs
  · split
    · exact periods_events (s := s) rfl hs
    · split <;> exact periods_events (s := s) rfl hs
  · split
    · exact hs
    · exact periods_events (s := s) (look_events s) hs
  · split
    · exact hs
    · exact periods_events (s := s) (look_events s) hs
  · exact hs

theorem periods_step {s : State} (hs : s.Periods) (i : Input) : (step s i).Periods := by
  unfold step
  split
  · exact hs
  split
  · exact hs
  cases i with
  | tick => exact periods_tick hs
  | spurious =>
    simp only
    split
    · exact periods_events (s := s) (look_events s) hs
    · exact periods_events (s := s) (look_events s) hs
    · exact hs
  | advance d => exact periods_events (s := s) rfl hs
  | simState a => exact periods_events (s := s) rfl hs
  | other => simp only; split <;> exact periods_events (s := s) rfl hs
  | add seen ep t c r =>
    simp only [State.add]
    split
    · split
      · exact hs
      split
      · exact hs
      split
      · exact periods_events (s := s) rfl hs
      · exact periods_insert (s := s) rfl (by simp only; omega) hs
    · exact hs
  | setTime seen id t =>
    simp only [State.setTime]
    split
    · split
      · exact hs
      · rename_i e he
        split
        · exact periods_erase (s := s) rfl hs
        · exact periods_insert (s := s) rfl (hs id e he) hs
    · exact hs
  | setCycle id c =>
    simp only [State.setCycle]
    split
    · exact hs
    · split
      · exact hs
      · exact periods_insert (s := s) rfl (by simp only; omega) hs
  | setRepeat id r =>
    simp only [State.setRepeat]
    split
    · exact hs
    · split
      · exact hs
      · exact periods_insert (s := s) rfl (by simp only; omega) hs
  | remove id =>
    simp only [State.remove]
    split
    · exact hs
    · split
      · exact periods_insert (s := s) rfl (by simp) hs
      · exact periods_erase (s := s) rfl hs
  | disconnect => exact periods_events (s := s) rfl hs

/-- **C79.** In every history, a Zulu event to be repeated a given number of times has a positive
period: its occurrences come later and later. -/
theorem C79_periods_partial {s : State} (hs : ReachAny s) {id : Int} {e : Ev}
    (he : s.events.find id = some e) (hr : 0 < e.rep) : 0 < e.cycle := by
  have : s.Periods := by
    clear he
    induction hs with
    | init c => intro id e he; cases he
    | step i _ ih => exact periods_step ih i
  exact this id e he hr

example : ReachAny (ex1 24) ∧ (ex1 24).events.find 0 = some ⟨7, 20, 5, 0⟩ ∧
    (ex1 10).events.find 0 = some ⟨7, 15, 5, 1⟩ :=
  ⟨(ex1_reachT 24).reach.any, by decide, by decide⟩

/-- An event repeated for ever whose period was then set to zero, due. -/
def spin (log : List Obs) : State :=
  { events := [(0, ⟨7, 10, 0, -1⟩)], table := [(10, [0])], lastId := 0, terminate := false,
    clock := 10, active := true, notified := false, pc := .slot 10, fault := none, log := log }

theorem spin_turn (log : List Obs) :
    run (spin log) (List.replicate 4 .tick) = spin (.called 0 7 10 :: log) := rfl

theorem spin_turns (n : Nat) : ∀ log, run (spin log) (List.replicate (4 * n) .tick) =
    spin (List.replicate n (.called 0 7 10) ++ log) := by
  induction n with
  | zero => intro log; rfl
  | succ n ih =>
    intro log
    rw [Nat.mul_succ, Nat.add_comm, ← List.replicate_append_replicate]
    show run (spin log) _ = _
    unfold run at *
    rw [List.foldl_append]
    have := spin_turn log
    unfold run at this
    rw [this, ih]
    rw [List.replicate_succ', List.append_assoc]; rfl

/-- **C79 does not hold** of an event repeated for ever (-1): `SetEventCycleTime` accepts a period
of zero for it, and then the thread calls its entry point again and again while the clock stands
still; it never comes to rest. -/
theorem C79_period_fails :
    let s := run (init 0) [.tick, .simState true, .add 0 7 10 5 (-1), .setCycle 0 0, .advance 10,
      .tick, .tick]
    ReachAny s ∧ ∀ n, (run s (List.replicate (4 * n) .tick)).log = List.replicate n (.called 0 7 10) ∧
      (run s (List.replicate (4 * n) .tick)).asleep = false := by
  refine ⟨?_, ?_⟩
  · unfold run
    simp only [List.foldl]
    repeat apply ReachAny.step
    exact .init 0
  · intro n
    have e : run (init 0) [.tick, .simState true, .add 0 7 10 5 (-1), .setCycle 0 0, .advance 10,
      .tick, .tick] = spin [] := by decide
    rw [e, spin_turns]
    simp [spin, State.asleep]

end Verif.Sched.Zulu
