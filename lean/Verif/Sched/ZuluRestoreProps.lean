import Verif.Sched.ZuluRestoreLost

/-! C141: what a breakpoint does to the Zulu events. `Store` and `Restore` of the scheduler cover
its events, the simulation times at which they are due and the last number given out, but not the
Zulu times at which the Zulu events are due (src/Xsmp/Services/XsmpScheduler.cpp:572-582). -/
namespace Verif.Sched.ZuluRestore
open Verif Verif.Sched.Zulu

/-! ### What holds -/

/-- **C141** (part that holds). If `Restore` is only called while no entry point runs in the Zulu
thread and while the Zulu events are those of the file, due at the same times: the scheduler never
uses a number or an event that is not there (the only fault is the overflow of a time or of a
number), and the event that the Zulu thread is about to execute is a Zulu event whose time has come,
not an event of another time scale. Missing: any other `Restore`, for which the statement is
false. -/
theorem C141_safe_partial {s : S} (h : Reach s) :
    (s.z.fault = none ∨ s.z.fault = some .overflow) ∧
    ∀ k id rest, s.z.pc = .toExec k id rest →
      (∃ e, s.z.events.find id = some e ∧ e.next = k ∧ k ≤ s.z.clock) ∧ s.sims.find id = none := by
  refine ⟨h.good.fault, ?_⟩
  intro k id rest hpc
  obtain ⟨e, he, hn⟩ := h.good.inv.batch k id (by rw [hpc]; rfl) (.inr (by rw [hpc]; rfl))
  exact ⟨⟨e, he, hn, (h.good.inv.key k (by rw [hpc]; rfl)).1⟩, h.good.disj id e he⟩

/-- **C141** (part that holds). After such a `Restore` the events of every time scale are those of
the file, and each Zulu event of the file is still waiting for its time (or is among those that the
thread is executing, unless the thread has ended); each number in the table of the simulation times
is that of an event. -/
theorem C141_same_partial {s : S} (h : Reach s) (hok : In.ok s .restore) (hf : s.z.fault = none) :
    (step s .restore).z.events = s.file.zulu ∧ (step s .restore).sims = s.file.sims ∧
    (step s .restore).simIds = s.file.simIds ∧ (step s .restore).z.lastId = s.file.lastId ∧
    (∀ id e, s.file.zulu.find id = some e → s.z.pc ≠ .ended →
      id ∈ slotOf (step s .restore).z.table e.next ∨ id ∈ (step s .restore).z.pc.rest ∨
      (step s .restore).z.pc.cur = some id) ∧
    ∀ id ∈ (step s .restore).simIds, ∃ e, (step s .restore).sims.find id = some e := by
  have hg := (h.step hok).good
  have he : step s .restore =
      { s with z := { s.z with events := s.file.zulu, lastId := s.file.lastId },
               sims := s.file.sims, simIds := s.file.simIds,
               stale := s.stale || s.z.pc.current.isSome } := by
    unfold step; rw [hf]; rfl
  rw [he] at hg ⊢
  exact ⟨rfl, rfl, rfl, rfl, fun id e hx hp => hg.inv.cover id e hx hp, hg.table⟩

/-! ### What does not -/

/-- **C141 fails**: a Zulu event of the file that waits nowhere when `Restore` is called is an event
of the scheduler from then on, but whatever happens, for as long as nobody moves or removes it or
restores again, it is never executed. -/
theorem C141_lost_fails {s : S} {id : Int} {e : Ev} (hf : s.z.fault = none)
    (hfile : s.file.zulu.find id = some e) (hid : id ≤ s.file.lastId) (hn : Nowhere s id)
    (is : List In) (hl : ∀ i ∈ is, i.leaves id) :
    (∃ e', (run (step s .restore) is).z.events.find id = some e') ∧
    ∀ ep w, .called id ep w ∈ (run (step s .restore) is).z.log → .called id ep w ∈ s.z.log := by
  have he : step s .restore =
      { s with z := { s.z with events := s.file.zulu, lastId := s.file.lastId },
               sims := s.file.sims, simIds := s.file.simIds,
               stale := s.stale || s.z.pc.current.isSome } := by
    unfold step; rw [hf]; rfl
  have hc := calm_run is (s := step s .restore) (id := id)
    (by rw [he]; exact ⟨hn.1, hn.2.1, hn.2.2⟩) (by rw [he]; exact hid) hl
  refine ⟨hc.ev (by rw [he]; exact ⟨e, hfile⟩), ?_⟩
  intro ep w hm
  have h1 : Zulu.Obs.called id ep w ∈
      (run (step s .restore) is).z.log.filter (isCall id) :=
    List.mem_filter.2 ⟨hm, by simp [isCall]⟩
  rw [hc.log, he] at h1
  exact (List.mem_filter.1 h1).1

/-- **C141 fails**: if the Zulu event that is due next is not in the file, then after `Restore`, when
its time has come, `_events.at` throws in the Zulu thread, which nothing catches: the process
ends. -/
theorem C141_terminate_fails {s : S} {k id : Int} {rest : List Int} {d : Nat}
    (hf : s.z.fault = none) (hp : s.z.pc = .header) (hk : s.z.table.minKey = some k)
    (hs : slotOf s.z.table k = id :: rest) (hc : k ≤ s.z.clock + d)
    (hz : s.file.zulu.find id = none) (hm : s.file.sims.find id = none) :
    (run s [.restore, .z (.advance d), .z .tick, .z .tick, .z .tick]).z.fault =
      some .outOfRange := by
  have h1 : run s [.restore, .z (.advance d)] =
      { s with z := { s.z with events := s.file.zulu, lastId := s.file.lastId,
                               clock := s.z.clock + d },
               sims := s.file.sims, simIds := s.file.simIds,
               stale := s.stale || s.z.pc.current.isSome } := by
    simp only [run, List.foldl, step, hf, Option.isSome_none, Bool.false_eq_true, if_false,
      Zulu.step, Input.needs, Bool.false_and]
  have h2 : run s [.restore, .z (.advance d), .z .tick, .z .tick, .z .tick] =
      step (run (run s [.restore, .z (.advance d)]) [.z .tick, .z .tick]) (.z .tick) := rfl
  have h4 := tick_due (s := { s with
               z := { s.z with events := s.file.zulu, lastId := s.file.lastId,
                               clock := s.z.clock + d },
               sims := s.file.sims, simIds := s.file.simIds,
               stale := s.stale || s.z.pc.current.isSome })
    (k := k) (id := id) (rest := rest) hf hp hk hs hc
  rw [h2, h1, h4]
  simp only [step, hf, Option.isSome_none, Bool.false_eq_true, if_false, S.tick, hz, hm]
  rw [tick_toExec (k := k) (id := id) (rest := rest) rfl]
  simp only [hz]

/-- **C141 fails**: the numbers given out since the file was written are given out again after
`Restore`, while the Zulu thread still has them. An event of simulation time added then, for
whatever time `t`, is executed by the Zulu thread when the Zulu time of the forgotten event has
come; it is then gone, and the exception of `_events.at` leaves the run loop when `t` has come. -/
theorem C141_reuse_fails {s : S} {k : Int} {rest : List Int} {d ep : Nat} (t c : Int)
    (hf : s.z.fault = none) (hp : s.z.pc = .header) (hk : s.z.table.minKey = some k)
    (hs : slotOf s.z.table k = (s.file.lastId + 1) :: rest) (hc : k ≤ s.z.clock + d)
    (hn : chk (s.file.lastId + 1) = some (s.file.lastId + 1))
    (hz : s.file.zulu.find (s.file.lastId + 1) = none) (ha : s.z.active = true)
    (hst : s.stale = false) :
    let is : List In := [.restore, .addSim ep t c 0, .z (.advance d), .z .tick, .z .tick, .z .tick]
    (run s is).z.log = .called (s.file.lastId + 1) ep (s.z.clock + d) :: s.z.log ∧
    (run s is).z.fault = none ∧
    (run s (is ++ [.z .tick, .fires (s.file.lastId + 1)])).z.fault = some .outOfRange := by
  intro is
  have hcur : s.z.pc.current = none := by rw [hp]; rfl
  have h1 : run s [.restore, .addSim ep t c 0, .z (.advance d)] =
      { s with z := { s.z with events := s.file.zulu, lastId := s.file.lastId + 1,
                               clock := s.z.clock + d },
               sims := s.file.sims.insert (s.file.lastId + 1) ⟨ep, t, c, 0⟩,
               simIds := s.file.simIds ++ [s.file.lastId + 1],
               stale := false } := by
    simp only [run, List.foldl, step, hf, Option.isSome_none, Bool.false_eq_true, if_false,
      Zulu.step, Input.needs, Bool.false_and, ne_eq, not_true_eq_false, false_and, hn, hcur, hst,
      Bool.or_self]
  have h2 : run s is = step (run (run s [.restore, .addSim ep t c 0, .z (.advance d)])
      [.z .tick, .z .tick]) (.z .tick) := rfl
  have h3 : run s (is ++ [.z .tick, .fires (s.file.lastId + 1)]) =
      step (step (run s is) (.z .tick)) (.fires (s.file.lastId + 1)) := rfl
  have h4 := tick_due (s := { s with
               z := { s.z with events := s.file.zulu, lastId := s.file.lastId + 1,
                               clock := s.z.clock + d },
               sims := s.file.sims.insert (s.file.lastId + 1) ⟨ep, t, c, 0⟩,
               simIds := s.file.simIds ++ [s.file.lastId + 1],
               stale := false }) (k := k) (id := s.file.lastId + 1) (rest := rest) hf hp hk hs hc
  rw [h1, h4] at h2
  simp only [step, hf, Option.isSome_none, Bool.false_eq_true, if_false, S.tick, hz,
    OMap.find_insert_self, ha, if_true] at h2
  refine ⟨by rw [h2], by rw [h2], ?_⟩
  rw [h3, h2]
  simp only [step, hf, Option.isSome_none, Bool.false_eq_true, if_false, S.tick, hz,
    OMap.find_insert_self, S.finishSim, if_true, List.mem_append, List.mem_singleton, or_true,
    not_true_eq_false, OMap.find_erase_self]

/-- **C141 fails**: a `Restore` while the entry point of a Zulu event runs destroys the event that
`ExecuteZulu` has a reference to, and the thread uses it when the entry point returns. -/
theorem C141_running_fails {s : S} {k id : Int} {rest : List Int} (hf : s.z.fault = none)
    (hp : s.z.pc = .cb k id rest) :
    (run s [.restore, .z .tick]).z.fault = some .danglingEvent := by
  simp only [run, List.foldl, step, hf, Option.isSome_none, Bool.false_eq_true, if_false, S.tick, hp,
    PC.current, Option.isSome_some, Bool.or_true, if_true]

/-! ### Cases -/

/-- A file with nothing in it. -/
def empty : File := ⟨[], [], [], -1⟩

/-- `C141_safe_partial` and `C141_same_partial`: a Zulu event and an event of simulation time, a
breakpoint stored, the second event removed, the breakpoint restored. -/
example : let s := run (init 0 empty) [.z .tick, .z (.add 0 7 100 10 3), .addSim 8 5 0 0, .store,
      .removeSim 1, .z .tick, .z .tick, .z .tick]
    s.z.fault = none ∧ s.z.pc = .waitFor 100 ∧ s.file.zulu = s.z.events ∧ s.z.pc.current = none ∧
    s.simIds = [] ∧ (step s .restore).simIds = [1] ∧
    (run s [.restore, .z (.simState true), .z (.advance 100), .z .tick, .z .tick, .z .tick,
      .z .tick]).z.log = [.called 0 7 100] := by decide +kernel

/-- `C141_lost_fails`: the file of another process, with a Zulu event due at 100. -/
example : let s := init 0 ⟨[(0, ⟨7, 100, 0, 0⟩)], [], [], 0⟩
    s.z.fault = none ∧ s.file.zulu.find 0 = some ⟨7, 100, 0, 0⟩ ∧ Nowhere s 0 ∧
    (run s ([.restore, .z (.simState true), .z (.advance 1000)] ++
      List.replicate 20 (.z .tick))).z.log = [] := by
  refine ⟨rfl, rfl, ⟨?_, ?_, ?_⟩, by decide +kernel⟩
  · intro k; simp [init, Zulu.init, slotOf]
  · simp [init, Zulu.init, PC.rest]
  · simp [init, Zulu.init, PC.cur]

/-- `C141_terminate_fails`: a breakpoint, then a Zulu event, then `Restore`. -/
example : let s := run (init 0 empty) [.addSim 8 5 0 0, .addSim 9 6 0 0, .store, .z .tick,
      .z (.add 0 7 100 0 0), .z .tick]
    s.z.fault = none ∧ s.z.pc = .header ∧ s.z.table.minKey = some 100 ∧
    slotOf s.z.table 100 = [2] ∧ s.file.zulu.find 2 = none ∧ s.file.sims.find 2 = none ∧
    (run s [.restore, .z (.advance 100), .z .tick, .z .tick, .z .tick]).z.fault =
      some .outOfRange := by decide +kernel

/-- `C141_reuse_fails`: the same; the event added after `Restore` is for time 5000. -/
example : let s := run (init 0 empty) [.addSim 8 5 0 0, .addSim 9 6 0 0, .store, .z .tick,
      .z (.add 0 7 100 0 0), .z .tick, .z (.simState true)]
    s.z.fault = none ∧ s.z.pc = .header ∧ s.z.table.minKey = some 100 ∧
    slotOf s.z.table 100 = [s.file.lastId + 1] ∧
    chk (s.file.lastId + 1) = some (s.file.lastId + 1) ∧
    s.file.zulu.find (s.file.lastId + 1) = none ∧ s.z.active = true ∧ s.stale = false ∧
    (run s [.restore, .addSim 77 5000 0 0, .z (.advance 100), .z .tick, .z .tick, .z .tick]).z.log =
      [.called 2 77 100] := by decide +kernel

/-- `C141_running_fails`: an entry point of a Zulu event runs, with a breakpoint that contains the
event. -/
example : let s := run (init 0 empty) [.z .tick, .z (.add 0 7 0 0 0), .store, .z (.simState true),
      .z .tick, .z .tick, .z .tick, .z .tick]
    s.z.fault = none ∧ s.z.pc = .cb 0 0 [] ∧ s.file.zulu = s.z.events := by decide +kernel

end Verif.Sched.ZuluRestore
