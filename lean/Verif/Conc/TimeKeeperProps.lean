import Verif.Conc.TimeKeeper
import Verif.Conc.LockLemmas

/-! Property C93: the time keeper used by several threads. -/
namespace Verif.Conc

/-! ### Specification -/

/-- The times of the time keeper. -/
structure Times where
  sim : Int
  epochStart : Int
  missionStart : Int

/-- What a call does when it is alone: the new times and the values returned. -/
def alone (x : Times) : Call → Times × List Int
  | .getSim => (x, [x.sim])
  | .getMissionStart => (x, [x.missionStart])
  | .getEpoch => (x, [x.sim - x.epochStart])
  | .getMission => (x, [x.sim - x.epochStart - x.missionStart])
  | .setEpoch v => ({ x with epochStart := x.sim - v }, [])
  | .setMissionStart v => ({ x with missionStart := v }, [])
  | .setMission v => ({ x with missionStart := x.sim - x.epochStart - v }, [])
  | .putSim v => ({ x with sim := v }, [])
  | .restore a b c => (⟨a, c, b⟩, [])
  | .store => (x, [x.sim, x.missionStart, x.epochStart])

/-- The times in the data. -/
def times (m : Mem) : Times := ⟨m sim, m epoch, m mission⟩

/-- The threads only make calls of the time keeper, with operands evaluated in any order. -/
def Calls (is : List Input) : Prop :=
  ∀ t tx, Input.start t tx ∈ is → ∃ (c : Call) (l : List (Cell × Bool)), l.Perm c.locks ∧ tx = c.tx l

/-- The threads make the calls with operands evaluated from left to right, and neither store nor
restore. -/
def LeftToRight (is : List Input) : Prop :=
  ∀ t tx, Input.start t tx ∈ is →
    ∃ c : Call, tx = c.tx c.locks ∧ c ≠ .store ∧ ∀ x y z, c ≠ .restore x y z

/-! ### Lemmas -/

theorem call_wf (c : Call) (l : List (Cell × Bool)) (hl : l.Perm c.locks) : (c.tx l).WF where
  nodup := by
    refine (hl.map Prod.fst).nodup_iff.2 ?_
    cases c <;> simp [Call.locks, sim, epoch, mission]
  dep := by
    intro m m' h
    have h' : ∀ d ∈ c.locks.map Prod.fst, m d = m' d := fun d hd =>
      h d ((hl.map Prod.fst).mem_iff.2 hd)
    cases c <;> simp [Call.locks] at h' <;> simp [Call.tx, Call.res, Call.writes, h']
  own := by
    intro m w hw
    show (w.1, true) ∈ l
    rw [hl.mem_iff]
    cases c <;> simp [Call.tx, Call.writes] at hw <;> simp [Call.locks, hw]
    rcases hw with rfl | rfl | rfl <;> simp

theorem calls_wf {is : List Input} (h : Calls is) : Wf is := by
  intro t tx ht
  obtain ⟨c, l, hl, rfl⟩ := h t tx ht
  exact call_wf c l hl

/-- Expressions being evaluated have been started. -/
theorem run_taking (P : Tx → Prop) (is : List Input) (hP : ∀ t tx, Input.start t tx ∈ is → P tx) :
    ∀ s, (∀ t tx todo held regs, s.th t = .taking tx todo held regs → P tx) →
      ∀ t tx todo held regs, (run s is).th t = .taking tx todo held regs → P tx := by
  induction is with
  | nil => intro s h; exact h
  | cons i is ih =>
    intro s h
    apply ih (fun t tx ht => hP t tx (List.mem_cons_of_mem _ ht))
    intro t tx todo held regs ht
    cases i with
    | start u tx' =>
      unfold step at ht
      cases hu : s.th u with
      | idle =>
        simp only [hu] at ht
        by_cases htu : t = u
        · subst htu
          rw [setTh_same] at ht
          cases ht
          exact hP t _ List.mem_cons_self
        · rw [setTh_other s _ htu] at ht; exact h _ _ _ _ _ ht
      | taking _ _ _ _ => simp only [hu] at ht; exact h _ _ _ _ _ ht
      | writing _ _ _ => simp only [hu] at ht; exact h _ _ _ _ _ ht
      | leaving _ _ => simp only [hu] at ht; exact h _ _ _ _ _ ht
    | advance u =>
      have hs : step s (.advance u) = (advance s u).getD s := rfl
      rw [hs] at ht
      cases ha : advance s u with
      | none => rw [ha] at ht; exact h _ _ _ _ _ ht
      | some s' =>
        rw [ha] at ht
        obtain ⟨p, hp, htk, _⟩ := advance_th ha
        change s'.th t = _ at ht
        rw [hp] at ht
        by_cases htu : t = u
        · subst htu
          rw [setTh_same] at ht
          obtain ⟨_, _, _, h'⟩ := htk _ _ _ _ ht
          exact h _ _ _ _ _ h'
        · rw [setTh_other s _ htu] at ht; exact h _ _ _ _ _ ht

/-- The threads of a schedule. -/
def threads : List Input → List Nat
  | [] => []
  | .start t _ :: is => t :: threads is
  | .advance t :: is => t :: threads is

theorem run_idle (is : List Input) (t : Nat) (ht : t ∉ threads is) :
    ∀ s, (run s is).th t = s.th t := by
  induction is with
  | nil => intro s; rfl
  | cons i is ih =>
    intro s
    have hi : t ∉ threads is := by
      intro h; apply ht; cases i <;> exact List.mem_cons_of_mem _ h
    show (run (step s i) is).th t = _
    rw [ih hi]
    cases i with
    | start u tx =>
      have hu : t ≠ u := fun h => ht (by rw [h]; exact List.mem_cons_self)
      unfold step
      cases hth : s.th u with
      | idle => simp only [hth]; exact setTh_other s _ hu
      | taking _ _ _ _ => simp only [hth]
      | writing _ _ _ => simp only [hth]
      | leaving _ _ => simp only [hth]
    | advance u =>
      have hu : t ≠ u := fun h => ht (by rw [h]; exact List.mem_cons_self)
      show ((advance s u).getD s).th t = _
      cases ha : advance s u with
      | none => rfl
      | some s' =>
        obtain ⟨p, hp, _⟩ := advance_th ha
        show s'.th t = _
        rw [hp, setTh_other s _ hu]

/-! ### The theorems -/

/-- C93. Whatever the threads call and however they are interleaved, the calls have their effects one
after the other: each call has its effect between its beginning and its end (`Proper`); its result
is the one it has in the sequence of effects (`Legal`); and when no thread is in a call, the data
are those of this sequence. -/
theorem C93_linear (m : Mem) (is : List Input) (h : Calls is) :
    Legal m (run (init m) is).hist ∧
    (∀ t, ∃ st, Proper t (run (init m) is).hist st ∧
      (st = .idle ↔ (run (init m) is).th t = .idle)) ∧
    ((∀ t, (run (init m) is).th t = .idle) →
      (run (init m) is).mem = after m (run (init m) is).hist) := by
  have hi := inv_run is (init m) (inv_init m) (calls_wf h)
  refine ⟨hi.legal, fun t => ⟨_, hi.proper t, ?_⟩, fun hid => ?_⟩
  · cases (run (init m) is).th t <;> simp [Phase.status]
  · funext c
    apply hi.quiet
    intro t ht
    rw [hid t] at ht
    cases ht

/-- C93. A call alone does what the time keeper specifies, whatever the order of evaluation. -/
theorem C93_alone (c : Call) (l : List (Cell × Bool)) (m : Mem) :
    times (assign m ((c.tx l).writes m)) = (alone (times m) c).1 ∧
    (c.tx l).res m = (alone (times m) c).2 := by
  cases c <;> exact ⟨rfl, rfl⟩

/-- C93. Every call of a history returns what it returns alone, from the times of one moment: no
thread sees a time half changed by another one. -/
theorem C93_snapshot (m : Mem) (is : List Input) (h : Calls is) (before later : List Event) (t : Nat)
    (c : Call) (l : List (Cell × Bool)) (r : List Int)
    (hh : (run (init m) is).hist = before ++ .effect t (c.tx l) r :: later) :
    r = (alone (times (after m before)) c).2 ∧
    times (after m (before ++ [.effect t (c.tx l) r])) = (alone (times (after m before)) c).1 := by
  have hl := (C93_linear m is h).1
  rw [hh, legal_append] at hl
  obtain ⟨h1, h2⟩ := C93_alone c l (after m before)
  refine ⟨hl.2.1.trans h2, ?_⟩
  rw [after_append]
  exact h1

/-- C93. No mutex is held twice by a thread, and none is shared with a thread that writes. -/
theorem C93_locks (m : Mem) (is : List Input) (h : Calls is) (c : Cell) (t u : Nat) (x y : Bool)
    (h1 : (t, x) ∈ (run (init m) is).holders c) (h2 : (u, y) ∈ (run (init m) is).holders c) :
    (t = u → x = y) ∧ (x = true → t = u) ∧ ((run (init m) is).holders c).Nodup := by
  have hi := inv_run is (init m) (inv_init m) (calls_wf h)
  refine ⟨?_, ?_, hi.nodup c⟩
  · rintro rfl
    cases x with
    | true => exact (hi.excl c t t y h1 h2).2.symm
    | false =>
      cases y with
      | false => rfl
      | true => exact (hi.excl c t t false h2 h1).2
  · rintro rfl; exact (hi.excl c t u y h1 h2).1.symm

theorem leftToRight_tx {tx : Tx} (h : ∃ c : Call, tx = c.tx c.locks ∧ c ≠ .store ∧
    ∀ x y z, c ≠ .restore x y z) : tx.Ordered 3 ∧ tx.Steady := by
  obtain ⟨c, rfl, hs, hr⟩ := h
  refine ⟨?_, fun m m' => by cases c <;> rfl⟩
  cases c with
  | store => exact absurd rfl hs
  | restore x y z => exact absurd rfl (hr x y z)
  | _ => exact ⟨by simp [Call.tx, Call.locks, sim, epoch, mission],
      by simp [Call.tx, Call.locks, sim, epoch, mission]⟩

/-- C93, no deadlock. With operands evaluated from left to right and without `Store` and `Restore`,
whatever has happened, all calls can be brought to their end, even if the mutexes keep readers
waiting for waiting writers. Partial: both conditions are needed (`C93_deadlock_fails`,
`C93_restore_fails`). -/
theorem C93_live_partial (m : Mem) (is : List Input) (h : LeftToRight is) :
    ∃ us, Smooth (run (init m) is) us ∧
      ∀ t, (run (run (init m) is) (us.map .advance)).th t = .idle := by
  have hc : Calls is := by
    intro t tx ht
    obtain ⟨c, hc, _⟩ := h t tx ht
    exact ⟨c, c.locks, List.Perm.refl _, hc⟩
  have hi := inv_run is (init m) (inv_init m) (calls_wf hc)
  have htk := run_taking (fun tx => tx.Ordered 3 ∧ tx.Steady) is
    (fun t tx ht => leftToRight_tx (h t tx ht)) (init m) (fun _ _ _ _ _ h => by cases h)
  refine finish (N := 3) (threads is) _ _ hi (fun t tx todo held regs ht => (htk t tx todo held regs ht).1)
    (fun t tx todo held regs ht => (htk t tx todo held regs ht).2) ?_ (Nat.le_refl _)
  intro t ht
  apply Classical.byContradiction
  intro hn
  exact ht (run_idle is t hn (init m))

/-- The call assigns the simulation time. -/
def Call.movesTime : Call → Bool
  | .putSim _ | .restore .. => true
  | _ => false

theorem after_sim (b : List Event) (hb : ∀ t tx r, Event.effect t tx r ∈ b → ∃ (c : Call) (l : _),
    tx = c.tx l ∧ c.movesTime = false) : ∀ m, after m b sim = m sim := by
  induction b with
  | nil => intro m; rfl
  | cons e b ih =>
    have hb' : ∀ t tx r, Event.effect t tx r ∈ b → ∃ (c : Call) (l : _),
        tx = c.tx l ∧ c.movesTime = false := fun t tx r h => hb t tx r (List.mem_cons_of_mem _ h)
    intro m
    cases e with
    | call t tx => exact ih hb' m
    | ret t r => exact ih hb' m
    | effect t tx r =>
      obtain ⟨c, l, rfl, hc⟩ := hb t tx r List.mem_cons_self
      show after (assign m _) b sim = _
      rw [ih hb']
      cases c <;> first | rfl | cases hc

/-- C93, simulation time. If no other thread assigns the simulation time between the check and the
assignment of `SetSimulationTime`, the time does not go back and does not pass the next event.
Partial: the condition is needed (`C93_back_fails`). -/
theorem C93_time_partial (m : Mem) (is : List Input) (h : Calls is) (a b c : List Event) (t : Nat)
    (l l' : List (Cell × Bool)) (x v max : Int) (r : List Int)
    (hh : (run (init m) is).hist =
      a ++ .effect t (Call.getSim.tx l) [x] :: (b ++ .effect t ((Call.putSim v).tx l') r :: c))
    (hx : accepts x max v = true)
    (hb : ∀ t tx r, Event.effect t tx r ∈ b → ∃ (c : Call) (l : _),
      tx = c.tx l ∧ c.movesTime = false) :
    (times (after m (a ++ .effect t (Call.getSim.tx l) [x] :: b))).sim ≤ v ∧ v ≤ max ∧
    (times (after m (a ++ .effect t (Call.getSim.tx l) [x] ::
      (b ++ [.effect t ((Call.putSim v).tx l') r])))).sim = v := by
  have h1 := (C93_snapshot m is h a _ t .getSim l [x] hh).1
  have hxs : x = after m a sim := by simpa [alone, times] using h1
  simp only [accepts, Bool.not_or, Bool.and_eq_true, Bool.not_eq_true', decide_eq_false_iff_not,
    Int.not_lt] at hx
  refine ⟨?_, by omega, ?_⟩
  · show after m _ sim ≤ v
    rw [after_append]
    show after (after m a) b sim ≤ v
    rw [after_sim b hb]
    omega
  · have h2 := (C93_snapshot m is h (a ++ .effect t (Call.getSim.tx l) [x] :: b) c t (.putSim v) l' r
      (by rw [hh]; simp)).2
    have e : a ++ .effect t (Call.getSim.tx l) [x] :: (b ++ [.effect t ((Call.putSim v).tx l') r]) =
      (a ++ .effect t (Call.getSim.tx l) [x] :: b) ++ [.effect t ((Call.putSim v).tx l') r] := by simp
    rw [e, h2]
    rfl

/-- A thread sets the time from 0 to 5 while another one sets the epoch. -/
def forth : List Input :=
  [.start 1 (Call.getSim.tx Call.getSim.locks), .advance 1, .advance 1, .advance 1, .advance 1,
    .advance 1,
   .start 2 ((Call.setEpoch 2).tx (Call.setEpoch 2).locks), .advance 2, .advance 2, .advance 2,
    .advance 2, .advance 2, .advance 2, .advance 2, .advance 2,
   .start 1 ((Call.putSim 5).tx (Call.putSim 5).locks), .advance 1, .advance 1, .advance 1]

example : (run (init fun _ => 0) forth).hist =
    [.call 1 (Call.getSim.tx Call.getSim.locks)] ++ .effect 1 (Call.getSim.tx Call.getSim.locks) [0] ::
      ([.ret 1 [0], .call 2 ((Call.setEpoch 2).tx (Call.setEpoch 2).locks),
        .effect 2 ((Call.setEpoch 2).tx (Call.setEpoch 2).locks) [], .ret 2 [],
        .call 1 ((Call.putSim 5).tx (Call.putSim 5).locks)] ++
       .effect 1 ((Call.putSim 5).tx (Call.putSim 5).locks) [] :: []) ∧
    accepts 0 10 5 = true := ⟨rfl, rfl⟩

/-! ### Where it fails -/

/-- `GetEpochTime` with its operands from right to left has the lock of `_epochStart`, `SetEpochTime`
has that of `_simulationTime`, the scheduler is about to assign the simulation time. -/
def stuck : List Input :=
  [.start 1 (Call.getEpoch.tx [(epoch, false), (sim, false)]), .advance 1,
   .start 2 ((Call.setEpoch 5).tx (Call.setEpoch 5).locks), .advance 2,
   .start 3 ((Call.putSim 7).tx (Call.putSim 7).locks)]

/-- C93 fails with another order of evaluation: three threads that call `GetEpochTime`,
`SetEpochTime` and the assignment of the simulation time wait for each other for ever if the mutex
keeps readers waiting for a waiting writer. -/
theorem C93_deadlock_fails : Calls stuck ∧ (run (init fun _ => 0) stuck).th 1 ≠ .idle ∧
    ∀ u, ¬ CanStep (run (init fun _ => 0) stuck) u := by
  refine ⟨?_, ?_, ?_⟩
  · intro t tx h
    simp only [stuck, List.mem_cons, Input.start.injEq, reduceCtorEq, List.not_mem_nil, or_false,
      false_or] at h
    rcases h with ⟨-, rfl⟩ | ⟨-, rfl⟩ | ⟨-, rfl⟩
    · exact ⟨.getEpoch, _, by decide, rfl⟩
    · exact ⟨.setEpoch 5, _, List.Perm.refl _, rfl⟩
    · exact ⟨.putSim 7, _, List.Perm.refl _, rfl⟩
  · intro h; cases h
  · rintro u ⟨h1, h2⟩
    by_cases hu1 : u = 1
    · subst hu1
      exact h2 ⟨_, _, _, _, _, rfl, 3, by decide, _, _, _, _, rfl⟩
    · by_cases hu2 : u = 2
      · subst hu2; exact absurd h1 (by decide)
      · by_cases hu3 : u = 3
        · subst hu3; exact absurd h1 (by decide)
        · have : (run (init fun _ => 0) stuck).th u = .idle := by
            rw [run_idle]
            · rfl
            · simp [threads, stuck, hu1, hu2, hu3]
          unfold advance at h1
          rw [this] at h1
          cases h1

/-- `Restore` with its arguments from right to left has the lock of `_epochStart`, `SetEpochTime` that
of `_simulationTime`. -/
def stuckRestore : List Input :=
  [.start 1 ((Call.restore 1 2 3).tx [(epoch, true), (mission, true), (sim, true)]), .advance 1,
   .start 2 ((Call.setEpoch 5).tx (Call.setEpoch 5).locks), .advance 2, .advance 1]

/-- C93 fails with another order of evaluation: `Restore` and `SetEpochTime` wait for each other for
ever, with every implementation of the mutex. -/
theorem C93_restore_fails : Calls stuckRestore ∧
    (run (init fun _ => 0) stuckRestore).th 1 ≠ .idle ∧
    ∀ u, advance (run (init fun _ => 0) stuckRestore) u = none := by
  refine ⟨?_, ?_, ?_⟩
  · intro t tx h
    simp only [stuckRestore, List.mem_cons, Input.start.injEq, reduceCtorEq, List.not_mem_nil,
      or_false, false_or] at h
    rcases h with ⟨-, rfl⟩ | ⟨-, rfl⟩
    · exact ⟨.restore 1 2 3, _, by decide, rfl⟩
    · exact ⟨.setEpoch 5, _, List.Perm.refl _, rfl⟩
  · intro h; cases h
  · intro u
    by_cases hu1 : u = 1
    · subst hu1; rfl
    · by_cases hu2 : u = 2
      · subst hu2; rfl
      · have : (run (init fun _ => 0) stuckRestore).th u = .idle := by
          rw [run_idle]
          · rfl
          · simp [threads, stuckRestore, hu1, hu2]
        unfold advance
        rw [this]

/-- Two threads call `SetSimulationTime` with 5 and 3 while the time is 0. -/
def back : List Input :=
  [.start 1 (Call.getSim.tx Call.getSim.locks), .advance 1, .advance 1, .advance 1, .advance 1,
    .advance 1,
   .start 2 (Call.getSim.tx Call.getSim.locks), .advance 2, .advance 2, .advance 2, .advance 2,
    .advance 2,
   .start 1 ((Call.putSim 5).tx (Call.putSim 5).locks), .advance 1, .advance 1, .advance 1,
    .advance 1, .advance 1, .advance 1,
   .start 2 ((Call.putSim 3).tx (Call.putSim 3).locks), .advance 2, .advance 2, .advance 2,
    .advance 2, .advance 2, .advance 2]

/-- The values returned, in order. -/
def returned : List Event → List (Nat × List Int)
  | [] => []
  | .ret t r :: h => (t, r) :: returned h
  | _ :: h => returned h

/-- C93 fails for `SetSimulationTime`, which checks and assigns in two steps: called by two threads
with times that are not in the past when they are checked, it makes the simulation time go back
from 5 to 3. -/
theorem C93_back_fails : Calls back ∧
    returned (run (init fun _ => 0) back).hist = [(1, [0]), (2, [0]), (1, []), (2, [])] ∧
    accepts 0 10 5 = true ∧ accepts 0 10 3 = true ∧
    (run (init fun _ => 0) (back.take 19)).mem sim = 5 ∧
    (run (init fun _ => 0) back).mem sim = 3 := by
  refine ⟨?_, by decide, by decide, by decide, by decide, by decide⟩
  intro t tx h
  simp only [back, List.mem_cons, Input.start.injEq, reduceCtorEq, List.not_mem_nil, or_false,
    false_or] at h
  rcases h with ⟨-, rfl⟩ | ⟨-, rfl⟩ | ⟨-, rfl⟩ | ⟨-, rfl⟩
  · exact ⟨.getSim, _, List.Perm.refl _, rfl⟩
  · exact ⟨.getSim, _, List.Perm.refl _, rfl⟩
  · exact ⟨.putSim 5, _, List.Perm.refl _, rfl⟩
  · exact ⟨.putSim 3, _, List.Perm.refl _, rfl⟩

/-- Three threads: `GetMissionTime` waits in the middle for `SetEpochTime`, and sees it complete. -/
def sample : List Input :=
  [.start 1 (Call.getMission.tx Call.getMission.locks), .advance 1,
   .start 2 ((Call.setEpoch 5).tx (Call.setEpoch 5).locks), .advance 2, .advance 2, .advance 1,
   .start 3 (Call.getSim.tx Call.getSim.locks), .advance 3, .advance 3,
   .advance 2, .advance 2, .advance 2, .advance 2, .advance 2, .advance 2,
   .advance 1, .advance 1, .advance 1, .advance 1, .advance 1, .advance 1, .advance 1, .advance 1]

example : LeftToRight sample ∧
    returned (run (init fun c => if c = sim then 10 else 0) sample).hist = [(2, []), (1, [5])] ∧
    (run (init fun c => if c = sim then 10 else 0) sample).th 3 ≠ .idle := by
  refine ⟨?_, by decide, fun h => by cases h⟩
  intro t tx h
  simp only [sample, List.mem_cons, Input.start.injEq, reduceCtorEq, List.not_mem_nil, or_false,
    false_or] at h
  rcases h with ⟨-, rfl⟩ | ⟨-, rfl⟩ | ⟨-, rfl⟩
  · exact ⟨.getMission, rfl, by simp, by simp⟩
  · exact ⟨.setEpoch 5, rfl, by simp, by simp⟩
  · exact ⟨.getSim, rfl, by simp, by simp⟩

end Verif.Conc
