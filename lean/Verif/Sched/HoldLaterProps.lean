import Verif.Sched.HoldLaterLemmas

/-! C142: `Hold(false)` holds the simulation once, at the next change of simulation time. -/
namespace Verif.Sched.HoldLater

/-- A request to hold is pending. -/
def Pending (s : S) : Prop := .holdImmediately ∈ s.subs

instance (s : S) : Decidable (Pending s) := inferInstanceAs (Decidable (_ ∈ _))

/-! ### What holds -/

/-- **C142**: `Hold(false)` makes a request if the simulation is executing and there is none, without
an exception, and changes nothing else; in any other state it does nothing. -/
theorem C142_request (s : S) :
    (s.st = .executing → ¬ Pending s → Pending s.holdLater.1 ∧ s.holdLater.2 = false ∧
      s.holdLater.1 = { s with subs := s.subs ++ [.holdImmediately] }) ∧
    (s.st ≠ .executing → s.holdLater = (s, false)) := by
  refine ⟨fun h hp => ?_, fun h => by simp only [S.holdLater, if_neg h]⟩
  have : s.holdLater = ({ s with subs := s.subs ++ [.holdImmediately] }, false) := by
    unfold S.holdLater S.subscribe
    rw [if_pos h, if_neg (show ¬ Sub.holdImmediately ∈ s.subs from hp)]
  rw [this]
  exact ⟨by simp [Pending], rfl, rfl⟩

/-- **C142** (part that holds). If a request is pending between two entry points of the run loop,
then whatever is done from then on, by entry points, subscribers and other threads, the next thing
that happens is that the simulation is held, at the same simulation time: the time is not changed
before. Missing: the simulation is aborted, for which `C142_twice_fails` has a reason; and that
something happens, see `C142_held_partial` and `C142_ended_fails`. -/
theorem C142_time_partial {s : S} (h : s.st = .executing) (hp : s.phase = .ready) (hr : Pending s)
    (l : List In) (ha : (run s l).st ≠ .aborting) :
    (run s l).log = s.log ∨ ∃ r, (run s l).log = s.log ++ .held s.now :: r := by
  rcases asking_run l (.inl ⟨h, hr, rfl, rfl, .inl hp⟩ : Asking s.log s.now s) with h | h | h
  · exact .inl h.2.2.1
  · exact .inr h
  · exact absurd h ha

/-- **C142** (part that holds). If a request is pending when the run loop goes to its next slot, then
when all subscribers of PreSimTimeChange have been told, whatever they do short of ending the
simulation, the simulation is in Standby, was held once, at the time before the change, and the
request is not pending any more; the run loop then returns. Missing: as above. -/
theorem C142_held_partial {s : S} (hreach : Reach s) (h : s.st = .executing) (hp : s.phase = .ready)
    (hr : Pending s) (bodies : List (List Act)) (hb : bodies.length = s.subs.length)
    (ha : (run s (.next :: bodies.map .tell)).st ≠ .aborting) (d : Nat) (w : Bool) :
    let t := run s (.next :: bodies.map .tell ++ [.change d w])
    t.st = .standby ∧ t.phase = .idle ∧ t.now = s.now ∧ t.log = s.log ++ [.held s.now] ∧
    ¬ Pending t := by
  intro t
  have h0 : step s .next = { s with phase := .pre s.subs } := by simp only [step, if_pos hp]
  have h1 : run s (.next :: bodies.map .tell) = run (step s .next) (bodies.map .tell) := rfl
  have h2 := telling_run (L := s.log) (n := s.now) bodies (todo := s.subs) (s := step s .next) hb
    (by rw [h0]) (by rw [h0]; exact ⟨hreach.nodup, rfl, .inr (.inl ⟨h, hr, hr, rfl⟩)⟩)
  have h3 : t = step (run s (.next :: bodies.map .tell)) (.change d w) := by
    show run s _ = _
    simp only [run, List.cons_append, List.foldl_cons, List.foldl_append, List.foldl_nil]
  rw [← h1] at h2
  obtain ⟨⟨_, hw, hs⟩, hph⟩ := h2
  rcases hs with hs | hs | ⟨a1, a2, a3, a4⟩
  · exact absurd hs ha
  · exact absurd hs.2.1 (by simp)
  · have h4 : t = { run s (.next :: bodies.map .tell) with phase := .idle } := by
      rw [h3]; simp only [step, hph, a2, if_true]
    rw [h4]
    refine ⟨a1, rfl, hw, a3, ?_⟩
    rcases a4 with a4 | a4
    · cases a4
    · exact a4

/-! ### What does not -/

/-- **C142 fails**: if a request is pending, a second one, by an entry point of an event, ends the
simulation instead of holding it: `EntryPointAlreadySubscribed` leaves the entry point. `Run(d)` makes
such a request when `d` is over, so that an entry point that calls `Hold(false)` at that time is
enough. Another thread is told of the exception. -/
theorem C142_twice_fails {s : S} (h : s.st = .executing) (hp : s.phase = .ready) (hr : Pending s) :
    (∀ l, (step s (.event (.holdLater :: l))).st = .aborting) ∧
    s.act .holdLater = (s, true) := by
  have h1 : s.act .holdLater = (s, true) := by
    simp only [S.act, S.holdLater, S.subscribe, if_pos h]
    rw [if_pos (show Sub.holdImmediately ∈ s.subs from hr)]
  refine ⟨fun l => ?_, h1⟩
  have h2 : s.safe (.holdLater :: l) = s.abort := by
    simp only [S.safe, S.acts, h1]
  simp only [step, if_pos hp, h2]
  split <;> rfl

/-- **C142 fails**: if a request is pending and the simulation is held otherwise, the request stays:
the simulation is held again at the first change of time after the next `Run`, although nobody has
asked for it since. -/
theorem C142_stale_fails {s : S} (hreach : Reach s) (h : s.st = .executing) (hp : s.phase = .ready)
    (hr : Pending s) (bodies : List (List Act)) (hb : bodies.length = s.subs.length)
    (ha : (run s ([.event [.holdNow], .run] ++ .next :: bodies.map .tell)).st ≠ .aborting)
    (d : Nat) (w : Bool) :
    let t := run s ([.event [.holdNow], .run] ++ (.next :: bodies.map .tell ++ [.change d w]))
    t.st = .standby ∧ t.now = s.now ∧ t.log = s.log ++ [.held s.now, .held s.now] := by
  intro t
  have h1 : run s [.event [.holdNow], .run] =
      { s with flag := false, log := s.log ++ [.held s.now], phase := .ready } := by
    simp only [run, List.foldl, step, hp, if_true, S.safe, S.acts, S.act, S.holdNow, h, and_self]
  have h2 : Reach (run s [.event [.holdNow], .run]) := by
    obtain ⟨l, rfl⟩ := hreach
    exact ⟨l ++ [.event [.holdNow], .run], by simp only [run, List.foldl_append]⟩
  have h3 := C142_held_partial h2 (by rw [h1]; exact h) (by rw [h1]) (by rw [h1]; exact hr) bodies
    (by rw [h1]; exact hb) (by
      have : run s ([.event [.holdNow], .run] ++ .next :: bodies.map .tell) =
          run (run s [.event [.holdNow], .run]) (.next :: bodies.map .tell) := by
        simp only [run, List.foldl_append]
      rw [← this]; exact ha) d w
  have h4 : t = run (run s [.event [.holdNow], .run]) (.next :: bodies.map .tell ++ [.change d w]) := by
    show run s _ = _
    simp only [run, List.foldl_append]
  simp only at h3
  rw [← h4, h1] at h3
  exact ⟨h3.1, h3.2.2.1, by rw [h3.2.2.2.1]; simp⟩

/-- **C142 fails**: a request that is made by the last subscriber of PreSimTimeChange, or by another
thread after the subscribers have been told, or while the scheduler waits, comes too late: the
simulation time changes, and the request is pending at the new time. -/
theorem C142_late_fails {s : S} (h : s.st = .executing) (hf : s.flag = false) (hr : ¬ Pending s)
    (d : Nat) :
    (s.phase = .pre [] → let t := run s [.ext .holdLater, .change d false]
      t.st = .executing ∧ Pending t ∧ t.now = s.now + d ∧ t.phase = .ready ∧
        t.log = s.log ++ [.changed (s.now + d)]) ∧
    (∀ n, s.phase = .pre [.other n] → let t := run s [.tell [.holdLater], .change d false]
      t.st = .executing ∧ Pending t ∧ t.now = s.now + d ∧ t.phase = .ready ∧
        t.log = s.log ++ [.changed (s.now + d)]) ∧
    (s.phase = .wait d → let t := run s [.ext .holdLater, .wake]
      t.st = .executing ∧ Pending t ∧ t.now = s.now + d ∧ t.phase = .ready ∧
        t.log = s.log ++ [.changed (s.now + d)]) := by
  have h1 : s.holdLater = ({ s with subs := s.subs ++ [.holdImmediately] }, false) := by
    unfold S.holdLater S.subscribe
    rw [if_pos h, if_neg (show ¬ Sub.holdImmediately ∈ s.subs from hr)]
  refine ⟨fun hp => ?_, fun n hp => ?_, fun hp => ?_⟩
  all_goals
    simp [run, step, S.act, S.acts, S.safe, h1, hp, hf, S.advance, h, Pending]

/-- **C142 fails**: when the run loop has ended because there are no events left, for instance after
`RemoveEvent` of the last event of the scheduler itself, the simulation is still executing, and
however often `Hold(false)` is called, and whatever else is called short of `Hold(true)` and `Abort`,
it stays so. -/
theorem C142_ended_fails (l : List In) :
    ∀ {s : S}, s.st = .executing → s.phase = .idle →
    (∀ i ∈ l, i ≠ .ext .holdNow ∧ i ≠ .ext .abort) →
    (run s l).st = .executing ∧ (run s l).phase = .idle ∧ (run s l).now = s.now ∧
    (run s l).log = s.log := by
  induction l with
  | nil => intro s h hp _; exact ⟨h, hp, rfl, rfl⟩
  | cons i l ih =>
    intro s h hp hi
    have hs : (step s i).st = .executing ∧ (step s i).phase = .idle ∧ (step s i).now = s.now ∧
        (step s i).log = s.log := by
      have hii := hi i List.mem_cons_self
      cases i with
      | ext a =>
        refine ⟨?_, (act_now s a).2.trans hp, (act_now s a).1, ?_⟩
        · cases a <;> simp only [step, S.act, S.holdLater, S.subscribe, S.unsubscribe] <;>
            first | exact absurd rfl hii.1 | exact absurd rfl hii.2 | ((repeat' split) <;> exact h)
        · cases a <;> simp only [step, S.act, S.holdLater, S.subscribe, S.unsubscribe] <;>
            first | exact absurd rfl hii.1 | exact absurd rfl hii.2 | ((repeat' split) <;> rfl)
      | _ => simp [step, hp, h]
    have := ih hs.1 hs.2.1 (fun j hj => hi j (List.mem_cons_of_mem _ hj))
    exact ⟨this.1, this.2.1, this.2.2.1.trans hs.2.2.1, this.2.2.2.trans hs.2.2.2⟩

/-! ### Cases -/

/-- `C142_time_partial` and `C142_held_partial`: a subscriber, time goes to 5, an entry point asks
for a hold, another one is executed; the subscriber ends its subscription while it is told. -/
example : let s := run S.init [.ext (.subscribe 1), .run, .next, .tell [], .change 5 false,
      .event [.holdLater], .event []]
    Reach s ∧ s.st = .executing ∧ s.phase = .ready ∧ Pending s ∧ s.subs.length = 2 ∧ s.now = 5 ∧
    run s (.next :: [[.unsubscribe 1], []].map .tell ++ [.change 7 true]) =
      ⟨.standby, [], true, .idle, 5, [.changed 5, .held 5]⟩ :=
  ⟨⟨_, rfl⟩, by decide +kernel⟩

/-- `C142_twice_fails`: two entry points of the same time. -/
example : (run S.init [.run, .event [.holdLater], .event [.holdLater]]).st = .aborting := by
  decide +kernel

/-- `C142_stale_fails`: the second `Run` does not get to time 7. -/
example : run S.init [.run, .next, .change 5 false, .event [.holdLater], .event [.holdNow], .run,
      .next, .tell [], .change 7 false] =
    ⟨.standby, [], true, .idle, 5, [.changed 5, .held 5, .held 5]⟩ := by decide +kernel

/-- `C142_late_fails`: the three cases, at time 5. -/
example : let s := run S.init [.ext (.subscribe 1), .run, .next, .tell [], .change 5 false, .next]
    (s.st = .executing ∧ s.flag = false ∧ ¬ Pending s ∧ s.phase = .pre [.other 1] ∧
      (run s [.tell [.holdLater], .change 7 false]).now = 12) ∧
    (run s [.tell []]).phase = .pre [] ∧
    (run s [.tell [], .ext .holdLater, .change 7 false]).now = 12 ∧
    (run s [.tell [], .change 7 true]).phase = .wait 7 ∧
    (run s [.tell [], .change 7 true, .ext .holdLater, .wake]).now = 12 := by decide +kernel

/-- `C142_ended_fails`: one event, then none. -/
example : let s := run S.init [.run, .event [], .finish]
    s.st = .executing ∧ s.phase = .idle ∧ ¬ Pending s ∧
    Pending (run s [.ext .holdLater]) ∧ (run s [.ext .holdLater, .run, .next]).st = .executing := by
  decide +kernel

end Verif.Sched.HoldLater
