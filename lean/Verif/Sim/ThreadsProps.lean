import Verif.Sim.ThreadsLemmas

/-! C143: operations of the simulator called by several threads. -/
namespace Verif.Sim.Threads

/-! ### What holds -/

/-- **C143** (part that holds): if the calls are in order (`Permit`), every change of the state, by
whatever thread, is a documented one; in particular Aborting is never left, and Exiting only for
Aborting. Missing: calls that are not in order, see the theorems below. -/
theorem C143_legal_partial {h0 : Bool} {m m' : Mode} {s : Sys} {t : Nat} {a : Act}
    (hr : Reach h0 m s) (hp : Permit s m t a m') (hne : (s.step t a).state ≠ s.state) :
    legal s.state (s.step t a).state = true :=
  (J_step (J_reach hr) hp).2 hne

/-- **C143** (part that holds): if the calls are in order, two threads never execute the simulation
at the same time. -/
theorem C143_one_partial {h0 : Bool} {m : Mode} {s : Sys} (hr : Reach h0 m s) {t u : Nat}
    (ht : InLoop (s.stack t)) (hu : InLoop (s.stack u)) : t = u := by
  have hj := J_reach hr
  have ne : ∀ {v}, s.stack v = [] → ¬ InLoop (s.stack v) := by
    rintro v h ⟨p, hp⟩; rw [h] at hp; cases hp
  cases m with
  | free =>
    obtain ⟨t0, h1, -, -⟩ := hj
    have key : ∀ v, InLoop (s.stack v) → v = t0 := fun v hv =>
      Classical.byContradiction fun hn => ne (h1 v hn) hv
    rw [key t ht, key u hu]
  | holding t0 =>
    obtain ⟨u0, h1, h2, -, h4, -⟩ := hj
    have key : ∀ v, InLoop (s.stack v) → v = u0 := by
      intro v hv
      apply Classical.byContradiction
      intro hn
      by_cases hvt : v = t0
      · subst hvt
        obtain ⟨p, hp⟩ := hv
        rcases h4 with ⟨h, _⟩ | ⟨q, _, h | h | h⟩ | ⟨q, _, h | h⟩ <;> rw [h] at hp <;> simp at hp
      · exact ne (h2 v hvt hn) hv
    rw [key t ht, key u hu]

/-- **C143** (part that holds): when a thread has held the simulation that another one executes, and
both have returned, the simulator is in Standby, whatever they did in between. -/
theorem C143_held_partial {h0 : Bool} {t : Nat} {s : Sys} (hr : Reach h0 (.holding t) s)
    (h : s.stack t = []) : s.state = .standby := by
  obtain ⟨u, -, -, -, h4, -⟩ := J_reach hr
  rcases h4 with ⟨-, h4⟩ | ⟨p, -, h4 | h4 | h4⟩ | ⟨p, h4, -⟩
  · exact h4
  · rw [h] at h4; cases h4
  · rw [h] at h4; cases h4
  · rw [h] at h4; cases h4
  · exact h4

/-! ### What does not -/

/-- The operations that are called in Standby. -/
def standbyOps : List Op := [.initialise, .run, .runFor, .store, .restore, .reconnect, .exit]

/-- The stack of a thread is the operation, at its first instruction. -/
def Started (s : Sys) (t : Nat) (o : Op) : Prop := s.stack t = [.op o.prog none]

theorem started_self {s : Sys} (hs : s.state = .standby) (hl : s.last = none) {t : Nat} {o : Op}
    (ho : o ∈ standbyOps) (ht : s.stack t = []) :
    s.step t (.call o) = { s with stack := s.setStack t [.op o.prog none] } := by
  have hg : o.guard s.state s.last = true := by
    rw [hs, hl]
    simp only [standbyOps, List.mem_cons, List.not_mem_nil, or_false] at ho
    rcases ho with rfl | rfl | rfl | rfl | rfl | rfl | rfl <;> decide
  simp only [Sys.step, ht]
  rw [if_pos (by rw [hg]; rfl)]

/-- **C143 fails**: any number of threads may start any operations of the state Standby at the same
time: the test of each one passes until one of them has emitted LeaveStandby. -/
theorem C143_together_fails (calls : List (Nat × Op)) :
    ∀ (s : Sys), s.state = .standby → s.last = none → (calls.map (·.1)).Nodup →
      (∀ c ∈ calls, c.2 ∈ standbyOps ∧ s.stack c.1 = []) →
      let s' := s.run (calls.map fun c => (c.1, .call c.2))
      s'.state = .standby ∧ s'.last = none ∧ (∀ c ∈ calls, Started s' c.1 c.2) ∧
      ∀ v, v ∉ calls.map (·.1) → s'.stack v = s.stack v := by
  induction calls with
  | nil => intro s hs hl _ _; exact ⟨hs, hl, (fun c hc => by simp at hc), fun _ _ => rfl⟩
  | cons c l ih =>
    intro s hs hl hn hc
    obtain ⟨ho, ht⟩ := hc c List.mem_cons_self
    rw [List.map_cons, List.nodup_cons] at hn
    have hstep := started_self hs hl ho ht
    have hrun : s.run ((c :: l).map fun c => (c.1, Act.call c.2))
        = (s.step c.1 (.call c.2)).run (l.map fun c => (c.1, Act.call c.2)) := rfl
    have hs1 : (s.step c.1 (.call c.2)).stack c.1 = [.op c.2.prog none] := by
      rw [hstep]; exact stack_self _ _ _
    obtain ⟨k1, k2, k3, k4⟩ := ih (s.step c.1 (.call c.2)) (by rw [hstep]; exact hs)
      (by rw [hstep]; exact hl) hn.2 (fun d hd => by
        refine ⟨(hc d (List.mem_cons_of_mem _ hd)).1, ?_⟩
        rw [step_other _ _ _ (fun he => hn.1 (List.mem_map.2 ⟨d, hd, he⟩))]
        exact (hc d (List.mem_cons_of_mem _ hd)).2)
    intro s'
    have he : s' = (s.step c.1 (.call c.2)).run (l.map fun c => (c.1, Act.call c.2)) := hrun
    rw [he]
    refine ⟨k1, k2, fun d hd => ?_, fun v hv => ?_⟩
    · rcases List.mem_cons.1 hd with rfl | hd
      · unfold Started
        rw [k4 _ hn.1]
        exact hs1
      · exact k3 d hd
    · rw [List.map_cons, List.mem_cons, not_or] at hv
      rw [k4 v hv.2, step_other _ _ _ hv.1]

/-- A thread goes on, `n` instructions. -/
def go (t n : Nat) : List (Nat × Act) := List.replicate n (t, .go)

/-- **C143 fails**: one thread calls `Exit` while another has started an operation: the final state
Exiting is left, for each operation. -/
theorem C143_exit_fails (h0 : Bool) :
    ∀ o ∈ [Op.initialise, .run, .runFor, .store, .restore, .reconnect], ∃ l,
      let s := (Sys.init h0).run ([(1, .call o), (0, .call .exit)] ++ go 0 6)
      s.state = .exiting ∧ s.stack 0 = [] ∧ (s.run l).state ≠ .exiting ∧
        (s.run l).state ≠ .aborting := by
  intro o ho
  refine ⟨go 1 3, ?_⟩
  cases h0 <;> revert o <;> decide +kernel

/-- **C143 fails**: one thread calls `Store` while another calls `Run`: entry points are called while
the breakpoint is being stored. -/
theorem C143_store_fails (h0 : Bool) (id : Nat) :
    .called 1 id .storing ∈ ((Sys.init h0).run ([(1, .call .run), (0, .call .store)] ++ go 1 4 ++
      [(1, .tell)] ++ go 0 3 ++ [(1, .exec id)])).log := by
  cases h0 <;> simp [Sys.run, go, Sys.step, Sys.init, Sys.setStack, Sys.micro, userFrame, Op.guard,
    Op.prog, pushOp, subscribed]

/-- **C143 fails**: two threads call `Run`: both execute the simulation. -/
theorem C143_run_fails (h0 : Bool) :
    let s := (Sys.init h0).run ([(1, .call .run), (0, .call .run)] ++ go 1 4 ++ [(1, .tell)] ++
      go 0 4 ++ [(0, .tell)])
    InLoop (s.stack 0) ∧ InLoop (s.stack 1) := by
  cases h0 <;> exact ⟨⟨.ready, by decide +kernel⟩, ⟨.ready, by decide +kernel⟩⟩

/-- `Hold(true)`, with the scheduler told. -/
def holdBy (t : Nat) : List (Nat × Act) := [(t, .call .hold), (t, .go), (t, .tell)] ++ go t 4

/-- **C143 fails**: a thread calls `Hold(true)` after another one, in `Run`, has set the state to
Executing and before the scheduler is told: the hold is lost; the simulator is in Standby, all of
`Hold` is done, and the entry points are called. -/
theorem C143_lost_fails (h0 : Bool) (id : Nat) :
    let s := (Sys.init h0).run ([(0, .call .run)] ++ go 0 3 ++ holdBy 1)
    s.state = .standby ∧ s.stack 1 = [] ∧
      .called 0 id .standby ∈ (s.run (go 0 1 ++ [(0, .tell), (0, .exec id)])).log ∧
      (s.run (go 0 1 ++ [(0, .tell), (0, .exec id)])).hold = false := by
  cases h0 <;> simp [Sys.run, go, holdBy, Sys.step, Sys.init, Sys.setStack, Sys.micro, userFrame,
    Op.guard, Op.prog, pushOp, subscribed]

/-- **C143 fails**: a thread that returns from `Run` clears `_lastGlobalEventId` while another one
emits LeaveExecuting in `Hold(true)`. A subscriber of LeaveExecuting may then hold again, a
subscriber of EnterStandby may exit, and the first `Hold` leaves the state Exiting. -/
theorem C143_clear_fails (h0 : Bool) :
    let s := (Sys.init h0).run ([(0, .call .run)] ++ go 0 4 ++ [(0, .tell), (1, .call .hold), (1, .go),
      (1, .tell), (0, .skip)])
    ¬ Accepted s 1 .hold ∧ Accepted (s.run (go 0 1)) 1 .hold ∧
    (s.run (go 0 1 ++ holdBy 1 ++ [(1, .call .exit)] ++ go 1 6)).state = .exiting ∧
    (s.run (go 0 1 ++ holdBy 1 ++ [(1, .call .exit)] ++ go 1 6 ++ go 1 2)).state = .standby := by
  unfold Accepted
  cases h0 <;> decide +kernel

/-! ### Cases -/

theorem run_other (l : List (Nat × Act)) (s : Sys) (u : Nat) (h : ∀ x ∈ l, x.1 ≠ u) :
    (s.run l).stack u = s.stack u := by
  induction l generalizing s with
  | nil => rfl
  | cons x l ih =>
    have : s.run (x :: l) = (s.step x.1 x.2).run l := rfl
    rw [this, ih _ (fun y hy => h y (List.mem_cons_of_mem _ hy))]
    exact step_other _ _ _ (fun he => h x List.mem_cons_self he.symm)

/-- Steps that are not calls are in order. -/
theorem Reach.goes {h0 : Bool} {m : Mode} (l : List (Nat × Act)) :
    ∀ {s : Sys}, Reach h0 m s → (∀ x ∈ l, ∀ o, x.2 ≠ .call o) → Reach h0 m (s.run l) := by
  induction l with
  | nil => intro s h _; exact h
  | cons x l ih =>
    intro s h hx
    exact ih (h.step (.quiet m x.1 x.2 fun o ho => absurd ho (hx x List.mem_cons_self o)))
      (fun y hy => hx y (List.mem_cons_of_mem _ hy))

/-- Thread 0 runs and executes an event. -/
def one : List (Nat × Act) := go 0 4 ++ [(0, .tell), (0, .exec 7)]

/-- Thread 1 holds; thread 0 returns in the middle of that. -/
def two : List (Nat × Act) := [(1, .go), (1, .tell), (0, .ret false), (0, .go)] ++ go 1 4

/-- `C143_legal_partial`, `C143_one_partial` and `C143_held_partial`: thread 0 executes the
simulation, thread 1 holds it, and both return: the simulator is in Standby and the calls are in
order from then on. -/
example : ∃ s : Sys, Reach true (.holding 1) s ∧ s.stack 1 = [] ∧ s.state = .standby ∧
    Reach true .free s ∧ s.log = [.started 0, .called 0 7 .executing, .held 1] := by
  have r1 : Reach true .free ((Sys.init true).step 0 (.call .run)) :=
    Reach.init.step (.alone 0 .run (fun _ _ => rfl) (by simp))
  have r2 : Reach true .free (((Sys.init true).step 0 (.call .run)).run one) :=
    r1.goes one (by simp [one, go])
  have e2 : ∀ v, v ≠ 0 → (((Sys.init true).step 0 (.call .run)).run one).stack v = [] := by
    intro v hv
    rw [run_other _ _ _ (by
        intro x hx; simp [one, go] at hx
        rcases hx with rfl | rfl | rfl <;> exact fun h => hv h.symm),
      step_other _ _ _ hv]
    rfl
  have r3 := r2.step (.hold 1 0 (by decide) (by unfold Accepted; decide +kernel) (e2 1 (by decide))
    (by
      intro f hf
      have : (((Sys.init true).step 0 (.call .run)).run one).stack 0
          = [.loop .entry, .op [.endEmit] none] := by decide +kernel
      rw [this] at hf
      simp at hf
      rcases hf with rfl | rfl
      · exact .inr ⟨_, rfl⟩
      · exact .inl rfl)
    (fun v _ hv => e2 v hv))
  have r4 := r3.goes two (by simp [two, go])
  have h1 : ∀ v, ((((Sys.init true).step 0 (.call .run)).run one).step 1 (.call .hold)
      |>.run two).stack v = [] := by
    intro v
    by_cases hv0 : v = 0
    · subst hv0; decide +kernel
    · by_cases hv1 : v = 1
      · subst hv1; decide +kernel
      · rw [run_other _ _ _ (by
            intro x hx; simp [two, go] at hx
            rcases hx with rfl | rfl | rfl | rfl | rfl <;> first | exact fun h => hv1 h.symm | exact fun h => hv0 h.symm),
          step_other _ _ _ hv1]
        exact e2 v hv0
  exact ⟨_, r4, h1 1, C143_held_partial r4 (h1 1), r4.over h1, by decide +kernel⟩

/-- `C143_together_fails`: three threads. -/
example : ([(0, Op.run), (1, .exit), (2, .store)].map (·.1)).Nodup ∧
    (∀ c ∈ [(0, Op.run), (1, .exit), (2, .store)],
      c.2 ∈ standbyOps ∧ (Sys.init true).stack c.1 = []) := by decide

end Verif.Sim.Threads
