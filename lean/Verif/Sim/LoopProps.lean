import Verif.Sim.LoopOne

/-!
C97: the entry points of scheduled events are called while the simulation is executing, and not
after it has been put on hold.
-/
namespace Verif.Sim

/-- The state in which an entry point was called is the executing one. -/
def inExecuting : Obs → Bool
  | .called _ _ st => st = .executing
  | _ => true

theorem run1_ok (l : List Act) (s : Sys) (h0 : Bool) (hi : LoopInv s) (hd : Disciplined s l)
    (hf : s.hold = flagOf h0 s.log)
    (hl : ∀ a o b, s.log = a ++ o :: b → (∃ t id st, o = .called t id st) →
      inExecuting o = true ∧ flagOf h0 a = false) :
    ∀ a o b, (s.run1 l).log = a ++ o :: b → (∃ t id st, o = .called t id st) →
      inExecuting o = true ∧ flagOf h0 a = false := by
  induction l generalizing s with
  | nil => exact hl
  | cons x l ih =>
    obtain ⟨ha, hd⟩ := hd
    refine ih (s.step 0 x) (inv_step hi ha) hd (step_flag s 0 x h0 hf) ?_
    intro a o b hab ho
    have other : ∀ m : List Obs, (∀ o ∈ m, ¬ ∃ t id st, o = Obs.called t id st) →
        (s.step 0 x).log = s.log ++ m → inExecuting o = true ∧ flagOf h0 a = false := by
      intro m hm hlog
      rw [hlog] at hab
      rcases List.append_eq_append_iff.1 hab with ⟨c, h1, h2⟩ | ⟨c, h1, h2⟩
      · exact absurd ho (hm o (by rw [h2]; simp))
      · cases c with
        | nil =>
          exact absurd ho (hm o (by
            rw [List.nil_append] at h2
            rw [← h2]; simp))
        | cons y c =>
          rw [List.cons_append] at h2
          obtain ⟨rfl, rfl⟩ := List.cons_eq_cons.1 h2
          exact hl a _ c h1 ho
    cases x with
    | exec id =>
      by_cases hs : s.step 0 (.exec id) = s
      · rw [hs] at hab; exact hl a o b hab ho
      · obtain ⟨h1, h2⟩ := call_running hi hs
        have hlog : (s.step 0 (.exec id)).log = s.log ++ [.called 0 id s.state] := by
          revert hs
          simp only [Sys.step]
          split
          · intro _; rfl
          · intro h; exact absurd rfl h
        rw [hlog] at hab
        rcases List.append_eq_append_iff.1 hab with ⟨c, h3, h4⟩ | ⟨c, h3, h4⟩
        · cases c with
          | nil =>
            obtain ⟨rfl, -⟩ := List.cons_eq_cons.1 h4
            rw [List.append_nil] at h3
            subst h3
            exact ⟨by simp [inExecuting, h2], by rw [← hf, h1]⟩
          | cons y c => simp at h4
        · cases c with
          | nil =>
            rw [List.nil_append] at h4
            obtain ⟨rfl, -⟩ := List.cons_eq_cons.1 h4
            rw [List.append_nil] at h3
            subst h3
            exact ⟨by simp [inExecuting, h2], by rw [← hf, h1]⟩
          | cons y c =>
            rw [List.cons_append] at h4
            obtain ⟨rfl, rfl⟩ := List.cons_eq_cons.1 h4
            exact hl a _ c h3 ho
    | tell =>
      simp only [Sys.step] at hab other
      split at hab
      · exact other [.started 0] (by simp) (by split <;> simp_all)
      · exact other [.held 0] (by simp) (by split <;> simp_all)
      · exact hl a o b hab ho
    | go =>
      refine other [] (by simp) ?_
      simp only [Sys.step]
      split
      · rename_i m r p fs _
        rcases micro_shape s 0 m r p fs with h | ⟨_, h, _⟩
        · rw [h]; simp
        · rw [h]; simp
      · simp
    | _ =>
      refine other [] (by simp) ?_
      simp only [Sys.step]
      split <;> simp

/-- C97, one thread. The entry points of scheduled events are called in the executing state only, if
no step is one of those excluded by `Allowed`: `Abort` is not called, `Run` is not called in a run
loop, and `Hold(true)` is not called by a subscriber of EnterExecuting that runs before the
scheduler's own nor by a subscriber of PostSimTimeChange. (Missing for the full statement: these
calls; see `C97_fails`.) -/
theorem C97_executing_partial (h0 : Bool) (l : List Act) (hd : Disciplined (.init h0) l)
    (t id : Nat) (st : St) (h : .called t id st ∈ ((Sys.init h0).run1 l).log) :
    st = .executing := by
  obtain ⟨a, b, hab⟩ := List.append_of_mem h
  have := (run1_ok l (.init h0) h0 (inv_init h0) hd rfl (by
    intro a o b h; simp [Sys.init] at h) a _ b hab ⟨t, id, st, rfl⟩).1
  simpa [inExecuting] using this

/-- … and, under the same hypotheses, from `Hold(true)` telling the scheduler to the start of the
next loop no entry point is called. -/
theorem C97_held_partial (h0 : Bool) (l : List Act) (hd : Disciplined (.init h0) l)
    (a mid b : List Obs) (t u id : Nat) (st : St)
    (h : ((Sys.init h0).run1 l).log = a ++ .held t :: mid ++ .called u id st :: b) :
    ∃ v, .started v ∈ mid := by
  have h1 := (run1_ok l (.init h0) h0 (inv_init h0) hd rfl (by
    intro a o b h; simp [Sys.init] at h) (a ++ .held t :: mid) _ b (by simpa using h)
      ⟨u, id, st, rfl⟩).2
  have key : ∀ m : List Obs, (∀ v, .started v ∉ m) → flagOf true m = true := by
    intro m
    induction m with
    | nil => intro _; rfl
    | cons o m ih =>
      intro hm
      have hm' : ∀ v, .started v ∉ m := fun v hv => hm v (by simp [hv])
      cases o with
      | started v => exact absurd (by simp) (hm v)
      | held v => exact ih hm'
      | called v i s => exact ih hm'
  refine Classical.byContradiction fun hn => ?_
  have h2 := key mid fun v hv => hn ⟨v, hv⟩
  rw [flagOf_append] at h1
  have h3 : flagOf (flagOf h0 a) (.held t :: mid) = flagOf true mid := rfl
  rw [h3, h2] at h1
  cases h1

/-- C97, any number of threads, no hypothesis on the calls: once the scheduler has been told of the
hold, and until a loop is started, a thread calls at most as many entry points as it has run loops
past their last test (`isPast`): at most one if it is not running a loop inside a loop, and none if
it runs no loop, or if the loop is in an entry point, in PreSimTimeChange or waiting. -/
theorem C97_stop (h0 : Bool) (before after : List (Nat × Act)) (a mid : List Obs) (u t : Nat)
    (hb : ((Sys.init h0).run before).log = a ++ [.held u])
    (hm : ((Sys.init h0).run (before ++ after)).log = a ++ [.held u] ++ mid)
    (hn : ∀ v, .started v ∉ mid) :
    calls t mid ≤ (((Sys.init h0).run before).stack t).countP isPast := by
  have hf := run_flag before (.init h0) h0 rfl
  rw [hb, flagOf_append] at hf
  rw [← pot_eq]
  refine run_pot after _ hf mid ?_ ?_ t
  · rw [hb, ← hm]; simp [Sys.run]
  · intro o ho
    cases o with
    | started v => exact absurd ho (hn v)
    | _ => rfl

/-! ## Cases -/

/-- Run up to the start of the loop. -/
def startActs : List Act := [.call .run, .go, .go, .go, .go, .tell]

/-- `Hold(true)`, complete. -/
def holdActs : List Act := [.call .hold, .go, .tell, .go, .go, .go, .go]

/-- The scheduler has still to be told of EnterExecuting. -/
def untold : Frame → Bool
  | .op _ (some .enterExecuting) => true
  | _ => false

instance (s : Sys) (a : Act) : Decidable (Allowed s a) :=
  match a with
  | .call .abort => isFalse id
  | .call .run => inferInstanceAs (Decidable (loops (s.stack 0) = 0))
  | .call .runFor => inferInstanceAs (Decidable (loops (s.stack 0) = 0))
  | .call .hold =>
    decidable_of_iff (Frame.loop .post ∉ s.stack 0 ∧ ∀ f ∈ s.stack 0, untold f = false)
      (by
        refine and_congr Iff.rfl ⟨fun h r hr => by simpa [untold] using h _ hr,
          fun h f hf => ?_⟩
        unfold untold
        split
        · exact absurd hf (h _)
        · rfl)
  | .call .publish | .call .configure | .call .connect | .call .initialise | .call .store
  | .call .restore | .call .reconnect | .call .exit => isTrue trivial
  | .go | .tell | .exec _ | .skip | .slot | .finish | .ret _ => isTrue trivial

instance : (s : Sys) → (l : List Act) → Decidable (Disciplined s l)
  | _, [] => isTrue trivial
  | s, a :: l =>
    have := instDecidableDisciplined (s.step 0 a) l
    inferInstanceAs (Decidable (_ ∧ _))

/-- A run in which two events are executed, the second one holds, is resumed. -/
def caseActs : List Act :=
  startActs ++ [.slot, .ret true, .ret true, .ret true, .ret true, .exec 1, .ret true, .exec 2] ++ holdActs ++
    [.ret true, .go] ++ startActs ++ [.exec 3, .ret true, .finish, .go]

example : Disciplined (.init true) caseActs ∧
    ((Sys.init true).run1 caseActs).log =
      [.started 0, .called 0 1 .executing, .called 0 2 .executing, .held 0, .started 0,
       .called 0 3 .executing] ∧
    ((Sys.init true).run1 caseActs).stack 0 = [] := by decide +kernel

/-- Thread 0 runs, thread 1 holds between two events. -/
def caseTwo : List (Nat × Act) :=
  (startActs ++ [Act.exec 1, .ret true]).map (fun a => (0, a)) ++
    [(1, .call .hold), (1, .go), (1, .tell)]

example : ((Sys.init true).run caseTwo).log = [.started 0, .called 0 1 .executing] ++ [.held 1] ∧
    ((Sys.init true).run (caseTwo ++ [(0, .exec 2), (0, .ret true), (0, .exec 3)])).log =
      [.started 0, .called 0 1 .executing] ++ [.held 1] ++ [.called 0 2 .executing] ∧
    (((Sys.init true).run caseTwo).stack 0).countP isPast = 1 ∧
    (((Sys.init true).run caseTwo).stack 1).countP isPast = 0 := by decide +kernel

/-- Thread 1 holds while thread 0 waits. -/
def caseWait : List (Nat × Act) :=
  (startActs ++ [Act.slot, .ret true, .ret true]).map (fun a => (0, a)) ++
    [(1, .call .hold), (1, .go), (1, .tell)]

example : ((Sys.init true).run caseWait).log = [.started 0] ++ [.held 1] ∧
    ((Sys.init true).run caseWait).stack 0 = [.loop .wait, .op [.endEmit] none] ∧
    (((Sys.init true).run caseWait).stack 0).countP isPast = 0 := by decide +kernel

/-- The calls excluded above, and other threads, do break the full statement of C97:
1. a subscriber of EnterExecuting that runs before the scheduler's own holds: the loop starts
   nevertheless and runs in standby;
2. an entry point aborts: the loop goes on, aborting;
3. a subscriber of PostSimTimeChange holds: one more entry point is called, in standby;
4. another thread holds between two events: one more entry point is called, in standby;
5. another thread holds and runs again while an entry point of the first loop is running: that loop
   does not notice and there are two loops at once. -/
theorem C97_fails :
    .called 0 1 .standby ∈ ((Sys.init true).run1
      ([.call .run, .go, .go, .go, .go] ++ holdActs ++ [.tell, .exec 1])).log ∧
    .called 0 2 .aborting ∈ ((Sys.init true).run1
      (startActs ++ [.exec 1, .call .abort, .go, .go, .go, .ret true, .exec 2])).log ∧
    .called 0 1 .standby ∈ ((Sys.init true).run1
      (startActs ++ [.slot, .ret true, .ret true, .ret true] ++ holdActs ++ [.ret true, .exec 1])).log ∧
    .called 0 1 .standby ∈ ((Sys.init true).run
      (startActs.map (fun a => (0, a)) ++ holdActs.map (fun a => (1, a)) ++ [(0, .exec 1)])).log ∧
    ((Sys.init true).run
      ((startActs ++ [Act.exec 1]).map (fun a => (0, a)) ++
       (holdActs ++ startActs ++ [Act.exec 2]).map (fun a => (1, a)) ++
       [(0, .ret true), (0, .exec 3)])).log =
      [.started 0, .called 0 1 .executing, .held 1, .started 1, .called 1 2 .executing,
       .called 0 3 .executing] := by decide +kernel

end Verif.Sim
