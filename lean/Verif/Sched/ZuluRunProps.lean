import Verif.Sched.ZuluRunProgress

/-! Properties C78-C81: the Zulu thread. -/
namespace Verif.Sched.Zulu
open Verif

/-! ### Specification -/

/-- `is` can be played from `s` without the excluded calls (`Input.ok`). -/
def OkRun : State → List Input → Prop
  | _, [] => True
  | s, i :: is => i.ok s ∧ OkRun (step s i) is

/-- The occurrences of event `n`, oldest first. -/
def occurrences (n : Int) (s : State) : List Obs := (occ n s.log).reverse

/-- Event `n` waits for its time, or its time has come and the thread is about to take it. -/
def Pending (s : State) (n : Int) (t : Int) : Prop :=
  n ∈ slotOf s.table t ∨ (t ≤ s.clock ∧ (n ∈ s.pc.rest ∨ ∃ k l, s.pc = .toExec k n l))

/-! ### Lemmas -/

theorem OkRun.reach {s : State} {is : List Input} (hs : Reach s) (h : OkRun s is) :
    Reach (run s is) := by
  induction is generalizing s with
  | nil => exact hs
  | cons i is ih => exact ih (.step hs h.1) h.2

theorem run_fault {s : State} (is : List Input) (h : s.fault.isSome = true) : run s is = s := by
  induction is with
  | nil => rfl
  | cons i is ih => show run (step s i) is = s; rw [step_fault i h]; exact ih

theorem track_run {s : State} {is : List Input} {n : Int} {ep : Nat} {t c r : Int} (hs : Reach s)
    (h : Track s n ep t c r) (hok : OkRun s is) (hl : ∀ i ∈ is, i.leaves n)
    (hf : (run s is).fault = none) : Track (run s is) n ep t c r := by
  induction is generalizing s with
  | nil => exact h
  | cons i is ih =>
    have hf1 : (step s i).fault = none := by
      cases hh : (step s i).fault with
      | none => rfl
      | some f =>
        have := run_fault (s := step s i) is (by simp [hh])
        change (run (step s i) is).fault = none at hf
        rw [this, hh] at hf; exact hf
    exact ih (.step hs hok.1) (track_step hs.inv h (hl i List.mem_cons_self) hf1) hok.2
      (fun j hj => hl j (List.mem_cons_of_mem _ hj)) hf

/-- What a step adds to the log. -/
theorem step_log (s : State) (i : Input) : (step s i).log = s.log ∨
    ∃ k id rest e, s.pc = .toExec k id rest ∧ s.events.find id = some e ∧
      ((s.active = true ∧ (step s i).log = .called id e.ep s.clock :: s.log) ∨
       (s.active = false ∧ (step s i).log = .skipped id s.clock :: s.log)) := by
  have hfin : ∀ (s : State) k id rest, (s.finish k id rest).log = s.log := by
    intro s k id rest
    unfold State.finish; split
    · rfl
    · split
      · rfl
      · split <;> rfl
  by_cases hf : s.fault.isSome = true
  · rw [step_fault i hf]; exact .inl rfl
  have hf : s.fault = none := by simpa using hf
  by_cases hi : i = .tick
  · subst hi
    rw [step_tick hf]
    cases hpc : s.pc with
    | header =>
      rw [tick_header hpc]; left
      split
      · rfl
      · split <;> rfl
    | slot k => rw [tick_slot hpc]; left; split <;> rfl
    | toExec k id rest =>
      rw [tick_toExec hpc]
      cases he : s.events.find id with
      | none => exact .inl rfl
      | some e =>
        right
        refine ⟨k, id, rest, e, rfl, he, ?_⟩
        simp only
        cases ha : s.active with
        | true => exact .inl ⟨rfl, rfl⟩
        | false => exact .inr ⟨rfl, by simp only [Bool.false_eq_true, if_false]; rw [hfin]⟩
    | cb k id rest => rw [tick_cb hpc, hfin]; exact .inl rfl
    | back k rest =>
      rw [tick_back hpc]; left
      split
      · rfl
      · split <;> rfl
    | waitAny => rw [tick_waitAny hpc]; left; split; rfl; exact (look_same s).2.1
    | waitFor d => rw [tick_waitFor hpc]; left; split; rfl; exact (look_same s).2.1
    | ended => rw [tick_ended hpc]; exact .inl rfl
  · left
    unfold step
    split
    · rfl
    split
    · rfl
    cases i with
    | tick => exact absurd rfl hi
    | spurious =>
      simp only
      split
      · exact (look_same s).2.1
      · exact (look_same s).2.1
      · rfl
    | advance d => rfl
    | simState a => rfl
    | other => simp only; split <;> rfl
    | add seen ep t c r =>
      simp only [State.add]
      split
      · split
        · rfl
        split
        · rfl
        split <;> rfl
      · rfl
    | setTime seen id t =>
      simp only [State.setTime]
      split
      · split
        · rfl
        split <;> rfl
      · rfl
    | setCycle id c =>
      simp only [State.setCycle]
      split
      · rfl
      split <;> rfl
    | setRepeat id c =>
      simp only [State.setRepeat]
      split
      · rfl
      split <;> rfl
    | remove id =>
      simp only [State.remove]
      split
      · rfl
      split <;> rfl
    | disconnect => rfl

theorem step_lastId (s : State) (i : Input) : s.lastId ≤ (step s i).lastId := by
  have hfin : ∀ (s : State) k id rest, (s.finish k id rest).lastId = s.lastId := by
    intro s k id rest
    unfold State.finish; split
    · rfl
    · split
      · rfl
      · split <;> rfl
  unfold step
  split
  · exact Int.le_refl _
  split
  · exact Int.le_refl _
  cases i with
  | tick =>
    apply Int.le_of_eq
    show s.lastId = s.tick.lastId
    cases hpc : s.pc with
    | header =>
      rw [tick_header hpc]
      split
      · rfl
      · split <;> rfl
    | slot k => rw [tick_slot hpc]; split <;> rfl
    | toExec k id rest =>
      rw [tick_toExec hpc]
      split
      · rfl
      · split
        · rfl
        · rw [hfin]
    | cb k id rest => rw [tick_cb hpc, hfin]
    | back k rest =>
      rw [tick_back hpc]
      split
      · rfl
      · split <;> rfl
    | waitAny => rw [tick_waitAny hpc]; split; rfl; exact (look_same s).2.2.2.1.symm
    | waitFor d => rw [tick_waitFor hpc]; split; rfl; exact (look_same s).2.2.2.1.symm
    | ended => rw [tick_ended hpc]
  | spurious =>
    simp only
    split
    · exact Int.le_of_eq (look_same s).2.2.2.1.symm
    · exact Int.le_of_eq (look_same s).2.2.2.1.symm
    · exact Int.le_refl _
  | advance d => exact Int.le_refl _
  | simState a => exact Int.le_refl _
  | other =>
    simp only
    split
    · exact Int.le_refl _
    · rename_i h; have := (chk_some h).1; simp only; omega
  | add seen ep t c r =>
    simp only [State.add]
    split
    · split
      · exact Int.le_refl _
      split
      · exact Int.le_refl _
      split
      · exact Int.le_refl _
      · rename_i h; have := (chk_some h).1; simp only; omega
    · exact Int.le_refl _
  | setTime seen id t =>
    simp only [State.setTime]
    split
    · split
      · exact Int.le_refl _
      split <;> exact Int.le_refl _
    · exact Int.le_refl _
  | setCycle id c =>
    simp only [State.setCycle]
    split
    · exact Int.le_refl _
    split <;> exact Int.le_refl _
  | setRepeat id c =>
    simp only [State.setRepeat]
    split
    · exact Int.le_refl _
    split <;> exact Int.le_refl _
  | remove id =>
    simp only [State.remove]
    split
    · exact Int.le_refl _
    split <;> exact Int.le_refl _
  | disconnect => exact Int.le_refl _

/-- No event is observed before it has a number. -/
theorem Reach.fresh {s : State} (h : Reach s) : ∀ n, s.lastId < n → occ n s.log = [] := by
  induction h with
  | init c => intro n _; rfl
  | @step s i hr hok ih =>
    intro n hn
    have h1 := step_lastId s i
    have h0 := ih n (by omega)
    rcases step_log s i with h | ⟨k, id, rest, e, hpc, he, h | h⟩
    · rw [h]; exact h0
    · have := (hr.inv.ids id e he).2
      rw [h.2, occ_cons_called, if_neg (by omega)]; exact h0
    · have := (hr.inv.ids id e he).2
      rw [h.2, occ_cons_skipped, if_neg (by omega)]; exact h0

/-- The event just posted. -/
theorem add_track {s : State} (hs : Reach s) (hf : s.fault = none) (hl : s.pc.locked = false)
    {seen : Int} {ep : Nat} {t c r : Int} (h1 : seen ≤ s.clock) (h2 : seen ≤ t)
    (h3 : r = 0 ∨ 0 < c) (hroom : s.lastId < maxI64) :
    Track (step s (.add seen ep t c r)) (s.lastId + 1) ep t c r := by
  have hchk : chk (s.lastId + 1) = some (s.lastId + 1) := by
    have := hs.inv.last
    unfold chk; rw [if_pos]; unfold minI64 at *; unfold maxI64 at *; omega
  have hst : step s (.add seen ep t c r) =
      { s with lastId := s.lastId + 1, events := s.events.insert (s.lastId + 1) ⟨ep, t, c, r⟩,
               table := post s.table t (s.lastId + 1), notified := true } := by
    unfold step State.add
    have hnc : ¬ (r ≠ 0 ∧ c ≤ 0) := by omega
    have hnt : ¬ t < seen := by omega
    simp only [hf, hl, Option.isSome_none, Bool.false_eq_true, if_false, Bool.and_false, h1, if_true,
      hnt, hnc, hchk]
  rw [hst]
  left
  refine ⟨0, ?_, by simp, .inl ⟨?_, ?_⟩⟩
  · simp [left]
  · simp only
    intro hc
    cases hpc : s.pc <;> simp [hpc, PC.current] at hc
    rename_i k id rest
    obtain ⟨e, he, _⟩ := hs.inv.batch k id (by rw [hpc]; rfl) (.inr (by rw [hpc]; rfl))
    have := (hs.inv.ids id e he).2
    omega
  · exact hs.fresh _ (by omega)

/-! ### C78: when a Zulu event is executed -/

/-- C78. A Zulu event posted for time `t`, with period `c` and `r` repetitions, and left alone
afterwards: its `j`-th occurrence takes place when the Zulu clock shows `t + j * c` or more, there
are at most `r + 1` of them, and as long as there are fewer (or `r` is negative) the next one is
pending for exactly `t + j * c`. For histories without the calls excluded by `Input.ok`. -/
theorem C78_fires_partial {s : State} (hs : Reach s) (hf : s.fault = none)
    (hl : s.pc.locked = false) {seen : Int} {ep : Nat} {t c r : Int} (h1 : seen ≤ s.clock)
    (h2 : seen ≤ t) (h3 : r = 0 ∨ 0 < c) (hroom : s.lastId < maxI64) {is : List Input}
    (hok : OkRun (step s (.add seen ep t c r)) is)
    (hleft : ∀ i ∈ is, i.leaves (s.lastId + 1))
    (hf' : (run (step s (.add seen ep t c r)) is).fault = none) :
    let n := s.lastId + 1
    let s' := run (step s (.add seen ep t c r)) is
    let L := occurrences n s'
    (∀ (j : Nat) (o : Obs), L[j]? = some o →
      ∃ w : Int, t + j * c ≤ w ∧ w ≤ s'.clock ∧ (o = .called n ep w ∨ o = .skipped n w)) ∧
    (0 ≤ r → (L.length : Int) ≤ r + 1) ∧
    (s'.pc ≠ .ended → s'.pc.current ≠ some n → (r < 0 ∨ (L.length : Int) ≤ r) →
      Pending s' n (t + L.length * c)) := by
  have hs1 : Reach (step s (.add seen ep t c r)) := .step hs trivial
  have htr := track_run hs1 (add_track hs hf hl h1 h2 h3 hroom) hok hleft hf'
  have hs' : Reach (run (step s (.add seen ep t c r)) is) := hok.reach hs1
  intro n s' L
  change Track s' n ep t c r at htr
  change Reach s' at hs'
  have hlen : ∀ m, Goods n ep t c s'.clock m (occ n s'.log) → L.length = m := by
    intro m hm
    show ((occ n s'.log).reverse).length = m
    rw [List.length_reverse, hm.length]
  rcases htr with ⟨j, ha, hb, hc⟩ | ⟨ha, hb, _, hc⟩
  · rcases hc with ⟨hcur, hg⟩ | ⟨hcur, hg⟩
    · refine ⟨fun i o ho => hg.get i o ho, ?_, ?_⟩
      · intro hr; rw [hlen _ hg]; have := hb hr; omega
      · intro hne _ _
        rw [hlen _ hg]
        have hcov := hs'.inv.cover n _ ha hne
        simp only at hcov
        rcases hcov with h | h | h
        · exact .inl h
        · right
          refine ⟨?_, .inl h⟩
          cases hk : s'.pc.key with
          | none => revert h; cases hpc : s'.pc <;> simp_all [PC.key, PC.rest]
          | some k =>
            obtain ⟨e, he, hn⟩ := hs'.inv.batch k n hk (.inl h)
            rw [ha] at he; cases he
            have := (hs'.inv.key k hk).1
            simp only at hn; omega
        · right
          cases hpc : s'.pc with
          | toExec k id l =>
            rw [hpc] at h; simp [PC.cur] at h; subst h
            refine ⟨?_, .inr ⟨k, l, rfl⟩⟩
            obtain ⟨e, he, hn⟩ := hs'.inv.batch k n (by rw [hpc]; rfl) (.inr (by rw [hpc]; rfl))
            rw [ha] at he; cases he
            have := (hs'.inv.key k (by rw [hpc]; rfl)).1
            simp only at hn; omega
          | cb k id l => rw [hpc] at h hcur; simp [PC.cur] at h; simp [PC.current, h] at hcur
          | header => rw [hpc] at h; simp [PC.cur] at h
          | slot k => rw [hpc] at h; simp [PC.cur] at h
          | back k l => rw [hpc] at h; simp [PC.cur] at h
          | waitAny => rw [hpc] at h; simp [PC.cur] at h
          | waitFor d => rw [hpc] at h; simp [PC.cur] at h
          | ended => rw [hpc] at h; simp [PC.cur] at h
    · refine ⟨fun i o ho => hg.get i o ho, ?_, ?_⟩
      · intro hr; rw [hlen _ hg]; have := hb hr; omega
      · intro _ hcn _; exact absurd hcur hcn
  · refine ⟨fun i o ho => hc.get i o ho, ?_, ?_⟩
    · intro _; rw [hlen _ hc]; omega
    · intro _ _ hr; rw [hlen _ hc] at hr; exfalso; omega

/-- C78. When the thread sleeps, in histories where no event was posted earlier than the time it
was waiting for, every occurrence due so far has taken place: the event is over or its next time
is later than the clock. -/
theorem C78_due_partial {s : State} (hs : Reach s) (hf : s.fault = none)
    (hl : s.pc.locked = false) {seen : Int} {ep : Nat} {t c r : Int} (h1 : seen ≤ s.clock)
    (h2 : seen ≤ t) (h3 : r = 0 ∨ 0 < c) (hroom : s.lastId < maxI64) {is : List Input}
    (hok : OkRun (step s (.add seen ep t c r)) is)
    (hleft : ∀ i ∈ is, i.leaves (s.lastId + 1))
    (hf' : (run (step s (.add seen ep t c r)) is).fault = none)
    (hT : ReachT (run (step s (.add seen ep t c r)) is))
    (hsl : (run (step s (.add seen ep t c r)) is).asleep = true) :
    let s' := run (step s (.add seen ep t c r)) is
    let m := (occurrences (s.lastId + 1) s').length
    (0 ≤ r ∧ (m : Int) = r + 1) ∨ s'.clock < t + m * c := by
  obtain ⟨_, g2, g3⟩ := C78_fires_partial hs hf hl h1 h2 h3 hroom hok hleft hf'
  intro s' m
  change 0 ≤ r → (m : Int) ≤ r + 1 at g2
  have hw : s'.pc.waits = true := by
    have : s'.asleep = true := hsl
    unfold State.asleep at this
    split at this
    · rename_i h; rw [h]; rfl
    · rename_i h; rw [h]; rfl
    · cases this
  by_cases hm : r < 0 ∨ (m : Int) ≤ r
  · right
    have hp : Pending s' (s.lastId + 1) (t + m * c) := by
      refine g3 ?_ ?_ hm
      · change s'.pc ≠ .ended; intro h; rw [h] at hw; cases hw
      · change s'.pc.current ≠ _; intro h; revert h hw; cases s'.pc <;> simp [PC.waits, PC.current]
    rcases hp with hp | ⟨_, hp | ⟨k, l, hp⟩⟩
    · cases hpc : s'.pc with
      | waitAny =>
        have hno : s'.notified = false := by
          have : s'.asleep = true := hsl
          simpa [State.asleep, hpc] using this
        have := hT.reach.awake.any hpc (slotOf_ne hp)
        change s'.notified = true at this
        rw [hno] at this; cases this
      | waitFor d =>
        have ha : Above d s'.table := hT.above d hpc
        have := slotOf_above ha hp
        have hs2 : s'.asleep = true := hsl
        simp only [State.asleep, hpc, State.timedOut] at hs2
        simp at hs2
        omega
      | header => rw [hpc] at hw; cases hw
      | slot k => rw [hpc] at hw; cases hw
      | toExec k id l => rw [hpc] at hw; cases hw
      | cb k id l => rw [hpc] at hw; cases hw
      | back k l => rw [hpc] at hw; cases hw
      | ended => rw [hpc] at hw; cases hw
    · exfalso; revert hp hw; cases s'.pc <;> simp [PC.waits, PC.rest]
    · exfalso; rw [hp] at hw; cases hw
  · left
    by_cases hr : 0 ≤ r
    · refine ⟨hr, ?_⟩
      have := g2 hr
      omega
    · omega

/-- C78. An entry point is only called from the Zulu thread while the simulator is in state
Executing or Standby, and an occurrence is only passed over in the other states; at most one of
the two is observed in a step. -/
theorem C78_state (s : State) (i : Input) :
    (step s i).log = s.log ∨
    (∃ id ep, s.active = true ∧ (step s i).log = .called id ep s.clock :: s.log) ∨
    (∃ id, s.active = false ∧ (step s i).log = .skipped id s.clock :: s.log) := by
  rcases step_log s i with h | ⟨k, id, rest, e, _, _, h | h⟩
  · exact .inl h
  · exact .inr (.inl ⟨id, e.ep, h⟩)
  · exact .inr (.inr ⟨id, h⟩)

/-- C78. When an event is taken, no other event that waits is due earlier, in histories where no
event is posted for a time that passes while the call is being made. -/
theorem C78_order_partial {s : State} (hs : ReachP s) {k id : Int} {rest : List Int}
    (hpc : s.pc = .toExec k id rest) :
    (∃ e, s.events.find id = some e ∧ e.next = k ∧ k ≤ s.clock) ∧
    ∀ n e, s.events.find n = some e → k ≤ e.next := by
  have hi := hs.reach.inv
  obtain ⟨e, he, hn⟩ := hi.batch k id (by rw [hpc]; rfl) (.inr (by rw [hpc]; rfl))
  refine ⟨⟨e, he, hn, (hi.key k (by rw [hpc]; rfl)).1⟩, ?_⟩
  intro n f hf
  rcases hi.cover n f hf (by rw [hpc]; simp) with h | h
  · exact slotOf_above (hs.above k (by rw [hpc]; rfl)) h
  · obtain ⟨f', hf', hn'⟩ := hi.batch k n (by rw [hpc]; rfl) h
    rw [hf] at hf'; cases hf'; omega

/-! A case: an event for 10, 15 and 20, posted when the thread waits; the simulator is in another
state at 15. -/
def ex0 : State := run (init 0) [.tick, .simState true]

/-- The steps after the event was posted. -/
def ex1b : List Input :=
  [.tick, .tick, .tick, .advance 11, .tick, .tick, .tick, .tick, .tick, .tick, .tick, .tick, .tick,
   .simState false, .advance 5, .tick, .tick, .tick, .tick, .tick, .tick, .tick, .tick,
   .simState true]

def ex1 (k : Nat) : State := run (step ex0 (.add 0 7 10 5 2)) (ex1b.take k)

example : occurrences 0 (ex1 24) = [.called 0 7 11, .skipped 0 16] ∧ (ex1 24).asleep = true ∧
    (ex1 24).fault = none ∧ (ex1 24).pc = .waitFor 20 := by decide

example : OkRun (step ex0 (.add 0 7 10 5 2)) (ex1b.take 24) := by simp [ex1b, OkRun, Input.ok]

example : ∀ i ∈ ex1b.take 24, i.leaves 0 := by simp [ex1b, Input.leaves]

theorem reachT_run {s : State} (hs : ReachT s) : ∀ {is : List Input},
    (∀ i ∈ is, i = .tick ∨ (∃ d, i = .advance d) ∨ ∃ a, i = .simState a) → ReachT (run s is) := by
  intro is
  induction is generalizing s with
  | nil => intro _; exact hs
  | cons i is ih =>
    intro h
    refine ih (.step hs ?_ ?_) (fun j hj => h j (List.mem_cons_of_mem _ hj))
    · rcases h i List.mem_cons_self with rfl | ⟨d, rfl⟩ | ⟨a, rfl⟩ <;> trivial
    · rcases h i List.mem_cons_self with rfl | ⟨d, rfl⟩ | ⟨a, rfl⟩ <;> trivial

theorem ex0_reachT : ReachT ex0 := reachT_run (.init 0) (by simp)

theorem ex1_reachT (k : Nat) : ReachT (ex1 k) := by
  refine reachT_run (.step (i := .add 0 7 10 5 2) ex0_reachT trivial ?_) ?_
  · intro d hd
    have : ex0.pc = .waitAny := by decide
    rw [this] at hd; cases hd
  · intro i hi
    have := List.mem_of_mem_take hi
    simp [ex1b] at this
    grind

/-- The hypotheses of `C78_order_partial` are met: two events are due, the earlier is taken. -/
def ex2 : State := run (init 0) [.tick, .add 0 7 20 0 0, .add 0 8 30 0 0, .advance 40, .tick,
  .tick, .tick]

example : ex2.pc = .toExec 20 0 [] ∧ ex2.events.length = 2 := by decide

example : ReachP ex2 := by
  have h : ∀ {s : State} {is : List Input}, ReachP s → (∀ i ∈ is, i = .tick ∨ ∃ d, i = .advance d) →
      ReachP (run s is) := by
    intro s is
    induction is generalizing s with
    | nil => intro hs _; exact hs
    | cons i is ih =>
      intro hs h
      refine ih (.step hs ?_ ?_) (fun j hj => h j (List.mem_cons_of_mem _ hj))
      · rcases h i List.mem_cons_self with rfl | ⟨d, rfl⟩ <;> trivial
      · rcases h i List.mem_cons_self with rfl | ⟨d, rfl⟩ <;> trivial
  have h0 : ReachP (run (init 0) [.tick]) := h (.init 0) (by simp)
  have h1 : ReachP (step (run (init 0) [.tick]) (.add 0 7 20 0 0)) :=
    .step h0 trivial (show (run (init 0) [.tick]).clock ≤ 20 by decide)
  have h2 : ReachP (step (step (run (init 0) [.tick]) (.add 0 7 20 0 0)) (.add 0 8 30 0 0)) :=
    .step h1 trivial (show (step (run (init 0) [.tick]) (.add 0 7 20 0 0)).clock ≤ 30 by decide)
  exact h (is := [.advance 40, .tick, .tick, .tick]) h2 (by simp)

/-- Two events due at 10; the entry point of the first moves the second to 100, yet it is
called at once: C78 fails without `Input.ok`. -/
theorem C78_early_fails :
    let s := run (init 0) [.tick, .simState true, .add 0 7 10 0 0, .add 0 8 10 0 0, .advance 10,
      .tick, .tick, .tick, .tick, .setTime 10 1 100]
    (s.events.find 1).map (·.next) = some 100 ∧ s.clock = 10 ∧
    (run s [.tick, .tick, .tick]).log = [.called 1 8 10, .called 0 7 10] := by decide

/-! ### C79: the thread wakes in time -/

/-- C79. While the thread sleeps, no event is due, in histories where no event is posted, while
the thread waits for a time, at an earlier one. -/
theorem C79_partial {s : State} (hs : ReachT s) (hsl : s.asleep = true) :
    ∀ id e, s.events.find id = some e → s.clock < e.next := by
  have hi := hs.reach.inv
  have hw : s.pc.waits = true := by
    unfold State.asleep at hsl
    split at hsl
    · rename_i h; rw [h]; rfl
    · rename_i h; rw [h]; rfl
    · cases hsl
  have hr : s.pc.rest = [] := by revert hw; cases s.pc <;> simp [PC.waits, PC.rest]
  have hc : s.pc.cur = none := by revert hw; cases s.pc <;> simp [PC.waits, PC.cur]
  have hne : s.pc ≠ .ended := by intro h; rw [h] at hw; cases hw
  cases hpc : s.pc with
  | waitAny =>
    refine quiet_of_above hi hne hr hc (b := s.clock + 1) ?_ (by omega)
    intro k l hk
    have hno : s.notified = false := by simpa [State.asleep, hpc] using hsl
    have := hs.reach.awake.any hpc (by rintro h; simp [h] at hk)
    rw [hno] at this; cases this
  | waitFor d =>
    refine quiet_of_above hi hne hr hc (hs.above d hpc) ?_
    simp only [State.asleep, hpc, State.timedOut] at hsl
    simp at hsl
    omega
  | header => rw [hpc] at hw; cases hw
  | slot k => rw [hpc] at hw; cases hw
  | toExec k id l => rw [hpc] at hw; cases hw
  | cb k id l => rw [hpc] at hw; cases hw
  | back k l => rw [hpc] at hw; cases hw
  | ended => rw [hpc] at hw; cases hw

/-- The hypotheses of `C79_partial` are met by `ex1`, whose event is due at 20 and the clock at
16. -/
example : ReachT (ex1 24) ∧ (ex1 24).asleep = true ∧ (ex1 24).clock = 16 ∧ (ex1 24).events ≠ [] :=
  ⟨ex1_reachT 24, by decide, by decide, by decide⟩

/-- The thread sleeps until 100; an event is posted for 50: the thread is notified, sees that
nothing is due yet, and sleeps until 100. At 60, the event is late and the thread sleeps. -/
theorem C79_fails :
    let s := run (init 0) [.tick, .add 0 7 100 0 0, .tick, .tick, .tick, .add 0 8 50 0 0, .tick,
      .advance 60]
    s.asleep = true ∧ (s.events.find 1).map (·.next) = some 50 ∧ s.clock = 60 ∧
      s.pc = .waitFor 100 ∧ step s .tick = s := by
  decide

/-- C79. The thread, if it does not sleep, comes to rest after finitely many steps (entry points
return, the clock and the other threads stand still): it sleeps and every event is due later, or
it was asked to end and has ended, or a time has overflowed. -/
theorem C79_progress_partial {s : State} (hs : Reach s) (hf : s.fault = none)
    (hna : s.asleep = false) :
    ∃ n, let s' := run s (List.replicate n .tick)
      s'.fault = some .overflow ∨ (s'.terminate = true ∧ s'.pc = .ended) ∨
      (s'.terminate = false ∧ s'.asleep = true ∧
        ∀ id e, s'.events.find id = some e → s'.clock < e.next) :=
  rest_any hs hf hna

/-- A state where the thread has work, for several steps. -/
example : Reach (ex1 5) ∧ (ex1 5).asleep = false ∧ (ex1 9).asleep = false ∧
    (ex1 13).asleep = true :=
  ⟨(ex1_reachT 5).reach, by decide, by decide, by decide⟩

/-! ### C80: the thread does not end the program -/

/-- C80. In histories without the calls excluded by `Input.ok`, the thread neither throws nor uses
an erased event; only overflows of numbers are left. -/
theorem C80_partial {s : State} (hs : Reach s) : s.fault = none ∨ s.fault = some .overflow :=
  hs.faults

/-- Two events are due at the same time and the entry point of the first removes the second:
`_events.at` throws in the thread, which ends the program. -/
theorem C80_fails_remove :
    (run (init 0) [.tick, .simState true, .add 0 7 10 0 0, .add 0 8 10 0 0, .advance 10,
      .tick, .tick, .tick, .tick, .remove 1, .tick, .tick, .tick]).fault = some .outOfRange := by
  decide

/-- The entry point of an event moves its own event to a later time: the event is erased when the
entry point returns, its number stays in the table, `_events.at` throws when the time comes. -/
theorem C80_fails_move :
    (run (init 0) [.tick, .simState true, .add 0 7 10 0 0, .advance 10, .tick, .tick, .tick, .tick,
      .setTime 10 0 20, .tick, .tick, .tick, .advance 10, .tick, .tick, .tick]).fault =
      some .outOfRange := by
  decide

/-- The entry point of an event moves its own event to a time already past: the event is erased
and then used. -/
theorem C80_fails_self :
    (run (init 0) [.tick, .simState true, .add 0 7 10 0 0, .advance 10, .tick, .tick, .tick, .tick,
      .setTime 10 0 5, .tick]).fault = some .danglingEvent := by
  decide

/-! ### C81: the thread ends when the scheduler is disconnected -/

/-- Every state of every history, the calls excluded above included. -/
inductive ReachAny : State → Prop
  | init (c : Int) : ReachAny (init c)
  | step {s} (i : Input) : ReachAny s → ReachAny (step s i)

/-- The thread has ended, or the program. -/
def State.over (s : State) : Prop := s.pc = .ended ∨ s.fault.isSome = true

theorem look_terminate {s : State} (hw : s.pc.waits = true) (ht : s.terminate = true) :
    s.look.pc = .ended := by
  have hp : s.pred = true := by
    unfold State.pred
    split
    · simp [ht]
    · simp [ht]
    · rename_i h1 h2; revert hw h1 h2; cases s.pc <;> simp [PC.waits]
  unfold State.look
  simp [hp, ht]

/-- A thread that waits when asked to end has something to look at. -/
theorem ReachAny.term {s : State} (h : ReachAny s) :
    s.pc.waits = true → s.terminate = true → s.notified = true := by
  induction h with
  | init c => intro hw; cases hw
  | @step s i hr ih =>
    by_cases hf : s.fault.isSome = true
    · rw [step_fault i hf]; exact ih
    have hf : s.fault = none := by simpa using hf
    have hlook : s.look.pc.waits = true → s.look.terminate = true → s.look.notified = true := by
      intro hw ht
      rw [(look_same s).2.2.2.2.2.2] at ht
      by_cases hws : s.pc.waits = true
      · rw [look_terminate hws ht] at hw; cases hw
      · rcases look_pc s with h | h | h <;> rw [h] at hw
        · exact absurd hw hws
        · cases hw
        · cases hw
    by_cases hi : i = .tick
    · subst hi
      rw [step_tick hf]
      cases hpc : s.pc with
      | header =>
        rw [tick_header hpc]
        split
        · intro _ _; rfl
        · split
          · intro hw; cases hw
          · intro _ _; rfl
      | slot k => rw [tick_slot hpc]; split <;> (intro hw; cases hw)
      | toExec k id rest =>
        rw [tick_toExec hpc]
        split
        · intro hw; simp [hpc, PC.waits] at hw
        · split
          · intro hw; cases hw
          · intro hw
            rw [finish_waits _ _ _ _ (by simp [hpc, PC.waits])] at hw; cases hw
      | cb k id rest =>
        rw [tick_cb hpc]
        intro hw
        rw [finish_waits _ _ _ _ (by simp [hpc, PC.waits])] at hw; cases hw
      | back k rest =>
        rw [tick_back hpc]
        split
        · intro hw; cases hw
        · split <;> (intro hw; cases hw)
      | waitAny => rw [tick_waitAny hpc]; split; exact ih; exact hlook
      | waitFor d => rw [tick_waitFor hpc]; split; exact ih; exact hlook
      | ended => rw [tick_ended hpc]; exact ih
    · unfold Zulu.step
      split
      · exact ih
      split
      · exact ih
      cases i with
      | tick => exact absurd rfl hi
      | spurious => simp only; split; exact hlook; exact hlook; exact ih
      | advance d => exact ih
      | simState a => exact ih
      | other => simp only; split <;> exact ih
      | add seen ep t c r =>
        simp only [State.add]
        split
        · split
          · exact ih
          split
          · exact ih
          split
          · exact ih
          · intro _ _; rfl
        · exact ih
      | setTime seen id t =>
        simp only [State.setTime]
        split
        · split
          · exact ih
          split
          · exact ih
          · intro _ _; rfl
        · exact ih
      | setCycle id c =>
        simp only [State.setCycle]
        split
        · exact ih
        split <;> exact ih
      | setRepeat id c =>
        simp only [State.setRepeat]
        split
        · exact ih
        split <;> exact ih
      | remove id =>
        simp only [State.remove]
        split
        · exact ih
        split <;> exact ih
      | disconnect => intro _ _; rfl

theorem over_tick {s : State} (hf : s.fault = none) (h : ∃ n, (ticks n s.tick).over) :
    ∃ n, (ticks n s).over := by
  obtain ⟨n, hn⟩ := h
  exact ⟨n + 1, by rw [ticks_succ, step_tick hf]; exact hn⟩

theorem over_fault {s : State} (h : s.fault.isSome = true) : ∃ n, (ticks n s).over :=
  ⟨0, .inr h⟩

theorem over_back {s : State} {k : Int} {rest : List Int} (hpc : s.pc = .back k rest)
    (ht : s.terminate = true) : ∃ n, (ticks n s).over := by
  cases hf : s.fault with
  | some f => exact over_fault (by simp [hf])
  | none =>
    refine over_tick hf ⟨0, .inl ?_⟩
    rw [ticks_zero, tick_back hpc, if_pos ht]

theorem over_finish {s : State} {k id : Int} {rest : List Int} (ht : s.terminate = true) :
    ∃ n, (ticks n (s.finish k id rest)).over := by
  unfold State.finish
  split
  · exact over_fault rfl
  · split
    · exact over_back (k := k) (rest := rest) rfl ht
    · split
      · exact over_fault rfl
      · exact over_back (k := k) (rest := rest) rfl ht

theorem over_cb {s : State} {k id : Int} {rest : List Int} (hpc : s.pc = .cb k id rest)
    (ht : s.terminate = true) : ∃ n, (ticks n s).over := by
  cases hf : s.fault with
  | some f => exact over_fault (by simp [hf])
  | none => refine over_tick hf ?_; rw [tick_cb hpc]; exact over_finish ht

theorem over_toExec {s : State} {k id : Int} {rest : List Int} (hpc : s.pc = .toExec k id rest)
    (ht : s.terminate = true) : ∃ n, (ticks n s).over := by
  cases hf : s.fault with
  | some f => exact over_fault (by simp [hf])
  | none =>
    refine over_tick hf ?_
    rw [tick_toExec hpc]
    split
    · exact over_fault rfl
    · split
      · exact over_cb (k := k) (id := id) (rest := rest) rfl ht
      · exact over_finish ht

theorem over_wait {s : State} (hw : s.pc.waits = true) (hn : s.notified = true)
    (ht : s.terminate = true) : ∃ n, (ticks n s).over := by
  cases hf : s.fault with
  | some f => exact over_fault (by simp [hf])
  | none =>
    refine over_tick hf ⟨0, .inl ?_⟩
    rw [ticks_zero]
    have hna : s.asleep = false := by
      unfold State.asleep; split <;> simp [hn]
    have hl := look_terminate hw ht
    cases hpc : s.pc with
    | waitAny => rw [tick_waitAny hpc, hna]; exact hl
    | waitFor d => rw [tick_waitFor hpc, hna]; exact hl
    | header => rw [hpc] at hw; cases hw
    | slot k => rw [hpc] at hw; cases hw
    | toExec k id l => rw [hpc] at hw; cases hw
    | cb k id l => rw [hpc] at hw; cases hw
    | back k l => rw [hpc] at hw; cases hw
    | ended => rw [hpc] at hw; cases hw

theorem length_erase_le (k : Int) : ∀ m : OMap α, (m.erase k).length ≤ m.length
  | [] => Nat.le_refl _
  | (k', v) :: t => by
    have := length_erase_le k t
    simp only [OMap.erase]
    split <;> simp <;> omega

theorem over_header : ∀ (b : Nat) (s : State), s.table.length ≤ b → s.pc = .header →
    s.terminate = true → ∃ n, (ticks n s).over := by
  intro b
  induction b with
  | zero =>
    intro s hb hpc ht
    cases hf : s.fault with
    | some f => exact over_fault (by simp [hf])
    | none =>
      refine over_tick hf ?_
      rw [tick_header hpc]
      have : s.table = [] := List.length_eq_zero_iff.1 (by omega)
      rw [this]
      exact over_wait rfl rfl ht
  | succ b ih =>
    intro s hb hpc ht
    cases hf : s.fault with
    | some f => exact over_fault (by simp [hf])
    | none =>
      refine over_tick hf ?_
      rw [tick_header hpc]
      split
      · exact over_wait rfl rfl ht
      · rename_i k hk
        split
        · refine over_tick (by exact hf) ?_
          rw [tick_slot (k := k) rfl]
          split
          · refine ih _ ?_ rfl ht
            simp only
            cases hm : s.table with
            | nil => simp [OMap.erase]
            | cons p t =>
              obtain ⟨k', v⟩ := p
              rw [hm] at hk hb
              simp only [OMap.minKey, Option.some.injEq] at hk
              have := length_erase_le k t
              simp only [OMap.erase, hk, if_true, List.length_cons] at hb ⊢
              omega
          · rename_i id rest _
            exact over_toExec (k := k) (id := id) (rest := rest) rfl ht
        · exact over_wait rfl rfl ht

/-- C81. After `DoDisconnect` has asked the thread to end, it ends after finitely many steps,
whatever it was doing and without any help from other threads, unless the program itself ends
(the faults of C80). -/
theorem C81_ends {s : State} (hs : ReachAny s) (ht : s.terminate = true) :
    ∃ n, let s' := run s (List.replicate n .tick)
      s'.pc = .ended ∨ s'.fault.isSome = true := by
  show ∃ n, (ticks n s).over
  cases hf : s.fault with
  | some f => exact over_fault (by simp [hf])
  | none =>
    cases hpc : s.pc with
    | header => exact over_header _ s (Nat.le_refl _) hpc ht
    | slot k =>
      refine over_tick hf ?_
      rw [tick_slot hpc]
      split
      · exact over_header _ _ (Nat.le_refl _) rfl ht
      · rename_i id rest _
        exact over_toExec (k := k) (id := id) (rest := rest) rfl ht
    | toExec k id rest => exact over_toExec hpc ht
    | cb k id rest => exact over_cb hpc ht
    | back k rest => exact over_back hpc ht
    | waitAny => exact over_wait (by rw [hpc]; rfl) (hs.term (by rw [hpc]; rfl) ht) ht
    | waitFor d => exact over_wait (by rw [hpc]; rfl) (hs.term (by rw [hpc]; rfl) ht) ht
    | ended => exact ⟨0, .inl hpc⟩

theorem Reach.any {s : State} (h : Reach s) : ReachAny s := by
  induction h with
  | init c => exact .init c
  | step _ _ ih => exact .step _ ih

/-- The hypotheses of `C81_ends` are met while an entry point is running. -/
example : ReachAny (step (ex1 8) .disconnect) ∧ (step (ex1 8) .disconnect).terminate = true ∧
    (step (ex1 8) .disconnect).pc = .cb 10 0 [] ∧
    (run (step (ex1 8) .disconnect) [.tick, .tick]).pc = .ended :=
  ⟨.step _ (ex1_reachT 8).reach.any, by decide, by decide, by decide⟩

end Verif.Sched.Zulu
