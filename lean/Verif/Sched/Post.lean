import Verif.Sched.Defects

/-
A thread that posts simulation-time events while the loop runs
(`AddSimulationTimeEvent`, XsmpScheduler.cpp:168-177 and `AddEvent`, 139-166), at a
finer granularity than `Sched/Model.lean`:

* the call is two steps: the checks against the current simulation time (lines
  145-153), which take no lock, and the insertion (lines 154-165), under
  `_eventsMutex`;
* the loop leaves a slot in two steps: `ExecuteEvents` finds the slot empty (line 478)
  and returns, later `lck.lock()` and `it = _events_table.erase(it)` (lines 660, 613)
  remove the slot whatever it contains by then.

Simplifications: one posting thread, simulation-time events; that the loop reads the
slot without holding the lock the posting thread holds (lines 478-481), a data race,
is not modelled, each access is atomic. Everything else is the machine of
`Sched/Model.lean`.
-/
namespace Verif.Sched.Post

/-- Local variables of `AddEvent` after its checks. (XsmpScheduler.cpp:154-165.) -/
structure Pending where
  ep : Nat
  /-- `simulationTime`, also `time` -/
  t : Int
  cycle : Int
  rep : Int
  deriving DecidableEq, Repr

structure PState where
  s : State
  /-- the loop is between line 660 and the erase of line 613 -/
  ending : Bool
  /-- the posting thread is between lines 153 and 154 -/
  pend : Option Pending
  deriving DecidableEq, Repr

inductive PInput
  /-- a call made by the thread of the loop, or by the application while held -/
  | op (o : Op)
  | run
  | tick (delayed : Bool)
  /-- the posting thread enters `AddSimulationTimeEvent` (lines 172-174, 145-153) -/
  | check (ep : Nat) (dt cycle rep : Int)
  /-- the posting thread inserts (lines 154-165) -/
  | commit
  deriving DecidableEq, Repr

/-- XsmpScheduler.cpp:172-174 and 145-153; a rejected call throws. -/
def check (f : PState) (ep : Nat) (dt cycle rep : Int) : PState :=
  match simTarget f.s dt with
  | none => { f with s := f.s.fail .overflow }
  | some t =>
    if t < f.s.now then f
    else if rep ≠ 0 ∧ cycle ≤ 0 then f
    else { f with pend := some ⟨ep, t, cycle, rep⟩ }

/-- XsmpScheduler.cpp:154-165. -/
def commit (f : PState) : PState :=
  match f.pend with
  | none => f
  | some p =>
    match chk (f.s.lastId + 1) with
    | none => { f with s := f.s.fail .overflow, pend := none }
    | some n =>
      { f with
        pend := none
        s := { f.s with
          lastId := n
          events := f.s.events.insert n ⟨p.ep, p.t, p.t, p.cycle, p.rep, .simulation⟩
          table := post f.s.table p.t n } }

/-- A step of the loop; leaving a slot is split (XsmpScheduler.cpp:478, 613). -/
def ptick (f : PState) (d : Bool) : PState :=
  if f.ending then
    { f with
      ending := false
      s := match f.s.table.nextKey f.s.iter with
        | none => { f.s with table := f.s.table.erase f.s.iter, pc := .idle }
        | some k => enterSlot { f.s with table := f.s.table.erase f.s.iter } k }
  else if f.s.pc = .slotTest ∧ f.s.itOk ∧ slotOf f.s.table f.s.iter = [] then
    { f with ending := true }
  else { f with s := tick f.s d }

/-- One step; nothing happens after a fault. (XsmpScheduler.cpp:139-177, 393-665.) -/
def pstep (f : PState) (i : PInput) : PState :=
  if f.s.fault.isSome then f
  else match i with
    | .op o => if f.s.pc.callable then { f with s := step f.s (.op o) } else f
    | .run => { f with s := step f.s .run }
    | .tick d => ptick f d
    | .check ep dt c r => if f.pend = none then check f ep dt c r else f
    | .commit => commit f

/-- An execution of both threads. Of the model only (interleavings of XsmpScheduler.cpp:139-177
and 393-665). -/
def pexec (f : PState) (is : List PInput) : PState := is.foldl pstep f

/-- Initial state. (XsmpScheduler.cpp:70-81.) -/
def pinit : PState := ⟨init, false, none⟩

/-! ### Vocabulary -/

/-- An insertion at a time that is not in the past, not before an announced time, and
not into the slot that is about to be erased. -/
def Timely (f : PState) : Prop :=
  ∀ p, f.pend = some p → f.s.now ≤ p.t ∧ PostOk f.s p.t ∧ ¬ (f.ending = true ∧ p.t = f.s.iter)

/-- The calls of the loop's thread avoid the defects listed at `Op.ok`, and insertions
are timely. -/
def PInput.ok (f : PState) : PInput → Prop
  | .op o => o.ok f.s
  | .commit => Timely f
  | _ => True

def POk : PState → List PInput → Prop
  | _, [] => True
  | f, i :: is => i.ok f ∧ POk (pstep f i) is

/-- No call of the execution is about event `n`. -/
def PUntouched (n : Int) (is : List PInput) : Prop :=
  ∀ i ∈ is, ∀ o, i = .op o → ¬ o.touches n

/-! ### Refinement of the atomic machine -/

structure PInv (f : PState) : Prop where
  ending : f.ending = true → f.s.pc = .slotTest ∧ f.s.itOk = true ∧
    slotOf f.s.table f.s.iter = []
  pend : ∀ p, f.pend = some p → chk p.t = some p.t ∧ ¬ (p.rep ≠ 0 ∧ p.cycle ≤ 0)

theorem pinv_init : PInv pinit := ⟨by simp [pinit], by simp [pinit]⟩

theorem chk_self {x y : Int} (h : chk x = some y) : chk y = some y := by
  have := chk_some h; rw [this.1, h]; simp [this.1]

theorem commit_apply {f : PState} {p : Pending} (h : PInv f) (hp : f.pend = some p)
    (ht : f.s.now ≤ p.t) :
    (commit f).s = (apply f.s (.addTimed .simulation p.ep (p.t - f.s.now) p.cycle p.rep)).1 := by
  obtain ⟨h1, h2⟩ := h.pend p hp
  have e : f.s.now + (p.t - f.s.now) = p.t := by omega
  simp only [commit, hp, apply, addTimed, target, simTarget, e, h1, addEvent, if_neg h2,
    stampOf, SimKind.kind]
  rw [if_neg (by omega)]
  split <;> simp_all

theorem ending_tick {f : PState} (h : PInv f) (he : f.ending = true) (d : Bool) :
    (ptick f d).s = tick f.s d := by
  obtain ⟨h1, h2, h3⟩ := h.ending he
  simp only [ptick, he, if_true, tick, h1, h2, h3]
  simp
  split <;> simp_all

/-- Each step of the two threads is none or one step of the atomic machine. -/
theorem pstep_refines {f : PState} {i : PInput} (h : PInv f) (hok : i.ok f) :
    PInv (pstep f i) ∧ ∃ is', OkRun f.s is' ∧ (pstep f i).s = exec f.s is' ∧
      ∀ n, PUntouched n [i] → Untouched n is' := by
  by_cases hf : f.s.fault.isSome
  · have : pstep f i = f := by unfold pstep; rw [if_pos hf]
    rw [this]; exact ⟨h, [], trivial, rfl, by simp [Untouched]⟩
  have hfn : f.s.fault = none := by
    cases hh : f.s.fault with
    | none => rfl
    | some _ => simp [hh] at hf
  unfold pstep; rw [if_neg hf]
  cases i with
  | op o =>
    simp only
    split
    · rename_i hc
      refine ⟨⟨?_, h.pend⟩, [.op o], ⟨hok, trivial⟩, rfl, ?_⟩
      · intro he
        have := (h.ending he).1
        rw [this] at hc; simp [PC.callable] at hc
      · intro n hu j hj o' ho'
        simp only [List.mem_cons, List.not_mem_nil, or_false] at hj
        subst hj
        exact hu (.op o) (by simp) o' (by cases ho'; rfl)
    · exact ⟨h, [], trivial, rfl, by simp [Untouched]⟩
  | run =>
    simp only
    refine ⟨⟨?_, h.pend⟩, [.run], ⟨trivial, trivial⟩, rfl, ?_⟩
    · intro he
      have h1 := h.ending he
      have : step f.s .run = f.s := by unfold step; rw [if_neg hf]; simp [h1.1]
      simp only [this]; exact h1
    · intro n _ j hj o' ho'; simp at hj; subst hj; cases ho'
  | tick d =>
    simp only
    have one : ∀ n, PUntouched n [PInput.tick d] → Untouched n [.tick d] := by
      intro n _ j hj o' ho'; simp at hj; subst hj; cases ho'
    by_cases he : f.ending = true
    · refine ⟨⟨?_, ?_⟩, [.tick d], ⟨trivial, trivial⟩, ?_, one⟩
      · simp [ptick, he]
      · simp only [ptick, he, if_true]; exact h.pend
      · rw [ending_tick h he, exec_cons, step_tick d hfn]; rfl
    · by_cases hc : f.s.pc = .slotTest ∧ f.s.itOk ∧ slotOf f.s.table f.s.iter = []
      · have e : ptick f d = { f with ending := true } := by
          unfold ptick; rw [if_neg he, if_pos hc]
        rw [e]
        exact ⟨⟨fun _ => hc, h.pend⟩, [], trivial, rfl, by simp [Untouched]⟩
      · have e : ptick f d = { f with s := tick f.s d } := by
          unfold ptick; rw [if_neg he, if_neg hc]
        rw [e]
        refine ⟨⟨fun h' => absurd h' he, h.pend⟩, [.tick d], ⟨trivial, trivial⟩, ?_, one⟩
        rw [exec_cons, step_tick d hfn]; rfl
  | check ep dt c r =>
    simp only
    split
    · simp only [check]
      split
      · rename_i ht
        refine ⟨⟨h.ending, h.pend⟩, [.op (.addTimed .simulation ep dt c r)],
          ⟨?_, trivial⟩, ?_, ?_⟩
        · intro t ht'; simp [target, ht] at ht'
        · rw [exec_cons, step_op _ hfn]; simp [apply, addTimed, target, ht, exec]
        · intro n _ j hj o' ho'
          simp at hj; subst hj; cases ho'; simp [Op.touches]
      · rename_i t ht
        split
        · exact ⟨h, [], trivial, rfl, by simp [Untouched]⟩
        · split
          · exact ⟨h, [], trivial, rfl, by simp [Untouched]⟩
          · rename_i h2
            refine ⟨⟨h.ending, ?_⟩, [], trivial, rfl, by simp [Untouched]⟩
            intro p hp; simp at hp; subst hp; exact ⟨chk_self ht, h2⟩
    · exact ⟨h, [], trivial, rfl, by simp [Untouched]⟩
  | commit =>
    simp only
    cases hp : f.pend with
    | none =>
      have e : commit f = f := by simp [commit, hp]
      rw [e]; exact ⟨h, [], trivial, rfl, by simp [Untouched]⟩
    | some p =>
      obtain ⟨t1, t2, t3⟩ := hok p hp
      have ea := commit_apply h hp t1
      refine ⟨⟨?_, ?_⟩, [.op (.addTimed .simulation p.ep (p.t - f.s.now) p.cycle p.rep)],
        ⟨?_, trivial⟩, ?_, ?_⟩
      · intro he
        have hend : f.ending = true := by
          simp only [commit, hp] at he; split at he <;> exact he
        obtain ⟨h1, h2, h3⟩ := h.ending hend
        simp only [commit, hp]
        split
        · exact ⟨h1, h2, h3⟩
        · refine ⟨h1, h2, ?_⟩
          apply List.eq_nil_iff_forall_not_mem.2
          intro x hx
          rw [mem_slotOf_post] at hx
          rcases hx with ⟨hx, _⟩ | hx
          · exact t3 ⟨hend, hx.symm⟩
          · rw [h3] at hx; simp at hx
      · intro q hq; simp only [commit, hp] at hq; split at hq <;> simp at hq
      · intro t ht
        have := (chk_some ht).1
        have : t = p.t := by omega
        rw [this]; exact t2
      · rw [ea, exec_cons, step_op _ hfn]; rfl
      · intro n _ j hj o' ho'
        simp at hj; subst hj; cases ho'; simp [Op.touches]

/-- Whole executions of the two threads are executions of the atomic machine. -/
theorem pexec_refines {f : PState} {is : List PInput} (h : PInv f) (hok : POk f is) :
    PInv (pexec f is) ∧ ∃ is', OkRun f.s is' ∧ (pexec f is).s = exec f.s is' ∧
      ∀ n, PUntouched n is → Untouched n is' := by
  induction is generalizing f with
  | nil => exact ⟨h, [], trivial, rfl, by simp [Untouched]⟩
  | cons i is ih =>
    obtain ⟨h1, a, ha, hae, hau⟩ := pstep_refines h hok.1
    obtain ⟨h2, b, hb, hbe, hbu⟩ := ih h1 hok.2
    refine ⟨h2, a ++ b, OkRun.append.2 ⟨ha, by rw [← hae]; exact hb⟩, ?_, ?_⟩
    · show (pexec (pstep f i) is).s = _
      rw [hbe, exec_append, hae]
    · intro n hu j hj
      rcases List.mem_append.1 hj with hj | hj
      · exact hau n (fun k hk => hu k (by simp at hk; subst hk; simp)) j hj
      · exact hbu n (fun k hk => hu k (List.mem_cons_of_mem _ hk)) j hj

theorem pexec_append (f : PState) (is js : List PInput) :
    pexec f (is ++ js) = pexec (pexec f is) js := by
  unfold pexec; rw [List.foldl_append]

theorem POk.append {f : PState} {is js : List PInput} :
    POk f (is ++ js) ↔ POk f is ∧ POk (pexec f is) js := by
  induction is generalizing f with
  | nil => simp [POk, pexec]
  | cons i is ih =>
    simp only [List.cons_append, POk, ih, and_assoc]; exact Iff.rfl

/-! ### C67 -/

/-- **C67, rejection.** A call whose due time is in the past, or whose repetition has no
positive cycle, leaves the scheduler and the posting thread as they were. -/
theorem C67_rejected (f : PState) (ep : Nat) (dt c r t : Int) (ht : simTarget f.s dt = some t)
    (hbad : t < f.s.now ∨ (r ≠ 0 ∧ c ≤ 0)) : check f ep dt c r = f := by
  simp only [check, ht]
  split
  · rfl
  · rw [if_pos (by rcases hbad with h | h; exact absurd h (by assumption); exact h)]

/-- **C67 (partial).** In every interleaving of the posting thread with the loop in
which insertions are timely, the inserted event fires exactly as described by `Fires`
from the time it was posted for, whatever both threads do afterwards. Missing: the
code does not ensure that insertions are timely, see the theorems below. -/
theorem C67_fires_partial {is js : List PInput} {p : Pending} {n : Int}
    (hok : POk pinit (is ++ .commit :: js)) (hp : (pexec pinit is).pend = some p)
    (hn : (pexec pinit (is ++ [.commit])).s.lastId = n)
    (hu : PUntouched n js) (hf : (pexec pinit (is ++ .commit :: js)).s.fault = none) :
    Fires n p.t p.cycle p.rep .simulation p.ep (pexec pinit (is ++ .commit :: js)).s.now
      (occ n (pexec pinit (is ++ .commit :: js)).s.log) := by
  obtain ⟨hok1, hokc, hok2⟩ := POk.append.1 hok
  obtain ⟨hinv, a, ha, hae, _⟩ := pexec_refines pinv_init hok1
  obtain ⟨t1, t2, t3⟩ := hokc p hp
  obtain ⟨hinv', _⟩ := pstep_refines hinv (i := .commit) hokc
  obtain ⟨_, b, hb, hbe, hbu⟩ := pexec_refines hinv' hok2
  rw [pexec_append] at hf hn ⊢
  have e1 : pexec (pexec pinit is) (.commit :: js) = pexec (pstep (pexec pinit is) .commit) js :=
    rfl
  rw [e1] at hf ⊢
  rw [hbe] at hf
  have hfc := fault_none_of_exec hf
  generalize hF : pexec pinit is = F at *
  have hf0 : F.s.fault = none := by
    cases hh : F.s.fault with
    | none => rfl
    | some x =>
      have : pstep F .commit = F := by unfold pstep; rw [if_pos (by simp [hh])]
      rw [this, hh] at hfc; simp at hfc
  have ec : pstep F .commit = commit F := by unfold pstep; rw [if_neg (by simp [hf0])]
  have ea := commit_apply hinv hp t1
  have hreach : Reach F.s := ⟨a, ha, hae.symm, hf0⟩
  rw [hbe]
  rw [ec] at hb hf hfc hbe ⊢
  have hadd : (apply F.s (.addTimed .simulation p.ep (p.t - F.s.now) p.cycle p.rep)).2 = .id n := by
    have hn' : (commit F).s.lastId = n := by
      rw [← hn]; show _ = (pstep F .commit).s.lastId; rw [ec]
    obtain ⟨h1, h2⟩ := hinv.pend p hp
    have e : F.s.now + (p.t - F.s.now) = p.t := by omega
    simp only [apply, addTimed, target, simTarget, e, h1, addEvent, if_neg h2]
    rw [if_neg (by omega)]
    simp only [commit, hp] at hn' hfc
    split
    · rename_i hc; simp [hc, State.fail] at hfc
    · rename_i m hc; simp [hc] at hn'; rw [hn']
  rw [ea] at hb hf ⊢
  have := C02_fires_partial hreach (k := .simulation) (ep := p.ep) (x := p.t - F.s.now)
    (c := p.cycle) (r := p.rep) (n := n) ?_ hadd hb (hbu n hu) hf
  · have e : dueAt F.s .simulation (p.t - F.s.now) = p.t := by simp only [dueAt]; omega
    rw [e] at this; exact this
  · intro t ht
    have := (chk_some ht).1
    have : t = p.t := by omega
    rw [this]; exact t2

/-- `n` steps of the loop. Of the model only (the loop of XsmpScheduler.cpp:592-665). -/
def pticks (n : Nat) : List PInput := List.replicate n (.tick false)

/-- An event at 10 whose callback is running when the other thread posts at 15. -/
def goodPost : List PInput :=
  [.op (.addTimed .simulation 1 10 5 1), .run] ++ pticks 7 ++ [.check 2 5 0 0] ++ pticks 2

instance (f : PState) : Decidable (Timely f) :=
  match h : f.pend with
  | none => isTrue (by simp [Timely, h])
  | some p => decidable_of_iff
      (f.s.now ≤ p.t ∧ PostOk f.s p.t ∧ ¬ (f.ending = true ∧ p.t = f.s.iter))
      ⟨fun hh q hq => by rw [h] at hq; cases hq; exact hh, fun hh => hh p h⟩

instance decPOk : (f : PState) → (is : List PInput) → Decidable (POk f is)
  | _, [] => isTrue trivial
  | f, i :: is =>
    have := decPOk (pstep f i) is
    have : Decidable (i.ok f) := by cases i <;> unfold PInput.ok <;> infer_instance
    inferInstanceAs (Decidable (i.ok f ∧ POk (pstep f i) is))

example : POk pinit (goodPost ++ .commit :: pticks 20) ∧
    (pexec pinit (goodPost)).pend = some ⟨2, 15, 0, 0⟩ ∧
    (pexec pinit (goodPost ++ [.commit])).s.lastId = 1 ∧
    (pexec pinit (goodPost ++ .commit :: pticks 20)).s.fault = none ∧
    occ 1 (pexec pinit (goodPost ++ .commit :: pticks 20)).s.log = [.called 1 2 15] := by
  refine ⟨?_, ?_, ?_, ?_, ?_⟩ <;> decide

/-- **C67 fails**, first way: the posting thread passes the checks at time 0 for time
10, is suspended, and inserts when the loop is past 10. The accepted event waits in the
past of the simulation time, is not executed by the loop, and stops the next run. -/
theorem C67_stale_fails : ∃ is, (pexec pinit is).s.fault = none ∧
    (∃ e, (pexec pinit is).s.events.find 2 = some e ∧ e.next < (pexec pinit is).s.now) ∧
    occ 2 (pexec pinit (is ++ pticks 30)).s.log = [] ∧
    (pexec pinit (is ++ [.op .hold] ++ pticks 2 ++ [.run] ++ pticks 5)).s.fault =
      some .badTime :=
  ⟨[.op (.addTimed .simulation 1 10 0 0), .op (.addTimed .simulation 1 20 0 0),
    .check 2 10 0 0, .run] ++ pticks 18 ++ [.commit], by decide,
    ⟨⟨2, 10, 10, 0, 0, .simulation⟩, by decide, by decide⟩, by decide, by decide⟩

/-- **C67 fails**, second way: the event is accepted for the current time after the loop
found the slot empty and before it erases the slot. It is never executed, although it
stays registered. -/
theorem C67_lost_fails : ∃ is, (∃ f, f = pexec pinit is ∧ f.s.fault = none ∧
      (∃ e, f.s.events.find 1 = some e ∧ e.next = f.s.now)) ∧
    (∃ g, g = pexec pinit (is ++ pticks 30) ∧ g.s.fault = none ∧ 10 < g.s.now ∧
      occ 1 g.s.log = [] ∧ (g.s.events.find 1).isSome ∧ ¬ Immediate g.s 1 ∧
      ∀ k ∈ g.s.table.map Prod.fst, 1 ∉ slotOf g.s.table k) :=
  ⟨[.op (.addTimed .simulation 1 10 0 0), .run] ++ pticks 11 ++ [.check 2 0 0 0, .commit],
    ⟨_, rfl, by decide, ⟨2, 10, 10, 0, 0, .simulation⟩, by decide, by decide⟩,
    ⟨_, rfl, by decide, by decide, by decide, by decide, by unfold Immediate; decide,
      by decide⟩⟩

/-- **C67 fails**, third way: while the loop waits to advance to time 10 the event is
accepted for time 5; the loop ends with `InvalidSimulationTime`. -/
theorem C67_stop_fails : ∃ is, (pexec pinit is).s.fault = none ∧ (pexec pinit is).s.now = 0 ∧
    (pexec pinit is).s.pc = .waiting ∧
    (pexec pinit (is ++ [.check 2 5 0 0, .commit, .tick false])).s.fault = some .badTime :=
  ⟨[.op (.addTimed .simulation 1 10 0 0), .run] ++ pticks 2, by decide, by decide, by decide,
    by decide⟩

end Verif.Sched.Post
