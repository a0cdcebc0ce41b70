/-
Locking of the scheduler service (`src/Xsmp/Services/XsmpScheduler.cpp`): the
simulation thread, which runs `_EnterExecuting`, and the Zulu thread, which runs
`InternalZuluRun`, with the three mutexes `_eventsMutex` (E), `_execMutex` (X) and
`_zuluEventsTableMutex` (Z).

A position of a thread is a place in the code between two lock operations; it
determines the mutexes the thread holds. A thread first commits to its next
position (`goal`) and moves there when the mutexes it needs are free; until then it
is blocked. Unlocking is never blocked.

Simplifications: data is left out; the branches taken are free choices; the entry
points return unless blocked in a call of the scheduler; `_holdMutex`, which is
never held while another mutex is taken, and the mutexes of other services are left
out; `std::scoped_lock` with two mutexes takes both at once (it holds none while it
waits).
-/
namespace Verif.Sched.Locks

/-- The mutexes of XsmpScheduler.h:394, 398, 420. -/
inductive Mutex | E | X | Z
  deriving DecidableEq, Repr

/-- Positions of a thread. -/
inductive Pos
  /-- outside of every locked region -/
  | free
  /-- in a call holding `_eventsMutex` (lines 128, 154, 239, 319, 333, 347, 381, 386,
  573, 579) or in the loop header of line 610 -/
  | api
  /-- in a call holding `_eventsMutex` and `_zuluEventsTableMutex` (lines 218, 293, 358) -/
  | apiZ
  /-- start of `Execute`/`ExecuteZulu` (lines 395-412, 441-449) -/
  | start
  /-- lines 413-414, 450-451: `_execMutex` taken, `_eventsMutex` still held -/
  | armed
  /-- lines 416, 453: the entry point is running -/
  | callback
  /-- the entry point is in a call holding `_eventsMutex` -/
  | cbApi
  /-- the entry point is in a call holding `_eventsMutex` and `_zuluEventsTableMutex` -/
  | cbApiZ
  /-- lines 417-419, 454-456: `_eventsMutex` taken again, `_execMutex` still held -/
  | relocked
  /-- lines 421-436, 458-467: end of `Execute`/`ExecuteZulu` -/
  | tail
  /-- lines 469-471: end of `ExecuteZulu` with `_zuluEventsTableMutex` -/
  | tailZ
  /-- lines 516-560: the loop of the Zulu thread, `_zuluEventsTableMutex` held -/
  | table
  /-- lines 556-567: the Zulu thread waits on `_zuluCv` -/
  | wait
  /-- line 546: `lck.unlock()` done, before `ExecuteZulu` -/
  | toExec
  /-- line 548: `ExecuteZulu` returned, before `lck.lock()` -/
  | back
  deriving DecidableEq, Repr

/-- Mutexes held at a position. (XsmpScheduler.cpp:393-473, 514-570.) -/
def Pos.locks : Pos → List Mutex
  | .free => []
  | .api => [.E]
  | .apiZ => [.E, .Z]
  | .start => [.E]
  | .armed => [.E, .X]
  | .callback => [.X]
  | .cbApi => [.X, .E]
  | .cbApiZ => [.X, .E, .Z]
  | .relocked => [.X, .E]
  | .tail => [.E]
  | .tailZ => [.E, .Z]
  | .table => [.Z]
  | .wait => []
  | .toExec => []
  | .back => []

/-- What can follow inside `Execute`/`ExecuteZulu` (XsmpScheduler.cpp:393-473), the same
for both threads. -/
def inExecute : Pos → List Pos
  | .start => [.tail, .armed]
  | .armed => [.callback]
  | .callback => [.cbApi, .cbApiZ, .relocked]
  | .cbApi => [.callback, .cbApiZ]
  | .cbApiZ => [.callback, .cbApi]
  | .relocked => [.tail]
  | _ => []

/-- What can follow in the simulation thread: calls of the application or of
subscribers, and `Execute` (XsmpScheduler.cpp:483, 502). -/
def simNext : Pos → List Pos
  | .free => [.free, .api, .apiZ, .start]
  | .api => [.free, .apiZ]
  | .apiZ => [.free, .api]
  | .tail => [.free]
  | p => inExecute p

/-- What can follow in the Zulu thread (XsmpScheduler.cpp:514-570, 458-472). -/
def zuluNext : Pos → List Pos
  | .table => [.wait, .toExec]
  | .wait => [.table]
  | .toExec => [.start]
  | .tail => [.back, .tailZ]
  | .tailZ => [.back]
  | .back => [.table]
  | p => inExecute p

/-- The two threads. (XsmpScheduler.cpp:88-96.) -/
inductive Tid | sim | zulu
  deriving DecidableEq, Repr

/-- The other thread. Of the model only (the threads of XsmpScheduler.cpp:88-96). -/
def Tid.other : Tid → Tid
  | .sim => .zulu
  | .zulu => .sim

/-- Code of a thread. (XsmpScheduler.cpp:393-473, 514-570.) -/
def next : Tid → Pos → List Pos
  | .sim => simNext
  | .zulu => zuluNext

/-- A thread: where it is and, if it has left it, where it wants to go. Of the model only (a place
in XsmpScheduler.cpp:393-570). -/
structure Thr where
  at_ : Pos
  goal : Option Pos
  deriving DecidableEq, Repr

/-- Both threads. Of the model only (two places in XsmpScheduler.cpp:393-570). -/
structure State where
  sim : Thr
  zulu : Thr
  deriving DecidableEq, Repr

/-- Thread `i` of a state. Of the model only (a place in XsmpScheduler.cpp:393-570). -/
def State.thr (s : State) : Tid → Thr
  | .sim => s.sim
  | .zulu => s.zulu

/-- Replaces thread `i`. Of the model only (a place in XsmpScheduler.cpp:393-570). -/
def State.set (s : State) (i : Tid) (t : Thr) : State :=
  match i with
  | .sim => { s with sim := t }
  | .zulu => { s with zulu := t }

/-- Both threads before their first lock (XsmpScheduler.cpp:92-96, 516). -/
def init : State := { sim := ⟨.free, none⟩, zulu := ⟨.back, none⟩ }

/-- `p` and `q` need no common mutex. Of the model only (the mutexes of XsmpScheduler.h:394, 398,
420). -/
def compatible (p q : Pos) : Bool := p.locks.all fun m => !q.locks.contains m

/-- One step of thread `i`: it commits to a next position, or reaches it.
(XsmpScheduler.cpp:393-570; a mutex is taken only when free.) -/
inductive Step (s : State) (i : Tid) : State → Prop
  | choose (q : Pos) (h : (s.thr i).goal = none) (hq : q ∈ next i (s.thr i).at_) :
      Step s i (s.set i ⟨(s.thr i).at_, some q⟩)
  | move (q : Pos) (h : (s.thr i).goal = some q)
      (hc : compatible q (s.thr i.other).at_ = true) : Step s i (s.set i ⟨q, none⟩)

/-- States reached from the initial one by any interleaving. Of the model only (interleavings of
XsmpScheduler.cpp:393-570). -/
inductive Reach : State → Prop
  | init : Reach init
  | step {s s' : State} {i : Tid} : Reach s → Step s i s' → Reach s'

/-! ### Vocabulary -/

/-- The thread is executing an entry point. (XsmpScheduler.cpp:416, 453.) -/
def Thr.inCallback (t : Thr) : Prop :=
  t.at_ = .callback ∨ t.at_ = .cbApi ∨ t.at_ = .cbApiZ

/-- Between the entry and the return of `Execute`/`ExecuteZulu`. (XsmpScheduler.cpp:393-473.) -/
def Thr.executing (t : Thr) : Prop :=
  t.at_ ∈ [Pos.start, .armed, .callback, .cbApi, .cbApiZ, .relocked, .tail, .tailZ]

/-- No thread can ever take another step. Of the model only (the mutexes of XsmpScheduler.h:394,
398, 420). -/
def Deadlock (s : State) : Prop := ∀ i s', ¬ Step s i s'

/-! ### Lemmas -/

/-- Held mutexes are disjoint and goals follow the code. -/
def Inv (s : State) : Prop :=
  compatible s.sim.at_ s.zulu.at_ = true ∧
  (∀ q, s.sim.goal = some q → q ∈ simNext s.sim.at_) ∧
  (∀ q, s.zulu.goal = some q → q ∈ zuluNext s.zulu.at_) ∧
  next .sim s.sim.at_ ≠ [] ∧ next .zulu s.zulu.at_ ≠ []

theorem compatible_comm (p q : Pos) : compatible p q = compatible q p := by
  cases p <;> cases q <;> rfl

theorem next_ne {i : Tid} {p q : Pos} (h : q ∈ next i p) : next i q ≠ [] := by
  cases i <;> cases p <;> simp [next, simNext, zuluNext, inExecute] at h <;>
    (try rcases h with rfl | rfl | rfl | rfl) <;> (try rcases h with rfl | rfl | rfl) <;>
    (try rcases h with rfl | rfl) <;> (try subst h) <;>
    simp [next, simNext, zuluNext, inExecute]

theorem Inv.step {s s' : State} {i : Tid} (h : Inv s) (hs : Step s i s') : Inv s' := by
  obtain ⟨h1, h2, h3, h4, h5⟩ := h
  cases hs with
  | choose q hg hq =>
    cases i with
    | sim =>
      refine ⟨h1, ?_, h3, h4, h5⟩
      intro q' hq'; simp [State.set] at hq'; subst hq'; exact hq
    | zulu =>
      refine ⟨h1, h2, ?_, h4, h5⟩
      intro q' hq'; simp [State.set] at hq'; subst hq'; exact hq
  | move q hg hc =>
    cases i with
    | sim =>
      refine ⟨hc, ?_, h3, next_ne (i := .sim) (h2 q hg), h5⟩
      intro q' hq'; simp [State.set] at hq'
    | zulu =>
      refine ⟨by rw [compatible_comm]; exact hc, h2, ?_, h4, next_ne (i := .zulu) (h3 q hg)⟩
      intro q' hq'; simp [State.set] at hq'

theorem Reach.inv {s : State} (h : Reach s) : Inv s := by
  induction h with
  | init => exact ⟨rfl, by simp [Locks.init], by simp [Locks.init], by decide, by decide⟩
  | step _ hs ih => exact ih.step hs

/-- The scheduler's own deadlock: thread `i`, inside an entry point (holding `_execMutex`), waits
for `_eventsMutex`, which the other thread holds at the start of `Execute`/`ExecuteZulu` waiting
for `_execMutex`. (XsmpScheduler.cpp:416, 218, 293, 358 against 546.) -/
def Crossed (s : State) (i : Tid) : Prop :=
  (s.thr i).at_ = .callback ∧
  ((s.thr i).goal = some .cbApi ∨ (s.thr i).goal = some .cbApiZ ∨
    (s.thr i).goal = some .relocked) ∧
  (s.thr i.other).at_ = .start ∧ (s.thr i.other).goal = some .armed

/-- Every pair of positions and goals, checked exhaustively: two threads that block
each other are crossed. -/
theorem blocked_cases : ∀ p q p' q' : Pos, q ∈ simNext p → q' ∈ zuluNext p' →
    compatible p p' = true → compatible q p' = false → compatible q' p = false →
    (p = .callback ∧ (q = .cbApi ∨ q = .cbApiZ ∨ q = .relocked) ∧ p' = .start ∧ q' = .armed) ∨
    (p' = .callback ∧ (q' = .cbApi ∨ q' = .cbApiZ ∨ q' = .relocked) ∧ p = .start ∧
      q = .armed) := by
  intro p q p' q' hq hq'
  cases p <;> simp [simNext, inExecute] at hq <;>
    cases p' <;> simp [zuluNext, inExecute] at hq' <;>
    (try (rcases hq with rfl | rfl | rfl | rfl)) <;> (try (rcases hq with rfl | rfl | rfl)) <;>
    (try (rcases hq with rfl | rfl)) <;> (try subst hq) <;>
    (try (rcases hq' with rfl | rfl | rfl)) <;> (try (rcases hq' with rfl | rfl)) <;>
    (try subst hq') <;> decide

/-! ### C66 -/

/-- **C66, mutual exclusion.** In every interleaving, at most one of the two threads is
executing an entry point. -/
theorem C66_exclusive {s : State} (h : Reach s) :
    ¬ (s.sim.inCallback ∧ s.zulu.inCallback) := by
  have := h.inv.1
  rintro ⟨h1, h2⟩
  rcases h1 with h1 | h1 | h1 <;> rcases h2 with h2 | h2 | h2 <;>
    rw [h1, h2] at this <;> simp [compatible, Pos.locks] at this

/-- **C66 (partial).** The only way the two threads can block each other forever is the
crossed acquisition of `_execMutex` and `_eventsMutex`; in every other reachable state a
thread can continue. Missing: the crossed state is reachable, see `C66_fails`. -/
theorem C66_progress_partial {s : State} (h : Reach s) :
    Deadlock s ↔ Crossed s .sim ∨ Crossed s .zulu := by
  obtain ⟨h1, h2, h3, h4, h5⟩ := h.inv
  constructor
  · intro hd
    have goal : ∀ i, (next i (s.thr i).at_ ≠ []) → ∃ q, (s.thr i).goal = some q := by
      intro i hne
      cases hg : (s.thr i).goal with
      | some q => exact ⟨q, rfl⟩
      | none =>
        obtain ⟨q, l, hl⟩ := List.exists_cons_of_ne_nil hne
        exact absurd (Step.choose q hg (by rw [hl]; exact List.mem_cons_self)) (hd i _)
    obtain ⟨q, hq⟩ := goal .sim h4
    obtain ⟨q', hq'⟩ := goal .zulu h5
    have b1 : compatible q s.zulu.at_ = false := by
      cases hc : compatible q s.zulu.at_ with
      | false => rfl
      | true => exact absurd (Step.move q hq hc) (hd .sim _)
    have b2 : compatible q' s.sim.at_ = false := by
      cases hc : compatible q' s.sim.at_ with
      | false => rfl
      | true => exact absurd (Step.move q' hq' hc) (hd .zulu _)
    rcases blocked_cases _ _ _ _ (h2 q hq) (h3 q' hq') h1 b1 b2 with
      ⟨e1, e2, e3, e4⟩ | ⟨e1, e2, e3, e4⟩
    · left
      exact ⟨e1, by rw [hq]; simpa using e2, e3, by rw [← e4]; exact hq'⟩
    · right
      exact ⟨e1, by rw [hq']; simpa using e2, e3, by rw [← e4]; exact hq⟩
  · intro hx i s' hs
    have key : ∀ j, Crossed s j → False := by
      rintro j ⟨a1, a2, a3, a4⟩
      cases hs with
      | choose q hg hq =>
        by_cases hij : i = j
        · subst hij; rw [hg] at a2; simp at a2
        · have : i = j.other := by cases i <;> cases j <;> simp_all [Tid.other]
          subst this; rw [hg] at a4; simp at a4
      | move q hg hc =>
        by_cases hij : i = j
        · subst hij
          rw [hg] at a2
          rw [a3] at hc
          rcases a2 with a2 | a2 | a2 <;> simp at a2 <;> subst a2 <;>
            simp [compatible, Pos.locks] at hc
        · have : i = j.other := by cases i <;> cases j <;> simp_all [Tid.other]
          subst this
          rw [hg] at a4; simp at a4; subst a4
          have : j.other.other = j := by cases j <;> rfl
          rw [this, a1] at hc; simp [compatible, Pos.locks] at hc
    rcases hx with hx | hx
    · exact key _ hx
    · exact key _ hx

/-- **C66 (partial), consequence.** While the other thread is outside
`Execute`/`ExecuteZulu`, there is no deadlock. -/
theorem C66_alone_partial {s : State} (h : Reach s)
    (ho : ¬ s.sim.executing ∨ ¬ s.zulu.executing) : ∃ i s', Step s i s' := by
  apply Classical.byContradiction
  intro hn
  have hd : Deadlock s := fun i s' hs => hn ⟨i, s', hs⟩
  rcases (C66_progress_partial h).1 hd with ⟨a, _, b, _⟩ | ⟨a, _, b, _⟩ <;>
    simp only [State.thr, Tid.other] at a b <;>
    simp [Thr.executing, a, b] at ho

/-- An interleaving: the thread that steps and, when it commits, to what. Of the model only
(interleavings of XsmpScheduler.cpp:393-570). -/
def play (s : State) : List (Tid × Option Pos) → Option State
  | [] => some s
  | (i, some q) :: l =>
    if (s.thr i).goal = none ∧ q ∈ next i (s.thr i).at_ then
      play (s.set i ⟨(s.thr i).at_, some q⟩) l
    else none
  | (i, none) :: l =>
    match (s.thr i).goal with
    | some q =>
      if compatible q (s.thr i.other).at_ = true then play (s.set i ⟨q, none⟩) l else none
    | none => none

theorem play_reach {s s' : State} {l : List (Tid × Option Pos)} (h : Reach s)
    (hp : play s l = some s') : Reach s' := by
  induction l generalizing s with
  | nil => simp [play] at hp; subst hp; exact h
  | cons a l ih =>
    obtain ⟨i, _ | q⟩ := a
    · simp only [play] at hp
      split at hp
      · rename_i q hg
        split at hp
        · rename_i hc; exact ih (h.step (Step.move q hg hc)) hp
        · simp at hp
      · simp at hp
    · simp only [play] at hp
      split at hp
      · rename_i hg; exact ih (h.step (Step.choose q hg.1 hg.2)) hp
      · simp at hp

/-- The simulation thread is in an entry point when a Zulu event becomes due; the entry
point then calls the scheduler, or simply returns (`g = relocked`). -/
def crossing (g : Pos) : List (Tid × Option Pos) :=
  [(.sim, some .start), (.sim, none), (.sim, some .armed), (.sim, none),
   (.sim, some .callback), (.sim, none),
   (.zulu, some .table), (.zulu, none), (.zulu, some .toExec), (.zulu, none),
   (.zulu, some .start), (.zulu, none), (.zulu, some .armed), (.sim, some g)]

/-- **C66 fails.** A reachable state in which both threads are inside
`Execute`/`ExecuteZulu` and no thread can ever continue; the entry point of the
simulation event has already returned and made no call of the scheduler. -/
theorem C66_fails : ∃ s, Reach s ∧ s.sim.executing ∧ s.zulu.executing ∧
    s.sim.goal = some .relocked ∧ Deadlock s := by
  have hr : Reach ⟨⟨.callback, some .relocked⟩, ⟨.start, some .armed⟩⟩ :=
    play_reach Reach.init (l := crossing .relocked) (by decide)
  exact ⟨_, hr, by simp [Thr.executing], by simp [Thr.executing], rfl,
    (C66_progress_partial hr).2 (Or.inl ⟨rfl, by simp [State.thr], rfl, rfl⟩)⟩

/-- Non-vacuity: both threads can be executing without being crossed. -/
example : ∃ s, Reach s ∧ s.sim.executing ∧ s.zulu.executing ∧ ¬ Deadlock s := by
  have hr : Reach ⟨⟨.callback, none⟩, ⟨.start, none⟩⟩ :=
    play_reach Reach.init (l := (crossing .relocked).take 12) (by decide)
  refine ⟨_, hr, by simp [Thr.executing], by simp [Thr.executing], ?_⟩
  intro hd
  exact hd .zulu _ (Step.choose .tail rfl (by decide))

end Verif.Sched.Locks
