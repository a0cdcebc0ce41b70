/-
Properties C25, C26, C27 and C29: states, global events and initialisation entry points of the
simulator.
-/
import Verif.Sim.Inv

namespace Verif.Sim

/-- Some operation in progress still has to change the state, to something else than Aborting, or
to execute initialisation entry points. -/
def InTransition (s : S) : Prop := ∃ f ∈ s.stack, transit f = true

/-- `Abort` is never called in the middle of a transition. -/
def NoAbortInTransition (ins : List In) : Prop :=
  ∀ pre post, ins = pre ++ .call .abort :: post → ¬ InTransition (run S.new pre)

theorem NoAbortInTransition.prefix {a b : List In} (h : NoAbortInTransition (a ++ b)) :
    NoAbortInTransition a := by
  intro pre post he
  exact h pre (post ++ b) (by rw [he]; simp)

theorem inv_run (ins : List In) : Inv true (run S.new ins) := by
  have key : ∀ (ins : List In) (s : S), Inv true s → Inv true (run s ins) := by
    intro ins
    induction ins with
    | nil => intro s h; exact h
    | cons i ins ih => intro s h; exact ih _ (h.step i (by simp)).1
  exact key ins _ (Inv.new true)

theorem inv_run_strict (ins : List In) (h : NoAbortInTransition ins) :
    Inv false (run S.new ins) := by
  have key : ∀ (n : Nat) (ins : List In), ins.length = n → NoAbortInTransition ins →
      Inv false (run S.new ins) := by
    intro n
    induction n with
    | zero =>
      intro ins hn _
      rw [List.length_eq_zero_iff.1 hn]
      exact Inv.new false
    | succ n ih =>
      intro ins hn hno
      obtain ⟨a, i, rfl⟩ : ∃ a i, ins = a ++ [i] := by
        refine ⟨ins.dropLast, ins.getLast (by intro h; simp [h] at hn), ?_⟩
        exact (List.dropLast_concat_getLast _).symm
      rw [run_snoc]
      refine ((ih a (by simp at hn; exact hn) hno.prefix).step i ?_).1
      intro _ hi f hf
      have := hno a [] (by rw [hi])
      cases ht : transit f with
      | false => rfl
      | true => exact absurd ⟨f, hf, ht⟩ this
  exact key _ ins rfl h

/-! ### C25: legal transitions -/

/-- C25 (part): every change of the state, in every history in which `Abort` is not called in the
middle of a transition (but anywhere else, and with calls of all operations from user code at any
depth), is one of the documented ones. Missing: `Abort` in the middle of a transition
(`C26_fails`). -/
theorem C25_partial (ins : List In) (i : In) (h : NoAbortInTransition (ins ++ [i]))
    (hne : (step (run S.new ins) i).state ≠ (run S.new ins).state) :
    legal (run S.new ins).state (step (run S.new ins) i).state = true := by
  have hi := inv_run_strict ins h.prefix
  have := (hi.step i (fun _ hi' f hf => by
    have := h ins [] (by rw [hi'])
    cases ht : transit f with
    | false => rfl
    | true => exact absurd ⟨f, hf, ht⟩ this)).2 hne
  rcases this with h | h
  · exact h
  · simp at h

/-- C25 (part), with no condition on the calls: every change of the state is a documented one or
leaves Aborting. -/
theorem C25_any_partial (ins : List In) (i : In)
    (hne : (step (run S.new ins) i).state ≠ (run S.new ins).state) :
    legal (run S.new ins).state (step (run S.new ins) i).state = true ∨
      (run S.new ins).state = .aborting := by
  rcases ((inv_run ins).step i (by simp)).2 hne with h | h
  · exact .inl h
  · exact .inr h.2

/-- The states in which the documentation allows each operation. -/
def documented (o : Op) (st : St) : Prop :=
  match o with
  | .publish | .configure | .connect => st = .building
  | .hold => st = .executing
  | .abort => True
  | _ => st = .standby

/-- C25: a call made in a wrong state has no effect. -/
theorem C25_wrong_state (s : S) (o : Op) (h : ¬ documented o s.state) : step s (.call o) = s := by
  simp only [step]
  split
  · rename_i hg
    exfalso; apply h
    simp only [Bool.and_eq_true] at hg
    have := hg.2
    cases o <;> simp [Op.guard] at this <;> simp [documented, this]
  · rfl

/-- Run the innermost operation up to its next event or to its end. -/
def goes (n : Nat) : List In := List.replicate n .go

-- connect, run; in the subscribers of EnterExecuting: hold, and in those of EnterStandby initialise
example :
    let ins := [In.call .connect] ++ goes 13 ++ [.call .run] ++ goes 4 ++ [.call .hold] ++ goes 4 ++
      [.call .initialise] ++ goes 11 ++ goes 2
    (run S.new ins).state = .standby ∧ (run S.new ins).stack = [] ∧
    (run S.new ins).log.filterMap (fun e => match e with | .changed _ s => some s | _ => none) =
      [.connecting, .initialising, .standby, .executing, .standby, .initialising, .standby] := by
  decide

/-! ### C26: final states -/

/-- C26 (part): in every history in which `Abort` is not called in the middle of a transition, the
state Aborting is never left, and the state Exiting only for Aborting. Missing: `Abort` in the
middle of a transition (`C26_fails`). -/
theorem C26_partial (ins more : List In) (h : NoAbortInTransition (ins ++ more)) :
    ((run S.new ins).state = .aborting → (run S.new (ins ++ more)).state = .aborting) ∧
    ((run S.new ins).state = .exiting →
      (run S.new (ins ++ more)).state = .exiting ∨ (run S.new (ins ++ more)).state = .aborting) := by
  induction more generalizing ins with
  | nil => simp; exact fun h => .inl h
  | cons i more ih =>
    have hh : ins ++ i :: more = (ins ++ [i]) ++ more := by simp
    rw [hh] at h ⊢
    have hi := ih (ins ++ [i]) h
    have hl := C25_partial ins i h.prefix
    rw [run_snoc] at hi
    constructor
    · intro hs
      apply hi.1
      by_cases hne : (step (run S.new ins) i).state = (run S.new ins).state
      · rw [hne, hs]
      · have := hl hne
        rw [hs] at this
        cases hx : (step (run S.new ins) i).state <;> rw [hx] at this <;> simp [legal] at this ⊢
    · intro hs
      by_cases hne : (step (run S.new ins) i).state = (run S.new ins).state
      · exact hi.2 (hne.trans hs)
      · have := hl hne
        rw [hs] at this
        right
        apply hi.1
        cases hx : (step (run S.new ins) i).state <;> rw [hx] at this <;> simp [legal] at this ⊢

/-- C26 (part), with no condition on the calls: once the simulator is in Aborting or Exiting and no
operation is in progress, nothing that is called later changes the state to anything else than
Aborting. -/
theorem C26_idle (s : S) (hs : s.state = .aborting ∨ s.state = .exiting) (hst : s.stack = [])
    (more : List In) :
    (run s more).state = .aborting ∨ ((run s more).state = .exiting ∧ s.state = .exiting) := by
  have key : ∀ (more : List In) (t : S), (t.state = .aborting ∨ (t.state = .exiting ∧ s.state = .exiting)) →
      (∀ f ∈ t.stack, isAbort f) →
      (run t more).state = .aborting ∨ ((run t more).state = .exiting ∧ s.state = .exiting) := by
    intro more
    induction more with
    | nil => intro t h _; exact h
    | cons i more ih =>
      intro t h hf
      refine ih (step t i) ?_ ?_
      · cases i with
        | call o => simp only [step]; split <;> exact h
        | addInit p => simp only [step]; split <;> exact h
        | raise => simp only [step]; split <;> exact h
        | go =>
          simp only [step, S.micro]
          split
          · exact h
          · exact h
          · rename_i m r fs hs'
            have := hf (m :: r) (by rw [hs']; simp)
            cases m with
            | set x =>
              rcases isAbort_cons_tail this with ⟨_, h'⟩ | ⟨h', _⟩
              · rcases this with h'' | h'' | h'' <;> simp at h''
                exact .inl h''.1
              · simp at h'; subst h'; exact .inl rfl
            | _ => exact h
      · cases i with
        | call o =>
          simp only [step]
          split
          · rename_i hg
            simp only [Bool.and_eq_true] at hg
            have ho : o = .abort := by
              refine Decidable.byContradiction fun ho => ?_
              have hb : blocked t.state t.last := by
                refine blocked_of ?_ _
                rcases h with h | h
                · rw [h]; decide
                · rw [h.1]; decide
              have := hb o ho
              rw [hg.2] at this
              simp at this
            subst ho
            intro f hm
            rcases List.mem_cons.1 hm with rfl | hm
            · exact .inl rfl
            · exact hf f hm
          · exact hf
        | addInit p => simp only [step]; split <;> exact hf
        | raise =>
          simp only [step]
          split
          · rename_i r fs hs'
            have := hf (.work :: r) (by rw [hs']; simp)
            rcases this with h | h | h <;> simp at h
          · rename_i r fs hs'
            have := hf (.endInit :: r) (by rw [hs']; simp)
            rcases this with h | h | h <;> simp at h
          · exact hf
        | go =>
          simp only [step, S.micro]
          split
          · exact hf
          · rename_i fs hs'
            exact fun f hm => hf f (by rw [hs']; exact List.mem_cons_of_mem _ hm)
          · rename_i m r fs hs'
            have hab := hf (m :: r) (by rw [hs']; simp)
            have hfs : ∀ f ∈ fs, isAbort f :=
              fun f hm => hf f (by rw [hs']; exact List.mem_cons_of_mem _ hm)
            have hpush : ∀ f ∈ push r fs, isAbort f := by
              intro f hm
              rcases mem_push hm with ⟨rfl, hr⟩ | hm
              · rcases isAbort_cons_tail hab with ⟨_, h'⟩ | ⟨_, h'⟩
                · exact h'
                · exact absurd h' hr
              · exact hfs f hm
            cases m with
            | swapInit => rcases hab with h | h | h <;> simp at h
            | _ => exact hpush
  rcases hs with h | h
  · exact key more s (.inl h) (by simp [hst])
  · exact key more s (.inr ⟨h, h⟩) (by simp [hst])

example :
    let ins := [In.call .connect] ++ goes 13 ++ [.call .abort] ++ goes 3
    (run S.new ins).state = .aborting ∧ (run S.new ins).stack = [] ∧
    (run S.new (ins ++ [.call .run, .go, .call .exit, .go, .call .abort, .go, .call .initialise] ++
      goes 9)).state = .aborting ∧
    (run S.new ([In.call .connect] ++ goes 13 ++ [.call .exit] ++ goes 9)).state = .exiting := by
  decide

/-- C26 is false: an `Abort` made by a subscriber of LeaveStandby (for example because another
subscriber raised an exception, `Helper.cpp:73`) is undone by the transition in progress, and the
simulator ends in Standby and accepts `Run`. -/
theorem C26_fails :
    ∃ ins more : List In, (run S.new ins).state = .aborting ∧
      (run S.new (ins ++ more)).state = .executing :=
  ⟨[In.call .connect] ++ goes 13 ++ [.call .initialise] ++ goes 1 ++ [.call .abort] ++ goes 3,
   goes 10 ++ [.call .run] ++ goes 5, by decide⟩

/-- The same for an initialisation entry point that calls `Abort`: `Connect` goes on to Standby. -/
theorem C26_fails_init :
    ∃ ins more : List In, (run S.new ins).state = .aborting ∧ (∀ i ∈ more, i = .go) ∧
      (run S.new (ins ++ more)).state = .standby :=
  ⟨[In.addInit 1, .call .connect] ++ goes 9 ++ [.call .abort] ++ goes 3, goes 6, by decide⟩

/-! ### C27: enter and leave events -/

/-- The event that announces the end of a state, when there is one. -/
def leaveOf : St → Option Ev
  | .connecting => some .leaveConnecting
  | .initialising => some .leaveInitialising
  | .standby => some .leaveStandby
  | .executing => some .leaveExecuting
  | .storing => some .leaveStoring
  | .restoring => some .leaveRestoring
  | .reconnecting => some .leaveReconnecting
  | _ => none

/-- The event that announces the start of a state, when there is one. -/
def enterOf : St → Option Ev
  | .initialising => some .enterInitialising
  | .standby => some .enterStandby
  | .executing => some .enterExecuting
  | .storing => some .enterStoring
  | .restoring => some .enterRestoring
  | .reconnecting => some .enterReconnecting
  | .exiting => some .enterExiting
  | .aborting => some .enterAborting
  | _ => none

/-- The emissions and the changes of the state, without the entry points. -/
def Entry.isGlobal : Entry → Bool
  | .emitted _ _ => true
  | .changed _ _ => true
  | _ => false

def trace (s : S) : List Entry := s.log.filter Entry.isGlobal

/-- The rest of an operation emits the right events around its changes of the state: `prev` is the
last entry of the trace. -/
def okLog : St → Option Entry → List M → Prop
  | _, _, [] => True
  | st, prev, .set s :: r =>
    (∀ e, leaveOf st = some e → st ≠ .reconnecting → prev = some (.emitted e st)) ∧
    (∀ e, enterOf s = some e → ∃ r', r = .emit e :: r') ∧ okLog s (some (.changed st s)) r
  | st, _, .emit e :: r => okLog st (some (.emitted e st)) r
  | st, prev, _ :: r => okLog st prev r

/-- The operation has no change of the state left. -/
def noSet (f : List M) : Prop := ∀ t, M.set t ∉ f

theorem okLog_noSet {f : List M} (h : noSet f) (st : St) (prev : Option Entry) :
    okLog st prev f := by
  induction f generalizing st prev with
  | nil => trivial
  | cons m r ih =>
    have hr : noSet r := fun t hm => h t (List.mem_cons_of_mem _ hm)
    cases m with
    | set t => exact absurd List.mem_cons_self (h t)
    | emit e => exact ih hr _ _
    | endEmit => exact ih hr _ _
    | work => exact ih hr _ _
    | swapInit => exact ih hr _ _
    | runInit p => exact ih hr _ _
    | endInit => exact ih hr _ _

theorem okLog_swap {st : St} {prev : Option Entry} (l : List Nat) {r : List M}
    (h : okLog st prev r) :
    okLog st prev (l.flatMap (fun p => [M.runInit p, .endInit]) ++ r) := by
  induction l with
  | nil => exact h
  | cons p l ih => exact ih

/-- The next instruction of the innermost operation, when it is an emission. -/
def nextEmit (s : S) : Option Ev :=
  match s.stack with
  | (.emit e :: _) :: _ => some e
  | _ => none

/-- What C27 says of a trace; `next`: the event that is about to be emitted. -/
def Bracketed (tr : List Entry) (next : Option Ev) : Prop :=
  ∀ pre s s' post, tr = pre ++ .changed s s' :: post →
    (∀ e, leaveOf s = some e → s ≠ .reconnecting → pre.getLast? = some (.emitted e s)) ∧
    (∀ e, enterOf s' = some e →
      (post = [] ∧ next = some e) ∨ ∃ post', post = .emitted e s' :: post')

theorem Bracketed.emitted {tr : List Entry} {next next' : Option Ev} (h : Bracketed tr next)
    (e : Ev) (st : St) (hn : next = some e)
    (hst : ∀ pre s s', tr = pre ++ [.changed s s'] → s' = st) :
    Bracketed (tr ++ [.emitted e st]) next' := by
  intro pre s s' post he
  rcases List.eq_nil_or_concat post with rfl | ⟨post', x, rfl⟩
  · have := congrArg List.getLast? he
    simp at this
  · have he' : tr ++ [.emitted e st] = (pre ++ .changed s s' :: post') ++ [x] := by rw [he]; simp
    obtain ⟨h1, h2⟩ := List.append_inj' he' rfl
    have h2 : Entry.emitted e st = x := by simpa using h2
    obtain ⟨h3, h4⟩ := h pre s s' post' h1
    refine ⟨h3, ?_⟩
    intro e' hen
    right
    rcases h4 e' hen with ⟨rfl, hne⟩ | ⟨q, rfl⟩
    · have hs := hst pre s s' h1
      rw [hn] at hne
      obtain rfl := Option.some.inj hne
      exact ⟨[], by rw [← h2, hs]; rfl⟩
    · exact ⟨q ++ [x], by simp⟩

theorem Bracketed.changed {tr : List Entry} {next next' : Option Ev} (h : Bracketed tr next)
    (s s' : St) (hn : next = none)
    (hl : ∀ e, leaveOf s = some e → s ≠ .reconnecting → tr.getLast? = some (.emitted e s))
    (he : ∀ e, enterOf s' = some e → next' = some e) :
    Bracketed (tr ++ [.changed s s']) next' := by
  intro pre a a' post heq
  rcases List.eq_nil_or_concat post with rfl | ⟨post', x, rfl⟩
  · obtain ⟨h1, h2⟩ := List.append_inj' heq rfl
    have h2 : Entry.changed s s' = .changed a a' := by simpa using h2
    obtain ⟨rfl, rfl⟩ := by simpa using h2
    subst h1
    exact ⟨hl, fun e hen => .inl ⟨rfl, he e hen⟩⟩
  · have he' : tr ++ [.changed s s'] = (pre ++ .changed a a' :: post') ++ [x] := by rw [heq]; simp
    obtain ⟨h1, h2⟩ := List.append_inj' he' rfl
    have h2 : Entry.changed s s' = x := by simpa using h2
    obtain ⟨h3, h4⟩ := h pre a a' post' h1
    refine ⟨h3, ?_⟩
    intro e hen
    right
    rcases h4 e hen with ⟨rfl, hne⟩ | ⟨q, rfl⟩
    · rw [hn] at hne; simp at hne
    · exact ⟨q ++ [x], by simp⟩

/-- No event pending: nothing to emit next. -/
theorem Bracketed.quiet {tr : List Entry} {next next' : Option Ev} (h : Bracketed tr next)
    (hn : next = none) : Bracketed tr next' := by
  intro pre s s' post he
  obtain ⟨h1, h2⟩ := h pre s s' post he
  refine ⟨h1, fun e hen => ?_⟩
  rcases h2 e hen with ⟨_, hne⟩ | hq
  · rw [hn] at hne; simp at hne
  · exact .inr hq

/-- Invariant for C27, for histories without `Abort`. -/
structure LogInv (s : S) : Prop where
  top : ∀ f fs, s.stack = f :: fs → okLog s.state (trace s).getLast? f
  below : ∀ f fs, s.stack = f :: fs → ∀ g ∈ fs, noSet g
  ok : Bracketed (trace s) (nextEmit s)
  st : ∀ pre a a', trace s = pre ++ [.changed a a'] → a' = s.state

theorem noSet_of_transit {f : List M} (hp : M.set .aborting ∉ f) (h : transit f = false) :
    noSet f := by
  intro t hm
  by_cases ht : t = .aborting
  · subst ht; exact hp hm
  · have : transit f = true := by
      unfold transit
      rw [List.any_eq_true]
      exact ⟨_, hm, by simp [M.transit, ht]⟩
    rw [h] at this; simp at this

/-- In histories without `Abort`, no operation in progress is an `Abort`. -/
def NoAbortFrame (s : S) : Prop := ∀ f ∈ s.stack, M.set .aborting ∉ f

theorem NoAbortFrame.step {s : S} (h : NoAbortFrame s) (i : In) (hi : i ≠ .call .abort) :
    NoAbortFrame (step s i) := by
  cases i with
  | call o =>
    simp only [Sim.step]
    split
    · intro f hf
      rcases List.mem_cons.1 hf with rfl | hf
      · rcases prog_pure o with hp | hp
        · cases o <;> first | exact absurd rfl hi | (rcases hp with h | h | h <;> simp [Op.prog] at h)
        · exact hp
      · exact h f hf
    · exact h
  | addInit p => simp only [Sim.step]; split <;> exact h
  | raise =>
    simp only [Sim.step]
    split
    · rename_i hs; exact fun f hf => h f (by rw [hs]; exact List.mem_cons_of_mem _ hf)
    · rename_i hs; exact fun f hf => h f (by rw [hs]; exact List.mem_cons_of_mem _ hf)
    · exact h
  | go =>
    simp only [Sim.step, S.micro]
    split
    · exact h
    · rename_i fs hs; exact fun f hf => h f (by rw [hs]; exact List.mem_cons_of_mem _ hf)
    · rename_i m r fs hs
      have hfs : ∀ f ∈ fs, M.set .aborting ∉ f :=
        fun f hf => h f (by rw [hs]; exact List.mem_cons_of_mem _ hf)
      have hr : M.set .aborting ∉ r :=
        fun hm => h (m :: r) (by rw [hs]; simp) (List.mem_cons_of_mem _ hm)
      have hp : ∀ f ∈ push r fs, M.set .aborting ∉ f := by
        intro f hf
        rcases mem_push hf with ⟨rfl, _⟩ | hf
        · exact hr
        · exact hfs f hf
      cases m with
      | swapInit =>
        intro f hf
        rcases mem_push hf with ⟨rfl, _⟩ | hf
        · exact swap_list_not_set _ _ hr
        · exact hfs f hf
      | _ => exact hp

theorem trace_log (s : S) (l : List Entry) (x : Entry) (h : s.log = l ++ [x])
    (hx : x.isGlobal = true) : trace s = l.filter Entry.isGlobal ++ [x] := by
  unfold trace
  rw [h, List.filter_append]
  simp [hx]

theorem trace_log' (s : S) (l : List Entry) (x : Entry) (h : s.log = l ++ [x])
    (hx : x.isGlobal = false) : trace s = l.filter Entry.isGlobal := by
  unfold trace
  rw [h, List.filter_append]
  simp [hx]

theorem LogInv.push_top {st : St} {prev : Option Entry} {r : List M} {fs : List (List M)}
    (hr : okLog st prev r) (hfs : ∀ g ∈ fs, noSet g) :
    ∀ f gs, push r fs = f :: gs → okLog st prev f := by
  intro f gs h
  unfold push at h
  split at h
  · exact okLog_noSet (hfs f (by rw [h]; simp)) _ _
  · simp only [List.cons.injEq] at h; rw [← h.1]; exact hr

theorem LogInv.push_below {r : List M} {fs : List (List M)} (hfs : ∀ g ∈ fs, noSet g) :
    ∀ f gs, push r fs = f :: gs → ∀ g ∈ gs, noSet g := by
  intro f gs h
  unfold push at h
  split at h
  · exact fun g hg => hfs g (by rw [h]; exact List.mem_cons_of_mem _ hg)
  · simp only [List.cons.injEq] at h; rw [← h.2]; exact hfs

theorem guard_okLog {o : Op} {st : St} {last : Option Ev} (ho : o ≠ .abort)
    (h : o.guard st last = true) (prev : Option Entry) : okLog st prev o.prog := by
  cases o <;> simp only [Op.guard, Bool.decide_and, Bool.and_eq_true, decide_eq_true_eq] at h <;>
    (try exact absurd rfl ho) <;>
    first
      | (obtain ⟨rfl, _⟩ := h
         simp [Op.prog, okLog, leaveOf, enterOf])
      | (subst h
         simp [Op.prog, okLog, leaveOf, enterOf])

theorem LogInv.step {s : S} (h : LogInv s) (hinv : Inv false s) (hab : NoAbortFrame s) (i : In)
    (hi : i ≠ .call .abort) : LogInv (step s i) := by
  have nosetBelow : ∀ f fs, s.stack = f :: fs → ∀ g ∈ fs, noSet g := h.below
  cases i with
  | call o =>
    simp only [Sim.step]
    split
    · rename_i hg
      simp only [Bool.and_eq_true] at hg
      have ho : o ≠ .abort := fun he => hi (by rw [he])
      have hnone : nextEmit s = none := by
        unfold nextEmit
        cases hs : s.stack with
        | nil => rfl
        | cons f fs =>
          rcases user_top hg.1 hs with ⟨r, rfl⟩ | ⟨r, rfl⟩ | ⟨r, rfl⟩ <;> rfl
      refine ⟨?_, ?_, h.ok.quiet hnone, h.st⟩
      · intro f fs hs
        simp only [List.cons.injEq] at hs
        rw [← hs.1]
        exact guard_okLog ho hg.2 _
      · intro f fs hs g hgm
        simp only [List.cons.injEq] at hs
        rw [← hs.2] at hgm
        -- everything in progress is past its last transition
        cases hst : s.stack with
        | nil => rw [hst] at hgm; simp at hgm
        | cons f' fs' =>
          have hne : transit f' = false := by
            have hs2 := hinv.stack
            rw [hst] at hs2
            cases ht : transit f' with
            | false => rfl
            | true =>
              have := hs2.1.user_blocked ht (user_top hg.1 hst) o ho
              rw [hg.2] at this; simp at this
          rw [hst] at hgm
          rcases List.mem_cons.1 hgm with rfl | hgm
          · exact noSet_of_transit (hab g (by rw [hst]; simp)) hne
          · exact h.below f' fs' hst g hgm
    · exact h
  | addInit p =>
    simp only [Sim.step]
    split
    · have htr : trace { s with init := s.init ++ [p], log := s.log ++ [.accepted p] } = trace s :=
        trace_log' _ s.log (.accepted p) rfl rfl
      refine ⟨?_, h.below, ?_, ?_⟩
      · rw [htr]; exact h.top
      · rw [htr]; exact h.ok
      · rw [htr]; exact h.st
    · exact h
  | raise =>
    have pop : ∀ m r fs, s.stack = (m :: r) :: fs → (∀ e, m ≠ .emit e) →
        LogInv { s with stack := fs } := by
      intro m r fs hs hm
      have hb := h.below _ _ hs
      have hnone : nextEmit s = none := by
        unfold nextEmit; rw [hs]; cases m <;> first | rfl | exact absurd rfl (hm _)
      refine ⟨?_, ?_, h.ok.quiet hnone, h.st⟩
      · intro f gs hfs
        exact okLog_noSet (hb f (by simp only at hfs; rw [hfs]; simp)) _ _
      · intro f gs hfs g hg
        exact hb g (by simp only at hfs; rw [hfs]; exact List.mem_cons_of_mem _ hg)
    simp only [Sim.step]
    split
    · rename_i r fs hs; exact pop _ _ _ hs (by simp)
    · rename_i r fs hs; exact pop _ _ _ hs (by simp)
    · exact h
  | go =>
    simp only [Sim.step, S.micro]
    split
    · exact h
    · rename_i fs hs
      exact absurd rfl (hinv.nonempty [] (by rw [hs]; simp))
    · rename_i m r fs hs
      have hb := h.below _ _ hs
      have ht := h.top _ _ hs
      cases m with
      | set t =>
        have htr : trace (S.mk t s.last s.init (push r fs)
            (s.log ++ [.changed s.state t])) = trace s ++ [.changed s.state t] :=
          trace_log _ s.log _ rfl rfl
        have hnone : nextEmit s = none := by unfold nextEmit; rw [hs]
        refine ⟨?_, LogInv.push_below hb, ?_, ?_⟩
        · rw [htr]
          simp only [List.getLast?_append, List.getLast?_singleton, Option.some_or]
          exact LogInv.push_top ht.2.2 hb
        · rw [htr]
          refine h.ok.changed _ _ hnone ht.1 ?_
          intro e he
          obtain ⟨r', rfl⟩ := ht.2.1 e he
          simp [nextEmit, push]
        · rw [htr]
          intro pre a a' heq
          obtain ⟨_, h2⟩ := List.append_inj' heq rfl
          simp only [List.cons.injEq, Entry.changed.injEq, and_true] at h2
          exact h2.2.symm
      | emit e =>
        have htr : trace (S.mk s.state (some e) s.init (push r fs)
            (s.log ++ [.emitted e s.state])) = trace s ++ [.emitted e s.state] :=
          trace_log _ s.log _ rfl rfl
        have hnext : nextEmit s = some e := by unfold nextEmit; rw [hs]
        refine ⟨?_, LogInv.push_below hb, ?_, ?_⟩
        · rw [htr]
          simp only [List.getLast?_append, List.getLast?_singleton, Option.some_or]
          exact LogInv.push_top ht hb
        · rw [htr]; exact h.ok.emitted e s.state hnext h.st
        · rw [htr]
          intro pre a a' heq
          obtain ⟨_, h2⟩ := List.append_inj' heq rfl
          simp at h2
      | endEmit =>
        have hnone : nextEmit s = none := by unfold nextEmit; rw [hs]
        exact ⟨LogInv.push_top ht hb, LogInv.push_below hb, h.ok.quiet hnone, h.st⟩
      | work =>
        have hnone : nextEmit s = none := by unfold nextEmit; rw [hs]
        exact ⟨LogInv.push_top ht hb, LogInv.push_below hb, h.ok.quiet hnone, h.st⟩
      | swapInit =>
        have hnone : nextEmit s = none := by unfold nextEmit; rw [hs]
        exact ⟨LogInv.push_top (okLog_swap _ ht) hb, LogInv.push_below hb, h.ok.quiet hnone, h.st⟩
      | runInit p =>
        have hnone : nextEmit s = none := by unfold nextEmit; rw [hs]
        have htr : trace { s with stack := push r fs, log := s.log ++ [.executed p] } = trace s :=
          trace_log' _ s.log (.executed p) rfl rfl
        refine ⟨?_, LogInv.push_below hb, ?_, ?_⟩
        · rw [htr]; exact LogInv.push_top ht hb
        · rw [htr]; exact h.ok.quiet hnone
        · rw [htr]; exact h.st
      | endInit =>
        have hnone : nextEmit s = none := by unfold nextEmit; rw [hs]
        exact ⟨LogInv.push_top ht hb, LogInv.push_below hb, h.ok.quiet hnone, h.st⟩

/-- C27 (part): in every history without `Abort`, each change of the state from `s` to `s'` is
directly preceded, among the emissions and changes, by the leave event of `s`, emitted in `s`, and
directly followed by the enter event of `s'`, emitted in `s'`, for the states that have such events
except that Reconnecting is left without its event. Missing: that event and the enter event of
Aborting (`C27_fails`). -/
theorem C27_partial (ins : List In) (h : .call .abort ∉ ins) :
    Bracketed (trace (run S.new ins)) (nextEmit (run S.new ins)) := by
  have key : ∀ (ins : List In) (s : S), LogInv s → Inv false s → NoAbortFrame s →
      .call .abort ∉ ins → LogInv (run s ins) := by
    intro ins
    induction ins with
    | nil => intro s h _ _ _; exact h
    | cons i ins ih =>
      intro s h1 h2 h3 h4
      have hi : i ≠ .call .abort := fun he => h4 (by rw [he]; simp)
      exact ih _ (h1.step h2 h3 i hi) (h2.step i (fun _ he => absurd he hi)).1 (h3.step i hi)
        (fun hm => h4 (List.mem_cons_of_mem _ hm))
  refine (key ins S.new ?_ (Inv.new false) (by simp [NoAbortFrame, S.new]) h).ok
  refine ⟨by simp [S.new], by simp [S.new], ?_, ?_⟩
  · intro pre s s' post he; simp [trace, S.new] at he
  · intro pre a a' he; simp [trace, S.new] at he

-- connect and run, with a registration by a subscriber of LeaveStandby
example :
    trace (run S.new ([In.call .connect] ++ goes 13 ++ [.call .run, .go, .addInit 3] ++ goes 4)) =
      [.changed .building .connecting, .emitted .leaveConnecting .connecting,
       .changed .connecting .initialising, .emitted .enterInitialising .initialising,
       .emitted .leaveInitialising .initialising, .changed .initialising .standby,
       .emitted .enterStandby .standby, .emitted .leaveStandby .standby,
       .changed .standby .executing, .emitted .enterExecuting .executing] := by decide

/-- C27 is false: Reconnecting is left without its event, and EnterAborting is emitted in the old
state, before the change. -/
theorem C27_fails :
    (∃ ins, .call .abort ∉ ins ∧ (.changed .reconnecting .standby) ∈ trace (run S.new ins) ∧
      ∀ st, (.emitted .leaveReconnecting st) ∉ trace (run S.new ins)) ∧
    (∃ ins, (run S.new ins).state = .aborting ∧
      (∀ e, .emitted e .aborting ∉ trace (run S.new ins)) ∧
      (.emitted .enterAborting .standby) ∈ trace (run S.new ins)) := by
  refine ⟨⟨[In.call .connect] ++ goes 13 ++ [.call .reconnect] ++ goes 9, by decide, by decide, ?_⟩,
    ⟨[In.call .connect] ++ goes 13 ++ [.call .abort] ++ goes 3, by decide, ?_, by decide⟩⟩
  · intro st; cases st <;> decide
  · intro e; cases e <;> decide

/-! ### C29: initialisation entry points -/

/-- The entry points accepted by `AddInitEntryPoint`, in order. -/
def accepted (log : List Entry) : List Nat :=
  log.filterMap (fun e => match e with | .accepted p => some p | _ => none)

/-- The executions of initialisation entry points, in order. -/
def executed (log : List Entry) : List Nat :=
  log.filterMap (fun e => match e with | .executed p => some p | _ => none)

/-- The entry points an operation in progress has still to execute. -/
def runs (f : List M) : List Nat :=
  f.filterMap (fun m => match m with | .runInit p => some p | _ => none)

theorem runs_nil_iff (f : List M) : runs f = [] ↔ hasRun f = false := by
  unfold runs hasRun
  induction f with
  | nil => simp
  | cons m r ih => cases m <;> simp_all

theorem runs_swap (l : List Nat) (r : List M) :
    runs (l.flatMap (fun p => [M.runInit p, .endInit]) ++ r) = l ++ runs r := by
  induction l with
  | nil => rfl
  | cons p l ih =>
    simp only [List.flatMap_cons, List.cons_append, List.nil_append]
    simp only [runs, List.filterMap_cons] at ih ⊢
    rw [ih]

/-- Only one operation has entry points left to execute; what is above it is `Abort`. -/
def InitOk (st : St) : List (List M) → Prop
  | [] => True
  | f :: fs =>
    (hasRun f = true ∧ (st = .initialising ∨ st = .aborting) ∧ ∀ g ∈ fs, hasRun g = false) ∨
    (hasRun f = false ∧ ((isAbort f ∧ InitOk st fs) ∨ ∀ g ∈ fs, hasRun g = false))

theorem InitOk.of_none {st : St} {fs : List (List M)} (h : ∀ g ∈ fs, hasRun g = false) :
    InitOk st fs := by
  cases fs with
  | nil => trivial
  | cons f fs => exact .inr ⟨h f (by simp), .inr (fun g hg => h g (List.mem_cons_of_mem _ hg))⟩

theorem InitOk.none {st : St} {fs : List (List M)} (h : InitOk st fs)
    (hst : st ≠ .initialising ∧ st ≠ .aborting) : ∀ g ∈ fs, hasRun g = false := by
  induction fs with
  | nil => simp
  | cons f fs ih =>
    rcases h with ⟨_, h, _⟩ | ⟨h1, h2⟩
    · rcases h with h | h
      · exact absurd h hst.1
      · exact absurd h hst.2
    · intro g hg
      rcases List.mem_cons.1 hg with rfl | hg
      · exact h1
      · rcases h2 with ⟨_, h2⟩ | h2
        · exact ih h2 g hg
        · exact h2 g hg

theorem InitOk.aborting {st : St} {fs : List (List M)} (h : InitOk st fs) :
    InitOk .aborting fs := by
  induction fs with
  | nil => trivial
  | cons f fs ih =>
    rcases h with ⟨h1, _, h3⟩ | ⟨h1, h2⟩
    · exact .inl ⟨h1, .inr rfl, h3⟩
    · rcases h2 with ⟨ha, h2⟩ | h2
      · exact .inr ⟨h1, .inl ⟨ha, ih h2⟩⟩
      · exact .inr ⟨h1, .inr h2⟩

/-- The entry points still to be executed by the operations in progress. -/
def pending (stack : List (List M)) : List Nat := stack.flatMap runs

theorem pending_none {fs : List (List M)} (h : ∀ g ∈ fs, hasRun g = false) : pending fs = [] := by
  unfold pending
  rw [List.flatMap_eq_nil_iff]
  intro g hg
  exact (runs_nil_iff g).2 (h g hg)

theorem pending_push (r : List M) (fs : List (List M)) :
    pending (push r fs) = runs r ++ pending fs := by
  unfold push pending
  split
  · rename_i h; rw [h]; rfl
  · simp

/-- Invariant for C29; `lossy`: an exception may have discarded entry points. -/
structure InitInv (lossy : Bool) (s : S) : Prop where
  one : InitOk s.state s.stack
  order : List.Sublist (executed s.log ++ pending s.stack ++ s.init) (accepted s.log)
  exact_ : lossy = false → accepted s.log = executed s.log ++ pending s.stack ++ s.init
  swapped : ∀ f fs, s.stack = f :: fs → transit f = true → s.state = .initialising →
    M.swapInit ∈ f ∨ s.init = []

theorem hasRun_cons_false {m : M} {r : List M} (h : hasRun (m :: r) = false) : hasRun r = false := by
  simp only [hasRun, List.any_cons, Bool.or_eq_false_iff] at h ⊢
  exact h.2

theorem InitOk.push {st : St} {m : M} {r : List M} {fs : List (List M)}
    (h : InitOk st ((m :: r) :: fs)) (hm : ∀ p, m ≠ .runInit p) : InitOk st (push r fs) := by
  have hr : hasRun (m :: r) = hasRun r := by
    cases m <;> first | rfl | exact absurd rfl (hm _)
  rcases h with ⟨h1, h2, h3⟩ | ⟨h1, h2⟩
  · rw [hr] at h1
    unfold Sim.push
    split
    · exact .of_none h3
    · exact .inl ⟨h1, h2, h3⟩
  · rw [hr] at h1
    unfold Sim.push
    split
    · rcases h2 with ⟨_, h2⟩ | h2
      · exact h2
      · exact .of_none h2
    · rename_i hne
      refine .inr ⟨h1, ?_⟩
      rcases h2 with ⟨ha, h2⟩ | h2
      · rcases isAbort_cons_tail ha with ⟨_, h⟩ | ⟨_, h⟩
        · exact .inl ⟨h, h2⟩
        · exact absurd h hne
      · exact .inr h2

theorem push_swapped {r : List M} {fs : List (List M)} {f0 : List M} {b : Bool} {P : List M → Prop}
    (hch : Chain b f0 fs) (hna : ¬ isAbort f0) (hr : transit r = true → P r) :
    ∀ f gs, push r fs = f :: gs → transit f = true → P f := by
  intro f gs h ht
  unfold push at h
  split at h
  · rw [h] at hch
    exact absurd (hch.1 ht).2.1 hna
  · simp only [List.cons.injEq] at h
    rw [← h.1] at ht ⊢
    exact hr ht

theorem InitInv.go {l : Bool} {s : S} (h : InitInv l s) (hinv : Inv true s) : InitInv l s.micro := by
  unfold S.micro
  split
  · exact h
  · rename_i fs hs
    exact absurd rfl (hinv.nonempty [] (by rw [hs]; simp))
  · rename_i m r fs hs
    have hone := h.one
    have hord := h.order
    have hex := h.exact_
    have hsw := h.swapped _ _ hs
    have hst := hinv.stack
    rw [hs] at hone hord hex hst
    have hpend : pending ((m :: r) :: fs) = runs (m :: r) ++ pending fs := rfl
    rw [hpend] at hord hex
    cases m with
    | set t =>
      have hruns : runs (M.set t :: r) = runs r := rfl
      have hacc : accepted (s.log ++ [.changed s.state t]) = accepted s.log := by
        simp [accepted]
      have hexe : executed (s.log ++ [.changed s.state t]) = executed s.log := by
        simp [executed]
      rw [hruns] at hord hex
      refine ⟨?_, ?_, ?_, ?_⟩
      · by_cases hta : t = .aborting
        · rw [hta]; exact (hone.push (by simp)).aborting
        · -- not Abort, so nothing left to execute after the change
          have htr : transit (M.set t :: r) = true := by simp [transit_cons, M.transit, hta]
          have hr0 : hasRun r = false := by
            rcases hst.1 with h' | h' | h'
            · rw [h'] at htr; simp at htr
            · exact h'.2.1
            · exact h'.2.2.1
          have hna : ¬ isAbort (M.set t :: r) := fun ha => by
            rw [ha.not_transit] at htr; simp at htr
          have hfs : ∀ g ∈ fs, hasRun g = false := by
            rcases hone with ⟨_, _, h3⟩ | ⟨_, h2⟩
            · exact h3
            · rcases h2 with ⟨ha, _⟩ | h2
              · exact absurd ha hna
              · exact h2
          apply InitOk.of_none
          intro g hg
          rcases mem_push hg with ⟨rfl, _⟩ | hg
          · exact hr0
          · exact hfs g hg
      · simp only [hacc, hexe, pending_push]; exact hord
      · simp only [hacc, hexe, pending_push]; exact hex
      · intro f gs hf htf hsi
        simp only at hf hsi ⊢
        have hta : t ≠ .aborting := by rw [hsi]; decide
        have htr : transit (M.set t :: r) = true := by simp [transit_cons, M.transit, hta]
        have hna : ¬ isAbort (M.set t :: r) := fun ha => by
          rw [ha.not_transit] at htr; simp at htr
        refine push_swapped (P := fun f => M.swapInit ∈ f ∨ s.init = []) hst.2 hna ?_ f gs hf htf
        intro _
        left
        rcases hst.1 with h' | h' | h'
        · rw [h'] at htr; simp at htr
        · exact h'.2.2.1 hsi
        · exact h'.2.2.2.1 hsi
    | emit e =>
      have hruns : runs (M.emit e :: r) = runs r := rfl
      have hacc : accepted (s.log ++ [.emitted e s.state]) = accepted s.log := by
        simp [accepted]
      have hexe : executed (s.log ++ [.emitted e s.state]) = executed s.log := by
        simp [executed]
      rw [hruns] at hord hex
      refine ⟨hone.push (by simp), ?_, ?_, ?_⟩
      · simp only [hacc, hexe, pending_push]; exact hord
      · simp only [hacc, hexe, pending_push]; exact hex
      · intro f gs hf htf hsi
        by_cases hna : isAbort (M.emit e :: r)
        · -- Abort is on top: what is below is not the innermost operation yet
          rcases isAbort_cons_tail hna with ⟨_, hr⟩ | ⟨hr, _⟩
          · simp only [push, show r ≠ [] from by rintro rfl; rcases hr with h | h | h <;> simp at h,
              if_false, List.cons.injEq] at hf
            rw [← hf.1, hr.not_transit] at htf; simp at htf
          · simp at hr
        · refine push_swapped (P := fun f => M.swapInit ∈ f ∨ s.init = []) hst.2 hna ?_ f gs hf htf
          intro htr
          rcases hsw (by simpa [transit_cons, M.transit] using htr) hsi with h' | h'
          · left; simpa using h'
          · exact .inr h'
    | endEmit =>
      have hruns : runs (M.endEmit :: r) = runs r := rfl
      rw [hruns] at hord hex
      refine ⟨hone.push (by simp), ?_, ?_, ?_⟩
      · simp only [pending_push]; exact hord
      · simp only [pending_push]; exact hex
      · intro f gs hf htf hsi
        by_cases hna : isAbort (M.endEmit :: r)
        · rcases isAbort_cons_tail hna with ⟨_, hr⟩ | ⟨hr, _⟩
          · simp only [push, show r ≠ [] from by rintro rfl; rcases hr with h | h | h <;> simp at h,
              if_false, List.cons.injEq] at hf
            rw [← hf.1, hr.not_transit] at htf; simp at htf
          · simp at hr
        · refine push_swapped (P := fun f => M.swapInit ∈ f ∨ s.init = []) hst.2 hna ?_ f gs hf htf
          intro htr
          rcases hsw (by simpa [transit_cons, M.transit] using htr) hsi with h' | h'
          · left; simpa using h'
          · exact .inr h'
    | work =>
      have hruns : runs (M.work :: r) = runs r := rfl
      rw [hruns] at hord hex
      refine ⟨hone.push (by simp), ?_, ?_, ?_⟩
      · simp only [pending_push]; exact hord
      · simp only [pending_push]; exact hex
      · intro f gs hf htf hsi
        have hna : ¬ isAbort (M.work :: r) := by rintro (h | h | h) <;> simp at h
        refine push_swapped (P := fun f => M.swapInit ∈ f ∨ s.init = []) hst.2 hna ?_ f gs hf htf
        intro htr
        rcases hsw (by simpa [transit_cons, M.transit] using htr) hsi with h' | h'
        · left; simpa using h'
        · exact .inr h'
    | swapInit =>
      have hruns : runs (M.swapInit :: r) = runs r := rfl
      have hna : ¬ isAbort (M.swapInit :: r) := by rintro (h | h | h) <;> simp at h
      have htr : transit (M.swapInit :: r) = true := rfl
      have hr0 : hasRun r = false := by
        rcases hst.1 with h' | h' | h'
        · rw [h'] at htr; simp at htr
        · exact h'.2.1
        · exact h'.2.2.1
      have hstate : s.state = .initialising ∨ s.state = .aborting := by
        rcases hst.1 with h' | h' | h'
        · rw [h'] at htr; simp at htr
        · exact .inl h'.1
        · exact .inr h'.2.1
      have hfs : ∀ g ∈ fs, hasRun g = false := by
        rcases hone with ⟨_, _, h3⟩ | ⟨_, h2⟩
        · exact h3
        · rcases h2 with ⟨ha, _⟩ | h2
          · exact absurd ha hna
          · exact h2
      have hrr : runs r = [] := (runs_nil_iff r).2 hr0
      rw [hruns, hrr, pending_none hfs] at hord hex
      refine ⟨?_, ?_, ?_, ?_⟩
      · show InitOk s.state (push _ fs)
        unfold push
        split
        · exact .of_none hfs
        · cases hsi : s.init with
          | nil =>
            simp only [List.flatMap_nil, List.nil_append]
            exact .inr ⟨hr0, .inr hfs⟩
          | cons p l => exact .inl ⟨rfl, hstate, hfs⟩
      · simp only [pending_push, runs_swap, hrr, pending_none hfs, List.append_nil]
        simpa using hord
      · intro hl
        have := hex hl
        simp only [pending_push, runs_swap, hrr, pending_none hfs, List.append_nil]
        simpa using this
      · intro f gs hf htf hsi
        exact .inr rfl
    | runInit p =>
      have hruns : runs (M.runInit p :: r) = p :: runs r := rfl
      have hacc : accepted (s.log ++ [.executed p]) = accepted s.log := by
        simp [accepted]
      have hexe : executed (s.log ++ [.executed p]) = executed s.log ++ [p] := by
        simp [executed]
      have hna : ¬ isAbort (M.runInit p :: r) := by rintro (h | h | h) <;> simp at h
      have hfs : ∀ g ∈ fs, hasRun g = false := by
        rcases hone with ⟨_, _, h3⟩ | ⟨_, h2⟩
        · exact h3
        · rcases h2 with ⟨ha, _⟩ | h2
          · exact absurd ha hna
          · exact h2
      have hstate : s.state = .initialising ∨ s.state = .aborting := by
        rcases hone with ⟨_, h2, _⟩ | ⟨h1, _⟩
        · exact h2
        · simp [hasRun] at h1
      rw [hruns] at hord hex
      refine ⟨?_, ?_, ?_, ?_⟩
      · show InitOk s.state (push r fs)
        unfold push
        split
        · exact .of_none hfs
        · cases hr : hasRun r with
          | true => exact .inl ⟨hr, hstate, hfs⟩
          | false => exact .inr ⟨hr, .inr hfs⟩
      · simp only [hacc, hexe, pending_push]; simpa using hord
      · simp only [hacc, hexe, pending_push]; simpa using hex
      · intro f gs hf htf hsi
        refine push_swapped (P := fun f => M.swapInit ∈ f ∨ s.init = []) hst.2 hna ?_ f gs hf htf
        intro htr
        rcases hsw rfl hsi with h' | h'
        · left; simpa using h'
        · exact .inr h'
    | endInit =>
      have hruns : runs (M.endInit :: r) = runs r := rfl
      rw [hruns] at hord hex
      refine ⟨hone.push (by simp), ?_, ?_, ?_⟩
      · simp only [pending_push]; exact hord
      · simp only [pending_push]; exact hex
      · intro f gs hf htf hsi
        have hna : ¬ isAbort (M.endInit :: r) := by rintro (h | h | h) <;> simp at h
        refine push_swapped (P := fun f => M.swapInit ∈ f ∨ s.init = []) hst.2 hna ?_ f gs hf htf
        intro htr
        rcases hsw (by simpa [transit_cons, M.transit] using htr) hsi with h' | h'
        · left; simpa using h'
        · exact .inr h'

theorem InitInv.step {l : Bool} {s : S} (h : InitInv l s) (hinv : Inv true s) (i : In)
    (hl : l = false → i ≠ .raise) : InitInv l (step s i) := by
  cases i with
  | go => exact h.go hinv
  | call o =>
    simp only [Sim.step]
    split
    · rename_i hg
      simp only [Bool.and_eq_true] at hg
      have hp : pending (o.prog :: s.stack) = pending s.stack := by
        show runs o.prog ++ _ = _
        rw [(runs_nil_iff _).2 (prog_transit_not_run o)]; rfl
      refine ⟨?_, ?_, ?_, ?_⟩
      · by_cases ho : o = .abort
        · subst ho; exact .inr ⟨rfl, .inl ⟨.inl rfl, h.one⟩⟩
        · refine .inr ⟨prog_transit_not_run o, .inr (h.one.none ?_)⟩
          constructor
          · intro hs
            have := blocked_of (st := s.state) (by rw [hs]; decide) s.last o ho
            rw [hg.2] at this; simp at this
          · intro hs
            have := blocked_of (st := s.state) (by rw [hs]; decide) s.last o ho
            rw [hg.2] at this; simp at this
      · simp only [hp]; exact h.order
      · simp only [hp]; exact h.exact_
      · intro f fs hf htf hsi
        simp only [List.cons.injEq] at hf
        by_cases ho : o = .abort
        · subst ho; rw [← hf.1] at htf; exact absurd htf (by decide)
        · have := blocked_of (st := s.state) (by simp only at hsi; rw [hsi]; decide) s.last o ho
          rw [hg.2] at this; simp at this
    · exact h
  | addInit p =>
    simp only [Sim.step]
    split
    · rename_i hg
      simp only [Bool.and_eq_true] at hg
      have hst : s.state ≠ .initialising ∧ s.state ≠ .aborting := by
        have := hg.2
        constructor <;> intro he <;> rw [he] at this <;> simp [acceptsInit] at this
      have hpend := pending_none (h.one.none hst)
      have hacc : accepted (s.log ++ [.accepted p]) = accepted s.log ++ [p] := by simp [accepted]
      have hexe : executed (s.log ++ [.accepted p]) = executed s.log := by simp [executed]
      have ho := h.order
      have he := h.exact_
      rw [hpend] at ho he
      refine ⟨h.one, ?_, ?_, ?_⟩
      · simp only [hacc, hexe, hpend, List.append_nil, ← List.append_assoc]
        simp only [List.append_nil] at ho
        exact List.Sublist.append ho (List.Sublist.refl _)
      · intro hl
        have := he hl
        simp only [List.append_nil] at this
        simp only [hacc, hexe, hpend, this, List.append_nil, List.append_assoc]
      · intro f fs hf htf hsi
        exact absurd hsi hst.1
    · exact h
  | raise =>
    have pop : ∀ f fs, s.stack = f :: fs → ¬ isAbort f → l ≠ false →
        InitInv l { s with stack := fs } := by
      intro f fs hs hna hlf
      have hone := h.one
      have hst := hinv.stack
      have hord := h.order
      rw [hs] at hone hst hord
      have hfs : ∀ g ∈ fs, hasRun g = false := by
        rcases hone with ⟨_, _, h3⟩ | ⟨_, h2⟩
        · exact h3
        · rcases h2 with ⟨ha, _⟩ | h2
          · exact absurd ha hna
          · exact h2
      refine ⟨.of_none hfs, ?_, fun h => absurd h hlf, ?_⟩
      · refine List.Sublist.trans ?_ hord
        refine List.Sublist.append (List.Sublist.append (List.Sublist.refl _) ?_)
          (List.Sublist.refl _)
        exact List.sublist_append_right _ _
      · intro g gs hg htg _
        simp only at hg
        rw [hg] at hst
        exact absurd (hst.2.1 htg).2.1 hna
    have hl' : l ≠ false := fun he => hl he rfl
    simp only [Sim.step]
    split
    · rename_i r fs hs
      exact pop _ _ hs (by rintro (h | h | h) <;> simp at h) hl'
    · rename_i r fs hs
      exact pop _ _ hs (by rintro (h | h | h) <;> simp at h) hl'
    · exact h

theorem initInv_run (l : Bool) (ins : List In) (hl : l = false → .raise ∉ ins) :
    InitInv l (run S.new ins) := by
  have key : ∀ (ins : List In) (s : S), InitInv l s → Inv true s → (l = false → .raise ∉ ins) →
      InitInv l (run s ins) := by
    intro ins
    induction ins with
    | nil => intro s h _ _; exact h
    | cons i ins ih =>
      intro s h1 h2 h3
      refine ih _ (h1.step h2 i ?_) (h2.step i (by simp)).1 ?_
      · rintro hl' rfl; exact h3 hl' (by simp)
      · exact fun hl' hm => h3 hl' (List.mem_cons_of_mem _ hm)
  refine key ins S.new ⟨trivial, ?_, ?_, ?_⟩ (Inv.new true) hl
  · simp [S.new, executed, pending, accepted]
  · intro _; simp [S.new, executed, pending, accepted]
  · simp [S.new]

/-- After the change to Standby an operation does not initialise again. -/
def noReinit : List M → Bool
  | [] => true
  | .set t :: r => (t != .standby || !r.contains .swapInit) && noReinit r
  | _ :: r => noReinit r

theorem noReinit_tail {m : M} {r : List M} (h : noReinit (m :: r) = true) : noReinit r = true := by
  cases m <;> simp_all [noReinit]

theorem noReinit_swap (l : List Nat) {r : List M} (h : noReinit r = true) :
    noReinit (l.flatMap (fun p => [M.runInit p, .endInit]) ++ r) = true := by
  induction l with
  | nil => exact h
  | cons p l ih => exact ih

theorem noReinit_run (ins : List In) : ∀ f ∈ (run S.new ins).stack, noReinit f = true := by
  have key : ∀ (ins : List In) (s : S), (∀ f ∈ s.stack, noReinit f = true) →
      ∀ f ∈ (run s ins).stack, noReinit f = true := by
    intro ins
    induction ins with
    | nil => intro s h; exact h
    | cons i ins ih =>
      intro s h
      refine ih (step s i) ?_
      cases i with
      | call o =>
        simp only [step]
        split
        · intro f hf
          rcases List.mem_cons.1 hf with rfl | hf
          · cases o <;> decide
          · exact h f hf
        · exact h
      | addInit p => simp only [step]; split <;> exact h
      | raise =>
        simp only [step]
        split
        · rename_i hs; exact fun f hf => h f (by rw [hs]; exact List.mem_cons_of_mem _ hf)
        · rename_i hs; exact fun f hf => h f (by rw [hs]; exact List.mem_cons_of_mem _ hf)
        · exact h
      | go =>
        simp only [step, S.micro]
        split
        · exact h
        · rename_i fs hs; exact fun f hf => h f (by rw [hs]; exact List.mem_cons_of_mem _ hf)
        · rename_i m r fs hs
          have hfs : ∀ f ∈ fs, noReinit f = true :=
            fun f hf => h f (by rw [hs]; exact List.mem_cons_of_mem _ hf)
          have hr : noReinit r = true := noReinit_tail (h (m :: r) (by rw [hs]; simp))
          have hp : ∀ f ∈ push r fs, noReinit f = true := by
            intro f hf
            rcases mem_push hf with ⟨rfl, _⟩ | hf
            · exact hr
            · exact hfs f hf
          cases m with
          | swapInit =>
            intro f hf
            rcases mem_push hf with ⟨rfl, _⟩ | hf
            · exact noReinit_swap _ hr
            · exact hfs f hf
          | _ => exact hp
  exact key ins _ (by simp [S.new])

/-- C29: in every history without an exception of an entry point or hook, with calls of all
operations at any depth, the accepted entry points are, in the order of their acceptance: those
that have been executed, each registration once and in this order, then those an initialisation in
progress is about to execute, then those waiting for the next one. -/
theorem C29_once (ins : List In) (h : .raise ∉ ins) :
    accepted (run S.new ins).log =
      executed (run S.new ins).log ++ pending (run S.new ins).stack ++ (run S.new ins).init :=
  (initInv_run false ins (fun _ => h)).exact_ rfl

/-- C29: at the end of an initialisation, everything that was accepted before has been executed. -/
theorem C29_next (ins : List In) (h : .raise ∉ ins)
    (hend : (step (run S.new ins) .go).log =
      (run S.new ins).log ++ [.changed .initialising .standby]) :
    accepted (run S.new ins).log = executed (run S.new ins).log := by
  have hi := initInv_run false ins (fun _ => h)
  have hinv := inv_run ins
  have hst := hinv.stack
  simp only [step, S.micro] at hend
  split at hend
  · simp at hend
  · simp at hend
  · rename_i m r fs hs
    cases m with
    | set t =>
      simp only [List.append_cancel_left_eq, List.cons.injEq, Entry.changed.injEq, and_true] at hend
      obtain ⟨h1, rfl⟩ := hend
      have htr : transit (M.set .standby :: r) = true := rfl
      rw [hs] at hst
      have hok : legal (run S.new ins).state .standby = true ∧ hasRun r = false := by
        rcases hst.1 with h' | h' | h'
        · rw [h'] at htr; simp at htr
        · exact ⟨h'.1, h'.2.1⟩
        · rw [h1] at h'; simp at h'
      have hnoswap : M.swapInit ∉ (M.set .standby :: r) := by
        -- what follows the change to Standby never initialises again
        intro hm
        have hm : M.swapInit ∈ r := by simpa using hm
        have := noReinit_run ins _ (by rw [hs]; exact List.mem_cons_self)
        simp [noReinit, hm] at this
      have hinit := (hi.swapped _ _ hs htr h1).resolve_left hnoswap
      have hna : ¬ isAbort (M.set .standby :: r) := fun ha => by
        rw [ha.not_transit] at htr; simp at htr
      have hone := hi.one
      rw [hs] at hone
      have hfs : ∀ g ∈ fs, hasRun g = false := by
        rcases hone with ⟨_, _, h3⟩ | ⟨_, h2⟩
        · exact h3
        · rcases h2 with ⟨ha, _⟩ | h2
          · exact absurd ha hna
          · exact h2
      have := hi.exact_ rfl
      rw [hinit, hs] at this
      have hp : pending ((M.set .standby :: r) :: fs) = [] := by
        show runs r ++ pending fs = []
        rw [(runs_nil_iff r).2 hok.2, pending_none hfs]; rfl
      rw [hp] at this
      simpa using this
    | _ => simp at hend

/-- C29 (part): with exceptions, no registration is executed twice and the order is kept; those
behind the raising entry point are lost (`C29_fails`). -/
theorem C29_order_partial (ins : List In) :
    List.Sublist (executed (run S.new ins).log ++ pending (run S.new ins).stack ++
      (run S.new ins).init) (accepted (run S.new ins).log) :=
  (initInv_run true ins (by simp)).order

/-- C29: `AddInitEntryPoint` in any other state than Building, Connecting and Standby has no
effect. -/
theorem C29_rejected (s : S) (p : Nat)
    (h : s.state ≠ .building ∧ s.state ≠ .connecting ∧ s.state ≠ .standby) :
    step s (.addInit p) = s := by
  simp [step, acceptsInit, h]

-- two registrations before Connect, one by the second while it runs (refused: Initialising), one in
-- Standby, executed by Initialise
example :
    let ins := [In.addInit 1, .addInit 2, .call .connect] ++ goes 11 ++ [.addInit 7] ++ goes 6 ++
      [.addInit 3, .addInit 1, .call .initialise] ++ goes 8
    (run S.new ins).state = .initialising ∧ accepted (run S.new ins).log = [1, 2, 3, 1] ∧
    executed (run S.new ins).log = [1, 2, 3] ∧ pending (run S.new ins).stack = [1] ∧
    (run S.new (ins ++ goes 8)).state = .standby ∧
    executed (run S.new (ins ++ goes 8)).log = [1, 2, 3, 1] := by decide

-- an entry point registered while the components are connected is executed by the same `Connect`, one
-- registered by an entry point is refused
example :
    executed (run S.new ([In.call .connect, .go, .addInit 5] ++ goes 7 ++ [.addInit 6] ++ goes 9)).log = [5] ∧
    accepted (run S.new ([In.call .connect, .go, .addInit 5] ++ goes 7 ++ [.addInit 6] ++ goes 9)).log = [5] := by
  decide

/-- C29 fails with exceptions: an entry point that raises leaves the simulator in Initialising for
ever, with the entry points behind it lost. -/
theorem C29_fails :
    ∃ ins, accepted (run S.new ins).log = [1, 2] ∧ executed (run S.new ins).log = [1] ∧
      (run S.new ins).state = .initialising ∧ (run S.new ins).stack = [] ∧
      (run S.new ins).init = [] :=
  ⟨[In.addInit 1, .addInit 2, .call .connect] ++ goes 9 ++ [.raise], by decide⟩

/-- What is left of C29 after such an exception: no call but `Abort` has any effect any more. -/
theorem C29_stuck (s : S) (hs : s.stack = []) (h : s.state = .initialising) (i : In)
    (hi : i ≠ .call .abort) : step s i = s := by
  cases i with
  | call o =>
    have ho : o ≠ .abort := fun he => hi (by rw [he])
    have := blocked_of (st := s.state) (by rw [h]; decide) s.last o ho
    simp [step, this]
  | addInit p => simp [step, acceptsInit, h]
  | raise => simp [step, hs]
  | go => simp [step, S.micro, hs]

end Verif.Sim
