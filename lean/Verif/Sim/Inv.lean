/-
Invariants of the simulator's state machine.
-/
import Verif.Sim.Model

namespace Verif.Sim

/-- The transitions the documentation of the simulator allows. -/
def legal : St → St → Bool
  | .building, .connecting => true
  | .connecting, .initialising => true
  | .initialising, .standby => true
  | .standby, .initialising => true
  | .standby, .executing => true
  | .standby, .storing => true
  | .standby, .restoring => true
  | .standby, .reconnecting => true
  | .standby, .exiting => true
  | .executing, .standby => true
  | .storing, .standby => true
  | .restoring, .standby => true
  | .reconnecting, .standby => true
  | _, .aborting => true
  | _, _ => false

/-- Instructions of an operation that is in the middle of a transition. -/
def M.transit : M → Bool
  | .set s => s ≠ .aborting
  | .swapInit => true
  | .runInit _ => true
  | _ => false

/-- The operation still has a transition (other than to Aborting) to make. -/
def transit (r : List M) : Bool := r.any M.transit

/-- The operation still has initialisation entry points to execute. -/
def hasRun (r : List M) : Bool := r.any (fun m => match m with | .runInit _ => true | _ => false)

/-- No operation other than `Abort` passes its test. -/
def blocked (st : St) (last : Option Ev) : Prop := ∀ o : Op, o ≠ .abort → o.guard st last = false

/-- The rest of an operation makes only legal transitions from `st`, and user code that runs in the
middle of a transition cannot start another one. -/
def okProg : St → Option Ev → List M → Prop
  | _, _, [] => True
  | st, _, .set s :: r =>
    legal st s = true ∧ hasRun r = false ∧ (s = .initialising → M.swapInit ∈ r) ∧
      ∀ l, okProg s l r
  | st, _, .emit e :: r => okProg st (some e) r
  | st, last, .endEmit :: r => (transit r = true → blocked st last) ∧ okProg st none r
  | st, last, .work :: r => (transit r = true → ∀ l, blocked st l) ∧ okProg st last r
  | st, last, .swapInit :: r => st = .initialising ∧ hasRun r = false ∧ okProg st last r
  | st, last, .runInit _ :: r => st = .initialising ∧ okProg st last r
  | st, last, .endInit :: r => st = .initialising ∧ okProg st last r

/-- The same from the next transition on. -/
def okAfter : List M → Prop
  | [] => True
  | .set s :: r => hasRun r = false ∧ (s = .initialising → M.swapInit ∈ r) ∧ ∀ l, okProg s l r
  | .swapInit :: r => hasRun r = false ∧ okAfter r
  | _ :: r => okAfter r

/-- `Abort` in progress. -/
def isAbort (f : List M) : Prop :=
  f = [.emit .enterAborting, .endEmit, .set .aborting] ∨ f = [.endEmit, .set .aborting] ∨
    f = [.set .aborting]

theorem okProg.after {st : St} {last : Option Ev} {f : List M} (h : okProg st last f) :
    okAfter f := by
  induction f generalizing st last with
  | nil => trivial
  | cons m r ih =>
    cases m with
    | set s => exact ⟨h.2.1, h.2.2.1, h.2.2.2⟩
    | emit e => exact ih h
    | endEmit => exact ih h.2
    | work => exact ih h.2
    | swapInit => exact ⟨h.2.1, ih h.2.2⟩
    | runInit p => exact ih h.2
    | endInit => exact ih h.2

theorem isAbort.not_transit {f : List M} (h : isAbort f) : transit f = false := by
  rcases h with rfl | rfl | rfl <;> decide

theorem isAbort.not_run {f : List M} (h : isAbort f) : hasRun f = false := by
  rcases h with rfl | rfl | rfl <;> decide

theorem hasRun_transit {f : List M} (h : hasRun f = true) : transit f = true := by
  unfold hasRun at h; unfold transit
  rw [List.any_eq_true] at h ⊢
  obtain ⟨m, hm, h⟩ := h
  refine ⟨m, hm, ?_⟩
  cases m <;> simp_all [M.transit]

instance (st : St) (l : Option Ev) : Decidable (blocked st l) :=
  decidable_of_iff
    (∀ o ∈ [Op.publish, .configure, .connect, .initialise, .run, .runFor, .hold, .store, .restore,
      .reconnect, .exit], o.guard st l = false)
    ⟨fun h o ho => by cases o <;> first | exact h _ (by decide) | exact absurd rfl ho,
     fun h o ho => h o (by rintro rfl; simp at ho)⟩

theorem blocked_of {st : St} (h : st ≠ .building ∧ st ≠ .standby ∧ st ≠ .executing)
    (l : Option Ev) : blocked st l := by
  intro o ho
  cases o <;> simp_all [Op.guard]

/-- The body of every operation is well behaved when its test has passed. -/
theorem prog_ok {o : Op} {st : St} {last : Option Ev} (ho : o ≠ .abort)
    (h : o.guard st last = true) (l : Option Ev) : okProg st l o.prog := by
  have b1 : ∀ l, blocked .connecting l := blocked_of (by decide)
  have b2 : ∀ l, blocked .initialising l := blocked_of (by decide)
  have b3 : ∀ l, blocked .storing l := blocked_of (by decide)
  have b4 : ∀ l, blocked .restoring l := blocked_of (by decide)
  have b5 : ∀ l, blocked .reconnecting l := blocked_of (by decide)
  have b6 : ∀ l, blocked .exiting l := blocked_of (by decide)
  have b7 : blocked .standby (some .leaveStandby) := by decide
  have b8 : blocked .executing (some .leaveExecuting) := by decide
  cases o <;> simp only [Op.guard, Bool.decide_and, Bool.and_eq_true, decide_eq_true_eq] at h <;>
    (try exact absurd rfl ho) <;>
    first
      | (obtain ⟨rfl, _⟩ := h
         simp [Op.prog, okProg, legal, hasRun, transit, M.transit, b1, b2, b3, b4, b5, b6, b7, b8])
      | (subst h
         simp [Op.prog, okProg, legal, hasRun, transit, M.transit, b1, b2, b3, b4, b5, b6, b7, b8])

theorem prog_transit_not_run (o : Op) : hasRun o.prog = false := by cases o <;> decide

/-! ### The stack -/

/-- The innermost operation: `b` tells whether `Abort` may have been called in the middle of a
transition. -/
def TopOk (b : Bool) (st : St) (last : Option Ev) (f : List M) : Prop :=
  transit f = false ∨ okProg st last f ∨ (b = true ∧ st = .aborting ∧ okAfter f)

/-- The operations below: one in the middle of a transition has `Abort` directly above it. -/
def Chain (b : Bool) : List M → List (List M) → Prop
  | _, [] => True
  | f, g :: gs => (transit g = true → b = true ∧ isAbort f ∧ okAfter g) ∧ Chain b g gs

def StackOk (b : Bool) (st : St) (last : Option Ev) : List (List M) → Prop
  | [] => True
  | f :: fs => TopOk b st last f ∧ Chain b f fs

/-- Operations that can set the state to Aborting are `Abort`. -/
def Pure (f : List M) : Prop := isAbort f ∨ M.set .aborting ∉ f

theorem prog_pure (o : Op) : Pure o.prog := by
  cases o with
  | abort => exact .inl (.inl rfl)
  | _ => right; decide

structure Inv (b : Bool) (s : S) : Prop where
  stack : StackOk b s.state s.last s.stack
  pure : ∀ f ∈ s.stack, Pure f
  nonempty : ∀ f ∈ s.stack, f ≠ []

theorem transit_cons (m : M) (r : List M) : transit (m :: r) = (m.transit || transit r) := rfl

theorem transit_append (r r' : List M) : transit (r ++ r') = (transit r || transit r') := by
  simp [transit]

theorem Chain.tail {b : Bool} {f g : List M} {gs : List (List M)} (h : Chain b f (g :: gs)) :
    Chain b g gs := h.2

/-- Replacing the innermost operation when it is not `Abort`. -/
theorem Chain.replace {b : Bool} {f f' : List M} {fs : List (List M)} (h : Chain b f fs)
    (hf : isAbort f → isAbort f') : Chain b f' fs := by
  cases fs with
  | nil => trivial
  | cons g gs => exact ⟨fun ht => ⟨(h.1 ht).1, hf (h.1 ht).2.1, (h.1 ht).2.2⟩, h.2⟩

/-- The innermost operation returns or goes on with `r`. -/
theorem StackOk.push {b : Bool} {st : St} {last : Option Ev} {f r : List M} {fs : List (List M)}
    (hc : Chain b f fs) (ht : TopOk b st last r) (ha : isAbort f → isAbort r ∨ (r = [] ∧ st = .aborting)) :
    StackOk b st last (push r fs) := by
  unfold Sim.push
  split
  · rename_i hr
    cases fs with
    | nil => trivial
    | cons g gs =>
      refine ⟨?_, hc.2⟩
      by_cases hg : transit g = true
      · obtain ⟨hb, hab, haf⟩ := hc.1 hg
        rcases ha hab with h | ⟨_, h⟩
        · exfalso; rcases h with h | h | h <;> rw [h] at hr <;> simp at hr
        · exact .inr (.inr ⟨hb, h, haf⟩)
      · exact .inl (by simpa using hg)
  · rename_i hr
    refine ⟨ht, hc.replace ?_⟩
    intro h
    rcases ha h with h | ⟨h, _⟩
    · exact h
    · exact absurd h hr

theorem mem_push {r : List M} {fs : List (List M)} {f : List M} (h : f ∈ push r fs) :
    (f = r ∧ r ≠ []) ∨ f ∈ fs := by
  unfold push at h
  split at h
  · exact .inr h
  · rename_i hr
    rcases List.mem_cons.1 h with h | h
    · exact .inl ⟨h, hr⟩
    · exact .inr h

theorem Pure.tail {m : M} {r : List M} (h : Pure (m :: r)) (hr : r ≠ []) : Pure r := by
  rcases h with h | h
  · rcases h with h | h | h
    · rw [List.cons.injEq] at h; exact .inl (.inr (.inl h.2))
    · rw [List.cons.injEq] at h; exact .inl (.inr (.inr h.2))
    · rw [List.cons.injEq] at h; exact absurd h.2 hr
  · exact .inr (fun hm => h (List.mem_cons_of_mem _ hm))

theorem swap_list_not_set (l : List Nat) (r : List M) (h : M.set .aborting ∉ r) :
    M.set .aborting ∉ l.flatMap (fun p => [M.runInit p, .endInit]) ++ r := by
  simp [h]

theorem isAbort_cons_tail {m : M} {r : List M} (h : isAbort (m :: r)) :
    (m ≠ .set .aborting ∧ isAbort r) ∨ (m = .set .aborting ∧ r = []) := by
  rcases h with h | h | h <;> rw [List.cons.injEq] at h <;> obtain ⟨rfl, rfl⟩ := h
  · exact .inl ⟨by decide, .inr (.inl rfl)⟩
  · exact .inl ⟨by decide, .inr (.inr rfl)⟩
  · exact .inr ⟨rfl, rfl⟩

theorem okProg_swap {st : St} {last : Option Ev} (l : List Nat) {r : List M}
    (h : okProg st last r) (hst : st = .initialising) :
    okProg st last (l.flatMap (fun p => [M.runInit p, .endInit]) ++ r) := by
  induction l with
  | nil => exact h
  | cons p l ih => exact ⟨hst, hst, ih⟩

theorem okAfter_swap (l : List Nat) {r : List M} (h : okAfter r) :
    okAfter (l.flatMap (fun p => [M.runInit p, .endInit]) ++ r) := by
  induction l with
  | nil => exact h
  | cons p l ih => exact ih

/-- The innermost operation after one micro-instruction, and the state. -/
theorem Inv.go {b : Bool} {s : S} (h : Inv b s) :
    Inv b s.micro ∧
      (s.micro.state ≠ s.state → legal s.state s.micro.state = true ∨ (b = true ∧ s.state = .aborting)) := by
  unfold S.micro
  split
  · exact ⟨h, fun hne => absurd rfl hne⟩
  · rename_i fs hs
    exact absurd rfl (h.nonempty [] (by rw [hs]; simp))
  · rename_i m r fs hs
    have hst := h.stack
    rw [hs] at hst
    obtain ⟨htop, hch⟩ := hst
    have hpure := h.pure (m :: r) (by rw [hs]; simp)
    have hpf : ∀ f ∈ fs, Pure f := fun f hf => h.pure f (by rw [hs]; exact List.mem_cons_of_mem _ hf)
    have hnf : ∀ f ∈ fs, f ≠ [] := fun f hf => h.nonempty f (by rw [hs]; exact List.mem_cons_of_mem _ hf)
    have pureT : ∀ f ∈ push r fs, Pure f := by
      intro f hf
      rcases mem_push hf with ⟨rfl, hr⟩ | hf
      · exact hpure.tail hr
      · exact hpf f hf
    have neT : ∀ f ∈ push r fs, f ≠ [] := by
      intro f hf
      rcases mem_push hf with ⟨rfl, hr⟩ | hf
      · exact hr
      · exact hnf f hf
    cases m with
    | set t =>
      refine ⟨⟨StackOk.push hch ?_ ?_, pureT, neT⟩, ?_⟩
      · rcases htop with ht | ht | ⟨_, _, ht⟩
        · left; rw [transit_cons] at ht; simp at ht; exact ht.2
        · exact .inr (.inl (ht.2.2.2 _))
        · exact .inr (.inl (ht.2.2 _))
      · intro ha
        rcases isAbort_cons_tail ha with ⟨_, h⟩ | ⟨h1, h2⟩
        · exact .inl h
        · right; exact ⟨h2, by simpa using h1⟩
      · intro _
        rcases htop with ht | ht | ⟨hb, ht, _⟩
        · rw [transit_cons] at ht
          have : t = .aborting := by
            simp only [Bool.or_eq_false_iff] at ht; simpa [M.transit] using ht.1
          subst this
          left
          show legal s.state .aborting = true
          cases s.state <;> rfl
        · exact .inl ht.1
        · exact .inr ⟨hb, ht⟩
    | emit e =>
      refine ⟨⟨StackOk.push hch ?_ ?_, pureT, neT⟩, fun hne => absurd rfl hne⟩
      · rcases htop with ht | ht | ⟨hb, hst, ht⟩
        · exact .inl (by simpa [transit_cons, M.transit] using ht)
        · exact .inr (.inl ht)
        · exact .inr (.inr ⟨hb, hst, ht⟩)
      · intro ha
        rcases isAbort_cons_tail ha with ⟨_, h⟩ | ⟨h, _⟩
        · exact .inl h
        · exact absurd h (by simp)
    | endEmit =>
      refine ⟨⟨StackOk.push hch ?_ ?_, pureT, neT⟩, fun hne => absurd rfl hne⟩
      · rcases htop with ht | ht | ⟨hb, hst, ht⟩
        · exact .inl (by simpa [transit_cons, M.transit] using ht)
        · exact .inr (.inl ht.2)
        · exact .inr (.inr ⟨hb, hst, ht⟩)
      · intro ha
        rcases isAbort_cons_tail ha with ⟨_, h⟩ | ⟨h, _⟩
        · exact .inl h
        · exact absurd h (by simp)
    | work =>
      refine ⟨⟨StackOk.push hch ?_ ?_, pureT, neT⟩, fun hne => absurd rfl hne⟩
      · rcases htop with ht | ht | ⟨hb, hst, ht⟩
        · exact .inl (by simpa [transit_cons, M.transit] using ht)
        · exact .inr (.inl ht.2)
        · exact .inr (.inr ⟨hb, hst, ht⟩)
      · intro ha
        rcases isAbort_cons_tail ha with ⟨_, h⟩ | ⟨h, _⟩
        · exact .inl h
        · exact absurd h (by simp)
    | swapInit =>
      have hnot : ¬ isAbort (M.swapInit :: r) := by
        rintro (h | h | h) <;> simp at h
      have hr0 : M.set .aborting ∉ r := by
        rcases hpure with h | h
        · exact absurd h hnot
        · exact fun hm => h (List.mem_cons_of_mem _ hm)
      refine ⟨⟨StackOk.push hch ?_ ?_, ?_, ?_⟩, fun hne => absurd rfl hne⟩
      · rcases htop with ht | ht | ⟨hb, hst, ht⟩
        · simp [transit_cons, M.transit] at ht
        · exact .inr (.inl (okProg_swap _ ht.2.2 ht.1))
        · exact .inr (.inr ⟨hb, hst, okAfter_swap _ ht.2⟩)
      · intro ha; exact absurd ha hnot
      · intro f hf
        rcases mem_push hf with ⟨rfl, hr⟩ | hf
        · exact .inr (swap_list_not_set _ _ hr0)
        · exact hpf f hf
      · intro f hf
        rcases mem_push hf with ⟨rfl, hr⟩ | hf
        · exact hr
        · exact hnf f hf
    | runInit p =>
      refine ⟨⟨StackOk.push hch ?_ ?_, pureT, neT⟩, fun hne => absurd rfl hne⟩
      · rcases htop with ht | ht | ⟨hb, hst, ht⟩
        · simp [transit_cons, M.transit] at ht
        · exact .inr (.inl ht.2)
        · exact .inr (.inr ⟨hb, hst, ht⟩)
      · intro ha
        rcases isAbort_cons_tail ha with ⟨_, h⟩ | ⟨h, _⟩
        · exact .inl h
        · exact absurd h (by simp)
    | endInit =>
      refine ⟨⟨StackOk.push hch ?_ ?_, pureT, neT⟩, fun hne => absurd rfl hne⟩
      · rcases htop with ht | ht | ⟨hb, hst, ht⟩
        · exact .inl (by simpa [transit_cons, M.transit] using ht)
        · exact .inr (.inl ht.2)
        · exact .inr (.inr ⟨hb, hst, ht⟩)
      · intro ha
        rcases isAbort_cons_tail ha with ⟨_, h⟩ | ⟨h, _⟩
        · exact .inl h
        · exact absurd h (by simp)

/-- User code in the middle of a transition cannot start another operation than `Abort`. -/
theorem TopOk.user_blocked {b : Bool} {st : St} {last : Option Ev} {f : List M}
    (h : TopOk b st last f) (ht : transit f = true)
    (hu : (∃ r, f = .endEmit :: r) ∨ (∃ r, f = .work :: r) ∨ (∃ r, f = .endInit :: r)) :
    blocked st last := by
  rcases h with h | h | ⟨_, h, _⟩
  · rw [h] at ht; simp at ht
  · rcases hu with ⟨r, rfl⟩ | ⟨r, rfl⟩ | ⟨r, rfl⟩
    · exact h.1 (by simpa [transit_cons, M.transit] using ht)
    · exact h.1 (by simpa [transit_cons, M.transit] using ht) last
    · rw [h.1]; exact blocked_of (by decide) _
  · rw [h]; exact blocked_of (by decide) _

theorem user_top {s : S} (hu : s.user = true) {f : List M} {fs : List (List M)}
    (hs : s.stack = f :: fs) :
    (∃ r, f = .endEmit :: r) ∨ (∃ r, f = .work :: r) ∨ (∃ r, f = .endInit :: r) := by
  unfold S.user at hu
  rw [hs] at hu
  split at hu
  · rename_i h; simp at h
  · rename_i r gs h; simp only [List.cons.injEq] at h; exact .inl ⟨r, h.1⟩
  · rename_i r gs h; simp only [List.cons.injEq] at h; exact .inr (.inl ⟨r, h.1⟩)
  · rename_i r gs h; simp only [List.cons.injEq] at h; exact .inr (.inr ⟨r, h.1⟩)
  · simp at hu

theorem StackOk.okAfter {b : Bool} {st : St} {last : Option Ev} {f : List M} (h : TopOk b st last f)
    (ht : transit f = true) : okAfter f := by
  rcases h with h | h | h
  · rw [h] at ht; simp at ht
  · exact h.after
  · exact h.2.2

theorem Inv.call {b : Bool} {s : S} (h : Inv b s) (o : Op)
    (hb : b = false → o = .abort → ∀ f ∈ s.stack, transit f = false) :
    Inv b (step s (.call o)) ∧ (step s (.call o)).state = s.state := by
  simp only [step]
  split
  · rename_i hg
    simp only [Bool.and_eq_true] at hg
    refine ⟨⟨?_, ?_, ?_⟩, rfl⟩
    · refine ⟨?_, ?_⟩
      · by_cases ho : o = .abort
        · subst ho; left; decide
        · exact .inr (.inl (prog_ok ho hg.2 _))
      · cases hs : s.stack with
        | nil => trivial
        | cons f fs =>
          have hst := h.stack
          rw [hs] at hst
          refine ⟨?_, hst.2⟩
          intro ht
          have hbl := hst.1.user_blocked ht (user_top hg.1 hs)
          have ho : o = .abort := by
            refine Decidable.byContradiction fun ho => ?_
            have := hbl o ho
            rw [hg.2] at this
            simp at this
          subst ho
          refine ⟨?_, .inl rfl, StackOk.okAfter hst.1 ht⟩
          cases hb' : b with
          | true => rfl
          | false =>
            have := hb hb' rfl f (by rw [hs]; simp)
            rw [this] at ht
            simp at ht
    · intro f hf
      rcases List.mem_cons.1 hf with rfl | hf
      · exact prog_pure o
      · exact h.pure f hf
    · intro f hf
      rcases List.mem_cons.1 hf with rfl | hf
      · cases o <;> simp [Op.prog]
      · exact h.nonempty f hf
  · exact ⟨h, rfl⟩

theorem Inv.raise {b : Bool} {s : S} (h : Inv b s) :
    Inv b (step s .raise) ∧ (step s .raise).state = s.state := by
  have pop : ∀ f fs, s.stack = f :: fs → ¬ isAbort f → Inv b { s with stack := fs } := by
    intro f fs hs hna
    have hst := h.stack
    rw [hs] at hst
    refine ⟨?_, fun g hg => h.pure g (by rw [hs]; exact List.mem_cons_of_mem _ hg),
      fun g hg => h.nonempty g (by rw [hs]; exact List.mem_cons_of_mem _ hg)⟩
    cases fs with
    | nil => trivial
    | cons g gs =>
      refine ⟨.inl ?_, hst.2.2⟩
      cases hg : transit g with
      | false => rfl
      | true => exact absurd (hst.2.1 hg).2.1 hna
  simp only [step]
  split
  · rename_i r fs hs
    exact ⟨pop _ _ hs (by rintro (h | h | h) <;> simp at h), rfl⟩
  · rename_i r fs hs
    exact ⟨pop _ _ hs (by rintro (h | h | h) <;> simp at h), rfl⟩
  · exact ⟨h, rfl⟩

theorem Inv.addInit {b : Bool} {s : S} (h : Inv b s) (p : Nat) :
    Inv b (step s (.addInit p)) ∧ (step s (.addInit p)).state = s.state := by
  simp only [step]
  split
  · exact ⟨⟨h.stack, h.pure, h.nonempty⟩, rfl⟩
  · exact ⟨h, rfl⟩

theorem Inv.step {b : Bool} {s : S} (h : Inv b s) (i : In)
    (hb : b = false → i = .call .abort → ∀ f ∈ s.stack, transit f = false) :
    Inv b (step s i) ∧ ((step s i).state ≠ s.state →
      legal s.state (step s i).state = true ∨ (b = true ∧ s.state = .aborting)) := by
  cases i with
  | call o =>
    have := h.call o (fun h1 h2 => hb h1 (by rw [h2]))
    exact ⟨this.1, fun hne => absurd this.2 hne⟩
  | addInit p => exact ⟨(h.addInit p).1, fun hne => absurd (h.addInit p).2 hne⟩
  | raise => exact ⟨h.raise.1, fun hne => absurd h.raise.2 hne⟩
  | go => exact h.go

theorem Inv.new (b : Bool) : Inv b S.new := by
  refine ⟨trivial, ?_, ?_⟩ <;> simp [S.new]

theorem run_append (s : S) (a b : List In) : run s (a ++ b) = run (run s a) b := by
  simp [run]

theorem run_snoc (s : S) (a : List In) (i : In) : run s (a ++ [i]) = step (run s a) i := by
  simp [run]

end Verif.Sim
