import Verif.Sim.LoopLemmas

/-! The simulator and the run loop with one thread: the invariant. -/
namespace Verif.Sim

/-- The steps one thread may do: `Abort` is not called; `Run` is not called in a run loop;
`Hold(true)` is called neither by a subscriber of EnterExecuting that runs before the scheduler's
own, nor by a subscriber of PostSimTimeChange. -/
def Allowed (s : Sys) : Act → Prop
  | .call .abort => False
  | .call .run => loops (s.stack 0) = 0
  | .call .runFor => loops (s.stack 0) = 0
  | .call .hold => Frame.loop .post ∉ s.stack 0 ∧ ∀ r, Frame.op r (some .enterExecuting) ∉ s.stack 0
  | _ => True

/-- All steps of a history are allowed. -/
def Disciplined : Sys → List Act → Prop
  | _, [] => True
  | s, a :: l => Allowed s a ∧ Disciplined (s.step 0 a) l

/-- A history of one thread. -/
def Sys.run1 (s : Sys) (l : List Act) : Sys := s.run (l.map fun a => (0, a))

/-- About to emit EnterExecuting, or emitting it with the scheduler not told yet. -/
def entering : Frame → Prop
  | .op r p => r.head? = some (.emit .enterExecuting) ∨ p = some .enterExecuting
  | .loop _ => False

/-- What may be left of a program. -/
def ends : List M → List (List M)
  | [] => [[]]
  | m :: l => (m :: l) :: ends l

/-- An operation in progress: what is left of one of the programs. -/
def okOp : Frame → Prop
  | .op r _ => ∃ o : Op, r ∈ ends o.prog
  | .loop _ => False

/-- … that does not emit EnterExecuting any more. -/
def noRun : Frame → Prop
  | .op r p => (∃ o : Op, r ∈ ends o.prog) ∧ .emit .enterExecuting ∉ r ∧ p ≠ some .enterExecuting
  | .loop _ => False

/-- What is below a run loop. -/
def Below (fs : List Frame) : Prop := ∀ f ∈ fs, okOp f ∧ ¬ entering f

/-- Nothing but operations, only the innermost may be entering. -/
def Idle (st : St) : List Frame → Prop
  | [] => True
  | f :: fs => okOp f ∧ (entering f → st = .executing) ∧ Below fs

/-- What is left of `Hold(true)` after the first instruction. -/
def holdRest : List M := [.endEmit, .set .standby, .emit .enterStandby, .endEmit]

/-- The phases in which user code may hold. -/
def Phase.user (p : Phase) : Prop := p = .entry ∨ p = .pre

/-- The invariant. -/
inductive LoopInv (s : Sys) : Prop
  | idle (h : Idle s.state (s.stack 0))
  | running (p : Phase) (fs : List Frame) (h : s.stack 0 = .loop p :: fs) (hh : s.hold = false)
      (hs : s.state = .executing) (hb : Below fs)
  | asked (p : Phase) (fs : List Frame)
      (h : s.stack 0 = .op (.emit .leaveExecuting :: holdRest) none :: .loop p :: fs)
      (hp : p.user) (hh : s.hold = false) (hs : s.state = .executing) (hb : Below fs)
  | asking (p : Phase) (fs : List Frame)
      (h : s.stack 0 = .op holdRest (some .leaveExecuting) :: .loop p :: fs)
      (hp : p.user) (hh : s.hold = false) (hs : s.state = .executing) (hb : Below fs)
      (hl : s.last = some .leaveExecuting)
  | held (up : List Frame) (p : Phase) (fs : List Frame) (h : s.stack 0 = up ++ .loop p :: fs)
      (hp : p.user) (hh : s.hold = true) (hu : ∀ f ∈ up, noRun f) (hb : Below fs)

theorem tails_cons {m : M} {r l : List M} (h : m :: r ∈ ends l) : r ∈ ends l := by
  have self : ∀ x : List M, x ∈ ends x := by intro x; cases x <;> simp [ends]
  induction l with
  | nil => simp [ends] at h
  | cons a l ih =>
    rcases List.mem_cons.1 h with h | h
    · obtain ⟨rfl, rfl⟩ := List.cons_eq_cons.1 h
      exact List.mem_cons_of_mem _ (self _)
    · exact List.mem_cons_of_mem _ (ih h)

theorem before_enter (o : Op) (m : M) (r : List M) (h : m :: r ∈ ends o.prog)
    (hr : r.head? = some (.emit .enterExecuting)) : m = .set .executing := by
  have : ∀ o : Op, ∀ x ∈ ends o.prog,
      x.tail.head? = some (.emit .enterExecuting) → x.head? = some (.set .executing) := by
    intro o; cases o <;> decide
  have := this o _ h hr
  simpa using this

theorem prog_head (o : Op) : o.prog.head? ≠ some (.emit .enterExecuting) := by cases o <;> decide

theorem prog_mem (o : Op) : .emit .enterExecuting ∈ o.prog → o = .run ∨ o = .runFor := by
  cases o <;> decide

theorem prog_tails (o : Op) : o.prog ∈ ends o.prog := by
  cases o <;> simp [Op.prog, ends]

theorem guard_executing (o : Op) (l) (h : o.guard .executing l = true) :
    o = .abort ∨ (o = .hold ∧ l ≠ some .leaveExecuting) := by
  cases o <;> simp_all [Op.guard]

theorem below_pushOp {o : Op} {m r q fs} (ho : m :: r ∈ ends o.prog) (hb : Below fs) (st : St)
    (h1 : r.head? = some (.emit .enterExecuting) → st = .executing)
    (h2 : q = some .enterExecuting → st = .executing) :
    Idle st (pushOp r q fs) ∧ Idle st (.op r q :: fs) := by
  have h : Idle st (.op r q :: fs) :=
    ⟨⟨o, tails_cons ho⟩, fun h => h.elim h1 h2, hb⟩
  refine ⟨?_, h⟩
  unfold pushOp
  split
  · cases fs with
    | nil => trivial
    | cons f fs =>
      exact ⟨(hb f (by simp)).1, fun h => absurd h (hb f (by simp)).2,
        fun g hg => hb g (by simp [hg])⟩
  · exact h

theorem idle_of_below {st fs} (hb : Below fs) : Idle st fs := by
  cases fs with
  | nil => trivial
  | cons f fs =>
    exact ⟨(hb f (by simp)).1, fun h => absurd h (hb f (by simp)).2,
        fun g hg => hb g (by simp [hg])⟩

theorem below_of_idle {st f fs} (h : Idle st (f :: fs)) (hf : ¬ entering f) : Below (f :: fs) := by
  intro g hg
  rcases List.mem_cons.1 hg with rfl | hg
  · exact ⟨h.1, hf⟩
  · exact h.2.2 g hg

theorem noRun_pushOp {m r q p} {fs : List Frame} (h : noRun (.op (m :: r) p))
    (hq : q ≠ some .enterExecuting) (hu : ∀ f ∈ fs, noRun f) :
    (∀ f ∈ pushOp r q fs, noRun f) ∧ (∀ f ∈ Frame.op r q :: fs, noRun f) := by
  obtain ⟨⟨o, ho⟩, h1, h2⟩ := h
  have h : ∀ f ∈ Frame.op r q :: fs, noRun f := by
    intro f hf
    rcases List.mem_cons.1 hf with rfl | hf
    · exact ⟨⟨o, tails_cons ho⟩, fun h => h1 (by simp [h]), hq⟩
    · exact hu f hf
  refine ⟨?_, h⟩
  unfold pushOp
  split
  · exact hu
  · exact h

theorem pushOp_append (r q up l) : pushOp r q (up ++ l) = pushOp r q up ++ l := by
  unfold pushOp; split <;> rfl

theorem loops_pos_mid (up : List Frame) (p fs) : loops (up ++ .loop p :: fs) ≠ 0 := by
  unfold loops; rw [List.countP_append, List.countP_cons]; simp [isLoop]

theorem subscribed_enter {e} (h : subscribed e = some .enterExecuting) : e = .enterExecuting := by
  revert h; cases e <;> decide

/-- `go` on a stack without entering a loop. -/
theorem inv_go {s : Sys} (hi : LoopInv s) : LoopInv (s.step 0 .go) := by
  cases hi with
  | idle h =>
    simp only [Sys.step]
    split
    · rename_i m r p fs hst
      rw [hst] at h
      obtain ⟨⟨o, ho⟩, he, hb⟩ := h
      have key : ∀ q, m ≠ .set .executing → q ≠ some .enterExecuting → ∀ st,
          Idle st (pushOp r q fs) ∧ Idle st (.op r q :: fs) := by
        intro q hm hq st
        exact below_pushOp ho hb st (fun h => absurd (before_enter o m r ho h) hm)
          (fun h => absurd h hq)
      cases m with
      | set st =>
        refine .idle ?_
        show Idle st (s.setStack 0 _ 0)
        rw [setStack_self]
        exact (below_pushOp ho hb st (fun h => by
          have := before_enter o _ r ho h; simpa using this) (by simp)).1
      | emit e =>
        refine .idle ?_
        show Idle s.state (s.setStack 0 _ 0)
        rw [setStack_self]
        refine (below_pushOp ho hb s.state (fun h => by
          have := before_enter o _ r ho h; simp at this) (fun h => ?_)).2
        have := subscribed_enter h
        subst this
        exact he (.inl rfl)
      | endEmit =>
        simp only [Sys.micro]
        split
        · refine .idle ?_
          show Idle s.state (s.setStack 0 _ 0)
          rw [setStack_self]
          exact (key none (by simp) (by simp) _).1
        · exact .idle (by rw [hst]; exact ⟨⟨o, ho⟩, he, hb⟩)
      | _ =>
        refine .idle ?_
        show Idle s.state (s.setStack 0 _ 0)
        rw [setStack_self]
        exact (key none (by simp) (by simp) _).1
    · exact .idle h
  | running p fs h hh hs hb =>
    simp only [Sys.step, h]
    exact .running p fs h hh hs hb
  | asked p fs h hp hh hs hb =>
    simp only [Sys.step, h, Sys.micro]
    exact .asking p fs (by simp [setStack_self, subscribed]) hp hh hs hb rfl
  | asking p fs h hp hh hs hb hl =>
    simp only [Sys.step, h, holdRest, Sys.micro]
    exact .asking p fs h hp hh hs hb hl
  | held up p fs h hp hh hu hb =>
    cases up with
    | nil =>
      simp only [Sys.step, h, List.nil_append]
      exact .held [] p fs h hp hh hu hb
    | cons f up =>
      have hf := hu f (by simp)
      cases f with
      | loop p => exact hf.elim
      | op r q =>
        cases r with
        | nil =>
          simp only [Sys.step, h, List.cons_append]
          exact .held (.op [] q :: up) p fs h hp hh hu hb
        | cons m r =>
          have hu' : ∀ f ∈ up, noRun f := fun g hg => hu g (by simp [hg])
          simp only [Sys.step, h, List.cons_append]
          have fin : ∀ s' : Sys, s'.hold = s.hold →
              (s'.stack = s.setStack 0 (pushOp r none (up ++ .loop p :: fs)) ∨
               ∃ q, q ≠ some .enterExecuting ∧
                s'.stack = s.setStack 0 (.op r q :: (up ++ .loop p :: fs))) → LoopInv s' := by
            intro s' h1 h2
            rcases h2 with h2 | ⟨q', hq', h2⟩
            · refine .held (pushOp r none up) p fs ?_ hp (h1.trans hh)
                (noRun_pushOp hf (by simp) hu').1 hb
              rw [h2, setStack_self, pushOp_append]
            · refine .held (.op r q' :: up) p fs ?_ hp (h1.trans hh)
                (noRun_pushOp hf hq' hu').2 hb
              rw [h2, setStack_self]; rfl
          cases m with
          | emit e =>
            refine fin _ rfl (.inr ⟨subscribed e, fun he => ?_, rfl⟩)
            have := subscribed_enter he
            subst this
            exact hf.2.1 (by simp)
          | endEmit =>
            simp only [Sys.micro]
            split
            · exact fin _ rfl (.inl rfl)
            · exact .held (.op (.endEmit :: r) q :: up) p fs h hp hh hu hb
          | _ => exact fin _ rfl (.inl rfl)

theorem inv_call {s : Sys} {o : Op} (hi : LoopInv s) (ha : Allowed s (.call o)) :
    LoopInv (s.step 0 (.call o)) := by
  simp only [Sys.step]
  split
  · rename_i hg
    rw [Bool.and_eq_true] at hg
    obtain ⟨hu', hg⟩ := hg
    have nab : o ≠ .abort := by rintro rfl; exact ha
    cases hi with
    | idle h =>
      refine .idle ?_
      show Idle s.state (s.setStack 0 _ 0)
      rw [setStack_self]
      refine ⟨⟨o, prog_tails o⟩, fun h => absurd h ?_, ?_⟩
      · simp only [entering, reduceCtorEq, or_false]; exact prog_head o
      · cases hst : s.stack 0 with
        | nil => intro g hg; cases hg
        | cons f fs =>
          rw [hst] at h
          refine below_of_idle h fun he => ?_
          have hex := h.2.1 he
          rw [hex] at hg
          rcases guard_executing o s.last hg with h1 | ⟨rfl, -⟩
          · exact nab h1
          · cases f with
            | loop p => exact he
            | op r p =>
              rcases he with he | rfl
              · rw [hst] at hu'
                cases r with
                | nil => simp at he
                | cons m r =>
                  simp only [List.head?_cons, Option.some.injEq] at he
                  subst he
                  simp [userFrame] at hu'
              · exact ha.2 r (by rw [hst]; simp)
    | running p fs h hh hs hb =>
      rw [hs] at hg
      rcases guard_executing o s.last hg with h1 | ⟨rfl, -⟩
      · exact absurd h1 nab
      · refine .asked p fs ?_ ?_ hh hs hb
        · show s.setStack 0 _ 0 = _
          rw [setStack_self, h]; rfl
        · rw [h] at hu'
          have h2 := ha.1
          rw [h] at h2
          cases p <;> simp_all [userFrame, Phase.user]
    | asked p fs h hp hh hs hb => rw [h] at hu'; simp [userFrame] at hu'
    | asking p fs h hp hh hs hb hl =>
      rw [hs] at hg
      rcases guard_executing o s.last hg with h1 | ⟨rfl, h1⟩
      · exact absurd h1 nab
      · exact absurd hl h1
    | held up p fs h hp hh hu hb =>
      refine .held (.op o.prog none :: up) p fs ?_ hp hh ?_ hb
      · show s.setStack 0 _ 0 = _
        rw [setStack_self, h]; rfl
      · intro f hf
        rcases List.mem_cons.1 hf with rfl | hf
        · refine ⟨⟨o, prog_tails o⟩, fun hm => ?_, by simp⟩
          have hl : loops (s.stack 0) = 0 := by
            rcases prog_mem o hm with rfl | rfl <;> exact ha
          rw [h] at hl
          exact loops_pos_mid up p fs hl
        · exact hu f hf
  · exact hi

theorem inv_tell {s : Sys} (hi : LoopInv s) : LoopInv (s.step 0 .tell) := by
  cases hi with
  | idle h =>
    simp only [Sys.step]
    split
    · rename_i r fs hst
      rw [hst] at h
      refine .running .ready (.op (.endEmit :: r) none :: fs) (by simp [setStack_self]) rfl
        (h.2.1 (.inr rfl)) ?_
      intro g hg
      rcases List.mem_cons.1 hg with rfl | hg
      · exact ⟨h.1, by simp [entering]⟩
      · exact h.2.2 g hg
    · rename_i r fs hst
      rw [hst] at h
      refine .idle ?_
      show Idle s.state (s.setStack 0 _ 0)
      rw [setStack_self]
      exact ⟨h.1, by simp [entering], h.2.2⟩
    · exact .idle h
  | running p fs h hh hs hb =>
    simp only [Sys.step, h]; exact .running p fs h hh hs hb
  | asked p fs h hp hh hs hb =>
    simp only [Sys.step, h]; exact .asked p fs h hp hh hs hb
  | asking p fs h hp hh hs hb hl =>
    simp only [Sys.step, h, holdRest]
    refine .held [.op holdRest none] p fs ?_ hp rfl ?_ hb
    · show s.setStack 0 _ 0 = _
      rw [setStack_self]; rfl
    · intro f hf
      rcases List.mem_singleton.1 hf with rfl
      exact ⟨⟨.hold, by decide⟩, by decide, by decide⟩
  | held up p fs h hp hh hu hb =>
    simp only [Sys.step]
    split
    · rename_i r fs' hst
      rw [h] at hst
      cases up with
      | nil => simp at hst
      | cons f up =>
        obtain ⟨rfl, -⟩ := List.cons_eq_cons.1 hst
        exact absurd rfl (hu _ List.mem_cons_self).2.2
    · rename_i r fs' hst
      rw [h] at hst
      cases up with
      | nil => simp at hst
      | cons f up =>
        obtain ⟨rfl, h2⟩ := List.cons_eq_cons.1 hst
        refine .held (.op (.endEmit :: r) none :: up) p fs ?_ hp rfl ?_ hb
        · show s.setStack 0 _ 0 = _
          rw [setStack_self, ← h2]; rfl
        · intro f hf
          rcases List.mem_cons.1 hf with rfl | hf
          · have := hu _ (List.mem_cons_self)
            exact ⟨this.1, this.2.1, by simp⟩
          · exact hu f (by simp [hf])
    · exact .held up p fs h hp hh hu hb

/-- The steps of a loop do not touch an operation. -/
theorem loop_step_op {s : Sys} {r q fs} (h : s.stack 0 = .op r q :: fs) :
    (∀ id, s.step 0 (.exec id) = s) ∧ s.step 0 .skip = s ∧ s.step 0 .slot = s ∧
    s.step 0 .finish = s ∧ ∀ d, s.step 0 (.ret d) = s := by
  refine ⟨fun id => ?_, ?_, ?_, ?_, fun d => ?_⟩ <;> simp only [Sys.step, h]

/-- The acts of a loop. -/
def Act.isLoopAct : Act → Bool
  | .call _ => false
  | .go => false
  | .tell => false
  | _ => true

theorem loopAct_op {s : Sys} {r q fs} (h : s.stack 0 = .op r q :: fs) {a : Act}
    (ha : a.isLoopAct = true) : s.step 0 a = s := by
  obtain ⟨h1, h2, h3, h4, h5⟩ := loop_step_op h
  cases a <;> first | exact h1 _ | assumption | exact h5 _ | cases ha

theorem loopAct_nil {s : Sys} (h : s.stack 0 = []) {a : Act}
    (ha : a.isLoopAct = true) : s.step 0 a = s := by
  cases a <;> first | (simp only [Sys.step, h]; done) | cases ha

theorem inv_loopAct {s : Sys} {a : Act} (ha : a.isLoopAct = true) (hi : LoopInv s) :
    LoopInv (s.step 0 a) := by
  cases hi with
  | idle h =>
    cases hst : s.stack 0 with
    | nil => rw [loopAct_nil hst ha]; exact .idle h
    | cons f fs =>
      cases f with
      | op r q => rw [loopAct_op hst ha]; exact .idle h
      | loop p => rw [hst] at h; exact h.1.elim
  | running p fs h hh hs hb =>
    have fin : ∀ s' : Sys, s'.hold = s.hold → s'.state = s.state →
        (s'.stack 0 = fs ∨ ∃ p, s'.stack 0 = .loop p :: fs) → LoopInv s' := by
      intro s' h1 h2 h3
      rcases h3 with h3 | ⟨p', h3⟩
      · refine .idle ?_
        rw [h3]; exact idle_of_below hb
      · exact .running p' fs h3 (h1.trans hh) (h2.trans hs) hb
    cases a <;> first | cases ha | skip
    all_goals
      cases p <;> simp only [Sys.step, h] <;>
        first
        | exact .running _ fs h hh hs hb
        | (refine fin _ rfl rfl ?_
           simp only [setStack_self]
           first
           | exact .inr ⟨_, rfl⟩
           | exact .inl trivial
           | (split
              · exact .inl rfl
              · exact .inr ⟨_, rfl⟩))
  | asked p fs h hp hh hs hb => rw [loopAct_op h ha]; exact .asked p fs h hp hh hs hb
  | asking p fs h hp hh hs hb hl => rw [loopAct_op h ha]; exact .asking p fs h hp hh hs hb hl
  | held up p fs h hp hh hu hb =>
    cases up with
    | cons f up =>
      cases f with
      | op r q =>
        rw [loopAct_op h ha]; exact .held (.op r q :: up) p fs h hp hh hu hb
      | loop p => exact (hu _ List.mem_cons_self).elim
    | nil =>
      rw [List.nil_append] at h
      cases a <;> first | cases ha | skip
      all_goals
        rcases hp with rfl | rfl <;> simp only [Sys.step, h, hh, if_true] <;>
          first
          | exact .held [] _ fs h (.inl rfl) hh hu hb
          | exact .held [] _ fs h (.inr rfl) hh hu hb
          | (refine .idle ?_
             show Idle s.state (s.setStack 0 _ 0)
             rw [setStack_self]
             exact idle_of_below hb)

theorem inv_step {s : Sys} {a : Act} (hi : LoopInv s) (ha : Allowed s a) : LoopInv (s.step 0 a) := by
  cases a with
  | call o => exact inv_call hi ha
  | go => exact inv_go hi
  | tell => exact inv_tell hi
  | _ => exact inv_loopAct rfl hi

theorem inv_init (h : Bool) : LoopInv (Sys.init h) := .idle trivial

/-- An entry point is called by a loop that is not held, while executing. -/
theorem call_running {s : Sys} (hi : LoopInv s) {id : Nat} (h : s.step 0 (.exec id) ≠ s) :
    s.hold = false ∧ s.state = .executing := by
  cases hi with
  | idle hd =>
    cases hst : s.stack 0 with
    | nil => exact absurd (loopAct_nil hst rfl) h
    | cons f fs =>
      cases f with
      | op r q => exact absurd (loopAct_op hst rfl) h
      | loop p => rw [hst] at hd; exact hd.1.elim
  | running p fs hst hh hs hb => exact ⟨hh, hs⟩
  | asked p fs hst => exact absurd (loopAct_op hst rfl) h
  | asking p fs hst => exact absurd (loopAct_op hst rfl) h
  | held up p fs hst hp hh hu hb =>
    cases up with
    | cons f up =>
      cases f with
      | op r q => exact absurd (loopAct_op hst rfl) h
      | loop p => exact (hu _ List.mem_cons_self).elim
    | nil =>
      rw [List.nil_append] at hst
      refine absurd ?_ h
      rcases hp with rfl | rfl <;> simp only [Sys.step, hst]

end Verif.Sim
