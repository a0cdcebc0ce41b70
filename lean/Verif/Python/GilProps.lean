import Verif.Python.Gil
import Verif.Sim.ThreadsProps

/-! Property C146: several Python threads. -/
namespace Verif.Python.Gil
open Verif.Sim Verif.Sim.Threads

/-! ### Specification -/

/-- The histories of a simulation used by Python threads, whatever they call and whatever the hooks,
subscribers and entry points call; but, as in C25, hooks do not call `Abort` in the middle of a
transition. -/
inductive Hist (h0 : Bool) : Py → Prop
  | init : Hist h0 (.init h0)
  | step {p : Py} (h : Hist h0 p) (t : Nat) (d : Do)
      (ha : d = .act (.call .abort) → ∀ r e, Frame.op r e ∈ p.sys.stack t → transit r = false) :
      Hist h0 (p.step t d)

/-! ### Lemmas -/

/-- A thread that does not own the lock is not in C++ code. -/
theorem outside {h0 : Bool} {p : Py} (h : Hist h0 p) : ∀ u, p.gil ≠ some u → p.sys.stack u = [] := by
  induction h with
  | init => exact fun _ _ => rfl
  | @step p _ t d _ ih =>
    intro u hu
    cases d with
    | take =>
      simp only [Py.step] at hu ⊢
      split at hu
      · rename_i hn
        rw [if_pos hn]
        exact ih u (by rw [hn]; simp)
      · rename_i hn
        rw [if_neg hn]
        exact ih u hu
    | give =>
      simp only [Py.step] at hu ⊢
      by_cases hg : p.gil = some t ∧ p.sys.stack t = []
      · rw [if_pos hg]
        by_cases htu : u = t
        · rw [htu]; exact hg.2
        · exact ih u (by rw [hg.1]; intro he; exact htu (Option.some.inj he).symm)
      · rw [if_neg hg] at hu ⊢
        exact ih u hu
    | act a =>
      simp only [Py.step] at hu ⊢
      by_cases hg : p.gil = some t
      · rw [if_pos hg] at hu ⊢
        have hne : u ≠ t := by rintro rfl; exact hu hg
        show (p.sys.step t a).stack u = []
        rw [step_other _ _ _ hne]
        exact ih u hu
      · rw [if_neg hg] at hu ⊢
        exact ih u hu

/-- What a Python thread does is in order, in the sense of C143. -/
theorem permit {h0 : Bool} {p : Py} (h : Hist h0 p) {t : Nat} (hg : p.gil = some t) (a : Act)
    (ha : a = .call .abort → ∀ r e, Frame.op r e ∈ p.sys.stack t → transit r = false) :
    Permit p.sys .free t a .free := by
  have hout : ∀ u, u ≠ t → p.sys.stack u = [] := fun u hu =>
    outside h u (by rw [hg]; intro he; exact hu (Option.some.inj he).symm)
  cases a with
  | call o => exact .alone t o hout fun ho => ha (by rw [ho])
  | _ => exact .quiet _ _ _ (by intro o ho; cases ho)

theorem reach {h0 : Bool} {p : Py} (h : Hist h0 p) : Reach h0 .free p.sys := by
  induction h with
  | init => exact .init
  | @step p hp t d ha ih =>
    cases d with
    | take => simp only [Py.step]; split <;> exact ih
    | give => simp only [Py.step]; split <;> exact ih
    | act a =>
      simp only [Py.step]
      split
      · rename_i hg
        exact ih.step (permit hp hg a fun h => ha (by rw [h]))
      · exact ih

/-! ### What holds -/

/-- **C146**: whatever Python threads call at whatever times, when one of them does anything in the
simulator all the others are outside of it: the operations act one after the other. -/
theorem C146_serial {h0 : Bool} {p : Py} (h : Hist h0 p) (t : Nat) (a : Act)
    (hne : (p.step t (.act a)).sys ≠ p.sys) : ∀ u, u ≠ t → p.sys.stack u = [] := by
  intro u hu
  refine outside h u fun hg => ?_
  simp only [Py.step] at hne
  rw [if_neg (by rw [hg]; intro he; exact hu (Option.some.inj he))] at hne
  exact hne rfl

/-- **C146**: every change of the state of a simulation used by Python threads is a documented one,
contrary to C143 for threads of C++. -/
theorem C146_legal {h0 : Bool} {p : Py} (h : Hist h0 p) (t : Nat) (d : Do)
    (ha : d = .act (.call .abort) → ∀ r e, Frame.op r e ∈ p.sys.stack t → transit r = false)
    (hne : (p.step t d).sys.state ≠ p.sys.state) :
    legal p.sys.state (p.step t d).sys.state = true := by
  cases d with
  | take => simp only [Py.step] at hne; split at hne <;> exact absurd rfl hne
  | give => simp only [Py.step] at hne; split at hne <;> exact absurd rfl hne
  | act a =>
    simp only [Py.step] at hne ⊢
    by_cases hg : p.gil = some t
    · rw [if_pos hg] at hne ⊢
      exact C143_legal_partial (reach h) (permit h hg a fun h => ha (by rw [h])) hne
    · rw [if_neg hg] at hne
      exact absurd rfl hne

/-- **C146**: two Python threads never execute the simulation at the same time. -/
theorem C146_one {h0 : Bool} {p : Py} (h : Hist h0 p) {t u : Nat} (ht : InLoop (p.sys.stack t))
    (hu : InLoop (p.sys.stack u)) : t = u :=
  C143_one_partial (reach h) ht hu

/-! ### What does not -/

/-- Thread `t` executes the simulation and owns the lock; nothing asked it to hold. -/
structure Runs (t : Nat) (p : Py) : Prop where
  gil : p.gil = some t
  state : p.sys.state = .executing
  hold : p.sys.hold = false
  stack : ∃ q fs, p.sys.stack t = .loop q :: fs

/-- **C146 fails**: a simulation that is executed by a Python thread cannot be held, left or aborted
by another one. Whatever the other threads want to do, for however long, as long as the components
themselves do not call `Hold` or `Abort` and there are events left, the thread stays in `Run`, the
simulator in Executing, and no other thread gets to execute a single instruction of Python. -/
theorem C146_hold_fails (t : Nat) (l : List (Nat × Do)) :
    ∀ p : Py, Runs t p →
      (∀ x ∈ l, x.1 = t → x.2 ≠ .act (.call .hold) ∧ x.2 ≠ .act (.call .abort) ∧
        x.2 ≠ .act .finish) →
      Runs t (p.run l) ∧ ∀ u, u ≠ t → (p.run l).sys.stack u = p.sys.stack u := by
  induction l with
  | nil => exact fun p h _ => ⟨h, fun _ _ => rfl⟩
  | cons x l ih =>
    intro p h hx
    have step : Runs t (p.step x.1 x.2) ∧ ∀ u, u ≠ t →
        (p.step x.1 x.2).sys.stack u = p.sys.stack u := by
      obtain ⟨hg, hs, hh, q, fs, hq⟩ := h
      have hx' := hx x List.mem_cons_self
      obtain ⟨v, d⟩ := x
      by_cases hv : v = t
      · subst hv
        cases d with
        | take =>
          have e : p.step v .take = p := by simp [Py.step, hg]
          rw [e]; exact ⟨⟨hg, hs, hh, q, fs, hq⟩, fun _ _ => rfl⟩
        | give =>
          have e : p.step v .give = p := by simp [Py.step, hq]
          rw [e]; exact ⟨⟨hg, hs, hh, q, fs, hq⟩, fun _ _ => rfl⟩
        | act a =>
          have e : p.step v (.act a) = { p with sys := p.sys.step v a } := by simp [Py.step, hg]
          refine ⟨?_, fun u hu => by rw [e]; exact step_other _ _ _ hu⟩
          rw [e]
          have hx'' := hx' rfl
          cases a with
          | call o =>
            have hno : o.guard p.sys.state p.sys.last = false := by
              rw [hs]
              cases o with
              | hold => exact absurd rfl hx''.1
              | abort => exact absurd rfl hx''.2.1
              | _ => rfl
            have e2 : p.sys.step v (.call o) = p.sys := by simp [Sys.step, hno]
            rw [e2]; exact ⟨hg, hs, hh, q, fs, hq⟩
          | go =>
            have e2 : p.sys.step v .go = p.sys := by simp [Sys.step, hq]
            rw [e2]; exact ⟨hg, hs, hh, q, fs, hq⟩
          | tell =>
            have e2 : p.sys.step v .tell = p.sys := by simp [Sys.step, hq]
            rw [e2]; exact ⟨hg, hs, hh, q, fs, hq⟩
          | finish => exact absurd rfl hx''.2.2
          | exec id =>
            cases q <;> refine ⟨hg, ?_, ?_, ?_⟩ <;> simp [Sys.step, hq, hs, hh, stack_self]
          | skip =>
            cases q <;> refine ⟨hg, ?_, ?_, ?_⟩ <;> simp [Sys.step, hq, hs, hh, stack_self]
          | slot =>
            cases q <;> refine ⟨hg, ?_, ?_, ?_⟩ <;> simp [Sys.step, hq, hs, hh, stack_self]
          | ret b =>
            cases q <;> refine ⟨hg, ?_, ?_, ?_⟩ <;> simp [Sys.step, hq, hs, hh, stack_self]
      · have e : p.step v d = p := by
          have hne : p.gil ≠ some v := by
            rw [hg]; intro he; exact hv (Option.some.inj he).symm
          cases d <;> simp [Py.step, hg, hne]
          · exact fun he => absurd he.symm hv
          · exact fun he => absurd he.symm hv
        rw [e]
        exact ⟨⟨hg, hs, hh, q, fs, hq⟩, fun _ _ => rfl⟩
    obtain ⟨k1, k2⟩ := ih (p.step x.1 x.2) step.1 fun y hy => hx y (List.mem_cons_of_mem _ hy)
    have hrun : p.run (x :: l) = (p.step x.1 x.2).run l := rfl
    rw [hrun]
    exact ⟨k1, fun u hu => (k2 u hu).trans (step.2 u hu)⟩

/-! ### Cases -/

/-- Thread 0 calls `Run` from Python. -/
def runs : List (Nat × Do) :=
  [(0, .take), (0, .act (.call .run)), (0, .act .go), (0, .act .go), (0, .act .go), (0, .act .go),
    (0, .act .tell)]

theorem hist_run {h0 : Bool} (l : List (Nat × Do)) : ∀ p, Hist h0 p →
    (∀ x ∈ l, x.2 ≠ .act (.call .abort)) → Hist h0 (p.run l) := by
  induction l with
  | nil => exact fun p h _ => h
  | cons x l ih =>
    intro p h hx
    exact ih _ (h.step x.1 x.2 fun he => absurd he (hx x List.mem_cons_self))
      fun y hy => hx y (List.mem_cons_of_mem _ hy)

/-- `C146_hold_fails`: thread 1 wants the lock and to hold all the time. -/
example : Hist true ((Py.init true).run runs) ∧ Runs 0 ((Py.init true).run runs) ∧
    Runs 0 (((Py.init true).run runs).run [(1, .take), (1, .act (.call .hold)), (0, .act (.exec 3)),
      (1, .take), (0, .give), (1, .act (.call .abort)), (0, .act (.ret false))]) := by
  refine ⟨hist_run _ _ .init (by decide), ⟨rfl, by decide, by decide, _, _, rfl⟩,
    ⟨rfl, by decide, by decide, _, _, rfl⟩⟩

/-- `C146_serial`, `C146_legal` and `C146_one`: two threads want to start operations at the same
time; the second one finds the state Exiting and is refused, other than in `C143_exit_fails`. -/
example : ∃ p, Hist true p ∧ p.sys.state = .exiting ∧ p.sys.stack 0 = [] ∧ p.sys.stack 1 = [] ∧
    (p.step 1 (.act (.call .run))).sys.stack 1 = [] ∧
    p = (Py.init true).run ([(0, .take), (1, .take), (0, .act (.call .exit)),
      (1, .act (.call .run)), (0, .give)] ++ List.replicate 6 (0, .act .go) ++
      [(0, .give), (1, .take)]) ∧ p.gil = some 1 := by
  refine ⟨_, hist_run _ _ .init (by decide), ?_, ?_, ?_, ?_, rfl, ?_⟩ <;> decide +kernel

end Verif.Python.Gil
