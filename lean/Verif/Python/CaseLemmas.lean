import Verif.Python.CaseSpec
import Verif.Sim.MatchedProps

/-! Lemmas on tests of simulators in Python. -/
namespace Verif.Python.Case
open Verif.Sim.Matched
open Verif.Tree (LState)

theorem soft_follows {x : Nat × SvcOp} (h : x.2 = .log ∨ x.2 = .removeEvent) :
    x.2.follows = false := by
  rcases h with h | h <;> rw [h] <;> rfl

theorem Calm.mild {e : Env} (h : Calm e) : ∀ c, Mild (e c) :=
  fun c => ⟨(h c).1, fun x hx => soft_follows ((h c).2 x hx)⟩

/-! ### Nothing crashes -/

theorem walk_nocrash {f : Nat → LState → W → LState × W}
    (hf : ∀ c st w, w.res ≠ .crash → (f c st w).2.res ≠ .crash) (F : Forest) :
    ∀ w, w.res ≠ .crash → (walk f F w).2.res ≠ .crash := by
  induction F with
  | nil => intro w h; exact h
  | cons c st kids rest ihk ihr =>
    intro w h
    unfold walk
    split
    · exact h
    · exact ihr _ (ihk _ (hf c st w h))

theorem visitExit_nocrash (e : Env)
    (he : ∀ c, ∀ x ∈ (e c).calls, x.2 = .log ∨ x.2 = .removeEvent) (c : Nat) (st : LState) (w : W)
    (h : w.res ≠ .crash) : (visitExit e c st w).2.res ≠ .crash := by
  unfold visitExit
  split
  · unfold leave
    have := calls_mild c (e c).calls { w with tr := w.tr ++ [.leaving c] }
      (fun x hx hh => by rw [soft_follows (he c x hx)] at hh; cases hh)
    dsimp only at *
    rw [this]
    rw [if_neg h]
    split
    · simp
    · exact h
  · exact h

theorem exit_nocrash (s : St) (e : Env)
    (he : ∀ c, ∀ x ∈ (e c).calls, x.2 = .log ∨ x.2 = .removeEvent) : (s.exit e).2 ≠ .crash := by
  unfold St.exit
  split
  · simp
  · exact walk_nocrash (visitExit_nocrash e he) _ _
      (walk_nocrash (visitExit_nocrash e he) _ _ (by simp))

theorem exit_phase (s : St) (e : Env) (h : (s.exit e).2 ≠ .crash) :
    (s.exit e).1.phase = if s.phase = .standby then .exiting else s.phase := by
  unfold St.exit at h ⊢
  by_cases hp : s.phase = .standby
  · rw [if_neg (fun hh => hh hp)] at h ⊢
    dsimp only at h ⊢
    rw [if_neg h, if_pos hp]
    rfl
  · rw [if_pos hp, if_neg hp]

/-- A simulator that Python code can use: not destroyed and not crashed. -/
def Usable (s : St) : Prop := s.phase ≠ .destroyed ∧ s.phase ≠ .crashed

theorem delete_phase (s : St) (e : Env) (c : Nat)
    (he : ∀ c, ∀ x ∈ (e c).calls, x.2 = .log ∨ x.2 = .removeEvent) :
    (s.delete e c).phase = s.phase := by
  rcases delete_cases s e c with ⟨h1, -⟩ | ⟨st, kids, svcs, models, pre, post, h1, h2, h3, h4⟩
  · rw [h1]
  · have := visitExit_nocrash e he c st ⟨s.off, s.tr, .ok⟩ (by simp)
    rw [h4]
    generalize visitExit e c st ⟨s.off, s.tr, .ok⟩ = v at this ⊢
    obtain ⟨a, w⟩ := v
    dsimp only at this ⊢
    cases hw : w.res <;> simp_all

theorem step_usable {s : St} (h : Usable s) {op : Op} (h1 : Op.ofPython op = true) (h2 : Soft op) :
    Usable (step s op) := by
  cases op with
  | addService c => simp only [step]; split <;> exact h
  | addModel c => simp only [step]; split <;> exact h
  | addIn p c => simp only [step]; split <;> exact h
  | publish e => simp only [step]; split <;> exact h
  | configure e => simp only [step]; split <;> exact h
  | connect e r =>
    simp only [step, St.connect]
    split
    · exact h
    · split
      · cases r <;> exact ⟨by simp, by simp⟩
      · rename_i t r' _ heq
        have : t.phase = .connecting := by
          have := congrArg (fun p => p.1.phase) heq
          exact this.symm
        exact ⟨by rw [this]; simp, by rw [this]; simp⟩
  | initialise r => simp only [step]; split; exact h; cases r <;> exact ⟨by simp, by simp⟩
  | run => simp only [step]; split; exact h; exact ⟨by simp, by simp⟩
  | hold => simp only [step]; split; exact h; exact ⟨by simp, by simp⟩
  | store r => simp only [step]; split; exact h; cases r <;> exact ⟨by simp, by simp⟩
  | restore r => simp only [step]; split; exact h; cases r <;> exact ⟨by simp, by simp⟩
  | reconnect e r =>
    simp only [step]; split
    · exact h
    · unfold Usable; dsimp only; split <;> simp
  | exit e =>
    simp only [step]
    unfold Usable
    rw [exit_phase s e (exit_nocrash s e h2)]
    split
    · simp
    · exact h
  | abort => simp only [step]; split; exact h; exact ⟨by simp, by simp⟩
  | delete e c =>
    simp only [step]
    rw [if_neg (fun hh => hh.elim h.1 h.2)]
    unfold Usable
    rw [delete_phase s e c h2]
    exact h
  | destroy e => cases h1

theorem use_usable (ops : List Op) : ∀ {s : St}, Usable s → (∀ o ∈ ops, Soft o) →
    Usable (use s ops) := by
  induction ops with
  | nil => intro s h _; exact h
  | cons o l ih =>
    intro s h ho
    unfold use
    rw [List.filter_cons]
    split
    · rename_i hp
      exact ih (step_usable h hp (ho o List.mem_cons_self))
        (fun o' h' => ho o' (List.mem_cons_of_mem _ h'))
    · exact ih h (fun o' h' => ho o' (List.mem_cons_of_mem _ h'))

theorem load_usable (l : List (List Op × Out)) : ∀ {s : St}, Usable s →
    (∀ p ∈ l, p.2 ≠ .base ∧ ∀ o ∈ p.1, Soft o) →
    Usable (load l s).1 ∧ (load l s).2 ≠ .base := by
  induction l with
  | nil => intro s h _; exact ⟨h, by simp [load]⟩
  | cons p l ih =>
    obtain ⟨ops, o⟩ := p
    intro s h hp
    have h1 := hp (ops, o) List.mem_cons_self
    unfold load
    split
    · exact ih (use_usable ops h h1.2) (fun q hq => hp q (List.mem_cons_of_mem _ hq))
    · exact ⟨use_usable ops h h1.2, h1.1⟩

theorem connect_usable (c : Case) {s : St} (h : Usable s) :
    Usable (connect c s).1 ∧ (connect c s).2 ≠ .base := by
  refine ⟨step_usable h rfl trivial, ?_⟩
  unfold connect
  dsimp only
  split <;> simp

/-! ### What is made of a new simulator -/

/-- The simulator comes from a new one. -/
def Made (s : St) : Prop := ∃ ops, s = run St.init ops

theorem made_init : Made St.init := ⟨[], rfl⟩

theorem Made.step {s : St} (h : Made s) (op : Op) : Made (step s op) := by
  obtain ⟨ops, rfl⟩ := h
  exact ⟨ops ++ [op], by simp [run]⟩

theorem Made.run {s : St} (h : Made s) (ops : List Op) : Made (run s ops) := by
  obtain ⟨l, rfl⟩ := h
  exact ⟨l ++ ops, by simp [Sim.Matched.run]⟩

theorem Made.use {s : St} (h : Made s) (ops : List Op) : Made (use s ops) := h.run _

theorem Made.load (l : List (List Op × Out)) : ∀ {s : St}, Made s → Made (load l s).1 := by
  induction l with
  | nil => intro s h; exact h
  | cons p l ih =>
    obtain ⟨ops, o⟩ := p
    intro s h
    unfold Case.load
    split
    · exact ih (h.use ops)
    · exact h.use ops

theorem Made.connect {s : St} (h : Made s) (c : Case) : Made (connect c s).1 :=
  h.step (.connect c.conEnv c.conInit)

theorem Made.exit {s : St} (h : Made s) (e : Env) : Made (s.exit e).1 := h.step (.exit e)

/-- The destructor with hooks that are calm. -/
theorem destroy_clear {s : St} (h : Usable s) {e : Env} (he : Calm e) :
    (step s (.destroy e)).phase = .destroyed ∧ (step s (.destroy e)).comps = [] := by
  simp only [Sim.Matched.step, St.destroy]
  rw [if_neg (fun hh => hh.elim h.1 h.2)]
  generalize (if s.phase = .executing then { s with phase := .standby } else s) = t
  have hok : (t.exit e).2 = .ok := by
    unfold St.exit
    split
    · rfl
    · exact (all_all (Q := (· ≠ .connected)) (exit_ok e he.mild) _).1
  generalize t.exit e = v at hok ⊢
  obtain ⟨u, r⟩ := v
  dsimp only at hok
  subst hok
  exact ⟨rfl, rfl⟩

/-- What was added and is not there any more was destroyed. -/
theorem destroyed_of {s : St} (hm : Made s) (hc : s.comps = []) :
    ∀ c ∈ s.seen, .destroy c ∈ s.tr := by
  obtain ⟨ops, rfl⟩ := hm
  intro c hcs
  have h := (run_inv ops (init_inv Ended)).gone c hcs (by rw [hc]; simp)
  have : Obs.destroy c ∈ life c (run St.init ops).tr := by
    unfold Ended at h
    rcases h with h | h | h <;> rw [h] <;> simp
  exact (List.mem_filter.1 this).1

/-! ### Tidy programs -/

theorem Neat.careful {op : Op} (h : Neat op) (hp : Op.ofPython op = true) (s : St) :
    Careful s op := by
  cases op <;> first | exact h | exact h.elim | trivial | exact Calm.mild h | cases hp

theorem Reach.use (ops : List Op) : ∀ {s : St}, Reach s → (∀ o ∈ ops, Neat o) →
    Reach (use s ops) := by
  induction ops with
  | nil => intro s h _; exact h
  | cons o l ih =>
    intro s h ho
    unfold Case.use
    rw [List.filter_cons]
    split
    · rename_i hp
      exact ih (Reach.step h ((ho o List.mem_cons_self).careful hp s))
        (fun o' h' => ho o' (List.mem_cons_of_mem _ h'))
    · exact ih h (fun o' h' => ho o' (List.mem_cons_of_mem _ h'))

theorem Reach.load (l : List (List Op × Out)) : ∀ {s : St}, Reach s →
    (∀ p ∈ l, ∀ o ∈ p.1, Neat o) → Reach (load l s).1 := by
  induction l with
  | nil => intro s h _; exact h
  | cons p l ih =>
    obtain ⟨ops, o⟩ := p
    intro s h hp
    have h1 := hp (ops, o) List.mem_cons_self
    unfold Case.load
    split
    · exact ih (Reach.use ops h h1) (fun q hq => hp q (List.mem_cons_of_mem _ hq))
    · exact Reach.use ops h h1

/-! ### `setUp` -/

/-- `setUp` when a simulator was made. -/
theorem setUp_made (c : Case) (h : c.create = .ok) :
    ∃ s attr o, setUp c = (some (s, attr), o) ∧ Made s ∧ (attr = decide (o ≠ .exc)) ∧
      (∀ (P : St → Prop), P (load c.loads St.init).1 → P (connect c (load c.loads St.init).1).1 → P s) ∧
      (o = .ok ↔ (load c.loads St.init).2 = .ok ∧
        (connect c (load c.loads St.init).1).2 = .ok ∧ c.hints = .ok) ∧
      (o = .ok → s = (connect c (load c.loads St.init).1).1) ∧
      (o = .base → (load c.loads St.init).2 = .base ∨
        (connect c (load c.loads St.init).1).2 = .base ∨ c.hints = .base) := by
  have hl := Made.load c.loads made_init
  have hc := hl.connect c
  unfold setUp
  rw [if_neg (fun hh => hh h)]
  generalize load c.loads St.init = v at hl hc ⊢
  obtain ⟨s, o⟩ := v
  dsimp only at hl hc ⊢
  cases o with
  | ok =>
    rw [if_pos rfl]
    generalize connect c s = u at hc ⊢
    obtain ⟨t, o⟩ := u
    dsimp only at hc ⊢
    refine ⟨t, _, _, rfl, hc, rfl, fun P _ h => h, ?_, fun _ => rfl, ?_⟩
    · cases o <;> simp
    · cases o <;> simp
  | exc =>
    refine ⟨s, _, _, rfl, hl, rfl, fun P h _ => h, ?_, ?_, ?_⟩ <;> simp
  | base =>
    refine ⟨s, _, _, rfl, hl, rfl, fun P h _ => h, ?_, ?_, ?_⟩ <;> simp

end Verif.Python.Case
