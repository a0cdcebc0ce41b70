import Verif.Sim.Loop

/-! Lemmas about the simulator and the run loop together. -/
namespace Verif.Sim

/-- A run loop is on the stack. -/
def isLoop : Frame → Bool
  | .loop _ => true
  | _ => false

/-- How many run loops are on a stack. -/
def loops (fs : List Frame) : Nat := fs.countP isLoop

/-- A run loop that has passed its last test before the next entry point: it is neither in an entry
point, nor telling the subscribers of PreSimTimeChange, nor waiting. -/
def isPast : Frame → Bool
  | .loop .ready => true
  | .loop .calc => true
  | .loop .post => true
  | _ => false

/-- An observation is the call of an entry point by the thread. -/
def Obs.isCall (t : Nat) : Obs → Bool
  | .called u _ _ => u = t
  | _ => false

/-- How many entry points the thread has called. -/
def calls (t : Nat) (l : List Obs) : Nat := l.countP (Obs.isCall t)

/-- An observation is the start of a run loop. -/
def Obs.isStart : Obs → Bool
  | .started _ => true
  | _ => false

/-! ## After the hold -/

/-- How many entry points a frame may still call while hold is set. -/
def pot1 : Frame → Nat
  | .loop .ready => 1
  | .loop .calc => 1
  | .loop .post => 1
  | _ => 0

/-- … and a stack. -/
def pot : List Frame → Nat
  | [] => 0
  | f :: fs => pot1 f + pot fs

theorem pot_eq (fs : List Frame) : pot fs = fs.countP isPast := by
  induction fs with
  | nil => rfl
  | cons f fs ih =>
    rw [List.countP_cons, pot, ih, Nat.add_comm]
    rcases f with _ | p
    · rfl
    · cases p <;> rfl

theorem pot_pushOp (r p fs) : pot (pushOp r p fs) = pot fs := by
  unfold pushOp; split
  · rfl
  · simp [pot, pot1]

theorem setStack_self (s : Sys) (t l) : s.setStack t l t = l := by simp [Sys.setStack]

theorem setStack_ne (s : Sys) {t u} (l) (h : u ≠ t) : s.setStack t l u = s.stack u := by
  simp [Sys.setStack, h]

theorem micro_shape (s : Sys) (t m r p fs) :
    s.micro t m r p fs = s ∨ ((s.micro t m r p fs).hold = s.hold ∧
      (s.micro t m r p fs).log = s.log ∧ ∃ l, (s.micro t m r p fs).stack = s.setStack t l ∧
        (l = pushOp r none fs ∨ ∃ q, l = .op r q :: fs)) := by
  cases m
  case endEmit =>
    simp only [Sys.micro]
    split
    · exact .inr ⟨rfl, rfl, _, rfl, .inl rfl⟩
    · exact .inl rfl
  case emit e => exact .inr ⟨rfl, rfl, _, rfl, .inr ⟨_, rfl⟩⟩
  all_goals exact .inr ⟨rfl, rfl, _, rfl, .inl rfl⟩

/-- What one step does to the observations, the hold flag and the stacks. -/
theorem step_pot (s : Sys) (u : Nat) (a : Act) (hh : s.hold = true) :
    (∃ o, o.isStart = true ∧ (s.step u a).log = s.log ++ [o]) ∨
    ((s.step u a).hold = true ∧ ∃ mid, (s.step u a).log = s.log ++ mid ∧
      ∀ t, calls t mid + pot ((s.step u a).stack t) ≤ pot (s.stack t)) := by
  have key : ∀ (s' : Sys) (fs : List Frame) (mid : List Obs),
      s'.hold = true → s'.log = s.log ++ mid → s'.stack = s.setStack u fs →
      (∀ t, t ≠ u → calls t mid = 0) → calls u mid + pot fs ≤ pot (s.stack u) →
      s'.hold = true ∧ ∃ mid, s'.log = s.log ++ mid ∧
        ∀ t, calls t mid + pot (s'.stack t) ≤ pot (s.stack t) := by
    intro s' fs mid h1 h2 h3 h4 h5
    refine ⟨h1, mid, h2, fun t => ?_⟩
    by_cases ht : t = u
    · subst ht; rw [h3, setStack_self]; exact h5
    · rw [h3, setStack_ne s fs ht, h4 t ht]; omega
  have stay : s.hold = true ∧ ∃ mid, s.log = s.log ++ mid ∧
        ∀ t, calls t mid + pot (s.stack t) ≤ pot (s.stack t) :=
    ⟨hh, [], by simp, fun t => by simp [calls]⟩
  cases a with
  | call o =>
    right
    show (if _ then _ else _ : Sys).hold = true ∧ _
    simp only [Sys.step]
    split
    · exact key _ _ [] hh (by simp) rfl (fun _ _ => rfl) (by simp [calls, pot, pot1])
    · exact stay
  | go =>
    right
    simp only [Sys.step]
    split
    · rename_i m r p fs hst
      rcases micro_shape s u m r p fs with h | ⟨h1, h2, l, h3, h4⟩
      · rw [h]; exact stay
      · refine key _ l [] (by rw [h1, hh]) (by simp [h2]) h3 (fun _ _ => rfl) ?_
        rcases h4 with h4 | ⟨q, h4⟩ <;> simp [calls, h4, pot_pushOp, hst, pot, pot1]
    · exact stay
  | tell =>
    simp only [Sys.step]
    split
    · exact .inl ⟨_, rfl, rfl⟩
    · rename_i r fs hst
      exact .inr (key _ _ [.held u] rfl rfl rfl (fun _ _ => by simp [calls, Obs.isCall])
        (by simp [calls, Obs.isCall, pot, pot1, hst]))
    · exact .inr stay
  | exec id =>
    right
    simp only [Sys.step]
    split
    · rename_i fs hst
      exact key _ _ [.called u id s.state] hh rfl rfl
        (fun t ht => by simp [calls, Obs.isCall]; omega)
        (by simp [calls, Obs.isCall, pot, pot1, hst])
    · exact stay
  | skip =>
    right
    simp only [Sys.step]
    split
    · rename_i fs hst
      exact key _ _ [] hh (by simp) rfl (fun _ _ => rfl) (by simp [calls, pot, pot1, hst, hh])
    · exact stay
  | slot =>
    right
    simp only [Sys.step]
    split
    · rename_i fs hst
      exact key _ _ [] hh (by simp) rfl (fun _ _ => rfl) (by simp [calls, pot, pot1, hst])
    · exact stay
  | finish =>
    right
    simp only [Sys.step]
    split
    · rename_i fs hst
      exact key _ _ [] hh (by simp) rfl (fun _ _ => rfl) (by simp [calls, pot, pot1, hst])
    · exact stay
  | ret d =>
    right
    simp only [Sys.step]
    split <;> first
      | (rename_i fs hst
         exact key _ _ [] hh (by simp) rfl (fun _ _ => rfl)
          (by simp [calls, pot, pot1, hst, hh] <;> (try split) <;> simp [pot, pot1]))
      | exact stay

theorem log_step (s : Sys) (u : Nat) (a : Act) : ∃ mid, (s.step u a).log = s.log ++ mid := by
  have base : ∃ mid, s.log = s.log ++ mid := ⟨[], by simp⟩
  cases a <;> simp only [Sys.step]
  case go =>
    split
    · rename_i m r p fs hst
      cases m <;> simp only [Sys.micro] <;> first | exact base | (split <;> exact base)
    · exact base
  all_goals split <;> first | exact base | exact ⟨_, rfl⟩

theorem log_run (l : List (Nat × Act)) (s : Sys) : ∃ mid, (s.run l).log = s.log ++ mid := by
  induction l generalizing s with
  | nil => exact ⟨[], by simp [Sys.run]⟩
  | cons i l ih =>
    obtain ⟨m, hm⟩ := log_step s i.1 i.2
    obtain ⟨m', hm'⟩ := ih (s.step i.1 i.2)
    exact ⟨m ++ m', by simpa [Sys.run, hm] using hm'⟩

theorem run_pot (l : List (Nat × Act)) (s : Sys) (hh : s.hold = true) (mid : List Obs)
    (hm : (s.run l).log = s.log ++ mid) (hn : ∀ o ∈ mid, o.isStart = false) (t : Nat) :
    calls t mid ≤ pot (s.stack t) := by
  induction l generalizing s mid with
  | nil =>
    have : mid = [] := by simpa [Sys.run] using hm
    simp [this, calls]
  | cons i l ih =>
    obtain ⟨m', hm'⟩ := log_run l (s.step i.1 i.2)
    have hrun : s.run (i :: l) = (s.step i.1 i.2).run l := rfl
    rw [hrun] at hm
    rcases step_pot s i.1 i.2 hh with ⟨o, ho, hl⟩ | ⟨h1, m, hl, hp⟩
    · have : mid = [o] ++ m' := by
        rw [hm', hl, List.append_assoc] at hm
        exact (List.append_cancel_left hm).symm
      have := hn o (by simp [this])
      simp [ho] at this
    · have hmid : mid = m ++ m' := by
        rw [hm', hl, List.append_assoc] at hm
        exact (List.append_cancel_left hm).symm
      have := ih (s.step i.1 i.2) h1 m' hm' (fun o h => hn o (by simp [hmid, h]))
      have h2 := hp t
      rw [hmid, calls, List.countP_append]
      unfold calls at this h2
      omega

/-- The hold flag is what was done to it last. -/
def flagOf (h : Bool) (l : List Obs) : Bool :=
  l.foldl (fun h o => match o with | .started _ => false | .held _ => true | _ => h) h

theorem flagOf_append (h l m) : flagOf h (l ++ m) = flagOf (flagOf h l) m := by
  simp [flagOf]

theorem step_flag (s : Sys) (u : Nat) (a : Act) (h : Bool) (hs : s.hold = flagOf h s.log) :
    (s.step u a).hold = flagOf h (s.step u a).log := by
  cases a <;> simp only [Sys.step]
  case go =>
    split
    · rename_i m r p fs hst
      cases m <;> simp only [Sys.micro] <;> first | exact hs | (split <;> exact hs)
    · exact hs
  case tell =>
    split
    · simp [flagOf]
    · simp [flagOf]
    · exact hs
  case exec =>
    split
    · rw [flagOf_append]; simpa [flagOf] using hs
    · exact hs
  all_goals split <;> exact hs

theorem run_flag (l : List (Nat × Act)) (s : Sys) (h : Bool) (hs : s.hold = flagOf h s.log) :
    (s.run l).hold = flagOf h (s.run l).log := by
  induction l generalizing s with
  | nil => exact hs
  | cons i l ih => exact ih _ (step_flag s i.1 i.2 h hs)

end Verif.Sim
