import Verif.Sim.ThreadsSpec

/-! Lemmas for C143. -/
namespace Verif.Sim.Threads

/-- The operations of a stack. -/
def ops : List Frame → List (List M)
  | [] => []
  | .op r _ :: fs => r :: ops fs
  | .loop _ :: fs => ops fs

/-- No operation ends in the middle of an emission. -/
def Closed : List M → Prop
  | [] => True
  | m :: r => ((∃ e, m = .emit e) → r ≠ []) ∧ Closed r

/-- A run loop is above the emission of EnterExecuting. -/
def WF : List Frame → Prop
  | [] => True
  | .op r _ :: fs => Closed r ∧ WF fs
  | .loop _ :: fs => (∃ r p gs, fs = .op (.endEmit :: r) p :: gs) ∧ WF fs

/-- What one thread sees. -/
def proj (s : Sys) (t : Nat) : S := ⟨s.state, s.last, [], ops (s.stack t), []⟩

theorem inv_congr {b : Bool} {s s' : S} (h : Inv b s) (h1 : s'.state = s.state)
    (h2 : s'.last = s.last) (h3 : s'.stack = s.stack) : Inv b s' :=
  ⟨by rw [h1, h2, h3]; exact h.stack, by rw [h3]; exact h.pure, by rw [h3]; exact h.nonempty⟩

theorem ops_push (r : List M) (fs : List Frame) : ops (pushOp r none fs) = push r (ops fs) := by
  unfold pushOp push
  split <;> rfl

theorem WF_push {fs : List Frame} (h : WF fs) {r : List M} (hr : Closed r) (p) :
    WF (pushOp r p fs) := by
  unfold pushOp
  split
  · exact h
  · exact ⟨hr, h⟩

theorem prog_closed (o : Op) : Closed o.prog := by
  cases o <;> simp [Op.prog, Closed]

theorem mem_ops {r : List M} {fs : List Frame} (h : r ∈ ops fs) : ∃ p, Frame.op r p ∈ fs := by
  induction fs with
  | nil => cases h
  | cons f fs ih =>
    cases f with
    | op r' p' =>
      rcases List.mem_cons.1 h with h | h
      · exact ⟨p', by rw [h]; simp⟩
      · obtain ⟨p, hp⟩ := ih h; exact ⟨p, List.mem_cons_of_mem _ hp⟩
    | loop p => obtain ⟨p, hp⟩ := ih h; exact ⟨p, List.mem_cons_of_mem _ hp⟩

/-- User code on the thread is user code of its operations. -/
theorem user_proj {s : Sys} {t : Nat} (hw : WF (s.stack t)) (hu : userFrame (s.stack t) = true) :
    (proj s t).user = true := by
  unfold S.user proj
  dsimp only
  generalize s.stack t = fs at hw hu
  cases fs with
  | nil => rfl
  | cons f fs =>
    cases f with
    | op r p =>
      cases r with
      | nil => simp [userFrame] at hu
      | cons m r => cases m <;> simp [userFrame] at hu <;> rfl
    | loop p =>
      obtain ⟨⟨r, q, gs, rfl⟩, -⟩ := hw
      rfl

theorem stack_self (s : Sys) (t : Nat) (l : List Frame) : s.setStack t l t = l := by
  simp [Sys.setStack]

theorem stack_other (s : Sys) (t : Nat) (l : List Frame) {u : Nat} (h : u ≠ t) :
    s.setStack t l u = s.stack u := by
  simp [Sys.setStack, h]

/-- A step of a thread leaves the stacks of the others as they are. -/
theorem step_other (s : Sys) (t : Nat) (a : Act) {u : Nat} (h : u ≠ t) :
    (s.step t a).stack u = s.stack u := by
  unfold Sys.step Sys.micro
  repeat' split
  all_goals first | rfl | exact stack_other s t _ h

/-- An instruction of an operation. -/
theorem micro_ok {s : Sys} {t : Nat} {m : M} {r : List M} {p : Option Ev} {fs : List Frame}
    (hs : s.stack t = .op (m :: r) p :: fs) (hw : WF (s.stack t)) (h : Inv false (proj s t)) :
    WF ((s.micro t m r p fs).stack t) ∧ Inv false (proj (s.micro t m r p fs) t) ∧
    ((s.micro t m r p fs).state ≠ s.state → legal s.state (s.micro t m r p fs).state = true) := by
  have hcl : Closed (m :: r) := by rw [hs] at hw; exact hw.1
  have hwf : WF fs := by rw [hs] at hw; exact hw.2
  have hgo := h.go
  have hst : (proj s t).stack = (m :: r) :: ops fs := by
    show ops (s.stack t) = _
    rw [hs]; rfl
  have hin : (proj s t).init = [] := rfl
  unfold S.micro at hgo
  rw [hst] at hgo
  have hid : (m = .endEmit ∧ p ≠ none) ∨ ¬ (m = .endEmit ∧ p ≠ none) := Classical.em _
  rcases hid with ⟨rfl, hp⟩ | hid
  · have : s.micro t .endEmit r p fs = s := by
      unfold Sys.micro; exact if_neg hp
    rw [this]
    exact ⟨hw, h, fun hne => absurd rfl hne⟩
  · cases m with
    | endEmit =>
      have hp : p = none := Classical.byContradiction fun hp => hid ⟨rfl, hp⟩
      have : s.micro t .endEmit r p fs
          = { s with last := none, stack := s.setStack t (pushOp r none fs) } := by
        unfold Sys.micro; exact if_pos hp
      rw [this]
      refine ⟨by dsimp only; rw [stack_self]; exact WF_push hwf hcl.2 _, ?_, fun hne => absurd rfl hne⟩
      refine inv_congr hgo.1 rfl rfl ?_
      show ops _ = _
      dsimp only
      rw [stack_self, ops_push]
    | set st =>
      refine ⟨by simp only [Sys.micro]; rw [stack_self]; exact WF_push hwf hcl.2 _, ?_, ?_⟩
      · refine inv_congr hgo.1 rfl rfl ?_
        show ops _ = _
        simp only [Sys.micro]
        rw [stack_self, ops_push]
      · intro hne
        rcases hgo.2 hne with h | h
        · exact h
        · exact absurd h.1 (by simp)
    | emit e =>
      refine ⟨by simp only [Sys.micro]; rw [stack_self]; exact ⟨hcl.2, hwf⟩, ?_, fun hne => absurd rfl hne⟩
      have hr : r ≠ [] := hcl.1 ⟨e, rfl⟩
      refine inv_congr hgo.1 rfl rfl ?_
      show ops _ = _
      simp only [Sys.micro]
      rw [stack_self]
      simp [ops, push, hr]
    | _ =>
      refine ⟨by simp only [Sys.micro]; rw [stack_self]; exact WF_push hwf hcl.2 _, ?_,
        fun hne => absurd rfl hne⟩
      refine inv_congr hgo.1 rfl rfl ?_
      show ops _ = _
      simp only [Sys.micro]
      first | (rw [stack_self, ops_push]; done) | (rw [stack_self, ops_push]; rfl)

/-- Any step of a thread, short of a call. -/
theorem act_ok {s : Sys} {t : Nat} {a : Act} (ha : ∀ o, a = .call o → ¬ Accepted s t o)
    (hw : WF (s.stack t)) (h : Inv false (proj s t)) :
    WF ((s.step t a).stack t) ∧ Inv false (proj (s.step t a) t) ∧
    ((s.step t a).state ≠ s.state → legal s.state (s.step t a).state = true) := by
  have keep : WF (s.stack t) ∧ Inv false (proj s t) ∧ (s.state ≠ s.state → legal s.state s.state = true) :=
    ⟨hw, h, fun hne => absurd rfl hne⟩
  have move : ∀ (l : List Frame) (hold : Bool) (log : List Obs), WF l → ops l = ops (s.stack t) →
      let s' : Sys := { s with hold := hold, stack := s.setStack t l, log := log }
      WF (s'.stack t) ∧ Inv false (proj s' t) ∧ (s'.state ≠ s.state → legal s.state s'.state = true) := by
    intro l hold log hl ho
    refine ⟨by dsimp only; rw [stack_self]; exact hl, ?_, fun hne => absurd rfl hne⟩
    refine inv_congr h rfl rfl ?_
    show ops (s.setStack t l t) = ops (s.stack t)
    rw [stack_self, ho]
  cases a with
  | call o =>
    have : s.step t (.call o) = s := by
      have := ha o rfl
      unfold Sys.step
      dsimp only
      rw [if_neg]
      intro hc
      rw [Bool.and_eq_true] at hc
      exact this hc
    rw [this]; exact keep
  | go =>
    simp only [Sys.step]
    split
    · rename_i m r p fs hs; exact micro_ok hs hw h
    · exact keep
  | tell =>
    simp only [Sys.step]
    split
    · rename_i r fs hs
      rw [hs] at hw
      exact move _ _ _ ⟨⟨_, _, _, rfl⟩, hw⟩ (by rw [hs]; rfl)
    · rename_i r fs hs
      rw [hs] at hw
      exact move _ _ _ hw (by rw [hs]; rfl)
    · exact keep
  | exec id =>
    simp only [Sys.step]
    split
    · rename_i fs hs
      rw [hs] at hw
      exact move _ _ _ hw (by rw [hs]; rfl)
    · exact keep
  | skip =>
    simp only [Sys.step]
    split
    · rename_i fs hs
      rw [hs] at hw
      split
      · exact move _ _ _ hw.2 (by rw [hs]; rfl)
      · exact move _ _ _ hw (by rw [hs])
    · exact keep
  | slot =>
    simp only [Sys.step]
    split
    · rename_i fs hs
      rw [hs] at hw
      exact move _ _ _ hw (by rw [hs]; rfl)
    · exact keep
  | finish =>
    simp only [Sys.step]
    split
    · rename_i fs hs
      rw [hs] at hw
      exact move _ _ _ hw.2 (by rw [hs]; rfl)
    · exact keep
  | ret d =>
    simp only [Sys.step]
    split
    all_goals first
      | exact keep
      | (rename_i fs hs
         rw [hs] at hw
         first
           | exact move _ _ _ hw (by rw [hs]; rfl)
           | (split
              · exact move _ _ _ hw.2 (by rw [hs]; rfl)
              · exact move _ _ _ hw (by rw [hs]; rfl)))

/-- A call. -/
theorem call_ok {s : Sys} {t : Nat} {o : Op} (hc : Accepted s t o)
    (ha : o = .abort → ∀ r p, Frame.op r p ∈ s.stack t → transit r = false)
    (hw : WF (s.stack t)) (h : Inv false (proj s t)) :
    WF ((s.step t (.call o)).stack t) ∧ Inv false (proj (s.step t (.call o)) t) ∧
    (s.step t (.call o)).state = s.state := by
  have hs : s.step t (.call o) = { s with stack := s.setStack t (.op o.prog none :: s.stack t) } := by
    unfold Sys.step
    dsimp only
    rw [if_pos (by rw [Bool.and_eq_true]; exact hc)]
  rw [hs]
  refine ⟨by dsimp only; rw [stack_self]; exact ⟨prog_closed o, hw⟩, ?_, rfl⟩
  have hi := (h.call o (fun _ ho f hf => by
    obtain ⟨p, hp⟩ := mem_ops hf
    exact ha ho f p hp)).1
  simp only [step] at hi
  rw [if_pos (by rw [Bool.and_eq_true]; exact ⟨user_proj hw hc.1, hc.2⟩)] at hi
  refine inv_congr hi rfl rfl ?_
  show ops (s.setStack t _ t) = _
  rw [stack_self]
  rfl

/-- A thread that executes the simulation goes on doing so, and changes no state. -/
theorem running_step {s : Sys} {u : Nat} {a : Act} (ha : ∀ o, a = .call o → ¬ Accepted s u o)
    (h : Running (s.stack u)) :
    Running ((s.step u a).stack u) ∧ (s.step u a).state = s.state := by
  have keep : Running (s.stack u) ∧ s.state = s.state := ⟨h, rfl⟩
  have tail : ∀ {f fs}, s.stack u = f :: fs → Running fs := fun e f hf =>
    h f (by rw [e]; exact List.mem_cons_of_mem _ hf)
  have cons : ∀ {f fs} (p : Phase), s.stack u = f :: fs → Running (.loop p :: fs) := by
    intro f fs p e g hg
    rcases List.mem_cons.1 hg with hg | hg
    · exact .inr ⟨p, hg⟩
    · exact tail e g hg
  have head : ∀ {m r p fs}, s.stack u = .op (m :: r) p :: fs → m = .endEmit ∧ r = [] ∧ p = none := by
    intro m r p fs e
    rcases h (.op (m :: r) p) (by rw [e]; simp) with h | ⟨q, h⟩
    · simp at h; exact ⟨h.1.1, h.1.2, h.2⟩
    · cases h
  cases a with
  | call o =>
    have : s.step u (.call o) = s := by
      have := ha o rfl
      unfold Sys.step
      dsimp only
      rw [if_neg]
      intro hc
      rw [Bool.and_eq_true] at hc
      exact this hc
    rw [this]; exact keep
  | go =>
    simp only [Sys.step]
    split
    · rename_i m r p fs hs
      obtain ⟨rfl, rfl, rfl⟩ := head hs
      simp only [Sys.micro, if_true]
      rw [stack_self]
      exact ⟨tail hs, trivial⟩
    · exact keep
  | tell =>
    simp only [Sys.step]
    split
    · rename_i r fs hs; exact absurd (head hs).2.2 (by simp)
    · rename_i r fs hs; exact absurd (head hs).2.2 (by simp)
    · exact keep
  | _ =>
    simp only [Sys.step]
    split
    all_goals first
      | exact keep
      | (rename_i fs hs
         dsimp only
         rw [stack_self]
         refine ⟨?_, rfl⟩
         first
           | exact cons _ hs
           | exact tail hs
           | (split
              · exact tail hs
              · exact cons _ hs))

/-- What `Hold(true)` of a thread has still to do. -/
def Holding (s : Sys) (t : Nat) : Prop :=
  (s.stack t = [] ∧ s.state = .standby) ∨
  (∃ p, s.state = .executing ∧
    (s.stack t = [.op Op.hold.prog p] ∨
     s.stack t = [.op [.endEmit, .set .standby, .emit .enterStandby, .endEmit] p] ∨
     s.stack t = [.op [.set .standby, .emit .enterStandby, .endEmit] p])) ∨
  (∃ p, s.state = .standby ∧ (s.stack t = [.op [.emit .enterStandby, .endEmit] p] ∨
     s.stack t = [.op [.endEmit] p])) 

theorem holding_step {s : Sys} {t : Nat} {a : Act} (ha : ∀ o, a = .call o → ¬ Accepted s t o)
    (h : Holding s t) (hp : ∀ r, s.stack t ≠ [.op r (some .enterExecuting)]) :
    Holding (s.step t a) t ∧ (∀ r, (s.step t a).stack t ≠ [.op r (some .enterExecuting)]) ∧
    ((s.step t a).state ≠ s.state → legal s.state (s.step t a).state = true) := by
  have keep : Holding s t ∧ (∀ r, s.stack t ≠ [.op r (some .enterExecuting)]) ∧
      (s.state ≠ s.state → legal s.state s.state = true) := ⟨h, hp, fun hne => absurd rfl hne⟩
  cases a with
  | call o =>
    have : s.step t (.call o) = s := by
      have := ha o rfl
      unfold Sys.step
      dsimp only
      rw [if_neg]
      intro hc
      rw [Bool.and_eq_true] at hc
      exact this hc
    rw [this]; exact keep
  | go =>
    rcases h with ⟨h, _⟩ | ⟨p, hst, h | h | h⟩ | ⟨p, hst, h | h⟩
    · have : s.step t .go = s := by simp only [Sys.step, h]
      rw [this]; exact keep
    · simp only [Sys.step, h, Op.prog, Sys.micro, subscribed]
      simp [Holding, stack_self, hst]
    · simp only [Sys.step, h, Op.prog, Sys.micro]
      split
      · simp [Holding, stack_self, hst, pushOp]
      · exact keep
    · simp only [Sys.step, h, Op.prog, Sys.micro]
      simp [Holding, stack_self, hst, pushOp, legal]
    · simp only [Sys.step, h, Op.prog, Sys.micro, subscribed]
      simp [Holding, stack_self, hst]
    · simp only [Sys.step, h, Op.prog, Sys.micro]
      split
      · simp [Holding, stack_self, hst, pushOp]
      · exact keep
  | tell =>
    simp only [Sys.step]
    split
    · rename_i r fs hs
      exfalso
      rcases h with ⟨h, _⟩ | ⟨p, hst, h | h | h⟩ | ⟨p, hst, h | h⟩ <;> rw [hs] at h <;>
        simp [Op.prog] at h
      · exact hp _ (by rw [hs, h.2])
      · exact hp _ (by rw [hs, h.2])
    · rename_i r fs hs
      rcases h with ⟨h, _⟩ | ⟨p, hst, h | h | h⟩ | ⟨p, hst, h | h⟩ <;> rw [hs] at h <;>
        simp [Op.prog] at h
      · simp [Holding, stack_self, hst, h]
      · simp [Holding, stack_self, hst, h]
    · exact keep
  | _ =>
    simp only [Sys.step]
    split
    all_goals first
      | exact keep
      | (rename_i fs hs
         exfalso
         rcases h with ⟨h, _⟩ | ⟨p, hst, h | h | h⟩ | ⟨p, hst, h | h⟩ <;> rw [hs] at h <;>
           simp at h)

/-! ### The invariant -/

/-- The invariant. -/
def J : Mode → Sys → Prop
  | .free, s => ∃ t, (∀ u, u ≠ t → s.stack u = []) ∧ WF (s.stack t) ∧ Inv false (proj s t)
  | .holding t, s => ∃ u, u ≠ t ∧ (∀ v, v ≠ t → v ≠ u → s.stack v = []) ∧ Running (s.stack u) ∧
      Holding s t ∧ ∀ r, s.stack t ≠ [.op r (some .enterExecuting)]

theorem inv_empty {s : Sys} {t : Nat} (h : s.stack t = []) : WF (s.stack t) ∧ Inv false (proj s t) := by
  have ho : (proj s t).stack = [] := by show ops (s.stack t) = []; rw [h]; rfl
  exact ⟨by rw [h]; trivial, by rw [ho]; trivial, by rw [ho]; simp, by rw [ho]; simp⟩

/-- A thread outside of the operations does nothing but call. -/
theorem empty_step {s : Sys} {u : Nat} {a : Act} (ha : ∀ o, a = .call o → ¬ Accepted s u o)
    (h : s.stack u = []) : s.step u a = s := by
  cases a with
  | call o =>
    have := ha o rfl
    unfold Sys.step
    dsimp only
    rw [if_neg]
    intro hc
    rw [Bool.and_eq_true] at hc
    exact this hc
  | _ => simp only [Sys.step, h]

theorem J_step {m m' : Mode} {s : Sys} {t : Nat} {a : Act} (h : J m s) (hp : Permit s m t a m') :
    J m' (s.step t a) ∧ ((s.step t a).state ≠ s.state → legal s.state (s.step t a).state = true) := by
  cases hp with
  | quiet m t a ha =>
    cases m with
    | free =>
      obtain ⟨t0, h1, h2, h3⟩ := h
      by_cases htt : t = t0
      · subst htt
        obtain ⟨k1, k2, k3⟩ := act_ok ha h2 h3
        exact ⟨⟨t, fun u hu => by rw [step_other s t a hu]; exact h1 u hu, k1, k2⟩, k3⟩
      · rw [empty_step ha (h1 t htt)]
        exact ⟨⟨t0, h1, h2, h3⟩, fun hne => absurd rfl hne⟩
    | holding t0 =>
      obtain ⟨u, h1, h2, h3, h4, h5⟩ := h
      by_cases htt : t = t0
      · subst htt
        obtain ⟨k1, k2, k3⟩ := holding_step ha h4 h5
        refine ⟨⟨u, h1, fun v hv hv2 => ?_, ?_, k1, k2⟩, k3⟩
        · rw [step_other s t a hv]; exact h2 v hv hv2
        · rw [step_other s t a h1]; exact h3
      · by_cases htu : t = u
        · subst htu
          obtain ⟨k1, k2⟩ := running_step ha h3
          have hst := step_other s t a (u := t0) (fun h => htt h.symm)
          refine ⟨⟨t, h1, fun v hv hv2 => ?_, k1, ?_, ?_⟩, fun hne => absurd k2 hne⟩
          · rw [step_other s t a hv2]; exact h2 v hv hv2
          · unfold Holding; rw [hst, k2]; exact h4
          · rw [hst]; exact h5
        · rw [empty_step ha (h2 t htt htu)]
          exact ⟨⟨u, h1, h2, h3, h4, h5⟩, fun hne => absurd rfl hne⟩
  | alone t o hu ha =>
    obtain ⟨t0, h1, h2, h3⟩ := h
    have hw : WF (s.stack t) ∧ Inv false (proj s t) := by
      by_cases htt : t = t0
      · subst htt; exact ⟨h2, h3⟩
      · exact inv_empty (h1 t htt)
    by_cases hc : Accepted s t o
    · obtain ⟨k1, k2, k3⟩ := call_ok hc ha hw.1 hw.2
      exact ⟨⟨t, fun u hu' => by rw [step_other s t _ hu']; exact hu u hu', k1, k2⟩,
        fun hne => absurd k3 hne⟩
    · obtain ⟨k1, k2, k3⟩ := act_ok (a := .call o) (fun o' ho => by cases ho; exact hc) hw.1 hw.2
      exact ⟨⟨t, fun u hu' => by rw [step_other s t _ hu']; exact hu u hu', k1, k2⟩, k3⟩
  | hold t u hne ha ht hu hv =>
    have hs : s.step t (.call .hold) = { s with stack := s.setStack t [.op Op.hold.prog none] } := by
      unfold Sys.step
      dsimp only
      rw [if_pos (by rw [Bool.and_eq_true]; exact ha), ht]
    have hst : s.state = .executing := by
      have := ha.2
      simp [Op.guard] at this
      exact this.1
    refine ⟨⟨u, hne, fun v h1 h2 => ?_, ?_, ?_, ?_⟩, ?_⟩
    · rw [step_other s t _ h1]; exact hv v h1 h2
    · rw [step_other s t _ hne]; exact hu
    · rw [hs]; right; left
      exact ⟨none, hst, .inl (stack_self _ _ _)⟩
    · rw [hs]; dsimp only; rw [stack_self]; intro r; simp
    · rw [hs]; exact fun hne => absurd rfl hne

theorem J_reach {h0 : Bool} {m : Mode} {s : Sys} (h : Reach h0 m s) : J m s := by
  induction h with
  | init => exact ⟨0, fun _ _ => rfl, (inv_empty rfl).1, (inv_empty rfl).2⟩
  | step _ hp ih => exact (J_step ih hp).1
  | over _ hu ih => exact ⟨0, fun u _ => hu u, (inv_empty (hu 0)).1, (inv_empty (hu 0)).2⟩

end Verif.Sim.Threads
