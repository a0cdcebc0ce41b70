import Verif.Safe.Model
/-
C65: an entry point that throws aborts the simulation instead of propagating.
-/
namespace Verif.Safe

/-! ### Specification: the shape of what is observed -/

/-- `Abort` has been requested and done: its event is emitted, then the state is Aborting. -/
def Aborted (t : List Ev) : Prop := ∃ inner, t = .emitted enterAborting :: inner ++ [.aborting]

/-- The observations of one safe execution of `ep`: it starts, does something, and then either
it returns, or an error is logged for it and the simulation is aborted. -/
def Ran (ep : Ep) (t : List Ev) : Prop := ∃ inner,
  t = .start ep :: inner ++ [.done ep] ∨
  ∃ m ab, (m = [] ∨ m = [.message]) ∧ Aborted ab ∧ t = .start ep :: inner ++ .error ep :: m ++ ab

/-- The observations of the safe executions of several entry points, one after the other. -/
def RanAll : List Ep → List Ev → Prop
  | [], t => t = []
  | ep :: eps, t => ∃ a b, t = a ++ b ∧ Ran ep a ∧ RanAll eps b

/-! ### The theorems -/

theorem note_trace (w : World) (l : List Ev) : (w.note l).trace = w.trace ++ l := rfl
theorem note_subs (w : World) (l : List Ev) : (w.note l).subs = w.subs := rfl

theorem subscribe_trace {known : Known} {w w' : World} {e : Event} {ep : Ep}
    (h : subscribe known w e ep = some w') : w'.trace = w.trace := by
  unfold subscribe at h
  split at h
  · simp at h; subst h; rfl
  · simp at h

theorem unsubscribe_trace {known : Known} {w w' : World} {e : Event} {ep : Ep}
    (h : unsubscribe known w e ep = some w') : w'.trace = w.trace := by
  unfold unsubscribe at h
  split at h
  · simp at h; subst h; rfl
  · simp at h

/-- The statements proved together by induction on the depth of the stack. -/
structure Shape (known : Known) (body : Body) (n : Nat) : Prop where
  safe : ∀ w ep w' o, safeExecute known body n w ep = some (w', o) →
    o = .ret ∧ ∃ t, w'.trace = w.trace ++ t ∧ Ran ep t
  exec : ∀ w ep w' o, execute known body n w ep = some (w', o) → ∃ t, w'.trace = w.trace ++ t
  cmds : ∀ w cs r w' o, commands known body n w cs r = some (w', o) →
    ∃ t, w'.trace = w.trace ++ t
  emits : ∀ w e w' o, known e = true → emit known body n w e = some (w', o) →
    o = .ret ∧ ∃ t, w'.trace = w.trace ++ .emitted e :: t ∧ RanAll (w.subs e) t
  loop : ∀ w eps w' o, each known body n w eps = some (w', o) →
    o = .ret ∧ ∃ t, w'.trace = w.trace ++ t ∧ RanAll eps t
  abrt : ∀ w w', abort known body n w = some w' → ∃ t, w'.trace = w.trace ++ t ∧ Aborted t

theorem shape (known : Known) (hk : known enterAborting = true) (body : Body) (n : Nat) :
    Shape known body n := by
  induction n with
  | zero =>
    constructor
    · intro w ep w' o h; simp [safeExecute] at h
    · intro w ep w' o h; simp [execute] at h
    · intro w cs r w' o h; simp [commands] at h
    · intro w e w' o _ h; simp [emit] at h
    · intro w eps w' o h; simp [each] at h
    · intro w w' h; simp [abort] at h
  | succ n ih =>
    constructor
    · intro w ep w' o h
      simp only [safeExecute, Option.bind_eq_bind] at h
      obtain ⟨⟨w1, o1⟩, h1, h⟩ := Option.bind_eq_some_iff.mp h
      obtain ⟨t1, ht1⟩ := ih.exec _ _ _ _ h1
      rw [note_trace] at ht1
      cases o1 with
      | ret =>
        simp only [Option.some.injEq, Prod.mk.injEq] at h
        obtain ⟨rfl, rfl⟩ := h
        exact ⟨rfl, .start ep :: t1 ++ [.done ep], by simp [note_trace, ht1], t1, .inl rfl⟩
      | smp =>
        simp only at h
        obtain ⟨w2, h2, h⟩ := Option.bind_eq_some_iff.mp h
        obtain ⟨ab, hab, hab'⟩ := ih.abrt _ _ h2
        simp only [Option.some.injEq, Prod.mk.injEq] at h
        obtain ⟨rfl, rfl⟩ := h
        refine ⟨rfl, .start ep :: t1 ++ .error ep :: [.message] ++ ab, ?_, t1, .inr
          ⟨[.message], ab, .inr rfl, hab', rfl⟩⟩
        rw [hab, note_trace, ht1]
        simp
      | std =>
        simp only at h
        obtain ⟨w2, h2, h⟩ := Option.bind_eq_some_iff.mp h
        obtain ⟨ab, hab, hab'⟩ := ih.abrt _ _ h2
        simp only [Option.some.injEq, Prod.mk.injEq] at h
        obtain ⟨rfl, rfl⟩ := h
        refine ⟨rfl, .start ep :: t1 ++ .error ep :: [] ++ ab, ?_, t1, .inr
          ⟨[], ab, .inl rfl, hab', rfl⟩⟩
        rw [hab, note_trace, ht1]
        simp
      | other =>
        simp only at h
        obtain ⟨w2, h2, h⟩ := Option.bind_eq_some_iff.mp h
        obtain ⟨ab, hab, hab'⟩ := ih.abrt _ _ h2
        simp only [Option.some.injEq, Prod.mk.injEq] at h
        obtain ⟨rfl, rfl⟩ := h
        refine ⟨rfl, .start ep :: t1 ++ .error ep :: [] ++ ab, ?_, t1, .inr
          ⟨[], ab, .inl rfl, hab', rfl⟩⟩
        rw [hab, note_trace, ht1]
        simp
    · intro w ep w' o h
      simp only [execute] at h
      exact ih.cmds _ _ _ _ _ h
    · intro w cs r w' o h
      cases cs with
      | nil =>
        simp only [commands, Option.some.injEq, Prod.mk.injEq] at h
        exact ⟨[], by simp [← h.1]⟩
      | cons c cs =>
        cases c with
        | subscribe e ep =>
          simp only [commands] at h
          split at h
          · rename_i w1 h1
            obtain ⟨t, ht⟩ := ih.cmds _ _ _ _ _ h
            exact ⟨t, by rw [ht, subscribe_trace h1]⟩
          · simp only [Option.some.injEq, Prod.mk.injEq] at h
            exact ⟨[], by simp [← h.1]⟩
        | unsubscribe e ep =>
          simp only [commands] at h
          split at h
          · rename_i w1 h1
            obtain ⟨t, ht⟩ := ih.cmds _ _ _ _ _ h
            exact ⟨t, by rw [ht, unsubscribe_trace h1]⟩
          · simp only [Option.some.injEq, Prod.mk.injEq] at h
            exact ⟨[], by simp [← h.1]⟩
        | emit e =>
          simp only [commands, Option.bind_eq_bind] at h
          obtain ⟨⟨w1, o1⟩, h1, h⟩ := Option.bind_eq_some_iff.mp h
          have ht1 : ∃ t, w1.trace = w.trace ++ t := by
            by_cases hke : known e = true
            · obtain ⟨_, t, ht, _⟩ := ih.emits _ _ _ _ hke h1
              exact ⟨_, ht⟩
            · cases n with
              | zero => simp [emit] at h1
              | succ n =>
                simp only [emit] at h1
                rw [if_neg hke] at h1
                simp only [Option.some.injEq, Prod.mk.injEq] at h1
                exact ⟨[], by simp [← h1.1]⟩
          obtain ⟨t1, ht1⟩ := ht1
          cases o1 with
          | ret =>
            simp only at h
            obtain ⟨t, ht⟩ := ih.cmds _ _ _ _ _ h
            exact ⟨t1 ++ t, by rw [ht, ht1, List.append_assoc]⟩
          | smp => simp only [Option.some.injEq, Prod.mk.injEq] at h; exact ⟨t1, by rw [← h.1, ht1]⟩
          | std => simp only [Option.some.injEq, Prod.mk.injEq] at h; exact ⟨t1, by rw [← h.1, ht1]⟩
          | other => simp only [Option.some.injEq, Prod.mk.injEq] at h; exact ⟨t1, by rw [← h.1, ht1]⟩
        | abort =>
          simp only [commands, Option.bind_eq_bind] at h
          obtain ⟨w1, h1, h⟩ := Option.bind_eq_some_iff.mp h
          obtain ⟨t1, ht1, _⟩ := ih.abrt _ _ h1
          obtain ⟨t, ht⟩ := ih.cmds _ _ _ _ _ h
          exact ⟨t1 ++ t, by rw [ht, ht1, List.append_assoc]⟩
    · intro w e w' o hke h
      simp only [emit] at h
      rw [if_pos hke] at h
      obtain ⟨ho, t, ht, hr⟩ := ih.loop _ _ _ _ h
      exact ⟨ho, t, by rw [ht, note_trace]; simp, hr⟩
    · intro w eps w' o h
      cases eps with
      | nil =>
        simp only [each, Option.some.injEq, Prod.mk.injEq] at h
        exact ⟨h.2.symm, [], by simp [← h.1], rfl⟩
      | cons ep eps =>
        simp only [each, Option.bind_eq_bind] at h
        obtain ⟨⟨w1, o1⟩, h1, h⟩ := Option.bind_eq_some_iff.mp h
        obtain ⟨ho1, t1, ht1, hr1⟩ := ih.safe _ _ _ _ h1
        subst ho1
        simp only at h
        obtain ⟨ho, t, ht, hr⟩ := ih.loop _ _ _ _ h
        exact ⟨ho, t1 ++ t, by rw [ht, ht1, List.append_assoc], t1, t, rfl, hr1, hr⟩
    · intro w w' h
      simp only [abort, Option.bind_eq_bind] at h
      obtain ⟨⟨w1, o1⟩, h1, h⟩ := Option.bind_eq_some_iff.mp h
      obtain ⟨_, t, ht, _⟩ := ih.emits _ _ _ _ hk h1
      simp only [Option.some.injEq] at h
      subst h
      exact ⟨.emitted enterAborting :: t ++ [.aborting], by rw [note_trace, ht]; simp, t, rfl⟩

/-- C65 (partial: provided that the call returns, see `C65_fails`): no exception leaves
`SafeExecute`. If the entry point returns, this is what is observed; if it throws, an error is
logged for it, for an `Smp::Exception` also its message, and the simulation is aborted. -/
theorem C65_safe_partial (known : Known) (hk : known enterAborting = true) (body : Body)
    (n : Nat) (w : World) (ep : Ep) (w' : World) (o' : Outcome)
    (h : safeExecute known body (n + 1) w ep = some (w', o')) :
    o' = .ret ∧ ∃ w1 o, execute known body n (w.note [.start ep]) ep = some (w1, o) ∧
      (o = .ret → w'.trace = w1.trace ++ [.done ep]) ∧
      (o ≠ .ret → ∃ ab, Aborted ab ∧
        w'.trace = w1.trace ++ .error ep :: (if o = .smp then [.message] else []) ++ ab) := by
  have hs := shape known hk body n
  simp only [safeExecute, Option.bind_eq_bind] at h
  obtain ⟨⟨w1, o1⟩, h1, h⟩ := Option.bind_eq_some_iff.mp h
  cases o1 with
  | ret =>
    simp only [Option.some.injEq, Prod.mk.injEq] at h
    obtain ⟨rfl, rfl⟩ := h
    exact ⟨rfl, w1, _, h1, fun _ => rfl, fun h => absurd rfl h⟩
  | smp =>
    simp only at h
    obtain ⟨w2, h2, h⟩ := Option.bind_eq_some_iff.mp h
    obtain ⟨ab, hab, hab'⟩ := hs.abrt _ _ h2
    simp only [Option.some.injEq, Prod.mk.injEq] at h
    obtain ⟨rfl, rfl⟩ := h
    exact ⟨rfl, w1, _, h1, fun h => by simp at h, fun _ => ⟨ab, hab', by
      rw [hab, note_trace]; simp⟩⟩
  | std =>
    simp only at h
    obtain ⟨w2, h2, h⟩ := Option.bind_eq_some_iff.mp h
    obtain ⟨ab, hab, hab'⟩ := hs.abrt _ _ h2
    simp only [Option.some.injEq, Prod.mk.injEq] at h
    obtain ⟨rfl, rfl⟩ := h
    exact ⟨rfl, w1, _, h1, fun h => by simp at h, fun _ => ⟨ab, hab', by
      rw [hab, note_trace]; simp⟩⟩
  | other =>
    simp only at h
    obtain ⟨w2, h2, h⟩ := Option.bind_eq_some_iff.mp h
    obtain ⟨ab, hab, hab'⟩ := hs.abrt _ _ h2
    simp only [Option.some.injEq, Prod.mk.injEq] at h
    obtain ⟨rfl, rfl⟩ := h
    exact ⟨rfl, w1, _, h1, fun h => by simp at h, fun _ => ⟨ab, hab', by
      rw [hab, note_trace]; simp⟩⟩

/-- C65 (partial: provided that the emission returns): no exception leaves `Emit` of a known
event, and every entry point subscribed at the moment of the emission runs, in order, whichever
of them throw and whatever they do. -/
theorem C65_emit_partial (known : Known) (hk : known enterAborting = true) (body : Body)
    (n : Nat) (w : World) (e : Event) (he : known e = true) (w' : World) (o : Outcome)
    (h : emit known body n w e = some (w', o)) :
    o = .ret ∧ ∃ t, w'.trace = w.trace ++ .emitted e :: t ∧ RanAll (w.subs e) t :=
  (shape known hk body n).emits w e w' o he h

/-- C65 (partial: provided that the executions return): the scheduler runs the entry points of
all the due events and treats each event after its execution, whichever throw. -/
theorem C65_scheduler_partial (known : Known) (hk : known enterAborting = true) (body : Body)
    (n : Nat) (due : List (Nat × Ep)) : ∀ (w w' : World) (posted : List Nat) (o : Outcome),
    runEvents known body n w due = some (w', posted, o) →
    o = .ret ∧ posted = due.map Prod.fst ∧
      ∃ t, w'.trace = w.trace ++ t ∧ RanAll (due.map Prod.snd) t := by
  induction due with
  | nil =>
    intro w w' posted o h
    simp only [runEvents, Option.some.injEq, Prod.mk.injEq] at h
    obtain ⟨rfl, rfl, rfl⟩ := h
    exact ⟨rfl, rfl, [], by simp, rfl⟩
  | cons d due ih =>
    obtain ⟨id, ep⟩ := d
    intro w w' posted o h
    simp only [runEvents, Option.bind_eq_bind] at h
    obtain ⟨⟨w1, o1⟩, h1, h⟩ := Option.bind_eq_some_iff.mp h
    obtain ⟨ho1, t1, ht1, hr1⟩ := (shape known hk body n).safe _ _ _ _ h1
    subst ho1
    simp only at h
    obtain ⟨⟨w2, p2, o2⟩, h2, h⟩ := Option.bind_eq_some_iff.mp h
    simp only [Option.some.injEq, Prod.mk.injEq] at h
    obtain ⟨rfl, rfl, rfl⟩ := h
    obtain ⟨ho, hp, t, ht, hr⟩ := ih _ _ _ _ h2
    exact ⟨ho, by simp [hp], t1 ++ t, by rw [ht, ht1, List.append_assoc], t1, t, rfl, hr1, hr⟩

/-! ### Termination -/

/-- More depth does not change the result. -/
structure Mono (known : Known) (body : Body) (n : Nat) : Prop where
  safe : ∀ w ep r, safeExecute known body n w ep = some r → safeExecute known body (n + 1) w ep = some r
  exec : ∀ w ep r, execute known body n w ep = some r → execute known body (n + 1) w ep = some r
  cmds : ∀ w cs q r, commands known body n w cs q = some r → commands known body (n + 1) w cs q = some r
  emits : ∀ w e r, emit known body n w e = some r → emit known body (n + 1) w e = some r
  loop : ∀ w eps r, each known body n w eps = some r → each known body (n + 1) w eps = some r
  abrt : ∀ w r, abort known body n w = some r → abort known body (n + 1) w = some r

theorem mono (known : Known) (body : Body) (n : Nat) : Mono known body n := by
  induction n with
  | zero =>
    constructor
    · intro w ep r h; simp [safeExecute] at h
    · intro w ep r h; simp [execute] at h
    · intro w cs q r h; simp [commands] at h
    · intro w e r h; simp [emit] at h
    · intro w eps r h; simp [each] at h
    · intro w r h; simp [abort] at h
  | succ n ih =>
    constructor
    · intro w ep r h
      rw [safeExecute] at h ⊢
      simp only [Option.bind_eq_bind] at h ⊢
      obtain ⟨⟨w1, o1⟩, h1, h⟩ := Option.bind_eq_some_iff.mp h
      rw [ih.exec _ _ _ h1, Option.bind_some]
      cases o1 with
      | ret => exact h
      | smp =>
        simp only at h ⊢
        obtain ⟨w2, h2, h⟩ := Option.bind_eq_some_iff.mp h
        rw [ih.abrt _ _ h2]; exact h
      | std =>
        simp only at h ⊢
        obtain ⟨w2, h2, h⟩ := Option.bind_eq_some_iff.mp h
        rw [ih.abrt _ _ h2]; exact h
      | other =>
        simp only at h ⊢
        obtain ⟨w2, h2, h⟩ := Option.bind_eq_some_iff.mp h
        rw [ih.abrt _ _ h2]; exact h
    · intro w ep r h
      rw [execute] at h ⊢
      exact ih.cmds _ _ _ _ h
    · intro w cs q r h
      cases cs with
      | nil => simpa [commands] using h
      | cons c cs =>
        cases c with
        | subscribe e ep =>
          rw [commands] at h ⊢
          split at h
          · rename_i w1 h1; exact ih.cmds _ _ _ _ h
          · exact h
        | unsubscribe e ep =>
          rw [commands] at h ⊢
          split at h
          · rename_i w1 h1; exact ih.cmds _ _ _ _ h
          · exact h
        | emit e =>
          rw [commands] at h ⊢
          simp only [Option.bind_eq_bind] at h ⊢
          obtain ⟨⟨w1, o1⟩, h1, h⟩ := Option.bind_eq_some_iff.mp h
          rw [ih.emits _ _ _ h1, Option.bind_some]
          cases o1 with
          | ret => exact ih.cmds _ _ _ _ h
          | smp => exact h
          | std => exact h
          | other => exact h
        | abort =>
          rw [commands] at h ⊢
          simp only [Option.bind_eq_bind] at h ⊢
          obtain ⟨w1, h1, h⟩ := Option.bind_eq_some_iff.mp h
          rw [ih.abrt _ _ h1, Option.bind_some]
          exact ih.cmds _ _ _ _ h
    · intro w e r h
      rw [emit] at h ⊢
      by_cases hk : known e = true
      · rw [if_pos hk] at h ⊢; exact ih.loop _ _ _ h
      · rw [if_neg hk] at h ⊢; exact h
    · intro w eps r h
      cases eps with
      | nil => simpa [each] using h
      | cons ep eps =>
        rw [each] at h ⊢
        simp only [Option.bind_eq_bind] at h ⊢
        obtain ⟨⟨w1, o1⟩, h1, h⟩ := Option.bind_eq_some_iff.mp h
        rw [ih.safe _ _ _ h1, Option.bind_some]
        cases o1 with
        | ret => exact ih.loop _ _ _ h
        | smp => exact h
        | std => exact h
        | other => exact h
    · intro w r h
      rw [abort] at h ⊢
      simp only [Option.bind_eq_bind] at h ⊢
      obtain ⟨⟨w1, o1⟩, h1, h⟩ := Option.bind_eq_some_iff.mp h
      rw [ih.emits _ _ _ h1]; exact h

theorem safe_le {known : Known} {body : Body} {n m : Nat} (h : n ≤ m) {w : World} {ep : Ep}
    {r : World × Outcome} (hn : safeExecute known body n w ep = some r) :
    safeExecute known body m w ep = some r := by
  induction m with
  | zero => simp at h; subst h; exact hn
  | succ m ih =>
    by_cases e : n = m + 1
    · subst e; exact hn
    · exact (mono known body m).safe _ _ _ (ih (by omega))

theorem loop_le {known : Known} {body : Body} {n m : Nat} (h : n ≤ m) {w : World} {eps : List Ep}
    {r : World × Outcome} (hn : each known body n w eps = some r) :
    each known body m w eps = some r := by
  induction m with
  | zero => simp at h; subst h; exact hn
  | succ m ih =>
    by_cases e : n = m + 1
    · subst e; exact hn
    · exact (mono known body m).loop _ _ _ (ih (by omega))

theorem exec_le {known : Known} {body : Body} {n m : Nat} (h : n ≤ m) {w : World} {ep : Ep}
    {r : World × Outcome} (hn : execute known body n w ep = some r) :
    execute known body m w ep = some r := by
  induction m with
  | zero => simp at h; subst h; exact hn
  | succ m ih =>
    by_cases e : n = m + 1
    · subst e; exact hn
    · exact (mono known body m).exec _ _ _ (ih (by omega))

theorem abort_le {known : Known} {body : Body} {n m : Nat} (h : n ≤ m) {w : World}
    {r : World} (hn : abort known body n w = some r) :
    abort known body m w = some r := by
  induction m with
  | zero => simp at h; subst h; exact hn
  | succ m ih =>
    by_cases e : n = m + 1
    · subst e; exact hn
    · exact (mono known body m).abrt _ _ (ih (by omega))

/-- A call which concerns the subscriptions to other events than that of `Abort`. -/
def Plain : Cmd → Prop
  | .subscribe e _ => e ≠ enterAborting
  | .unsubscribe e _ => e ≠ enterAborting
  | _ => False

theorem commands_plain (known : Known) (body : Body) (cs : List Cmd) :
    ∀ (w : World) (q : Outcome), (∀ c ∈ cs, Plain c) →
    ∃ n w' o, commands known body n w cs q = some (w', o) ∧
      w'.subs enterAborting = w.subs enterAborting := by
  induction cs with
  | nil => intro w q _; exact ⟨1, w, q, by simp [commands], rfl⟩
  | cons c cs ih =>
    intro w q hc
    have hcs : ∀ c ∈ cs, Plain c := fun c h => hc c (List.mem_cons_of_mem _ h)
    have h0 := hc c List.mem_cons_self
    cases c with
    | subscribe e ep =>
      cases hs : subscribe known w e ep with
      | none => exact ⟨1, w, .smp, by simp [commands, hs], rfl⟩
      | some w1 =>
        obtain ⟨n, w', o, h, hsub⟩ := ih w1 q hcs
        refine ⟨n + 1, w', o, by simp [commands, hs, h], hsub.trans ?_⟩
        unfold subscribe at hs
        split at hs
        · simp at hs; subst hs
          have : enterAborting ≠ e := fun h => h0 h.symm
          simp [this]
        · simp at hs
    | unsubscribe e ep =>
      cases hs : unsubscribe known w e ep with
      | none => exact ⟨1, w, .smp, by simp [commands, hs], rfl⟩
      | some w1 =>
        obtain ⟨n, w', o, h, hsub⟩ := ih w1 q hcs
        refine ⟨n + 1, w', o, by simp [commands, hs, h], hsub.trans ?_⟩
        unfold unsubscribe at hs
        split at hs
        · simp at hs; subst hs
          have : enterAborting ≠ e := fun h => h0 h.symm
          simp [this]
        · simp at hs
    | emit e => exact absurd h0 (by simp [Plain])
    | abort => exact absurd h0 (by simp [Plain])

/-- An entry point which just returns. -/
def Quiet (body : Body) (ep : Ep) : Prop := ∀ w, body ep w = ([], .ret)

theorem each_quiet (known : Known) (body : Body) (eps : List Ep) : ∀ w : World,
    (∀ ep ∈ eps, Quiet body ep) →
    ∃ n w', each known body n w eps = some (w', .ret) ∧ w'.subs = w.subs := by
  induction eps with
  | nil => intro w _; exact ⟨1, w, by simp [each], rfl⟩
  | cons ep eps ih =>
    intro w hq
    have h0 := hq ep List.mem_cons_self
    obtain ⟨n, w', h, hs⟩ := ih ((w.note [.start ep]).note [.done ep])
      (fun e he => hq e (List.mem_cons_of_mem _ he))
    have h1 : safeExecute known body 3 w ep =
        some ((w.note [.start ep]).note [.done ep], .ret) := by
      simp [safeExecute, execute, commands, h0 (w.note [.start ep])]
    refine ⟨max n 3 + 1, w', ?_, by rw [hs]; rfl⟩
    rw [each, safe_le (Nat.le_max_right n 3) h1]
    simp only [Option.bind_eq_bind, Option.bind_some]
    exact loop_le (Nat.le_max_left n 3) h

theorem abort_quiet (known : Known) (hk : known enterAborting = true) (body : Body) (w : World)
    (hq : ∀ ep ∈ w.subs enterAborting, Quiet body ep) :
    ∃ n w', abort known body n w = some w' ∧ w'.subs = w.subs := by
  obtain ⟨n, w', h, hs⟩ := each_quiet known body (w.subs enterAborting)
    (w.note [.emitted enterAborting]) hq
  refine ⟨n + 2, w'.note [.aborting], ?_, by rw [note_subs, hs]; rfl⟩
  simp [abort, emit, hk, h]

theorem safe_returns (known : Known) (hk : known enterAborting = true) (body : Body)
    (hb : ∀ ep w, ∀ c ∈ (body ep w).1, Plain c) (w : World) (ep : Ep)
    (hq : ∀ ep ∈ w.subs enterAborting, Quiet body ep) :
    ∃ n w', safeExecute known body n w ep = some (w', .ret) ∧
      w'.subs enterAborting = w.subs enterAborting := by
  obtain ⟨n, w1, o, h, hs⟩ := commands_plain known body (body ep (w.note [.start ep])).1
    (w.note [.start ep]) (body ep (w.note [.start ep])).2 (hb ep _)
  have hx : execute known body (n + 1) (w.note [.start ep]) ep = some (w1, o) := by
    simp [execute, h]
  rw [note_subs] at hs
  have hab : ∀ l, ∃ m w', abort known body m (w1.note l) = some w' ∧ w'.subs = w1.subs := by
    intro l
    obtain ⟨m, w', h, hs'⟩ := abort_quiet known hk body (w1.note l) (by
      rw [note_subs, hs]; exact hq)
    exact ⟨m, w', h, by rw [hs', note_subs]⟩
  cases o with
  | ret =>
    refine ⟨n + 2, w1.note [.done ep], ?_, by rw [note_subs]; exact hs⟩
    rw [safeExecute]
    simp [hx]
  | smp =>
    obtain ⟨m, w', ha, hs'⟩ := hab [.error ep, .message]
    refine ⟨max (n + 1) m + 1, w', ?_, by rw [hs']; exact hs⟩
    rw [safeExecute, exec_le (Nat.le_max_left _ _) hx]
    simp only [Option.bind_eq_bind, Option.bind_some]
    rw [abort_le (Nat.le_max_right _ _) ha]
    rfl
  | std =>
    obtain ⟨m, w', ha, hs'⟩ := hab [.error ep]
    refine ⟨max (n + 1) m + 1, w', ?_, by rw [hs']; exact hs⟩
    rw [safeExecute, exec_le (Nat.le_max_left _ _) hx]
    simp only [Option.bind_eq_bind, Option.bind_some]
    rw [abort_le (Nat.le_max_right _ _) ha]
    rfl
  | other =>
    obtain ⟨m, w', ha, hs'⟩ := hab [.error ep]
    refine ⟨max (n + 1) m + 1, w', ?_, by rw [hs']; exact hs⟩
    rw [safeExecute, exec_le (Nat.le_max_left _ _) hx]
    simp only [Option.bind_eq_bind, Option.bind_some]
    rw [abort_le (Nat.le_max_right _ _) ha]
    rfl

/-- C65 (partial: the entry points only change subscriptions, to other events than that of
`Abort`, and those of the event of `Abort` just return): the emission returns, all its entry
points have run, whichever of them throw. -/
theorem C65_returns_partial (known : Known) (hk : known enterAborting = true) (body : Body)
    (hb : ∀ ep w, ∀ c ∈ (body ep w).1, Plain c) (w : World) (e : Event) (he : known e = true)
    (hq : ∀ ep ∈ w.subs enterAborting, Quiet body ep) :
    ∃ n w' t, emit known body n w e = some (w', .ret) ∧
      w'.trace = w.trace ++ .emitted e :: t ∧ RanAll (w.subs e) t := by
  have key : ∀ (eps : List Ep) (w : World), (∀ ep ∈ w.subs enterAborting, Quiet body ep) →
      ∃ n w', each known body n w eps = some (w', .ret) := by
    intro eps
    induction eps with
    | nil => intro w _; exact ⟨1, w, by simp [each]⟩
    | cons ep eps ih =>
      intro w hq
      obtain ⟨n, w1, h, hs⟩ := safe_returns known hk body hb w ep hq
      obtain ⟨m, w', h'⟩ := ih w1 (by rw [hs]; exact hq)
      refine ⟨max n m + 1, w', ?_⟩
      rw [each, safe_le (Nat.le_max_left _ _) h]
      simp only [Option.bind_eq_bind, Option.bind_some]
      exact loop_le (Nat.le_max_right _ _) h'
  obtain ⟨n, w', h⟩ := key (w.subs e) (w.note [.emitted e]) hq
  have hem : emit known body (n + 1) w e = some (w', .ret) := by
    rw [emit, if_pos he]; exact h
  obtain ⟨_, t, ht, hr⟩ := C65_emit_partial known hk body (n + 1) w e he w' .ret hem
  exact ⟨n + 1, w', t, hem, ht, hr⟩

/-! ### What is false -/

theorem each_needs (known : Known) (body : Body) (hs : ∀ ep w, (body ep w).1 = []) (bad : Ep)
    (eps : List Ep) : ∀ (n : Nat) (w : World) (r : World × Outcome), bad ∈ eps →
    each known body n w eps = some r → ∃ m w1 r', m < n ∧ w1.subs = w.subs ∧
      safeExecute known body m w1 bad = some r' := by
  induction eps with
  | nil => intro n w r hm; simp at hm
  | cons ep eps ih =>
    intro n w r hm h
    cases n with
    | zero => simp [each] at h
    | succ n =>
      simp only [each, Option.bind_eq_bind] at h
      obtain ⟨⟨w1, o1⟩, h1, h⟩ := Option.bind_eq_some_iff.mp h
      rcases List.mem_cons.mp hm with rfl | hm
      · exact ⟨n, w, _, by omega, rfl, h1⟩
      · have hsub : ∀ (k : Nat) (w w' : World) (l : List Ep) (o : Outcome),
            (each known body k w l = some (w', o) → w'.subs = w.subs) ∧
            (∀ ep, safeExecute known body k w ep = some (w', o) → w'.subs = w.subs) ∧
            (abort known body k w = some w' → w'.subs = w.subs) ∧
            (∀ e, emit known body k w e = some (w', o) → w'.subs = w.subs) := by
          intro k
          induction k with
          | zero =>
            intro w w' l o
            refine ⟨?_, ?_, ?_, ?_⟩
            · intro h; simp [each] at h
            · intro ep h; simp [safeExecute] at h
            · intro h; simp [abort] at h
            · intro e h; simp [emit] at h
          | succ k ihk =>
            intro w w' l o
            refine ⟨?_, ?_, ?_, ?_⟩
            · intro h
              cases l with
              | nil => simp [each] at h; rw [h.1]
              | cons x l =>
                simp only [each, Option.bind_eq_bind] at h
                obtain ⟨⟨w1, o1⟩, h1, h⟩ := Option.bind_eq_some_iff.mp h
                have e1 := (ihk w w1 [] o1).2.1 x h1
                cases o1 with
                | ret => exact ((ihk w1 w' l o).1 h).trans e1
                | smp => simp at h; rw [← h.1, e1]
                | std => simp at h; rw [← h.1, e1]
                | other => simp at h; rw [← h.1, e1]
            · intro ep h
              simp only [safeExecute, Option.bind_eq_bind] at h
              obtain ⟨⟨w1, o1⟩, h1, h⟩ := Option.bind_eq_some_iff.mp h
              have e1 : w1.subs = w.subs := by
                cases k with
                | zero => simp [execute] at h1
                | succ k =>
                  simp only [execute, hs] at h1
                  cases k with
                  | zero => simp [commands] at h1
                  | succ k => simp [commands] at h1; rw [← h1.1]; rfl
              cases o1 with
              | ret => simp at h; rw [← h.1, note_subs, e1]
              | smp =>
                simp only at h
                obtain ⟨w2, h2, h⟩ := Option.bind_eq_some_iff.mp h
                simp at h
                have := (ihk _ w2 [] .ret).2.2.1 h2
                rw [← h.1, this, note_subs, e1]
              | std =>
                simp only at h
                obtain ⟨w2, h2, h⟩ := Option.bind_eq_some_iff.mp h
                simp at h
                have := (ihk _ w2 [] .ret).2.2.1 h2
                rw [← h.1, this, note_subs, e1]
              | other =>
                simp only at h
                obtain ⟨w2, h2, h⟩ := Option.bind_eq_some_iff.mp h
                simp at h
                have := (ihk _ w2 [] .ret).2.2.1 h2
                rw [← h.1, this, note_subs, e1]
            · intro h
              simp only [abort, Option.bind_eq_bind] at h
              obtain ⟨⟨w1, o1⟩, h1, h⟩ := Option.bind_eq_some_iff.mp h
              simp at h
              rw [← h, note_subs, (ihk w w1 [] o1).2.2.2 _ h1]
            · intro e h
              simp only [emit] at h
              split at h
              · rw [(ihk _ w' _ o).1 h]; rfl
              · simp at h; rw [h.1]
        have e1 := (hsub n w w1 [] o1).2.1 ep h1
        cases o1 with
        | ret =>
          obtain ⟨m, w2, r', hm', hs', h'⟩ := ih n w1 r hm h
          exact ⟨m, w2, r', by omega, hs'.trans e1, h'⟩
        | smp =>
          exfalso
          have : ∀ (k : Nat) (w : World) (ep : Ep) (r : World × Outcome),
              safeExecute known body k w ep = some r → r.2 = .ret := by
            intro k w ep r h
            cases k with
            | zero => simp [safeExecute] at h
            | succ k =>
              simp only [safeExecute, Option.bind_eq_bind] at h
              obtain ⟨⟨w1, o1⟩, h1, h⟩ := Option.bind_eq_some_iff.mp h
              cases o1 with
              | ret => simp at h; rw [← h]
              | smp =>
                simp only at h
                obtain ⟨w2, h2, h⟩ := Option.bind_eq_some_iff.mp h
                simp at h; rw [← h]
              | std =>
                simp only at h
                obtain ⟨w2, h2, h⟩ := Option.bind_eq_some_iff.mp h
                simp at h; rw [← h]
              | other =>
                simp only at h
                obtain ⟨w2, h2, h⟩ := Option.bind_eq_some_iff.mp h
                simp at h; rw [← h]
          have := this n w ep _ h1
          simp at this
        | std =>
          exfalso
          cases n with
          | zero => simp [safeExecute] at h1
          | succ k =>
            simp only [safeExecute, Option.bind_eq_bind] at h1
            obtain ⟨⟨w1, o1⟩, h0, h1⟩ := Option.bind_eq_some_iff.mp h1
            cases o1 <;> simp [Option.bind_eq_some_iff] at h1
        | other =>
          exfalso
          cases n with
          | zero => simp [safeExecute] at h1
          | succ k =>
            simp only [safeExecute, Option.bind_eq_bind] at h1
            obtain ⟨⟨w1, o1⟩, h0, h1⟩ := Option.bind_eq_some_iff.mp h1
            cases o1 <;> simp [Option.bind_eq_some_iff] at h1

/-- C65 is false for the entry points of the event of `Abort` itself: if one of them throws (and
none changes the subscriptions), `Abort` never returns: each time the exception is caught
`Abort` is called again, until the stack is exhausted. -/
theorem C65_abort_diverges (known : Known) (hk : known enterAborting = true) (body : Body)
    (hs : ∀ ep w, (body ep w).1 = []) (bad : Ep) (hbad : ∀ w, (body bad w).2 ≠ .ret) :
    ∀ (n : Nat) (w : World), bad ∈ w.subs enterAborting → abort known body n w = none := by
  intro n
  induction n using Nat.strongRecOn with
  | ind n ih =>
    intro w hm
    cases hab : abort known body n w with
    | none => rfl
    | some w' =>
      exfalso
      cases n with
      | zero => simp [abort] at hab
      | succ n =>
        simp only [abort, Option.bind_eq_bind] at hab
        obtain ⟨⟨w1, o1⟩, h1, _⟩ := Option.bind_eq_some_iff.mp hab
        cases n with
        | zero => simp [emit] at h1
        | succ n =>
          simp only [emit] at h1
          rw [if_pos hk] at h1
          obtain ⟨m, w2, r', hlt, hsub, h2⟩ := each_needs known body hs bad _ _ _ _ hm h1
          cases m with
          | zero => simp [safeExecute] at h2
          | succ m =>
            simp only [safeExecute, Option.bind_eq_bind] at h2
            obtain ⟨⟨w3, o3⟩, h3, h4⟩ := Option.bind_eq_some_iff.mp h2
            cases m with
            | zero => simp [execute] at h3
            | succ m =>
              simp only [execute, hs] at h3
              cases m with
              | zero => simp [commands] at h3
              | succ m =>
                simp only [commands, Option.some.injEq, Prod.mk.injEq] at h3
                have hsub3 : ∀ l, bad ∈ (w3.note l).subs enterAborting := by
                  intro l
                  rw [note_subs, ← h3.1, note_subs, hsub, note_subs]
                  exact hm
                have hne := hbad (w2.note [.start bad])
                cases o3 with
                | ret => exact hne h3.2
                | smp =>
                  simp only at h4
                  rw [ih (m + 1 + 1) (by omega) _ (hsub3 _)] at h4
                  simp at h4
                | std =>
                  simp only at h4
                  rw [ih (m + 1 + 1) (by omega) _ (hsub3 _)] at h4
                  simp at h4
                | other =>
                  simp only at h4
                  rw [ih (m + 1 + 1) (by omega) _ (hsub3 _)] at h4
                  simp at h4

/-- All the events of the examples exist. -/
def allKnown : Known := fun _ => true

/-- Entry points 1 and 4 return, 2 throws an `Smp::Exception`, 3 something else. -/
def demoBody : Body := fun ep _ =>
  ([], if ep = 2 then .smp else if ep = 3 then .other else .ret)

/-- Entry points 1, 2, 3, 1 of event 20 and `l` for the event of `Abort`. -/
def demoWorld (l : List Ep) : World :=
  { subs := fun e => if e = 20 then [1, 2, 3, 4] else if e = enterAborting then l else []
    trace := [] }

/-- C65_fails: with entry point 3 subscribed to the event of `Abort`, the emission of event 20
never returns. -/
theorem C65_fails : ∀ n, emit allKnown demoBody n (demoWorld [3]) 20 = none := by
  intro n
  cases h : emit allKnown demoBody n (demoWorld [3]) 20 with
  | none => rfl
  | some r =>
    exfalso
    cases n with
    | zero => simp [emit] at h
    | succ n =>
      simp only [emit, allKnown, if_true] at h
      obtain ⟨m, w1, r', _, hsub, h1⟩ := each_needs allKnown demoBody (fun _ _ => rfl) 3 _ _ _ _
        (by simp [demoWorld]) h
      cases m with
      | zero => simp [safeExecute] at h1
      | succ m =>
        simp only [safeExecute, Option.bind_eq_bind] at h1
        obtain ⟨⟨w3, o3⟩, h3, h4⟩ := Option.bind_eq_some_iff.mp h1
        cases m with
        | zero => simp [execute] at h3
        | succ m =>
          simp only [execute] at h3
          cases m with
          | zero => simp [commands] at h3
          | succ m =>
            simp only [demoBody, commands, Option.some.injEq, Prod.mk.injEq] at h3
            obtain ⟨rfl, rfl⟩ := h3
            simp only [Nat.reduceEqDiff, if_false, if_true] at h4
            rw [C65_abort_diverges allKnown rfl demoBody (fun _ _ => rfl) 3
              (by intro w; simp [demoBody]) _ _ (by
                rw [note_subs, note_subs, hsub]
                simp [demoWorld, World.note, enterAborting])] at h4
            simp at h4

/-- The hypotheses of the partial theorems are met, with entry points which throw. -/
example : (emit allKnown demoBody 12 (demoWorld [1]) 20).map (fun r => (r.1.trace, r.2)) =
    some ([.emitted 20, .start 1, .done 1,
      .start 2, .error 2, .message, .emitted 13, .start 1, .done 1, .aborting,
      .start 3, .error 3, .emitted 13, .start 1, .done 1, .aborting,
      .start 4, .done 4], .ret) := by decide +kernel

end Verif.Safe
