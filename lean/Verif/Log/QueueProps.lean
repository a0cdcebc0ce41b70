import Verif.Log.Queue
/-
C61: no log entry is lost, duplicated or reordered, in every interleaving of the logging
threads, the worker and the destructor.
-/
namespace Verif.Log.Queue

variable {α : Type}

/-! ### The invariant -/

/-- The worker holds the mutex at these positions. -/
def WPos.locked : WPos → Bool
  | .loop | .inner | .pop | .pred | .drain | .drainAppend _ => true
  | _ => false

/-- A logging thread holds the mutex at this position. -/
def CPos.locked : CPos α → Bool
  | .push _ => true
  | _ => false

/-- The number of appenders which have already got the front of the queue. -/
def WPos.given (n : Nat) : WPos → Nat
  | .append k => k
  | .drainAppend k => k
  | .pop => n
  | _ => 0

/-- The worker has an entry in hands. -/
def WPos.busy : WPos → Bool
  | .append _ | .pop | .drainAppend _ => true
  | _ => false

structure Inv (apps : List (α → Bool)) (s : State α) : Prop where
  own_w : s.owner = some .worker ↔ s.w.locked = true
  own_c : ∀ t, s.owner = some (.client t) ↔ (s.cl t).locked = true
  own_d : s.owner = some .dtor ↔ s.d = .stop
  order : s.accepted = s.done ++ s.q
  busy : s.w.busy = true → s.q ≠ []
  bound : s.w.given apps.length ≤ apps.length
  out : ∀ k f, apps[k]? = some f → s.written k =
    (s.done ++ if k < s.w.given apps.length then s.q.take 1 else []).filter f
  run : s.running = true ↔ s.d = .before ∨ s.d = .stop
  stop : s.running = false → s.stopAt ≤ s.accepted.length
  ended : s.w = .ended → s.running = false ∧ s.stopAt ≤ s.done.length
  drained : (s.w = .drain ∨ ∃ k, s.w = .drainAppend k) → s.running = false
  sleep : s.w = .asleep → s.running = false → s.d = .notify
  joined : s.d = .returned → s.w = .ended
  ok : s.fault = false

theorem inv_init (apps : List (α → Bool)) : Inv apps (init : State α) := by
  constructor <;> simp [init, WPos.locked, CPos.locked, WPos.busy, WPos.given]

theorem wake_locked (w : WPos) : (wake w).locked = w.locked := by
  unfold wake; split <;> simp_all [WPos.locked]
theorem wake_busy (w : WPos) : (wake w).busy = w.busy := by
  unfold wake; split <;> simp_all [WPos.busy]
theorem wake_given (n : Nat) (w : WPos) : (wake w).given n = w.given n := by
  unfold wake; split <;> simp_all [WPos.given]
theorem wake_ended (w : WPos) : wake w = .ended ↔ w = .ended := by
  unfold wake; split <;> simp_all
theorem wake_asleep (w : WPos) : wake w ≠ .asleep := by
  unfold wake; split <;> simp_all
theorem wake_drain (w : WPos) : wake w = .drain ↔ w = .drain := by
  unfold wake; split <;> simp_all
theorem wake_drainAppend (w : WPos) (k : Nat) : wake w = .drainAppend k ↔ w = .drainAppend k := by
  unfold wake; split <;> simp_all

theorem setCl_self (cl : Nat → CPos α) (t : Nat) (p : CPos α) : setCl cl t p t = p := by
  simp [setCl]
theorem setCl_ne (cl : Nat → CPos α) (t u : Nat) (p : CPos α) (h : u ≠ t) :
    setCl cl t p u = cl u := by
  simp [setCl, h]

theorem inv_client (apps : List (α → Bool)) (s s' : State α) (t : Nat) (a : α)
    (hi : Inv apps s) (h : stepClient s t a = some s') : Inv apps s' := by
  unfold stepClient at h
  split at h
  · rename_i hc
    split at h
    · rename_i ho
      simp only [Option.some.injEq] at h
      subst h
      have hw : s.w.locked = false := by
        have := hi.own_w; rw [ho] at this; simpa using this
      have hd : s.d ≠ .stop := by
        have := hi.own_d; rw [ho] at this; simpa using this
      refine ⟨?_, ?_, ?_, hi.order, hi.busy, hi.bound, hi.out, hi.run, hi.stop, hi.ended,
        hi.drained, hi.sleep, hi.joined, hi.ok⟩
      · simp [hw]
      · intro u
        have hu := hi.own_c u
        rw [ho] at hu
        by_cases e : u = t
        · subst e; simp [setCl, CPos.locked]
        · simp only [setCl_ne _ _ _ _ e]
          constructor
          · intro h; simp at h; exact absurd h.symm e
          · intro h; exact absurd (hu.mpr h) (by simp)
      · simp [hd]
    · simp at h
  · rename_i b hc
    simp only [Option.some.injEq] at h
    subst h
    have ho : s.owner = some (.client t) := (hi.own_c t).mpr (by rw [hc]; rfl)
    have hw : s.w.locked = false := by
      have := hi.own_w; rw [ho] at this; simpa using this
    have hd : s.d ≠ .stop := by
      have := hi.own_d; rw [ho] at this; simpa using this
    refine ⟨?_, ?_, ?_, ?_, ?_, hi.bound, ?_, hi.run, ?_, hi.ended, hi.drained, hi.sleep,
      hi.joined, hi.ok⟩
    · simp [hw]
    · intro u
      have hu := hi.own_c u
      rw [ho] at hu
      by_cases e : u = t
      · subst e; simp [setCl, CPos.locked]
      · simp only [setCl_ne _ _ _ _ e]
        constructor
        · intro h; simp at h
        · intro h; have := hu.mpr h; simp at this; exact absurd this.symm e
    · simp [hd]
    · simp [hi.order]
    · intro h; simp
    · intro k f hk
      have := hi.out k f hk
      simp only
      rw [this]
      congr 2
      split
      · rename_i hlt
        have hb : s.w.busy = true := by
          cases hw' : s.w <;> simp_all [WPos.given, WPos.busy]
        have hq := hi.busy hb
        cases hq' : s.q with
        | nil => exact absurd hq' hq
        | cons x r => simp
      · rfl
    · intro hr; have := hi.stop hr; simp; omega
  · rename_i hc
    simp only [Option.some.injEq] at h
    subst h
    refine ⟨?_, ?_, hi.own_d, hi.order, ?_, ?_, ?_, hi.run, hi.stop, ?_, ?_, ?_, ?_, hi.ok⟩
    · simp only [wake_locked]; exact hi.own_w
    · intro u
      have hu := hi.own_c u
      by_cases e : u = t
      · subst e
        rw [hc] at hu
        simpa [setCl, CPos.locked] using hu
      · simp only [setCl_ne _ _ _ _ e]; exact hu
    · simp only [wake_busy]; exact hi.busy
    · simp only [wake_given]; exact hi.bound
    · simp only [wake_given]; exact hi.out
    · simp only [wake_ended]; exact hi.ended
    · simp only [wake_drain, wake_drainAppend]; exact hi.drained
    · intro h; exact absurd h (wake_asleep _)
    · simp only [wake_ended]; exact hi.joined

theorem inv_dtor (apps : List (α → Bool)) (s s' : State α)
    (hi : Inv apps s) (h : stepDtor s = some s') : Inv apps s' := by
  unfold stepDtor at h
  split at h
  · rename_i hd
    split at h
    · rename_i ho
      simp only [Option.some.injEq] at h
      subst h
      have hr : s.running = true := hi.run.mpr (.inl hd)
      refine ⟨?_, ?_, ?_, hi.order, hi.busy, hi.bound, hi.out, ?_, hi.stop, hi.ended,
        hi.drained, ?_, ?_, hi.ok⟩
      · have := hi.own_w; rw [ho] at this; simpa using this
      · intro t; have := hi.own_c t; rw [ho] at this; simpa using this
      · simp
      · simp [hr]
      · intro _ h; simp [hr] at h
      · simp
    · simp at h
  · rename_i hd
    simp only [Option.some.injEq] at h
    subst h
    have ho : s.owner = some .dtor := hi.own_d.mpr hd
    have hr : s.running = true := hi.run.mpr (.inr hd)
    refine ⟨?_, ?_, ?_, hi.order, hi.busy, hi.bound, hi.out, ?_, ?_, ?_, ?_, ?_, ?_, hi.ok⟩
    · have := hi.own_w; rw [ho] at this; simpa using this
    · intro t; have := hi.own_c t; rw [ho] at this; simpa using this
    · simp
    · simp
    · intro _; exact Nat.le_refl _
    · intro h; have := (hi.ended h).1; simp [hr] at this
    · intro _; rfl
    · intro _ _; rfl
    · simp
  · rename_i hd
    simp only [Option.some.injEq] at h
    subst h
    have hr : s.running = false := by
      have := hi.run
      rw [hd] at this
      cases h : s.running
      · rfl
      · rw [h] at this; simp at this
    refine ⟨?_, hi.own_c, ?_, hi.order, ?_, ?_, ?_, ?_, hi.stop, ?_, ?_, ?_, ?_, hi.ok⟩
    · simp only [wake_locked]; exact hi.own_w
    · have := hi.own_d; rw [hd] at this; simpa using this
    · simp only [wake_busy]; exact hi.busy
    · simp only [wake_given]; exact hi.bound
    · simp only [wake_given]; exact hi.out
    · simp [hr]
    · simp only [wake_ended]; exact hi.ended
    · simp only [wake_drain, wake_drainAppend]; exact hi.drained
    · intro h; exact absurd h (wake_asleep _)
    · simp
  · rename_i hd
    split at h
    · rename_i he
      simp only [Option.some.injEq] at h
      subst h
      have hr := (hi.ended he).1
      refine ⟨hi.own_w, hi.own_c, ?_, hi.order, hi.busy, hi.bound, hi.out, ?_, hi.stop, hi.ended,
        hi.drained, ?_, ?_, hi.ok⟩
      · have := hi.own_d; rw [hd] at this; simpa using this
      · simp [hr]
      · intro h; simp [he] at h
      · intro _; exact he
    · simp at h
  · simp at h

theorem write_other (wr : Nat → List α) (k j : Nat) (f : α → Bool) (a : α) (h : j ≠ k) :
    write wr k f a j = wr j := by simp [write, h]
theorem write_same (wr : Nat → List α) (k : Nat) (f : α → Bool) (a : α) :
    write wr k f a k = wr k ++ [a].filter f := by
  unfold write
  cases hf : f a <;> simp [hf]

/-- What the appenders have written after one more call. -/
theorem out_write (apps : List (α → Bool)) (done q : List α) (a : α) (wr : Nat → List α) (k : Nat)
    (f : α → Bool) (hf : apps[k]? = some f) (hq : q.take 1 = [a])
    (h : ∀ j g, apps[j]? = some g → wr j = (done ++ if j < k then q.take 1 else []).filter g) :
    ∀ j g, apps[j]? = some g → write wr k f a j =
      (done ++ if j < k + 1 then q.take 1 else []).filter g := by
  intro j g hg
  have hj := h j g hg
  by_cases e : j = k
  · subst e
    have : g = f := by rw [hf] at hg; simpa using hg.symm
    subst this
    rw [write_same, hj, if_neg (by omega), if_pos (by omega), hq]
    simp
  · rw [write_other _ _ _ _ _ e, hj]
    by_cases hlt : j < k
    · rw [if_pos hlt, if_pos (by omega)]
    · rw [if_neg hlt, if_neg (by omega)]

/-- What the appenders have written after the front is popped. -/
theorem out_pop (apps : List (α → Bool)) (done : List α) (a : α) (r : List α) (wr : Nat → List α)
    (h : ∀ j g, apps[j]? = some g → wr j =
      (done ++ if j < apps.length then (a :: r).take 1 else []).filter g) :
    ∀ j g, apps[j]? = some g → wr j =
      ((done ++ [a]) ++ if j < 0 then r.take 1 else []).filter g := by
  intro j g hg
  have hj := h j g hg
  rw [hj, if_pos (List.getElem?_eq_some_iff.mp hg).1]
  simp

theorem locked_other (s : State α) (apps : List (α → Bool)) (hi : Inv apps s)
    (hl : s.w.locked = true) : (∀ t, (s.cl t).locked = false) ∧ s.d ≠ .stop ∧
      s.owner = some .worker := by
  have ho := hi.own_w.mpr hl
  refine ⟨?_, ?_, ho⟩
  · intro t
    have := hi.own_c t
    rw [ho] at this
    simpa using this
  · intro h
    have := hi.own_d.mpr h
    rw [ho] at this
    simp at this

theorem free_all (s : State α) (apps : List (α → Bool)) (hi : Inv apps s) (ho : s.owner = none) :
    (∀ t, (s.cl t).locked = false) ∧ s.d ≠ .stop ∧ s.w.locked = false := by
  refine ⟨?_, ?_, ?_⟩
  · intro t; have := hi.own_c t; rw [ho] at this; simpa using this
  · intro h; have := hi.own_d.mpr h; rw [ho] at this; simp at this
  · have := hi.own_w; rw [ho] at this; simpa using this

theorem inv_worker (apps : List (α → Bool)) (s s' : State α)
    (hi : Inv apps s) (h : stepWorker apps s = some s') : Inv apps s' := by
  unfold stepWorker at h
  split at h
  · -- begin
    rename_i hw
    split at h
    · rename_i ho
      simp only [Option.some.injEq] at h
      subst h
      obtain ⟨hc, hd, _⟩ := free_all s apps hi ho
      have hout := hi.out
      rw [hw] at hout
      exact ⟨by simp [WPos.locked], by intro t; simp [hc t], by simp [hd], hi.order,
        by simp [WPos.busy], by simp [WPos.given], hout, hi.run, hi.stop, by simp, by simp,
        by simp, fun h => by have := hi.joined h; rw [hw] at this; simp at this, hi.ok⟩
    · simp at h
  · -- loop
    rename_i hw
    simp only [Option.some.injEq] at h
    subst h
    obtain ⟨hc, hd, ho⟩ := locked_other s apps hi (by rw [hw]; rfl)
    have hout := hi.out
    rw [hw] at hout
    have hj : s.d ≠ .returned := fun h => by have := hi.joined h; rw [hw] at this; simp at this
    cases hr : s.running
    · exact ⟨by simp [WPos.locked, ho], by intro t; simp [hc t, ho], by simp [hd, ho], hi.order,
        by simp [WPos.busy], by simp [WPos.given], hout, by rw [← hi.run, hr], fun _ => hi.stop hr,
        by simp, by simp, by simp, fun h => absurd h hj, hi.ok⟩
    · exact ⟨by simp [WPos.locked, ho], by intro t; simp [hc t, ho], by simp [hd, ho], hi.order,
        by simp [WPos.busy], by simp [WPos.given], hout, by rw [← hi.run, hr], by simp,
        by simp, by simp, by simp, fun h => absurd h hj, hi.ok⟩
  · -- inner
    rename_i hw
    obtain ⟨hc, hd, ho⟩ := locked_other s apps hi (by rw [hw]; rfl)
    have hout := hi.out
    rw [hw] at hout
    have hj : s.d ≠ .returned := fun h => by have := hi.joined h; rw [hw] at this; simp at this
    split at h
    · simp only [Option.some.injEq] at h
      subst h
      exact ⟨by simp [WPos.locked, ho], by intro t; simp [hc t, ho], by simp [hd, ho], hi.order,
        by simp [WPos.busy], by simp [WPos.given], hout, hi.run, hi.stop,
        by simp, by simp, by simp, fun h => absurd h hj, hi.ok⟩
    · rename_i hq
      simp only [Option.some.injEq] at h
      subst h
      exact ⟨by simp [WPos.locked], by intro t; simp [hc t], by simp [hd], hi.order,
        by simpa [WPos.busy] using hq, by simp [WPos.given], hout, hi.run, hi.stop,
        by simp, by simp, by simp, fun h => absurd h hj, hi.ok⟩
  · -- append
    rename_i k hw
    have hj : s.d ≠ .returned := fun h => by have := hi.joined h; rw [hw] at this; simp at this
    have hout := hi.out
    rw [hw] at hout
    have hbd := hi.bound
    rw [hw] at hbd
    simp only [WPos.given] at hbd hout
    have hq : s.q ≠ [] := hi.busy (by rw [hw]; rfl)
    have hlk : s.w.locked = false := by rw [hw]; rfl
    split at h
    · rename_i f hf
      split at h
      · rename_i hq'; exact absurd hq' hq
      · rename_i a r hqe
        simp only [Option.some.injEq] at h
        subst h
        have hlt := (List.getElem?_eq_some_iff.mp hf).1
        refine ⟨by have := hi.own_w; rw [hlk] at this; simpa [WPos.locked] using this, hi.own_c,
          hi.own_d, hi.order, by intro _; exact hq, by simp [WPos.given]; omega, ?_, hi.run,
          hi.stop, by simp, by simp, by simp, fun h => absurd h hj, hi.ok⟩
        exact out_write apps s.done s.q a s.written k f hf (by rw [hqe]; rfl) hout
    · rename_i hf
      split at h
      · rename_i ho
        simp only [Option.some.injEq] at h
        subst h
        obtain ⟨hc, hd, _⟩ := free_all s apps hi ho
        have hk : k = apps.length := by
          have := List.getElem?_eq_none_iff.mp hf
          omega
        subst hk
        exact ⟨by simp [WPos.locked], by intro t; simp [hc t], by simp [hd], hi.order,
          by intro _; exact hq, by simp [WPos.given], hout, hi.run, hi.stop,
          by simp, by simp, by simp, fun h => absurd h hj, hi.ok⟩
      · simp at h
  · -- pop
    rename_i hw
    obtain ⟨hc, hd, ho⟩ := locked_other s apps hi (by rw [hw]; rfl)
    have hj : s.d ≠ .returned := fun h => by have := hi.joined h; rw [hw] at this; simp at this
    have hout := hi.out
    rw [hw] at hout
    simp only [WPos.given] at hout
    have hq : s.q ≠ [] := hi.busy (by rw [hw]; rfl)
    split at h
    · rename_i hq'; exact absurd hq' hq
    · rename_i a r hqe
      simp only [Option.some.injEq] at h
      subst h
      rw [hqe] at hout
      refine ⟨by simp [WPos.locked, ho], by intro t; simp [hc t, ho], by simp [hd, ho], ?_,
        by simp [WPos.busy], by simp [WPos.given], ?_, hi.run, hi.stop,
        by simp, by simp, by simp, fun h => absurd h hj, hi.ok⟩
      · have := hi.order; rw [hqe] at this; simpa using this
      · exact out_pop apps s.done a r s.written hout
  · -- pred
    rename_i hw
    obtain ⟨hc, hd, ho⟩ := locked_other s apps hi (by rw [hw]; rfl)
    have hout := hi.out
    rw [hw] at hout
    have hj : s.d ≠ .returned := fun h => by have := hi.joined h; rw [hw] at this; simp at this
    split at h
    · simp only [Option.some.injEq] at h
      subst h
      exact ⟨by simp [WPos.locked, ho], by intro t; simp [hc t, ho], by simp [hd, ho], hi.order,
        by simp [WPos.busy], by simp [WPos.given], hout, hi.run, hi.stop,
        by simp, by simp, by simp, fun h => absurd h hj, hi.ok⟩
    · rename_i hp
      simp only [Option.some.injEq] at h
      subst h
      have hr : s.running = true := by
        cases hr : s.running
        · simp [hr] at hp
        · rfl
      exact ⟨by simp [WPos.locked], by intro t; simp [hc t], by simp [hd], hi.order,
        by simp [WPos.busy], by simp [WPos.given], hout, hi.run, hi.stop,
        by simp, by simp, by simp [hr], fun h => absurd h hj, hi.ok⟩
  · simp at h
  · -- woken
    rename_i hw
    have hout := hi.out
    rw [hw] at hout
    have hj : s.d ≠ .returned := fun h => by have := hi.joined h; rw [hw] at this; simp at this
    split at h
    · rename_i ho
      simp only [Option.some.injEq] at h
      subst h
      obtain ⟨hc, hd, _⟩ := free_all s apps hi ho
      exact ⟨by simp [WPos.locked], by intro t; simp [hc t], by simp [hd], hi.order,
        by simp [WPos.busy], by simp [WPos.given], hout, hi.run, hi.stop, by simp, by simp,
        by simp, fun h => absurd h hj, hi.ok⟩
    · simp at h
  · -- drain
    rename_i hw
    obtain ⟨hc, hd, ho⟩ := locked_other s apps hi (by rw [hw]; rfl)
    have hout := hi.out
    rw [hw] at hout
    have hj : s.d ≠ .returned := fun h => by have := hi.joined h; rw [hw] at this; simp at this
    have hr := hi.drained (.inl hw)
    split at h
    · rename_i hq
      simp only [Option.some.injEq] at h
      subst h
      have hlen : s.stopAt ≤ s.done.length := by
        have h1 := hi.stop hr
        have h2 := hi.order
        rw [List.isEmpty_iff.mp hq] at h2
        rw [h2] at h1
        simpa using h1
      exact ⟨by simp [WPos.locked], by intro t; simp [hc t], by simp [hd], hi.order,
        by simp [WPos.busy], by simp [WPos.given], hout, hi.run, hi.stop,
        fun _ => ⟨hr, hlen⟩, by simp, by simp, fun h => absurd h hj, hi.ok⟩
    · rename_i hq
      simp only [Option.some.injEq] at h
      subst h
      exact ⟨by simp [WPos.locked, ho], by intro t; simp [hc t, ho], by simp [hd, ho], hi.order,
        by simpa [WPos.busy] using hq, by simp [WPos.given], hout, hi.run, hi.stop,
        by simp, by simp [hr], by simp, fun h => absurd h hj, hi.ok⟩
  · -- drainAppend
    rename_i k hw
    obtain ⟨hc, hd, ho⟩ := locked_other s apps hi (by rw [hw]; rfl)
    have hj : s.d ≠ .returned := fun h => by have := hi.joined h; rw [hw] at this; simp at this
    have hout := hi.out
    rw [hw] at hout
    have hbd := hi.bound
    rw [hw] at hbd
    simp only [WPos.given] at hbd hout
    have hr := hi.drained (.inr ⟨k, hw⟩)
    have hq : s.q ≠ [] := hi.busy (by rw [hw]; rfl)
    split at h
    · rename_i hq'; exact absurd hq' hq
    · rename_i a r hqe
      split at h
      · rename_i f hf
        simp only [Option.some.injEq] at h
        subst h
        have hlt := (List.getElem?_eq_some_iff.mp hf).1
        refine ⟨by simp [WPos.locked, ho], by intro t; simp [hc t, ho], by simp [hd, ho], hi.order,
          by intro _; exact hq, by simp [WPos.given]; omega, ?_, hi.run,
          hi.stop, by simp, by simp [hr], by simp, fun h => absurd h hj, hi.ok⟩
        exact out_write apps s.done s.q a s.written k f hf (by rw [hqe]; rfl) hout
      · rename_i hf
        simp only [Option.some.injEq] at h
        subst h
        have hk : k = apps.length := by
          have := List.getElem?_eq_none_iff.mp hf
          omega
        subst hk
        rw [hqe] at hout
        refine ⟨by simp [WPos.locked, ho], by intro t; simp [hc t, ho], by simp [hd, ho], ?_,
          by simp [WPos.busy], by simp [WPos.given], ?_, hi.run, hi.stop,
          by simp, by simp [hr], by simp, fun h => absurd h hj, hi.ok⟩
        · have := hi.order; rw [hqe] at this; simpa using this
        · exact out_pop apps s.done a r s.written hout
  · simp at h

theorem inv_step (apps : List (α → Bool)) (s s' : State α) (a : Act α)
    (hi : Inv apps s) (h : step apps s a = some s') : Inv apps s' := by
  cases a with
  | client t a => exact inv_client apps s s' t a hi h
  | worker => exact inv_worker apps s s' hi h
  | spurious =>
    simp only [step] at h
    split at h
    · rename_i hw
      simp only [Option.some.injEq] at h
      subst h
      have hlk : s.w.locked = false := by rw [hw]; rfl
      have hout := hi.out
      rw [hw] at hout
      exact ⟨by have := hi.own_w; rw [hlk] at this; simpa [WPos.locked] using this, hi.own_c,
        hi.own_d, hi.order, by simp [WPos.busy], by simp [WPos.given], hout, hi.run, hi.stop,
        by simp, by simp, by simp, fun h => by have := hi.joined h; rw [hw] at this; simp at this,
        hi.ok⟩
    · simp at h
  | dtor => exact inv_dtor apps s s' hi h

theorem inv_run (apps : List (α → Bool)) (as : List (Act α)) : ∀ s s' : State α,
    Inv apps s → run apps s as = some s' → Inv apps s' := by
  induction as with
  | nil =>
    intro s s' hi h
    simp only [run, Option.some.injEq] at h
    exact h ▸ hi
  | cons a as ih =>
    intro s s' hi h
    simp only [run] at h
    obtain ⟨m, hm, hr⟩ := Option.bind_eq_some_iff.mp h
    exact ih m s' (inv_step apps s m a hi hm) hr

theorem Reach.inv {apps : List (α → Bool)} {s : State α} (h : Reach apps s) : Inv apps s := by
  obtain ⟨as, h⟩ := h
  exact inv_run apps as init s (inv_init apps) h

/-! ### The theorems -/

/-- C61, at every moment of every interleaving: what an appender has written is, in the order
of acceptance and without repetition, the entries its filter accepts among the first ones
accepted; the appenders differ by at most one entry; the queue is never misused. -/
theorem C61_order (apps : List (α → Bool)) (s : State α) (h : Reach apps s) :
    s.fault = false ∧ ∃ n, ∀ k f, apps[k]? = some f →
      s.written k = (s.accepted.take n).filter f ∨
      s.written k = (s.accepted.take (n + 1)).filter f := by
  have hi := h.inv
  refine ⟨hi.ok, s.done.length, ?_⟩
  intro k f hk
  have hw := hi.out k f hk
  split at hw
  · right
    have e : (s.done ++ s.q).take (s.done.length + 1) = s.done ++ s.q.take 1 := by
      rw [List.take_append, List.take_of_length_le (by omega), Nat.add_sub_cancel_left]
    rw [hw, hi.order, e]
  · left
    rw [hw, hi.order]
    simp

/-- C61: when the destructor returns, every entry accepted before `Stop` has been written by
each appender whose filter accepts it, exactly once and in the order of acceptance. (Entries
which other threads push while the destructor runs may follow.) -/
theorem C61_delivered (apps : List (α → Bool)) (s : State α) (h : Reach apps s)
    (hd : s.d = .returned) : s.stopAt ≤ s.accepted.length ∧
    ∃ n, s.stopAt ≤ n ∧ ∀ k f, apps[k]? = some f →
      s.written k = (s.accepted.take n).filter f := by
  have hi := h.inv
  have he := hi.joined hd
  obtain ⟨hr, hlen⟩ := hi.ended he
  refine ⟨hi.stop hr, s.done.length, hlen, ?_⟩
  intro k f hk
  have hw := hi.out k f hk
  rw [he] at hw
  rw [hw, hi.order]
  simp [WPos.given]

/-- C61: if nothing is pushed after `Stop`, each appender has written exactly the entries
accepted, in order. -/
theorem C61_all (apps : List (α → Bool)) (s : State α) (h : Reach apps s)
    (hd : s.d = .returned) (hs : s.accepted.length = s.stopAt) (k : Nat) (f : α → Bool)
    (hk : apps[k]? = some f) : s.written k = s.accepted.filter f := by
  obtain ⟨_, n, hn, hw⟩ := C61_delivered apps s h hd
  rw [hw k f hk, List.take_of_length_le (by omega)]

/-- `stopAt` is what its name says: it is the number of entries accepted at the step which
clears `running`, and no other step changes it or clears `running`. -/
theorem stopAt_spec (apps : List (α → Bool)) (s s' : State α) (a : Act α)
    (h : step apps s a = some s') :
    (s'.running = s.running ∧ s'.stopAt = s.stopAt) ∨
    (s'.running = false ∧ s'.stopAt = s.accepted.length ∧ a = .dtor) := by
  cases a with
  | client t a =>
    simp only [step, stepClient] at h
    split at h
    · split at h
      · simp at h; subst h; exact .inl ⟨rfl, rfl⟩
      · simp at h
    · simp at h; subst h; exact .inl ⟨rfl, rfl⟩
    · simp at h; subst h; exact .inl ⟨rfl, rfl⟩
  | worker =>
    left
    simp only [step, stepWorker] at h
    repeat' split at h
    all_goals first
      | (simp at h; done)
      | (simp only [Option.some.injEq] at h; subst h; exact ⟨rfl, rfl⟩)
  | spurious =>
    simp only [step] at h
    split at h
    · simp at h; subst h; exact .inl ⟨rfl, rfl⟩
    · simp at h
  | dtor =>
    simp only [step, stepDtor] at h
    split at h
    · split at h
      · simp at h; subst h; exact .inl ⟨rfl, rfl⟩
      · simp at h
    · simp at h; subst h; exact .inr ⟨rfl, rfl, rfl⟩
    · simp at h; subst h; exact .inl ⟨rfl, rfl⟩
    · split at h
      · simp at h; subst h; exact .inl ⟨rfl, rfl⟩
      · simp at h
    · simp at h

/-! ### The destructor returns -/

/-- An upper bound of the steps the worker still has to do once `running` is cleared, with `m`
entries to come and `n` appenders. -/
def rank (n m : Nat) : WPos → Nat
  | .ended => 0
  | .drain => 1 + m * (n + 3)
  | .drainAppend k => 1 + (m - 1) * (n + 3) + (n - k) + 1
  | .loop => 2 + m * (n + 3)
  | .pred => 3 + m * (n + 3)
  | .begin => 3 + m * (n + 3)
  | .inner => 4 + m * (n + 3)
  | .woken => 4 + m * (n + 3)
  | .asleep => 5 + m * (n + 3)
  | .append k => 4 + (m - 1) * (n + 3) + (n - k) + 2
  | .pop => 4 + (m - 1) * (n + 3) + 1

/-- One if a logging thread holds the mutex. -/
def pending (s : State α) : Nat :=
  match s.owner with
  | some (.client _) => 1
  | _ => 0

def dRank : DPos → Nat
  | .before => 4
  | .stop => 3
  | .notify => 2
  | .join => 1
  | .returned => 0

/-- The bound. -/
def measure (apps : List (α → Bool)) (s : State α) : Nat :=
  rank apps.length (s.q.length + pending s) s.w + pending s + dRank s.d

/-- The action begins a call of `Log`. -/
def Begins (s : State α) : Act α → Prop
  | .client t _ => s.cl t = .out
  | _ => False

/-- The action is the notification at the end of a call of `Log`. -/
def Notifies (s : State α) : Act α → Prop
  | .client t _ => s.cl t = .notify
  | _ => False

theorem rank_wake (n m : Nat) (w : WPos) : rank n m (wake w) ≤ rank n m w := by
  unfold wake
  split
  · rename_i h; subst h; simp [rank]
  · exact Nat.le_refl _

theorem mul_pred (m c : Nat) (h : 0 < m) : m * c = (m - 1) * c + c := by
  cases m with
  | zero => omega
  | succ m => simp [Nat.succ_mul]

theorem measure_notify (apps : List (α → Bool)) (s s' : State α) (a : Act α)
    (hn : Notifies s a) (h : step apps s a = some s') :
    measure apps s' ≤ measure apps s := by
  cases a with
  | client t a =>
    simp only [Notifies] at hn
    simp only [step, stepClient, hn, Option.some.injEq] at h
    subst h
    have := rank_wake apps.length (s.q.length + pending s) s.w
    simp only [measure, pending] at this ⊢
    omega
  | worker => exact absurd hn (by simp [Notifies])
  | spurious => exact absurd hn (by simp [Notifies])
  | dtor => exact absurd hn (by simp [Notifies])

theorem measure_step (apps : List (α → Bool)) (s s' : State α) (a : Act α) (hi : Inv apps s)
    (hr : s.running = false) (hb : ¬ Begins s a) (hn : ¬ Notifies s a)
    (h : step apps s a = some s') : measure apps s' < measure apps s := by
  cases a with
  | client t a =>
    simp only [step, stepClient] at h
    split at h
    · rename_i hc; exact absurd hc hb
    · rename_i b hc
      have ho : s.owner = some (.client t) := (hi.own_c t).mpr (by rw [hc]; rfl)
      simp only [Option.some.injEq] at h
      subst h
      simp only [measure, pending, ho, List.length_append, List.length_singleton,
        Nat.add_zero]
      omega
    · rename_i hc; exact absurd hc hn
  | worker =>
    simp only [step] at h
    have hbd := hi.bound
    have hbusy := hi.busy
    have hdr := hi.drained
    have hdn := hi.run
    unfold stepWorker at h
    have lockedPending : s.w.locked = true → pending s = 0 := by
      intro hl
      have := (locked_other s apps hi hl).2.2
      simp [pending, this]
    have qpos : s.w.busy = true → 0 < s.q.length := by
      intro hb
      have := hi.busy hb
      cases hq : s.q with
      | nil => exact absurd hq this
      | cons a r => simp
    split at h
    · rename_i hw
      split at h
      · rename_i ho
        simp only [Option.some.injEq] at h
        subst h
        simp only [measure, pending, ho, hw, rank]
        omega
      · simp at h
    · rename_i hw
      simp only [Option.some.injEq] at h
      subst h
      have hp := lockedPending (by rw [hw]; rfl)
      simp only [pending] at hp
      simp only [measure, pending, hw, rank, hr, Bool.false_eq_true, if_false]
      omega
    · rename_i hw
      have hp := lockedPending (by rw [hw]; rfl)
      have ho := (locked_other s apps hi (by rw [hw]; rfl)).2.2
      split at h
      · simp only [Option.some.injEq] at h
        subst h
        simp only [measure, pending, hw, rank, ho]
        omega
      · rename_i hq
        simp only [Option.some.injEq] at h
        subst h
        have hq' : 0 < s.q.length := by
          cases hq' : s.q with
          | nil => simp [hq'] at hq
          | cons a r => simp
        have := mul_pred s.q.length (apps.length + 3) hq'
        simp only [measure, pending, hw, rank, ho, Nat.add_zero]
        omega
    · rename_i k hw
      split at h
      · rename_i f hf
        have hlt := (List.getElem?_eq_some_iff.mp hf).1
        split at h
        · rename_i hq'; exact absurd hq' (hi.busy (by rw [hw]; rfl))
        · simp only [Option.some.injEq] at h
          subst h
          simp only [measure, pending, hw, rank]
          omega
      · split at h
        · rename_i ho
          simp only [Option.some.injEq] at h
          subst h
          simp only [measure, pending, hw, rank, ho]
          omega
        · simp at h
    · rename_i hw
      have ho := (locked_other s apps hi (by rw [hw]; rfl)).2.2
      split at h
      · rename_i hq'; exact absurd hq' (hi.busy (by rw [hw]; rfl))
      · rename_i a r hq
        simp only [Option.some.injEq] at h
        subst h
        simp only [measure, pending, hw, rank, ho, hq, List.length_cons, Nat.add_zero,
          Nat.add_sub_cancel]
        omega
    · rename_i hw
      have ho := (locked_other s apps hi (by rw [hw]; rfl)).2.2
      split at h
      · simp only [Option.some.injEq] at h
        subst h
        simp only [measure, pending, hw, rank, ho]
        omega
      · rename_i hp; simp [hr] at hp
    · simp at h
    · rename_i hw
      split at h
      · rename_i ho
        simp only [Option.some.injEq] at h
        subst h
        simp only [measure, pending, ho, hw, rank]
        omega
      · simp at h
    · rename_i hw
      have ho := (locked_other s apps hi (by rw [hw]; rfl)).2.2
      split at h
      · simp only [Option.some.injEq] at h
        subst h
        simp only [measure, pending, hw, rank, ho]
        omega
      · rename_i hq
        simp only [Option.some.injEq] at h
        subst h
        have hq' : 0 < s.q.length := by
          cases hq' : s.q with
          | nil => simp [hq'] at hq
          | cons a r => simp
        have := mul_pred s.q.length (apps.length + 3) hq'
        simp only [measure, pending, hw, rank, ho, Nat.add_zero]
        omega
    · rename_i k hw
      have ho := (locked_other s apps hi (by rw [hw]; rfl)).2.2
      split at h
      · rename_i hq'; exact absurd hq' (hi.busy (by rw [hw]; rfl))
      · rename_i a r hq
        split at h
        · rename_i f hf
          have hlt := (List.getElem?_eq_some_iff.mp hf).1
          simp only [Option.some.injEq] at h
          subst h
          simp only [measure, pending, hw, rank, ho]
          omega
        · simp only [Option.some.injEq] at h
          subst h
          simp only [measure, pending, hw, rank, ho, hq, List.length_cons, Nat.add_zero,
            Nat.add_sub_cancel]
          omega
    · simp at h
  | spurious =>
    simp only [step] at h
    split at h
    · rename_i hw
      simp only [Option.some.injEq] at h
      subst h
      simp only [measure, pending, hw, rank]
      omega
    · simp at h
  | dtor =>
    simp only [step, stepDtor] at h
    split at h
    · rename_i hd
      have := hi.run.mpr (.inl hd)
      rw [hr] at this; simp at this
    · rename_i hd
      have := hi.run.mpr (.inr hd)
      rw [hr] at this; simp at this
    · rename_i hd
      simp only [Option.some.injEq] at h
      subst h
      have := rank_wake apps.length (s.q.length + pending s) s.w
      simp only [measure, pending, hd, dRank] at this ⊢
      omega
    · rename_i hd
      split at h
      · simp only [Option.some.injEq] at h
        subst h
        simp only [measure, pending, hd, dRank]
        omega
      · simp at h
    · simp at h

/-- The number of steps of a run which are not the notification at the end of `Log`, if no
call of `Log` begins; `none` if the run is not possible or begins a call. -/
def works [DecidableEq α] (apps : List (α → Bool)) (s : State α) : List (Act α) → Option Nat
  | [] => some 0
  | a :: as =>
    match a with
    | .client t _ =>
      if s.cl t = .out then none else
      (step apps s a).bind (fun s' => (works apps s' as).map
        (fun n => if s.cl t = .notify then n else n + 1))
    | _ => (step apps s a).bind (fun s' => (works apps s' as).map (· + 1))

theorem works_le [DecidableEq α] (apps : List (α → Bool)) (as : List (Act α)) : ∀ (s : State α),
    Inv apps s → s.running = false → ∀ n, works apps s as = some n → n ≤ measure apps s := by
  induction as with
  | nil => intro s _ _ n h; simp [works] at h; omega
  | cons a as ih =>
    intro s hi hr n h
    have hrun : ∀ s', step apps s a = some s' → s'.running = false := by
      intro s' hs
      rcases stopAt_spec apps s s' a hs with ⟨e, _⟩ | ⟨e, _⟩
      · rw [e, hr]
      · exact e
    cases a with
    | client t x =>
      simp only [works] at h
      split at h
      · simp at h
      · rename_i hno
        obtain ⟨s', hs, h⟩ := Option.bind_eq_some_iff.mp h
        obtain ⟨m, hm, rfl⟩ := Option.map_eq_some_iff.mp h
        have h1 := ih s' (inv_step apps s s' _ hi hs) (hrun s' hs) m hm
        split
        · rename_i hc
          have := measure_notify apps s s' (.client t x) hc hs
          omega
        · rename_i hc
          have := measure_step apps s s' (.client t x) hi hr hno hc hs
          omega
    | worker =>
      simp only [works] at h
      obtain ⟨s', hs, h⟩ := Option.bind_eq_some_iff.mp h
      obtain ⟨m, hm, rfl⟩ := Option.map_eq_some_iff.mp h
      have h1 := ih s' (inv_step apps s s' _ hi hs) (hrun s' hs) m hm
      have := measure_step apps s s' .worker hi hr (by simp [Begins]) (by simp [Notifies]) hs
      omega
    | spurious =>
      simp only [works] at h
      obtain ⟨s', hs, h⟩ := Option.bind_eq_some_iff.mp h
      obtain ⟨m, hm, rfl⟩ := Option.map_eq_some_iff.mp h
      have h1 := ih s' (inv_step apps s s' _ hi hs) (hrun s' hs) m hm
      have := measure_step apps s s' .spurious hi hr (by simp [Begins]) (by simp [Notifies]) hs
      omega
    | dtor =>
      simp only [works] at h
      obtain ⟨s', hs, h⟩ := Option.bind_eq_some_iff.mp h
      obtain ⟨m, hm, rfl⟩ := Option.map_eq_some_iff.mp h
      have h1 := ih s' (inv_step apps s s' _ hi hs) (hrun s' hs) m hm
      have := measure_step apps s s' .dtor hi hr (by simp [Begins]) (by simp [Notifies]) hs
      omega

/-- C61, the destructor returns (1): once `Stop` is done, the number of steps which the worker,
the destructor and the pushes in progress can still take is bounded in every interleaving
where no call of `Log` begins. -/
theorem C61_bounded [DecidableEq α] (apps : List (α → Bool)) (s : State α) (h : Reach apps s)
    (hr : s.running = false) : ∃ M, ∀ as n, works apps s as = some n → n ≤ M :=
  ⟨measure apps s, fun as n hn => works_le apps as s h.inv hr n hn⟩

/-- C61, the destructor returns (2): once `Stop` is done and as long as the destructor has not
returned, some such step is possible. No wake-up is lost and nothing waits for ever. -/
theorem C61_progress (apps : List (α → Bool)) (s : State α) (h : Reach apps s)
    (hr : s.running = false) (hd : s.d ≠ .returned) :
    ∃ a s', step apps s a = some s' ∧ ¬ Begins s a ∧ ¬ Notifies s a := by
  have hi := h.inv
  have hd' : s.d = .notify ∨ s.d = .join := by
    have := hi.run
    rw [hr] at this
    cases hdd : s.d <;> simp_all
  have dstep : ∀ s', step apps s .dtor = some s' →
      ∃ a s', step apps s a = some s' ∧ ¬ Begins s a ∧ ¬ Notifies s a :=
    fun s' hs => ⟨.dtor, s', hs, by simp [Begins], by simp [Notifies]⟩
  have wstep : ∀ s', step apps s .worker = some s' →
      ∃ a s', step apps s a = some s' ∧ ¬ Begins s a ∧ ¬ Notifies s a :=
    fun s' hs => ⟨.worker, s', hs, by simp [Begins], by simp [Notifies]⟩
  cases ho : s.owner with
  | some who =>
    cases who with
    | dtor =>
      have := hi.own_d.mp ho
      rcases hd' with e | e <;> rw [e] at this <;> simp at this
    | client t =>
      have hl := (hi.own_c t).mp ho
      cases hc : s.cl t with
      | out => rw [hc] at hl; simp [CPos.locked] at hl
      | notify => rw [hc] at hl; simp [CPos.locked] at hl
      | push b =>
        exact ⟨.client t b, _, by simp only [step, stepClient, hc]; rfl,
          by simp [Begins, hc], by simp [Notifies, hc]⟩
    | worker =>
      have hl := hi.own_w.mp ho
      cases hw : s.w with
      | loop => exact wstep _ (by simp only [step, stepWorker, hw]; rfl)
      | inner =>
        by_cases hq : s.q.isEmpty
        · exact wstep _ (by simp only [step, stepWorker, hw, hq, if_true]; rfl)
        · exact wstep _ (by simp only [step, stepWorker, hw]; rw [if_neg hq])
      | pop =>
        cases hq : s.q with
        | nil => exact absurd hq (hi.busy (by rw [hw]; rfl))
        | cons a r => exact wstep _ (by simp only [step, stepWorker, hw, hq]; rfl)
      | pred =>
        exact wstep _ (by
          simp only [step, stepWorker, hw, hr, Bool.not_false, Bool.true_or, if_true]; rfl)
      | drain =>
        by_cases hq : s.q.isEmpty
        · exact wstep _ (by simp only [step, stepWorker, hw, hq, if_true]; rfl)
        · exact wstep _ (by simp only [step, stepWorker, hw]; rw [if_neg hq])
      | drainAppend k =>
        cases hq : s.q with
        | nil => exact absurd hq (hi.busy (by rw [hw]; rfl))
        | cons a r =>
          cases hf : apps[k]? with
          | none => exact wstep _ (by simp only [step, stepWorker, hw, hq, hf]; rfl)
          | some f => exact wstep _ (by simp only [step, stepWorker, hw, hq, hf]; rfl)
      | begin => rw [hw] at hl; simp [WPos.locked] at hl
      | append k => rw [hw] at hl; simp [WPos.locked] at hl
      | asleep => rw [hw] at hl; simp [WPos.locked] at hl
      | woken => rw [hw] at hl; simp [WPos.locked] at hl
      | ended => rw [hw] at hl; simp [WPos.locked] at hl
  | none =>
    have hl := (free_all s apps hi ho).2.2
    cases hw : s.w with
    | begin => exact wstep _ (by simp only [step, stepWorker, hw, ho, if_true]; rfl)
    | append k =>
      cases hf : apps[k]? with
      | none => exact wstep _ (by simp only [step, stepWorker, hw, hf, ho, if_true]; rfl)
      | some f =>
        cases hq : s.q with
        | nil => exact absurd hq (hi.busy (by rw [hw]; rfl))
        | cons a r => exact wstep _ (by simp only [step, stepWorker, hw, hq, hf]; rfl)
    | asleep =>
      have := hi.sleep hw hr
      exact dstep _ (by simp only [step, stepDtor, this]; rfl)
    | woken => exact wstep _ (by simp only [step, stepWorker, hw, ho, if_true]; rfl)
    | ended =>
      rcases hd' with e | e
      · exact dstep _ (by simp only [step, stepDtor, e]; rfl)
      · exact dstep _ (by simp only [step, stepDtor, e, hw, if_true]; rfl)
    | loop => rw [hw] at hl; simp [WPos.locked] at hl
    | inner => rw [hw] at hl; simp [WPos.locked] at hl
    | pop => rw [hw] at hl; simp [WPos.locked] at hl
    | pred => rw [hw] at hl; simp [WPos.locked] at hl
    | drain => rw [hw] at hl; simp [WPos.locked] at hl
    | drainAppend k => rw [hw] at hl; simp [WPos.locked] at hl

/-- C61: an entry which is in the queue while the logger runs is not forgotten: the worker is
not asleep unless a notification is on its way. -/
theorem C61_no_lost_wakeup (apps : List (α → Bool)) (s : State α) (h : Reach apps s)
    (hw : s.w = .asleep) (hq : s.q ≠ []) : ∃ t, s.cl t = .notify := by
  have key : ∀ (as : List (Act α)) (s s' : State α), Inv apps s →
      (s.w = .asleep → s.q ≠ [] → ∃ t, s.cl t = .notify) → run apps s as = some s' →
      (s'.w = .asleep → s'.q ≠ [] → ∃ t, s'.cl t = .notify) := by
    intro as
    induction as with
    | nil =>
      intro s s' _ hp h
      simp only [run, Option.some.injEq] at h
      exact h ▸ hp
    | cons a as ih =>
      intro s s' hi hp h
      simp only [run] at h
      obtain ⟨m, hm, hr⟩ := Option.bind_eq_some_iff.mp h
      refine ih m s' (inv_step apps s m a hi hm) ?_ hr
      intro hw hq
      cases a with
      | client t x =>
        simp only [step, stepClient] at hm
        split at hm
        · rename_i hc
          split at hm
          · simp only [Option.some.injEq] at hm
            subst hm
            obtain ⟨u, hu⟩ := hp hw hq
            refine ⟨u, ?_⟩
            have : u ≠ t := fun e => by rw [e, hc] at hu; simp at hu
            simp only [setCl_ne _ _ _ _ this]
            exact hu
          · simp at hm
        · simp only [Option.some.injEq] at hm
          subst hm
          exact ⟨t, by simp [setCl]⟩
        · simp only [Option.some.injEq] at hm
          subst hm
          exact absurd hw (wake_asleep _)
      | worker =>
        simp only [step, stepWorker] at hm
        split at hm
        case h_6 hpred =>
          split at hm
          · simp only [Option.some.injEq] at hm
            subst hm
            simp at hw
          · rename_i hn
            simp only [Option.some.injEq] at hm
            subst hm
            simp at hn
            exact absurd hn.2 hq
        all_goals
          repeat' split at hm
          all_goals first
            | (simp at hm; done)
            | (simp only [Option.some.injEq] at hm; subst hm; simp_all)
      | spurious =>
        simp only [step] at hm
        split at hm
        · simp only [Option.some.injEq] at hm
          subst hm
          simp at hw
        · simp at hm
      | dtor =>
        simp only [step, stepDtor] at hm
        split at hm
        · split at hm
          · simp only [Option.some.injEq] at hm
            subst hm
            exact hp hw hq
          · simp at hm
        · simp only [Option.some.injEq] at hm
          subst hm
          exact hp hw hq
        · simp only [Option.some.injEq] at hm
          subst hm
          exact absurd hw (wake_asleep _)
        · split at hm
          · simp only [Option.some.injEq] at hm
            subst hm
            exact hp hw hq
          · simp at hm
        · simp at hm
  obtain ⟨as, hr⟩ := h
  exact key as init s (inv_init apps) (by simp [init]) hr hw hq

/-! ### A run -/

/-- Two threads log three entries for two appenders (the second one keeps the even numbers)
while the worker runs; then the logger is destroyed. The worker falls asleep before the first
entry and is in the middle of the first one when `Stop` is called. -/
def demoRun : List (Act Nat) :=
  [.worker, .worker, .worker, .worker,
   .client 1 10, .client 1 0, .client 2 11, .client 2 0, .client 1 0, .client 2 0,
   .worker, .worker, .worker, .worker, .worker,
   .dtor, .dtor, .client 1 12, .client 1 0, .client 1 0, .dtor]

/-- The filters of the two appenders. -/
def demoApps : List (Nat → Bool) := [fun _ => true, fun n => n % 2 = 0]

example : (run demoApps init demoRun).map
      (fun s => (s.q, s.w, s.written 0, s.stopAt)) =
    some ([10, 11, 12], .append 1, [10], 2) := by decide +kernel
example : (run demoApps init (demoRun ++ List.replicate 17 .worker ++ [.dtor])).map
      (fun s => (s.q, s.w, s.d)) = some ([], .ended, .returned) := by decide +kernel
example : (run demoApps init (demoRun ++ List.replicate 17 .worker ++ [.dtor])).map
      (fun s => (s.accepted, s.written 0, s.written 1, s.stopAt)) =
    some ([10, 11, 12], [10, 11, 12], [10, 12], 2) := by decide +kernel
/-- The states of C61_delivered, C61_bounded and C61_progress are reached. -/
example : ∃ s : State Nat, Reach demoApps s ∧ s.d = .returned ∧ s.accepted = [10, 11, 12] := by
  cases h : run demoApps init (demoRun ++ List.replicate 17 .worker ++ [.dtor]) with
  | none =>
    have : (run demoApps init (demoRun ++ List.replicate 17 .worker ++ [.dtor])).isSome = true := by
      decide +kernel
    rw [h] at this; simp at this
  | some s =>
    have h1 : (run demoApps init (demoRun ++ List.replicate 17 .worker ++ [.dtor])).map
      (fun s => (s.d, s.accepted)) = some (.returned, [10, 11, 12]) := by decide +kernel
    rw [h] at h1
    simp only [Option.map_some, Option.some.injEq, Prod.mk.injEq] at h1
    exact ⟨s, ⟨_, h⟩, h1.1, h1.2⟩

end Verif.Log.Queue
