import Verif.Sched.ZuluRunTrack

/-! The Zulu thread when it sleeps, the order of the events it takes, and its progress. Helper
lemmas for `ZuluRunProps`. -/
namespace Verif.Sched.Zulu
open Verif

/-! ### What the thread knows when it sleeps -/

/-- The thread waits. -/
def PC.waits : PC → Bool
  | .waitAny => true
  | .waitFor _ => true
  | _ => false

/-- An event is not posted, while the thread waits for a later time, at an earlier one. -/
def Input.timely (s : State) : Input → Prop
  | .add _ _ t _ _ => ∀ d, s.pc = .waitFor d → d ≤ t
  | .setTime _ _ t => ∀ d, s.pc = .waitFor d → d ≤ t
  | _ => True

/-- The time at which an event is posted is not passed while the call is being made. -/
def Input.prompt (s : State) : Input → Prop
  | .add _ _ t _ _ => s.clock ≤ t
  | .setTime _ _ t => s.clock ≤ t
  | _ => True

inductive ReachT : State → Prop
  | init (c : Int) : ReachT (init c)
  | step {s i} : ReachT s → i.ok s → i.timely s → ReachT (step s i)

inductive ReachP : State → Prop
  | init (c : Int) : ReachP (init c)
  | step {s i} : ReachP s → i.ok s → i.prompt s → ReachP (step s i)

theorem ReachT.reach {s : State} (h : ReachT s) : Reach s := by
  induction h with
  | init c => exact .init c
  | step _ hok _ ih => exact .step ih hok

theorem ReachP.reach {s : State} (h : ReachP s) : Reach s := by
  induction h with
  | init c => exact .init c
  | step _ hok _ ih => exact .step ih hok

structure Awake (s : State) : Prop where
  any : s.pc = .waitAny → s.table ≠ [] → s.notified = true
  term : s.pc.waits → s.terminate = true → s.notified = true
  esorted : s.events.Sorted

theorem awake_of_busy {s : State} (h : s.pc.waits = false) (he : s.events.Sorted) : Awake s := by
  constructor
  · intro hp; rw [hp] at h; simp [PC.waits] at h
  · intro hp; rw [hp] at h; cases h
  · exact he

theorem awake_of_notified {s : State} (h : s.notified = true) (he : s.events.Sorted) : Awake s :=
  ⟨fun _ _ => h, fun _ _ => h, he⟩

theorem awake_look {s : State} (h : Awake s) : Awake s.look := by
  unfold State.look
  split
  · refine awake_of_busy ?_ h.esorted
    simp only; split <;> rfl
  · rename_i hp
    simp only [Bool.or_eq_true, not_or, Bool.not_eq_true] at hp
    have hp := hp.1
    refine ⟨?_, ?_, h.esorted⟩
    · intro hpc ht
      simp only at hpc ht
      simp only [State.pred, hpc] at hp
      simp at hp
      exact absurd hp.2 ht
    · intro hw ht
      simp only at hw ht
      unfold State.pred at hp
      split at hp
      · simp [ht] at hp
      · simp [ht] at hp
      · rename_i h1 h2
        exfalso
        revert hw h1 h2
        cases s.pc <;> simp [PC.waits]

theorem finish_waits (s : State) (k id : Int) (rest : List Int) (h : s.pc.waits = false) :
    (s.finish k id rest).pc.waits = false := by
  unfold State.finish
  split
  · exact h
  · split
    · rfl
    · split
      · exact h
      · rfl

theorem finish_esorted (s : State) (k id : Int) (rest : List Int) (h : s.events.Sorted) :
    (s.finish k id rest).events.Sorted := by
  unfold State.finish
  split
  · exact h
  · split
    · exact h.erase
    · split
      · exact h
      · exact h.insert

theorem slotOf_ne {m : OMap (List Int)} {k x : Int} (h : x ∈ slotOf m k) : m ≠ [] := by
  rintro rfl; simp [slotOf] at h

theorem awake_step {s : State} {i : Input} (h : Awake s) (hok : i.ok s) : Awake (step s i) := by
  unfold step
  split
  · exact h
  split
  · exact h
  cases i with
  | tick =>
    show Awake s.tick
    cases hpc : s.pc with
    | header =>
      rw [tick_header hpc]
      split
      · exact awake_of_notified rfl h.esorted
      · split
        · exact awake_of_busy rfl h.esorted
        · exact awake_of_notified rfl h.esorted
    | slot k => rw [tick_slot hpc]; split <;> exact awake_of_busy rfl h.esorted
    | toExec k id rest =>
      rw [tick_toExec hpc]
      split
      · exact awake_of_busy (by simp [hpc, PC.waits]) h.esorted
      · split
        · exact awake_of_busy rfl h.esorted
        · exact awake_of_busy (finish_waits _ _ _ _ (by simp [hpc, PC.waits]))
            (finish_esorted _ _ _ _ h.esorted)
    | cb k id rest =>
      rw [tick_cb hpc]
      exact awake_of_busy (finish_waits _ _ _ _ (by simp [hpc, PC.waits]))
        (finish_esorted _ _ _ _ h.esorted)
    | back k rest =>
      rw [tick_back hpc]
      split
      · exact awake_of_busy rfl h.esorted
      · split <;> exact awake_of_busy rfl h.esorted
    | waitAny => rw [tick_waitAny hpc]; split; exact h; exact awake_look h
    | waitFor d => rw [tick_waitFor hpc]; split; exact h; exact awake_look h
    | ended => rw [tick_ended hpc]; exact h
  | spurious =>
    simp only
    split
    · exact awake_look h
    · exact awake_look h
    · exact h
  | advance d => exact ⟨h.1, h.2, h.3⟩
  | simState a => exact ⟨h.1, h.2, h.3⟩
  | other => simp only; split <;> exact ⟨h.1, h.2, h.3⟩
  | add seen ep t c r =>
    simp only
    split
    · unfold State.add
      split
      · exact h
      split
      · exact h
      split
      · exact ⟨h.1, h.2, h.3⟩
      · exact awake_of_notified rfl h.esorted.insert
    · exact h
  | setTime seen id t =>
    simp only
    split
    · unfold State.setTime
      cases he : s.events.find id with
      | none => exact h
      | some e =>
        simp only
        split
        · exact ⟨fun hp _ => h.any hp (slotOf_ne (hok e he)), h.term, h.esorted.erase⟩
        · exact awake_of_notified rfl h.esorted.insert
    · exact h
  | setCycle id c =>
    simp only [State.setCycle]
    split
    · exact h
    split
    · exact h
    · exact ⟨h.1, h.2, h.esorted.insert⟩
  | setRepeat id c =>
    simp only [State.setRepeat]
    split
    · exact h
    split
    · exact h
    · exact ⟨h.1, h.2, h.esorted.insert⟩
  | remove id =>
    simp only [State.remove]
    cases he : s.events.find id with
    | none => exact h
    | some e =>
      simp only
      split
      · exact ⟨h.1, h.2, h.esorted.insert⟩
      · rename_i hc
        rcases hok with hok | hok
        · exact absurd hok hc
        · exact ⟨fun hp _ => h.any hp (slotOf_ne (hok e he)), h.term, h.esorted.erase⟩
  | disconnect => exact awake_of_notified rfl h.esorted

theorem Reach.awake {s : State} (h : Reach s) : Awake s := by
  induction h with
  | init c => exact awake_of_busy rfl OMap.sorted_nil
  | step _ hok ih => exact awake_step ih hok

/-! ### Bounds of the keys of the table -/

/-- Every key of the table is at least `b`. -/
def Above (b : Int) (m : OMap (List Int)) : Prop := ∀ k l, m.find k = some l → b ≤ k

theorem Above.insert {b k : Int} {l : List Int} {m : OMap (List Int)} (h : Above b m) (hk : b ≤ k) :
    Above b (m.insert k l) := by
  intro j l' hj
  rw [OMap.find_insert] at hj
  split at hj
  · omega
  · exact h j l' hj

theorem Above.erase {b k : Int} {m : OMap (List Int)} (h : Above b m) : Above b (m.erase k) := by
  intro j l' hj
  rw [OMap.find_erase] at hj
  split at hj
  · cases hj
  · exact h j l' hj

theorem Above.minKey {k : Int} {m : OMap (List Int)} (hs : m.Sorted) (h : m.minKey = some k) :
    Above k m := fun _ _ hj => OMap.minKey_le hs h hj

theorem slotOf_above {b k x : Int} {m : OMap (List Int)} (h : Above b m) (hx : x ∈ slotOf m k) :
    b ≤ k := by
  obtain ⟨l, hl, _⟩ := mem_slotOf hx
  exact h k l hl

/-- What a call does to the bounds of the table. -/
theorem call_above {s : State} {i : Input} {b : Int} (hok : i.ok s) (hi : i ≠ .tick) (hb : Above b s.table)
    (ht : match i with
      | .add _ _ t _ _ => b ≤ t
      | .setTime _ _ t => b ≤ t
      | _ => True) :
    Above b (step s i).table := by
  unfold step
  split
  · exact hb
  split
  · exact hb
  cases i with
  | tick => exact absurd rfl hi
  | spurious =>
    simp only
    split
    · rw [(look_same s).2.2.2.2.1]; exact hb
    · rw [(look_same s).2.2.2.2.1]; exact hb
    · exact hb
  | advance d => exact hb
  | simState a => exact hb
  | other => simp only; split <;> exact hb
  | add seen ep t c r =>
    simp only
    split
    · unfold State.add
      split
      · exact hb
      split
      · exact hb
      split
      · exact hb
      · exact hb.insert ht
    · exact hb
  | setTime seen id t =>
    simp only
    split
    · unfold State.setTime
      cases he : s.events.find id with
      | none => exact hb
      | some e =>
        have := slotOf_above hb (hok e he)
        simp only
        split
        · exact hb.insert this
        · exact (hb.insert this).insert ht
    · exact hb
  | setCycle id c =>
    simp only [State.setCycle]
    split
    · exact hb
    split <;> exact hb
  | setRepeat id c =>
    simp only [State.setRepeat]
    split
    · exact hb
    split <;> exact hb
  | remove id =>
    simp only [State.remove]
    cases he : s.events.find id with
    | none => exact hb
    | some e =>
      simp only
      split
      · exact hb
      · rename_i hc
        rcases hok with hok | hok
        · exact absurd hok hc
        · exact hb.insert (slotOf_above hb (hok e he))
  | disconnect => exact hb

/-- A call leaves the thread where it is. -/
theorem call_pc {s : State} {i : Input} (hi : i ≠ .tick) :
    (step s i).pc = s.pc ∨ (s.pc.waits = true ∧ i = .spurious ∧ step s i = s.look) := by
  unfold step
  split
  · exact .inl rfl
  split
  · exact .inl rfl
  cases i with
  | tick => exact absurd rfl hi
  | spurious =>
    simp only
    split
    · rename_i h; exact .inr ⟨by rw [h]; rfl, trivial, rfl⟩
    · rename_i h; exact .inr ⟨by rw [h]; rfl, trivial, rfl⟩
    · exact .inl rfl
  | advance d => exact .inl rfl
  | simState a => exact .inl rfl
  | other => simp only; split <;> exact .inl rfl
  | add seen ep t c r =>
    simp only [State.add]
    split
    · split
      · exact .inl rfl
      split
      · exact .inl rfl
      split <;> exact .inl rfl
    · exact .inl rfl
  | setTime seen id t =>
    simp only [State.setTime]
    split
    · split
      · exact .inl rfl
      split <;> exact .inl rfl
    · exact .inl rfl
  | setCycle id c =>
    simp only [State.setCycle]
    split
    · exact .inl rfl
    split <;> exact .inl rfl
  | setRepeat id c =>
    simp only [State.setRepeat]
    split
    · exact .inl rfl
    split <;> exact .inl rfl
  | remove id =>
    simp only [State.remove]
    split
    · exact .inl rfl
    split <;> exact .inl rfl
  | disconnect => exact .inl rfl

theorem look_pc (s : State) : s.look.pc = s.pc ∨ s.look.pc = .header ∨ s.look.pc = .ended := by
  unfold State.look
  split
  · simp only; split <;> simp
  · simp

theorem finish_pc (s : State) (k id : Int) (rest : List Int) :
    (s.finish k id rest).pc = s.pc ∨ (s.finish k id rest).pc = .back k rest := by
  unfold State.finish
  split
  · exact .inl rfl
  · split
    · exact .inr rfl
    · split
      · exact .inl rfl
      · exact .inr rfl

/-- The thread starts to wait for `d` when `d` is the first time in the table. -/
theorem tick_waits {s : State} {d : Int} (h : s.tick.pc = .waitFor d) :
    (s.pc = .header ∧ s.table.minKey = some d ∧ s.tick.table = s.table) ∨
    (s.pc = .waitFor d ∧ s.tick.table = s.table) := by
  cases hpc : s.pc with
  | header =>
    rw [tick_header hpc] at h ⊢
    cases hm : s.table.minKey with
    | none => simp [hm, State.enterWait] at h
    | some k =>
      simp only [hm] at h ⊢
      split at h
      · simp at h
      · rename_i hk
        rw [if_neg hk]
        simp only [State.enterWait, PC.waitFor.injEq] at h
        exact .inl ⟨trivial, by rw [h], rfl⟩
  | slot k => rw [tick_slot hpc] at h; split at h <;> simp at h
  | toExec k id rest =>
    rw [tick_toExec hpc] at h
    split at h
    · simp [hpc] at h
    · split at h
      · simp at h
      · rcases finish_pc { s with log := .skipped id s.clock :: s.log } k id rest with h' | h' <;>
          rw [h'] at h <;> simp [hpc] at h
  | cb k id rest =>
    rw [tick_cb hpc] at h
    rcases finish_pc s k id rest with h' | h' <;> rw [h'] at h <;> simp [hpc] at h
  | back k rest =>
    rw [tick_back hpc] at h
    split at h
    · simp at h
    · split at h <;> simp at h
  | waitAny =>
    rw [tick_waitAny hpc] at h
    split at h
    · simp [hpc] at h
    · rcases look_pc s with h' | h' | h' <;> rw [h'] at h <;> simp [hpc] at h
  | waitFor d' =>
    rw [tick_waitFor hpc] at h ⊢
    split at h
    · rename_i ha; rw [hpc] at h; cases h; rw [if_pos ha]; exact .inr ⟨rfl, rfl⟩
    · rename_i ha
      rw [if_neg ha]
      rcases look_pc s with h' | h' | h' <;> rw [h'] at h
      · rw [hpc] at h; cases h; exact .inr ⟨rfl, (look_same s).2.2.2.2.1⟩
      · simp at h
      · simp at h
  | ended => rw [tick_ended hpc, hpc] at h; simp at h

theorem step_fault {s : State} (i : Input) (h : s.fault.isSome = true) : step s i = s := by
  unfold step; rw [if_pos h]

theorem step_tick {s : State} (h : s.fault = none) : step s .tick = s.tick := by
  unfold step; simp [h, Input.needs]

theorem ReachT.above {s : State} (h : ReachT s) :
    ∀ d, s.pc = .waitFor d → Above d s.table := by
  induction h with
  | init c => intro d hd; simp [Zulu.init] at hd
  | @step s i hr hok ht ih =>
    intro d hd
    by_cases hf : s.fault.isSome = true
    · rw [step_fault i hf] at hd ⊢; exact ih d hd
    · have hf : s.fault = none := by simpa using hf
      by_cases hi : i = .tick
      · subst hi
        rw [step_tick hf] at hd ⊢
        rcases tick_waits hd with ⟨_, h1, h2⟩ | ⟨h1, h2⟩
        · rw [h2]; exact Above.minKey hr.reach.inv.tsorted h1
        · rw [h2]; exact ih d h1
      · rcases call_pc (s := s) hi with h1 | ⟨_, rfl, h2⟩
        · have hd' : s.pc = .waitFor d := h1 ▸ hd
          refine call_above hok hi (ih d hd') ?_
          cases i <;> first | trivial | exact ht d hd'
        · rw [h2] at hd ⊢
          rw [(look_same s).2.2.2.2.1]
          rcases look_pc s with h' | h' | h' <;> rw [h'] at hd
          · exact ih d hd
          · simp at hd
          · simp at hd

theorem tick_key {s : State} (hi : Inv s) (h : ∀ k, s.pc.key = some k → Above k s.table) :
    ∀ k, s.tick.pc.key = some k → Above k s.tick.table := by
  intro k hk
  have hfin : ∀ {k' id : Int} {rest : List Int} {l : List Obs},
      s.pc.key = some k' → s.pc.cur = some id →
      ({ s with log := l }.finish k' id rest).pc.key = some k →
      Above k ({ s with log := l }.finish k' id rest).table := by
    intro k' id rest l hk' hid hfk
    have hkk : k = k' := by
      rcases finish_pc { s with log := l } k' id rest with h' | h' <;> rw [h'] at hfk
      · exact Option.some.inj (hfk.symm.trans hk')
      · simp [PC.key] at hfk; exact hfk.symm
    subst hkk
    unfold State.finish
    obtain ⟨e, he, hn⟩ := hi.batch k id hk' (.inr hid)
    simp only [he]
    split
    · exact h k hk'
    · rename_i h0
      split
      · exact h k hk'
      · rename_i t ht
        have := (chk_some ht).1
        have := hi.pos id e he h0
        exact (h k hk').insert (by omega)
  cases hpc : s.pc with
  | header =>
    rw [tick_header hpc] at hk ⊢
    cases hm : s.table.minKey with
    | none => simp [hm, State.enterWait, PC.key] at hk
    | some k' =>
      simp only [hm] at hk ⊢
      split at hk
      · rename_i hle
        rw [if_pos hle]
        simp only [PC.key, Option.some.injEq] at hk
        subst hk
        exact Above.minKey hi.tsorted hm
      · simp [State.enterWait, PC.key] at hk
  | slot k' =>
    rw [tick_slot hpc] at hk ⊢
    split at hk
    · simp [PC.key] at hk
    · simp only [PC.key, Option.some.injEq] at hk
      subst hk
      have := h k' (by rw [hpc]; rfl)
      exact this.insert (Int.le_refl _)
  | toExec k' id rest =>
    rw [tick_toExec hpc] at hk ⊢
    obtain ⟨e, he, _⟩ := hi.batch k' id (by rw [hpc]; rfl) (.inr (by rw [hpc]; rfl))
    simp only [he] at hk ⊢
    split at hk
    · rename_i ha
      rw [if_pos ha]
      exact h k (by rw [hpc]; exact hk)
    · rename_i ha
      rw [if_neg ha]
      exact hfin (by rw [hpc]; rfl) (by rw [hpc]; rfl) hk
  | cb k' id rest =>
    rw [tick_cb hpc] at hk ⊢
    exact hfin (l := s.log) (by rw [hpc]; rfl) (by rw [hpc]; rfl) hk
  | back k' rest =>
    rw [tick_back hpc] at hk ⊢
    split at hk
    · simp [PC.key] at hk
    · rename_i hte
      rw [if_neg hte]
      have := h k' (by rw [hpc]; rfl)
      split at hk
      · simp only [PC.key, Option.some.injEq] at hk; subst hk; exact this
      · simp only [PC.key, Option.some.injEq] at hk; subst hk; exact this
  | waitAny =>
    rw [tick_waitAny hpc] at hk
    split at hk
    · simp [hpc, PC.key] at hk
    · rcases look_pc s with h' | h' | h' <;> rw [h'] at hk <;> simp [hpc, PC.key] at hk
  | waitFor d' =>
    rw [tick_waitFor hpc] at hk
    split at hk
    · simp [hpc, PC.key] at hk
    · rcases look_pc s with h' | h' | h' <;> rw [h'] at hk <;> simp [hpc, PC.key] at hk
  | ended => rw [tick_ended hpc, hpc] at hk; simp [PC.key] at hk

theorem ReachP.above {s : State} (h : ReachP s) :
    ∀ k, s.pc.key = some k → Above k s.table := by
  induction h with
  | init c => intro d hd; simp [Zulu.init, PC.key] at hd
  | @step s i hr hok ht ih =>
    intro k hk
    by_cases hf : s.fault.isSome = true
    · rw [step_fault i hf] at hk ⊢; exact ih k hk
    · have hf : s.fault = none := by simpa using hf
      by_cases hi : i = .tick
      · subst hi
        rw [step_tick hf] at hk ⊢
        exact tick_key hr.reach.inv ih k hk
      · rcases call_pc (s := s) hi with h1 | ⟨hw, rfl, h2⟩
        · have hk' : s.pc.key = some k := h1 ▸ hk
          have hkc := (hr.reach.inv.key k hk').1
          refine call_above hok hi (ih k hk') ?_
          cases i <;> first | trivial | exact Int.le_trans hkc ht
        · rw [h2] at hk
          rcases look_pc s with h' | h' | h' <;> rw [h'] at hk
          · revert hk hw; cases s.pc <;> simp [PC.key, PC.waits]
          · simp [PC.key] at hk
          · simp [PC.key] at hk

/-! ### Faults -/

theorem finish_fault {s : State} {k id : Int} {rest : List Int} {e : Ev}
    (he : s.events.find id = some e) (hf : s.fault = none) :
    (s.finish k id rest).fault = none ∨ (s.finish k id rest).fault = some .overflow := by
  unfold State.finish
  simp only [he]
  split
  · exact .inl hf
  · split
    · exact .inr rfl
    · exact .inl hf

theorem tick_fault {s : State} (hi : Inv s) (hf : s.fault = none) :
    s.tick.fault = none ∨ s.tick.fault = some .overflow := by
  cases hpc : s.pc with
  | header =>
    rw [tick_header hpc]
    split
    · exact .inl hf
    · split <;> exact .inl hf
  | slot k => rw [tick_slot hpc]; split <;> exact .inl hf
  | toExec k id rest =>
    rw [tick_toExec hpc]
    obtain ⟨e, he, _⟩ := hi.batch k id (by rw [hpc]; rfl) (.inr (by rw [hpc]; rfl))
    simp only [he]
    split
    · exact .inl hf
    · exact finish_fault he hf
  | cb k id rest =>
    rw [tick_cb hpc]
    obtain ⟨e, he, _⟩ := hi.batch k id (by rw [hpc]; rfl) (.inr (by rw [hpc]; rfl))
    exact finish_fault he hf
  | back k rest =>
    rw [tick_back hpc]
    split
    · exact .inl hf
    · split <;> exact .inl hf
  | waitAny => rw [tick_waitAny hpc]; split; exact .inl hf; rw [(look_same s).2.2.2.2.2.1]; exact .inl hf
  | waitFor d => rw [tick_waitFor hpc]; split; exact .inl hf; rw [(look_same s).2.2.2.2.2.1]; exact .inl hf
  | ended => rw [tick_ended hpc]; exact .inl hf

theorem faults_step {s : State} (i : Input) (hinv : Inv s)
    (ih : s.fault = none ∨ s.fault = some .overflow) :
    (Zulu.step s i).fault = none ∨ (Zulu.step s i).fault = some .overflow := by
  rcases ih with hf | hf
  · by_cases hi : i = .tick
    · subst hi; rw [step_tick hf]; exact tick_fault hinv hf
    · unfold Zulu.step
      split
      · exact .inl hf
      split
      · exact .inl hf
      cases i with
      | tick => exact absurd rfl hi
      | spurious =>
        simp only
        split
        · rw [(look_same s).2.2.2.2.2.1]; exact .inl hf
        · rw [(look_same s).2.2.2.2.2.1]; exact .inl hf
        · exact .inl hf
      | advance d => exact .inl hf
      | simState a => exact .inl hf
      | other => simp only; split; exact .inr rfl; exact .inl hf
      | add seen ep t c r =>
        simp only [State.add]
        split
        · split
          · exact .inl hf
          split
          · exact .inl hf
          split
          · exact .inr rfl
          · exact .inl hf
        · exact .inl hf
      | setTime seen id t =>
        simp only [State.setTime]
        split
        · split
          · exact .inl hf
          split <;> exact .inl hf
        · exact .inl hf
      | setCycle id c =>
        simp only [State.setCycle]
        split
        · exact .inl hf
        split <;> exact .inl hf
      | setRepeat id c =>
        simp only [State.setRepeat]
        split
        · exact .inl hf
        split <;> exact .inl hf
      | remove id =>
        simp only [State.remove]
        split
        · exact .inl hf
        split <;> exact .inl hf
      | disconnect => exact .inl hf
  · rw [step_fault i (by simp [hf])]; exact .inr hf

theorem Reach.faults {s : State} (h : Reach s) : s.fault = none ∨ s.fault = some .overflow := by
  induction h with
  | init c => exact .inl rfl
  | @step s i hr hok ih => exact faults_step i hr.inv ih

end Verif.Sched.Zulu
