import Verif.Sched.ZuluRunLive

/-! The Zulu thread left alone comes to rest. Helper lemmas for `ZuluRunProps`. -/
namespace Verif.Sched.Zulu
open Verif

/-- Sum over the values of a map. -/
def total (f : α → Nat) (m : OMap α) : Nat := (m.map fun p => f p.2).sum

theorem total_erase {f : α → Nat} {m : OMap α} {k : Int} {v : α} (hs : m.Sorted)
    (h : m.find k = some v) : total f (m.erase k) + f v = total f m := by
  induction m with
  | nil => simp at h
  | cons p t ih =>
    obtain ⟨k', v'⟩ := p
    simp only [OMap.find] at h
    simp only [OMap.erase]
    split at h
    · subst_vars
      simp only [Option.some.injEq] at h
      subst h
      have : OMap.erase k' t = t := by
        have hlt := hs.head_lt
        clear ih hs
        induction t with
        | nil => rfl
        | cons q t ih =>
          have h1 := hlt q List.mem_cons_self
          simp only at h1
          simp only [OMap.erase]
          rw [if_neg (by omega), ih (fun x hx => hlt x (List.mem_cons_of_mem _ hx))]
      simp [this, total]; omega
    · rename_i hk
      rw [if_neg hk]
      have := ih hs.tail h
      simp only [total, List.map_cons, List.sum_cons] at this ⊢
      omega

theorem total_insert {f : α → Nat} {m : OMap α} {k : Int} {v v' : α} (hs : m.Sorted)
    (h : m.find k = some v) : total f (m.insert k v') + f v = total f m + f v' := by
  induction m with
  | nil => simp at h
  | cons p t ih =>
    obtain ⟨k', w⟩ := p
    simp only [OMap.find] at h
    simp only [OMap.insert]
    split at h
    · subst_vars
      simp only [Option.some.injEq] at h
      subst h
      simp [total]; omega
    · rename_i hk
      have hlt : k' < k := hs.head_lt _ (OMap.mem_of_find h)
      rw [if_neg (by omega), if_neg hk]
      have := ih hs.tail h
      simp only [total, List.map_cons, List.sum_cons] at this ⊢
      omega

theorem length_insert {m : OMap α} {k : Int} {v : α} :
    (m.insert k v).length ≤ m.length + 1 := by
  induction m with
  | nil => simp [OMap.insert]
  | cons p t ih =>
    obtain ⟨k', w⟩ := p
    simp only [OMap.insert]
    split
    · simp
    · split
      · simp
      · simp; exact ih

theorem length_insert_old {m : OMap α} {k : Int} {v w : α} (hs : m.Sorted)
    (h : m.find k = some w) : (m.insert k v).length = m.length := by
  have := total_insert (f := fun _ => 1) (v' := v) hs h
  have hl : ∀ m : OMap α, total (fun _ => 1) m = m.length := by
    intro m; unfold total; induction m with
    | nil => rfl
    | cons p t ih => simp only [List.map_cons, List.sum_cons, List.length_cons, ih]; omega
  simp only [hl] at this
  omega

theorem length_erase_old {m : OMap α} {k : Int} {w : α} (hs : m.Sorted)
    (h : m.find k = some w) : (m.erase k).length + 1 = m.length := by
  have := total_erase (f := fun _ => 1) hs h
  have hl : ∀ m : OMap α, total (fun _ => 1) m = m.length := by
    intro m; unfold total; induction m with
    | nil => rfl
    | cons p t ih => simp only [List.map_cons, List.sum_cons, List.length_cons, ih]; omega
  simp only [hl] at this
  omega

/-- Bound on the number of occurrences of an event that are due. -/
def due (clock : Int) (e : Ev) : Nat := (clock + 1 - e.next).toNat

def PC.weight : PC → Nat
  | .header => 6
  | .slot _ => 5
  | .toExec _ _ _ => 4
  | .cb _ _ _ => 3
  | .back _ _ => 6
  | .waitAny => 7
  | .waitFor _ => 7
  | .ended => 0

/-- Decreases at each step of the thread while it works. -/
def State.rank (s : State) : Nat :=
  8 * total (due s.clock) s.events + 3 * s.table.length + s.pc.weight

/-- Every event is due later. -/
def State.quiet (s : State) : Prop := ∀ id e, s.events.find id = some e → s.clock < e.next

theorem quiet_of_above {s : State} (hi : Inv s) (hne : s.pc ≠ .ended) (hr : s.pc.rest = [])
    (hc : s.pc.cur = none) {b : Int} (ha : Above b s.table) (hb : s.clock < b) : s.quiet := by
  intro id e he
  have := hi.cover id e he hne
  rw [hr, hc] at this
  simp at this
  have := slotOf_above ha this
  omega

theorem finish_rank {s : State} (hi : Inv s) (hs : s.events.Sorted) {k id : Int} {rest : List Int}
    (hk : s.pc.key = some k) (hc : s.pc.cur = some id) (hw : 3 ≤ s.pc.weight)
    (hf : (s.finish k id rest).fault = none) :
    (s.finish k id rest).rank < s.rank ∧ (s.finish k id rest).clock = s.clock ∧
    (s.finish k id rest).terminate = s.terminate ∧ (s.finish k id rest).pc = .back k rest := by
  obtain ⟨e, he, hn⟩ := hi.batch k id hk (.inr hc)
  have hkc := (hi.key k hk).1
  have hpos : 1 ≤ due s.clock e := by unfold due; omega
  unfold State.finish at hf ⊢
  simp only [he] at hf ⊢
  split
  · refine ⟨?_, rfl, rfl, rfl⟩
    have := total_erase (f := due s.clock) hs he
    have hw' : (PC.back k rest).weight = 6 := rfl
    simp only [State.rank, hw']
    omega
  · rename_i h0
    rw [if_neg h0] at hf
    have hcy := hi.pos id e he h0
    split
    · rename_i hch; simp [hch] at hf
    · rename_i t ht
      have ht := (chk_some ht).1
      refine ⟨?_, rfl, rfl, rfl⟩
      have h1 := total_insert (f := due s.clock)
        (v' := { e with rep := if e.rep > 0 then e.rep - 1 else e.rep, next := t }) hs he
      have h2 : due s.clock { e with rep := if e.rep > 0 then e.rep - 1 else e.rep, next := t } + 1 ≤
          due s.clock e := by unfold due; simp only; omega
      have h3 : (post s.table t id).length ≤ s.table.length + 1 := length_insert
      have hw' : (PC.back k rest).weight = 6 := rfl
      simp only [State.rank, hw']
      omega

/-- One step of the thread while it works. -/
theorem tick_rank {s : State} (hi : Inv s) (ha : Awake s) (hw : s.pc.waits = false)
    (hne : s.pc ≠ .ended) (hf : s.tick.fault = none) :
    s.tick.clock = s.clock ∧ s.tick.terminate = s.terminate ∧
    ((s.pc = .header ∧ s.tick.pc.waits = true ∧ s.tick.notified = true ∧ s.quiet ∧
        s.tick.events = s.events ∧ s.tick.table = s.table ∧
        (∀ k, s.table.minKey = some k → s.clock < k) ∧
        (s.tick.pc = .waitAny → s.table = []) ∧
        (∀ d, s.tick.pc = .waitFor d → s.table.minKey = some d)) ∨
      (s.tick.rank < s.rank ∧ s.tick.pc.waits = false)) := by
  cases hpc : s.pc with
  | header =>
    have hr : s.pc.rest = [] := by rw [hpc]; rfl
    have hc : s.pc.cur = none := by rw [hpc]; rfl
    rw [tick_header hpc]
    cases hm : s.table.minKey with
    | none =>
      have ht := OMap.minKey_none hm
      refine ⟨rfl, rfl, .inl ⟨rfl, rfl, rfl, ?_, rfl, rfl, by simp, fun _ => ht, ?_⟩⟩
      · exact quiet_of_above hi hne hr hc (b := s.clock + 1)
          (by intro k l hk; simp [ht] at hk) (by omega)
      · intro d hd; simp [State.enterWait] at hd
    | some k =>
      simp only
      split
      · refine ⟨rfl, rfl, .inr ⟨?_, rfl⟩⟩
        simp only [State.rank, PC.weight, hpc]
        omega
      · rename_i hk
        refine ⟨rfl, rfl, .inl ⟨trivial, rfl, rfl, ?_, rfl, rfl, ?_, ?_, ?_⟩⟩
        · exact quiet_of_above hi hne hr hc (Above.minKey hi.tsorted hm) (by omega)
        · intro k' hk'; simp at hk'; omega
        · intro h; simp [State.enterWait] at h
        · intro d hd; simp [State.enterWait] at hd; rw [hd]
  | slot k =>
    rw [tick_slot hpc]
    obtain ⟨_, l, hl⟩ := hi.key k (by rw [hpc]; rfl)
    split
    · refine ⟨rfl, rfl, .inr ⟨?_, rfl⟩⟩
      have := length_erase_old hi.tsorted hl
      simp only [State.rank, PC.weight, hpc]
      omega
    · refine ⟨rfl, rfl, .inr ⟨?_, rfl⟩⟩
      have := length_insert_old (v := []) hi.tsorted hl
      simp only [State.rank, PC.weight, hpc]
      omega
  | toExec k id rest =>
    have hk : s.pc.key = some k := by rw [hpc]; rfl
    have hc : s.pc.cur = some id := by rw [hpc]; rfl
    rw [tick_toExec hpc] at hf ⊢
    obtain ⟨e, he, _⟩ := hi.batch k id hk (.inr hc)
    simp only [he] at hf ⊢
    split
    · refine ⟨rfl, rfl, .inr ⟨?_, rfl⟩⟩
      simp only [State.rank, PC.weight, hpc]
      omega
    · rename_i hact
      rw [if_neg hact] at hf
      obtain ⟨h1, h2, h3, h4⟩ := finish_rank (s := { s with log := .skipped id s.clock :: s.log })
        (inv_log hi _) ha.esorted hk hc (by simp [hpc, PC.weight]) hf
      exact ⟨h2, h3, .inr ⟨h1, by rw [h4]; rfl⟩⟩
  | cb k id rest =>
    rw [tick_cb hpc] at hf ⊢
    obtain ⟨h1, h2, h3, h4⟩ := finish_rank hi ha.esorted (by rw [hpc]; rfl) (by rw [hpc]; rfl)
      (by simp [hpc, PC.weight]) hf
    exact ⟨h2, h3, .inr ⟨h1, by rw [h4]; rfl⟩⟩
  | back k rest =>
    rw [tick_back hpc]
    split
    · refine ⟨rfl, rfl, .inr ⟨?_, rfl⟩⟩
      simp only [State.rank, PC.weight, hpc]
      omega
    · split <;> refine ⟨rfl, rfl, .inr ⟨?_, rfl⟩⟩ <;> simp only [State.rank, PC.weight, hpc] <;>
        omega
  | waitAny => rw [hpc] at hw; cases hw
  | waitFor d => rw [hpc] at hw; cases hw
  | ended => exact absurd hpc hne

/-- `n` steps of the thread. -/
def ticks (n : Nat) (s : State) : State := run s (List.replicate n .tick)

theorem ticks_zero (s : State) : ticks 0 s = s := rfl

theorem ticks_succ (n : Nat) (s : State) : ticks (n + 1) s = ticks n (step s .tick) := rfl

theorem tick_ok (s : State) : Input.ok s .tick := trivial

/-- The thread has come to rest: it has ended if asked to, it sleeps otherwise and every event is
due later; or a date has overflowed. -/
def State.rested (s : State) : Prop :=
  s.fault = some .overflow ∨
  (s.terminate = true ∧ s.pc = .ended) ∨
  (s.terminate = false ∧ s.asleep = true ∧ s.quiet)

theorem rest_busy : ∀ (b : Nat) (s : State), Reach s → s.fault = none → s.pc.waits = false →
    s.pc ≠ .ended → s.rank ≤ b → ∃ n, (ticks n s).rested ∨
      ((ticks n s).terminate = s.terminate ∧ (ticks n s).pc = .ended ∧ (ticks n s).fault = none) := by
  intro b
  induction b with
  | zero =>
    intro s hr _ hw hne hb
    exfalso
    revert hw hne
    unfold State.rank at hb
    cases hpc : s.pc <;> simp [hpc, PC.weight] at hb <;> simp [PC.waits]
  | succ b ih =>
    intro s hr hf hw hne hb
    have hr1 : Reach (step s .tick) := .step hr (tick_ok s)
    rcases hr1.faults with hf1 | hf1
    · rw [step_tick hf] at hf1
      obtain ⟨hc, ht, h⟩ := tick_rank hr.inv hr.awake hw hne hf1
      rcases h with ⟨hp, hw1, hn1, hq, he1, ht1, hmin, hany, hfor⟩ | ⟨hlt, hw1⟩
      · -- the thread enters a wait, looks once at the predicate
        refine ⟨2, .inl ?_⟩
        rw [ticks_succ, ticks_succ, ticks_zero, step_tick hf, step_tick hf1]
        have hq1 : s.tick.quiet := by intro id e he; rw [he1] at he; rw [hc]; exact hq id e he
        cases hpc : s.tick.pc with
        | waitAny =>
          have hna : s.tick.asleep = false := by simp [State.asleep, hpc, hn1]
          rw [tick_waitAny hpc, hna]
          simp only [Bool.false_eq_true, if_false]
          have htab := hany hpc
          by_cases hte : s.terminate = true
          · right; left
            simp [State.look, State.pred, hpc, ht, hte]
          · right; right
            simp only [Bool.not_eq_true] at hte
            simp only [State.look, State.pred, hpc, ht, hte, ht1, htab, State.timedOut]
            simp only [List.isEmpty_nil, Bool.not_true, Bool.or_self, Bool.false_eq_true, if_false]
            exact ⟨trivial, by simp [State.asleep], fun id e he => hq1 id e he⟩
        | waitFor d =>
          have hd := hfor d hpc
          have hcd : s.clock < d := hmin d hd
          have hna : s.tick.asleep = false := by simp [State.asleep, hpc, hn1]
          rw [tick_waitFor hpc, hna]
          simp only [Bool.false_eq_true, if_false]
          by_cases hte : s.terminate = true
          · right; left
            simp [State.look, State.pred, hpc, ht, hte]
          · right; right
            simp only [Bool.not_eq_true] at hte
            have h1 : decide (d ≤ s.clock) = false := by simp; omega
            simp only [State.look, State.pred, hpc, ht, hte, ht1, hd, State.timedOut, hc, h1]
            simp only [Bool.or_self, Bool.false_eq_true, if_false]
            refine ⟨trivial, ?_, fun id e he => ?_⟩
            · simp [State.asleep, State.timedOut]; omega
            · have := hq1 id e he; rw [hc] at this; exact this
        | header => rw [hpc] at hw1; cases hw1
        | slot k => rw [hpc] at hw1; cases hw1
        | toExec k id rest => rw [hpc] at hw1; cases hw1
        | cb k id rest => rw [hpc] at hw1; cases hw1
        | back k rest => rw [hpc] at hw1; cases hw1
        | ended => rw [hpc] at hw1; cases hw1
      · by_cases hne1 : s.tick.pc = .ended
        · refine ⟨1, .inr ?_⟩
          rw [ticks_succ, ticks_zero, step_tick hf]
          exact ⟨ht, hne1, hf1⟩
        · obtain ⟨n, hn⟩ := ih s.tick (step_tick hf ▸ hr1) hf1 hw1 hne1 (by omega)
          refine ⟨n + 1, ?_⟩
          rw [ticks_succ, step_tick hf]
          rw [ht] at hn
          exact hn
    · exact ⟨1, .inl (.inl hf1)⟩

theorem tick_terminate {s : State} (ht : s.terminate = true) : s.tick.terminate = true := by
  have hfin : ∀ (s : State) k id rest, s.terminate = true →
      (s.finish k id rest).terminate = true := by
    intro s k id rest ht
    unfold State.finish; split
    · exact ht
    · split
      · exact ht
      · split <;> exact ht
  unfold State.tick
  split
  · split
    · exact ht
    · split <;> exact ht
  · split <;> exact ht
  · split
    · exact ht
    · split
      · exact ht
      · exact hfin _ _ _ _ ht
  · exact hfin _ _ _ _ ht
  · rw [if_pos ht]; exact ht
  · split; exact ht; rw [(look_same s).2.2.2.2.2.2]; exact ht
  · split; exact ht; rw [(look_same s).2.2.2.2.2.2]; exact ht
  · exact ht

/-- The thread only ends when asked to. -/
theorem Reach.ended {s : State} (h : Reach s) : s.pc = .ended → s.terminate = true := by
  induction h with
  | init c => intro hp; simp [Zulu.init] at hp
  | @step s i hr hok ih =>
    intro hp
    have hmono : s.terminate = true → (Zulu.step s i).terminate = true := by
      intro ht
      by_cases hf : s.fault.isSome = true
      · rw [step_fault i hf]; exact ht
      have hf : s.fault = none := by simpa using hf
      unfold Zulu.step
      split
      · exact ht
      split
      · exact ht
      cases i with
      | tick => exact tick_terminate ht
      | spurious =>
        simp only
        split
        · rw [(look_same s).2.2.2.2.2.2]; exact ht
        · rw [(look_same s).2.2.2.2.2.2]; exact ht
        · exact ht
      | advance d => exact ht
      | simState a => exact ht
      | other => simp only; split <;> exact ht
      | add seen ep t c r =>
        simp only [State.add]
        split
        · split
          · exact ht
          split
          · exact ht
          split <;> exact ht
        · exact ht
      | setTime seen id t =>
        simp only [State.setTime]
        split
        · split
          · exact ht
          split <;> exact ht
        · exact ht
      | setCycle id c =>
        simp only [State.setCycle]
        split
        · exact ht
        split <;> exact ht
      | setRepeat id c =>
        simp only [State.setRepeat]
        split
        · exact ht
        split <;> exact ht
      | remove id =>
        simp only [State.remove]
        split
        · exact ht
        split <;> exact ht
      | disconnect => rfl
    by_cases hpe : s.pc = .ended
    · exact hmono (ih hpe)
    by_cases hf : s.fault.isSome = true
    · rw [step_fault i hf] at hp; exact absurd hp hpe
    have hf : s.fault = none := by simpa using hf
    have hlook : s.look.pc = .ended → s.terminate = true := by
      unfold State.look
      split
      · simp only; split
        · intro _; assumption
        · simp
      · intro h; exact absurd h hpe
    apply hmono
    by_cases hi : i = .tick
    · subst hi
      rw [step_tick hf] at hp
      cases hpc : s.pc with
      | header =>
        rw [tick_header hpc] at hp
        split at hp
        · simp [State.enterWait] at hp
        · split at hp <;> simp [State.enterWait] at hp
      | slot k => rw [tick_slot hpc] at hp; split at hp <;> simp at hp
      | toExec k id rest =>
        rw [tick_toExec hpc] at hp
        split at hp
        · simp [hpc] at hp
        · split at hp
          · simp at hp
          · rcases finish_pc { s with log := .skipped id s.clock :: s.log } k id rest with h' | h' <;>
              rw [h'] at hp <;> simp [hpc] at hp
      | cb k id rest =>
        rw [tick_cb hpc] at hp
        rcases finish_pc s k id rest with h' | h' <;> rw [h'] at hp <;> simp [hpc] at hp
      | back k rest =>
        rw [tick_back hpc] at hp
        split at hp
        · assumption
        · split at hp <;> simp at hp
      | waitAny =>
        rw [tick_waitAny hpc] at hp
        split at hp
        · exact absurd hp hpe
        · exact hlook hp
      | waitFor d' =>
        rw [tick_waitFor hpc] at hp
        split at hp
        · exact absurd hp hpe
        · exact hlook hp
      | ended => exact absurd hpc hpe
    · rcases call_pc (s := s) hi with h1 | ⟨_, _, h2⟩
      · rw [h1] at hp; exact absurd hp hpe
      · rw [h2] at hp; exact hlook hp

theorem rest_from_busy {s : State} (hr : Reach s) (hf : s.fault = none) (hw : s.pc.waits = false)
    (hne : s.pc ≠ .ended) : ∃ n, (ticks n s).rested := by
  obtain ⟨n, hn⟩ := rest_busy s.rank s hr hf hw hne (Nat.le_refl _)
  refine ⟨n, ?_⟩
  rcases hn with hn | ⟨h1, h2, h3⟩
  · exact hn
  · have hrn : ∀ n s, Reach s → Reach (ticks n s) := by
      intro n
      induction n with
      | zero => intro s h; exact h
      | succ n ih => intro s h; rw [ticks_succ]; exact ih _ (.step h (tick_ok s))
    exact .inr (.inl ⟨(hrn n s hr).ended h2, h2⟩)

/-- The thread, not asleep, comes to rest. -/
theorem rest_any {s : State} (hr : Reach s) (hf : s.fault = none) (hna : s.asleep = false) :
    ∃ n, (ticks n s).rested := by
  by_cases hne : s.pc = .ended
  · exact ⟨0, .inr (.inl ⟨hr.ended hne, hne⟩)⟩
  by_cases hw : s.pc.waits = true
  · -- the thread looks at its predicate
    have htick : s.tick = s.look := by
      cases hpc : s.pc <;> rw [hpc] at hw <;> first
        | (rw [tick_waitAny hpc, hna]; rfl)
        | (rw [tick_waitFor hpc, hna]; rfl)
        | cases hw
    have hr1 : Reach (step s .tick) := .step hr (tick_ok s)
    rw [step_tick hf, htick] at hr1
    have hf1 : s.look.fault = none := by rw [(look_same s).2.2.2.2.2.1]; exact hf
    by_cases hp : (s.pred || s.timedOut) = true
    · by_cases hte : s.terminate = true
      · refine ⟨1, .inr (.inl ?_)⟩
        rw [ticks_succ, ticks_zero, step_tick hf, htick]
        unfold State.look; rw [if_pos hp]
        exact ⟨hte, by simp [hte]⟩
      · have hpc1 : s.look.pc = .header := by
          unfold State.look; rw [if_pos hp]; simp [hte]
        obtain ⟨n, hn⟩ := rest_from_busy hr1 hf1 (by rw [hpc1]; rfl) (by rw [hpc1]; simp)
        exact ⟨n + 1, by rw [ticks_succ, step_tick hf, htick]; exact hn⟩
    · refine ⟨1, ?_⟩
      rw [ticks_succ, ticks_zero, step_tick hf, htick]
      have hlk : s.look = { s with notified := false } := by
        unfold State.look; rw [if_neg hp]
      simp only [Bool.or_eq_true, not_or, Bool.not_eq_true] at hp
      have hte : s.terminate = false := by
        have := hp.1
        unfold State.pred at this
        split at this
        · simp at this; exact this.1
        · simp at this; exact this.1
        · rename_i h1 h2
          exfalso; revert hw h1 h2; cases s.pc <;> simp [PC.waits]
      rw [hlk]
      refine .inr (.inr ⟨hte, ?_, ?_⟩)
      · have h2 := hp.2
        cases hpc : s.pc <;> rw [hpc] at hw <;> first
          | (simp only [State.asleep]; rfl)
          | (simp only [State.timedOut, hpc] at h2
             simp only [State.asleep, State.timedOut, h2]; rfl)
          | cases hw
      · have hi := hr.inv
        intro id e he
        have hcov := hi.cover id e he hne
        have hr0 : s.pc.rest = [] := by revert hw; cases s.pc <;> simp [PC.waits, PC.rest]
        have hc0 : s.pc.cur = none := by revert hw; cases s.pc <;> simp [PC.waits, PC.cur]
        rw [hr0, hc0] at hcov
        simp only [List.not_mem_nil, reduceCtorEq, or_false] at hcov
        have hp1 := hp.1
        cases hpc : s.pc with
        | waitAny =>
          simp only [State.pred, hpc] at hp1
          simp at hp1
          rw [hp1.2] at hcov
          simp [slotOf] at hcov
        | waitFor d =>
          simp only [State.pred, hpc] at hp1
          cases hm : s.table.minKey with
          | none => rw [OMap.minKey_none hm] at hcov; simp [slotOf] at hcov
          | some k =>
            simp only [hm] at hp1
            simp at hp1
            have := slotOf_above (Above.minKey hi.tsorted hm) hcov
            simp only; omega
        | header => rw [hpc] at hw; cases hw
        | slot k => rw [hpc] at hw; cases hw
        | toExec k id rest => rw [hpc] at hw; cases hw
        | cb k id rest => rw [hpc] at hw; cases hw
        | back k rest => rw [hpc] at hw; cases hw
        | ended => rw [hpc] at hw; cases hw
  · exact rest_from_busy hr hf (by simpa using hw) hne

end Verif.Sched.Zulu
