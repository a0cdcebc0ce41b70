import Verif.Sched.ZuluRestoreSpec

/-! Lemmas for `ZuluRestoreProps`. -/
namespace Verif.Sched.ZuluRestore
open Verif Verif.Sched.Zulu

/-- The numbers of `Zulu.step`. -/
structure Grows (a b : Zulu.State) : Prop where
  last : a.lastId ≤ b.lastId
  evs : ∀ id e, b.events.find id = some e →
    (∃ e', a.events.find id = some e') ∨ (a.lastId < id ∧ id ≤ b.lastId)

theorem Grows.of_eq {a b : Zulu.State} (he : b.events = a.events) (hl : b.lastId = a.lastId) :
    Grows a b := ⟨by rw [hl]; exact Int.le_refl _, fun id e h => .inl ⟨e, he ▸ h⟩⟩

theorem Grows.insert {a b : Zulu.State} {id : Int} {e e' : Ev} (hf : a.events.find id = some e)
    (he : b.events = a.events.insert id e') (hl : b.lastId = a.lastId) : Grows a b := by
  refine ⟨by rw [hl]; exact Int.le_refl _, fun j x h => .inl ?_⟩
  rw [he, OMap.find_insert] at h
  split at h
  · rename_i hj; subst hj; exact ⟨e, hf⟩
  · exact ⟨x, h⟩

theorem Grows.erase {a b : Zulu.State} {id : Int}
    (he : b.events = a.events.erase id) (hl : b.lastId = a.lastId) : Grows a b := by
  refine ⟨by rw [hl]; exact Int.le_refl _, fun j x h => .inl ?_⟩
  rw [he, OMap.find_erase] at h
  split at h
  · cases h
  · exact ⟨x, h⟩

theorem grows_finish (s : Zulu.State) (k id : Int) (rest : List Int) :
    Grows s (s.finish k id rest) := by
  unfold Zulu.State.finish
  split
  · exact .of_eq rfl rfl
  · rename_i e he
    split
    · exact .erase rfl rfl
    · split
      · exact .of_eq rfl rfl
      · exact .insert he rfl rfl

theorem look_last (s : Zulu.State) : s.look.lastId = s.lastId := by
  unfold Zulu.State.look; split <;> rfl

theorem grows_look (s : Zulu.State) : Grows s s.look := .of_eq (look_same s).1 (look_last s)

theorem grows_tick (s : Zulu.State) : Grows s s.tick := by
  cases hpc : s.pc with
  | header =>
    rw [tick_header hpc]
    split
    · exact .of_eq rfl rfl
    · split <;> exact .of_eq rfl rfl
  | slot k => rw [tick_slot hpc]; split <;> exact .of_eq rfl rfl
  | toExec k id rest =>
    rw [tick_toExec hpc]
    split
    · exact .of_eq rfl rfl
    · split
      · exact .of_eq rfl rfl
      · have h := grows_finish { s with log := .skipped id s.clock :: s.log } k id rest
        exact ⟨h.last, h.evs⟩
  | cb k id rest => rw [tick_cb hpc]; exact grows_finish ..
  | back k rest =>
    rw [tick_back hpc]
    split
    · exact .of_eq rfl rfl
    · split <;> exact .of_eq rfl rfl
  | waitAny => rw [tick_waitAny hpc]; split; exact .of_eq rfl rfl; exact grows_look s
  | waitFor d => rw [tick_waitFor hpc]; split; exact .of_eq rfl rfl; exact grows_look s
  | ended => rw [tick_ended hpc]; exact .of_eq rfl rfl

theorem grows_step (s : Zulu.State) (i : Zulu.Input) : Grows s (Zulu.step s i) := by
  unfold Zulu.step
  split
  · exact .of_eq rfl rfl
  split
  · exact .of_eq rfl rfl
  cases i with
  | tick => exact grows_tick s
  | spurious =>
    simp only
    split
    · exact grows_look s
    · exact grows_look s
    · exact .of_eq rfl rfl
  | advance d => exact .of_eq rfl rfl
  | simState a => exact .of_eq rfl rfl
  | other =>
    simp only
    split
    · exact .of_eq rfl rfl
    · rename_i n hn
      have := (chk_some hn).1
      exact ⟨by simp only; omega, fun id e h => .inl ⟨e, h⟩⟩
  | add seen ep t c r =>
    simp only [Zulu.State.add]
    split
    · split
      · exact .of_eq rfl rfl
      split
      · exact .of_eq rfl rfl
      split
      · exact .of_eq rfl rfl
      · rename_i n hn
        have := (chk_some hn).1
        refine ⟨by simp only; omega, fun id e h => ?_⟩
        simp only [OMap.find_insert] at h
        split at h
        · rename_i hj; simp only; right; omega
        · exact .inl ⟨e, h⟩
    · exact .of_eq rfl rfl
  | setTime seen id t =>
    simp only [Zulu.State.setTime]
    split
    · split
      · exact .of_eq rfl rfl
      · rename_i e he
        split
        · exact .erase rfl rfl
        · exact .insert he rfl rfl
    · exact .of_eq rfl rfl
  | setCycle id c =>
    simp only [Zulu.State.setCycle]
    split
    · exact .of_eq rfl rfl
    · rename_i e he
      split
      · exact .of_eq rfl rfl
      · exact .insert he rfl rfl
  | setRepeat id c =>
    simp only [Zulu.State.setRepeat]
    split
    · exact .of_eq rfl rfl
    · rename_i e he
      split
      · exact .of_eq rfl rfl
      · exact .insert he rfl rfl
  | remove id =>
    simp only [Zulu.State.remove]
    split
    · exact .of_eq rfl rfl
    · rename_i e he
      split
      · exact .insert he rfl rfl
      · exact .erase rfl rfl
  | disconnect => exact .of_eq rfl rfl

/-! ### The invariant -/

structure Good (s : S) : Prop where
  inv : Zulu.Inv s.z
  disj : ∀ id e, s.z.events.find id = some e → s.sims.find id = none
  sids : ∀ id e, s.sims.find id = some e → 0 ≤ id ∧ id ≤ s.z.lastId
  table : ∀ id ∈ s.simIds, ∃ e, s.sims.find id = some e
  file : FileOk s.file
  stale : s.stale = false
  fault : s.z.fault = none ∨ s.z.fault = some .overflow

theorem Good.ofZ {s : S} (h : Good s) {z : Zulu.State} (hi : Zulu.Inv z) (hg : Grows s.z z)
    (hf : z.fault = none ∨ z.fault = some .overflow) : Good { s with z := z } where
  inv := hi
  disj := by
    intro id e he
    rcases hg.evs id e he with ⟨e', h'⟩ | h'
    · exact h.disj id e' h'
    · show s.sims.find id = none
      cases hs : s.sims.find id with
      | none => rfl
      | some x => have := (h.sids id x hs).2; omega
  sids := fun id e he => ⟨(h.sids id e he).1, Int.le_trans (h.sids id e he).2 hg.last⟩
  table := h.table
  file := h.file
  stale := h.stale
  fault := hf

theorem Good.tick {s : S} (h : Good s) : s.tick = { s with z := s.z.tick } := by
  unfold S.tick
  split
  · rename_i k id rest hpc
    obtain ⟨e, he, _⟩ := h.inv.batch k id (by rw [hpc]; rfl) (.inr (by rw [hpc]; rfl))
    rw [he]
  · rename_i k id rest hpc
    obtain ⟨e, he, _⟩ := h.inv.batch k id (by rw [hpc]; rfl) (.inr (by rw [hpc]; rfl))
    rw [h.stale, he]; rfl
  · rfl

theorem good_init (c : Int) (f : File) (hf : FileOk f) : Good (init c f) :=
  ⟨inv_init c, by simp [init, Zulu.init], by simp [init], by simp [init], hf, rfl, .inl rfl⟩

theorem Good.last {s : S} (h : Good s) {n : Int} (hn : s.z.lastId ≤ n) (hm : n ≤ maxI64) :
    Zulu.Inv { s.z with lastId := n } :=
  { h.inv with
    ids := fun id e he => ⟨(h.inv.ids id e he).1, Int.le_trans (h.inv.ids id e he).2 hn⟩
    last := ⟨Int.le_trans h.inv.last.1 hn, hm⟩ }

theorem Good.overflow {s : S} (h : Good s) :
    Good { s with z := { s.z with fault := some .overflow } } :=
  h.ofZ (inv_fault h.inv _) (.of_eq rfl rfl) (.inr rfl)

theorem inv_pieces {s : Zulu.State} (h : Zulu.Inv s) {m : OMap Ev} {n : Int}
    (hm : ∀ id, (m.find id).map (·.next) = (s.events.find id).map (·.next))
    (hpos : ∀ id e, m.find id = some e → e.rep ≠ 0 → 0 < e.cycle)
    (hids : ∀ id e, m.find id = some e → 0 ≤ id ∧ id ≤ n) (hn : -1 ≤ n ∧ n ≤ maxI64) :
    Zulu.Inv { s with events := m, lastId := n } := by
  have fwd : ∀ id k, (∃ e, s.events.find id = some e ∧ e.next = k) →
      ∃ e, m.find id = some e ∧ e.next = k := by
    rintro id k ⟨e, he, hk⟩
    have h1 := hm id
    rw [he] at h1
    cases h2 : m.find id with
    | none => rw [h2] at h1; cases h1
    | some x => rw [h2] at h1; simp only [Option.map_some, Option.some.injEq] at h1
                exact ⟨x, rfl, h1.trans hk⟩
  refine ⟨h.tsorted, h.ssorted, h.rsorted, fun k id hx => fwd id k (h.slots k id hx),
    fun k id hk hx => fwd id k (h.batch k id hk hx), h.uniq, h.uniqc, ?_, h.key, hpos, hids, hn⟩
  intro id e he hp
  have h1 := hm id
  have he' : m.find id = some e := he
  rw [he'] at h1
  cases h2 : s.events.find id with
  | none => rw [h2] at h1; cases h1
  | some x =>
    rw [h2] at h1; simp only [Option.map_some, Option.some.injEq] at h1
    rw [h1]
    exact h.cover id x h2 hp

theorem step_z {s : S} (hf : s.z.fault.isSome = false) (hg : Good s) (i : Zulu.Input) (hi : i ≠ .other) :
    step s (.z i) = { s with z := Zulu.step s.z i } := by
  unfold step
  rw [hf]
  cases i with
  | tick =>
    simp only [Bool.false_eq_true, if_false]
    rw [hg.tick, step_tick (by simpa using hf)]
  | other => exact absurd rfl hi
  | _ => rfl

theorem good_step {s : S} {i : In} (h : Good s) (hok : In.ok s i) : Good (step s i) := by
  cases hf : s.z.fault.isSome with
  | true => unfold step; rw [hf]; exact h
  | false =>
  cases i with
  | z i =>
    by_cases hi : i = .other
    · subst hi; unfold step; rw [hf]; exact h
    · rw [step_z hf h i hi]
      exact h.ofZ (inv_step h.inv hok) (grows_step s.z i) (faults_step i h.inv h.fault)
  | addSim ep t c r =>
    simp only [step, hf, Bool.false_eq_true, if_false]
    split
    · exact h
    split
    · exact h.overflow
    · rename_i n hn
      obtain ⟨h1, h2⟩ := chk_some hn
      have hl := h.inv.last
      refine ⟨h.last (by omega) ?_, ?_, ?_, ?_, h.file, h.stale, h.fault⟩
      · omega
      · intro id e he
        have := h.inv.ids id e he
        simp only [OMap.find_insert]
        rw [if_neg (by omega)]
        exact h.disj id e he
      · intro id e he
        simp only [OMap.find_insert] at he
        split at he
        · simp only; omega
        · have := h.sids id e he; simp only; omega
      · intro id hid
        simp only [OMap.find_insert]
        split
        · exact ⟨_, rfl⟩
        · rename_i hne
          simp only [List.mem_append, List.mem_singleton] at hid
          exact h.table id (hid.resolve_right hne)
  | removeSim id =>
    simp only [step, hf, Bool.false_eq_true, if_false]
    split
    · exact h
    · rename_i e he
      split
      · refine ⟨h.inv, ?_, ?_, ?_, h.file, h.stale, h.fault⟩
        · intro j x hx
          simp only [OMap.find_insert]
          split
          · rename_i hj; subst hj; rw [h.disj _ x hx] at he; cases he
          · exact h.disj j x hx
        · intro j x hx
          simp only [OMap.find_insert] at hx
          split at hx
          · rename_i hj; subst hj; exact h.sids _ e he
          · exact h.sids j x hx
        · intro j hj
          simp only [OMap.find_insert]
          split
          · exact ⟨_, rfl⟩
          · exact h.table j hj
      · refine ⟨h.inv, ?_, ?_, ?_, h.file, h.stale, h.fault⟩
        · intro j x hx
          simp only [OMap.find_erase]
          split
          · rfl
          · exact h.disj j x hx
        · intro j x hx
          simp only [OMap.find_erase] at hx
          split at hx
          · cases hx
          · exact h.sids j x hx
        · intro j hj
          simp only [List.mem_filter, decide_eq_true_eq] at hj
          simp only [OMap.find_erase]
          rw [if_neg hj.2]
          exact h.table j hj.1
  | fires id =>
    simp only [step, hf, Bool.false_eq_true, if_false]
    split
    · exact h
    · rename_i hm
      obtain ⟨e, he⟩ := h.table id (Classical.not_not.1 hm)
      rw [he]
      simp only
      split
      · refine ⟨h.inv, ?_, ?_, ?_, h.file, h.stale, h.fault⟩
        · intro j x hx
          simp only [OMap.find_erase]
          split
          · rfl
          · exact h.disj j x hx
        · intro j x hx
          simp only [OMap.find_erase] at hx
          split at hx
          · cases hx
          · exact h.sids j x hx
        · intro j hj
          simp only [List.mem_filter, decide_eq_true_eq] at hj
          simp only [OMap.find_erase]
          rw [if_neg hj.2]
          exact h.table j hj.1
      · split
        · exact h.overflow
        · refine ⟨h.inv, ?_, ?_, ?_, h.file, h.stale, h.fault⟩
          · intro j x hx
            simp only [OMap.find_insert]
            split
            · rename_i hj; subst hj; rw [h.disj _ x hx] at he; cases he
            · exact h.disj j x hx
          · intro j x hx
            simp only [OMap.find_insert] at hx
            split at hx
            · rename_i hj; subst hj; exact h.sids _ e he
            · exact h.sids j x hx
          · intro j hj
            simp only [OMap.find_insert]
            split
            · exact ⟨_, rfl⟩
            · exact h.table j hj
  | store =>
    simp only [step, hf, Bool.false_eq_true, if_false]
    refine ⟨h.inv, h.disj, h.sids, h.table, ?_, h.stale, h.fault⟩
    refine ⟨?_, h.disj, h.table, h.inv.pos, h.inv.last⟩
    rintro id (⟨e, he⟩ | ⟨e, he⟩)
    · exact h.inv.ids id e he
    · exact h.sids id e he
  | restore =>
    obtain ⟨ha, hc⟩ := hok
    simp only [step, hf, Bool.false_eq_true, if_false]
    refine ⟨inv_pieces h.inv ha h.file.pos (fun id e he => h.file.ids id (.inl ⟨e, he⟩)) h.file.last,
      h.file.disj, fun id e he => h.file.ids id (.inr ⟨e, he⟩), h.file.table, h.file, ?_, h.fault⟩
    show (s.stale || s.z.pc.current.isSome) = false
    rw [h.stale, hc]; rfl

theorem Reach.good {s : S} (h : Reach s) : Good s := by
  induction h with
  | init c f hf => exact good_init c f hf
  | step _ hok ih => exact good_step ih hok

end Verif.Sched.ZuluRestore
