import Verif.Sched.ZuluRestoreLemmas

/-! Lemmas on an event that waits nowhere, for `ZuluRestoreProps`. -/
namespace Verif.Sched.ZuluRestore
open Verif Verif.Sched.Zulu

/-- `Nowhere`, for the thread alone. -/
structure Off (z : Zulu.State) (id : Int) : Prop where
  slot : ∀ k, id ∉ slotOf z.table k
  rest : id ∉ z.pc.rest
  cur : z.pc.cur ≠ some id

def isCall (id : Int) : Zulu.Obs → Bool
  | .called j _ _ => j == id
  | _ => false

/-- From `a` to `b` nothing happens to event `id`. -/
structure Calm (id : Int) (a b : Zulu.State) : Prop where
  off : Off b id
  last : a.lastId ≤ b.lastId
  ev : (∃ e, a.events.find id = some e) → ∃ e, b.events.find id = some e
  log : b.log.filter (isCall id) = a.log.filter (isCall id)

theorem not_slot_post {m : OMap (List Int)} {id j : Int} (h : ∀ k, id ∉ slotOf m k) (hj : j ≠ id)
    (t : Int) : ∀ k, id ∉ slotOf (post m t j) k := by
  intro k hk
  rw [mem_slotOf_post] at hk
  rcases hk with ⟨_, h1⟩ | hk
  · exact hj h1.symm
  · exact h k hk

theorem not_slot_unpost {m : OMap (List Int)} {id : Int} (h : ∀ k, id ∉ slotOf m k) (j t : Int) :
    ∀ k, id ∉ slotOf (m.insert t (IdSet.erase j (slotOf m t))) k := by
  intro k hk
  rw [mem_unpost] at hk
  exact h k hk.1

theorem ev_insert {m : OMap Ev} {id j : Int} {x : Ev} (h : ∃ e, m.find id = some e) :
    ∃ e, (m.insert j x).find id = some e := by
  rw [OMap.find_insert]
  split
  · exact ⟨_, rfl⟩
  · exact h

theorem ev_erase {m : OMap Ev} {id j : Int} (hj : j ≠ id) (h : ∃ e, m.find id = some e) :
    ∃ e, (m.erase j).find id = some e := by
  rw [OMap.find_erase, if_neg (fun hh => hj hh.symm)]
  exact h

theorem Calm.same {id : Int} {a b : Zulu.State} (h : Off a id) (ht : b.table = a.table)
    (hp : b.pc.rest = a.pc.rest) (hc : b.pc.cur = a.pc.cur) (hl : b.lastId = a.lastId)
    (he : b.events = a.events) (hg : b.log = a.log) : Calm id a b :=
  ⟨⟨ht ▸ h.slot, hp ▸ h.rest, hc ▸ h.cur⟩, by rw [hl]; exact Int.le_refl _, by rw [he]; exact fun x => x,
    by rw [hg]⟩

theorem calm_finish {id : Int} {a s : Zulu.State} (h : Off s id) {k j : Int} {rest : List Int}
    (hj : j ≠ id) (hr : id ∉ rest) (hl : a.lastId ≤ s.lastId)
    (he : (∃ e, a.events.find id = some e) → ∃ e, s.events.find id = some e)
    (hg : s.log.filter (isCall id) = a.log.filter (isCall id)) :
    Calm id a (s.finish k j rest) := by
  unfold Zulu.State.finish
  split
  · exact ⟨⟨h.slot, h.rest, h.cur⟩, hl, he, hg⟩
  · split
    · exact ⟨⟨h.slot, hr, by simp [PC.cur]⟩, hl, fun hx => ev_erase hj (he hx), hg⟩
    · split
      · exact ⟨⟨h.slot, h.rest, h.cur⟩, hl, he, hg⟩
      · exact ⟨⟨not_slot_post h.slot hj _, hr, by simp [PC.cur]⟩, hl, fun hx => ev_insert (he hx), hg⟩

theorem look_table (s : Zulu.State) : s.look.table = s.table := by
  unfold Zulu.State.look; split <;> rfl

theorem look_rest (s : Zulu.State) (hr : s.pc.rest = []) (hc : s.pc.cur = none) :
    s.look.pc.rest = [] ∧ s.look.pc.cur = none := by
  rcases look_pc s with h | h | h <;> rw [h] <;> simp_all [PC.rest, PC.cur]

theorem calm_look {id : Int} {s : Zulu.State} (h : Off s id) (hr : s.pc.rest = [])
    (hc : s.pc.cur = none) : Calm id s s.look :=
  .same h (look_table s) ((look_rest s hr hc).1.trans hr.symm)
    ((look_rest s hr hc).2.trans hc.symm) (look_last s) (look_same s).1 (look_same s).2.1

theorem calm_tick {id : Int} {s : Zulu.State} (h : Off s id) : Calm id s s.tick := by
  cases hpc : s.pc with
  | header =>
    rw [tick_header hpc]
    split
    · exact .same h rfl (by rw [hpc]; rfl) (by rw [hpc]; rfl) rfl rfl rfl
    · split
      · exact .same h rfl (by rw [hpc]; rfl) (by rw [hpc]; rfl) rfl rfl rfl
      · exact .same h rfl (by rw [hpc]; rfl) (by rw [hpc]; rfl) rfl rfl rfl
  | slot k =>
    rw [tick_slot hpc]
    split
    · refine ⟨⟨?_, by simp [PC.rest], by simp [PC.cur]⟩, Int.le_refl _, fun x => x, rfl⟩
      intro k' hk'
      simp only [slotOf_erase] at hk'
      split at hk'
      · simp at hk'
      · exact h.slot k' hk'
    · rename_i j rest hsl
      have hn := h.slot k
      rw [hsl] at hn
      simp only [List.mem_cons, not_or] at hn
      refine ⟨⟨?_, hn.2, ?_⟩, Int.le_refl _, fun x => x, rfl⟩
      · intro k' hk'
        simp only [slotOf_insert] at hk'
        split at hk'
        · simp at hk'
        · exact h.slot k' hk'
      · simp only [PC.cur, ne_eq, Option.some.injEq]
        exact fun hh => hn.1 hh.symm
  | toExec k j rest =>
    have hj : j ≠ id := by
      have := h.cur; rw [hpc] at this; simpa [PC.cur] using this
    have hr : id ∉ rest := by
      have := h.rest; rw [hpc] at this; exact this
    have hb : (j == id) = false := by simpa using hj
    rw [tick_toExec hpc]
    split
    · exact .same h rfl rfl rfl rfl rfl rfl
    · split
      · refine ⟨⟨h.slot, hr, by simpa [PC.cur] using hj⟩, Int.le_refl _, fun x => x, ?_⟩
        simp [isCall, hb]
      · exact calm_finish (a := s) (s := { s with log := .skipped j s.clock :: s.log }) ⟨h.slot, h.rest, h.cur⟩ hj hr (Int.le_refl _)
          (fun x => x) (by simp [isCall])
  | cb k j rest =>
    have hj : j ≠ id := by
      have := h.cur; rw [hpc] at this; simpa [PC.cur] using this
    have hr : id ∉ rest := by
      have := h.rest; rw [hpc] at this; exact this
    rw [tick_cb hpc]
    exact calm_finish h hj hr (Int.le_refl _) (fun x => x) rfl
  | back k rest =>
    have hr : id ∉ rest := by
      have := h.rest; rw [hpc] at this; exact this
    rw [tick_back hpc]
    split
    · exact ⟨⟨h.slot, by simp [PC.rest], by simp [PC.cur]⟩, Int.le_refl _, fun x => x, rfl⟩
    · split
      · exact ⟨⟨h.slot, by simp [PC.rest], by simp [PC.cur]⟩, Int.le_refl _, fun x => x, rfl⟩
      · simp only [List.mem_cons, not_or] at hr
        refine ⟨⟨h.slot, hr.2, ?_⟩, Int.le_refl _, fun x => x, rfl⟩
        simp only [PC.cur, ne_eq, Option.some.injEq]
        exact fun hh => hr.1 hh.symm
  | waitAny =>
    rw [tick_waitAny hpc]; split
    · exact .same h rfl rfl rfl rfl rfl rfl
    · exact calm_look h (by rw [hpc]; rfl) (by rw [hpc]; rfl)
  | waitFor d =>
    rw [tick_waitFor hpc]; split
    · exact .same h rfl rfl rfl rfl rfl rfl
    · exact calm_look h (by rw [hpc]; rfl) (by rw [hpc]; rfl)
  | ended => rw [tick_ended hpc]; exact .same h rfl rfl rfl rfl rfl rfl

theorem calm_zstep {id : Int} {s : Zulu.State} {i : Zulu.Input} (h : Off s id) (hid : id ≤ s.lastId)
    (hl : In.leaves id (.z i)) : Calm id s (Zulu.step s i) := by
  have stay : Calm id s s := .same h rfl rfl rfl rfl rfl rfl
  unfold Zulu.step
  split
  · exact stay
  split
  · exact stay
  cases i with
  | tick => exact calm_tick h
  | spurious =>
    simp only
    split
    · rename_i hpc; exact calm_look h (by rw [hpc]; rfl) (by rw [hpc]; rfl)
    · rename_i hpc; exact calm_look h (by rw [hpc]; rfl) (by rw [hpc]; rfl)
    · exact stay
  | advance d => exact .same h rfl rfl rfl rfl rfl rfl
  | simState a => exact .same h rfl rfl rfl rfl rfl rfl
  | other =>
    simp only
    split
    · exact .same h rfl rfl rfl rfl rfl rfl
    · rename_i n hn
      have := (chk_some hn).1
      exact ⟨⟨h.slot, h.rest, h.cur⟩, by simp only; omega, fun x => x, rfl⟩
  | add seen ep t c r =>
    simp only [Zulu.State.add]
    split
    · split
      · exact stay
      split
      · exact stay
      split
      · exact .same h rfl rfl rfl rfl rfl rfl
      · rename_i n hn
        have := (chk_some hn).1
        exact ⟨⟨not_slot_post h.slot (by omega) _, h.rest, h.cur⟩, by simp only; omega, ev_insert, rfl⟩
    · exact stay
  | setTime seen j t =>
    have hj : j ≠ id := hl
    simp only [Zulu.State.setTime]
    split
    · split
      · exact stay
      · split
        · exact ⟨⟨not_slot_unpost h.slot _ _, h.rest, h.cur⟩, Int.le_refl _, ev_erase hj, rfl⟩
        · exact ⟨⟨not_slot_post (not_slot_unpost h.slot _ _) hj _, h.rest, h.cur⟩, Int.le_refl _,
            ev_insert, rfl⟩
    · exact stay
  | setCycle j c =>
    simp only [Zulu.State.setCycle]
    split
    · exact stay
    · split
      · exact stay
      · exact ⟨⟨h.slot, h.rest, h.cur⟩, Int.le_refl _, ev_insert, rfl⟩
  | setRepeat j c =>
    simp only [Zulu.State.setRepeat]
    split
    · exact stay
    · split
      · exact stay
      · exact ⟨⟨h.slot, h.rest, h.cur⟩, Int.le_refl _, ev_insert, rfl⟩
  | remove j =>
    have hj : j ≠ id := hl
    simp only [Zulu.State.remove]
    split
    · exact stay
    · split
      · exact ⟨⟨h.slot, h.rest, h.cur⟩, Int.le_refl _, ev_insert, rfl⟩
      · exact ⟨⟨not_slot_unpost h.slot _ _, h.rest, h.cur⟩, Int.le_refl _, ev_erase hj, rfl⟩
  | disconnect => exact .same h rfl rfl rfl rfl rfl rfl

theorem calm_finishSim {id : Int} {s : S} (h : Off s.z id) {k j : Int} {rest : List Int} {e : Ev}
    (hj : j ≠ id) (hr : id ∉ rest) : Calm id s.z (s.finishSim k j rest e).z := by
  unfold S.finishSim
  split
  · exact ⟨⟨h.slot, hr, by simp [PC.cur]⟩, Int.le_refl _, fun x => x, rfl⟩
  · split
    · exact .same h rfl rfl rfl rfl rfl rfl
    · exact ⟨⟨not_slot_post h.slot hj _, hr, by simp [PC.cur]⟩, Int.le_refl _, fun x => x, rfl⟩

theorem calm_Stick {id : Int} {s : S} (h : Off s.z id) : Calm id s.z s.tick.z := by
  unfold S.tick
  split
  · rename_i k j rest hpc
    have hj : j ≠ id := by
      have := h.cur; rw [hpc] at this; simpa [PC.cur] using this
    have hr : id ∉ rest := by
      have := h.rest; rw [hpc] at this; exact this
    have hb : (j == id) = false := by simpa using hj
    split
    · split
      · refine ⟨⟨h.slot, hr, by simpa [PC.cur] using hj⟩, Int.le_refl _, fun x => x, ?_⟩
        simp [isCall, hb]
      · exact calm_finishSim h hj hr
    · exact calm_tick h
  · rename_i k j rest hpc
    have hj : j ≠ id := by
      have := h.cur; rw [hpc] at this; simpa [PC.cur] using this
    have hr : id ∉ rest := by
      have := h.rest; rw [hpc] at this; exact this
    split
    · exact .same h rfl rfl rfl rfl rfl rfl
    · split
      · exact calm_finishSim h hj hr
      · exact calm_tick h
  · exact calm_tick h

theorem calm_step {id : Int} {s : S} {i : In} (h : Off s.z id) (hid : id ≤ s.z.lastId)
    (hl : i.leaves id) : Calm id s.z (step s i).z := by
  have stay : Calm id s.z s.z := .same h rfl rfl rfl rfl rfl rfl
  unfold step
  split
  · exact stay
  cases i with
  | z i =>
    cases i with
    | tick => exact calm_Stick h
    | other => exact stay
    | _ => exact calm_zstep h hid hl
  | addSim ep t c r =>
    simp only
    split
    · exact stay
    split
    · exact .same h rfl rfl rfl rfl rfl rfl
    · rename_i n hn
      have := (chk_some hn).1
      exact ⟨⟨h.slot, h.rest, h.cur⟩, by simp only; omega, fun x => x, rfl⟩
  | removeSim j =>
    simp only
    split
    · exact stay
    · split <;> exact stay
  | fires j =>
    simp only
    split
    · exact stay
    split
    · exact .same h rfl rfl rfl rfl rfl rfl
    · split
      · exact stay
      · split
        · exact .same h rfl rfl rfl rfl rfl rfl
        · exact stay
  | store => exact stay
  | restore => exact hl.elim

theorem calm_run {id : Int} (is : List In) {s : S} (h : Off s.z id) (hid : id ≤ s.z.lastId)
    (hl : ∀ i ∈ is, i.leaves id) : Calm id s.z (run s is).z := by
  induction is generalizing s with
  | nil => exact .same h rfl rfl rfl rfl rfl rfl
  | cons i is ih =>
    have h1 := calm_step h hid (hl i List.mem_cons_self)
    have h2 := ih h1.off (Int.le_trans hid h1.last) (fun j hj => hl j (List.mem_cons_of_mem _ hj))
    exact ⟨h2.off, Int.le_trans h1.last h2.last, fun x => h2.ev (h1.ev x), h2.log.trans h1.log⟩

theorem step_Stick {s : S} (hf : s.z.fault = none) : step s (.z .tick) = s.tick := by
  unfold step; rw [if_neg (by rw [hf]; simp)]

/-- The first steps of the thread towards the event that is due first. -/
theorem tick_due {s : S} {k id : Int} {rest : List Int} (hf : s.z.fault = none)
    (hp : s.z.pc = .header) (hk : s.z.table.minKey = some k) (hs : slotOf s.z.table k = id :: rest)
    (hc : k ≤ s.z.clock) :
    run s [.z .tick, .z .tick] =
      { s with z := { s.z with table := s.z.table.insert k [], pc := .toExec k id rest } } := by
  show step (step s (.z .tick)) (.z .tick) = _
  have h1 : s.tick = { s with z := { s.z with pc := .slot k } } := by
    unfold S.tick
    rw [tick_header hp]
    simp only [hp, hk, if_pos hc]
  rw [step_Stick hf, h1, step_Stick (by exact hf)]
  show ({ s with z := ({ s.z with pc := .slot k } : Zulu.State).tick } : S) = _
  rw [tick_slot (s := { s.z with pc := .slot k }) (k := k) rfl]
  simp only [hs]

end Verif.Sched.ZuluRestore
