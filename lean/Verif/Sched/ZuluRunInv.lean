import Verif.Sched.ZuluRun

/-! Invariant of the Zulu thread, in histories that do not move or remove an event taken out of
the table for execution. Helper lemmas for `ZuluRunProps`. -/
namespace Verif.Sched.Zulu
open Verif

def PC.key : PC → Option Int
  | .slot k => some k
  | .toExec k _ _ => some k
  | .cb k _ _ => some k
  | .back k _ => some k
  | _ => none

def PC.rest : PC → List Int
  | .toExec _ _ l => l
  | .cb _ _ l => l
  | .back _ l => l
  | _ => []

def PC.cur : PC → Option Int
  | .toExec _ i _ => some i
  | .cb _ i _ => some i
  | _ => none

/-- Event `id` is in the table, at its time. -/
def State.parked (s : State) (id : Int) : Prop :=
  ∀ e, s.events.find id = some e → id ∈ slotOf s.table e.next

/-- Inputs that do not trigger the known defects: an event is only moved while it waits in the
table, only removed while it waits there or runs, and the period of a repeating event stays
positive. -/
def Input.ok (s : State) : Input → Prop
  | .setTime _ id _ => s.parked id
  | .remove id => s.pc.current = some id ∨ s.parked id
  | .setCycle id c => ∀ e, s.events.find id = some e → e.rep ≠ 0 → 0 < c
  | _ => True

inductive Reach : State → Prop
  | init (c : Int) : Reach (init c)
  | step {s i} : Reach s → i.ok s → Reach (step s i)

structure Inv (s : State) : Prop where
  tsorted : s.table.Sorted
  ssorted : ∀ k, IdSet.Sorted (slotOf s.table k)
  rsorted : IdSet.Sorted s.pc.rest
  slots : ∀ k id, id ∈ slotOf s.table k → ∃ e, s.events.find id = some e ∧ e.next = k
  batch : ∀ k id, s.pc.key = some k → id ∈ s.pc.rest ∨ s.pc.cur = some id →
    ∃ e, s.events.find id = some e ∧ e.next = k
  uniq : ∀ k id, id ∈ slotOf s.table k → id ∉ s.pc.rest ∧ s.pc.cur ≠ some id
  uniqc : ∀ id, s.pc.cur = some id → id ∉ s.pc.rest
  cover : ∀ id e, s.events.find id = some e → s.pc ≠ .ended →
    id ∈ slotOf s.table e.next ∨ id ∈ s.pc.rest ∨ s.pc.cur = some id
  key : ∀ k, s.pc.key = some k → k ≤ s.clock ∧ ∃ l, s.table.find k = some l
  pos : ∀ id e, s.events.find id = some e → e.rep ≠ 0 → 0 < e.cycle
  ids : ∀ id e, s.events.find id = some e → 0 ≤ id ∧ id ≤ s.lastId
  last : -1 ≤ s.lastId ∧ s.lastId ≤ maxI64

theorem inv_init (c : Int) : Inv (init c) := by
  constructor <;> simp [init, slotOf, PC.rest, PC.key, PC.cur, maxI64, OMap.sorted_nil,
    IdSet.sorted_nil, OMap.Sorted]

theorem mem_unpost {m : OMap (List Int)} {j k id x : Int} :
    x ∈ slotOf (m.insert k (IdSet.erase id (slotOf m k))) j ↔
      x ∈ slotOf m j ∧ ¬ (j = k ∧ x = id) := by
  rw [slotOf_insert]; split
  · subst_vars; rw [IdSet.mem_erase]; simp
  · simp_all

theorem Inv.inRange {s : State} (h : Inv s) {id : Int} {e : Ev} (hf : s.events.find id = some e) :
    IdSet.InRange id := by
  have h1 := h.ids id e hf
  have h2 := h.last.2
  unfold maxI64 at h2
  unfold IdSet.InRange; omega

theorem sorted_post {s : State} (h : Inv s) {m : OMap (List Int)}
    (hm : ∀ k, IdSet.Sorted (slotOf m k))
    (hsub : ∀ k x, x ∈ slotOf m k → x ∈ slotOf s.table k) {t id : Int} (hid : IdSet.InRange id)
    (k : Int) : IdSet.Sorted (slotOf (post m t id) k) := by
  unfold post; rw [slotOf_insert]; split
  · apply IdSet.Sorted.insert (hm t) hid
    intro j hj
    obtain ⟨e, he, _⟩ := h.slots t j (hsub t j hj)
    exact h.inRange he
  · exact hm k

/-! ### The thread -/

/-- Nothing is taken out of the table. -/
theorem inv_pcWait {s : State} (h : Inv s) (pc : PC) (b : Bool) (hpc : pc.key = none)
    (hr : s.pc.rest = []) (hc : s.pc.cur = none) (hne : s.pc ≠ .ended) (hr' : pc.rest = [])
    (hc' : pc.cur = none) :
    Inv { s with pc := pc, notified := b } where
  tsorted := h.tsorted
  ssorted := h.ssorted
  rsorted := by simp [hr', IdSet.sorted_nil]
  slots := h.slots
  batch := by simp [hpc]
  uniq := by simp [hr', hc']
  uniqc := by simp [hc']
  cover := by
    intro id e he _
    simpa [hr, hc, hr', hc'] using h.cover id e he hne
  key := by simp [hpc]
  pos := h.pos
  ids := h.ids
  last := h.last

theorem inv_look {s : State} (h : Inv s) (hr : s.pc.rest = []) (hc : s.pc.cur = none)
    (hk : s.pc.key = none) (hne : s.pc ≠ .ended) : Inv s.look := by
  unfold State.look
  split
  · split
    · exact inv_pcWait h .ended false rfl hr hc hne rfl rfl
    · exact inv_pcWait h .header false rfl hr hc hne rfl rfl
  · exact inv_pcWait h s.pc false hk hr hc hne hr hc

theorem inv_log {s : State} (h : Inv s) (l : List Obs) : Inv { s with log := l } :=
  ⟨h.1, h.2, h.3, h.4, h.5, h.6, h.7, h.8, h.9, h.10, h.11, h.12⟩

theorem inv_fault {s : State} (h : Inv s) (f : Option Fault) : Inv { s with fault := f } :=
  ⟨h.1, h.2, h.3, h.4, h.5, h.6, h.7, h.8, h.9, h.10, h.11, h.12⟩

theorem inv_finish {s : State} (h : Inv s) {k id : Int} {rest : List Int} (hk : s.pc.key = some k)
    (hr : s.pc.rest = rest) (hc : s.pc.cur = some id) : Inv (s.finish k id rest) := by
  have hne : s.pc ≠ .ended := by intro hp; rw [hp] at hc; simp [PC.cur] at hc
  unfold State.finish
  cases hf : s.events.find id with
  | none => exact inv_fault h _
  | some e =>
    simp only
    by_cases h0 : e.rep = 0
    · rw [if_pos h0]
      refine ⟨h.tsorted, h.ssorted, ?_, ?_, ?_, ?_, ?_, ?_, ?_, ?_, ?_, h.last⟩
      · exact hr ▸ h.rsorted
      · intro k' x hx
        have h1 := h.slots k' x hx
        have h2 := h.uniq k' x hx
        have hne : x ≠ id := by rintro rfl; exact h2.2 hc
        simpa [OMap.find_erase, hne] using h1
      · intro k' x hk' hx
        simp only [PC.key, PC.rest, PC.cur, Option.some.injEq, reduceCtorEq, or_false] at hk' hx
        subst hk'
        have h1 := h.batch k x hk (.inl (hr ▸ hx))
        have hne : x ≠ id := by rintro rfl; exact h.uniqc x hc (hr ▸ hx)
        simpa [OMap.find_erase, hne] using h1
      · intro k' x hx
        have h2 := h.uniq k' x hx
        simp only [PC.rest, PC.cur]
        exact ⟨hr ▸ h2.1, by simp⟩
      · simp [PC.cur]
      · intro x e' he' _
        simp only [OMap.find_erase] at he'
        split at he'
        · cases he'
        · rename_i hx
          rcases h.cover x e' he' hne with h1 | h1 | h1
          · exact .inl h1
          · exact .inr (.inl (hr ▸ h1))
          · rw [hc] at h1; simp at h1; exact absurd h1.symm hx
      · intro k' hk'
        simp only [PC.key, Option.some.injEq] at hk'
        subst hk'
        exact h.key k hk
      · intro x e' he' hr0
        simp only [OMap.find_erase] at he'
        split at he'
        · cases he'
        · exact h.pos x e' he' hr0
      · intro x e' he'
        simp only [OMap.find_erase] at he'
        split at he'
        · cases he'
        · exact h.ids x e' he'
    · rw [if_neg h0]
      cases hch : chk (e.next + e.cycle) with
      | none => exact inv_fault h _
      | some t =>
        simp only
        have hct := (chk_some hch).1
        have hpos := h.pos id e hf h0
        refine ⟨h.tsorted.insert, ?_, ?_, ?_, ?_, ?_, ?_, ?_, ?_, ?_, ?_, h.last⟩
        · exact sorted_post h h.ssorted (fun _ _ hx => hx) (h.inRange hf)
        · exact hr ▸ h.rsorted
        · intro k' x hx
          rw [mem_slotOf_post] at hx
          rcases hx with ⟨rfl, rfl⟩ | hx
          · simp
          · have h1 := h.slots k' x hx
            have h2 := h.uniq k' x hx
            have hne : x ≠ id := by rintro rfl; exact h2.2 hc
            simpa [OMap.find_insert, hne] using h1
        · intro k' x hk' hx
          simp only [PC.key, PC.rest, PC.cur, Option.some.injEq, reduceCtorEq, or_false] at hk' hx
          subst hk'
          have h1 := h.batch k x hk (.inl (hr ▸ hx))
          have hne : x ≠ id := by rintro rfl; exact h.uniqc x hc (hr ▸ hx)
          simpa [OMap.find_insert, hne] using h1
        · intro k' x hx
          rw [mem_slotOf_post] at hx
          simp only [PC.rest, PC.cur]
          refine ⟨?_, by simp⟩
          rcases hx with ⟨rfl, rfl⟩ | hx
          · exact hr ▸ h.uniqc x hc
          · exact hr ▸ (h.uniq k' x hx).1
        · simp [PC.cur]
        · intro x e' he' _
          simp only [OMap.find_insert] at he'
          simp only [mem_slotOf_post, PC.rest, PC.cur]
          split at he'
          · rename_i hx
            simp only [Option.some.injEq] at he'
            subst he' hx
            exact .inl (.inl ⟨rfl, rfl⟩)
          · rename_i hx
            rcases h.cover x e' he' hne with h1 | h1 | h1
            · exact .inl (.inr h1)
            · exact .inr (.inl (hr ▸ h1))
            · rw [hc] at h1; simp at h1; exact absurd h1.symm hx
        · intro k' hk'
          simp only [PC.key, Option.some.injEq] at hk'
          subst hk'
          obtain ⟨h1, l, h2⟩ := h.key k hk
          refine ⟨h1, ?_⟩
          simp only [find_post]
          split
          · exact ⟨_, rfl⟩
          · exact ⟨l, h2⟩
        · intro x e' he' hr0
          simp only [OMap.find_insert] at he'
          split at he'
          · simp only [Option.some.injEq] at he'
            subst he'; exact hpos
          · exact h.pos x e' he' hr0
        · intro x e' he'
          simp only [OMap.find_insert] at he'
          split at he'
          · rename_i hx
            subst hx
            exact h.ids x e hf
          · exact h.ids x e' he'

theorem inv_tick {s : State} (h : Inv s) : Inv s.tick := by
  unfold State.tick
  split
  · rename_i hpc
    have hr : s.pc.rest = [] := by rw [hpc]; rfl
    have hc : s.pc.cur = none := by rw [hpc]; rfl
    have hne : s.pc ≠ .ended := by rw [hpc]; simp
    split
    · exact inv_pcWait h _ true rfl hr hc hne rfl rfl
    · rename_i k hk
      by_cases hle : k ≤ s.clock
      · rw [if_pos hle]
        refine ⟨h.tsorted, h.ssorted, by simp [PC.rest, IdSet.sorted_nil], h.slots,
          by simp [PC.rest, PC.cur], by simp [PC.rest, PC.cur], by simp [PC.cur], ?_, ?_, h.pos,
          h.ids, h.last⟩
        · intro id e he _
          have := h.cover id e he hne
          rw [hr, hc] at this
          simpa [PC.rest, PC.cur] using this
        · intro k' hk'
          simp only [PC.key, Option.some.injEq] at hk'
          subst hk'
          exact ⟨hle, OMap.minKey_find hk⟩
      · rw [if_neg hle]; exact inv_pcWait h _ true rfl hr hc hne rfl rfl
  · rename_i k hpc
    have hr : s.pc.rest = [] := by rw [hpc]; rfl
    have hc : s.pc.cur = none := by rw [hpc]; rfl
    have hne : s.pc ≠ .ended := by rw [hpc]; simp
    obtain ⟨hkc, l, hkl⟩ := h.key k (by rw [hpc]; rfl)
    split
    · rename_i hsl
      refine ⟨h.tsorted.erase, ?_, by simp [PC.rest, IdSet.sorted_nil], ?_,
          by simp [PC.rest, PC.cur], by simp [PC.rest, PC.cur], by simp [PC.cur], ?_,
          by simp [PC.key], h.pos, h.ids, h.last⟩
      · intro k'; simp only [slotOf_erase]; split
        · exact IdSet.sorted_nil
        · exact h.ssorted k'
      · intro k' x hx
        simp only [slotOf_erase] at hx
        split at hx
        · simp at hx
        · exact h.slots k' x hx
      · intro id e he _
        left
        have h1 : id ∈ slotOf s.table e.next := by simpa [hr, hc] using h.cover id e he hne
        simp only [slotOf_erase]
        split
        · rename_i hk; rw [hk, hsl] at h1; simp at h1
        · exact h1
    · rename_i id rest hsl
      have hs := h.ssorted k
      rw [hsl] at hs
      have hnd := hs.nodup
      simp only [List.nodup_cons] at hnd
      refine ⟨h.tsorted.insert, ?_, ?_, ?_, ?_, ?_, ?_, ?_, ?_, h.pos, h.ids, h.last⟩
      · intro k'; simp only [slotOf_insert]; split
        · exact IdSet.sorted_nil
        · exact h.ssorted k'
      · exact (List.pairwise_cons.1 hs).2
      · intro k' x hx
        simp only [slotOf_insert] at hx
        split at hx
        · simp at hx
        · exact h.slots k' x hx
      · intro k' x hk' hx
        simp only [PC.key, PC.rest, PC.cur, Option.some.injEq] at hk' hx
        subst hk'
        apply h.slots
        rw [hsl]
        rcases hx with hx | rfl
        · exact List.mem_cons_of_mem _ hx
        · exact List.mem_cons_self
      · intro k' x hx
        simp only [slotOf_insert] at hx
        split at hx
        · simp at hx
        · rename_i hk'
          simp only [PC.rest, PC.cur, ne_eq, Option.some.injEq]
          obtain ⟨e, he, hn⟩ := h.slots k' x hx
          have key : x ∉ slotOf s.table k := by
            intro hx'
            obtain ⟨e', he', hn'⟩ := h.slots k x hx'
            rw [he] at he'; cases he'; exact hk' (hn.symm.trans hn')
          rw [hsl] at key
          simp only [List.mem_cons, not_or] at key
          exact ⟨key.2, fun hh => key.1 hh.symm⟩
      · intro x hx
        simp only [PC.cur, Option.some.injEq] at hx
        subst hx
        exact hnd.1
      · intro x e he _
        have h1 : x ∈ slotOf s.table e.next := by simpa [hr, hc] using h.cover x e he hne
        simp only [slotOf_insert, PC.rest, PC.cur, Option.some.injEq]
        split
        · rename_i hk
          rw [hk, hsl] at h1
          simp only [List.mem_cons] at h1
          rcases h1 with h1 | h1
          · exact .inr (.inr h1.symm)
          · exact .inr (.inl h1)
        · exact .inl h1
      · intro k' hk'
        simp only [PC.key, Option.some.injEq] at hk'
        subst hk'
        exact ⟨hkc, [], by simp⟩
  · rename_i k id rest hpc
    have hk : s.pc.key = some k := by rw [hpc]; rfl
    have hr : s.pc.rest = rest := by rw [hpc]; rfl
    have hc : s.pc.cur = some id := by rw [hpc]; rfl
    have hne : s.pc ≠ .ended := by rw [hpc]; simp
    split
    · exact inv_fault h _
    · split
      · refine ⟨h.tsorted, h.ssorted, ?_, h.slots, ?_, ?_, ?_, ?_, ?_, h.pos, h.ids, h.last⟩
        · exact hr ▸ h.rsorted
        · intro k' x; have := h.batch k' x; rw [hk, hr, hc] at this; exact this
        · intro k' x hx; have := h.uniq k' x hx; rw [hr, hc] at this; exact this
        · intro x; have := h.uniqc x; rw [hr, hc] at this; exact this
        · intro x e he _; have := h.cover x e he hne; rw [hr, hc] at this; exact this
        · intro k'; have := h.key k'; rw [hk] at this; exact this
      · exact inv_finish (s := { s with log := _ }) (inv_log h _) hk hr hc
  · rename_i k id rest hpc
    exact inv_finish h (by rw [hpc]; rfl) (by rw [hpc]; rfl) (by rw [hpc]; rfl)
  · rename_i k rest hpc
    have hk : s.pc.key = some k := by rw [hpc]; rfl
    have hr : s.pc.rest = rest := by rw [hpc]; rfl
    have hc : s.pc.cur = none := by rw [hpc]; rfl
    have hne : s.pc ≠ .ended := by rw [hpc]; simp
    split
    · refine ⟨h.tsorted, h.ssorted, by simp [PC.rest, IdSet.sorted_nil], h.slots,
          by simp [PC.rest, PC.cur], by simp [PC.rest, PC.cur], by simp [PC.cur], by simp,
          by simp [PC.key], h.pos, h.ids, h.last⟩
    · split
      · refine ⟨h.tsorted, h.ssorted, by simp [PC.rest, IdSet.sorted_nil], h.slots,
          by simp [PC.rest, PC.cur], by simp [PC.rest, PC.cur], by simp [PC.cur], ?_, ?_, h.pos,
          h.ids, h.last⟩
        · intro id e he _
          have := h.cover id e he hne
          rw [hr, hc] at this
          simpa [PC.rest, PC.cur] using this
        · intro k' hk'
          exact h.key k' (hk.trans hk')
      · rename_i id l _
        have hs := h.rsorted
        rw [hr] at hs
        have hnd := hs.nodup
        simp only [List.nodup_cons] at hnd
        refine ⟨h.tsorted, h.ssorted, (List.pairwise_cons.1 hs).2, h.slots, ?_, ?_, ?_, ?_, ?_,
          h.pos, h.ids, h.last⟩
        · intro k' x hk' hx
          apply h.batch k' x (hk.trans hk')
          simp only [PC.rest, PC.cur, Option.some.injEq] at hx
          left; rw [hr]
          rcases hx with hx | rfl
          · exact List.mem_cons_of_mem _ hx
          · exact List.mem_cons_self
        · intro k' x hx
          have := (h.uniq k' x hx).1
          rw [hr] at this
          simp only [List.mem_cons, not_or] at this
          simp only [PC.rest, PC.cur, ne_eq, Option.some.injEq]
          exact ⟨this.2, fun hh => this.1 hh.symm⟩
        · intro x hx
          simp only [PC.cur, Option.some.injEq] at hx
          subst hx
          exact hnd.1
        · intro x e he _
          have := h.cover x e he hne
          simp only [hr, hc, List.mem_cons, reduceCtorEq, or_false] at this
          simp only [PC.rest, PC.cur, Option.some.injEq]
          rcases this with h1 | h1 | h1
          · exact .inl h1
          · exact .inr (.inr h1.symm)
          · exact .inr (.inl h1)
        · intro k' hk'
          exact h.key k' (hk.trans hk')
  · rename_i hpc
    split
    · exact h
    · exact inv_look h (by rw [hpc]; rfl) (by rw [hpc]; rfl) (by rw [hpc]; rfl) (by simp [hpc])
  · rename_i hpc
    split
    · exact h
    · exact inv_look h (by rw [hpc]; rfl) (by rw [hpc]; rfl) (by rw [hpc]; rfl) (by simp [hpc])
  · exact h

/-! ### Calls -/

theorem inv_add {s : State} (h : Inv s) (seen : Int) (ep : Nat) (t c r : Int) :
    Inv (s.add seen ep t c r) := by
  unfold State.add
  split
  · exact h
  split
  · exact h
  rename_i hcr
  cases hch : chk (s.lastId + 1) with
  | none => exact inv_fault h _
  | some n =>
    obtain ⟨hn, hlo, hhi⟩ := chk_some hch
    have hlast := h.last
    simp only
    have hfresh : s.events.find n = none := by
      cases hf : s.events.find n with
      | none => rfl
      | some e => have := h.ids n e hf; omega
    have hnew : ∀ {x e}, s.events.find x = some e → x ≠ n := by
      rintro x e hx rfl; rw [hfresh] at hx; cases hx
    refine ⟨h.tsorted.insert, ?_, h.rsorted, ?_, ?_, ?_, h.uniqc, ?_, ?_, ?_, ?_, ?_⟩
    · refine sorted_post h h.ssorted (fun _ _ hx => hx) ?_
      unfold IdSet.InRange; unfold maxI64 at hhi; omega
    · intro k x hx
      rw [mem_slotOf_post] at hx
      rcases hx with ⟨rfl, rfl⟩ | hx
      · simp
      · obtain ⟨e, he, hk⟩ := h.slots k x hx
        exact ⟨e, by simp [OMap.find_insert, hnew he, he], hk⟩
    · intro k x hk hx
      obtain ⟨e, he, hk⟩ := h.batch k x hk hx
      exact ⟨e, by simp [OMap.find_insert, hnew he, he], hk⟩
    · intro k x hx
      rw [mem_slotOf_post] at hx
      rcases hx with ⟨rfl, rfl⟩ | hx
      · constructor
        · intro hx
          cases hk : s.pc.key with
          | none => cases hpc : s.pc <;> simp_all [PC.key, PC.rest]
          | some k' =>
            obtain ⟨e, he, _⟩ := h.batch k' x hk (.inl hx)
            exact hnew he rfl
        · intro hx
          cases hk : s.pc.key with
          | none => cases hpc : s.pc <;> simp_all [PC.key, PC.cur]
          | some k' =>
            obtain ⟨e, he, _⟩ := h.batch k' x hk (.inr hx)
            exact hnew he rfl
      · exact h.uniq k x hx
    · intro x e he hne
      simp only [OMap.find_insert] at he
      simp only [mem_slotOf_post]
      split at he
      · rename_i hx
        simp only [Option.some.injEq] at he
        subst he hx
        exact .inl (.inl ⟨rfl, rfl⟩)
      · rcases h.cover x e he hne with h1 | h1
        · exact .inl (.inr h1)
        · exact .inr h1
    · intro k hk
      obtain ⟨h1, l, h2⟩ := h.key k hk
      refine ⟨h1, ?_⟩
      simp only [find_post]
      split
      · exact ⟨_, rfl⟩
      · exact ⟨l, h2⟩
    · intro x e he hr0
      simp only [OMap.find_insert] at he
      split at he
      · simp only [Option.some.injEq] at he
        subst he
        simp only at hr0 ⊢
        omega
      · exact h.pos x e he hr0
    · intro x e he
      simp only [OMap.find_insert] at he
      simp only
      split at he
      · omega
      · have := h.ids x e he; omega
    · simp only; omega

theorem inv_update {s : State} (h : Inv s) {id : Int} {e e' : Ev}
    (he : s.events.find id = some e) (hn : e'.next = e.next) (hp : e'.rep ≠ 0 → 0 < e'.cycle) :
    Inv { s with events := s.events.insert id e' } := by
  have hf : ∀ x f, s.events.find x = some f →
      ∃ f', (s.events.insert id e').find x = some f' ∧ f'.next = f.next := by
    intro x f hx
    simp only [OMap.find_insert]
    split
    · subst_vars; rw [he] at hx; cases hx; exact ⟨_, rfl, hn⟩
    · exact ⟨f, hx, rfl⟩
  have hb : ∀ x f', (s.events.insert id e').find x = some f' →
      ∃ f, s.events.find x = some f ∧ f'.next = f.next := by
    intro x f hx
    simp only [OMap.find_insert] at hx
    split at hx
    · subst_vars; simp only [Option.some.injEq] at hx; subst hx; exact ⟨_, he, hn⟩
    · exact ⟨f, hx, rfl⟩
  refine ⟨h.tsorted, h.ssorted, h.rsorted, ?_, ?_, h.uniq, h.uniqc, ?_, h.key, ?_, ?_, h.last⟩
  · intro k x hx
    obtain ⟨f, h1, h2⟩ := h.slots k x hx
    obtain ⟨f', h3, h4⟩ := hf x f h1
    exact ⟨f', h3, h4.trans h2⟩
  · intro k x hk hx
    obtain ⟨f, h1, h2⟩ := h.batch k x hk hx
    obtain ⟨f', h3, h4⟩ := hf x f h1
    exact ⟨f', h3, h4.trans h2⟩
  · intro x f' hx hne
    obtain ⟨f, h3, h4⟩ := hb x f' hx
    rw [h4]; exact h.cover x f h3 hne
  · intro x f' hx hr0
    simp only [OMap.find_insert] at hx
    split at hx
    · simp only [Option.some.injEq] at hx; subst hx; exact hp hr0
    · exact h.pos x f' hx hr0
  · intro x f' hx
    obtain ⟨f, h3, _⟩ := hb x f' hx
    exact h.ids x f h3

/-- An event that waits in the table is taken out of it and forgotten. -/
theorem inv_drop {s : State} (h : Inv s) {id : Int} {e : Ev} (he : s.events.find id = some e)
    (hp : id ∈ slotOf s.table e.next) :
    Inv { s with table := s.table.insert e.next (IdSet.erase id (slotOf s.table e.next)),
                 events := s.events.erase id } := by
  have hu := h.uniq _ _ hp
  refine ⟨h.tsorted.insert, ?_, h.rsorted, ?_, ?_, ?_, h.uniqc, ?_, ?_, ?_, ?_, h.last⟩
  · intro k; simp only [slotOf_insert]; split
    · exact (h.ssorted _).erase
    · exact h.ssorted k
  · intro k x hx
    rw [mem_unpost] at hx
    obtain ⟨f, hf, hk⟩ := h.slots k x hx.1
    refine ⟨f, ?_, hk⟩
    simp only [OMap.find_erase]
    split
    · subst_vars; rw [he] at hf; cases hf; exact absurd ⟨rfl, rfl⟩ hx.2
    · exact hf
  · intro k x hk hx
    obtain ⟨f, hf, hk⟩ := h.batch k x hk hx
    refine ⟨f, ?_, hk⟩
    simp only [OMap.find_erase]
    split
    · subst_vars; rcases hx with hx | hx
      · exact absurd hx hu.1
      · exact absurd hx hu.2
    · exact hf
  · intro k x hx
    rw [mem_unpost] at hx
    exact h.uniq k x hx.1
  · intro x f hf hne
    simp only [OMap.find_erase] at hf
    split at hf
    · cases hf
    · rename_i hx
      rcases h.cover x f hf hne with h1 | h1
      · left; rw [mem_unpost]; exact ⟨h1, fun hh => hx hh.2⟩
      · exact .inr h1
  · intro k hk
    obtain ⟨h1, l, h2⟩ := h.key k hk
    refine ⟨h1, ?_⟩
    simp only [OMap.find_insert]
    split
    · exact ⟨_, rfl⟩
    · exact ⟨l, h2⟩
  · intro x f hf hr0
    simp only [OMap.find_erase] at hf
    split at hf
    · cases hf
    · exact h.pos x f hf hr0
  · intro x f hf
    simp only [OMap.find_erase] at hf
    split at hf
    · cases hf
    · exact h.ids x f hf

theorem inv_setTime {s : State} (h : Inv s) {seen id t : Int} (hok : s.parked id) :
    Inv (s.setTime seen id t) := by
  unfold State.setTime
  cases he : s.events.find id with
  | none => exact h
  | some e =>
    have hp := hok e he
    simp only
    split
    · exact inv_drop h he hp
    · have hu := h.uniq _ _ hp
      have hss : ∀ k, IdSet.Sorted
          (slotOf (s.table.insert e.next (IdSet.erase id (slotOf s.table e.next))) k) := by
        intro k; simp only [slotOf_insert]; split
        · exact (h.ssorted _).erase
        · exact h.ssorted k
      refine ⟨(h.tsorted.insert).insert, ?_, h.rsorted, ?_, ?_, ?_, h.uniqc, ?_, ?_, ?_, ?_, h.last⟩
      · exact sorted_post h hss (fun k x hx => (mem_unpost.1 hx).1) (h.inRange he)
      · intro k x hx
        rw [mem_slotOf_post, mem_unpost] at hx
        simp only [OMap.find_insert]
        rcases hx with ⟨rfl, rfl⟩ | ⟨hx, hx'⟩
        · simp
        · obtain ⟨f, hf, hk⟩ := h.slots k x hx
          split
          · subst_vars; rw [he] at hf; cases hf; exact absurd ⟨rfl, rfl⟩ hx'
          · exact ⟨f, hf, hk⟩
      · intro k x hk hx
        obtain ⟨f, hf, hk⟩ := h.batch k x hk hx
        refine ⟨f, ?_, hk⟩
        simp only [OMap.find_insert]
        split
        · subst_vars; rcases hx with hx | hx
          · exact absurd hx hu.1
          · exact absurd hx hu.2
        · exact hf
      · intro k x hx
        rw [mem_slotOf_post, mem_unpost] at hx
        rcases hx with ⟨rfl, rfl⟩ | ⟨hx, hx'⟩
        · exact hu
        · exact h.uniq k x hx
      · intro x f hf hne
        simp only [OMap.find_insert] at hf
        rw [mem_slotOf_post, mem_unpost]
        split at hf
        · rename_i hx
          simp only [Option.some.injEq] at hf
          subst hf hx
          exact .inl (.inl ⟨rfl, rfl⟩)
        · rename_i hx
          rcases h.cover x f hf hne with h1 | h1
          · exact .inl (.inr ⟨h1, fun hh => hx hh.2⟩)
          · exact .inr h1
      · intro k hk
        obtain ⟨h1, l, h2⟩ := h.key k hk
        refine ⟨h1, ?_⟩
        simp only [find_post, OMap.find_insert]
        split
        · exact ⟨_, rfl⟩
        · split
          · exact ⟨_, rfl⟩
          · exact ⟨l, h2⟩
      · intro x f hf hr0
        simp only [OMap.find_insert] at hf
        split at hf
        · simp only [Option.some.injEq] at hf
          subst hf
          exact h.pos id e he hr0
        · exact h.pos x f hf hr0
      · intro x f hf
        simp only [OMap.find_insert] at hf
        split at hf
        · subst_vars; exact h.ids _ e he
        · exact h.ids x f hf

theorem inv_advance {s : State} (h : Inv s) (d : Nat) : Inv { s with clock := s.clock + d } := by
  refine ⟨h.1, h.2, h.3, h.4, h.5, h.6, h.7, h.8, ?_, h.10, h.11, h.12⟩
  intro k hk
  obtain ⟨h1, h2⟩ := h.key k hk
  exact ⟨by simp only; omega, h2⟩

theorem inv_step {s : State} {i : Input} (h : Inv s) (hok : i.ok s) : Inv (step s i) := by
  unfold step
  split
  · exact h
  split
  · exact h
  cases i with
  | tick => exact inv_tick h
  | spurious =>
    simp only
    split
    · rename_i hpc
      exact inv_look h (by rw [hpc]; rfl) (by rw [hpc]; rfl) (by rw [hpc]; rfl) (by simp [hpc])
    · rename_i hpc
      exact inv_look h (by rw [hpc]; rfl) (by rw [hpc]; rfl) (by rw [hpc]; rfl) (by simp [hpc])
    · exact h
  | advance d => exact inv_advance h d
  | simState a => exact ⟨h.1, h.2, h.3, h.4, h.5, h.6, h.7, h.8, h.9, h.10, h.11, h.12⟩
  | other =>
    simp only
    cases hch : chk (s.lastId + 1) with
    | none => exact inv_fault h _
    | some n =>
      obtain ⟨hn, _, hhi⟩ := chk_some hch
      have hl := h.last
      refine ⟨h.1, h.2, h.3, h.4, h.5, h.6, h.7, h.8, h.9, h.10, ?_, by simp only; omega⟩
      intro x e he
      have := h.ids x e he
      simp only; omega
  | add seen ep t c r => simp only; split; exact inv_add h _ _ _ _ _; exact h
  | setTime seen id t => simp only; split; exact inv_setTime h hok; exact h
  | setCycle id c =>
    simp only [State.setCycle]
    cases he : s.events.find id with
    | none => exact h
    | some e =>
      simp only; split
      · exact h
      · exact inv_update h he rfl (hok e he)
  | setRepeat id r =>
    simp only [State.setRepeat]
    cases he : s.events.find id with
    | none => exact h
    | some e =>
      simp only; split
      · exact h
      · exact inv_update h he rfl (by simp only; omega)
  | remove id =>
    simp only [State.remove]
    cases he : s.events.find id with
    | none => exact h
    | some e =>
      simp only; split
      · exact inv_update h he rfl (by simp)
      · rename_i hc
        rcases hok with hok | hok
        · exact absurd hok hc
        · exact inv_drop h he (hok e he)
  | disconnect => exact ⟨h.1, h.2, h.3, h.4, h.5, h.6, h.7, h.8, h.9, h.10, h.11, h.12⟩

theorem Reach.inv {s : State} (h : Reach s) : Inv s := by
  induction h with
  | init c => exact inv_init c
  | step _ hok ih => exact inv_step ih hok

end Verif.Sched.Zulu
