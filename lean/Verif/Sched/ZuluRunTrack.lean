import Verif.Sched.ZuluRunInv

/-! Life of one Zulu event, and what the thread knows when it sleeps. Helper lemmas for
`ZuluRunProps`. -/
namespace Verif.Sched.Zulu
open Verif

/-- What was observed of event `n`, newest first. -/
def occ (n : Int) (l : List Obs) : List Obs :=
  l.filter fun o => match o with
    | .called id _ _ => id = n
    | .skipped id _ => id = n

/-- The input does not change or remove event `n`. -/
def Input.leaves (n : Int) : Input → Prop
  | .setTime _ id _ => id ≠ n
  | .setCycle id _ => id ≠ n
  | .setRepeat id _ => id ≠ n
  | .remove id => id ≠ n
  | _ => True

/-- The repetitions left after `j` of them, `r` being asked for. -/
def left (r : Int) (j : Nat) : Int := if r < 0 then r else r - j

/-- The `j`-th occurrence of event `n` took place at its time or later. -/
def Good (n : Int) (ep : Nat) (t c clock : Int) (j : Nat) (o : Obs) : Prop :=
  ∃ w, t + j * c ≤ w ∧ w ≤ clock ∧ (o = .called n ep w ∨ o = .skipped n w)

/-- `l` (newest first) is made of the occurrences `0 … m-1`. -/
def Goods (n : Int) (ep : Nat) (t c clock : Int) : Nat → List Obs → Prop
  | 0, l => l = []
  | m + 1, l => ∃ o l', l = o :: l' ∧ Good n ep t c clock m o ∧ Goods n ep t c clock m l'

theorem Goods.mono {n : Int} {ep : Nat} {t c k k' : Int} (hk : k ≤ k') :
    ∀ {m l}, Goods n ep t c k m l → Goods n ep t c k' m l
  | 0, _, h => h
  | _ + 1, _, ⟨o, l', h1, ⟨w, h2, h3, h4⟩, h5⟩ =>
    ⟨o, l', h1, ⟨w, h2, by omega, h4⟩, h5.mono hk⟩

theorem Goods.length {n : Int} {ep : Nat} {t c k : Int} :
    ∀ {m l}, Goods n ep t c k m l → l.length = m
  | 0, _, h => by simp only [Goods] at h; simp [h]
  | _ + 1, _, ⟨_, _, h1, _, h5⟩ => by simp [h1, h5.length]

theorem Goods.get {n : Int} {ep : Nat} {t c k : Int} :
    ∀ {m l}, Goods n ep t c k m l → ∀ j o, l.reverse[j]? = some o → Good n ep t c k j o
  | 0, _, h, j, o, ho => by simp only [Goods] at h; simp [h] at ho
  | m + 1, _, ⟨o', l', h1, h2, h5⟩, j, o, ho => by
    subst h1
    have hl := h5.length
    simp only [List.reverse_cons] at ho
    by_cases hj : j < l'.reverse.length
    · rw [List.getElem?_append_left hj] at ho
      exact h5.get j o ho
    · rw [List.getElem?_append_right (by omega)] at ho
      have hj' : j = m := by
        simp only [List.length_reverse] at hj ho
        have := (List.getElem?_eq_some_iff.1 ho).1
        simp at this
        omega
      subst hj'
      simp [hl] at ho
      subst ho; exact h2

/-- Event `n` has had `j` occurrences that are over. -/
def Alive (s : State) (n : Int) (ep : Nat) (t c r : Int) (j : Nat) : Prop :=
  s.events.find n = some ⟨ep, t + j * c, c, left r j⟩ ∧ (0 ≤ r → (j : Int) ≤ r) ∧
  ((s.pc.current ≠ some n ∧ Goods n ep t c s.clock j (occ n s.log)) ∨
   (s.pc.current = some n ∧ Goods n ep t c s.clock (j + 1) (occ n s.log)))

/-- Event `n` is over. -/
def Over (s : State) (n : Int) (ep : Nat) (t c r : Int) : Prop :=
  s.events.find n = none ∧ 0 ≤ r ∧ n ≤ s.lastId ∧
    Goods n ep t c s.clock (r.toNat + 1) (occ n s.log)

def Track (s : State) (n : Int) (ep : Nat) (t c r : Int) : Prop :=
  (∃ j, Alive s n ep t c r j) ∨ Over s n ep t c r

/-- The event is not concerned by the step. -/
theorem track_same {s s' : State} {n : Int} {ep : Nat} {t c r : Int} (h : Track s n ep t c r)
    (h1 : s'.events.find n = s.events.find n) (h2 : s'.pc.current = some n ↔ s.pc.current = some n)
    (h3 : occ n s'.log = occ n s.log) (h4 : s.clock ≤ s'.clock) (h5 : s.lastId ≤ s'.lastId) :
    Track s' n ep t c r := by
  rcases h with ⟨j, ha, hb, hc⟩ | ⟨ha, hb, hb', hc⟩
  · refine .inl ⟨j, h1 ▸ ha, hb, ?_⟩
    rw [ne_eq, h2, h3]
    rcases hc with ⟨hc, hd⟩ | ⟨hc, hd⟩
    · exact .inl ⟨hc, hd.mono h4⟩
    · exact .inr ⟨hc, hd.mono h4⟩
  · exact .inr ⟨h1 ▸ ha, hb, by omega, h3 ▸ hc.mono h4⟩

/-- The end of the execution of event `n`. -/
theorem track_finish {s : State} {n : Int} {ep : Nat} {t c r : Int} {j : Nat} {k : Int}
    {rest : List Int} (hlast : n ≤ s.lastId)
    (ha : s.events.find n = some ⟨ep, t + j * c, c, left r j⟩) (hb : 0 ≤ r → (j : Int) ≤ r)
    (hg : Goods n ep t c s.clock (j + 1) (occ n s.log))
    (hf : (s.finish k n rest).fault = none) : Track (s.finish k n rest) n ep t c r := by
  unfold State.finish at hf ⊢
  rw [ha] at hf ⊢
  simp only at hf ⊢
  by_cases h0 : left r j = 0
  · rw [if_pos h0]
    right
    have hj : 0 ≤ r ∧ r.toNat = j := by
      unfold left at h0; split at h0 <;> omega
    refine ⟨by simp, hj.1, hlast, ?_⟩
    rw [hj.2]; exact hg
  · rw [if_neg h0] at hf ⊢
    cases hch : chk (t + j * c + c) with
    | none => simp [hch] at hf
    | some u =>
      have hu := (chk_some hch).1
      simp only
      left
      refine ⟨j + 1, ?_, ?_, ?_⟩
      · simp only [OMap.find_insert_self, Option.some.injEq, Ev.mk.injEq, true_and]
        refine ⟨?_, ?_⟩
        · rw [hu]
          have : ((j + 1 : Nat) : Int) * c = j * c + c := by
            rw [Int.natCast_add, Int.add_mul]; simp
          omega
        · unfold left at h0 ⊢; split <;> split <;> omega
      · unfold left at h0; split at h0 <;> omega
      · left; exact ⟨by simp [PC.current], hg⟩

theorem track_finish_other {s : State} {n : Int} {ep : Nat} {t c r : Int} {k id : Int}
    {rest : List Int} (hne : id ≠ n) (hcur : s.pc.current ≠ some n) (h : Track s n ep t c r) :
    Track (s.finish k id rest) n ep t c r := by
  unfold State.finish
  split
  · exact track_same h rfl Iff.rfl rfl (by simp) (by simp)
  · split
    · exact track_same h (OMap.find_erase_ne (Ne.symm hne) _) (iff_of_false (by simp [PC.current]) hcur) rfl
        (by simp) (by simp)
    · split
      · exact track_same h rfl Iff.rfl rfl (by simp) (by simp)
      · exact track_same h (OMap.find_insert_ne (Ne.symm hne) _ _) (iff_of_false (by simp [PC.current]) hcur) rfl
          (by simp) (by simp)

theorem occ_cons_called {n id : Int} {ep : Nat} {w : Int} {l : List Obs} :
    occ n (.called id ep w :: l) = if id = n then .called id ep w :: occ n l else occ n l := by
  unfold occ; rw [List.filter_cons]; simp

theorem occ_cons_skipped {n id : Int} {w : Int} {l : List Obs} :
    occ n (.skipped id w :: l) = if id = n then .skipped id w :: occ n l else occ n l := by
  unfold occ; rw [List.filter_cons]; simp

theorem look_same (s : State) : s.look.events = s.events ∧ s.look.log = s.log ∧
    s.look.clock = s.clock ∧ s.look.lastId = s.lastId ∧ s.look.table = s.table ∧
    s.look.fault = s.fault ∧ s.look.terminate = s.terminate := by
  unfold State.look; split <;> simp

theorem track_look {s : State} {n : Int} {ep : Nat} {t c r : Int} (h : Track s n ep t c r)
    (hcur : s.pc.current = none) : Track s.look n ep t c r := by
  obtain ⟨h1, h2, h3, h4, _⟩ := look_same s
  refine track_same h (by rw [h1]) ?_ (by rw [h2]) (by omega) (by omega)
  unfold State.look
  split
  · rw [hcur]; simp only; split <;> simp [PC.current]
  · rfl

theorem tick_header {s : State} (h : s.pc = .header) : s.tick = (match s.table.minKey with
    | none => s.enterWait .waitAny
    | some k => if k ≤ s.clock then { s with pc := .slot k } else s.enterWait (.waitFor k)) := by
  unfold State.tick; split <;> (rename_i h'; rw [h] at h'; cases h'); rfl

theorem tick_slot {s : State} {k : Int} (h : s.pc = .slot k) : s.tick =
    (match slotOf s.table k with
    | [] => { s with table := s.table.erase k, pc := .header }
    | id :: rest => { s with table := s.table.insert k [], pc := .toExec k id rest }) := by
  unfold State.tick; split <;> (rename_i h'; rw [h] at h'; cases h'); rfl

theorem tick_toExec {s : State} {k id : Int} {rest : List Int} (h : s.pc = .toExec k id rest) :
    s.tick = (match s.events.find id with
    | none => { s with fault := some .outOfRange }
    | some e =>
      if s.active then { s with pc := .cb k id rest, log := .called id e.ep s.clock :: s.log }
      else { s with log := .skipped id s.clock :: s.log }.finish k id rest) := by
  unfold State.tick; split <;> (rename_i h'; rw [h] at h'; cases h'); rfl

theorem tick_cb {s : State} {k id : Int} {rest : List Int} (h : s.pc = .cb k id rest) :
    s.tick = s.finish k id rest := by
  unfold State.tick; split <;> (rename_i h'; rw [h] at h'; cases h'); rfl

theorem tick_back {s : State} {k : Int} {rest : List Int} (h : s.pc = .back k rest) :
    s.tick = (if s.terminate then { s with pc := .ended }
    else match (generalizing := false) rest with
      | [] => { s with pc := .slot k }
      | id :: rest => { s with pc := .toExec k id rest }) := by
  unfold State.tick; split <;> (rename_i h'; rw [h] at h'; cases h'); rfl

theorem tick_waitAny {s : State} (h : s.pc = .waitAny) :
    s.tick = if s.asleep then s else s.look := by
  unfold State.tick
  split <;> first | rfl | (rename_i h'; rw [h] at h'; cases h')

theorem tick_waitFor {s : State} {d : Int} (h : s.pc = .waitFor d) :
    s.tick = if s.asleep then s else s.look := by
  unfold State.tick
  split <;> first | rfl | (rename_i h'; rw [h] at h'; cases h')

theorem tick_ended {s : State} (h : s.pc = .ended) : s.tick = s := by
  unfold State.tick
  split <;> first | rfl | (rename_i h'; rw [h] at h'; cases h')

theorem track_tick {s : State} {n : Int} {ep : Nat} {t c r : Int} (hi : Inv s)
    (h : Track s n ep t c r) (hf : s.tick.fault = none) : Track s.tick n ep t c r := by
  cases hpc : s.pc with
  | header =>
    rw [tick_header hpc] at hf ⊢
    split
    · exact track_same h rfl (by simp [State.enterWait, PC.current, hpc]) rfl (by simp [State.enterWait]) (by simp [State.enterWait])
    · split
      · exact track_same h rfl (by simp [PC.current, hpc]) rfl (by simp) (by simp)
      · exact track_same h rfl (by simp [State.enterWait, PC.current, hpc]) rfl (by simp [State.enterWait]) (by simp [State.enterWait])
  | slot k =>
    rw [tick_slot hpc] at hf ⊢
    split <;> exact track_same h rfl (by simp [PC.current, hpc]) rfl (by simp) (by simp)
  | toExec k id rest =>
    rw [tick_toExec hpc] at hf ⊢
    obtain ⟨e0, he0, hn0⟩ := hi.batch k id (by rw [hpc]; rfl) (.inr (by rw [hpc]; rfl))
    have hkc := (hi.key k (by rw [hpc]; rfl)).1
    rw [he0] at hf ⊢
    simp only at hf ⊢
    by_cases hid : id = n
    · subst hid
      rcases h with ⟨j, ha, hb, hc⟩ | ⟨ha, _⟩
      · have hg : Goods id ep t c s.clock j (occ id s.log) := by
          rcases hc with ⟨_, hc⟩ | ⟨hc, _⟩
          · exact hc
          · simp [hpc, PC.current] at hc
        rw [he0] at ha
        simp only [Option.some.injEq] at ha
        subst ha
        simp only at hn0
        split
        · left
          refine ⟨j, he0, hb, .inr ⟨rfl, ?_⟩⟩
          simp only [occ_cons_called, if_pos]
          exact ⟨_, _, rfl, ⟨s.clock, by omega, by simp, .inl rfl⟩, hg⟩
        · rename_i hact
          rw [if_neg hact] at hf
          refine track_finish (s := { s with log := _ }) (hi.ids _ _ he0).2 he0 hb ?_ hf
          simp only [occ_cons_skipped, if_pos]
          exact ⟨_, _, rfl, ⟨s.clock, by omega, by simp, .inr rfl⟩, hg⟩
      · rw [he0] at ha; cases ha
    · split
      · exact track_same h rfl (by simp [PC.current, hpc, hid])
          (by simp only [occ_cons_called]; rw [if_neg hid]) (by simp) (by simp)
      · refine track_finish_other hid (by simp [hpc, PC.current]) ?_
        exact track_same h rfl Iff.rfl (by simp only [occ_cons_skipped]; rw [if_neg hid]) (by simp)
          (by simp)
  | cb k id rest =>
    rw [tick_cb hpc] at hf ⊢
    by_cases hid : id = n
    · subst hid
      rcases h with ⟨j, ha, hb, hc⟩ | ⟨ha, _⟩
      · have hg : Goods id ep t c s.clock (j + 1) (occ id s.log) := by
          rcases hc with ⟨hc, _⟩ | ⟨_, hc⟩
          · simp [hpc, PC.current] at hc
          · exact hc
        exact track_finish (hi.ids _ _ ha).2 ha hb hg hf
      · obtain ⟨e0, he0, _⟩ := hi.batch k id (by rw [hpc]; rfl) (.inr (by rw [hpc]; rfl))
        rw [he0] at ha; cases ha
    · exact track_finish_other hid (by simp [hpc, PC.current, hid]) h
  | back k rest =>
    rw [tick_back hpc] at hf ⊢
    split
    · exact track_same h rfl (by simp [PC.current, hpc]) rfl (by simp) (by simp)
    · split <;> exact track_same h rfl (by simp [PC.current, hpc]) rfl (by simp) (by simp)
  | waitAny =>
    rw [tick_waitAny hpc] at hf ⊢
    split
    · exact h
    · exact track_look h (by rw [hpc]; rfl)
  | waitFor d =>
    rw [tick_waitFor hpc] at hf ⊢
    split
    · exact h
    · exact track_look h (by rw [hpc]; rfl)
  | ended => rw [tick_ended hpc]; exact h

theorem Track.le_last {s : State} {n : Int} {ep : Nat} {t c r : Int} (hi : Inv s)
    (h : Track s n ep t c r) : n ≤ s.lastId := by
  rcases h with ⟨j, ha, _⟩ | ⟨_, _, h, _⟩
  · exact (hi.ids _ _ ha).2
  · exact h

theorem track_step {s : State} {i : Input} {n : Int} {ep : Nat} {t c r : Int} (hi : Inv s)
    (h : Track s n ep t c r) (hl : i.leaves n) (hf : (step s i).fault = none) :
    Track (step s i) n ep t c r := by
  unfold step at hf ⊢
  split at hf
  · rename_i h0; rw [if_pos h0]; exact h
  rename_i h0
  rw [if_neg h0]
  split at hf
  · rename_i h0; rw [if_pos h0]; exact h
  rename_i h0
  rw [if_neg h0]
  have hle := h.le_last hi
  cases i with
  | tick => exact track_tick hi h hf
  | spurious =>
    simp only
    split
    · rename_i hpc; exact track_look h (by rw [hpc]; rfl)
    · rename_i hpc; exact track_look h (by rw [hpc]; rfl)
    · exact h
  | advance d => exact track_same h rfl Iff.rfl rfl (by simp only; omega) (by simp)
  | simState a => exact track_same h rfl Iff.rfl rfl (by simp) (by simp)
  | other =>
    simp only
    split
    · exact track_same h rfl Iff.rfl rfl (by simp) (by simp)
    · rename_i m hm
      have := (chk_some hm).1
      exact track_same h rfl Iff.rfl rfl (by simp) (by simp only; omega)
  | add seen ep' t' c' r' =>
    simp only
    split
    · unfold State.add
      split
      · exact h
      split
      · exact h
      split
      · exact track_same h rfl Iff.rfl rfl (by simp) (by simp)
      · rename_i m hm
        have := (chk_some hm).1
        exact track_same h (OMap.find_insert_ne (by omega) _ _) Iff.rfl rfl (by simp)
          (by simp only; omega)
    · exact h
  | setTime seen id t' =>
    have hl : n ≠ id := Ne.symm hl
    simp only
    split
    · unfold State.setTime
      split
      · exact h
      simp only
      split
      · exact track_same h (OMap.find_erase_ne hl _) Iff.rfl rfl (by simp) (by simp)
      · exact track_same h (OMap.find_insert_ne hl _ _) Iff.rfl rfl (by simp) (by simp)
    · exact h
  | setCycle id c' =>
    have hl : n ≠ id := Ne.symm hl
    simp only [State.setCycle]
    split
    · exact h
    split
    · exact h
    · exact track_same h (OMap.find_insert_ne hl _ _) Iff.rfl rfl (by simp) (by simp)
  | setRepeat id c' =>
    have hl : n ≠ id := Ne.symm hl
    simp only [State.setRepeat]
    split
    · exact h
    split
    · exact h
    · exact track_same h (OMap.find_insert_ne hl _ _) Iff.rfl rfl (by simp) (by simp)
  | remove id =>
    have hl : n ≠ id := Ne.symm hl
    simp only [State.remove]
    split
    · exact h
    split
    · exact track_same h (OMap.find_insert_ne hl _ _) Iff.rfl rfl (by simp) (by simp)
    · exact track_same h (OMap.find_erase_ne hl _) Iff.rfl rfl (by simp) (by simp)
  | disconnect => exact track_same h rfl Iff.rfl rfl (by simp) (by simp)

end Verif.Sched.Zulu
