import Verif.Sched.Order

/-
Further invariants of the scheduler: empty slots, removed events, immediate
events first, independence of Zulu events.
-/
namespace Verif.Sched

/-! ### Empty slots -/

/-- An empty slot can only be the one of the interrupted or current pass. -/
def EmptyOk (s : State) : Prop :=
  ∀ k, s.table.find k = some [] → k = s.now ∧ (s.pc.live → k = s.iter)

theorem IdSet.insert_ne_nil (i : Int) (l : List Int) : IdSet.insert i l ≠ [] := by
  intro h
  have : i ∈ IdSet.insert i l := IdSet.mem_insert.2 (Or.inl rfl)
  rw [h] at this; simp at this

theorem post_empty {m : OMap (List Int)} {k id j : Int} (h : (post m k id).find j = some []) :
    m.find j = some [] := by
  rw [find_post] at h
  split at h
  · simp at h; exact absurd h (IdSet.insert_ne_nil _ _)
  · exact h

theorem unpost_empty {s : State} {k id j : Int} (h : (s.unpost k id).table.find j = some []) :
    s.table.find j = some [] := by
  rw [unpost_find] at h
  split at h
  · split at h
    · simp at h
    · simp at h; contradiction
  · exact h

theorem erase_empty {m : OMap (List Int)} {k j : Int} (h : (m.erase k).find j = some []) :
    m.find j = some [] ∧ j ≠ k := by
  rw [OMap.find_erase] at h
  split at h
  · simp at h
  · exact ⟨h, by assumption⟩

theorem EmptyOk.mono {s t : State} (h : EmptyOk s)
    (ht : ∀ k, t.table.find k = some [] → s.table.find k = some [])
    (hn : t.now = s.now) (hp : t.pc.live → s.pc.live) (hi : t.iter = s.iter) : EmptyOk t := by
  intro k hk
  obtain ⟨h1, h2⟩ := h k (ht k hk)
  exact ⟨by rw [hn]; exact h1, fun hl => by rw [hi]; exact h2 (hp hl)⟩

theorem EmptyOk.setSimTime {s : State} (h : EmptyOk s) (hinv : Inv s) (t : Int) :
    EmptyOk (setSimTime s t).1 := by
  unfold Sched.setSimTime
  split
  · exact h
  · split
    · exact h
    · intro k hk
      obtain ⟨h1, h2⟩ := h k hk
      have := nextScheduled_le hinv hk
      exact ⟨by simp only; omega, h2⟩

theorem EmptyOk.apply {s : State} (h : EmptyOk s) (hinv : Inv s) (o : Op) :
    EmptyOk (apply s o).1 := by
  cases o with
  | setSimTime t => exact h.setSimTime hinv t
  | addTimed k ep x c r =>
    simp only [Sched.apply, addTimed, addEvent]
    (repeat' split) <;> refine h.mono ?_ rfl id rfl <;> intro j hj <;>
      first | exact hj | exact post_empty hj
  | setTimed k i x =>
    simp only [Sched.apply, setTimed, setEventTime]
    (repeat' split)
    · exact h.mono (fun _ => id) rfl id rfl
    · exact h
    · exact h
    · refine h.mono (fun _ => unpost_empty) ?_ ?_ ?_ <;> simp [unpost_pc]
    · refine h.mono (fun _ hj => unpost_empty (post_empty hj)) ?_ ?_ ?_ <;> simp [unpost_pc]
  | remove i =>
    simp only [Sched.apply, remove]
    (repeat' split)
    · exact h
    · exact h.mono (fun _ => id) rfl id rfl
    · exact h.mono (fun _ hj => (erase_empty hj).1) rfl id rfl
    · exact h.mono (fun _ => id) rfl id rfl
    · refine h.mono (fun _ => unpost_empty) ?_ ?_ ?_ <;> simp [unpost_pc]
  | addImmediate ep =>
    simp only [Sched.apply, addImmediate]; (repeat' split) <;> exact h.mono (fun _ => id) rfl id rfl
  | addZulu ep z c r zn =>
    simp only [Sched.apply, addZulu]; (repeat' split) <;> exact h.mono (fun _ => id) rfl id rfl
  | setZulu i z zn =>
    simp only [Sched.apply, setZulu]; (repeat' split) <;> exact h.mono (fun _ => id) rfl id rfl
  | setCycle i c =>
    simp only [Sched.apply, setCycle]; (repeat' split) <;> exact h.mono (fun _ => id) rfl id rfl
  | setRepeat i c =>
    simp only [Sched.apply, setRepeat]; (repeat' split) <;> exact h.mono (fun _ => id) rfl id rfl
  | hold => exact h.mono (fun _ => id) rfl id rfl
  | setEpochTime t =>
    simp only [Sched.apply, setEpochTime]; (repeat' split) <;> exact h.mono (fun _ => id) rfl id rfl
  | setMissionStart t => exact h.mono (fun _ => id) rfl id rfl
  | setMissionTime t =>
    simp only [Sched.apply, setMissionTime]; (repeat' split) <;>
      exact h.mono (fun _ => id) rfl id rfl

theorem EmptyOk.storeRest {s : State} (h : EmptyOk s) (rest : List Int) (hn : s.now = s.iter) :
    EmptyOk (storeRest s rest) := by
  unfold Sched.storeRest
  split
  · exact h.mono (fun _ => id) rfl id rfl
  · intro k hk
    simp only [OMap.find_insert] at hk
    split at hk
    · rename_i hki; exact ⟨by simp only; omega, fun hl => by simp [PC.live] at hl⟩
    · exact ⟨(h k hk).1, fun hl => by simp [PC.live] at hl⟩

theorem Frame.toPC_live (f : Frame) (id : Int) : (PC.cb id f).live = f.toPC.live := by
  cases f <;> rfl

theorem EmptyOk.resume {s : State} {f : Frame} (h : EmptyOk { s with pc := f.toPC })
    (hn : f.toPC.live → s.now = s.iter) : EmptyOk (resume s f) := by
  cases f with
  | imm rest r =>
    simp only [Sched.resume]
    split
    · cases r with
      | inSlot rest' =>
        have := (EmptyOk.storeRest (s := { s with imm := IdSet.insertAll rest s.imm, pc := .idle })
          (h.mono (fun _ => id) rfl (by simp [PC.live]) rfl) rest' (hn rfl))
        simp only [immFalse]
        unfold Sched.storeRest at *
        split
        · rename_i hh; rw [if_pos hh] at this
          exact h.mono (fun _ => id) rfl (fun _ => by simp [Frame.toPC, PC.live, Ret.live]) rfl
        · rename_i hh; rw [if_neg hh] at this; exact this
      | start => exact h.mono (fun _ => id) rfl (by simp [immFalse, PC.live]) rfl
      | slot => exact h.mono (fun _ => id) rfl (by simp [immFalse, PC.live]) rfl
    · exact h
  | due rest =>
    simp only [Sched.resume]
    split
    · have := (EmptyOk.storeRest (s := { s with pc := .idle })
          (h.mono (fun _ => id) rfl (by simp [PC.live]) rfl) rest (hn rfl))
      unfold Sched.storeRest at *
      split
      · rename_i hh; rw [if_pos hh] at this
        exact h.mono (fun _ => id) rfl (fun _ => by simp [Frame.toPC, PC.live]) rfl
      · rename_i hh; rw [if_neg hh] at this; exact this
    · exact h.mono (fun _ => id) rfl (by simp [PC.live, Ret.live, Frame.toPC]) rfl

theorem EmptyOk.finish {s : State} {id : Int} {f : Frame} (h : EmptyOk { s with pc := f.toPC })
    (hn : f.toPC.live → s.now = s.iter) (hf : (finish s id f).fault = none) :
    EmptyOk (finish s id f) := by
  unfold Sched.finish at *
  split at hf
  · simp [State.fail] at hf
  · split at hf
    · rename_i hz
      rw [if_pos hz]
      exact EmptyOk.resume (s := { s with events := _ }) (h.mono (fun _ => fun x => x) rfl (fun x => x) rfl) hn
    · rename_i hz
      rw [if_neg hz]
      split at hf
      · rename_i a b ha hb
        try simp only [ha, hb]
        exact EmptyOk.resume (s := { s with events := _, table := _ })
          (h.mono (fun _ => post_empty) rfl (fun x => x) rfl) hn
      · simp [State.fail] at hf

theorem EmptyOk.startExec {s : State} {id : Int} {f : Frame} (h : EmptyOk s)
    (hl : s.pc = f.toPC ∨ s.pc.live = f.toPC.live)
    (hn : f.toPC.live → s.now = s.iter) (hf : (startExec s id f).fault = none) :
    EmptyOk (startExec s id f) := by
  have hl : s.pc.live = f.toPC.live := by rcases hl with h | h; rw [h]; exact h
  unfold Sched.startExec at *
  split at hf
  · simp [State.fail] at hf
  · try simp only at hf ⊢
    split at hf
    · simp [State.fail] at hf
    · rename_i hs; try simp only [hs]
      exact EmptyOk.finish (s := { s with log := _ })
        (h.mono (fun _ => fun x => x) rfl (by simp only [hl]; exact fun x => x) rfl) hn hf
    · rename_i hs; try simp only [hs]
      exact h.mono (fun _ => fun x => x) rfl (by simp only [hl, Frame.toPC_live]; exact fun x => x) rfl

theorem EmptyOk.tick {s : State} (h : EmptyOk s) (hinv : Inv s) (d : Bool)
    (hf : (tick s d).fault = none) : EmptyOk (tick s d) := by
  have hlate := hinv.late
  unfold Sched.tick at *
  split at hf <;> rename_i hpc <;> try simp only [hpc]
  · exact h
  · rename_i r
    split
    · cases r with
      | start =>
        simp only [immTrue]
        split
        · exact h.mono (fun _ => id) rfl (by simp [PC.live]) rfl
        · rename_i k hk
          intro j hj
          have := (h j hj).1
          refine ⟨this, fun _ => ?_⟩
          obtain ⟨l, hl⟩ := OMap.minKey_find hk
          have h1 := hinv.nowKeys k l hl
          have h2 := OMap.minKey_le hinv.tsorted hk hj
          simp only [enterSlot]
          omega
      | slot => exact h.mono (fun _ => id) rfl (by simp [PC.live, hpc, Ret.live]) rfl
      | inSlot rest => exact h.mono (fun _ => id) rfl (by simp [PC.live, hpc, Ret.live]) rfl
    · exact h.mono (fun _ => id) rfl (by simp [PC.live, hpc]) rfl
  · exact h.mono (fun _ => id) rfl (by simp [PC.live, hpc]) rfl
  · refine h.startExec (Or.inr (by simp [hpc, Frame.toPC, PC.live])) ?_ hf
    intro hl
    exact (hlate (by rw [hpc]; exact hl) (by simp [hpc, PC.early])).1
  · split
    · exact h.mono (fun _ => id) rfl (by simp [PC.live]) rfl
    · exact h.mono (fun _ => id) rfl (by simp [PC.live, hpc]) rfl
  · split at hf
    · simp [State.fail] at hf
    · rename_i hit
      rw [if_neg hit]
      split at hf
      · rename_i hd
        rw [if_pos hd]
        exact h.mono (fun _ => id) rfl (by simp [PC.live]) rfl
      · rename_i hd
        rw [if_neg hd]
        have h1 := h.setSimTime hinv s.iter
        have h2 := setSimTime_frame s s.iter
        have h3 : (Sched.setSimTime s s.iter).1.iter = s.iter := by
          unfold Sched.setSimTime; (repeat' split) <;> rfl
        split at hf
        · simp [State.fail] at hf
        · rename_i s' r' hne heq
          rw [heq] at h1 h2 h3
          simp only at h1 h2 h3
          try simp only [heq]
          intro k hk
          obtain ⟨g1, g2⟩ := h1 k hk
          exact ⟨g1, fun _ => g2 (by rw [h2.2.2.2.2.2, hpc]; rfl)⟩
  · exact h.mono (fun _ => id) rfl (by simp [PC.live, hpc]) rfl
  · have hit := hinv.liveIt (by simp [hpc, PC.live])
    have hl := hlate (by simp [hpc, PC.live]) (by simp [hpc, PC.early])
    rw [if_neg (by simp [hit.1])]
    split
    · have hno : ∀ j, (s.table.erase s.iter).find j ≠ some [] := by
        intro j hj
        obtain ⟨g1, g2⟩ := erase_empty hj
        exact g2 ((h j g1).2 (by simp [hpc, PC.live]))
      split
      · intro j hj; exact absurd hj (hno j)
      · intro j hj; exact absurd hj (hno j)
    · intro k hk
      simp only [OMap.find_insert] at hk
      split at hk
      · rename_i hki; exact ⟨by simp only; omega, fun _ => hki⟩
      · exact ⟨(h k hk).1, fun _ => (h k hk).2 (by simp [hpc, PC.live])⟩
  · exact h.mono (fun _ => id) rfl (by simp [PC.live, hpc]) rfl
  · refine h.startExec (Or.inr (by simp [hpc, Frame.toPC, PC.live])) ?_ hf
    intro hl
    exact (hlate (by rw [hpc]; rfl) (by simp [hpc, PC.early])).1
  · rename_i i f
    rw [← hpc]
    refine EmptyOk.finish (s := { s with current := -1 })
      (h.mono (fun _ => id) rfl (by simp only [hpc, Frame.toPC_live]; exact id) rfl) ?_ hf
    intro hl
    exact (hlate (by rw [hpc, Frame.toPC_live]; exact hl) (by simp [hpc, PC.early])).1

theorem Reach.emptyOk {s : State} (h : Reach s) : EmptyOk s := by
  obtain ⟨is, hok, rfl, hf⟩ := h
  refine OkRun.induction (P := EmptyOk) ⟨[], trivial, rfl, rfl⟩ ?_ hok hf ?_
  · intro k hk
    simp only [init, OMap.find] at hk
    split at hk <;> simp at hk
  · intro s i hs _ hf _ h
    cases i with
    | op o => rw [step_op o hs.fault]; exact h.apply hs.inv o
    | run =>
      unfold Sched.step
      rw [if_neg (by simp [hs.fault])]
      simp only
      split
      · exact h.mono (fun _ => id) rfl (by simp [PC.live, Ret.live]) rfl
      · exact h
    | tick d => rw [step_tick d hs.fault] at hf ⊢; exact h.tick hs.inv d hf

/-! ### Removed events -/

/-- Event `n` does not exist any more and has the occurrences `base`. -/
structure Gone (n : Int) (base : List Obs) (s : State) : Prop where
  occs : occ n s.log = base
  le : n ≤ s.lastId
  find : s.events.find n = none

theorem apply_gone {s : State} (o : Op) {n : Int} (hn : n ≤ s.lastId)
    (hg : s.events.find n = none) : (apply s o).1.events.find n = none := by
  by_cases ht : o.touches n
  · cases o with
    | setTimed k id x =>
      simp only [Op.touches] at ht
      subst ht
      simp only [apply, setTimed, setEventTime]
      split
      · simpa [State.fail] using hg
      · simp [hg]
    | setZulu id z zn => simp only [Op.touches] at ht; subst ht; simp [apply, setZulu, hg]
    | setCycle id c => simp only [Op.touches] at ht; subst ht; simp [apply, setCycle, hg]
    | setRepeat id c => simp only [Op.touches] at ht; subst ht; simp [apply, setRepeat, hg]
    | remove id => simp only [Op.touches] at ht; subst ht; simp [apply, remove, hg]
    | _ => simp [Op.touches] at ht
  · rw [(apply_frame o hn ht).1]; exact hg

theorem Gone.step {n : Int} {base : List Obs} {s : State} {i : Input} (h : Gone n base s)
    (hs : Reach s) (hf : (step s i).fault = none) : Gone n base (step s i) := by
  have hinv := hs.inv
  have hnot : ∀ l, ¬ At s n l := by
    intro l hl; have := hinv.exist n l hl; rw [h.find] at this; simp at this
  have hle : n ≤ (Sched.step s i).lastId := Int.le_trans h.le (step_now s i).2
  cases i with
  | op o =>
    rw [step_op o hs.fault] at *
    exact ⟨by rw [(apply_log s o).1]; exact h.occs, hle, apply_gone o h.le h.find⟩
  | run =>
    have : (Sched.step s .run).events = s.events ∧ (Sched.step s .run).log = s.log := by
      unfold Sched.step; rw [if_neg (by simp [hs.fault])]; simp only; split <;> simp
    exact ⟨by rw [this.2]; exact h.occs, hle, by rw [this.1]; exact h.find⟩
  | tick d =>
    rw [step_tick d hs.fault] at *
    have hse : ∀ id f, id ≠ n → (startExec s id f).fault = none → Gone n base (startExec s id f) := by
      intro id f hne hf'
      have hle' : n ≤ (startExec s id f).lastId := by
        unfold startExec; (repeat' split) <;> simp [State.fail, finish_log] <;> exact h.le
      refine ⟨?_, hle', ?_⟩
      · rcases startExec_id (s := s) (id := id) (f := f) with hh | ⟨_, hh | ⟨e, _, _, hh⟩⟩
        · rw [hh]; exact h.occs
        · rw [hh, occ_cons_ne (by simpa [Obs.id] using hne)]; exact h.occs
        · rw [hh, occ_cons_ne (by simpa [Obs.id] using hne)]; exact h.occs
      · unfold startExec at hf' ⊢
        split at hf'
        · simp [State.fail] at hf'
        · try simp only at hf' ⊢
          split at hf'
          · simp [State.fail] at hf'
          · rename_i hsk; try simp only [hsk]
            rw [(finish_other (fun h => hne h.symm) hf').1]; exact h.find
          · rename_i hsk; try simp only [hsk]
            exact h.find
    cases hsil : s.pc.silent with
    | true =>
      obtain ⟨g1, g2, _⟩ := tick_silent d hsil
      exact ⟨by rw [g2]; exact h.occs, hle, by rw [g1]; exact h.find⟩
    | false =>
      match hpc : s.pc with
      | .immFor (id :: rest) r' =>
        have e : tick s d = startExec s id (.imm rest r') := by simp [tick, hpc]
        rw [e] at hf ⊢
        refine hse id _ ?_ hf
        rintro rfl
        exact hnot .immRest (by simp [At, hpc, PC.immRest])
      | .slotFor (id :: rest) =>
        have e : tick s d = startExec s id (.due rest) := by simp [tick, hpc]
        rw [e] at hf ⊢
        refine hse id _ ?_ hf
        rintro rfl
        exact hnot .dueRest (by simp [At, hpc, PC.dueRest])
      | .cb id f =>
        have e : tick s d = finish { s with current := -1 } id f := by simp [tick, hpc]
        have hne : n ≠ id := by
          rintro rfl
          exact hnot .running (by simp [At, hpc, PC.running])
        rw [e] at hf hle ⊢
        exact ⟨by rw [(finish_log _ _ _).1]; exact h.occs, hle,
          by rw [(finish_other hne hf).1]; exact h.find⟩
      | .idle | .immTest _ | .immFor [] _ | .preEmit | .waiting | .postEmit | .slotTest
      | .slotFor [] => rw [hpc] at hsil; simp [PC.silent] at hsil

/-- Event `n` is running for the last time. -/
structure Last (n : Int) (base : List Obs) (s : State) : Prop where
  occs : occ n s.log = base
  le : n ≤ s.lastId
  run : s.pc.running = some n
  find : ∃ e, s.events.find n = some e ∧ e.rep = 0

theorem Last.step {n : Int} {base : List Obs} {s : State} {i : Input} (h : Last n base s)
    (hs : Reach s) (hf : (step s i).fault = none) (hu : ∀ o, i = .op o → ¬ o.touches n) :
    Last n base (step s i) ∨ Gone n base (step s i) := by
  have hle : n ≤ (Sched.step s i).lastId := Int.le_trans h.le (step_now s i).2
  cases i with
  | op o =>
    left
    rw [step_op o hs.fault] at *
    obtain ⟨g1, g2, g3, g4, g5⟩ := apply_frame o h.le (hu o rfl)
    exact ⟨by rw [g4]; exact h.occs, hle, by rw [g3]; exact h.run, by rw [g1]; exact h.find⟩
  | run =>
    left
    have : Sched.step s .run = s := by
      unfold Sched.step; rw [if_neg (by simp [hs.fault])]; simp only; split
      · rename_i hpc; have := h.run; rw [hpc] at this; simp [PC.running] at this
      · rfl
    rw [this]; exact h
  | tick d =>
    right
    rw [step_tick d hs.fault] at *
    match hpc : s.pc with
    | .cb id f =>
      have e : tick s d = finish { s with current := -1 } id f := by simp [tick, hpc]
      have hid : id = n := by have := h.run; rw [hpc] at this; simpa [PC.running] using this
      subst hid
      rw [e] at hf hle ⊢
      obtain ⟨e', h1, h2⟩ := h.find
      refine ⟨by rw [(finish_log _ _ _).1]; exact h.occs, hle, ?_⟩
      unfold finish
      simp only [h1, h2, ↓reduceIte]
      rw [(resume_frame _ _).1]
      exact OMap.find_erase_self _ _
    | .idle | .immTest _ | .immFor _ _ | .preEmit | .waiting | .postEmit | .slotTest
    | .slotFor _ => have := h.run; rw [hpc] at this; simp [PC.running] at this

/-! ### Immediate events run first -/

/-- Between two due events of a slot the immediate queue is empty. -/
def ImmFirst (s : State) : Prop :=
  (s.pc = .slotTest ∨ ∃ l, s.pc = .slotFor l) → s.imm = []

theorem ImmFirst.of_pc {s : State} (h : s.fault = none → s.pc.running.isSome ∨ s.pc = .idle ∨
    (∃ r, s.pc = .immTest r) ∨ (∃ l r, s.pc = .immFor l r) ∨ s.pc.early) (hf : s.fault = none) :
    ImmFirst s := by
  intro hp
  have := h hf
  rcases hp with hp | ⟨l, hp⟩ <;> rw [hp] at this <;> simp [PC.running, PC.early] at this

theorem resume_immFirst (s : State) (f : Frame) (hf : (resume s f).fault = none) :
    ImmFirst (resume s f) := by
  refine ImmFirst.of_pc (fun _ => ?_) hf
  cases f with
  | imm rest r =>
    simp only [resume] at *
    split
    · rename_i hh; rw [if_pos hh] at hf
      right; left; exact (immFalse_frame _ _).2.2.2.2 hf
    · right; right; right; left; exact ⟨_, _, rfl⟩
  | due rest =>
    simp only [resume] at *
    split
    · rename_i hh; rw [if_pos hh] at hf
      right; left; exact (storeRest_frame _ _).2.2.2.2 hf
    · right; right; left; exact ⟨_, rfl⟩

theorem finish_immFirst (s : State) (id : Int) (f : Frame) (hf : (finish s id f).fault = none) :
    ImmFirst (finish s id f) := by
  unfold finish at *
  split at hf
  · simp [State.fail] at hf
  · split at hf
    · rename_i hz; rw [if_pos hz]; exact resume_immFirst _ _ hf
    · rename_i hz; rw [if_neg hz]
      split at hf
      · rename_i ha hb; try simp only [ha, hb]
        exact resume_immFirst _ _ hf
      · simp [State.fail] at hf

theorem startExec_immFirst (s : State) (id : Int) (f : Frame) (hf : (startExec s id f).fault = none) :
    ImmFirst (startExec s id f) := by
  unfold startExec at *
  split at hf
  · simp [State.fail] at hf
  · try simp only at hf ⊢
    split at hf
    · simp [State.fail] at hf
    · rename_i hs; try simp only [hs]
      exact finish_immFirst _ _ _ hf
    · rename_i hs; try simp only [hs]
      exact ImmFirst.of_pc (fun _ => Or.inl (by simp [PC.running])) hf

theorem apply_imm_ne {s : State} {o : Op} (h : ∀ ep, o ≠ .addImmediate ep) :
    (apply s o).1.imm = s.imm := by
  cases o with
  | addImmediate ep => exact absurd rfl (h ep)
  | _ =>
    simp only [apply, addTimed, addEvent, addZulu, setTimed, setEventTime,
      setZulu, setCycle, setRepeat, remove, setSimTime, setEpochTime, setMissionStart,
      setMissionTime, State.fail, State.eraseKey] <;> (repeat' split) <;> simp [unpost_pc]

theorem ImmFirst.step {s : State} {i : Input} (h : ImmFirst s) (hs : s.fault = none)
    (hf : (step s i).fault = none)
    (hloc : (∃ ep, i = .op (.addImmediate ep)) → s.pc.callable = true) :
    ImmFirst (step s i) := by
  cases i with
  | op o =>
    rw [step_op o hs] at *
    intro hp
    rw [(apply_log s o).2.1] at hp
    by_cases ho : ∃ ep, o = .addImmediate ep
    · obtain ⟨ep, rfl⟩ := ho
      have := hloc ⟨ep, rfl⟩
      rcases hp with hp | ⟨l, hp⟩ <;> rw [hp] at this <;> simp [PC.callable] at this
    · rw [apply_imm_ne (fun ep h => ho ⟨ep, h⟩)]; exact h hp
  | run =>
    unfold Sched.step
    rw [if_neg (by simp [hs])]
    simp only
    split
    · intro hp; simp at hp
    · exact h
  | tick d =>
    rw [step_tick d hs] at *
    unfold tick at *
    split at hf <;> rename_i hpc <;> try simp only [hpc]
    · exact h
    · rename_i r
      split
      · rename_i hi
        cases r <;> simp only [immTrue] <;> (repeat' split) <;> intro hp <;>
          first | exact hi | simp [enterSlot] at hp
      · intro hp; simp at hp
    · intro hp; simp at hp
    · exact startExec_immFirst _ _ _ hf
    · split <;> intro hp <;> simp at hp
    · intro hp
      split at hp
      · simp [State.fail, hpc] at hp
      · split at hp
        · simp at hp
        · split at hp
          · simp [State.fail, hpc] at hp
          · simp at hp
    · intro hp; simp at hp
    · have := h (Or.inl hpc)
      intro _
      (repeat' split) <;> simp [State.fail, enterSlot, this]
    · intro _; exact h (Or.inr ⟨_, hpc⟩)
    · exact startExec_immFirst _ _ _ hf
    · rw [← hpc]; exact finish_immFirst _ _ _ hf

theorem ImmFirst.exec {s : State} (is : List Input) (h : ImmFirst s)
    (hf : (exec s is).fault = none) (hloc : ImmLocal s is) : ImmFirst (exec s is) := by
  induction is generalizing s with
  | nil => exact h
  | cons i is ih =>
    rw [exec_cons] at *
    have h1 := fault_none_of_exec hf
    have h0 : s.fault = none := by
      cases hh : s.fault with
      | none => rfl
      | some f => rw [step_fault (by simp [hh]), hh] at h1; exact h1
    exact ih (h.step h0 h1 hloc.1) hf hloc.2

end Verif.Sched
