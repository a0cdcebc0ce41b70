import Verif.Sched.Extra

/-
Two executions that differ only in one Zulu event observe the same.
-/
namespace Verif.Sched

/-- `t` is `s` except for the record of event `id`, the Zulu table and, where the
loop does not need it (`p = false`), the validity of the loop iterator. -/
structure W (id : Int) (p : Bool) (s t : State) : Prop where
  events : ∀ j, j ≠ id → t.events.find j = s.events.find j
  table : t.table = s.table
  imm : t.imm = s.imm
  lastId : t.lastId = s.lastId
  current : t.current = s.current
  hold : t.hold = s.hold
  now : t.now = s.now
  epochStart : t.epochStart = s.epochStart
  missionStart : t.missionStart = s.missionStart
  changing : t.changing = s.changing
  pc : t.pc = s.pc
  iter : t.iter = s.iter
  itOk : p = true → t.itOk = s.itOk
  fault : t.fault = s.fault
  log : t.log = s.log

theorem W.refl (id : Int) (p : Bool) (s : State) : W id p s s := by
  constructor <;> simp

/-- Shape of a related state. -/
theorem W.shape {id : Int} {p : Bool} {s t : State} (h : W id p s t) :
    ∃ E Z b, t = { s with events := E, zulu := Z, itOk := b } ∧
      (∀ j, j ≠ id → OMap.find j E = s.events.find j) ∧ (p = true → b = s.itOk) := by
  refine ⟨t.events, t.zulu, t.itOk, ?_, h.events, h.itOk⟩
  obtain ⟨h1, h2, h3, h4, h5, h6, h7, h8, h9, h10, h11, h12, h13, h14, h15⟩ := h
  cases t
  cases s
  simp_all

theorem W.mk' {id : Int} {p : Bool} {s : State} {E : OMap Event} {Z : OMap (List Int)} {b : Bool}
    (h1 : ∀ j, j ≠ id → OMap.find j E = s.events.find j) (h2 : p = true → b = s.itOk) :
    W id p s { s with events := E, zulu := Z, itOk := b } := by
  constructor <;> simp <;> assumption

theorem W.storeRest {id : Int} {s t : State} (h : W id true s t) (rest : List Int) :
    W id (storeRest s rest).pc.live (storeRest s rest) (Sched.storeRest t rest) := by
  obtain ⟨E, Z, b, rfl, h1, h2⟩ := h.shape
  have := h2 rfl
  subst this
  unfold Sched.storeRest
  simp only
  split
  · exact W.mk' h1 (fun _ => rfl)
  · exact W.mk' h1 (fun _ => rfl)

theorem W.weaken {id : Int} {p q : Bool} {s t : State} (h : W id p s t) (hq : q = true → p = true) :
    W id q s t := by
  obtain ⟨h1, h2, h3, h4, h5, h6, h7, h8, h9, h10, h11, h12, h13, h14, h15⟩ := h
  exact ⟨h1, h2, h3, h4, h5, h6, h7, h8, h9, h10, h11, h12, fun h => h13 (hq h), h14, h15⟩

theorem W.resume {id : Int} {f : Frame} {s t : State} (h : W id f.toPC.live s t) :
    W id (resume s f).pc.live (resume s f) (Sched.resume t f) := by
  cases f with
  | imm rest r =>
    simp only [Sched.resume]
    rw [h.hold]
    split
    · cases r with
      | start =>
        obtain ⟨E, Z, b, rfl, h1, h2⟩ := h.shape
        exact W.mk' h1 (by simp [PC.live, immFalse])
      | slot =>
        obtain ⟨E, Z, b, rfl, h1, h2⟩ := h.shape
        exact W.mk' h1 (by simp [PC.live, immFalse])
      | inSlot rest' =>
        simp only [immFalse]
        refine W.storeRest ?_ rest'
        obtain ⟨E, Z, b, rfl, h1, h2⟩ := h.shape
        exact W.mk' h1 (fun _ => h2 rfl)
    · obtain ⟨E, Z, b, rfl, h1, h2⟩ := h.shape
      exact W.mk' h1 h2
  | due rest =>
    simp only [Sched.resume]
    rw [h.hold]
    split
    · exact W.storeRest h rest
    · obtain ⟨E, Z, b, rfl, h1, h2⟩ := h.shape
      exact W.mk' h1 h2

theorem W.finish {id j : Int} {f : Frame} {s t : State} (hj : j ≠ id) (h : W id f.toPC.live s t)
    (hf : (finish s j f).fault = none) :
    W id (finish s j f).pc.live (finish s j f) (Sched.finish t j f) := by
  obtain ⟨E, Z, b, rfl, h1, h2⟩ := h.shape
  unfold Sched.finish at *
  simp only at *
  rw [h1 j hj] at *
  split at hf
  · simp [State.fail] at hf
  · rename_i e he
    try simp only
    split
    · refine W.resume ?_
      refine W.mk' (s := { s with events := _ }) ?_ h2
      intro i hi
      simp only [OMap.find_erase, h1 i hi]
    · rename_i hz
      rw [if_neg hz] at hf
      split at hf
      · rename_i ha hb
        try simp only [ha, hb]
        refine W.resume ?_
        refine W.mk' (s := { s with events := _, table := _ }) ?_ h2
        intro i hi
        simp only [OMap.find_insert, h1 i hi]
      · simp [State.fail] at hf

theorem W.startExec {id j : Int} {f : Frame} {s t : State} (hj : j ≠ id)
    (h : W id f.toPC.live s t) (hf : (startExec s j f).fault = none) :
    W id (startExec s j f).pc.live (startExec s j f) (Sched.startExec t j f) := by
  obtain ⟨E, Z, b, rfl, h1, h2⟩ := h.shape
  unfold Sched.startExec at *
  simp only at *
  rw [h1 j hj] at *
  split at hf
  · simp [State.fail] at hf
  · rename_i e he
    have hsk : skipTest { s with events := E, zulu := Z, itOk := b } e = skipTest s e := rfl
    try simp only
    rw [hsk]
    split at hf
    · simp [State.fail] at hf
    · rename_i hs
      try simp only [hs]
      exact W.finish hj (W.mk' (s := { s with log := _ }) h1 h2) hf
    · rename_i hs
      try simp only [hs]
      refine W.mk' (s := { s with current := _, pc := _, log := _ }) h1 ?_
      simp only [Frame.toPC_live]
      exact h2

/-- The removed or moved Zulu event in the reference execution. -/
def ZuluRec (id : Int) (s : State) : Prop :=
  id ≤ s.lastId ∧ ∃ e, s.events.find id = some e ∧ e.kind = .zulu

theorem ZuluRec.not_at {id : Int} {s : State} (h : ZuluRec id s) (hinv : Inv s) (l : Loc) :
    ¬ At s id l := by
  obtain ⟨_, e, he, hk⟩ := h
  intro hl
  cases l with
  | slot => obtain ⟨k, hk'⟩ := hl; exact (hinv.slots k id e hk' he).2 hk
  | imm => have := (hinv.imms id e (Or.inl hl) he).2; rw [hk] at this; simp at this
  | immRest =>
    have := (hinv.imms id e (Or.inr (Or.inl hl)) he).2; rw [hk] at this; simp at this
  | dueRest => exact (hinv.dues id e (Or.inl hl) he).2 hk
  | running =>
    rcases PC.running_cases hl with h | h
    · have := (hinv.imms id e (Or.inr (Or.inr h)) he).2; rw [hk] at this; simp at this
    · exact (hinv.dues id e (Or.inr h) he).2 hk

theorem startExec_find_other {s : State} {id n : Int} {f : Frame} (hne : n ≠ id)
    (hf : (startExec s id f).fault = none) :
    (startExec s id f).events.find n = s.events.find n := by
  unfold startExec at *
  split at hf
  · simp [State.fail] at hf
  · try simp only at hf ⊢
    split at hf
    · simp [State.fail] at hf
    · rename_i hsk; try simp only [hsk]
      rw [(finish_other hne hf).1]
    · rename_i hsk; try simp only [hsk]

theorem ZuluRec.step {id : Int} {s : State} {i : Input} (h : ZuluRec id s) (hs : Reach s)
    (hf : (step s i).fault = none) (hu : ∀ o, i = .op o → ¬ o.touches id) :
    ZuluRec id (step s i) := by
  have hnot := h.not_at hs.inv
  have hle : id ≤ (Sched.step s i).lastId := Int.le_trans h.1 (step_now s i).2
  refine ⟨hle, ?_⟩
  suffices hh : (Sched.step s i).events.find id = s.events.find id by rw [hh]; exact h.2
  cases i with
  | op o => rw [step_op o hs.fault]; exact (apply_frame o h.1 (hu o rfl)).1
  | run => unfold Sched.step; rw [if_neg (by simp [hs.fault])]; simp only; split <;> rfl
  | tick d =>
    rw [step_tick d hs.fault] at *
    cases hsil : s.pc.silent with
    | true => rw [(tick_silent d hsil).1]
    | false =>
      match hpc : s.pc with
      | .immFor (j :: rest) r' =>
        have e : tick s d = startExec s j (.imm rest r') := by simp [tick, hpc]
        rw [e] at hf ⊢
        refine startExec_find_other ?_ hf
        rintro rfl; exact hnot .immRest (by simp [At, hpc, PC.immRest])
      | .slotFor (j :: rest) =>
        have e : tick s d = startExec s j (.due rest) := by simp [tick, hpc]
        rw [e] at hf ⊢
        refine startExec_find_other ?_ hf
        rintro rfl; exact hnot .dueRest (by simp [At, hpc, PC.dueRest])
      | .cb j f =>
        have e : tick s d = finish { s with current := -1 } j f := by simp [tick, hpc]
        rw [e] at hf ⊢
        refine (finish_other ?_ hf).1
        rintro rfl; exact hnot .running (by simp [At, hpc, PC.running])
      | .idle | .immTest _ | .immFor [] _ | .preEmit | .waiting | .postEmit | .slotTest
      | .slotFor [] => rw [hpc] at hsil; simp [PC.silent] at hsil

theorem setSimTime_W (s : State) (E : OMap Event) (Z : OMap (List Int)) (b : Bool) (t : Int) :
    setSimTime { s with events := E, zulu := Z, itOk := b } t =
      ({ (setSimTime s t).1 with events := E, zulu := Z, itOk := b }, (setSimTime s t).2) := by
  unfold setSimTime State.nextScheduled
  simp only
  (repeat' split) <;> rfl

theorem W.tick {id : Int} {s t : State} (h : W id s.pc.live s t) (hs : Reach s)
    (hz : ZuluRec id s) (d : Bool) (hf : (tick s d).fault = none) :
    W id (tick s d).pc.live (tick s d) (Sched.tick t d) := by
  have hnot := hz.not_at hs.inv
  have hse : ∀ j f p, s.pc = p → p.live = f.toPC.live → (At s j .immRest ∨ At s j .dueRest) →
      (Sched.startExec s j f).fault = none →
      W id (Sched.startExec s j f).pc.live (Sched.startExec s j f) (Sched.startExec t j f) := by
    intro j f p hp hl hat hf'
    refine W.startExec ?_ (by rw [← hl, ← hp]; exact h) hf'
    rintro rfl
    rcases hat with ha | ha
    · exact hnot _ ha
    · exact hnot _ ha
  obtain ⟨E, Z, b, rfl, h1, h2⟩ := h.shape
  unfold Sched.tick at *
  try simp only at *
  split at hf <;> rename_i hpc <;> try simp only [hpc] at h2 ⊢
  · first | exact h | (rw [← hpc]; exact h)
  · rename_i r
    split
    · cases r with
      | start =>
        simp only [immTrue]
        split
        · exact W.mk' h1 (by simp [PC.live])
        · exact W.mk' h1 (fun _ => rfl)
      | slot => exact W.mk' h1 (fun _ => h2 rfl)
      | inSlot rest => exact W.mk' h1 (fun _ => h2 rfl)
    · exact W.mk' h1 h2
  · exact W.mk' h1 h2
  · rw [← hpc]; exact hse _ _ _ hpc rfl (Or.inl (by simp [At, hpc, PC.immRest])) hf
  · split
    · exact W.mk' h1 (by simp [PC.live])
    · exact W.mk' h1 (fun _ => h2 rfl)
  · have := h2 rfl
    subst this
    rw [← hpc]
    split
    · exact W.mk' h1 (fun _ => rfl)
    · split
      · exact W.mk' h1 (fun _ => rfl)
      · have e : setSimTime { s with events := E, zulu := Z } s.iter =
            ({ (setSimTime s s.iter).1 with events := E, zulu := Z }, (setSimTime s s.iter).2) := by
          unfold setSimTime State.nextScheduled
          simp only
          (repeat' split) <;> rfl
        have hev := (setSimTime_frame s s.iter).1
        rw [e]
        generalize setSimTime s s.iter = w at *
        obtain ⟨s', r'⟩ := w
        cases r' <;> first
          | exact W.mk' h1 (fun _ => rfl)
          | (refine W.mk' (s := { s' with changing := false, pc := .postEmit }) ?_ (fun _ => rfl)
             simp only at hev ⊢
             rw [hev]; exact h1)
  · exact W.mk' h1 (fun _ => h2 rfl)
  · have := h2 rfl
    subst this
    rw [← hpc]
    (repeat' split) <;> exact W.mk' h1 (fun _ => rfl)
  · exact W.mk' h1 (fun _ => h2 rfl)
  · rw [← hpc]; exact hse _ _ _ hpc rfl (Or.inr (by simp [At, hpc, PC.dueRest])) hf
  · rename_i j f
    rw [← hpc]
    refine W.finish ?_ (W.mk' (s := { s with current := -1 }) h1 ?_) hf
    · rintro rfl; exact hnot .running (by simp [At, hpc, PC.running])
    · rw [← Frame.toPC_live f j]; exact h2

/-- Erasing an absent key. -/
theorem OMap.erase_absent {α : Type} {m : OMap α} {k : Int} (h : m.find k = none) :
    m.erase k = m := by
  induction m with
  | nil => rfl
  | cons p m ih =>
    obtain ⟨j, v⟩ := p
    simp only [OMap.find] at h
    simp only [OMap.erase]
    split at h
    · simp at h
    · rename_i hne; simp [hne, ih h]

theorem W.unpost {id : Int} {p : Bool} {s t : State} (h : W id p s t) (k j : Int) :
    W id p (s.unpost k j) (t.unpost k j) := by
  obtain ⟨E, Z, b, rfl, h1, h2⟩ := h.shape
  unfold State.unpost State.eraseKey
  simp only
  split
  · refine W.mk' (s := { s with table := _, itOk := _ }) h1 ?_
    intro hp; rw [h2 hp]
  · exact W.mk' (s := { s with table := _ }) h1 h2

theorem W.insertEvent {id : Int} {p : Bool} {s t : State} (h : W id p s t) (j : Int) (e : Event)
    (T : OMap (List Int)) :
    W id p { s with events := s.events.insert j e, table := T }
      { t with events := t.events.insert j e, table := T } := by
  obtain ⟨E, Z, b, rfl, h1, h2⟩ := h.shape
  refine W.mk' (s := { s with events := _, table := _ }) ?_ h2
  intro i hi; simp only [OMap.find_insert, h1 i hi]

theorem W.eraseEvent {id : Int} {p : Bool} {s t : State} (h : W id p s t) (j : Int) :
    W id p { s with events := s.events.erase j } { t with events := t.events.erase j } := by
  obtain ⟨E, Z, b, rfl, h1, h2⟩ := h.shape
  refine W.mk' (s := { s with events := _ }) ?_ h2
  intro i hi; simp only [OMap.find_erase, h1 i hi]

theorem W.apply {id : Int} {s t : State} (h : W id s.pc.live s t) (hinv : Inv s) (o : Op)
    (hok : o.ok s) (ht : ¬ o.touches id) :
    W id s.pc.live (apply s o).1 (Sched.apply t o).1 := by
  obtain ⟨E, Z, b, rfl, h1, h2⟩ := h.shape
  have hw : ∀ (e : Event) j, ∀ i, i ≠ id → OMap.find i (OMap.insert j e E) =
      OMap.find i (OMap.insert j e s.events) := by
    intro e j i hi; simp only [OMap.find_insert, h1 i hi]
  have hw' : ∀ j, ∀ i, i ≠ id → OMap.find i (OMap.erase j E) =
      OMap.find i (OMap.erase j s.events) := by
    intro j i hi; simp only [OMap.find_erase, h1 i hi]
  cases o with
  | addImmediate ep =>
    simp only [Sched.apply, addImmediate]
    split
    · exact W.mk' h1 h2
    · exact W.mk' (s := { s with lastId := _, events := _, imm := _ }) (hw _ _) h2
  | addTimed k ep x c r =>
    have e : target { s with events := E, zulu := Z, itOk := b } k x = target s k x := by
      cases k <;> rfl
    simp only [Sched.apply, addTimed, e]
    split
    · exact W.mk' h1 h2
    · unfold addEvent
      simp only
      split
      · exact W.mk' h1 h2
      · split
        · exact W.mk' h1 h2
        · split
          · exact W.mk' h1 h2
          · exact W.mk' (s := { s with lastId := _, events := _, table := _ }) (hw _ _) h2
  | addZulu ep z c r zn =>
    simp only [Sched.apply, addZulu]
    split
    · exact W.mk' h1 h2
    · split
      · exact W.mk' h1 h2
      · split
        · exact W.mk' h1 h2
        · exact W.mk' (s := { s with lastId := _, events := _, zulu := _ }) (hw _ _) h2
  | setTimed k j x =>
    have hj : j ≠ id := ht
    have e : target { s with events := E, zulu := Z, itOk := b } k x = target s k x := by
      cases k <;> rfl
    simp only [Sched.apply, setTimed, e]
    split
    · exact W.mk' h1 h2
    · unfold setEventTime
      simp only
      rw [h1 j hj]
      split
      · exact W.mk' h1 h2
      · split
        · exact W.mk' h1 h2
        · have hu := h.unpost (k := (by assumption : Event).next) (j := j)
          split
          · exact hu.eraseEvent j
          · rw [hu.table]; exact hu.insertEvent j _ _
  | setZulu j z zn =>
    have hj : j ≠ id := ht
    simp only [Sched.apply, setZulu]
    rw [h1 j hj]
    split
    · exact W.mk' h1 h2
    · split
      · exact W.mk' h1 h2
      · split
        · exact W.mk' (s := { s with events := _, zulu := _ }) (hw' _) h2
        · exact W.mk' (s := { s with events := _, zulu := _ }) (hw _ _) h2
  | setCycle j c =>
    have hj : j ≠ id := ht
    simp only [Sched.apply, setCycle]
    rw [h1 j hj]
    (repeat' split)
    · exact W.mk' h1 h2
    · exact W.mk' h1 h2
    · exact W.mk' (s := { s with events := _ }) (hw _ _) h2
  | setRepeat j c =>
    have hj : j ≠ id := ht
    simp only [Sched.apply, setRepeat]
    rw [h1 j hj]
    (repeat' split)
    · exact W.mk' h1 h2
    · exact W.mk' h1 h2
    · exact W.mk' (s := { s with events := _ }) (hw _ _) h2
  | remove j =>
    have hj : j ≠ id := ht
    simp only [Sched.apply, remove]
    rw [h1 j hj]
    split
    · exact W.mk' h1 h2
    · rename_i e he
      split
      · exact W.mk' (s := { s with events := _ }) (hw _ _) h2
      · rename_i hc
        split
        · rename_i hz
          have hnone : s.table.find e.next = none := by
            rcases hok e he with h | h | h
            · exact absurd h hc
            · exact absurd hz h.1
            · exact h.2
          have her := OMap.erase_absent hnone
          have hlive : s.pc.live = true → e.next ≠ s.iter := by
            intro hl heq
            obtain ⟨_, l, hl'⟩ := hinv.liveIt hl
            rw [← heq, hnone] at hl'; simp at hl'
          simp only [State.eraseKey]
          constructor <;> (repeat' split) <;> (try simp only [her]) <;> (try exact hw' j)
          all_goals
            intro hl
            have hd : decide (e.next ≠ s.iter) = true := by simpa using hlive hl
            try simp only [hd, Bool.and_true]
            exact h2 hl
        · exact (h.unpost e.next j).eraseEvent j
  | hold => exact W.mk' (s := { s with hold := true }) h1 h2
  | setSimTime t =>
    simp only [Sched.apply, setSimTime_W]
    have hev := (setSimTime_frame s t).1
    have hit : (setSimTime s t).1.itOk = s.itOk := by
      unfold setSimTime; (repeat' split) <;> rfl
    exact W.mk' (by rw [hev]; exact h1) (by rw [hit]; exact h2)
  | setEpochTime t =>
    simp only [Sched.apply, setEpochTime]
    split
    · exact W.mk' h1 h2
    · exact W.mk' (s := { s with epochStart := _ }) h1 h2
  | setMissionStart t => exact W.mk' (s := { s with missionStart := t }) h1 h2
  | setMissionTime t =>
    simp only [Sched.apply, setMissionTime]
    split
    · exact W.mk' h1 h2
    · exact W.mk' (s := { s with missionStart := _ }) h1 h2

theorem W.step {id : Int} {s t : State} {i : Input} (h : W id s.pc.live s t) (hs : Reach s)
    (hz : ZuluRec id s) (hok : i.ok s) (hf : (step s i).fault = none)
    (hu : ∀ o, i = .op o → ¬ o.touches id) :
    W id (step s i).pc.live (step s i) (Sched.step t i) := by
  have ht : t.fault = none := by rw [h.fault]; exact hs.fault
  cases i with
  | op o =>
    rw [step_op o hs.fault, step_op o ht, (apply_log s o).2.1]
    exact h.apply hs.inv o hok (hu o rfl)
  | run =>
    have e : ∀ u : State, u.fault = none → Sched.step u .run =
        if u.pc = .idle then { u with hold := false, pc := .immTest .start } else u := by
      intro u hu; unfold Sched.step; rw [if_neg (by simp [hu])]
    rw [e s hs.fault, e t ht, h.pc]
    split
    · obtain ⟨E, Z, b, rfl, h1, h2⟩ := h.shape
      exact W.mk' (s := { s with hold := false, pc := _ }) h1 (by simp [PC.live, Ret.live])
    · exact h
  | tick d =>
    rw [step_tick d hs.fault] at *
    rw [step_tick d ht]
    exact h.tick hs hz d hf

theorem W.exec {id : Int} {s t : State} {is : List Input} (h : W id s.pc.live s t) (hs : Reach s)
    (hz : ZuluRec id s) (hok : OkRun s is) (hf : (exec s is).fault = none)
    (hu : Untouched id is) :
    W id (exec s is).pc.live (exec s is) (Sched.exec t is) := by
  induction is generalizing s t with
  | nil => exact h
  | cons i is ih =>
    rw [exec_cons] at *
    have h1 := fault_none_of_exec hf
    have hu1 : ∀ o, i = .op o → ¬ o.touches id := hu i List.mem_cons_self
    exact ih (h.step hs hz hok.1 h1 hu1) (hs.step hok.1 h1) (hz.step hs h1 hu1) hok.2 hf
      (fun j hj => hu j (List.mem_cons_of_mem _ hj))

end Verif.Sched
