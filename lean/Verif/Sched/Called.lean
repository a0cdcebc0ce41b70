import Verif.Sched.TimeProps

/-
C02, mission and epoch events: an occurrence is skipped exactly if the mission (epoch) time was
moved past it.
-/
namespace Verif.Sched

theorem startExec_log {s : State} {id : Int} {f : Frame} {e : Event}
    (he : s.events.find id = some e) :
    (startExec s id f).log = s.log ∨
    (skipTest s e = some true ∧ (startExec s id f).log = .skipped id s.now :: s.log) ∨
    (skipTest s e = some false ∧ (startExec s id f).log = .called id e.ep s.now :: s.log) := by
  unfold startExec
  rw [he]
  simp only
  cases hk : skipTest s e with
  | none => left; rfl
  | some b =>
    cases b with
    | true => right; left; exact ⟨rfl, by rw [(finish_log _ _ _).1]⟩
    | false => right; right; exact ⟨rfl, rfl⟩

/-- The time of event `e` has passed on its own time scale. -/
def Overtaken (s : State) (e : Event) : Prop :=
  (e.kind = .epoch ∧ e.time < epochOf s) ∨ (e.kind = .mission ∧ e.time < missionOf s)

theorem skipTest_overtaken {s : State} {e : Event} {b : Bool} (h : skipTest s e = some b) :
    b = true ↔ Overtaken s e := by
  unfold skipTest at h
  unfold Overtaken
  cases hk : e.kind with
  | simulation => rw [hk] at h; simp at h; simp [h]
  | zulu => rw [hk] at h; simp at h; simp [h]
  | epoch =>
    rw [hk] at h
    simp only [Option.map_eq_some_iff] at h
    obtain ⟨t, ht, rfl⟩ := h
    rw [epochTime_some ht]
    simp
  | mission =>
    rw [hk] at h
    simp only [Option.map_eq_some_iff] at h
    obtain ⟨t, ht, rfl⟩ := h
    rw [missionTime_some ht]
    simp

/-- **C02, skipped occurrences (partial).** A step which executes or skips an occurrence of an
event that is not an immediate one does so at its due time, skips it exactly if the time of the
event has passed on its time scale, and never skips a simulation time event. Missing: as for
C01. -/
theorem C02_skipped_partial {s : State} (hs : Reach s) (i : Input) {o : Obs}
    (h : (step s i).log = o :: s.log) (hni : ¬ Immediate s o.id) :
    ∃ e, s.events.find o.id = some e ∧ e.next = s.now ∧
      ((o = .skipped o.id s.now ∧ Overtaken s e) ∨
       (o = .called o.id e.ep s.now ∧ ¬ Overtaken s e)) := by
  have hinv := hs.inv
  have hne : ∀ {l : List Obs}, l = o :: s.log → l ≠ s.log := by
    intro l h1 h2; rw [h1] at h2; have := congrArg List.length h2; simp at this
  have key : ∀ id f, (startExec s id f).log = o :: s.log →
      (id ∈ s.pc.immRest ∨ (id ∈ s.pc.dueRest ∧ s.now = s.iter)) →
      ∃ e, s.events.find o.id = some e ∧ e.next = s.now ∧
        ((o = .skipped o.id s.now ∧ Overtaken s e) ∨
         (o = .called o.id e.ep s.now ∧ ¬ Overtaken s e)) := by
    intro id f hl hloc
    have hex : (s.events.find id).isSome := by
      rcases hloc with hl | ⟨hl, _⟩
      · exact hinv.exist id .immRest hl
      · exact hinv.exist id .dueRest hl
    obtain ⟨e, he⟩ := Option.isSome_iff_exists.1 hex
    have hid : o.id = id ∧ ((o = .skipped id s.now ∧ skipTest s e = some true) ∨
        (o = .called id e.ep s.now ∧ skipTest s e = some false)) := by
      rcases startExec_log (f := f) he with hh | ⟨h1, hh⟩ | ⟨h1, hh⟩
      · exact absurd hh (hne hl)
      · rw [hh] at hl
        simp only [List.cons.injEq, and_true] at hl
        rw [← hl]
        exact ⟨rfl, .inl ⟨rfl, h1⟩⟩
      · rw [hh] at hl
        simp only [List.cons.injEq, and_true] at hl
        rw [← hl]
        exact ⟨rfl, .inr ⟨rfl, h1⟩⟩
    obtain ⟨hid, hcase⟩ := hid
    refine ⟨e, by rw [hid]; exact he, ?_, ?_⟩
    · rcases hloc with hl | ⟨hl, hnow⟩
      · exact absurd (Or.inr (Or.inl (by rw [hid]; exact hl))) hni
      · rw [hnow]; exact (hinv.dues id e (Or.inl hl) he).1
    · rw [hid]
      rcases hcase with ⟨h1, h2⟩ | ⟨h1, h2⟩
      · exact .inl ⟨h1, (skipTest_overtaken h2).1 rfl⟩
      · exact .inr ⟨h1, fun hc => by simpa using (skipTest_overtaken h2).2 hc⟩
  cases i with
  | op op =>
    rw [step_op op hs.fault] at h
    exact absurd (apply_log s op).1 (hne h)
  | run =>
    have : (step s .run).log = s.log := by
      unfold step; rw [if_neg (by simp [hs.fault])]; simp only; split <;> rfl
    exact absurd this (hne h)
  | tick d =>
    rw [step_tick d hs.fault] at h
    cases hsil : s.pc.silent with
    | true => exact absurd (tick_silent d hsil).2.1 (hne h)
    | false =>
      match hpc : s.pc with
      | .immFor (id' :: rest) r' =>
        have e : tick s d = startExec s id' (.imm rest r') := by simp [tick, hpc]
        rw [e] at h
        exact key _ _ h (Or.inl (by rw [hpc]; simp [PC.immRest]))
      | .slotFor (id' :: rest) =>
        have e : tick s d = startExec s id' (.due rest) := by simp [tick, hpc]
        rw [e] at h
        exact key _ _ h (Or.inr ⟨by rw [hpc]; simp [PC.dueRest],
          (hinv.late (by rw [hpc]; rfl) (by rw [hpc]; rfl)).1⟩)
      | .cb id' f =>
        have e : tick s d = finish { s with current := -1 } id' f := by simp [tick, hpc]
        rw [e] at h
        exact absurd (by rw [(finish_log _ _ _).1]) (hne h)
      | .idle | .immTest _ | .immFor [] _ | .preEmit | .waiting | .postEmit | .slotTest
      | .slotFor [] => rw [hpc] at hsil; simp [PC.silent] at hsil

/-! ### Events whose time scale is left alone -/

/-- Distance between the simulation time and the time scale `k`. -/
def offset (s : State) : SimKind → Int
  | .simulation => 0
  | .mission => s.epochStart + s.missionStart
  | .epoch => s.epochStart

/-- Event `n` has the entry point `ep`, time scale `k` and its two times agree. -/
def Aligned (n : Int) (ep : Nat) (k : SimKind) (off : Int) (s : State) : Prop :=
  ∀ e, s.events.find n = some e → e.ep = ep ∧ e.kind = k.kind ∧ e.time + off = e.next

theorem Aligned.finish {n : Int} {ep : Nat} {k : SimKind} {off : Int} {s : State} {f : Frame}
    (h : Aligned n ep k off s) (hf : (finish s n f).fault = none) :
    Aligned n ep k off (finish s n f) := by
  unfold Sched.finish at hf ⊢
  cases he : s.events.find n with
  | none => rw [he] at hf; simp [State.fail] at hf
  | some e =>
    obtain ⟨h1, h2, h3⟩ := h e he
    rw [he] at hf
    simp only at hf ⊢
    split
    · intro e' he'
      rw [(resume_frame _ f).1] at he'
      rw [OMap.find_erase_self] at he'
      simp at he'
    · rename_i hz
      rw [if_neg hz] at hf
      split at hf
      · rename_i a b ha hb
        intro e' he'
        rw [(resume_frame _ f).1] at he'
        rw [OMap.find_insert_self] at he'
        simp only [Option.some.injEq] at he'
        subst he'
        refine ⟨h1, h2, ?_⟩
        have := (chk_some ha).1
        have := (chk_some hb).1
        simp only
        omega
      · simp [State.fail] at hf

theorem Aligned.of_find {n : Int} {ep : Nat} {k : SimKind} {off : Int} {s s' : State}
    (h : Aligned n ep k off s) (he : s'.events.find n = s.events.find n) :
    Aligned n ep k off s' := fun e h' => h e (by rw [← he]; exact h')

theorem Aligned.startExec {n id : Int} {ep : Nat} {k : SimKind} {off : Int} {s : State} {f : Frame}
    (h : Aligned n ep k off s) (hf : (startExec s id f).fault = none) :
    Aligned n ep k off (startExec s id f) := by
  unfold Sched.startExec at hf ⊢
  cases he : s.events.find id with
  | none => rw [he] at hf; simp [State.fail] at hf
  | some e =>
    rw [he] at hf
    simp only at hf ⊢
    cases hk : skipTest s e with
    | none => rw [hk] at hf; simp [State.fail] at hf
    | some b =>
      rw [hk] at hf
      cases b with
      | false => exact h.of_find rfl
      | true =>
        simp only at hf ⊢
        by_cases hne : n = id
        · subst hne
          exact Aligned.finish (h.of_find rfl) hf
        · exact h.of_find (finish_other hne hf).1

theorem Aligned.step {n : Int} {ep : Nat} {k : SimKind} {off : Int} {s : State} {i : Input}
    (h : Aligned n ep k off s) (hn : n ≤ s.lastId) (hs : s.fault = none)
    (hf : (step s i).fault = none) (hu : ∀ o, i = .op o → ¬ o.touches n) :
    Aligned n ep k off (step s i) := by
  cases i with
  | op o => rw [step_op o hs]; exact h.of_find (apply_frame o hn (hu o rfl)).1
  | run =>
    unfold Sched.step
    rw [if_neg (by simp [hs])]
    simp only
    split
    · exact h.of_find rfl
    · exact h
  | tick d =>
    rw [step_tick d hs] at hf ⊢
    cases hsil : s.pc.silent with
    | true => exact h.of_find (by rw [(tick_silent d hsil).1])
    | false =>
      match hpc : s.pc with
      | .immFor (id' :: rest) r' =>
        have e : tick s d = Sched.startExec s id' (.imm rest r') := by simp [tick, hpc]
        rw [e] at hf ⊢
        exact h.startExec hf
      | .slotFor (id' :: rest) =>
        have e : tick s d = Sched.startExec s id' (.due rest) := by simp [tick, hpc]
        rw [e] at hf ⊢
        exact h.startExec hf
      | .cb id' f =>
        have e : tick s d = Sched.finish { s with current := -1 } id' f := by simp [tick, hpc]
        rw [e] at hf ⊢
        by_cases hne : n = id'
        · subst hne
          exact Aligned.finish (s := { s with current := -1 }) (h.of_find rfl) hf
        · exact h.of_find (finish_other hne hf).1
      | .idle | .immTest _ | .immFor [] _ | .preEmit | .waiting | .postEmit | .slotTest
      | .slotFor [] => rw [hpc] at hsil; simp [PC.silent] at hsil

/-- **C02, mission and epoch events (partial).** As long as the mission and epoch time are not
set, every occurrence of a mission or epoch event is executed, none is skipped. Missing: as for
C01. -/
theorem C02_called_partial {s : State} (hs : Reach s) {k : SimKind} {ep : Nat} {x c r n : Int}
    (hk : k ≠ .simulation)
    (hok : (Op.addTimed k ep x c r).ok s)
    (hadd : (apply s (.addTimed k ep x c r)).2 = .id n)
    {is : List Input} (hoks : OkRun (apply s (.addTimed k ep x c r)).1 is)
    (hu : Untouched n is)
    (hno : ∀ i ∈ is, ∀ o, i = .op o → ¬ o.setsEpoch ∧ ¬ o.setsMission)
    (hf : (exec (apply s (.addTimed k ep x c r)).1 is).fault = none) :
    ∀ o ∈ occ n (exec (apply s (.addTimed k ep x c r)).1 is).log, o = .called n ep o.time := by
  have hf1 := fault_none_of_exec hf
  have hr1 : Reach (apply s (.addTimed k ep x c r)).1 := by
    have := hs.step (i := .op (.addTimed k ep x c r)) hok
      (by rw [step_op _ hs.fault]; exact hf1)
    rwa [step_op _ hs.fault] at this
  have hoff : offset (apply s (.addTimed k ep x c r)).1 k = offset s k := by
    have h1 := (apply_offsets s (.addTimed k ep x c r)).1 (by simp [Op.setsEpoch])
    have h2 := (apply_offsets s (.addTimed k ep x c r)).2 (by simp [Op.setsMission])
    cases k <;> simp only [offset, h1, h2]
  have hlog := (apply_log s (.addTimed k ep x c r)).1
  have h0 : Aligned n ep k (offset s k) (apply s (.addTimed k ep x c r)).1 ∧
      n = s.lastId + 1 ∧ n ≤ (apply s (.addTimed k ep x c r)).1.lastId := by
    simp only [apply, addTimed] at hadd ⊢
    cases ht : target s k x with
    | none => rw [ht] at hadd; simp at hadd
    | some t =>
      rw [ht] at hadd
      have htd := target_dueAt ht
      simp only [addEvent] at hadd ⊢
      by_cases h1 : t < s.now
      · rw [if_pos h1] at hadd; simp at hadd
      · rw [if_neg h1] at hadd ⊢
        by_cases h2 : r ≠ 0 ∧ c ≤ 0
        · rw [if_pos h2] at hadd; simp at hadd
        · rw [if_neg h2] at hadd ⊢
          cases hm : chk (s.lastId + 1) with
          | none => rw [hm] at hadd; simp at hadd
          | some m =>
            rw [hm] at hadd
            simp only [Res.id.injEq] at hadd
            subst hadd
            simp only
            refine ⟨?_, (chk_some hm).1, Int.le_refl _⟩
            intro e he
            rw [OMap.find_insert_self] at he
            simp only [Option.some.injEq] at he
            subst he
            refine ⟨rfl, rfl, ?_⟩
            simp only
            rw [htd]
            cases k with
            | simulation => exact absurd rfl hk
            | mission => simp only [stampOf, offset, dueAt]; omega
            | epoch => simp only [stampOf, offset, dueAt]
  obtain ⟨ha, hn, hle⟩ := h0
  have main := OkRun.induction (P := fun s' => n ≤ s'.lastId ∧ offset s' k = offset s k ∧
      Aligned n ep k (offset s k) s' ∧ ∀ o ∈ occ n s'.log, o = .called n ep o.time)
    hr1 ⟨hle, hoff, ha, by rw [hlog, hs.occ_fresh (by omega)]; simp⟩ hoks hf ?_
  · exact main.2.2.2
  · rintro s' i hr hi hfs hmem ⟨g1, g2, g3, g4⟩
    have hu' := hu i hmem
    refine ⟨Int.le_trans g1 (step_now s' i).2, ?_, g3.step g1 hr.fault hfs hu', ?_⟩
    · have h1 := (step_offsets s' i).1 (fun o ho => (hno i hmem o ho).1)
      have h2 := (step_offsets s' i).2 (fun o ho => (hno i hmem o ho).2)
      rw [← g2]
      cases k <;> simp only [offset, h1, h2]
    · have hnim : ¬ Immediate s' n ∨ s'.events.find n = none := by
        cases he : s'.events.find n with
        | none => right; rfl
        | some e =>
          left
          intro him
          have h1 := (hr.inv.imms n e him he).2
          have h2 := (g3 e he).2.1
          rw [h1] at h2
          cases k with
          | simulation => exact hk rfl
          | mission => simp [SimKind.kind] at h2
          | epoch => simp [SimKind.kind] at h2
      have step1 : ∀ o : Obs, (step s' i).log = o :: s'.log → o.id = n → o = .called n ep o.time := by
        intro o ho hid
        have hex : (s'.events.find n).isSome := by
          by_cases him : Immediate s' n
          · rcases him with h | h | h
            · exact hr.inv.exist n .imm h
            · exact hr.inv.exist n .immRest h
            · exact hr.inv.exist n .running (PC.immRun_running h)
          · obtain ⟨e, he, _⟩ := C02_skipped_partial hr i ho (by rw [hid]; exact him)
            rw [hid] at he; rw [he]; rfl
        have him : ¬ Immediate s' n := by
          rcases hnim with h | h
          · exact h
          · rw [h] at hex; simp at hex
        obtain ⟨e, he, hnow, hc⟩ := C02_skipped_partial hr i ho (by rw [hid]; exact him)
        rw [hid] at he hc
        obtain ⟨a1, a2, a3⟩ := g3 e he
        have hnot : ¬ Overtaken s' e := by
          rintro (⟨b1, b2⟩ | ⟨b1, b2⟩)
          · rw [b1] at a2
            cases k with
            | epoch => simp only [offset] at a3 g2; simp only [epochOf] at b2; omega
            | mission => simp [SimKind.kind] at a2
            | simulation => simp [SimKind.kind] at a2
          · rw [b1] at a2
            cases k with
            | mission => simp only [offset] at a3 g2; simp only [missionOf] at b2; omega
            | epoch => simp [SimKind.kind] at a2
            | simulation => simp [SimKind.kind] at a2
        rcases hc with ⟨_, hc⟩ | ⟨hc, _⟩
        · exact absurd hc hnot
        · rw [hc, a1]; rfl
      rcases step_log s' i with h | ⟨id, h⟩ | ⟨id, ep', h⟩
      · rw [h]; exact g4
      · intro o ho
        rw [h] at ho
        by_cases hid : id = n
        · subst hid
          have := step1 _ h rfl
          simp [Obs.time] at this
        · rw [occ_cons_ne (by exact hid)] at ho
          exact g4 o ho
      · intro o ho
        rw [h] at ho
        by_cases hid : id = n
        · subst hid
          rw [occ_cons_eq (by rfl)] at ho
          rcases List.mem_cons.1 ho with rfl | ho
          · exact step1 _ h rfl
          · exact g4 o ho
        · rw [occ_cons_ne (by exact hid)] at ho
          exact g4 o ho

example : (Op.addTimed .mission 3 20 5 1).ok init ∧
    (apply init (.addTimed .mission 3 20 5 1)).2 = .id 0 ∧
    occ 0 (exec (apply init (.addTimed .mission 3 20 5 1)).1
      (.run :: List.replicate 30 (.tick false))).log = [.called 0 3 25, .called 0 3 20] :=
  ⟨by decide, by decide, by decide⟩
/-- With the mission time moved forward meanwhile the occurrence is skipped. -/
example : occ 0 (exec (apply init (.addTimed .mission 3 20 0 0)).1
      (.op (.setMissionTime 10) :: .run :: List.replicate 30 (.tick false))).log =
    [.skipped 0 20] := by decide

end Verif.Sched
