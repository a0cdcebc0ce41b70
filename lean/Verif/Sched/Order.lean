import Verif.Sched.Track

/-
Two events waiting for the same time are executed in the order of their
identifiers; further small invariants (log contents, empty slots).
-/
namespace Verif.Sched

/-! ### Place of an untouched event under calls -/

theorem mem_slot_unpost_ne {s : State} {k id j x : Int} (h : x ≠ id) :
    x ∈ slotOf (s.unpost k id).table j ↔ x ∈ slotOf s.table j := by
  rw [unpost_table]; exact ⟨fun h => h.1, fun h1 => ⟨h1, fun h2 => h h2.2⟩⟩

theorem apply_slot {s : State} (o : Op) {x : Int} (hx : x ≤ s.lastId) (ht : ¬ o.touches x)
    (hok : o.ok s) (j : Int) :
    x ∈ slotOf (apply s o).1.table j ↔ x ∈ slotOf s.table j := by
  have hfresh : ∀ m, chk (s.lastId + 1) = some m → x ≠ m := by
    intro m hm; have := (chk_some hm).1; omega
  cases o with
  | addImmediate ep => simp only [apply, addImmediate]; split <;> simp [State.fail]
  | addTimed k ep y c r =>
    simp only [apply, addTimed]
    split
    · simp [State.fail]
    · unfold addEvent
      (repeat' split) <;> try simp [State.fail]
      rename_i m hm
      have := hfresh m hm
      rw [mem_slotOf_post]; simp [this]
  | addZulu ep z c r zn =>
    simp only [apply, addZulu]
    (repeat' split) <;> simp [State.fail]
  | setTimed k id y =>
    have hid : x ≠ id := fun h => ht h.symm
    simp only [apply, setTimed]
    split
    · simp [State.fail]
    · unfold setEventTime
      (repeat' split) <;> simp [mem_slotOf_post, hid, mem_slot_unpost_ne hid]
  | setZulu id z zn => simp only [apply, setZulu]; (repeat' split) <;> simp
  | setCycle id c => simp only [apply, setCycle]; (repeat' split) <;> simp
  | setRepeat id c => simp only [apply, setRepeat]; (repeat' split) <;> simp
  | remove id =>
    have hid : x ≠ id := fun h => ht h.symm
    simp only [apply, remove]
    split
    · simp
    · rename_i e he
      split
      · simp
      · rename_i hc
        split
        · rename_i hz
          rcases hok e he with h | h | h
          · exact absurd h hc
          · exact absurd hz h.1
          · split
            · simp only [State.eraseKey, slotOf_erase]
              split
              · rename_i hj; subst hj; simp [slotOf, h.2]
              · rfl
            · rfl
        · simp [mem_slot_unpost_ne hid]
  | hold => simp [apply]
  | setSimTime t => simp only [apply, setSimTime]; (repeat' split) <;> simp
  | setEpochTime t => simp only [apply, setEpochTime]; (repeat' split) <;> simp [State.fail]
  | setMissionStart t => simp [apply, setMissionStart]
  | setMissionTime t => simp only [apply, setMissionTime]; (repeat' split) <;> simp [State.fail]

/-! ### The log only grows -/

theorem apply_log (s : State) (o : Op) :
    (apply s o).1.log = s.log ∧ (apply s o).1.pc = s.pc ∧ s.lastId ≤ (apply s o).1.lastId ∧
      s.now ≤ (apply s o).1.now := by
  have hlast : ∀ m, chk (s.lastId + 1) = some m → s.lastId ≤ m := by
    intro m hm; have := (chk_some hm).1; omega
  cases o <;> simp only [apply, addImmediate, addTimed, addEvent, addZulu, setTimed, setEventTime,
    setZulu, setCycle, setRepeat, remove, setSimTime, setEpochTime, setMissionStart,
    setMissionTime, State.fail, State.eraseKey] <;> (repeat' split) <;>
    simp_all [unpost_pc]
  all_goals omega

theorem resume_log (s : State) (f : Frame) :
    (resume s f).log = s.log ∧ (resume s f).now = s.now ∧ (resume s f).lastId = s.lastId := by
  cases f with
  | imm rest r =>
    simp only [resume]
    split
    · cases r <;> simp only [immFalse, storeRest] <;> (repeat' split) <;> simp [State.fail]
    · simp
  | due rest => simp only [resume, storeRest]; (repeat' split) <;> simp [State.fail]

theorem finish_log (s : State) (id : Int) (f : Frame) :
    (finish s id f).log = s.log ∧ (finish s id f).now = s.now ∧
      (finish s id f).lastId = s.lastId := by
  unfold finish
  (repeat' split) <;> simp [State.fail, resume_log]

theorem startExec_id {s : State} {id : Int} {f : Frame} :
    (startExec s id f).log = s.log ∨ ((s.events.find id).isSome ∧
      ((startExec s id f).log = .skipped id s.now :: s.log ∨
      ∃ e, s.events.find id = some e ∧ skipTest s e = some false ∧
        (startExec s id f).log = .called id e.ep s.now :: s.log)) := by
  unfold startExec
  split
  · simp [State.fail]
  · rename_i e he
    split
    · simp [State.fail]
    · right; refine ⟨by simp [he], ?_⟩; left; rw [(finish_log _ _ _).1]
    · rename_i h; right; exact ⟨by simp [he], Or.inr ⟨_, he, h, rfl⟩⟩

/-- A step adds nothing to the log, or one observation made at the simulation time. -/
theorem step_log (s : State) (i : Input) :
    (step s i).log = s.log ∨
    (∃ id, (step s i).log = .skipped id s.now :: s.log) ∨
    (∃ id ep, (step s i).log = .called id ep s.now :: s.log) := by
  have hse : ∀ id f, (startExec s id f).log = s.log ∨
      (∃ j, (startExec s id f).log = .skipped j s.now :: s.log) ∨
      (∃ j ep, (startExec s id f).log = .called j ep s.now :: s.log) := by
    intro id f
    rcases startExec_id (s := s) (id := id) (f := f) with hh | ⟨_, hh | ⟨e, _, _, hh⟩⟩
    · exact Or.inl hh
    · exact Or.inr (Or.inl ⟨id, hh⟩)
    · exact Or.inr (Or.inr ⟨id, e.ep, hh⟩)
  unfold step
  split
  · simp
  · split
    · left; exact (apply_log s _).1
    · left; split <;> rfl
    · rename_i d
      cases hsil : s.pc.silent with
      | true => left; exact (tick_silent d hsil).2.1
      | false =>
        match hpc : s.pc with
        | .immFor (id :: rest) r' => simp only [tick, hpc]; exact hse id _
        | .slotFor (id :: rest) => simp only [tick, hpc]; exact hse id _
        | .cb id f => simp only [tick, hpc]; left; rw [(finish_log _ _ _).1]
        | .idle | .immTest _ | .immFor [] _ | .preEmit | .waiting | .postEmit | .slotTest
        | .slotFor [] => rw [hpc] at hsil; simp [PC.silent] at hsil

theorem tick_now (s : State) (d : Bool) : s.now ≤ (tick s d).now ∧ (tick s d).lastId = s.lastId := by
  have hse : ∀ id f, (startExec s id f).now = s.now ∧ (startExec s id f).lastId = s.lastId := by
    intro id f
    unfold startExec
    (repeat' split) <;> simp [State.fail, finish_log]
  unfold tick
  split
  · simp
  · split
    · rename_i r _ _
      cases r <;> simp only [immTrue, enterSlot] <;> (repeat' split) <;> simp
    · simp
  · simp
  · simp [hse]
  · split <;> simp
  · split
    · simp [State.fail]
    · split
      · simp
      · have h1 := (apply_log s (.setSimTime s.iter)).2.2.2
        have h2 := (setSimTime_frame s s.iter).2.2.2.1
        simp only [apply] at h1
        split
        · simp [State.fail]
        · rename_i heq; rw [heq] at h1 h2; exact ⟨h1, h2⟩
  · simp
  · (repeat' split) <;> simp [State.fail, enterSlot]
  · simp
  · simp [hse]
  · simp [finish_log]

theorem step_now (s : State) (i : Input) :
    s.now ≤ (step s i).now ∧ s.lastId ≤ (step s i).lastId := by
  unfold step
  split
  · simp
  · split
    · exact ⟨(apply_log s _).2.2.2, (apply_log s _).2.2.1⟩
    · split <;> simp
    · have := tick_now s ‹_›; exact ⟨this.1, by omega⟩

/-- Observations are about identifiers already given, at times not after now. -/
def LogOk (s : State) : Prop := ∀ o ∈ s.log, o.id ≤ s.lastId ∧ o.time ≤ s.now

theorem LogOk.step {s : State} {i : Input} (h : LogOk s) (hinv : Inv s) (hf : s.fault = none) :
    LogOk (step s i) := by
  obtain ⟨h1, h2⟩ := step_now s i
  have hid : ∀ id, (s.events.find id).isSome → id ≤ s.lastId := by
    intro id hh
    obtain ⟨e, he⟩ := Option.isSome_iff_exists.1 hh
    have := hinv.ids id e he
    have := hinv.last
    omega
  have hse : ∀ id f, ∀ o ∈ (startExec s id f).log, o ∈ s.log ∨ (o.id ≤ s.lastId ∧ o.time = s.now) := by
    intro id f o ho
    rcases startExec_id (s := s) (id := id) (f := f) with hh | ⟨hs, hh | ⟨e, he, _, hh⟩⟩
    · rw [hh] at ho; exact Or.inl ho
    · rw [hh] at ho
      rcases List.mem_cons.1 ho with rfl | ho
      · exact Or.inr ⟨hid id hs, rfl⟩
      · exact Or.inl ho
    · rw [hh] at ho
      rcases List.mem_cons.1 ho with rfl | ho
      · exact Or.inr ⟨hid id hs, rfl⟩
      · exact Or.inl ho
  have key : ∀ o ∈ (Sched.step s i).log, o ∈ s.log ∨ (o.id ≤ s.lastId ∧ o.time = s.now) := by
    intro o ho
    unfold Sched.step at ho
    rw [if_neg (by simp [hf])] at ho
    split at ho
    · left; rw [(apply_log s _).1] at ho; exact ho
    · left; split at ho <;> exact ho
    · rename_i d
      cases hsil : s.pc.silent with
      | true => left; rw [(tick_silent d hsil).2.1] at ho; exact ho
      | false =>
        match hpc : s.pc with
        | .immFor (id :: rest) r' => simp only [tick, hpc] at ho; exact hse _ _ o ho
        | .slotFor (id :: rest) => simp only [tick, hpc] at ho; exact hse _ _ o ho
        | .cb id f => simp only [tick, hpc] at ho; left; rw [(finish_log _ _ _).1] at ho; exact ho
        | .idle | .immTest _ | .immFor [] _ | .preEmit | .waiting | .postEmit | .slotTest
        | .slotFor [] => rw [hpc] at hsil; simp [PC.silent] at hsil
  intro o ho
  rcases key o ho with hh | hh
  · have := h o hh; omega
  · omega

theorem Reach.logOk {s : State} (h : Reach s) : LogOk s := by
  obtain ⟨is, hok, rfl, hf⟩ := h
  refine OkRun.induction (P := LogOk) ⟨[], trivial, rfl, rfl⟩ ?_ hok hf ?_
  · intro o ho; simp [init] at ho
  · intro s i hs _ _ _ hl; exact hl.step hs.inv hs.fault

theorem Reach.occ_fresh {s : State} (h : Reach s) {n : Int} (hn : s.lastId < n) :
    occ n s.log = [] := by
  unfold occ
  rw [List.filter_eq_nil_iff]
  intro o ho
  have := h.logOk o ho
  simp; omega

/-! ### Same due time -/

/-- Both events wait in the same slot, or in the batch being executed. -/
def Both (a b : Int) (s : State) : Prop :=
  (∃ T, a ∈ slotOf s.table T ∧ b ∈ slotOf s.table T) ∨ (a ∈ s.pc.dueRest ∧ b ∈ s.pc.dueRest)

/-- Due events held by a frame. -/
def Frame.dueRest : Frame → List Int
  | .imm _ r => r.dueRest
  | .due rest => rest

theorem storeRest_both {s : State} {rest : List Int} {a b : Int}
    (h : (∃ T, a ∈ slotOf s.table T ∧ b ∈ slotOf s.table T) ∨ (a ∈ rest ∧ b ∈ rest))
    (hf : (storeRest s rest).fault = none) : Both a b (storeRest s rest) := by
  unfold storeRest at hf ⊢
  split
  · rename_i h1; rw [if_pos h1] at hf; simp [State.fail] at hf
  · left
    rcases h with ⟨T, h1, h2⟩ | ⟨h1, h2⟩
    · refine ⟨T, ?_⟩
      simp only [slotOf_insert]
      split
      · subst_vars; simp only [IdSet.mem_insertAll]; exact ⟨Or.inr h1, Or.inr h2⟩
      · exact ⟨h1, h2⟩
    · refine ⟨s.iter, ?_⟩
      simp only [slotOf_insert, ↓reduceIte, IdSet.mem_insertAll]
      exact ⟨Or.inl h1, Or.inl h2⟩

theorem resume_both {s : State} {f : Frame} {a b : Int}
    (h : (∃ T, a ∈ slotOf s.table T ∧ b ∈ slotOf s.table T) ∨ (a ∈ f.dueRest ∧ b ∈ f.dueRest))
    (hf : (resume s f).fault = none) : Both a b (resume s f) := by
  cases f with
  | imm rest r =>
    simp only [resume, Frame.dueRest] at *
    split
    · rename_i hh
      rw [if_pos hh] at hf
      cases r with
      | inSlot rest' => exact storeRest_both (s := { s with imm := _ }) h hf
      | start => left; simpa [Ret.dueRest, immFalse] using h
      | slot => left; simpa [Ret.dueRest, immFalse] using h
    · exact h
  | due rest =>
    simp only [resume, Frame.dueRest] at *
    split
    · rename_i hh
      rw [if_pos hh] at hf
      exact storeRest_both h hf
    · exact h

theorem finish_both {s : State} {id : Int} {f : Frame} {a b : Int}
    (h : (∃ T, a ∈ slotOf s.table T ∧ b ∈ slotOf s.table T) ∨ (a ∈ f.dueRest ∧ b ∈ f.dueRest))
    (hf : (finish s id f).fault = none) : Both a b (finish s id f) := by
  unfold finish at hf ⊢
  split at hf
  · simp [State.fail] at hf
  · split at hf
    · rename_i hz; rw [if_pos hz]; exact resume_both (s := { s with events := _ }) h hf
    · rename_i hz; rw [if_neg hz]
      split at hf
      · rename_i e _ _ _ n t hn ht
        try simp only [hn, ht]
        refine resume_both (s := { s with events := _, table := _ }) ?_ hf
        rcases h with ⟨T, h1, h2⟩ | h
        · left; refine ⟨T, ?_⟩; simp only [mem_slotOf_post]; exact ⟨Or.inr h1, Or.inr h2⟩
        · exact Or.inr h
      · simp [State.fail] at hf

theorem startExec_both {s : State} {id : Int} {f : Frame} {a b : Int}
    (h : (∃ T, a ∈ slotOf s.table T ∧ b ∈ slotOf s.table T) ∨ (a ∈ f.dueRest ∧ b ∈ f.dueRest))
    (hf : (startExec s id f).fault = none) : Both a b (startExec s id f) := by
  unfold startExec at hf ⊢
  split at hf
  · simp [State.fail] at hf
  · try simp only at hf ⊢
    split at hf
    · simp [State.fail] at hf
    · rename_i hs; try simp only [hs]
      exact finish_both (s := { s with log := _ }) h hf
    · rename_i hs; try simp only [hs]
      rcases h with h | h
      · exact Or.inl h
      · right; cases f <;> exact h

theorem tick_silent_both {s : State} (d : Bool) {a b : Int} (h : Both a b s)
    (hs : s.pc.silent = true) (hf : (tick s d).fault = none) : Both a b (tick s d) := by
  unfold Both at h
  unfold tick at hf ⊢
  split at hf <;> rename_i hpc <;> try simp only [hpc] at h hs ⊢
  · unfold Both; rw [hpc]; exact h
  · rename_i r
    split
    · cases r <;> simp only [immTrue, enterSlot] <;> (repeat' split) <;>
        simp_all [Both, PC.dueRest, Ret.dueRest]
    · exact h
  · exact h
  · simp [PC.silent] at hs
  · split <;> exact h
  · split at hf
    · simp [State.fail] at hf
    · rename_i hit
      rw [if_neg hit]
      split
      · exact h
      · rename_i hd
        rw [if_neg hd] at hf
        have hfr := setSimTime_frame s s.iter
        split at hf
        · simp [State.fail] at hf
        · rename_i s' r' hne heq
          rw [heq] at hfr
          simp only at hfr
          rcases h with ⟨T, h1, h2⟩ | h
          · left; refine ⟨T, ?_⟩; simp only; rw [hfr.2.2.2.2.1]; exact ⟨h1, h2⟩
          · simp [PC.dueRest] at h
  · exact h
  · split at hf
    · simp [State.fail] at hf
    · rename_i hit
      rw [if_neg hit]
      split
      · rename_i hsl
        have hne : ∀ T, a ∈ slotOf s.table T → T ≠ s.iter := by
          intro T hT heq; rw [heq, hsl] at hT; simp at hT
        rcases h with ⟨T, h1, h2⟩ | h
        · have := hne T h1
          split
          · left; refine ⟨T, ?_⟩; simp only [slotOf_erase, this, ↓reduceIte]; exact ⟨h1, h2⟩
          · left; refine ⟨T, ?_⟩
            simp only [enterSlot, slotOf_erase, this, ↓reduceIte]; exact ⟨h1, h2⟩
        · simp [PC.dueRest] at h
      · rcases h with ⟨T, h1, h2⟩ | h
        · by_cases hT : T = s.iter
          · subst hT; right; exact ⟨h1, h2⟩
          · left; refine ⟨T, ?_⟩; simp only [slotOf_insert, hT, ↓reduceIte]; exact ⟨h1, h2⟩
        · simp [PC.dueRest] at h
  · rcases h with h | h
    · exact Or.inl h
    · simp [PC.dueRest] at h
  · simp [PC.silent] at hs
  · simp [PC.silent] at hs

/-- Either nothing happened to the pair, or `a` has occurred. -/
def Ordered (a b : Int) (la lb : List Obs) (s : State) : Prop :=
  a ≤ s.lastId ∧ b ≤ s.lastId ∧
  ((occ a s.log = la ∧ occ b s.log = lb ∧ Both a b s) ∨ la.length < (occ a s.log).length)

theorem occ_step_length (n : Int) (s : State) (i : Input) :
    (occ n s.log).length ≤ (occ n (step s i).log).length := by
  have : ∀ (o : Obs), (occ n s.log).length ≤ (occ n (o :: s.log)).length := by
    intro o; unfold occ; rw [List.filter_cons]; split <;> simp
  rcases step_log s i with h | ⟨id, h⟩ | ⟨id, ep, h⟩ <;> rw [h]
  · exact Nat.le_refl _
  · exact this _
  · exact this _

theorem Ordered.step {a b : Int} {la lb : List Obs} {s : State} {i : Input}
    (h : Ordered a b la lb s) (hab : ukey a < ukey b) (hs : Reach s) (hok : i.ok s)
    (hf : (step s i).fault = none)
    (hu : ∀ o, i = .op o → ¬ o.touches a ∧ ¬ o.touches b) : Ordered a b la lb (step s i) := by
  obtain ⟨h1, h2, h3⟩ := h
  obtain ⟨_, hlast⟩ := step_now s i
  refine ⟨by omega, by omega, ?_⟩
  rcases h3 with ⟨hla, hlb, hboth⟩ | h3
  rotate_left
  · right; exact Nat.lt_of_lt_of_le h3 (occ_step_length a s i)
  have hinv := hs.inv
  have hse : ∀ id f, ((∃ rest r, s.pc = .immFor (id :: rest) r ∧ f = .imm rest r) ∨
      (∃ rest, s.pc = .slotFor (id :: rest) ∧ f = .due rest)) →
      (startExec s id f).fault = none →
      (occ a (startExec s id f).log = la ∧ occ b (startExec s id f).log = lb ∧
        Both a b (startExec s id f)) ∨ la.length < (occ a (startExec s id f).log).length := by
    intro id f hpc hf'
    have hlog : ∃ o : Obs, o.id = id ∧ (startExec s id f).log = o :: s.log := by
      have hfind : (s.events.find id).isSome := by
        rcases hpc with ⟨rest, r, hp, _⟩ | ⟨rest, hp, _⟩
        · exact hinv.exist id .immRest (by simp [At, hp, PC.immRest])
        · exact hinv.exist id .dueRest (by simp [At, hp, PC.dueRest])
      unfold startExec at hf' ⊢
      split at hf'
      · simp [State.fail] at hf'
      · split at hf'
        · simp [State.fail] at hf'
        · rename_i hsk; try simp only [hsk]
          exact ⟨.skipped id s.now, rfl, by rw [(finish_log _ _ _).1]⟩
        · rename_i e _ _ hsk; try simp only [hsk]
          exact ⟨.called id e.ep s.now, rfl, rfl⟩
    obtain ⟨o, ho, hl⟩ := hlog
    by_cases ha : id = a
    · right; rw [hl, occ_cons_eq (by rw [ho, ha]), hla]; simp
    · left
      have hbne : id ≠ b := by
        intro hb
        subst hb
        rcases hboth with ⟨T, q1, q2⟩ | ⟨q1, q2⟩
        · rcases hpc with ⟨rest, r, hp, _⟩ | ⟨rest, hp, _⟩
          · have := hinv.uniq id .slot .immRest ⟨T, q2⟩ (by simp [At, hp, PC.immRest])
            simp at this
          · have := hinv.uniq id .slot .dueRest ⟨T, q2⟩ (by simp [At, hp, PC.dueRest])
            simp at this
        · rcases hpc with ⟨rest, r, hp, _⟩ | ⟨rest, hp, _⟩
          · have := hinv.uniq id .dueRest .immRest q2 (by simp [At, hp, PC.immRest])
            simp at this
          · have hsrt := hinv.drsorted
            rw [hp] at hsrt q1
            simp only [PC.dueRest] at hsrt q1
            rcases List.mem_cons.1 q1 with q | q
            · exact ha q.symm
            · have := (List.pairwise_cons.1 hsrt).1 a q
              omega
      refine ⟨?_, ?_, ?_⟩
      · rw [hl, occ_cons_ne (by rw [ho]; exact ha), hla]
      · rw [hl, occ_cons_ne (by rw [ho]; exact hbne), hlb]
      · refine startExec_both ?_ hf'
        rcases hboth with q | ⟨q1, q2⟩
        · exact Or.inl q
        · right
          rcases hpc with ⟨rest, r, hp, rfl⟩ | ⟨rest, hp, rfl⟩
          · rw [hp] at q1 q2; exact ⟨q1, q2⟩
          · rw [hp] at q1 q2
            simp only [PC.dueRest, List.mem_cons, Frame.dueRest] at q1 q2 ⊢
            exact ⟨q1.resolve_left (fun h => ha h.symm), q2.resolve_left (fun h => hbne h.symm)⟩
  cases i with
  | op o =>
    rw [step_op o hs.fault] at *
    obtain ⟨ta, tb⟩ := hu o rfl
    left
    refine ⟨by rw [(apply_log s o).1]; exact hla, by rw [(apply_log s o).1]; exact hlb, ?_⟩
    unfold Both
    rw [(apply_log s o).2.1]
    simp only [apply_slot o h1 ta hok, apply_slot o h2 tb hok]
    exact hboth
  | run =>
    left
    unfold Sched.step
    rw [if_neg (by simp [hs.fault])]
    simp only
    split
    · rename_i hpc
      refine ⟨hla, hlb, ?_⟩
      unfold Both at hboth ⊢
      rw [hpc] at hboth
      simpa [PC.dueRest, Ret.dueRest] using hboth
    · exact ⟨hla, hlb, hboth⟩
  | tick d =>
    rw [step_tick d hs.fault] at *
    cases hsil : s.pc.silent with
    | true =>
      left
      have hl := (tick_silent d hsil).2.1
      exact ⟨by rw [hl]; exact hla, by rw [hl]; exact hlb, tick_silent_both d hboth hsil hf⟩
    | false =>
      match hpc : s.pc with
      | .immFor (id :: rest) r' =>
        have e : tick s d = startExec s id (.imm rest r') := by simp [tick, hpc]
        rw [e] at hf ⊢
        exact hse id _ (Or.inl ⟨rest, r', hpc, rfl⟩) hf
      | .slotFor (id :: rest) =>
        have e : tick s d = startExec s id (.due rest) := by simp [tick, hpc]
        rw [e] at hf ⊢
        exact hse id _ (Or.inr ⟨rest, hpc, rfl⟩) hf
      | .cb id f =>
        have e : tick s d = finish { s with current := -1 } id f := by simp [tick, hpc]
        rw [e] at hf ⊢
        left
        refine ⟨by rw [(finish_log _ _ _).1]; exact hla, by rw [(finish_log _ _ _).1]; exact hlb, ?_⟩
        refine finish_both ?_ hf
        unfold Both at hboth
        rw [hpc] at hboth
        cases f <;> exact hboth
      | .idle | .immTest _ | .immFor [] _ | .preEmit | .waiting | .postEmit | .slotTest
      | .slotFor [] => rw [hpc] at hsil; simp [PC.silent] at hsil

end Verif.Sched
