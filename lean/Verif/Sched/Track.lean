import Verif.Sched.Spec

/-
Following one event along an execution: the lemmas behind the properties about
the occurrences of an event.
-/
namespace Verif.Sched

/-! ### Effect of the functions on the parts that matter -/

theorem unpost_pc (s : State) (k id : Int) :
    (s.unpost k id).events = s.events ∧ (s.unpost k id).pc = s.pc ∧ (s.unpost k id).log = s.log ∧
    (s.unpost k id).lastId = s.lastId ∧ (s.unpost k id).imm = s.imm ∧
    (s.unpost k id).now = s.now ∧ (s.unpost k id).iter = s.iter ∧
    (s.unpost k id).zulu = s.zulu := by
  unfold State.unpost State.eraseKey; simp only; split <;> simp

/-- What a call that is not about `n` leaves alone. -/
theorem apply_frame {s : State} (o : Op) {n : Int} (hn : n ≤ s.lastId) (ht : ¬ o.touches n) :
    (apply s o).1.events.find n = s.events.find n ∧ (n ∈ (apply s o).1.imm ↔ n ∈ s.imm) ∧
    (apply s o).1.pc = s.pc ∧ (apply s o).1.log = s.log ∧ s.lastId ≤ (apply s o).1.lastId := by
  have hfresh : ∀ m, chk (s.lastId + 1) = some m → n ≠ m := by
    intro m hm; have := (chk_some hm).1; omega
  have hlast : ∀ m, chk (s.lastId + 1) = some m → s.lastId ≤ m := by
    intro m hm; have := (chk_some hm).1; omega
  cases o with
  | addImmediate ep =>
    simp only [apply, addImmediate]
    split
    · simp [State.fail]
    · rename_i m hm
      have := hfresh m hm
      have := hlast m hm
      simp_all [OMap.find_insert, IdSet.mem_insert]
  | addTimed k ep x c r =>
    simp only [apply, addTimed]
    split
    · simp [State.fail]
    · unfold addEvent
      (repeat' split) <;> try simp [State.fail]
      rename_i m hm
      have := hfresh m hm
      have := hlast m hm
      simp_all [OMap.find_insert]
  | addZulu ep z c r zn =>
    simp only [apply, addZulu]
    (repeat' split) <;> try simp [State.fail]
    rename_i m hm
    have := hfresh m hm
    have := hlast m hm
    simp_all [OMap.find_insert]
  | setTimed k id x =>
    have hid : n ≠ id := fun h => ht h.symm
    simp only [apply, setTimed]
    split
    · simp [State.fail]
    · unfold setEventTime
      (repeat' split) <;> simp [unpost_pc, OMap.find_insert, OMap.find_erase, hid]
  | setZulu id z zn =>
    have hid : n ≠ id := fun h => ht h.symm
    simp only [apply, setZulu]
    (repeat' split) <;> simp [OMap.find_insert, OMap.find_erase, hid]
  | setCycle id c =>
    have hid : n ≠ id := fun h => ht h.symm
    simp only [apply, setCycle]
    (repeat' split) <;> simp [OMap.find_insert, hid]
  | setRepeat id c =>
    have hid : n ≠ id := fun h => ht h.symm
    simp only [apply, setRepeat]
    (repeat' split) <;> simp [OMap.find_insert, hid]
  | remove id =>
    have hid : n ≠ id := fun h => ht h.symm
    simp only [apply, remove]
    (repeat' split) <;>
      simp [unpost_pc, State.eraseKey, OMap.find_insert, OMap.find_erase, hid]
  | hold => simp [apply]
  | setSimTime t => simp only [apply, setSimTime]; (repeat' split) <;> simp
  | setEpochTime t => simp only [apply, setEpochTime]; (repeat' split) <;> simp [State.fail]
  | setMissionStart t => simp [apply, setMissionStart]
  | setMissionTime t => simp only [apply, setMissionTime]; (repeat' split) <;> simp [State.fail]

/-- Immediate events held by a frame. -/
def Frame.immRest : Frame → List Int
  | .imm rest _ => rest
  | .due _ => []

theorem storeRest_frame (s : State) (rest : List Int) :
    (storeRest s rest).events = s.events ∧ (storeRest s rest).log = s.log ∧
    (storeRest s rest).lastId = s.lastId ∧ (storeRest s rest).imm = s.imm ∧
    ((storeRest s rest).fault = none → (storeRest s rest).pc = .idle) := by
  unfold storeRest; split <;> simp [State.fail]

theorem immFalse_frame (s : State) (r : Ret) :
    (immFalse s r).events = s.events ∧ (immFalse s r).log = s.log ∧
    (immFalse s r).lastId = s.lastId ∧ (immFalse s r).imm = s.imm ∧
    ((immFalse s r).fault = none → (immFalse s r).pc = .idle) := by
  cases r with
  | inSlot rest => exact storeRest_frame s rest
  | _ => simp [immFalse]

theorem resume_frame (s : State) (f : Frame) :
    (resume s f).events = s.events ∧ (resume s f).log = s.log ∧
    (resume s f).lastId = s.lastId ∧
    (∀ x, x ∈ (resume s f).imm → x ∈ s.imm ∨ x ∈ f.immRest) ∧
    ((resume s f).fault = none → (resume s f).pc.running = none ∧
      ∀ x, x ∈ (resume s f).pc.immRest → x ∈ f.immRest) := by
  cases f with
  | imm rest r =>
    simp only [resume]
    split
    · have := immFalse_frame { s with imm := IdSet.insertAll rest s.imm } r
      obtain ⟨h1, h2, h3, h4, h5⟩ := this
      refine ⟨h1, h2, h3, ?_, ?_⟩
      · intro x hx
        rw [h4] at hx
        rcases IdSet.mem_insertAll.1 hx with h | h
        · exact Or.inr h
        · exact Or.inl h
      · intro hf; rw [h5 hf]; simp [PC.running, PC.immRest]
    · simp [PC.running, PC.immRest, Frame.immRest]; exact fun x h => Or.inl h
  | due rest =>
    simp only [resume]
    split
    · have := storeRest_frame s rest
      obtain ⟨h1, h2, h3, h4, h5⟩ := this
      refine ⟨h1, h2, h3, ?_, ?_⟩
      · intro x hx; rw [h4] at hx; exact Or.inl hx
      · intro hf; rw [h5 hf]; simp [PC.running, PC.immRest]
    · simp [PC.running, PC.immRest, Frame.immRest]

/-! ### The life of an event nobody touches -/

/-- State of the record of event `n`, created or moved so that it is due at `t`
with cycle `c` and repeat count `r`, when `m` occurrences have been completed. -/
def Rec (n t c r : Int) (k : TimeKind) (ep : Nat) (s : State) (m : Nat) : Prop :=
  ∃ e, s.events.find n = some e ∧ e.ep = ep ∧ e.cycle = c ∧ e.kind = k ∧
    e.next = t + m * c ∧ e.rep = (if r < 0 then r else r - m) ∧ (0 ≤ r → (m : Int) ≤ r)

/-- The `m` observations of the first `m` occurrences, newest first. -/
def Seen (n t c : Int) (k : TimeKind) (ep : Nat) (O : List Obs) (m : Nat) : Prop :=
  O.map Obs.time = (List.range m).reverse.map (fun i : Nat => t + i * c) ∧
  ∀ o ∈ O, o = .called n ep o.time ∨ (o = .skipped n o.time ∧ k ≠ .simulation)

theorem Seen.snoc {n t c : Int} {k : TimeKind} {ep : Nat} {O : List Obs} {m : Nat} {o : Obs}
    (h : Seen n t c k ep O m) (ht : o.time = t + m * c)
    (ho : o = .called n ep o.time ∨ (o = .skipped n o.time ∧ k ≠ .simulation)) :
    Seen n t c k ep (o :: O) (m + 1) := by
  refine ⟨?_, ?_⟩
  · rw [List.map_cons, h.1, List.range_succ]; simp [ht]
  · intro o' ho'
    rcases List.mem_cons.1 ho' with rfl | h'
    · exact ho
    · exact h.2 _ h'

structure Prog (n t c r : Int) (k : TimeKind) (ep : Nat) (base : List Obs) (s : State)
    (m : Nat) : Prop where
  occs : ∃ O, occ n s.log = O ++ base ∧ Seen n t c k ep O m
  noimm : n ∉ s.imm ∧ n ∉ s.pc.immRest ∧ s.pc.immRun ≠ some n
  le : n ≤ s.lastId
  kind : k ≠ .zulu
  status :
    (s.pc.running ≠ some n ∧ Rec n t c r k ep s m) ∨
    (s.pc.running = some n ∧ ∃ m', m = m' + 1 ∧ Rec n t c r k ep s m') ∨
    (s.pc.running ≠ some n ∧ s.events.find n = none ∧ 0 ≤ r ∧ (m : Int) = r + 1)

theorem Prog.frame {n t c r : Int} {k : TimeKind} {ep : Nat} {base : List Obs} {s s' : State}
    {m : Nat} (h : Prog n t c r k ep base s m)
    (he : s'.events.find n = s.events.find n) (hl : occ n s'.log = occ n s.log)
    (hi : n ∈ s'.imm → n ∈ s.imm ∨ n ∈ s.pc.immRest)
    (hir : n ∈ s'.pc.immRest → n ∈ s.imm ∨ n ∈ s.pc.immRest)
    (hrun : s'.pc.running = some n ↔ s.pc.running = some n)
    (himm : s'.pc.immRun = some n → s.pc.immRun = some n)
    (hid : s.lastId ≤ s'.lastId) :
    Prog n t c r k ep base s' m := by
  have hr : ∀ m, Rec n t c r k ep s' m ↔ Rec n t c r k ep s m := by
    intro m; unfold Rec; rw [he]
  refine ⟨by rw [hl]; exact h.occs, ⟨?_, ?_, ?_⟩, Int.le_trans h.le hid, h.kind, ?_⟩
  · have := h.noimm; grind
  · have := h.noimm; grind
  · have := h.noimm; grind
  · simp only [ne_eq, hr, hrun, he]; exact h.status

/-- End of `Execute` for the followed event. -/
theorem Prog.finish {n t c r : Int} {k : TimeKind} {ep : Nat} {base : List Obs} {s : State}
    {m : Nat} {rest : List Int}
    (occs : ∃ O, occ n s.log = O ++ base ∧ Seen n t c k ep O (m + 1))
    (hi : n ∉ s.imm) (hle : n ≤ s.lastId) (hk : k ≠ .zulu) (hrec : Rec n t c r k ep s m)
    (hf : (finish s n (.due rest)).fault = none) :
    Prog n t c r k ep base (finish s n (.due rest)) (m + 1) := by
  obtain ⟨e, h1, h2, h3, h4, h5, h6, h7⟩ := hrec
  unfold Sched.finish at hf ⊢
  simp only [h1] at hf ⊢
  split at hf
  · rename_i hz
    rw [if_pos hz]
    obtain ⟨g1, g2, g3, g4, g5⟩ := resume_frame { s with events := s.events.erase n } (.due rest)
    obtain ⟨g6, g7⟩ := g5 hf
    refine ⟨by rw [g2]; exact occs, ⟨?_, ?_, ?_⟩, by rw [g3]; exact hle, hk, ?_⟩
    · intro hx; rcases g4 n hx with h | h
      · exact hi h
      · simp [Frame.immRest] at h
    · intro hx; have := g7 n hx; simp [Frame.immRest] at this
    · intro hx; have := PC.immRun_running hx; rw [g6] at this; simp at this
    · right; right
      rw [g6, g1]
      refine ⟨by simp, OMap.find_erase_self _ _, ?_, ?_⟩
      · grind
      · grind
  · rename_i hz
    rw [if_neg hz]
    split at hf
    · rename_i a b ha hb
      try simp only [ha, hb]
      have ha' := (chk_some ha).1
      generalize hs : ({ s with
            events := s.events.insert n
              { e with rep := (if e.rep > 0 then e.rep - 1 else e.rep), next := a, time := b }
            table := post s.table a n } : State) = s1 at hf ⊢
      obtain ⟨g1, g2, g3, g4, g5⟩ := resume_frame s1 (.due rest)
      obtain ⟨g6, g7⟩ := g5 hf
      subst hs
      refine ⟨by rw [g2]; exact occs, ⟨?_, ?_, ?_⟩, by rw [g3]; exact hle, hk, ?_⟩
      · intro hx; rcases g4 n hx with h | h
        · exact hi h
        · simp [Frame.immRest] at h
      · intro hx; have := g7 n hx; simp [Frame.immRest] at this
      · intro hx; have := PC.immRun_running hx; rw [g6] at this; simp at this
      · left
        rw [g6]
        refine ⟨by simp, ?_⟩
        unfold Rec
        rw [g1]
        refine ⟨_, OMap.find_insert_self _ _ _, h2, h3, h4, ?_, ?_, ?_⟩
        · simp only; rw [ha', h5, h3]; push_cast; grind
        · simp only; grind
        · grind
    · simp [State.fail] at hf

theorem finish_other {s : State} {id n : Int} {f : Frame} (hne : n ≠ id)
    (hf : (finish s id f).fault = none) :
    (finish s id f).events.find n = s.events.find n ∧ (finish s id f).log = s.log ∧
    (finish s id f).lastId = s.lastId ∧
    (n ∈ (finish s id f).imm → n ∈ s.imm ∨ n ∈ f.immRest) ∧
    (finish s id f).pc.running = none ∧ (n ∈ (finish s id f).pc.immRest → n ∈ f.immRest) := by
  unfold finish at hf ⊢
  split at hf
  · simp [State.fail] at hf
  · split at hf
    · rename_i hz
      rw [if_pos hz]
      obtain ⟨g1, g2, g3, g4, g5⟩ := resume_frame { s with events := s.events.erase id } f
      obtain ⟨g6, g7⟩ := g5 hf
      refine ⟨by rw [g1]; exact OMap.find_erase_ne hne _, g2, g3, g4 n, g6, g7 n⟩
    · rename_i hz
      rw [if_neg hz]
      split at hf
      · rename_i e _ _ _ a b ha hb
        try simp only [ha, hb]
        generalize hs : ({ s with
            events := s.events.insert id
              { e with rep := (if e.rep > 0 then e.rep - 1 else e.rep), next := a, time := b }
            table := post s.table a id } : State) = s1 at hf ⊢
        obtain ⟨g1, g2, g3, g4, g5⟩ := resume_frame s1 f
        obtain ⟨g6, g7⟩ := g5 hf
        subst hs
        refine ⟨by rw [g1]; exact OMap.find_insert_ne hne _ _, g2, g3, g4 n, g6, g7 n⟩
      · simp [State.fail] at hf

theorem occ_cons_ne {n : Int} {o : Obs} {l : List Obs} (h : o.id ≠ n) : occ n (o :: l) = occ n l := by
  simp [occ, h]

theorem occ_cons_eq {n : Int} {o : Obs} {l : List Obs} (h : o.id = n) :
    occ n (o :: l) = o :: occ n l := by
  simp [occ, h]

theorem PC.immRest_head {s : State} {id : Int} {rest : List Int} {r : Ret}
    (hpc : s.pc = .immFor (id :: rest) r) : id ∈ s.pc.immRest := by
  rw [hpc]; simp [PC.immRest]

theorem Prog.startExec {n t c r : Int} {k : TimeKind} {ep : Nat} {base : List Obs} {s : State}
    {m : Nat} {id : Int} {f : Frame} (h : Prog n t c r k ep base s m) (hinv : Inv s)
    (hpc : (∃ rest r, s.pc = .immFor (id :: rest) r ∧ f = .imm rest r) ∨
      (∃ rest, s.pc = .slotFor (id :: rest) ∧ f = .due rest))
    (hf : (startExec s id f).fault = none) :
    ∃ m', Prog n t c r k ep base (startExec s id f) m' := by
  have hnr : s.pc.running = none := by
    rcases hpc with ⟨_, _, h, _⟩ | ⟨_, h, _⟩ <;> rw [h] <;> rfl
  by_cases hne : n = id
  · -- the followed event
    subst hne
    rcases hpc with ⟨rest, r', hp, rfl⟩ | ⟨rest, hp, rfl⟩
    · exact absurd (by rw [hp]; simp [PC.immRest]) h.noimm.2.1
    · have hdue : n ∈ s.pc.dueRest := by rw [hp]; simp [PC.dueRest]
      have hlate := hinv.late (by rw [hp]; rfl) (by rw [hp]; rfl)
      rcases h.status with ⟨_, hrec⟩ | ⟨hr, _⟩ | ⟨_, hno, _⟩
      · refine ⟨m + 1, ?_⟩
        obtain ⟨e, h1, h2, h3, h4, h5, h6, h7⟩ := id hrec
        have hn := (hinv.dues n e (Or.inl hdue) h1).1
        have hnow : s.now = t + m * c := by rw [hlate.1, ← hn, h5]
        obtain ⟨O, hO, hS⟩ := h.occs
        unfold Sched.startExec at hf ⊢
        simp only [h1] at hf ⊢
        split at hf
        · simp [State.fail] at hf
        · rename_i hsk
          try simp only [hsk]
          refine Prog.finish ⟨.skipped n s.now :: O, ?_, hS.snoc (by simpa [Obs.time] using hnow) ?_⟩
            h.noimm.1 h.le h.kind hrec hf
          · simp only; rw [occ_cons_eq (by rfl), hO]; rfl
          · right
            refine ⟨rfl, ?_⟩
            intro hk
            rw [hk] at h4
            simp [skipTest, h4] at hsk
        · rename_i hsk
          try simp only [hsk]
          refine ⟨⟨.called n e.ep s.now :: O, ?_, hS.snoc (by simpa [Obs.time] using hnow) ?_⟩, ?_,
            h.le, h.kind, ?_⟩
          · simp only; rw [occ_cons_eq (by rfl), hO]; rfl
          · left; simp [Obs.time, h2]
          · refine ⟨h.noimm.1, by simp [PC.immRest], by simp [PC.immRun]⟩
          · right; left
            exact ⟨rfl, m, rfl, hrec⟩
      · rw [hnr] at hr; simp at hr
      · have := hinv.exist n .dueRest hdue
        rw [hno] at this; simp at this
  · -- another event
    refine ⟨m, ?_⟩
    have hfi : ∀ x, x ∈ f.immRest → x ∈ s.pc.immRest := by
      rcases hpc with ⟨rest, r', hp, rfl⟩ | ⟨rest, hp, rfl⟩
      · intro x hx; rw [hp]; exact List.mem_cons_of_mem _ hx
      · intro x hx; simp [Frame.immRest] at hx
    unfold Sched.startExec at hf ⊢
    split at hf
    · simp [State.fail] at hf
    · rename_i e he
      try simp only at hf ⊢
      split at hf
      · simp [State.fail] at hf
      · rename_i hsk
        try simp only [hsk]
        obtain ⟨g1, g2, g3, g4, g5, g6⟩ := finish_other hne hf
        refine h.frame g1 ?_ ?_ ?_ ?_ ?_ ?_
        · rw [g2]; exact occ_cons_ne (by simp only [Obs.id]; exact fun h => hne h.symm)
        · intro hx; rcases g4 hx with hx | hx
          · exact Or.inl hx
          · exact Or.inr (hfi n hx)
        · intro hx; exact Or.inr (hfi n (g6 hx))
        · rw [g5, hnr]
        · intro hx; have := PC.immRun_running hx; rw [g5] at this; simp at this
        · rw [g3]; simp
      · rename_i hsk
        try simp only [hsk]
        have hne' : id ≠ n := fun h => hne h.symm
        refine h.frame rfl ?_ (fun hx => Or.inl hx) ?_ ?_ ?_ (Int.le_refl _)
        · exact occ_cons_ne (by simp only [Obs.id]; exact hne')
        · intro hx
          right
          apply hfi
          cases f <;> simpa [PC.immRest, Frame.immRest] using hx
        · rw [hnr]; simp [PC.running, hne']
        · intro hx; cases f <;> simp [PC.immRun] at hx; exact absurd hx hne'

theorem setSimTime_frame (s : State) (t : Int) :
    (setSimTime s t).1.events = s.events ∧ (setSimTime s t).1.log = s.log ∧
    (setSimTime s t).1.imm = s.imm ∧ (setSimTime s t).1.lastId = s.lastId ∧
    (setSimTime s t).1.table = s.table ∧ (setSimTime s t).1.pc = s.pc := by
  unfold setSimTime; (repeat' split) <;> simp

/-- A step of the loop that does not call `startExec` or `finish`. -/
def PC.silent : PC → Bool
  | .immFor (_ :: _) _ => false
  | .slotFor (_ :: _) => false
  | .cb _ _ => false
  | _ => true

theorem tick_silent {s : State} (d : Bool) (hs : s.pc.silent = true) :
    (tick s d).events = s.events ∧ (tick s d).log = s.log ∧ (tick s d).lastId = s.lastId ∧
    (tick s d).pc.running = none ∧
    (∀ x, x ∈ (tick s d).imm ∨ x ∈ (tick s d).pc.immRest → x ∈ s.imm ∨ x ∈ s.pc.immRest) := by
  have hrun : s.pc.running = none := by
    cases h : s.pc <;> simp_all [PC.running, PC.silent]
  unfold tick
  split <;> rename_i hpc
  · simp [hpc, PC.running, PC.immRest]
  · split
    · rename_i r _
      cases r <;> simp only [immTrue, enterSlot] <;> (repeat' split) <;>
        simp_all [PC.running, PC.immRest]
    · simp_all [PC.running, PC.immRest]
  · simp_all [PC.running, PC.immRest]
  · rw [hpc] at hs; simp [PC.silent] at hs
  · split <;> simp_all [PC.running, PC.immRest]
  · split
    · simp_all [PC.running, PC.immRest, State.fail]
    · split
      · simp_all [PC.running, PC.immRest]
      · have := setSimTime_frame s s.iter
        split
        · simp_all [PC.running, PC.immRest, State.fail]
        · rename_i heq
          rw [heq] at this
          simp_all [PC.running, PC.immRest]
  · simp_all [PC.running, PC.immRest]
  · split
    · simp_all [PC.running, PC.immRest, State.fail]
    · (repeat' split) <;> simp_all [PC.running, PC.immRest, enterSlot]
  · simp_all [PC.running, PC.immRest]
  · rw [hpc] at hs; simp [PC.silent] at hs
  · rw [hpc] at hs; simp [PC.silent] at hs

theorem Prog.tick {n t c r : Int} {k : TimeKind} {ep : Nat} {base : List Obs} {s : State}
    {m : Nat} (h : Prog n t c r k ep base s m) (hinv : Inv s) (d : Bool)
    (hf : (tick s d).fault = none) : ∃ m', Prog n t c r k ep base (tick s d) m' := by
  cases hsil : s.pc.silent with
  | true =>
    obtain ⟨g1, g2, g3, g4, g5⟩ := tick_silent d hsil
    have hrun : s.pc.running = none := by
      cases h : s.pc <;> simp_all [PC.running, PC.silent]
    refine ⟨m, h.frame (by rw [g1]) (by rw [g2]) (fun hx => g5 n (Or.inl hx))
      (fun hx => g5 n (Or.inr hx)) (by rw [g4, hrun]) ?_ (by rw [g3]; exact Int.le_refl _)⟩
    intro hx; have := PC.immRun_running hx; rw [g4] at this; simp at this
  | false =>
    match hpc : s.pc with
    | .immFor (id :: rest) r' =>
      have : Sched.tick s d = Sched.startExec s id (.imm rest r') := by simp [Sched.tick, hpc]
      rw [this] at hf ⊢
      exact h.startExec hinv (Or.inl ⟨rest, r', hpc, rfl⟩) hf
    | .slotFor (id :: rest) =>
      have : Sched.tick s d = Sched.startExec s id (.due rest) := by simp [Sched.tick, hpc]
      rw [this] at hf ⊢
      exact h.startExec hinv (Or.inr ⟨rest, hpc, rfl⟩) hf
    | .cb id f =>
      have : Sched.tick s d = Sched.finish { s with current := -1 } id f := by
        simp [Sched.tick, hpc]
      rw [this] at hf ⊢
      by_cases hne : n = id
      · subst hne
        refine ⟨m, ?_⟩
        rcases h.status with ⟨hr, _⟩ | ⟨_, m', hm, hrec⟩ | ⟨hr, _⟩
        · rw [hpc] at hr; simp [PC.running] at hr
        · subst hm
          cases f with
          | imm rest r' => have := h.noimm.2.2; rw [hpc] at this; simp [PC.immRun] at this
          | due rest => exact Prog.finish h.occs h.noimm.1 h.le h.kind hrec hf
        · rw [hpc] at hr; simp [PC.running] at hr
      · refine ⟨m, ?_⟩
        have hne' : id ≠ n := fun h => hne h.symm
        obtain ⟨g1, g2, g3, g4, g5, g6⟩ := finish_other hne hf
        have hfi : n ∈ f.immRest → n ∈ s.pc.immRest := by
          rw [hpc]; cases f <;> simp [Frame.immRest, PC.immRest]
        refine h.frame g1 (by rw [g2]) ?_ (fun hx => Or.inr (hfi (g6 hx))) ?_ ?_ (by rw [g3]; simp)
        · intro hx; rcases g4 hx with hx | hx
          · exact Or.inl hx
          · exact Or.inr (hfi hx)
        · rw [g5, hpc]; simp [PC.running, hne']
        · intro hx; have := PC.immRun_running hx; rw [g5] at this; simp at this
    | .idle | .immTest _ | .immFor [] _ | .preEmit | .waiting | .postEmit | .slotTest
    | .slotFor [] => rw [hpc] at hsil; simp [PC.silent] at hsil

theorem Prog.step {n t c r : Int} {k : TimeKind} {ep : Nat} {base : List Obs} {s : State}
    {m : Nat} {i : Input} (h : Prog n t c r k ep base s m) (hs : Reach s)
    (hf : (step s i).fault = none) (hu : ∀ o, i = .op o → ¬ o.touches n) :
    ∃ m', Prog n t c r k ep base (step s i) m' := by
  cases i with
  | op o =>
    rw [step_op o hs.fault]
    obtain ⟨g1, g2, g3, g4, g5⟩ := apply_frame o h.le (hu o rfl)
    exact ⟨m, h.frame g1 (by rw [g4]) (fun hx => Or.inl (g2.1 hx)) (fun hx => Or.inr (by rw [← g3]; exact hx))
      (by rw [g3]) (by rw [g3]; exact id) g5⟩
  | run =>
    unfold Sched.step
    rw [if_neg (by simp [hs.fault])]
    simp only
    split
    · rename_i hpc
      refine ⟨m, h.frame rfl rfl (fun hx => Or.inl hx) ?_ ?_ ?_ (Int.le_refl _)⟩
      · simp [PC.immRest]
      · simp [PC.running, hpc]
      · simp [PC.immRun]
    · exact ⟨m, h⟩
  | tick d =>
    rw [step_tick d hs.fault] at hf ⊢
    exact h.tick hs.inv d hf

theorem Prog.exec {n t c r : Int} {k : TimeKind} {ep : Nat} {base : List Obs} {s : State}
    {m : Nat} {is : List Input} (h : Prog n t c r k ep base s m) (hs : Reach s)
    (hok : OkRun s is) (hu : Untouched n is) (hf : (exec s is).fault = none) :
    ∃ m', Prog n t c r k ep base (exec s is) m' :=
  OkRun.induction (P := fun s => ∃ m', Prog n t c r k ep base s m') hs ⟨m, h⟩ hok hf
    (fun s i hs _ hf hi ⟨m, hm⟩ => hm.step hs hf (hu i hi))

/-- Occurrences that are behind the simulation time have taken place; those that
have taken place are not ahead of it. -/
theorem Prog.bounds {n t c r : Int} {k : TimeKind} {ep : Nat} {base : List Obs} {s : State}
    {m : Nat} (h : Prog n t c r k ep base s m) (hinv : Inv s) (hc : r ≠ 0 → 0 < c) :
    (0 ≤ r → (m : Int) ≤ r + 1) ∧
    (∀ i : Nat, (r < 0 ∨ (i : Int) ≤ r) → t + i * c < s.now → i < m) := by
  have key : ∀ m : Nat, Rec n t c r k ep s m → ∀ i : Nat, (r < 0 ∨ (i : Int) ≤ r) →
      t + i * c < s.now → i < m := by
    intro m hrec i hi hlt
    obtain ⟨e, h1, h2, h3, h4, h5, h6, h7⟩ := hrec
    have hnow : s.now ≤ e.next := by
      obtain ⟨l, hl⟩ := hinv.cover n e h1 (by rw [h4]; exact h.kind)
      cases l with
      | slot =>
        obtain ⟨kk, hk⟩ := hl
        have := (hinv.slots kk n e hk h1).1
        obtain ⟨l, hl, _⟩ := mem_slotOf hk
        have := hinv.nowKeys kk l hl
        omega
      | imm => exact absurd hl h.noimm.1
      | immRest => exact absurd hl h.noimm.2.1
      | dueRest =>
        have hd := (hinv.dues n e (Or.inl hl) h1).1
        have hlive : s.pc.live = true ∧ s.pc.early = false := by
          have : n ∈ s.pc.dueRest := hl
          unfold PC.dueRest at this
          split at this <;> simp_all [PC.live, PC.early]
          all_goals (rename_i r _; cases r <;> simp_all [Ret.dueRest, Ret.live])
        have := (hinv.late hlive.1 hlive.2).1
        omega
      | running =>
        rcases PC.running_cases hl with hr | hr
        · exact absurd hr h.noimm.2.2
        · have hd := (hinv.dues n e (Or.inr hr) h1).1
          have hlive : s.pc.live = true ∧ s.pc.early = false := by
            unfold PC.dueRun at hr
            split at hr <;> simp_all [PC.live, PC.early]
          have := (hinv.late hlive.1 hlive.2).1
          omega
    rw [h5] at hnow
    apply Classical.byContradiction
    intro hge
    have hge : m ≤ i := by omega
    by_cases hr : r = 0
    · subst hr
      have hi0 : i = 0 := by omega
      have hm0 : m = 0 := by omega
      subst hi0; subst hm0; omega
    · have hc' := hc hr
      have : (m : Int) * c ≤ (i : Int) * c :=
        Int.mul_le_mul_of_nonneg_right (by omega) (by omega)
      omega
  rcases h.status with ⟨_, hrec⟩ | ⟨_, m', rfl, hrec⟩ | ⟨_, _, hr, hm⟩
  · refine ⟨?_, key m hrec⟩
    obtain ⟨e, h1, h2, h3, h4, h5, h6, h7⟩ := hrec
    intro hr; have := h7 hr; omega
  · refine ⟨?_, fun i hi hlt => by have := key m' hrec i hi hlt; omega⟩
    obtain ⟨e, h1, h2, h3, h4, h5, h6, h7⟩ := hrec
    intro hr; have := h7 hr; omega
  · refine ⟨fun _ => by omega, fun i hi _ => by omega⟩

end Verif.Sched
