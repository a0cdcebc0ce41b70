import Verif.Sched.OpsInv

/-
The run loop keeps the scheduler invariant and, from a state satisfying it, can
only stop by a 64-bit overflow of a due time.
-/
namespace Verif.Sched

/-- Position right after `Execute` returned to frame `f`. -/
def Frame.toPC : Frame → PC
  | .imm rest r => .immFor rest r
  | .due rest => .slotFor rest

/-- Changing only the position and the fields the invariant ignores. -/
theorem Inv.movePC {s : State} (h : Inv s) (p : PC)
    (hd : p.dueRest = s.pc.dueRest) (hi : p.immRest = s.pc.immRest)
    (hr : p.immRun = s.pc.immRun) (hr' : p.dueRun = s.pc.dueRun)
    (hl : p.live = s.pc.live) (he : p.early = s.pc.early)
    (hrun : p.running = s.pc.running) : Inv { s with pc := p } := by
  have hat : ∀ id l, At { s with pc := p } id l ↔ At s id l := by
    intro id l; cases l <;> simp only [At, hd, hi, hrun]
  constructor <;> (try simp only [hd, hi, hr, hr', hl, he, hrun])
  · exact h.tsorted
  · exact h.ssorted
  · exact h.isorted
  · exact h.irsorted
  · exact h.drsorted
  · intro id l; rw [hat id l]; exact h.exist id l
  · exact h.slots
  · exact h.imms
  · exact h.dues
  · intro id l₁ l₂; rw [hat id l₁, hat id l₂]; exact h.uniq id l₁ l₂
  · intro id e h1 h2
    obtain ⟨l, hl⟩ := h.cover id e h1 h2
    exact ⟨l, (hat id l).2 hl⟩
  · exact h.nowKeys
  · exact h.liveKeys
  · exact h.liveIt
  · exact h.early
  · exact h.late
  · exact h.pos
  · exact h.ids
  · exact h.last
  · exact h.cur

theorem idle1 : PC.idle.immRest = [] := rfl
theorem idle2 : PC.idle.dueRest = [] := rfl
theorem idle3 : PC.idle.running = none := rfl

/-- Leaving the loop when no batch is held. -/
theorem Inv.toIdle {s : State} (h : Inv s) (hd : s.pc.dueRest = []) (hi : s.pc.immRest = [])
    (hr : s.pc.running = none) : Inv { s with pc := .idle } := by
  have r1 : s.pc.immRun = none := by
    cases hh : s.pc.immRun with
    | none => rfl
    | some i => have := PC.immRun_running hh; simp_all
  have r2 : s.pc.dueRun = none := by
    cases hh : s.pc.dueRun with
    | none => rfl
    | some i => have := PC.dueRun_running hh; simp_all
  have hat : ∀ id l, At { s with pc := .idle } id l ↔ At s id l := by
    intro id l
    cases l <;> simp only [At, hd, hi, hr, idle1, idle2, idle3]
  constructor <;> (try simp only [idle1, idle2, idle3, PC.immRun, PC.dueRun, PC.live, PC.early])
  · exact h.tsorted
  · exact h.ssorted
  · exact h.isorted
  · exact IdSet.sorted_nil
  · exact IdSet.sorted_nil
  · intro id l; rw [hat id l]; exact h.exist id l
  · exact h.slots
  · intro id e hh; have := h.imms id e; grind
  · intro id e hh; grind
  · intro id l₁ l₂; rw [hat id l₁, hat id l₂]; exact h.uniq id l₁ l₂
  · intro id e h1 h2
    obtain ⟨l, hl⟩ := h.cover id e h1 h2
    exact ⟨l, (hat id l).2 hl⟩
  · exact h.nowKeys
  · grind
  · grind
  · grind
  · grind
  · exact h.pos
  · exact h.ids
  · exact h.last
  · have := h.cur; rw [hr] at this; exact this

/-- `events.insert(++it, current.end())` on the slot. -/
theorem Inv.storeRest {s : State} {rest : List Int} (h : Inv s) (hd : s.pc.dueRest = rest)
    (hi : s.pc.immRest = []) (hr : s.pc.running = none) (hl : s.pc.live) :
    Inv (storeRest s rest) ∧ (Sched.storeRest s rest).fault = s.fault := by
  subst hd
  obtain ⟨hit, l0, hl0⟩ := h.liveIt hl
  unfold Sched.storeRest
  simp only [hit, Bool.not_true, Bool.false_eq_true, ↓reduceIte, and_true]
  have r1 : s.pc.immRun = none := by
    cases hh : s.pc.immRun with
    | none => rfl
    | some i => have := PC.immRun_running hh; simp_all
  have mem : ∀ k x, x ∈ slotOf (s.table.insert s.iter
      (IdSet.insertAll s.pc.dueRest (slotOf s.table s.iter))) k ↔
      x ∈ slotOf s.table k ∨ (k = s.iter ∧ x ∈ s.pc.dueRest) := by
    intro k x
    rw [slotOf_insert]; split
    · subst_vars; rw [IdSet.mem_insertAll]; grind
    · grind
  have a1 := h.slots
  have a2 := h.imms
  have a3 := h.dues
  have a6 := h.uniq
  have a8 := h.exist
  have a7 := h.cover
  have fwd : ∀ (t : State) id l, At t id l → t.table = s.table.insert s.iter
      (IdSet.insertAll s.pc.dueRest (slotOf s.table s.iter)) → t.imm = s.imm → t.pc = .idle →
      (l = .slot ∧ (At s id .slot ∨ At s id .dueRest)) ∨ (l = .imm ∧ At s id .imm) := by
    intro t id l ht t1 t2 t3
    cases l <;> simp only [At, t1, t2, t3, idle1, idle2, idle3] at ht ⊢
    · left; obtain ⟨k, hk⟩ := ht
      rcases (mem k id).1 hk with h1 | h1
      · exact ⟨trivial, Or.inl ⟨k, h1⟩⟩
      · exact ⟨trivial, Or.inr h1.2⟩
    · right; exact ⟨trivial, ht⟩
    · simp at ht
    · simp at ht
    · simp at ht
  constructor <;> (try simp only [idle1, idle2, idle3, PC.immRun, PC.dueRun, PC.live, PC.early])
  · exact h.tsorted.insert
  · intro k
    rw [slotOf_insert]; split
    · exact (h.ssorted _).insertAll (fun j hj => h.at_inRange (l := .dueRest) hj)
        (fun j hj => h.at_inRange (l := .slot) ⟨_, hj⟩)
    · exact h.ssorted k
  · exact h.isorted
  · exact IdSet.sorted_nil
  · exact IdSet.sorted_nil
  · intro id l ht
    rcases fwd _ id l ht rfl rfl rfl with ⟨_, h1 | h1⟩ | ⟨_, h1⟩ <;> exact a8 _ _ h1
  · intro k id e h1 h2
    rcases (mem k id).1 h1 with h1 | h1
    · exact a1 k id e h1 h2
    · obtain ⟨h3, h4⟩ := h1
      have := a3 id e (Or.inl h4) h2; grind
  · grind
  · grind
  · intro id l₁ l₂ h1 h2
    rcases fwd _ id l₁ h1 rfl rfl rfl with ⟨e1, h1⟩ | ⟨e1, h1⟩ <;>
      rcases fwd _ id l₂ h2 rfl rfl rfl with ⟨e2, h2⟩ | ⟨e2, h2⟩
    · rw [e1, e2]
    · rcases h1 with h1 | h1 <;> (have := a6 _ _ _ h1 h2; simp at this)
    · rcases h2 with h2 | h2 <;> (have := a6 _ _ _ h1 h2; simp at this)
    · rw [e1, e2]
  · intro id e h1 h2
    obtain ⟨l, hl⟩ := a7 id e h1 h2
    cases l with
    | slot => obtain ⟨k, hk⟩ := hl; exact ⟨.slot, k, (mem k id).2 (Or.inl hk)⟩
    | imm => exact ⟨.imm, hl⟩
    | immRest => simp [At, hi] at hl
    | dueRest => exact ⟨.slot, s.iter, (mem _ _).2 (Or.inr ⟨rfl, hl⟩)⟩
    | running => simp [At, hr] at hl
  · have := h.nowKeys
    have := h.nowKeys _ _ hl0
    grind [OMap.find_insert]
  · grind
  · grind
  · grind
  · grind
  · exact h.pos
  · exact h.ids
  · exact h.last
  · have := h.cur; rw [hr] at this; exact this

/-- `ExecuteImmediateEvents` returned false. -/
theorem Inv.immFalse {s : State} {r : Ret} (h : Inv s) (hpc : s.pc = .immTest r) :
    Inv (immFalse s r) ∧ (Sched.immFalse s r).fault = s.fault := by
  cases r with
  | start => exact ⟨h.toIdle (by simp [hpc, PC.dueRest, Ret.dueRest]) (by simp [hpc, PC.immRest])
      (by simp [hpc, PC.running]), rfl⟩
  | slot => exact ⟨h.toIdle (by simp [hpc, PC.dueRest, Ret.dueRest]) (by simp [hpc, PC.immRest])
      (by simp [hpc, PC.running]), rfl⟩
  | inSlot rest =>
    exact h.storeRest (rest := rest) (by simp [hpc, PC.dueRest, Ret.dueRest])
      (by simp [hpc, PC.immRest]) (by simp [hpc, PC.running]) (by simp [hpc, PC.live, Ret.live])

/-- `_immediate_events.insert(++it, events.end())`. -/
theorem Inv.storeImm {s : State} {rest : List Int} {r : Ret} (h : Inv s)
    (hpc : s.pc = .immFor rest r) :
    Inv { s with imm := IdSet.insertAll rest s.imm, pc := .immTest r } := by
  have a2 := h.imms
  have a3 := h.dues
  have a6 := h.uniq
  have a8 := h.exist
  have a7 := h.cover
  have fwd : ∀ (t : State) id l, At t id l → t.table = s.table →
      t.imm = IdSet.insertAll rest s.imm → t.pc = .immTest r →
      At s id l ∨ (l = .imm ∧ At s id .immRest) := by
    intro t id l ht t1 t2 t3
    cases l <;> simp only [At, t1, t2, t3, hpc, PC.immRest, PC.dueRest, PC.running] at ht ⊢ <;>
      grind [IdSet.mem_insertAll]
  have hcur := h.cur
  have hlive := h.liveKeys
  have hit := h.liveIt
  have hearly := h.early
  have hlate := h.late
  have hds := h.drsorted
  rw [hpc] at a2 a3 hcur hlive hit hearly hlate hds
  constructor <;> simp only [PC.immRest, PC.dueRest, PC.running, PC.immRun, PC.dueRun, PC.live,
    PC.early] at *
  · exact h.tsorted
  · exact h.ssorted
  · exact h.isorted.insertAll
      (fun j hj => h.at_inRange (l := .immRest) (by simpa [At, hpc, PC.immRest] using hj))
      (fun j hj => h.at_inRange (l := .imm) hj)
  · exact IdSet.sorted_nil
  · exact hds
  · intro id l ht
    rcases fwd _ id l ht rfl rfl rfl with h1 | ⟨_, h1⟩ <;> exact a8 _ _ h1
  · exact h.slots
  · grind [IdSet.mem_insertAll]
  · exact a3
  · intro id l₁ l₂ h1 h2
    rcases fwd _ id l₁ h1 rfl rfl rfl with h1' | ⟨e1, h1'⟩ <;>
      rcases fwd _ id l₂ h2 rfl rfl rfl with h2' | ⟨e2, h2'⟩
    · exact a6 _ _ _ h1' h2'
    · have := a6 _ _ _ h1' h2'
      subst this; simp [At, PC.immRest] at h1
    · have := a6 _ _ _ h1' h2'
      subst this; simp [At, PC.immRest] at h2
    · rw [e1, e2]
  · intro id e h1 h2
    obtain ⟨l, hl⟩ := a7 id e h1 h2
    cases l with
    | slot => exact ⟨.slot, hl⟩
    | imm => exact ⟨.imm, IdSet.mem_insertAll.2 (Or.inr hl)⟩
    | immRest =>
      exact ⟨.imm, IdSet.mem_insertAll.2 (Or.inl (by simpa [At, hpc, PC.immRest] using hl))⟩
    | dueRest => exact ⟨.dueRest, by simpa [At, hpc, PC.dueRest] using hl⟩
    | running => simp [At, hpc, PC.running] at hl
  · exact h.nowKeys
  · exact hlive
  · exact hit
  · exact hearly
  · exact hlate
  · exact h.pos
  · exact h.ids
  · exact h.last
  · exact hcur

theorem storeRest_pc {s : State} (p : PC) (rest : List Int) (h : s.itOk = true) :
    storeRest { s with pc := p } rest = storeRest s rest := by
  simp [storeRest, h]

theorem immFalse_pc {s : State} (p : PC) (r : Ret) (h : r.live → s.itOk = true) :
    immFalse { s with pc := p } r = immFalse s r := by
  cases r with
  | start => rfl
  | slot => rfl
  | inSlot rest => exact storeRest_pc p rest (h rfl)

theorem Inv.resume {s : State} {f : Frame} (h : Inv { s with pc := f.toPC }) :
    Inv (resume s f) ∧ (Sched.resume s f).fault = s.fault := by
  cases f with
  | imm rest r =>
    simp only [Sched.resume]
    simp only [Frame.toPC] at h
    by_cases hh : s.hold = true
    · rw [if_pos hh]
      have h1 := h.storeImm (rest := rest) (r := r) rfl
      have h2 := h1.immFalse (r := r) rfl
      have e := immFalse_pc (s := { s with imm := IdSet.insertAll rest s.imm }) (.immTest r) r
        (fun hl => (h1.liveIt hl).1)
      simp only at e h2
      rw [e] at h2
      exact h2
    · rw [if_neg hh]; exact ⟨h, rfl⟩
  | due rest =>
    simp only [Sched.resume]
    simp only [Frame.toPC] at h
    by_cases hh : s.hold = true
    · rw [if_pos hh]
      have h2 := h.storeRest (rest := rest) rfl rfl rfl rfl
      have e := storeRest_pc (s := s) (.slotFor rest) rest (h.liveIt rfl).1
      rw [e] at h2
      exact h2
    · rw [if_neg hh]
      exact ⟨h.movePC (.immTest (.inSlot rest)) rfl rfl rfl rfl rfl rfl rfl, rfl⟩

/-- The event is finished: it disappears. -/
theorem Inv.finishErase {s : State} {id : Int} {f : Frame}
    (h : Inv { s with pc := .cb id f, current := id }) (hc : s.current = -1) :
    Inv { s with events := s.events.erase id, pc := f.toPC } := by
  have a1 := h.slots
  have a2 := h.imms
  have a3 := h.dues
  have a4 := h.pos
  have a5 := h.ids
  have a6 := h.uniq
  have a7 := h.cover
  have a8 := h.exist
  have hlive := h.liveKeys
  have hit := h.liveIt
  have hearly := h.early
  have hlate := h.late
  have hir := h.irsorted
  have hdr := h.drsorted
  have noAt : ∀ l, At { s with pc := .cb id f, current := id } id l → l = .running :=
    fun l hl => a6 id l .running hl rfl
  have fwd : ∀ (t : State) i l, At t i l → t.table = s.table → t.imm = s.imm → t.pc = f.toPC →
      At { s with pc := .cb id f, current := id } i l ∧ i ≠ id := by
    intro t i l ht t1 t2 t3
    have h1 : At { s with pc := .cb id f, current := id } i l ∧ l ≠ .running := by
      cases l <;> cases f <;>
        simp_all [At, Frame.toPC, PC.immRest, PC.dueRest, PC.running]
    refine ⟨h1.1, fun hi => ?_⟩
    subst hi
    exact h1.2 (noAt l h1.1)
  have e1 : f.toPC.immRest = (PC.cb id f).immRest := by cases f <;> rfl
  have e2 : f.toPC.dueRest = (PC.cb id f).dueRest := by cases f <;> rfl
  have e3 : f.toPC.live = (PC.cb id f).live := by cases f <;> rfl
  have e4 : f.toPC.early = (PC.cb id f).early := by cases f <;> rfl
  have e5 : f.toPC.running = none := by cases f <;> rfl
  have e6 : f.toPC.immRun = none := by cases f <;> rfl
  have e7 : f.toPC.dueRun = none := by cases f <;> rfl
  have e8 : (PC.cb id f).running = some id := rfl
  constructor <;> (try simp only [e1, e2, e3, e4, e5, e6, e7])
  · exact h.tsorted
  · exact h.ssorted
  · exact h.isorted
  · exact hir
  · exact hdr
  · intro i l hl
    obtain ⟨b1, b2⟩ := fwd _ i l hl rfl rfl rfl
    rw [OMap.find_erase_ne b2]; exact a8 i l b1
  · grind [OMap.find_erase]
  · grind [OMap.find_erase]
  · grind [OMap.find_erase]
  · intro i l₁ l₂ h1 h2
    exact a6 i l₁ l₂ (fwd _ i l₁ h1 rfl rfl rfl).1 (fwd _ i l₂ h2 rfl rfl rfl).1
  · intro i x h1 h2
    by_cases hx : i = id
    · subst hx; simp at h1
    · rw [OMap.find_erase_ne hx] at h1
      obtain ⟨l, hl⟩ := a7 i x h1 h2
      refine ⟨l, ?_⟩
      cases l with
      | slot => exact hl
      | imm => exact hl
      | immRest => simpa only [At, e1] using hl
      | dueRest => simpa only [At, e2] using hl
      | running => simp [At, PC.running] at hl; exact absurd hl.symm hx
  · exact h.nowKeys
  · exact hlive
  · exact hit
  · exact hearly
  · exact hlate
  · grind [OMap.find_erase]
  · grind [OMap.find_erase]
  · exact h.last
  · simpa using hc

/-- End of `Execute` from a state satisfying the invariant. -/
theorem Inv.finish {s : State} {id : Int} {f : Frame}
    (h : Inv { s with pc := .cb id f, current := id }) (hc : s.current = -1)
    (hf : s.fault = none) :
    (finish s id f).fault = none ∧ Inv (finish s id f) ∨
      (Sched.finish s id f).fault = some .overflow := by
  obtain ⟨e, he⟩ := Option.isSome_iff_exists.1 (h.exist id .running rfl)
  simp only at he
  have hE := h.finishErase hc
  unfold Sched.finish
  simp only [he]
  split
  · left
    obtain ⟨h1, h2⟩ := Inv.resume (s := { s with events := s.events.erase id }) (f := f) hE
    exact ⟨by rw [h2]; exact hf, h1⟩
  · rename_i hrep
    split
    · rename_i n t hn ht
      left
      obtain ⟨rfl, _⟩ := chk_some hn
      obtain ⟨rfl, _⟩ := chk_some ht
      have hpos := h.pos id e he hrep
      have hdue : e.next = s.iter ∧ e.kind ≠ .zulu ∧ ∃ rest, f = .due rest := by
        cases f with
        | imm rest r =>
          have := h.imms id e (Or.inr (Or.inr rfl)) he
          exact absurd this.1 hrep
        | due rest =>
          have := h.dues id e (Or.inr rfl) he
          exact ⟨this.1, this.2, rest, rfl⟩
      obtain ⟨d1, d2, rest, rfl⟩ := hdue
      have hnow := (h.late (by rfl) (by rfl)).1
      simp only at hnow
      have hP := hE.postFree (id := id) (t := e.next + e.cycle)
        (e := { e with rep := (if e.rep > 0 then e.rep - 1 else e.rep),
                       next := e.next + e.cycle, time := e.time + e.cycle })
        (by simp) (h.ids id e he) rfl d2 (by simp only; omega)
        (by intro hh; simp [Frame.toPC, PC.early] at hh) (fun _ => hpos)
      have hP' : Inv { s with
          events := s.events.insert id
            { e with rep := (if e.rep > 0 then e.rep - 1 else e.rep),
                     next := e.next + e.cycle, time := e.time + e.cycle }
          table := post s.table (e.next + e.cycle) id
          pc := (Frame.due rest).toPC } := by
        refine hP.congr ?_ rfl rfl rfl rfl rfl rfl rfl rfl rfl
        intro i
        simp only [OMap.find_insert, OMap.find_erase]
        split <;> simp_all
      obtain ⟨h1, h2⟩ := Inv.resume (s := { s with
          events := s.events.insert id
            { e with rep := (if e.rep > 0 then e.rep - 1 else e.rep),
                     next := e.next + e.cycle, time := e.time + e.cycle }
          table := post s.table (e.next + e.cycle) id }) (f := .due rest) hP'
      exact ⟨by rw [h2]; exact hf, h1⟩
    · right; rfl

/-- `Execute(id)` is called for the next element of a batch. -/
theorem Inv.enterCb {s : State} {id : Int} {f : Frame} {p : PC} (h : Inv s) (hp : s.pc = p)
    (hfp : (∃ rest r, p = .immFor (id :: rest) r ∧ f = .imm rest r) ∨
           (∃ rest, p = .slotFor (id :: rest) ∧ f = .due rest)) :
    Inv { s with pc := .cb id f, current := id } := by
  have a2 := h.imms
  have a3 := h.dues
  have a6 := h.uniq
  have a7 := h.cover
  have a8 := h.exist
  have hlive := h.liveKeys
  have hit := h.liveIt
  have hearly := h.early
  have hlate := h.late
  have hir := h.irsorted
  have hdr := h.drsorted
  rcases hfp with ⟨rest, r, rfl, rfl⟩ | ⟨rest, rfl, rfl⟩
  · have nd : id ∉ rest := by
      have := hir.nodup; simp only [hp, PC.immRest] at this; exact (List.nodup_cons.1 this).1
    have fwd : ∀ (t : State) i l, At t i l → t.table = s.table → t.imm = s.imm →
        t.pc = .cb id (.imm rest r) →
        (l ≠ .running ∧ i ≠ id ∧ At s i l) ∨ (l = .running ∧ i = id) := by
      intro t i l ht t1 t2 t3
      have hid : At s id .immRest := by simp [At, hp, PC.immRest]
      cases l <;> simp only [At, t1, t2, t3, PC.immRest, PC.dueRest, PC.running] at ht
      · left; refine ⟨by simp, fun hi => ?_, ht⟩
        subst hi; have := a6 i .slot .immRest ht hid; simp at this
      · left; refine ⟨by simp, fun hi => ?_, ht⟩
        subst hi; have := a6 i .imm .immRest ht hid; simp at this
      · left; refine ⟨by simp, fun hi => ?_, ?_⟩
        · subst hi; exact nd ht
        · simp only [At, hp, PC.immRest]; exact List.mem_cons_of_mem _ ht
      · left
        have ht' : At s i .dueRest := by simp only [At, hp, PC.dueRest]; exact ht
        refine ⟨by simp, fun hi => ?_, ht'⟩
        subst hi; have := a6 i .dueRest .immRest ht' hid; simp at this
      · right; simp at ht; exact ⟨rfl, ht.symm⟩
    rw [hp] at a2 a3 hlive hit hearly hlate hir hdr
    constructor <;> simp only [PC.immRest, PC.dueRest, PC.running, PC.immRun, PC.dueRun, PC.live,
      PC.early] at *
    · exact h.tsorted
    · exact h.ssorted
    · exact h.isorted
    · exact (List.pairwise_cons.1 hir).2
    · exact hdr
    · intro i l ht
      rcases fwd _ i l ht rfl rfl rfl with ⟨_, _, h1⟩ | ⟨_, h1⟩
      · exact a8 i l h1
      · subst h1; exact a8 i .immRest (by simp [At, hp, PC.immRest])
    · exact h.slots
    · grind
    · grind
    · intro i l₁ l₂ h1 h2
      rcases fwd _ i l₁ h1 rfl rfl rfl with ⟨q1, q2, q3⟩ | ⟨q1, q2⟩ <;>
        rcases fwd _ i l₂ h2 rfl rfl rfl with ⟨u1, u2, u3⟩ | ⟨u1, u2⟩
      · exact a6 i l₁ l₂ q3 u3
      · exact absurd u2 q2
      · exact absurd q2 u2
      · rw [q1, u1]
    · intro i e h1 h2
      obtain ⟨l, hl⟩ := a7 i e h1 h2
      cases l with
      | slot => exact ⟨.slot, hl⟩
      | imm => exact ⟨.imm, hl⟩
      | immRest =>
        simp only [At, hp, PC.immRest, List.mem_cons] at hl
        rcases hl with hl | hl
        · exact ⟨.running, by simp [At, PC.running, hl]⟩
        · exact ⟨.immRest, by simpa [At, PC.immRest] using hl⟩
      | dueRest => exact ⟨.dueRest, by simpa [At, hp, PC.dueRest] using hl⟩
      | running => simp [At, hp, PC.running] at hl
    · exact h.nowKeys
    · exact hlive
    · exact hit
    · exact hearly
    · exact hlate
    · exact h.pos
    · exact h.ids
    · exact h.last
    · rfl
  · have nd : id ∉ rest := by
      have := hdr.nodup; simp only [hp, PC.dueRest] at this; exact (List.nodup_cons.1 this).1
    have fwd : ∀ (t : State) i l, At t i l → t.table = s.table → t.imm = s.imm →
        t.pc = .cb id (.due rest) →
        (l ≠ .running ∧ i ≠ id ∧ At s i l) ∨ (l = .running ∧ i = id) := by
      intro t i l ht t1 t2 t3
      have hid : At s id .dueRest := by simp [At, hp, PC.dueRest]
      cases l <;> simp only [At, t1, t2, t3, PC.immRest, PC.dueRest, PC.running] at ht
      · left; refine ⟨by simp, fun hi => ?_, ht⟩
        subst hi; have := a6 i .slot .dueRest ht hid; simp at this
      · left; refine ⟨by simp, fun hi => ?_, ht⟩
        subst hi; have := a6 i .imm .dueRest ht hid; simp at this
      · simp at ht
      · left; refine ⟨by simp, fun hi => ?_, ?_⟩
        · subst hi; exact nd ht
        · simp only [At, hp, PC.dueRest]; exact List.mem_cons_of_mem _ ht
      · right; simp at ht; exact ⟨rfl, ht.symm⟩
    rw [hp] at a2 a3 hlive hit hearly hlate hir hdr
    constructor <;> simp only [PC.immRest, PC.dueRest, PC.running, PC.immRun, PC.dueRun, PC.live,
      PC.early] at *
    · exact h.tsorted
    · exact h.ssorted
    · exact h.isorted
    · exact IdSet.sorted_nil
    · exact (List.pairwise_cons.1 hdr).2
    · intro i l ht
      rcases fwd _ i l ht rfl rfl rfl with ⟨_, _, h1⟩ | ⟨_, h1⟩
      · exact a8 i l h1
      · subst h1; exact a8 i .dueRest (by simp [At, hp, PC.dueRest])
    · exact h.slots
    · grind
    · grind
    · intro i l₁ l₂ h1 h2
      rcases fwd _ i l₁ h1 rfl rfl rfl with ⟨q1, q2, q3⟩ | ⟨q1, q2⟩ <;>
        rcases fwd _ i l₂ h2 rfl rfl rfl with ⟨u1, u2, u3⟩ | ⟨u1, u2⟩
      · exact a6 i l₁ l₂ q3 u3
      · exact absurd u2 q2
      · exact absurd q2 u2
      · rw [q1, u1]
    · intro i e h1 h2
      obtain ⟨l, hl⟩ := a7 i e h1 h2
      cases l with
      | slot => exact ⟨.slot, hl⟩
      | imm => exact ⟨.imm, hl⟩
      | immRest => simp [At, hp, PC.immRest] at hl
      | dueRest =>
        simp only [At, hp, PC.dueRest, List.mem_cons] at hl
        rcases hl with hl | hl
        · exact ⟨.running, by simp [At, PC.running, hl]⟩
        · exact ⟨.dueRest, by simpa [At, PC.dueRest] using hl⟩
      | running => simp [At, hp, PC.running] at hl
    · exact h.nowKeys
    · exact hlive
    · exact hit
    · exact hearly
    · exact hlate
    · exact h.pos
    · exact h.ids
    · exact h.last
    · rfl

theorem Inv.startExec {s : State} {id : Int} {f : Frame} (h : Inv s) (hf : s.fault = none)
    (hfp : (∃ rest r, s.pc = .immFor (id :: rest) r ∧ f = .imm rest r) ∨
           (∃ rest, s.pc = .slotFor (id :: rest) ∧ f = .due rest)) :
    (startExec s id f).fault = none ∧ Inv (startExec s id f) ∨
      (Sched.startExec s id f).fault = some .overflow := by
  have hcb := h.enterCb rfl hfp
  obtain ⟨e, he⟩ := Option.isSome_iff_exists.1 (hcb.exist id .running rfl)
  have hcur : s.current = -1 := by
    have := h.cur
    rcases hfp with ⟨_, _, hp, _⟩ | ⟨_, hp, _⟩ <;> simpa [hp, PC.running] using this
  unfold Sched.startExec
  simp only at he
  simp only [he]
  split
  · right; rfl
  · refine Inv.finish (s := { s with log := .skipped id s.now :: s.log }) ?_ hcur hf
    exact hcb.congr (fun _ => rfl) rfl rfl rfl rfl rfl rfl rfl rfl rfl
  · left
    exact ⟨hf, hcb.congr (fun _ => rfl) rfl rfl rfl rfl rfl rfl rfl rfl rfl⟩

/-- Entering the slot at key `k` of the time table. -/
theorem Inv.enterSlot {s : State} (h : Inv s) {k : Int} {l : List Int}
    (hd : s.pc.dueRest = []) (hi : s.pc.immRest = []) (hr : s.pc.running = none)
    (hk : s.table.find k = some l) (hmin : ∀ j l, s.table.find j = some l → k ≤ j) :
    Inv (enterSlot s k) := by
  have h0 := h.toIdle hd hi hr
  unfold Sched.enterSlot
  have hat : ∀ id l, At { s with iter := k, itOk := true, changing := true, pc := .preEmit } id l ↔
      At { s with pc := .idle } id l := by
    intro id l
    cases l <;> simp only [At, PC.immRest, PC.dueRest, PC.running]
  constructor <;> (try simp only [PC.live, PC.early, PC.immRest, PC.dueRest, PC.running,
    PC.immRun, PC.dueRun])
  · exact h0.tsorted
  · exact h0.ssorted
  · exact h0.isorted
  · exact IdSet.sorted_nil
  · exact IdSet.sorted_nil
  · intro id l; rw [hat]; exact h0.exist id l
  · exact h0.slots
  · exact h0.imms
  · grind
  · intro id l₁ l₂; rw [hat, hat]; exact h0.uniq id l₁ l₂
  · intro id e h1 h2
    obtain ⟨l, hl⟩ := h0.cover id e h1 h2
    exact ⟨l, (hat id l).2 hl⟩
  · exact h0.nowKeys
  · exact fun _ => hmin
  · exact fun _ => ⟨trivial, l, hk⟩
  · grind
  · grind
  · exact h0.pos
  · exact h0.ids
  · exact h0.last
  · exact h0.cur

/-- Erasing the (empty) current slot when leaving it. -/
theorem Inv.eraseSlot {s : State} (h : Inv s) (hpc : s.pc = .slotTest)
    (he : slotOf s.table s.iter = []) :
    Inv { s with table := s.table.erase s.iter, pc := .idle } := by
  have h0 := h.toIdle (by simp [hpc, PC.dueRest]) (by simp [hpc, PC.immRest])
    (by simp [hpc, PC.running])
  have hs : ∀ k, slotOf (s.table.erase s.iter) k = slotOf s.table k := by
    intro k; rw [slotOf_erase]; split
    · subst_vars; exact he.symm
    · rfl
  have hat : ∀ id l, At { s with table := s.table.erase s.iter, pc := .idle } id l ↔
      At { s with pc := .idle } id l := by
    intro id l
    cases l <;> simp only [At, hs]
  have a1 := h0.slots
  constructor <;> (try simp only [hs])
  · exact h0.tsorted.erase
  · exact h0.ssorted
  · exact h0.isorted
  · exact IdSet.sorted_nil
  · exact IdSet.sorted_nil
  · intro id l; rw [hat]; exact h0.exist id l
  · exact a1
  · exact h0.imms
  · exact h0.dues
  · intro id l₁ l₂; rw [hat, hat]; exact h0.uniq id l₁ l₂
  · intro id e h1 h2
    obtain ⟨l, hl⟩ := h0.cover id e h1 h2
    exact ⟨l, (hat id l).2 hl⟩
  · have := h0.nowKeys
    grind [OMap.find_erase]
  · intro hh; simp [PC.live] at hh
  · intro hh; simp [PC.live] at hh
  · intro hh; simp [PC.early] at hh
  · intro hh; simp [PC.live] at hh
  · exact h0.pos
  · exact h0.ids
  · exact h0.last
  · exact h0.cur

/-- Swapping the batch out of the current slot (lines 480-481). -/
theorem Inv.swapSlot {s : State} (h : Inv s) (hpc : s.pc = .slotTest) :
    Inv { s with table := s.table.insert s.iter [], pc := .slotFor (slotOf s.table s.iter) } := by
  have hs : ∀ k, slotOf (s.table.insert s.iter []) k = if k = s.iter then [] else slotOf s.table k :=
    fun k => slotOf_insert _ _ _ _
  have a1 := h.slots
  have a2 := h.imms
  have a6 := h.uniq
  have a7 := h.cover
  have a8 := h.exist
  have hlive := h.liveKeys
  have hit := h.liveIt
  have hlate := h.late
  have hcur := h.cur
  rw [hpc] at hlive hit hlate hcur a2
  obtain ⟨q1, l0, q2⟩ := hit rfl
  have hnow := h.nowKeys
  have fwd : ∀ (t : State) i l, At t i l → t.table = s.table.insert s.iter [] → t.imm = s.imm →
      t.pc = .slotFor (slotOf s.table s.iter) →
      (l = .slot ∧ (∃ k, k ≠ s.iter ∧ i ∈ slotOf s.table k)) ∨ (l = .imm ∧ At s i .imm) ∨
      (l = .dueRest ∧ i ∈ slotOf s.table s.iter) := by
    intro t i l ht t1 t2 t3
    cases l <;> simp only [At, t1, t2, t3, PC.immRest, PC.dueRest, PC.running] at ht
    · left; obtain ⟨k, hk⟩ := ht
      rw [hs] at hk
      split at hk
      · simp at hk
      · exact ⟨rfl, k, by assumption, hk⟩
    · exact Or.inr (Or.inl ⟨rfl, ht⟩)
    · simp at ht
    · exact Or.inr (Or.inr ⟨rfl, ht⟩)
    · simp at ht
  have key : ∀ i k j, i ∈ slotOf s.table k → i ∈ slotOf s.table j → k = j := by
    intro i k j h1 h2
    obtain ⟨e, he⟩ := Option.isSome_iff_exists.1 (a8 i .slot ⟨k, h1⟩)
    have := a1 k i e h1 he
    have := a1 j i e h2 he
    grind
  constructor <;> (try simp only [PC.live, PC.early, PC.immRest, PC.dueRest, PC.running,
    PC.immRun, PC.dueRun] at *)
  · exact h.tsorted.insert
  · intro k; rw [hs]; split
    · exact IdSet.sorted_nil
    · exact h.ssorted k
  · exact h.isorted
  · exact IdSet.sorted_nil
  · exact h.ssorted _
  · intro i l ht
    rcases fwd _ i l ht rfl rfl rfl with ⟨_, k, _, h1⟩ | ⟨_, h1⟩ | ⟨_, h1⟩
    · exact a8 i .slot ⟨k, h1⟩
    · exact a8 i .imm h1
    · exact a8 i .slot ⟨_, h1⟩
  · grind
  · exact a2
  · grind
  · intro i l₁ l₂ h1 h2
    rcases fwd _ i l₁ h1 rfl rfl rfl with ⟨e1, k1, n1, h1⟩ | ⟨e1, h1⟩ | ⟨e1, h1⟩ <;>
      rcases fwd _ i l₂ h2 rfl rfl rfl with ⟨e2, k2, n2, h2⟩ | ⟨e2, h2⟩ | ⟨e2, h2⟩
    · rw [e1, e2]
    · have := a6 i .slot .imm ⟨_, h1⟩ h2; simp at this
    · exact absurd (key i _ _ h1 h2) n1
    · have := a6 i .slot .imm ⟨_, h2⟩ h1; simp at this
    · rw [e1, e2]
    · have := a6 i .slot .imm ⟨_, h2⟩ h1; simp at this
    · exact absurd (key i _ _ h2 h1) n2
    · have := a6 i .slot .imm ⟨_, h1⟩ h2; simp at this
    · rw [e1, e2]
  · intro i e h1 h2
    obtain ⟨l, hl⟩ := a7 i e h1 h2
    cases l with
    | slot =>
      obtain ⟨k, hk⟩ := hl
      by_cases hki : k = s.iter
      · subst hki; exact ⟨.dueRest, hk⟩
      · exact ⟨.slot, k, by rw [hs, if_neg hki]; exact hk⟩
    | imm => exact ⟨.imm, hl⟩
    | immRest => simp [At, hpc, PC.immRest] at hl
    | dueRest => simp [At, hpc, PC.dueRest] at hl
    | running => simp [At, hpc, PC.running] at hl
  · have := hnow _ _ q2
    grind [OMap.find_insert]
  · have := hlive trivial
    grind [OMap.find_insert]
  · intro _; exact ⟨q1, [], by simp⟩
  · grind
  · intro _ _; exact hlate trivial trivial
  · exact h.pos
  · exact h.ids
  · exact h.last
  · exact hcur

/-- Swapping out the pending immediate events (lines 498-499). -/
theorem Inv.swapImm {s : State} {r : Ret} (h : Inv s) (hpc : s.pc = .immTest r) :
    Inv { s with imm := [], pc := .immFor s.imm r } := by
  have a2 := h.imms
  have a3 := h.dues
  have a6 := h.uniq
  have a7 := h.cover
  have a8 := h.exist
  have hlive := h.liveKeys
  have hit := h.liveIt
  have hlate := h.late
  have hearly := h.early
  have hcur := h.cur
  have hds := h.drsorted
  rw [hpc] at hlive hit hlate hcur a2 a3 hearly hds
  have fwd : ∀ (t : State) i l, At t i l → t.table = s.table → t.imm = [] →
      t.pc = .immFor s.imm r →
      (l = .slot ∧ At s i .slot) ∨ (l = .immRest ∧ At s i .imm) ∨
      (l = .dueRest ∧ At s i .dueRest) := by
    intro t i l ht t1 t2 t3
    cases l <;> simp only [At, t1, t2, t3, PC.immRest, PC.dueRest, PC.running] at ht
    · exact Or.inl ⟨rfl, ht⟩
    · simp at ht
    · exact Or.inr (Or.inl ⟨rfl, ht⟩)
    · exact Or.inr (Or.inr ⟨rfl, by simpa [At, hpc, PC.dueRest] using ht⟩)
    · simp at ht
  constructor <;> (try simp only [PC.live, PC.early, PC.immRest, PC.dueRest, PC.running,
    PC.immRun, PC.dueRun] at *)
  · exact h.tsorted
  · exact h.ssorted
  · exact IdSet.sorted_nil
  · exact h.isorted
  · exact hds
  · intro i l ht
    rcases fwd _ i l ht rfl rfl rfl with ⟨_, h1⟩ | ⟨_, h1⟩ | ⟨_, h1⟩ <;> exact a8 _ _ h1
  · exact h.slots
  · grind
  · exact a3
  · intro i l₁ l₂ h1 h2
    rcases fwd _ i l₁ h1 rfl rfl rfl with ⟨e1, h1⟩ | ⟨e1, h1⟩ | ⟨e1, h1⟩ <;>
      rcases fwd _ i l₂ h2 rfl rfl rfl with ⟨e2, h2⟩ | ⟨e2, h2⟩ | ⟨e2, h2⟩ <;>
      (have := a6 _ _ _ h1 h2; simp_all)
  · intro i e h1 h2
    obtain ⟨l, hl⟩ := a7 i e h1 h2
    cases l with
    | slot => exact ⟨.slot, hl⟩
    | imm => exact ⟨.immRest, hl⟩
    | immRest => simp [At, hpc, PC.immRest] at hl
    | dueRest => exact ⟨.dueRest, by simpa [At, hpc, PC.dueRest] using hl⟩
    | running => simp [At, hpc, PC.running] at hl
  · exact h.nowKeys
  · exact hlive
  · exact hit
  · exact hearly
  · exact hlate
  · exact h.pos
  · exact h.ids
  · exact h.last
  · exact hcur

/-- **One step of the run loop.** From a state satisfying the invariant, a step
keeps it, or stops with a 64-bit overflow. -/
theorem Inv.tick {s : State} (h : Inv s) (hf : s.fault = none) (d : Bool) :
    (tick s d).fault = none ∧ Inv (tick s d) ∨ (Sched.tick s d).fault = some .overflow := by
  unfold Sched.tick
  cases hpc : s.pc with
  | idle => exact Or.inl ⟨hf, h⟩
  | immTest r =>
    left
    simp only
    split
    · unfold immTrue
      cases r with
      | start =>
        simp only
        split
        · exact ⟨hf, h.toIdle (by simp [hpc, PC.dueRest, Ret.dueRest]) (by simp [hpc, PC.immRest])
            (by simp [hpc, PC.running])⟩
        · rename_i k hk
          obtain ⟨l, hl⟩ := OMap.minKey_find hk
          refine ⟨hf, h.enterSlot (by simp [hpc, PC.dueRest, Ret.dueRest])
            (by simp [hpc, PC.immRest]) (by simp [hpc, PC.running]) hl ?_⟩
          intro j l' hj
          exact OMap.minKey_le h.tsorted hk hj
      | slot =>
        exact ⟨hf, h.movePC .slotTest (by simp [hpc, PC.dueRest, Ret.dueRest])
          (by simp [hpc, PC.immRest]) (by simp [hpc, PC.immRun]) (by simp [hpc, PC.dueRun])
          (by simp [hpc, PC.live, Ret.live]) (by simp [hpc, PC.early]) (by simp [hpc, PC.running])⟩
      | inSlot rest =>
        exact ⟨hf, h.movePC (.slotFor rest) (by simp [hpc, PC.dueRest, Ret.dueRest])
          (by simp [hpc, PC.immRest]) (by simp [hpc, PC.immRun]) (by simp [hpc, PC.dueRun])
          (by simp [hpc, PC.live, Ret.live]) (by simp [hpc, PC.early]) (by simp [hpc, PC.running])⟩
    · exact ⟨hf, h.swapImm hpc⟩
  | immFor rest r =>
    cases rest with
    | nil =>
      left
      exact ⟨hf, h.movePC (.immTest r) (by simp [hpc, PC.dueRest])
        (by simp [hpc, PC.immRest]) (by simp [hpc, PC.immRun]) (by simp [hpc, PC.dueRun])
        (by simp [hpc, PC.live]) (by simp [hpc, PC.early]) (by simp [hpc, PC.running])⟩
    | cons id rest => exact h.startExec hf (Or.inl ⟨rest, r, hpc, rfl⟩)
  | preEmit =>
    left
    simp only
    split
    · exact ⟨hf, h.toIdle (by simp [hpc, PC.dueRest]) (by simp [hpc, PC.immRest])
        (by simp [hpc, PC.running])⟩
    · exact ⟨hf, h.movePC .waiting (by simp [hpc, PC.dueRest])
        (by simp [hpc, PC.immRest]) (by simp [hpc, PC.immRun]) (by simp [hpc, PC.dueRun])
        (by simp [hpc, PC.live]) (by simp [hpc, PC.early]) (by simp [hpc, PC.running])⟩
  | waiting =>
    left
    have hlive : s.pc.live := by simp [hpc, PC.live]
    have hearly : s.pc.early := by simp [hpc, PC.early]
    obtain ⟨hit, l, hl⟩ := h.liveIt hlive
    have hch := h.early hearly
    have hlk := h.liveKeys hlive
    have hnk := h.nowKeys _ _ hl
    simp only
    rw [if_neg (by simp [hit])]
    split
    · exact ⟨hf, h.toIdle (by simp [hpc, PC.dueRest]) (by simp [hpc, PC.immRest])
        (by simp [hpc, PC.running])⟩
    · have hns : s.iter ≤ s.nextScheduled := by
        unfold State.nextScheduled
        cases hm : s.table.minKey with
        | none => rw [OMap.minKey_none hm] at hl; simp at hl
        | some j => obtain ⟨l', hl'⟩ := OMap.minKey_find hm; exact hlk j l' hl'
      have e : Sched.setSimTime s s.iter = ({ s with now := s.iter }, .done) := by
        unfold Sched.setSimTime
        simp only [hch, Bool.not_true, Bool.false_eq_true, ↓reduceIte]
        rw [if_neg (by omega)]
      simp only [e]
      refine ⟨hf, ?_⟩
      have hat : ∀ i l, At { s with now := s.iter, changing := false, pc := .postEmit } i l ↔
          At s i l := by
        intro i l; cases l <;> simp only [At, hpc, PC.immRest, PC.dueRest, PC.running]
      have b2 := h.imms
      have b3 := h.dues
      have b4 := h.cur
      rw [hpc] at b2 b3 b4
      constructor <;> (try simp only [hat, PC.live, PC.early, PC.immRest, PC.dueRest, PC.running,
        PC.immRun, PC.dueRun] at *)
      · exact h.tsorted
      · exact h.ssorted
      · exact h.isorted
      · exact IdSet.sorted_nil
      · exact IdSet.sorted_nil
      · exact h.exist
      · exact h.slots
      · exact b2
      · exact b3
      · exact h.uniq
      · exact h.cover
      · exact hlk
      · exact fun _ => hlk
      · exact fun _ => ⟨hit, l, hl⟩
      · grind
      · grind
      · exact h.pos
      · exact h.ids
      · exact h.last
      · exact b4
  | postEmit =>
    left
    exact ⟨hf, h.movePC (.immTest .slot) (by simp [hpc, PC.dueRest, Ret.dueRest])
      (by simp [hpc, PC.immRest]) (by simp [hpc, PC.immRun]) (by simp [hpc, PC.dueRun])
      (by simp [hpc, PC.live, Ret.live]) (by simp [hpc, PC.early]) (by simp [hpc, PC.running])⟩
  | slotTest =>
    left
    have hlive : s.pc.live := by simp [hpc, PC.live]
    obtain ⟨hit, l, hl⟩ := h.liveIt hlive
    simp only [hit, Bool.not_true, Bool.false_eq_true, ↓reduceIte]
    split
    · rename_i hemp
      have h0 := h.eraseSlot hpc hemp
      have hlk := h.liveKeys hlive
      split
      · rename_i hn
        exact ⟨hf, h0.congr (fun _ => rfl) rfl rfl rfl rfl rfl rfl rfl rfl (by simp [hit])⟩
      · rename_i k hk
        obtain ⟨hlt, l', hl'⟩ := OMap.nextKey_find h.tsorted hk
        have h1 := h0.enterSlot (k := k) (l := l') rfl rfl rfl
          (by simp only [OMap.find_erase]; rw [if_neg (by omega)]; exact hl')
          (by
            intro j lj hj
            simp only [OMap.find_erase] at hj
            split at hj
            · simp at hj
            · have := hlk j lj hj
              exact OMap.nextKey_le h.tsorted hk hj (by omega))
        exact ⟨hf, h1⟩
    · have := h.swapSlot hpc
      exact ⟨hf, this.congr (fun _ => rfl) rfl rfl rfl rfl rfl rfl rfl rfl (by simp [hit])⟩
  | slotFor rest =>
    cases rest with
    | nil =>
      left
      exact ⟨hf, h.movePC .slotTest (by simp [hpc, PC.dueRest])
        (by simp [hpc, PC.immRest]) (by simp [hpc, PC.immRun]) (by simp [hpc, PC.dueRun])
        (by simp [hpc, PC.live]) (by simp [hpc, PC.early]) (by simp [hpc, PC.running])⟩
    | cons id rest => exact h.startExec hf (Or.inr ⟨rest, hpc, rfl⟩)
  | cb id f =>
    have hc := h.cur
    simp only [hpc, PC.running, Option.getD_some] at hc
    have hcb : Inv { { s with current := -1 } with pc := .cb id f, current := id } :=
      h.congr (fun _ => rfl) rfl rfl rfl hc.symm rfl rfl hpc.symm rfl rfl
    have h2 := Inv.finish (s := { s with current := -1 }) hcb rfl hf
    simp only [hpc] at h2 ⊢
    exact h2

end Verif.Sched
