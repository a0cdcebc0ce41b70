import Verif.Sched.Inv

/-
The calls that keep the scheduler invariant, and the proof that they do.
-/
namespace Verif.Sched

/-- Event `id` waits in the time table, outside the slot being processed. -/
def Parked (s : State) (id : Int) (e : Event) : Prop :=
  id ∈ slotOf s.table e.next ∧ (s.pc.live → e.next ≠ s.iter)

/-- A simulation time that may be posted now: while PreSimTimeChange is being
emitted or the loop waits, it must not be before the announced time. -/
def PostOk (s : State) (t : Int) : Prop := s.pc.early → s.iter ≤ t

/-- Calls that do not trigger one of the defects of the scheduler (each excluded
case is shown to be a real defect in `Sched/Defects.lean`):
* while a time change is announced, no event is posted before that time;
* only events waiting in the time table outside the slot being processed are
  moved or removed (the running event can be removed too);
* a cycle time of an endless event is not set to a non-positive value;
* the repeat count of a pending immediate event is not changed;
* a Zulu event is removed only if no time-table key equals its Zulu time. -/
def Op.ok (s : State) : Op → Prop
  | .addTimed k _ x _ _ => ∀ t, target s k x = some t → PostOk s t
  | .setTimed k id x => ∀ t e, target s k x = some t → s.events.find id = some e →
      e.kind = k.kind → Parked s id e ∧ (s.now ≤ t → PostOk s t)
  | .setCycle id c => ∀ e, s.events.find id = some e → e.rep < 0 → 0 < c
  | .setRepeat id r => r ≠ 0 → id ∉ s.imm ∧ id ∉ s.pc.immRest ∧ s.pc.immRun ≠ some id
  | .remove id => ∀ e, s.events.find id = some e → s.current = id ∨
      (e.kind ≠ .zulu ∧ Parked s id e) ∨ (e.kind = .zulu ∧ s.table.find e.next = none)
  | _ => True

theorem PC.live_of_early {p : PC} (h : p.early) : p.live := by
  cases p <;> simp_all [PC.early, PC.live]

theorem PC.immRun_running {p : PC} {id : Int} (h : p.immRun = some id) : p.running = some id := by
  unfold PC.immRun at h; split at h
  · simpa [PC.running] using h
  · simp at h

theorem PC.dueRun_running {p : PC} {id : Int} (h : p.dueRun = some id) : p.running = some id := by
  unfold PC.dueRun at h; split at h
  · simpa [PC.running] using h
  · simp at h

theorem PC.running_cases {p : PC} {id : Int} (h : p.running = some id) :
    p.immRun = some id ∨ p.dueRun = some id := by
  unfold PC.running at h; split at h
  · rename_i i f
    cases f
    · left; simpa [PC.immRun] using h
    · right; simpa [PC.dueRun] using h
  · simp at h

theorem Inv.inRange {s : State} (h : Inv s) {id : Int} {e : Event}
    (he : s.events.find id = some e) : IdSet.InRange id := by
  have := h.ids id e he; have := h.last; unfold IdSet.InRange; unfold maxI64 at *; omega

theorem Inv.at_inRange {s : State} (h : Inv s) {id : Int} {l : Loc} (ha : At s id l) :
    IdSet.InRange id := by
  have := h.exist id l ha
  obtain ⟨e, he⟩ := Option.isSome_iff_exists.1 this
  exact h.inRange he

theorem Inv.fresh {s : State} (h : Inv s) : s.events.find (s.lastId + 1) = none := by
  cases hf : s.events.find (s.lastId + 1) with
  | none => rfl
  | some e => have := h.ids _ e hf; have := h.last; omega

theorem Inv.not_at_fresh {s : State} (h : Inv s) {l : Loc} : ¬ At s (s.lastId + 1) l := by
  intro ha
  have := h.exist _ _ ha
  rw [h.fresh] at this; simp at this

theorem Inv.addImmediate {s : State} (h : Inv s) (ep : Nat)
    (hf : (addImmediate s ep).1.fault = none) : Inv (addImmediate s ep).1 := by
  unfold Sched.addImmediate at hf ⊢
  cases hc : chk (s.lastId + 1) with
  | none => simp [hc, State.fail] at hf
  | some n =>
    obtain ⟨rfl, _, hmax⟩ := chk_some hc
    clear hf
    simp only
    have hfresh := h.fresh
    have n1 := h.not_at_fresh (l := .slot)
    have n2 := h.not_at_fresh (l := .imm)
    have n3 := h.not_at_fresh (l := .immRest)
    have n4 := h.not_at_fresh (l := .dueRest)
    have n5 := h.not_at_fresh (l := .running)
    simp only [At, not_exists] at n1 n2 n3 n4 n5
    have hl := h.last
    have a1 := h.slots
    have a2 := h.imms
    have a3 := h.dues
    have a4 := h.pos
    have a5 := h.ids
    have a6 := h.uniq
    have a7 := h.cover
    have a8 := h.exist
    constructor <;> (try dsimp only)
    · exact h.tsorted
    · exact h.ssorted
    · exact h.isorted.insert (by unfold IdSet.InRange; unfold maxI64 at *; omega)
        (fun j hj => h.at_inRange (l := .imm) hj)
    · exact h.irsorted
    · exact h.drsorted
    · intro id l
      have := a8 id l
      cases l <;> simp only [At] at * <;> grind [IdSet.mem_insert, OMap.find_insert]
    · grind [OMap.find_insert]
    · grind [OMap.find_insert, IdSet.mem_insert, PC.immRun_running]
    · grind [OMap.find_insert, PC.dueRun_running]
    · intro id l₁ l₂
      have := a6 id l₁ l₂
      cases l₁ <;> cases l₂ <;> simp only [At] at * <;> grind [IdSet.mem_insert]
    · intro id e h1 h2
      by_cases hx : id = s.lastId + 1
      · exact ⟨.imm, by simp [At, IdSet.mem_insert]; grind⟩
      · rw [OMap.find_insert_ne hx] at h1
        obtain ⟨l, hl⟩ := a7 id e h1 h2
        exact ⟨l, by cases l <;> simp only [At] at * <;> grind [IdSet.mem_insert]⟩
    · exact h.nowKeys
    · exact h.liveKeys
    · exact h.liveIt
    · exact h.early
    · exact h.late
    · grind [OMap.find_insert]
    · grind [OMap.find_insert]
    · grind
    · exact h.cur

theorem Inv.addEvent {s : State} (h : Inv s) (ep : Nat) (t tm c r : Int) (k : TimeKind)
    (hk : k ≠ .zulu) (hp : PostOk s t)
    (hf : (addEvent s ep t tm c r k).1.fault = none) : Inv (addEvent s ep t tm c r k).1 := by
  unfold Sched.addEvent at hf ⊢
  by_cases h1 : t < s.now
  · simpa [h1] using h
  by_cases h2 : r ≠ 0 ∧ c ≤ 0
  · simpa [h1, h2] using h
  rw [if_neg h1, if_neg h2] at hf ⊢
  cases hc : chk (s.lastId + 1) with
  | none => simp [hc, State.fail] at hf
  | some n =>
    obtain ⟨rfl, _, hmax⟩ := chk_some hc
    clear hf
    simp only
    have hfresh := h.fresh
    have n1 := h.not_at_fresh (l := .slot)
    have n2 := h.not_at_fresh (l := .imm)
    have n3 := h.not_at_fresh (l := .immRest)
    have n4 := h.not_at_fresh (l := .dueRest)
    have n5 := h.not_at_fresh (l := .running)
    simp only [At, not_exists] at n1 n2 n3 n4 n5
    have hl := h.last
    have a1 := h.slots
    have a2 := h.imms
    have a3 := h.dues
    have a4 := h.pos
    have a5 := h.ids
    have a6 := h.uniq
    have a7 := h.cover
    have a8 := h.exist
    have b1 := h.nowKeys
    have b2 := h.liveKeys
    have b3 := h.liveIt
    have b4 := h.late
    unfold PostOk at hp
    constructor <;> (try dsimp only)
    · exact h.tsorted.insert
    · intro j
      unfold post; rw [slotOf_insert]
      split
      · exact (h.ssorted t).insert (by unfold IdSet.InRange; unfold maxI64 at *; omega)
          (fun j hj => h.at_inRange (l := .slot) ⟨_, hj⟩)
      · exact h.ssorted j
    · exact h.isorted
    · exact h.irsorted
    · exact h.drsorted
    · intro id l
      have := a8 id l
      cases l <;> simp only [At] at * <;> grind [mem_slotOf_post, OMap.find_insert]
    · grind [OMap.find_insert, mem_slotOf_post]
    · grind [OMap.find_insert, PC.immRun_running]
    · grind [OMap.find_insert, PC.dueRun_running]
    · intro id l₁ l₂
      have := a6 id l₁ l₂
      cases l₁ <;> cases l₂ <;> simp only [At] at * <;> grind [mem_slotOf_post]
    · intro id e h1 h2
      by_cases hx : id = s.lastId + 1
      · exact ⟨.slot, by simp [At, mem_slotOf_post]; grind⟩
      · rw [OMap.find_insert_ne hx] at h1
        obtain ⟨l, hl⟩ := a7 id e h1 h2
        cases l with
        | slot => obtain ⟨k, hk⟩ := hl; exact ⟨.slot, k, mem_slotOf_post.2 (Or.inr hk)⟩
        | imm => exact ⟨.imm, hl⟩
        | immRest => exact ⟨.immRest, hl⟩
        | dueRest => exact ⟨.dueRest, hl⟩
        | running => exact ⟨.running, hl⟩
    · grind [find_post]
    · grind [find_post]
    · grind [find_post]
    · exact h.early
    · exact h.late
    · grind [OMap.find_insert]
    · grind [OMap.find_insert]
    · grind
    · exact h.cur

theorem SimKind.kind_ne_zulu (k : SimKind) : k.kind ≠ .zulu := by cases k <;> simp [SimKind.kind]

theorem Inv.addTimed {s : State} (h : Inv s) (k : SimKind) (ep : Nat) (x c r : Int)
    (hok : (Op.addTimed k ep x c r).ok s)
    (hf : (addTimed s k ep x c r).1.fault = none) : Inv (addTimed s k ep x c r).1 := by
  unfold Sched.addTimed at hf ⊢
  cases ht : target s k x with
  | none => simp [ht, State.fail] at hf
  | some t =>
    simp only [ht] at hf ⊢
    exact h.addEvent ep t _ c r k.kind k.kind_ne_zulu (hok t ht) hf

theorem Inv.addZulu {s : State} (h : Inv s) (ep : Nat) (z c r zn : Int)
    (hf : (addZulu s ep z c r zn).1.fault = none) : Inv (addZulu s ep z c r zn).1 := by
  unfold Sched.addZulu at hf ⊢
  by_cases h1 : z < zn
  · simpa [h1] using h
  by_cases h2 : r ≠ 0 ∧ c ≤ 0
  · simpa [h1, h2] using h
  rw [if_neg h1, if_neg h2] at hf ⊢
  cases hc : chk (s.lastId + 1) with
  | none => simp [hc, State.fail] at hf
  | some n =>
    obtain ⟨rfl, _, hmax⟩ := chk_some hc
    clear hf
    simp only
    have hfresh := h.fresh
    have n1 := h.not_at_fresh (l := .slot)
    have n2 := h.not_at_fresh (l := .imm)
    have n3 := h.not_at_fresh (l := .immRest)
    have n4 := h.not_at_fresh (l := .dueRest)
    have n5 := h.not_at_fresh (l := .running)
    simp only [At, not_exists] at n1 n2 n3 n4 n5
    have hl := h.last
    have a1 := h.slots
    have a2 := h.imms
    have a3 := h.dues
    have a4 := h.pos
    have a5 := h.ids
    have a6 := h.uniq
    have a7 := h.cover
    have a8 := h.exist
    constructor <;> (try dsimp only)
    · exact h.tsorted
    · exact h.ssorted
    · exact h.isorted
    · exact h.irsorted
    · exact h.drsorted
    · intro id l
      have := a8 id l
      cases l <;> simp only [At] at * <;> grind [OMap.find_insert]
    · grind [OMap.find_insert]
    · grind [OMap.find_insert, PC.immRun_running]
    · grind [OMap.find_insert, PC.dueRun_running]
    · exact h.uniq
    · intro id e h1 h2
      by_cases hx : id = s.lastId + 1
      · grind [OMap.find_insert]
      · rw [OMap.find_insert_ne hx] at h1
        exact a7 id e h1 h2
    · exact h.nowKeys
    · exact h.liveKeys
    · exact h.liveIt
    · exact h.early
    · exact h.late
    · grind [OMap.find_insert]
    · grind [OMap.find_insert]
    · grind
    · exact h.cur

/-- Updating fields of an event that no place depends on. -/
theorem Inv.updateEvent {s : State} (h : Inv s) {id : Int} {e e' : Event} (z : OMap (List Int))
    (he : s.events.find id = some e)
    (h1 : e'.kind = e.kind)
    (h2 : e.kind ≠ .zulu → e'.next = e.next)
    (h3 : e'.rep ≠ 0 → 0 < e'.cycle)
    (h4 : e'.rep ≠ 0 → id ∉ s.imm ∧ id ∉ s.pc.immRest ∧ s.pc.immRun ≠ some id) :
    Inv { s with events := s.events.insert id e', zulu := z } := by
  have a1 := h.slots
  have a2 := h.imms
  have a3 := h.dues
  have a4 := h.pos
  have a5 := h.ids
  have a8 := h.exist
  constructor <;> (try dsimp only)
  · exact h.tsorted
  · exact h.ssorted
  · exact h.isorted
  · exact h.irsorted
  · exact h.drsorted
  · intro i l
    have := a8 i l
    cases l <;> simp only [At] at * <;> grind [OMap.find_insert]
  · grind [OMap.find_insert]
  · grind [OMap.find_insert]
  · grind [OMap.find_insert]
  · exact h.uniq
  · intro i x h1 h2
    by_cases hx : i = id
    · subst hx
      rw [OMap.find_insert_self] at h1
      exact h.cover i e he (by grind)
    · rw [OMap.find_insert_ne hx] at h1
      exact h.cover i x h1 h2
  · exact h.nowKeys
  · exact h.liveKeys
  · exact h.liveIt
  · exact h.early
  · exact h.late
  · grind [OMap.find_insert]
  · grind [OMap.find_insert]
  · exact h.last
  · exact h.cur

theorem Inv.setCycle {s : State} (h : Inv s) (id c : Int) (hok : (Op.setCycle id c).ok s) :
    Inv (setCycle s id c).1 := by
  unfold Sched.setCycle
  cases he : s.events.find id with
  | none => exact h
  | some e =>
    simp only
    split
    · exact h
    · have := hok e he
      have := h.imms id e
      refine h.updateEvent s.zulu he rfl (fun _ => rfl) ?_ ?_ <;> simp only <;> grind

theorem Inv.setRepeat {s : State} (h : Inv s) (id r : Int) (hok : (Op.setRepeat id r).ok s) :
    Inv (setRepeat s id r).1 := by
  unfold Sched.setRepeat
  cases he : s.events.find id with
  | none => exact h
  | some e =>
    simp only
    split
    · exact h
    · refine h.updateEvent s.zulu he rfl (fun _ => rfl) ?_ hok <;> simp only <;> grind

/-- Erasing a Zulu event. -/
theorem Inv.eraseZulu {s : State} (h : Inv s) {id : Int} {e : Event} (z : OMap (List Int))
    (he : s.events.find id = some e) (hz : e.kind = .zulu) :
    Inv { s with events := s.events.erase id, zulu := z } := by
  have a1 := h.slots
  have a2 := h.imms
  have a3 := h.dues
  have a4 := h.pos
  have a5 := h.ids
  have a8 := h.exist
  have noAt : ∀ l, ¬ At s id l := by
    intro l hl
    cases l with
    | slot => obtain ⟨k, hk⟩ := hl; exact (a1 k id e hk he).2 hz
    | imm => have := a2 id e (Or.inl hl) he; simp_all
    | immRest => have := a2 id e (Or.inr (Or.inl hl)) he; simp_all
    | dueRest => exact (a3 id e (Or.inl hl) he).2 hz
    | running =>
      rcases PC.running_cases hl with hr | hr
      · have := a2 id e (Or.inr (Or.inr hr)) he; simp_all
      · exact (a3 id e (Or.inr hr) he).2 hz
  constructor <;> (try dsimp only)
  · exact h.tsorted
  · exact h.ssorted
  · exact h.isorted
  · exact h.irsorted
  · exact h.drsorted
  · intro i l hl
    have hi : i ≠ id := fun hi => noAt l (by subst hi; cases l <;> exact hl)
    rw [OMap.find_erase_ne hi]
    exact a8 i l (by cases l <;> exact hl)
  · grind [OMap.find_erase]
  · grind [OMap.find_erase]
  · grind [OMap.find_erase]
  · exact h.uniq
  · intro i x h1 h2
    by_cases hx : i = id
    · subst hx; simp at h1
    · rw [OMap.find_erase_ne hx] at h1
      exact h.cover i x h1 h2
  · exact h.nowKeys
  · exact h.liveKeys
  · exact h.liveIt
  · exact h.early
  · exact h.late
  · grind [OMap.find_erase]
  · grind [OMap.find_erase]
  · exact h.last
  · exact h.cur

theorem Inv.setZulu {s : State} (h : Inv s) (id z zn : Int) : Inv (setZulu s id z zn).1 := by
  unfold Sched.setZulu
  cases he : s.events.find id with
  | none => exact h
  | some e =>
    simp only
    split
    · exact h
    · rename_i hk
      have hk' : e.kind = .zulu := by grind
      split
      · exact h.eraseZulu _ he hk'
      · have a2 := h.imms id e
        have a4 := h.pos id e he
        refine h.updateEvent _ he rfl (fun h => absurd hk' h) a4 ?_
        grind

theorem unpost_fields (s : State) (k id : Int) :
    (s.unpost k id).events = s.events ∧ (s.unpost k id).zulu = s.zulu ∧
    (s.unpost k id).imm = s.imm ∧ (s.unpost k id).lastId = s.lastId ∧
    (s.unpost k id).current = s.current ∧ (s.unpost k id).hold = s.hold ∧
    (s.unpost k id).now = s.now ∧ (s.unpost k id).epochStart = s.epochStart ∧
    (s.unpost k id).missionStart = s.missionStart ∧ (s.unpost k id).changing = s.changing ∧
    (s.unpost k id).pc = s.pc ∧ (s.unpost k id).iter = s.iter ∧
    (s.unpost k id).fault = s.fault ∧ (s.unpost k id).log = s.log := by
  unfold State.unpost State.eraseKey
  simp only
  split <;> simp

theorem unpost_itOk (s : State) (k id : Int) (h : k ≠ s.iter) :
    (s.unpost k id).itOk = s.itOk := by
  unfold State.unpost State.eraseKey
  simp only
  split <;> simp [h]

theorem unpost_find (s : State) (k id j : Int) :
    (s.unpost k id).table.find j =
      if j = k then (if IdSet.erase id (slotOf s.table k) = [] then none
        else some (IdSet.erase id (slotOf s.table k)))
      else s.table.find j := by
  unfold State.unpost State.eraseKey
  simp only
  split <;> rename_i h
  · simp only [OMap.find_erase]
  · simp only [OMap.find_insert]

theorem unpost_sorted {s : State} (k id : Int) (h : s.table.Sorted) :
    (s.unpost k id).table.Sorted := by
  unfold State.unpost State.eraseKey
  simp only
  split
  · exact h.erase
  · exact h.insert

theorem unpost_slot (s : State) (k id j : Int) :
    slotOf (s.unpost k id).table j =
      if j = k then IdSet.erase id (slotOf s.table k) else slotOf s.table j := by
  have := unpost_find s k id j
  unfold slotOf at *
  rw [this]
  split
  · split
    · simp_all
    · simp
  · rfl

/-- The invariant only depends on lookups in `events`. -/
theorem Inv.congr {s t : State} (h : Inv s) (he : ∀ i, t.events.find i = s.events.find i)
    (h1 : t.table = s.table) (h2 : t.imm = s.imm) (h3 : t.lastId = s.lastId)
    (h4 : t.current = s.current) (h5 : t.now = s.now) (h6 : t.changing = s.changing)
    (h7 : t.pc = s.pc) (h8 : t.iter = s.iter) (h9 : t.itOk = s.itOk) : Inv t := by
  have hat : ∀ id l, At t id l ↔ At s id l := by
    intro id l; cases l <;> simp only [At, h1, h2, h7]
  constructor <;> simp only [h1, h2, h3, h4, h5, h6, h7, h8, h9, he, hat]
  · exact h.tsorted
  · exact h.ssorted
  · exact h.isorted
  · exact h.irsorted
  · exact h.drsorted
  · exact h.exist
  · exact h.slots
  · exact h.imms
  · exact h.dues
  · exact h.uniq
  · exact h.cover
  · exact h.nowKeys
  · exact h.liveKeys
  · exact h.liveIt
  · exact h.early
  · exact h.late
  · exact h.pos
  · exact h.ids
  · exact h.last
  · exact h.cur

/-- Removing an event waiting in the table, outside the current slot. -/
theorem Inv.removeParked {s : State} (h : Inv s) {id : Int} {e : Event}
    (he : s.events.find id = some e) (hp : Parked s id e) :
    Inv { s.unpost e.next id with events := (s.unpost e.next id).events.erase id } := by
  obtain ⟨f1, f2, f3, f4, f5, f6, f7, f8, f9, f10, f11, f12, f13, f14⟩ := unpost_fields s e.next id
  have u1 := unpost_table s e.next id
  have u2 := unpost_find s e.next id
  obtain ⟨p1, p2⟩ := hp
  have a1 := h.slots
  have a2 := h.imms
  have a3 := h.dues
  have a4 := h.pos
  have a5 := h.ids
  have a6 := h.uniq
  have a8 := h.exist
  have noAt : ∀ l, At s id l → l = .slot := fun l hl => a6 id l .slot hl ⟨_, p1⟩
  have m2 : ¬ id ∈ s.imm := fun hh => by simpa using noAt .imm hh
  have m3 : ¬ id ∈ s.pc.immRest := fun hh => by simpa using noAt .immRest hh
  have m4 : ¬ id ∈ s.pc.dueRest := fun hh => by simpa using noAt .dueRest hh
  have m5 : ¬ s.pc.running = some id := fun hh => by simpa using noAt .running hh
  have m1 : ∀ j, id ∈ slotOf s.table j → j = e.next := fun j hj => (a1 j id e hj he).1.symm
  have back : ∀ i l (t : State), At t i l → t.table = (s.unpost e.next id).table →
      t.imm = s.imm → t.pc = s.pc → At s i l ∧ i ≠ id := by
    intro i l t hl t1 t2 t3
    cases l <;> simp only [At, t1, t2, t3] at * <;> grind
  constructor <;> simp only [f1, f3, f4, f5, f7, f10, f11, f12]
  · exact unpost_sorted _ _ h.tsorted
  · intro j
    rw [unpost_slot]
    split
    · exact (h.ssorted _).erase
    · exact h.ssorted j
  · exact h.isorted
  · exact h.irsorted
  · exact h.drsorted
  · intro i l hl
    obtain ⟨b1, b2⟩ := back i l _ hl rfl rfl rfl
    rw [OMap.find_erase_ne b2]; exact a8 i l b1
  · grind [OMap.find_erase]
  · grind [OMap.find_erase]
  · grind [OMap.find_erase]
  · intro i l₁ l₂ h1 h2
    exact a6 i l₁ l₂ (back i l₁ _ h1 rfl rfl rfl).1 (back i l₂ _ h2 rfl rfl rfl).1
  · intro i x h1 h2
    by_cases hx : i = id
    · subst hx; simp at h1
    · rw [OMap.find_erase_ne hx] at h1
      obtain ⟨l, hl⟩ := h.cover i x h1 h2
      refine ⟨l, ?_⟩
      cases l with
      | slot => obtain ⟨k, hk⟩ := hl; exact ⟨k, (u1 k i).2 ⟨hk, fun h => hx h.2⟩⟩
      | imm => simpa only [At, f3] using hl
      | immRest => simpa only [At, f11] using hl
      | dueRest => simpa only [At, f11] using hl
      | running => simpa only [At, f11] using hl
  · intro k l hk
    rw [u2] at hk
    obtain ⟨l', hl', _⟩ := mem_slotOf p1
    have := h.nowKeys k
    have := h.nowKeys _ _ hl'
    grind
  · intro hlive k l hk
    rw [u2] at hk
    obtain ⟨l', hl', _⟩ := mem_slotOf p1
    have := h.liveKeys hlive k
    have := h.liveKeys hlive _ _ hl'
    grind
  · intro hlive
    have hne := p2 hlive
    rw [unpost_itOk _ _ _ hne, u2, if_neg (fun h => hne h.symm)]
    exact h.liveIt hlive
  · exact h.early
  · exact h.late
  · grind [OMap.find_erase]
  · grind [OMap.find_erase]
  · exact h.last
  · exact h.cur

/-- Posting an event whose identifier is free. -/
theorem Inv.postFree {s : State} (h : Inv s) {id t : Int} {e : Event}
    (hfree : s.events.find id = none) (hid : id = -2 ∨ (0 ≤ id ∧ id ≤ s.lastId))
    (hn : e.next = t) (hk : e.kind ≠ .zulu) (ht : s.now ≤ t) (hp : PostOk s t)
    (hpos : e.rep ≠ 0 → 0 < e.cycle) :
    Inv { s with events := s.events.insert id e, table := post s.table t id } := by
  have nat : ∀ l, ¬ At s id l := by
    intro l hl; have := h.exist id l hl; rw [hfree] at this; simp at this
  have n1 := nat .slot
  have n2 := nat .imm
  have n3 := nat .immRest
  have n4 := nat .dueRest
  have n5 := nat .running
  simp only [At, not_exists] at n1 n2 n3 n4 n5
  have hl := h.last
  have a1 := h.slots
  have a2 := h.imms
  have a3 := h.dues
  have a4 := h.pos
  have a5 := h.ids
  have a6 := h.uniq
  have a7 := h.cover
  have a8 := h.exist
  have b1 := h.nowKeys
  have b2 := h.liveKeys
  have b3 := h.liveIt
  have b4 := h.late
  unfold PostOk at hp
  constructor <;> (try dsimp only)
  · exact h.tsorted.insert
  · intro j
    unfold post; rw [slotOf_insert]
    split
    · exact (h.ssorted t).insert (by unfold IdSet.InRange; unfold maxI64 at *; omega)
        (fun j hj => h.at_inRange (l := .slot) ⟨_, hj⟩)
    · exact h.ssorted j
  · exact h.isorted
  · exact h.irsorted
  · exact h.drsorted
  · intro id l
    have := a8 id l
    cases l <;> simp only [At] at * <;> grind [mem_slotOf_post, OMap.find_insert]
  · grind [OMap.find_insert, mem_slotOf_post]
  · grind [OMap.find_insert, PC.immRun_running]
  · grind [OMap.find_insert, PC.dueRun_running]
  · intro id l₁ l₂
    have := a6 id l₁ l₂
    cases l₁ <;> cases l₂ <;> simp only [At] at * <;> grind [mem_slotOf_post]
  · intro i x h1 h2
    by_cases hx : i = id
    · exact ⟨.slot, t, mem_slotOf_post.2 (Or.inl ⟨rfl, hx⟩)⟩
    · rw [OMap.find_insert_ne hx] at h1
      obtain ⟨l, hl⟩ := a7 i x h1 h2
      cases l with
      | slot => obtain ⟨k, hk⟩ := hl; exact ⟨.slot, k, mem_slotOf_post.2 (Or.inr hk)⟩
      | imm => exact ⟨.imm, hl⟩
      | immRest => exact ⟨.immRest, hl⟩
      | dueRest => exact ⟨.dueRest, hl⟩
      | running => exact ⟨.running, hl⟩
  · grind [find_post]
  · grind [find_post]
  · grind [find_post]
  · exact h.early
  · exact h.late
  · grind [OMap.find_insert]
  · grind [OMap.find_insert]
  · grind
  · exact h.cur

theorem Inv.setEventTime {s : State} (h : Inv s) (id t tm : Int) (k : TimeKind) (hk : k ≠ .zulu)
    (hok : ∀ e, s.events.find id = some e → e.kind = k →
      Parked s id e ∧ (s.now ≤ t → PostOk s t)) :
    Inv (setEventTime s id t tm k).1 := by
  unfold Sched.setEventTime
  cases he : s.events.find id with
  | none => exact h
  | some e =>
    simp only
    split
    · exact h
    · rename_i hkk
      have hkk' : e.kind = k := by simpa using hkk
      obtain ⟨hp, ht⟩ := hok e he hkk'
      have h1 := h.removeParked he hp
      obtain ⟨f1, f2, f3, f4, f5, f6, f7, f8, f9, f10, f11, f12, f13, f14⟩ :=
        unpost_fields s e.next id
      split
      · exact h1
      · rename_i hnow
        have hnow' : s.now ≤ t := by omega
        have h2 := h1.postFree (id := id) (t := t) (e := { e with next := t, time := tm })
          (by simp) (by simp only [f4]; exact h.ids id e he) rfl (by simp only; grind)
          (by simp only [f7]; exact hnow') (by unfold PostOk at *; simp only [f11, f12]; exact ht hnow')
          (h.pos id e he)
        refine h2.congr ?_ rfl rfl rfl rfl rfl rfl rfl rfl rfl
        intro i
        simp only [OMap.find_insert, OMap.find_erase]
        split <;> simp_all

theorem Inv.setTimed {s : State} (h : Inv s) (k : SimKind) (id x : Int)
    (hok : (Op.setTimed k id x).ok s)
    (hf : (setTimed s k id x).1.fault = none) : Inv (setTimed s k id x).1 := by
  unfold Sched.setTimed at hf ⊢
  cases ht : target s k x with
  | none => simp [ht, State.fail] at hf
  | some t =>
    simp only
    exact h.setEventTime id t _ k.kind k.kind_ne_zulu (fun e he hk => hok t e ht he hk)

theorem Inv.remove {s : State} (h : Inv s) (id : Int) (hok : (Op.remove id).ok s) :
    Inv (remove s id).1 := by
  unfold Sched.remove
  cases he : s.events.find id with
  | none => exact h
  | some e =>
    simp only
    split
    · exact h.updateEvent s.zulu he rfl (fun _ => rfl) (by simp) (by simp)
    · rename_i hcur
      split
      · rename_i hz
        have hnone : s.table.find e.next = none := by
          rcases hok e he with h1 | h1 | h1
          · exact absurd h1 hcur
          · exact absurd hz h1.1
          · exact h1.2
        have hz' := h.eraseZulu
          (s.zulu.insert e.next (IdSet.erase id (slotOf s.zulu e.next))) he hz
        have htab : s.table.erase e.next = s.table := by
          apply OMap.ext_of_sorted h.tsorted.erase h.tsorted
          intro j; rw [OMap.find_erase]; split
          · subst_vars; exact hnone.symm
          · rfl
        split
        · simp only [State.eraseKey, htab]
          by_cases hl : s.pc.live = true
          · have hne : e.next ≠ s.iter := by
              intro heq
              obtain ⟨_, l, hl'⟩ := h.liveIt hl
              rw [← heq, hnone] at hl'; simp at hl'
            refine hz'.congr (fun _ => rfl) rfl rfl rfl rfl rfl rfl rfl rfl ?_
            simp [hne]
          · constructor <;> (try simp only)
            · exact hz'.tsorted
            · exact hz'.ssorted
            · exact hz'.isorted
            · exact hz'.irsorted
            · exact hz'.drsorted
            · exact hz'.exist
            · exact hz'.slots
            · exact hz'.imms
            · exact hz'.dues
            · exact hz'.uniq
            · exact hz'.cover
            · exact hz'.nowKeys
            · exact hz'.liveKeys
            · intro hh; exact absurd hh hl
            · exact hz'.early
            · exact hz'.late
            · exact hz'.pos
            · exact hz'.ids
            · exact hz'.last
            · exact hz'.cur
        · exact hz'
      · rename_i hz
        have hp : Parked s id e := by
          rcases hok e he with h1 | h1 | h1
          · exact absurd h1 hcur
          · exact h1.2
          · exact absurd h1.1 hz
        exact h.removeParked he hp

theorem nextScheduled_le {s : State} (h : Inv s) {k : Int} {l : List Int}
    (hk : s.table.find k = some l) : s.nextScheduled ≤ k := by
  unfold State.nextScheduled
  cases hm : s.table.minKey with
  | none => rw [OMap.minKey_none hm] at hk; simp at hk
  | some j => exact OMap.minKey_le h.tsorted hm hk

theorem Inv.setSimTime {s : State} (h : Inv s) (t : Int) : Inv (setSimTime s t).1 := by
  unfold Sched.setSimTime
  split
  · exact h
  · rename_i hch
    split
    · exact h
    · rename_i hb
      have hb1 : s.now ≤ t ∧ t ≤ s.nextScheduled := by omega
      constructor <;> simp only
      · exact h.tsorted
      · exact h.ssorted
      · exact h.isorted
      · exact h.irsorted
      · exact h.drsorted
      · exact h.exist
      · exact h.slots
      · exact h.imms
      · exact h.dues
      · exact h.uniq
      · exact h.cover
      · intro k l hk; have := nextScheduled_le h hk; omega
      · exact h.liveKeys
      · exact h.liveIt
      · exact h.early
      · intro h1 h2
        have := (h.late h1 h2).2
        simp [this] at hch
      · exact h.pos
      · exact h.ids
      · exact h.last
      · exact h.cur

theorem Inv.apply {s : State} (h : Inv s) (o : Op) (hok : o.ok s)
    (hf : (apply s o).1.fault = none) : Inv (apply s o).1 := by
  cases o with
  | addImmediate ep => exact h.addImmediate ep hf
  | addTimed k ep x c r => exact h.addTimed k ep x c r hok hf
  | addZulu ep z c r zn => exact h.addZulu ep z c r zn hf
  | setTimed k id x => exact h.setTimed k id x hok hf
  | setZulu id z zn => exact h.setZulu id z zn
  | setCycle id c => exact h.setCycle id c hok
  | setRepeat id r => exact h.setRepeat id r hok
  | remove id => exact h.remove id hok
  | hold => exact h.congr (fun _ => rfl) rfl rfl rfl rfl rfl rfl rfl rfl rfl
  | setSimTime t => exact h.setSimTime t
  | setEpochTime t =>
    simp only [Sched.apply, Sched.setEpochTime] at hf ⊢
    split
    · rename_i hh; simp [hh, State.fail] at hf
    · exact h.congr (fun _ => rfl) rfl rfl rfl rfl rfl rfl rfl rfl rfl
  | setMissionStart t => exact h.congr (fun _ => rfl) rfl rfl rfl rfl rfl rfl rfl rfl rfl
  | setMissionTime t =>
    simp only [Sched.apply, Sched.setMissionTime] at hf ⊢
    split
    · rename_i hh; simp [hh, State.fail] at hf
    · exact h.congr (fun _ => rfl) rfl rfl rfl rfl rfl rfl rfl rfl rfl

end Verif.Sched
