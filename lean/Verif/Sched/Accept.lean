import Verif.Sched.Props

/-
C74: the calls of the scheduler and time keeper are rejected exactly in the documented cases,
and an accepted call does what it says.
-/
namespace Verif.Sched

/-! ### Specification -/

/-- The result of a call, from the documentation of the exceptions in the SMP standard
(`IScheduler`, `ITimeKeeper`). An event of another time scale is not known to a call. The
exception for the cycle time of an event which repeats for ever is missing in the code, see
`C10_fails`. -/
def expected (s : State) : Op → Res
  | .addImmediate _ => .id (s.lastId + 1)
  | .addTimed k _ x c r =>
    if dueAt s k x < s.now then .exn .InvalidEventTime
    else if r ≠ 0 ∧ c ≤ 0 then .exn .InvalidCycleTime
    else .id (s.lastId + 1)
  | .addZulu _ z c r zn =>
    if z < zn then .exn .InvalidEventTime
    else if r ≠ 0 ∧ c ≤ 0 then .exn .InvalidCycleTime
    else .id (s.lastId + 1)
  | .setTimed k id _ =>
    if ∃ e, s.events.find id = some e ∧ e.kind = k.kind then .done else .exn .InvalidEventId
  | .setZulu id _ _ =>
    if ∃ e, s.events.find id = some e ∧ e.kind = .zulu then .done else .exn .InvalidEventId
  | .setCycle id c =>
    match s.events.find id with
    | none => .exn .InvalidEventId
    | some e => if 0 < e.rep ∧ c ≤ 0 then .exn .InvalidCycleTime else .done
  | .setRepeat id r =>
    match s.events.find id with
    | none => .exn .InvalidEventId
    | some e => if r ≠ 0 ∧ e.cycle ≤ 0 then .exn .InvalidCycleTime else .done
  | .remove id => if (s.events.find id).isSome then .done else .exn .InvalidEventId
  | .hold => .done
  | .setSimTime t =>
    if s.changing = true ∧ (t < s.now ∨ s.nextScheduled < t) then .exn .InvalidSimulationTime
    else .done
  | .setEpochTime _ => .done
  | .setMissionStart _ => .done
  | .setMissionTime _ => .done

/-- The values a call computes. -/
def computed (s : State) : Op → List Int
  | .addImmediate _ => [s.lastId + 1]
  | .addTimed .simulation _ x _ _ => [s.now + x, s.lastId + 1]
  | .addTimed .mission _ x _ _ =>
    [s.now + x, s.now - s.epochStart, s.now - s.epochStart - s.missionStart,
      dueAt s .mission x, s.lastId + 1]
  | .addTimed .epoch _ x _ _ =>
    [s.now + x, s.now - s.epochStart, dueAt s .epoch x, s.lastId + 1]
  | .addZulu _ _ _ _ _ => [s.lastId + 1]
  | .setTimed .simulation _ x => [s.now + x]
  | .setTimed .mission _ x =>
    [s.now + x, s.now - s.epochStart, s.now - s.epochStart - s.missionStart, dueAt s .mission x]
  | .setTimed .epoch _ x => [s.now + x, s.now - s.epochStart, dueAt s .epoch x]
  | .setEpochTime t => [s.now - t]
  | .setMissionTime t => [s.now - s.epochStart, s.now - s.epochStart - t]
  | _ => []

/-- 64-bit numbers. -/
def Fits (v : Int) : Prop := -2 ^ 63 ≤ v ∧ v < 2 ^ 63

/-! ### Proof -/

theorem chk_fits {v : Int} (h : Fits v) : chk v = some v := by
  unfold chk minI64 maxI64
  unfold Fits at h
  rw [if_pos (by omega)]

theorem target_fits {s : State} {k : SimKind} {x : Int} (h1 : Fits (s.now + x))
    (h2 : k ≠ .simulation → Fits (s.now - s.epochStart))
    (h3 : k = .mission → Fits (s.now - s.epochStart - s.missionStart))
    (h4 : Fits (dueAt s k x)) : target s k x = some (dueAt s k x) := by
  cases k with
  | simulation => simp only [target, simTarget, dueAt, chk_fits h1]
  | mission =>
    have h2 := h2 (by simp)
    have h3 := h3 rfl
    have e : s.now + x - (s.now - s.epochStart - s.missionStart) = dueAt s .mission x := by
      simp only [dueAt]; omega
    simp only [target, missionTarget, State.missionTime, chk_fits h1, chk_fits h2, chk_fits h3,
      Option.bind_some, e, chk_fits h4]
  | epoch =>
    have h2 := h2 (by simp)
    have e : s.now + x - (s.now - s.epochStart) = dueAt s .epoch x := by
      simp only [dueAt]; omega
    simp only [target, epochTarget, State.epochTime, chk_fits h1, chk_fits h2,
      Option.bind_some, e, chk_fits h4]

theorem addTimed_of {s : State} {k : SimKind} {ep : Nat} {x c r : Int}
    (h : target s k x = some (dueAt s k x)) (hl : Fits (s.lastId + 1)) :
    (apply s (.addTimed k ep x c r)).2 = expected s (.addTimed k ep x c r) := by
  simp only [apply, addTimed, h, addEvent, expected, chk_fits hl]
  repeat' split
  all_goals first | rfl | omega

theorem setTimed_of {s : State} {k : SimKind} {id x : Int}
    (h : target s k x = some (dueAt s k x)) :
    (apply s (.setTimed k id x)).2 = expected s (.setTimed k id x) := by
  simp only [apply, setTimed, h, setEventTime, expected]
  cases he : s.events.find id with
  | none => simp
  | some e =>
    by_cases hk : e.kind = k.kind
    · simp only [Option.some.injEq, ne_eq, hk, not_true_eq_false, if_false]
      have hex : ∃ e', some e = some e' ∧ e'.kind = k.kind := ⟨e, rfl, hk⟩
      rw [if_pos hex]
      split <;> rfl
    · simp [hk]

/-- C74: whenever every value a call computes is a 64-bit number, the call returns or raises
what the documentation says, in every state. -/
theorem C74_result (s : State) (o : Op) (h : ∀ v ∈ computed s o, Fits v) :
    (apply s o).2 = expected s o := by
  cases o with
  | addImmediate ep =>
    have := h (s.lastId + 1) (by simp [computed])
    simp only [apply, addImmediate, expected, chk_fits this]
  | addTimed k ep x c r =>
    cases k with
    | simulation =>
      exact addTimed_of (target_fits (h _ (by simp [computed])) (by simp) (by simp)
        (h _ (by simp [computed, dueAt]))) (h _ (by simp [computed]))
    | mission =>
      exact addTimed_of (target_fits (h _ (by simp [computed]))
        (fun _ => h _ (by simp [computed])) (fun _ => h _ (by simp [computed]))
        (h _ (by simp [computed]))) (h _ (by simp [computed]))
    | epoch =>
      exact addTimed_of (target_fits (h _ (by simp [computed]))
        (fun _ => h _ (by simp [computed])) (by simp)
        (h _ (by simp [computed]))) (h _ (by simp [computed]))
  | addZulu ep z c r zn =>
    have := h (s.lastId + 1) (by simp [computed])
    simp only [apply, addZulu, expected, chk_fits this]
    repeat' split
    all_goals first | rfl | omega
  | setTimed k id x =>
    cases k with
    | simulation =>
      exact setTimed_of (target_fits (h _ (by simp [computed])) (by simp) (by simp)
        (h _ (by simp [computed, dueAt])))
    | mission =>
      exact setTimed_of (target_fits (h _ (by simp [computed]))
        (fun _ => h _ (by simp [computed])) (fun _ => h _ (by simp [computed]))
        (h _ (by simp [computed])))
    | epoch =>
      exact setTimed_of (target_fits (h _ (by simp [computed]))
        (fun _ => h _ (by simp [computed])) (by simp)
        (h _ (by simp [computed])))
  | setZulu id z zn =>
    simp only [apply, setZulu, expected]
    cases he : s.events.find id with
    | none => simp
    | some e =>
      by_cases hk : e.kind = .zulu
      · simp only [Option.some.injEq, ne_eq, hk, not_true_eq_false, if_false]
        have hex : ∃ e', some e = some e' ∧ e'.kind = .zulu := ⟨e, rfl, hk⟩
        rw [if_pos hex]
        split <;> rfl
      · simp [hk]
  | setCycle id c =>
    simp only [apply, setCycle, expected]
    cases he : s.events.find id with
    | none => rfl
    | some e =>
      simp only [gt_iff_lt]
      split <;> rfl
  | setRepeat id r =>
    simp only [apply, setRepeat, expected]
    cases he : s.events.find id with
    | none => rfl
    | some e =>
      simp only
      split <;> rfl
  | remove id =>
    simp only [apply, remove, expected]
    cases he : s.events.find id with
    | none => simp
    | some e =>
      simp only [Option.isSome_some, if_true]
      repeat' split
      all_goals rfl
  | hold => rfl
  | setSimTime t =>
    simp only [apply, setSimTime, expected]
    cases hc : s.changing with
    | false => simp
    | true =>
      simp only [Bool.not_true, Bool.false_eq_true, if_false, true_and, gt_iff_lt]
      split <;> rfl
  | setEpochTime t =>
    have := h (s.now - t) (by simp [computed])
    simp only [apply, setEpochTime, expected, chk_fits this]
  | setMissionStart t => rfl
  | setMissionTime t =>
    have h1 := h (s.now - s.epochStart) (by simp [computed])
    have h2 := h (s.now - s.epochStart - t) (by simp [computed])
    simp only [apply, setMissionTime, expected, chk_fits h1, Option.bind_some, chk_fits h2]

/-- C74: an accepted event is registered with the entry point, due time, cycle and repeat count
of the call, and waits in the table for its due time. -/
theorem C74_added {s : State} {k : SimKind} {ep : Nat} {x c r n : Int}
    (h : ∀ v ∈ computed s (.addTimed k ep x c r), Fits v)
    (hr : (apply s (.addTimed k ep x c r)).2 = .id n) :
    let s' := (apply s (.addTimed k ep x c r)).1
    (∃ e, s'.events.find n = some e ∧ e.ep = ep ∧ e.next = dueAt s k x ∧ e.cycle = c ∧
      e.rep = r ∧ e.kind = k.kind) ∧
    n ∈ slotOf s'.table (dueAt s k x) ∧ s'.lastId = n ∧
    (∀ m, m ≠ n → s'.events.find m = s.events.find m) ∧
    (∀ m t, m ≠ n → (m ∈ slotOf s'.table t ↔ m ∈ slotOf s.table t)) := by
  have ht : target s k x = some (dueAt s k x) := by
    cases k with
    | simulation =>
      exact target_fits (h _ (by simp [computed])) (by simp) (by simp)
        (h _ (by simp [computed, dueAt]))
    | mission =>
      exact target_fits (h _ (by simp [computed]))
        (fun _ => h _ (by simp [computed])) (fun _ => h _ (by simp [computed]))
        (h _ (by simp [computed]))
    | epoch =>
      exact target_fits (h _ (by simp [computed]))
        (fun _ => h _ (by simp [computed])) (by simp)
        (h _ (by simp [computed]))
  have hl : Fits (s.lastId + 1) := by
    cases k <;> exact h _ (by simp [computed])
  have hacc : ¬ dueAt s k x < s.now ∧ ¬ (r ≠ 0 ∧ c ≤ 0) := by
    have := C74_result s _ h
    rw [hr] at this
    simp only [expected] at this
    constructor
    · intro hh; rw [if_pos hh] at this; simp at this
    · intro hh; rw [if_pos hh] at this; split at this <;> simp at this
  have hs : apply s (.addTimed k ep x c r) = ({ s with
          lastId := s.lastId + 1
          events := s.events.insert (s.lastId + 1)
            { ep := ep, next := dueAt s k x, time := stampOf k (dueAt s k x) x, cycle := c,
              rep := r, kind := k.kind }
          table := post s.table (dueAt s k x) (s.lastId + 1) }, .id (s.lastId + 1)) := by
    simp only [apply, addTimed, ht, addEvent]
    rw [if_neg hacc.1, if_neg hacc.2, chk_fits hl]
  rw [hs] at hr ⊢
  simp only [Res.id.injEq] at hr
  subst hr
  refine ⟨⟨_, OMap.find_insert_self _ _ _, rfl, rfl, rfl, rfl, rfl⟩, ?_, rfl, ?_, ?_⟩
  · exact mem_slotOf_post.2 (Or.inl ⟨rfl, rfl⟩)
  · intro m hm; exact OMap.find_insert_ne hm _ _
  · intro m t hm
    simp only
    rw [mem_slotOf_post]
    simp [hm]

/-- C74: an accepted `SetEventCycleTime` or `SetEventRepeat` changes that value of that event,
an accepted `RemoveEvent` of an event which is not running forgets it. -/
theorem C74_changed (s : State) (id v : Int) :
    (∀ e, (apply s (.setCycle id v)).2 = .done → s.events.find id = some e →
      (apply s (.setCycle id v)).1 = { s with events := s.events.insert id { e with cycle := v } }) ∧
    (∀ e, (apply s (.setRepeat id v)).2 = .done → s.events.find id = some e →
      (apply s (.setRepeat id v)).1 = { s with events := s.events.insert id { e with rep := v } }) ∧
    ((apply s (.remove id)).2 = .done → s.current ≠ id →
      (apply s (.remove id)).1.events.find id = none) := by
  refine ⟨?_, ?_, ?_⟩
  · intro e h he
    simp only [apply, setCycle, he] at h ⊢
    split at h
    · simp at h
    · rename_i hk; rw [if_neg hk]
  · intro e h he
    simp only [apply, setRepeat, he] at h ⊢
    split at h
    · simp at h
    · rename_i hk; rw [if_neg hk]
  · intro h hc
    simp only [apply, remove] at h ⊢
    cases he : s.events.find id with
    | none => rw [he] at h; simp at h
    | some e =>
      simp only [if_neg hc]
      split <;> exact OMap.find_erase_self _ _

example : (apply init (.addTimed .mission 3 0 0 0)).2 = .id 0 ∧
    (apply init (.addTimed .mission 3 (-1) 0 0)).2 = .exn .InvalidEventTime ∧
    (apply init (.addTimed .epoch 3 5 0 (-1))).2 = .exn .InvalidCycleTime ∧
    (apply init (.setRepeat (-2) 1)).2 = .exn .InvalidCycleTime := by decide
example : ∀ v ∈ computed init (.addTimed .mission 3 7 0 0), Fits v := by
  simp [computed, init, dueAt, Fits]

end Verif.Sched
