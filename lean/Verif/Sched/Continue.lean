import Verif.Sched.Persist

/-!
Property C95: a simulation continued from a breakpoint goes on as the one that stored it.
-/
namespace Verif.Sched
open Verif.Persist

/-! ### States that differ in what was observed before and in an iterator not in use -/

/-- The loop of XsmpScheduler.cpp:612 has not been entered: its iterator is not in use. -/
def outside : PC → Bool
  | .idle => true
  | .immTest .start => true
  | .immFor _ .start => true
  | .cb _ (.imm _ .start) => true
  | _ => false

/-- The same state with older observations and another iterator. -/
def put (r : State) (L : List Obs) (i : Int) (o : Bool) : State :=
  { r with log := r.log ++ L, iter := i, itOk := o }

/-- `s` and `r` are the same but for older observations and the iterator when it is not in use. -/
def Twin (L : List Obs) (r s : State) : Prop :=
  ∃ i o, s = put r L i o ∧ (outside r.pc = false → i = r.iter ∧ o = r.itOk)

theorem twin_fail {L : List Obs} {r s : State} (h : Twin L r s) (f : Fault) :
    Twin L (r.fail f) (s.fail f) := by
  obtain ⟨i, o, rfl, hi⟩ := h
  exact ⟨i, o, rfl, hi⟩

theorem twin_eraseKey {L : List Obs} {r s : State} (h : Twin L r s) (k : Int) :
    Twin L (r.eraseKey k) (s.eraseKey k) := by
  obtain ⟨i, o, rfl, hi⟩ := h
  refine ⟨i, o && decide (k ≠ i), rfl, ?_⟩
  intro hp
  obtain ⟨rfl, rfl⟩ := hi hp
  exact ⟨rfl, rfl⟩

theorem twin_table {L : List Obs} {r s : State} (h : Twin L r s) (t : OMap (List Int)) :
    Twin L { r with table := t } { s with table := t } := by
  obtain ⟨i, o, rfl, hi⟩ := h
  exact ⟨i, o, rfl, hi⟩

theorem twin_events {L : List Obs} {r s : State} (h : Twin L r s) (t : OMap Event) :
    Twin L { r with events := t } { s with events := t } := by
  obtain ⟨i, o, rfl, hi⟩ := h
  exact ⟨i, o, rfl, hi⟩

theorem twin_zulu {L : List Obs} {r s : State} (h : Twin L r s) (t : OMap (List Int)) :
    Twin L { r with zulu := t } { s with zulu := t } := by
  obtain ⟨i, o, rfl, hi⟩ := h
  exact ⟨i, o, rfl, hi⟩

/-- What twins have in common. -/
theorem Twin.same {L : List Obs} {r s : State} (h : Twin L r s) :
    s.events = r.events ∧ s.table = r.table ∧ s.zulu = r.zulu ∧ s.imm = r.imm ∧
    s.lastId = r.lastId ∧ s.current = r.current ∧ s.hold = r.hold ∧ s.now = r.now ∧
    s.epochStart = r.epochStart ∧ s.missionStart = r.missionStart ∧ s.changing = r.changing ∧
    s.pc = r.pc ∧ s.fault = r.fault ∧ s.log = r.log ++ L := by
  obtain ⟨i, o, rfl, hi⟩ := h
  exact ⟨rfl, rfl, rfl, rfl, rfl, rfl, rfl, rfl, rfl, rfl, rfl, rfl, rfl, rfl⟩

theorem twin_unpost {L : List Obs} {r s : State} (h : Twin L r s) (k id : Int) :
    Twin L (r.unpost k id) (s.unpost k id) := by
  unfold State.unpost
  obtain ⟨_, ht, _⟩ := h.same
  simp only [ht]
  by_cases hl : IdSet.erase id (slotOf r.table k) = []
  · simp only [if_pos hl]; exact twin_eraseKey h k
  · simp only [if_neg hl]; exact twin_table h _

theorem twin_target {L : List Obs} {r s : State} (h : Twin L r s) (k : SimKind) (x : Int) :
    target s k x = target r k x := by
  obtain ⟨i, o, rfl, hi⟩ := h
  cases k <;> rfl

/-- A public call keeps twins, with the same result. -/
theorem twin_apply {L : List Obs} {r s : State} (h : Twin L r s) (op : Op) :
    Twin L (apply r op).1 (apply s op).1 ∧ (apply s op).2 = (apply r op).2 := by
  obtain ⟨he, ht, hz, him, hl, hc, hh, hn, hes, hms, hch, hpc, hf, hlog⟩ := h.same
  cases op with
  | addImmediate ep =>
    simp only [apply, addImmediate, he, hn, him, hl]
    cases chk (r.lastId + 1) with
    | none => exact ⟨twin_fail h _, by trivial⟩
    | some n =>
      obtain ⟨i, o, rfl, hi⟩ := h
      exact ⟨⟨i, o, rfl, hi⟩, by trivial⟩
  | addTimed k ep x c rp =>
    simp only [apply, addTimed, twin_target h]
    cases target r k x with
    | none => exact ⟨twin_fail h _, by trivial⟩
    | some t =>
      simp only [addEvent, he, hn, hl, ht]
      by_cases h1 : t < r.now
      · simp only [if_pos h1]; exact ⟨h, by trivial⟩
      · by_cases h2 : rp ≠ 0 ∧ c ≤ 0
        · simp only [if_neg h1, if_pos h2]; exact ⟨h, by trivial⟩
        · simp only [if_neg h1, if_neg h2]
          cases chk (r.lastId + 1) with
          | none => exact ⟨twin_fail h _, by trivial⟩
          | some n =>
            obtain ⟨i, o, rfl, hi⟩ := h
            exact ⟨⟨i, o, rfl, hi⟩, by trivial⟩
  | addZulu ep z c rp zn =>
    simp only [apply, addZulu, he, hl, hz]
    by_cases h1 : z < zn
    · simp only [if_pos h1]; exact ⟨h, by trivial⟩
    · by_cases h2 : rp ≠ 0 ∧ c ≤ 0
      · simp only [if_neg h1, if_pos h2]; exact ⟨h, by trivial⟩
      · simp only [if_neg h1, if_neg h2]
        cases chk (r.lastId + 1) with
        | none => exact ⟨twin_fail h _, by trivial⟩
        | some n =>
          obtain ⟨i, o, rfl, hi⟩ := h
          exact ⟨⟨i, o, rfl, hi⟩, by trivial⟩
  | setTimed k id x =>
    simp only [apply, setTimed, twin_target h]
    cases target r k x with
    | none => exact ⟨twin_fail h _, by trivial⟩
    | some t =>
      simp only [setEventTime, he, hn]
      cases r.events.find id with
      | none => exact ⟨h, by trivial⟩
      | some e =>
        by_cases h1 : e.kind ≠ k.kind
        · simp only [if_pos h1]; exact ⟨h, by trivial⟩
        · simp only [if_neg h1]
          have hu := twin_unpost h e.next id
          obtain ⟨he', ht', _⟩ := hu.same
          by_cases h2 : t < r.now
          · simp only [if_pos h2, he']; exact ⟨twin_events hu _, by trivial⟩
          · simp only [if_neg h2, he', ht']
            exact ⟨twin_table (twin_events hu _) _, by trivial⟩
  | setZulu id z zn =>
    simp only [apply, setZulu, he, hz]
    cases r.events.find id with
    | none => exact ⟨h, by trivial⟩
    | some e =>
      by_cases h1 : e.kind ≠ .zulu
      · simp only [if_pos h1]; exact ⟨h, by trivial⟩
      · simp only [if_neg h1]
        by_cases h2 : z < zn
        · simp only [if_pos h2]; exact ⟨twin_zulu (twin_events h _) _, by trivial⟩
        · simp only [if_neg h2]; exact ⟨twin_zulu (twin_events h _) _, by trivial⟩
  | setCycle id c =>
    simp only [apply, setCycle, he]
    cases r.events.find id with
    | none => exact ⟨h, by trivial⟩
    | some e =>
      by_cases h1 : e.rep > 0 ∧ c ≤ 0
      · simp only [if_pos h1]; exact ⟨h, by trivial⟩
      · simp only [if_neg h1]; exact ⟨twin_events h _, by trivial⟩
  | setRepeat id rp =>
    simp only [apply, setRepeat, he]
    cases r.events.find id with
    | none => exact ⟨h, by trivial⟩
    | some e =>
      by_cases h1 : rp ≠ 0 ∧ e.cycle ≤ 0
      · simp only [if_pos h1]; exact ⟨h, by trivial⟩
      · simp only [if_neg h1]; exact ⟨twin_events h _, by trivial⟩
  | remove id =>
    simp only [apply, remove, he, hc, hz]
    cases r.events.find id with
    | none => exact ⟨h, by trivial⟩
    | some e =>
      by_cases h1 : r.current = id
      · simp only [if_pos h1]
        obtain ⟨i, o, rfl, hi⟩ := h
        exact ⟨⟨i, o, rfl, hi⟩, by trivial⟩
      · by_cases h2 : e.kind = .zulu
        · simp only [if_neg h1, if_pos h2]
          refine ⟨?_, by trivial⟩
          obtain ⟨i, o, rfl, hi⟩ := h
          by_cases h3 : IdSet.erase id (slotOf r.zulu e.next) = []
          · simp only [if_pos h3]
            refine ⟨i, o && decide (e.next ≠ i), rfl, ?_⟩
            intro hp
            obtain ⟨rfl, rfl⟩ := hi hp
            exact ⟨rfl, rfl⟩
          · simp only [if_neg h3]
            exact ⟨i, o, rfl, hi⟩
        · simp only [if_neg h1, if_neg h2]
          have hu := twin_unpost h e.next id
          have he' := hu.same.1
          simp only [he']
          exact ⟨twin_events hu _, by trivial⟩
  | hold =>
    obtain ⟨i, o, rfl, hi⟩ := h
    exact ⟨⟨i, o, rfl, hi⟩, by trivial⟩
  | setSimTime t =>
    have hns : s.nextScheduled = r.nextScheduled := by unfold State.nextScheduled; rw [ht]
    simp only [apply, setSimTime, hch, hn, hns]
    by_cases hcv : (!r.changing) = true
    · simp only [if_pos hcv]; exact ⟨h, by trivial⟩
    · simp only [if_neg hcv]
      by_cases h1 : t < r.now ∨ t > r.nextScheduled
      · simp only [if_pos h1]; exact ⟨h, by trivial⟩
      · simp only [if_neg h1]
        obtain ⟨i, o, rfl, hi⟩ := h
        exact ⟨⟨i, o, rfl, hi⟩, by trivial⟩
  | setEpochTime t =>
    simp only [apply, setEpochTime, hn]
    cases chk (r.now - t) with
    | none => exact ⟨twin_fail h _, by trivial⟩
    | some n =>
      obtain ⟨i, o, rfl, hi⟩ := h
      exact ⟨⟨i, o, rfl, hi⟩, by trivial⟩
  | setMissionStart t =>
    obtain ⟨i, o, rfl, hi⟩ := h
    exact ⟨⟨i, o, rfl, hi⟩, by trivial⟩
  | setMissionTime t =>
    simp only [apply, setMissionTime, hn, hes]
    cases ((chk (r.now - r.epochStart)).bind fun a => chk (a - t)) with
    | none => exact ⟨twin_fail h _, by trivial⟩
    | some n =>
      obtain ⟨i, o, rfl, hi⟩ := h
      exact ⟨⟨i, o, rfl, hi⟩, by trivial⟩

/-! ### The run loop -/

/-- Going to another position. -/
theorem twin_pc {L : List Obs} {r s : State} (h : Twin L r s) (p : PC)
    (hp : outside r.pc = true → outside p = true) :
    Twin L { r with pc := p } { s with pc := p } := by
  obtain ⟨i, o, rfl, hi⟩ := h
  refine ⟨i, o, rfl, fun ho => hi ?_⟩
  cases hr : outside r.pc with
  | false => rfl
  | true => rw [hp hr] at ho; exact absurd ho (by decide)

theorem twin_imm {L : List Obs} {r s : State} (h : Twin L r s) (l : List Int) :
    Twin L { r with imm := l } { s with imm := l } := by
  obtain ⟨i, o, rfl, hi⟩ := h
  exact ⟨i, o, rfl, hi⟩

theorem twin_current {L : List Obs} {r s : State} (h : Twin L r s) (c : Int) :
    Twin L { r with current := c } { s with current := c } := by
  obtain ⟨i, o, rfl, hi⟩ := h
  exact ⟨i, o, rfl, hi⟩

theorem twin_obs {L : List Obs} {r s : State} (h : Twin L r s) (b : Obs) :
    Twin L { r with log := b :: r.log } { s with log := b :: s.log } := by
  obtain ⟨i, o, rfl, hi⟩ := h
  exact ⟨i, o, rfl, hi⟩

/-- The iterator is the same when it is in use. -/
theorem Twin.iter {L : List Obs} {r s : State} (h : Twin L r s) (ho : outside r.pc = false) :
    s.iter = r.iter ∧ s.itOk = r.itOk := by
  obtain ⟨i, o, rfl, hi⟩ := h
  exact hi ho

/-- Entering the loop sets the iterator. -/
theorem twin_enterSlot {L : List Obs} {r s : State} (h : Twin L r s) (k : Int) :
    Twin L (enterSlot r k) (enterSlot s k) := by
  obtain ⟨i, o, rfl, hi⟩ := h
  exact ⟨k, true, rfl, fun _ => ⟨rfl, rfl⟩⟩

/-- Whether the iterator is not in use in the callers of `ExecuteImmediateEvents`. -/
def outRet : Ret → Bool
  | .start => true
  | _ => false

/-- Whether the iterator is not in use in the callers of `Execute`. -/
def outFrame : Frame → Bool
  | .imm _ r => outRet r
  | .due _ => false

theorem outside_immTest (r : Ret) : outside (.immTest r) = outRet r := by cases r <;> rfl
theorem outside_immFor (l : List Int) (r : Ret) : outside (.immFor l r) = outRet r := by
  cases r <;> rfl
theorem outside_cb (id : Int) (f : Frame) : outside (.cb id f) = outFrame f := by
  cases f with
  | imm l r => cases r <;> rfl
  | due l => rfl

theorem twin_storeRest {L : List Obs} {r s : State} (h : Twin L r s) (rest : List Int)
    (ho : outside r.pc = false) : Twin L (storeRest r rest) (storeRest s rest) := by
  obtain ⟨hi, hk⟩ := h.iter ho
  have ht := h.same.2.1
  unfold storeRest
  by_cases hb : (!r.itOk) = true
  · simp only [hk, if_pos hb]; exact twin_fail h _
  · simp only [hi, hk, ht, if_neg hb]
    obtain ⟨i, o, rfl, _⟩ := h
    cases hi
    cases hk
    exact ⟨r.iter, r.itOk, rfl, fun _ => ⟨rfl, rfl⟩⟩

theorem twin_immFalse {L : List Obs} {r s : State} (h : Twin L r s) (t : Ret)
    (ho : outside r.pc = outRet t) : Twin L (immFalse r t) (immFalse s t) := by
  cases t with
  | start => exact twin_pc h _ (fun _ => rfl)
  | slot => exact twin_pc h _ (fun _ => rfl)
  | inSlot rest => exact twin_storeRest h rest ho

theorem twin_immTrue {L : List Obs} {r s : State} (h : Twin L r s) (t : Ret)
    (ho : outside r.pc = outRet t) : Twin L (immTrue r t) (immTrue s t) := by
  cases t with
  | start =>
    obtain ⟨i, o, rfl, hi⟩ := h
    simp only [immTrue, put]
    cases hm : r.table.minKey with
    | none => exact ⟨i, o, rfl, fun hr => by cases hr⟩
    | some k => exact ⟨k, true, rfl, fun _ => ⟨rfl, rfl⟩⟩
  | slot => exact twin_pc h _ (fun hr => by rw [ho] at hr; cases hr)
  | inSlot rest => exact twin_pc h _ (fun hr => by rw [ho] at hr; cases hr)

theorem twin_resume {L : List Obs} {r s : State} (h : Twin L r s) (f : Frame)
    (ho : outside r.pc = outFrame f) : Twin L (resume r f) (resume s f) := by
  obtain ⟨_, _, _, him, _, _, hh, _⟩ := h.same
  cases f with
  | imm rest t =>
    unfold resume
    by_cases hb : r.hold = true
    · have hb' : s.hold = true := hh.trans hb
      simp only [if_pos hb, if_pos hb', him]
      exact twin_immFalse (twin_imm h _) t ho
    · have hb' : ¬ s.hold = true := fun e => hb (hh.symm.trans e)
      simp only [if_neg hb, if_neg hb']
      exact twin_pc h (.immFor rest t) (fun hr => by rw [outside_immFor, ← hr]; exact ho.symm)
  | due rest =>
    unfold resume
    by_cases hb : r.hold = true
    · have hb' : s.hold = true := hh.trans hb
      simp only [if_pos hb, if_pos hb']
      exact twin_storeRest h rest ho
    · have hb' : ¬ s.hold = true := fun e => hb (hh.symm.trans e)
      simp only [if_neg hb, if_neg hb']
      exact twin_pc h (.immTest (.inSlot rest)) (fun hr => by rw [ho] at hr; cases hr)

theorem twin_finish {L : List Obs} {r s : State} (h : Twin L r s) (id : Int) (f : Frame)
    (ho : outside r.pc = outFrame f) : Twin L (finish r id f) (finish s id f) := by
  have h0 := h
  obtain ⟨i, o, rfl, hi⟩ := h
  unfold finish
  show Twin L (match r.events.find id with | none => _ | some e => _)
    (match r.events.find id with | none => _ | some e => _)
  cases r.events.find id with
  | none => exact twin_fail h0 _
  | some e =>
    dsimp only
    by_cases h1 : e.rep = 0
    · simp only [if_pos h1]; exact twin_resume (twin_events h0 (r.events.erase id)) f ho
    · simp only [if_neg h1]
      cases chk (e.next + e.cycle) with
      | none => exact twin_fail h0 _
      | some n =>
        cases chk (e.time + e.cycle) with
        | none => exact twin_fail h0 _
        | some t =>
          refine twin_resume ?_ f ho
          exact ⟨i, o, rfl, hi⟩

theorem twin_startExec {L : List Obs} {r s : State} (h : Twin L r s) (id : Int) (f : Frame)
    (ho : outside r.pc = outFrame f) : Twin L (startExec r id f) (startExec s id f) := by
  have h0 := h
  obtain ⟨i, o, rfl, hi⟩ := h
  have hsk : ∀ e, skipTest (put r L i o) e = skipTest r e := fun e => rfl
  unfold startExec
  simp only [hsk]
  show Twin L (match r.events.find id with | none => _ | some e => _)
    (match r.events.find id with | none => _ | some e => _)
  cases r.events.find id with
  | none => exact twin_fail h0 _
  | some e =>
    dsimp only
    cases skipTest r e with
    | none => exact twin_fail h0 _
    | some b =>
      cases b with
      | true =>
        refine twin_finish ?_ id f ho
        exact ⟨i, o, rfl, hi⟩
      | false =>
        refine ⟨i, o, rfl, fun hr => hi ?_⟩
        have hr : outside (.cb id f) = false := hr
        rw [outside_cb, ← ho] at hr
        exact hr

theorem twin_tick {L : List Obs} {r s : State} (h : Twin L r s) (d : Bool) :
    Twin L (tick r d) (tick s d) := by
  obtain ⟨he, ht, hz, him, hl, hc, hh, hn, hes, hms, hch, hpc, hf, hlog⟩ := h.same
  unfold tick
  rw [hpc]
  cases hp : r.pc with
  | idle => exact h
  | immTest t =>
    have ho : outside r.pc = outRet t := by rw [hp]; exact outside_immTest t
    dsimp only
    by_cases h1 : r.imm = []
    · have h1' : s.imm = [] := him.trans h1
      simp only [if_pos h1, if_pos h1']; exact twin_immTrue h t ho
    · have h1' : ¬ s.imm = [] := fun e => h1 (him.symm.trans e)
      simp only [if_neg h1, if_neg h1']
      obtain ⟨i, o, rfl, hi⟩ := h
      refine ⟨i, o, rfl, fun hr => hi ?_⟩
      have hr : outside (.immFor r.imm t) = false := hr
      rw [outside_immFor, ← ho] at hr
      exact hr
  | immFor l t =>
    have ho : outside r.pc = outRet t := by rw [hp]; exact outside_immFor l t
    cases l with
    | nil => exact twin_pc h _ (fun hr => by rw [outside_immTest, ← ho]; exact hr)
    | cons id rest => exact twin_startExec h id _ ho
  | preEmit =>
    dsimp only
    by_cases hb : r.hold = true
    · have hb' : s.hold = true := hh.trans hb
      simp only [if_pos hb, if_pos hb']
      exact twin_pc h .idle (fun _ => rfl)
    · have hb' : ¬ s.hold = true := fun e => hb (hh.symm.trans e)
      simp only [if_neg hb, if_neg hb']
      exact twin_pc h .waiting (fun hr => by rw [hp] at hr; cases hr)
  | waiting =>
    obtain ⟨hi, hk⟩ := h.iter (by rw [hp]; rfl)
    dsimp only
    by_cases hb : (!r.itOk) = true
    · have hb' : (!s.itOk) = true := by rw [hk]; exact hb
      simp only [if_pos hb, if_pos hb']; exact twin_fail h _
    · have hb' : ¬ (!s.itOk) = true := by rw [hk]; exact hb
      simp only [if_neg hb, if_neg hb']
      by_cases hd : (d && r.hold) = true
      · have hd' : (d && s.hold) = true := by rw [hh]; exact hd
        simp only [if_pos hd, if_pos hd']
        exact twin_pc h .idle (fun _ => rfl)
      · have hd' : ¬ (d && s.hold) = true := by rw [hh]; exact hd
        simp only [if_neg hd, if_neg hd']
        obtain ⟨h1, h2⟩ := twin_apply h (.setSimTime r.iter)
        simp only [apply] at h1 h2
        rw [hi]
        cases hr : setSimTime r r.iter with
        | mk r1 res =>
          cases hs : setSimTime s r.iter with
          | mk s1 res' =>
            rw [hr, hs] at h1 h2
            simp only at h1 h2
            subst h2
            have hpr : outside r1.pc = false := by
              have : r1.pc = r.pc := by
                unfold setSimTime at hr
                split at hr
                · cases hr; rfl
                · split at hr
                  · cases hr; rfl
                  · cases hr; rfl
              rw [this, hp]; rfl
            cases res' with
            | exn e => exact twin_fail h _
            | id _ | done | ub =>
              obtain ⟨i, o, rfl, hi⟩ := h1
              exact ⟨i, o, rfl, fun _ => hi hpr⟩
  | postEmit => exact twin_pc h _ (fun hr => by rw [hp] at hr; cases hr)
  | slotTest =>
    have h0 := h
    obtain ⟨i, o, rfl, hi⟩ := h
    obtain ⟨rfl, rfl⟩ := hi (by rw [hp]; rfl)
    dsimp only
    show Twin L (if (!r.itOk) = true then _ else if slotOf r.table r.iter = [] then
        (match r.table.nextKey r.iter with | none => _ | some k => _) else _)
      (if (!r.itOk) = true then _ else if slotOf r.table r.iter = [] then
        (match r.table.nextKey r.iter with | none => _ | some k => _) else _)
    by_cases hb : (!r.itOk) = true
    · simp only [if_pos hb]; exact twin_fail h0 _
    · simp only [if_neg hb]
      by_cases h1 : slotOf r.table r.iter = []
      · simp only [if_pos h1]
        cases r.table.nextKey r.iter with
        | none => exact ⟨r.iter, r.itOk, rfl, fun hr => by cases hr⟩
        | some k => exact ⟨k, true, rfl, fun _ => ⟨rfl, rfl⟩⟩
      · simp only [if_neg h1]
        exact ⟨r.iter, r.itOk, rfl, fun _ => ⟨rfl, rfl⟩⟩
  | slotFor l =>
    cases l with
    | nil => exact twin_pc h _ (fun hr => by rw [hp] at hr; cases hr)
    | cons id rest => exact twin_startExec h id _ (by rw [hp]; rfl)
  | cb id f =>
    obtain ⟨i, o, rfl, hi⟩ := h
    refine twin_finish ?_ id f (outside_cb id f)
    exact ⟨i, o, rfl, fun hr => hi (by rw [hp]; exact hr)⟩

theorem twin_step {L : List Obs} {r s : State} (h : Twin L r s) (i : Input) :
    Twin L (step r i) (step s i) := by
  obtain ⟨he, ht, hz, him, hl, hc, hh, hn, hes, hms, hch, hpc, hf, hlog⟩ := h.same
  unfold step
  rw [hf]
  cases r.fault with
  | some f => exact h
  | none =>
    cases i with
    | op o => exact (twin_apply h o).1
    | run =>
      simp only [hpc]
      by_cases h1 : r.pc = .idle
      · simp only [Option.isSome_none, Bool.false_eq_true, if_false, if_pos h1]
        obtain ⟨i, o, rfl, hi⟩ := h
        exact ⟨i, o, rfl, fun ho => by cases ho⟩
      · simp only [Option.isSome_none, Bool.false_eq_true, if_false, if_neg h1]; exact h
    | tick d => exact twin_tick h d

theorem twin_exec {L : List Obs} {r s : State} (is : List Input) (h : Twin L r s) :
    Twin L (exec r is) (exec s is) := by
  induction is generalizing r s with
  | nil => exact h
  | cons i is ih => rw [exec_cons, exec_cons]; exact ih (twin_step h i)

/-! ### C95 -/

/-- The services restored from a breakpoint: the scheduler and the time keeper `old` after
`Restore` of what `s` stored (XsmpSimulator.cpp `Restore`). (Simulator.cpp:458-483,
XsmpScheduler.cpp:572-576.) -/
def restored (E : Env) (hash : Ty → Nat) (s old : State) : State :=
  (restoreTime E hash (restoreSched E hash old (storeSched E hash s)).1
    (storeTime E hash s)).1

/-- Not inside the loop, on hold, without pending Zulu event and with no change of the simulation
time under way. -/
structure Quiet (s : State) : Prop where
  reach : Reach s
  idle : s.pc = .idle
  zulu : s.zulu = []
  still : s.changing = false
  hold : s.hold = true

/-- **C95 (partial)** A scheduler, with its time keeper, restored from a breakpoint goes on as the
one that stored it: whatever calls and runs follow, the same entry points are called for the same
events at the same simulation times, the same calls return the same results, and the events, the
due times, the time scales and the state of the loop are the same at every moment. The scheduler
restored into may have any history.
Missing: pending Zulu events and a change of the simulation time left open (`C95_fails`). -/
theorem C95_partial {E : Env} {hash : Ty → Nat} (he : EnvOk E) (hh : ∀ t, hash t < 2 ^ 64)
    {s old : State} (hs : Quiet s) (hr : Range s) (hq : Resolvable E s) (ho : Quiet old)
    (is : List Input) :
    let a := exec s is
    let b := exec (restored E hash s old) is
    b.events = a.events ∧ b.table = a.table ∧ b.zulu = a.zulu ∧ b.imm = a.imm ∧
    b.lastId = a.lastId ∧ b.current = a.current ∧ b.hold = a.hold ∧ b.now = a.now ∧
    b.epochStart = a.epochStart ∧ b.missionStart = a.missionStart ∧ b.changing = a.changing ∧
    b.pc = a.pc ∧ b.fault = a.fault ∧
    (∃ new, a.log = new ++ s.log ∧ b.log = new ++ old.log) ∧
    ∀ op, (apply b op).2 = (apply a op).2 := by
  intro a b
  have h1 := C15_partial he hh hr hs.reach.rep hq old []
  rw [List.append_nil] at h1
  have h2 := C15_time (E := E) hh hr (restoreSched E hash old (storeSched E hash s)).1 []
  rw [List.append_nil] at h2
  have hrest : restored E hash s old =
      { old with events := s.events, table := s.table, imm := s.imm, lastId := s.lastId,
                 now := s.now, missionStart := s.missionStart, epochStart := s.epochStart } := by
    unfold restored; rw [h2, h1]
  have hcs : s.current = -1 := by
    have := hs.reach.inv.cur; rw [hs.idle] at this; exact this
  have hco : old.current = -1 := by
    have := ho.reach.inv.cur; rw [ho.idle] at this; exact this
  have t1 : Twin s.log { s with log := [], iter := 0, itOk := true } s :=
    ⟨s.iter, s.itOk, rfl, fun h => by
      have h : outside s.pc = false := h
      rw [hs.idle] at h; cases h⟩
  have t2 : Twin old.log { s with log := [], iter := 0, itOk := true } (restored E hash s old) := by
    refine ⟨old.iter, old.itOk, ?_, fun h => ?_⟩
    · rw [hrest]
      have hf := hs.reach.fault
      have hfo := ho.reach.fault
      obtain ⟨_, a1, a2, a3, a4⟩ := hs
      obtain ⟨_, b1, b2, b3, b4⟩ := ho
      cases s
      cases old
      simp only at a1 a2 a3 a4 b1 b2 b3 b4 hcs hco hf hfo
      subst a1 a2 a3 a4 b1 b2 b3 b4 hcs hco hf hfo
      rfl
    · have h : outside s.pc = false := h
      rw [hs.idle] at h; cases h
  have e1 := twin_exec is t1
  have e2 := twin_exec is t2
  obtain ⟨p1, p2, p3, p4, p5, p6, p7, p8, p9, p10, p11, p12, p13, p14⟩ := e1.same
  obtain ⟨q1, q2, q3, q4, q5, q6, q7, q8, q9, q10, q11, q12, q13, q14⟩ := e2.same
  refine ⟨q1.trans p1.symm, q2.trans p2.symm, q3.trans p3.symm, q4.trans p4.symm,
    q5.trans p5.symm, q6.trans p6.symm, q7.trans p7.symm, q8.trans p8.symm, q9.trans p9.symm,
    q10.trans p10.symm, q11.trans p11.symm, q12.trans p12.symm, q13.trans p13.symm,
    ⟨_, p14, q14⟩, ?_⟩
  intro op
  exact (twin_apply e2 op).2.trans (twin_apply e1 op).2.symm

/-- A scheduler that has run, with what is left of it. -/
def exOld : List Input :=
  [.op (.addTimed .simulation 9 4 0 0), .op (.addTimed .simulation 9 40 0 0), .run, .tick false,
   .tick false, .tick false, .tick false, .tick false, .tick false, .tick false, .op .hold,
   .tick false, .tick false]

/-- The scheduler that stores: it has run up to time 10, where an entry point put it on hold. -/
def exStored : List Input :=
  [.op (.addTimed .simulation 5 10 3 (-1)), .op (.addTimed .simulation 6 10 0 0),
   .op (.addTimed .epoch 8 12 1 4), .run, .tick false,
   .tick false, .tick false, .tick false, .tick false, .tick false, .tick false, .op .hold,
   .tick false]

/-- What happens after the breakpoint. -/
def exAfter : List Input := .run :: List.replicate 40 (.tick false)

example : Quiet (exec init exOld) ∧ (exec init exOld).log = [.called 0 9 4] ∧
    Quiet (exec init exStored) ∧ Range (exec init exStored) ∧
    Resolvable exEnvS (exec init exStored) ∧ (exec init exStored).log = [.called 0 5 10] ∧
    (exec init exStored).now = 10 := by
  refine ⟨⟨⟨exOld, by decide, rfl, by decide +kernel⟩, ?_, ?_, ?_, ?_⟩, ?_,
    ⟨⟨exStored, by decide, rfl, by decide +kernel⟩, ?_, ?_, ?_, ?_⟩, ?_, ?_, ?_, ?_⟩ <;>
    first
    | decide +kernel
    | skip
  · refine ⟨?_, ?_, ?_, ?_, ?_, ?_⟩
    · simp only [IdSet.InRange]; decide +kernel
    · simp only [IdSet.InRange]; decide +kernel
    · simp only [IdSet.InRange]; decide +kernel
    · simp only [IdSet.InRange]; decide +kernel
    · simp only [IdSet.InRange]; decide +kernel
    · decide +kernel
  · unfold Resolvable; decide +kernel

/-- The continuation of the example calls five more entry points. -/
example : (exec (exec init exStored) exAfter).log.reverse =
    [.called 0 5 10, .called 1 6 10, .called 2 8 12, .called 0 5 13, .called 2 8 13,
     .called 2 8 14] := by decide +kernel

/-- Inputs that leave a change of the simulation time open: on hold while the subscribers of
PreSimTimeChange run. -/
def exOpen : List Input :=
  [.op (.addTimed .simulation 5 10 0 0), .run, .tick false, .op .hold, .tick false]

/-- **C95 (fails)** A breakpoint stored after the simulation was put on hold while the subscribers
of PreSimTimeChange were running: the one that stored still lets an application set the simulation
time, the restored one does not, and the times differ from there on. -/
theorem C95_fails : ∃ s : State, Reach s ∧ s.pc = .idle ∧ s.zulu = [] ∧ s.hold = true ∧ Range s ∧
    Resolvable exEnvS s ∧
    (exec s [.op (.setSimTime 7)]).now = 7 ∧
    (exec (restored exEnvS exHash s init) [.op (.setSimTime 7)]).now = 0 := by
  refine ⟨exec init exOpen, ⟨exOpen, by decide, rfl, by decide⟩, by decide, by decide, by decide,
    ?_, ?_, by decide, by decide +kernel⟩
  · refine ⟨?_, ?_, ?_, ?_, ?_, ?_⟩
    · simp only [IdSet.InRange]; decide
    · simp only [IdSet.InRange]; decide
    · simp only [IdSet.InRange]; decide
    · simp only [IdSet.InRange]; decide
    · simp only [IdSet.InRange]; decide
    · decide
  · unfold Resolvable; decide

/-- The scheduler of `exStored` while the entry point that put it on hold is still running. -/
def exInside : List Input := exStored.dropLast

/-- **C95 (fails)** `Hold(true)` puts the simulator in standby at once, so that the entry point that
calls it may also store a breakpoint (Simulator.cpp:345-351, 396-398). The events of the same time
not called yet and the next call of a cyclic event are then in no table: they are stored as events,
but the restored simulation never calls them. -/
theorem C95_entry_fails : ∃ s : State, Reach s ∧ (∃ id r, s.pc = .cb id r) ∧ s.zulu = [] ∧
    s.changing = false ∧ s.hold = true ∧ Range s ∧ Resolvable exEnvS s ∧
    (exec s (.tick false :: exAfter)).log.reverse =
      [.called 0 5 10, .called 1 6 10, .called 2 8 12, .called 0 5 13, .called 2 8 13,
       .called 2 8 14] ∧
    (exec (restored exEnvS exHash s init) exAfter).log.reverse =
      [.called 2 8 12, .called 2 8 13, .called 2 8 14] ∧
    (restored exEnvS exHash s init).events = s.events ∧
    (∃ e, s.events.find? (fun p => p.1 = 1) = some e) := by
  refine ⟨exec init exInside, ⟨exInside, by decide, rfl, by decide +kernel⟩, ⟨0, _, rfl⟩, rfl, rfl,
    rfl, ?_, ?_, by decide +kernel, by decide +kernel, by decide +kernel, ⟨_, rfl⟩⟩
  · refine ⟨?_, ?_, ?_, ?_, ?_, ?_⟩
    · simp only [IdSet.InRange]; decide +kernel
    · simp only [IdSet.InRange]; decide +kernel
    · simp only [IdSet.InRange]; decide +kernel
    · simp only [IdSet.InRange]; decide +kernel
    · simp only [IdSet.InRange]; decide +kernel
    · decide +kernel
  · unfold Resolvable; decide +kernel

end Verif.Sched
