import Verif.Example.Props
import Verif.Sched.Called
import Verif.Sched.RunFor

/-! C102: the counters driven by the scheduler. -/
namespace Verif.Sched

/-- The call posts an event with that entry point. -/
def Op.posts (ep : Nat) : Op → Prop
  | .addImmediate e => e = ep
  | .addTimed _ e _ _ _ => e = ep
  | .addZulu e _ _ _ _ => e = ep
  | _ => False

/-- No event but `n` has the entry point `ep`. -/
def Only (ep : Nat) (n : Int) (m : OMap Event) : Prop :=
  ∀ id e, m.find id = some e → e.ep = ep → id = n

theorem Only.insert {ep : Nat} {n : Int} {m : OMap Event} (h : Only ep n m) (id : Int) (e : Event)
    (he : e.ep = ep → id = n) : Only ep n (m.insert id e) := by
  intro j x hj hx
  rw [OMap.find_insert] at hj
  split at hj
  · rename_i hji
    cases hj
    rw [hji]; exact he hx
  · exact h j x hj hx

theorem Only.erase {ep : Nat} {n : Int} {m : OMap Event} (h : Only ep n m) (id : Int) :
    Only ep n (m.erase id) := by
  intro j x hj hx
  rw [OMap.find_erase] at hj
  split at hj
  · cases hj
  · exact h j x hj hx

theorem unpost_events (s : State) (k id : Int) : (s.unpost k id).events = s.events := by
  unfold State.unpost State.eraseKey; simp only; split <;> rfl

theorem Only.apply {ep : Nat} {n : Int} {s : State} (h : Only ep n s.events) (o : Op)
    (ho : ¬ o.posts ep) : Only ep n (Sched.apply s o).1.events := by
  have keep : ∀ (id : Int) (e e' : Event), s.events.find id = some e → e'.ep = e.ep →
      Only ep n (s.events.insert id e') :=
    fun id e e' he hep => h.insert id e' fun hx => h id e he (hep ▸ hx)
  cases o with
  | addImmediate e =>
    simp only [Sched.apply, addImmediate]
    split
    · exact h
    · exact h.insert _ _ fun hx => absurd hx (show ¬ e = ep from ho)
  | addTimed k e x c r =>
    simp only [Sched.apply, addTimed]
    split
    · exact h
    · unfold addEvent
      (repeat' split) <;> first | exact h | exact h.insert _ _ fun hx => absurd hx (show ¬ e = ep from ho)
  | addZulu e x c r z =>
    simp only [Sched.apply, addZulu]
    (repeat' split) <;> first
      | exact h
      | exact h.insert _ _ fun hx => absurd hx (show ¬ e = ep from ho)
  | setTimed k id x =>
    simp only [Sched.apply, setTimed]
    cases target s k x with
    | none => exact h
    | some t =>
      simp only [setEventTime]
      cases he : s.events.find id with
      | none => exact h
      | some e =>
        simp only
        split
        · exact h
        · split
          · simp only [unpost_events]; exact h.erase _
          · simp only [unpost_events]; exact keep id e _ he rfl
  | setZulu id x y =>
    simp only [Sched.apply, setZulu]
    cases he : s.events.find id with
    | none => exact h
    | some e =>
      simp only
      split
      · exact h
      · split
        · exact h.erase _
        · exact keep id e _ he rfl
  | setCycle id c =>
    simp only [Sched.apply, setCycle]
    cases he : s.events.find id with
    | none => exact h
    | some e =>
      simp only
      split
      · exact h
      · exact keep id e _ he rfl
  | setRepeat id c =>
    simp only [Sched.apply, setRepeat]
    cases he : s.events.find id with
    | none => exact h
    | some e =>
      simp only
      split
      · exact h
      · exact keep id e _ he rfl
  | remove id =>
    simp only [Sched.apply, remove]
    cases he : s.events.find id with
    | none => exact h
    | some e =>
      simp only
      split
      · exact keep id e _ he rfl
      · split
        · split <;> exact h.erase _
        · simp only [unpost_events]; exact h.erase _
  | hold => exact h
  | setSimTime t =>
    simp only [Sched.apply, setSimTime]
    (repeat' split) <;> exact h
  | setEpochTime t =>
    simp only [Sched.apply, setEpochTime]
    split <;> exact h
  | setMissionStart t => exact h
  | setMissionTime t =>
    simp only [Sched.apply, setMissionTime]
    split <;> exact h

theorem Only.finish {ep : Nat} {n : Int} {s : State} (h : Only ep n s.events) (id : Int)
    (f : Frame) : Only ep n (Sched.finish s id f).events := by
  unfold Sched.finish
  cases he : s.events.find id with
  | none => exact h
  | some e =>
    simp only
    split
    · rw [(resume_frame _ f).1]; exact h.erase _
    · split
      · rw [(resume_frame _ f).1]
        exact h.insert _ _ fun hx => h id e he hx
      · exact h

theorem Only.startExec {ep : Nat} {n : Int} {s : State} (h : Only ep n s.events) (id : Int)
    (f : Frame) : Only ep n (Sched.startExec s id f).events := by
  unfold Sched.startExec
  split
  · exact h
  · split
    · exact h
    · exact Only.finish (s := { s with log := .skipped id s.now :: s.log }) h id f
    · exact h

/-- What a step logs: nothing, or one occurrence, of the event that has the entry point. -/
theorem Only.step {ep : Nat} {n : Int} {s : State} (h : Only ep n s.events) (i : Input)
    (hi : ∀ o, i = .op o → ¬ o.posts ep) :
    Only ep n (Sched.step s i).events ∧
    ((Sched.step s i).log = s.log ∨ ∃ o, (Sched.step s i).log = o :: s.log ∧
      ∀ id t, o = .called id ep t → id = n) := by
  by_cases hf : s.fault = none
  · cases i with
    | op o =>
      rw [step_op o hf]
      exact ⟨h.apply o (hi o rfl), Or.inl (apply_log s o).1⟩
    | run =>
      unfold Sched.step
      rw [if_neg (by simp [hf])]
      simp only
      split
      · exact ⟨h, Or.inl rfl⟩
      · exact ⟨h, Or.inl rfl⟩
    | tick d =>
      rw [step_tick d hf]
      have hst : ∀ id f, Only ep n (Sched.startExec s id f).events ∧
          ((Sched.startExec s id f).log = s.log ∨ ∃ o, (Sched.startExec s id f).log = o :: s.log ∧
            ∀ id t, o = .called id ep t → id = n) := by
        intro id f
        refine ⟨h.startExec id f, ?_⟩
        cases he : s.events.find id with
        | none => left; unfold Sched.startExec; rw [he]; rfl
        | some e =>
          rcases startExec_log (f := f) he with g | ⟨_, g⟩ | ⟨_, g⟩
          · exact Or.inl g
          · exact Or.inr ⟨_, g, fun _ _ hh => by cases hh⟩
          · refine Or.inr ⟨_, g, fun id' t hh => ?_⟩
            simp only [Obs.called.injEq] at hh
            exact hh.1 ▸ h id e he hh.2.1
      cases hsil : s.pc.silent with
      | true =>
        obtain ⟨g1, g2, _⟩ := tick_silent d hsil
        exact ⟨by rw [g1]; exact h, Or.inl g2⟩
      | false =>
        match hpc : s.pc with
        | .immFor (id' :: rest) r' =>
          have e : tick s d = Sched.startExec s id' (.imm rest r') := by simp [tick, hpc]
          rw [e]; exact hst _ _
        | .slotFor (id' :: rest) =>
          have e : tick s d = Sched.startExec s id' (.due rest) := by simp [tick, hpc]
          rw [e]; exact hst _ _
        | .cb id' f =>
          have e : tick s d = Sched.finish { s with current := -1 } id' f := by simp [tick, hpc]
          rw [e]
          exact ⟨Only.finish (s := { s with current := -1 }) h id' f,
            Or.inl (finish_log _ _ _).1⟩
        | .idle | .immTest _ | .immFor [] _ | .preEmit | .waiting | .postEmit | .slotTest
        | .slotFor [] => rw [hpc] at hsil; simp [PC.silent] at hsil
  · rw [step_fault (by cases hh : s.fault <;> simp_all)]
    exact ⟨h, Or.inl rfl⟩

end Verif.Sched

namespace Verif.Example
open Verif.Any (Kind Fl Val Any Out)
open Verif.Pub
open Verif.Sched (Obs Op SimKind Only Reach OkRun Untouched occ dueAt)

/-- The inputs of the scheduler. -/
def scheds (is : List Input) : List Sched.Input := is.filterMap fun
  | .sched i => some i
  | .act _ => none

/-- The call from outside leaves the counter alone. -/
def Leaves (counters : List Nat) (c : Nat) (a : Act) : Prop :=
  a.Ok ∧ assigned counters c a = none ∧ added c a = 0

/-- The number of times an entry point is called in a log. -/
def calls (ep : Nat) (log : List Obs) : Nat := log.countP fun
  | .called _ e _ => e == ep
  | .skipped .. => false

/-- Once undefined, always. -/
theorem exec_ub (narrow : Fl → Fl) (rnd : Rat → Fl) (R : Registry) (owner : Nat → Option Nat)
    (is : List Input) : ∀ s : Sys, s.ub = true → Sys.exec narrow rnd R owner s is = s := by
  induction is with
  | nil => intro s _; rfl
  | cons i is ih =>
    intro s h
    show Sys.exec narrow rnd R owner (Sys.step narrow rnd R owner s i) is = s
    have e : Sys.step narrow rnd R owner s i = s := by unfold Sys.step; rw [if_pos h]
    rw [e]; exact ih s h

theorem calledSince_self (l : List Obs) : calledSince l l = [] := by
  unfold calledSince; simp

theorem calledSince_cons (l : List Obs) (o : Obs) : calledSince l (o :: l) =
    match o with
    | .called _ ep _ => [ep]
    | .skipped .. => [] := by
  unfold calledSince
  have : (o :: l).length - l.length = 1 := by simp
  rw [this]
  cases o <;> rfl

/-- An entry point of another counter, or of none. -/
theorem call_other (owner : Nat → Option Nat) (s : Sys) (ep c : Nat) (h : owner ep ≠ some c)
    (hw : s.world.Ok) :
    (Sys.call owner s ep).sched = s.sched ∧ (Sys.call owner s ep).world.count c = s.world.count c ∧
    (Sys.call owner s ep).world.counters = s.world.counters ∧ (Sys.call owner s ep).world.Ok := by
  unfold Sys.call
  cases ho : owner ep with
  | none => exact ⟨rfl, rfl, rfl, hw⟩
  | some d =>
    have hd : c ≠ d := fun hcd => h (by rw [ho, hcd])
    simp only [increment, i32_eq]
    by_cases hi : I32 (s.world.count d + 1)
    · rw [if_pos hi]
      refine ⟨rfl, by simp [World.store, hd], rfl, fun x => ?_⟩
      show I32 (if x = d then _ else _)
      split
      · exact hi
      · exact hw x
    · rw [if_neg hi]; exact ⟨rfl, rfl, rfl, hw⟩

theorem call_same (owner : Nat → Option Nat) (s : Sys) (ep c : Nat) (h : owner ep = some c)
    (hw : s.world.Ok) (hub : (Sys.call owner s ep).ub = false) (hub0 : s.ub = false) :
    (Sys.call owner s ep).sched = s.sched ∧
    (Sys.call owner s ep).world.count c = s.world.count c + 1 ∧
    (Sys.call owner s ep).world.counters = s.world.counters ∧ (Sys.call owner s ep).world.Ok := by
  unfold Sys.call at hub ⊢
  rw [h] at hub ⊢
  simp only [increment, i32_eq] at hub ⊢
  by_cases hi : I32 (s.world.count c + 1)
  · rw [if_pos hi] at hub ⊢
    refine ⟨rfl, by simp [World.store], rfl, fun x => ?_⟩
    show I32 (if x = c then _ else _)
    split
    · exact hi
    · exact hw x
  · rw [if_neg hi] at hub; simp at hub

/-- The counter of `ep` counts its calls. -/
theorem exec_calls (narrow : Fl → Fl) (rnd : Rat → Fl) (R : Registry) (hR : Known R)
    (owner : Nat → Option Nat) (ep c : Nat) (n : Int) (ho : ∀ e, owner e = some c ↔ e = ep)
    (is : List Input) : ∀ s : Sys, s.world.Ok → Only ep n s.sched.events →
    (∀ i ∈ is, ∀ o, i = .sched (.op o) → ¬ o.posts ep) →
    (∀ i ∈ is, ∀ a, i = .act a → Leaves s.world.counters c a) →
    (Sys.exec narrow rnd R owner s is).ub = false →
    (Sys.exec narrow rnd R owner s is).sched = Sched.exec s.sched (scheds is) ∧
    ∃ new, (Sched.exec s.sched (scheds is)).log = new ++ s.sched.log ∧
      (∀ id t, Obs.called id ep t ∈ new → id = n) ∧
      (Sys.exec narrow rnd R owner s is).world.count c = s.world.count c + calls ep new := by
  induction is with
  | nil =>
    intro s _ _ _ _ _
    exact ⟨rfl, [], rfl, by simp, by simp [Sys.exec, calls]⟩
  | cons i is ih =>
    intro s hw hon hop hact hub
    have hub0 : s.ub = false := by
      cases h : s.ub with
      | false => rfl
      | true => rw [exec_ub _ _ _ _ _ _ h, h] at hub; cases hub
    have he : Sys.exec narrow rnd R owner s (i :: is) =
      Sys.exec narrow rnd R owner (Sys.step narrow rnd R owner s i) is := rfl
    rw [he] at hub ⊢
    have hub1 : (Sys.step narrow rnd R owner s i).ub = false := by
      cases h : (Sys.step narrow rnd R owner s i).ub with
      | false => rfl
      | true => rw [exec_ub _ _ _ _ _ _ h, h] at hub; cases hub
    cases i with
    | act a =>
      obtain ⟨hok, hn, hz⟩ := hact _ List.mem_cons_self a rfl
      have hs1 : (Sys.step narrow rnd R owner s (.act a)).sched = s.sched ∧
          (Sys.step narrow rnd R owner s (.act a)).world.Ok ∧
          (Sys.step narrow rnd R owner s (.act a)).world.counters = s.world.counters ∧
          (Sys.step narrow rnd R owner s (.act a)).world.count c = s.world.count c := by
        unfold Sys.step at hub1 ⊢
        rw [if_neg (by simp [hub0])] at hub1 ⊢
        simp only at hub1 ⊢
        cases ha : act narrow rnd R s.world a with
        | none => rw [ha] at hub1; simp at hub1
        | some w =>
          obtain ⟨h1, h2, h3⟩ := (act_spec narrow rnd R hR s.world a hok hw).1 w ha
          refine ⟨rfl, h1, h2, ?_⟩
          show w.count c = _
          rw [h3 c, hn, hz, Int.add_zero]; rfl
      obtain ⟨g1, g2, g3, g4⟩ := hs1
      obtain ⟨k1, new, k2, k3, k4⟩ := ih (Sys.step narrow rnd R owner s (.act a)) g2
        (by rw [g1]; exact hon) (fun j hj => hop j (List.mem_cons_of_mem _ hj))
        (fun j hj => by rw [g3]; exact hact j (List.mem_cons_of_mem _ hj)) hub
      rw [g1] at k1 k2
      exact ⟨k1, new, k2, k3, by rw [k4, g4]⟩
    | sched i =>
      obtain ⟨o1, o2⟩ := hon.step i (fun o ho => hop _ List.mem_cons_self o (by rw [ho]))
      have hstep : Sys.step narrow rnd R owner s (.sched i) =
          (calledSince s.sched.log (Sched.step s.sched i).log).foldl (Sys.call owner)
            { s with sched := Sched.step s.sched i } := by
        unfold Sys.step; rw [if_neg (by simp [hub0])]
      have hs1 : ∃ now, (Sched.step s.sched i).log = now ++ s.sched.log ∧
          (∀ id t, Obs.called id ep t ∈ now → id = n) ∧
          (Sys.step narrow rnd R owner s (.sched i)).sched = Sched.step s.sched i ∧
          (Sys.step narrow rnd R owner s (.sched i)).world.Ok ∧
          (Sys.step narrow rnd R owner s (.sched i)).world.counters = s.world.counters ∧
          (Sys.step narrow rnd R owner s (.sched i)).world.count c =
            s.world.count c + calls ep now := by
        rcases o2 with o2 | ⟨o, o2, o3⟩
        · rw [o2, calledSince_self] at hstep
          rw [hstep, o2]
          exact ⟨[], rfl, by simp, rfl, hw, rfl, by simp [calls]⟩
        · rw [o2, calledSince_cons] at hstep
          rw [o2]
          refine ⟨[o], rfl, fun id t ht => o3 id t (List.mem_singleton.1 ht).symm, ?_⟩
          cases o with
          | skipped id t =>
            rw [hstep]
            exact ⟨rfl, hw, rfl, by simp [calls]⟩
          | called id e t =>
            simp only [List.foldl_cons, List.foldl_nil] at hstep
            rw [hstep] at hub1 ⊢
            by_cases hee : e = ep
            · subst hee
              obtain ⟨q1, q2, q3, q4⟩ := call_same owner { s with sched := Sched.step s.sched i } e c
                ((ho e).2 rfl) hw hub1 hub0
              exact ⟨q1, q4, q3, by rw [q2]; simp [calls]⟩
            · obtain ⟨q1, q2, q3, q4⟩ := call_other owner { s with sched := Sched.step s.sched i } e c
                (fun h => hee ((ho e).1 h)) hw
              exact ⟨q1, q4, q3, by rw [q2]; simp [calls, hee]⟩
      obtain ⟨now, g0, gc, g1, g2, g3, g4⟩ := hs1
      obtain ⟨k1, new, k2, k3, k4⟩ := ih (Sys.step narrow rnd R owner s (.sched i)) g2
        (by rw [g1]; exact o1) (fun j hj => hop j (List.mem_cons_of_mem _ hj))
        (fun j hj => by rw [g3]; exact hact j (List.mem_cons_of_mem _ hj)) hub
      rw [g1] at k1 k2
      refine ⟨k1, new ++ now, ?_, ?_, ?_⟩
      · show (Sched.exec (Sched.step s.sched i) (scheds is)).log = _
        rw [k2, g0, List.append_assoc]
      · intro id t ht
        rcases List.mem_append.1 ht with ht | ht
        · exact k3 id t ht
        · exact gc id t ht
      · rw [k4, g4]
        simp only [calls, List.countP_append]
        omega

/-- Which calls of `ep` a log has, when event `n` and no other has this entry point. -/
theorem calls_occ {ep : Nat} {n : Int} : ∀ {new : List Obs},
    (∀ id t, Obs.called id ep t ∈ new → id = n) →
    (∀ o ∈ occ n new, o = .called n ep o.time) → calls ep new = (occ n new).length := by
  intro new
  induction new with
  | nil => intro _ _; rfl
  | cons o l ih =>
    intro h1 h2
    have ih' := ih (fun id t h => h1 id t (List.mem_cons_of_mem _ h))
      (fun o' h => h2 o' (by
        unfold occ at h ⊢
        rw [List.filter_cons]; split
        · exact List.mem_cons_of_mem _ h
        · exact h))
    unfold calls at ih' ⊢
    unfold occ at ih' h2 ⊢
    rw [List.countP_cons, List.filter_cons, ih']
    by_cases hid : o.id = n
    · have hm := h2 o (by rw [List.filter_cons, if_pos (by simpa using hid)]; exact List.mem_cons_self)
      cases o with
      | skipped id t => cases hm
      | called id e t =>
        simp only [Obs.called.injEq] at hm
        have h3 : (decide ((Obs.called id e t).id = n)) = true := by simpa using hid
        rw [if_pos h3, hm.2.1]
        simp
    · have h3 : ¬ (decide (o.id = n)) = true := by simpa using hid
      cases o with
      | skipped id t => rw [if_neg h3]; simp
      | called id e t =>
        have : e ≠ ep := fun he => hid (h1 id t (by rw [he]; exact List.mem_cons_self))
        rw [if_neg h3]; simp [this]

theorem addTimed_events {s : Sched.State} {k : SimKind} {ep : Nat} {x cyc r n : Int}
    (h : (Sched.apply s (.addTimed k ep x cyc r)).2 = .id n) :
    ∃ e, (Sched.apply s (.addTimed k ep x cyc r)).1.events = s.events.insert n e ∧ e.ep = ep ∧
      (Sched.apply s (.addTimed k ep x cyc r)).1.log = s.log ∧ n = s.lastId + 1 := by
  simp only [Sched.apply, Sched.addTimed] at h ⊢
  split at h
  · simp at h
  · rename_i t ht
    unfold Sched.addEvent at h ⊢
    split at h
    · simp at h
    · rename_i h1
      split at h
      · simp at h
      · rename_i h2
        split at h
        · simp at h
        · rename_i m hm
          simp only [Sched.Res.id.injEq] at h
          subst h
          try simp only [ht, if_neg h1, if_neg h2, hm]
          exact ⟨_, rfl, rfl, trivial, (Sched.chk_some hm).1⟩

/-- **C102, a counter on a schedule (partial).** The entry point `increment` of a counter is
posted as an event of the simulation time, at `x` from now, every `cyc`, repeated `r` times; it
has no other event. The application leaves this event alone, schedules and calls what it likes
otherwise, and does not change this counter itself. At any later moment, the counter has
advanced by the number of occurrences `now₀ + x + j * cyc` that are due: each one before the
current time, none after it, and no more than `r + 1`. Missing: executions with the calls
excluded by `Op.ok`, and the run in which the counter overflows (`C102_overflow`). -/
theorem C102_scheduled_partial (narrow : Fl → Fl) (rnd : Rat → Fl) (R : Registry) (hR : Known R)
    (owner : Nat → Option Nat) (c ep : Nat) (ho : ∀ e, owner e = some c ↔ e = ep)
    (s : Sys) (hs : Reach s.sched) (hw : s.world.Ok) (hub : s.ub = false)
    (hfree : ∀ id e, s.sched.events.find id = some e → e.ep ≠ ep)
    (x cyc r n : Int) (hok : (Op.addTimed .simulation ep x cyc r).ok s.sched)
    (hadd : (Sched.apply s.sched (.addTimed .simulation ep x cyc r)).2 = .id n)
    (is : List Input)
    (hoks : OkRun (Sched.apply s.sched (.addTimed .simulation ep x cyc r)).1 (scheds is))
    (hu : Untouched n (scheds is))
    (hpost : ∀ i ∈ is, ∀ o, i = .sched (.op o) → ¬ o.posts ep)
    (hact : ∀ i ∈ is, ∀ a, i = .act a → Leaves s.world.counters c a)
    (s' : Sys) (hs' : s' = Sys.exec narrow rnd R owner s
      (.sched (.op (.addTimed .simulation ep x cyc r)) :: is))
    (hub' : s'.ub = false) (hf : s'.sched.fault = none) :
    ∃ m : Nat, s'.world.count c = s.world.count c + m ∧
      (0 ≤ r → (m : Int) ≤ r + 1) ∧
      (∀ j : Nat, (r < 0 ∨ (j : Int) ≤ r) → s.sched.now + x + j * cyc < s'.sched.now → j < m) ∧
      (∀ j : Nat, j < m → s.sched.now + x + j * cyc ≤ s'.sched.now) := by
  subst hs'
  obtain ⟨e, he1, he2, he3, he4⟩ := addTimed_events hadd
  have h0 : Sys.exec narrow rnd R owner s (.sched (.op (.addTimed .simulation ep x cyc r)) :: is) =
      Sys.exec narrow rnd R owner
        { s with sched := (Sched.apply s.sched (.addTimed .simulation ep x cyc r)).1 } is := by
    show Sys.exec narrow rnd R owner (Sys.step narrow rnd R owner s _) is = _
    unfold Sys.step
    rw [if_neg (by simp [hub])]
    simp only
    rw [Sched.step_op _ hs.fault, he3, calledSince_self]
    rfl
  rw [h0] at hub' hf ⊢
  have hon : Only ep n (Sched.apply s.sched (.addTimed .simulation ep x cyc r)).1.events := by
    rw [he1]
    have hb : Only ep n s.sched.events := fun id e' h1 h2 => absurd h2 (hfree id e' h1)
    exact hb.insert _ _ fun _ => rfl
  obtain ⟨g1, new, g2, g3, g4⟩ := exec_calls narrow rnd R hR owner ep c n ho is
    { s with sched := (Sched.apply s.sched (.addTimed .simulation ep x cyc r)).1 } hw hon hpost hact
    hub'
  rw [g1] at hf ⊢
  have hfi := Sched.C02_fires_partial hs hok hadd hoks hu hf
  have hocc : occ n (Sched.exec (Sched.apply s.sched (.addTimed .simulation ep x cyc r)).1
      (scheds is)).log = occ n new := by
    have g2' : (Sched.exec (Sched.apply s.sched (.addTimed .simulation ep x cyc r)).1
      (scheds is)).log = new ++ s.sched.log := by rw [← he3]; exact g2
    rw [g2']
    unfold occ
    rw [List.filter_append]
    have : occ n s.sched.log = [] := hs.occ_fresh (by omega)
    unfold occ at this
    rw [this, List.append_nil]
  rw [hocc] at hfi
  obtain ⟨m, f1, f2, f3, f4, f5⟩ := hfi
  have hall : ∀ o ∈ occ n new, o = .called n ep o.time := by
    intro o h
    rcases f2 o h with h | ⟨_, h⟩
    · exact h
    · exact absurd rfl h
  have hm : (occ n new).length = m := by
    have := congrArg List.length f1
    simpa using this
  refine ⟨m, ?_, f3, f4, ?_⟩
  · rw [g4, calls_occ g3 hall, hm]
  · intro j hj
    have : s.sched.now + x + j * cyc ∈ ((occ n new).map Obs.time).reverse := by
      rw [f1]
      exact List.mem_map.2 ⟨j, List.mem_range.2 hj, rfl⟩
    obtain ⟨o, ho1, ho2⟩ := List.mem_map.1 (List.mem_reverse.1 this)
    rw [← ho2]; exact f5 o ho1

/-- A counter counts three occurrences, while the other one is reset and notified. -/
def sampleIn : List Input :=
  [.act (.notify 1 ⟨.Int64, .int 40⟩), .sched .run] ++
    List.replicate 12 (.sched (.tick false)) ++ [.act (.execute 1)] ++
    List.replicate 18 (.sched (.tick false))

example : Reach Sched.init ∧ (Op.addTimed .simulation 7 10 5 2).ok Sched.init ∧
    (Sched.apply Sched.init (.addTimed .simulation 7 10 5 2)).2 = .id 0 ∧
    OkRun (Sched.apply Sched.init (.addTimed .simulation 7 10 5 2)).1 (scheds sampleIn) ∧
    Untouched 0 (scheds sampleIn) ∧
    (∀ i ∈ sampleIn, ∀ o, i = .sched (.op o) → ¬ o.posts 7) ∧
    (∀ i ∈ sampleIn, ∀ a, i = .act a → Leaves [0, 1] 0 a) ∧
    ∃ s', s' = Sys.exec id (fun _ => .nan) initial (fun e => if e = 7 then some 0 else none)
        ⟨Sched.init, ⟨[0, 1], fun _ => 4⟩, false⟩
        (.sched (.op (.addTimed .simulation 7 10 5 2)) :: sampleIn) ∧
      s'.ub = false ∧ s'.sched.fault = none ∧ s'.world.count 0 = 7 ∧ s'.world.count 1 = 45 ∧
      s'.sched.now = 20 := by
  have hin : ∀ i ∈ sampleIn, i = .act (.notify 1 ⟨.Int64, .int 40⟩) ∨ i = .sched .run ∨
      i = .sched (.tick false) ∨ i = .act (.execute 1) := by
    intro i hi
    simp only [sampleIn, List.mem_append, List.mem_cons, List.not_mem_nil, or_false,
      List.mem_replicate] at hi
    rcases hi with (((rfl | rfl) | ⟨_, rfl⟩) | rfl) | ⟨_, rfl⟩ <;> simp
  refine ⟨⟨[], trivial, rfl, rfl⟩, by decide, by decide, by decide, ?_, ?_, ?_,
    _, rfl, rfl, rfl, rfl, rfl, rfl⟩
  · intro i hi o ho
    obtain ⟨j, hj, hji⟩ := List.mem_filterMap.1 hi
    rcases hin j hj with rfl | rfl | rfl | rfl <;> simp at hji <;> rw [← hji] at ho <;> simp at ho
  · intro i hi o ho
    rcases hin i hi with rfl | rfl | rfl | rfl <;> simp at ho
  · intro i hi a ha
    rcases hin i hi with rfl | rfl | rfl | rfl <;> simp at ha
    · subst ha; exact ⟨by simp [Act.Ok, Any.Any.Ok, Any.Kind.Range], rfl, rfl⟩
    · subst ha; exact ⟨trivial, rfl, rfl⟩

end Verif.Example
