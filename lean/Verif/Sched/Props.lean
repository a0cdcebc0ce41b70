import Verif.Sched.ZuluInd

/-
Properties C01-C13 of the scheduler. `Reach s`: `s` is reached from the initial
state by an execution that avoids the calls listed at `Op.ok`, each of which is
shown to break the scheduler in `Sched/Defects.lean`. Theorems that need this
restriction are named `_partial`; the others hold in every state.
-/
namespace Verif.Sched

/-! ### Decidable side conditions, for the examples -/

instance {α : Type} (o : Option α) (P : α → Prop) [DecidablePred P] :
    Decidable (∀ t, o = some t → P t) :=
  match o with
  | none => isTrue (by simp)
  | some a => decidable_of_iff (P a) (by simp)

instance (s : State) (t : Int) : Decidable (PostOk s t) := by unfold PostOk; infer_instance
instance (s : State) (id : Int) (e : Event) : Decidable (Parked s id e) := by
  unfold Parked; infer_instance

instance (s : State) (o : Op) : Decidable (o.ok s) := by
  cases o with
  | setTimed k id x =>
    refine decidable_of_iff (∀ t, target s k x = some t → ∀ e, s.events.find id = some e →
      e.kind = k.kind → Parked s id e ∧ (s.now ≤ t → PostOk s t)) ?_
    exact ⟨fun h t e a b => h t a e b, fun h t a e b => h t e a b⟩
  | _ => unfold Op.ok; infer_instance

instance (s : State) (i : Input) : Decidable (i.ok s) := by
  cases i <;> unfold Input.ok <;> infer_instance

instance decOkRun : (s : State) → (is : List Input) → Decidable (OkRun s is)
  | _, [] => isTrue trivial
  | s, i :: is =>
    have := decOkRun (step s i) is
    inferInstanceAs (Decidable (i.ok s ∧ OkRun (step s i) is))

instance (n : Int) (o : Op) : Decidable (o.touches n) := by
  cases o <;> unfold Op.touches <;> infer_instance

/-- A sample execution: two events at time 10 (one repeating every 5), one mission
event at 20, an immediate event and a Zulu event; the loop runs for `n` steps. -/
def sample (n : Nat) : List Input :=
  [.op (.addTimed .simulation 1 10 5 2), .op (.addTimed .simulation 2 10 0 0),
   .op (.addTimed .mission 3 20 0 0), .op (.addImmediate 4), .op (.addZulu 5 100 1 3 50),
   .run] ++ List.replicate n (.tick false)

theorem sample_reach (n : Nat) (h : OkRun init (sample n) ∧ (exec init (sample n)).fault = none) :
    Reach (exec init (sample n)) := ⟨_, h.1, rfl, h.2⟩

/-! ### C01 -/

/-- **C01 (partial).** Whenever a step invokes an entry point, the simulation time
is the recorded time of the invocation, the entry point is the one of the event,
and unless it is an immediate event the simulation time is the due time of the
event. Missing: executions with the calls excluded by `Op.ok`. -/
theorem C01_due_time_partial {s : State} (hs : Reach s) (i : Input) {id : Int} {ep : Nat} {t : Int}
    (h : (step s i).log = .called id ep t :: s.log) :
    t = s.now ∧ ∃ e, s.events.find id = some e ∧ e.ep = ep ∧ (¬ Immediate s id → e.next = s.now) := by
  have hinv := hs.inv
  have hlen : ∀ {l : List Obs}, l = .called id ep t :: s.log → l ≠ s.log := by
    intro l h1 h2; rw [h1] at h2; have := congrArg List.length h2; simp at this
  have key : ∀ id' f, (startExec s id' f).log = .called id ep t :: s.log →
      (id' ∈ s.pc.immRest ∨ (id' ∈ s.pc.dueRest ∧ s.now = s.iter)) →
      t = s.now ∧ ∃ e, s.events.find id = some e ∧ e.ep = ep ∧
        (¬ Immediate s id → e.next = s.now) := by
    intro id' f hl hloc
    rcases startExec_id (s := s) (id := id') (f := f) with hh | ⟨_, hh | ⟨e, he, _, hh⟩⟩
    · exact absurd hh (hlen hl)
    · rw [hh] at hl; simp at hl
    · rw [hh] at hl
      simp only [List.cons.injEq, Obs.called.injEq, and_true] at hl
      obtain ⟨h1, h2, h3⟩ := hl
      subst h1
      refine ⟨h3.symm, e, he, h2, ?_⟩
      intro hni
      rcases hloc with hl | ⟨hl, hnow⟩
      · exact absurd (Or.inr (Or.inl hl)) hni
      · rw [hnow]; exact (hinv.dues id' e (Or.inl hl) he).1
  cases i with
  | op o =>
    rw [step_op o hs.fault] at h
    exact absurd (apply_log s o).1 (hlen h)
  | run =>
    have : (step s .run).log = s.log := by
      unfold step; rw [if_neg (by simp [hs.fault])]; simp only; split <;> rfl
    exact absurd this (hlen h)
  | tick d =>
    rw [step_tick d hs.fault] at h
    cases hsil : s.pc.silent with
    | true => exact absurd (tick_silent d hsil).2.1 (hlen h)
    | false =>
      match hpc : s.pc with
      | .immFor (id' :: rest) r' =>
        have e : tick s d = startExec s id' (.imm rest r') := by simp [tick, hpc]
        rw [e] at h
        exact key _ _ h (Or.inl (by rw [hpc]; simp [PC.immRest]))
      | .slotFor (id' :: rest) =>
        have e : tick s d = startExec s id' (.due rest) := by simp [tick, hpc]
        rw [e] at h
        exact key _ _ h (Or.inr ⟨by rw [hpc]; simp [PC.dueRest],
          (hinv.late (by rw [hpc]; rfl) (by rw [hpc]; rfl)).1⟩)
      | .cb id' f =>
        have e : tick s d = finish { s with current := -1 } id' f := by simp [tick, hpc]
        rw [e] at h
        exact absurd (by rw [(finish_log _ _ _).1]) (hlen h)
      | .idle | .immTest _ | .immFor [] _ | .preEmit | .waiting | .postEmit | .slotTest
      | .slotFor [] => rw [hpc] at hsil; simp [PC.silent] at hsil

example : Reach (exec init (sample 10)) ∧
    (step (exec init (sample 10)) (.tick false)).log =
      .called 0 1 10 :: (exec init (sample 10)).log ∧ ¬ Immediate (exec init (sample 10)) 0 :=
  ⟨sample_reach 10 (by decide), by decide, by unfold Immediate; decide⟩

/-! ### C02 -/

theorem target_dueAt {s : State} {k : SimKind} {x t : Int} (h : target s k x = some t) :
    t = dueAt s k x := by
  cases k with
  | simulation => exact (chk_some h).1
  | mission =>
    simp only [target, missionTarget, State.missionTime, Option.bind_eq_some_iff] at h
    obtain ⟨a, ha, m, ⟨b, hb, hm⟩, ht⟩ := h
    have := (chk_some ha).1; have := (chk_some hb).1; have := (chk_some hm).1
    have := (chk_some ht).1
    simp only [dueAt]; omega
  | epoch =>
    simp only [target, epochTarget, State.epochTime, Option.bind_eq_some_iff] at h
    obtain ⟨a, ha, m, hm, ht⟩ := h
    have := (chk_some ha).1; have := (chk_some hm).1; have := (chk_some ht).1
    simp only [dueAt]; omega

/-- What has happened to event `n` since it was last placed at time `t` with cycle `c`
and repeat count `r`, when the simulation time is `now`: exactly the occurrences
`t, t+c, ...` in this order (`new`, newest first), at most `r+1` of them if `r` is
not negative, all those before `now` and none after `now`; a simulation-time
event is invoked at each of them, a mission or epoch one is invoked or skipped. -/
def Fires (n t c r : Int) (k : SimKind) (ep : Nat) (now : Int) (new : List Obs) : Prop :=
  ∃ m : Nat,
    (new.map Obs.time).reverse = (List.range m).map (fun j : Nat => t + j * c) ∧
    (∀ o ∈ new, o = .called n ep o.time ∨ (o = .skipped n o.time ∧ k ≠ .simulation)) ∧
    (0 ≤ r → (m : Int) ≤ r + 1) ∧
    (∀ j : Nat, (r < 0 ∨ (j : Int) ≤ r) → t + j * c < now → j < m) ∧
    (∀ o ∈ new, o.time ≤ now)

theorem fires_of_waiting {s : State} (hs : Reach s) {n : Int} {e : Event} {k : SimKind}
    (he : s.events.find n = some e) (hk : e.kind = k.kind) (hslot : n ∈ slotOf s.table e.next)
    {is : List Input} (hok : OkRun s is) (hu : Untouched n is) (hf : (exec s is).fault = none) :
    ∃ new, occ n (exec s is).log = new ++ occ n s.log ∧
      Fires n e.next e.cycle e.rep k e.ep (exec s is).now new := by
  have hinv := hs.inv
  have h0 : Prog n e.next e.cycle e.rep k.kind e.ep (occ n s.log) s 0 := by
    have hu := hinv.uniq n
    refine ⟨⟨[], by simp, by simp [Seen]⟩, ⟨?_, ?_, ?_⟩, ?_, SimKind.kind_ne_zulu k, ?_⟩
    · intro h; have := hu .slot .imm ⟨_, hslot⟩ h; simp at this
    · intro h; have := hu .slot .immRest ⟨_, hslot⟩ h; simp at this
    · intro h; have := hu .slot .running ⟨_, hslot⟩ (PC.immRun_running h); simp at this
    · have := hinv.ids n e he; have := hinv.last; omega
    · left
      refine ⟨?_, e, he, rfl, rfl, hk, by simp, ?_, fun h => by simpa using h⟩
      · intro h; have := hu .slot .running ⟨_, hslot⟩ h; simp at this
      · split <;> simp
  obtain ⟨m, hp⟩ := h0.exec hs hok hu hf
  have hr := hs.exec hok hf
  obtain ⟨O, hO, hS⟩ := hp.occs
  obtain ⟨b1, b2⟩ := hp.bounds hr.inv (hinv.pos n e he)
  refine ⟨O, hO, m, ?_, ?_, b1, b2, ?_⟩
  · rw [hS.1]; simp
  · intro o ho
    rcases hS.2 o ho with h | ⟨h, h'⟩
    · exact Or.inl h
    · exact Or.inr ⟨h, by rintro rfl; exact h' rfl⟩
  · intro o ho
    have : o ∈ occ n (exec s is).log := by rw [hO]; exact List.mem_append_left _ ho
    exact (hr.logOk o (List.mem_filter.1 this).1).2

/-- **C02 (partial).** An event posted with any time kind, cycle and repeat count,
which the application does not touch afterwards, fires as described by `Fires` from
its due time, whatever else is called, held and resumed. Missing: executions with
the calls excluded by `Op.ok`. -/
theorem C02_fires_partial {s : State} (hs : Reach s) {k : SimKind} {ep : Nat} {x c r n : Int}
    (hok : (Op.addTimed k ep x c r).ok s)
    (hadd : (apply s (.addTimed k ep x c r)).2 = .id n)
    {is : List Input} (hoks : OkRun (apply s (.addTimed k ep x c r)).1 is)
    (hu : Untouched n is)
    (hf : (exec (apply s (.addTimed k ep x c r)).1 is).fault = none) :
    Fires n (dueAt s k x) c r k ep (exec (apply s (.addTimed k ep x c r)).1 is).now
      (occ n (exec (apply s (.addTimed k ep x c r)).1 is).log) := by
  generalize hs1 : (apply s (.addTimed k ep x c r)).1 = s1 at *
  have hstep : step s (.op (.addTimed k ep x c r)) = s1 := by rw [step_op _ hs.fault, hs1]
  have hr1 : Reach s1 := by
    rw [← hstep]
    exact hs.step (i := .op (.addTimed k ep x c r)) hok
      (by rw [hstep]; exact fault_none_of_exec hf)
  have hrec : ∃ t, t = dueAt s k x ∧ n = s.lastId + 1 ∧ n ∈ slotOf s1.table t ∧
      s1.events.find n = some ⟨ep, t, stampOf k t x, c, r, k.kind⟩ ∧ s1.log = s.log := by
    rw [← hs1]
    simp only [apply, addTimed] at hadd ⊢
    split at hadd
    · simp at hadd
    · rename_i t ht
      refine ⟨t, target_dueAt ht, ?_⟩
      unfold addEvent at hadd ⊢
      split at hadd
      · simp at hadd
      · rename_i h1
        split at hadd
        · simp at hadd
        · rename_i h2
          split at hadd
          · simp at hadd
          · rename_i m hm
            simp only [Res.id.injEq] at hadd
            subst hadd
            try simp only [ht, if_neg h1, if_neg h2, hm]
            refine ⟨(chk_some hm).1, ?_, ?_, trivial⟩
            · rw [mem_slotOf_post]; exact Or.inl ⟨rfl, rfl⟩
            · exact OMap.find_insert_self _ _ _
  obtain ⟨t, ht, hn, hslot, hfind, hlog⟩ := hrec
  obtain ⟨new, h1, h2⟩ := fires_of_waiting hr1 (k := k) hfind rfl hslot hoks hu hf
  rw [hlog, hs.occ_fresh (by omega), List.append_nil] at h1
  rw [h1, ← ht]
  exact h2

example : Reach init ∧ (Op.addTimed .simulation 1 10 5 2).ok init ∧
    (apply init (.addTimed .simulation 1 10 5 2)).2 = .id 0 ∧
    OkRun (apply init (.addTimed .simulation 1 10 5 2)).1
      (.run :: List.replicate 30 (.tick false)) ∧
    Untouched 0 (.run :: List.replicate 30 (.tick false)) ∧
    (exec (apply init (.addTimed .simulation 1 10 5 2)).1
      (.run :: List.replicate 30 (.tick false))).fault = none ∧
    occ 0 (exec (apply init (.addTimed .simulation 1 10 5 2)).1
      (.run :: List.replicate 30 (.tick false))).log =
        [.called 0 1 20, .called 0 1 15, .called 0 1 10] :=
  ⟨⟨[], trivial, rfl, rfl⟩, by decide, by decide, by decide,
   by
    intro i hi o ho
    rcases List.mem_cons.1 hi with rfl | hi
    · simp at ho
    · rw [List.eq_of_mem_replicate hi] at ho; simp at ho,
   by decide, by decide⟩

/-! ### C03 -/

/-- **C03, first half.** No call and no step of the loop ever lowers the simulation
time, in any state. -/
theorem C03_time_monotone (s : State) (is : List Input) : s.now ≤ (exec s is).now := by
  induction is generalizing s with
  | nil => exact Int.le_refl _
  | cons i is ih => rw [exec_cons]; exact Int.le_trans (step_now s i).1 (ih _)

/-- **C03, second half (partial).** The simulation time never passes the due time of
an event that is still to be executed. Missing: as for C01. -/
theorem C03_no_skip_partial {s : State} (hs : Reach s) {id : Int} {e : Event}
    (he : s.events.find id = some e) (hk : e.kind ≠ .zulu) (hi : ¬ Immediate s id) :
    s.now ≤ e.next := by
  have hinv := hs.inv
  obtain ⟨l, hl⟩ := hinv.cover id e he hk
  cases l with
  | slot =>
    obtain ⟨kk, hk'⟩ := hl
    have := (hinv.slots kk id e hk' he).1
    obtain ⟨l, hl, _⟩ := mem_slotOf hk'
    have := hinv.nowKeys kk l hl
    omega
  | imm => exact absurd (Or.inl hl) hi
  | immRest => exact absurd (Or.inr (Or.inl hl)) hi
  | dueRest =>
    have hd := (hinv.dues id e (Or.inl hl) he).1
    have hlive : s.pc.live = true ∧ s.pc.early = false := by
      have : id ∈ s.pc.dueRest := hl
      unfold PC.dueRest at this
      split at this <;> simp_all [PC.live, PC.early]
      all_goals (rename_i r _; cases r <;> simp_all [Ret.dueRest, Ret.live])
    have := (hinv.late hlive.1 hlive.2).1
    omega
  | running =>
    rcases PC.running_cases hl with hr | hr
    · exact absurd (Or.inr (Or.inr hr)) hi
    · have hd := (hinv.dues id e (Or.inr hr) he).1
      have hlive : s.pc.live = true ∧ s.pc.early = false := by
        unfold PC.dueRun at hr
        split at hr <;> simp_all [PC.live, PC.early]
      have := (hinv.late hlive.1 hlive.2).1
      omega

example : Reach (exec init (sample 17)) ∧ (exec init (sample 17)).now = 10 ∧
    ∃ e, (exec init (sample 17)).events.find 2 = some e ∧ e.kind ≠ .zulu ∧
      ¬ Immediate (exec init (sample 17)) 2 ∧ e.next = 20 :=
  ⟨sample_reach 17 (by decide), by decide, ⟨3, 20, 20, 0, 0, .mission⟩, by decide, by decide, by unfold Immediate; decide, rfl⟩

/-! ### C04 -/

/-- **C04, order (partial).** Two events waiting for the same time, the first with the
smaller identifier, both left alone: whenever (at any later moment) the second has
occurred, the first has occurred too. As a step adds at most one occurrence
(`step_log`), the first one occurs before. Missing: as for C01. -/
theorem C04_order_partial {s : State} (hs : Reach s) {a b T : Int} (ha : a ∈ slotOf s.table T)
    (hb : b ∈ slotOf s.table T) (h0 : 0 ≤ a) (hab : a < b) {is : List Input} (hok : OkRun s is)
    (hua : Untouched a is) (hub : Untouched b is) (hf : (exec s is).fault = none)
    (hocc : occ b (exec s is).log ≠ occ b s.log) :
    (occ a s.log).length < (occ a (exec s is).log).length := by
  have hinv := hs.inv
  have hle : ∀ x, x ∈ slotOf s.table T → x ≤ s.lastId := by
    intro x hx
    have := hinv.exist x .slot ⟨T, hx⟩
    obtain ⟨e, he⟩ := Option.isSome_iff_exists.1 this
    have := hinv.ids x e he
    have := hinv.last
    omega
  have huk : ukey a < ukey b := by unfold ukey; split <;> split <;> omega
  have := OkRun.induction (P := Ordered a b (occ a s.log) (occ b s.log)) hs
    ⟨hle a ha, hle b hb, Or.inl ⟨rfl, rfl, Or.inl ⟨T, ha, hb⟩⟩⟩ hok hf
    (fun s' i hs' hok' hf' hi h => h.step huk hs' hok' hf'
      (fun o ho => ⟨hua i hi o ho, hub i hi o ho⟩))
  rcases this.2.2 with ⟨_, h, _⟩ | h
  · exact absurd h hocc
  · exact h

example : Reach (exec init (sample 0)) ∧ 0 ∈ slotOf (exec init (sample 0)).table 10 ∧
    1 ∈ slotOf (exec init (sample 0)).table 10 ∧
    OkRun (exec init (sample 0)) (List.replicate 20 (.tick false)) ∧
    (exec (exec init (sample 0)) (List.replicate 20 (.tick false))).fault = none ∧
    occ 1 (exec (exec init (sample 0)) (List.replicate 20 (.tick false))).log ≠
      occ 1 (exec init (sample 0)).log :=
  ⟨sample_reach 0 (by decide), by decide, by decide, by decide, by decide, by decide⟩

/-- **C04, immediate events first.** If immediate events are only posted by the
thread running the loop (entry points, subscribers of Pre/PostSimTimeChange, the
application while held), then whenever a step executes an event that is not an
immediate one, no immediate event is waiting. -/
theorem C04_immediate_first (is : List Input) (hloc : ImmLocal init is)
    (hf : (exec init is).fault = none) (d : Bool) {o : Obs}
    (h : (step (exec init is) (.tick d)).log = o :: (exec init is).log)
    (hni : ¬ Immediate (exec init is) o.id) : (exec init is).imm = [] := by
  have hp : ImmFirst (exec init is) := ImmFirst.exec is (fun h => by simp [init] at h) hf hloc
  generalize exec init is = s at *
  have hlen : ∀ {l : List Obs}, l = o :: s.log → l ≠ s.log := by
    intro l h1 h2; rw [h1] at h2; have := congrArg List.length h2; simp at this
  rw [step_tick d hf] at h
  cases hsil : s.pc.silent with
  | true => exact absurd (tick_silent d hsil).2.1 (hlen h)
  | false =>
    match hpc : s.pc with
    | .immFor (id' :: rest) r' =>
      exfalso
      have e : tick s d = startExec s id' (.imm rest r') := by simp [tick, hpc]
      rw [e] at h
      have hid : o.id = id' := by
        rcases startExec_id (s := s) (id := id') (f := .imm rest r') with
          hh | ⟨_, hh | ⟨e, he, _, hh⟩⟩
        · exact absurd hh (hlen h)
        · rw [hh] at h; simp only [List.cons.injEq, and_true] at h; rw [← h]; rfl
        · rw [hh] at h; simp only [List.cons.injEq, and_true] at h; rw [← h]; rfl
      exact hni (Or.inr (Or.inl (by rw [hid, hpc]; simp [PC.immRest])))
    | .slotFor (id' :: rest) => exact hp (Or.inr ⟨_, hpc⟩)
    | .cb id' f =>
      have e : tick s d = finish { s with current := -1 } id' f := by simp [tick, hpc]
      rw [e] at h
      exact absurd (by rw [(finish_log _ _ _).1]) (hlen h)
    | .idle | .immTest _ | .immFor [] _ | .preEmit | .waiting | .postEmit | .slotTest
    | .slotFor [] => rw [hpc] at hsil; simp [PC.silent] at hsil

instance decImmLocal : (s : State) → (is : List Input) → Decidable (ImmLocal s is)
  | _, [] => isTrue trivial
  | s, i :: is =>
    have := decImmLocal (step s i) is
    have : Decidable (∃ ep, i = .op (.addImmediate ep)) := by
      cases i with
      | op o =>
        cases o with
        | addImmediate ep => exact isTrue ⟨ep, rfl⟩
        | _ => exact isFalse (by rintro ⟨_, h⟩; cases h)
      | _ => exact isFalse (by rintro ⟨_, h⟩; cases h)
    inferInstanceAs (Decidable (((∃ ep, i = .op (.addImmediate ep)) → s.pc.callable = true) ∧
      ImmLocal (step s i) is))

example : ImmLocal init (sample 10) ∧ (exec init (sample 10)).fault = none ∧
    (step (exec init (sample 10)) (.tick false)).log =
      .called 0 1 10 :: (exec init (sample 10)).log ∧ ¬ Immediate (exec init (sample 10)) 0 :=
  ⟨by decide, by decide, by decide, by unfold Immediate; decide⟩

/-! ### C05 -/

theorem apply_id {s : State} {o : Op} {n : Int} (h : (apply s o).2 = .id n) :
    s.lastId < n ∧ (apply s o).1.lastId = n := by
  cases o with
  | addImmediate ep =>
    simp only [apply, addImmediate] at h ⊢
    split at h
    · simp at h
    · rename_i m hm
      simp only [Res.id.injEq] at h
      have := (chk_some hm).1
      try simp only [hm]
      exact ⟨by omega, h⟩
  | addTimed k ep x c r =>
    simp only [apply, addTimed] at h ⊢
    split at h
    · simp at h
    · unfold addEvent at h ⊢
      split at h
      · simp at h
      · rename_i h1
        split at h
        · simp at h
        · rename_i h2
          split at h
          · simp at h
          · rename_i m hm
            simp only [Res.id.injEq] at h
            have := (chk_some hm).1
            try simp only [h1, h2, hm, ↓reduceIte]
            exact ⟨by omega, h⟩
  | addZulu ep z c r zn =>
    simp only [apply, addZulu] at h ⊢
    split at h
    · simp at h
    · rename_i h1
      split at h
      · simp at h
      · rename_i h2
        split at h
        · simp at h
        · rename_i m hm
          simp only [Res.id.injEq] at h
          have := (chk_some hm).1
          try simp only [h1, h2, hm, ↓reduceIte]
          exact ⟨by omega, h⟩
  | _ =>
    exfalso
    simp only [apply, setTimed, setEventTime, setZulu, setCycle, setRepeat, remove, setSimTime,
      setEpochTime, setMissionStart, setMissionTime] at h
    (repeat' split at h) <;> simp at h

/-- **C05.** The identifiers returned over any execution, from any state and whatever
is finished, moved or removed in between, are strictly increasing, and larger than
any identifier given before. -/
theorem C05_ids_increase (s : State) (is : List Input) :
    (returned s is).Pairwise (· < ·) ∧ ∀ n ∈ returned s is, s.lastId < n := by
  induction is generalizing s with
  | nil => simp [returned]
  | cons i is ih =>
    obtain ⟨h1, h2⟩ := ih (step s i)
    have hl := (step_now s i).2
    have hrest : ∀ n ∈ returned (step s i) is, s.lastId < n := by
      intro n hn; have := h2 n hn; omega
    unfold returned
    split
    · rename_i o hfault
      split
      · rename_i n hn
        obtain ⟨g1, g2⟩ := apply_id hn
        refine ⟨List.pairwise_cons.2 ⟨?_, h1⟩, ?_⟩
        · intro m hm
          have := h2 m hm
          rw [step_op o hfault, g2] at this
          exact this
        · intro m hm
          rcases List.mem_cons.1 hm with rfl | hm
          · exact g1
          · exact hrest m hm
      · exact ⟨h1, hrest⟩
    · exact ⟨h1, hrest⟩

example : returned init (sample 30) = [0, 1, 2, 3, 4] := by decide

/-! ### C06 -/

/-- **C06 (partial).** In every moment each live event that is not a Zulu event waits
in exactly one of the five places, and in the time table at exactly one time, its
due time. Missing: as for C01. Together with `C02_fires_partial`, whose executions
contain holds and resumptions at any point, nothing is lost or executed twice. -/
theorem C06_one_place_partial {s : State} (hs : Reach s) {id : Int} {e : Event}
    (he : s.events.find id = some e) (hk : e.kind ≠ .zulu) :
    (∃ l, At s id l ∧ ∀ l', At s id l' → l' = l) ∧
    (∀ t, id ∈ slotOf s.table t → t = e.next) ∧
    (∀ t, (slotOf s.table t).Nodup) ∧ s.imm.Nodup := by
  have hinv := hs.inv
  obtain ⟨l, hl⟩ := hinv.cover id e he hk
  exact ⟨⟨l, hl, fun l' h' => hinv.uniq id l' l h' hl⟩,
    fun t ht => ((hinv.slots t id e ht he).1).symm,
    fun t => (hinv.ssorted t).nodup, hinv.isorted.nodup⟩

/-- **C06, held (partial).** When the loop has been left (held), each live event that
is not a Zulu event waits in the time table at its due time or in the immediate queue. -/
theorem C06_held_partial {s : State} (hs : Reach s) (hidle : s.pc = .idle) {id : Int} {e : Event}
    (he : s.events.find id = some e) (hk : e.kind ≠ .zulu) :
    id ∈ slotOf s.table e.next ∨ id ∈ s.imm := by
  have hinv := hs.inv
  obtain ⟨l, hl⟩ := hinv.cover id e he hk
  cases l with
  | slot =>
    obtain ⟨t, ht⟩ := hl
    left; rw [(hinv.slots t id e ht he).1]; exact ht
  | imm => exact Or.inr hl
  | immRest => simp [At, hidle, PC.immRest] at hl
  | dueRest => simp [At, hidle, PC.dueRest] at hl
  | running => simp [At, hidle, PC.running] at hl

/-- Held in the middle of the batch of time 10: event 1 is still there. -/
def heldSample : List Input := sample 11 ++ [.op .hold, .tick false, .tick false, .tick false, .tick false]

example : Reach (exec init heldSample) ∧ (exec init heldSample).pc = .idle ∧
    (∃ e, (exec init heldSample).events.find 1 = some e ∧ e.kind ≠ .zulu) ∧
    occ 0 (exec init heldSample).log ≠ [] ∧ occ 1 (exec init heldSample).log = [] :=
  ⟨⟨_, by decide, rfl, by decide⟩, by decide,
   ⟨{ ep := 2, next := 10, time := 10, cycle := 0, rep := 0, kind := .simulation },
    by decide, by decide⟩, by decide, by decide⟩

/-! ### C07 -/

/-- **C07.** A scheduler or time-keeper call that raises an exception leaves every
datum unchanged, in every state. -/
theorem C07_rejected_no_effect (s : State) (o : Op) (e : Exn) (h : (apply s o).2 = .exn e) :
    (apply s o).1 = s := by
  cases o <;> simp only [apply, addImmediate, addTimed, addEvent, addZulu, setTimed, setEventTime,
    setZulu, setCycle, setRepeat, remove, setSimTime, setEpochTime, setMissionStart,
    setMissionTime] at h ⊢ <;> (repeat' split at h) <;> simp_all <;>
    (split <;> rfl)

example : (apply (exec init (sample 17)) (.addTimed .mission 9 3 1 1)).2 = .exn .InvalidEventTime ∧
    (apply (exec init (sample 17)) (.addTimed .simulation 9 3 0 1)).2 = .exn .InvalidCycleTime ∧
    (apply (exec init (sample 17)) (.remove 77)).2 = .exn .InvalidEventId := by decide

/-! ### C08 -/

theorem remove_gone_or_last {s : State} (hs : Reach s) {n : Int}
    (hdone : (apply s (.remove n)).2 = .done) :
    n ≤ s.lastId ∧
    ((s.current ≠ n ∧ (apply s (.remove n)).1.events.find n = none) ∨
     (s.current = n ∧ ∃ e, s.events.find n = some e ∧
        (apply s (.remove n)).1 = { s with events := s.events.insert n { e with rep := 0 } })) := by
  have hinv := hs.inv
  simp only [apply, remove] at hdone ⊢
  split at hdone
  · simp at hdone
  · rename_i e he
    refine ⟨by have := hinv.ids n e he; have := hinv.last; omega, ?_⟩
    simp only [he]
    by_cases hc : s.current = n
    · right
      rw [if_pos hc]
      exact ⟨hc, e, rfl, rfl⟩
    · left
      rw [if_neg hc]
      refine ⟨hc, ?_⟩
      (repeat' split) <;> simp

/-- **C08 (partial).** After `RemoveEvent(n)` returned, event `n` never occurs again,
whatever is called and run afterwards (if `n` is removed by its own entry point: as
long as that entry point does not touch it again). Missing: removals excluded by
`Op.ok`, for which `Sched/Defects.lean` shows that the claim fails. -/
theorem C08_never_again_partial {s : State} (hs : Reach s) {n : Int}
    (hok : (Op.remove n).ok s) (hdone : (apply s (.remove n)).2 = .done)
    {is : List Input} (hoks : OkRun (apply s (.remove n)).1 is)
    (hself : s.current = n → Untouched n is)
    (hf : (exec (apply s (.remove n)).1 is).fault = none) :
    occ n (exec (apply s (.remove n)).1 is).log = occ n s.log := by
  obtain ⟨hle, hcase⟩ := remove_gone_or_last hs hdone
  have hlog := apply_log s (.remove n)
  have hstep : step s (.op (.remove n)) = (apply s (.remove n)).1 := step_op _ hs.fault
  have hr1 : Reach (apply s (.remove n)).1 := by
    rw [← hstep]
    exact hs.step (i := .op (.remove n)) hok (by rw [hstep]; exact fault_none_of_exec hf)
  have hcur : s.current = n → s.pc.running = some n := by
    intro h
    have hc := hs.inv.cur
    obtain ⟨_, hfind⟩ | ⟨_, e, hfind, _⟩ := hcase
    · rename_i h'; exact absurd h h'
    · cases hh : s.pc.running with
      | none =>
        rw [hh] at hc; simp at hc
        have := hs.inv.ids n e hfind
        omega
      | some j => rw [hh] at hc; simp at hc; rw [← h, hc]
  rcases hcase with ⟨hc, hfind⟩ | ⟨hc, e, hfind, heq⟩
  · have h0 : Gone n (occ n s.log) (apply s (.remove n)).1 :=
      ⟨by rw [hlog.1], Int.le_trans hle hlog.2.2.1, hfind⟩
    exact (OkRun.induction (P := Gone n (occ n s.log)) hr1 h0 hoks hf
      (fun s' i hs' _ hf' _ h => h.step hs' hf')).occs
  · have h0 : Last n (occ n s.log) (apply s (.remove n)).1 := by
      rw [heq]
      exact ⟨rfl, hle, hcur hc, _, OMap.find_insert_self _ _ _, rfl⟩
    have := OkRun.induction
      (P := fun s' => Last n (occ n s.log) s' ∨ Gone n (occ n s.log) s') hr1 (Or.inl h0) hoks hf
      (fun s' i hs' _ hf' hi h => by
        rcases h with h | h
        · exact h.step hs' hf' (hself hc i hi)
        · exact Or.inr (h.step hs' hf'))
    rcases this with h | h
    · exact h.occs
    · exact h.occs

/-- **C08, others (partial).** `RemoveEvent(n)` leaves every other event as it is: its
record and its place, and the position of the loop. -/
theorem C08_others_partial {s : State} {n : Int} (hok : (Op.remove n).ok s)
    {j : Int} (hj : j ≠ n) (hle : j ≤ s.lastId) :
    (apply s (.remove n)).1.events.find j = s.events.find j ∧
    (∀ t, j ∈ slotOf (apply s (.remove n)).1.table t ↔ j ∈ slotOf s.table t) ∧
    (j ∈ (apply s (.remove n)).1.imm ↔ j ∈ s.imm) ∧
    (apply s (.remove n)).1.pc = s.pc := by
  have ht : ¬ (Op.remove n).touches j := fun h => hj h.symm
  obtain ⟨h1, h2, h3, _⟩ := apply_frame (.remove n) hle ht
  exact ⟨h1, fun t => apply_slot _ hle ht hok t, h2, h3⟩

example : Reach (exec init (sample 17)) ∧ (Op.remove 2).ok (exec init (sample 17)) ∧
    (apply (exec init (sample 17)) (.remove 2)).2 = .done ∧
    (exec init (sample 17)).current ≠ 2 ∧
    OkRun (apply (exec init (sample 17)) (.remove 2)).1 (List.replicate 30 (.tick false)) ∧
    (exec (apply (exec init (sample 17)) (.remove 2)).1
      (List.replicate 30 (.tick false))).fault = none :=
  ⟨sample_reach 17 (by decide), by decide, by decide, by decide, by decide, by decide⟩

/-- Removal of a repeating event by its own entry point. -/
example : Reach (exec init (sample 11)) ∧ (Op.remove 0).ok (exec init (sample 11)) ∧
    (apply (exec init (sample 11)) (.remove 0)).2 = .done ∧
    (exec init (sample 11)).current = 0 ∧ (exec init (sample 11)).events.find 0 ≠ none :=
  ⟨sample_reach 11 (by decide), by decide, by decide, by decide, by decide⟩

/-! ### C09 -/

/-- **C09 (partial).** After `SetEvent...Time` on a waiting event with a time that is
not in the past, the event fires from the new due time on (with its cycle and
remaining repeat count), and at no other time, as long as it is left alone. Missing:
calls excluded by `Op.ok`. -/
theorem C09_moved_partial {s : State} (hs : Reach s) {k : SimKind} {n x : Int} {e : Event}
    (hok : (Op.setTimed k n x).ok s) (he : s.events.find n = some e) (hk : e.kind = k.kind)
    (hpast : s.now ≤ dueAt s k x)
    {is : List Input} (hoks : OkRun (apply s (.setTimed k n x)).1 is) (hu : Untouched n is)
    (hf : (exec (apply s (.setTimed k n x)).1 is).fault = none) :
    ∃ new, occ n (exec (apply s (.setTimed k n x)).1 is).log = new ++ occ n s.log ∧
      Fires n (dueAt s k x) e.cycle e.rep k e.ep (exec (apply s (.setTimed k n x)).1 is).now new := by
  have hlog := (apply_log s (.setTimed k n x)).1
  have hf1 := fault_none_of_exec hf
  generalize hs1 : (apply s (.setTimed k n x)).1 = s1 at *
  have hstep : step s (.op (.setTimed k n x)) = s1 := by rw [step_op _ hs.fault, hs1]
  have hr1 : Reach s1 := by
    rw [← hstep]; exact hs.step (i := .op (.setTimed k n x)) hok (by rw [hstep]; exact hf1)
  have hrec : ∃ t tm, t = dueAt s k x ∧ n ∈ slotOf s1.table t ∧
      s1.events.find n = some { e with next := t, time := tm } := by
    rw [← hs1] at hf1 ⊢
    simp only [apply, setTimed] at hf1 ⊢
    split at hf1
    · simp [State.fail] at hf1
    · rename_i t ht
      have htd := target_dueAt ht
      refine ⟨t, stampOf k t x, htd, ?_⟩
      try simp only [ht]
      unfold setEventTime
      simp only [he, hk, ne_eq, not_true_eq_false, ↓reduceIte]
      rw [if_neg (by omega)]
      refine ⟨?_, OMap.find_insert_self _ _ _⟩
      rw [mem_slotOf_post]; exact Or.inl ⟨rfl, rfl⟩
  obtain ⟨t, tm, ht, hslot, hfind⟩ := hrec
  obtain ⟨new, h1, h2⟩ := fires_of_waiting hr1 (k := k) hfind hk hslot hoks hu hf
  exact ⟨new, by rw [h1, hlog], by rw [← ht]; exact h2⟩

/-- **C09, past (partial).** A new time in the past removes the event: it never occurs
again. -/
theorem C09_past_removes_partial {s : State} (hs : Reach s) {k : SimKind} {n x : Int} {e : Event}
    (hok : (Op.setTimed k n x).ok s) (he : s.events.find n = some e) (hk : e.kind = k.kind)
    (hpast : dueAt s k x < s.now)
    {is : List Input} (hoks : OkRun (apply s (.setTimed k n x)).1 is)
    (hf : (exec (apply s (.setTimed k n x)).1 is).fault = none) :
    occ n (exec (apply s (.setTimed k n x)).1 is).log = occ n s.log := by
  have hlog := apply_log s (.setTimed k n x)
  have hf1 := fault_none_of_exec hf
  have hstep : step s (.op (.setTimed k n x)) = (apply s (.setTimed k n x)).1 :=
    step_op _ hs.fault
  have hr1 : Reach (apply s (.setTimed k n x)).1 := by
    rw [← hstep]; exact hs.step (i := .op (.setTimed k n x)) hok (by rw [hstep]; exact hf1)
  have hfind : (apply s (.setTimed k n x)).1.events.find n = none := by
    simp only [apply, setTimed] at hf1 ⊢
    split at hf1
    · simp [State.fail] at hf1
    · rename_i t ht
      have htd := target_dueAt ht
      try simp only [ht]
      unfold setEventTime
      simp only [he, hk, ne_eq, not_true_eq_false, ↓reduceIte]
      rw [if_pos (by omega)]
      exact OMap.find_erase_self _ _
  have h0 : Gone n (occ n s.log) (apply s (.setTimed k n x)).1 :=
    ⟨by rw [hlog.1], by
      have := hs.inv.ids n e he
      have := hs.inv.last
      have := hlog.2.2.1
      omega, hfind⟩
  exact (OkRun.induction (P := Gone n (occ n s.log)) hr1 h0 hoks hf
      (fun s' i hs' _ hf' _ h => h.step hs' hf')).occs

/-- **C09, others.** Every other event keeps its record and its place. -/
theorem C09_others {s : State} {k : SimKind} {n x : Int} (hok : (Op.setTimed k n x).ok s)
    {j : Int} (hj : j ≠ n) (hle : j ≤ s.lastId) :
    (apply s (.setTimed k n x)).1.events.find j = s.events.find j ∧
    (∀ t, j ∈ slotOf (apply s (.setTimed k n x)).1.table t ↔ j ∈ slotOf s.table t) ∧
    (j ∈ (apply s (.setTimed k n x)).1.imm ↔ j ∈ s.imm) ∧
    (apply s (.setTimed k n x)).1.pc = s.pc := by
  have ht : ¬ (Op.setTimed k n x).touches j := fun h => hj h.symm
  obtain ⟨h1, h2, h3, _⟩ := apply_frame (.setTimed k n x) hle ht
  exact ⟨h1, fun t => apply_slot _ hle ht hok t, h2, h3⟩

example : Reach (exec init (sample 17)) ∧ (Op.setTimed .mission 2 40).ok (exec init (sample 17)) ∧
    (∃ e, (exec init (sample 17)).events.find 2 = some e ∧ e.kind = SimKind.mission.kind) ∧
    (exec init (sample 17)).now ≤ dueAt (exec init (sample 17)) .mission 40 ∧
    OkRun (apply (exec init (sample 17)) (.setTimed .mission 2 40)).1
      (List.replicate 40 (.tick false)) ∧
    occ 2 (exec (apply (exec init (sample 17)) (.setTimed .mission 2 40)).1
      (List.replicate 40 (.tick false))).log = [.called 2 3 40] :=
  ⟨sample_reach 17 (by decide), by decide,
   ⟨{ ep := 3, next := 20, time := 20, cycle := 0, rep := 0, kind := .mission }, by decide,
    by decide⟩, by decide, by decide +kernel, by decide +kernel⟩

example : (Op.setTimed .mission 2 4).ok (exec init (sample 17)) ∧
    dueAt (exec init (sample 17)) .mission 4 < (exec init (sample 17)).now ∧
    OkRun (apply (exec init (sample 17)) (.setTimed .mission 2 4)).1
      (List.replicate 40 (.tick false)) ∧
    (exec (apply (exec init (sample 17)) (.setTimed .mission 2 4)).1
      (List.replicate 40 (.tick false))).fault = none := by decide +kernel

/-! ### C10 -/

/-- **C10 (partial).** Every event with a non-zero repeat count has a positive cycle
time, at every moment. Missing: a call of `SetEventCycleTime` with a non-positive value
on an endlessly repeating event, which the code accepts (`C10_fails`). -/
theorem C10_cycle_pos_partial {s : State} (hs : Reach s) {id : Int} {e : Event}
    (he : s.events.find id = some e) (hr : e.rep ≠ 0) : 0 < e.cycle :=
  hs.inv.pos id e he hr

example : Reach (exec init (sample 17)) ∧
    ∃ e, (exec init (sample 17)).events.find 0 = some e ∧ e.rep ≠ 0 :=
  ⟨sample_reach 17 (by decide), ⟨1, 15, 15, 5, 1, .simulation⟩, by decide, by decide⟩

/-! ### C11 -/

/-- Event `id` waits to be executed: it is neither immediate, nor running, nor part of
the batch the loop is executing. -/
def Waiting (s : State) (id : Int) : Prop :=
  (∃ e, s.events.find id = some e ∧ e.kind ≠ .zulu) ∧ ¬ Immediate s id ∧
  s.pc.running ≠ some id ∧ id ∉ s.pc.dueRest

theorem waiting_slot {s : State} (hs : Reach s) {id : Int} {e : Event} (hw : Waiting s id)
    (he : s.events.find id = some e) : id ∈ slotOf s.table e.next := by
  obtain ⟨⟨e', he', hk⟩, h1, h2, h3⟩ := hw
  rw [he] at he'
  simp only [Option.some.injEq] at he'
  subst he'
  obtain ⟨l, hl⟩ := hs.inv.cover id e he hk
  cases l with
  | slot =>
    obtain ⟨t, ht⟩ := hl
    rw [(hs.inv.slots t id e ht he).1]; exact ht
  | imm => exact absurd (Or.inl hl) h1
  | immRest => exact absurd (Or.inr (Or.inl hl)) h1
  | dueRest => exact absurd hl h3
  | running => exact absurd hl h2

/-- **C11, bound (partial).** `GetNextScheduledEventTime` is not after the due time of
any waiting event. -/
theorem C11_next_le_partial {s : State} (hs : Reach s) {id : Int} {e : Event}
    (hw : Waiting s id) (he : s.events.find id = some e) : s.nextScheduled ≤ e.next := by
  obtain ⟨l, hl, _⟩ := mem_slotOf (waiting_slot hs hw he)
  exact nextScheduled_le hs.inv hl

/-- **C11, exactness (partial).** It is the due time of some waiting event, or the
current simulation time (the slot of the pass in progress or just interrupted, now
empty), or the maximal time when the table is empty. Missing: as for C01. -/
theorem C11_next_min_partial {s : State} (hs : Reach s) :
    (∃ id e, Waiting s id ∧ s.events.find id = some e ∧ e.next = s.nextScheduled) ∨
    s.nextScheduled = s.now ∨ s.table = [] ∧ s.nextScheduled = maxI64 := by
  have hinv := hs.inv
  cases hm : s.table.minKey with
  | none =>
    right; right
    exact ⟨OMap.minKey_none hm, by simp [State.nextScheduled, hm]⟩
  | some k =>
    have hk : s.nextScheduled = k := by simp [State.nextScheduled, hm]
    obtain ⟨l, hl⟩ := OMap.minKey_find hm
    cases l with
    | nil => right; left; rw [hk]; exact (hs.emptyOk k hl).1
    | cons id l =>
      left
      have hslot : id ∈ slotOf s.table k := by simp [slotOf, hl]
      obtain ⟨e, he⟩ := Option.isSome_iff_exists.1 (hinv.exist id .slot ⟨k, hslot⟩)
      obtain ⟨h1, h2⟩ := hinv.slots k id e hslot he
      have hu := hinv.uniq id
      refine ⟨id, e, ⟨⟨e, he, h2⟩, ?_, ?_, ?_⟩, he, by rw [h1, hk]⟩
      · rintro (h | h | h)
        · have := hu .slot .imm ⟨k, hslot⟩ h; simp at this
        · have := hu .slot .immRest ⟨k, hslot⟩ h; simp at this
        · have := hu .slot .running ⟨k, hslot⟩ (PC.immRun_running h); simp at this
      · intro h; have := hu .slot .running ⟨k, hslot⟩ h; simp at this
      · intro h; have := hu .slot .dueRest ⟨k, hslot⟩ h; simp at this

example : Reach (exec init (sample 0)) ∧ Waiting (exec init (sample 0)) 2 ∧
    (exec init (sample 0)).nextScheduled = 10 :=
  ⟨sample_reach 0 (by decide),
   ⟨⟨{ ep := 3, next := 20, time := 20, cycle := 0, rep := 0, kind := .mission }, by decide,
     by decide⟩, by unfold Immediate; decide, by decide, by decide⟩, by decide⟩

/-! ### C12 -/

/-- **C12 (partial).** An execution of any length avoiding the calls excluded by
`Op.ok` never uses an erased iterator or event, never looks up an unknown event and
never raises out of the loop; the only way to stop is a 64-bit overflow. Missing: the
calls excluded by `Op.ok` and overflow, both shown to happen in `Sched/Defects.lean`. -/
theorem C12_no_ub_partial (is : List Input) (hok : OkRun init is) :
    (exec init is).fault = none ∨ (exec init is).fault = some .overflow := by
  rcases inv_init.exec rfl is hok with h | h
  · exact Or.inl h.1
  · exact Or.inr h

example : OkRun init (sample 100) := by decide +kernel

/-! ### C13 -/

theorem zulu_op_W {s : State} (hs : Reach s) {n : Int} (hz : ∃ e, s.events.find n = some e ∧
    e.kind = .zulu) (o : Op) (hop : o = .remove n ∨ ∃ z zn, o = .setZulu n z zn)
    (hok : o.ok s) : W n s.pc.live s (apply s o).1 := by
  obtain ⟨e, he, hk⟩ := hz
  have hinv := hs.inv
  rcases hop with rfl | ⟨z, zn, rfl⟩
  · simp only [apply, remove, he, hk, ↓reduceIte]
    split
    · refine W.mk' (s := s) (Z := s.zulu) (b := s.itOk) ?_ (fun _ => rfl)
      intro j hj; exact OMap.find_insert_ne hj _ _
    · rename_i hc
      have hnone : s.table.find e.next = none := by
        rcases hok e he with h | h | h
        · exact absurd h hc
        · exact absurd hk h.1
        · exact h.2
      have her := OMap.erase_absent hnone
      have hlive : s.pc.live = true → e.next ≠ s.iter := by
        intro hl heq
        obtain ⟨_, l, hl'⟩ := hinv.liveIt hl
        rw [← heq, hnone] at hl'; simp at hl'
      have hev : ∀ j, j ≠ n → OMap.find j (s.events.erase n) = s.events.find j :=
        fun j hj => OMap.find_erase_ne hj _
      split
      · simp only [State.eraseKey, her]
        refine W.mk' hev ?_
        intro hl; simp [hlive hl]
      · exact W.mk' hev (fun _ => rfl)
  · simp only [apply, setZulu, he, hk, ne_eq, not_true_eq_false, ↓reduceIte]
    split
    · exact W.mk' (b := s.itOk) (fun j hj => OMap.find_erase_ne hj _) (fun _ => rfl)
    · exact W.mk' (b := s.itOk) (fun j hj => OMap.find_insert_ne hj _ _) (fun _ => rfl)

/-- **C13 (partial).** Removing or moving a Zulu event changes nothing for the other
events: running the same calls and steps with and without that operation gives the
same observations, the same simulation time and the same position of the loop.
Missing: removal of a Zulu event whose Zulu time coincides with a time-table key,
where the code erases that slot (`C13_fails`), and the other calls excluded by `Op.ok`. -/
theorem C13_zulu_independent_partial {s : State} (hs : Reach s) {n : Int}
    (hz : ∃ e, s.events.find n = some e ∧ e.kind = .zulu)
    (o : Op) (hop : o = .remove n ∨ ∃ z zn, o = .setZulu n z zn) (hok : o.ok s)
    {is : List Input} (hoks : OkRun s is) (hu : Untouched n is) (hf : (exec s is).fault = none) :
    (exec (apply s o).1 is).log = (exec s is).log ∧
    (exec (apply s o).1 is).now = (exec s is).now ∧
    (exec (apply s o).1 is).pc = (exec s is).pc ∧
    (exec (apply s o).1 is).fault = none := by
  have hrec : ZuluRec n s := by
    refine ⟨?_, hz⟩
    obtain ⟨e, he, _⟩ := hz
    have := hs.inv.ids n e he
    have := hs.inv.last
    omega
  have h := (zulu_op_W hs hz o hop hok).exec hs hrec hoks hf hu
  exact ⟨h.log, h.now, h.pc, by rw [h.fault]; exact hf⟩

example : Reach (exec init (sample 17)) ∧
    (∃ e, (exec init (sample 17)).events.find 4 = some e ∧ e.kind = .zulu) ∧
    (Op.remove 4).ok (exec init (sample 17)) ∧
    OkRun (exec init (sample 17)) (List.replicate 40 (.tick false)) ∧
    (exec (exec init (sample 17)) (List.replicate 40 (.tick false))).fault = none :=
  ⟨sample_reach 17 (by decide), ⟨⟨5, 100, 100, 1, 3, .zulu⟩, by decide, rfl⟩, by decide, by decide +kernel, by decide +kernel⟩

end Verif.Sched
