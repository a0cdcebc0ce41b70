import Verif.Event.Lemmas

/-
Properties C16-C19 of the event manager.
-/
namespace Verif.Event

/-- States reached from the initial one by any calls and emission steps. -/
def Reach (s : State) : Prop := ∃ is, s = exec init is

theorem Reach.inv {s : State} (h : Reach s) : Inv s.mgr := by
  obtain ⟨is, rfl⟩ := h; exact Inv.exec (s := init) inv_init is

/-- An execution used in the examples: a user event with two subscribers, the second
subscribed to a predefined event too. -/
def sample : List Input :=
  [.query (some "A"), .query (some "B"), .subscribe 20 7, .subscribe 20 8, .subscribe 4 8]

/-! ### C16 -/

/-- **C16, stability.** A name keeps the id it got, whatever happens afterwards. -/
theorem C16_stable {s : State} {name : Option String} {k : Int}
    (h : (s.mgr.query name).2 = .ok k) (is : List Input) :
    ((exec (step s (.query name)) is).mgr.query name).2 = .ok k := by
  obtain ⟨n, rfl, hn, hf, _⟩ := query_ok h
  rw [query_known hn (exec_events is hf)]

/-- **C16, injectivity.** Two queries, with anything in between, give the same id only
for the same name. -/
theorem C16_injective {s : State} (hs : Reach s) {n₁ n₂ : Option String} {k : Int}
    (h₁ : (s.mgr.query n₁).2 = .ok k) (is : List Input)
    (h₂ : ((exec (step s (.query n₁)) is).mgr.query n₂).2 = .ok k) : n₁ = n₂ := by
  obtain ⟨a, rfl, ha, hfa, _⟩ := query_ok h₁
  obtain ⟨b, rfl, hb, hfb, _⟩ := query_ok h₂
  have hinv := ((hs.inv.step (.query (some a))).exec is)
  have hi2 := hinv.step (.query (some b))
  have h1 := step_events (.query (some b)) (exec_events (s := step s (.query (some a))) is hfa)
  have h2 : (step (exec (step s (.query (some a))) is) (.query (some b))).mgr.events.find b
    = some k := hfb
  have e1 := (hi2.find _ _).1 h1
  have e2 := (hi2.find _ _).1 h2
  rw [e1] at e2
  simpa using e2

/-- The events of the SMP standard, in the order of their numbers, which start with 1. -/
def standard : List String :=
  ["SMP_LeaveConnecting", "SMP_EnterInitialising", "SMP_LeaveInitialising",
   "SMP_EnterStandby", "SMP_LeaveStandby", "SMP_EnterExecuting", "SMP_LeaveExecuting",
   "SMP_EnterStoring", "SMP_LeaveStoring", "SMP_EnterRestoring", "SMP_LeaveRestoring",
   "SMP_EnterExiting", "SMP_EnterAborting", "SMP_EpochTimeChanged", "SMP_MissionTimeChanged",
   "SMP_EnterReconnecting", "SMP_LeaveReconnecting", "SMP_PreSimTimeChange",
   "SMP_PostSimTimeChange"]

theorem predefined_standard : predefined = standard.mapIdx (fun i n => (n, (i : Int) + 1)) := by
  decide +kernel

/-- **C16, predefined events.** A predefined name has its standard id, and no other name
ever gets one of these ids. -/
theorem C16_predefined {s : State} (hs : Reach s) {n : String} {k : Int}
    (h : (s.mgr.query (some n)).2 = .ok k) :
    (∃ i : Nat, standard[i]? = some n ∧ k = i + 1) ∨ (n ∉ standard ∧ 20 ≤ k) := by
  suffices h : ((n, k) ∈ predefined) ∨ (n ∉ predefined.map Prod.fst ∧ 20 ≤ k) by
    have hnames : predefined.map Prod.fst = standard := by decide +kernel
    rw [hnames] at h
    refine h.imp_left fun hm => ?_
    rw [predefined_standard, List.mem_mapIdx] at hm
    obtain ⟨i, hi, he⟩ := hm
    cases he
    exact ⟨i, List.getElem?_eq_getElem hi, rfl⟩
  obtain ⟨a, ha, hne, hf, _⟩ := query_ok h
  simp only [Option.some.injEq] at ha
  subst ha
  obtain ⟨is, rfl⟩ := hs
  have hinv := (Inv.exec (s := init) inv_init is).step (.query (some n))
  have hf : (step (exec init is) (.query (some n))).mgr.events.find n = some k := hf
  have hmem : ∀ p ∈ predefined, Mgr.init.events.find p.1 = some p.2 := by decide +kernel
  have hkeep : ∀ p ∈ predefined,
      (step (exec init is) (.query (some n))).mgr.events.find p.1 = some p.2 :=
    fun p hp => step_events _ (exec_events (s := init) is (hmem p hp))
  by_cases hn : n ∈ predefined.map Prod.fst
  · left
    obtain ⟨⟨x, y⟩, hp, rfl⟩ := List.mem_map.1 hn
    have := hkeep _ hp
    rw [hf] at this
    simp only [Option.some.injEq] at this
    rw [this]; exact hp
  · right
    refine ⟨hn, ?_⟩
    have hb := hinv.bound n k (Assoc.mem_of_find hf)
    have hall : ∀ j ∈ List.range 19, ∃ p ∈ predefined, p.2 = (j : Int) + 1 := by decide +kernel
    by_cases hk : k ≤ 19
    · exfalso
      obtain ⟨p, hp, hp2⟩ := hall (k - 1).toNat (by simp; omega)
      have e1 := (hinv.find _ _).1 (hkeep p hp)
      have e2 := (hinv.find _ _).1 hf
      rw [show p.2 = k by omega, e2] at e1
      simp only [Option.some.injEq] at e1
      exact hn (List.mem_map.2 ⟨p, hp, e1.symm⟩)
    · omega

/-- **C16, rejection.** Exactly the null and the empty name are rejected, without effect. -/
theorem C16_rejects (m : Mgr) (name : Option String) :
    ((m.query name).2 = .error .InvalidEventName ↔ name = none ∨ name = some "") ∧
    ((m.query name).2 = .error .InvalidEventName → (m.query name).1 = m) := by
  unfold Mgr.query
  cases name with
  | none => simp
  | some n =>
    simp only
    split
    · simp_all
    · split <;> simp_all

example : Reach (exec init sample) ∧ ((exec init sample).mgr.query (some "C")).2 = .ok 22 ∧
    ((exec init sample).mgr.query (some "B")).2 = .ok 21 ∧
    ((exec init sample).mgr.query (some "SMP_EnterStandby")).2 = .ok 4 ∧
    ((exec init sample).mgr.query (some "")).2 = .error .InvalidEventName :=
  ⟨⟨_, rfl⟩, by decide +kernel, by decide +kernel, by decide +kernel, by decide +kernel⟩

/-- **C16 fails** across a restored breakpoint: the id a name got after the breakpoint was
stored is given to another name after it was restored. -/
theorem C16_restore_fails : ∃ m : Mgr, Inv m ∧
    (m.query (some "A")).2 = .ok 20 ∧ (m.restore.query (some "B")).2 = .ok 20 ∧
    ((m.query (some "A")).1.restore.query (some "B")).2 = .ok 21 :=
  ⟨Mgr.init, inv_init, by decide +kernel, by decide +kernel, by decide +kernel⟩

/-- Restoring a breakpoint into any state gives exactly the stored names, ids and
subscriptions. -/
theorem C16_restore {m : Mgr} (h : Inv m) (i : Int) :
    m.restore.events = m.events ∧ m.restore.subs = m.subs ∧
    m.restore.ids.find i = m.ids.find i ∧ Inv m.restore := by
  have hv : (m.events.map Prod.snd).Nodup := by
    have h1 := h.enodup
    unfold Assoc.Nodup at h1
    unfold List.Nodup at *
    rw [List.pairwise_map] at h1 ⊢
    refine List.Pairwise.imp_of_mem ?_ h1
    intro p q hp hq hne heq
    have hp' := Assoc.find_of_mem h.inodup ((h.inv p.1 p.2).1 hp)
    have hq' := Assoc.find_of_mem h.inodup ((h.inv q.1 q.2).1 hq)
    rw [heq, hq'] at hp'
    simp only [Option.some.injEq] at hp'
    exact hne hp'.symm
  have hids : m.restore.ids = m.events.map (fun p => (p.2, p.1)) := by
    show rebuildIds m.events = _
    unfold rebuildIds
    rw [rebuild_aux _ _ (by simp [Assoc.find]) hv]; simp
  have hmem : ∀ i n, (i, n) ∈ m.restore.ids ↔ (i, n) ∈ m.ids := by
    intro i n
    rw [hids, ← h.inv, List.mem_map]
    constructor
    · rintro ⟨⟨a, b⟩, hp, he⟩
      simp only [Prod.mk.injEq] at he
      rw [← he.1, ← he.2]; exact hp
    · intro hp; exact ⟨_, hp, rfl⟩
  have hnod : m.restore.ids.Nodup := by
    unfold Assoc.Nodup; rw [hids, List.map_map]; exact hv
  refine ⟨rfl, rfl, ?_, ⟨h.enodup, hnod, h.bound, ?_, h.snodup⟩⟩
  · cases hf : m.ids.find i with
    | some n => exact Assoc.find_of_mem hnod ((hmem _ _).2 (Assoc.mem_of_find hf))
    | none =>
      cases hf' : m.restore.ids.find i with
      | none => rfl
      | some n =>
        rw [Assoc.find_of_mem h.inodup ((hmem _ _).1 (Assoc.mem_of_find hf'))] at hf
        simp at hf
  · intro n i; rw [hmem]; exact h.inv n i

/-! ### C17 -/

/-- Entry points executed so far by emission `em`, in order of execution. -/
def executed (s : State) (em : Nat) : List Nat :=
  ((s.log.filter (fun p => p.1 = em)).map Prod.snd).reverse

/-- What emission `em` has still to execute. -/
def pendingOf (s : State) (em : Nat) : List Nat :=
  ((s.stack.filter (fun f => f.em = em)).map Frame.rest).flatten

/-- Emission numbers on the stack and in the log are old, and different on the stack. -/
structure EmOk (s : State) : Prop where
  stack : ∀ f ∈ s.stack, f.em < s.next
  log : ∀ p ∈ s.log, p.1 < s.next
  nodup : (s.stack.map Frame.em).Nodup

theorem EmOk.step {s : State} (h : EmOk s) (i : Input) : EmOk (step s i) := by
  have a := h.stack; have b := h.log; have c := h.nodup
  cases i with
  | query n => exact ⟨a, b, c⟩
  | subscribe i ep => exact ⟨a, b, c⟩
  | unsubscribe i ep => exact ⟨a, b, c⟩
  | emit i =>
    unfold Event.step; simp only
    split
    · exact h
    · refine ⟨?_, ?_, ?_⟩
      · intro f hf
        rcases List.mem_cons.1 hf with rfl | hf
        · exact Nat.lt_succ_self _
        · exact Nat.lt_succ_of_lt (a f hf)
      · intro p hp; exact Nat.lt_succ_of_lt (b p hp)
      · simp only [List.map_cons, List.nodup_cons]
        refine ⟨?_, c⟩
        intro hm
        obtain ⟨f, hf, he⟩ := List.mem_map.1 hm
        have := a f hf; omega
  | advance =>
    unfold Event.step; simp only
    split
    · exact h
    · rename_i st heq
      rw [heq] at a c
      refine ⟨fun f hf => a f (List.mem_cons_of_mem _ hf), b, ?_⟩
      simp only [List.map_cons, List.nodup_cons] at c
      exact c.2
    · rename_i em ep r st heq
      rw [heq] at a c
      refine ⟨?_, ?_, ?_⟩
      · intro f hf
        rcases List.mem_cons.1 hf with rfl | hf
        · exact a ⟨em, ep :: r⟩ List.mem_cons_self
        · exact a f (List.mem_cons_of_mem _ hf)
      · intro p hp
        rcases List.mem_cons.1 hp with rfl | hp
        · exact a ⟨em, ep :: r⟩ List.mem_cons_self
        · exact b p hp
      · simpa using c

theorem EmOk.exec {s : State} (h : EmOk s) (is : List Input) : EmOk (exec s is) := by
  induction is generalizing s with
  | nil => exact h
  | cons i is ih => exact ih (h.step i)

/-- One step neither loses nor adds anything to an emission in progress or finished. -/
theorem step_emission {s : State} (h : EmOk s) (i : Input) {em : Nat} (hem : em < s.next) :
    em < (step s i).next ∧
    executed (step s i) em ++ pendingOf (step s i) em = executed s em ++ pendingOf s em := by
  cases i with
  | query n => exact ⟨hem, rfl⟩
  | subscribe i ep => exact ⟨hem, rfl⟩
  | unsubscribe i ep => exact ⟨hem, rfl⟩
  | emit i =>
    unfold Event.step; simp only
    split
    · exact ⟨hem, rfl⟩
    · refine ⟨Nat.lt_succ_of_lt hem, ?_⟩
      unfold executed pendingOf
      simp only [List.filter_cons]
      rw [if_neg (by simp; omega)]
  | advance =>
    unfold Event.step; simp only
    split
    · exact ⟨hem, rfl⟩
    · rename_i heq
      refine ⟨hem, ?_⟩
      unfold executed pendingOf
      rw [heq]
      simp only [List.filter_cons]
      split <;> simp
    · rename_i e ep r st heq
      refine ⟨hem, ?_⟩
      have c := h.nodup
      rw [heq] at c
      simp only [List.map_cons, List.nodup_cons] at c
      unfold executed pendingOf
      rw [heq]
      simp only [List.filter_cons]
      by_cases he : e = em
      · subst he; simp
      · simp [he]

theorem exec_emission {s : State} (h : EmOk s) (is : List Input) {em : Nat} (hem : em < s.next) :
    executed (exec s is) em ++ pendingOf (exec s is) em = executed s em ++ pendingOf s em := by
  induction is generalizing s with
  | nil => rfl
  | cons i is ih =>
    have hs := step_emission h i hem
    exact (ih (h.step i) hs.1).trans hs.2

theorem Reach.emOk {s : State} (h : Reach s) : EmOk s := by
  obtain ⟨is, rfl⟩ := h
  exact EmOk.exec ⟨by simp [init], by simp [init], by simp [init]⟩ is

/-- Entry points subscribed to event `i`, in order of subscription. -/
def subscribers (m : Mgr) (i : Int) : List Nat := (m.subs.find i).getD []

/-- **C17.** An emission of a known event executes, in subscription order, exactly the
entry points subscribed at the moment of `Emit`, whatever is called meanwhile
(including subscriptions, unsubscriptions and nested emissions by the executed entry
points): at any later moment what it executed followed by what it will execute is that
list, and once it is no longer on the stack it has executed all of it. -/
theorem C17_snapshot {s : State} (hs : Reach s) {i : Int} {l : List Nat}
    (hl : s.mgr.snapshot i = .ok l) (is : List Input) :
    l = subscribers s.mgr i ∧
    executed (exec (step s (.emit i)) is) s.next ++ pendingOf (exec (step s (.emit i)) is) s.next
      = subscribers s.mgr i ∧
    ((∀ f ∈ (exec (step s (.emit i)) is).stack, f.em ≠ s.next) →
      executed (exec (step s (.emit i)) is) s.next = subscribers s.mgr i) := by
  have hem := hs.emOk
  have hls : l = subscribers s.mgr i := by
    unfold Mgr.snapshot at hl
    split at hl
    · simp at hl
    · simp only [Except.ok.injEq] at hl; exact hl.symm
  have h0 : executed (step s (.emit i)) s.next ++ pendingOf (step s (.emit i)) s.next = l := by
    unfold Event.step
    simp only [hl]
    have e1 : s.log.filter (fun p => p.1 = s.next) = [] := by
      rw [List.filter_eq_nil_iff]
      intro p hp
      have := hem.log p hp
      simp; omega
    have e2 : s.stack.filter (fun f => f.em = s.next) = [] := by
      rw [List.filter_eq_nil_iff]
      intro p hp
      have := hem.stack p hp
      simp; omega
    unfold executed pendingOf
    simp [e1, e2]
  have hlt : s.next < (step s (.emit i)).next := by
    unfold Event.step; simp [hl]
  have hex := (exec_emission (hem.step (.emit i)) is hlt).trans h0
  refine ⟨hls, hex.trans hls, ?_⟩
  intro hno
  have : pendingOf (exec (step s (.emit i)) is) s.next = [] := by
    unfold pendingOf
    rw [List.filter_eq_nil_iff.2 (fun f hf => by simpa using hno f hf)]; rfl
  rw [this, List.append_nil] at hex
  exact hex.trans hls

/-- **C17, once each.** No entry point is executed twice by the same emission. -/
theorem C17_once {s : State} (hs : Reach s) {i : Int} {l : List Nat}
    (hl : s.mgr.snapshot i = .ok l) (is : List Input) :
    (executed (exec (step s (.emit i)) is) s.next).Nodup := by
  have h := (C17_snapshot hs hl is).2.1
  have hn : (subscribers s.mgr i).Nodup := by
    unfold subscribers
    cases hf : s.mgr.subs.find i with
    | none => simp
    | some l => exact hs.inv.snodup _ _ hf
  rw [← h] at hn
  exact (List.nodup_append.1 hn).1

/-- **C17, order.** A successful subscription puts the entry point behind those subscribed
before; a successful unsubscription takes out that entry point only; other events and
other calls keep the list. -/
theorem C17_order (m : Mgr) (i : Int) (ep : Nat) :
    ((m.subscribe i ep).2 = .ok () →
      subscribers (m.subscribe i ep).1 i = subscribers m i ++ [ep]) ∧
    ((m.unsubscribe i ep).2 = .ok () →
      subscribers (m.unsubscribe i ep).1 i = (subscribers m i).erase ep) ∧
    (∀ j, j ≠ i → subscribers (m.subscribe i ep).1 j = subscribers m j ∧
      subscribers (m.unsubscribe i ep).1 j = subscribers m j) ∧
    (∀ name j, subscribers (m.query name).1 j = subscribers m j) := by
  refine ⟨?_, ?_, ?_, ?_⟩
  · unfold Mgr.subscribe subscribers
    (repeat' split) <;> simp_all [Assoc.find_tryEmplace]
  · unfold Mgr.unsubscribe subscribers
    (repeat' split) <;> simp_all
  · intro j hj
    unfold Mgr.subscribe Mgr.unsubscribe subscribers
    constructor <;> (repeat' split) <;> simp_all [Assoc.find_tryEmplace, Assoc.find_set]
  · intro name j
    unfold Mgr.query subscribers
    (repeat' split) <;> rfl

/-- Two subscribers; the first one unsubscribes the second and subscribes a third while
the event is being emitted: the emission still executes 7 and 8. -/
example : Reach (exec init sample) ∧ (exec init sample).mgr.snapshot 20 = .ok [7, 8] ∧
    executed (exec (step (exec init sample) (.emit 20))
      [.advance, .unsubscribe 20 8, .subscribe 20 9, .emit 20, .advance, .advance, .advance,
       .advance, .advance]) 0 = [7, 8] ∧
    executed (exec (step (exec init sample) (.emit 20))
      [.advance, .unsubscribe 20 8, .subscribe 20 9, .emit 20, .advance, .advance, .advance,
       .advance, .advance]) 1 = [7, 9] :=
  ⟨⟨_, rfl⟩, by decide +kernel, by decide +kernel, by decide +kernel⟩

/-! ### C18 -/

/-- An id is known iff some name has it: querying that name returns it and changes nothing. -/
def Known (m : Mgr) (i : Int) : Prop := ∃ n, n ≠ "" ∧ m.query (some n) = (m, .ok i)

theorem known_iff {s : State} (hs : Reach s) (hne : s.mgr.events.find "" = none) (i : Int) :
    Known s.mgr i ↔ (s.mgr.ids.find i).isSome := by
  constructor
  · rintro ⟨n, hn, hq⟩
    have h2 : (s.mgr.query (some n)).2 = .ok i := by rw [hq]
    obtain ⟨a, ha, _, hf, _⟩ := query_ok h2
    simp only [Option.some.injEq] at ha
    subst ha
    rw [hq] at hf
    rw [(hs.inv.find _ _).1 hf]; rfl
  · intro h
    obtain ⟨n, hn⟩ := Option.isSome_iff_exists.1 h
    have hf := (hs.inv.find n i).2 hn
    have hnn : n ≠ "" := by rintro rfl; rw [hne] at hf; simp at hf
    exact ⟨n, hnn, query_known hnn hf⟩

theorem exec_noempty (is : List Input) : ∀ s : State, s.mgr.events.find "" = none →
    (exec s is).mgr.events.find "" = none := by
  induction is with
  | nil => exact fun s h => h
  | cons i is ih =>
    intro s h
    refine ih _ ?_
    cases i with
    | query m =>
      simp only [Event.step, Mgr.query]
      split
      · exact h
      · split
        · exact h
        · rename_i hn
          split
          · exact h
          · simp only [Assoc.find_tryEmplace]
            rw [if_neg (by rintro ⟨h, _⟩; exact hn h.symm), h]
    | subscribe i ep => simp only [Event.step, Mgr.subscribe]; (repeat' split) <;> exact h
    | unsubscribe i ep => simp only [Event.step, Mgr.unsubscribe]; (repeat' split) <;> exact h
    | emit i => unfold Event.step; simp only; split <;> exact h
    | advance => unfold Event.step; simp only; split <;> exact h

theorem Reach.noempty {s : State} (h : Reach s) : s.mgr.events.find "" = none := by
  obtain ⟨is, rfl⟩ := h; exact exec_noempty is _ (by decide +kernel)

/-- **C18, Subscribe.** It fails with `InvalidEventId` iff the id is unknown, with
`EntryPointAlreadySubscribed` iff it is known and the entry point is subscribed to it,
and it succeeds otherwise. -/
theorem C18_subscribe {s : State} (hs : Reach s) (i : Int) (ep : Nat) :
    ((s.mgr.subscribe i ep).2 = .error .InvalidEventId ↔ ¬ Known s.mgr i) ∧
    ((s.mgr.subscribe i ep).2 = .error .EntryPointAlreadySubscribed ↔
      Known s.mgr i ∧ ep ∈ subscribers s.mgr i) ∧
    ((s.mgr.subscribe i ep).2 = .ok () ↔ Known s.mgr i ∧ ep ∉ subscribers s.mgr i) := by
  rw [known_iff hs hs.noempty]
  unfold Mgr.subscribe Mgr.eventName subscribers
  cases h1 : s.mgr.ids.find i with
  | none => simp
  | some n =>
    cases h2 : s.mgr.subs.find i with
    | none => simp
    | some l => by_cases h3 : ep ∈ l <;> simp [h3]

/-- **C18, Unsubscribe.** It fails with `InvalidEventId` iff the id is unknown, with
`EntryPointNotSubscribed` iff it is known and the entry point is not subscribed to it. -/
theorem C18_unsubscribe {s : State} (hs : Reach s) (i : Int) (ep : Nat) :
    ((s.mgr.unsubscribe i ep).2 = .error .InvalidEventId ↔ ¬ Known s.mgr i) ∧
    ((s.mgr.unsubscribe i ep).2 = .error .EntryPointNotSubscribed ↔
      Known s.mgr i ∧ ep ∉ subscribers s.mgr i) ∧
    ((s.mgr.unsubscribe i ep).2 = .ok () ↔ Known s.mgr i ∧ ep ∈ subscribers s.mgr i) := by
  rw [known_iff hs hs.noempty]
  unfold Mgr.unsubscribe Mgr.eventName subscribers
  cases h1 : s.mgr.ids.find i with
  | none => simp
  | some n =>
    cases h2 : s.mgr.subs.find i with
    | none => simp
    | some l => by_cases h3 : ep ∈ l <;> simp [h3]

/-- **C18, no effect.** A rejected call leaves the event manager as it was. -/
theorem C18_no_effect (m : Mgr) (i : Int) (ep : Nat) (e : Exn) :
    ((m.subscribe i ep).2 = .error e → (m.subscribe i ep).1 = m) ∧
    ((m.unsubscribe i ep).2 = .error e → (m.unsubscribe i ep).1 = m) := by
  unfold Mgr.subscribe Mgr.unsubscribe
  constructor <;> (repeat' split) <;> simp

example : Known (exec init sample).mgr 20 ∧ 7 ∈ subscribers (exec init sample).mgr 20 ∧
    ((exec init sample).mgr.subscribe 20 7).2 = .error .EntryPointAlreadySubscribed ∧
    ((exec init sample).mgr.unsubscribe 4 7).2 = .error .EntryPointNotSubscribed ∧
    ((exec init sample).mgr.subscribe 22 7).2 = .error .InvalidEventId :=
  ⟨⟨"A", by decide +kernel, by decide +kernel⟩, by decide +kernel, by decide +kernel,
   by decide +kernel, by decide +kernel⟩

/-! ### C19 -/

/-- Invariant of concurrent queries. -/
structure CInv (s : CState) : Prop where
  enodup : s.mgr.events.Nodup
  bound : ∀ n i, (n, i) ∈ s.mgr.events → 1 ≤ i ∧ i ≤ s.mgr.events.length
  inj : ∀ n n' i, s.mgr.events.find n = some i → s.mgr.events.find n' = some i → n = n'
  ret : ∀ t n i, (t, n, i) ∈ s.returned → s.mgr.events.find n = some i
  pend : ∀ t n i, (t, n, i) ∈ s.pending → s.mgr.events.find n = some i
  ids : ∀ n i, s.mgr.events.find n = some i →
    s.mgr.ids.find i = some n ∨ ∃ t, (t, n, i) ∈ s.pending
  sound : ∀ n i, s.mgr.ids.find i = some n → s.mgr.events.find n = some i

theorem cinv_init : CInv CState.init := by
  have h := inv_init
  refine ⟨h.enodup, h.bound, ?_, ?_, ?_, ?_, ?_⟩
  · intro n n' i h1 h2
    have e1 := (h.find _ _).1 h1
    rw [(h.find _ _).1 h2] at e1
    simpa using e1.symm
  · intro t n i h; simp [CState.init] at h
  · intro t n i h; simp [CState.init] at h
  · intro n i h1; exact Or.inl ((h.find _ _).1 h1)
  · intro n i h1; exact (h.find _ _).2 h1

theorem CInv.step {s : CState} (h : CInv s) (i : CInput) : CInv (s.step i) := by
  have hr := h.ret
  have hp := h.pend
  have hi := h.ids
  have hs := h.sound
  cases i with
  | start t n =>
    unfold CState.step; simp only
    split
    · exact h
    · split
      · rename_i k hk
        refine ⟨h.enodup, h.bound, h.inj, ?_, h.pend, h.ids, h.sound⟩
        intro t' n' i' hm
        rcases List.mem_cons.1 hm with he | hm
        · simp only [Prod.mk.injEq] at he
          obtain ⟨_, rfl, rfl⟩ := he
          exact hk
        · exact hr _ _ _ hm
      · rename_i hk
        have hfresh : ∀ m, s.mgr.events.find m ≠ some (s.mgr.events.length + 1) := by
          intro m hm
          have := h.bound m _ (Assoc.mem_of_find hm)
          omega
        have hkeep : ∀ m j, s.mgr.events.find m = some j →
            Assoc.find m (s.mgr.events.tryEmplace n ((s.mgr.events.length : Int) + 1)) = some j := by
          intro m j hm
          rw [Assoc.find_tryEmplace, if_neg (by rw [hm]; simp), hm]
        refine ⟨h.enodup.tryEmplace, ?_, ?_, ?_, ?_, ?_, ?_⟩
        · intro a i ha
          simp only at ha ⊢
          rw [mem_tryEmplace_fresh hk] at ha
          rw [Assoc.length_tryEmplace_fresh hk]
          rcases ha with ha | ha
          · have := h.bound a i ha; omega
          · simp only [Prod.mk.injEq] at ha; omega
        · intro a b i ha hb
          simp only [Assoc.find_tryEmplace] at ha hb
          split at ha <;> split at hb
          · rename_i h1 h2; rw [h1.1, h2.1]
          · simp only [Option.some.injEq] at ha; subst ha; exact absurd hb (hfresh _)
          · simp only [Option.some.injEq] at hb; subst hb; exact absurd ha (hfresh _)
          · exact h.inj _ _ _ ha hb
        · intro t' n' i' hm; exact hkeep _ _ (hr _ _ _ hm)
        · intro t' n' i' hm
          rcases List.mem_cons.1 hm with he | hm
          · simp only [Prod.mk.injEq] at he
            obtain ⟨_, rfl, rfl⟩ := he
            simp [Assoc.find_tryEmplace, hk]
          · exact hkeep _ _ (hp _ _ _ hm)
        · intro a i ha
          simp only [Assoc.find_tryEmplace] at ha
          split at ha
          · rename_i h1
            simp only [Option.some.injEq] at ha
            exact Or.inr ⟨t, by rw [h1.1, ← ha]; exact List.mem_cons_self⟩
          · rcases hi _ _ ha with h1 | ⟨t', h1⟩
            · exact Or.inl h1
            · exact Or.inr ⟨t', List.mem_cons_of_mem _ h1⟩
        · intro a i ha; exact hkeep _ _ (hs _ _ ha)
  | finish t =>
    unfold CState.step; simp only
    split
    · exact h
    · rename_i t' n i hf
      have hmem := List.mem_of_find?_eq_some hf
      have hev := hp _ _ _ hmem
      refine ⟨h.enodup, h.bound, h.inj, ?_, ?_, ?_, ?_⟩
      · intro t'' n' i' hm
        rcases List.mem_cons.1 hm with he | hm
        · simp only [Prod.mk.injEq] at he
          obtain ⟨_, rfl, rfl⟩ := he
          exact hev
        · exact hr _ _ _ hm
      · intro t'' n' i' hm; exact hp _ _ _ (List.mem_of_mem_erase hm)
      · intro a j ha
        simp only [Assoc.find_tryEmplace]
        by_cases hj : j = i
        · subst hj
          have := h.inj _ _ _ hev ha
          subst this
          left
          cases hx : s.mgr.ids.find j with
          | none => simp
          | some m =>
            have := h.inj _ _ _ hev (hs _ _ hx)
            simp [this]
        · rw [if_neg (by simp [hj])]
          rcases hi _ _ ha with h1 | ⟨t'', h1⟩
          · exact Or.inl h1
          · refine Or.inr ⟨t'', ?_⟩
            rw [List.mem_erase_of_ne]
            · exact h1
            · simp [hj]
      · intro a j ha
        simp only [Assoc.find_tryEmplace] at ha
        split at ha
        · rename_i h1
          simp only [Option.some.injEq] at ha
          rw [← ha, h1.1]; exact hev
        · exact hs _ _ ha

theorem CInv.exec {s : CState} (h : CInv s) (is : List CInput) : CInv (s.exec is) := by
  induction is generalizing s with
  | nil => exact h
  | cons i is ih => exact ih (h.step i)

/-- **C19, uniqueness.** In every interleaving of any number of threads, two returned ids
are equal iff the names are equal. -/
theorem C19_unique (is : List CInput) {t t' : Nat} {n n' : String} {i i' : Int}
    (h : (t, n, i) ∈ (CState.init.exec is).returned)
    (h' : (t', n', i') ∈ (CState.init.exec is).returned) : i = i' ↔ n = n' := by
  have hinv := cinv_init.exec is
  have e := hinv.ret _ _ _ h
  have e' := hinv.ret _ _ _ h'
  constructor
  · rintro rfl; exact hinv.inj _ _ _ e e'
  · rintro rfl; rw [e] at e'; simpa using e'

/-- **C19, usable (partial).** A returned id can be used (its name is found) unless the
thread that created it has not finished its own call yet. Missing: the window between
the two critical sections of the creator, see `C19_fails`. -/
theorem C19_usable_partial (is : List CInput) {t : Nat} {n : String} {i : Int}
    (h : (t, n, i) ∈ (CState.init.exec is).returned)
    (hdone : ∀ t', (t', n, i) ∉ (CState.init.exec is).pending) :
    (CState.init.exec is).mgr.eventName i = .ok n := by
  have hinv := cinv_init.exec is
  rcases hinv.ids _ _ (hinv.ret _ _ _ h) with h1 | ⟨t', h1⟩
  · unfold Mgr.eventName; rw [h1]
  · exact absurd h1 (hdone t')

/-- **C19 fails**: thread 2 is given an id by `QueryEventId`, and `Subscribe` with it is
rejected, because thread 1 that created it has not registered it in `_ids` yet. -/
theorem C19_fails : ∃ is, (2, "A", 20) ∈ (CState.init.exec is).returned ∧
    ((CState.init.exec is).mgr.subscribe 20 7).2 = .error .InvalidEventId :=
  ⟨[.start 1 "A", .start 2 "A"], by decide +kernel, by decide +kernel⟩

example : (2, "A", 20) ∈ (CState.init.exec [.start 1 "A", .start 2 "A", .start 3 "B",
      .finish 1]).returned ∧
    ∀ t', (t', "A", (20 : Int)) ∉ (CState.init.exec [.start 1 "A", .start 2 "A", .start 3 "B",
      .finish 1]).pending := by
  have h : (CState.init.exec [.start 1 "A", .start 2 "A", .start 3 "B", .finish 1]).pending =
    [(3, "B", 21)] := by decide +kernel
  exact ⟨by decide +kernel, by rw [h]; simp⟩

end Verif.Event
