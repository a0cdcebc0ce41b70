import Verif.Sched.Props
import Verif.Persist.Props

/-
C15 Scheduler breakpoint round-trip: `XsmpScheduler::Store`/`Restore`
(XsmpScheduler.cpp:46-64, 572-582) and `XsmpTimeKeeper::Store`/`Restore`
(XsmpTimeKeeper.cpp:95-105), on top of the codec of `Verif/Persist`.
-/
namespace Verif.Sched

open Verif.Persist

/-! ### Model -/

/-- Object representation of an `Int64` (two's complement, little endian). (Written through
XsmpScheduler.cpp:48-63.) -/
def encI64 (i : Int) : List Nat := encSize (ukey i).toNat

/-- The `Int64` with a given object representation. (Read through XsmpScheduler.cpp:48-63.) -/
def decI64 (b : List Nat) : Int :=
  if decSize b < 9223372036854775808 then decSize b else (decSize b : Int) - 18446744073709551616

/-- Object representation of a `TimeKind` (four bytes; `Smp/Services/TimeKind.h`: simulation 0,
mission 1, epoch 2, Zulu 3). (Written through XsmpScheduler.cpp:48-63.) -/
def encKind : TimeKind → List Nat
  | .simulation => [0, 0, 0, 0]
  | .mission => [1, 0, 0, 0]
  | .epoch => [2, 0, 0, 0]
  | .zulu => [3, 0, 0, 0]

/-- The `TimeKind` with a given object representation. (Read through XsmpScheduler.cpp:48-63.) -/
def decKind : List Nat → TimeKind
  | 1 :: _ => .mission
  | 2 :: _ => .epoch
  | 3 :: _ => .zulu
  | _ => .simulation

/-- `Int64`, `Duration`, `EventId`. -/
abbrev i64T : Ty := .num 8
/-- `XsmpScheduler::Event`: its helper (XsmpScheduler.cpp:48-63) stores the members in this
order, as a pair would. -/
abbrev eventT : Ty := .pair .obj (.pair i64T (.pair i64T (.pair i64T (.pair i64T (.num 4)))))
/-- `std::map<EventId, Event>`; comparison 0 is `std::less<Int64>`. -/
abbrev eventsT : Ty := .map (some 0) i64T eventT
/-- `EventList`; comparison 1 is `std::less<UInt64>` (XsmpScheduler.h:389-391). -/
abbrev listT : Ty := .set (some 1) i64T
/-- `std::map<Duration, EventList>`. (XsmpScheduler.h:389-391, XsmpScheduler.cpp:572-582.) -/
abbrev tableT : Ty := .map (some 0) i64T listT

/-- An `Event` as a value of the codec. (XsmpScheduler.cpp:48-63.) -/
def encEvent (e : Event) : eventT.Val :=
  (e.ep, encI64 e.next, encI64 e.time, encI64 e.cycle, encI64 e.rep, encKind e.kind)

/-- The `Event` that is a given value of the codec. (XsmpScheduler.cpp:48-63.) -/
def decEvent (v : eventT.Val) : Event where
  ep := v.1
  next := decI64 v.2.1
  time := decI64 v.2.2.1
  cycle := decI64 v.2.2.2.1
  rep := decI64 v.2.2.2.2.1
  kind := decKind v.2.2.2.2.2

/-- `_events` as a value of the codec. (XsmpScheduler.cpp:578-582.) -/
def encEvents (m : OMap Event) : eventsT.Val := m.map fun p => (encI64 p.1, encEvent p.2)
/-- `_events_table` as a value of the codec. (XsmpScheduler.cpp:578-582.) -/
def encTable (m : OMap (List Int)) : tableT.Val := m.map fun p => (encI64 p.1, p.2.map encI64)

/-- The content of a typed variable, given that it has type `t`. Of the model only (the arguments
in XsmpScheduler.cpp:572-576). -/
def fromDyn (t : Ty) (d : t.Val) (x : Dyn) : t.Val :=
  if h : x.1 = t then h ▸ x.2 else d

/-- The members stored by `XsmpScheduler::Store` (XsmpScheduler.cpp:580-581). -/
def schedVals (s : State) : List Dyn :=
  [⟨eventsT, encEvents s.events⟩, ⟨tableT, encTable s.table⟩, ⟨listT, s.imm.map encI64⟩,
   ⟨i64T, encI64 s.lastId⟩]

/-- `XsmpScheduler::Store` (XsmpScheduler.cpp:578-582). -/
def storeSched (E : Env) (hash : Ty → Nat) (s : State) : List Nat := storeTyped E hash (schedVals s)

/-- The scheduler after its four members became the values `vs`. (XsmpScheduler.cpp:572-576.) -/
def State.ofVals (s : State) : List Dyn → State
  | [a, b, c, d] =>
    { s with
      events := (fromDyn eventsT [] a).map fun p => (decI64 p.1, decEvent p.2)
      table := (fromDyn tableT [] b).map fun p => (decI64 p.1, p.2.map decI64)
      imm := (fromDyn listT [] c).map decI64
      lastId := decI64 (fromDyn i64T [] d) }
  | _ => s

/-- `XsmpScheduler::Restore` (XsmpScheduler.cpp:572-576): `none` when `CannotRestore` is
thrown. `_zulu_events_table` is not restored. -/
def restoreSched (E : Env) (hash : Ty → Nat) (s : State) (b : List Nat) :
    State × Option (List Nat) :=
  let r := restoreTyped E hash (schedVals s) b
  (s.ofVals r.1, r.2)

/-- The members stored by `XsmpTimeKeeper::Store` (XsmpTimeKeeper.cpp:101-105). -/
def timeVals (s : State) : List Dyn :=
  [⟨i64T, encI64 s.now⟩, ⟨i64T, encI64 s.missionStart⟩, ⟨i64T, encI64 s.epochStart⟩]

/-- `XsmpTimeKeeper::Store` (XsmpTimeKeeper.cpp:101-105). -/
def storeTime (E : Env) (hash : Ty → Nat) (s : State) : List Nat := storeTyped E hash (timeVals s)

/-- The time keeper after its three members became the values `vs`. (XsmpTimeKeeper.cpp:95-99.) -/
def State.ofTimeVals (s : State) : List Dyn → State
  | [a, b, c] =>
    { s with
      now := decI64 (fromDyn i64T [] a)
      missionStart := decI64 (fromDyn i64T [] b)
      epochStart := decI64 (fromDyn i64T [] c) }
  | _ => s

/-- `XsmpTimeKeeper::Restore` (XsmpTimeKeeper.cpp:95-99). -/
def restoreTime (E : Env) (hash : Ty → Nat) (s : State) (b : List Nat) :
    State × Option (List Nat) :=
  let r := restoreTyped E hash (timeVals s) b
  (s.ofTimeVals r.1, r.2)

/-! ### Specification -/

/-- The numbers of a scheduler are 64-bit integers and there are less than 2^64 of each. -/
structure Range (s : State) : Prop where
  events : ∀ p ∈ s.events, IdSet.InRange p.1 ∧ IdSet.InRange p.2.next ∧
    IdSet.InRange p.2.time ∧ IdSet.InRange p.2.cycle ∧ IdSet.InRange p.2.rep
  table : ∀ p ∈ s.table, IdSet.InRange p.1 ∧ p.2.length < 2 ^ 64 ∧ ∀ i ∈ p.2, IdSet.InRange i
  imm : ∀ i ∈ s.imm, IdSet.InRange i
  last : IdSet.InRange s.lastId
  times : IdSet.InRange s.now ∧ IdSet.InRange s.missionStart ∧ IdSet.InRange s.epochStart
  sizes : s.events.length < 2 ^ 64 ∧ s.table.length < 2 ^ 64 ∧ s.imm.length < 2 ^ 64

/-- The maps and sets of a scheduler are ordered, as `std::map` and `std::set` are. -/
structure Rep (s : State) : Prop where
  events : s.events.Sorted
  table : s.table.Sorted
  lists : ∀ p ∈ s.table, IdSet.Sorted p.2
  imm : IdSet.Sorted s.imm

/-- Comparisons 0 and 1 are those of `std::less<Int64>` and `std::less<UInt64>`. -/
structure EnvOk (E : Env) : Prop where
  signed : ∀ a b, E.lt (some 0) i64T a b = decide (decI64 a < decI64 b)
  unsigned : ∀ a b, E.lt (some 1) i64T a b = decide (decSize a < decSize b)

/-- Every posted entry point is found under its own path. -/
def Resolvable (E : Env) (s : State) : Prop :=
  ∀ p ∈ s.events, (E.path p.2.ep).length < 2 ^ 64 ∧ E.resolve (E.path p.2.ep) = p.2.ep

/-! ### Lemmas -/

theorem ukey_bounds {i : Int} (h : IdSet.InRange i) : 0 ≤ ukey i ∧ ukey i < 2 ^ 64 := by
  unfold IdSet.InRange at h
  unfold ukey
  split <;> omega

theorem decSize_encI64 {i : Int} (h : IdSet.InRange i) : (decSize (encI64 i) : Int) = ukey i := by
  have hb := ukey_bounds h
  unfold encI64
  rw [decSize_encSize (by omega)]
  omega

theorem decI64_encI64 {i : Int} (h : IdSet.InRange i) : decI64 (encI64 i) = i := by
  have hd := decSize_encI64 h
  unfold decI64
  unfold IdSet.InRange at h
  unfold ukey at hd
  split at hd <;> split <;> omega

theorem decKind_encKind (k : TimeKind) : decKind (encKind k) = k := by cases k <;> rfl

theorem encI64_length (i : Int) : (encI64 i).length = 8 := rfl

theorem decEvent_encEvent {e : Event} (h1 : IdSet.InRange e.next) (h2 : IdSet.InRange e.time)
    (h3 : IdSet.InRange e.cycle) (h4 : IdSet.InRange e.rep) : decEvent (encEvent e) = e := by
  simp only [decEvent, encEvent, decI64_encI64 h1, decI64_encI64 h2, decI64_encI64 h3,
    decI64_encI64 h4, decKind_encKind]

theorem fromDyn_self {t : Ty} (d v : t.Val) : fromDyn t d ⟨t, v⟩ = v := by simp [fromDyn]

theorem map_dec_enc_list {l : List Int} (h : ∀ i ∈ l, IdSet.InRange i) :
    (l.map encI64).map decI64 = l := by
  induction l with
  | nil => rfl
  | cons i l ih =>
    rw [List.map_cons, List.map_cons, decI64_encI64 (h i (by simp)),
      ih (fun j hj => h j (by simp [hj]))]

theorem dec_enc_table {m : OMap (List Int)}
    (h : ∀ p ∈ m, IdSet.InRange p.1 ∧ p.2.length < 2 ^ 64 ∧ ∀ i ∈ p.2, IdSet.InRange i) :
    (encTable m).map (fun p => (decI64 p.1, p.2.map decI64)) = m := by
  unfold encTable
  rw [List.map_map]
  conv => rhs; rw [← List.map_id m]
  refine List.map_congr_left fun p hp => ?_
  simp only [Function.comp, decI64_encI64 (h p hp).1, map_dec_enc_list (h p hp).2.2, id]

theorem dec_enc_events {m : OMap Event}
    (h : ∀ p ∈ m, IdSet.InRange p.1 ∧ IdSet.InRange p.2.next ∧
      IdSet.InRange p.2.time ∧ IdSet.InRange p.2.cycle ∧ IdSet.InRange p.2.rep) :
    (encEvents m).map (fun p => (decI64 p.1, decEvent p.2)) = m := by
  unfold encEvents
  rw [List.map_map]
  conv => rhs; rw [← List.map_id m]
  refine List.map_congr_left fun p hp => ?_
  have h := h p hp
  simp only [Function.comp, decI64_encI64 h.1, decEvent_encEvent h.2.1 h.2.2.1 h.2.2.2.1
    h.2.2.2.2, id]

theorem list_valid {E : Env} (he : EnvOk E) {l : List Int} (hl : l.length < 2 ^ 64)
    (hs : IdSet.Sorted l) (hr : ∀ i ∈ l, IdSet.InRange i) : Valid E listT (l.map encI64) := by
  refine ⟨by simpa using hl, ?_, ?_, by simp⟩
  · intro x hx
    obtain ⟨i, _, rfl⟩ := List.mem_map.1 hx
    exact encI64_length i
  · refine List.pairwise_map.2 (hs.imp_of_mem ?_)
    intro a b ha hb hab
    rw [he.unsigned]
    have h1 := decSize_encI64 (hr a ha)
    have h2 := decSize_encI64 (hr b hb)
    simp only [decide_eq_true_eq]
    omega

theorem schedVals_valid {E : Env} (he : EnvOk E) {s : State} (hr : Range s) (hp : Rep s)
    (hq : Resolvable E s) : ∀ x ∈ schedVals s, Valid E x.1 x.2 := by
  intro x hx
  simp only [schedVals, List.mem_cons, List.not_mem_nil, or_false] at hx
  rcases hx with rfl | rfl | rfl | rfl
  · refine ⟨by simpa [encEvents] using hr.sizes.1, ?_, ?_, by simp⟩
    · intro x hx
      obtain ⟨p, hm, rfl⟩ := List.mem_map.1 hx
      refine ⟨encI64_length _, hq p hm, encI64_length _, encI64_length _, encI64_length _,
        encI64_length _, ?_⟩
      show (encKind p.2.kind).length = 4
      cases p.2.kind <;> rfl
    · refine List.pairwise_map.2 (List.Pairwise.imp_of_mem ?_ hp.events)
      intro a b ha hb hab
      rw [he.signed, decI64_encI64 (hr.events a ha).1, decI64_encI64 (hr.events b hb).1]
      simpa using hab
  · refine ⟨by simpa [encTable] using hr.sizes.2.1, ?_, ?_, by simp⟩
    · intro x hx
      obtain ⟨p, hm, rfl⟩ := List.mem_map.1 hx
      exact ⟨encI64_length _, list_valid he (hr.table p hm).2.1 (hp.lists p hm)
        (hr.table p hm).2.2⟩
    · refine List.pairwise_map.2 (List.Pairwise.imp_of_mem ?_ hp.table)
      intro a b ha hb hab
      rw [he.signed, decI64_encI64 (hr.table a ha).1, decI64_encI64 (hr.table b hb).1]
      simpa using hab
  · exact list_valid he hr.sizes.2.2 hp.imm hr.imm
  · exact encI64_length _

theorem schedVals_shape (s : State) : ∀ y ∈ schedVals s, Shape y.1 y.2 := by
  intro y hy
  simp only [schedVals, List.mem_cons, List.not_mem_nil, or_false] at hy
  rcases hy with rfl | rfl | rfl | rfl
  · trivial
  · trivial
  · trivial
  · exact encI64_length _

/-- Typed round trip of several values. -/
theorem restoreTyped_roundTrip (E : Env) (hash : Ty → Nat) (hh : ∀ t, hash t < 2 ^ 64)
    (rest : List Nat) : ∀ (xs ys : List Dyn), xs.map (·.1) = ys.map (·.1) →
      (∀ x ∈ xs, Valid E x.1 x.2) → (∀ y ∈ ys, Shape y.1 y.2) →
      restoreTyped E hash ys (storeTyped E hash xs ++ rest) = (xs, some rest)
  | [], [], _, _, _ => rfl
  | [], _ :: _, h, _, _ => by simp at h
  | _ :: _, [], h, _, _ => by simp at h
  | ⟨t, v⟩ :: xs, ⟨t', o⟩ :: ys, h, hx, hy => by
    simp only [List.map_cons, List.cons.injEq] at h
    obtain ⟨rfl, h⟩ := h
    have ih := restoreTyped_roundTrip E hash hh rest xs ys h
      (fun x hx' => hx x (List.mem_cons_of_mem _ hx'))
      (fun y hy' => hy y (List.mem_cons_of_mem _ hy'))
    simp only [storeTyped, List.flatMap_cons, List.append_assoc, restoreTyped] at ih ⊢
    rw [C43_match E hash t v o _ (hh _) (hx _ List.mem_cons_self) (hy _ List.mem_cons_self)]
    simp only [ih]

/-- All updates of `_events` keep it ordered. -/
theorem events_sorted_step {s : State} (i : Input) (h : s.events.Sorted) :
    (step s i).events.Sorted := by
  have hu : ∀ k id, (s.unpost k id).events = s.events := by
    intro k id
    unfold State.unpost State.eraseKey
    simp only
    split <;> rfl
  have hrest : ∀ (s : State) rest, (storeRest s rest).events = s.events := by
    intro s rest
    unfold storeRest State.fail
    split <;> rfl
  have hif : ∀ (s : State) r, (immFalse s r).events = s.events := by
    intro s r
    cases r <;> simp only [immFalse, hrest]
  have hres : ∀ (s : State) f, (resume s f).events = s.events := by
    intro s f
    cases f <;> simp only [resume] <;> split <;> simp only [hif, hrest]
  have hfin : ∀ (s : State) id f, s.events.Sorted → (finish s id f).events.Sorted := by
    intro s id f h
    unfold finish State.fail
    split
    · exact h
    · split
      · rw [hres]; exact h.erase
      · split
        · rw [hres]; exact h.insert
        · exact h
  have hst : ∀ (s : State) id f, s.events.Sorted → (startExec s id f).events.Sorted := by
    intro s id f h
    unfold startExec State.fail
    split
    · exact h
    · split
      · exact h
      · exact hfin _ _ _ h
      · exact h
  unfold step
  split
  · exact h
  · cases i with
    | op o =>
      cases o <;> simp only [apply, addImmediate, addTimed, addEvent, addZulu, setTimed,
        setEventTime, setZulu, setCycle, setRepeat, remove, setSimTime, setEpochTime,
        setMissionStart, setMissionTime, State.fail, State.eraseKey] <;>
        (repeat' split) <;> first
          | exact h
          | exact h.insert
          | exact h.erase
          | (simp only [hu]; first | exact h | exact h.insert | exact h.erase)
    | run => dsimp only; split <;> exact h
    | tick d =>
      simp only [tick]
      split
      · exact h
      · rename_i r _
        split
        · cases r <;> simp only [immTrue, enterSlot]
          · split <;> exact h
          · exact h
          · exact h
        · exact h
      · exact h
      · exact hst _ _ _ h
      · split <;> exact h
      · split
        · exact h
        · split
          · exact h
          · simp only [setSimTime]
            split
            · exact h
            · rename_i s' _ heq
              split at heq
              · simp only [Prod.mk.injEq] at heq; rw [← heq.1]; exact h
              · split at heq
                · simp only [Prod.mk.injEq] at heq; rw [← heq.1]; exact h
                · simp only [Prod.mk.injEq] at heq; rw [← heq.1]; exact h
      · exact h
      · split
        · exact h
        · split
          · split <;> exact h
          · exact h
      · exact h
      · exact hst _ _ _ h
      · exact hfin _ _ _ h

theorem events_sorted_exec {s : State} (is : List Input) (h : s.events.Sorted) :
    (exec s is).events.Sorted := by
  induction is generalizing s with
  | nil => exact h
  | cons i is ih => rw [exec_cons]; exact ih (events_sorted_step i h)

/-- Every reached state has ordered maps and sets. -/
theorem Reach.rep {s : State} (h : Reach s) : Rep s where
  events := by
    obtain ⟨is, _, rfl, _⟩ := h
    exact events_sorted_exec is (by unfold OMap.Sorted; decide)
  table := h.inv.tsorted
  lists := fun p hp => by
    have := h.inv.ssorted p.1
    unfold slotOf at this
    rwa [OMap.find_of_mem (v := p.2) h.inv.tsorted hp] at this
  imm := h.inv.isorted

/-! ### C15 -/

/-- **C15 (partial)** For every scheduler state and every scheduler state it is restored into:
restoring succeeds, consumes exactly what was stored, and afterwards the events with their due
times, cycles, repeats and kinds, the table of due times, the immediate events and the last
identifier are those of the stored scheduler.
Missing: the table of pending Zulu events, which is neither stored nor restored
(`C15_fails`). -/
theorem C15_partial {E : Env} {hash : Ty → Nat} (he : EnvOk E) (hh : ∀ t, hash t < 2 ^ 64)
    {s : State} (hr : Range s) (hp : Rep s) (hq : Resolvable E s) (old : State)
    (rest : List Nat) :
    restoreSched E hash old (storeSched E hash s ++ rest) =
      ({ old with events := s.events, table := s.table, imm := s.imm, lastId := s.lastId },
        some rest) := by
  unfold restoreSched storeSched
  rw [restoreTyped_roundTrip E hash hh rest (schedVals s) (schedVals old) rfl
    (schedVals_valid he hr hp hq) (schedVals_shape old)]
  simp only [schedVals, State.ofVals, fromDyn_self, dec_enc_events hr.events,
    dec_enc_table hr.table, map_dec_enc_list hr.imm, decI64_encI64 hr.last]

/-- **C15** The time keeper restores the simulation time, mission start time and epoch start. -/
theorem C15_time {E : Env} {hash : Ty → Nat} (hh : ∀ t, hash t < 2 ^ 64)
    {s : State} (hr : Range s) (old : State) (rest : List Nat) :
    restoreTime E hash old (storeTime E hash s ++ rest) =
      ({ old with now := s.now, missionStart := s.missionStart, epochStart := s.epochStart },
        some rest) := by
  unfold restoreTime storeTime
  have hv : ∀ (s : State), ∀ x ∈ timeVals s, Valid E x.1 x.2 ∧ Shape x.1 x.2 := by
    intro s x hx
    simp only [timeVals, List.mem_cons, List.not_mem_nil, or_false] at hx
    rcases hx with rfl | rfl | rfl <;> exact ⟨encI64_length _, encI64_length _⟩
  rw [restoreTyped_roundTrip E hash hh rest (timeVals s) (timeVals old) rfl
    (fun x hx => (hv s x hx).1) (fun x hx => (hv old x hx).2)]
  simp only [timeVals, State.ofTimeVals, fromDyn_self, decI64_encI64 hr.times.1,
    decI64_encI64 hr.times.2.1, decI64_encI64 hr.times.2.2]

/-- **C15 (partial)** A reached scheduler that is not inside its loop, without pending Zulu
event, restored into a new scheduler (with its time keeper) gives back the whole state, but for
the observations made so far and the iterator, which is set when the loop is entered. -/
theorem C15_resume_partial {E : Env} {hash : Ty → Nat} (he : EnvOk E)
    (hh : ∀ t, hash t < 2 ^ 64) {s : State} (hs : Reach s) (hr : Range s)
    (hq : Resolvable E s) (hi : s.pc = .idle) (hz : s.zulu = []) (hc : s.changing = false)
    (hold : s.hold = true) :
    let r := (restoreTime E hash
      (restoreSched E hash init (storeSched E hash s)).1 (storeTime E hash s)).1
    r = { s with iter := 0, itOk := true, log := [] } := by
  intro r
  have h1 := C15_partial he hh hr hs.rep hq init []
  rw [List.append_nil] at h1
  have h2 := C15_time (E := E) hh hr (restoreSched E hash init (storeSched E hash s)).1 []
  rw [List.append_nil] at h2
  have hcur := hs.inv.cur
  rw [hi] at hcur
  have hcur : s.current = -1 := hcur
  show (restoreTime E hash _ _).1 = _
  rw [h2, h1]
  have hf := hs.fault
  cases s
  simp only at hi hz hc hold hcur hf
  subst hi hz hc hold hcur hf
  rfl

/-- Surroundings for the examples. -/
def exEnvS : Env where
  lt o t := match o, t with
    | some 0, .num _ => fun a b => decide (decI64 a < decI64 b)
    | some 1, .num _ => fun a b => decide (decSize a < decSize b)
    | _, _ => fun _ _ => false
  iterSet _ l := l
  iterMap _ _ l := l
  path n := [47, n]
  resolve p := p.getD 1 0

theorem exEnvS_ok : EnvOk exEnvS := ⟨fun _ _ => rfl, fun _ _ => rfl⟩

/-- A scheduler with a cyclic event, a mission event, an immediate event and two events in one
slot. -/
def exSched : List Input :=
  [.op (.addTimed .simulation 5 10 3 (-1)), .op (.addTimed .mission 6 10 0 0),
   .op (.addImmediate 7), .op (.addTimed .epoch 8 12 1 4)]

example : Reach (exec init exSched) ∧ Range (exec init exSched) ∧
    Resolvable exEnvS (exec init exSched) ∧ (exec init exSched).table.length = 3 ∧
    (exec init exSched).pc = .idle ∧ (exec init exSched).zulu = [] ∧
    (exec init exSched).changing = false ∧ (exec init exSched).hold = true := by
  refine ⟨⟨exSched, ?_, rfl, by decide⟩, ?_, ?_, by decide⟩
  · decide
  · refine ⟨?_, ?_, ?_, ?_, ?_, ?_⟩
    · simp only [IdSet.InRange]; decide
    · simp only [IdSet.InRange]; decide
    · simp only [IdSet.InRange]; decide
    · simp only [IdSet.InRange]; decide
    · simp only [IdSet.InRange]; decide
    · decide
  · unfold Resolvable; decide

/-- A scheduler with a pending Zulu event. -/
def exZulu : List Input := [.op (.addZulu 5 100 0 0 0)]

/-- **C15 (fails)** A pending Zulu event is lost: after storing a reached scheduler and
restoring it into a new one, the event is still known under its identifier but is in no table,
so it never becomes due. Conversely a Zulu event of the scheduler restored into stays in its
table although the event was discarded. -/
theorem C15_fails : ∃ (s : State), Reach s ∧ Range s ∧ Resolvable exEnvS s ∧
    (s.events.find 0).isSome ∧ slotOf s.zulu 100 = [0] ∧
    (let r := (restoreSched exEnvS exHash init (storeSched exEnvS exHash s)).1
     (r.events.find 0).isSome ∧ r.zulu = [] ∧ ∀ p ∈ r.table, 0 ∉ p.2) ∧
    (let r := (restoreSched exEnvS exHash s (storeSched exEnvS exHash init)).1
     r.events.find 0 = none ∧ slotOf r.zulu 100 = [0]) := by
  refine ⟨exec init exZulu, ⟨exZulu, ?_, rfl, by decide⟩, ?_, ?_, by decide, by decide, ?_, ?_⟩
  · decide
  · refine ⟨?_, ?_, ?_, ?_, ?_, ?_⟩
    · simp only [IdSet.InRange]; decide
    · simp only [IdSet.InRange]; decide
    · simp only [IdSet.InRange]; decide
    · simp only [IdSet.InRange]; decide
    · simp only [IdSet.InRange]; decide
    · decide
  · unfold Resolvable; decide
  · decide +kernel
  · decide +kernel

end Verif.Sched
