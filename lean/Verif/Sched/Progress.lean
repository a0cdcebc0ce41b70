import Verif.Sched.Props

/-
C75: the loop makes progress. Left alone, it reaches every time, or executes all there is to
execute: no event waits for ever.
-/
namespace Verif.Sched

/-- The weight of a position of the loop. -/
def PC.weight : PC → Nat
  | .idle => 0
  | .immTest _ => 2
  | .immFor _ _ => 3
  | .preEmit => 5
  | .waiting => 4
  | .postEmit => 3
  | .slotTest => 0
  | .slotFor _ => 1
  | .cb _ _ => 4

/-- What is left to do in the slot of the loop. -/
def State.rank (s : State) : Nat :=
  7 * s.imm.length + 5 * s.pc.immRest.length + 5 * s.pc.dueRest.length +
    7 * (slotOf s.table s.iter).length + s.pc.weight

/-- Where the loop goes on after `Execute` when it is not held. -/
def Frame.next : Frame → PC
  | .imm rest r => .immFor rest r
  | .due rest => .immTest (.inSlot rest)

theorem resume_run {s : State} (h : s.hold = false) (f : Frame) :
    resume s f = { s with pc := f.next } := by
  cases f <;> simp [resume, h, Frame.next]

theorem finish_run {s : State} {id : Int} {f : Frame} {e : Event} (h : s.hold = false)
    (he : s.events.find id = some e) (hne : e.rep ≠ 0 → e.next + e.cycle ≠ s.iter)
    (hf : (finish s id f).fault = none) (hs : s.fault = none) :
    (finish s id f).hold = false ∧ (finish s id f).pc = f.next ∧
    (finish s id f).imm = s.imm ∧ (finish s id f).iter = s.iter ∧
    slotOf (finish s id f).table s.iter = slotOf s.table s.iter := by
  unfold finish at hf ⊢
  rw [he] at hf ⊢
  simp only at hf ⊢
  by_cases hr : e.rep = 0
  · rw [if_pos hr]
    rw [resume_run (by exact h)]
    exact ⟨h, rfl, rfl, rfl, rfl⟩
  · rw [if_neg hr] at hf ⊢
    cases hn : chk (e.next + e.cycle) with
    | none => rw [hn] at hf; simp [State.fail] at hf
    | some n =>
      cases ht : chk (e.time + e.cycle) with
      | none => rw [hn, ht] at hf; simp [State.fail] at hf
      | some t =>
        simp only
        rw [resume_run (by exact h)]
        refine ⟨h, rfl, rfl, rfl, ?_⟩
        have := (chk_some hn).1
        simp only [post, slotOf_insert]
        rw [if_neg (by have := hne hr; omega)]

theorem startExec_run {s : State} {id : Int} {f : Frame} {e : Event} (h : s.hold = false)
    (he : s.events.find id = some e) (hne : e.rep ≠ 0 → e.next + e.cycle ≠ s.iter)
    (hf : (startExec s id f).fault = none) (hs : s.fault = none) :
    (startExec s id f).hold = false ∧
    ((startExec s id f).pc = f.next ∨ (startExec s id f).pc = .cb id f) ∧
    (startExec s id f).imm = s.imm ∧ (startExec s id f).iter = s.iter ∧
    slotOf (startExec s id f).table s.iter = slotOf s.table s.iter := by
  unfold startExec at hf ⊢
  rw [he] at hf ⊢
  simp only at hf ⊢
  cases hk : skipTest s e with
  | none => rw [hk] at hf; simp [State.fail] at hf
  | some b =>
    rw [hk] at hf
    cases b with
    | false => exact ⟨h, .inr rfl, rfl, rfl, rfl⟩
    | true =>
      obtain ⟨a1, a2, a3, a4, a5⟩ := finish_run (s := { s with log := .skipped id s.now :: s.log })
        (f := f) h he hne hf hs
      exact ⟨a1, .inl a2, a3, a4, a5⟩

/-- The three things a step of a loop which is not held can do: go on in its slot, enter the
next slot, or end because nothing is left. -/
inductive Moved (s s' : State) : Prop
  | on (hr : s'.rank < s.rank) (hi : s'.iter = s.iter) (hl : s'.pc.live = s.pc.live)
      (hp : s'.pc ≠ .idle)
  | enter (hp : s'.pc = .preEmit) (hi : s.pc.live = true → s.now = s.iter ∧ s.iter < s'.iter)
  | ended (hp : s'.pc = .idle) (ht : s'.table = [])

theorem tick_moved {s : State} (hinv : Inv s) (hs : s.fault = none) (hh : s.hold = false)
    (hp : s.pc ≠ .idle) (d : Bool) (hf : (tick s d).fault = none) :
    (tick s d).hold = false ∧ Moved s (tick s d) := by
  have himm : ∀ id e, id ∈ s.imm ∨ id ∈ s.pc.immRest ∨ s.pc.immRun = some id →
      s.events.find id = some e → e.rep ≠ 0 → e.next + e.cycle ≠ s.iter :=
    fun id e hm he hr => absurd (hinv.imms id e hm he).1 hr
  have hdue : ∀ id e, id ∈ s.pc.dueRest ∨ s.pc.dueRun = some id →
      s.events.find id = some e → e.rep ≠ 0 → e.next + e.cycle ≠ s.iter := by
    intro id e hm he hr
    have h1 := (hinv.dues id e hm he).1
    have h2 := hinv.pos id e he hr
    omega
  cases hpc : s.pc with
  | idle => exact absurd hpc hp
  | immTest r =>
    have ht : tick s d = if s.imm = [] then immTrue s r
        else { s with imm := [], pc := .immFor s.imm r } := by simp only [tick, hpc]
    rw [ht] at hf ⊢
    by_cases hi : s.imm = []
    · rw [if_pos hi]
      cases r with
      | start =>
        simp only [immTrue]
        split
        · rename_i hm
          exact ⟨hh, .ended rfl (OMap.minKey_none hm)⟩
        · exact ⟨hh, .enter rfl (by rw [hpc]; simp [PC.live, Ret.live])⟩
      | slot =>
        refine ⟨hh, .on ?_ rfl ?_ (by simp [immTrue])⟩
        · simp [immTrue, State.rank, hpc, PC.immRest, PC.dueRest, PC.weight, Ret.dueRest]
        · simp [immTrue, hpc, PC.live, Ret.live]
      | inSlot rest =>
        refine ⟨hh, .on ?_ rfl ?_ (by simp [immTrue])⟩
        · simp [immTrue, State.rank, hpc, PC.immRest, PC.dueRest, PC.weight, Ret.dueRest]
        · simp [immTrue, hpc, PC.live, Ret.live]
    · rw [if_neg hi]
      have := List.length_pos_iff.mpr hi
      refine ⟨hh, .on ?_ rfl ?_ (by simp)⟩
      · simp only [State.rank, hpc, PC.immRest, PC.dueRest, PC.weight, List.length_nil]
        omega
      · simp [hpc, PC.live]
  | immFor l r =>
    cases l with
    | nil =>
      have ht : tick s d = { s with pc := .immTest r } := by simp only [tick, hpc]
      rw [ht]
      refine ⟨hh, .on ?_ rfl ?_ (by simp)⟩
      · simp [State.rank, hpc, PC.immRest, PC.dueRest, PC.weight]
      · simp [hpc, PC.live]
    | cons id rest =>
      have ht : tick s d = startExec s id (.imm rest r) := by simp only [tick, hpc]
      rw [ht] at hf ⊢
      have hm : id ∈ s.pc.immRest := by simp [hpc, PC.immRest]
      obtain ⟨e, he⟩ := Option.isSome_iff_exists.1 (hinv.exist id .immRest hm)
      obtain ⟨a1, a2, a3, a4, a5⟩ := startExec_run hh he (himm id e (.inr (.inl hm)) he) hf hs
      refine ⟨a1, .on ?_ a4 ?_ ?_⟩
      · unfold State.rank
        rw [a3, a4, a5]
        rcases a2 with a2 | a2 <;> rw [a2, hpc] <;>
          simp [Frame.next, PC.immRest, PC.dueRest, PC.weight] <;> omega
      · rcases a2 with a2 | a2 <;> rw [a2, hpc] <;> simp [Frame.next, PC.live]
      · rcases a2 with a2 | a2 <;> rw [a2] <;> simp [Frame.next]
  | preEmit =>
    have ht : tick s d = { s with pc := .waiting } := by simp [tick, hpc, hh]
    rw [ht]
    refine ⟨hh, .on ?_ rfl ?_ (by simp)⟩
    · simp [State.rank, hpc, PC.immRest, PC.dueRest, PC.weight]
    · simp [hpc, PC.live]
  | waiting =>
    have hlive : s.pc.live := by simp [hpc, PC.live]
    obtain ⟨hit, -⟩ := hinv.liveIt hlive
    have hch := hinv.early (by simp [hpc, PC.early])
    by_cases hc : s.iter < s.now ∨ s.iter > s.nextScheduled
    · have ht : tick s d = s.fail .badTime := by
        simp [tick, hpc, hit, hh, setSimTime, hch, hc]
      rw [ht] at hf
      simp [State.fail] at hf
    · have ht : tick s d = { s with now := s.iter, changing := false, pc := .postEmit } := by
        simp [tick, hpc, hit, hh, setSimTime, hch, hc]
      rw [ht]
      refine ⟨hh, .on ?_ rfl ?_ (by simp)⟩
      · simp [State.rank, hpc, PC.immRest, PC.dueRest, PC.weight]
      · simp [hpc, PC.live]
  | postEmit =>
    have ht : tick s d = { s with pc := .immTest .slot } := by simp only [tick, hpc]
    rw [ht]
    refine ⟨hh, .on ?_ rfl ?_ (by simp)⟩
    · simp [State.rank, hpc, PC.immRest, PC.dueRest, PC.weight, Ret.dueRest]
    · simp [hpc, PC.live, Ret.live]
  | slotTest =>
    have hlive : s.pc.live := by simp [hpc, PC.live]
    obtain ⟨hit, l, hl⟩ := hinv.liveIt hlive
    by_cases hsl : slotOf s.table s.iter = []
    · cases hk : s.table.nextKey s.iter with
      | none =>
        have ht : tick s d = { s with table := s.table.erase s.iter, pc := .idle } := by
          simp [tick, hpc, hit, hsl, hk]
        rw [ht]
        refine ⟨hh, .ended rfl ?_⟩
        cases hm : (s.table.erase s.iter).minKey with
        | none => exact OMap.minKey_none hm
        | some k =>
          obtain ⟨v, hv⟩ := OMap.minKey_find hm
          rw [OMap.find_erase] at hv
          split at hv
          · simp at hv
          · have h1 := OMap.nextKey_none hk hv
            have h2 := hinv.liveKeys hlive k v hv
            omega
      | some k =>
        have ht : tick s d = enterSlot { s with table := s.table.erase s.iter } k := by
          simp [tick, hpc, hit, hsl, hk]
        rw [ht]
        refine ⟨hh, .enter rfl (fun _ => ⟨(hinv.late hlive (by simp [hpc, PC.early])).1, ?_⟩)⟩
        exact (OMap.nextKey_find hinv.tsorted hk).1
    · have ht : tick s d =
          { s with table := s.table.insert s.iter [], pc := .slotFor (slotOf s.table s.iter) } := by
        simp [tick, hpc, hit, hsl]
      rw [ht]
      have := List.length_pos_iff.mpr hsl
      refine ⟨hh, .on ?_ rfl ?_ (by simp)⟩
      · simp only [State.rank, hpc, PC.immRest, PC.dueRest, PC.weight, List.length_nil,
          slotOf_insert, if_true]
        omega
      · simp [hpc, PC.live]
  | slotFor l =>
    cases l with
    | nil =>
      have ht : tick s d = { s with pc := .slotTest } := by simp only [tick, hpc]
      rw [ht]
      refine ⟨hh, .on ?_ rfl ?_ (by simp)⟩
      · simp [State.rank, hpc, PC.immRest, PC.dueRest, PC.weight]
      · simp [hpc, PC.live]
    | cons id rest =>
      have ht : tick s d = startExec s id (.due rest) := by simp only [tick, hpc]
      rw [ht] at hf ⊢
      have hm : id ∈ s.pc.dueRest := by simp [hpc, PC.dueRest]
      obtain ⟨e, he⟩ := Option.isSome_iff_exists.1 (hinv.exist id .dueRest hm)
      obtain ⟨a1, a2, a3, a4, a5⟩ := startExec_run hh he (hdue id e (.inl hm) he) hf hs
      refine ⟨a1, .on ?_ a4 ?_ ?_⟩
      · unfold State.rank
        rw [a3, a4, a5]
        rcases a2 with a2 | a2 <;> rw [a2, hpc] <;>
          simp [Frame.next, PC.immRest, PC.dueRest, PC.weight, Ret.dueRest] <;> omega
      · rcases a2 with a2 | a2 <;> rw [a2, hpc] <;> simp [Frame.next, PC.live, Ret.live]
      · rcases a2 with a2 | a2 <;> rw [a2] <;> simp [Frame.next]
  | cb id f =>
    have ht : tick s d = finish { s with current := -1 } id f := by simp only [tick, hpc]
    rw [ht] at hf ⊢
    have hrun : s.pc.running = some id := by simp [hpc, PC.running]
    obtain ⟨e, he⟩ := Option.isSome_iff_exists.1 (hinv.exist id .running hrun)
    have hne : e.rep ≠ 0 → e.next + e.cycle ≠ s.iter := by
      cases f with
      | imm rest r => exact himm id e (.inr (.inr (by simp [hpc, PC.immRun]))) he
      | due rest => exact hdue id e (.inr (by simp [hpc, PC.dueRun])) he
    obtain ⟨a1, a2, a3, a4, a5⟩ :=
      finish_run (s := { s with current := -1 }) (f := f) hh he hne hf hs
    refine ⟨a1, .on ?_ a4 ?_ ?_⟩
    · unfold State.rank
      rw [a3, a4]
      simp only at a5 ⊢
      rw [a5, a2, hpc]
      cases f <;> simp [Frame.next, PC.immRest, PC.dueRest, PC.weight, Ret.dueRest]
    · rw [a2, hpc]
      cases f <;> simp [Frame.next, PC.live, Ret.live]
    · rw [a2]
      cases f <;> simp [Frame.next]

/-- `n` steps of the loop alone; `d` says which of the pacing waits take place. -/
def steps (d : Nat → Bool) (n : Nat) : List Input := (List.range n).map (fun i => .tick (d i))

theorem steps_succ (d : Nat → Bool) (n : Nat) :
    steps d (n + 1) = .tick (d 0) :: steps (fun i => d (i + 1)) n := by
  simp only [steps, List.range_succ_eq_map, List.map_cons, List.map_map]
  rfl

theorem steps_okRun (d : Nat → Bool) (n : Nat) : ∀ s, OkRun s (steps d n) := by
  intro s
  have : ∀ (l : List Nat) s, OkRun s (l.map (fun i => Input.tick (d i))) := by
    intro l
    induction l with
    | nil => intro s; trivial
    | cons a l ih => intro s; exact ⟨trivial, ih _⟩
  exact this _ s

/-- The loop got somewhere. -/
def Arrived (T : Int) (s : State) : Prop :=
  s.fault = some .overflow ∨
    (s.fault = none ∧ s.hold = false ∧ (s.pc = .idle ∧ s.table = [] ∨ s.pc ≠ .idle ∧ T ≤ s.now))

theorem Arrived.now {T : Int} {s : State} (h : T ≤ s.now) (hf : s.fault = none)
    (hh : s.hold = false) (hp : s.pc ≠ .idle) : Arrived T s :=
  .inr ⟨hf, hh, .inr ⟨hp, h⟩⟩

theorem step_steps {s : State} (hf : s.fault = none) (d : Nat → Bool) (n : Nat) :
    exec s (steps d (n + 1)) = exec (tick s (d 0)) (steps (fun i => d (i + 1)) n) := by
  rw [steps_succ, exec_cons, step_tick _ hf]

theorem progress_live (T : Int) : ∀ (a b : Nat) (s : State) (d : Nat → Bool), Inv s →
    s.fault = none → s.hold = false → s.pc ≠ .idle → s.pc.live = true →
    (T - s.iter).toNat = a → s.rank = b → ∃ n, Arrived T (exec s (steps d n)) := by
  intro a
  induction a using Nat.strongRecOn with
  | ind a iha =>
    intro b
    induction b using Nat.strongRecOn with
    | ind b ihb =>
      intro s d hinv hf hh hp hl ha hb
      by_cases hT : T ≤ s.now
      · exact ⟨0, .now hT hf hh hp⟩
      · rcases hinv.tick hf (d 0) with ⟨h1, h2⟩ | h1
        · obtain ⟨g1, g2⟩ := tick_moved hinv hf hh hp (d 0) h1
          cases g2 with
          | on hr hi hl' hp' =>
            obtain ⟨n, hn⟩ := ihb _ (by omega) (tick s (d 0)) (fun i => d (i + 1)) h2 h1 g1 hp'
              (by rw [hl', hl]) (by rw [hi]; exact ha) rfl
            exact ⟨n + 1, by rw [step_steps hf]; exact hn⟩
          | enter hp' hi =>
            obtain ⟨h3, h4⟩ := hi hl
            obtain ⟨n, hn⟩ := iha (T - (tick s (d 0)).iter).toNat (by omega) _ (tick s (d 0))
              (fun i => d (i + 1)) h2 h1 g1 (by rw [hp']; simp) (by rw [hp']; rfl) rfl rfl
            exact ⟨n + 1, by rw [step_steps hf]; exact hn⟩
          | ended hp' ht =>
            exact ⟨1, by rw [step_steps hf]; exact .inr ⟨h1, g1, .inl ⟨hp', ht⟩⟩⟩
        · exact ⟨1, by rw [step_steps hf]; exact .inl h1⟩

theorem progress_start (T : Int) : ∀ (b : Nat) (s : State) (d : Nat → Bool), Inv s →
    s.fault = none → s.hold = false → s.pc ≠ .idle → s.pc.live = false →
    s.rank = b → ∃ n, Arrived T (exec s (steps d n)) := by
  intro b
  induction b using Nat.strongRecOn with
  | ind b ihb =>
    intro s d hinv hf hh hp hl hb
    rcases hinv.tick hf (d 0) with ⟨h1, h2⟩ | h1
    · obtain ⟨g1, g2⟩ := tick_moved hinv hf hh hp (d 0) h1
      cases g2 with
      | on hr hi hl' hp' =>
        obtain ⟨n, hn⟩ := ihb _ (by omega) (tick s (d 0)) (fun i => d (i + 1)) h2 h1 g1 hp'
          (by rw [hl', hl]) rfl
        exact ⟨n + 1, by rw [step_steps hf]; exact hn⟩
      | enter hp' hi =>
        obtain ⟨n, hn⟩ := progress_live T _ _ (tick s (d 0))
          (fun i => d (i + 1)) h2 h1 g1 (by rw [hp']; simp) (by rw [hp']; rfl) rfl rfl
        exact ⟨n + 1, by rw [step_steps hf]; exact hn⟩
      | ended hp' ht =>
        exact ⟨1, by rw [step_steps hf]; exact .inr ⟨h1, g1, .inl ⟨hp', ht⟩⟩⟩
    · exact ⟨1, by rw [step_steps hf]; exact .inl h1⟩

/-! ### The theorems -/

/-- C75 (partial): a loop which is running and not held, left alone, reaches every time `T`, or
ends because no event is left (or stops by an overflow of the due time of a repeating event):
it never stays at a time for ever. Missing: executions with the calls excluded by `Op.ok`,
for instance a cycle time set to 0 (`C10_livelock_fails`). -/
theorem C75_time_partial {s : State} (hs : Reach s) (hh : s.hold = false) (hp : s.pc ≠ .idle)
    (d : Nat → Bool) (T : Int) :
    ∃ n, (exec s (steps d n)).fault = some .overflow ∨
      (exec s (steps d n)).pc = .idle ∧ (exec s (steps d n)).table = [] ∨
      T ≤ (exec s (steps d n)).now := by
  have : ∃ n, Arrived T (exec s (steps d n)) := by
    cases hl : s.pc.live with
    | false => exact progress_start T _ s d hs.inv hs.fault hh hp hl rfl
    | true => exact progress_live T _ _ s d hs.inv hs.fault hh hp hl rfl rfl
  obtain ⟨n, hn⟩ := this
  refine ⟨n, ?_⟩
  rcases hn with hn | ⟨_, _, hn | hn⟩
  · exact .inl hn
  · exact .inr (.inl hn)
  · exact .inr (.inr hn.2)

theorem steps_untouched (d : Nat → Bool) (n : Nat) (x : Int) : Untouched x (steps d n) := by
  intro i hi o ho
  simp only [steps, List.mem_map] at hi
  obtain ⟨k, _, rfl⟩ := hi
  simp at ho

/-- C75 (partial): an event which waits for its time is executed in the end, by a loop which is
running and not held. Missing: as above. -/
theorem C75_executed_partial {s : State} (hs : Reach s) (hh : s.hold = false) (hp : s.pc ≠ .idle)
    {id : Int} {e : Event} {k : SimKind} (he : s.events.find id = some e) (hk : e.kind = k.kind)
    (hw : id ∈ slotOf s.table e.next) (d : Nat → Bool) :
    ∃ n, (exec s (steps d n)).fault = some .overflow ∨
      ∃ o l, occ id (exec s (steps d n)).log = l ++ o :: occ id s.log ∧ o.time = e.next := by
  obtain ⟨n, hn⟩ := C75_time_partial hs hh hp d (e.next + 1)
  refine ⟨n, ?_⟩
  by_cases hf : (exec s (steps d n)).fault = none
  · right
    have hinv := hs.inv
    have hok := steps_okRun d n s
    have h0 : Prog id e.next e.cycle e.rep k.kind e.ep (occ id s.log) s 0 := by
      have hu := hinv.uniq id
      refine ⟨⟨[], by simp, by simp [Seen]⟩, ⟨?_, ?_, ?_⟩, ?_, SimKind.kind_ne_zulu k, ?_⟩
      · intro h; have := hu .slot .imm ⟨_, hw⟩ h; simp at this
      · intro h; have := hu .slot .immRest ⟨_, hw⟩ h; simp at this
      · intro h; have := hu .slot .running ⟨_, hw⟩ (PC.immRun_running h); simp at this
      · have := hinv.ids id e he; have := hinv.last; omega
      · left
        refine ⟨?_, e, he, rfl, rfl, hk, by simp, ?_, fun h => by simpa using h⟩
        · intro h; have := hu .slot .running ⟨_, hw⟩ h; simp at this
        · split <;> simp
    obtain ⟨m, hpr⟩ := h0.exec hs hok (steps_untouched d n id) hf
    have hr := hs.exec hok hf
    obtain ⟨O, hO, hS⟩ := hpr.occs
    have hm : 0 < m := by
      rcases hn with hn | hn | hn
      · rw [hn] at hf; simp at hf
      · rcases hpr.status with ⟨_, e', h1, _, _, h4, _⟩ | ⟨hrun, _⟩ | ⟨_, _, h3, h4⟩
        · exfalso
          obtain ⟨l, hl⟩ := hr.inv.cover id e' h1 (by rw [h4]; exact SimKind.kind_ne_zulu k)
          cases l with
          | slot =>
            obtain ⟨j, hj⟩ := hl
            rw [hn.2] at hj
            simp [slotOf] at hj
          | imm => exact hpr.noimm.1 hl
          | immRest => exact hpr.noimm.2.1 hl
          | dueRest => simp [At, hn.1, PC.dueRest] at hl
          | running => simp [At, hn.1, PC.running] at hl
        · rw [hn.1] at hrun; simp [PC.running] at hrun
        · omega
      · have := (hpr.bounds hr.inv (hinv.pos id e he)).2 0 (by omega) (by simp; omega)
        omega
    obtain ⟨m', rfl⟩ : ∃ m', m = m' + 1 := ⟨m - 1, by omega⟩
    rcases List.eq_nil_or_concat O with rfl | ⟨l, o, rfl⟩
    · have := congrArg List.length hS.1; simp at this
    · refine ⟨o, l, by rw [hO]; simp, ?_⟩
      have := hS.1
      rw [List.range_succ_eq_map] at this
      simp at this
      exact this.2
  · left
    rcases hs.inv.exec hs.fault _ (steps_okRun d n s) with h1 | h1
    · exact absurd h1.1 hf
    · exact h1

example : Reach (exec init (sample 0)) ∧ (exec init (sample 0)).hold = false ∧
    (exec init (sample 0)).pc ≠ .idle ∧ 2 ∈ slotOf (exec init (sample 0)).table 20 ∧
    (exec init (sample 0)).now = 0 :=
  ⟨sample_reach 0 (by decide), by decide, by decide, by decide, by decide⟩
example : 20 ≤ (exec (exec init (sample 0)) (steps (fun _ => false) 60)).now := by
  decide +kernel

end Verif.Sched
