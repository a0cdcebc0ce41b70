import Verif.Event.RestoringLemmas

/-!
C131: what a `Restore` leaves in the event manager, and what happens to the other calls.
-/
namespace Verif.Event.Restoring

/-- The name that a call finds for an id: the characters of the string that `_ids` refers to. -/
def lookup (s : Sys) (i : Int) : Option String := (s.ids.find i).bind (nameAt · s.events)

/-- No thread is within a call of the event manager, except that it may be executing the entry
points of an emission. -/
def Idle (s : Sys) : Prop := ∀ t, ∀ f ∈ s.stack t, f.executes = true

/-- Everything is as it should be: nothing undefined has happened, names and ids correspond, and
whenever no call is in progress, an id is known exactly if it is the id of an event, and then has the
name of this event. -/
def Sane (s : Sys) : Prop :=
  s.ub = false ∧ (∀ x y i j, Has s x i → Has s y j → (x = y ↔ i = j)) ∧
  (Idle s → ∀ i x, lookup s i = some x ↔ Has s x i)

theorem Good.lookup {s : Sys} (h : Good s) (hs : Settled s)
    (hn : ∀ t x i r, Frame.registering x i r ∉ s.stack t) (i : Int) (x : String) :
    lookup s i = some x ↔ Has s x i := by
  unfold Restoring.lookup
  constructor
  · intro e
    cases hf : s.ids.find i with
    | none => rw [hf] at e; cases e
    | some r =>
      rw [hf] at e
      obtain ⟨y, hy⟩ := hs.1 i r hf
      rw [Option.bind_some, nameAt_mem h.nodes hy] at e
      cases e
      exact ⟨r, hy⟩
  · rintro ⟨r, hr⟩
    rcases hs.2 r x i hr with e | ⟨t, e⟩
    · rw [e, Option.bind_some, nameAt_mem h.nodes hr]
    · exact absurd e (hn t x i r)

theorem Good.sane {s : Sys} (h : Good s) : Sane s := by
  refine ⟨h.ub, ?_, ?_⟩
  · rintro x y i j ⟨r, hr⟩ ⟨q, hq⟩
    constructor
    · intro e
      have : ((r, x, i) : Node) = (q, y, j) := nodup_of_map h.names hr hq e
      cases this; rfl
    · intro e
      have : ((r, x, i) : Node) = (q, y, j) := nodup_of_map h.nums hr hq e
      cases this; rfl
  · intro hi
    refine h.lookup (h.settled fun t f hf => (executes_not (hi t f hf)).2) ?_
    intro t x i r hm
    have := hi t _ hm
    cases this

/-- **C131, quiet (partial).** In every interleaving of any number of threads in which, while one
of them is in `Restore`, the others are at most executing the entry points of an emission, and in which
every breakpoint is complete or refused at once: nothing undefined happens, names and ids correspond,
and an id is known exactly if it is the id of an event, under its name. Missing: breakpoints that end
too early, and calls of other threads meanwhile, see the theorems `_fails` below. -/
theorem C131_quiet_partial (logger : Bool) (l : List Input) (h : Quiet (Sys.init logger) l) :
    Sane ((Sys.init logger).run l) :=
  (good_run l _ (good_init logger) h).sane

/-- The thread of an input. -/
def Input.thread : Input → Nat
  | .call t _ => t
  | .restore t _ => t
  | .go t => t

theorem step_other {s : Sys} {x : Input} {u : Nat} (h : x.thread ≠ u) :
    (s.step x).stack u = s.stack u := by
  have hne : u ≠ x.thread := fun e => h e.symm
  unfold Sys.step
  split
  · rfl
  · cases x with
    | call t c =>
      dsimp only
      split
      · exact setStack_ne s _ hne
      · rfl
    | restore t d =>
      dsimp only
      split
      · exact setStack_ne s _ hne
      · rfl
    | go t =>
      dsimp only
      split
      · rfl
      · rename_i f fs hs
        have k : ∀ l, s.setStack t l u = s.stack u := fun l => setStack_ne s l hne
        have rd : ∀ b r s', s'.stack u = s.stack u → (s.reading b r s').stack u = s.stack u := by
          intro b r s' e
          unfold Sys.reading
          split
          · split
            · rfl
            · exact e
          · exact e
        unfold Sys.advance
        cases f with
        | naming c => cases c <;> dsimp only <;> repeat' (first | exact k _ | rfl | split)
        | running i rest b =>
          cases b <;> cases rest <;> exact k _
        | restoring d => cases d <;> dsimp only <;> repeat' (first | exact k _ | rfl | split)
        | iterating d rest => cases rest <;> exact k _
        | _ =>
          dsimp only
          repeat' (first | exact k _ | rfl | exact rd _ _ _ (k _) | split)

theorem run_other (u : Nat) : ∀ (l : List Input) (s : Sys), (∀ x ∈ l, x.thread ≠ u) →
    (s.run l).stack u = s.stack u
  | [], _, _ => rfl
  | x :: l, s, h => by
    have := run_other u l (s.step x) fun y hy => h y (List.mem_cons_of_mem _ hy)
    exact this.trans (step_other (h x (by simp)))

/-- **C131, one thread.** If only one thread uses the event manager (also from entry points that
an emission executes, to any depth) and every breakpoint is complete or refused at once, nothing
undefined happens, names and ids correspond, and an id is known exactly if it is the id of an event,
under its name. -/
theorem C131_single (logger : Bool) (t : Nat) (l : List Input)
    (ht : ∀ x ∈ l, x.thread = t) (hf : ∀ x ∈ l, FineInput x) :
    Sane ((Sys.init logger).run l) := by
  refine C131_quiet_partial logger l ⟨hf, ?_⟩
  intro a b e v u hne hv g hg
  have ha : ∀ w, w ≠ t → ((Sys.init logger).run a).stack w = [] := by
    intro w hw
    rw [run_other w a]
    · rfl
    · intro x hx e'
      rw [ht x (by rw [e]; exact List.mem_append_left _ hx)] at e'
      exact hw e'.symm
  by_cases eu : u = t
  · have : v ≠ t := fun ev => hne (ev.trans eu.symm)
    rw [ha v this] at hv
    obtain ⟨f, hf, _⟩ := hv
    cases hf
  · rw [ha u eu] at hg
    cases hg

theorem ne_cons (o : Done) (l : List Done) : l ≠ o :: l := by
  intro e
  have := congrArg List.length e
  simp at this

theorem reading_log {s s' : Sys} {b : Bool} {r : Nat} {o : Done}
    (h : (s.reading b r s').log = o :: s.log) : s'.log = o :: s.log := by
  unfold Sys.reading at h
  split at h
  · split at h
    · exact absurd h (ne_cons _ _)
    · exact h
  · exact h

/-- Only the end of the loop of `Restore` is recorded as `restored`. -/
theorem step_restored {s : Sys} {x : Input} {t : Nat} {d : Data}
    (h : (s.step x).log = .restored t d :: s.log) :
    ∃ fs, s.stack t = .iterating d [] :: fs ∧
      s.step x = { s with owner := none, stack := s.setStack t fs, log := .restored t d :: s.log } := by
  have hne : ∀ {o : Done} {l : List Done}, o :: l = .restored t d :: l → o = .restored t d := by
    intro o l e; cases e; rfl
  unfold Sys.step at h ⊢
  split at h
  · exact absurd h (ne_cons _ _)
  · rename_i hub
    rw [if_neg hub]
    cases x with
    | call u c =>
      dsimp only at h
      split at h <;> exact absurd h (ne_cons _ _)
    | restore u c =>
      dsimp only at h
      split at h <;> exact absurd h (ne_cons _ _)
    | go u =>
      dsimp only at h ⊢
      split at h
      · exact absurd h (ne_cons _ _)
      · rename_i f fs hs
        cases f with
        | naming c =>
          cases c
          all_goals
            unfold Sys.advance at h
            dsimp only at h
            repeat' (first | exact absurd h (ne_cons _ _) | cases hne h | split at h)
        | running i rest b =>
          cases b <;> cases rest <;> first | exact absurd h (ne_cons _ _) | cases hne h
        | restoring d' =>
          cases d'
          all_goals
            unfold Sys.advance at h
            dsimp only at h
            repeat' (first | exact absurd h (ne_cons _ _) | cases hne h | split at h)
        | iterating d' rest =>
          cases rest with
          | nil =>
            cases hne h
            exact ⟨fs, hs, rfl⟩
          | cons p rest => exact absurd h (ne_cons _ _)
        | _ =>
          unfold Sys.advance at h
          dsimp only at h
          repeat' (first
            | exact absurd h (ne_cons _ _)
            | cases hne h
            | cases hne (reading_log h)
            | exact absurd (reading_log h) (ne_cons _ _)
            | split at h)

/-- **C131, restored.** In such an interleaving, when a `Restore` returns, the event manager holds
exactly the events of the breakpoint, each under its id, and its subscriptions. -/
theorem C131_restored (logger : Bool) (l : List Input) (x : Input)
    (h : Quiet (Sys.init logger) (l ++ [x])) (t : Nat) (d : Data)
    (hr : ((Sys.init logger).run (l ++ [x])).log = .restored t d :: ((Sys.init logger).run l).log) :
    ∃ ev su, d = .whole ev su ∧
      (∀ y i, lookup ((Sys.init logger).run (l ++ [x])) i = some y ↔ (y, i) ∈ ev) ∧
      (∀ y i, Has ((Sys.init logger).run (l ++ [x])) y i ↔ (y, i) ∈ ev) ∧
      ∀ i, ((Sys.init logger).run (l ++ [x])).subs.find i = Assoc.find i su := by
  have hq : Quiet (Sys.init logger) l :=
    ⟨fun y hy => h.1 y (List.mem_append_left _ hy), fun a b e => h.2 a (b ++ [x]) (by
      rw [e, List.append_assoc])⟩
  have g := good_run l _ (good_init logger) hq
  have g' := good_run (l ++ [x]) _ (good_init logger) h
  have al : Alone ((Sys.init logger).run l) := h.2 l [x] rfl
  have e : (Sys.init logger).run (l ++ [x]) = ((Sys.init logger).run l).step x := by
    rw [run_append]; rfl
  rw [e] at hr g' ⊢
  generalize hS : (Sys.init logger).run l = s at *
  obtain ⟨fs, hs, e'⟩ := step_restored hr
  have fr := g.frames t (.iterating d []) (by rw [hs]; simp)
  obtain ⟨ld, dn, hdn, hid⟩ := fr
  have ho := g.only al hs rfl
  cases d with
  | whole ev su =>
    have has : ∀ y i, Has (s.step x) y i ↔ (y, i) ∈ ev := by
      intro y i
      rw [e', ← ld.1]
      unfold Has
      constructor
      · rintro ⟨r, hr⟩; exact List.mem_map.2 ⟨_, hr, rfl⟩
      · intro hm
        obtain ⟨p, hp, ep⟩ := List.mem_map.1 hm
        obtain ⟨r, q⟩ := p
        cases ep
        exact ⟨r, hp⟩
    refine ⟨ev, su, rfl, ?_, has, by rw [e']; exact ld.2⟩
    intro y i
    rw [← has]
    refine g'.sane.2.2 ?_ i y
    rw [e']
    intro u f hf
    exact ho.mem' hf
  | refused => exact ld.elim
  | eventsCut _ => exact ld.elim
  | subsCut _ _ _ => exact ld.elim

/-- **C131, repaired.** Whatever state the event manager is in while no call is in progress (for
instance after a `Restore` that raised), a complete breakpoint makes it sound again, for all that is
done afterwards. -/
theorem C131_repaired (s : Sys) (hub : s.ub = false) (ho : s.owner = none)
    (hidle : ∀ u, s.stack u = []) (t : Nat) (ev : List (String × Int)) (su : List (Int × List Nat))
    (hev : Stored ev) (l : List Input)
    (hq : Quiet (s.run [.restore t (.whole ev su), .go t]) l) :
    Sane (s.run ([.restore t (.whole ev su), .go t] ++ l)) := by
  rw [run_append]
  refine (good_run l _ ?_ hq).sane
  have e : s.run [.restore t (.whole ev su), .go t] =
      { s with events := (addAll s.fresh [] ev).1, fresh := (addAll s.fresh [] ev).2,
               subs := addSubs [] su,
               stack := (s.to t [.restoring (.whole ev su)]).setStack t
                 [.rebuilding (.whole ev su)] } := by
    have e1 : s.step (.restore t (.whole ev su)) = s.to t [.restoring (.whole ev su)] := by
      simp [Sys.step, hub, hidle, userRuns]
    show (s.step (.restore t (.whole ev su))).step (.go t) = _
    rw [e1]
    simp [Sys.step, Sys.to, hub, Sys.advance, ho, Sys.setStack]
  rw [e]
  exact good_load (s := s.to t [.restoring (.whole ev su)]) (fs := []) hub ho
    ⟨by simp, by
      intro u hu g hg
      have hg : g ∈ s.setStack t _ u := hg
      rw [setStack_ne _ _ hu, hidle] at hg
      cases hg⟩ hev

/-- A breakpoint of the events of the standard. -/
def standardBreakpoint : Data := .whole predefined [(4, [7, 8])]

theorem stored_standard : Stored predefined := by
  refine ⟨by decide +kernel, by decide +kernel, by decide +kernel⟩

/-- **C131 fails** for a breakpoint that ends within the names: `Restore` raises `CannotRestore`
and leaves `_ids` referring to destroyed strings; the next event, for instance the one that `Abort`
emits, reads one of them. -/
theorem C131_truncated_fails : ∃ l, (∀ x ∈ l, x.thread = 0) ∧
    ((Sys.init true).run (l ++ [.restore 0 (.eventsCut []), .go 0])).log =
      [.failed 0 (.eventsCut [])] ∧
    ((Sys.init true).run (l ++ [.restore 0 (.eventsCut []), .go 0, .call 0 (.emit 13), .go 0,
      .go 0])).ub = true :=
  ⟨[], by simp, by decide +kernel, by decide +kernel⟩

/-- **C131 fails** for such a breakpoint also where no string is read: an event of the standard
has another id afterwards, and the ids of the standard are still accepted. -/
theorem C131_standard_fails : ∃ l, (∀ x ∈ l, x.thread = 0) ∧
    ("SMP_EnterStandby", 4) ∈ predefined ∧
    ((Sys.init false).run l).log.head? =
      some (.returned 0 (.query "SMP_EnterStandby") (.id 1)) ∧
    ((Sys.init false).run l).ub = false :=
  ⟨[.restore 0 (.eventsCut []), .go 0, .call 0 (.query "SMP_EnterStandby"), .go 0, .go 0],
    by decide, by decide +kernel, by decide +kernel, by decide +kernel⟩

/-- **C131 fails** for a second thread that emits an event during a `Restore`: the name it has
looked up is destroyed before it is logged. Every breakpoint is complete. -/
theorem C131_emit_fails : ∃ l, (∀ x ∈ l, FineInput x) ∧ ((Sys.init true).run l).ub = true :=
  ⟨[.call 1 (.emit 4), .go 1, .restore 0 standardBreakpoint, .go 0, .go 1], by
    intro x hx
    simp only [List.mem_cons, List.not_mem_nil, or_false] at hx
    rcases hx with e | e | e | e | e <;> subst e <;>
      first | trivial | exact stored_standard, by decide +kernel⟩

/-- **C131 fails** for a second thread that asks for a new name during a `Restore`: it registers
a reference to a destroyed string, under an id that later belongs to another event. Every breakpoint is
complete, and nothing is called while a `Restore` or a query is in progress, except this query. -/
theorem C131_query_fails : ∃ l, (∀ x ∈ l, FineInput x) ∧
    Idle ((Sys.init false).run l) ∧ ((Sys.init false).run l).ub = false ∧
    Has ((Sys.init false).run l) "B" 20 ∧ lookup ((Sys.init false).run l) 20 = none :=
  ⟨[.call 1 (.query "A"), .go 1, .restore 0 standardBreakpoint, .go 0, .go 0] ++
    List.replicate 20 (.go 0) ++ [.go 1, .call 0 (.query "B"), .go 0, .go 0], by
    intro x hx
    simp only [List.mem_append, List.mem_cons, List.not_mem_nil, or_false, List.mem_replicate] at hx
    rcases hx with ((e | e | e | e | e) | ⟨_, e⟩) | e | e | e | e <;> subst e <;>
      first | trivial | exact stored_standard, by
    intro t f hf
    by_cases h0 : t = 0
    · subst h0
      have : ((Sys.init false).run
        ([.call 1 (.query "A"), .go 1, .restore 0 standardBreakpoint, .go 0, .go 0] ++
          List.replicate 20 (.go 0) ++ [.go 1, .call 0 (.query "B"), .go 0, .go 0])).stack 0 = [] := by
        decide +kernel
      rw [this] at hf; cases hf
    · by_cases h1 : t = 1
      · subst h1
        have : ((Sys.init false).run
          ([.call 1 (.query "A"), .go 1, .restore 0 standardBreakpoint, .go 0, .go 0] ++
            List.replicate 20 (.go 0) ++ [.go 1, .call 0 (.query "B"), .go 0, .go 0])).stack 1 = [] := by
          decide +kernel
        rw [this] at hf; cases hf
      · rw [run_other t] at hf
        · cases hf
        · intro x hx
          simp only [List.mem_append, List.mem_cons, List.not_mem_nil, or_false,
            List.mem_replicate] at hx
          rcases hx with ((e | e | e | e | e) | ⟨_, e⟩) | e | e | e | e <;> subst e <;>
            first
              | exact fun hh => h1 hh.symm
              | exact fun hh => h0 hh.symm, by decide +kernel, ⟨39, by decide +kernel⟩,
    by decide +kernel⟩

/-- **C131 fails** for a second thread that asks for a new name while `Restore` goes through
`_events`: the loop has not locked them. Every breakpoint is complete. -/
theorem C131_loop_fails : ∃ l, (∀ x ∈ l, FineInput x) ∧ ((Sys.init false).run l).ub = true :=
  ⟨[.restore 0 standardBreakpoint, .go 0, .go 0, .go 0, .call 1 (.query "A"), .go 1], by
    intro x hx
    simp only [List.mem_cons, List.not_mem_nil, or_false] at hx
    rcases hx with e | e | e | e | e | e <;> subst e <;>
      first | trivial | exact stored_standard, by decide +kernel⟩

/-- A case for `C131_single`, `C131_quiet_partial` and `C131_restored`: an entry point of an
emission restores a breakpoint; the emission goes on. -/
def caseNested : List Input :=
  [.call 0 (.query "A"), .go 0, .go 0, .call 0 (.subscribe 20 5), .go 0, .go 0, .go 0,
   .call 0 (.subscribe 20 6), .go 0, .go 0, .go 0, .call 0 (.emit 20), .go 0, .go 0, .go 0, .go 0,
   .restore 0 standardBreakpoint] ++ List.replicate 21 (.go 0)

example : (∀ x ∈ caseNested, x.thread = 0) ∧ (∀ x ∈ caseNested, FineInput x) := by
  refine ⟨by decide, ?_⟩
  intro x hx
  simp only [caseNested, List.mem_append, List.mem_cons, List.not_mem_nil, or_false,
    List.mem_replicate] at hx
  have k : ∀ t d, x = .restore t d → d = standardBreakpoint := by
    intro t d e; subst e; simp_all
  cases x with
  | restore t d => rw [k t d rfl]; exact stored_standard
  | _ => trivial

example : ((Sys.init true).run caseNested).log.length = 4 ∧
    ((Sys.init true).run (caseNested ++ [.go 0])).log =
      .restored 0 standardBreakpoint :: ((Sys.init true).run caseNested).log ∧
    ((Sys.init true).run (caseNested ++ [.go 0])).stack 0 = [.running 20 [6] true] ∧
    lookup ((Sys.init true).run (caseNested ++ [.go 0])) 20 = none := by
  decide +kernel

/-- A case for `C131_repaired`: after a `Restore` that raised. -/
example : let s := (Sys.init true).run [.restore 0 (.eventsCut []), .go 0]
    s.ub = false ∧ s.owner = none ∧ s.stack 0 = [] ∧ Stored predefined :=
  ⟨by decide +kernel, by decide +kernel, by decide +kernel, stored_standard⟩

end Verif.Event.Restoring
