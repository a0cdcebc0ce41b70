import Verif.Sim.PackagesLemmas
/-! C113: loading a package registers what it provides, once, with the simulator that loads it
(src/xsmp_services.cpp:38-98, src-gen/xsmp_event_manager.cpp:30-86, src/Xsmp/Simulator.cpp:117-150,
666-730). -/
namespace Verif.Sim.Packages

/-- Stand-ins for xsmp_logger, xsmp_time_keeper and xsmp_services
(src-gen/xsmp_logger.cpp:58-66, xsmp_services.cpp:64-69). -/
abbrev logger : Pkg := .mk 0 [] [.service 0]
/-- (src-gen/xsmp_time_keeper.cpp:58-66.) -/
abbrev keeper : Pkg := .mk 1 [] [.service 1]
/-- (xsmp_services.cpp:64-69.) -/
abbrev services : Pkg := .mk 2 [logger, keeper] []
/-- A package of types and factories (xsmp_example_project1.cpp:51-64). -/
abbrev project : Pkg := .mk 3 [] [.type 0, .factory 0, .factory 1]
/-- The table of these (xsmp_services.cpp:38-41). -/
abbrev table : Tbl := fun i =>
  if i = 0 then ([], [.service 0]) else if i = 1 then ([], [.service 1])
  else if i = 2 then ([logger, keeper], [])
  else if i = 3 then ([], [.type 0, .factory 0, .factory 1]) else ([], [])

/-- **C113** (what loading does). In a program that initialises packages by `LoadLibrary` only, in
a state in which services may be added, and never with a simulator that has seen another one
destroyed: loading a package succeeds, whatever was loaded before and by whichever simulator, and
leaves the simulator with what it had and what the package and those it uses provide, each once.
The other simulators keep what they have. -/
theorem C113_load_partial {tbl : Nat → List Pkg × List Item} (D : Distinct tbl) {h : List Op}
    {a : Nat} {p : Pkg} (c : Careful tbl (h ++ [.load a p])) :
    ∃ s s', (run .start h).sims a = some s ∧
      (load (run .start h) a p).2 = false ∧
      (load (run .start h) a p).1.sims a = some s' ∧
      (∀ it, it ∈ s'.items ↔ it ∈ s.items ∨ it ∈ p.all) ∧
      s'.items.Nodup ∧ s'.libs = s.libs ++ [p] ∧
      ∀ b, b ≠ a → (load (run .start h) a p).1.sims b = (run .start h).sims b := by
  obtain ⟨hp, hf, s, hs, ho⟩ := c.loads h a p [] rfl
  have I := inv_run D _ h rfl c.pre
  obtain ⟨s', h1, h2, h3, h4, _, h6, _, h8⟩ := load_post D hp hs ho (I.exact a s hs hf)
  have once : Once (run .start h) := once_run h (fun b sb hb => by simp [World.start] at hb)
  exact ⟨s, s', hs, h1, h3, h6, once_step once (.load a p) a s' h3, h4, h8⟩

/-- **C113** (the end of a simulator). In such a program the sets hold living simulators only;
when all have been destroyed the packages are as at the start. -/
theorem C113_end_partial {tbl : Nat → List Pkg × List Item} (D : Distinct tbl) {h : List Op}
    (c : Careful tbl h) :
    (∀ i a, a ∈ (run .start h).sets i → (run .start h).sims a ≠ none) ∧
    ((∀ a, (run .start h).sims a = none) → (run .start h).sets = World.start.sets) := by
  have I := inv_run D _ h rfl c
  refine ⟨fun i a ha e => ?_, fun hd => funext fun i => ?_⟩
  · obtain ⟨s, hs⟩ := I.alive i a ha
    rw [e] at hs; cases hs
  · show (run .start h).sets i = []
    cases hS : (run .start h).sets i with
    | nil => rfl
    | cons a l =>
      obtain ⟨s, hs⟩ := I.alive i a (by rw [hS]; exact List.mem_cons_self ..)
      rw [hd a] at hs; cases hs

/-- **C113** (once). Whatever the program does, no service, factory or type is twice in a
simulator. -/
theorem C113_once (h : List Op) (a : Nat) (s : Simr) (hs : (run .start h).sims a = some s) :
    s.items.Nodup :=
  once_run h (fun b sb hb => by simp [World.start] at hb) a s hs

/-- **C113** (again). Whatever the program did: when loading a package has succeeded, loading it
again at once succeeds and changes nothing, but that the library is listed once more. -/
theorem C113_again (w : World) (a : Nat) (p : Pkg) (s : Simr)
    (ok : (load w a p).2 = false) (hs : (load w a p).1.sims a = some s) :
    load (load w a p).1 a p =
      ((load w a p).1.setSim a (some { s with libs := s.libs ++ [p] }), false) := by
  have hset : a ∈ (load w a p).1.sets p.id := by
    have := (init_grow a p w).2
    unfold load
    split
    · exact this
    · split
      · exact this
      · exact this
  have e : init (load w a p).1 a p = ((load w a p).1, false) := by
    cases p
    simp only [Pkg.id] at hset
    simp only [init, if_pos hset]
  rw [show load (load w a p).1 a p = if (init (load w a p).1 a p).2 then init (load w a p).1 a p
    else match (init (load w a p).1 a p).1.sims a with
      | none => ((init (load w a p).1 a p).1, true)
      | some s => ((init (load w a p).1 a p).1.setSim a (some { s with libs := s.libs ++ [p] }),
          false) from rfl, e]
  simp [hs]

/-- **C113** (the result). `Initialise` returns false for a null simulator and does nothing; for
another one it returns true or raises. -/
theorem C113_result (w : World) (a : Option Nat) (p : Pkg) :
    ((initialise w a p).2 = some false ↔ a = none) ∧ (a = none → (initialise w a p).1 = w) := by
  cases a with
  | none => simp [initialise]
  | some a =>
    simp only [initialise]
    split <;> simp

/-! ### Where it fails -/

/-- **C113 fails** for two simulators: when one is destroyed, `Finalise` forgets the other one as
well; that one can then not load a package it has, nor one that uses it: the service is there
already and the exception of `AddService` ends the initialisation, so that what should follow is
missing. -/
theorem C113_two_fails :
    let h : List Op := [.create 0, .load 0 logger, .create 1, .load 1 services, .destroy 1]
    (load (run .start h) 0 logger).2 = true ∧
    (load (run .start h) 0 services).2 = true ∧
    ((load (run .start h) 0 services).1.sims 0).map (·.items) = some [.service 0] := by
  decide

/-- … and once that has raised, the same call reports success, though the second service of the
package is still missing. -/
theorem C113_retry_fails :
    let h : List Op := [.create 0, .load 0 logger, .create 1, .load 1 services, .destroy 1,
      .load 0 services]
    (load (run .start h) 0 services).2 = false ∧
    ((load (run .start h) 0 services).1.sims 0).map (·.items) = some [.service 0] := by
  decide

/-- **C113 fails** with one simulator: a package loaded while services cannot be added is refused;
loaded again when they can, it is reported as loaded and its service is not there. -/
theorem C113_state_fails :
    let h : List Op := [.create 0, .state 0 false, .load 0 logger, .state 0 true]
    (load (run .start [.create 0, .state 0 false]) 0 logger).2 = true ∧
    (load (run .start h) 0 logger).2 = false ∧
    ((load (run .start h) 0 logger).1.sims 0).map (·.items) = some [] := by
  decide

/-- **C113 fails** when packages are initialised by a call: nothing takes the simulator out of the
set when it ends, and a later one at the same address gets nothing, though `LoadLibrary` and
`Initialise` report success. -/
theorem C113_address_fails :
    let h : List Op := [.create 0, .call 0 logger, .destroy 0, .create 0]
    (load (run .start h) 0 logger).2 = false ∧
    ((load (run .start h) 0 logger).1.sims 0).map (·.items) = some [] ∧
    (init (run .start h) 0 logger).2 = false := by
  decide

/-! ### The hypotheses are met -/

theorem careful_nil (tbl : Tbl) : Careful tbl [] :=
  ⟨fun h1 a p h2 e => by simp at e, fun _ _ h => (by cases h), fun _ _ h => (by cases h)⟩

theorem careful_snoc {tbl : Tbl} {h : List Op} {o : Op} (c : Careful tbl h)
    (hl : ∀ a p, o = .load a p →
      p.Ok tbl ∧ Fresh h a ∧ ∃ s, (run .start h).sims a = some s ∧ s.accepts = true)
    (hc : ∀ a p, o ≠ .call a p) (ha : ∀ a it, o = .add a it → ∀ i, it ∉ (tbl i).2) :
    Careful tbl (h ++ [o]) := by
  refine ⟨fun h1 a p h2 e => ?_, fun a p hm => ?_, fun a it hm => ?_⟩
  · rcases List.eq_nil_or_concat h2 with e2 | ⟨h3, x, e2⟩
    · subst e2
      obtain ⟨rfl, e⟩ := List.append_inj' e rfl
      exact hl a p (by simpa using e)
    · rw [List.concat_eq_append] at e2
      subst e2
      have e' : h ++ [o] = (h1 ++ Op.load a p :: h3) ++ [x] := by rw [e]; simp
      obtain ⟨rfl, _⟩ := List.append_inj' e' rfl
      exact c.loads h1 a p h3 rfl
  · rcases List.mem_append.mp hm with hm | hm
    · exact c.calls a p hm
    · exact hc a p (List.mem_singleton.mp hm).symm
  · rcases List.mem_append.mp hm with hm | hm
    · exact c.adds a it hm
    · exact ha a it (List.mem_singleton.mp hm).symm

theorem table_distinct : Distinct table := by
  refine ⟨fun i => ?_, fun i j it hi hj => ?_⟩
  · simp only [table]
    repeat' split
    all_goals decide
  · simp only [table] at hi hj
    repeat' split at hi
    all_goals repeat' split at hj
    all_goals simp at hi hj
    all_goals first
      | omega
      | (subst hi; simp at hj)
      | (rcases hi with rfl | rfl | rfl <;> simp at hj)

/-- Two simulators at the same time, a package loaded twice, one used by another, something of the
program's own; both end, and one is created where the first one was. -/
example : Careful table ([.create 0, .load 0 logger, .create 1, .load 1 services, .load 0 services,
    .add 0 (.service 7), .load 0 services, .destroy 0, .destroy 1, .create 0] ++
    [.load 0 services]) := by
  have ok0 : logger.Ok table := by simp [Pkg.Ok, OkAll, table, logger]
  have ok2 : services.Ok table := by simp [Pkg.Ok, OkAll, table, logger, keeper, services]
  have c1 := careful_snoc (careful_nil table) (o := .create 0) (by simp) (by simp) (by simp)
  have c2 := careful_snoc c1 (o := .load 0 logger) (by
    rintro a p e
    cases e
    exact ⟨ok0, ⟨[], [], rfl, rfl, by simp⟩, _, rfl, rfl⟩) (by simp) (by simp)
  have c3 := careful_snoc c2 (o := .create 1) (by simp) (by simp) (by simp)
  have c4 := careful_snoc c3 (o := .load 1 services) (by
    rintro a p e
    cases e
    exact ⟨ok2, ⟨[.create 0, .load 0 logger], [], rfl, rfl, by simp⟩, _, rfl, rfl⟩)
    (by simp) (by simp)
  have c5 := careful_snoc c4 (o := .load 0 services) (by
    rintro a p e
    cases e
    exact ⟨ok2, ⟨[], _, rfl, rfl, by simp⟩, _, rfl, rfl⟩) (by simp) (by simp)
  have c6 := careful_snoc c5 (o := .add 0 (.service 7)) (by simp) (by simp) (by
    rintro a it e i
    cases e
    simp only [table]
    repeat' split
    all_goals decide)
  have c7 := careful_snoc c6 (o := .load 0 services) (by
    rintro a p e
    cases e
    exact ⟨ok2, ⟨[], _, rfl, rfl, by simp⟩, _, rfl, rfl⟩) (by simp) (by simp)
  have c8 := careful_snoc c7 (o := .destroy 0) (by simp) (by simp) (by simp)
  have c9 := careful_snoc c8 (o := .destroy 1) (by simp) (by simp) (by simp)
  have c10 := careful_snoc c9 (o := .create 0) (by simp) (by simp) (by simp)
  exact careful_snoc c10 (o := .load 0 services) (by
    rintro a p e
    cases e
    refine ⟨ok2, ⟨[.create 0, .load 0 logger, .create 1, .load 1 services, .load 0 services,
      .add 0 (.service 7), .load 0 services, .destroy 0, .destroy 1], [], rfl, rfl, by simp⟩, _,
      rfl, rfl⟩) (by simp) (by simp)

/-- What the last load leaves. -/
example : ((run .start [.create 0, .load 0 logger, .create 1, .load 1 services, .load 0 services,
    .add 0 (.service 7), .load 0 services, .destroy 0, .destroy 1, .create 0,
    .load 0 services]).sims 0).map (·.items) = some [.service 0, .service 1] := by decide

/-- Before the end of the first simulator it has the three services. -/
example : ((run .start [.create 0, .load 0 logger, .create 1, .load 1 services, .load 0 services,
    .add 0 (.service 7)]).sims 0).map (·.items) =
    some [.service 0, .service 1, .service 7] := by decide

/-- A successful load, to which the claim about loading again applies. -/
example : (load (run .start [.create 0]) 0 project).2 = false ∧
    ((load (run .start [.create 0]) 0 project).1.sims 0).map (·.items) =
      some [.type 0, .factory 0, .factory 1] := by decide

end Verif.Sim.Packages
