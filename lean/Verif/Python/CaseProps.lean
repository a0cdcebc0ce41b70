import Verif.Python.CaseLemmas

/-! C140: each test in Python has a simulator of its own, that does not outlive it. -/
namespace Verif.Python.Case
open Verif.Sim.Matched
open Verif.Tree (LState)

/-! ### Examples -/

/-- The six services, a model with a model in it, and a body that runs the simulation. -/
def plain : Case where
  create := .ok
  loads := [([.addService 0], .ok), ([.addService 1], .ok), ([.addService 2], .ok),
    ([.addService 3], .ok), ([.addService 4], .ok), ([.addService 5], .ok),
    ([.addModel 6, .addIn 6 7], .ok)]
  conEnv := quiet
  conInit := false
  hints := .ok
  body := [.run, .hold]
  bodyOut := .ok
  del := false
  other := false
  exitEnv := quiet
  endEnv := quiet

theorem quiet_calm : Calm quiet := fun _ => ⟨rfl, fun _ h => by cases h⟩

theorem plain_tidy (o : Out) : Tidy { plain with bodyOut := o } where
  loads := by simp [plain, Soft]
  hints := by simp [plain]
  body := by simp [plain, Soft]
  other := rfl
  exit := quiet_calm
  ending := quiet_calm
  loadsNeat := by simp [plain, Neat]
  bodyNeat := by simp [plain, Neat]
  con := ⟨fun _ => ⟨rfl, rfl, rfl⟩, rfl⟩

/-- A test that fails. -/
def failing : Case := { plain with bodyOut := .exc }

/-- An assembly that cannot be loaded. -/
def broken : Case := { plain with loads := [([.addService 0], .ok), ([.addModel 6], .exc)] }

/-- A component whose `DoDisconnect` raises. -/
def sticky : Case := { plain with exitEnv := fun c => { Hooks.quiet with dis := decide (c = 7) } }

/-- `loadAssembly` calls `sys.exit()`. -/
def leaving : Case := { plain with loads := [([.addService 0], .ok), ([.addModel 6], .base)] }

/-- `loadAssembly` aborts the simulation. -/
def aborting : Case := { plain with loads := [([.addService 0], .ok), ([.abort], .ok)] }

/-! ### One test -/

theorem setUp_usable {c : Case} (h : Gentle c) {s attr o} (hs : setUp c = (some (s, attr), o)) :
    Usable s ∧ o ≠ .base ∧ Made s := by
  have hcr : c.create = .ok := by
    apply Classical.byContradiction
    intro hn
    unfold setUp at hs
    rw [if_pos hn] at hs
    simp at hs
  obtain ⟨s', attr', o', h1, h2, -, h4, -, -, h7⟩ := setUp_made c hcr
  rw [h1] at hs
  simp only [Prod.mk.injEq, Option.some.injEq] at hs
  obtain ⟨⟨rfl, rfl⟩, rfl⟩ := hs
  have hl := load_usable c.loads (s := St.init) ⟨by simp [St.init], by simp [St.init]⟩ h.loads
  have hc := connect_usable c hl.1
  refine ⟨h4 Usable hl.1 hc.1, fun hb => ?_, h2⟩
  rcases h7 hb with h7 | h7 | h7
  · exact hl.2 h7
  · exact hc.2 h7
  · exact h.hints h7

theorem tearDown_calm (c : Case) (he : Calm c.exitEnv) {s : St} (hs : Usable s) (hm : Made s)
    (attr : Bool) : Usable (tearDown c s attr).1 ∧ Made (tearDown c s attr).1 ∧
      (tearDown c s attr).2.1 = false ∧ (tearDown c s attr).2.2 = .ok := by
  unfold tearDown
  split
  · split
    · have h1 := step_usable hs (op := .exit c.exitEnv) rfl (fun d => (he d).2)
      have h2 := hm.exit c.exitEnv
      have h3 : (s.exit c.exitEnv).2 = .ok := by
        unfold St.exit
        split
        · rfl
        · exact (all_all (Q := (· ≠ .connected)) (exit_ok c.exitEnv he.mild) _).1
      change Usable (s.exit c.exitEnv).1 at h1
      generalize s.exit c.exitEnv = v at h1 h2 h3 ⊢
      obtain ⟨t, r⟩ := v
      dsimp only at h1 h2 h3 ⊢
      subst h3
      exact ⟨h1, h2, rfl, rfl⟩
    · exact ⟨hs, hm, rfl, rfl⟩
  · exact ⟨hs, hm, rfl, rfl⟩

theorem finish_gone (keeps : Bool) (c : Case) (start : Option St) {s : St} (held failed : Bool)
    (hs : Usable s) (hh : held = false) :
    finish keeps c start s held failed
      = ⟨start, failed, none, some (step s (.destroy c.endEnv))⟩ := by
  unfold finish
  rw [if_neg hs.2, hh]
  rfl

theorem test_gentle (keeps : Bool) {c : Case} (h : Gentle c) :
    (test keeps c).left = none ∧ (c.create ≠ .ok → (test keeps c).gone = none) ∧
    (c.create = .ok → ∃ s, (test keeps c).gone = some s ∧ s.phase = .destroyed ∧ Made s ∧
      s.comps = []) := by
  unfold test
  split
  · rename_i o hs
    refine ⟨rfl, fun _ => rfl, fun hc => ?_⟩
    obtain ⟨s', attr', o', h1, -⟩ := setUp_made c hc
    rw [h1] at hs
    simp at hs
  · rename_i s attr o hs
    obtain ⟨hu, hb, hm⟩ := setUp_usable h hs
    have hcr : c.create = .ok := by
      apply Classical.byContradiction
      intro hn
      unfold setUp at hs
      rw [if_pos hn] at hs
      simp at hs
    have hattr : attr = decide (o ≠ .exc) := by
      obtain ⟨s', attr', o', h1, -, h3, -⟩ := setUp_made c hcr
      rw [h1] at hs
      simp only [Prod.mk.injEq, Option.some.injEq] at hs
      obtain ⟨⟨rfl, rfl⟩, rfl⟩ := hs
      exact h3
    have key : ∀ start (t : St) held failed, Usable t → Made t → held = false →
        (finish keeps c start t held failed).left = none ∧
        ((c.create ≠ .ok) → (finish keeps c start t held failed).gone = none) ∧
        (c.create = .ok → ∃ s, (finish keeps c start t held failed).gone = some s ∧
          s.phase = .destroyed ∧ Made s ∧ s.comps = []) := by
      intro start t held failed hut hmt hh
      rw [finish_gone keeps c start held failed hut hh]
      exact ⟨rfl, fun hn => absurd hcr hn, fun _ => ⟨_, rfl, (destroy_clear hut h.ending).1,
        hmt.step _, (destroy_clear hut h.ending).2⟩⟩
    by_cases ho : o ≠ .ok ∨ s.phase = .crashed
    · rw [if_pos ho]
      refine key _ _ _ _ hu hm ?_
      rw [hattr]
      cases o
      · simp at ho; exact absurd ho hu.2
      · rfl
      · exact absurd rfl hb
    · rw [if_neg ho]
      have hub := use_usable c.body hu h.body
      obtain ⟨t1, t2, t3, t4⟩ := tearDown_calm c h.exit hub (hm.use c.body) (attr && !c.del)
      dsimp only
      refine key _ _ _ _ t1 t2 ?_
      rw [t3, h.other]
      rfl

/-! ### C140 -/

/-- C140, partial: when tests are gentle, no other simulator is alive when a test starts and none
when it is done, whatever `setUp`, the tests and the runner do, and no test crashes. -/
theorem C140_alone_partial (keeps : Bool) (cs : List Case) (h : ∀ c ∈ cs, Gentle c) :
    (runAll keeps cs []).length = cs.length ∧
    ∀ x ∈ runAll keeps cs [], x.1 = [] ∧ x.2.left = none := by
  induction cs with
  | nil => exact ⟨rfl, fun x hx => by cases hx⟩
  | cons c l ih =>
    obtain ⟨i1, i2⟩ := ih (fun d hd => h d (List.mem_cons_of_mem _ hd))
    obtain ⟨h1, h2, h3⟩ := test_gentle keeps (h c List.mem_cons_self)
    have hcr : (test keeps c).crashed = false := by
      unfold Report.crashed
      by_cases hc : c.create = .ok
      · obtain ⟨s, e1, e2, -⟩ := h3 hc
        rw [e1]
        simp [e2]
      · rw [h2 hc]
    unfold runAll
    dsimp only
    rw [if_neg (by rw [hcr]; simp), h1]
    refine ⟨congrArg Nat.succ i1, fun x hx => ?_⟩
    rcases List.mem_cons.1 hx with hx | hx
    · rw [hx]; exact ⟨rfl, h1⟩
    · exact i2 x hx

/-- C140, partial: the simulator of a gentle test is destroyed, with every component that was ever
added to it, each one once. -/
theorem C140_destroyed_partial (keeps : Bool) (c : Case) (h : Gentle c) (hc : c.create = .ok) :
    ∃ s, (test keeps c).gone = some s ∧ s.phase = .destroyed ∧
      ∀ d ∈ s.seen, s.tr.count (.destroy d) = 1 := by
  obtain ⟨s, h1, h2, h3, h4⟩ := (test_gentle keeps h).2.2 hc
  refine ⟨s, h1, h2, fun d hd => ?_⟩
  have hm := destroyed_of h3 h4 d hd
  obtain ⟨ops, rfl⟩ := h3
  have hl : (run St.init ops).tr.count (.destroy d)
      = (life d (run St.init ops).tr).count (.destroy d) := by
    unfold life
    rw [List.count_filter]
    simp
  have hm' : Obs.destroy d ∈ life d (run St.init ops).tr := by
    unfold life; rw [List.mem_filter]; exact ⟨hm, by simp⟩
  rw [hl]
  rcases C138_once ops d with h | h | h | h | h | h <;> rw [h] at hm' ⊢ <;> simp at hm' ⊢

/-- C140, partial: if moreover nothing raises in the simulator, every component that was connected
was disconnected before it was destroyed. -/
theorem C140_matched_partial (keeps : Bool) (c : Case) (h : Tidy c) (hc : c.create = .ok) :
    ∃ s, (test keeps c).gone = some s ∧ ∀ d ∈ s.seen, Matched d s.tr := by
  have hg := h.toGentle
  obtain ⟨s, attr, o, h1, -, -, h4, -, -, -⟩ := setUp_made c hc
  have hl := Reach.load c.loads Reach.init h.loadsNeat
  have hcn : Reach (connect c (load c.loads St.init).1).1 :=
    Reach.step hl (op := .connect c.conEnv c.conInit) h.con
  have hr : Reach s := h4 Reach hl hcn
  obtain ⟨hu, hb, hm⟩ := setUp_usable hg h1
  have key : ∀ start (t : St) held failed, Usable t → Reach t → held = false →
      ∃ s, (finish keeps c start t held failed).gone = some s ∧ ∀ d ∈ s.seen, Matched d s.tr := by
    intro start t held failed hut hrt hh
    rw [finish_gone keeps c start held failed hut hh]
    refine ⟨_, rfl, ?_⟩
    have := Reach.step hrt (op := .destroy c.endEnv) h.ending.mild
    exact C138_end_partial this (C138_destroy_partial hrt c.endEnv h.ending.mild)
  have hattr : attr = decide (o ≠ .exc) := by
    obtain ⟨s', attr', o', g1, -, g3, -⟩ := setUp_made c hc
    rw [h1] at g1
    simp only [Prod.mk.injEq, Option.some.injEq] at g1
    obtain ⟨⟨rfl, rfl⟩, rfl⟩ := g1
    exact g3
  unfold test
  rw [h1]
  dsimp only
  by_cases ho : o ≠ .ok ∨ s.phase = .crashed
  · rw [if_pos ho]
    refine key _ _ _ _ hu hr ?_
    rw [hattr]
    cases o
    · simp at ho; exact absurd ho hu.2
    · rfl
    · exact absurd rfl hb
  · rw [if_neg ho]
    have hub := use_usable c.body hu hg.body
    have hrb := Reach.use c.body hr h.bodyNeat
    obtain ⟨t1, -, t3, t4⟩ := tearDown_calm c hg.exit hub (hm.use c.body) (attr && !c.del)
    have hrt : Reach (tearDown c (use s c.body) (attr && !c.del)).1 := by
      have := Reach.step hrb (op := .exit c.exitEnv) hg.exit.mild
      change Reach ((use s c.body).exit c.exitEnv).1 at this
      unfold tearDown
      split
      · split
        · generalize (use s c.body).exit c.exitEnv = v at this ⊢
          obtain ⟨a, b⟩ := v
          cases b <;> exact this
        · exact hrb
      · exact hrb
    refine key _ _ _ _ t1 hrt ?_
    rw [t3, hg.other]
    rfl

example : (test true failing).failed = true ∧ (test true failing).left = none ∧
    (test true broken).failed = true ∧ (test true broken).left = none ∧
    (test true broken).gone.map (·.tr) = some [.destroy 6, .destroy 0] := by decide +kernel

example : (runAll true [failing, broken, plain] []).map (fun x => (x.1.length, x.2.failed))
    = [(0, true), (0, true), (0, false)] := by decide +kernel

/-- C140: an exception of `setUp`, of the test or of `Exit` is not lost: a test that does not fail
had none. -/
theorem C140_passed (keeps : Bool) (c : Case) (h : (test keeps c).failed = false) :
    c.create = .ok ∧ (∀ p ∈ c.loads, p.2 = .ok) ∧ c.hints = .ok ∧ c.bodyOut = .ok ∧
      ((load c.loads St.init).1.phase = .building →
        (step (load c.loads St.init).1 (.connect c.conEnv c.conInit)).phase = .standby) := by
  have hf : ∀ start (t : St) held failed, (finish keeps c start t held failed).failed = failed := by
    intro start t held failed
    unfold finish
    split
    · rfl
    · split <;> rfl
  by_cases hc : c.create = .ok
  · obtain ⟨s, attr, o, h1, -, -, -, h5, -, -⟩ := setUp_made c hc
    unfold test at h
    rw [h1] at h
    dsimp only at h
    by_cases ho : o ≠ .ok ∨ s.phase = .crashed
    · rw [if_pos ho, hf] at h
      cases h
    · rw [if_neg ho, hf] at h
      have ho1 : o = .ok := Classical.byContradiction (fun hn => ho (.inl hn))
      obtain ⟨l1, l2, l3⟩ := h5.1 ho1
      simp only [Bool.or_eq_false_iff, decide_eq_false_iff_not, ne_eq, Classical.not_not] at h
      have hload : ∀ (l : List (List Op × Out)) s, (load l s).2 = .ok → ∀ p ∈ l, p.2 = .ok := by
        intro l
        induction l with
        | nil => intro s _ p hp; cases hp
        | cons q l ih =>
          obtain ⟨ops, o⟩ := q
          intro s hs p hp
          unfold load at hs
          split at hs
          · rename_i ho
            rcases List.mem_cons.1 hp with hp | hp
            · rw [hp]; exact ho
            · exact ih _ hs p hp
          · rename_i ho; exact absurd hs ho
      refine ⟨hc, hload _ _ l1, l3, h.1, fun hb => ?_⟩
      unfold connect at l2
      dsimp only at l2
      apply Classical.byContradiction
      intro hn
      rw [if_pos ⟨hb, hn⟩] at l2
      cases l2
  · exfalso
    unfold test at h
    have : setUp c = (none, c.create) := by unfold setUp; rw [if_pos hc]
    rw [this] at h
    cases h

example : (test true plain).failed = false ∧ (test true sticky).failed = true ∧
    (test true leaving).failed = true := by decide +kernel

/-- C140: a simulator outlives a test only if the test fails and the runner keeps the tests that
failed, whatever the test does. -/
theorem C140_outlive (keeps : Bool) (c : Case) (h : (test keeps c).left ≠ none) :
    keeps = true ∧ (test keeps c).failed = true := by
  have hf : ∀ start (t : St) held failed, (finish keeps c start t held failed).left ≠ none →
      keeps = true ∧ (finish keeps c start t held failed).failed = true := by
    intro start t held failed hl
    unfold finish at hl ⊢
    split
    · rename_i hp; rw [if_pos hp] at hl; exact absurd rfl hl
    · rename_i hp
      rw [if_neg hp] at hl
      split
      · rename_i hk; simp only [Bool.and_eq_true] at hk; exact ⟨hk.2, hk.1.2⟩
      · rename_i hk; rw [if_neg hk] at hl; exact absurd rfl hl
  unfold test at h ⊢
  split
  · rename_i hs; rw [hs] at h; exact absurd rfl h
  · rename_i s attr o hs
    rw [hs] at h
    dsimp only at h
    split
    · rename_i ho; rw [if_pos ho] at h; exact hf _ _ _ _ h
    · rename_i ho; rw [if_neg ho] at h; exact hf _ _ _ _ h

example : (test true sticky).left ≠ none ∧ (test false sticky).left = none ∧
    (test true { plain with other := true }).left = none ∧
    (test true { failing with other := true }).left ≠ none := by decide +kernel

/-- C140, partial: if the services and the assembly only add components, and publish and configure
them, the test is given a simulator in Standby state. -/
theorem C140_standby_partial (keeps : Bool) (c : Case)
    (hl : ∀ p ∈ c.loads, ∀ o ∈ p.1, Builds o) (s : St) (h : (test keeps c).start = some s) :
    s.phase = .standby := by
  have hb : ∀ (ops : List Op) (s : St), (∀ o ∈ ops, Builds o) → s.phase = .building →
      (use s ops).phase = .building := by
    intro ops
    induction ops with
    | nil => intro s _ h; exact h
    | cons o l ih =>
      intro s ho h
      unfold use
      rw [List.filter_cons]
      split
      · refine ih _ (fun o' h' => ho o' (List.mem_cons_of_mem _ h')) ?_
        have := ho o List.mem_cons_self
        cases o <;> first | exact this.elim | (simp only [step]; split <;> exact h)
      · exact ih _ (fun o' h' => ho o' (List.mem_cons_of_mem _ h')) h
  have hload : ∀ (l : List (List Op × Out)) (s : St), (∀ p ∈ l, ∀ o ∈ p.1, Builds o) →
      s.phase = .building → (load l s).1.phase = .building := by
    intro l
    induction l with
    | nil => intro s _ h; exact h
    | cons q l ih =>
      obtain ⟨ops, o⟩ := q
      intro s hq h
      have h1 := hb ops s (hq (ops, o) List.mem_cons_self) h
      unfold load
      split
      · exact ih _ (fun p hp => hq p (List.mem_cons_of_mem _ hp)) h1
      · exact h1
  have hphase := hload c.loads St.init hl rfl
  have hf : ∀ start (t : St) held failed, (finish keeps c start t held failed).start = start := by
    intro start t held failed
    unfold finish
    split
    · rfl
    · split <;> rfl
  by_cases hc : c.create = .ok
  · obtain ⟨s', attr, o, h1, -, -, -, h5, h6, -⟩ := setUp_made c hc
    unfold test at h
    rw [h1] at h
    dsimp only at h
    by_cases ho : o ≠ .ok ∨ s'.phase = .crashed
    · rw [if_pos ho, hf] at h; cases h
    · rw [if_neg ho, hf] at h
      cases h
      have ho1 : o = .ok := Classical.byContradiction (fun hn => ho (.inl hn))
      obtain ⟨-, l2, -⟩ := h5.1 ho1
      rw [h6 ho1]
      unfold connect at l2 ⊢
      dsimp only at l2 ⊢
      apply Classical.byContradiction
      intro hn
      rw [if_pos ⟨hphase, hn⟩] at l2
      cases l2
  · exfalso
    unfold test at h
    have : setUp c = (none, c.create) := by unfold setUp; rw [if_pos hc]
    rw [this] at h
    cases h

example : (test true plain).start.map (·.phase) = some .standby := by decide +kernel

/-- C140 fails: `setUp` returns whatever the state of the simulator is, if it is not Building when
`Connect` is called: after an abort in `loadAssembly`, the test is given a simulator that is
Aborting. -/
theorem C140_standby_fails (keeps : Bool) (c : Case) (hc : c.create = .ok) (hh : c.hints = .ok)
    (s : St) (hl : load c.loads St.init = (s, .ok)) (hp : s.phase ≠ .building)
    (hp2 : s.phase ≠ .crashed) : (test keeps c).start = some s := by
  have h1 : setUp c = (some (s, true), .ok) := by
    unfold setUp
    rw [if_neg (fun h => h hc), hl]
    dsimp only
    unfold connect
    dsimp only
    have : step s (.connect c.conEnv c.conInit) = s := by
      simp only [step, St.connect]
      rw [if_pos hp]
    rw [this, if_pos rfl, if_neg (fun h => hp h.1)]
    rw [if_pos rfl, hh]
    rfl
  unfold test
  rw [h1]
  dsimp only
  rw [if_neg (by simp [hp2])]
  unfold finish
  split
  · rfl
  · split <;> rfl

example : load aborting.loads St.init = ((load aborting.loads St.init).1, .ok) ∧
    (test true aborting).start.map (·.phase) = some .aborting ∧
    (test true aborting).failed = false := by decide +kernel

/-- A simulator that is left alive stays alive for the tests that follow. -/
theorem runAll_alive (keeps : Bool) (s : St) (l : List Case) :
    ∀ alive, s ∈ alive → ∀ x ∈ runAll keeps l alive, s ∈ x.1 := by
  induction l with
  | nil => intro alive _ x hx; cases hx
  | cons c l ih =>
    intro alive hs x hx
    unfold runAll at hx
    dsimp only at hx
    rcases List.mem_cons.1 hx with hx | hx
    · rw [hx]; exact hs
    · split at hx
      · cases hx
      · exact ih _ (List.mem_append_left _ hs) x hx

/-- A simulator that a test leaves is alive in all tests after it. -/
theorem runAll_after (keeps : Bool) (c : Case) (s : St) (hs : (test keeps c).left = some s)
    (pre post : List Case) : ∀ alive,
    ∀ x ∈ (runAll keeps (pre ++ c :: post) alive).drop (pre.length + 1), s ∈ x.1 := by
  induction pre with
  | nil =>
    intro alive x hx
    rw [List.nil_append, runAll] at hx
    dsimp only [List.length_nil, Nat.zero_add, List.drop_succ_cons, List.drop_zero] at hx
    split at hx
    · cases hx
    · exact runAll_alive keeps s post _ (List.mem_append_right _ (by rw [hs]; simp)) x hx
  | cons d l ih =>
    intro alive x hx
    rw [List.cons_append, runAll] at hx
    dsimp only [List.length_cons, List.drop_succ_cons] at hx
    split at hx
    · simp at hx
    · exact ih _ x hx

/-- C140 fails: if `DoDisconnect` of a connected component raises in `Exit`, `tearDown` does not
delete the simulator: with a runner that keeps the tests that failed, it is alive in every test that
follows. -/
theorem C140_exit_fails (c : Case) (s : St) (hs : setUp c = (some (s, true), .ok))
    (h0 : s.phase ≠ .crashed) (hd : c.del = false) (hb : (use s c.body).phase = .standby) (d : Nat)
    (hc : (use s c.body).Has d .connected) (hdis : (c.exitEnv d).dis = true)
    (hcalls : ∀ b, ∀ x ∈ (c.exitEnv b).calls, x.2 = .log ∨ x.2 = .removeEvent)
    (pre post : List Case) :
    ∃ t, (test true c).left = some t ∧ t.phase = .exiting ∧ (test true c).failed = true ∧
      ∀ x ∈ (runAll true (pre ++ c :: post) []).drop (pre.length + 1), t ∈ x.1 := by
  have hnc := exit_nocrash (use s c.body) c.exitEnv hcalls
  have hph := exit_phase _ _ hnc
  rw [if_pos hb] at hph
  have hmade : Made (use s c.body) := by
    have : c.create = .ok := by
      apply Classical.byContradiction
      intro hn
      unfold setUp at hs
      rw [if_pos hn] at hs
      simp at hs
    obtain ⟨s', a, o, g1, g2, -⟩ := setUp_made c this
    rw [hs] at g1
    simp only [Prod.mk.injEq, Option.some.injEq] at g1
    obtain ⟨⟨rfl, rfl⟩, rfl⟩ := g1
    exact g2.use _
  have hnok : ((use s c.body).exit c.exitEnv).2 ≠ .ok := by
    obtain ⟨ops, ho⟩ := hmade
    intro hok
    have hterm := C138_terminate_fails ops c.exitEnv (.inl (by rw [← ho]; exact hb)) d
      (by rw [← ho]; exact hc) hdis
    rw [← ho] at hterm
    simp only [step, St.destroy] at hterm
    rw [hb, if_neg (by simp), if_neg (by simp)] at hterm
    generalize (use s c.body).exit c.exitEnv = v at hok hterm
    obtain ⟨u, r⟩ := v
    dsimp only at hok
    subst hok
    cases hterm
  have htest : test true c
      = ⟨some s, true, some ((use s c.body).exit c.exitEnv).1, none⟩ := by
    unfold test
    rw [hs]
    dsimp only
    rw [if_neg (by simp [h0]), hd]
    have htd : tearDown c (use s c.body) (true && !false)
        = (((use s c.body).exit c.exitEnv).1, true, ((use s c.body).exit c.exitEnv).2) := by
      unfold tearDown
      rw [if_pos (by rfl : (true && !false) = true), if_pos hb]
      generalize (use s c.body).exit c.exitEnv = v at hnok
      obtain ⟨u, r⟩ := v
      cases r
      · exact absurd rfl hnok
      · rfl
      · rfl
    rw [htd]
    dsimp only
    unfold finish
    rw [if_neg (by rw [hph]; simp)]
    have : decide (((use s c.body).exit c.exitEnv).2 ≠ .ok) = true := by simp [hnok]
    rw [this]
    simp
  refine ⟨((use s c.body).exit c.exitEnv).1, by rw [htest], hph, by rw [htest], ?_⟩
  exact runAll_after true c _ (by rw [htest]) pre post []

/-- C140 fails: if `loadServices`, `loadAssembly` or `generateTypeHints` raises an exception that is
not an `Exception`, such as `SystemExit`, `setUp` does not delete the simulator: with a runner that
keeps the tests that failed, it is alive in every test that follows. -/
theorem C140_base_fails (c : Case) (s : St) (a : Bool) (hs : setUp c = (some (s, a), .base))
    (h0 : s.phase ≠ .crashed) (pre post : List Case) :
    (test true c).left = some s ∧ (test true c).failed = true ∧
      ∀ x ∈ (runAll true (pre ++ c :: post) []).drop (pre.length + 1), s ∈ x.1 := by
  have ha : a = true := by
    have : c.create = .ok := by
      apply Classical.byContradiction
      intro hn
      unfold setUp at hs
      rw [if_pos hn] at hs
      simp at hs
    obtain ⟨s', a', o, g1, -, g3, -⟩ := setUp_made c this
    rw [hs] at g1
    simp only [Prod.mk.injEq, Option.some.injEq] at g1
    obtain ⟨⟨rfl, rfl⟩, rfl⟩ := g1
    rw [g3]; rfl
  have htest : test true c = ⟨none, true, some s, none⟩ := by
    unfold test
    rw [hs]
    dsimp only
    rw [if_pos (.inl (by simp))]
    unfold finish
    rw [if_neg h0, ha]
    rfl
  exact ⟨by rw [htest], by rw [htest], runAll_after true c s (by rw [htest]) pre post []⟩

example : (runAll true [sticky, plain, leaving, plain] []).map (fun x => (x.1.length, x.2.failed))
    = [(0, true), (1, false), (1, true), (2, false)] := by decide +kernel

end Verif.Python.Case
