import Verif.Sim.Lacking

/-! Property C157: simulators that have only some of the standard services. -/
namespace Verif.Sim.Lacking
open Verif.Sim.Service (Kind)

/-! ### Specification -/

/-- The sets of services that work together: the event manager comes with the logger; the scheduler
and the time keeper come together, with the event manager and the resolver. -/
def Complete (h : Have) : Prop :=
  (h.eventManager = true → h.logger = true) ∧
  (h.scheduler = true ↔ h.timeKeeper = true) ∧
  (h.scheduler = true → h.eventManager = true ∧ h.resolver = true)

instance (h : Have) : Decidable (Complete h) := by unfold Complete; infer_instance

/-- No service is added by the calls. -/
def Call.keeps : Call → Bool
  | .addService _ => false
  | _ => true

/-! ### Lemmas -/

/-- What an entry point needs. -/
def okP (h : Have) : Point → Prop
  | .schedEnter => h.scheduler = true
  | .holdImmediately => h.eventManager = true
  | _ => True

/-- What a command needs. -/
def ok (h : Have) : Cmd → Prop
  | .follow k => h.get k = true
  | .emit _ => h.eventManager = true
  | .subscribe _ p => h.eventManager = true ∧ okP h p
  | .startZulu => h.scheduler = true
  | .safe p => h.logger = true ∧ okP h p
  | .body p => h.logger = true ∧ okP h p
  | .sched _ => h.scheduler = true
  | .insert .. => h.scheduler = true
  | .execute .. => h.scheduler = true
  | .reload _ => h.scheduler = true
  | .setSimulationTime => h.timeKeeper = true
  | _ => True

/-- The states that are reached. -/
structure Good (s : State) : Prop where
  todo : ∀ c ∈ s.todo, ok s.have_ c
  subs : ∀ x ∈ s.subs, s.have_.eventManager = true ∧ okP s.have_ x.2
  thread : s.thread = true → s.have_.scheduler = true

theorem good_start (h : Have) : Good (start h) :=
  ⟨by simp [start], by simp [start], by simp [start]⟩

theorem okP_all {h : Have} (hc : Complete h) (hs : h.scheduler = true) (p : Point) : okP h p := by
  have := hc.2.2 hs
  cases p <;> simp [okP, hs, this.1]

theorem okP_add {h : Have} (k : Kind) {p : Point} (hp : okP h p) : okP (h.add k) p := by
  cases p <;> cases k <;> simp_all [okP, Have.add]

theorem ok_add {h : Have} (k : Kind) {c : Cmd} (hp : ok h c) : ok (h.add k) c := by
  cases c
  case follow j => cases j <;> cases k <;> simp_all [ok, Have.add, Have.get]
  case subscribe e p => exact ⟨by cases k <;> simp_all [ok, Have.add], okP_add k hp.2⟩
  case safe p => exact ⟨by cases k <;> simp_all [ok, Have.add], okP_add k hp.2⟩
  case body p => exact ⟨by cases k <;> simp_all [ok, Have.add], okP_add k hp.2⟩
  all_goals cases k <;> simp_all [ok, Have.add]

theorem ok_ends {h : Have} (hl : h.logger = true) (b : Bool) : ∀ c ∈ ends b, ok h c := by
  cases b <;> simp [ends, ok, Have.get, hl]

theorem ok_cmds {s : State} (hc : Complete s.have_) (c : Call) : ∀ d ∈ c.cmds s, ok s.have_ d := by
  obtain ⟨h1, h2, h3⟩ := hc
  cases hl : s.have_.logger <;> cases he : s.have_.eventManager <;>
    cases hs : s.have_.scheduler <;> cases ht : s.have_.timeKeeper <;>
    cases hr : s.have_.resolver <;> simp only [hl, he, hs, ht, hr] at h1 h2 h3 <;>
    simp at h1 h2 h3
  all_goals
    cases c
    case runFor place =>
      cases place <;> simp only [Call.cmds] <;> split <;>
        simp [ok, okP, Have.get, hl, he, hs, ht]
    case post t n again place =>
      cases place <;> cases t <;> simp [Call.cmds, ok, Have.get, hl, hs, ht]
    case «restore» jobs =>
      simp only [Call.cmds]
      split
      · intro d hd
        simp [hs] at hd
        grind [ok, Have.get]
      · simp
    all_goals
      first
      | (simp [Call.cmds, ok, okP, Have.get, he, hs, ht]; done)
      | (simp only [Call.cmds]; split <;> simp [ok, okP, Have.get, he, hs, ht]; done)

/-- The commands of `_EnterExecuting`. -/
theorem good_schedule {s : State} (hc : Complete s.have_) (hg : Good s)
    (hs : s.have_.scheduler = true) (l : Loc) : Good (schedule s l) := by
  have ht := hg.todo
  have h2 := (hc.2.1).1 hs
  have h3 := hc.2.2 hs
  have add : ∀ cs : List Cmd, (∀ c ∈ cs, ok s.have_ c) → ∀ c ∈ cs ++ s.todo, ok s.have_ c := by
    intro cs h c hm
    rcases List.mem_append.1 hm with hm | hm
    · exact h c hm
    · exact ht c hm
  cases l with
  | start => exact ⟨add [_, _] (by simp [ok, Have.get, hs, h2]), hg.subs, hg.thread⟩
  | immediate next =>
    simp only [schedule]
    split
    · exact ⟨add _ (by cases next <;> simp [ok, hs]), hg.subs, hg.thread⟩
    · exact ⟨add [_, _] (by simp [ok, hs]), hg.subs, hg.thread⟩
  | immediateDone next =>
    simp only [schedule]
    split
    · exact ⟨add [_] (by simp [ok, hs]), hg.subs, hg.thread⟩
    · exact hg
  | table =>
    simp only [schedule]
    split
    · exact hg
    · exact ⟨add [_, _, _] (by simp [ok, Have.get, hs, h3]), hg.subs, hg.thread⟩
  | changed =>
    simp only [schedule]
    split
    · split
      · exact hg
      · exact ⟨add [_, _, _, _, _, _] (by simp [ok, Have.get, hs, h2, h3]), hg.subs, hg.thread⟩
    · exact hg
  | events j =>
    simp only [schedule]
    split
    · exact ⟨add [_, _] (by simp [ok, hs]), hg.subs, hg.thread⟩
    · exact hg
  | eventsDone =>
    simp only [schedule]
    split
    · exact ⟨add [_] (by simp [ok, hs]), hg.subs, hg.thread⟩
    · exact hg

/-- A command in a good state. -/
theorem good_exec {s : State} (hc : Complete s.have_) (hg : Good s) (i : Input) (c : Cmd)
    (ho : ok s.have_ c) : ∃ s', exec s i c = some s' ∧ Good s' := by
  have ht := hg.todo
  have add : ∀ cs : List Cmd, (∀ c ∈ cs, ok s.have_ c) → ∀ c ∈ cs ++ s.todo, ok s.have_ c := by
    intro cs h c hm
    rcases List.mem_append.1 hm with hm | hm
    · exact h c hm
    · exact ht c hm
  have calls : ∀ c ∈ i.calls.map Cmd.call, ok s.have_ c := by
    intro c hm
    obtain ⟨d, _, rfl⟩ := List.mem_map.1 hm
    trivial
  cases c with
  | follow k => exact ⟨s, by simp only [exec]; rw [if_pos (show s.have_.get k = true from ho)], hg⟩
  | call c =>
    by_cases hk : ∃ k, c = .addService k
    · obtain ⟨k, rfl⟩ := hk
      simp only [exec]
      split
      · exact ⟨_, rfl, fun c hm => ok_add k (ht c hm),
          fun x hx => ⟨by
            have := (hg.subs x hx).1
            cases k <;> simp_all [Have.add], okP_add k (hg.subs x hx).2⟩,
          fun h => by
            have := hg.thread h
            cases k <;> simp_all [Have.add]⟩
      · exact ⟨s, rfl, hg⟩
    · have : exec s i (.call c) = some { s with todo := c.cmds s ++ s.todo } := by
        cases c <;> first | rfl | exact absurd ⟨_, rfl⟩ hk
      exact ⟨_, this, add _ (ok_cmds hc c), hg.subs, hg.thread⟩
  | hook => exact ⟨_, rfl, add _ calls, hg.subs, hg.thread⟩
  | phase p => exact ⟨_, rfl, ht, hg.subs, hg.thread⟩
  | «global» e =>
    refine ⟨_, rfl, ?_, hg.subs, hg.thread⟩
    intro d hd
    cases he : s.have_.eventManager <;> simp [he] at hd <;> grind [ok]
  | last e => exact ⟨_, rfl, ht, hg.subs, hg.thread⟩
  | emit e =>
    refine ⟨_, rfl, add _ ?_, hg.subs, hg.thread⟩
    intro d hd
    obtain ⟨x, hx, rfl⟩ := List.mem_map.1 hd
    have := hg.subs x (List.mem_filter.1 hx).1
    exact ⟨hc.1 this.1, this.2⟩
  | subscribe e p =>
    simp only [exec]
    split
    · exact ⟨s, rfl, hg⟩
    · refine ⟨_, rfl, ht, ?_, hg.thread⟩
      intro x hx
      rcases List.mem_append.1 hx with hx | hx
      · exact hg.subs x hx
      · rw [List.mem_singleton.1 hx]
        exact ho
  | unsubscribe e p => exact ⟨_, rfl, ht, fun x hx => hg.subs x (List.mem_of_mem_erase hx), hg.thread⟩
  | startZulu => exact ⟨_, rfl, ht, hg.subs, fun _ => ho⟩
  | safe p =>
    refine ⟨_, rfl, ?_, hg.subs, hg.thread⟩
    intro c hm
    rcases List.mem_cons.1 hm with rfl | hm
    · exact ho.1
    rcases List.mem_cons.1 hm with rfl | hm
    · exact ho
    · exact ht c hm
  | body p =>
    have e : ∀ b, ∀ c ∈ ends b, ok s.have_ c := ok_ends ho.1
    have one : ∀ (d : Cmd) (b : Bool), ok s.have_ d → ∀ c ∈ d :: ends b, ok s.have_ c := by
      intro d b hd c hm
      rcases List.mem_cons.1 hm with rfl | hm
      · exact hd
      · exact e b c hm
    cases p with
    | keeperPre => exact ⟨_, rfl, add _ (e _), hg.subs, hg.thread⟩
    | keeperPost => exact ⟨_, rfl, add _ (e _), hg.subs, hg.thread⟩
    | schedEnter => exact ⟨_, rfl, add _ (one (.sched .start) _ ho.2), hg.subs, hg.thread⟩
    | schedLeave => exact ⟨_, rfl, add _ (e _), hg.subs, hg.thread⟩
    | holdEvent => exact ⟨_, rfl, add _ (one (.hold true) _ trivial), hg.subs, hg.thread⟩
    | hold => exact ⟨_, rfl, add _ (one (.hold false) _ trivial), hg.subs, hg.thread⟩
    | holdImmediately =>
      refine ⟨_, rfl, add (_ :: _) ?_, hg.subs, hg.thread⟩
      intro c hm
      rcases List.mem_cons.1 hm with rfl | hm
      · exact ho.2
      · split at hm
        · rcases List.mem_cons.1 hm with rfl | hm
          · trivial
          · exact one (.hold true) false trivial c hm
        · exact e _ c hm
    | user n =>
      refine ⟨_, rfl, ?_, hg.subs, hg.thread⟩
      intro c hm
      rcases List.mem_append.1 hm with hm | hm
      · exact calls c hm
      · exact add _ (e _) c hm
  | hold imm =>
    simp only [exec]
    split
    · split
      · exact ⟨_, rfl, add [_, _, _] (by simp [ok]), hg.subs, hg.thread⟩
      · exact ⟨_, rfl, add _ (by split <;> simp_all [ok, okP]), hg.subs, hg.thread⟩
    · exact ⟨s, rfl, hg⟩
  | abort => exact ⟨_, rfl, add [_, _] (by simp [ok]), hg.subs, hg.thread⟩
  | sched l => exact ⟨_, rfl, good_schedule hc hg ho l⟩
  | insert t p again pl => cases t <;> exact ⟨_, rfl, ht, hg.subs, hg.thread⟩
  | execute t p =>
    have hs : s.have_.scheduler = true := ho
    refine ⟨_, rfl, ?_, hg.subs, hg.thread⟩
    intro c hm
    rcases List.mem_append.1 hm with hm | hm
    · split at hm
      · rw [List.mem_singleton.1 hm]
        exact hc.2.1.1 hs
      · cases hm
    · rcases List.mem_cons.1 hm with rfl | hm
      · exact ⟨hc.1 (hc.2.2 hs).1, okP_all hc hs p⟩
      · exact ht c hm
  | reload jobs => exact ⟨_, rfl, ht, hg.subs, hg.thread⟩
  | setSimulationTime =>
    simp only [exec]
    split
    · exact ⟨_, rfl, add [_] (by
        have := hc.2.1.2 ho
        simp [ok, Have.get, this]), hg.subs, hg.thread⟩
    · exact ⟨s, rfl, hg⟩

/-- A step in a good state. -/
theorem good_step {s : State} (hc : Complete s.have_) (hg : Good s) (i : Input) :
    ∃ s', step s i = some s' ∧ Good s' := by
  unfold step
  split
  · refine ⟨_, rfl, ?_⟩
    split
    · rename_i ht
      have hs := hg.thread ht
      unfold turn
      split
      · exact hg
      · rename_i p ps _
        have a : ok s.have_ (.follow .timeKeeper) := hc.2.1.1 hs
        have b : ok s.have_ (.safe p) := ⟨hc.1 (hc.2.2 hs).1, okP_all hc hs p⟩
        split
        · refine ⟨?_, hg.subs, hg.thread⟩
          intro c hm
          rcases List.mem_cons.1 hm with rfl | hm
          · exact a
          rcases List.mem_cons.1 hm with rfl | hm
          · exact b
          · exact hg.todo c hm
        · refine ⟨?_, hg.subs, hg.thread⟩
          intro c hm
          rcases List.mem_cons.1 hm with rfl | hm
          · exact a
          · exact hg.todo c hm
    · exact hg
  · split
    · refine ⟨_, rfl, ?_, hg.subs, hg.thread⟩
      intro c hm
      obtain ⟨d, _, rfl⟩ := List.mem_map.1 hm
      trivial
    · rename_i c cs h
      have ht := hg.todo
      rw [h] at ht
      exact good_exec (s := { s with todo := cs }) hc
        ⟨fun d hd => ht d (List.mem_cons_of_mem _ hd), hg.subs, hg.thread⟩ i c
        (ht c List.mem_cons_self)

theorem run_none (is : List Input) : run none is = none := by cases is <;> rfl

theorem run_append (o : Option State) (a b : List Input) :
    run o (a ++ b) = run (run o a) b := by
  induction a generalizing o with
  | nil => cases o <;> simp [run]
  | cons i is ih =>
    cases o with
    | none => simp [run, run_none]
    | some s => exact ih (step s i)

/-- No call that adds a service remains to be done. -/
def Still (s : State) : Prop := ∀ k, Cmd.call (.addService k) ∉ s.todo

theorem still_cmds (s : State) (c : Call) (k : Kind) :
    Cmd.call (.addService k) ∉ c.cmds s := by
  intro h
  cases c <;> simp only [Call.cmds] at h
  case runFor place => cases place <;> grind
  case post t n again place => cases place <;> grind
  case connect => split at h <;> simp at h <;> split at h <;> split at h <;> simp at h
  all_goals first | grind | (split at h <;> simp at h; done)

theorem still_calls {i : Input} (hi : ∀ c ∈ i.calls, c.keeps = true) (k : Kind) :
    Cmd.call (.addService k) ∉ i.calls.map Cmd.call := by
  intro h
  obtain ⟨c, hm, e⟩ := List.mem_map.1 h
  cases e
  exact absurd (hi _ hm) (by simp [Call.keeps])

theorem still_schedule (s : State) (l : Loc) (hs : Still s) :
    (schedule s l).have_ = s.have_ ∧ Still (schedule s l) := by
  have h := hs
  unfold Still at h ⊢
  cases l <;> simp only [schedule] <;> (repeat' split) <;> grind

theorem still_exec {s s' : State} {i : Input} {c : Cmd} (hi : ∀ c ∈ i.calls, c.keeps = true)
    (hs : Still s) (hc : ∀ k, c ≠ .call (.addService k)) (e : exec s i c = some s') :
    s'.have_ = s.have_ ∧ Still s' := by
  have add : ∀ cs : List Cmd, (∀ k, Cmd.call (.addService k) ∉ cs) →
      ∀ k, Cmd.call (.addService k) ∉ cs ++ s.todo := by
    intro cs h k hm
    rcases List.mem_append.1 hm with hm | hm
    · exact h k hm
    · exact hs k hm
  have hends : ∀ b k, Cmd.call (.addService k) ∉ ends b := by
    intro b k
    cases b <;> simp [ends]
  cases c with
  | follow k =>
    simp only [exec] at e
    split at e
    · cases e; exact ⟨rfl, hs⟩
    · cases e
  | call c =>
    have e' : exec s i (.call c) = some { s with todo := c.cmds s ++ s.todo } := by
      cases c <;> first | rfl | exact absurd rfl (hc _)
    rw [e'] at e
    cases e
    exact ⟨rfl, add _ (still_cmds s c)⟩
  | hook => cases e; exact ⟨rfl, add _ (still_calls hi)⟩
  | phase p => cases e; exact ⟨rfl, hs⟩
  | «global» ev =>
    cases e
    refine ⟨rfl, fun k hm => ?_⟩
    rcases List.mem_append.1 hm with hm | hm
    · split at hm <;> simp at hm
    · rcases List.mem_cons.1 hm with hm | hm
      · cases hm
      · exact hs k hm
  | last ev => cases e; exact ⟨rfl, hs⟩
  | emit ev => cases e; exact ⟨rfl, add _ (by simp)⟩
  | subscribe ev p =>
    simp only [exec] at e
    split at e <;> cases e <;> exact ⟨rfl, hs⟩
  | unsubscribe ev p => cases e; exact ⟨rfl, hs⟩
  | startZulu => cases e; exact ⟨rfl, hs⟩
  | safe p => cases e; exact ⟨rfl, add [_, _] (by simp)⟩
  | body p =>
    have one : ∀ (d : Cmd) (b : Bool), (∀ k, d ≠ .call (.addService k)) →
        ∀ k, Cmd.call (.addService k) ∉ d :: ends b := by
      intro d b hd k hm
      rcases List.mem_cons.1 hm with hm | hm
      · exact hd k hm.symm
      · exact hends b k hm
    cases p with
    | keeperPre => cases e; exact ⟨rfl, add _ (hends _)⟩
    | keeperPost => cases e; exact ⟨rfl, add _ (hends _)⟩
    | schedEnter => cases e; exact ⟨rfl, add _ (one (.sched .start) _ (by simp))⟩
    | schedLeave => cases e; exact ⟨rfl, add _ (hends _)⟩
    | holdEvent => cases e; exact ⟨rfl, add _ (one (.hold true) _ (by simp))⟩
    | hold => cases e; exact ⟨rfl, add _ (one (.hold false) _ (by simp))⟩
    | holdImmediately =>
      cases e
      refine ⟨rfl, add (_ :: _) (fun k hm => ?_)⟩
      rcases List.mem_cons.1 hm with hm | hm
      · cases hm
      · split at hm
        · rcases List.mem_cons.1 hm with hm | hm
          · cases hm
          · exact one (.hold true) _ (by simp) k hm
        · exact hends _ k hm
    | user n =>
      cases e
      refine ⟨rfl, fun k hm => ?_⟩
      rcases List.mem_append.1 hm with hm | hm
      · exact still_calls hi k hm
      · exact add _ (hends _) k hm
  | hold imm =>
    simp only [exec] at e
    split at e
    · split at e
      · cases e; exact ⟨rfl, add [_, _, _] (by simp)⟩
      · cases e; exact ⟨rfl, add _ (by split <;> simp)⟩
    · cases e; exact ⟨rfl, hs⟩
  | abort => cases e; exact ⟨rfl, add [_, _] (by simp)⟩
  | sched l => cases e; exact still_schedule s l hs
  | insert t p again pl => cases t <;> cases e <;> exact ⟨rfl, hs⟩
  | execute t p =>
    cases e
    refine ⟨rfl, fun k hm => ?_⟩
    rcases List.mem_append.1 hm with hm | hm
    · split at hm <;> simp at hm
    · rcases List.mem_cons.1 hm with hm | hm
      · cases hm
      · exact hs k hm
  | reload jobs => cases e; exact ⟨rfl, hs⟩
  | setSimulationTime =>
    simp only [exec] at e
    split at e <;> cases e
    · exact ⟨rfl, add [_] (by simp)⟩
    · exact ⟨rfl, hs⟩

theorem still_step {s s' : State} {i : Input} (hi : ∀ c ∈ i.calls, c.keeps = true)
    (hs : Still s) (e : step s i = some s') : s'.have_ = s.have_ ∧ Still s' := by
  unfold step at e
  split at e
  · cases e
    split
    · unfold turn
      split
      · exact ⟨rfl, hs⟩
      · split
        · exact ⟨rfl, fun k hm => hs k (by simpa using hm)⟩
        · exact ⟨rfl, fun k hm => hs k (by simpa using hm)⟩
    · exact ⟨rfl, hs⟩
  · split at e
    · cases e
      exact ⟨rfl, still_calls hi⟩
    · rename_i c cs h
      have := still_exec (s := { s with todo := cs }) hi
        (fun k hm => hs k (by rw [h]; exact List.mem_cons_of_mem _ hm))
        (fun k hk => hs k (by rw [h, hk]; exact List.mem_cons_self)) e
      exact this

/-- The services stay when nothing is added. -/
theorem still_run {is : List Input} (hi : ∀ i ∈ is, ∀ c ∈ i.calls, c.keeps = true) :
    ∀ {s s' : State}, Still s → run (some s) is = some s' → s'.have_ = s.have_ := by
  induction is with
  | nil => intro s s' _ e; cases e; rfl
  | cons i is ih =>
    intro s s' hs e
    rw [run] at e
    cases h : step s i with
    | none => rw [h, run_none] at e; cases e
    | some s1 =>
      obtain ⟨h1, h2⟩ := still_step (hi i List.mem_cons_self) hs h
      rw [h] at e
      exact (ih (fun j hj => hi j (List.mem_cons_of_mem _ hj)) h2 e).trans h1

/-! ### Property C157 -/

/-- As long as the services present work together — whatever users call, from the main program,
from hooks and from entry points, in whatever order, and whatever the Zulu thread does — no null
pointer to a service is followed. -/
theorem C157_safe (h : Have) (is : List Input)
    (hc : ∀ n s, run (some (start h)) (is.take n) = some s → Complete s.have_) :
    ∃ s, run (some (start h)) is = some s := by
  have key : ∀ (is : List Input) (s : State), Good s →
      (∀ n s', run (some s) (is.take n) = some s' → Complete s'.have_) →
      ∃ s', run (some s) is = some s' := by
    intro is
    induction is with
    | nil => intro s _ _; exact ⟨s, rfl⟩
    | cons i is ih =>
      intro s hg hc
      obtain ⟨s', e, hg'⟩ := good_step (hc 0 s rfl) hg i
      rw [run, e]
      refine ih s' hg' (fun n s'' hn => hc (n + 1) s'' ?_)
      rw [List.take_succ_cons, run, e]
      exact hn
  exact key is _ (good_start h) hc

/-- The calls of the execution of which every one that matters is tried: an entry point is
subscribed and its event emitted, the mission time is set, events are posted; after `Connect`, an
event of the system is emitted and the simulation time is set, and events are restored. -/
def attempts : List Input :=
  [⟨[.subscribe (.other 20) 0, .emit (.other 20), .setEpochTime, .post .immediate 0 false none,
     .post .simulation 0 false (some 0), .connect, .emit .preSimTimeChange, .setSimulationTime,
     .restore [⟨.simulation, .user 0, false⟩]], false, false⟩] ++
  List.replicate 80 ⟨[], false, false⟩

theorem attempts_keep : ∀ i ∈ attempts, ∀ c ∈ i.calls, c.keeps = true := by decide

theorem attempts_crash : ∀ a b c d e f : Bool, ¬ Complete ⟨a, b, c, d, e, f⟩ →
    run (some (start ⟨a, b, c, d, e, f⟩)) attempts = none := by decide +kernel

/-- With services that are not added to afterwards: an execution follows a null pointer if and only
if the services do not work together. -/
theorem C157_exact (h : Have) :
    (∃ is : List Input, (∀ i ∈ is, ∀ c ∈ i.calls, c.keeps = true) ∧
      run (some (start h)) is = none) ↔ ¬ Complete h := by
  constructor
  · rintro ⟨is, hk, e⟩ hc
    obtain ⟨s, hs⟩ := C157_safe h is (fun n s hn => by
      have := still_run (is := is.take n) (fun i hi => hk i (List.mem_of_mem_take hi))
        (fun k => by simp [start]) hn
      rw [this]
      exact hc)
    rw [e] at hs
    cases hs
  · intro hc
    obtain ⟨a, b, c, d, e, f⟩ := h
    exact ⟨attempts, attempts_keep, attempts_crash a b c d e f hc⟩

/-- `Connect` in a simulator of which no user calls anything. -/
def connecting : List Input := ⟨[.connect], false, false⟩ :: List.replicate 40 ⟨[], false, false⟩

/-- `Connect` and `Run`. -/
def running : List Input :=
  ⟨[.connect, .run], false, false⟩ :: List.replicate 100 ⟨[], false, false⟩

/-- Some sets of services cannot even be connected: the time keeper or the scheduler without the
event manager. -/
theorem C157_connect_fails (h : Have) :
    run (some (start h)) connecting = none ↔
      (h.timeKeeper = true ∨ h.scheduler = true) ∧ h.eventManager = false := by
  obtain ⟨a, b, c, d, e, f⟩ := h
  revert a b c d e f
  decide +kernel

/-- Others cannot be run: the scheduler without the time keeper or the logger. -/
theorem C157_run_fails (h : Have) :
    run (some (start h)) running = none ↔
      ((h.timeKeeper = true ∨ h.scheduler = true) ∧ h.eventManager = false) ∨
      (h.scheduler = true ∧ (h.timeKeeper = false ∨ h.logger = false)) := by
  obtain ⟨a, b, c, d, e, f⟩ := h
  revert a b c d e f
  decide +kernel

/-! The services of `xsmp_services` work together (src/xsmp_services.cpp:52-76); so do the logger
alone and no service at all. Those of the time keeper's package alone do not. -/
example : Complete ⟨true, true, true, true, true, true⟩ := by decide
example : Complete ⟨true, false, false, false, false, false⟩ := by decide
example : Complete ⟨false, false, false, false, false, false⟩ := by decide
example : ¬ Complete ⟨false, false, false, false, false, true⟩ := by decide

/-- A simulation that runs: it is connected, an event is posted, and it ends in standby after that
event and the one that holds the simulation. -/
example : (run (some (start ⟨true, true, true, true, true, true⟩))
    (⟨[.connect, .post .mission 0 false (some 0), .run], false, false⟩ ::
      List.replicate 300 ⟨[], false, false⟩)).map (fun s => (s.phase, s.table, s.todo)) =
    some (.standby, [], []) := by decide +kernel

end Verif.Sim.Lacking
