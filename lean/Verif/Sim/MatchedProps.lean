import Verif.Sim.MatchedLemmas3

/-! C138: what is connected is disconnected before it is destroyed. C139: the services that a
component can use when it is disconnected. -/
namespace Verif.Sim.Matched
open Verif.Tree (LState)

/-! ### Examples -/

/-- Hooks that do nothing. -/
def quiet : Env := fun _ => .quiet

theorem quiet_mild : ∀ c, Mild (quiet c) := fun _ => ⟨rfl, fun _ h => by cases h⟩

/-- A service 0, a model 1 with a model 2 in it, and a model 3, connected. -/
def demo : St := run St.init
  [.addService 0, .addModel 1, .addIn 1 2, .addModel 3, .publish quiet, .connect quiet false]

theorem demo_reach : Reach demo := by
  have h : ∀ ops s, Reach s →
      (∀ o ∈ ops, (∃ c, o = .addService c) ∨ (∃ c, o = .addModel c) ∨ (∃ p c, o = .addIn p c) ∨
        o = .publish quiet ∨ o = .connect quiet false) → Reach (run s ops) := by
    intro ops
    induction ops with
    | nil => intro s h _; exact h
    | cons o l ih =>
      intro s h ho
      refine ih _ (Reach.step h ?_) (fun o' h' => ho o' (List.mem_cons_of_mem _ h'))
      rcases ho o List.mem_cons_self with ⟨c, rfl⟩ | ⟨c, rfl⟩ | ⟨p, c, rfl⟩ | rfl | rfl
      · trivial
      · trivial
      · trivial
      · trivial
      · exact ⟨fun _ => ⟨rfl, rfl, rfl⟩, rfl⟩
  apply h _ _ .init
  intro o ho
  simp only [List.mem_cons, List.not_mem_nil, or_false] at ho
  rcases ho with rfl | rfl | rfl | rfl | rfl | rfl <;> simp

example : demo.phase = .standby ∧ demo.comps = [(0, .connected), (1, .connected), (2, .connected),
    (3, .connected)] ∧ demo.tr = [.connect 0, .connect 1, .connect 2, .connect 3] := by
  decide +kernel

/-! ### C138 -/

/-- C138, every program: a component is connected at most once, disconnected at most once and only
after it was connected, and destroyed at most once and last. -/
theorem C138_once (ops : List Op) (c : Nat) :
    life c (run St.init ops).tr = [] ∨
    life c (run St.init ops).tr = [.connect c] ∨
    life c (run St.init ops).tr = [.connect c, .disconnect c] ∨
    life c (run St.init ops).tr = [.destroy c] ∨
    life c (run St.init ops).tr = [.connect c, .destroy c] ∨
    life c (run St.init ops).tr = [.connect c, .disconnect c, .destroy c] := by
  have h := run_inv ops (init_inv Ended)
  by_cases h1 : c ∈ (run St.init ops).comps.map (·.1)
  · obtain ⟨⟨d, x⟩, hx, rfl⟩ := List.mem_map.1 h1
    have := h.pats d x hx
    cases x <;> simp [pat] at this <;> simp [this]
  · by_cases h2 : c ∈ (run St.init ops).seen
    · rcases h.gone c h2 h1 with h3 | h3 | h3 <;> simp [h3]
    · exact .inl (h.fresh c h2)

/-- C138: the state of a component says what was seen of it. -/
theorem C138_state (ops : List Op) (c : Nat) (st : LState) (h : (run St.init ops).Has c st) :
    (st = .connected → life c (run St.init ops).tr = [.connect c]) ∧
    (st = .disconnected → life c (run St.init ops).tr = [.connect c, .disconnect c]) ∧
    (st ≠ .connected ∧ st ≠ .disconnected → life c (run St.init ops).tr = []) := by
  rw [sHas_iff] at h
  have := (run_inv ops (init_inv Ended)).pats c st h
  rw [this]
  cases st <;> simp [pat]

example : life 2 demo.tr = [.connect 2] ∧ life 2 (step demo (.exit quiet)).tr
    = [.connect 2, .disconnect 2] := by decide +kernel

/-- C138, partial: in a careful program every component that is destroyed was connected as often as
it was disconnected, at most once, and destroyed once. Missing: programs that abort, that delete
components with something connected below, and exceptions (see the theorems that follow). -/
theorem C138_matched_partial {s : St} (h : Reach s) (c : Nat) (hd : .destroy c ∈ s.tr) :
    Matched c s.tr := by
  have hi := h.safe.inv
  have hl : .destroy c ∈ life c s.tr := by
    unfold life; rw [List.mem_filter]; exact ⟨hd, by simp⟩
  have hc : c ∈ s.seen := by
    apply Classical.byContradiction
    intro hn
    rw [hi.fresh c hn] at hl; cases hl
  have hn : c ∉ s.comps.map (·.1) := by
    intro hh
    obtain ⟨⟨d, x⟩, hx, rfl⟩ := List.mem_map.1 hh
    rw [hi.pats d x hx] at hl
    cases x <;> simp [pat] at hl
  exact hi.gone c hc hn

/-- C138, partial: after a careful program destroyed the simulator, every component that was ever
added is destroyed, and was disconnected if it was connected. -/
theorem C138_end_partial {s : St} (h : Reach s) (hp : s.phase = .destroyed) :
    ∀ c ∈ s.seen, Matched c s.tr := by
  intro c hc
  have hs := h.safe
  refine hs.inv.gone c hc ?_
  rw [hs.empty hp]
  simp

/-- C138, partial: the destructor of the simulator comes to its end in a careful program. -/
theorem C138_destroy_partial {s : St} (h : Reach s) (e : Env) (he : ∀ c, Mild (e c)) :
    (step s (.destroy e)).phase = .destroyed := (h.safe.destroy e he).2

example : (step demo (.destroy quiet)).phase = .destroyed ∧
    (step demo (.destroy quiet)).seen = [3, 2, 1, 0] ∧
    (step demo (.destroy quiet)).tr = [.connect 0, .connect 1, .connect 2, .connect 3,
      .leaving 0, .disconnect 0, .leaving 1, .disconnect 1, .leaving 2, .disconnect 2,
      .leaving 3, .disconnect 3, .destroy 3, .destroy 1, .destroy 2, .destroy 0] := by
  decide +kernel

example : Reach (step demo (.destroy quiet)) := .step demo_reach quiet_mild

/-- A simulator that is neither executing nor in Standby destroys its components as they are. -/
theorem stuck {s : St} (hi : Inv Ended s) (e : Env) (h1 : s.phase ≠ .standby)
    (h2 : s.phase ≠ .executing) (h3 : s.phase ≠ .destroyed) (h4 : s.phase ≠ .crashed) (c : Nat)
    (hc : (c, .connected) ∈ s.comps) : Left c (step s (.destroy e)).tr := by
  have hd : step s (.destroy e) = s.clear := by
    simp only [step, St.destroy]
    rw [if_neg (fun hh => hh.elim h3 h4), if_neg h2, St.exit, if_pos h1]
  rw [hd]
  have hn : (destroyed s.models ++ destroyed s.svcs).Perm (s.comps.map (·.1)) := by
    unfold St.comps
    rw [List.map_append]
    exact (List.Perm.append (destroyed_perm _) (destroyed_perm _)).trans List.perm_append_comm
  show life c (s.tr ++ (destroyed s.models ++ destroyed s.svcs).map .destroy) = _
  rw [life_append, life_destroy c _ (hn.nodup_iff.2 hi.nodup),
    if_pos (hn.mem_iff.2 (mem_ids hc)), hi.pats c _ hc]
  rfl

/-- C138 fails: after `Abort`, which an exception of an entry point calls as well, whatever is
connected is destroyed connected. -/
theorem C138_abort_fails (ops : List Op) (e : Env) (c : Nat)
    (h : (run St.init ops).Has c .connected) (h1 : (run St.init ops).phase ≠ .destroyed)
    (h2 : (run St.init ops).phase ≠ .crashed) :
    Left c (run (run St.init ops) [.abort, .destroy e]).tr := by
  have hi := run_inv ops (init_inv Ended)
  rw [sHas_iff] at h
  have ha : step (run St.init ops) .abort = { run St.init ops with phase := .aborting } := by
    simp only [step]; rw [if_neg (fun hh => hh.elim h1 h2)]
  show Left c (step (step (run St.init ops) .abort) (.destroy e)).tr
  rw [ha]
  exact stuck (phase_inv hi _) e (by simp) (by simp) (by simp) (by simp) c h

/-- C138 fails: an exception of `Store`, `Restore` or of an initialisation entry point in
`Initialise` leaves the simulator in a state from which its destructor disconnects nothing. -/
theorem C138_exception_fails (ops : List Op) (op : Op)
    (ho : op = .store true ∨ op = .restore true ∨ op = .initialise true) (e : Env) (c : Nat)
    (h : (run St.init ops).Has c .connected) (h1 : (run St.init ops).phase = .standby) :
    Left c (run (run St.init ops) [op, .destroy e]).tr := by
  have hi := run_inv ops (init_inv Ended)
  rw [sHas_iff] at h
  have key : ∀ p, p ≠ .standby → p ≠ .executing → p ≠ .destroyed → p ≠ .crashed →
      step (run St.init ops) op = { run St.init ops with phase := p } →
      Left c (run (run St.init ops) [op, .destroy e]).tr := by
    intro p a1 a2 a3 a4 hs
    show Left c (step (step (run St.init ops) op) (.destroy e)).tr
    rw [hs]
    exact stuck (phase_inv hi p) e a1 a2 a3 a4 c h
  rcases ho with rfl | rfl | rfl
  · exact key .storing (by simp) (by simp) (by simp) (by simp)
      (by simp only [step]; rw [if_neg (fun hh => hh h1)]; rfl)
  · exact key .restoring (by simp) (by simp) (by simp) (by simp)
      (by simp only [step]; rw [if_neg (fun hh => hh h1)]; rfl)
  · exact key .initialising (by simp) (by simp) (by simp) (by simp)
      (by simp only [step]; rw [if_neg (fun hh => hh h1)]; rfl)

/-- C138 fails: when a `DoConnect` raises in `Connect`, the simulator stays in Connecting, and
every component that was connected, the one that raised included, is destroyed connected. -/
theorem C138_connect_fails (ops : List Op) (e e' : Env) (r : Bool) (d : Nat) (st : LState)
    (h1 : (run St.init ops).phase = .building) (hd : (run St.init ops).Has d st)
    (hs : st ≠ .connected ∧ st ≠ .disconnected) (he : (e d).con = true) :
    (step (run St.init ops) (.connect e r)).phase = .connecting ∧
    ∀ c, (step (run St.init ops) (.connect e r)).Has c .connected →
      Left c (run (run St.init ops) [.connect e r, .destroy e']).tr := by
  have hi := run_inv ops (init_inv Ended)
  rw [sHas_iff] at hd
  have hp : (step (run St.init ops) (.connect e r)).phase = .connecting := by
    simp only [step, St.connect]
    rw [if_neg (fun hh => hh h1)]
    have hne : (({ run St.init ops with phase := .connecting } : St).all (visitConnect e)).2
        ≠ .ok := by
      intro hok
      rw [(all_flat _ _).2.2.2] at hok
      obtain ⟨w, hw, hv⟩ := walkL_visited _ _ _ hok d st hd
      unfold visitConnect visitConfigure visitPublish at hv
      rw [he] at hv
      revert hv
      cases hpub : (e d).pub <;> cases hconf : (e d).conf <;> cases st <;> simp [hw] at hs ⊢
    have hph := all_phase (visitConnect e) ({ run St.init ops with phase := .connecting } : St)
    generalize ({ run St.init ops with phase := .connecting } : St).all (visitConnect e) = q at *
    obtain ⟨t, x⟩ := q
    cases x with
    | ok => exact absurd rfl hne
    | raised => exact hph
    | crash => exact hph
  refine ⟨hp, fun c hc => ?_⟩
  rw [sHas_iff] at hc
  have hinv : Inv Ended (step (run St.init ops) (.connect e r)) := connect_inv hi e r
  exact stuck hinv e' (by rw [hp]; simp) (by rw [hp]; simp) (by rw [hp]; simp) (by rw [hp]; simp)
    c hc

/-- C138 fails: when an initialisation entry point raises in `Connect`, every component was
connected and is destroyed connected. -/
theorem C138_init_fails (ops : List Op) (e e' : Env)
    (he : ∀ c, (e c).pub = false ∧ (e c).conf = false ∧ (e c).con = false)
    (h1 : (run St.init ops).phase = .building) (c : Nat) (st : LState)
    (hc : (run St.init ops).Has c st) (hs : st ≠ .disconnected) :
    Left c (run (run St.init ops) [.connect e true, .destroy e']).tr := by
  have hi := run_inv ops (init_inv Ended)
  rw [sHas_iff] at hc
  have hconn : ∀ (w : W), w.res = .ok → (visitConnect e c st w).1 = .connected := by
    intro w hw
    unfold visitConnect visitConfigure visitPublish
    rw [(he c).1, (he c).2.1, (he c).2.2]
    cases st <;> simp [hw] at hs ⊢
  have hwalk : ∀ (l : List (Nat × LState)) w, w.res = .ok → (c, st) ∈ l →
      (c, .connected) ∈ (walkL (visitConnect e) l w).1 := by
    intro l
    induction l with
    | nil => intro w _ h; cases h
    | cons p l ih =>
      obtain ⟨d, x⟩ := p
      intro w hw h
      rw [walkL, if_neg (fun hh => hh hw)]
      rcases List.mem_cons.1 h with h2 | h2
      · cases h2
        rw [hconn w hw]; exact List.mem_cons_self
      · exact List.mem_cons_of_mem _ (ih _ (connect_ok e he d x w hw) h2)
  have hok := (all_all (Q := fun _ => True)
    (fun c st w hw => ⟨connect_ok e he c st w hw, trivial⟩)
    ({ run St.init ops with phase := .connecting } : St)).1
  have hin := hwalk _ ⟨(run St.init ops).off, (run St.init ops).tr, .ok⟩ rfl hc
  have hfl := (all_flat (visitConnect e) ({ run St.init ops with phase := .connecting } : St)).1
  have hinv := connect_inv hi e true
  have hst : step (run St.init ops) (.connect e true) =
      { (({ run St.init ops with phase := .connecting } : St).all (visitConnect e)).1 with
        phase := .initialising } := by
    simp only [step, St.connect]
    rw [if_neg (fun hh => hh h1)]
    generalize ({ run St.init ops with phase := .connecting } : St).all (visitConnect e) = q at *
    obtain ⟨t, x⟩ := q
    dsimp only at hok
    subst hok
    rfl
  show Left c (step (step (run St.init ops) (.connect e true)) (.destroy e')).tr
  have hinv' : Inv Ended (step (run St.init ops) (.connect e true)) := hinv
  rw [hst] at hinv' ⊢
  refine stuck hinv' e' (by simp) (by simp) (by simp) (by simp) c ?_
  show (c, LState.connected) ∈
    (({ run St.init ops with phase := .connecting } : St).all (visitConnect e)).1.comps
  rw [hfl]
  exact hin

/-- C138 fails: when a component is deleted, what is below it is not disconnected; whatever of it is
connected is destroyed connected. -/
theorem C138_child_fails (ops : List Op) (e : Env) (c d : Nat)
    (h1 : (run St.init ops).phase ≠ .destroyed) (h2 : (run St.init ops).phase ≠ .crashed)
    (he : Mild (e c)) (hu : (run St.init ops).Under c d .connected) :
    Left d (run (run St.init ops) [.delete e c]).tr := by
  have hi := run_inv ops (init_inv Ended)
  obtain ⟨st, kids, svcs, models, hc, hd, heq⟩ := delete_under hi e hu
  have hok : (visitExit e c st ⟨(run St.init ops).off, (run St.init ops).tr, .ok⟩).2.res = .ok := by
    have hr := calls_mild c (e c).calls
      ⟨(run St.init ops).off, (run St.init ops).tr ++ [.leaving c], .ok⟩
      (fun x hx hh => by rw [he.2 x hx] at hh; cases hh)
    unfold visitExit
    split
    · unfold leave
      dsimp only at *
      rw [hr, if_neg (by simp), he.1]
      simp [hr]
    · rfl
  obtain ⟨l, t, o, -⟩ := exit_fine e c st ⟨(run St.init ops).off, (run St.init ops).tr, .ok⟩ rfl
  have hs : step (run St.init ops) (.delete e c) = (run St.init ops).delete e c := by
    simp only [step]; rw [if_neg (fun hh => hh.elim h1 h2)]
  show Left d (step (run St.init ops) (.delete e c)).tr
  rw [hs, heq, hok]
  obtain ⟨pre, post, hc⟩ := hc
  have hnd := hi.nodup
  rw [hc] at hnd
  simp only [List.map_append, List.map_cons, List.nodup_append, List.nodup_cons,
    List.mem_append, not_or] at hnd
  have hne : d ≠ c := fun hh => hnd.2.1.1.1 (hh ▸ mem_ids hd)
  have hperm := destroyed_perm kids
  have hn2 : (c :: destroyed kids).Nodup := by
    rw [List.nodup_cons, hperm.mem_iff, hperm.nodup_iff]
    exact ⟨hnd.2.1.1.1, hnd.2.1.2.1⟩
  show life d ((visitExit e c st ⟨(run St.init ops).off, (run St.init ops).tr, .ok⟩).2.tr
    ++ (c :: destroyed kids).map .destroy) = _
  rw [life_append, life_destroy d _ hn2,
    if_pos (List.mem_cons_of_mem _ (hperm.mem_iff.2 (mem_ids hd))), t, life_append, o d hne,
    hi.pats d .connected (by rw [hc]; simp [hd])]
  rfl

example : demo.Under 1 2 .connected ∧ Left 2 (run demo [.delete quiet 1]).tr ∧
    (run demo [.delete quiet 1]).tr = [.connect 0, .connect 1, .connect 2, .connect 3,
      .leaving 1, .disconnect 1, .destroy 1, .destroy 2] := by
  refine ⟨.inr (.here .here), ?_, ?_⟩
  · show life 2 _ = _
    decide +kernel
  · decide +kernel

/-- The models 1 and 3 raise in `DoConnect`, or in `DoDisconnect`. -/
def raising : Env := fun c => if c = 1 ∨ c = 3 then ⟨false, false, true, true, []⟩ else .quiet

example : (run St.init [.addService 0, .addModel 1, .addModel 3, .connect raising false,
    .destroy quiet]).tr = [.connect 0, .connect 1, .destroy 3, .destroy 1, .destroy 0] := by
  decide +kernel

/-- C138: when `Exit` ends well, nothing is connected any more. -/
theorem C138_exit (ops : List Op) (e : Env) (h1 : (run St.init ops).phase = .standby)
    (h : ((run St.init ops).exit e).2 = .ok) :
    ∀ c st, ((run St.init ops).exit e).1.Has c st → st ≠ .connected := by
  intro c st hc
  rw [sHas_iff] at hc
  unfold St.exit at h hc
  rw [if_neg (fun hh => hh h1)] at h hc
  dsimp only at h hc
  rw [h, if_neg (by simp), (all_flat _ _).1] at hc
  rw [(all_flat _ _).2.2.2] at h
  have key : ∀ (l : List (Nat × LState)) w, (walkL (visitExit e) l w).2.res = .ok →
      ∀ p ∈ (walkL (visitExit e) l w).1, p.2 ≠ .connected := by
    intro l
    induction l with
    | nil => intro w _ p hp; cases hp
    | cons q l ih =>
      obtain ⟨d, x⟩ := q
      intro w hw p hp
      by_cases h0 : w.res = .ok
      · rw [walkL, if_neg (fun hh => hh h0)] at hw hp
        have hv : (visitExit e d x w).2.res = .ok := by
          by_cases hv : (visitExit e d x w).2.res = .ok
          · exact hv
          · rw [walkL_stop _ _ _ hv] at hw; exact absurd hw hv
        rcases List.mem_cons.1 hp with h2 | h2
        · rw [h2]
          show (visitExit e d x w).1 ≠ _
          rw [visitExit_ok e d x w hv]
          split
          · exact fun h => by cases h
          · assumption
        · exact ih _ hw p h2
      · rw [walkL_stop _ _ _ h0] at hw; exact absurd hw h0
  exact key _ _ h (c, st) hc

/-- The components that were disconnected, in this order. -/
def disconnects (tr : List Obs) : List Nat :=
  tr.filterMap (fun o => match o with | .disconnect c => some c | _ => none)

theorem calls_disconnects (c : Nat) (l : List (Nat × SvcOp)) : ∀ w,
    disconnects (calls c l w).tr = disconnects w.tr := by
  induction l with
  | nil => intro w; rfl
  | cons x l ih =>
    obtain ⟨s, op⟩ := x
    intro w
    unfold calls
    split
    · rfl
    · rw [ih]; simp [disconnects]

/-- C138: `Exit` that ends well has disconnected the components that were connected in the order of
the tree: the services before the models, and a component before those that it contains. -/
theorem C138_order (ops : List Op) (e : Env) (h1 : (run St.init ops).phase = .standby)
    (h : ((run St.init ops).exit e).2 = .ok) :
    disconnects ((run St.init ops).exit e).1.tr = disconnects (run St.init ops).tr ++
      (((run St.init ops).svcs.flat ++ (run St.init ops).models.flat).filter
        (fun p => p.2 = .connected)).map (·.1) := by
  unfold St.exit at h ⊢
  rw [if_neg (fun hh => hh h1)] at h ⊢
  dsimp only at h ⊢
  rw [h, if_neg (by simp), (all_flat _ _).2.1]
  rw [(all_flat _ _).2.2.2] at h
  have key : ∀ (l : List (Nat × LState)) w, (walkL (visitExit e) l w).2.res = .ok →
      disconnects (walkL (visitExit e) l w).2.tr = disconnects w.tr ++
        (l.filter (fun p => p.2 = .connected)).map (·.1) := by
    intro l
    induction l with
    | nil => intro w _; simp [walkL]
    | cons q l ih =>
      obtain ⟨d, x⟩ := q
      intro w hw
      by_cases h0 : w.res = .ok
      · rw [walkL, if_neg (fun hh => hh h0)] at hw ⊢
        have hv : (visitExit e d x w).2.res = .ok := by
          by_cases hv : (visitExit e d x w).2.res = .ok
          · exact hv
          · rw [walkL_stop _ _ _ hv] at hw; exact absurd hw hv
        rw [ih _ hw]
        unfold visitExit at hv ⊢
        by_cases hx : x = .connected
        · rw [if_pos hx] at hv ⊢
          unfold leave at hv ⊢
          dsimp only at hv ⊢
          by_cases c1 : (calls d (e d).calls { w with tr := w.tr ++ [.leaving d] }).res = .crash
          · rw [if_pos c1] at hv; rw [c1] at hv; cases hv
          · rw [if_neg c1] at hv ⊢
            by_cases c2 : (e d).dis = true
            · rw [if_pos c2] at hv; cases hv
            · rw [if_neg c2]
              have := calls_disconnects d (e d).calls { w with tr := w.tr ++ [.leaving d] }
              dsimp only at this ⊢
              have hq : ∀ t, disconnects (t ++ [Obs.disconnect d]) = disconnects t ++ [d] := by
                intro t; simp [disconnects]
              rw [hq, this]
              simp [disconnects, hx]
        · rw [if_neg hx]; simp [hx]
      · rw [walkL_stop _ _ _ h0] at hw; exact absurd hw h0
  exact key _ _ h

example : disconnects (step demo (.exit quiet)).tr = [0, 1, 2, 3] := by decide +kernel

/-- C138 fails: when `DoDisconnect` of a component raises in `Exit`, it and those that are connected
after it stay connected, and are destroyed connected. -/
theorem C138_exit_fails (ops : List Op) (e e' : Env) (h1 : (run St.init ops).phase = .standby)
    (pre post : List (Nat × LState)) (c : Nat)
    (hs : (run St.init ops).svcs.flat ++ (run St.init ops).models.flat
      = pre ++ (c, .connected) :: post)
    (hpre : ∀ p ∈ pre, Mild (e p.1)) (hdis : (e c).dis = true)
    (hcalls : ∀ x ∈ (e c).calls, x.2.follows = false) (d : Nat)
    (hd : d = c ∨ (d, .connected) ∈ post) :
    Left d (run (run St.init ops) [.exit e, .destroy e']).tr := by
  have hi := run_inv ops (init_inv Ended)
  have hs' : (run St.init ops).comps = pre ++ (c, .connected) :: post := hs
  have hpre' : ∀ (l : List (Nat × LState)) w, (∀ p ∈ l, Mild (e p.1)) → w.res = .ok →
      (walkL (visitExit e) l w).2.res = .ok := by
    intro l
    induction l with
    | nil => intro w _ h; exact h
    | cons q l ih =>
      obtain ⟨b, x⟩ := q
      intro w hm hw
      rw [walkL, if_neg (fun hh => hh hw)]
      apply ih _ (fun p hp => hm p (List.mem_cons_of_mem _ hp))
      have hb : Mild (e b) := hm (b, x) List.mem_cons_self
      unfold visitExit
      split
      · have := calls_mild b (e b).calls { w with tr := w.tr ++ [.leaving b] }
          (fun x hx hh => by rw [hb.2 x hx] at hh; cases hh)
        unfold leave
        dsimp only at *
        rw [this, hw, if_neg (by simp), hb.1]
        simp [this, hw]
      · exact hw
  have hv : ∀ w : W, w.res = .ok → (visitExit e c .connected w).1 = .connected ∧
      (visitExit e c .connected w).2.res = .raised := by
    intro w hw
    have := calls_mild c (e c).calls { w with tr := w.tr ++ [.leaving c] }
      (fun x hx hh => by rw [hcalls x hx] at hh; cases hh)
    unfold visitExit leave
    dsimp only at *
    rw [if_pos rfl, this, hw, if_neg (by simp), hdis]
    exact ⟨rfl, rfl⟩
  have hall : (({ run St.init ops with phase := .exiting } : St).all (visitExit e)).2 = .raised ∧
      (d, .connected) ∈
        (({ run St.init ops with phase := .exiting } : St).all (visitExit e)).1.comps := by
    obtain ⟨a1, -, -, a4⟩ := all_flat (visitExit e) ({ run St.init ops with phase := .exiting } : St)
    rw [a1, a4]
    show (walkL (visitExit e) (run St.init ops).comps _).2.res = _ ∧
      _ ∈ (walkL (visitExit e) (run St.init ops).comps _).1
    rw [hs', walkL_append]
    have h2 := hpre' pre ⟨(run St.init ops).off, (run St.init ops).tr, .ok⟩ hpre rfl
    dsimp only
    generalize (walkL (visitExit e) pre ⟨(run St.init ops).off, (run St.init ops).tr, .ok⟩) = q at *
    obtain ⟨u1, u2⟩ := hv q.2 h2
    rw [walkL, if_neg (fun hh => hh h2), u1, walkL_stop _ post _ (by rw [u2]; simp)]
    refine ⟨u2, List.mem_append_right _ ?_⟩
    rcases hd with rfl | hd
    · exact List.mem_cons_self
    · exact List.mem_cons_of_mem _ hd
  have hx : (run St.init ops).exit e =
      (({ run St.init ops with phase := .exiting } : St).all (visitExit e)) := by
    unfold St.exit
    rw [if_neg (fun hh => hh h1)]
    dsimp only
    rw [hall.1, if_neg (by simp)]
    exact Prod.ext rfl hall.1.symm
  have hinv := exit_inv hi e
  show Left d (step ((run St.init ops).exit e).1 (.destroy e')).tr
  rw [hx] at hinv ⊢
  exact stuck hinv e' (by rw [all_phase]; simp) (by rw [all_phase]; simp)
    (by rw [all_phase]; simp) (by rw [all_phase]; simp) d hall.2

example : (run demo [.exit raising, .destroy quiet]).tr = [.connect 0, .connect 1, .connect 2,
    .connect 3, .leaving 0, .disconnect 0, .leaving 1,
    .destroy 3, .destroy 1, .destroy 2, .destroy 0] := by decide +kernel

/-- C138 fails: when the destructor of the simulator has to disconnect a component whose
`DoDisconnect` raises, the program ends. -/
theorem C138_terminate_fails (ops : List Op) (e : Env)
    (h1 : (run St.init ops).phase = .standby ∨ (run St.init ops).phase = .executing) (c : Nat)
    (hc : (run St.init ops).Has c .connected) (hdis : (e c).dis = true) :
    (step (run St.init ops) (.destroy e)).phase = .crashed := by
  rw [sHas_iff] at hc
  have key : ∀ t : St, t.phase = .standby → (c, .connected) ∈ t.comps → (t.exit e).2 ≠ .ok := by
    intro t ht hm hok
    unfold St.exit at hok
    rw [if_neg (fun hh => hh ht)] at hok
    dsimp only at hok
    rw [(all_flat _ _).2.2.2] at hok
    obtain ⟨w, hw, hv⟩ := walkL_visited _ _ _ hok c .connected hm
    unfold visitExit leave at hv
    dsimp only at hv
    rw [if_pos rfl] at hv
    by_cases c1 : (calls c (e c).calls { w with tr := w.tr ++ [.leaving c] }).res = .crash
    · rw [if_pos c1] at hv; rw [c1] at hv; cases hv
    · rw [if_neg c1, if_pos hdis] at hv; cases hv
  simp only [step, St.destroy]
  rw [if_neg (by rcases h1 with h | h <;> rw [h] <;> simp)]
  have hk := key (if (run St.init ops).phase = .executing
    then { run St.init ops with phase := .standby } else run St.init ops)
    (by rcases h1 with h | h <;> simp [h]) (by split <;> exact hc)
  generalize (if (run St.init ops).phase = .executing
    then { run St.init ops with phase := .standby } else run St.init ops) = t at *
  generalize t.exit e = q at *
  obtain ⟨u, x⟩ := q
  cases x with
  | ok => exact absurd rfl hk
  | raised => rfl
  | crash => rfl

example : (step demo (.destroy raising)).phase = .crashed ∧ demo.Has 3 .connected := by
  refine ⟨by decide +kernel, .inr (.rest .here)⟩

example : Left 1 (run demo [.abort, .destroy quiet]).tr ∧
    Left 1 (run demo [.store true, .destroy quiet]).tr := by
  constructor <;> (show life 1 _ = _; decide +kernel)

/-! ### C139 -/

/-- C139: the services that can be used: one that is connected, or that was not connected yet, has
its pointer to the simulator, and one that was disconnected has not. -/
theorem C139_off (ops : List Op) (c : Nat) :
    (c ∈ (run St.init ops).off ↔
      .disconnect c ∈ (run St.init ops).tr ∨ .destroy c ∈ (run St.init ops).tr) ∧
    (∀ st, (run St.init ops).Has c st → (c ∈ (run St.init ops).off ↔ st = .disconnected)) := by
  have ho := run_offOk ops St.init (by intro d; simp [St.init])
  refine ⟨ho c, fun st hc => ⟨fun hm => ?_, fun hst => ?_⟩⟩
  · apply Classical.byContradiction
    intro hne
    exact usable ops hc hne hm
  · rw [ho c]
    left
    have := (C138_state ops c st hc).2.1 hst
    have hm : Obs.disconnect c ∈ life c (run St.init ops).tr := by rw [this]; simp
    exact (List.mem_filter.1 hm).1

/-- C139, partial: a component that is deleted can use in `DoDisconnect` every service that is
connected. -/
theorem C139_delete_partial (ops : List Op) (e : Env) (c : Nat)
    (h2 : (run St.init ops).phase ≠ .crashed)
    (h : ∀ x ∈ (e c).calls, (run St.init ops).Has x.1 .connected) :
    (step (run St.init ops) (.delete e c)).phase ≠ .crashed := by
  simp only [step]
  split
  · exact h2
  · rcases delete_cases (run St.init ops) e c with
      ⟨h1, -⟩ | ⟨st, kids, svcs, models, pre, post, a1, a2, a3, a4⟩
    · rw [h1]; exact h2
    · have hnc : (visitExit e c st ⟨(run St.init ops).off, (run St.init ops).tr, .ok⟩).2.res
          ≠ .crash := by
        unfold visitExit
        split
        · unfold leave
          have := calls_mild c (e c).calls
            ⟨(run St.init ops).off, (run St.init ops).tr ++ [.leaving c], .ok⟩
            (fun x hx _ => usable ops (h x hx) (by simp))
          dsimp only at *
          rw [this, if_neg (by simp)]
          split
          · simp
          · simp [this]
        · simp
      rw [a4]
      generalize (visitExit e c st ⟨(run St.init ops).off, (run St.init ops).tr, .ok⟩).2 = w at *
      cases hw : w.res with
      | ok => exact h2
      | raised => exact h2
      | crash => exact absurd hw hnc

/-- `Exit` uses a null pointer exactly when a component calls in `DoDisconnect` a service that was
disconnected before it. -/
theorem walkL_crash (e : Env) (hdis : ∀ c, (e c).dis = false) (l : List (Nat × LState)) :
    ∀ w : W, w.res = .ok → ((walkL (visitExit e) l w).2.res = .crash ↔
      ∃ pre c post, l = pre ++ (c, .connected) :: post ∧
        ∃ x ∈ (e c).calls, x.2.follows = true ∧ (x.1 ∈ w.off ∨ (x.1, .connected) ∈ pre)) := by
  induction l with
  | nil =>
    intro w hw
    constructor
    · intro h; rw [walkL, hw] at h; cases h
    · rintro ⟨pre, c, post, h, -⟩; simp at h
  | cons p l ih =>
    obtain ⟨b, y⟩ := p
    intro w hw
    rw [walkL, if_neg (fun hh => hh hw)]
    dsimp only
    by_cases hy : y = .connected
    · subst hy
      by_cases hcr : ∃ x ∈ (e b).calls, x.2.follows = true ∧ x.1 ∈ w.off
      · -- this component crashes
        have h1 := calls_crash b (e b).calls { w with tr := w.tr ++ [.leaving b] } hcr
        have h2 : (visitExit e b .connected w).2.res = .crash := by
          unfold visitExit leave
          dsimp only
          rw [if_pos rfl, if_pos h1]; exact h1
        rw [walkL_stop _ _ _ (by rw [h2]; simp)]
        refine ⟨fun _ => ?_, fun _ => h2⟩
        obtain ⟨x, hx, hf, ho⟩ := hcr
        exact ⟨[], b, l, rfl, x, hx, hf, .inl ho⟩
      · have h1 := calls_mild b (e b).calls { w with tr := w.tr ++ [.leaving b] }
          (fun x hx hf ho => hcr ⟨x, hx, hf, ho⟩)
        obtain ⟨t, -, -, ho⟩ := life_calls 0 b (e b).calls { w with tr := w.tr ++ [.leaving b] }
        have h2 : (visitExit e b .connected w).2.res = .ok ∧
            (visitExit e b .connected w).2.off = b :: w.off := by
          unfold visitExit leave
          dsimp only at *
          generalize calls b (e b).calls ⟨w.off, w.tr ++ [.leaving b], w.res⟩ = v at *
          rw [if_pos rfl, if_neg (by rw [h1, hw]; simp), hdis b, if_neg (by simp)]
          exact ⟨h1.trans hw, by dsimp only; rw [ho]⟩
        rw [ih _ h2.1, h2.2]
        constructor
        · rintro ⟨pre, c, post, rfl, x, hx, hf, ho | ho⟩
          · rcases List.mem_cons.1 ho with h3 | h3
            · exact ⟨(b, .connected) :: pre, c, post, rfl, x, hx, hf, .inr (by rw [h3]; simp)⟩
            · exact ⟨(b, .connected) :: pre, c, post, rfl, x, hx, hf, .inl h3⟩
          · exact ⟨(b, .connected) :: pre, c, post, rfl, x, hx, hf,
              .inr (List.mem_cons_of_mem _ ho)⟩
        · rintro ⟨pre, c, post, heq, x, hx, hf, ho⟩
          cases pre with
          | nil =>
            simp only [List.nil_append, List.cons.injEq, Prod.mk.injEq] at heq
            obtain ⟨⟨rfl, -⟩, rfl⟩ := heq
            rcases ho with ho | ho
            · exact absurd ⟨x, hx, hf, ho⟩ hcr
            · cases ho
          | cons q pre =>
            simp only [List.cons_append, List.cons.injEq] at heq
            obtain ⟨rfl, rfl⟩ := heq
            refine ⟨pre, c, post, rfl, x, hx, hf, ?_⟩
            rcases ho with ho | ho
            · exact .inl (List.mem_cons_of_mem _ ho)
            · rcases List.mem_cons.1 ho with h3 | h3
              · left
                have : x.1 = b := congrArg Prod.fst h3
                rw [this]; exact List.mem_cons_self
              · exact .inr h3
    · have h2 : visitExit e b y w = (y, w) := by unfold visitExit; rw [if_neg hy]
      rw [h2, ih w hw]
      constructor
      · rintro ⟨pre, c, post, rfl, x, hx, hf, ho⟩
        refine ⟨(b, y) :: pre, c, post, rfl, x, hx, hf, ?_⟩
        rcases ho with ho | ho
        · exact .inl ho
        · exact .inr (List.mem_cons_of_mem _ ho)
      · rintro ⟨pre, c, post, heq, x, hx, hf, ho⟩
        cases pre with
        | nil =>
          simp only [List.nil_append, List.cons.injEq, Prod.mk.injEq] at heq
          exact absurd heq.1.2 hy
        | cons q pre =>
          simp only [List.cons_append, List.cons.injEq] at heq
          obtain ⟨rfl, rfl⟩ := heq
          refine ⟨pre, c, post, rfl, x, hx, hf, ?_⟩
          rcases ho with ho | ho
          · exact .inl ho
          · rcases List.mem_cons.1 ho with h3 | h3
            · have : LState.connected = y := congrArg Prod.snd h3
              exact absurd this.symm hy
            · exact .inr h3

/-- C139: when nothing raises, `Exit` uses a null pointer exactly when a connected component calls
in `DoDisconnect` one of the operations that follow the pointer of a service, of one that is
disconnected or that `Exit` comes to before this component. -/
theorem C139_exit (ops : List Op) (e : Env) (h1 : (run St.init ops).phase = .standby)
    (hdis : ∀ c, (e c).dis = false) :
    ((run St.init ops).exit e).2 = .crash ↔
      ∃ pre c post, (run St.init ops).svcs.flat ++ (run St.init ops).models.flat
          = pre ++ (c, .connected) :: post ∧
        ∃ x ∈ (e c).calls, (x.2 = .addEvent ∨ x.2 = .unsubscribe ∨ x.2 = .emit) ∧
          (x.1 ∈ (run St.init ops).off ∨ (x.1, .connected) ∈ pre) := by
  have hf : ∀ o : SvcOp, (o = .addEvent ∨ o = .unsubscribe ∨ o = .emit) ↔ o.follows = true := by
    intro o; cases o <;> simp [SvcOp.follows]
  simp only [hf]
  unfold St.exit
  rw [if_neg (fun hh => hh h1)]
  dsimp only
  rw [(all_flat _ _).2.2.2]
  exact walkL_crash e hdis _ _ rfl

/-- C139 fails: a model that takes back its subscription, emits an event or adds an event in
`DoDisconnect` uses a null pointer whenever the simulation exits: the service was disconnected
before. -/
theorem C139_exit_fails (ops : List Op) (e : Env) (h1 : (run St.init ops).phase = .standby)
    (hdis : ∀ c, (e c).dis = false) (v c : Nat) (op : SvcOp)
    (hv : Has (run St.init ops).svcs v .connected) (hc : Has (run St.init ops).models c .connected)
    (hx : (v, op) ∈ (e c).calls) (ho : op = .addEvent ∨ op = .unsubscribe ∨ op = .emit) :
    ((run St.init ops).exit e).2 = .crash ∧ (step (run St.init ops) (.exit e)).phase = .crashed := by
  have h2 : ((run St.init ops).exit e).2 = .crash := by
    rw [C139_exit ops e h1 hdis]
    rw [has_iff] at hv hc
    obtain ⟨a, b, hab⟩ := List.append_of_mem hc
    exact ⟨(run St.init ops).svcs.flat ++ a, c, b, by rw [hab]; simp, (v, op), hx, ho,
      .inr (List.mem_append_left _ hv)⟩
  refine ⟨h2, ?_⟩
  show ((run St.init ops).exit e).1.phase = _
  unfold St.exit at h2 ⊢
  rw [if_neg (fun hh => hh h1)] at h2 ⊢
  dsimp only at h2 ⊢
  rw [if_pos h2]

/-- The model 1 takes back its subscription in `DoDisconnect`. -/
def polite : Env := fun c => if c = 1 then { Hooks.quiet with calls := [(0, .unsubscribe)] } else .quiet

example : (step demo (.exit polite)).phase = .crashed ∧
    (step demo (.delete polite 1)).phase = .standby ∧
    (run demo [.delete polite 1, .exit polite]).phase = .exiting := by decide +kernel

/-- C139, partial: `Exit` uses no null pointer when the components call in `DoDisconnect` only what
does not follow the pointer of the service: `Log` and `RemoveEvent`. -/
theorem C139_exit_partial (ops : List Op) (e : Env) (h1 : (run St.init ops).phase = .standby)
    (h : ∀ c, (e c).dis = false ∧ ∀ x ∈ (e c).calls, x.2 = .log ∨ x.2 = .removeEvent) :
    ((run St.init ops).exit e).2 ≠ .crash := by
  intro hh
  rw [C139_exit ops e h1 (fun c => (h c).1)] at hh
  obtain ⟨pre, c, post, -, x, hx, hf, -⟩ := hh
  rcases (h c).2 x hx with h2 | h2 <;> rw [h2] at hf <;> simp at hf

example : (step demo (.exit (fun _ => { Hooks.quiet with calls := [(0, .log), (0, .removeEvent)] }))).phase
    = .exiting := by decide +kernel

end Verif.Sim.Matched
