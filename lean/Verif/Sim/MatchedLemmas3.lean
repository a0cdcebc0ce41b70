import Verif.Sim.MatchedLemmas2

/-! The order of the visits, and the services that are still usable: lemmas for C138 and C139. -/
namespace Verif.Sim.Matched
open Verif.Tree (LState)

/-- The visits of a list of components, until one raises. -/
def walkL (f : Nat → LState → W → LState × W) : List (Nat × LState) → W → List (Nat × LState) × W
  | [], w => ([], w)
  | (c, st) :: l, w =>
    if w.res ≠ .ok then ((c, st) :: l, w)
    else ((c, (f c st w).1) :: (walkL f l (f c st w).2).1, (walkL f l (f c st w).2).2)

theorem walkL_stop (f) (l : List (Nat × LState)) (w : W) (h : w.res ≠ .ok) :
    walkL f l w = (l, w) := by
  cases l with
  | nil => rfl
  | cons p l => obtain ⟨c, st⟩ := p; rw [walkL, if_pos h]

theorem walkL_append (f) (a b : List (Nat × LState)) : ∀ w,
    walkL f (a ++ b) w =
      ((walkL f a w).1 ++ (walkL f b (walkL f a w).2).1, (walkL f b (walkL f a w).2).2) := by
  induction a with
  | nil => intro w; rfl
  | cons p a ih =>
    obtain ⟨c, st⟩ := p
    intro w
    by_cases h : w.res ≠ .ok
    · rw [walkL_stop f _ w h, walkL_stop f _ w h, walkL_stop f _ w h]
    · show walkL f ((c, st) :: (a ++ b)) w = _
      rw [walkL, if_neg h, walkL, if_neg h, ih]
      rfl

theorem walk_flat (f) (F : Forest) : ∀ w,
    (walk f F w).1.flat = (walkL f F.flat w).1 ∧ (walk f F w).2 = (walkL f F.flat w).2 := by
  induction F with
  | nil => intro w; exact ⟨rfl, rfl⟩
  | cons c st kids rest ihk ihr =>
    intro w
    by_cases h : w.res ≠ .ok
    · rw [walk_stop f _ w h, walkL_stop f _ w h]; exact ⟨rfl, rfl⟩
    · obtain ⟨k1, k2⟩ := ihk (f c st w).2
      obtain ⟨r1, r2⟩ := ihr (walk f kids (f c st w).2).2
      simp only [Forest.flat]
      rw [walk, if_neg h, walkL, if_neg h, walkL_append, ← k1, ← k2, ← r1, ← r2]
      exact ⟨rfl, rfl⟩

theorem all_flat (f) (s : St) :
    (s.all f).1.comps = (walkL f s.comps ⟨s.off, s.tr, .ok⟩).1 ∧
    (s.all f).1.tr = (walkL f s.comps ⟨s.off, s.tr, .ok⟩).2.tr ∧
    (s.all f).1.off = (walkL f s.comps ⟨s.off, s.tr, .ok⟩).2.off ∧
    (s.all f).2 = (walkL f s.comps ⟨s.off, s.tr, .ok⟩).2.res := by
  obtain ⟨a1, a2⟩ := walk_flat f s.svcs ⟨s.off, s.tr, .ok⟩
  obtain ⟨b1, b2⟩ := walk_flat f s.models (walk f s.svcs ⟨s.off, s.tr, .ok⟩).2
  unfold St.comps
  rw [walkL_append, ← a2, ← a1, ← b1, ← b2]
  exact ⟨rfl, rfl, rfl, rfl⟩

/-- If all went well, every component was visited. -/
theorem walkL_visited (f) (l : List (Nat × LState)) : ∀ w, (walkL f l w).2.res = .ok →
    ∀ c st, (c, st) ∈ l → ∃ w', w'.res = .ok ∧ (f c st w').2.res = .ok := by
  induction l with
  | nil => intro w _ c st h; cases h
  | cons p l ih =>
    obtain ⟨d, x⟩ := p
    intro w h c st hc
    have hw : w.res = .ok := by
      by_cases hw : w.res = .ok
      · exact hw
      · rw [walkL_stop f _ w hw] at h; exact h
    rw [walkL, if_neg (fun hh => hh hw)] at h
    have hf : (f d x w).2.res = .ok := by
      by_cases hf : (f d x w).2.res = .ok
      · exact hf
      · rw [walkL_stop f _ _ hf] at h; exact absurd h hf
    rcases List.mem_cons.1 hc with h1 | h1
    · cases h1; exact ⟨w, hw, hf⟩
    · exact ih _ h c st h1

/-! ### The services that are usable -/

/-- The components that are disconnected or destroyed are those in `off`. -/
def OffOk (off : List Nat) (tr : List Obs) : Prop :=
  ∀ c, c ∈ off ↔ .disconnect c ∈ tr ∨ .destroy c ∈ tr

theorem calls_offOk (c : Nat) (l : List (Nat × SvcOp)) : ∀ w, OffOk w.off w.tr →
    OffOk (calls c l w).off (calls c l w).tr := by
  induction l with
  | nil => intro w h; exact h
  | cons x l ih =>
    obtain ⟨s, op⟩ := x
    intro w h
    unfold calls
    split
    · exact h
    · apply ih
      intro d
      rw [h d]
      simp

theorem leave_offOk (h : Hooks) (c : Nat) (w : W) (hw : OffOk w.off w.tr) :
    OffOk (leave h c w).2.off (leave h c w).2.tr := by
  have h1 : OffOk w.off (w.tr ++ [.leaving c]) := by intro d; rw [hw d]; simp
  have h2 := calls_offOk c h.calls { w with tr := w.tr ++ [.leaving c] } h1
  unfold leave
  dsimp only
  generalize calls c h.calls { w with tr := w.tr ++ [.leaving c] } = v at *
  split
  · exact h2
  · split
    · exact h2
    · intro d
      rw [List.mem_cons, h2 d]
      simp only [List.mem_append, List.mem_singleton, Obs.disconnect.injEq, reduceCtorEq, or_false]
      constructor
      · rintro (h3 | h3 | h3)
        · exact .inl (.inr h3)
        · exact .inl (.inl h3)
        · exact .inr h3
      · rintro ((h3 | h3) | h3)
        · exact .inr (.inl h3)
        · exact .inl h3
        · exact .inr (.inr h3)

theorem visitExit_offOk (e : Env) (c : Nat) (st : LState) (w : W) (hw : OffOk w.off w.tr) :
    OffOk (visitExit e c st w).2.off (visitExit e c st w).2.tr := by
  unfold visitExit
  split
  · exact leave_offOk _ _ _ hw
  · exact hw

theorem visitConnect_offOk (e : Env) (c : Nat) (st : LState) (w : W) (hw : OffOk w.off w.tr) :
    OffOk (visitConnect e c st w).2.off (visitConnect e c st w).2.tr := by
  obtain ⟨h1, h2, h3⟩ := configure_same e c st w
  unfold visitConnect
  generalize visitConfigure e c st w = p at *
  obtain ⟨st', w'⟩ := p
  dsimp only at *
  split
  · dsimp only; rw [h1, h2]; intro d; rw [hw d]; simp
  · rw [h1, h2]; exact hw

theorem walk_offOk {f} (hf : ∀ c st w, OffOk w.off w.tr → OffOk (f c st w).2.off (f c st w).2.tr)
    (F : Forest) : ∀ w, OffOk w.off w.tr → OffOk (walk f F w).2.off (walk f F w).2.tr := by
  induction F with
  | nil => intro w h; exact h
  | cons c st kids rest ihk ihr =>
    intro w h
    unfold walk
    split
    · exact h
    · exact ihr _ (ihk _ (hf _ _ _ h))

theorem below_offOk {f} (hf : ∀ c st w, OffOk w.off w.tr → OffOk (f c st w).2.off (f c st w).2.tr)
    (r : Nat) (F : Forest) :
    ∀ w, OffOk w.off w.tr → OffOk (walkBelow f r F w).2.off (walkBelow f r F w).2.tr := by
  induction F with
  | nil => intro w h; exact h
  | cons c st kids rest ihk ihr =>
    intro w h
    unfold walkBelow
    split
    · exact walk_offOk hf kids w h
    · exact ihr _ (ihk _ h)

theorem all_offOk {f} (hf : ∀ c st w, OffOk w.off w.tr → OffOk (f c st w).2.off (f c st w).2.tr)
    (s : St) (h : OffOk s.off s.tr) : OffOk (s.all f).1.off (s.all f).1.tr :=
  walk_offOk hf s.models _ (walk_offOk hf s.svcs ⟨s.off, s.tr, .ok⟩ h)

theorem destroy_offOk {off : List Nat} {tr : List Obs} (h : OffOk off tr) (l : List Nat) :
    OffOk (l ++ off) (tr ++ l.map .destroy) := by
  intro d
  rw [List.mem_append, h d]
  simp only [List.mem_append, List.mem_map, reduceCtorEq, and_false, exists_false, or_false,
    Obs.destroy.injEq, exists_eq_right]
  constructor
  · rintro (h1 | h1 | h1)
    · exact .inr (.inr h1)
    · exact .inl h1
    · exact .inr (.inl h1)
  · rintro (h1 | h1 | h1)
    · exact .inr (.inl h1)
    · exact .inr (.inr h1)
    · exact .inl h1

theorem exit_offOk (s : St) (h : OffOk s.off s.tr) (e : Env) :
    OffOk (s.exit e).1.off (s.exit e).1.tr := by
  unfold St.exit
  split
  · exact h
  · have := all_offOk (visitExit_offOk e) ({ s with phase := .exiting } : St) h
    dsimp only
    split <;> exact this

theorem step_offOk (s : St) (h : OffOk s.off s.tr) (op : Op) :
    OffOk (step s op).off (step s op).tr := by
  cases op with
  | addService c => simp only [step]; split <;> exact h
  | addModel c => simp only [step]; split <;> exact h
  | addIn p c => simp only [step]; split <;> exact h
  | publish e =>
    simp only [step]; split
    · exact h
    · refine all_offOk (fun c st w hw => ?_) s h
      obtain ⟨h1, h2, -⟩ := publish_same e c st w
      rw [h1, h2]; exact hw
  | configure e =>
    simp only [step]; split
    · exact h
    · refine all_offOk (fun c st w hw => ?_) s h
      obtain ⟨h1, h2, -⟩ := configure_same e c st w
      rw [h1, h2]; exact hw
  | connect e r =>
    simp only [step, St.connect]; split
    · exact h
    · have := all_offOk (visitConnect_offOk e) ({ s with phase := .connecting } : St) h
      split
      · rename_i t heq
        rw [heq] at this; exact this
      · rename_i t _ _ heq
        rw [heq] at this; exact this
  | initialise r => simp only [step]; split <;> exact h
  | run => simp only [step]; split <;> exact h
  | hold => simp only [step]; split <;> exact h
  | store r => simp only [step]; split <;> exact h
  | restore r => simp only [step]; split <;> exact h
  | reconnect e r =>
    simp only [step]; split
    · exact h
    · exact below_offOk (visitConnect_offOk e) r s.models _
        (below_offOk (visitConnect_offOk e) r s.svcs ⟨s.off, s.tr, .ok⟩ h)
  | exit e => exact exit_offOk s h e
  | abort => simp only [step]; split <;> exact h
  | delete e c =>
    simp only [step]; split
    · exact h
    · rcases delete_cases s e c with ⟨h1, -⟩ | ⟨st, kids, svcs, models, pre, post, h1, h2, h3, h4⟩
      · rw [h1]; exact h
      · have hv := visitExit_offOk e c st ⟨s.off, s.tr, .ok⟩ h
        rw [h4]
        split
        · exact destroy_offOk hv _
        · exact hv
        · exact hv
  | destroy e =>
    simp only [step, St.destroy]; split
    · exact h
    · have h1 : OffOk (if s.phase = .executing then { s with phase := .standby } else s).off
          (if s.phase = .executing then { s with phase := .standby } else s).tr := by
        split <;> exact h
      generalize (if s.phase = .executing then { s with phase := .standby } else s) = t at h1
      have h2 := exit_offOk t h1 e
      split
      · rename_i u heq
        rw [heq] at h2
        exact destroy_offOk h2 _
      · rename_i u _ _ heq
        rw [heq] at h2; exact h2

theorem run_offOk (ops : List Op) : ∀ s, OffOk s.off s.tr → OffOk (run s ops).off (run s ops).tr := by
  induction ops with
  | nil => intro s h; exact h
  | cons o l ih => intro s h; exact ih _ (step_offOk s h o)

/-- A component that is not disconnected is usable. -/
theorem usable (ops : List Op) {c : Nat} {x : LState} (h : (run St.init ops).Has c x)
    (hx : x ≠ .disconnected) : c ∉ (run St.init ops).off := by
  have hi := run_inv ops (init_inv Ended)
  have ho := run_offOk ops St.init (by intro d; simp [St.init])
  rw [sHas_iff] at h
  have hl := hi.pats c x h
  rw [ho c]
  have hno : ∀ o, (o = .disconnect c ∨ o = .destroy c) → o ∈ (run St.init ops).tr → False := by
    intro o ho1 ho2
    have : o ∈ life c (run St.init ops).tr := by
      unfold life
      rw [List.mem_filter]
      refine ⟨ho2, ?_⟩
      rcases ho1 with rfl | rfl <;> simp
    rw [hl] at this
    cases x <;> simp [pat] at this hx
    subst this
    rcases ho1 with h1 | h1 <;> cases h1
  rintro (h1 | h1)
  · exact hno _ (.inl rfl) h1
  · exact hno _ (.inr rfl) h1

/-! ### A deletion finds what is below -/

theorem under_ids {c : Nat} {F : Forest} {d x} (h : Under c F d x) : c ∈ F.flat.map (·.1) := by
  induction h with
  | here _ => simp [Forest.flat]
  | kid _ ih =>
    simp only [Forest.flat, List.map_cons, List.map_append, List.mem_cons, List.mem_append]
    exact .inr (.inl ih)
  | rest _ ih =>
    simp only [Forest.flat, List.map_cons, List.map_append, List.mem_cons, List.mem_append]
    exact .inr (.inr ih)

theorem take_not {c : Nat} (F : Forest) (h : c ∉ F.flat.map (·.1)) : take c F = none := by
  cases h1 : take c F with
  | none => rfl
  | some p =>
    obtain ⟨st, kids, rest⟩ := p
    obtain ⟨pre, post, a1, -⟩ := take_some _ h1
    rw [a1] at h
    simp at h

theorem take_under {c : Nat} {F : Forest} {d x} (h : Under c F d x)
    (hn : (F.flat.map (·.1)).Nodup) :
    ∃ st kids rest, take c F = some (st, kids, rest) ∧ (d, x) ∈ kids.flat := by
  induction h with
  | here hh => exact ⟨_, _, _, by rw [take, if_pos rfl], (has_iff _ _ _).1 hh⟩
  | @kid b st kids rest d x hu ih =>
    simp only [Forest.flat, List.map_cons, List.map_append, List.nodup_cons,
      List.nodup_append, List.mem_append, not_or] at hn
    have hb : b ≠ c := fun hh => hn.1.1 (hh ▸ under_ids hu)
    obtain ⟨st', k', r', h1, h2⟩ := ih hn.2.1
    exact ⟨st', k', _, by rw [take, if_neg hb, h1], h2⟩
  | @rest b st kids rest d x hu ih =>
    simp only [Forest.flat, List.map_cons, List.map_append, List.nodup_cons,
      List.nodup_append, List.mem_append, not_or] at hn
    have hb : b ≠ c := fun hh => hn.1.2 (hh ▸ under_ids hu)
    have hk : take c kids = none := take_not _ (fun hh => hn.2.2.2 _ hh _ (under_ids hu) rfl)
    obtain ⟨st', k', r', h1, h2⟩ := ih hn.2.2.1
    exact ⟨st', k', _, by rw [take, if_neg hb, hk, h1], h2⟩

theorem delete_under {P s} (h : Inv P s) (e : Env) {c d : Nat} {x : LState} (hu : s.Under c d x) :
    ∃ st kids svcs models,
      (∃ pre post, s.comps = pre ++ (c, st) :: (kids.flat ++ post)) ∧ (d, x) ∈ kids.flat ∧
      s.delete e c =
        match (visitExit e c st ⟨s.off, s.tr, .ok⟩).2.res with
        | .ok =>
          { s with
            svcs := svcs
            models := models
            off := (c :: destroyed kids) ++ (visitExit e c st ⟨s.off, s.tr, .ok⟩).2.off
            tr := (visitExit e c st ⟨s.off, s.tr, .ok⟩).2.tr
              ++ (c :: destroyed kids).map .destroy }
        | .raised =>
          { s with
            off := (visitExit e c st ⟨s.off, s.tr, .ok⟩).2.off
            tr := (visitExit e c st ⟨s.off, s.tr, .ok⟩).2.tr }
        | .crash =>
          { s with
            phase := .crashed
            off := (visitExit e c st ⟨s.off, s.tr, .ok⟩).2.off
            tr := (visitExit e c st ⟨s.off, s.tr, .ok⟩).2.tr } := by
  have hnd := h.nodup
  unfold St.comps at hnd
  rw [List.map_append, List.nodup_append] at hnd
  rcases hu with hu | hu
  · obtain ⟨st, kids, rest, h1, h2⟩ := take_under hu hnd.1
    obtain ⟨pre, post, a1, -⟩ := take_some _ h1
    refine ⟨st, kids, rest, s.models, ⟨pre, post ++ s.models.flat, ?_⟩, h2, ?_⟩
    · unfold St.comps; rw [a1]; simp
    · unfold St.delete; rw [h1]; rfl
  · obtain ⟨st, kids, rest, h1, h2⟩ := take_under hu hnd.2.1
    obtain ⟨pre, post, a1, -⟩ := take_some _ h1
    have h0 : take c s.svcs = none :=
      take_not _ (fun hh => hnd.2.2 _ hh _ (under_ids hu) rfl)
    refine ⟨st, kids, s.svcs, rest, ⟨s.svcs.flat ++ pre, post, ?_⟩, h2, ?_⟩
    · unfold St.comps; rw [a1]; simp
    · unfold St.delete; rw [h0, h1]; rfl

end Verif.Sim.Matched
