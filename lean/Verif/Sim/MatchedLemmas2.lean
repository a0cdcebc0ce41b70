import Verif.Sim.MatchedLemmas

/-! The invariants of C138 and C139. -/
namespace Verif.Sim.Matched
open Verif.Tree (LState)

/-- A life that has ended, in any way. -/
def Ended (l : List Obs) (c : Nat) : Prop :=
  l = [.destroy c] ∨ l = [.connect c, .destroy c] ∨ l = [.connect c, .disconnect c, .destroy c]

/-- A life that has ended as it should. -/
def EndedWell (l : List Obs) (c : Nat) : Prop :=
  l = [.destroy c] ∨ l = [.connect c, .disconnect c, .destroy c]

theorem ended_pat (c : Nat) (x : LState) : Ended (pat c x ++ [.destroy c]) c := by
  cases x <;> simp [pat, Ended]

theorem endedWell_pat (c : Nat) (x : LState) (h : x ≠ .connected) :
    EndedWell (pat c x ++ [.destroy c]) c := by
  cases x <;> simp [pat, EndedWell] at *

theorem endedWell_left (c : Nat) (x : LState) :
    EndedWell (pat c (if x = .connected then .disconnected else x) ++ [.destroy c]) c := by
  apply endedWell_pat
  split
  · exact fun h => by cases h
  · assumption

theorem ended_left (c : Nat) (x : LState) :
    Ended (pat c (if x = .connected then .disconnected else x) ++ [.destroy c]) c := ended_pat _ _

theorem init_inv (P) : Inv P St.init :=
  ⟨by simp [St.init, St.comps, Forest.flat], by simp [St.init, St.comps, Forest.flat],
    by simp [St.init, St.comps, Forest.flat], by simp [St.init], by simp [St.init, life]⟩

theorem addService_inv {P s} (h : Inv P s) (c : Nat) : Inv P (step s (.addService c)) := by
  simp only [step]
  split
  · rename_i hc
    refine h.add hc.2 rfl rfl ?_
    show (((s.svcs.push c).flat) ++ s.models.flat).Perm _
    rw [push_flat]
    show (s.svcs.flat ++ [(c, LState.created)] ++ s.models.flat).Perm
      ((c, .created) :: (s.svcs.flat ++ s.models.flat))
    rw [List.append_assoc]
    exact List.perm_middle
  · exact h

theorem addModel_inv {P s} (h : Inv P s) (c : Nat) : Inv P (step s (.addModel c)) := by
  simp only [step]
  split
  · rename_i hc
    refine h.add hc.2 rfl rfl ?_
    show (s.svcs.flat ++ (s.models.push c).flat).Perm _
    rw [push_flat]
    show (s.svcs.flat ++ (s.models.flat ++ [(c, LState.created)])).Perm
      ((c, .created) :: (s.svcs.flat ++ s.models.flat))
    rw [← List.append_assoc]
    exact List.perm_append_singleton _ _
  · exact h

/-- The components after `addIn`. -/
theorem addIn_comps {P s} (h : Inv P s) (p c : Nat) (hp : (s.svcs.has p || s.models.has p) = true) :
    ((s.svcs.pushIn p c).flat ++ (s.models.pushIn p c).flat).Perm ((c, .created) :: s.comps) := by
  have hnd := h.nodup
  unfold St.comps at hnd ⊢
  rw [List.map_append, List.nodup_append] at hnd
  rw [Bool.or_eq_true] at hp
  unfold Forest.has at hp
  rw [List.contains_iff_mem, List.contains_iff_mem] at hp
  rcases hp with hp | hp
  · have hn : p ∉ s.models.flat.map (·.1) := fun hh => hnd.2.2 _ hp _ hh rfl
    rw [pushIn_none _ p c hn]
    obtain ⟨a, b, h1, h2⟩ := pushIn_flat s.svcs p c hnd.1 hp
    rw [h1, h2]
    simpa using List.perm_middle
  · have hn : p ∉ s.svcs.flat.map (·.1) := fun hh => hnd.2.2 _ hh _ hp rfl
    rw [pushIn_none _ p c hn]
    obtain ⟨a, b, h1, h2⟩ := pushIn_flat s.models p c hnd.2.1 hp
    rw [h1, h2, ← List.append_assoc, ← List.append_assoc]
    exact List.perm_middle

theorem addIn_inv {P s} (h : Inv P s) (p c : Nat) : Inv P (step s (.addIn p c)) := by
  simp only [step]
  split
  · rename_i hc
    exact h.add hc.2.2.1 rfl rfl (addIn_comps h p c hc.2.2.2)
  · exact h

theorem phase_inv {P s} (h : Inv P s) (p : Phase) : Inv P { s with phase := p } :=
  h.congr rfl rfl rfl rfl

theorem connect_inv {P s} (h : Inv P s) (e : Env) (r : Bool) : Inv P (s.connect e r) := by
  unfold St.connect
  split
  · exact h
  · have := all_inv (phase_inv h .connecting) (connect_fine e)
    split
    · rename_i t heq
      rw [heq] at this
      exact phase_inv this _
    · rename_i t _ _ heq
      rw [heq] at this
      exact this

theorem exit_inv {P s} (h : Inv P s) (e : Env) : Inv P (s.exit e).1 := by
  unfold St.exit
  split
  · exact h
  · have := all_inv (phase_inv h .exiting) (exit_fine e)
    dsimp only
    split
    · exact phase_inv this _
    · exact this

theorem reconnect_inv {P s} (h : Inv P s) (e : Env) (r : Nat) : Inv P (step s (.reconnect e r)) := by
  simp only [step]
  split
  · exact h
  · obtain ⟨l1, t1, T1⟩ := below_trans (connect_fine e) r s.svcs ⟨s.off, s.tr, .ok⟩ h.parts.1
    obtain ⟨l2, t2, T2⟩ := below_trans (connect_fine e) r s.models
      (walkBelow (visitConnect e) r s.svcs ⟨s.off, s.tr, .ok⟩).2 h.parts.2
    refine h.trans (l := l1 ++ l2) ?_ rfl (Trans.append h.nodup T1 T2)
    show (walkBelow _ r s.models _).2.tr = _
    rw [t2, t1]; simp

theorem destroy_inv {s} (h : Inv Ended s) (e : Env) : Inv Ended (s.destroy e) := by
  unfold St.destroy
  split
  · exact h
  · have h1 : Inv Ended (if s.phase = .executing then { s with phase := .standby } else s) := by
      split
      · exact phase_inv h _
      · exact h
    dsimp only
    generalize (if s.phase = .executing then { s with phase := .standby } else s) = t at h1
    have h2 := exit_inv h1 e
    split
    · rename_i u heq
      rw [heq] at h2
      exact h2.clear (fun c x _ => ended_pat c x)
    · rename_i u _ _ heq
      rw [heq] at h2
      exact phase_inv h2 _

theorem step_inv {s} (h : Inv Ended s) (op : Op) : Inv Ended (step s op) := by
  cases op with
  | addService c => exact addService_inv h c
  | addModel c => exact addModel_inv h c
  | addIn p c => exact addIn_inv h p c
  | publish e =>
    simp only [step]; split
    · exact h
    · exact all_inv h (publish_fine e)
  | configure e =>
    simp only [step]; split
    · exact h
    · exact all_inv h (configure_fine e)
  | connect e r => exact connect_inv h e r
  | initialise r => simp only [step]; split <;> first | exact h | exact phase_inv h _
  | run => simp only [step]; split <;> first | exact h | exact phase_inv h _
  | hold => simp only [step]; split <;> first | exact h | exact phase_inv h _
  | store r => simp only [step]; split <;> first | exact h | exact phase_inv h _
  | restore r => simp only [step]; split <;> first | exact h | exact phase_inv h _
  | reconnect e r => exact reconnect_inv h e r
  | exit e => exact exit_inv h e
  | abort => simp only [step]; split <;> first | exact h | exact phase_inv h _
  | delete e c =>
    simp only [step]; split
    · exact h
    · exact h.delete e c ended_left (fun d x _ => ended_pat d x)
  | destroy e => exact destroy_inv h e

theorem run_inv (ops : List Op) : ∀ {s}, Inv Ended s → Inv Ended (run s ops) := by
  induction ops with
  | nil => intro s h; exact h
  | cons o l ih => intro s h; exact ih (step_inv h o)

/-! ### Careful programs -/

theorem walk_all {f} {Q : LState → Prop}
    (hf : ∀ c st w, w.res = .ok → (f c st w).2.res = .ok ∧ Q (f c st w).1) (F : Forest) :
    ∀ w, w.res = .ok → (walk f F w).2.res = .ok ∧ ∀ p ∈ (walk f F w).1.flat, Q p.2 := by
  induction F with
  | nil => intro w h; exact ⟨h, fun p hp => by cases hp⟩
  | cons c st kids rest ihk ihr =>
    intro w h
    unfold walk
    rw [if_neg (fun hh => hh h)]
    obtain ⟨h1, q1⟩ := hf c st w h
    obtain ⟨h2, q2⟩ := ihk _ h1
    obtain ⟨h3, q3⟩ := ihr _ h2
    refine ⟨h3, fun p hp => ?_⟩
    rcases List.mem_cons.1 hp with hp | hp
    · rw [hp]; exact q1
    · rcases List.mem_append.1 hp with hp | hp
      · exact q2 p hp
      · exact q3 p hp

theorem below_all {f}
    (hf : ∀ c st w, w.res = .ok → (f c st w).2.res = .ok) (r : Nat) (F : Forest) :
    ∀ w, w.res = .ok → (walkBelow f r F w).2.res = .ok := by
  induction F with
  | nil => intro w h; exact h
  | cons c st kids rest ihk ihr =>
    intro w h
    unfold walkBelow
    split
    · exact (walk_all (Q := fun _ => True) (fun c st w h => ⟨hf c st w h, trivial⟩) kids w h).1
    · exact ihr _ (ihk _ h)

theorem all_all {f} {Q : LState → Prop}
    (hf : ∀ c st w, w.res = .ok → (f c st w).2.res = .ok ∧ Q (f c st w).1) (s : St) :
    (s.all f).2 = .ok ∧ ∀ p ∈ (s.all f).1.comps, Q p.2 := by
  obtain ⟨h1, q1⟩ := walk_all hf s.svcs ⟨s.off, s.tr, .ok⟩ rfl
  obtain ⟨h2, q2⟩ := walk_all hf s.models _ h1
  refine ⟨h2, fun p hp => ?_⟩
  rcases List.mem_append.1 hp with hp | hp
  · exact q1 p hp
  · exact q2 p hp

theorem connect_ok (e : Env)
    (he : ∀ c, (e c).pub = false ∧ (e c).conf = false ∧ (e c).con = false) (c st w)
    (h : w.res = .ok) : (visitConnect e c st w).2.res = .ok := by
  obtain ⟨h1, h2, h3⟩ := he c
  unfold visitConnect visitConfigure visitPublish
  rw [h1, h2, h3]
  cases st <;> simp [h]

theorem exit_ok (e : Env) (he : ∀ c, Mild (e c)) (c st w)
    (h : w.res = .ok) : (visitExit e c st w).2.res = .ok ∧ (visitExit e c st w).1 ≠ .connected := by
  have hr : (visitExit e c st w).2.res = .ok := by
    unfold visitExit
    split
    · have := calls_mild c (e c).calls { w with tr := w.tr ++ [.leaving c] }
        (fun x hx hh => by rw [(he c).2 x hx] at hh; cases hh)
      unfold leave
      dsimp only at *
      rw [this, h, if_neg (by simp), (he c).1]
      simp [this, h]
    · exact h
  refine ⟨hr, ?_⟩
  rw [visitExit_ok e c st w hr]
  split
  · exact fun h => by cases h
  · assumption

/-- What holds of a simulator that is used with care. -/
structure Safe (s : St) : Prop where
  inv : Inv EndedWell s
  phase : s.phase = .building ∨ s.phase = .standby ∨ s.phase = .executing ∨ s.phase = .exiting ∨
    s.phase = .destroyed
  idle : s.phase = .building ∨ s.phase = .exiting ∨ s.phase = .destroyed →
    ∀ p ∈ s.comps, p.2 ≠ .connected
  empty : s.phase = .destroyed → s.comps = []

theorem Safe.init : Safe St.init :=
  ⟨init_inv _, .inl rfl, fun _ p hp => (by cases hp), fun h => by cases h⟩

theorem all_phase (f) (s : St) : (s.all f).1.phase = s.phase := rfl

theorem publish_idle (e : Env) (c st w) (h : st ≠ .connected) :
    (visitPublish e c st w).1 ≠ .connected := by
  unfold visitPublish; split
  · exact fun h => by cases h
  · exact h

theorem configure_idle (e : Env) (c st w) (h : st ≠ .connected) :
    (visitConfigure e c st w).1 ≠ .connected := by
  unfold visitConfigure; dsimp only; split
  · exact fun h => by cases h
  · exact publish_idle e c st w h

theorem walk_idle {f} (hf : ∀ c st w, st ≠ .connected → (f c st w).1 ≠ .connected) (F : Forest) :
    ∀ w, (∀ p ∈ F.flat, p.2 ≠ .connected) → ∀ p ∈ (walk f F w).1.flat, p.2 ≠ .connected := by
  induction F with
  | nil => intro w h; exact h
  | cons c st kids rest ihk ihr =>
    intro w h
    unfold walk
    split
    · exact h
    · intro p hp
      rcases List.mem_cons.1 hp with hp | hp
      · rw [hp]; exact hf _ _ _ (h (c, st) List.mem_cons_self)
      · rcases List.mem_append.1 hp with hp | hp
        · exact ihk _ (fun q hq => h q (List.mem_cons_of_mem _ (List.mem_append_left _ hq))) p hp
        · exact ihr _ (fun q hq => h q (List.mem_cons_of_mem _ (List.mem_append_right _ hq))) p hp

theorem all_idle {f} (hf : ∀ c st w, st ≠ .connected → (f c st w).1 ≠ .connected) (s : St)
    (h : ∀ p ∈ s.comps, p.2 ≠ .connected) : ∀ p ∈ (s.all f).1.comps, p.2 ≠ .connected := by
  intro p hp
  rcases List.mem_append.1 hp with hp | hp
  · exact walk_idle hf s.svcs _ (fun q hq => h q (List.mem_append_left _ hq)) p hp
  · exact walk_idle hf s.models _ (fun q hq => h q (List.mem_append_right _ hq)) p hp

/-- A component is added. -/
theorem Safe.add {s t : St} {c : Nat} (h : Safe s) (hi : Inv EndedWell t) (hp : t.phase = s.phase)
    (hd : s.phase ≠ .destroyed) (hc : t.comps.Perm ((c, .created) :: s.comps)) : Safe t := by
  refine ⟨hi, hp ▸ h.phase, fun hh p hpp => ?_, fun hh => absurd (hp ▸ hh) hd⟩
  rcases List.mem_cons.1 (hc.mem_iff.1 hpp) with h1 | h1
  · rw [h1]; exact fun h => by cases h
  · exact h.idle (hp ▸ hh) p h1

theorem Safe.exit {s : St} (h : Safe s) (e : Env) (he : ∀ c, Mild (e c)) :
    Safe (s.exit e).1 ∧ (s.exit e).2 = .ok ∧ (s.phase = .standby → (s.exit e).1.phase = .exiting) ∧
      (s.phase ≠ .standby → (s.exit e).1 = s) := by
  have hi := exit_inv h.inv e
  unfold St.exit at *
  by_cases hp : s.phase = .standby
  · obtain ⟨h1, h2⟩ := all_all (Q := (· ≠ .connected)) (exit_ok e he)
      ({ s with phase := .exiting } : St)
    rw [if_neg (fun hh => hh hp)] at hi ⊢
    dsimp only at *
    rw [h1] at hi ⊢
    rw [if_neg (by simp)] at hi ⊢
    exact ⟨⟨hi, .inr (.inr (.inr (.inl rfl))), fun _ => h2, fun hh => by cases hh⟩, rfl,
      fun _ => rfl, fun hh => absurd hp hh⟩
  · rw [if_pos hp]
    exact ⟨h, rfl, fun hh => absurd hh hp, fun _ => rfl⟩

theorem Safe.clear {s : St} (h : Safe s) (hi : ∀ p ∈ s.comps, p.2 ≠ .connected) :
    Safe s.clear :=
  ⟨h.inv.clear (fun c x hx => endedWell_pat c x (hi (c, x) hx)),
    .inr (.inr (.inr (.inr rfl))), fun _ p hp => (by cases hp), fun _ => rfl⟩

theorem Safe.phased {s : St} (h : Safe s) (hs : s.phase = .standby ∨ s.phase = .executing)
    (p : Phase) (hp : p = .standby ∨ p = .executing) : Safe { s with phase := p } := by
  refine ⟨phase_inv h.inv p, ?_, ?_, ?_⟩
  · rcases hp with rfl | rfl <;> simp
  · rcases hp with rfl | rfl <;> simp
  · rcases hp with rfl | rfl <;> simp

theorem Safe.destroy {s : St} (h : Safe s) (e : Env) (he : ∀ c, Mild (e c)) :
    Safe (s.destroy e) ∧ (s.destroy e).phase = .destroyed := by
  unfold St.destroy
  by_cases h0 : s.phase = .destroyed ∨ s.phase = .crashed
  · rw [if_pos h0]
    refine ⟨h, ?_⟩
    rcases h0 with h0 | h0
    · exact h0
    · have := h.phase; rw [h0] at this; simp at this
  · rw [if_neg h0]
    have h1 : Safe (if s.phase = .executing then { s with phase := .standby } else s) ∧
        (if s.phase = .executing then { s with phase := .standby } else s).phase ≠ .executing := by
      by_cases hx : s.phase = .executing
      · rw [if_pos hx]
        exact ⟨h.phased (.inr hx) .standby (.inl rfl), by simp⟩
      · rw [if_neg hx]; exact ⟨h, hx⟩
    dsimp only
    generalize (if s.phase = .executing then { s with phase := .standby } else s) = t at h1
    obtain ⟨ht, hne⟩ := h1
    obtain ⟨h2, h3, h4, h5⟩ := ht.exit e he
    have hq : ∀ p ∈ (t.exit e).1.comps, p.2 ≠ .connected := by
      apply h2.idle
      by_cases hs : t.phase = .standby
      · exact .inr (.inl (h4 hs))
      · rw [h5 hs]
        rcases ht.phase with hh | hh | hh | hh | hh
        · exact .inl hh
        · exact absurd hh hs
        · exact absurd hh hne
        · exact .inr (.inl hh)
        · exact .inr (.inr hh)
    generalize t.exit e = q at *
    obtain ⟨u, r⟩ := q
    dsimp only at h3 h2 hq
    subst h3
    exact ⟨h2.clear hq, rfl⟩

theorem Safe.delete {s : St} (h : Safe s) (hd : s.phase ≠ .destroyed) (e : Env) (c : Nat)
    (hc : ∀ x ∈ (e c).calls, x.2.follows = true → x.1 ∉ s.off)
    (hu : ∀ d st, s.Under c d st → st ≠ .connected) : Safe (s.delete e c) := by
  have hi := h.inv.delete e c (endedWell_left) (fun d x hx => endedWell_pat d x (hu d x hx))
  rcases delete_cases s e c with ⟨h1, -⟩ | ⟨st, kids, svcs, models, pre, post, h1, h2, h3, h4⟩
  · rw [h1]; exact h
  have hnc : (visitExit e c st ⟨s.off, s.tr, .ok⟩).2.res ≠ .crash := by
    unfold visitExit
    split
    · unfold leave
      have := calls_mild c (e c).calls ⟨s.off, s.tr ++ [.leaving c], .ok⟩ hc
      dsimp only at *
      rw [this, if_neg (by simp)]
      split
      · simp
      · simp [this]
    · simp
  rw [h4] at hi ⊢
  generalize visitExit e c st ⟨s.off, s.tr, .ok⟩ = q at *
  obtain ⟨st', w⟩ := q
  dsimp only at *
  cases hw : w.res with
  | ok =>
    rw [hw] at hi
    refine ⟨hi, h.phase, fun hh p hp => ?_, fun hh => absurd hh hd⟩
    refine h.idle hh p ?_
    have hp' : p ∈ pre ++ post := by rw [← h2]; exact hp
    rw [h1]
    rcases List.mem_append.1 hp' with h5 | h5
    · exact List.mem_append_left _ h5
    · exact List.mem_append_right _ (List.mem_cons_of_mem _ (List.mem_append_right _ h5))
  | raised =>
    rw [hw] at hi
    exact ⟨hi, h.phase, fun hh p hp => h.idle hh p hp, fun hh => absurd hh hd⟩
  | crash => exact absurd hw hnc

theorem Safe.step {s : St} (h : Safe s) {op : Op} (hc : Careful s op) :
    Safe (Matched.step s op) := by
  cases op with
  | addService c =>
    have hi := addService_inv h.inv c
    simp only [Matched.step] at hi ⊢
    by_cases hh : (s.phase = .building ∨ s.phase = .connecting ∨ s.phase = .standby) ∧ c ∉ s.seen
    · rw [if_pos hh] at hi ⊢
      refine h.add (c := c) hi rfl (by rcases hh.1 with h1 | h1 | h1 <;> simp [h1]) ?_
      show (((s.svcs.push c).flat) ++ s.models.flat).Perm _
      rw [push_flat, List.append_assoc]
      exact List.perm_middle
    · rw [if_neg hh]; exact h
  | addModel c =>
    have hi := addModel_inv h.inv c
    simp only [Matched.step] at hi ⊢
    by_cases hh : (s.phase = .building ∨ s.phase = .connecting ∨ s.phase = .standby) ∧ c ∉ s.seen
    · rw [if_pos hh] at hi ⊢
      refine h.add (c := c) hi rfl (by rcases hh.1 with h1 | h1 | h1 <;> simp [h1]) ?_
      show (s.svcs.flat ++ (s.models.push c).flat).Perm _
      rw [push_flat, ← List.append_assoc]
      exact List.perm_append_singleton _ _
    · rw [if_neg hh]; exact h
  | addIn p c =>
    have hi := addIn_inv h.inv p c
    simp only [Matched.step] at hi ⊢
    by_cases hh : s.phase ≠ .destroyed ∧ s.phase ≠ .crashed ∧ c ∉ s.seen
        ∧ (s.svcs.has p || s.models.has p) = true
    · rw [if_pos hh] at hi ⊢
      exact h.add (c := c) hi rfl hh.1 (addIn_comps h.inv p c hh.2.2.2)
    · rw [if_neg hh]; exact h
  | publish e =>
    simp only [Matched.step]
    by_cases hh : s.phase = .building
    · rw [if_neg (fun hn => hn hh)]
      exact ⟨all_inv h.inv (publish_fine e), h.phase,
        fun _ => all_idle (publish_idle e) s (h.idle (.inl hh)),
        fun hd => by rw [all_phase, hh] at hd; cases hd⟩
    · rw [if_pos hh]; exact h
  | configure e =>
    simp only [Matched.step]
    by_cases hh : s.phase = .building
    · rw [if_neg (fun hn => hn hh)]
      exact ⟨all_inv h.inv (configure_fine e), h.phase,
        fun _ => all_idle (configure_idle e) s (h.idle (.inl hh)),
        fun hd => by rw [all_phase, hh] at hd; cases hd⟩
    · rw [if_pos hh]; exact h
  | connect e r =>
    obtain ⟨he, rfl⟩ := hc
    have hi := connect_inv h.inv e false
    show Safe (s.connect e false)
    unfold St.connect at *
    by_cases hh : s.phase = .building
    · rw [if_neg (fun hn => hn hh)] at hi ⊢
      obtain ⟨h1, -⟩ := all_all (Q := fun _ => True)
        (fun c st w hw => ⟨connect_ok e he c st w hw, trivial⟩)
        ({ s with phase := .connecting } : St)
      generalize ({ s with phase := .connecting } : St).all (visitConnect e) = q at *
      obtain ⟨t, x⟩ := q
      dsimp only at h1
      subst h1
      dsimp only at hi ⊢
      exact ⟨hi, .inr (.inl rfl), fun hd => by simp at hd, fun hd => by simp at hd⟩
    · rw [if_pos hh]; exact h
  | initialise r =>
    have hc : r = false := hc
    subst hc
    simp only [Matched.step]
    split
    · exact h
    · rename_i hh
      exact h.phased (.inl (Decidable.not_not.1 hh)) _ (.inl rfl)
  | run =>
    simp only [Matched.step]
    split
    · exact h
    · rename_i hh
      exact h.phased (.inl (Decidable.not_not.1 hh)) _ (.inr rfl)
  | hold =>
    simp only [Matched.step]
    split
    · exact h
    · rename_i hh
      exact h.phased (.inr (Decidable.not_not.1 hh)) _ (.inl rfl)
  | store r =>
    have hc : r = false := hc
    subst hc
    simp only [Matched.step]
    split
    · exact h
    · rename_i hh
      exact h.phased (.inl (Decidable.not_not.1 hh)) _ (.inl rfl)
  | restore r =>
    have hc : r = false := hc
    subst hc
    simp only [Matched.step]
    split
    · exact h
    · rename_i hh
      exact h.phased (.inl (Decidable.not_not.1 hh)) _ (.inl rfl)
  | reconnect e r =>
    have hc : ∀ c, (e c).pub = false ∧ (e c).conf = false ∧ (e c).con = false := hc
    have hi := reconnect_inv h.inv e r
    simp only [Matched.step] at hi ⊢
    by_cases hh : s.phase = .standby
    · rw [if_neg (fun hn => hn hh)] at hi ⊢
      have h1 := below_all (connect_ok e hc) r s.svcs ⟨s.off, s.tr, .ok⟩ rfl
      have h2 := below_all (connect_ok e hc) r s.models _ h1
      rw [if_pos h2] at hi ⊢
      exact ⟨hi, .inr (.inl rfl), fun hd => by simp at hd, fun hd => by simp at hd⟩
    · rw [if_pos hh]; exact h
  | exit e => exact (h.exit e hc).1
  | abort => exact absurd hc (fun hh => hh)
  | delete e c =>
    obtain ⟨h1, h2⟩ := hc
    simp only [Matched.step]
    split
    · exact h
    · rename_i hh
      exact h.delete (fun hd => hh (.inl hd)) e c h1 h2
  | destroy e => exact (h.destroy e hc).1

theorem Reach.safe {s : St} (h : Reach s) : Safe s := by
  induction h with
  | init => exact Safe.init
  | step _ hc ih => exact ih.step hc

end Verif.Sim.Matched
