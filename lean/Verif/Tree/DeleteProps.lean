import Verif.Tree.DeleteLemmas

/-! Property C123: deleting a component is safe and complete when the hooks of the components change
the container again. -/
namespace Verif.Tree.Reent
open scoped List

/-- A container no call is running on: its components, in the order in which they came, are neither
destroyed nor being destroyed; numbers of new components have not been used. -/
structure Ready (e : Env) (s : St) : Prop where
  asc : s.vec.Pairwise (· < ·)
  below : ∀ x ∈ s.vec, x < s.next
  live : ∀ x ∈ s.vec, x ∉ s.gone ∧ x ∉ s.dying
  used : (∀ x ∈ s.gone, x < s.next) ∧ ∀ x ∈ s.dying, x < s.next
  once : s.gone.Nodup
  idle : s.its = []
  size : s.vec.length ≤ e.upper

/-- Hooks delete only components that were added after their own, and they add components only if the
vector never has to grow. -/
structure Careful (e : Env) (s : St) : Prop where
  later : ∀ k c t x a, .del x a ∈ e.hook k c t → c < x
  room : ∀ k c t r a, .add r a ∈ e.hook k c t → e.upper ≤ s.cap

/-- A component that some hook deletes. -/
def Asked (e : Env) (x : Nat) : Prop := ∃ k c t a, .del x a ∈ e.hook k c t

theorem Ready.good {e s} (h : Ready e s) : Good e s.cap s [] :=
  ⟨h.asc, h.below, fun x hx => (h.live x hx).1, h.idle, nofun, List.Pairwise.nil,
    fun x hx hv => absurd hx (h.live x hv).2, h.used.2, h.used.1, h.once, rfl, h.size⟩

theorem Good.ready {e cap s} (h : Good e cap s []) : Ready e s :=
  ⟨h.asc, h.below, fun x hx => ⟨h.live x hx, fun hd => nomatch h.dying x hd hx⟩,
    ⟨h.goneLt, h.dyingLt⟩, h.nodup, h.its, h.size⟩

theorem Careful.hooks {e s} (h : Careful e s) {D : Nat → Prop} (hD : ∀ x, Asked e x → D x) :
    Hooks e s.cap D :=
  ⟨h.later, h.room, fun k c t x a hx => hD x ⟨k, c, t, a, hx⟩⟩

theorem Ready.pushed {e s} (h : Ready e s) (hsz : s.vec.length < e.upper) :
    Ready e { s.push s.next with next := s.next + 1 } := by
  have hv : (s.push s.next).vec = s.vec ++ [s.next] := by unfold St.push; split <;> rfl
  have hg : (s.push s.next).gone = s.gone := by unfold St.push; split <;> rfl
  have hd : (s.push s.next).dying = s.dying := by unfold St.push; split <;> rfl
  have hi : (s.push s.next).its = [] := by unfold St.push; split <;> simp [h.idle]
  -- as if there had been room
  have k := (Good.pushed (D := fun _ => True) (cs := []) (cap := e.upper) (s := { s with cap := e.upper })
    ⟨h.asc, h.below, fun x hx => (h.live x hx).1, h.idle, nofun, List.Pairwise.nil,
      fun x hx hv => absurd hx (h.live x hv).2, h.used.2, h.used.1, h.once, rfl, h.size⟩
    (Nat.le_refl _) hsz).1.ready
  have hp : ({ s with cap := e.upper } : St).push s.next =
      { s with cap := e.upper, vec := s.vec ++ [s.next] } := by
    unfold St.push
    rw [if_pos hsz]
  rw [hp] at k
  exact ⟨by rw [hv]; exact k.asc, by rw [hv]; exact k.below, by rw [hv, hg, hd]; exact k.live,
    by rw [hg, hd]; exact k.used, by rw [hg]; exact k.once, hi, by rw [hv]; exact k.size⟩

/-- The container of the examples: three components, of which the first two are connected; the hook
of 1 deletes 2 and adds a component, that of 2 tries to delete 3. -/
def demo : Env where
  lower := 1
  upper := 4
  hook
    | .disconnect, 1, _ => [.del 2 false, .add false false]
    | .destroy, 2, _ => [.del 3 true]
    | _, _, _ => []

/-- The state of the examples. -/
def demoSt : St := ⟨[1, 2, 3], 4, [], fun x => decide (x ≤ 2), [], [], 4⟩

theorem demo_ready : Ready demo demoSt :=
  ⟨by decide, by decide, by decide, by decide, by decide, rfl, by decide⟩

theorem demo_careful : Careful demo demoSt := by
  constructor
  · intro k c t x a h
    unfold demo at h
    dsimp only at h
    split at h
    · simp at h; omega
    · simp at h; omega
    · cases h
  · intro k c t r a h
    decide

/-- C123 (partial), safety: whatever components are added and deleted from outside, one after the
other, and whatever the hooks do within these calls, provided that they delete only components that
were added after their own and add only within the capacity of the vector, nothing undefined happens:
no invalidated iterator is used, no destroyed component is called, none is destroyed twice.
Missing: other hooks, which `C123_earlier_fails`, `C123_self_fails` and `C123_grow_fails` refute. -/
theorem C123_safe_partial (e : Env) (s : St) (h : Ready e s) (hc : Careful e s) (f : Nat)
    (os : List Op) : (run e f os s).2 ≠ .undefined := by
  induction f generalizing os s with
  | zero => rw [run]; exact nofun
  | succ f ih =>
    cases os with
    | nil => rw [run]; exact nofun
    | cons o os =>
      have key : ∀ r : St × Res, r.2 ≠ .undefined →
          (r.2 = .ok ∨ r.2 = .thrown → Ready e r.1 ∧ Careful e r.1) →
          (match r with
            | (s, .ok) => run e f os s
            | (s, .thrown) => if o.caught then run e f os s else (s, .thrown)
            | r => r).2 ≠ .undefined := by
        intro r hn hr
        obtain ⟨t, r⟩ := r
        cases r with
        | ok => exact ih t (hr (.inl rfl)).1 (hr (.inl rfl)).2 os
        | thrown =>
          dsimp only
          split
          · exact ih t (hr (.inr rfl)).1 (hr (.inr rfl)).2 os
          · exact nofun
        | undefined => exact absurd rfl hn
        | terminated => exact nofun
        | deep => exact nofun
      cases o with
      | add r a =>
        rw [run]
        refine key (add e r s) ?_ ?_
        · unfold add
          rw [h.good.notDangling]
          rw [if_neg (show ¬ (false = true) by decide)]
          repeat' split
          all_goals exact nofun
        · intro _
          unfold add
          rw [h.good.notDangling]
          have hs := h.good.skipped (D := fun _ => True)
          by_cases h1 : e.upper ≤ s.vec.length
          · rw [if_pos h1]
            exact ⟨hs.1.ready, hc.later, hc.room⟩
          · rw [if_neg h1, if_neg (by decide)]
            cases r
            · rw [if_neg (by decide)]
              by_cases h2 : e.upper ≤ s.cap
              · have hg := h.good.pushed (D := fun _ => True) h2 (by omega)
                exact ⟨hg.1.ready, hc.later, fun k c t r a hx => by
                  have := hg.1.cap
                  rw [this]; exact h2⟩
              · exact ⟨h.pushed (by omega), hc.later, fun k c t r a hx =>
                  absurd (hc.room k c t r a hx) h2⟩
            · exact ⟨hs.1.ready, hc.later, hc.room⟩
      | del x a =>
        rw [run]
        have hf := (spec (hc.hooks (D := fun _ => True) fun _ _ => trivial) f).1 x s [] h.good nofun
          trivial
        refine key _ hf.1.1 fun hr => ?_
        have hg := (hf.1.2 hr).1
        exact ⟨hg.ready, hc.later, fun k c t r a hx => by
          rw [hg.cap]; exact hc.room k c t r a hx⟩

/-- The demonstration: deleting 1 deletes 2 before it and adds component 4; the deletion of 3 is
asked for by 2. -/
example : (del demo 20 1 demoSt).2 = .ok ∧ (del demo 20 1 demoSt).1.vec = [4] ∧
    (del demo 20 1 demoSt).1.gone = [3, 2, 1] := by decide +kernel

/-- C123 (partial), what is deleted: when `DeleteComponent` of a contained component returns, the
component has been destroyed; the components destroyed by the call are it and ones that hooks deleted,
each destroyed once in the whole history; the container holds exactly the others, in their order,
followed by components that hooks added; those that stay are as connected as before; and the
container can be used again.
Missing: hooks that delete earlier components or grow the vector. -/
theorem C123_deleted_partial (e : Env) (s s' : St) (h : Ready e s) (hc : Careful e s) (f c : Nat)
    (hm : c ∈ s.vec) (hr : del e f c s = (s', .ok)) :
    c ∈ s'.gone ∧ s.gone <+: s'.gone ∧ s'.gone.Nodup ∧
    (∀ x ∈ s'.gone, x ∈ s.gone ∨ x = c ∨ Asked e x) ∧
    (∃ new, s'.vec = s.vec.filter (fun x => decide (x ∉ s'.gone)) ++ new ∧
      ∀ x ∈ new, s.next ≤ x ∧ x < s'.next ∧ x ∉ s'.gone) ∧
    (∀ x, x ∉ s'.gone → s'.conn x = s.conn x) ∧ Ready e s' := by
  have hf := (spec (hc.hooks (D := fun x => x = c ∨ Asked e x) fun _ h => .inr h) f).1 c s [] h.good
    nofun (.inl rfl)
  rw [hr] at hf
  obtain ⟨g, d⟩ := hf.1.2 (.inl rfl)
  refine ⟨(hf.2.1 rfl).2 hm, d.pre, g.nodup, fun x hx => ?_, ?_, d.conn, g.ready⟩
  · by_cases hg : x ∈ s.gone
    · exact .inl hg
    · exact .inr (d.named x hx hg)
  · obtain ⟨n, hn, hl⟩ := d.vec
    dsimp only at hn
    refine ⟨n, hn, fun x hx => ?_⟩
    have hv : x ∈ s'.vec := by rw [hn]; exact List.mem_append_right _ hx
    exact ⟨hl x hx, g.below x hv, g.live x hv⟩

example : (del demo 20 1 demoSt).2 = .ok ∧ 1 ∈ demoSt.vec := by decide +kernel

/-- C123 (partial), a refused deletion: when `DeleteComponent` is left by an exception, the component
is still in the container and has not been destroyed; what hooks did before is done completely.
Missing: as above. -/
theorem C123_refused_partial (e : Env) (s s' : St) (h : Ready e s) (hc : Careful e s) (f c : Nat)
    (hr : del e f c s = (s', .thrown)) :
    c ∈ s'.vec ∧ c ∉ s'.gone ∧ s'.conn c = s.conn c ∧
    (∀ x ∈ s'.gone, x ∈ s.gone ∨ Asked e x) ∧
    (∃ new, s'.vec = s.vec.filter (fun x => decide (x ∉ s'.gone)) ++ new ∧
      ∀ x ∈ new, s.next ≤ x) ∧ Ready e s' := by
  have hf := (spec (hc.hooks (D := fun x => x = c ∨ Asked e x) fun _ h => .inr h) f).1 c s [] h.good
    nofun (.inl rfl)
  rw [hr] at hf
  obtain ⟨g, d⟩ := hf.1.2 (.inr rfl)
  have hv : c ∈ s'.vec := (hf.2.2 rfl).2
  have hg : c ∉ s'.gone := g.live c hv
  refine ⟨hv, hg, d.conn c hg, fun x hx => ?_, d.vec, g.ready⟩
  by_cases hx' : x ∈ s.gone
  · exact .inl hx'
  · rcases d.named x hx hx' with rfl | h
    · exact absurd hx hg
    · exact .inr h

/-- The exception of a hook, here `ContainerFull`, leaves `DeleteComponent`. -/
def fullEnv : Env where
  lower := 0
  upper := 2
  hook
    | .disconnect, 1, _ => [.add false false]
    | _, _, _ => []

example : (del fullEnv 20 1 ⟨[1, 2], 2, [], fun _ => true, [], [], 3⟩).2 = .thrown ∧
    (del fullEnv 20 1 ⟨[1, 2], 2, [], fun _ => true, [], [], 3⟩).1.vec = [1, 2] := by decide +kernel

/-- C123, hooks that leave the container alone: `DeleteComponent` of a contained component succeeds
exactly when more than `lower` components are there, and then removes it and nothing else. -/
theorem C123_alone (e : Env) (hq : ∀ k c t, e.hook k c t = []) (s : St) (h : Ready e s) (c : Nat)
    (hm : c ∈ s.vec) (f : Nat) (hf : 3 ≤ f) :
    ((del e f c s).2 = .ok ↔ e.lower < s.vec.length) ∧
    ((del e f c s).2 = .ok → (del e f c s).1.vec = s.vec.erase c ∧
      (del e f c s).1.gone = s.gone ++ [c]) ∧
    ((del e f c s).2 ≠ .ok → (del e f c s) = (s, .thrown)) := by
  obtain ⟨f, rfl⟩ : ∃ g, f = g + 3 := ⟨f - 3, by omega⟩
  rw [del, if_neg (by rw [h.good.notDangling]; decide), if_pos hm]
  by_cases hl : s.vec.length ≤ e.lower
  · rw [if_pos hl]
    exact ⟨⟨nofun, fun h => absurd h (by omega)⟩, nofun, fun _ => rfl⟩
  · rw [if_neg hl]
    have hd : c ∉ s.dying := (h.live c hm).2
    have hg : c ∉ s.gone := (h.live c hm).1
    have hlt : e.lower < s.vec.length := by omega
    rw [disconnect]
    have hrun : ∀ t, run e (f + 1) [] t = (t, .ok) := fun t => by rw [run]
    cases hcc : s.conn c
    · rw [if_neg (by decide)]
      dsimp only
      rw [destroy, if_neg hd, hq, hrun]
      dsimp only
      exact ⟨⟨fun _ => hlt, fun _ => rfl⟩, fun _ => ⟨eraseIdx_idxOf .., rfl⟩, fun h => absurd rfl h⟩
    · rw [if_pos rfl, hq, hrun]
      dsimp only
      rw [if_neg hg, if_pos hcc]
      dsimp only
      rw [destroy, if_neg hd, hq, hrun]
      dsimp only
      exact ⟨⟨fun _ => hlt, fun _ => rfl⟩, fun _ => ⟨eraseIdx_idxOf .., rfl⟩, fun h => absurd rfl h⟩

example : (del ⟨1, 4, fun _ _ _ => []⟩ 3 2 demoSt).1.vec = [1, 3] ∧
    (del ⟨3, 4, fun _ _ _ => []⟩ 3 2 demoSt).2 = .thrown := by decide +kernel

/-- C123 (partial), the lower limit: when hooks delete nothing, `DeleteComponent` leaves at least
`lower` components. Missing: hooks that delete, which `C123_lower_fails` refutes. -/
theorem C123_lower_partial (e : Env) (s s' : St) (h : Ready e s) (hc : Careful e s)
    (hn : ∀ x, ¬ Asked e x) (hl : e.lower ≤ s.vec.length) (f c : Nat)
    (hr : del e f c s = (s', .ok) ∨ del e f c s = (s', .thrown)) : e.lower ≤ s'.vec.length := by
  have hf := (spec (hc.hooks (D := fun x => x = c) fun _ h => absurd h (hn _)) f).1 c s [] h.good
    nofun rfl
  have hd : Did (fun x => x = c) s s' := by
    rcases hr with hr | hr <;> rw [hr] at hf
    · exact (hf.1.2 (.inl rfl)).2
    · exact (hf.1.2 (.inr rfl)).2
  obtain ⟨n, hv, _⟩ := hd.vec
  rw [hv, List.length_append]
  by_cases hg : c ∈ s.vec ∧ c ∈ s'.gone
  · -- at most `c` is missing
    have hlt : e.lower < s.vec.length := by
      refine Nat.lt_of_not_le fun hle => ?_
      cases f with
      | zero => rw [del] at hr; rcases hr with hr | hr <;> cases hr
      | succ f =>
        rw [del, if_neg (by rw [h.good.notDangling]; decide), if_pos hg.1, if_pos hle] at hr
        rcases hr with hr | hr <;> cases hr
        exact (h.live c hg.1).1 hg.2
    have he : (s.vec.filter fun x => decide (x ∉ s'.gone)) = s.vec.erase c := by
      rw [erase_filter h.asc]
      apply List.filter_congr
      intro x hx
      have : x ∉ s'.gone ↔ x ≠ c := by
        constructor
        · rintro h1 rfl
          exact h1 hg.2
        · intro h1 h2
          exact h1 (hd.named x h2 (h.live x hx).1)
      exact decide_eq_decide.2 this
    rw [he, List.length_erase_of_mem hg.1]
    omega
  · have : s.vec.filter (fun x => decide (x ∉ s'.gone)) = s.vec := by
      apply List.filter_eq_self.2
      intro x hx
      apply decide_eq_true
      intro hx'
      have := hd.named x hx' (h.live x hx).1
      exact hg ⟨this ▸ hx, this ▸ hx'⟩
    rw [this]
    omega

example : (∀ x, ¬ Asked fullEnv x) ∧ Careful fullEnv ⟨[1, 2], 2, [], fun _ => true, [], [], 3⟩ := by
  have hd : ∀ k c t x a, .del x a ∉ fullEnv.hook k c t := by
    intro k c t x a h
    unfold fullEnv at h
    dsimp only at h
    split at h
    · simp at h
    · cases h
  exact ⟨fun x ⟨k, c, t, a, h⟩ => hd k c t x a h,
    ⟨fun k c t x a h => absurd h (hd k c t x a), fun _ _ _ _ _ _ => by decide⟩⟩

/-- No more deletions than components of the container that come later: the hook of the last one
deletes nothing. -/
theorem run_last {e : Env} (s : St) (c : Nat) (hd : s.dangling = false) (hmax : ∀ x ∈ s.vec, x ≤ c)
    (os : List Op) (ho : ∀ o ∈ os, ∃ x a, o = .del x a ∧ c < x) (f : Nat) (hf : os.length + 2 ≤ f) :
    run e f os s = (s, .ok) := by
  induction os generalizing f with
  | nil =>
    obtain ⟨f, rfl⟩ : ∃ g, f = g + 1 := ⟨f - 1, by simp at hf; omega⟩
    rw [run]
  | cons o os ih =>
    obtain ⟨f, rfl⟩ : ∃ g, f = g + 2 := ⟨f - 2, by simp at hf; omega⟩
    obtain ⟨x, a, rfl, hx⟩ := ho o (List.mem_cons_self ..)
    rw [run]
    rw [del, if_neg (by rw [hd]; decide), if_neg (fun h => by have := hmax x h; omega)]
    exact ih (fun o h => ho o (List.mem_cons_of_mem _ h)) (f + 1) (by simp at hf; omega)

/-- C123 (partial), the destructor of a container: when hooks delete only components that were added
after their own, and add none, all components are destroyed once each, the last one first, and the
destructor ends (for any depth from some depth on). Missing: hooks that add, which
`C123_clear_fails` refutes. -/
theorem C123_clear_partial (e : Env) (hlater : ∀ k c t o, o ∈ e.hook k c t → ∃ x a, o = .del x a ∧ c < x)
    (s : St) (h : Ready e s) :
    ∃ n, ∀ f, n ≤ f → (clear e f s).2 = .ok ∧ (clear e f s).1.vec = [] ∧
      (clear e f s).1.gone = s.gone ++ s.vec.reverse := by
  generalize hl : s.vec.length = l
  induction l generalizing s with
  | zero =>
    have hv : s.vec = [] := List.length_eq_zero_iff.1 hl
    refine ⟨1, fun f hf => ?_⟩
    obtain ⟨f, rfl⟩ : ∃ g, f = g + 1 := ⟨f - 1, by omega⟩
    rw [clear, hv]
    exact ⟨rfl, hv, by simp⟩
  | succ l ih =>
    obtain ⟨v, c, hv⟩ : ∃ v c, s.vec = v ++ [c] := by
      rcases List.eq_nil_or_concat s.vec with h | ⟨v, c, h⟩
      · rw [h] at hl; cases hl
      · exact ⟨v, c, by rw [h, List.concat_eq_append]⟩
    have hm : c ∈ s.vec := by rw [hv]; exact List.mem_append_right _ (List.mem_singleton.2 rfl)
    have hasc := h.asc
    rw [hv, List.pairwise_append] at hasc
    have hvlt : ∀ x ∈ v, x < c := fun x hx => hasc.2.2 x hx c (List.mem_singleton.2 rfl)
    let t : St := ({ s with dying := c :: s.dying, gone := s.gone ++ [c] } : St).erase (s.vec.length - 1)
    have htv : t.vec = v := by
      show s.vec.eraseIdx (s.vec.length - 1) = v
      rw [hv, List.length_append]
      simp [List.eraseIdx_append_of_length_le]
    have hvm : ∀ x ∈ v, x ∈ s.vec := fun x hx => by rw [hv]; exact List.mem_append_left _ hx
    have ht : Ready e t := by
      refine ⟨by rw [htv]; exact hasc.1, by rw [htv]; exact fun x hx => h.below x (hvm x hx), ?_,
        ⟨?_, ?_⟩, ?_, ?_, ?_⟩
      · rw [htv]
        intro x hx
        have hne : x ≠ c := Nat.ne_of_lt (hvlt x hx)
        refine ⟨fun hg => ?_, fun hg => ?_⟩
        · rcases List.mem_append.1 hg with hg | hg
          · exact (h.live x (hvm x hx)).1 hg
          · exact hne (List.mem_singleton.1 hg)
        · rcases List.mem_cons.1 hg with hg | hg
          · exact hne hg
          · exact (h.live x (hvm x hx)).2 hg
      · intro x hx
        rcases List.mem_append.1 hx with hg | hg
        · exact h.used.1 x hg
        · rw [List.mem_singleton.1 hg]; exact h.below c hm
      · intro x hx
        rcases List.mem_cons.1 hx with rfl | hg
        · exact h.below _ hm
        · exact h.used.2 x hg
      · show (s.gone ++ [c]).Nodup
        rw [List.nodup_append]
        refine ⟨h.once, by simp, ?_⟩
        intro a ha b hb hab
        rw [List.mem_singleton.1 hb] at hab
        subst hab
        exact (h.live _ hm).1 ha
      · show s.its.map _ = []
        rw [h.idle]; rfl
      · rw [htv]
        have := h.size
        rw [hv, List.length_append] at this
        omega
    obtain ⟨n, hn⟩ := ih t ht (by rw [htv]; rw [hv, List.length_append] at hl; simpa using hl)
    let os := e.hook .destroy c { s with dying := c :: s.dying }
    refine ⟨n + os.length + 4, fun f hf => ?_⟩
    obtain ⟨f, rfl⟩ : ∃ g, f = g + 2 := ⟨f - 2, by omega⟩
    have hrun : run e f os { s with dying := c :: s.dying } = ({ s with dying := c :: s.dying }, .ok) := by
      refine run_last { s with dying := c :: s.dying } c
        (show s.dangling = false from h.good.notDangling) ?_ os (hlater .destroy c _) f (by omega)
      intro x hx
      have hx : x ∈ v ++ [c] := by rw [← hv]; exact hx
      rcases List.mem_append.1 hx with hx | hx
      · exact Nat.le_of_lt (hvlt x hx)
      · rw [List.mem_singleton.1 hx]; exact Nat.le_refl _
    have hlast : s.vec.getLast? = some c := by rw [hv]; simp
    have hstep : clear e (f + 2) s = clear e (f + 1) t := by
      rw [clear, hlast]
      dsimp only
      rw [destroy, if_neg (h.live c hm).2, hrun]
      dsimp only
      rw [if_neg (List.ne_nil_of_mem hm)]
    rw [hstep]
    obtain ⟨h1, h2, h3⟩ := hn (f + 1) (by omega)
    refine ⟨h1, h2, ?_⟩
    rw [h3, htv, hv, List.reverse_append]
    show (s.gone ++ [c]) ++ v.reverse = _
    rw [List.append_assoc]
    rfl

/-- The destructors of 1 and 2 want to delete 3, which is gone already. -/
def clearEnv : Env where
  lower := 0
  upper := 9
  hook
    | .destroy, 1, _ => [.del 3 false]
    | .destroy, 2, _ => [.del 3 false]
    | _, _, _ => []

example : (∀ k c t o, o ∈ clearEnv.hook k c t → ∃ x a, o = .del x a ∧ c < x) ∧
    (clear clearEnv 20 ⟨[1, 2, 3], 4, [], fun _ => true, [], [], 4⟩).1.gone = [3, 2, 1] := by
  refine ⟨?_, by decide +kernel⟩
  intro k c t o h
  unfold clearEnv at h
  dsimp only at h
  split at h
  · exact ⟨3, false, List.mem_singleton.1 h, by decide⟩
  · exact ⟨3, false, List.mem_singleton.1 h, by decide⟩
  · cases h

/-- In full: no hooks make `DeleteComponent` undefined. False: the hook of component 2 deletes
component 1, which was there before it; the iterator of the outer call is invalidated and then used
(Container.h:297). With the usual implementation it would remove the next component from the
container without deleting it, and leave the destroyed one in it. -/
theorem C123_earlier_fails : ∃ (e : Env) (s : St), Ready e s ∧
    (∀ k c t x a, .del x a ∈ e.hook k c t → x < c) ∧ (∀ k c t r a, .add r a ∉ e.hook k c t) ∧
    (del e 10 2 s).2 = .undefined := by
  refine ⟨⟨0, 9, fun k c _ => if k = .disconnect ∧ c = 2 then [.del 1 true] else []⟩,
    ⟨[1, 2, 3], 4, [], fun _ => true, [], [], 4⟩,
    ⟨by decide, by decide, by decide, by decide, by decide, rfl, by decide⟩, ?_, ?_, by decide +kernel⟩
  · intro k c t x a h
    dsimp only at h
    split at h
    · simp at h; omega
    · cases h
  · intro k c t r a h
    dsimp only at h
    split at h
    · simp at h
    · cases h

/-- Nor when a destructor adds a component to a vector that is full (Container.h:279): the vector
moves and the iterator of `DeleteComponent` is invalidated. -/
theorem C123_grow_fails : ∃ (e : Env) (s : St), Ready e s ∧
    (∀ k c t x a, .del x a ∉ e.hook k c t) ∧ (del e 10 1 s).2 = .undefined := by
  refine ⟨⟨0, 9, fun k c _ => if k = .destroy ∧ c = 1 then [.add false true] else []⟩,
    ⟨[1, 2], 2, [], fun _ => true, [], [], 3⟩,
    ⟨by decide, by decide, by decide, by decide, by decide, rfl, by decide⟩, ?_, by decide +kernel⟩
  intro k c t x a h
  dsimp only at h
  split at h
  · simp at h
  · cases h

/-- Nor when a destructor asks its container to delete the component that is being destroyed: it is
destroyed a second time. -/
theorem C123_self_fails : ∃ (e : Env) (s : St), Ready e s ∧
    (∀ k c t, e.hook k c t = [] ∨ e.hook k c t = [.del c true]) ∧ (del e 10 1 s).2 = .undefined := by
  refine ⟨⟨0, 9, fun k c _ => if k = .destroy ∧ c = 1 then [.del c true] else []⟩,
    ⟨[1, 2], 2, [], fun _ => true, [], [], 3⟩,
    ⟨by decide, by decide, by decide, by decide, by decide, rfl, by decide⟩, ?_, by decide +kernel⟩
  intro k c t
  dsimp only
  split
  · exact .inr rfl
  · exact .inl rfl

/-- Nor does `DeleteComponent` always end: when `DoDisconnect` of a connected component asks its
container to delete the component, which is still connected, its `DoDisconnect` is called again, and
so on; no depth of nesting is enough. -/
theorem C123_endless_fails (e : Env) (c : Nat)
    (hh : ∀ t, ∃ a os, e.hook .disconnect c t = .del c a :: os) (s : St) (h : Ready e s)
    (hm : c ∈ s.vec) (hcc : s.conn c = true) (hl : e.lower < s.vec.length) (f : Nat) :
    (del e f c s).2 = .deep := by
  have gen : ∀ f (its : List (Option Nat)), (del e f c { s with its := its }).2 = .deep := by
    intro f
    induction f using Nat.strongRecOn with
    | _ f ih =>
      intro its
      match f with
      | 0 => rw [del]
      | f + 1 =>
        rw [del, if_neg (by
          show ¬ (St.dangling { s with its := its } = true)
          rw [show St.dangling { s with its := its } = s.dangling from rfl, h.good.notDangling]
          decide), if_pos hm, if_neg (by show ¬ s.vec.length ≤ e.lower; omega)]
        match f with
        | 0 => rw [disconnect]
        | f + 1 =>
          rw [disconnect, if_pos hcc]
          obtain ⟨a, os, ho⟩ := hh { s with its := some (s.vec.idxOf c) :: its }
          dsimp only at ho ⊢
          rw [ho]
          match f with
          | 0 => rw [run]
          | f + 1 =>
            rw [run]
            have := ih f (by omega) (some (s.vec.idxOf c) :: its)
            revert this
            generalize del e f c { s with its := some (s.vec.idxOf c) :: its } = r
            intro hr
            obtain ⟨t, r⟩ := r
            cases hr
            rfl
  exact gen f s.its

example : ∃ (e : Env) (s : St), Ready e s ∧ 1 ∈ s.vec ∧ s.conn 1 = true ∧ e.lower < s.vec.length ∧
    ∀ t, ∃ a os, e.hook .disconnect 1 t = .del 1 a :: os :=
  ⟨⟨0, 9, fun k c _ => if k = .disconnect then [.del c false] else []⟩,
    ⟨[1, 2], 2, [], fun _ => true, [], [], 3⟩,
    ⟨by decide, by decide, by decide, by decide, by decide, rfl, by decide⟩, by decide, rfl, by decide,
    fun _ => ⟨false, [], rfl⟩⟩

/-- The lower limit is not respected when a hook deletes: both calls of `DeleteComponent` find two
components where at least one has to stay (Container.cpp:190-193), and none is left. -/
theorem C123_lower_fails : ∃ (e : Env) (s : St), Ready e s ∧ Careful e s ∧ e.lower < s.vec.length ∧
    (del e 10 1 s).2 = .ok ∧ (del e 10 1 s).1.vec.length < e.lower := by
  refine ⟨⟨1, 9, fun k c _ => if k = .disconnect ∧ c = 1 then [.del 2 false] else []⟩,
    ⟨[1, 2], 2, [], fun _ => true, [], [], 3⟩,
    ⟨by decide, by decide, by decide, by decide, by decide, rfl, by decide⟩, ⟨?_, ?_⟩, by decide,
    by decide +kernel, by decide +kernel⟩
  · intro k c t x a h
    dsimp only at h
    split at h
    · simp at h; omega
    · cases h
  · intro k c t r a h
    dsimp only at h
    split at h
    · simp at h
    · cases h

/-- The destructor of a container fails when a destructor of a component adds a component to it: the
new one is removed from the vector without being destroyed (Container.h:231), and the one that has
been destroyed is destroyed again. -/
theorem C123_clear_fails : ∃ (e : Env) (s : St), Ready e s ∧ Careful e s ∧
    (∀ k c t x a, .del x a ∉ e.hook k c t) ∧ (clear e 10 s).2 = .undefined := by
  refine ⟨⟨0, 2, fun k c _ => if k = .destroy ∧ c = 1 then [.add false true] else []⟩,
    ⟨[1], 2, [], fun _ => true, [], [], 2⟩,
    ⟨by decide, by decide, by decide, by decide, by decide, rfl, by decide⟩,
    ⟨?_, fun _ _ _ _ _ _ => by decide⟩, ?_, by decide +kernel⟩
  all_goals
    intro k c t x a h
    dsimp only at h
    split at h
    · simp at h
    · cases h

/-- Nor does `DeleteComponent` always return or raise: an exception that leaves the destructor of a
component, here `ContainerFull`, ends the program. -/
theorem C123_terminate_fails : ∃ (e : Env) (s : St), Ready e s ∧ Careful e s ∧
    (del e 10 1 s).2 = .terminated := by
  refine ⟨⟨0, 2, fun k c _ => if k = .destroy ∧ c = 1 then [.add false false] else []⟩,
    ⟨[1, 2], 2, [], fun _ => true, [], [], 3⟩,
    ⟨by decide, by decide, by decide, by decide, by decide, rfl, by decide⟩,
    ⟨?_, fun _ _ _ _ _ _ => by decide⟩, by decide +kernel⟩
  intro k c t x a h
  dsimp only at h
  split at h
  · simp at h
  · cases h

end Verif.Tree.Reent
