import Verif.Tree.Hooks

/-!
Property C105: the hooks of a component's classes, whatever they call.
-/
namespace Verif.Tree.Hooks
open Verif.Tree

/-! ### Specification -/

/-- The changes of state in a log, oldest first. -/
def moves : List Ev → List LCall
  | [] => []
  | .moved c :: l => c :: moves l
  | .ran _ _ _ :: l => moves l

/-- How often the hook of class `l` for the operation has been executed. -/
def runsOf (l : Nat) (c : LCall) : List Ev → Nat
  | [] => 0
  | .moved _ :: es => runsOf l c es
  | .ran l' c' _ :: es => (if l' = l ∧ c' = c then 1 else 0) + runsOf l c es

/-- The states in the order of a life. -/
def rank : LState → Nat
  | .created => 0
  | .publishing => 1
  | .configured => 2
  | .connected => 3
  | .disconnected => 4

/-- The operations in the order of a life. -/
def order : List LCall := [.publish, .configure, .connect, .disconnect]

/-- The classes that declare the hook, from the most basic one on. -/
def declaring (own : Nat → LCall → Bool) (n : Nat) (c : LCall) : List Nat :=
  (List.range n).filter (own · c)

/-! ### Lemmas -/

theorem moves_append (a b : List Ev) : moves (a ++ b) = moves a ++ moves b := by
  induction a with
  | nil => rfl
  | cons e a ih => cases e <;> simp [moves, ih]

theorem runsOf_append (l : Nat) (c : LCall) (a b : List Ev) :
    runsOf l c (a ++ b) = runsOf l c a + runsOf l c b := by
  induction a with
  | nil => simp [runsOf]
  | cons e a ih => cases e <;> simp [runsOf, ih, Nat.add_assoc]

theorem moves_ran (c : LCall) (st : LState) (ls : List Nat) :
    moves (ls.map fun l => .ran l c st) = [] := by
  induction ls with
  | nil => rfl
  | cons l ls ih => exact ih

theorem runsOf_ran (l : Nat) (c c' : LCall) (st : LState) (ls : List Nat) :
    runsOf l c (ls.map fun l => .ran l c' st) = if c = c' then ls.count l else 0 := by
  induction ls with
  | nil => simp [runsOf]
  | cons x ls ih =>
    simp only [List.map_cons, runsOf, ih, List.count_cons]
    by_cases hc : c = c'
    · subst hc; by_cases hx : x = l <;> simp [hx] <;> omega
    · simp only [hc, if_false, Nat.add_zero]
      exact if_neg fun h => hc h.2.symm

/-- The changes lead from one state to the other. -/
inductive Path : LState → List LCall → LState → Prop
  | nil (s) : Path s [] s
  | cons (c cs t) : Path (after c) cs t → Path c.needs (c :: cs) t

theorem Path.append {a b c : LState} {l m : List LCall} (h : Path a l b) (h' : Path b m c) :
    Path a (l ++ m) c := by
  induction h with
  | nil => exact h'
  | cons c cs t _ ih => exact .cons c _ _ (ih h')

theorem Path.rank_le {a b : LState} {l : List LCall} (h : Path a l b) : rank a ≤ rank b := by
  induction h with
  | nil => exact Nat.le_refl _
  | cons c cs t _ ih =>
    refine Nat.le_trans ?_ ih
    cases c <;> decide

/-- From a state, the changes are the next ones of the order of a life. -/
theorem Path.order {a b : LState} {l : List LCall} (h : Path a l b) :
    l = (Hooks.order.drop (rank a)).take (rank b - rank a) := by
  induction h with
  | nil => simp
  | cons c cs t hp ih =>
    have hr := hp.rank_le
    have h1 : rank (after c) = rank c.needs + 1 := by cases c <;> rfl
    rw [h1] at hr ih
    have h2 : Hooks.order.drop (rank c.needs) = c :: Hooks.order.drop (rank c.needs + 1) := by
      cases c <;> rfl
    have h3 : rank t - rank c.needs = (rank t - (rank c.needs + 1)) + 1 := by omega
    rw [h2, h3, List.take_succ_cons, ← ih]

/-- A state in which the operation has been made is never left for one in which it has not. -/
theorem Path.not_mem {a b : LState} {l : List LCall} (h : Path a l b) {c : LCall}
    (hc : rank (after c) ≤ rank a) : c ∉ l := by
  induction h with
  | nil => simp
  | cons d cs t _ ih =>
    have h1 : rank (after d) = rank d.needs + 1 := by cases d <;> rfl
    intro hm
    rcases List.mem_cons.1 hm with rfl | hm
    · omega
    · exact ih (by omega) hm

/-- What holds of everything that happens between two states of a component: `extra` counts the hooks
of an operation in progress. -/
structure Good (own : Nat → LCall → Bool) (n : Nat) (s t : Comp) (c0 : LCall) (ls : List Nat)
    (δ : List Ev) : Prop where
  log : t.log = s.log ++ δ
  path : Path s.state (moves δ) t.state
  count : ∀ l c, c ≠ .disconnect →
    runsOf l c δ ≤ (moves δ).count c * (plan own n c).count l + if c = c0 then ls.count l else 0
  late : ∀ l c st, .ran l c st ∈ δ → c ≠ .disconnect → rank (after c) ≤ rank st

theorem Good.refl (own : Nat → LCall → Bool) (n : Nat) (s : Comp) (c0 : LCall) (ls : List Nat) :
    Good own n s s c0 ls [] :=
  ⟨by simp, .nil _, fun _ _ _ => by simp [runsOf], fun _ _ _ h => nomatch h⟩

theorem Good.weaken {own : Nat → LCall → Bool} {n : Nat} {s t : Comp} {c0 : LCall} {ls : List Nat}
    {δ : List Ev} (h : Good own n s t c0 [] δ) : Good own n s t c0 ls δ :=
  ⟨h.log, h.path, fun l c hc => by
    have := h.count l c hc
    split at this <;> simp at this <;> omega, h.late⟩

theorem Good.other {own : Nat → LCall → Bool} {n : Nat} {s t : Comp} {c0 c1 : LCall}
    {δ : List Ev} (h : Good own n s t c0 [] δ) : Good own n s t c1 [] δ :=
  ⟨h.log, h.path, fun l c hc => by
    have := h.count l c hc
    split at this <;> simp at this <;> simp <;> exact this, h.late⟩

theorem Good.dis {own : Nat → LCall → Bool} {n : Nat} {s t : Comp} {ls : List Nat} {c1 : LCall}
    {δ : List Ev} (h : Good own n s t .disconnect ls δ) : Good own n s t c1 [] δ :=
  ⟨h.log, h.path, fun l c hc => by
    have := h.count l c hc
    rw [if_neg hc] at this
    split <;> simpa using this, h.late⟩

theorem Good.trans {own : Nat → LCall → Bool} {n : Nat} {s t u : Comp} {c0 : LCall}
    {ls ms : List Nat} {δ ε : List Ev} (h : Good own n s t c0 ls δ) (h' : Good own n t u c0 ms ε) :
    Good own n s u c0 (ls ++ ms) (δ ++ ε) where
  log := by rw [h'.log, h.log, List.append_assoc]
  path := by rw [moves_append]; exact h.path.append h'.path
  count := fun l c hc => by
    rw [moves_append, runsOf_append, List.count_append, Nat.add_mul]
    have h1 := h.count l c hc
    have h2 := h'.count l c hc
    by_cases hcc : c = c0
    · rw [if_pos hcc] at h1 h2 ⊢; rw [List.count_append]; omega
    · rw [if_neg hcc] at h1 h2 ⊢; omega
  late := fun l c st hm => by
    rcases List.mem_append.1 hm with hm | hm
    · exact h.late l c st hm
    · exact h'.late l c st hm

/-- One execution of a hook begins. -/
theorem Good.ran (own : Nat → LCall → Bool) (n : Nat) (s : Comp) (c : LCall) (l : Nat)
    (hc : c ≠ .disconnect → rank (after c) ≤ rank s.state) :
    Good own n s ⟨s.state, s.log ++ [.ran l c s.state]⟩ c [l] [.ran l c s.state] where
  log := rfl
  path := .nil _
  count := fun l' c' _ => by
    have := runsOf_ran l' c' c s.state [l]
    simp only [List.map_cons, List.map_nil] at this
    rw [this]; split <;> omega
  late := fun l' c' st hm hc' => by
    simp only [List.mem_singleton, Ev.ran.injEq] at hm
    obtain ⟨rfl, rfl, rfl⟩ := hm
    exact hc hc'

/-- The change of the state pays for all the hooks of the operation. -/
theorem Good.call {own : Nat → LCall → Bool} {n : Nat} {s b t : Comp} {c : LCall}
    {δ : List Ev} (hs : s.state = c.needs) (hb : b = ⟨after c, s.log ++ [.moved c]⟩)
    (h : Good own n b t c (plan own n c) δ) (c1 : LCall) :
    Good own n s t c1 [] (.moved c :: δ) where
  log := by rw [h.log, hb]; simp
  path := by
    rw [hs]
    show Path _ (c :: moves δ) _
    refine .cons c _ _ ?_
    have := h.path
    rw [hb] at this
    exact this
  count := fun l c' hc' => by
    have := h.count l c' hc'
    show runsOf l c' δ ≤ (c :: moves δ).count c' * _ + _
    rw [List.count_cons]
    by_cases hcc : c' = c
    · subst hcc
      rw [if_pos rfl] at this
      simp only [BEq.rfl, if_true, Nat.add_mul, Nat.one_mul]
      omega
    · rw [if_neg hcc] at this
      simp only [beq_iff_eq, Ne.symm hcc, if_false, Nat.add_zero]
      omega
  late := fun l c' st hm => by
    rcases List.mem_cons.1 hm with hm | hm
    · cases hm
    · exact h.late l c' st hm

/-- The base class leaves the component alone, or makes the change. -/
theorem base_cases (s : Comp) (c : LCall) (arg : Bool) :
    ((s.base c arg).2 ≠ .ok ∧ (s.base c arg).1 = s) ∨
    (s.state = c.needs ∧ s.base c arg = (⟨after c, s.log ++ [.moved c]⟩, .ok)) := by
  unfold Comp.base
  by_cases h : s.state ≠ c.needs
  · rw [if_pos h]; exact Or.inl ⟨by simp, rfl⟩
  · rw [if_neg h]
    by_cases h' : c = .publish ∧ arg = false
    · rw [if_pos h']; exact Or.inl ⟨by simp, rfl⟩
    · rw [if_neg h']; exact Or.inr ⟨by simpa using h, rfl⟩

theorem base_good (own : Nat → LCall → Bool) (n : Nat) (s : Comp) (arg : Bool) (c1 : LCall) :
    ∃ δ, Good own n s (s.base .disconnect arg).1 c1 [] δ := by
  rcases base_cases s .disconnect arg with ⟨_, h⟩ | ⟨h1, h2⟩
  · rw [h]; exact ⟨[], .refl own n s c1 []⟩
  · rw [h2]
    exact ⟨_, (Good.refl own n ⟨after .disconnect, s.log ++ [.moved .disconnect]⟩ .disconnect
      (plan own n .disconnect)).call h1 rfl c1⟩

mutual
theorem acts_good (own : Nat → LCall → Bool) (n : Nat) (s : Comp) (c1 : LCall) :
    ∀ a : Acts, ∃ δ, Good own n s (acts own n s a).1 c1 [] δ
  | .nil => ⟨[], .refl own n s c1 []⟩
  | .cons c arg caught hs rest => by
    -- the calls after the first one
    have hrest : ∀ (t : Comp) (δ : List Ev), Good own n s t c1 [] δ →
        ∃ δ, Good own n s (acts own n t rest).1 c1 [] δ := fun t δ h => by
      obtain ⟨ε, h'⟩ := acts_good own n t c1 rest
      exact ⟨_, h.trans h'⟩
    by_cases hd : c = .disconnect
    · subst hd
      unfold acts
      obtain ⟨δ, h⟩ := hooks_good own n s .disconnect (fun h => absurd rfl h) hs
        (plan own n .disconnect)
      have h' : Good own n s _ c1 [] δ := h.dis
      revert h'
      cases hooks own n s .disconnect (plan own n .disconnect) hs with
      | mk t o =>
      intro h'
      obtain ⟨ε, hb⟩ := base_good own n t arg c1
      cases o with
      | ok =>
        dsimp only
        split
        · exact hrest _ _ (h'.trans hb)
        · exact ⟨_, h'.trans hb⟩
      | _ =>
        dsimp only
        split
        · exact hrest _ _ h'
        · exact ⟨_, h'⟩
    · rcases base_cases s c arg with ⟨hb1, hb2⟩ | ⟨hb1, hb2⟩
      · -- refused
        revert hb1 hb2
        cases hbb : s.base c arg with
        | mk b o =>
        intro hb1 hb2
        cases hb2
        cases c with
        | disconnect => exact absurd rfl hd
        | _ =>
          simp only [acts, hbb]
          cases o with
          | ok => exact absurd rfl hb1
          | _ =>
            split
            · exact hrest _ [] (.refl own n _ c1 [])
            · exact ⟨[], .refl own n _ c1 []⟩
      · obtain ⟨δ, h⟩ := hooks_good own n ⟨after c, s.log ++ [.moved c]⟩ c
          (fun _ => Nat.le_refl _) hs (plan own n c)
        have h' := h.call hb1 rfl c1
        revert h'
        cases hh : hooks own n ⟨after c, s.log ++ [.moved c]⟩ c (plan own n c) hs with
        | mk t o =>
        intro h'
        cases c with
        | disconnect => exact absurd rfl hd
        | _ =>
          simp only [acts, hb2, hh]
          cases o with
          | ok => exact hrest t _ h'
          | _ =>
            dsimp only
            split
            · exact hrest t _ h'
            · exact ⟨_, h'⟩
theorem hooks_good (own : Nat → LCall → Bool) (n : Nat) (s : Comp) (c : LCall)
    (hc : c ≠ .disconnect → rank (after c) ≤ rank s.state) :
    ∀ (b : Behs) (ls : List Nat), ∃ δ, Good own n s (hooks own n s c ls b).1 c ls δ
  | .nil, ls => by
    refine ⟨ls.map fun l => .ran l c s.state, ?_, ?_, fun l c' _ => ?_, fun l c' st hm hc' => ?_⟩
    · simp only [hooks]
    · rw [moves_ran]; exact .nil _
    · rw [runsOf_ran, moves_ran]; simp
    · simp only [List.mem_map, Ev.ran.injEq] at hm
      obtain ⟨_, _, _, rfl, rfl⟩ := hm
      exact hc hc'
  | .cons calls raises rest, ls => by
    cases ls with
    | nil => exact ⟨[], by simp only [hooks]; exact .refl own n s c []⟩
    | cons l ls =>
      unfold hooks
      dsimp only
      have h0 := Good.ran own n s c l hc
      obtain ⟨δ, h⟩ := acts_good own n ⟨s.state, s.log ++ [.ran l c s.state]⟩ c calls
      revert h
      cases acts own n ⟨s.state, s.log ++ [.ran l c s.state]⟩ calls with
      | mk t o =>
      intro h
      have hw : ∀ (ms : List Nat) (u : Comp) (ε : List Ev), Good own n s u c [l] ε →
          Good own n s u c (l :: ms) ε := fun ms u ε hg =>
        ⟨hg.log, hg.path, fun l' c' hc' => by
          have := hg.count l' c' hc'
          by_cases hcc : c' = c
          · rw [if_pos hcc] at this ⊢
            have h1 : (l :: ms).count l' = [l].count l' + ms.count l' :=
              List.count_append (l₁ := [l]) (l₂ := ms)
            omega
          · rw [if_neg hcc] at this ⊢; exact this, hg.late⟩
      have h1 : Good own n s t c [l] _ := h0.trans h
      cases o with
      | ok =>
        dsimp only
        split
        · exact ⟨_, hw _ _ _ h1⟩
        · have hc' : c ≠ .disconnect → rank (after c) ≤ rank t.state :=
            fun hne => Nat.le_trans (hc hne) h.path.rank_le
          obtain ⟨ε, h2⟩ := hooks_good own n t c hc' rest ls
          exact ⟨_, h1.trans h2⟩
      | _ => exact ⟨_, hw _ _ _ h1⟩
end

/-! ### C105 -/

/-- C105: whatever the hooks call, catch and raise, the component makes the changes of state in the
order of a life, each at most once, and its state is the one these lead to. -/
theorem C105_linear (own : Nat → LCall → Bool) (n : Nat) (a : Acts) :
    moves (acts own n .new a).1.log = order.take (rank (acts own n .new a).1.state) := by
  obtain ⟨δ, h⟩ := acts_good own n .new .publish a
  have := h.path.order
  rw [h.log]
  simpa [Comp.new, rank] using this

/-- C105 (partial): over a whole life, the hook of a class for `Publish`, `Configure` or `Connect` is
executed at most as often as one call executes it by the plan. Missing: the plan itself executes hooks
more than once (`C105_configure_fails`, `C105_inherited_fails`), and hooks of `Disconnect` are executed
without any condition (`C105_disconnect_fails`). -/
theorem C105_count_partial (own : Nat → LCall → Bool) (n : Nat) (a : Acts) (l : Nat) (c : LCall)
    (hc : c ≠ .disconnect) :
    runsOf l c (acts own n .new a).1.log ≤ (plan own n c).count l := by
  obtain ⟨δ, h⟩ := acts_good own n .new .publish a
  have h1 := h.count l c hc
  have h2 : (moves δ).count c ≤ 1 := by
    have hp := h.path.order
    have hs : (moves δ).Sublist order := by
      rw [hp]; exact (List.take_sublist _ _).trans (List.drop_sublist _ _)
    exact Nat.le_trans (hs.count_le c) (by cases c <;> decide)
  rw [h.log, runsOf_append]
  have h3 : runsOf l c Comp.new.log = 0 := rfl
  have h4 : (moves δ).count c * (plan own n c).count l ≤ 1 * (plan own n c).count l :=
    Nat.mul_le_mul_right _ h2
  have h5 : (if c = LCall.publish then ([] : List Nat).count l else 0) = 0 := by split <;> rfl
  omega

/-- C105: a hook of `Publish`, `Configure` or `Connect` begins when the state has been changed, not
before. -/
theorem C105_after (own : Nat → LCall → Bool) (n : Nat) (a : Acts) (l : Nat) (c : LCall)
    (st : LState) (hm : .ran l c st ∈ (acts own n .new a).1.log) (hc : c ≠ .disconnect) :
    rank (after c) ≤ rank st := by
  obtain ⟨δ, h⟩ := acts_good own n .new .publish a
  rw [h.log] at hm
  exact h.late l c st (by simpa [Comp.new] using hm) hc

/-- C105: `Publish`, `Configure` and `Connect` in another state than the one they need raise
`InvalidComponentState` and have no effect; no hook is executed. -/
theorem C105_wrong (own : Nat → LCall → Bool) (n : Nat) (s : Comp) (c : LCall)
    (hc : c ≠ .disconnect) (hs : s.state ≠ c.needs) (arg : Bool) (hs' : Behs) (rest : Acts) :
    acts own n s (.cons c arg false hs' rest) = (s, .invalidState) := by
  cases c with
  | disconnect => exact absurd rfl hc
  | _ => unfold acts; simp [Comp.base, hs]

/-- C105: a call in the right state, with hooks that call and raise nothing: the state changes first,
then the hooks of the plan are executed in their order; for `Disconnect` the hooks come first. -/
theorem C105_quiet (own : Nat → LCall → Bool) (n : Nat) (s : Comp) (c : LCall)
    (hs : s.state = c.needs) :
    acts own n s (.cons c true false .nil .nil) =
      (⟨after c, s.log ++ (if c = .disconnect then
          (plan own n c).map (fun l => .ran l c .connected) ++ [.moved c]
        else .moved c :: (plan own n c).map fun l => .ran l c (after c))⟩, .ok) := by
  cases c <;> simp_all [acts, hooks, Comp.base, LCall.needs, after]

theorem seen_own {own : Nat → LCall → Bool} {c : LCall} {i : Nat} (h : own i c = true) :
    seen own c (i + 1) = some i := by simp [seen, h]

theorem seen_none {own : Nat → LCall → Bool} {c : LCall} : ∀ {i : Nat},
    (∀ j < i, own j c = false) → seen own c i = none
  | 0, _ => rfl
  | i + 1, h => by
    simp only [seen, h i (Nat.lt_succ_self i)]
    exact seen_none fun j hj => h j (Nat.lt_succ_of_lt hj)

/-- C105 (partial): when every class on top of one that declares the hook declares it too, one call of
`Publish`, `Connect` or `Disconnect` executes the hook of each declaring class exactly once, those of
the parent classes first, for `Disconnect` last. Missing: `Configure` and classes that inherit the hook
(`C105_configure_fails`, `C105_inherited_fails`). -/
theorem C105_once_partial (own : Nat → LCall → Bool) (n : Nat) (c : LCall) (hc : c ≠ .configure)
    (h : ∀ i j, i ≤ j → j < n → own i c = true → own j c = true) :
    plan own n c = if c = .disconnect then (declaring own n c).reverse else declaring own n c := by
  have hl : ∀ i, i < n → atLevel own c i = if own i c then [i] else [] := fun i hi => by
    have : atLevel own c i = (seen own c (i + 1)).toList := by cases c <;> first | rfl | exact absurd rfl hc
    rw [this]
    cases hi' : own i c with
    | true => rw [seen_own hi']; rfl
    | false =>
      rw [seen_none]
      · rfl
      · intro j hj
        cases hj' : own j c with
        | false => rfl
        | true => rw [h j i (by omega) hi hj'] at hi'; cases hi'
  have hf : ∀ xs : List Nat, (∀ x ∈ xs, x < n) →
      xs.flatMap (atLevel own c) = xs.filter (own · c) := fun xs => by
    induction xs with
    | nil => intro _; rfl
    | cons x xs ih =>
      intro hx
      rw [List.flatMap_cons, hl x (hx x List.mem_cons_self),
        ih fun y hy => hx y (List.mem_cons_of_mem _ hy), List.filter_cons]
      split <;> simp
  have h1 := hf (List.range n) (fun x hx => List.mem_range.1 hx)
  have h2 := hf (List.range n).reverse (fun x hx => List.mem_range.1 (List.mem_reverse.1 hx))
  cases c with
  | configure => exact absurd rfl hc
  | disconnect =>
    show (List.range n).reverse.flatMap _ = _
    rw [h2, if_pos rfl, List.filter_reverse]; rfl
  | publish => rw [if_neg (by simp)]; exact h1
  | connect => rw [if_neg (by simp)]; exact h1

/-- The hypotheses of `C105_once_partial` are met: of three classes, the second and the third declare
`DoConnect`. -/
example : (∀ i j, i ≤ j → j < 3 → decide (i ≥ 1) = true → decide (j ≥ 1) = true) ∧
    plan (fun i c => decide (c = .connect ∧ i ≥ 1)) 3 .connect = [1, 2] := by
  refine ⟨fun i j h _ hi => ?_, by decide⟩
  simp only [decide_eq_true_eq] at hi ⊢; omega

/-- A re-entrant life: the hook of `Publish` configures the component, whose hook connects it. -/
example : (acts (fun _ _ => true) 1 .new
    (.cons .publish true false (.cons (.cons .configure true false
      (.cons (.cons .connect true false .nil .nil) false .nil) .nil) false .nil) .nil)) =
    (⟨.connected, [.moved .publish, .ran 0 .publish .publishing, .moved .configure,
      .ran 0 .configure .configured, .moved .connect, .ran 0 .connect .connected,
      .ran 0 .configure .connected]⟩, .ok) := by decide

/-- The full claim, each hook once, is false for `Configure`: a class that declares `DoConfigure` has it
executed twice, and the second time the component may already be connected. -/
theorem C105_configure_fails :
    ∃ (own : Nat → LCall → Bool) (n : Nat), declaring own n .configure = [0] ∧
      plan own n .configure = [0, 0] ∧
      ∃ a : Acts, .ran 0 .configure .connected ∈ (acts own n .new a).1.log :=
  ⟨fun _ c => c = .configure, 1, by decide, by decide,
    .cons .publish true false .nil (.cons .configure true false
      (.cons (.cons .connect true false .nil .nil) false .nil) .nil), by decide⟩

/-- It is false for every operation when a class does not declare a hook that the class it is derived
from declares: the hook is found in the parent class again and executed a second time. -/
theorem C105_inherited_fails :
    ∃ (own : Nat → LCall → Bool) (n : Nat), ∀ c, c ≠ .configure →
      declaring own n c = [0] ∧ plan own n c = [0, 0] := by
  refine ⟨fun i _ => i = 0, 2, fun c hc => ?_⟩
  cases c <;> first | decide | exact absurd rfl hc

/-- The hooks of `Disconnect` are executed in a component that is not connected, any number of times,
although the call then raises. -/
theorem C105_disconnect_fails :
    ∃ (own : Nat → LCall → Bool) (n : Nat) (a : Acts), moves (acts own n .new a).1.log = [] ∧
      runsOf 0 .disconnect (acts own n .new a).1.log = 2 :=
  ⟨fun _ _ => true, 1, .cons .disconnect true true .nil (.cons .disconnect true true .nil .nil),
    by decide⟩

/-- A hook that raises makes the hooks of the classes on top of it be lost for ever: the state has
changed already, so whatever is called later the operation is refused. -/
theorem C105_raise_fails :
    ∃ (own : Nat → LCall → Bool) (n : Nat) (s : Comp), declaring own n .publish = [0, 1] ∧
      acts own n .new (.cons .publish true true (.cons .nil true .nil) .nil) = (s, .ok) ∧
      ∀ a : Acts, runsOf 1 .publish (acts own n s a).1.log = 0 := by
  refine ⟨fun _ _ => true, 2, ⟨.publishing, [.moved .publish, .ran 0 .publish .publishing]⟩,
    by decide, by decide, fun a => ?_⟩
  obtain ⟨δ, h⟩ := acts_good (fun _ _ => true) 2
    ⟨.publishing, [.moved .publish, .ran 0 .publish .publishing]⟩ .connect a
  have h1 := h.count 1 .publish (by simp)
  have h2 : (moves δ).count .publish = 0 := by
    rw [List.count_eq_zero]; exact h.path.not_mem (by decide)
  rw [h.log, runsOf_append]
  rw [h2] at h1
  simp only [Nat.zero_mul, reduceCtorEq, if_false, Nat.add_zero, Nat.le_zero] at h1
  rw [h1]; rfl

end Verif.Tree.Hooks
