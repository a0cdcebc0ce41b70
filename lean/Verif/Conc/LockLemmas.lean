import Verif.Conc.Lock

/-! Lemmas on the threads of `Conc/Lock.lean`, and the specification they serve. -/
namespace Verif.Conc

/-! ### Specification -/

/-- An expression only depends on the cells it locks, assigns only cells it has locked for writing,
and takes no lock twice (which would be undefined behaviour). -/
structure Tx.WF (tx : Tx) : Prop where
  nodup : (tx.acq.map Prod.fst).Nodup
  dep : ∀ m m' : Mem, (∀ c ∈ tx.acq.map Prod.fst, m c = m' c) →
    tx.res m = tx.res m' ∧ tx.writes m = tx.writes m'
  own : ∀ (m : Mem), ∀ w ∈ tx.writes m, (w.1, true) ∈ tx.acq

/-- The data after the expressions have been evaluated one after the other, in the order of their
effects. -/
def after (m : Mem) : List Event → Mem
  | [] => m
  | .effect _ tx _ :: h => after (assign m (tx.writes m)) h
  | _ :: h => after m h

/-- Every result is the one of that evaluation. -/
def Legal (m : Mem) : List Event → Prop
  | [] => True
  | .effect _ tx r :: h => r = tx.res m ∧ Legal (assign m (tx.writes m)) h
  | _ :: h => Legal m h

/-- What a thread is doing. -/
inductive Status
  | idle
  | called (tx : Tx)
  | effective (r : List Int)

def Event.thread : Event → Nat
  | .call t _ | .effect t _ _ | .ret t _ => t

/-- The events of a thread are in order: a call, its effect, the return of the result. -/
inductive Proper (t : Nat) : List Event → Status → Prop
  | nil : Proper t [] .idle
  | other {h st e} : Proper t h st → e.thread ≠ t → Proper t (h ++ [e]) st
  | call {h tx} : Proper t h .idle → Proper t (h ++ [.call t tx]) (.called tx)
  | effect {h tx r} : Proper t h (.called tx) → Proper t (h ++ [.effect t tx r]) (.effective r)
  | ret {h r} : Proper t h (.effective r) → Proper t (h ++ [.ret t r]) .idle

/-! ### Lemmas on histories and assignments -/

theorem after_append (m : Mem) (h k : List Event) : after m (h ++ k) = after (after m h) k := by
  induction h generalizing m with
  | nil => rfl
  | cons e h ih => cases e <;> exact ih _

theorem legal_append (m : Mem) (h k : List Event) :
    Legal m (h ++ k) ↔ Legal m h ∧ Legal (after m h) k := by
  induction h generalizing m with
  | nil => simp [Legal, after]
  | cons e h ih =>
    cases e with
    | call t tx => exact ih _
    | ret t r => exact ih _
    | effect t tx r =>
      show r = _ ∧ Legal _ (h ++ k) ↔ (r = _ ∧ Legal _ h) ∧ _
      rw [ih, and_assoc]; rfl

theorem assign_mem (ws : List (Cell × Int)) (c : Cell) (h : c ∈ ws.map Prod.fst) :
    ∀ m m' : Mem, assign m ws c = assign m' ws c := by
  induction ws with
  | nil => cases h
  | cons w ws ih =>
    obtain ⟨d, v⟩ := w
    intro m m'
    by_cases hc : c ∈ ws.map Prod.fst
    · exact ih hc _ _
    · have hcd : c = d := by
        rcases List.mem_cons.1 h with h | h
        · exact h
        · exact absurd h hc
      have hno : ∀ (ws : List (Cell × Int)), c ∉ ws.map Prod.fst → ∀ m : Mem,
          assign m ws c = m c := by
        intro ws
        induction ws with
        | nil => intro _ m; rfl
        | cons w ws ih =>
          intro h m
          obtain ⟨e, u⟩ := w
          have h1 : c ≠ e := fun g => h (by rw [g]; exact List.mem_cons_self)
          have h2 : c ∉ ws.map Prod.fst := fun g => h (List.mem_cons_of_mem _ g)
          show assign _ ws c = _
          rw [ih h2, if_neg h1]
      show assign _ ws c = assign _ ws c
      rw [hno ws hc, hno ws hc, if_pos hcd, if_pos hcd]

theorem assign_not_mem (ws : List (Cell × Int)) (c : Cell) (h : c ∉ ws.map Prod.fst) :
    ∀ m : Mem, assign m ws c = m c := by
  induction ws with
  | nil => intro m; rfl
  | cons w ws ih =>
    intro m
    obtain ⟨e, u⟩ := w
    have h1 : c ≠ e := fun g => h (by rw [g]; exact List.mem_cons_self)
    have h2 : c ∉ ws.map Prod.fst := fun g => h (List.mem_cons_of_mem _ g)
    show assign _ ws c = _
    rw [ih h2, if_neg h1]

/-! ### The invariant -/

/-- The locks of a thread. -/
def Phase.held : Phase → List (Cell × Bool)
  | .idle => []
  | .taking _ _ held _ => held
  | .writing _ held _ => held
  | .leaving held _ => held

/-- The assignments still to be made. -/
def Phase.pending : Phase → List (Cell × Int)
  | .writing ws _ _ => ws
  | _ => []

def Phase.status : Phase → Status
  | .idle => .idle
  | .taking tx _ _ _ => .called tx
  | .writing _ _ r => .effective r
  | .leaving _ r => .effective r

/-- What holds of a thread by itself. -/
def Phase.Good (mem : Mem) : Phase → Prop
  | .idle => True
  | .taking tx todo held regs => tx.WF ∧ tx.acq = held.reverse ++ todo ∧
      ∀ h ∈ held, regs h.1 = mem h.1
  | .writing ws held _ => (held.map Prod.fst).Nodup ∧ ∀ w ∈ ws, (w.1, true) ∈ held
  | .leaving held _ => (held.map Prod.fst).Nodup

structure Inv (m : Mem) (s : State) : Prop where
  hold : ∀ t c x, (t, x) ∈ s.holders c ↔ (c, x) ∈ (s.th t).held
  nodup : ∀ c, (s.holders c).Nodup
  excl : ∀ c t u x, (t, true) ∈ s.holders c → (u, x) ∈ s.holders c → u = t ∧ x = true
  good : ∀ t, (s.th t).Good s.mem
  quiet : ∀ c, (∀ t, c ∉ (s.th t).pending.map Prod.fst) → s.mem c = after m s.hist c
  pend : ∀ t, ∀ c ∈ (s.th t).pending.map Prod.fst,
    assign s.mem (s.th t).pending c = after m s.hist c
  legal : Legal m s.hist
  proper : ∀ t, Proper t s.hist (s.th t).status

theorem Phase.Good.nodup {mem : Mem} {p : Phase} (h : p.Good mem) : (p.held.map Prod.fst).Nodup := by
  cases p with
  | idle => exact List.nodup_nil
  | taking tx todo held regs =>
    obtain ⟨hw, ha, _⟩ := h
    have := hw.nodup
    rw [ha, List.map_append, List.nodup_append] at this
    have h1 := this.1
    rw [List.map_reverse] at h1
    exact (List.pairwise_reverse.1 h1).imp fun h => h.symm
  | writing ws held r => exact h.1
  | leaving held r => exact h

theorem Phase.Good.pend {mem : Mem} {p : Phase} (h : p.Good mem) :
    ∀ w ∈ p.pending, (w.1, true) ∈ p.held := by
  cases p with
  | idle => intro w hw; cases hw
  | taking tx todo held regs => intro w hw; cases hw
  | writing ws held r => exact h.2
  | leaving held r => intro w hw; cases hw

theorem inv_init (m : Mem) : Inv m (init m) where
  hold t c x := by simp [init, Phase.held]
  nodup c := List.nodup_nil
  excl c t u x h := by cases h
  good t := trivial
  quiet c _ := rfl
  pend t c h := by cases h
  legal := trivial
  proper t := .nil

theorem setTh_same (s : State) (t : Nat) (p : Phase) : setTh s t p t = p := by simp [setTh]
theorem setTh_other (s : State) {t u : Nat} (p : Phase) (h : u ≠ t) : setTh s t p u = s.th u := by
  simp [setTh, h]

theorem inv_start {m : Mem} {s : State} (hi : Inv m s) (t : Nat) (tx : Tx) (hw : tx.WF) :
    Inv m (step s (.start t tx)) := by
  cases ht : s.th t with
  | idle =>
    have he : step s (.start t tx) = { s with
        th := setTh s t (.taking tx tx.acq [] (fun _ => 0)), hist := s.hist ++ [.call t tx] } := by
      unfold step; simp only [ht]
    rw [he]
    refine ⟨?_, hi.nodup, hi.excl, ?_, ?_, ?_, ?_, ?_⟩
    · intro u c x
      rw [hi.hold]
      simp only
      by_cases hu : u = t
      · subst hu; rw [setTh_same, ht]; exact Iff.rfl
      · rw [setTh_other s _ hu]
    · intro u
      simp only
      by_cases hu : u = t
      · subst hu; rw [setTh_same]
        exact ⟨hw, rfl, fun h hh => by cases hh⟩
      · rw [setTh_other s _ hu]; exact hi.good u
    · intro c hc
      rw [after_append]
      show s.mem c = after m s.hist c
      apply hi.quiet
      intro u
      have := hc u
      simp only at this
      by_cases hu : u = t
      · subst hu; rw [ht]; exact fun h => by cases h
      · rwa [setTh_other s _ hu] at this
    · intro u c hc
      rw [after_append]
      show assign s.mem _ c = after m s.hist c
      simp only at hc ⊢
      by_cases hu : u = t
      · subst hu; rw [setTh_same] at hc; cases hc
      · rw [setTh_other s _ hu] at hc ⊢; exact hi.pend u c hc
    · exact (legal_append m s.hist _).2 ⟨hi.legal, trivial⟩
    · intro u
      simp only
      have := hi.proper u
      by_cases hu : u = t
      · subst hu; rw [setTh_same]; rw [ht] at this; exact .call this
      · rw [setTh_other s _ hu]
        exact .other this (fun h => hu h.symm)
  | taking _ _ _ _ => unfold step; simp only [ht]; exact hi
  | writing _ _ _ => unfold step; simp only [ht]; exact hi
  | leaving _ _ => unfold step; simp only [ht]; exact hi

/-- Two threads do not hold a cell when one has it exclusively. -/
theorem Inv.alone {m : Mem} {s : State} (hi : Inv m s) {t u : Nat} {c : Cell} {x : Bool}
    (ht : (c, true) ∈ (s.th t).held) (hu : (c, x) ∈ (s.th u).held) : u = t ∧ x = true :=
  hi.excl c t u x ((hi.hold t c true).2 ht) ((hi.hold u c x).2 hu)

/-- The memory is that of the history on the cells a thread without pending assignments holds. -/
theorem Inv.mem_held {m : Mem} {s : State} (hi : Inv m s) {t : Nat} {c : Cell} {x : Bool}
    (h : (c, x) ∈ (s.th t).held) (hp : (s.th t).pending = []) : s.mem c = after m s.hist c := by
  apply hi.quiet
  intro u hc
  obtain ⟨w, hw, rfl⟩ := List.mem_map.1 hc
  have h1 := (hi.good u).pend w hw
  obtain ⟨rfl, _⟩ := hi.alone h1 h
  rw [hp] at hw
  cases hw

theorem inv_advance {m : Mem} {s s' : State} (hi : Inv m s) (t : Nat) (h : advance s t = some s') :
    Inv m s' := by
  unfold advance at h
  cases ht : s.th t with
  | idle => rw [ht] at h; cases h
  | taking tx todo held regs =>
    have hg := hi.good t
    rw [ht] at hg
    obtain ⟨hw, hacq, hregs⟩ := hg
    cases todo with
    | nil =>
      rw [ht] at h
      simp only [Option.some.injEq] at h
      rw [List.append_nil] at hacq
      have hheld : ∀ c x, (c, x) ∈ tx.acq → (c, x) ∈ (s.th t).held := by
        intro c x hc; rw [ht]; rw [hacq] at hc; exact List.mem_reverse.1 hc
      have hpend : (s.th t).pending = [] := by rw [ht]; rfl
      have hsame : ∀ c ∈ tx.acq.map Prod.fst, regs c = after m s.hist c := by
        intro c hc
        obtain ⟨⟨d, x⟩, hd, rfl⟩ := List.mem_map.1 hc
        have h1 := hheld d x hd
        rw [← hi.mem_held h1 hpend]
        rw [ht] at h1
        exact hregs _ h1
      obtain ⟨hres, hwr⟩ := hw.dep regs (after m s.hist) hsame
      subst h
      have hafter : after m (s.hist ++ [.effect t tx (tx.res regs)]) =
          assign (after m s.hist) (tx.writes regs) := by
        rw [after_append, hwr]; rfl
      have hown : ∀ w ∈ tx.writes regs, (w.1, true) ∈ (s.th t).held := by
        intro w hwm
        exact hheld _ _ (hw.own regs w hwm)
      refine ⟨?_, hi.nodup, hi.excl, ?_, ?_, ?_, ?_, ?_⟩
      · intro u c x
        rw [hi.hold]
        simp only
        by_cases hu : u = t
        · subst hu; rw [setTh_same, ht]; exact Iff.rfl
        · rw [setTh_other s _ hu]
      · intro u
        simp only
        by_cases hu : u = t
        · subst hu
          rw [setTh_same]
          refine ⟨?_, ?_⟩
          · have := (hi.good u).nodup; rw [ht] at this; exact this
          · intro w hwm; have := hown w hwm; rw [ht] at this; exact this
        · rw [setTh_other s _ hu]; exact hi.good u
      · intro c hc
        simp only [hafter]
        have hct : c ∉ (tx.writes regs).map Prod.fst := by
          have := hc t; simp only at this; rw [setTh_same] at this; exact this
        rw [assign_not_mem _ _ hct]
        apply hi.quiet
        intro u
        by_cases hu : u = t
        · subst hu; rw [ht]; exact fun h => by cases h
        · have := hc u; simp only at this; rwa [setTh_other s _ hu] at this
      · intro u c hc
        simp only [hafter]
        simp only at hc
        by_cases hu : u = t
        · subst hu
          rw [setTh_same] at hc ⊢
          exact assign_mem _ c hc _ _
        · rw [setTh_other s _ hu] at hc ⊢
          have hct : c ∉ (tx.writes regs).map Prod.fst := by
            intro hcw
            obtain ⟨w, hwm, rfl⟩ := List.mem_map.1 hcw
            obtain ⟨w', hwm', hww⟩ := List.mem_map.1 hc
            have h1 := (hi.good u).pend w' hwm'
            rw [hww] at h1
            exact hu (hi.alone (hown w hwm) h1).1
          rw [assign_not_mem _ _ hct]
          exact hi.pend u c hc
      · refine (legal_append m s.hist _).2 ⟨hi.legal, hres, trivial⟩
      · intro u
        simp only
        have := hi.proper u
        by_cases hu : u = t
        · subst hu; rw [setTh_same]; rw [ht] at this; exact .effect this
        · rw [setTh_other s _ hu]
          exact .other this (fun h => hu h.symm)
    | cons a todo =>
      obtain ⟨c, x⟩ := a
      rw [ht] at h
      simp only at h
      by_cases hf : free (s.holders c) x = true
      · rw [if_pos hf, Option.some.injEq] at h
        have hnot : ∀ y, (c, y) ∉ held := by
          intro y hy
          have := hw.nodup
          rw [hacq, List.map_append, List.nodup_append] at this
          exact this.2.2 c (List.mem_map.2 ⟨_, List.mem_reverse.2 hy, rfl⟩) c
            (List.mem_cons_self) rfl
        have hnoth : ∀ y, (t, y) ∉ s.holders c := by
          intro y hy; have := (hi.hold t c y).1 hy; rw [ht] at this; exact hnot y this
        subst h
        refine ⟨?_, ?_, ?_, ?_, ?_, ?_, hi.legal, ?_⟩
        · intro u d y
          simp only [setHolders]
          by_cases hu : u = t
          · subst hu
            rw [setTh_same]
            show _ ↔ (d, y) ∈ (c, x) :: held
            by_cases hd : d = c
            · subst hd
              rw [if_pos rfl]
              simp only [List.mem_cons, Prod.mk.injEq, true_and]
              rw [hi.hold, ht]; exact Iff.rfl
            · rw [if_neg hd, hi.hold, ht]
              simp only [Phase.held, List.mem_cons, Prod.mk.injEq, hd, false_and, false_or]
          · rw [setTh_other s _ hu]
            by_cases hd : d = c
            · subst hd
              rw [if_pos rfl, ← hi.hold]
              simp only [List.mem_cons, Prod.mk.injEq, hu, false_and, false_or]
            · rw [if_neg hd, hi.hold]
        · intro d
          simp only [setHolders]
          by_cases hd : d = c
          · subst hd; rw [if_pos rfl]; exact List.nodup_cons.2 ⟨hnoth x, hi.nodup d⟩
          · rw [if_neg hd]; exact hi.nodup d
        · intro d u v y h1 h2
          simp only [setHolders] at h1 h2
          by_cases hd : d = c
          · subst hd
            rw [if_pos rfl] at h1 h2
            rcases List.mem_cons.1 h1 with h3 | h3
            · cases h3
              unfold free at hf
              rw [if_pos rfl, List.isEmpty_iff] at hf
              rw [hf] at h2
              rcases List.mem_cons.1 h2 with h2 | h2
              · cases h2; exact ⟨rfl, rfl⟩
              · cases h2
            · cases x with
              | true =>
                unfold free at hf
                rw [if_pos rfl, List.isEmpty_iff] at hf
                rw [hf] at h3; cases h3
              | false =>
                unfold free at hf
                rw [if_neg (by decide), List.all_eq_true] at hf
                have := hf _ h3
                cases this
          · rw [if_neg hd] at h1 h2
            exact hi.excl d u v y h1 h2
        · intro u
          simp only
          by_cases hu : u = t
          · subst hu
            rw [setTh_same]
            refine ⟨hw, by rw [hacq]; simp, ?_⟩
            intro a ha
            rcases List.mem_cons.1 ha with rfl | ha
            · simp
            · by_cases hac : a.1 = c
              · exact absurd (show (c, a.2) ∈ held by rw [← hac]; exact ha) (hnot a.2)
              · simp only [hac, if_false]; exact hregs a ha
          · rw [setTh_other s _ hu]; exact hi.good u
        · intro d hd
          apply hi.quiet
          intro u
          by_cases hu : u = t
          · subst hu; rw [ht]; exact fun h => by cases h
          · have := hd u; simp only at this; rwa [setTh_other s _ hu] at this
        · intro u d hd
          simp only at hd ⊢
          by_cases hu : u = t
          · subst hu; rw [setTh_same] at hd; cases hd
          · rw [setTh_other s _ hu] at hd ⊢; exact hi.pend u d hd
        · intro u
          simp only
          have := hi.proper u
          by_cases hu : u = t
          · subst hu; rw [setTh_same]; rw [ht] at this; exact this
          · rw [setTh_other s _ hu]; exact this
      · rw [if_neg hf] at h; cases h
  | writing ws held r =>
    have hg := hi.good t
    rw [ht] at hg
    cases ws with
    | nil =>
      rw [ht] at h
      simp only [Option.some.injEq] at h
      subst h
      refine ⟨?_, hi.nodup, hi.excl, ?_, ?_, ?_, hi.legal, ?_⟩
      · intro u c x
        rw [hi.hold]
        simp only
        by_cases hu : u = t
        · subst hu; rw [setTh_same, ht]; exact Iff.rfl
        · rw [setTh_other s _ hu]
      · intro u
        simp only
        by_cases hu : u = t
        · subst hu; rw [setTh_same]; exact hg.1
        · rw [setTh_other s _ hu]; exact hi.good u
      · intro d hd
        apply hi.quiet
        intro u
        by_cases hu : u = t
        · subst hu; rw [ht]; exact fun h => by cases h
        · have := hd u; simp only at this; rwa [setTh_other s _ hu] at this
      · intro u d hd
        simp only at hd ⊢
        by_cases hu : u = t
        · subst hu; rw [setTh_same] at hd; cases hd
        · rw [setTh_other s _ hu] at hd ⊢; exact hi.pend u d hd
      · intro u
        simp only
        have := hi.proper u
        by_cases hu : u = t
        · subst hu; rw [setTh_same]; rw [ht] at this; exact this
        · rw [setTh_other s _ hu]; exact this
    | cons w ws =>
      obtain ⟨c, v⟩ := w
      rw [ht] at h
      simp only [Option.some.injEq] at h
      have hown : (c, true) ∈ (s.th t).held := by
        rw [ht]; exact hg.2 (c, v) List.mem_cons_self
      subst h
      have hother : ∀ u, u ≠ t → ∀ d, d ∈ (s.th u).pending.map Prod.fst → d ≠ c := by
        intro u hu d hd hdc
        obtain ⟨w, hw, rfl⟩ := List.mem_map.1 hd
        have h1 := (hi.good u).pend w hw
        rw [hdc] at h1
        exact hu (hi.alone hown h1).1
      refine ⟨?_, hi.nodup, hi.excl, ?_, ?_, ?_, hi.legal, ?_⟩
      · intro u d x
        rw [hi.hold]
        simp only
        by_cases hu : u = t
        · subst hu; rw [setTh_same, ht]; exact Iff.rfl
        · rw [setTh_other s _ hu]
      · intro u
        simp only
        by_cases hu : u = t
        · subst hu; rw [setTh_same]
          exact ⟨hg.1, fun w hw => hg.2 w (List.mem_cons_of_mem _ hw)⟩
        · rw [setTh_other s _ hu]
          have hgu := hi.good u
          cases hpu : s.th u with
          | idle => trivial
          | taking tx todo held' regs =>
            rw [hpu] at hgu
            refine ⟨hgu.1, hgu.2.1, ?_⟩
            intro a ha
            have hne : a.1 ≠ c := by
              intro hac
              have h1 : (c, a.2) ∈ (s.th u).held := by rw [hpu, ← hac]; exact ha
              exact hu (hi.alone hown h1).1
            simp only [hne, if_false]
            exact hgu.2.2 a ha
          | writing ws' held' r' => rw [hpu] at hgu; exact hgu
          | leaving held' r' => rw [hpu] at hgu; exact hgu
      · intro d hd
        simp only
        have hdt : d ∉ ws.map Prod.fst := by
          have := hd t; simp only at this; rw [setTh_same] at this; exact this
        by_cases hdc : d = c
        · subst hdc
          rw [if_pos rfl]
          have := hi.pend t d (by rw [ht]; exact List.mem_cons_self)
          rw [← this, ht]
          show _ = assign _ ws d
          rw [assign_not_mem ws d hdt, if_pos rfl]
        · rw [if_neg hdc]
          apply hi.quiet
          intro u
          by_cases hu : u = t
          · subst hu; rw [ht]
            intro hm
            rcases List.mem_cons.1 hm with hm | hm
            · exact hdc hm
            · exact hdt hm
          · have := hd u; simp only at this; rwa [setTh_other s _ hu] at this
      · intro u d hd
        simp only at hd ⊢
        by_cases hu : u = t
        · subst hu
          rw [setTh_same] at hd ⊢
          have := hi.pend u d (by rw [ht]; exact List.mem_cons_of_mem _ hd)
          rw [ht] at this
          exact this
        · rw [setTh_other s _ hu] at hd ⊢
          rw [assign_mem _ d hd _ s.mem]
          exact hi.pend u d hd
      · intro u
        simp only
        have := hi.proper u
        by_cases hu : u = t
        · subst hu; rw [setTh_same]; rw [ht] at this; exact this
        · rw [setTh_other s _ hu]; exact this
  | leaving held r =>
    have hg := hi.good t
    rw [ht] at hg
    cases held with
    | nil =>
      rw [ht] at h
      simp only [Option.some.injEq] at h
      subst h
      refine ⟨?_, hi.nodup, hi.excl, ?_, ?_, ?_, ?_, ?_⟩
      · intro u c x
        rw [hi.hold]
        simp only
        by_cases hu : u = t
        · subst hu; rw [setTh_same, ht]; exact Iff.rfl
        · rw [setTh_other s _ hu]
      · intro u
        simp only
        by_cases hu : u = t
        · subst hu; rw [setTh_same]; trivial
        · rw [setTh_other s _ hu]; exact hi.good u
      · intro d hd
        rw [after_append]
        show s.mem d = after m s.hist d
        apply hi.quiet
        intro u
        by_cases hu : u = t
        · subst hu; rw [ht]; exact fun h => by cases h
        · have := hd u; simp only at this; rwa [setTh_other s _ hu] at this
      · intro u d hd
        rw [after_append]
        show assign s.mem _ d = after m s.hist d
        simp only at hd ⊢
        by_cases hu : u = t
        · subst hu; rw [setTh_same] at hd; cases hd
        · rw [setTh_other s _ hu] at hd ⊢; exact hi.pend u d hd
      · exact (legal_append m s.hist _).2 ⟨hi.legal, trivial⟩
      · intro u
        simp only
        have := hi.proper u
        by_cases hu : u = t
        · subst hu; rw [setTh_same]; rw [ht] at this; exact .ret this
        · rw [setTh_other s _ hu]
          exact .other this (fun h => hu h.symm)
    | cons a held =>
      obtain ⟨c, x⟩ := a
      rw [ht] at h
      simp only [Option.some.injEq] at h
      have hnc : ∀ y, (c, y) ∉ held := by
        intro y hy
        have : c ∉ held.map Prod.fst := (List.nodup_cons.1 hg).1
        exact this (List.mem_map.2 ⟨_, hy, rfl⟩)
      subst h
      refine ⟨?_, ?_, ?_, ?_, ?_, ?_, hi.legal, ?_⟩
      · intro u d y
        simp only [setHolders]
        by_cases hu : u = t
        · subst hu
          rw [setTh_same]
          show _ ↔ (d, y) ∈ held
          by_cases hd : d = c
          · subst hd
            rw [if_pos rfl, (hi.nodup d).mem_erase_iff, hi.hold, ht]
            show _ ∧ (d, y) ∈ (d, x) :: held ↔ _
            simp only [List.mem_cons, Prod.mk.injEq, true_and, ne_eq, hnc y, or_false, iff_false,
              not_and]
            exact fun h => h
          · rw [if_neg hd, hi.hold, ht]
            simp only [Phase.held, List.mem_cons, Prod.mk.injEq, hd, false_and, false_or]
        · rw [setTh_other s _ hu]
          by_cases hd : d = c
          · subst hd
            rw [if_pos rfl, (hi.nodup d).mem_erase_iff, hi.hold]
            simp [hu]
          · rw [if_neg hd, hi.hold]
      · intro d
        simp only [setHolders]
        by_cases hd : d = c
        · subst hd; rw [if_pos rfl]; exact (hi.nodup d).erase _
        · rw [if_neg hd]; exact hi.nodup d
      · intro d u v y h1 h2
        simp only [setHolders] at h1 h2
        by_cases hd : d = c
        · subst hd
          rw [if_pos rfl] at h1 h2
          exact hi.excl d u v y (List.mem_of_mem_erase h1) (List.mem_of_mem_erase h2)
        · rw [if_neg hd] at h1 h2
          exact hi.excl d u v y h1 h2
      · intro u
        simp only
        by_cases hu : u = t
        · subst hu; rw [setTh_same]; exact (List.nodup_cons.1 hg).2
        · rw [setTh_other s _ hu]; exact hi.good u
      · intro d hd
        apply hi.quiet
        intro u
        by_cases hu : u = t
        · subst hu; rw [ht]; exact fun h => by cases h
        · have := hd u; simp only at this; rwa [setTh_other s _ hu] at this
      · intro u d hd
        simp only at hd ⊢
        by_cases hu : u = t
        · subst hu; rw [setTh_same] at hd; cases hd
        · rw [setTh_other s _ hu] at hd ⊢; exact hi.pend u d hd
      · intro u
        simp only
        have := hi.proper u
        by_cases hu : u = t
        · subst hu; rw [setTh_same]; rw [ht] at this; exact this
        · rw [setTh_other s _ hu]; exact this

/-- All expressions of a schedule are well formed. -/
def Wf (is : List Input) : Prop := ∀ t tx, Input.start t tx ∈ is → tx.WF

theorem inv_run {m : Mem} (is : List Input) : ∀ s, Inv m s → Wf is → Inv m (run s is) := by
  induction is with
  | nil => intro s h _; exact h
  | cons i is ih =>
    intro s h hw
    apply ih
    · cases i with
      | start t tx => exact inv_start h t tx (hw t tx List.mem_cons_self)
      | advance t =>
        show Inv m ((advance s t).getD s)
        cases ha : advance s t with
        | none => exact h
        | some s' => exact inv_advance h t ha
    · intro t tx htx; exact hw t tx (List.mem_cons_of_mem _ htx)

/-! ### Waiting -/

/-- A reader can be kept waiting because a writer waits (some implementations of
`std::shared_mutex` do so). -/
def Refused (s : State) (u : Nat) : Prop :=
  ∃ tx c todo held regs, s.th u = .taking tx ((c, false) :: todo) held regs ∧
    ∃ w, w ≠ u ∧ ∃ tx' todo' held' regs', s.th w = .taking tx' ((c, true) :: todo') held' regs'

/-- The thread can go on, whatever the implementation. -/
def CanStep (s : State) (u : Nat) : Prop := (advance s u).isSome ∧ ¬ Refused s u

/-- The locks are taken in the order of the cells, which are less than `N`. -/
def Tx.Ordered (N : Nat) (tx : Tx) : Prop :=
  (tx.acq.map Prod.fst).Pairwise (· < ·) ∧ ∀ c ∈ tx.acq.map Prod.fst, c < N

/-- All expressions being evaluated are ordered. -/
def AllOrdered (N : Nat) (s : State) : Prop :=
  ∀ t tx todo held regs, s.th t = .taking tx todo held regs → tx.Ordered N

theorem canStep_of_ready {s : State} {t : Nat} (hn : s.th t ≠ .idle)
    (h : ∀ tx c x todo held regs, s.th t ≠ .taking tx ((c, x) :: todo) held regs) : CanStep s t := by
  refine ⟨?_, fun ⟨tx, c, todo, held, regs, hr, _⟩ => h _ _ _ _ _ _ hr⟩
  unfold advance
  cases ht : s.th t with
  | idle => exact absurd ht hn
  | taking tx todo held regs =>
    cases todo with
    | nil => rfl
    | cons a todo => exact absurd ht (h _ _ _ _ _ _)
  | writing ws held r => cases ws <;> rfl
  | leaving held r => cases held <;> rfl

/-- A holder of a cell can go on, or waits for a greater cell. -/
theorem holder_next {m : Mem} {N : Nat} {s : State} (hi : Inv m s) (ho : AllOrdered N s) {u : Nat}
    {c : Cell} {x : Bool} (h : (c, x) ∈ (s.th u).held) :
    CanStep s u ∨ ∃ tx c' x' todo held regs, s.th u = .taking tx ((c', x') :: todo) held regs ∧
      c < c' ∧ c' < N := by
  by_cases hw : ∃ tx c' x' todo held regs, s.th u = .taking tx ((c', x') :: todo) held regs
  · right
    obtain ⟨tx, c', x', todo, held, regs, hu⟩ := hw
    refine ⟨tx, c', x', todo, held, regs, hu, ?_⟩
    have hg := hi.good u
    rw [hu] at hg h
    obtain ⟨h1, h2⟩ := ho _ _ _ _ _ hu
    rw [hg.2.1, List.map_append, List.map_cons] at h1 h2
    rw [List.pairwise_append] at h1
    refine ⟨h1.2.2 c ?_ c' List.mem_cons_self, h2 c' (by simp)⟩
    exact List.mem_map.2 ⟨_, List.mem_reverse.2 h, rfl⟩
  · left
    apply canStep_of_ready
    · intro hid; rw [hid] at h; cases h
    · intro tx c' x' todo held regs hu; exact hw ⟨tx, c', x', todo, held, regs, hu⟩

/-- If a thread waits, some thread can go on. -/
theorem waiting_progress {m : Mem} {N : Nat} {s : State} (hi : Inv m s) (ho : AllOrdered N s) :
    ∀ k c, N - c ≤ k → ∀ t tx x todo held regs, s.th t = .taking tx ((c, x) :: todo) held regs →
      c < N → ∃ u, CanStep s u := by
  intro k
  induction k with
  | zero => intro c hc _ _ _ _ _ _ _ hN; omega
  | succ k ih =>
    intro c hc t tx x todo held regs ht hN
    -- somebody holding the cell leads to a thread that can go on
    have hold : ∀ u y, (u, y) ∈ s.holders c → ∃ v, CanStep s v := by
      intro u y hu
      rcases holder_next hi ho ((hi.hold u c y).1 hu) with h | ⟨tx', c', x', todo', held', regs', hu', h1, h2⟩
      · exact ⟨u, h⟩
      · have h3 : (c : Nat) < (c' : Nat) := h1
        exact ih c' (by omega) u tx' x' todo' held' regs' hu' h2
    by_cases hf : free (s.holders c) x = true
    · by_cases hr : Refused s t
      · obtain ⟨tx1, c1, todo1, held1, regs1, h1, w, hw, tx2, todo2, held2, regs2, h2⟩ := hr
        rw [ht] at h1
        cases h1
        by_cases hfw : free (s.holders c) true = true
        · refine ⟨w, ?_, ?_⟩
          · unfold advance; rw [h2]; simp only [hfw, if_true]; rfl
          · rintro ⟨_, _, _, _, _, h3, _⟩
            rw [h2] at h3; cases h3
        · unfold free at hfw
          rw [if_pos rfl] at hfw
          cases hh : s.holders c with
          | nil => rw [hh] at hfw; exact absurd rfl hfw
          | cons a l => exact hold a.1 a.2 (by rw [hh]; exact List.mem_cons_self)
      · refine ⟨t, ?_, hr⟩
        unfold advance; rw [ht]; simp only [hf, if_true]; rfl
    · cases hh : s.holders c with
      | nil => rw [hh] at hf; cases x <;> exact absurd rfl hf
      | cons a l => exact hold a.1 a.2 (by rw [hh]; exact List.mem_cons_self)

theorem progress {m : Mem} {N : Nat} {s : State} (hi : Inv m s) (ho : AllOrdered N s) (t : Nat)
    (hn : s.th t ≠ .idle) : ∃ u, CanStep s u := by
  by_cases hw : ∃ tx c x todo held regs, s.th t = .taking tx ((c, x) :: todo) held regs
  · obtain ⟨tx, c, x, todo, held, regs, ht⟩ := hw
    have hN : c < N := by
      have hg := hi.good t
      rw [ht] at hg
      apply (ho _ _ _ _ _ ht).2
      rw [hg.2.1]; simp
    exact waiting_progress hi ho _ c (Nat.le_refl _) t tx x todo held regs ht hN
  · exact ⟨t, canStep_of_ready hn fun tx c x todo held regs h => hw ⟨tx, c, x, todo, held, regs, h⟩⟩

/-! ### Ending -/

/-- The steps a thread still has to make. -/
def Phase.left : Phase → Nat
  | .idle => 0
  | .taking tx todo held regs => 2 * todo.length + held.length + (tx.writes regs).length + 3
  | .writing ws held _ => ws.length + held.length + 2
  | .leaving held _ => held.length + 1

/-- Each expression assigns a fixed number of cells. -/
def Tx.Steady (tx : Tx) : Prop := ∀ m m', (tx.writes m).length = (tx.writes m').length

def AllSteady (s : State) : Prop :=
  ∀ t tx todo held regs, s.th t = .taking tx todo held regs → tx.Steady

theorem advance_th {s s' : State} {u : Nat} (h : advance s u = some s') :
    ∃ p, s'.th = setTh s u p ∧
      (∀ tx todo held regs, p = .taking tx todo held regs →
        ∃ todo' held' regs', s.th u = .taking tx todo' held' regs') ∧
      (AllSteady s → p.left < (s.th u).left) := by
  unfold advance at h
  cases hu : s.th u with
  | idle => rw [hu] at h; cases h
  | taking tx todo held regs =>
    rw [hu] at h
    cases todo with
    | nil =>
      simp only [Option.some.injEq] at h
      subst h
      exact ⟨_, rfl, fun _ _ _ _ h => (by cases h), fun _ => by simp only [Phase.left]; omega⟩
    | cons a todo =>
      obtain ⟨c, x⟩ := a
      simp only at h
      by_cases hf : free (s.holders c) x = true
      · rw [if_pos hf, Option.some.injEq] at h
        subst h
        refine ⟨_, rfl, ?_, ?_⟩
        · intro _ _ _ _ h; cases h; exact ⟨_, _, _, rfl⟩
        · intro hs
          have := hs u tx _ held regs hu regs (fun d => if d = c then s.mem c else regs d)
          simp only [Phase.left, List.length_cons]
          omega
      · rw [if_neg hf] at h; cases h
  | writing ws held r =>
    rw [hu] at h
    cases ws with
    | nil =>
      simp only [Option.some.injEq] at h
      subst h
      exact ⟨_, rfl, fun _ _ _ _ h => (by cases h), fun _ => by simp only [Phase.left, List.length_nil]; omega⟩
    | cons w ws =>
      simp only [Option.some.injEq] at h
      subst h
      exact ⟨_, rfl, fun _ _ _ _ h => (by cases h),
        fun _ => by simp only [Phase.left, List.length_cons]; omega⟩
  | leaving held r =>
    rw [hu] at h
    cases held with
    | nil =>
      simp only [Option.some.injEq] at h
      subst h
      exact ⟨_, rfl, fun _ _ _ _ h => (by cases h), fun _ => by simp only [Phase.left]; omega⟩
    | cons w ws =>
      simp only [Option.some.injEq] at h
      subst h
      exact ⟨_, rfl, fun _ _ _ _ h => (by cases h),
        fun _ => by simp only [Phase.left, List.length_cons]; omega⟩

/-- A schedule in which no thread waits: every step is possible whatever the implementation. -/
def Smooth (s : State) : List Nat → Prop
  | [] => True
  | u :: us => CanStep s u ∧ Smooth (step s (.advance u)) us

theorem sum_lt (f g : Nat → Nat) (u : Nat) (hother : ∀ t, t ≠ u → f t = g t) (hu : f u < g u) :
    ∀ ts : List Nat, u ∈ ts → (ts.map f).sum < (ts.map g).sum := by
  have hle : ∀ ts : List Nat, (ts.map f).sum ≤ (ts.map g).sum := by
    intro ts
    induction ts with
    | nil => exact Nat.le_refl _
    | cons t ts ih =>
      simp only [List.map_cons, List.sum_cons]
      by_cases h : t = u
      · subst h; omega
      · have := hother t h; omega
  intro ts
  induction ts with
  | nil => intro h; cases h
  | cons t ts ih =>
    intro h
    simp only [List.map_cons, List.sum_cons]
    by_cases hc : t = u
    · subst hc
      have := hle ts
      omega
    · have h1 := hother t hc
      rcases List.mem_cons.1 h with h | h
      · exact absurd h.symm hc
      · have := ih h
        omega

theorem finish {m : Mem} {N : Nat} (ts : List Nat) :
    ∀ k s, Inv m s → AllOrdered N s → AllSteady s → (∀ t, s.th t ≠ .idle → t ∈ ts) →
      (ts.map fun t => (s.th t).left).sum ≤ k →
      ∃ us, Smooth s us ∧ ∀ t, (run s (us.map .advance)).th t = .idle := by
  intro k
  induction k with
  | zero =>
    intro s hi ho hs hts hk
    refine ⟨[], trivial, fun t => ?_⟩
    show s.th t = .idle
    apply Classical.byContradiction
    intro hn
    obtain ⟨u, hu, _⟩ := progress hi ho t hn
    have huts : u ∈ ts := by
      apply hts
      intro h
      unfold advance at hu
      rw [h] at hu; cases hu
    obtain ⟨s', hs'⟩ := Option.isSome_iff_exists.1 hu
    obtain ⟨p, _, _, hlt⟩ := advance_th hs'
    have : (s.th u).left ≤ (ts.map fun t => (s.th t).left).sum := by
      clear hk hts
      induction ts with
      | nil => cases huts
      | cons a l ih =>
        simp only [List.map_cons, List.sum_cons]
        rcases List.mem_cons.1 huts with h | h
        · subst h; omega
        · have := ih h; omega
    have := hlt hs
    omega
  | succ k ih =>
    intro s hi ho hs hts hk
    by_cases hall : ∀ t, s.th t = .idle
    · exact ⟨[], trivial, hall⟩
    · obtain ⟨t, hn⟩ := Classical.not_forall.1 hall
      obtain ⟨u, hu⟩ := progress hi ho t hn
      obtain ⟨s', hs'⟩ := Option.isSome_iff_exists.1 hu.1
      obtain ⟨p, hp, htk, hlt⟩ := advance_th hs'
      have huts : u ∈ ts := by
        apply hts
        intro h
        have := hu.1
        unfold advance at this
        rw [h] at this; cases this
      have hstep : step s (.advance u) = s' := by show (advance s u).getD s = s'; rw [hs']; rfl
      have htaking : ∀ v tx todo held regs, s'.th v = .taking tx todo held regs →
          ∃ todo' held' regs', s.th v = .taking tx todo' held' regs' := by
        intro v tx todo held regs hv
        rw [hp] at hv
        by_cases hvu : v = u
        · subst hvu; rw [setTh_same] at hv; exact htk _ _ _ _ hv
        · rw [setTh_other s _ hvu] at hv; exact ⟨_, _, _, hv⟩
      obtain ⟨us, hsm, hend⟩ := ih s' (inv_advance hi u hs')
        (fun v tx todo held regs hv => by
          obtain ⟨_, _, _, h⟩ := htaking v tx todo held regs hv; exact ho _ _ _ _ _ h)
        (fun v tx todo held regs hv => by
          obtain ⟨_, _, _, h⟩ := htaking v tx todo held regs hv; exact hs _ _ _ _ _ h)
        (fun v hv => by
          by_cases hvu : v = u
          · rw [hvu]; exact huts
          · rw [hp, setTh_other s _ hvu] at hv; exact hts v hv)
        (by
          have : (ts.map fun t => (s'.th t).left).sum < (ts.map fun t => (s.th t).left).sum := by
            apply sum_lt _ _ u _ _ ts huts
            · intro v hv; rw [hp, setTh_other s _ hv]
            · rw [hp, setTh_same]; exact hlt hs
          omega)
      refine ⟨u :: us, ⟨hu, by rw [hstep]; exact hsm⟩, ?_⟩
      show ∀ t, (run (step s (.advance u)) (us.map .advance)).th t = .idle
      rw [hstep]; exact hend

end Verif.Conc
