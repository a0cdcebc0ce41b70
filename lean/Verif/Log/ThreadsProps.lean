import Verif.Log.Threads
import Verif.Log.KindsProps

/-! Property C110: the logger used by several threads. -/
namespace Verif.Log.Threads
open Verif.Log.Kinds

/-! ### Specification -/

/-- What a call does to the table, and gives, when it is alone. -/
def alone (t : Table) : Call → Table × Res
  | .query n => ((query t n).2, .kind (query t n).1)
  | .log _ k => (t, .named (kindName t k))
  | .store => (t, .table t)
  | .restore u => (u, .done)

/-- The table after the calls, made one after the other in the order of their effects. -/
def after (t : Table) : List Obs → Table
  | [] => t
  | .effect _ c _ :: h => after (alone t c).1 h
  | _ :: h => after t h

/-- Every result is the one of these calls. -/
def Legal (t : Table) : List Obs → Prop
  | [] => True
  | .effect _ c r :: h => r = (alone t c).2 ∧ Legal (alone t c).1 h
  | _ :: h => Legal t h

/-- What a thread is doing. -/
inductive Status
  | idle
  | called (c : Call)
  | effective (r : Res)

def Obs.thread : Obs → Nat
  | .called t _ | .effect t _ _ | .returned t _ => t

/-- What happens to a thread is in order: a call, its effect, the return of the result. -/
inductive Proper (t : Nat) : List Obs → Status → Prop
  | nil : Proper t [] .idle
  | other {h st e} : Proper t h st → e.thread ≠ t → Proper t (h ++ [e]) st
  | call {h c} : Proper t h .idle → Proper t (h ++ [.called t c]) (.called c)
  | effect {h c r} : Proper t h (.called c) → Proper t (h ++ [.effect t c r]) (.effective r)
  | ret {h r} : Proper t h (.effective r) → Proper t (h ++ [.returned t r]) .idle

/-- The messages logged, with the names of their kinds, in the order of the effects. -/
def logged (h : List Obs) : List (Nat × String) :=
  h.filterMap fun o => match o with
    | .effect _ (.log m _) (.named n) => some (m, n)
    | _ => none

/-- The state after an interleaving. -/
def reach (start now : Int) (as : List Act) : State := run start (init now) as

/-- A thread is in a query that has not found the name. -/
def Pc.isMissed : Pc → Prop
  | .missed _ => True
  | _ => False

/-- No `Restore` takes effect while a query is between the search for the name and the addition
of the name. -/
def Apart (start : Int) : State → List Act → Prop
  | _, [] => True
  | s, a :: as =>
    (∀ t b u, a = .go t b → s.th t = .entering (.restore u) → ∀ t', ¬ (s.th t').isMissed) ∧
    Apart start (step start s a) as

/-- A thread has read one of the times and not handed over its entry. -/
def Pc.isReading : Pc → Prop
  | .reading _ _ none none => False
  | .reading .. => True
  | _ => False

/-- The simulation time does not advance while a thread reads the times of an entry. -/
def Calm (start : Int) : State → List Act → Prop
  | _, [] => True
  | s, a :: as =>
    (∀ d, a = .tick d → ∀ t, ¬ (s.th t).isReading) ∧ Calm start (step start s a) as

/-! ### Lemmas -/

theorem after_append (t : Table) (h k : List Obs) : after t (h ++ k) = after (after t h) k := by
  induction h generalizing t with
  | nil => rfl
  | cons e h ih => cases e <;> exact ih _

theorem legal_append (t : Table) (h k : List Obs) :
    Legal t (h ++ k) ↔ Legal t h ∧ Legal (after t h) k := by
  induction h generalizing t with
  | nil => simp [Legal, after]
  | cons e h ih =>
    cases e with
    | called u c => exact ih _
    | returned u r => exact ih _
    | effect u c r =>
      show r = _ ∧ Legal _ (h ++ k) ↔ (r = _ ∧ Legal _ h) ∧ _
      rw [ih, and_assoc]
      rfl

/-- The thread has `_mutex`. -/
def Pc.holds : Pc → Bool
  | .inside _ | .missed _ | .reading .. => true
  | .leaving _ held => held
  | _ => false

def Pc.status : Pc → Status
  | .idle => .idle
  | .entering c | .inside c => .called c
  | .missed n => .called (.query n)
  | .reading _ n _ _ => .effective (.named n)
  | .leaving r _ => .effective r

/-- The entry that a thread has not yet handed over. -/
def Pc.pending : Pc → List (Nat × String)
  | .reading m n _ _ => [(m, n)]
  | _ => []

def Entry.said (e : Entry) : Nat × String := (e.msg, e.kind)

structure Inv (s : State) : Prop where
  own : ∀ t, s.owner = some t ↔ (s.th t).holds = true
  proper : ∀ t, Proper t s.hist (s.th t).status
  sorted : s.entries.Pairwise fun a b => a.sim ≤ b.sim
  past : ∀ e ∈ s.entries, e.sim ≤ s.now
  read : ∀ t m n x e, s.th t = .reading m n (some x) e → x ≤ s.now ∧ ∀ en ∈ s.entries, en.sim ≤ x
  said : logged s.hist = s.entries.map Entry.said ++
    (match s.owner with | none => [] | some t => (s.th t).pending)

theorem inv_init (now : Int) : Inv (init now) where
  own t := by simp [init, Pc.holds]
  proper t := .nil
  sorted := List.Pairwise.nil
  past := by simp [init]
  read := by simp [init]
  said := rfl

theorem to_same (s : State) (t : Nat) (p : Pc) : s.to t p t = p := by simp [State.to]
theorem to_other (s : State) {t u : Nat} (p : Pc) (h : u ≠ t) : s.to t p u = s.th u := by
  simp [State.to, h]

theorem logged_append (h k : List Obs) : logged (h ++ k) = logged h ++ logged k := by
  simp [logged]

/-- The owner is alone. -/
theorem Inv.only {s : State} (hi : Inv s) {t u : Nat} (h1 : (s.th t).holds = true)
    (h2 : (s.th u).holds = true) : t = u := by
  have a := (hi.own t).2 h1
  rw [(hi.own u).2 h2] at a
  exact (Option.some.inj a).symm

theorem pending_holds {p : Pc} (h : p.holds = false) : p.pending = [] := by
  cases p <;> simp_all [Pc.holds, Pc.pending]

theorem Inv.said_of {s : State} (hi : Inv s) {t : Nat} (h : (s.th t).holds = true) :
    logged s.hist = s.entries.map Entry.said ++ (s.th t).pending := by
  have := hi.said
  rw [(hi.own t).2 h] at this
  exact this

/-- A thread goes on within a call, without any event. -/
theorem inv_move {s : State} (hi : Inv s) (t : Nat) (p : Pc) (hh : p.holds = (s.th t).holds)
    (hs : p.status = (s.th t).status) (hp : p.pending = (s.th t).pending)
    (hr : ∀ m n x e, p = .reading m n (some x) e → x ≤ s.now ∧ ∀ en ∈ s.entries, en.sim ≤ x) :
    Inv { s with th := s.to t p } where
  own u := by
    show _ ↔ (s.to t p u).holds = true
    by_cases h : u = t
    · subst h; rw [to_same, hh]; exact hi.own u
    · rw [to_other s p h]; exact hi.own u
  proper u := by
    show Proper u s.hist (s.to t p u).status
    by_cases h : u = t
    · subst h; rw [to_same, hs]; exact hi.proper u
    · rw [to_other s p h]; exact hi.proper u
  sorted := hi.sorted
  past := hi.past
  read u m n x e h := by
    by_cases hu : u = t
    · subst hu
      exact hr m n x e ((to_same s u p).symm.trans h)
    · exact hi.read u m n x e ((to_other s p hu).symm.trans h)
  said := by
    have := hi.said
    show _ = _ ++ (match s.owner with | none => [] | some u => (s.to t p u).pending)
    rw [this]
    congr 1
    cases ho : s.owner with
    | none => rfl
    | some u =>
      by_cases hu : u = t
      · subst hu; show _ = (s.to u p u).pending; rw [to_same, hp]
      · show _ = (s.to t p u).pending; rw [to_other s p hu]

/-- A thread goes on with an event; it keeps what it has of `_mutex`. -/
theorem inv_event {s : State} (hi : Inv s) (t : Nat) (p : Pc) (tb : Table) (o : Obs)
    (ht : o.thread = t) (hh : p.holds = (s.th t).holds)
    (hs : ∀ h, Proper t h (s.th t).status → Proper t (h ++ [o]) p.status)
    (hp : p.pending = (s.th t).pending ++ logged [o]) (hn : logged [o] ≠ [] → p.holds = true)
    (hr : ∀ m n x e, p ≠ .reading m n (some x) e) :
    Inv { s with table := tb, hist := s.hist ++ [o], th := s.to t p } where
  own u := by
    show _ ↔ (s.to t p u).holds = true
    by_cases h : u = t
    · subst h; rw [to_same, hh]; exact hi.own u
    · rw [to_other s p h]; exact hi.own u
  proper u := by
    show Proper u (s.hist ++ [o]) (s.to t p u).status
    by_cases h : u = t
    · subst h; rw [to_same]; exact hs _ (hi.proper u)
    · rw [to_other s p h]; exact .other (hi.proper u) (by rw [ht]; exact fun e => h e.symm)
  sorted := hi.sorted
  past := hi.past
  read u m n x e h := by
    by_cases hu : u = t
    · subst hu
      exact absurd ((to_same s u p).symm.trans h) (hr m n x e)
    · exact hi.read u m n x e ((to_other s p hu).symm.trans h)
  said := by
    have := hi.said
    show logged (s.hist ++ [o]) = _ ++ (match s.owner with | none => [] | some u => (s.to t p u).pending)
    rw [logged_append, this, List.append_assoc]
    congr 1
    cases ho : s.owner with
    | none =>
      have : p.holds = false := by
        rw [hh]
        cases h : (s.th t).holds with
        | false => rfl
        | true => rw [(hi.own t).2 h] at ho; cases ho
      have : logged [o] = [] := by
        apply Classical.byContradiction
        intro h
        rw [hn h] at this
        cases this
      exact this
    | some u =>
      by_cases hu : u = t
      · subst hu; show _ = (s.to u p u).pending; rw [to_same, hp]
      · show _ = (s.to t p u).pending
        rw [to_other s p hu]
        have : logged [o] = [] := by
          apply Classical.byContradiction
          intro h
          rw [hh] at hn
          have := (hi.own t).2 (hn h)
          rw [ho] at this
          exact hu (Option.some.inj this)
        rw [this, List.append_nil]

theorem inv_go {s : State} (start : Int) (hi : Inv s) (t : Nat) (b : Bool) :
    Inv (go start s t b) := by
  unfold go
  cases h : s.th t with
  | idle => exact hi
  | entering c =>
    have hf : (s.th t).holds = false := by rw [h]; rfl
    have enter : ∀ c, s.th t = .entering c →
        Inv (if s.owner = none then { s with owner := some t, th := s.to t (.inside c) } else s) := by
      intro c h
      split
      · rename_i ho
        have hno : ∀ u, (s.th u).holds = false := by
          intro u
          cases hu : (s.th u).holds with
          | false => rfl
          | true => rw [(hi.own u).2 hu] at ho; cases ho
        refine ⟨?_, ?_, hi.sorted, hi.past, ?_, ?_⟩
        · intro u
          show some t = some u ↔ (s.to t _ u).holds = true
          by_cases hu : u = t
          · subst hu; rw [to_same]; simp [Pc.holds]
          · rw [to_other s _ hu, hno u]
            simp
            exact fun e => hu e.symm
        · intro u
          show Proper u s.hist (s.to t _ u).status
          by_cases hu : u = t
          · subst hu
            rw [to_same]
            have := hi.proper u
            rw [h] at this
            exact this
          · rw [to_other s _ hu]; exact hi.proper u
        · intro u m n x e hu
          have hu : s.to t _ u = .reading m n (some x) e := hu
          by_cases he : u = t
          · subst he; rw [to_same] at hu; cases hu
          · rw [to_other s _ he] at hu; exact hi.read u m n x e hu
        · show logged s.hist = _ ++ (s.to t _ t).pending
          rw [to_same]
          have := hi.said
          rw [ho] at this
          exact this
      · exact hi
    cases c with
    | store =>
      refine inv_event hi t (.leaving (.table s.table) false) s.table _ rfl hf.symm ?_ ?_ ?_ ?_
      · rw [h]; exact fun hh hp => .effect hp
      · rw [h]; rfl
      · exact fun h => absurd rfl h
      · intros; simp
    | restore u =>
      refine inv_event hi t (.leaving .done false) u _ rfl hf.symm ?_ ?_ ?_ ?_
      · rw [h]; exact fun hh hp => .effect hp
      · rw [h]; rfl
      · exact fun h => absurd rfl h
      · intros; simp
    | query n => exact enter _ h
    | log m k => exact enter _ h
  | inside c =>
    have hf : (s.th t).holds = true := by rw [h]; rfl
    cases c with
    | store => exact hi
    | restore u => exact hi
    | query n =>
      show Inv (match indexOf s.table n with | some i => _ | none => _)
      split
      · refine inv_event hi t _ s.table _ rfl (by rw [hf]; rfl) ?_ ?_ ?_ ?_
        · rw [h]; exact fun hh hp => .effect hp
        · rw [h]; rfl
        · exact fun h => absurd rfl h
        · intros; simp
      · refine inv_move hi t _ (by rw [hf]; rfl) (by rw [h]; rfl) (by rw [h]; rfl) ?_
        intros; simp_all
    | log m k =>
      refine inv_event hi t _ s.table _ rfl (by rw [hf]; rfl) ?_ ?_ ?_ ?_
      · rw [h]; exact fun hh hp => .effect hp
      · rw [h]; rfl
      · exact fun _ => rfl
      · intros; simp
  | missed n =>
    have hf : (s.th t).holds = true := by rw [h]; rfl
    refine inv_event hi t _ _ _ rfl (by rw [hf]; rfl) ?_ ?_ ?_ ?_
    · rw [h]; exact fun hh hp => .effect hp
    · rw [h]; rfl
    · exact fun h => absurd rfl h
    · intros; simp
  | reading m n x e =>
    have hf : (s.th t).holds = true := by rw [h]; rfl
    cases x with
    | none =>
      cases e with
      | none =>
        show Inv (if b = true then _ else _)
        split
        · refine inv_move hi t _ (by rw [hf]; rfl) (by rw [h]; rfl) (by rw [h]; rfl) ?_
          intro m' n' x' e' he
          simp only [Pc.reading.injEq, Option.some.injEq] at he
          obtain ⟨_, _, rfl, _⟩ := he
          exact ⟨Int.le_refl _, hi.past⟩
        · refine inv_move hi t _ (by rw [hf]; rfl) (by rw [h]; rfl) (by rw [h]; rfl) ?_
          intro m' n' x' e' he
          simp at he
      | some e =>
        refine inv_move hi t _ (by rw [hf]; rfl) (by rw [h]; rfl) (by rw [h]; rfl) ?_
        intro m' n' x' e' he
        simp only [Pc.reading.injEq, Option.some.injEq] at he
        obtain ⟨_, _, rfl, _⟩ := he
        exact ⟨Int.le_refl _, hi.past⟩
    | some x =>
      obtain ⟨hx1, hx2⟩ := hi.read t m n x e h
      cases e with
      | none =>
        refine inv_move hi t _ (by rw [hf]; rfl) (by rw [h]; rfl) (by rw [h]; rfl) ?_
        intro m' n' x' e' he
        simp only [Pc.reading.injEq, Option.some.injEq] at he
        obtain ⟨_, _, rfl, _⟩ := he
        exact ⟨hx1, hx2⟩
      | some e =>
        refine ⟨?_, ?_, ?_, ?_, ?_, ?_⟩
        · intro u
          show _ ↔ (s.to t _ u).holds = true
          by_cases hu : u = t
          · subst hu; rw [to_same, hi.own u, hf]; rfl
          · rw [to_other s _ hu]; exact hi.own u
        · intro u
          show Proper u s.hist (s.to t _ u).status
          by_cases hu : u = t
          · subst hu
            rw [to_same]
            have := hi.proper u
            rw [h] at this
            exact this
          · rw [to_other s _ hu]; exact hi.proper u
        · show (s.entries ++ [_]).Pairwise _
          rw [List.pairwise_append]
          refine ⟨hi.sorted, List.pairwise_singleton _ _, ?_⟩
          intro a ha b hb
          rw [List.mem_singleton.1 hb]
          exact hx2 a ha
        · intro en hen
          rcases List.mem_append.1 hen with hen | hen
          · exact hi.past en hen
          · rw [List.mem_singleton.1 hen]; exact hx1
        · intro u m' n' x' e' hu
          have hu : s.to t _ u = .reading m' n' (some x') e' := hu
          by_cases he : u = t
          · subst he; rw [to_same] at hu; cases hu
          · rw [to_other s _ he] at hu
            exact absurd (hi.only (by rw [hu]; rfl) hf) he
        · show logged s.hist = (s.entries ++ [_]).map Entry.said ++
            (match s.owner with | none => [] | some u => (s.to t _ u).pending)
          rw [(hi.own t).2 hf, hi.said_of hf, h]
          show _ = _ ++ (s.to t _ t).pending
          rw [to_same]
          simp [Pc.pending, Entry.said]
  | leaving r held =>
    cases held with
    | false =>
      refine inv_event hi t .idle s.table _ rfl (by rw [h]; rfl) ?_ ?_ ?_ ?_
      · rw [h]; exact fun hh hp => .ret hp
      · rw [h]; rfl
      · exact fun h => absurd rfl h
      · intros; simp
    | true =>
      have hf : (s.th t).holds = true := by rw [h]; rfl
      refine ⟨?_, ?_, hi.sorted, hi.past, ?_, ?_⟩
      · intro u
        show none = some u ↔ (s.to t _ u).holds = true
        by_cases hu : u = t
        · subst hu; rw [to_same]; simp [Pc.holds]
        · rw [to_other s _ hu]
          simp
          cases hv : (s.th u).holds with
          | false => rfl
          | true => exact absurd (hi.only hv hf) hu
      · intro u
        show Proper u (s.hist ++ [_]) (s.to t _ u).status
        by_cases hu : u = t
        · subst hu
          rw [to_same]
          have := hi.proper u
          rw [h] at this
          exact .ret this
        · rw [to_other s _ hu]; exact .other (hi.proper u) (fun e => hu e.symm)
      · intro u m n x e hu
        have hu : s.to t _ u = .reading m n (some x) e := hu
        by_cases he : u = t
        · subst he; rw [to_same] at hu; cases hu
        · rw [to_other s _ he] at hu; exact hi.read u m n x e hu
      · show logged (s.hist ++ [.returned t r]) = s.entries.map Entry.said ++ []
        rw [logged_append, hi.said_of hf, h]
        simp [Pc.pending, logged]

theorem inv_step {s : State} (start : Int) (hi : Inv s) (a : Act) : Inv (step start s a) := by
  cases a with
  | go t b => exact inv_go start hi t b
  | tick d =>
    refine ⟨hi.own, hi.proper, hi.sorted, ?_, ?_, hi.said⟩
    · intro e he
      have := hi.past e he
      show e.sim ≤ s.now + d
      omega
    · intro t m n x e h
      have := hi.read t m n x e h
      refine ⟨?_, this.2⟩
      show x ≤ s.now + d
      omega
  | call t c =>
    show Inv (match s.th t with | .idle => _ | _ => s)
    cases h : s.th t with
    | idle =>
      refine inv_event hi t (.entering c) s.table (.called t c) rfl (by rw [h]; rfl) ?_ ?_ ?_ ?_
      · rw [h]; exact fun hh hp => .call hp
      · rw [h]; rfl
      · exact fun h => absurd rfl h
      · intros; simp
    | _ => exact hi

theorem inv_run {start : Int} (as : List Act) : ∀ {s : State}, Inv s → Inv (run start s as) := by
  induction as with
  | nil => exact fun h => h
  | cons a as ih => exact fun h => ih (inv_step start h a)

/-! ### Calls one after the other -/

/-- A query that has not found the name has the table as it was. -/
structure Seq (now : Int) (s : State) : Prop where
  table : s.table = after predefined s.hist
  legal : Legal predefined s.hist
  absent : ∀ t n, s.th t = .missed n → indexOf s.table n = none

theorem seq_event {now : Int} {s : State} (hq : Seq now s) (t : Nat) (p : Pc) (tb : Table) (o : Obs)
    (hp : ∀ n, p ≠ .missed n)
    (ho : (∃ c r, o = .effect t c r ∧ tb = (alone s.table c).1 ∧ r = (alone s.table c).2) ∨
      (tb = s.table ∧ ∀ c r, o ≠ .effect o.thread c r))
    (ht : tb = s.table ∨ ∀ u n, u ≠ t → s.th u ≠ .missed n) (w : Option Nat) :
    Seq now { s with table := tb, owner := w, hist := s.hist ++ [o], th := s.to t p } where
  table := by
    show tb = after predefined (s.hist ++ [o])
    rw [after_append, ← hq.table]
    rcases ho with ⟨c, r, rfl, h1, h2⟩ | ⟨h1, h2⟩
    · exact h1
    · rw [h1]
      cases o with
      | effect u c r => exact absurd rfl (h2 c r)
      | called u c => rfl
      | returned u r => rfl
  legal := by
    show Legal predefined (s.hist ++ [o])
    rw [legal_append, ← hq.table]
    refine ⟨hq.legal, ?_⟩
    rcases ho with ⟨c, r, rfl, h1, h2⟩ | ⟨h1, h2⟩
    · exact ⟨h2, trivial⟩
    · cases o with
      | effect u c r => exact absurd rfl (h2 c r)
      | called u c => trivial
      | returned u r => trivial
  absent u n h := by
    by_cases hu : u = t
    · subst hu
      exact absurd ((to_same s u p).symm.trans h) (hp n)
    · have h' : s.th u = .missed n := (to_other s p hu).symm.trans h
      rcases ht with ht | ht
      · show indexOf tb n = none
        rw [ht]
        exact hq.absent u n h'
      · exact absurd h' (ht u n hu)

theorem seq_move {now : Int} {s : State} (hq : Seq now s) (t : Nat) (p : Pc) (w : Option Nat)
    (es : List Entry) (hp : ∀ n, p = .missed n → indexOf s.table n = none) :
    Seq now { s with owner := w, entries := es, th := s.to t p } where
  table := hq.table
  legal := hq.legal
  absent u n h := by
    by_cases hu : u = t
    · subst hu
      exact hp n ((to_same s u p).symm.trans h)
    · exact hq.absent u n ((to_other s p hu).symm.trans h)

theorem seq_step {now start : Int} {s : State} (hi : Inv s) (hq : Seq now s) (a : Act)
    (ha : ∀ t b u, a = .go t b → s.th t = .entering (.restore u) → ∀ t', ¬ (s.th t').isMissed) :
    Seq now (step start s a) := by
  cases a with
  | tick d => exact ⟨hq.table, hq.legal, hq.absent⟩
  | call t c =>
    show Seq now (match s.th t with | .idle => _ | _ => s)
    cases h : s.th t with
    | idle =>
      exact seq_event hq t (.entering c) s.table (.called t c) (by simp) (.inr ⟨rfl, by simp⟩) (.inl rfl) _
    | _ => exact hq
  | go t b =>
    show Seq now (go start s t b)
    unfold go
    cases h : s.th t with
    | idle => exact hq
    | entering c =>
      have enter : ∀ c, s.th t = .entering c →
          Seq now (if s.owner = none then { s with owner := some t, th := s.to t (.inside c) }
            else s) := by
        intro c h
        split
        · exact seq_move hq t (.inside c) _ _ (by simp)
        · exact hq
      cases c with
      | store =>
        exact seq_event hq t (.leaving (.table s.table) false) s.table _ (by simp)
          (.inl ⟨.store, _, rfl, rfl, rfl⟩) (.inl rfl) _
      | restore u =>
        refine seq_event hq t (.leaving .done false) u _ (by simp)
          (.inl ⟨.restore u, _, rfl, rfl, rfl⟩) (.inr ?_) _
        intro v n _ hv
        have := ha t b u rfl h v
        rw [hv] at this
        exact this trivial
      | query n => exact enter _ h
      | log m k => exact enter _ h
    | inside c =>
      cases c with
      | store => exact hq
      | restore u => exact hq
      | query n =>
        show Seq now (match indexOf s.table n with | some i => _ | none => _)
        cases hx : indexOf s.table n with
        | some i =>
          refine seq_event hq t (.leaving _ true) s.table _ (by simp)
            (.inl ⟨.query n, _, rfl, ?_, ?_⟩) (.inl rfl) _
          · simp [alone, query, hx]
          · simp [alone, query, hx]
        | none =>
          refine seq_move hq t (.missed n) _ _ ?_
          rintro _ ⟨⟩
          exact hx
      | log m k =>
        exact seq_event hq t (.reading m _ none none) s.table _ (by simp)
          (.inl ⟨.log m k, _, rfl, rfl, rfl⟩) (.inl rfl) _
    | missed n =>
      have hx := hq.absent t n h
      refine seq_event hq t (.leaving _ true) _ _ (by simp)
        (.inl ⟨.query n, _, rfl, ?_, ?_⟩) (.inr ?_) _
      · simp [alone, query, hx]
      · simp [alone, query, hx]
      · intro u m hu hm
        exact hu (hi.only (by rw [hm]; rfl) (by rw [h]; rfl))
    | reading m n x e =>
      cases x with
      | none =>
        cases e with
        | none =>
          show Seq now (if b = true then _ else _)
          split
          · exact seq_move hq t (.reading ..) _ _ (by simp)
          · exact seq_move hq t (.reading ..) _ _ (by simp)
        | some e => exact seq_move hq t (.reading ..) _ _ (by simp)
      | some x =>
        cases e with
        | none => exact seq_move hq t (.reading ..) _ _ (by simp)
        | some e => exact seq_move hq t (.leaving ..) _ _ (by simp)
    | leaving r held =>
      exact seq_event hq t .idle s.table (.returned t r) (by simp) (.inr ⟨rfl, by simp⟩) (.inl rfl) _

theorem seq_run {now start : Int} (as : List Act) : ∀ {s : State}, Inv s → Seq now s →
    Apart start s as → Seq now (run start s as) := by
  induction as with
  | nil => exact fun _ h _ => h
  | cons a as ih =>
    intro s hi hq ha
    exact ih (inv_step start hi a) (seq_step hi hq a ha.1) ha.2

/-! ### Names of kinds -/

/-- The kind of a query stands for the name as long as the table is not replaced. -/
def Stands (s : State) : Prop :=
  ∀ a t n k b, s.hist = a ++ .effect t (.query n) (.kind k) :: b →
    (∀ u c r, Obs.effect u (.restore c) r ∉ b) → ∃ i, k = BitVec.ofNat 32 i ∧ s.table[i]? = some n

theorem stands_same {s s' : State} (h : Stands s) (hh : s'.hist = s.hist) (ht : s'.table = s.table) :
    Stands s' := by
  unfold Stands
  rw [hh, ht]
  exact h

theorem stands_event {s : State} (h : Stands s) (o : Obs) (tb : Table)
    (ho : (∃ t u r, o = .effect t (.restore u) r) ∨
      (s.table <+: tb ∧ ∀ t n k, o = .effect t (.query n) (.kind k) →
        ∃ i, k = BitVec.ofNat 32 i ∧ tb[i]? = some n))
    {s' : State} (hh : s'.hist = s.hist ++ [o]) (ht : s'.table = tb) : Stands s' := by
  intro a t n k b he hb
  rw [hh] at he
  rw [ht]
  rcases List.eq_nil_or_concat b with rfl | ⟨b', x, rfl⟩
  · have e := List.append_inj' he rfl
    rw [List.cons.injEq] at e
    obtain ⟨_, rfl, _⟩ := e
    rcases ho with ⟨_, _, _, h⟩ | ⟨_, h⟩
    · cases h
    · exact h t n k rfl
  · have e : s.hist ++ [o] = (a ++ .effect t (.query n) (.kind k) :: b') ++ [x] := by
      rw [he]; simp
    obtain ⟨e1, e2⟩ := List.append_inj' e rfl
    rw [List.cons.injEq] at e2
    obtain ⟨rfl, _⟩ := e2
    obtain ⟨i, h1, h2⟩ := h a t n k b' e1 (fun u c r hm => hb u c r (by simp [hm]))
    rcases ho with ⟨u, c, r, rfl⟩ | ⟨hp, _⟩
    · exact absurd (by simp) (hb u c r)
    · exact ⟨i, h1, prefix_get hp h2⟩

theorem stands_step {start : Int} {s : State} (h : Stands s) (a : Act) : Stands (step start s a) := by
  cases a with
  | tick d => exact stands_same h rfl rfl
  | call t c =>
    show Stands (match s.th t with | .idle => _ | _ => s)
    cases hx : s.th t with
    | idle =>
      exact stands_event h (.called t c) s.table (.inr ⟨List.prefix_rfl, by simp⟩) rfl rfl
    | _ => exact h
  | go t b =>
    show Stands (go start s t b)
    unfold go
    cases hx : s.th t with
    | idle => exact h
    | entering c =>
      have enter : ∀ c,
          Stands (if s.owner = none then { s with owner := some t, th := s.to t (.inside c) }
            else s) := by
        intro c
        split
        · exact stands_same h rfl rfl
        · exact h
      cases c with
      | store => exact stands_event h (.effect ..) s.table (.inr ⟨List.prefix_rfl, by simp⟩) rfl rfl
      | restore u => exact stands_event h (.effect ..) u (.inl ⟨_, _, _, rfl⟩) rfl rfl
      | query n => exact enter _
      | log m k => exact enter _
    | inside c =>
      cases c with
      | store => exact h
      | restore u => exact h
      | query n =>
        show Stands (match indexOf s.table n with | some i => _ | none => _)
        cases hi : indexOf s.table n with
        | some i =>
          refine stands_event h (.effect ..) s.table (.inr ⟨List.prefix_rfl, ?_⟩) rfl rfl
          rintro _ _ _ ⟨⟩
          exact ⟨i, rfl, (indexOf_some hi).1⟩
        | none => exact stands_same h rfl rfl
      | log m k =>
        exact stands_event h (.effect ..) s.table (.inr ⟨List.prefix_rfl, by simp⟩) rfl rfl
    | missed n =>
      refine stands_event h (.effect ..) (s.table ++ [n]) (.inr ⟨List.prefix_append _ _, ?_⟩) rfl rfl
      rintro _ _ _ ⟨⟩
      exact ⟨s.table.length, rfl, by simp⟩
    | reading m n x e =>
      cases x with
      | none =>
        cases e with
        | none =>
          show Stands (if b = true then _ else _)
          split <;> exact stands_same h rfl rfl
        | some e => exact stands_same h rfl rfl
      | some x => cases e <;> exact stands_same h rfl rfl
    | leaving r held =>
      exact stands_event h (.returned ..) s.table (.inr ⟨List.prefix_rfl, by simp⟩) rfl rfl

theorem stands_run {start : Int} (as : List Act) : ∀ {s : State}, Stands s →
    Stands (run start s as) := by
  induction as with
  | nil => exact fun h => h
  | cons a as ih => exact fun h => ih (stands_step h a)

/-! ### Times of entries -/

/-- The times of the entries belong together, and those a thread has read are those of now. -/
structure Moment (start : Int) (s : State) : Prop where
  entries : ∀ e ∈ s.entries, e.epoch = e.sim - start
  sim : ∀ t m n x e, s.th t = .reading m n (some x) e → x = s.now
  epoch : ∀ t m n x e, s.th t = .reading m n x (some e) → e = s.now - start

theorem moment_move {start : Int} {s s' : State} (h : Moment start s) (t : Nat) (p : Pc)
    (he : s'.entries = s.entries) (hn : s'.now = s.now) (ht : s'.th = s.to t p)
    (h1 : ∀ m n x e, p = .reading m n (some x) e → x = s.now)
    (h2 : ∀ m n x e, p = .reading m n x (some e) → e = s.now - start) : Moment start s' where
  entries := by rw [he]; exact h.entries
  sim u m n x e hu := by
    rw [ht] at hu
    rw [hn]
    by_cases hut : u = t
    · subst hut; rw [to_same] at hu; exact h1 _ _ _ _ hu
    · rw [to_other s p hut] at hu; exact h.sim _ _ _ _ _ hu
  epoch u m n x e hu := by
    rw [ht] at hu
    rw [hn]
    by_cases hut : u = t
    · subst hut; rw [to_same] at hu; exact h2 _ _ _ _ hu
    · rw [to_other s p hut] at hu; exact h.epoch _ _ _ _ _ hu

theorem moment_step {start : Int} {s : State} (h : Moment start s) (a : Act)
    (ha : ∀ d, a = .tick d → ∀ t, ¬ (s.th t).isReading) : Moment start (step start s a) := by
  cases a with
  | tick d =>
    refine ⟨h.entries, ?_, ?_⟩
    · intro t m n x e ht
      have := ha d rfl t
      have ht : s.th t = _ := ht
      rw [ht] at this
      cases e <;> exact absurd trivial this
    · intro t m n x e ht
      have := ha d rfl t
      have ht : s.th t = _ := ht
      rw [ht] at this
      cases x <;> exact absurd trivial this
  | call t c =>
    show Moment start (match s.th t with | .idle => _ | _ => s)
    cases hx : s.th t with
    | idle => exact moment_move h t (.entering c) rfl rfl rfl (by simp) (by simp)
    | _ => exact h
  | go t b =>
    show Moment start (go start s t b)
    unfold go
    cases hx : s.th t with
    | idle => exact h
    | entering c =>
      have enter : ∀ c,
          Moment start (if s.owner = none then { s with owner := some t, th := s.to t (.inside c) }
            else s) := by
        intro c
        split
        · exact moment_move h t (.inside c) rfl rfl rfl (by simp) (by simp)
        · exact h
      cases c with
      | store => exact moment_move h t (.leaving ..) rfl rfl rfl (by simp) (by simp)
      | restore u => exact moment_move h t (.leaving ..) rfl rfl rfl (by simp) (by simp)
      | query n => exact enter _
      | log m k => exact enter _
    | inside c =>
      cases c with
      | store => exact h
      | restore u => exact h
      | query n =>
        show Moment start (match indexOf s.table n with | some i => _ | none => _)
        cases hi : indexOf s.table n with
        | some i => exact moment_move h t (.leaving ..) rfl rfl rfl (by simp) (by simp)
        | none => exact moment_move h t (.missed n) rfl rfl rfl (by simp) (by simp)
      | log m k => exact moment_move h t (.reading ..) rfl rfl rfl (by simp) (by simp)
    | missed n => exact moment_move h t (.leaving ..) rfl rfl rfl (by simp) (by simp)
    | reading m n x e =>
      cases x with
      | none =>
        cases e with
        | none =>
          show Moment start (if b = true then _ else _)
          split
          · exact moment_move h t (.reading m n (some s.now) none) rfl rfl rfl (by simp_all) (by simp)
          · exact moment_move h t (.reading m n none (some (s.now - start))) rfl rfl rfl (by simp)
              (by simp_all)
        | some e =>
          have he := h.epoch t m n _ e hx
          exact moment_move h t (.reading m n (some s.now) (some e)) rfl rfl rfl (by simp_all)
            (by simp_all)
      | some x =>
        have hxs := h.sim t m n x e hx
        cases e with
        | none =>
          exact moment_move h t (.reading m n (some x) (some (s.now - start))) rfl rfl rfl
            (by simp_all) (by simp_all)
        | some e =>
          have he := h.epoch t m n _ e hx
          have h' := moment_move (s' := { s with th := s.to t (.leaving (.named n) true) }) h t
            (.leaving (.named n) true) rfl rfl rfl (by simp) (by simp)
          refine ⟨?_, h'.sim, h'.epoch⟩
          intro en hen
          rcases List.mem_append.1 hen with hen | hen
          · exact h.entries en hen
          · rw [List.mem_singleton.1 hen]
            show e = x - start
            rw [he, hxs]
    | leaving r held => exact moment_move h t .idle rfl rfl rfl (by simp) (by simp)

theorem moment_run {start : Int} (as : List Act) : ∀ {s : State}, Moment start s →
    Calm start s as → Moment start (run start s as) := by
  induction as with
  | nil => exact fun h _ => h
  | cons a as ih => exact fun h hc => ih (moment_step h a hc.1) hc.2

/-! ### Bringing calls to their end -/

theorem run_append (start : Int) (s : State) (as bs : List Act) :
    run start s (as ++ bs) = run start (run start s as) bs := by
  unfold run
  rw [List.foldl_append]

/-- `_mutex` is taken by queries and logs only. -/
def Good (s : State) : Prop :=
  ∀ t c, s.th t = .inside c → (∃ n, c = .query n) ∨ ∃ m k, c = .log m k

theorem good_move {s s' : State} (h : Good s) (t : Nat) (p : Pc) (ht : s'.th = s.to t p)
    (hp : ∀ c, p = .inside c → (∃ n, c = .query n) ∨ ∃ m k, c = .log m k) : Good s' := by
  intro u c hu
  rw [ht] at hu
  by_cases hut : u = t
  · subst hut; rw [to_same] at hu; exact hp c hu
  · rw [to_other s p hut] at hu; exact h u c hu

/-- How many steps a thread still has to make, at most. -/
def Pc.left : Pc → Nat
  | .idle => 0
  | .entering _ => 6
  | .inside _ => 5
  | .missed _ => 2
  | .reading _ _ none none => 4
  | .reading _ _ (some _) (some _) => 2
  | .reading .. => 3
  | .leaving .. => 1

/-- A step of a thread that does not have to wait. -/
structure Forth (t : Nat) (s s' : State) : Prop where
  left : (s'.th t).left < (s.th t).left
  other : ∀ u, u ≠ t → s'.th u = s.th u
  owner : s'.owner = none ∨ s'.owner = some t
  free : s'.th t = .idle → s.owner = none ∨ (s.th t).holds = true → s'.owner = none

theorem good_go {start : Int} {s : State} (h : Good s) (t : Nat) (b : Bool) : Good (go start s t b) := by
  unfold go
  cases hx : s.th t with
  | idle => exact h
  | entering c =>
    cases c with
    | store => exact good_move h t _ rfl (by simp)
    | restore u => exact good_move h t _ rfl (by simp)
    | query n =>
      show Good (if s.owner = none then _ else _)
      split
      · exact good_move h t _ rfl (by simp)
      · exact h
    | log m k =>
      show Good (if s.owner = none then _ else _)
      split
      · exact good_move h t _ rfl (by simp)
      · exact h
  | inside c =>
    cases c with
    | store => exact h
    | restore u => exact h
    | query n =>
      show Good (match indexOf s.table n with | some i => _ | none => _)
      split
      · exact good_move h t _ rfl (by simp)
      · exact good_move h t _ rfl (by simp)
    | log m k => exact good_move h t _ rfl (by simp)
  | missed n => exact good_move h t _ rfl (by simp)
  | reading m n x e =>
    cases x with
    | none =>
      cases e with
      | none =>
        show Good (if b = true then _ else _)
        split
        · exact good_move h t _ rfl (by simp)
        · exact good_move h t _ rfl (by simp)
      | some e => exact good_move h t _ rfl (by simp)
    | some x => cases e <;> exact good_move h t _ rfl (by simp)
  | leaving r held => exact good_move h t _ rfl (by simp)

theorem good_step {start : Int} {s : State} (h : Good s) (a : Act) : Good (step start s a) := by
  cases a with
  | tick d => exact h
  | call t c =>
    show Good (match s.th t with | .idle => _ | _ => s)
    cases hx : s.th t with
    | idle => exact good_move h t _ rfl (by simp)
    | _ => exact h
  | go t b => exact good_go h t b

theorem good_run {start : Int} (as : List Act) : ∀ {s : State}, Good s → Good (run start s as) := by
  induction as with
  | nil => exact fun h => h
  | cons a as ih => exact fun h => ih (good_step h a)

theorem forth_move {s s' : State} {t : Nat} (p : Pc) (ht : s'.th = s.to t p)
    (hl : p.left < (s.th t).left) (ho : s'.owner = none ∨ s'.owner = some t)
    (hf : p = .idle → s.owner = none ∨ (s.th t).holds = true → s'.owner = none) : Forth t s s' where
  left := by rw [ht, to_same]; exact hl
  other u hu := by rw [ht, to_other s p hu]
  owner := ho
  free h := by rw [ht, to_same] at h; exact hf h

theorem forth_go {start : Int} {s : State} (hg : Good s) {t : Nat} (hn : s.th t ≠ .idle)
    (ho : s.owner = none ∨ s.owner = some t) (hw : s.owner = none ∨ (s.th t).holds = true) (b : Bool) :
    Forth t s (go start s t b) := by
  unfold go
  cases hx : s.th t with
  | idle => exact absurd hx hn
  | entering c =>
    have hno : s.owner = none := by
      rcases hw with h | h
      · exact h
      · rw [hx] at h; cases h
    cases c with
    | store => exact forth_move _ rfl (by rw [hx]; simp [Pc.left]) ho (by simp)
    | restore u => exact forth_move _ rfl (by rw [hx]; simp [Pc.left]) ho (by simp)
    | query n =>
      show Forth t s (if s.owner = none then _ else _)
      rw [if_pos hno]
      exact forth_move _ rfl (by rw [hx]; simp [Pc.left]) (.inr rfl) (by simp)
    | log m k =>
      show Forth t s (if s.owner = none then _ else _)
      rw [if_pos hno]
      exact forth_move _ rfl (by rw [hx]; simp [Pc.left]) (.inr rfl) (by simp)
  | inside c =>
    rcases hg t c hx with ⟨n, rfl⟩ | ⟨m, k, rfl⟩
    · show Forth t s (match indexOf s.table n with | some i => _ | none => _)
      split
      · exact forth_move _ rfl (by rw [hx]; simp [Pc.left]) ho (by simp)
      · exact forth_move _ rfl (by rw [hx]; simp [Pc.left]) ho (by simp)
    · exact forth_move _ rfl (by rw [hx]; simp [Pc.left]) ho (by simp)
  | missed n => exact forth_move _ rfl (by rw [hx]; simp [Pc.left]) ho (by simp)
  | reading m n x e =>
    cases x with
    | none =>
      cases e with
      | none =>
        show Forth t s (if b = true then _ else _)
        split
        · exact forth_move _ rfl (by rw [hx]; simp [Pc.left]) ho (by simp)
        · exact forth_move _ rfl (by rw [hx]; simp [Pc.left]) ho (by simp)
      | some e => exact forth_move _ rfl (by rw [hx]; simp [Pc.left]) ho (by simp)
    | some x => cases e <;> exact forth_move _ rfl (by rw [hx]; simp [Pc.left]) ho (by simp)
  | leaving r held =>
    refine forth_move .idle rfl (by rw [hx]; simp [Pc.left]) ?_ ?_
    · cases held
      · exact ho
      · exact .inl rfl
    · intro _ h
      cases held with
      | true => rfl
      | false =>
        rcases h with h | h
        · exact h
        · rw [hx] at h; cases h

/-- A thread that does not have to wait can be brought to the end of its call, alone. -/
theorem finish_one {start : Int} : ∀ (n : Nat) {s : State} (t : Nat), Inv s → Good s →
    (s.th t).left ≤ n → s.owner = none ∨ (s.th t).holds = true →
    ∃ gs : List (Nat × Bool), let s' := run start s (gs.map fun g => .go g.1 g.2)
      s'.th t = .idle ∧ s'.owner = none ∧ ∀ u, u ≠ t → s'.th u = s.th u := by
  intro n
  induction n with
  | zero =>
    intro s t hi hg hl hw
    have h : s.th t = .idle := by
      cases h : s.th t with
      | idle => rfl
      | reading m n x e => rw [h] at hl; cases x <;> cases e <;> simp [Pc.left] at hl
      | _ => rw [h] at hl; simp [Pc.left] at hl
    refine ⟨[], h, ?_, fun _ _ => rfl⟩
    rcases hw with hw | hw
    · exact hw
    · rw [h] at hw; cases hw
  | succ n ih =>
    intro s t hi hg hl hw
    by_cases hid : s.th t = .idle
    · refine ⟨[], hid, ?_, fun _ _ => rfl⟩
      rcases hw with hw | hw
      · exact hw
      · rw [hid] at hw; cases hw
    · have ho : s.owner = none ∨ s.owner = some t := hw.imp id (fun h => (hi.own t).2 h)
      have hf := forth_go (start := start) hg hid ho hw true
      have hi' := inv_go start hi t true
      have hw' : (go start s t true).owner = none ∨ ((go start s t true).th t).holds = true :=
        hf.owner.imp id (fun h => (hi'.own t).1 h)
      obtain ⟨gs, h1, h2, h3⟩ := ih t hi' (good_go hg t true) (by have := hf.left; omega) hw'
      exact ⟨(t, true) :: gs, h1, h2, fun u hu => (h3 u hu).trans (hf.other u hu)⟩

/-- The threads that have called. -/
def callers (as : List Act) : List Nat :=
  as.filterMap fun a => match a with | .call t _ => some t | _ => none

theorem idle_step {start : Int} {s : State} (a : Act) (t : Nat) (h : s.th t = .idle)
    (ha : ∀ c, a ≠ .call t c) : (step start s a).th t = .idle := by
  cases a with
  | tick d => exact h
  | call u c =>
    have hu : t ≠ u := by rintro rfl; exact ha c rfl
    show (match s.th u with | .idle => _ | _ => s : State).th t = .idle
    cases s.th u with
    | idle => exact (to_other s _ hu).trans h
    | _ => exact h
  | go u b =>
    by_cases hu : t = u
    · subst hu
      show (go start s t b).th t = .idle
      unfold go
      rw [h]
      exact h
    · show (go start s u b).th t = .idle
      unfold go
      have key : ∀ p, s.to u p t = .idle := fun p => (to_other s p hu).trans h
      cases s.th u with
      | idle => exact h
      | entering c =>
        cases c with
        | store => exact key _
        | restore v => exact key _
        | query n =>
          show (if s.owner = none then _ else _ : State).th t = .idle
          split
          · exact key _
          · exact h
        | log m k =>
          show (if s.owner = none then _ else _ : State).th t = .idle
          split
          · exact key _
          · exact h
      | inside c =>
        cases c with
        | store => exact h
        | restore v => exact h
        | query n =>
          show (match indexOf s.table n with | some i => _ | none => _ : State).th t = .idle
          split
          · exact key _
          · exact key _
        | log m k => exact key _
      | missed n => exact key _
      | reading m n x e =>
        cases x with
        | none =>
          cases e with
          | none =>
            show (if b = true then _ else _ : State).th t = .idle
            split
            · exact key _
            · exact key _
          | some e => exact key _
        | some x => cases e <;> exact key _
      | leaving r held => exact key _

theorem idle_run {start : Int} (as : List Act) (t : Nat) : ∀ {s : State}, s.th t = .idle →
    t ∉ callers as → (run start s as).th t = .idle := by
  induction as with
  | nil => exact fun h _ => h
  | cons a as ih =>
    intro s h ht
    have h1 : t ∉ callers as := by
      intro hm
      apply ht
      unfold callers at hm ⊢
      rw [List.filterMap_cons]
      split
      · exact hm
      · exact List.mem_cons_of_mem _ hm
    refine ih (idle_step a t h ?_) h1
    rintro c rfl
    exact ht (by simp [callers])

theorem finish_all {start : Int} (ts : List Nat) : ∀ {s : State}, Inv s → Good s → s.owner = none →
    ∃ gs : List (Nat × Bool), let s' := run start s (gs.map fun g => .go g.1 g.2)
      (∀ t ∈ ts, s'.th t = .idle) ∧ ∀ t, s.th t = .idle → s'.th t = .idle := by
  induction ts with
  | nil => exact fun _ _ _ => ⟨[], by simp, fun _ h => h⟩
  | cons t ts ih =>
    intro s hi hg ho
    obtain ⟨gs, h1, h2, h3⟩ := finish_one (start := start) _ t hi hg (Nat.le_refl _) (.inl ho)
    obtain ⟨gs', k1, k2⟩ := ih (inv_run (gs.map fun g => .go g.1 g.2) hi)
      (good_run (start := start) (gs.map fun g => .go g.1 g.2) hg) h2
    refine ⟨gs ++ gs', ?_⟩
    rw [List.map_append, run_append]
    refine ⟨?_, ?_⟩
    · intro u hu
      rcases List.mem_cons.1 hu with rfl | hu
      · exact k2 _ h1
      · exact k1 u hu
    · intro u hu
      apply k2
      by_cases hut : u = t
      · subst hut; exact h1
      · rw [h3 u hut]; exact hu

/-! ### C110 -/

/-- C110, one after the other. If no `Restore` takes effect while a query adds a name, the calls
have their effects one after the other, whatever the threads call and however they are interleaved:
each call has its effect between its beginning and its end (`Proper`), its result is the one it has
in the sequence of effects (`Legal`), and the table is the one of this sequence. Partial: the
condition is needed (`C110_restore_fails`). -/
theorem C110_order_partial (start now : Int) (as : List Act) (ha : Apart start (init now) as) :
    Legal predefined (reach start now as).hist ∧
    (reach start now as).table = after predefined (reach start now as).hist ∧
    ∀ t, ∃ st, Proper t (reach start now as).hist st ∧
      (st = .idle ↔ (reach start now as).th t = .idle) := by
  have hi := inv_run (start := start) as (inv_init now)
  have hq := seq_run (start := start) as (inv_init now)
    (now := now) ⟨rfl, trivial, by simp [init]⟩ ha
  refine ⟨hq.legal, hq.table, fun t => ⟨_, hi.proper t, ?_⟩⟩
  show _ ↔ (run start (init now) as).th t = .idle
  cases (run start (init now) as).th t <;> simp [Pc.status]

/-- C110, kinds keep their names. In every interleaving, also with `Restore`, the kind a query has
returned stands for the name asked for until the table is replaced by a `Restore`. -/
theorem C110_named (start now : Int) (as : List Act) (a b : List Obs) (t : Nat) (n : String)
    (k : BitVec 32)
    (hh : (reach start now as).hist = a ++ .effect t (.query n) (.kind k) :: b)
    (hb : ∀ u c r, Obs.effect u (.restore c) r ∉ b)
    (hl : (reach start now as).table.length ≤ 2 ^ 32) :
    kindName (reach start now as).table k = n := by
  have hs : Stands (init now) := by
    intro a t n k b he
    cases a <;> cases he
  obtain ⟨i, rfl, h2⟩ := stands_run (start := start) as hs a t n k b hh hb
  have hlt : i < (reach start now as).table.length := by
    rw [List.getElem?_eq_some_iff] at h2
    exact h2.1
  unfold kindName
  rw [BitVec.toNat_ofNat, Nat.mod_eq_of_lt (by omega)]
  show (match (run start (init now) as).table[i]? with | some n => n | none => _) = n
  rw [h2]

/-- C110, entries. In every interleaving, the entries handed over are the messages logged with the
names of their kinds, in the order of the calls; at most the last one is still to come, while its
`Log` has not returned. -/
theorem C110_entries (start now : Int) (as : List Act) :
    ∃ rest, logged (reach start now as).hist =
      ((reach start now as).entries.map fun e => (e.msg, e.kind)) ++ rest ∧ rest.length ≤ 1 ∧
      ((∀ t, (reach start now as).th t = .idle) → rest = []) := by
  have hi := inv_run (start := start) as (inv_init now)
  refine ⟨_, hi.said, ?_, ?_⟩
  · split
    · simp
    · rename_i t _
      cases (run start (init now) as).th t <;> simp [Pc.pending]
  · intro hid
    split
    · rfl
    · rename_i t ht
      have := (hi.own t).1 ht
      have hid := hid t
      unfold reach at hid
      rw [hid] at this
      cases this

/-- C110, times. In every interleaving, the simulation times of the entries handed over do not go
back. -/
theorem C110_times (start now : Int) (as : List Act) :
    (reach start now as).entries.Pairwise fun a b => a.sim ≤ b.sim :=
  (inv_run (start := start) as (inv_init now)).sorted

/-- C110, times of one entry. If the simulation time does not advance while a thread reads the times
of an entry, the simulation time and the epoch time in every entry are of the same moment. Partial:
the condition is needed (`C110_moment_fails`). -/
theorem C110_moment_partial (start now : Int) (as : List Act) (hc : Calm start (init now) as) :
    ∀ e ∈ (reach start now as).entries, e.epoch = e.sim - start :=
  (moment_run as ⟨by simp [init], by simp [init], by simp [init]⟩ hc).entries

/-- C110, no deadlock. Whatever has happened, the threads in calls can bring them to their end. -/
theorem C110_live (start now : Int) (as : List Act) :
    ∃ gs : List (Nat × Bool), ∀ t,
      (run start (reach start now as) (gs.map fun g => .go g.1 g.2)).th t = .idle := by
  have hi := inv_run (start := start) as (inv_init now)
  have hg := good_run (start := start) as (s := init now) (by intro t c h; cases h)
  have hid : ∀ t, t ∉ callers as → (reach start now as).th t = .idle :=
    fun t ht => idle_run as t rfl ht
  have fin : ∀ (s : State), Inv s → Good s → s.owner = none →
      (∀ t, t ∉ callers as → s.th t = .idle) → ∃ gs : List (Nat × Bool), ∀ t,
        (run start s (gs.map fun g => .go g.1 g.2)).th t = .idle := by
    intro s hi hg ho hid
    obtain ⟨gs, h1, h2⟩ := finish_all (start := start) (callers as) hi hg ho
    refine ⟨gs, fun t => ?_⟩
    by_cases ht : t ∈ callers as
    · exact h1 t ht
    · exact h2 t (hid t ht)
  cases ho : (reach start now as).owner with
  | none => exact fin _ hi hg ho hid
  | some t =>
    obtain ⟨gs, h1, h2, h3⟩ := finish_one (start := start) _ t hi hg (Nat.le_refl _)
      (.inr ((hi.own t).1 ho))
    obtain ⟨gs', k⟩ := fin _ (inv_run (gs.map fun g => .go g.1 g.2) hi)
      (good_run (start := start) (gs.map fun g => .go g.1 g.2) hg) h2 (by
        intro u hu
        by_cases hut : u = t
        · subst hut; exact h1
        · exact (h3 u hut).trans (hid u hu))
    refine ⟨gs ++ gs', fun u => ?_⟩
    rw [List.map_append, run_append]
    exact k u

/-- Thread `t` makes a call alone, to its end. -/
def whole (t : Nat) (c : Call) : List Act := .call t c :: List.replicate 6 (.go t true)

/-- Two threads: one queries "A" twice while the other one logs and stores. -/
def demo : List Act :=
  [.call 1 (.query "A"), .call 2 (.log 7 2), .go 1 true, .go 2 true, .go 1 true, .go 1 true, .tick 3,
   .go 1 true] ++ [.go 2 false, .go 2 false, .go 2 false, .go 2 false, .tick 4, .go 2 false,
   .go 2 false] ++ whole 1 (.log 8 5) ++ whole 2 .store ++ whole 1 (.query "A")

example : (reach 10 0 demo).entries = [⟨7, "Warning", 3, -7⟩, ⟨8, "A", 7, -3⟩] ∧
    (reach 10 0 demo).table = predefined ++ ["A"] ∧
    Obs.effect 1 (.query "A") (.kind 5) ∈ (reach 10 0 demo).hist ∧ (reach 10 0 demo).hist.length = 15 := by
  decide +kernel

/-- Nobody has `_mutex` when a `Restore` takes effect or the simulation time advances. -/
def apartTest (start : Int) : State → List Act → Bool
  | _, [] => true
  | s, a :: as => free1 s a && apartTest start (step start s a) as
where
  free1 (s : State) : Act → Bool
    | .go t _ => match s.th t with
      | .entering (.restore _) => s.owner.isNone
      | _ => true
    | .tick _ => s.owner.isNone
    | .call .. => true

theorem apart_of_test {start : Int} (as : List Act) : ∀ {s : State}, Inv s →
    apartTest start s as = true → Apart start s as ∧ Calm start s as := by
  induction as with
  | nil => exact fun _ _ => ⟨trivial, trivial⟩
  | cons a as ih =>
    intro s hi h
    rw [apartTest, Bool.and_eq_true] at h
    obtain ⟨k1, k2⟩ := ih (inv_step start hi a) h.2
    have free : s.owner.isNone = true → ∀ t, (s.th t).holds = false := by
      intro ho t
      cases hh : (s.th t).holds with
      | false => rfl
      | true => rw [(hi.own t).2 hh] at ho; cases ho
    refine ⟨⟨?_, k1⟩, ?_, k2⟩
    · rintro t b u rfl hu t' hm
      have h1 : apartTest.free1 s (.go t b) = true := h.1
      simp only [apartTest.free1, hu] at h1
      have := free h1 t'
      cases hx : s.th t' <;> rw [hx] at hm this
      all_goals first | exact hm | cases this
    · rintro d rfl t hm
      have := free h.1 t
      cases hx : s.th t <;> rw [hx] at hm this
      all_goals first | exact hm | cases this

/-- The conditions of `C110_order_partial` and `C110_moment_partial` are met by interleavings with
waiting threads, a `Restore` and time that advances. -/
def demo2 : List Act :=
  [.call 1 (.query "A"), .call 2 (.log 7 2), .go 1 true, .go 2 true, .go 1 true, .go 2 true,
   .call 3 (.restore ["X"]), .go 1 true, .go 1 true, .tick 3] ++
  [.go 3 true, .go 2 true, .go 2 true, .go 3 true, .go 2 true, .go 2 true, .go 2 true, .go 2 true,
   .tick 5] ++ whole 3 (.query "B")

example : Apart 10 (init 0) demo2 ∧ Calm 10 (init 0) demo2 :=
  apart_of_test demo2 (inv_init 0) (by decide +kernel)

example : (reach 10 0 demo2).table = ["X", "B"] ∧
    (reach 10 0 demo2).entries = [⟨7, "<unknown: 2>", 3, -7⟩] := by decide +kernel

/-- C110 fails with `Restore`: it falls between the search for the name and the addition of the name;
the name is then twice in the table, and the next query returns another kind for the same name. -/
theorem C110_restore_fails (start now : Int) : ∃ as, ∃ k l : BitVec 32, k ≠ l ∧
    (∃ a b c, (reach start now as).hist =
      a ++ .returned 1 (.kind k) :: .called 1 (.query "A") :: b ++ .returned 1 (.kind l) :: c ∧
      Obs.effect 1 (.query "A") (.kind k) ∈ a ∧ (∀ u t r, Obs.effect u (.restore t) r ∉ b)) := by
  refine ⟨[.call 1 (.query "A"), .go 1 true, .go 1 true, .call 2 (.restore (predefined ++ ["A"])),
    .go 2 true, .go 2 true, .go 1 true, .go 1 true, .call 1 (.query "A"), .go 1 true, .go 1 true,
    .go 1 true], 6, 5, by decide, ?_⟩
  refine ⟨[.called 1 (.query "A"), .called 2 (.restore (predefined ++ ["A"])),
    .effect 2 (.restore (predefined ++ ["A"])) .done, .returned 2 .done,
    .effect 1 (.query "A") (.kind 6)], [.effect 1 (.query "A") (.kind 5)], [], by rfl, by simp, ?_⟩
  intro u t r h
  cases h with
  | tail _ h => cases h

/-- C110 fails when the simulation time advances while a thread logs: the entry has the simulation
time of one moment and the epoch time of another one. -/
theorem C110_moment_fails (start now : Int) : ∃ as,
    ∃ e ∈ (reach start now as).entries, e.epoch ≠ e.sim - start := by
  refine ⟨[.call 1 (.log 7 0), .go 1 true, .go 1 true, .go 1 true, .tick 1, .go 1 true, .go 1 true],
    ⟨7, "Information", now, now + 1 - start⟩, List.mem_singleton_self _, ?_⟩
  show now + 1 - start ≠ now - start
  omega

end Verif.Log.Threads
