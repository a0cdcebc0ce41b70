/-
Property C132: what is left of the simulator when an operation has ended, normally or by an
exception. About the model of `Verif/Sim/Model.lean` (Simulator.cpp:165-569).
-/
import Verif.Sim.Inv

namespace Verif.Sim

/-! ### Specification -/

/-- The states of a simulation that can be worked with (Building, Standby, Executing) or that has
been ended on purpose (Exiting, Aborting). The others are those of a transition.
(Used in Simulator.cpp:165-569.) -/
def St.settled : St → Prop
  | .building | .standby | .executing | .exiting | .aborting => True
  | .connecting | .initialising | .storing | .restoring | .reconnecting => False

instance (st : St) : Decidable st.settled := by
  cases st <;> unfold St.settled <;> infer_instance

/-- The operations that each state offers. (Simulator.cpp:167, 186, 208, 258, 286, 308, 333, 396,
460, 487, 521.) -/
def St.offers : St → Op → Prop
  | _, .abort => True
  | .building, .publish | .building, .configure | .building, .connect => True
  | .standby, .initialise | .standby, .run | .standby, .runFor | .standby, .store
  | .standby, .restore | .standby, .reconnect | .standby, .exit => True
  | .executing, .hold => True
  | _, _ => False

/-! ### Lemmas -/

/-- After each change to a state of a transition, the operation still changes to Standby. -/
def Back : List M → Prop
  | [] => True
  | .set s :: r => (¬ s.settled → M.set .standby ∈ r) ∧ Back r
  | _ :: r => Back r

theorem Back.tail {m : M} {r : List M} (h : Back (m :: r)) : Back r := by
  cases m <;> first | exact h.2 | exact h

theorem back_prog (o : Op) : Back o.prog := by
  cases o <;> simp [Op.prog, Back, St.settled]

theorem back_inits (l : List Nat) {r : List M} (h : Back r) :
    Back (l.flatMap (fun p => [M.runInit p, .endInit]) ++ r) := by
  induction l with
  | nil => exact h
  | cons p l ih => exact ih

theorem push_of_ne {r : List M} {fs : List (List M)} (h : r ≠ []) : push r fs = r :: fs := if_neg h

/-- A frame other than the first stays. -/
theorem mem_push_tail {f r : List M} {fs : List (List M)} (h : f ∈ fs) : f ∈ push r fs := by
  unfold push
  split
  · exact h
  · exact List.mem_cons_of_mem _ h

/-- Without exceptions. -/
structure Home (s : S) : Prop where
  back : ∀ f ∈ s.stack, Back f
  way : ¬ s.state.settled → ∃ f ∈ s.stack, M.set .standby ∈ f

theorem Home.keep {s t : S} (h : Home s) {m : M} {r q : List M} {fs : List (List M)}
    (hs : s.stack = (m :: r) :: fs) (hm : m ≠ .set .standby) (ht : t.stack = push q fs)
    (hst : t.state = s.state) (hq : Back q) (hin : ∀ n ∈ r, n ∈ q) : Home t := by
  refine ⟨?_, ?_⟩
  · intro f hf
    rw [ht] at hf
    rcases mem_push hf with ⟨rfl, _⟩ | hf
    · exact hq
    · exact h.back f (by rw [hs]; exact List.mem_cons_of_mem _ hf)
  · intro hn
    rw [hst] at hn
    obtain ⟨f, hf, hb⟩ := h.way hn
    rw [hs] at hf
    rcases List.mem_cons.1 hf with hf' | hf'
    · rw [hf'] at hb
      rcases List.mem_cons.1 hb with hb' | hb'
      · exact absurd hb'.symm hm
      · have := hin _ hb'
        refine ⟨q, ?_, this⟩
        rw [ht, push_of_ne (List.ne_nil_of_mem this)]
        exact List.mem_cons_self
    · exact ⟨f, by rw [ht]; exact mem_push_tail hf', hb⟩

theorem Home.micro {s : S} (h : Home s) : Home s.micro := by
  unfold S.micro
  cases hs : s.stack with
  | nil => exact h
  | cons f fs =>
    cases f with
    | nil =>
      refine ⟨fun g hg => h.back g (by rw [hs]; exact List.mem_cons_of_mem _ hg), fun hn => ?_⟩
      obtain ⟨g, hg, hb⟩ := h.way hn
      rw [hs] at hg
      rcases List.mem_cons.1 hg with hg' | hg'
      · rw [hg'] at hb; cases hb
      · exact ⟨g, hg', hb⟩
    | cons m r =>
      have hb : Back (m :: r) := h.back _ (by rw [hs]; exact List.mem_cons_self)
      cases m with
      | set t =>
        dsimp only
        refine ⟨?_, ?_⟩
        · intro g hg
          rcases mem_push hg with ⟨rfl, _⟩ | hg'
          · exact hb.2
          · exact h.back g (by rw [hs]; exact List.mem_cons_of_mem _ hg')
        · intro hn
          have := hb.1 hn
          refine ⟨r, ?_, this⟩
          rw [push_of_ne (List.ne_nil_of_mem this)]
          exact List.mem_cons_self
      | emit e => exact h.keep hs (by simp) rfl rfl hb.tail (fun n hn => hn)
      | endEmit => exact h.keep hs (by simp) rfl rfl hb.tail (fun n hn => hn)
      | work => exact h.keep hs (by simp) rfl rfl hb.tail (fun n hn => hn)
      | swapInit =>
        exact h.keep hs (by simp) rfl rfl (back_inits _ hb.tail)
          (fun n hn => List.mem_append_right _ hn)
      | runInit p => exact h.keep hs (by simp) rfl rfl hb.tail (fun n hn => hn)
      | endInit => exact h.keep hs (by simp) rfl rfl hb.tail (fun n hn => hn)

theorem Home.step {s : S} (h : Home s) (i : In) (hi : i ≠ .raise) : Home (step s i) := by
  cases i with
  | call o =>
    unfold Verif.Sim.step
    dsimp only
    split
    · refine ⟨?_, ?_⟩
      · intro f hf
        rcases List.mem_cons.1 hf with rfl | hf'
        · exact back_prog o
        · exact h.back f hf'
      · intro hn
        obtain ⟨f, hf, hb⟩ := h.way hn
        exact ⟨f, List.mem_cons_of_mem _ hf, hb⟩
    · exact h
  | addInit p =>
    unfold Verif.Sim.step
    dsimp only
    split
    · exact ⟨h.back, h.way⟩
    · exact h
  | raise => exact absurd rfl hi
  | go => exact h.micro

theorem Home.run (ins : List In) (h : .raise ∉ ins) {s : S} (hs : Home s) : Home (run s ins) := by
  induction ins generalizing s with
  | nil => exact hs
  | cons i ins ih =>
    exact ih (fun hh => h (List.mem_cons_of_mem _ hh))
      (hs.step i (fun hh => h (by rw [hh]; exact List.mem_cons_self)))

theorem Home.new : Home S.new :=
  ⟨fun f hf => (List.not_mem_nil hf).elim, fun hn => absurd trivial hn⟩

/-- An event is being emitted only while an operation waits for its subscribers. -/
def Waits (s : S) : Prop :=
  (s.last ≠ none → ∃ f ∈ s.stack, f.head? = some .endEmit) ∧
    ∀ f ∈ s.stack, ∀ a e b, f = a ++ .emit e :: b → b.head? = some .endEmit

theorem emits_prog (o : Op) : ∀ a e b, o.prog = a ++ .emit e :: b → b.head? = some .endEmit := by
  intro a e b h
  have key : ∀ (p : List M), (∀ i, i < p.length → ∀ e, p[i]? = some (.emit e) →
      p[i + 1]? = some .endEmit) → ∀ a e b, p = a ++ .emit e :: b → b.head? = some .endEmit := by
    intro p hp a e b h
    have := hp a.length (by rw [h]; simp) e (by rw [h]; simp)
    rw [h, List.getElem?_append_right (by omega)] at this
    have e2 : a.length + 1 - a.length = 1 := by omega
    rw [e2] at this
    cases b with
    | nil => simp at this
    | cons m b => simpa using this
  refine key _ ?_ a e b h
  intro i hi e he
  cases o <;>
    (simp only [Op.prog, List.length_cons, List.length_nil] at hi
     rcases i with _ | _ | _ | _ | _ | _ | _ | _ | _ | _ | _ | _ | _ | _ <;>
       first | rfl | (simp [Op.prog] at he; done) | omega)

theorem emits_inits (l : List Nat) {r : List M}
    (h : ∀ a e b, r = a ++ .emit e :: b → b.head? = some .endEmit) :
    ∀ a e b, l.flatMap (fun p => [M.runInit p, .endInit]) ++ r = a ++ .emit e :: b →
      b.head? = some .endEmit := by
  induction l with
  | nil => exact h
  | cons p l ih =>
    intro a e b hab
    simp only [List.flatMap_cons, List.cons_append, List.nil_append] at hab
    match a, hab with
    | [], hab => simp at hab
    | [_], hab => simp at hab
    | _ :: _ :: a, hab =>
      simp only [List.cons_append, List.cons.injEq] at hab
      exact ih a e b hab.2.2

theorem Waits.keep {s t : S} (h : Waits s) {m : M} {r q : List M} {fs : List (List M)}
    (hs : s.stack = (m :: r) :: fs) (hm : m ≠ .endEmit) (ht : t.stack = push q fs)
    (hl : t.last = s.last)
    (hq : ∀ a e b, q = a ++ .emit e :: b → b.head? = some .endEmit) : Waits t := by
  refine ⟨?_, ?_⟩
  · intro hn
    rw [hl] at hn
    obtain ⟨f, hf, hb⟩ := h.1 hn
    rw [hs] at hf
    rcases List.mem_cons.1 hf with hf' | hf'
    · rw [hf'] at hb
      injection hb with hb
      exact absurd hb hm
    · exact ⟨f, by rw [ht]; exact mem_push_tail hf', hb⟩
  · intro f hf
    rw [ht] at hf
    rcases mem_push hf with ⟨rfl, _⟩ | hf'
    · exact hq
    · exact h.2 f (by rw [hs]; exact List.mem_cons_of_mem _ hf')

theorem Waits.micro {s : S} (h : Waits s) : Waits s.micro := by
  unfold S.micro
  cases hs : s.stack with
  | nil => exact h
  | cons f fs =>
    cases f with
    | nil =>
      refine ⟨fun hn => ?_, fun g hg => h.2 g (by rw [hs]; exact List.mem_cons_of_mem _ hg)⟩
      obtain ⟨g, hg, hb⟩ := h.1 hn
      rw [hs] at hg
      rcases List.mem_cons.1 hg with hg' | hg'
      · rw [hg'] at hb; cases hb
      · exact ⟨g, hg', hb⟩
    | cons m r =>
      have he : ∀ a e b, r = a ++ .emit e :: b → b.head? = some .endEmit := fun a e b hr =>
        h.2 (m :: r) (by rw [hs]; exact List.mem_cons_self) (m :: a) e b (by rw [hr]; rfl)
      have hrest : ∀ g ∈ push r fs, ∀ a e b, g = a ++ .emit e :: b → b.head? = some .endEmit := by
        intro g hg
        rcases mem_push hg with ⟨rfl, _⟩ | hg'
        · exact he
        · exact h.2 g (by rw [hs]; exact List.mem_cons_of_mem _ hg')
      cases m with
      | set t => exact h.keep hs (by simp) rfl rfl he
      | emit e =>
        dsimp only
        refine ⟨fun _ => ?_, hrest⟩
        have := h.2 (.emit e :: r) (by rw [hs]; exact List.mem_cons_self) [] e r rfl
        refine ⟨r, ?_, this⟩
        rw [push_of_ne (by intro hr; rw [hr] at this; cases this)]
        exact List.mem_cons_self
      | endEmit => exact ⟨fun hn => absurd rfl hn, hrest⟩
      | work => exact h.keep hs (by simp) rfl rfl he
      | swapInit => exact h.keep hs (by simp) rfl rfl (emits_inits _ he)
      | runInit p => exact h.keep hs (by simp) rfl rfl he
      | endInit => exact h.keep hs (by simp) rfl rfl he

theorem Waits.drop {s : S} (h : Waits s) {m : M} {r : List M} {fs : List (List M)}
    (hs : s.stack = (m :: r) :: fs) (hm : m ≠ .endEmit) : Waits { s with stack := fs } := by
  refine ⟨?_, fun f hf => h.2 f (by rw [hs]; exact List.mem_cons_of_mem _ hf)⟩
  intro hn
  obtain ⟨f, hf, hb⟩ := h.1 hn
  rw [hs] at hf
  rcases List.mem_cons.1 hf with hf' | hf'
  · rw [hf'] at hb
    injection hb with hb
    exact absurd hb hm
  · exact ⟨f, hf', hb⟩

theorem Waits.step {s : S} (h : Waits s) (i : In) : Waits (step s i) := by
  cases i with
  | call o =>
    unfold Verif.Sim.step
    dsimp only
    split
    · refine ⟨?_, ?_⟩
      · intro hn
        obtain ⟨f, hf, hb⟩ := h.1 hn
        exact ⟨f, List.mem_cons_of_mem _ hf, hb⟩
      · intro f hf
        rcases List.mem_cons.1 hf with rfl | hf'
        · exact emits_prog o
        · exact h.2 f hf'
    · exact h
  | addInit p =>
    unfold Verif.Sim.step
    dsimp only
    split
    · exact ⟨h.1, h.2⟩
    · exact h
  | raise =>
    unfold Verif.Sim.step
    dsimp only
    split
    · rename_i hs; exact h.drop hs (by simp)
    · rename_i hs; exact h.drop hs (by simp)
    · exact h
  | go => exact h.micro

theorem waits_run (ins : List In) : Waits (run S.new ins) := by
  have key : ∀ (ins : List In) (s : S), Waits s → Waits (run s ins) := by
    intro ins
    induction ins with
    | nil => intro s h; exact h
    | cons i ins ih => intro s h; exact ih _ (h.step i)
  exact key ins _ ⟨fun hn => absurd rfl hn, fun f hf => (List.not_mem_nil hf).elim⟩

/-! ### C132 -/

/-- C132 (part): in every history without an exception of a component, of an initialisation entry
point or of the storage, whatever is called at any depth (`Abort` in the middle of a transition
included), when no operation is in progress the simulator is in a state that can be worked with or
has been ended. Missing: exceptions (`C132_fails`). -/
theorem C132_settled_partial (ins : List In) (h : .raise ∉ ins)
    (hs : (run S.new ins).stack = []) : (run S.new ins).state.settled := by
  have hh := Home.run ins h Home.new
  apply Classical.byContradiction
  intro hn
  obtain ⟨f, hf, _⟩ := hh.way hn
  rw [hs] at hf
  exact List.not_mem_nil hf

/-- C132: in every history, with exceptions, when no operation is in progress the simulator takes
exactly the operations that its state offers: no event of an operation that is over stands in the
way. -/
theorem C132_offers (ins : List In) (hs : (run S.new ins).stack = []) (o : Op) :
    o.guard (run S.new ins).state (run S.new ins).last = true ↔
      (run S.new ins).state.offers o := by
  have hl : (run S.new ins).last = none := by
    apply Classical.byContradiction
    intro hn
    obtain ⟨f, hf, _⟩ := (waits_run ins).1 hn
    rw [hs] at hf
    exact List.not_mem_nil hf
  rw [hl]
  cases (run S.new ins).state <;> cases o <;> simp [Op.guard, St.offers]

/-- C132: an exception during `Publish` and `Configure` leaves the simulator in Building, ready for
the next call. -/
theorem C132_building (s : S) (o : Op) (ho : o = .publish ∨ o = .configure)
    (hs : s.stack = []) (hb : s.state = .building) :
    run s [.call o, .raise] = s := by
  have hg : o.guard s.state s.last = true := by rcases ho with rfl | rfl <;> simp [Op.guard, hb]
  have hu : s.user = true := by simp [S.user, hs]
  have hp : o.prog = [.work] := by rcases ho with rfl | rfl <;> rfl
  show step (step s (.call o)) .raise = s
  have h1 : step s (.call o) = { s with stack := [.work] :: s.stack } := by
    show (if s.user && o.guard s.state s.last then { s with stack := o.prog :: s.stack } else s) = _
    rw [hu, hg, hp]; rfl
  rw [h1]
  rfl

/-- C132: what is left of a simulator in a state of a transition of which the operation is gone:
whatever is called afterwards, its state is the same or Aborting, and no operation but `Abort`
begins. -/
theorem C132_stuck (s : S) (hs : s.stack = []) (hn : ¬ s.state.settled) (more : List In) :
    ((run s more).state = s.state ∨ (run s more).state = .aborting) ∧
      ∀ f ∈ (run s more).stack, isAbort f := by
  have key : ∀ (more : List In) (t : S), (t.state = s.state ∨ t.state = .aborting) →
      (∀ f ∈ t.stack, isAbort f) →
      ((run t more).state = s.state ∨ (run t more).state = .aborting) ∧
        ∀ f ∈ (run t more).stack, isAbort f := by
    intro more
    induction more with
    | nil => intro t h1 h2; exact ⟨h1, h2⟩
    | cons i more ih =>
      intro t h1 h2
      have hbl : blocked t.state t.last := by
        apply blocked_of
        rcases h1 with h1 | h1
        · rw [h1]
          refine ⟨?_, ?_, ?_⟩ <;> intro hh <;> exact hn (by rw [hh]; trivial)
        · rw [h1]; decide
      refine ih (step t i) ?_ ?_
      · cases i with
        | call o => unfold step; dsimp only; split <;> exact h1
        | addInit p => unfold step; dsimp only; split <;> exact h1
        | raise => unfold step; dsimp only; split <;> exact h1
        | go =>
          show t.micro.state = _ ∨ t.micro.state = _
          unfold S.micro
          cases hst : t.stack with
          | nil => exact h1
          | cons f fs =>
            rcases h2 f (by rw [hst]; exact List.mem_cons_self) with rfl | rfl | rfl
            · exact h1
            · exact h1
            · exact .inr rfl
      · cases i with
        | call o =>
          unfold step
          dsimp only
          split
          · rename_i hg
            intro f hf
            rcases List.mem_cons.1 hf with rfl | hf'
            · by_cases ho : o = .abort
              · rw [ho]; exact .inl rfl
              · rw [hbl o ho, Bool.and_false] at hg; cases hg
            · exact h2 f hf'
          · exact h2
        | addInit p => unfold step; dsimp only; split <;> exact h2
        | raise =>
          unfold step
          dsimp only
          split
          · rename_i hst; intro f hf; exact h2 f (by rw [hst]; exact List.mem_cons_of_mem _ hf)
          · rename_i hst; intro f hf; exact h2 f (by rw [hst]; exact List.mem_cons_of_mem _ hf)
          · exact h2
        | go =>
          show ∀ f ∈ t.micro.stack, isAbort f
          unfold S.micro
          cases hst : t.stack with
          | nil => exact fun f hf => h2 f (by rw [hst] at hf; exact (List.not_mem_nil hf).elim)
          | cons f fs =>
            have hfs : ∀ g ∈ fs, isAbort g := fun g hg =>
              h2 g (by rw [hst]; exact List.mem_cons_of_mem _ hg)
            rcases h2 f (by rw [hst]; exact List.mem_cons_self) with rfl | rfl | rfl
            · intro g hg
              have hg : g ∈ push [.endEmit, .set .aborting] fs := hg
              rcases mem_push hg with ⟨rfl, _⟩ | hg'
              · exact .inr (.inl rfl)
              · exact hfs g hg'
            · intro g hg
              have hg : g ∈ push [.set .aborting] fs := hg
              rcases mem_push hg with ⟨rfl, _⟩ | hg'
              · exact .inr (.inr rfl)
              · exact hfs g hg'
            · intro g hg
              exact hfs g hg
  exact key more s (.inl rfl) (fun f hf => by rw [hs] at hf; exact (List.not_mem_nil hf).elim)

/-- Brings a new simulator to Standby. -/
def toStandby : List In := .call .connect :: List.replicate 13 .go

/-- C132 is false: an exception during `Connect` (of a component), `Initialise` (of an entry point),
`Store`, `Restore` (the file cannot be opened, or is not what the components expect) and
`Reconnect` leaves the simulator for ever in the state of the transition: none of the operations is
accepted any more but `Abort`. In particular a file that does not exist, given to `Restore`, is the
end of the simulation. -/
theorem C132_fails (more : List In) :
    (∀ x ∈ [((.connect : Op), St.connecting), (.store, .storing), (.restore, .restoring),
        (.reconnect, .reconnecting)],
      ∃ ins n, let s := run S.new (ins ++ .call x.1 :: List.replicate n .go ++ [.raise])
        (run S.new ins).stack = [] ∧ (run S.new ins).state.offers x.1 ∧
        s.stack = [] ∧ s.state = x.2 ∧
        ((run s more).state = x.2 ∨ (run s more).state = .aborting)) ∧
    (∃ n, let s := run S.new (toStandby ++ [.addInit 1, .call .initialise] ++
          List.replicate n .go ++ [.raise])
        s.stack = [] ∧ s.state = .initialising ∧
        ((run s more).state = .initialising ∨ (run s more).state = .aborting)) := by
  have stuck : ∀ (s : S) (st : St), s.stack = [] → s.state = st → ¬ st.settled →
      s.stack = [] ∧ s.state = st ∧ ((run s more).state = st ∨ (run s more).state = .aborting) := by
    intro s st h1 h2 h3
    refine ⟨h1, h2, ?_⟩
    have := (C132_stuck s h1 (by rw [h2]; exact h3) more).1
    rw [h2] at this
    exact this
  refine ⟨?_, 7, stuck _ _ (by decide) (by decide) (by decide)⟩
  intro x hx
  rcases List.mem_cons.1 hx with rfl | hx
  · exact ⟨[], 1, by decide, by trivial, stuck _ _ (by decide) (by decide) (by decide)⟩
  rcases List.mem_cons.1 hx with rfl | hx
  · refine ⟨toStandby, 5, by decide, ?_, stuck _ _ (by decide) (by decide) (by decide)⟩
    rw [show (run S.new toStandby).state = .standby by decide]; trivial
  rcases List.mem_cons.1 hx with rfl | hx
  · refine ⟨toStandby, 5, by decide, ?_, stuck _ _ (by decide) (by decide) (by decide)⟩
    rw [show (run S.new toStandby).state = .standby by decide]; trivial
  rcases List.mem_cons.1 hx with rfl | hx
  · refine ⟨toStandby, 5, by decide, ?_, stuck _ _ (by decide) (by decide) (by decide)⟩
    rw [show (run S.new toStandby).state = .standby by decide]; trivial
  · cases hx

-- `C132_settled_partial`: a history with a nested call, `Abort` in the middle of a transition and
-- entry points.
example : In.raise ∉ [In.addInit 3, .call .connect, .go, .go, .call .abort] ++
      List.replicate 18 .go ∧
    (run S.new ([In.addInit 3, .call .connect, .go, .go, .call .abort] ++
      List.replicate 18 .go)).stack = [] ∧
    (run S.new ([In.addInit 3, .call .connect, .go, .go, .call .abort] ++
      List.replicate 18 .go)).state = .standby := by decide

-- `C132_offers`: after an exception of a component during `Configure`.
example : (run S.new [.call .configure, .raise]).stack = [] ∧
    (run S.new [.call .configure, .raise]).state.offers .connect :=
  ⟨by decide, by rw [show (run S.new [.call .configure, .raise]).state = .building by decide]
                 trivial⟩

-- `C132_building`.
example : S.new.stack = [] ∧ S.new.state = .building := by decide

end Verif.Sim
