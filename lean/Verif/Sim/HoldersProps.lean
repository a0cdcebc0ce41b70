import Verif.Sim.HoldersLemmas

/-!
C137: the simulator, the scheduler and the event manager call only entry points that exist. A
component that takes back its events and subscriptions can be deleted.

It holds of careful programs only. There are pointers that a component cannot take back: to the
entry points of the initialisation, of immediate events, of the events that are due with the one
being executed, and of the subscribers of an event that is being emitted.
-/
namespace Verif.Sim.Holders

theorem step_next (s : St) : s.step .next = s.next := rfl

theorem step_ret (s : St) : s.step .ret = s.ret := rfl

theorem step_store (s : St) : s.step .store = s.store := rfl

theorem run_append (s : St) (a b : List Op) : s.run (a ++ b) = (s.run a).bind (·.run b) := by
  induction a generalizing s with
  | nil => rfl
  | cons o os ih =>
    simp only [List.cons_append, St.run]
    cases s.step o with
    | none => rfl
    | some s' => exact ih s'

theorem run_cons {s s' : St} {o : Op} {os : List Op} (h : s.step o = some s') :
    s.run (o :: os) = s'.run os := by
  simp only [St.run, h]

theorem run_none {s : St} {o : Op} {os : List Op} (h : s.step o = none) : s.run (o :: os) = none := by
  simp only [St.run, h]

theorem delete_eq {s : St} {c : Nat} (hc : c ∈ s.comps) : s.step (.delete c) =
    some { s with comps := s.comps.filter (· != c), owner := s.owner.filter (·.2 != c) } := by
  show s.delete c = _
  unfold St.delete
  rw [if_pos (by simpa using hc)]

/-- Whether an entry point is one of a component. -/
def St.mine (s : St) (c ep : Nat) : Bool := s.owner.contains (ep, c)

theorem mine_iff {s : St} {c ep : Nat} : s.mine c ep = true ↔ (ep, c) ∈ s.owner := by
  simp [St.mine]

theorem owner_unique {s : St} (h : Inv s) {ep c c' : Nat} (h1 : (ep, c) ∈ s.owner)
    (h2 : (ep, c') ∈ s.owner) : c = c' := by
  have hn := h.eps
  generalize s.owner = l at *
  induction l with
  | nil => cases h1
  | cons a l ih =>
    simp only [List.map_cons, List.nodup_cons, List.mem_map, not_exists, not_and] at hn
    rcases List.mem_cons.1 h1 with g | g <;> rcases List.mem_cons.1 h2 with g' | g'
    · exact congrArg Prod.snd (g.trans g'.symm)
    · exact absurd (congrArg Prod.fst g) (hn.1 (ep, c') g')
    · exact absurd (congrArg Prod.fst g') (hn.1 (ep, c) g)
    · exact ih g g' hn.2

/-- After the deletion of a component, none of its entry points exists. -/
theorem dead {s : St} (h : Inv s) {ep c : Nat} (h1 : (ep, c) ∈ s.owner) (x : St)
    (hx : x.owner = s.owner.filter (·.2 != c)) : x.live ep = false := by
  cases hl : x.live ep with
  | false => rfl
  | true =>
    obtain ⟨c', hm⟩ := live_iff.1 hl
    rw [hx] at hm
    obtain ⟨hm1, hm2⟩ := List.mem_filter.1 hm
    have := owner_unique h h1 hm1
    subst this
    simp at hm2

/-! ## Examples of careful programs -/

/-- A test for `Held`. -/
def heldB (s : St) (ep : Nat) : Bool :=
  s.events.any (·.ep == ep) || s.subs.any (·.2 == ep) || s.init.contains ep ||
  s.stack.any (fun f => f.cur.any (·.2 == ep) || (!f.kind.sched && f.rest.contains ep))

theorem heldB_of {s : St} {ep : Nat} (h : Held s ep) : heldB s ep = true := by
  unfold heldB
  simp only [Bool.or_eq_true, List.any_eq_true, beq_iff_eq, List.contains_eq_mem,
    decide_eq_true_eq, Bool.and_eq_true, Bool.not_eq_true']
  rcases h with ⟨e, he, rfl⟩ | ⟨evt, he⟩ | he | ⟨f, hf, ⟨x, hx⟩ | ⟨hk, hr⟩⟩
  · exact .inl (.inl (.inl ⟨e, he, rfl⟩))
  · exact .inl (.inl (.inr ⟨_, he, rfl⟩))
  · exact .inl (.inr he)
  · exact .inr ⟨f, hf, .inl (by simp [hx])⟩
  · refine .inr ⟨f, hf, .inr ⟨?_, hr⟩⟩
    rcases hk with hk | hk <;> rw [hk] <;> rfl

/-- A test for `Careful`. -/
def carefulB (s : St) : Op → Bool
  | .delete c => s.comps.contains c && s.owner.all (fun p => p.2 != c || !heldB s p.1)
  | .removeEvent id => !s.imm.contains id &&
      s.stack.all (fun f => !f.kind.sched || !f.rest.contains id)
  | .post ep _ => s.live ep
  | .postImmediate ep => s.live ep
  | .subscribe _ ep => s.live ep
  | .unsubscribe _ ep => s.live ep
  | .addInit ep => s.live ep
  | _ => true

theorem careful_of {s : St} {o : Op} (h : carefulB s o = true) : Careful s o := by
  cases o with
  | delete c =>
    simp only [carefulB, Bool.and_eq_true, List.contains_eq_mem, decide_eq_true_eq,
      List.all_eq_true, Bool.or_eq_true, bne_iff_ne, Bool.not_eq_true'] at h
    refine ⟨h.1, fun ep hep hh => ?_⟩
    rcases h.2 _ hep with g | g
    · exact g rfl
    · rw [heldB_of hh] at g
      cases g
  | removeEvent id =>
    simp only [carefulB, Bool.and_eq_true, List.contains_eq_mem, decide_eq_false_iff_not,
      List.all_eq_true, Bool.or_eq_true, Bool.not_eq_true'] at h
    refine ⟨h.1, fun f hf hk => ?_⟩
    rcases h.2 f hf with g | g
    · rcases hk with hk | hk <;> rw [hk] at g <;> cases g
    · exact g
  | post ep rep => exact h
  | postImmediate ep => exact h
  | subscribe evt ep => exact h
  | unsubscribe evt ep => exact h
  | addInit ep => exact h
  | _ => trivial

/-- The state after a program, when all its steps are careful. -/
def St.try (s : St) : List Op → Option St
  | [] => some s
  | o :: os => if carefulB s o then (s.step o).bind (·.try os) else none

theorem reach_try {s : St} (h : Reach s) {ops : List Op} {s' : St} (hr : s.try ops = some s') :
    Reach s' := by
  induction ops generalizing s with
  | nil => cases hr; exact h
  | cons o os ih =>
    simp only [St.try] at hr
    split at hr
    · rename_i hc
      cases ho : s.step o with
      | none => rw [ho] at hr; cases hr
      | some x =>
        rw [ho] at hr
        exact ih (.step h (careful_of hc) ho) hr
    · cases hr

/-- Two components with an entry point each, 10 and 20; both post an event and subscribe. -/
def pair : List Op :=
  [.create 1 [10], .create 2 [20], .post 10 0, .post 20 3, .subscribe 7 10, .subscribe 7 20]

def pairSt : St := ⟨[1, 2], [(10, 1), (20, 2)], [⟨1, 10, 0⟩, ⟨2, 20, 3⟩], [], 2, [(7, 10), (7, 20)],
  [], []⟩

theorem pair_reach : Reach pairSt := reach_try .start (ops := pair) (by decide)

/-! ## Theorems -/

/-- **C137 (partial).** Nothing that a careful program does is undefined. -/
theorem C137_safe_partial {s : St} (h : Reach s) {op : Op} (hc : Careful s op) :
    s.step op ≠ none := by
  obtain ⟨s', h1, _⟩ := step_ok (reach_nest h) hc
  rw [h1]
  exact fun hh => nomatch hh

/-- A program that executes an event, in which another component subscribes, emits and deletes. -/
example : ∃ s, start.try (pair ++ [.slot [1, 2], .next, .emit 7, .next, .ret, .next, .ret, .next,
    .ret, .unsubscribe 7 10, .delete 1, .next, .ret, .next, .store]) = some s ∧
    s.comps = [2] ∧ s.events = [⟨2, 20, 2⟩] ∧ s.subs = [(7, 20)] := ⟨_, rfl, by decide⟩

/-- **C137 (partial).** In the states of careful programs, every pointer that somebody keeps points
to an entry point of a component that exists. -/
theorem C137_pointers_partial {s : St} (h : Reach s) {ep : Nat} (hh : Held s ep) :
    ∃ c ∈ s.comps, (ep, c) ∈ s.owner := by
  have hi := (reach_nest h).toInv
  obtain ⟨c, hm⟩ := live_iff.1 (hi.held ep hh)
  exact ⟨c, hi.owns _ hm, hm⟩

example : ∃ c ∈ pairSt.comps, (20, c) ∈ pairSt.owner :=
  C137_pointers_partial pair_reach (.inr (.inl ⟨7, by decide⟩))

/-- The state without a component and all its registrations, and with everything else. -/
def without (s : St) (c : Nat) : St :=
  { s with
    comps := s.comps.filter (· != c)
    owner := s.owner.filter (·.2 != c)
    events := s.events.filter (fun e => !s.mine c e.ep)
    subs := s.subs.filter (fun p => !s.mine c p.2) }

/-- The calls by which a component takes its events back. -/
def removals (s : St) (c : Nat) : List Op :=
  (s.events.filter (fun e => s.mine c e.ep)).map (fun e => .removeEvent e.id)

/-- The calls by which a component takes its subscriptions back. -/
def unsubscriptions (s : St) (c : Nat) : List Op :=
  (s.subs.filter (fun p => s.mine c p.2)).map (fun p => .unsubscribe p.1 p.2)

theorem remove_run (es : List Ev) (s : St) (h : s.stack = []) :
    s.run (es.map (fun e => .removeEvent e.id)) =
      some { s with events := s.events.filter (fun e => !(es.map (·.id)).contains e.id) } := by
  induction es generalizing s with
  | nil =>
    have : s.events.filter (fun e => !(([] : List Ev).map (·.id)).contains e.id) = s.events := by
      rw [List.filter_eq_self]
      intro e _
      rfl
    rw [this]
    rfl
  | cons a es ih =>
    have h1 : s.removeEvent a.id = { s with events := s.events.filter (·.id != a.id) } := by
      unfold St.removeEvent
      cases he : s.event? a.id with
      | none =>
        dsimp only
        have : s.events.filter (·.id != a.id) = s.events := by
          rw [List.filter_eq_self]
          intro e hm
          unfold St.event? at he
          rw [List.find?_eq_none] at he
          simpa using he e hm
        rw [this]
      | some e =>
        dsimp only
        rw [if_neg]
        unfold St.current
        rw [h]
        simp
    rw [List.map_cons, run_cons (s' := s.removeEvent a.id) rfl, h1,
      ih { s with events := s.events.filter (·.id != a.id) } h]
    congr 2
    rw [List.filter_filter]
    apply List.filter_congr
    intro e _
    simp only [List.map_cons, List.contains_cons, bne, Bool.not_or]
    rw [Bool.and_comm]

theorem removed {s : St} (h : (s.events.map (·.id)).Nodup) (c : Nat) :
    s.events.filter (fun e => !((s.events.filter (fun e => s.mine c e.ep)).map (·.id)).contains e.id) =
      s.events.filter (fun e => !s.mine c e.ep) := by
  apply List.filter_congr
  intro e he
  congr 1
  rw [Bool.eq_iff_iff]
  simp only [List.contains_eq_mem, decide_eq_true_eq, List.mem_map, List.mem_filter]
  constructor
  · rintro ⟨e', ⟨h1, h2⟩, h3⟩
    have a := event_unique h h1
    have b := event_unique h he
    rw [h3, b] at a
    cases a
    exact h2
  · exact fun hm => ⟨e, ⟨he, hm⟩, rfl⟩

theorem erase_cons_ne {xs : List (Nat × Nat)} {a : Nat × Nat} (h : ∀ x ∈ xs, x ≠ a)
    (l : List (Nat × Nat)) : xs.foldl List.erase (a :: l) = a :: xs.foldl List.erase l := by
  induction xs generalizing l with
  | nil => rfl
  | cons x xs ih =>
    simp only [List.foldl_cons]
    rw [List.erase_cons_tail (by simpa using (h x List.mem_cons_self).symm)]
    exact ih (fun y hy => h y (List.mem_cons_of_mem _ hy)) _

theorem erase_filter (p : Nat × Nat → Bool) (l : List (Nat × Nat)) :
    (l.filter p).foldl List.erase l = l.filter (fun x => !p x) := by
  induction l with
  | nil => rfl
  | cons a l ih =>
    cases hp : p a with
    | true =>
      rw [List.filter_cons_of_pos hp, List.filter_cons_of_neg (by simp [hp])]
      simpa using ih
    | false =>
      rw [List.filter_cons_of_neg (by simp [hp]), List.filter_cons_of_pos (by simp [hp]),
        erase_cons_ne, ih]
      rintro x hx rfl
      rw [(List.mem_filter.1 hx).2] at hp
      cases hp

theorem unsubscribe_run (ps : List (Nat × Nat)) (s : St) (h : ∀ p ∈ ps, s.live p.2 = true) :
    s.run (ps.map (fun p => .unsubscribe p.1 p.2)) =
      some { s with subs := ps.foldl List.erase s.subs } := by
  induction ps generalizing s with
  | nil => rfl
  | cons a ps ih =>
    rw [List.map_cons, run_cons (s' := { s with subs := s.subs.erase a })]
    · rw [ih { s with subs := s.subs.erase a } (fun p hp => h p (List.mem_cons_of_mem _ hp))]
      rfl
    · show s.unsubscribe a.1 a.2 = _
      unfold St.unsubscribe
      rw [if_pos (h a List.mem_cons_self)]

theorem reach_run {s : St} (h : Reach s) {ops : List Op}
    (hc : ∀ (a : List Op) (o : Op) (b : List Op) (x : St), ops = a ++ o :: b → s.run a = some x →
      Careful x o) {s' : St} (hr : s.run ops = some s') : Reach s' := by
  induction ops generalizing s with
  | nil => cases hr; exact h
  | cons o os ih =>
    have h0 := hc [] o os s rfl rfl
    simp only [St.run] at hr
    cases ho : s.step o with
    | none => rw [ho] at hr; cases hr
    | some x =>
      rw [ho] at hr
      refine ih (.step h h0 ho) ?_ hr
      intro a o' b y e hy
      exact hc (o :: a) o' b y (by rw [e]; rfl) (by simp only [St.run, ho]; exact hy)

/-- **C137.** When nothing is being executed, a component that has no immediate event and no entry
point waiting for the initialisation can take back its events and its subscriptions and be deleted.
That leaves the events and the subscriptions of all others as they are. -/
theorem C137_take_back {s : St} (h : Reach s) {c : Nat} (hc : c ∈ s.comps) (hs : s.stack = [])
    (himm : ∀ e ∈ s.events, (e.ep, c) ∈ s.owner → e.id ∉ s.imm)
    (hinit : ∀ ep ∈ s.init, (ep, c) ∉ s.owner) :
    s.run (removals s c ++ unsubscriptions s c ++ [.delete c]) = some (without s c) ∧
    Reach (without s c) := by
  have hi := (reach_nest h).toInv
  -- the three parts
  have r1 : s.run (removals s c) =
      some { s with events := s.events.filter (fun e => !s.mine c e.ep) } := by
    unfold removals
    rw [remove_run _ _ hs, removed hi.ids]
  have r2 : ({ s with events := s.events.filter (fun e => !s.mine c e.ep) } : St).run
      (unsubscriptions s c) =
      some { s with
        events := s.events.filter (fun e => !s.mine c e.ep)
        subs := s.subs.filter (fun p => !s.mine c p.2) } := by
    unfold unsubscriptions
    rw [unsubscribe_run]
    · dsimp only
      rw [erase_filter]
    · intro p hp
      exact live_iff.2 ⟨c, mine_iff.1 (List.mem_filter.1 hp).2⟩
  have r3 : s.run (removals s c ++ unsubscriptions s c ++ [.delete c]) = some (without s c) := by
    rw [run_append, run_append, r1, Option.bind_some, r2, Option.bind_some,
      run_cons (delete_eq (s := { s with
        events := s.events.filter (fun e => !s.mine c e.ep)
        subs := s.subs.filter (fun p => !s.mine c p.2) }) hc)]
    rfl
  refine ⟨r3, ?_⟩
  have q1 : Reach { s with events := s.events.filter (fun e => !s.mine c e.ep) } := by
    refine reach_run h ?_ r1
    intro a o b x e hx
    obtain ⟨es1, es2, h1, h2, h3⟩ := List.map_eq_append_iff.1 (show (s.events.filter
      (fun e => s.mine c e.ep)).map (fun e => Op.removeEvent e.id) = a ++ o :: b from e)
    obtain ⟨ev, es3, h4, h5, h6⟩ := List.map_eq_cons_iff.1 h3
    have hm : ev ∈ s.events.filter (fun e => s.mine c e.ep) := by
      rw [h1, h4]; simp
    obtain ⟨m1, m2⟩ := List.mem_filter.1 hm
    rw [← h2, remove_run _ _ hs] at hx
    subst h5
    cases hx
    refine ⟨himm ev m1 (mine_iff.1 m2), ?_⟩
    intro f hf
    have hf' : f ∈ s.stack := hf
    rw [hs] at hf'
    cases hf'
  have q2 : Reach { s with
      events := s.events.filter (fun e => !s.mine c e.ep)
      subs := s.subs.filter (fun p => !s.mine c p.2) } := by
    refine reach_run q1 ?_ r2
    intro a o b x e hx
    obtain ⟨es1, es2, h1, h2, h3⟩ := List.map_eq_append_iff.1 (show (s.subs.filter
      (fun p => s.mine c p.2)).map (fun p => Op.unsubscribe p.1 p.2) = a ++ o :: b from e)
    obtain ⟨p, es3, h4, h5, h6⟩ := List.map_eq_cons_iff.1 h3
    have hm : p ∈ s.subs.filter (fun p => s.mine c p.2) := by
      rw [h1, h4]; simp
    rw [← h2, unsubscribe_run] at hx
    · subst h5
      cases hx
      exact live_iff.2 ⟨c, mine_iff.1 (List.mem_filter.1 hm).2⟩
    · intro p' hp'
      have : p' ∈ s.subs.filter (fun p => s.mine c p.2) := by rw [h1]; simp [hp']
      exact live_iff.2 ⟨c, mine_iff.1 (List.mem_filter.1 this).2⟩
  refine .step (op := .delete c) q2 ⟨hc, ?_⟩ (delete_eq hc)
  rintro ep hep (⟨e, he, rfl⟩ | ⟨evt, he⟩ | he | ⟨f, hf, _⟩)
  · have := (List.mem_filter.1 he).2
    rw [show s.mine c e.ep = true from mine_iff.2 hep] at this
    cases this
  · have := (List.mem_filter.1 he).2
    rw [show s.mine c ep = true from mine_iff.2 hep] at this
    cases this
  · exact hinit ep he hep
  · have hf' : f ∈ s.stack := hf
    rw [hs] at hf'
    cases hf'

example : pairSt.run [.removeEvent 1, .unsubscribe 7 10, .delete 1] =
    some ⟨[2], [(20, 2)], [⟨2, 20, 3⟩], [], 2, [(7, 20)], [], []⟩ :=
  (C137_take_back (c := 1) pair_reach (by decide) rfl (by decide) (by decide)).1

/-- Removing the events of a component after its deletion does as well. -/
theorem C137_late {s : St} (h : Reach s) {c : Nat} (hc : c ∈ s.comps) (hs : s.stack = [])
    (hsub : ∀ p ∈ s.subs, (p.2, c) ∉ s.owner) :
    s.run (.delete c :: removals s c) = some (without s c) := by
  have hi := (reach_nest h).toInv
  rw [run_cons (delete_eq hc)]
  unfold removals
  rw [remove_run _ { s with
    comps := s.comps.filter (· != c)
    owner := s.owner.filter (·.2 != c) } hs]
  dsimp only
  rw [removed hi.ids]
  unfold without
  congr 2
  rw [eq_comm, List.filter_eq_self]
  intro p hp
  simp only [Bool.not_eq_true', ← Bool.not_eq_true, mine_iff]
  exact hsub p hp

example : (⟨[1, 2], [(10, 1), (20, 2)], [⟨1, 10, 0⟩, ⟨2, 20, 3⟩], [], 2, [], [], []⟩ : St).run
    [.delete 1, .removeEvent 1] = some ⟨[2], [(20, 2)], [⟨2, 20, 3⟩], [], 2, [], [], []⟩ :=
  C137_late (c := 1) (reach_try .start
    (ops := [.create 1 [10], .create 2 [20], .post 10 0, .post 20 3]) (by decide)) (by decide) rfl
    (by decide)

/-- The calls of a loop: its items, one after the other. -/
def calls (n : Nat) : List Op := (List.replicate n [Op.next, Op.ret]).flatten

theorem calls_succ (n : Nat) : calls (n + 1) = .next :: .ret :: calls n := by
  simp [calls, List.replicate_succ]

theorem next_call {k : Kind} (hk : k.sched = false) {x : Nat} {r : List Nat} (s : St)
    {fs : List Frame} (hs : s.stack = ⟨k, none, x :: r⟩ :: fs) (hl : s.live x = true) :
    s.step .next = some { s with stack := ⟨k, some (x, x), r⟩ :: fs } := by
  show s.next = _
  unfold St.next
  rw [hs]
  simp [hk, hl]

theorem ret_call {k : Kind} (hk : k.sched = false) {x : Nat} {r : List Nat} (s : St)
    {fs : List Frame} (hs : s.stack = ⟨k, some (x, x), r⟩ :: fs) (hl : s.live x = true) :
    s.step .ret = some { s with stack := ⟨k, none, r⟩ :: fs } := by
  rw [step_ret]
  unfold St.ret
  rw [hs]
  simp [hk, hl]

theorem loop_run {k : Kind} (hk : k.sched = false) (l : List Nat) (s : St) (fs : List Frame)
    (hs : s.stack = ⟨k, none, l⟩ :: fs) (hl : ∀ x ∈ l, s.live x = true) :
    s.run (calls l.length ++ [.next]) = some { s with stack := fs } ∧
    ∀ i x, l[i]? = some x → s.run (calls i ++ [.next]) =
      some { s with stack := ⟨k, some (x, x), l.drop (i + 1)⟩ :: fs } := by
  induction l generalizing s with
  | nil =>
    refine ⟨?_, fun i x h => by simp at h⟩
    show s.run [.next] = _
    have : s.step .next = some { s with stack := fs } := by
      rw [step_next]
      unfold St.next
      rw [hs]
    rw [run_cons this]
    rfl
  | cons y r ih =>
    have h1 := next_call hk s hs (hl y List.mem_cons_self)
    have h2 := ret_call hk { s with stack := ⟨k, some (y, y), r⟩ :: fs } rfl
      (hl y List.mem_cons_self)
    have ih' := ih { s with stack := ⟨k, none, r⟩ :: fs } rfl
      (fun x hx => hl x (List.mem_cons_of_mem _ hx))
    constructor
    · rw [List.length_cons, calls_succ, List.cons_append, run_cons h1, List.cons_append, run_cons h2]
      exact ih'.1
    · intro i x hx
      cases i with
      | zero =>
        simp only [List.getElem?_cons_zero, Option.some.injEq] at hx
        subst hx
        show s.run [.next] = _
        rw [run_cons h1]
        rfl
      | succ i =>
        rw [calls_succ, List.cons_append, run_cons h1, List.cons_append, run_cons h2]
        exact ih'.2 i x (by simpa using hx)

/-- **C137 (partial).** An emission calls the entry points that are subscribed to the event, in the
order of their subscriptions, and no other ones; then it ends, and the state is what it was, if
these entry points do nothing. -/
theorem C137_emission_partial {s : St} (h : Reach s) (evt : Nat) (n : Nat) :
    (n = (s.subs.filter (·.1 == evt)).length →
      s.run (.emit evt :: (calls n ++ [.next])) = some s) ∧
    ∀ i ep, (s.subs.filter (·.1 == evt))[i]? = some (evt, ep) →
      ∃ s', s.run (.emit evt :: (calls i ++ [.next])) = some s' ∧
        s'.stack.head?.bind (·.cur) = some (ep, ep) := by
  have hi := (reach_nest h).toInv
  have key := loop_run (k := .emission) rfl ((s.subs.filter (·.1 == evt)).map (·.2)) (s.emit evt)
    s.stack rfl (by
      intro x hx
      obtain ⟨p, hp, rfl⟩ := List.mem_map.1 hx
      exact hi.held _ (.inr (.inl ⟨p.1, (List.mem_filter.1 hp).1⟩)))
  constructor
  · rintro rfl
    rw [run_cons (s' := s.emit evt) rfl]
    have := key.1
    rw [List.length_map] at this
    exact this
  · intro i ep hep
    rw [run_cons (s' := s.emit evt) rfl]
    exact ⟨_, key.2 i ep (by rw [List.getElem?_map, hep]; rfl), rfl⟩

example : pairSt.run [.emit 7, .next, .ret, .next, .ret, .next] = some pairSt ∧
    ∃ s', pairSt.run [.emit 7, .next, .ret, .next] = some s' ∧
      s'.stack.head?.bind (·.cur) = some (20, 20) :=
  ⟨(C137_emission_partial pair_reach 7 2).1 (by decide),
    (C137_emission_partial pair_reach 7 0).2 1 20 (by decide)⟩

/-- **C137 (partial).** The initialisation calls the entry points that wait for it, each as often as
it was added, in that order; then none waits. -/
theorem C137_initialise_partial {s : St} (h : Reach s) :
    s.run (.initialise :: (calls s.init.length ++ [.next])) = some { s with init := [] } ∧
    ∀ i ep, s.init[i]? = some ep →
      ∃ s', s.run (.initialise :: (calls i ++ [.next])) = some s' ∧
        s'.stack.head?.bind (·.cur) = some (ep, ep) := by
  have hi := (reach_nest h).toInv
  have key := loop_run (k := .inits) rfl s.init s.initialise s.stack rfl
    (fun x hx => hi.held _ (.inr (.inr (.inl hx))))
  constructor
  · rw [run_cons (s' := s.initialise) rfl]
    exact key.1
  · intro i ep hep
    rw [run_cons (s' := s.initialise) rfl]
    exact ⟨_, key.2 i ep hep, rfl⟩

example : (⟨[1], [(10, 1), (11, 1)], [], [], 0, [], [10, 11, 10], []⟩ : St).run
    [.initialise, .next, .ret, .next, .ret, .next, .ret, .next] =
      some ⟨[1], [(10, 1), (11, 1)], [], [], 0, [], [], []⟩ :=
  (C137_initialise_partial (reach_try .start
    (ops := [.create 1 [10, 11], .addInit 10, .addInit 11, .addInit 10]) (by decide))).1

/-- **C137.** An event that is removed while its entry point is being executed is gone when that
returns, and nothing else changes. -/
theorem C137_current {s : St} (h : Reach s) {k : Kind} (hk : k = .table ∨ k = .immediate)
    {x ep : Nat} {r : List Nat} {fs : List Frame} (hs : s.stack = ⟨k, some (x, ep), r⟩ :: fs) :
    s.run [.removeEvent x, .ret] = some { s with
      events := s.events.filter (·.id != x)
      stack := ⟨k, none, r⟩ :: fs } := by
  have hi := (reach_nest h).toInv
  have hk' : k.sched = true := by rcases hk with rfl | rfl <;> rfl
  have hl : s.live ep = true :=
    hi.held ep (.inr (.inr (.inr ⟨_, by rw [hs]; exact List.mem_cons_self, .inl ⟨x, rfl⟩⟩)))
  have hcur : s.current = some x := by
    unfold St.current
    rw [hs, List.findSome?_cons]
    simp [hk']
  have hx : x ∈ s.events.map (·.id) := by
    refine hi.known x (List.mem_append_right _ ?_)
    unfold St.busy
    rw [hs, List.flatMap_cons]
    refine List.mem_append_left _ ?_
    simp [Frame.ids, hk']
  obtain ⟨e, he⟩ := event_known hx
  have h1 : s.removeEvent x =
      { s with events := s.events.map (fun e => if e.id = x then { e with rep := 0 } else e) } := by
    unfold St.removeEvent
    rw [he]
    dsimp only
    rw [if_pos hcur]
  rw [run_cons (s' := s.removeEvent x) rfl, h1]
  have h2 : ({ s with events := s.events.map (fun e => if e.id = x then { e with rep := 0 } else e) } :
      St).step .ret = some { s with
        events := s.events.filter (·.id != x)
        stack := ⟨k, none, r⟩ :: fs } := by
    rw [step_ret]
    unfold St.ret
    dsimp only
    rw [hs]
    dsimp only
    have hl' : St.live { s with
        events := s.events.map (fun e => if e.id = x then { e with rep := 0 } else e)
        stack := ⟨k, some (x, ep), r⟩ :: fs } ep = true := hl
    rw [if_pos hl', if_pos hk']
    congr 2
    unfold finish
    rw [List.filterMap_map]
    generalize s.events = l
    induction l with
    | nil => rfl
    | cons a l ih =>
      rw [List.filterMap_cons, ih]
      by_cases ha : a.id = x
      · simp [Function.comp, ha]
      · simp [Function.comp, ha]
  rw [run_cons h2]
  rfl

example : (⟨[1, 2], [(10, 1), (20, 2)], [⟨1, 10, 0⟩, ⟨2, 20, 3⟩], [], 2, [(7, 10), (7, 20)], [],
    [⟨.table, some (2, 20), []⟩]⟩ : St).run [.removeEvent 2, .ret] =
      some ⟨[1, 2], [(10, 1), (20, 2)], [⟨1, 10, 0⟩], [], 2, [(7, 10), (7, 20)], [],
        [⟨.table, none, []⟩]⟩ :=
  C137_current (reach_try .start (ops := pair ++ [.slot [2], .next]) (by decide)) (.inl rfl) rfl

/-- **C137.** A hold loses no event: those that the loop had still to execute wait as before, the
immediate ones before those posted meanwhile. -/
theorem C137_hold {s : St} {k : Kind} {r : List Nat} {fs : List Frame}
    (hs : s.stack = ⟨k, none, r⟩ :: fs) :
    (k = .table → s.run [.hold] = some { s with stack := fs }) ∧
    (k = .immediate → s.current = none → ∃ s', s.run [.hold, .immediates] = some s' ∧
      s'.stack = ⟨.immediate, none, r ++ s.imm⟩ :: fs ∧ s'.events = s.events) := by
  constructor
  · rintro rfl
    show some s.hold = _
    unfold St.hold
    rw [hs]
  · rintro rfl hc
    have h1 : s.hold = { s with imm := r ++ s.imm, stack := fs } := by
      unfold St.hold
      rw [hs]
    refine ⟨_, rfl, ?_⟩
    rw [h1]
    have hc' : St.current { s with imm := r ++ s.imm, stack := fs } = none := by
      unfold St.current at hc ⊢
      rw [hs, List.findSome?_cons] at hc
      simpa [Kind.sched] using hc
    constructor
    · unfold St.immediates
      rw [if_pos hc']
    · unfold St.immediates
      rw [if_pos hc']

example : ∃ s', (⟨[1], [(10, 1)], [⟨1, 10, 0⟩, ⟨2, 10, 0⟩], [2], 2, [], [],
    [⟨.immediate, none, [1]⟩]⟩ : St).run [.hold, .immediates] = some s' ∧
      s'.stack = [⟨.immediate, none, [1, 2]⟩] ∧ s'.events = [⟨1, 10, 0⟩, ⟨2, 10, 0⟩] :=
  (C137_hold (s := ⟨[1], [(10, 1)], [⟨1, 10, 0⟩, ⟨2, 10, 0⟩], [2], 2, [], [],
    [⟨.immediate, none, [1]⟩]⟩) rfl).2 rfl rfl

/-- **C137.** Cancelling a subscription cancels no other one, and the end of a subscriber changes no
event. -/
theorem C137_others {s s' : St} :
    (∀ evt ep p, s.step (.unsubscribe evt ep) = some s' → p ≠ (evt, ep) →
      (p ∈ s'.subs ↔ p ∈ s.subs)) ∧
    (∀ k x ep r fs, s.stack = ⟨k, some (x, ep), r⟩ :: fs → k = .emission ∨ k = .inits →
      s.step .ret = some s' → s'.events = s.events) := by
  constructor
  · intro evt ep p h hp
    have h' : s.unsubscribe evt ep = some s' := h
    unfold St.unsubscribe at h'
    split at h'
    · cases h'
      exact List.mem_erase_of_ne hp
    · cases h'
  · intro k x ep r fs hs hk h
    rw [step_ret] at h
    unfold St.ret at h
    rw [hs] at h
    dsimp only at h
    split at h
    · cases h
      rcases hk with rfl | rfl <;> rfl
    · cases h

example : ∃ s', (⟨[1], [(10, 1)], [], [], 0, [(7, 10), (8, 10)], [], []⟩ : St).step
    (.unsubscribe 7 10) = some s' ∧ (8, 10) ∈ s'.subs := ⟨_, rfl, by decide⟩

/-! ### What is false of the code -/

/-- A component that is deleted with a pending event: when the event is due, an entry point that
does not exist is called; before, the file cannot be stored. -/
theorem C137_event_fails {s : St} (h : Reach s) {c : Nat} (hc : c ∈ s.comps) {e : Ev}
    (he : e ∈ s.events) (ho : (e.ep, c) ∈ s.owner) :
    s.run [.delete c, .store] = none ∧
    (s.stack = [] → e.id ∉ s.imm → s.run [.delete c, .slot [e.id], .next] = none) := by
  have hi := (reach_nest h).toInv
  have hd := dead hi ho { s with comps := s.comps.filter (· != c), owner := s.owner.filter (·.2 != c) }
    rfl
  constructor
  · rw [run_cons (delete_eq hc)]
    refine run_none ?_
    rw [step_store]
    unfold St.store
    rw [if_neg]
    intro hh
    simp only [Bool.and_eq_true, List.all_eq_true] at hh
    rw [hh.1 e he] at hd
    cases hd
  · intro hs him
    have hev := event_unique hi.ids he
    rw [run_cons (delete_eq hc)]
    generalize hx : ({ s with comps := s.comps.filter (· != c), owner := s.owner.filter (·.2 != c) } :
      St) = x at hd
    have hsx : x.stack = [] := by rw [← hx]; exact hs
    have hex : x.events = s.events := by rw [← hx]
    have hix : x.imm = s.imm := by rw [← hx]
    have hslot : x.step (.slot [e.id]) = some { x with stack := [⟨.table, none, [e.id]⟩] } := by
      show some (x.slot [e.id]) = _
      unfold St.slot
      rw [if_pos, hsx]
      refine ⟨?_, by simp, ?_⟩
      · unfold St.current; rw [hsx]; rfl
      · intro i hi'
        simp only [List.mem_singleton] at hi'
        subst hi'
        refine ⟨List.mem_map.2 ⟨e, by rw [hex]; exact he, rfl⟩, by rw [hix]; exact him, ?_⟩
        unfold St.busy; rw [hsx]; simp
    rw [run_cons hslot]
    refine run_none ?_
    rw [step_next]
    have hev' : ({ x with stack := [⟨.table, none, [e.id]⟩] } : St).event? e.id = some e := by
      unfold St.event? at hev ⊢
      rw [hex]
      exact hev
    unfold St.next
    simp only [Kind.sched, if_true]
    rw [hev']
    dsimp only
    rw [if_neg]
    intro hh
    have hh' : x.live e.ep = true := hh
    rw [hh'] at hd
    cases hd

example : pairSt.run [.delete 1, .store] = none ∧ pairSt.run [.delete 1, .slot [1], .next] = none :=
  ⟨(C137_event_fails (c := 1) (e := ⟨1, 10, 0⟩) pair_reach (by decide) (by decide) (by decide)).1,
    (C137_event_fails (c := 1) (e := ⟨1, 10, 0⟩) pair_reach (by decide) (by decide) (by decide)).2
      rfl (by decide)⟩

theorem next_dead {k : Kind} (hk : k.sched = false) {x : Nat} {r : List Nat} (s : St)
    {fs : List Frame} (hs : s.stack = ⟨k, none, x :: r⟩ :: fs) (hl : s.live x = false) :
    s.step .next = none := by
  show s.next = none
  unfold St.next
  rw [hs]
  simp [hk, hl]

theorem loop_none {k : Kind} (hk : k.sched = false) {ep : Nat} (l : List Nat) (s : St)
    (fs : List Frame) (hs : s.stack = ⟨k, none, l⟩ :: fs) (he : ep ∈ l) (hd : s.live ep = false) :
    s.run (calls l.length) = none := by
  induction l generalizing s with
  | nil => cases he
  | cons x r ih =>
    rw [List.length_cons, calls_succ]
    cases hl : s.live x with
    | false =>
      refine run_none ?_
      show s.next = none
      unfold St.next
      rw [hs]
      simp [hk, hl]
    | true =>
      rw [run_cons (next_call hk s hs hl)]
      have h2 : ({ s with stack := ⟨k, some (x, x), r⟩ :: fs } : St).step .ret =
          some { s with stack := ⟨k, none, r⟩ :: fs } := by
        rw [step_ret]
        unfold St.ret
        dsimp only
        rw [if_pos (show St.live { s with stack := ⟨k, some (x, x), r⟩ :: fs } x = true from hl)]
        simp [hk]
      rw [run_cons h2]
      refine ih _ rfl ?_ hd
      rcases List.mem_cons.1 he with g | g
      · subst g; rw [hl] at hd; cases hd
      · exact g

/-- A component that is deleted while it is subscribed: the next emission of the event reaches an
entry point that does not exist; before, the file cannot be stored. -/
theorem C137_subscription_fails {s : St} (h : Reach s) {c : Nat} (hc : c ∈ s.comps) {evt ep : Nat}
    (he : (evt, ep) ∈ s.subs) (ho : (ep, c) ∈ s.owner) :
    s.run [.delete c, .store] = none ∧
    ∃ n, s.run (.delete c :: .emit evt :: calls n) = none := by
  have hi := (reach_nest h).toInv
  have hd := dead hi ho { s with comps := s.comps.filter (· != c), owner := s.owner.filter (·.2 != c) }
    rfl
  constructor
  · rw [run_cons (delete_eq hc)]
    refine run_none ?_
    rw [step_store]
    unfold St.store
    rw [if_neg]
    intro hh
    simp only [Bool.and_eq_true, List.all_eq_true] at hh
    rw [hh.2 _ he] at hd
    cases hd
  · refine ⟨((s.subs.filter (·.1 == evt)).map (·.2)).length, ?_⟩
    rw [run_cons (delete_eq hc), run_cons rfl]
    refine loop_none (k := .emission) rfl (ep := ep) _ _ s.stack rfl ?_ hd
    exact List.mem_map.2 ⟨_, List.mem_filter.2 ⟨he, by simp⟩, rfl⟩

/-- The second subscriber is deleted: the first one is called before. -/
example : pairSt.run [.delete 2, .emit 7, .next, .ret] ≠ none ∧
    pairSt.run [.delete 2, .emit 7, .next, .ret, .next] = none := by decide

example : ∃ n, pairSt.run (.delete 2 :: .emit 7 :: calls n) = none :=
  (C137_subscription_fails (c := 2) (ep := 20) pair_reach (by decide) (by decide) (by decide)).2

/-- An entry point that waits for the initialisation stays there until the initialisation, whatever
a program does; when its component has been deleted, the initialisation calls it. -/
theorem C137_init_fails {s : St} (h : Reach s) {c : Nat} (hc : c ∈ s.comps) {ep : Nat}
    (he : ep ∈ s.init) (ho : (ep, c) ∈ s.owner) :
    (∀ ops : List Op, .initialise ∉ ops → ∀ s', s.run ops = some s' → ep ∈ s'.init) ∧
    ∃ n, s.run (.delete c :: .initialise :: calls n) = none := by
  have hi := (reach_nest h).toInv
  have hd := dead hi ho { s with comps := s.comps.filter (· != c), owner := s.owner.filter (·.2 != c) }
    rfl
  constructor
  · clear hi hd h hc ho
    intro ops
    induction ops generalizing s with
    | nil => intro _ s' hr; cases hr; exact he
    | cons o os ih =>
      intro hn s' hr
      simp only [List.mem_cons, not_or] at hn
      simp only [St.run] at hr
      cases hs : s.step o with
      | none => rw [hs] at hr; cases hr
      | some x =>
        rw [hs] at hr
        refine ih ?_ hn.2 s' hr
        cases o with
        | create c eps =>
          cases hs
          unfold St.create; split <;> exact he
        | delete c =>
          have : s.delete c = some x := hs
          unfold St.delete at this
          split at this <;> cases this
          exact he
        | post ep rep =>
          have : s.post ep rep = some x := hs
          unfold St.post at this
          split at this <;> cases this
          exact he
        | postImmediate ep => cases hs; exact he
        | removeEvent id =>
          cases hs
          unfold St.removeEvent
          split
          · exact he
          · split <;> exact he
        | subscribe evt ep =>
          have : s.subscribe evt ep = some x := hs
          unfold St.subscribe at this
          split at this
          · split at this <;> cases this <;> exact he
          · cases this
        | unsubscribe evt ep =>
          have : s.unsubscribe evt ep = some x := hs
          unfold St.unsubscribe at this
          split at this <;> cases this
          exact he
        | addInit ep => cases hs; exact List.mem_append_left _ he
        | slot ids => cases hs; unfold St.slot; split <;> exact he
        | immediates => cases hs; unfold St.immediates; split <;> exact he
        | emit evt => cases hs; exact he
        | initialise => exact absurd rfl hn.1
        | next =>
          have : s.next = some x := hs
          unfold St.next at this
          repeat' split at this
          all_goals first | (cases this; exact he) | cases this
        | ret =>
          have : s.ret = some x := hs
          unfold St.ret at this
          repeat' split at this
          all_goals first | (cases this; exact he) | cases this
        | hold =>
          cases hs
          unfold St.hold
          split <;> exact he
        | store =>
          have : s.store = some x := hs
          unfold St.store at this
          split at this <;> cases this
          exact he
  · refine ⟨s.init.length, ?_⟩
    rw [run_cons (delete_eq hc), run_cons rfl]
    exact loop_none (k := .inits) rfl (ep := ep) _ _ s.stack rfl he hd

example : ∃ n, (⟨[1], [(10, 1)], [], [], 0, [], [10], []⟩ : St).run
    (.delete 1 :: .initialise :: calls n) = none :=
  (C137_init_fails (c := 1) (ep := 10) (reach_try .start (ops := [.create 1 [10], .addInit 10])
    (by decide)) (by decide) (by decide) (by decide)).2

/-- A subscriber of an event that is being emitted, deleted before its turn comes: it is called, even
when it has cancelled all its subscriptions. -/
theorem C137_emission_fails {s : St} (h : Reach s) {c : Nat} (hc : c ∈ s.comps) {cur : Nat × Nat}
    {ep : Nat} {r : List Nat} {fs : List Frame} (hs : s.stack = ⟨.emission, some cur, ep :: r⟩ :: fs)
    (ho : (ep, c) ∈ s.owner) :
    s.run (unsubscriptions s c ++ [.delete c, .ret, .next]) = none := by
  have hi := (reach_nest h).toInv
  obtain ⟨x, ep0⟩ := cur
  rw [run_append]
  unfold unsubscriptions
  rw [unsubscribe_run, Option.bind_some, run_cons (delete_eq (s := { s with
    subs := (s.subs.filter (fun p => s.mine c p.2)).foldl List.erase s.subs }) hc)]
  · have hd := dead hi ho { s with
      comps := s.comps.filter (· != c)
      owner := s.owner.filter (·.2 != c)
      subs := (s.subs.filter (fun p => s.mine c p.2)).foldl List.erase s.subs } rfl
    generalize hy : ({ s with
      comps := s.comps.filter (· != c)
      owner := s.owner.filter (·.2 != c)
      subs := (s.subs.filter (fun p => s.mine c p.2)).foldl List.erase s.subs } : St) = y at hd
    have hy' : y.stack = ⟨.emission, some (x, ep0), ep :: r⟩ :: fs := by rw [← hy]; exact hs
    cases hr : y.step .ret with
    | none => exact run_none hr
    | some z =>
      rw [run_cons hr]
      have hr' : y.ret = some z := hr
      unfold St.ret at hr'
      rw [hy'] at hr'
      dsimp only at hr'
      split at hr'
      · cases hr'
        exact run_none (next_dead (k := .emission) rfl _ rfl hd)
      · cases hr'
  · intro p hp
    exact live_iff.2 ⟨c, mine_iff.1 (List.mem_filter.1 hp).2⟩

/-- The first subscriber deletes the component of the second one, which has cancelled. -/
example : (⟨[1, 2], [(10, 1), (20, 2)], [⟨1, 10, 0⟩, ⟨2, 20, 3⟩], [], 2, [(7, 10), (7, 20)], [],
    [⟨.emission, some (10, 10), [20]⟩]⟩ : St).run [.unsubscribe 7 20, .delete 2, .ret, .next] = none :=
  C137_emission_fails (c := 2) (ep := 20) (reach_try .start (ops := pair ++ [.emit 7, .next])
    (by decide)) (by decide) rfl (by decide)

/-- An entry point that deletes its own component: its return uses it. -/
theorem C137_self_fails {s : St} (h : Reach s) {c : Nat} (hc : c ∈ s.comps) {k : Kind} {x ep : Nat}
    {r : List Nat} {fs : List Frame} (hs : s.stack = ⟨k, some (x, ep), r⟩ :: fs)
    (ho : (ep, c) ∈ s.owner) : s.run [.delete c, .ret] = none := by
  have hi := (reach_nest h).toInv
  have hd := dead hi ho { s with comps := s.comps.filter (· != c), owner := s.owner.filter (·.2 != c) }
    rfl
  rw [run_cons (delete_eq hc)]
  refine run_none ?_
  rw [step_ret]
  unfold St.ret
  dsimp only
  rw [hs]
  dsimp only
  rw [if_neg]
  intro hh
  rw [show St.live { s with comps := s.comps.filter (· != c), owner := s.owner.filter (·.2 != c) } ep =
    true from hh] at hd
  cases hd

example : (⟨[1, 2], [(10, 1), (20, 2)], [⟨1, 10, 0⟩, ⟨2, 20, 3⟩], [], 2, [(7, 10), (7, 20)], [],
    [⟨.table, some (1, 10), []⟩]⟩ : St).run [.delete 1, .ret] = none :=
  C137_self_fails (c := 1) (ep := 10) (reach_try .start (ops := pair ++ [.slot [1], .next])
    (by decide)) (by decide) rfl (by decide)

/-- The event with an identifier cannot be executed: it is not there, or its entry point is not. -/
def Broken (s : St) (id : Nat) : Prop :=
  ∀ e, s.event? id = some e → s.live e.ep = false

theorem finish_find {x id : Nat} (hne : id ≠ x) (es : List Ev) :
    (finish x es).find? (·.id == id) = es.find? (·.id == id) := by
  unfold finish
  induction es with
  | nil => rfl
  | cons e es ih =>
    rw [List.filterMap_cons]
    by_cases he : e.id = x
    · have hei : (e.id == id) = false := by
        simp only [beq_eq_false_iff_ne, ne_eq]
        intro h
        exact hne (h.symm.trans he)
      rw [if_pos he, List.find?_cons, hei]
      by_cases h0 : e.rep = 0
      · rw [if_pos h0]
        exact ih
      · rw [if_neg h0]
        by_cases h1 : 0 < e.rep
        · rw [if_pos h1]
          dsimp only
          rw [List.find?_cons, hei]
          exact ih
        · rw [if_neg h1]
          dsimp only
          rw [List.find?_cons, hei]
          exact ih
    · rw [if_neg he]
      dsimp only
      rw [List.find?_cons, List.find?_cons, ih]

theorem sched_none {k : Kind} (hk : k.sched = true) {id : Nat} (l : List Nat) (s : St)
    (fs : List Frame) (hs : s.stack = ⟨k, none, l⟩ :: fs) (he : id ∈ l) (hd : Broken s id) :
    s.run (calls l.length) = none := by
  induction l generalizing s with
  | nil => cases he
  | cons x r ih =>
    rw [List.length_cons, calls_succ]
    cases hf : s.event? x with
    | none =>
      refine run_none ?_
      show s.next = none
      unfold St.next
      rw [hs]
      simp [hk, hf]
    | some e =>
      cases hl : s.live e.ep with
      | false =>
        refine run_none ?_
        show s.next = none
        unfold St.next
        rw [hs]
        simp [hk, hf, hl]
      | true =>
        have h1 : s.step .next = some { s with stack := ⟨k, some (x, e.ep), r⟩ :: fs } := by
          show s.next = _
          unfold St.next
          rw [hs]
          simp [hk, hf, hl]
        rw [run_cons h1]
        have h2 : ({ s with stack := ⟨k, some (x, e.ep), r⟩ :: fs } : St).step .ret =
            some { s with events := finish x s.events, stack := ⟨k, none, r⟩ :: fs } := by
          rw [step_ret]
          unfold St.ret
          dsimp only
          rw [if_pos (show St.live { s with stack := ⟨k, some (x, e.ep), r⟩ :: fs } e.ep = true from hl)]
          simp [hk]
        rw [run_cons h2]
        have hne : id ≠ x := by
          rintro rfl
          rw [hd e hf] at hl
          cases hl
        refine ih _ rfl ?_ ?_
        · rcases List.mem_cons.1 he with g | g
          · exact absurd g hne
          · exact g
        · intro e' he'
          refine hd e' ?_
          unfold St.event? at he' ⊢
          dsimp only at he'
          rw [finish_find hne] at he'
          exact he'

theorem broken_delete {s : St} (h : Inv s) {c : Nat} {e : Ev} (he : e ∈ s.events)
    (ho : (e.ep, c) ∈ s.owner) (x : St) (hx : x.events = s.events)
    (hx' : x.owner = s.owner.filter (·.2 != c)) : Broken x e.id := by
  intro e' he'
  unfold St.event? at he'
  rw [hx] at he'
  have := event_unique h.ids he
  unfold St.event? at this
  rw [this] at he'
  cases he'
  exact dead h ho x hx'

theorem removeEvent_eq {s : St} {e : Ev} (he : s.event? e.id = some e) (hc : s.current ≠ some e.id) :
    s.removeEvent e.id = { s with events := s.events.filter (·.id != e.id) } := by
  unfold St.removeEvent
  rw [he]
  dsimp only
  rw [if_neg hc]

theorem broken_remove {s : St} {id : Nat} (x : St)
    (hx : x.events = s.events.filter (·.id != id)) : Broken x id := by
  intro e he
  obtain ⟨h1, h2⟩ := event_some he
  rw [hx] at h1
  have := (List.mem_filter.1 h1).2
  rw [h2] at this
  simp at this

/-- A component that is deleted by an entry point while one of its events is due at the same time:
whether it has removed the event or not, the loop of the scheduler fails before its end. Removing
the event without deleting the component is enough. -/
theorem C137_slot_fails {s : St} (h : Reach s) {c : Nat} (hc : c ∈ s.comps) {x ep : Nat} {e : Ev}
    {r : List Nat} {fs : List Frame} (hs : s.stack = ⟨.table, some (x, ep), r⟩ :: fs) (hr : e.id ∈ r)
    (he : e ∈ s.events) (ho : (e.ep, c) ∈ s.owner) :
    (∃ n, s.run ([.delete c, .ret] ++ calls n) = none) ∧
    (∃ n, s.run ([.removeEvent e.id, .delete c, .ret] ++ calls n) = none) ∧
    (∃ n, s.run ([.removeEvent e.id, .ret] ++ calls n) = none) := by
  have hi := (reach_nest h).toInv
  have hne : e.id ≠ x := by
    rintro hx
    have hb : s.busy = (x :: r) ++ fs.flatMap Frame.ids := by
      unfold St.busy
      rw [hs, List.flatMap_cons]
      rfl
    have hn := hi.busy
    rw [hb, List.nodup_append] at hn
    have h2 := (List.nodup_append.1 hn.2.1).1
    rw [List.nodup_cons] at h2
    exact h2.1 (hx ▸ hr)
  have key : ∀ y : St, y.stack = ⟨.table, some (x, ep), r⟩ :: fs → Broken y e.id →
      y.run (.ret :: calls r.length) = none := by
    intro y hy hb
    cases hrt : y.step .ret with
    | none => exact run_none hrt
    | some z =>
      rw [run_cons hrt]
      have hr' : y.ret = some z := hrt
      unfold St.ret at hr'
      rw [hy] at hr'
      dsimp only at hr'
      split at hr'
      · cases hr'
        refine sched_none (k := .table) rfl (id := e.id) r _ fs rfl hr ?_
        intro e' he'
        refine hb e' ?_
        unfold St.event? at he' ⊢
        simp only [Kind.sched, if_true] at he'
        rw [finish_find hne] at he'
        exact he'
      · cases hr'
  have hev := event_unique hi.ids he
  have hcur : s.current ≠ some e.id := by
    unfold St.current
    rw [hs]
    simp only [List.findSome?_cons, Kind.sched, if_true, Option.map_some]
    intro hh
    cases hh
    exact hne rfl
  have hrem := removeEvent_eq hev hcur
  refine ⟨⟨r.length, ?_⟩, ⟨r.length, ?_⟩, ⟨r.length, ?_⟩⟩
  · rw [List.cons_append, run_cons (delete_eq hc)]
    exact key _ hs (broken_delete hi he ho _ rfl rfl)
  · rw [List.cons_append, run_cons (s' := s.removeEvent e.id) rfl, hrem, List.cons_append,
      run_cons (delete_eq (s := { s with events := s.events.filter (·.id != e.id) }) hc)]
    exact key _ hs (broken_remove (s := s) _ rfl)
  · rw [List.cons_append, run_cons (s' := s.removeEvent e.id) rfl, hrem]
    exact key _ hs (broken_remove (s := s) _ rfl)

example : ∃ n, (⟨[1, 2], [(10, 1), (20, 2)], [⟨1, 10, 0⟩, ⟨2, 20, 3⟩], [], 2, [(7, 10), (7, 20)], [],
    [⟨.table, some (1, 10), [2]⟩]⟩ : St).run
      ([.removeEvent 2, .delete 2, .ret] ++ calls n) = none :=
  (C137_slot_fails (c := 2) (e := ⟨2, 20, 3⟩) (reach_try .start
    (ops := pair ++ [.slot [1, 2], .next]) (by decide)) (by decide) rfl (by decide) (by decide)
    (by decide)).2.1

/-- An immediate event cannot be taken back: removed or not, with its component deleted, the
scheduler fails when it executes the immediate events. Removing the event is enough. -/
theorem C137_immediate_fails {s : St} (h : Reach s) {c : Nat} (hc : c ∈ s.comps) {e : Ev}
    (hs : s.stack = []) (hm : e.id ∈ s.imm) (he : e ∈ s.events) (ho : (e.ep, c) ∈ s.owner) :
    (∃ n, s.run ([.delete c, .immediates] ++ calls n) = none) ∧
    (∃ n, s.run ([.removeEvent e.id, .delete c, .immediates] ++ calls n) = none) ∧
    (∃ n, s.run ([.removeEvent e.id, .immediates] ++ calls n) = none) := by
  have hi := (reach_nest h).toInv
  have key : ∀ y : St, y.stack = [] → y.imm = s.imm → Broken y e.id →
      y.run (.immediates :: calls s.imm.length) = none := by
    intro y hy hyi hb
    have h1 : y.step .immediates =
        some { y with imm := [], stack := [⟨.immediate, none, s.imm⟩] } := by
      show some y.immediates = _
      unfold St.immediates
      rw [if_pos (by unfold St.current; rw [hy]; rfl), hy, hyi]
    rw [run_cons h1]
    exact sched_none (k := .immediate) rfl (id := e.id) s.imm _ [] rfl hm hb
  have hev := event_unique hi.ids he
  have hcur : s.current ≠ some e.id := by
    unfold St.current
    rw [hs]
    simp
  have hrem := removeEvent_eq hev hcur
  refine ⟨⟨s.imm.length, ?_⟩, ⟨s.imm.length, ?_⟩, ⟨s.imm.length, ?_⟩⟩
  · rw [List.cons_append, run_cons (delete_eq hc)]
    exact key _ hs rfl (broken_delete hi he ho _ rfl rfl)
  · rw [List.cons_append, run_cons (s' := s.removeEvent e.id) rfl, hrem, List.cons_append,
      run_cons (delete_eq (s := { s with events := s.events.filter (·.id != e.id) }) hc)]
    exact key _ hs rfl (broken_remove (s := s) _ rfl)
  · rw [List.cons_append, run_cons (s' := s.removeEvent e.id) rfl, hrem]
    exact key _ hs rfl (broken_remove (s := s) _ rfl)

example : ∃ n, (⟨[1], [(10, 1)], [⟨1, 10, 0⟩], [1], 1, [], [], []⟩ : St).run
    ([.removeEvent 1, .delete 1, .immediates] ++ calls n) = none :=
  (C137_immediate_fails (c := 1) (e := ⟨1, 10, 0⟩) (reach_try .start
    (ops := [.create 1 [10], .postImmediate 10]) (by decide)) (by decide) rfl (by decide) (by decide)
    (by decide)).2.1

/-- A subscription cannot be cancelled once the component is deleted. -/
theorem C137_unsubscribe_fails {s : St} (h : Reach s) {c : Nat} (hc : c ∈ s.comps) {ep : Nat}
    (ho : (ep, c) ∈ s.owner) (evt : Nat) : s.run [.delete c, .unsubscribe evt ep] = none := by
  have hd := dead (reach_nest h).toInv ho
    { s with comps := s.comps.filter (· != c), owner := s.owner.filter (·.2 != c) } rfl
  rw [run_cons (delete_eq hc)]
  refine run_none ?_
  show St.unsubscribe _ evt ep = none
  unfold St.unsubscribe
  rw [if_neg]
  intro hh
  rw [hh] at hd
  cases hd

example : pairSt.run [.delete 1, .unsubscribe 7 10] = none :=
  C137_unsubscribe_fails pair_reach (by decide) (by decide) 7

/-- A new component whose entry point gets the address of one that was deleted is called for events
that it has not subscribed to. -/
theorem C137_reuse_fails {s : St} (h : Reach s) {c c' : Nat} (hc : c ∈ s.comps) (hn : c' ∉ s.comps)
    {evt ep : Nat} {l : List (Nat × Nat)} (he : s.subs.filter (·.1 == evt) = (evt, ep) :: l)
    (ho : (ep, c) ∈ s.owner) :
    ∃ s', s.run [.delete c, .create c' [ep], .emit evt, .next] = some s' ∧ (ep, c') ∈ s'.owner ∧
      s'.stack.head?.bind (·.cur) = some (ep, ep) := by
  have hi := (reach_nest h).toInv
  have hd := dead hi ho { s with comps := s.comps.filter (· != c), owner := s.owner.filter (·.2 != c) }
    rfl
  have h2 : ({ s with comps := s.comps.filter (· != c), owner := s.owner.filter (·.2 != c) } :
      St).create c' [ep] = { s with
        comps := s.comps.filter (· != c) ++ [c']
        owner := s.owner.filter (·.2 != c) ++ [(ep, c')] } := by
    unfold St.create
    rw [if_neg]
    · rfl
    · simp [hd, hn]
  have h3 : ({ s with
        comps := s.comps.filter (· != c) ++ [c']
        owner := s.owner.filter (·.2 != c) ++ [(ep, c')] } : St).live ep = true :=
    live_iff.2 ⟨c', by simp⟩
  refine ⟨{ s with
        comps := s.comps.filter (· != c) ++ [c']
        owner := s.owner.filter (·.2 != c) ++ [(ep, c')]
        stack := ⟨.emission, some (ep, ep), l.map (·.2)⟩ :: s.stack }, ?_, by simp, rfl⟩
  rw [run_cons (delete_eq hc), run_cons (o := .create c' [ep]) (congrArg some h2), run_cons rfl]
  exact run_cons (next_call (k := .emission) rfl _ (by unfold St.emit; rw [he]; rfl) h3)

example : ∃ s', pairSt.run [.delete 1, .create 3 [10], .emit 7, .next] = some s' ∧
    (10, 3) ∈ s'.owner ∧ s'.stack.head?.bind (·.cur) = some (10, 10) :=
  C137_reuse_fails (c := 1) (l := [(7, 20)]) pair_reach (by decide) (by decide) (by decide)
    (by decide)

end Verif.Sim.Holders
