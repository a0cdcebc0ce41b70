/-
Model of the visits of the component tree by `Publish`, `Configure`, `Connect`, `Reconnect` and
`Exit` of the simulator, and properties C28 and C72.

Sources: `src/Xsmp/Simulator.cpp:77-112` (`recursive_action`), `165-229`, `485-514`, `538-542`.
Each visited component behaves as in `Verif/Tree/Life.lean`.

Components may create new components inside their own containers while they are published,
configured or connected; these are visited, because the containers of a component are iterated
after the action on the component. Hooks that change containers of other components are
not modelled here but in `Verif/Sim/Dynamic.lean`.
-/
import Verif.Tree.Life

namespace Verif.Sim
open Verif.Tree

/-- When a component comes into existence: before the visit, or in the hook of its parent that is
executed by the call. Of the model only (what the hooks called in Simulator.cpp:85-112 do). -/
inductive Born where
  | there
  | by_ (c : LCall)
  deriving DecidableEq, Repr

/-- A component with those it contains or will contain: all its containers one after the other
(`Simulator.cpp:93-112` iterates them in this order). `raises`: the calls whose hook raises. -/
inductive Node where
  | mk (born : Born) (id : Nat) (life : Life) (raises : List LCall) (kids : List Node)

/-- When the component comes into existence. Of the model only (Simulator.cpp:85-112). -/
def Node.born : Node → Born | .mk b _ _ _ _ => b
/-- The component. Of the model only (the pointers of Simulator.cpp:85-112). -/
def Node.id : Node → Nat | .mk _ i _ _ _ => i
/-- Its state (Component.cpp:58-99). -/
def Node.life : Node → Life | .mk _ _ l _ _ => l
/-- Whether its hooks raise. Of the model only (Component.cpp:58-99). -/
def Node.raises : Node → List LCall | .mk _ _ _ r _ => r
/-- Its containers (Simulator.cpp:93-112). -/
def Node.kids : Node → List Node | .mk _ _ _ _ k => k

/-- The action on one component: each call of the list is made when the component is in the state
it needs (`Simulator.cpp:219-227`: `Publish`, `Configure`, `Connect` one after the other). Returns
the component, the calls made, and whether no exception was raised. -/
def visit (l : Life) (raises : List LCall) : List LCall → Life × List LCall × Bool
  | [] => (l, [], true)
  | c :: cs =>
    if l.state = c.needs then
      let r := l.call true (raises.contains c) c
      if r.2 = .ok then
        let v := visit r.1 raises cs
        (v.1, c :: v.2.1, v.2.2)
      else (r.1, [c], false)
    else visit l raises cs

/-- The component exists once its parent has got the calls. Of the model only (what the hooks
called in Simulator.cpp:85-112 do). -/
def Born.now (b : Born) (called : List LCall) : Bool :=
  match b with
  | .there => true
  | .by_ c => called.contains c

mutual
/-- `recursive_action` on a component (`Simulator.cpp:85-91`): the action, then the containers. An
exception ends the visit. A visited component exists from then on (the marks of those not reached
because of an exception are not brought up to date). -/
def Node.walk (ops : List LCall) : Node → Node × List (Nat × LCall) × Bool
  | .mk _ id life raises kids =>
    let v := visit life raises ops
    if v.2.2 then
      let w := walkAll ops v.2.1 kids
      (.mk .there id v.1 raises w.1, v.2.1.map (fun c => (id, c)) ++ w.2.1, w.2.2)
    else (.mk .there id v.1 raises kids, v.2.1.map (fun c => (id, c)), false)
/-- `recursive_action` on a composite (`Simulator.cpp:93-112`): `called`, the calls its owner just
got. -/
def walkAll (ops called : List LCall) : List Node → List Node × List (Nat × LCall) × Bool
  | [] => ([], [], true)
  | n :: ns =>
    if n.born.now called then
      let w := n.walk ops
      if w.2.2 then
        let ws := walkAll ops called ns
        (w.1 :: ws.1, w.2.1 ++ ws.2.1, ws.2.2)
      else (w.1 :: ns, w.2.1, false)
    else
      let ws := walkAll ops called ns
      (n :: ws.1, ws.2.1, ws.2.2)
end

/-- The calls made by `Connect` and `Reconnect` (`Simulator.cpp:219-227`, `503-511`). -/
def connectOps : List LCall := [.publish, .configure, .connect]
/-- By `Configure` (`196-203`). (Simulator.cpp:196-203.) -/
def configureOps : List LCall := [.publish, .configure]
/-- By `Publish` (`177-181`). (Simulator.cpp:177-181.) -/
def publishOps : List LCall := [.publish]
/-- By `Exit` (`538-542`). (Simulator.cpp:538-542.) -/
def exitOps : List LCall := [.disconnect]

/-- `recursive_action(this, …)`: the simulator itself is not a component, only what it contains is
visited. (Simulator.cpp:105-112.) -/
def walkSim (ops : List LCall) (comps : List Node) : List Node × List (Nat × LCall) × Bool :=
  walkAll ops [] comps

/-- The visit of `Reconnect(root)` (`Simulator.cpp:502-514`): `root` is passed as a composite, so
the action is not applied to `root` itself. -/
def reconnectWalk (root : Node) : Node × List (Nat × LCall) × Bool :=
  let w := walkAll connectOps [] root.kids
  (.mk root.born root.id root.life root.raises w.1, w.2.1, w.2.2)

/-! ### Specification -/

/-- The calls a component in each state has still to get to be connected. -/
def dueConnect : LState → List LCall
  | .created => [.publish, .configure, .connect]
  | .publishing => [.configure, .connect]
  | .configured => [.connect]
  | .connected => []
  | .disconnected => []

/-- … to be configured, published, disconnected. -/
def dueConfigure : LState → List LCall
  | .created => [.publish, .configure]
  | .publishing => [.configure]
  | _ => []
def duePublish : LState → List LCall
  | .created => [.publish]
  | _ => []
def dueExit : LState → List LCall
  | .connected => [.disconnect]
  | _ => []

mutual
/-- The component and all those below it that exist when they are reached, parents first, in the
order of the containers. `due`: the calls made on a component by its state. -/
def Node.alive (due : LState → List LCall) : Node → List Node
  | .mk b id life raises kids =>
    .mk b id life raises kids :: aliveAll due (due life.state) kids
def aliveAll (due : LState → List LCall) (called : List LCall) : List Node → List Node
  | [] => []
  | n :: ns =>
    (if n.born.now called then n.alive due else []) ++ aliveAll due called ns
end

mutual
/-- The components that exist in a tree, parents first. -/
def Node.existing : Node → List Node
  | .mk b id life raises kids => .mk b id life raises kids :: existingAll kids
def existingAll : List Node → List Node
  | [] => []
  | n :: ns => (if n.born = .there then n.existing else []) ++ existingAll ns
end

/-- No hook raises. -/
def quiet (n : Node) : Prop := n.raises = []

/-! ### The action on one component -/

/-- The generic form of the tables above: the calls made on a component in the state `s`. -/
def due : List LCall → LState → List LCall
  | [], _ => []
  | c :: cs, s => if s = c.needs then c :: due cs (after c) else due cs s
where
  /-- the state after a successful call -/
  after : LCall → LState
    | .publish => .publishing
    | .configure => .configured
    | .connect => .connected
    | .disconnect => .disconnected

theorem due_connect : due connectOps = dueConnect := by
  funext s; cases s <;> rfl
theorem due_configure : due configureOps = dueConfigure := by
  funext s; cases s <;> rfl
theorem due_publish : due publishOps = duePublish := by
  funext s; cases s <;> rfl
theorem due_exit : due exitOps = dueExit := by
  funext s; cases s <;> rfl

/-- The state in the end. -/
def final : List LCall → LState → LState
  | [], s => s
  | c :: cs, s => if s = c.needs then final cs (due.after c) else final cs s

theorem call_ok (l : Life) (c : LCall) (h : l.state = c.needs) (r : Bool) :
    ((l.call true r c).2 = .ok ↔ r = false) ∧ (l.call true r c).1.state =
      (if r = true ∧ c = .disconnect then l.state else due.after c) := by
  cases c <;> cases r <;> simp_all [Life.call, Life.base, Life.hook, LCall.needs, due.after]

theorem visit_quiet (l : Life) (ops : List LCall) :
    (visit l [] ops).2.1 = due ops l.state ∧ (visit l [] ops).2.2 = true ∧
      (visit l [] ops).1.state = final ops l.state := by
  induction ops generalizing l with
  | nil => exact ⟨rfl, rfl, rfl⟩
  | cons c cs ih =>
    simp only [visit, due, final]
    split
    · rename_i hs
      have hc := call_ok l c hs false
      have hf : ([] : List LCall).contains c = false := rfl
      rw [hf, if_pos (hc.1.2 rfl)]
      have hst : (l.call true false c).1.state = due.after c := by rw [hc.2]; simp
      have := ih (l.call true false c).1
      rw [hst] at this
      exact ⟨by rw [this.1], this.2.1, this.2.2⟩
    · exact ih l

/-- With raising hooks: the calls are a first part of those due, all of them when none raised. -/
theorem visit_prefix (l : Life) (raises ops : List LCall) :
    (visit l raises ops).2.1 <+: due ops l.state ∧
    ((visit l raises ops).2.2 = true → (visit l raises ops).2.1 = due ops l.state ∧
      (visit l raises ops).1.state = final ops l.state) ∧
    ((visit l raises ops).2.2 = false → ∃ c ∈ raises, (visit l raises ops).2.1.getLast? = some c) := by
  induction ops generalizing l with
  | nil => simp [visit, due, final]
  | cons c cs ih =>
    simp only [visit, due, final]
    split
    · rename_i hs
      have hc := call_ok l c hs (raises.contains c)
      split
      · rename_i hok
        have hr := hc.1.1 hok
        have hst : (l.call true (raises.contains c) c).1.state = due.after c := by
          rw [hc.2, hr]; simp
        have := ih (l.call true (raises.contains c) c).1
        rw [hst] at this
        refine ⟨?_, ?_, ?_⟩
        · simpa using this.1
        · intro h
          have := this.2.1 h
          exact ⟨by rw [this.1], this.2⟩
        · intro h
          obtain ⟨c', hc', hl⟩ := this.2.2 h
          refine ⟨c', hc', ?_⟩
          rw [List.getLast?_cons, hl]; rfl
      · rename_i hok
        refine ⟨by simp, by simp, ?_⟩
        intro _
        refine ⟨c, ?_, rfl⟩
        cases hr : raises.contains c with
        | true => simpa using hr
        | false => exact absurd (hc.1.2 hr) hok
    · exact ih l

/-! ### The visit -/

/-- What is expected of a visit of components `ns`. -/
def expectedLog (d : LState → List LCall) (alive : List Node) : List (Nat × LCall) :=
  alive.flatMap (fun n => (d n.life.state).map (fun c => (n.id, c)))

theorem walk_born (ops : List LCall) (n : Node) : (n.walk ops).1.born = .there := by
  cases n; simp only [Node.walk]; split <;> rfl

mutual
theorem walk_prefix (ops : List LCall) (n : Node) :
    (n.walk ops).2.1 <+: expectedLog (due ops) (n.alive (due ops)) ∧
    ((n.walk ops).2.2 = true →
      (n.walk ops).2.1 = expectedLog (due ops) (n.alive (due ops)) ∧
      (n.walk ops).1.existing.map (fun m => (m.id, m.life.state)) =
        (n.alive (due ops)).map (fun m => (m.id, final ops m.life.state))) ∧
    ((n.walk ops).2.2 = false → ∃ m ∈ n.alive (due ops), ∃ c ∈ m.raises,
      (n.walk ops).2.1.getLast? = some (m.id, c)) := by
  cases n with
  | mk b id life raises kids =>
    have hv := visit_prefix life raises ops
    simp only [Node.walk, Node.alive]
    split
    · rename_i hok
      obtain ⟨h1, h2⟩ := hv.2.1 hok
      have hk := walkAll_prefix ops (due ops life.state) kids
      rw [h1]
      refine ⟨?_, ?_, ?_⟩
      · simp only [expectedLog, List.flatMap_cons]
        exact List.prefix_append_right_inj _ |>.2 hk.1
      · intro h
        obtain ⟨h3, h4⟩ := hk.2.1 h
        refine ⟨?_, ?_⟩
        · simp only [expectedLog, List.flatMap_cons]; rw [h3]; rfl
        · simp only [Node.existing, List.map_cons]
          rw [h4]
          simp only [Node.id, Node.life, h2]
      · intro h
        obtain ⟨m, hm, c, hc, hl⟩ := hk.2.2 h
        refine ⟨m, List.mem_cons_of_mem _ hm, c, hc, ?_⟩
        rw [List.getLast?_append, hl]; rfl
    · rename_i hok
      have hok : (visit life raises ops).2.2 = false := by simpa using hok
      refine ⟨?_, by simp, ?_⟩
      · simp only [expectedLog, List.flatMap_cons]
        exact (hv.1.map _).trans (List.prefix_append _ _)
      · intro _
        obtain ⟨c, hc, hl⟩ := hv.2.2 hok
        refine ⟨_, List.mem_cons_self, c, hc, ?_⟩
        rw [List.getLast?_map, hl]; rfl
theorem walkAll_prefix (ops called : List LCall) (ns : List Node) :
    (walkAll ops called ns).2.1 <+: expectedLog (due ops) (aliveAll (due ops) called ns) ∧
    ((walkAll ops called ns).2.2 = true →
      (walkAll ops called ns).2.1 = expectedLog (due ops) (aliveAll (due ops) called ns) ∧
      (existingAll (walkAll ops called ns).1).map (fun m => (m.id, m.life.state)) =
        (aliveAll (due ops) called ns).map (fun m => (m.id, final ops m.life.state))) ∧
    ((walkAll ops called ns).2.2 = false → ∃ m ∈ aliveAll (due ops) called ns, ∃ c ∈ m.raises,
      (walkAll ops called ns).2.1.getLast? = some (m.id, c)) := by
  cases ns with
  | nil => simp [walkAll, aliveAll, expectedLog, existingAll]
  | cons n ns =>
    have hs := walkAll_prefix ops called ns
    simp only [walkAll, aliveAll]
    cases hb : n.born.now called with
    | false =>
      simp only [Bool.false_eq_true, if_false, List.nil_append]
      refine ⟨hs.1, ?_, hs.2.2⟩
      intro h
      refine ⟨(hs.2.1 h).1, ?_⟩
      have hne : n.born ≠ .there := by intro he; rw [he] at hb; simp [Born.now] at hb
      simp only [existingAll, hne, if_false, List.nil_append]
      exact (hs.2.1 h).2
    | true =>
      simp only [if_true]
      have hn := walk_prefix ops n
      split
      · rename_i hok
        obtain ⟨h1, h2⟩ := hn.2.1 hok
        refine ⟨?_, ?_, ?_⟩
        · simp only [expectedLog, List.flatMap_append]
          rw [h1]
          exact List.prefix_append_right_inj _ |>.2 hs.1
        · intro h
          obtain ⟨h3, h4⟩ := hs.2.1 h
          refine ⟨?_, ?_⟩
          · simp only [expectedLog, List.flatMap_append]; rw [h1, h3]; rfl
          · simp only [existingAll, walk_born, if_true, List.map_append]; rw [h2, h4]
        · intro h
          obtain ⟨m, hm, c, hc, hl⟩ := hs.2.2 h
          refine ⟨m, List.mem_append_right _ hm, c, hc, ?_⟩
          rw [List.getLast?_append, hl]; rfl
      · rename_i hok
        have hok : (n.walk ops).2.2 = false := by simpa using hok
        refine ⟨?_, by simp, ?_⟩
        · simp only [expectedLog, List.flatMap_append]
          exact hn.1.trans (List.prefix_append _ _)
        · intro _
          obtain ⟨m, hm, c, hc, hl⟩ := hn.2.2 hok
          exact ⟨m, List.mem_append_left _ hm, c, hc, hl⟩
end

/-- A visit in which no component that is reached has a raising hook ends normally. -/
theorem walkAll_quiet (ops called : List LCall) (ns : List Node)
    (h : ∀ m ∈ aliveAll (due ops) called ns, quiet m) : (walkAll ops called ns).2.2 = true := by
  cases hx : (walkAll ops called ns).2.2 with
  | true => rfl
  | false =>
    obtain ⟨m, hm, c, hc, _⟩ := (walkAll_prefix ops called ns).2.2 hx
    have : m.raises = [] := h m hm
    rw [this] at hc; simp at hc

/-! ### C28 -/

/-- The state in which `Connect` leaves a component. -/
def connectedState : LState → LState
  | .disconnected => .disconnected
  | _ => .connected

theorem final_connect : final connectOps = connectedState := by
  funext s; cases s <;> rfl

/-- C28: for every tree (any depth, any mix of states, components created on the way), `Connect`
makes exactly the missing ones of the calls `Publish`, `Configure`, `Connect` on each component, in
this order, each once; a component's calls come before those of the components it contains. After
it, each component is Connected (unless it was Disconnected). -/
theorem C28 (comps : List Node)
    (hq : ∀ m ∈ aliveAll dueConnect [] comps, quiet m) :
    let alive := aliveAll dueConnect [] comps
    let w := walkSim connectOps comps
    w.2.2 = true ∧
    w.2.1 = alive.flatMap (fun n => (dueConnect n.life.state).map (fun c => (n.id, c))) ∧
    (existingAll w.1).map (fun n => (n.id, n.life.state)) =
      alive.map (fun n => (n.id, connectedState n.life.state)) := by
  have hp := walkAll_prefix connectOps [] comps
  have ho := walkAll_quiet connectOps [] comps (by rw [due_connect]; exact hq)
  have := hp.2.1 ho
  rw [due_connect, final_connect] at this
  exact ⟨ho, this.1, this.2⟩

/-- C28, hooks that raise: the calls made are the first part of the calls above, up to the call
whose hook raised. -/
theorem C28_raise (comps : List Node) (h : (walkSim connectOps comps).2.2 = false) :
    (walkSim connectOps comps).2.1 <+: (aliveAll dueConnect [] comps).flatMap
      (fun n => (dueConnect n.life.state).map (fun c => (n.id, c))) ∧
    ∃ m ∈ aliveAll dueConnect [] comps, ∃ c ∈ m.raises,
      (walkSim connectOps comps).2.1.getLast? = some (m.id, c) := by
  have hp := walkAll_prefix connectOps [] comps
  rw [due_connect] at hp
  exact ⟨hp.1, hp.2.2 h⟩

mutual
theorem alive_split (d : LState → List LCall) (t n : Node) (h : n ∈ t.alive d) :
    ∃ pre post, t.alive d = pre ++ n.alive d ++ post := by
  cases t with
  | mk b id life raises kids =>
    rw [Node.alive] at h ⊢
    rcases List.mem_cons.1 h with rfl | h
    · exact ⟨[], [], by simp [Node.alive]⟩
    · obtain ⟨pre, post, he⟩ := aliveAll_split d (d life.state) kids n h
      exact ⟨.mk b id life raises kids :: pre, post, by rw [he]; simp⟩
theorem aliveAll_split (d : LState → List LCall) (called : List LCall) (ts : List Node) (n : Node)
    (h : n ∈ aliveAll d called ts) :
    ∃ pre post, aliveAll d called ts = pre ++ n.alive d ++ post := by
  cases ts with
  | nil => simp [aliveAll] at h
  | cons t ts =>
    simp only [aliveAll] at h ⊢
    rcases List.mem_append.1 h with h | h
    · split at h
      · obtain ⟨pre, post, he⟩ := alive_split d t n h
        rename_i hb
        exact ⟨pre, post ++ aliveAll d called ts, by rw [if_pos hb, he]; simp⟩
      · simp at h
    · obtain ⟨pre, post, he⟩ := aliveAll_split d called ts n h
      exact ⟨(if t.born.now called then t.alive d else []) ++ pre, post, by rw [he]; simp⟩
end

/-- C28: when components have different identities, the calls on a component all come before those
on the components it contains, at any depth; and no call is made twice. -/
theorem C28_parents_first (comps : List Node)
    (hid : ((aliveAll dueConnect [] comps).map Node.id).Nodup)
    (n m : Node) (hn : n ∈ aliveAll dueConnect [] comps)
    (hm : m ∈ aliveAll dueConnect (dueConnect n.life.state) n.kids)
    (a b : LCall) (l1 l2 : List (Nat × LCall))
    (hl : (walkSim connectOps comps).2.1 = l1 ++ (n.id, a) :: l2) : (m.id, b) ∉ l1 := by
  have hp := (walkAll_prefix connectOps [] comps).1
  rw [due_connect] at hp
  obtain ⟨l3, hl3⟩ := hp
  change (walkSim connectOps comps).2.1 ++ l3 = _ at hl3
  rw [hl] at hl3
  obtain ⟨pre, post, he⟩ := aliveAll_split dueConnect [] comps n hn
  rw [he] at hl3 hid
  obtain ⟨bn, idn, lifen, rn, kn⟩ := n
  simp only [Node.alive, Node.life, Node.kids, Node.id] at *
  intro hmem
  have key : ∀ (pre : List Node) (l1 : List (Nat × LCall)) (X : List Node),
      (∀ x ∈ pre, x.id ≠ idn) → (∀ x ∈ pre, x.id ≠ m.id) →
      m.id ≠ idn → (∀ x ∈ X, x.id ≠ idn) →
      l1 ++ (idn, a) :: l2 ++ l3 = expectedLog dueConnect (pre ++ Node.mk bn idn lifen rn kn :: X) →
      (m.id, b) ∉ l1 := by
    intro pre l1 X h1 h2 h3 h4 heq hmem
    -- split the expected calls in those before `n`, those of `n` and those after
    simp only [expectedLog, List.flatMap_append, List.flatMap_cons] at heq
    have notin : ∀ (Y : List Node) (i : Nat), (∀ x ∈ Y, x.id ≠ i) → ∀ c,
        (i, c) ∉ Y.flatMap (fun n => (dueConnect n.life.state).map (fun c => (n.id, c))) := by
      intro Y i hY c hc
      simp only [List.mem_flatMap, List.mem_map, Prod.mk.injEq] at hc
      obtain ⟨x, hx, c', _, hi, _⟩ := hc
      exact hY x hx hi
    generalize hA : pre.flatMap (fun n => (dueConnect n.life.state).map (fun c => (n.id, c))) = A at heq
    generalize hX : X.flatMap (fun n => (dueConnect n.life.state).map (fun c => (n.id, c))) = Z at heq
    have hA1 : ∀ c, (idn, c) ∉ A := by rw [← hA]; exact notin pre idn h1
    have hA2 : ∀ c, (m.id, c) ∉ A := by rw [← hA]; exact notin pre m.id h2
    have hZ : ∀ c, (idn, c) ∉ Z := by rw [← hX]; exact notin X idn h4
    simp only [Node.id, Node.life] at heq
    -- l1 is a first part of A ++ (calls of n)
    have hle : l1.length < (A ++ (dueConnect lifen.state).map (fun c => (idn, c))).length := by
      refine Decidable.byContradiction fun hlt => ?_
      have hlt := Nat.le_of_not_lt hlt
      have h1 : (l1 ++ (idn, a) :: l2 ++ l3)[l1.length]? = some (idn, a) := by simp
      rw [heq, ← List.append_assoc, List.getElem?_append_right hlt] at h1
      exact hZ a (List.mem_of_getElem? h1)
    have hpre : l1 <+: A ++ (dueConnect lifen.state).map (fun c => (idn, c)) := by
      have e1 : l1 <+: (A ++ (dueConnect lifen.state).map (fun c => (idn, c))) ++ Z := by
        rw [List.append_assoc, ← heq, List.append_assoc]
        exact List.prefix_append _ _
      exact List.prefix_of_prefix_length_le e1 (List.prefix_append _ _) (Nat.le_of_lt hle)
    have := hpre.subset hmem
    rcases List.mem_append.1 this with h | h
    · exact hA2 b h
    · simp only [List.mem_map, Prod.mk.injEq] at h
      obtain ⟨_, _, h, _⟩ := h
      exact h3 h.symm
  have hid' := hid
  simp only [List.map_append, List.map_cons, Node.id] at hid
  refine key pre l1 (aliveAll dueConnect (dueConnect lifen.state) kn ++ post) ?_ ?_ ?_ ?_
    (by simpa using hl3) hmem
  all_goals
    have hm' : m.id ∈ (aliveAll dueConnect (dueConnect lifen.state) kn).map Node.id :=
      List.mem_map_of_mem hm
  · intro x hx hxe
    have hx' : x.id ∈ pre.map Node.id := List.mem_map_of_mem hx
    rw [hxe] at hx'
    have := List.nodup_append.1 (List.nodup_append.1 hid).1
    exact this.2.2 _ hx' _ List.mem_cons_self rfl
  · intro x hx hxe
    have hx' : x.id ∈ pre.map Node.id := List.mem_map_of_mem hx
    rw [hxe] at hx'
    have := List.nodup_append.1 (List.nodup_append.1 hid).1
    exact this.2.2 _ hx' _ (List.mem_cons_of_mem _ hm') rfl
  · intro he
    have := (List.nodup_append.1 (List.nodup_append.1 hid).1).2.1
    rw [List.nodup_cons] at this
    rw [he] at hm'
    exact this.1 hm'
  · intro x hx hxe
    have h1 := (List.nodup_append.1 (List.nodup_append.1 hid).1).2.1
    rw [List.nodup_cons] at h1
    have h2 := (List.nodup_append.1 hid).2.2
    rcases List.mem_append.1 hx with hx | hx
    · exact h1.1 (hxe ▸ List.mem_map_of_mem hx)
    · exact h2 idn (by simp) x.id (List.mem_map_of_mem hx) hxe.symm

/-- C28: no call is made twice on a component. -/
theorem C28_once (comps : List Node)
    (hid : ((aliveAll dueConnect [] comps).map Node.id).Nodup) :
    (walkSim connectOps comps).2.1.Nodup := by
  have hp := (walkAll_prefix connectOps [] comps).1
  rw [due_connect] at hp
  refine List.Nodup.sublist hp.sublist ?_
  generalize aliveAll dueConnect [] comps = A at hid
  clear hp
  unfold expectedLog
  induction A with
  | nil => simp
  | cons n A ih =>
    simp only [List.map_cons, List.nodup_cons] at hid
    rw [List.flatMap_cons, List.nodup_append]
    refine ⟨?_, ih hid.2, ?_⟩
    · cases n.life.state <;> simp [dueConnect]
    · intro x hx y hy he
      subst he
      simp only [List.mem_map] at hx
      obtain ⟨c, _, rfl⟩ := hx
      simp only [List.mem_flatMap, List.mem_map, Prod.mk.injEq] at hy
      obtain ⟨m, hm, _, _, he, _⟩ := hy
      exact hid.1 (he ▸ List.mem_map_of_mem hm)

/-- `Publish`, `Configure` and `Exit` in the same way. -/
theorem C28_others (ops : List LCall) (comps : List Node)
    (hq : ∀ m ∈ aliveAll (due ops) [] comps, quiet m) :
    (walkSim ops comps).2.1 =
      (aliveAll (due ops) [] comps).flatMap (fun n => (due ops n.life.state).map (fun c => (n.id, c))) ∧
    (existingAll (walkSim ops comps).1).map (fun n => (n.id, n.life.state)) =
      (aliveAll (due ops) [] comps).map (fun n => (n.id, final ops n.life.state)) :=
  (walkAll_prefix ops [] comps).2.1 (walkAll_quiet ops [] comps hq)

/-- The states in which `Configure`, `Publish` and `Exit` leave a component. -/
def configuredState : LState → LState
  | .created | .publishing => .configured
  | s => s
def publishedState : LState → LState
  | .created => .publishing
  | s => s
def exitedState : LState → LState
  | .connected => .disconnected
  | s => s

/-- C28 for the other visits: `Configure` publishes and configures what is not yet, `Publish`
publishes, and `Exit` disconnects the connected components, each once, in the order of the tree. -/
theorem C28_visits (comps : List Node) :
    ((∀ m ∈ aliveAll dueConfigure [] comps, quiet m) →
      (walkSim configureOps comps).2.1 = (aliveAll dueConfigure [] comps).flatMap
        (fun n => (dueConfigure n.life.state).map (fun c => (n.id, c))) ∧
      (existingAll (walkSim configureOps comps).1).map (fun n => (n.id, n.life.state)) =
        (aliveAll dueConfigure [] comps).map (fun n => (n.id, configuredState n.life.state))) ∧
    ((∀ m ∈ aliveAll duePublish [] comps, quiet m) →
      (walkSim publishOps comps).2.1 = (aliveAll duePublish [] comps).flatMap
        (fun n => (duePublish n.life.state).map (fun c => (n.id, c))) ∧
      (existingAll (walkSim publishOps comps).1).map (fun n => (n.id, n.life.state)) =
        (aliveAll duePublish [] comps).map (fun n => (n.id, publishedState n.life.state))) ∧
    ((∀ m ∈ aliveAll dueExit [] comps, quiet m) →
      (walkSim exitOps comps).2.1 = (aliveAll dueExit [] comps).flatMap
        (fun n => (dueExit n.life.state).map (fun c => (n.id, c))) ∧
      (existingAll (walkSim exitOps comps).1).map (fun n => (n.id, n.life.state)) =
        (aliveAll dueExit [] comps).map (fun n => (n.id, exitedState n.life.state))) := by
  have f1 : final configureOps = configuredState := by funext s; cases s <;> rfl
  have f2 : final publishOps = publishedState := by funext s; cases s <;> rfl
  have f3 : final exitOps = exitedState := by funext s; cases s <;> rfl
  rw [← due_configure, ← due_publish, ← due_exit, ← f1, ← f2, ← f3]
  exact ⟨C28_others configureOps comps, C28_others publishOps comps, C28_others exitOps comps⟩

/-- A component in a state, without hooks that raise. -/
def mkNode (id : Nat) (st : LState) (b : Born := .there) (kids : List Node := []) : Node :=
  .mk b id { Life.init with state := st } [] kids

/-- A model 1 with a connected child 2 and a child 3 that its `Configure` creates and that has a
child; a configured model 5. -/
def exampleTree : List Node :=
  [mkNode 1 .created .there
    [mkNode 2 .connected, mkNode 3 .created (.by_ .configure) [mkNode 4 .publishing],
     mkNode 6 .created (.by_ .disconnect)],
   mkNode 5 .configured]

example :
    (walkSim connectOps exampleTree).2.1 =
      [(1, .publish), (1, .configure), (1, .connect), (3, .publish), (3, .configure), (3, .connect),
       (4, .configure), (4, .connect), (5, .connect)] ∧
    (aliveAll dueConnect [] exampleTree).map Node.id = [1, 2, 3, 4, 5] ∧
    (walkSim exitOps exampleTree).2.1 = [(2, .disconnect)] := by decide

example : (walkSim connectOps [.mk .there 1 .init [] [.mk .there 2 .init [.configure] [],
    mkNode 3 .created], mkNode 4 .created]).2 =
    ([(1, .publish), (1, .configure), (1, .connect), (2, .publish), (2, .configure)], false) := by
  decide

/-! ### C72: Reconnect -/

/-- C72 (part): `Reconnect(root)` connects every component below `root`, as `Connect` does. -/
theorem C72_partial (root : Node) (hq : ∀ m ∈ aliveAll dueConnect [] root.kids, quiet m) :
    let alive := aliveAll dueConnect [] root.kids
    (reconnectWalk root).2.1 =
      alive.flatMap (fun n => (dueConnect n.life.state).map (fun c => (n.id, c))) ∧
    (existingAll (reconnectWalk root).1.kids).map (fun n => (n.id, n.life.state)) =
      alive.map (fun n => (n.id, connectedState n.life.state)) := by
  have := (C28 root.kids hq).2
  exact this

/-- C72 is false for `root` itself: it gets no call and stays in the state it was in, so a new model
passed to `Reconnect` is never connected while its children are. -/
theorem C72_fails :
    (∀ root, (reconnectWalk root).1.life = root.life) ∧
    ∃ root : Node, root.life.state = .created ∧ (reconnectWalk root).1.life.state = .created ∧
      (reconnectWalk root).2.1 = [(2, .publish), (2, .configure), (2, .connect)] :=
  ⟨fun _ => rfl, mkNode 1 .created .there [mkNode 2 .created], rfl, rfl, by decide⟩

end Verif.Sim
