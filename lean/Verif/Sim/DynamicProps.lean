import Verif.Sim.DynamicInv

/-!
Property C104: which components a visit reaches when the hooks change containers.

The specification is `Timely`, with `Late` of `Verif.Sim.DynamicInv` (a component is late when it was
added to a container after the loop over that container had begun), `World.Ok` (the start) and
`Careful` (the deletions that are allowed).
-/
namespace Verif.Sim.Dyn
open Verif.Tree

/-- The components to be visited: those in the containers of the simulator and, from them, in the
containers of components to be visited, unless they came late. -/
inductive Timely (w : World) (root : List Nat) (log : List Ev) : Nat → Prop
  | top (k d : Nat) : k ∈ root → d ∈ w.items k → ¬ Late log d → Timely w root log d
  | inside (p k d : Nat) : Timely w root log p → k ∈ w.conts p → d ∈ w.items k → ¬ Late log d →
      Timely w root log d

/-- No hook deletes a component of a container whose loop has begun. -/
def Careful (ops : List LCall) (s : Visit) : List (List Edit × Bool) → Prop
  | [] => True
  | i :: is => (∀ k d, .del k d ∈ i.1 → ∀ n, .begun k n ∉ s.log) ∧
      Careful ops (s.step ops i.1 i.2) is

theorem Visit.Good.run {ops : List LCall} {root : List Nat} {w0 : World} :
    ∀ {is : List (List Edit × Bool)} {s : Visit}, s.Good ops root w0 → Careful ops s is →
      (s.run ops is).Good ops root w0
  | [], _, h, _ => h
  | i :: _, _, h, hc => (h.step i.1 i.2 hc.1).run hc.2

theorem VOk.split {w : World} {root : List Nat} {d : Nat} {pre : List Ev} :
    ∀ {post : List Ev}, VOk w root (post ++ .visited d :: pre) →
      .visited d ∉ pre ∧ ∃ k o, k ∈ contsOf w root o ∧ w.place d = some k ∧ OV pre o
  | [], h => ⟨h.1, h.2.1⟩
  | .visited _ :: post, h => VOk.split (post := post) h.2.2
  | .called _ _ :: post, h => VOk.split (post := post) h
  | .added _ _ :: post, h => VOk.split (post := post) h
  | .begun _ _ :: post, h => VOk.split (post := post) h

theorem COk.split {w : World} {c : Nat} {o : LCall} {pre : List Ev} :
    ∀ {post : List Ev}, COk w (post ++ .called c o :: pre) →
      ∀ k, k ∈ w.conts c → ∀ n, Ev.begun k n ∉ pre
  | [], h => h.1
  | .called _ _ :: post, h => COk.split (post := post) h.2
  | .visited _ :: post, h => COk.split (post := post) h
  | .added _ _ :: post, h => COk.split (post := post) h
  | .begun _ _ :: post, h => COk.split (post := post) h

theorem Inv.timely {ops : List LCall} {root : List Nat} {w0 w : World} {log : List Ev}
    (h : Inv ops root w0 w none [] log) (d : Nat) :
    .visited d ∈ log ↔ Timely w root log d := by
  have hdone : ∀ o k d, OV log o → k ∈ contsOf w root o → d ∈ w.items k → ¬ Late log d →
      .visited d ∈ log := by
    intro o k d ho hk hd hl
    obtain ⟨n, hn⟩ : ∃ n, .begun k n ∈ log := by
      rcases h.v2 o k ho hk with g | ⟨_, g, _⟩ | ⟨_, _, _, g⟩
      · exact g
      · cases g
      · cases g
    obtain ⟨i, hi⟩ := List.getElem?_of_mem hd
    have hlt : i < n := Nat.lt_of_not_le fun hh => hl ((h.l1 k i d hi).2 ⟨n, hn, hh⟩)
    rcases (h.b2 k n hn).2 i d hlt hi with g | ⟨_, g, _⟩
    · exact g
    · cases g
  constructor
  · -- by the order of the visits
    have key : ∀ l post, log = post ++ l → ∀ d, .visited d ∈ l → Timely w root log d := by
      intro l
      induction l with
      | nil => intro _ _ d hd; cases hd
      | cons e l ih =>
        intro post hp d hd
        rcases List.mem_cons.1 hd with hd | hd
        · subst hd
          obtain ⟨_, k, o, hk, hpl, ho⟩ := VOk.split (hp ▸ h.v3)
          have hmem := (h.ok.place k d).2 hpl
          have hnl : ¬ Late log d := by
            have hv : .visited d ∈ log := by rw [hp]; simp
            obtain ⟨k', n, i, g1, g2, g3, _⟩ := h.v1 d hv
            intro hl
            obtain ⟨m, hm1, hm2⟩ := (h.l1 k' i d g2).1 hl
            have := h.b1 k' n m g1 hm1
            omega
          cases o with
          | none => exact .top k d hk hmem hnl
          | some p =>
            exact .inside p k d (ih (post ++ [.visited d]) (by rw [hp]; simp) p (ho p rfl)) hk hmem hnl
        · exact ih (post ++ [e]) (by rw [hp]; simp) d hd
    exact key log [] rfl d
  · intro ht
    induction ht with
    | top k d hk hd hl => exact hdone none k d (fun c hc => nomatch hc) hk hd hl
    | inside p k d _ hk hd hl ih =>
      exact hdone (some p) k d (fun c hc => by cases hc; exact ih) hk hd hl

/-- C104 (partial), safety: whatever components the hooks add, anywhere, and whatever they delete from
containers that have not been reached, and wherever an exception is raised, the visit never uses a
component that does not exist. Missing: deletions from containers being visited, which
`C104_removed_fails` refutes. -/
theorem C104_safe_partial (ops : List LCall) (root : List Nat) (w : World) (hw : w.Ok root)
    (is : List (List Edit × Bool)) (hc : Careful ops (.start w root) is) :
    ((Visit.start w root).run ops is).stop ≠ some .undefined :=
  ((Visit.Good.start hw).run hc).1

/-- C104 (partial), what is reached: when the visit is over, the components visited are exactly those
that are in the tree and did not come late to their container. Missing: those that came late, which
`C104_added_fails` refutes. -/
theorem C104_visited_partial (ops : List LCall) (root : List Nat) (w : World) (hw : w.Ok root)
    (is : List (List Edit × Bool)) (hc : Careful ops (.start w root) is) (s : Visit)
    (hs : s = (Visit.start w root).run ops is) (hn : s.stop = none) (ho : s.over) (d : Nat) :
    .visited d ∈ s.log ↔ Timely s.world root s.log d := by
  subst hs
  have := ((Visit.Good.start hw).run hc).2 hn
  rw [ho.1, ho.2] at this
  exact this.timely d

/-- C104 (partial), what is done: at every moment of the visit, a component that has been visited has
got the calls that were due to it when the visit began, or is being acted on; when the visit is over
it is in the state these lead to. All others are as they were at the beginning. -/
theorem C104_calls_partial (ops : List LCall) (root : List Nat) (w : World) (hw : w.Ok root)
    (is : List (List Edit × Bool)) (hc : Careful ops (.start w root) is) (s : Visit)
    (hs : s = (Visit.start w root).run ops is) (hn : s.stop = none) (d : Nat) :
    (.visited d ∈ s.log → (∀ os, s.acting ≠ some (d, os)) →
      callsOf d s.log = due ops (w.life d).state ∧
      (s.world.life d).state = final ops (w.life d).state) ∧
    (.visited d ∉ s.log → callsOf d s.log = [] ∧ s.world.life d = w.life d) := by
  subst hs
  have h := ((Visit.Good.start hw).run hc).2 hn
  exact ⟨h.c3 d, fun hv => ⟨(h.c1 d hv).2, (h.c1 d hv).1⟩⟩

/-- C104 (partial), order: no component is visited twice, the component that has its container has been
visited before it (`pre` is what happened before), and all calls on a component come before the loops
over its containers begin. -/
theorem C104_order_partial (ops : List LCall) (root : List Nat) (w : World) (hw : w.Ok root)
    (is : List (List Edit × Bool)) (hc : Careful ops (.start w root) is) (s : Visit)
    (hs : s = (Visit.start w root).run ops is) (hn : s.stop = none) (post pre : List Ev) :
    (∀ d, s.log = post ++ .visited d :: pre → .visited d ∉ pre ∧
      ∃ k, d ∈ s.world.items k ∧
        (k ∈ root ∨ ∃ p, k ∈ w.conts p ∧ .visited p ∈ pre)) ∧
    (∀ c o, s.log = post ++ .called c o :: pre →
      ∀ k, k ∈ w.conts c → ∀ n, .begun k n ∉ pre) := by
  subst hs
  have h := ((Visit.Good.start hw).run hc).2 hn
  refine ⟨fun d hd => ?_, fun c o hco => COk.split (hco ▸ h.v4)⟩
  obtain ⟨h1, k, o, hk, hp, hov⟩ := VOk.split (hd ▸ h.v3)
  refine ⟨h1, k, (h.ok.place k d).2 hp, ?_⟩
  cases o with
  | none => exact Or.inl hk
  | some p =>
    refine Or.inr ⟨p, ?_, hov p rfl⟩
    rw [← h.conts]; exact hk

/-- C104 (partial), the use of it: after a `Connect` that is not ended by an exception every component
of the tree that did not come late is connected, unless it was disconnected before. -/
theorem C104_connected_partial (root : List Nat) (w : World) (hw : w.Ok root)
    (is : List (List Edit × Bool)) (hc : Careful connectOps (.start w root) is) (s : Visit)
    (hs : s = (Visit.start w root).run connectOps is) (hn : s.stop = none) (ho : s.over) (d : Nat)
    (hd : Timely s.world root s.log d) (hdis : (w.life d).state ≠ .disconnected) :
    (s.world.life d).state = .connected := by
  have hv := (C104_visited_partial connectOps root w hw is hc s hs hn ho d).2 hd
  have := ((C104_calls_partial connectOps root w hw is hc s hs hn d).1 hv
    (by rw [ho.1]; simp)).2
  rw [this, final_connect]
  cases hh : (w.life d).state <;> simp_all [connectedState]

/-- A simulator with the containers 0 (with component 1) and 9; component 1 has container 5 with
component 6. Components 2, 3 are in no container. -/
def exWorld : World where
  life := fun _ => Life.init
  conts := fun c => if c = 1 then [5] else []
  items := fun k => if k = 0 then [1] else if k = 5 then [6] else []
  place := fun d => if d = 1 then some 0 else if d = 6 then some 5 else none
  dead := fun _ => false

theorem exWorld_ok : exWorld.Ok [0, 9] := by
  refine ⟨fun k => ?_, fun k d => ?_, fun o => ?_, fun o p k => ?_, fun d hd => by cases hd⟩
  · simp only [exWorld]; split
    · simp
    · split <;> simp
  · simp only [exWorld]
    by_cases h0 : k = 0
    · subst h0
      by_cases h1 : d = 1
      · simp [h1]
      · by_cases h6 : d = 6 <;> simp [h1, h6]
    · by_cases h5 : k = 5
      · subst h5
        by_cases h1 : d = 1
        · simp [h1]
        · by_cases h6 : d = 6 <;> simp [h1, h6]
      · simp only [h0, h5, if_false, List.not_mem_nil, false_iff]
        by_cases h1 : d = 1
        · simp [h1, Ne.symm h0]
        · by_cases h6 : d = 6
          · simp [h6, Ne.symm h5]
          · simp [h1, h6]
  · cases o with
    | none => simp [contsOf]
    | some c => simp only [contsOf, exWorld]; split <;> simp
  · cases o <;> cases p <;> simp only [contsOf, exWorld]
    · simp
    · split <;> simp <;> omega
    · split <;> simp <;> omega
    · rename_i a b
      by_cases ha : a = 1 <;> by_cases hb : b = 1 <;> simp [ha, hb]

/-- The hook of `Publish` of component 1 deletes component 6 from the container of component 1, adds
component 2 to the second container of the simulator and component 3 beside component 1. -/
def exInputs : List (List Edit × Bool) :=
  [([], false), ([], false), ([.del 5 6, .add 9 2, .add 0 3], false)] ++
    List.replicate 20 ([], false)

theorem exInputs_careful : Careful connectOps (.start exWorld [0, 9]) exInputs := by
  refine ⟨by simp, by simp, fun k d hd n hb => ?_, ?_⟩
  · simp at hd
    obtain ⟨rfl, rfl⟩ := hd
    revert hb
    simp [Visit.start, Visit.step, Visit.dangling, exWorld]
  · have h : ∀ (m : Nat) (s : Visit), Careful connectOps s (List.replicate m ([], false)) := by
      intro m
      induction m with
      | zero => intro s; trivial
      | succ m ih => intro s; exact ⟨by simp, ih _⟩
    exact h 20 _

/-- The hypotheses are met: the visit is over without an exception. Components 1 and 2 have been
visited and are connected, 6 has been deleted and has not been visited, and 3 came late. -/
example :
    let s := (Visit.start exWorld [0, 9]).run connectOps exInputs
    s.stop = none ∧ s.acting = none ∧ s.stack = [] ∧
      .visited 1 ∈ s.log ∧ .visited 2 ∈ s.log ∧ .visited 6 ∉ s.log ∧ .visited 3 ∉ s.log ∧
      (s.world.life 2).state = .connected ∧ (s.world.life 3).state = .created := by
  decide +kernel

/-- The full claim would be that every component that is in the tree when the visit is over has been
visited. It is false: `AddModel` is accepted while the simulator connects (`Simulator.cpp:573-577`), but
a model that a hook of another model adds is never visited, neither published nor configured nor
connected, and stays so in the running simulation. -/
theorem C104_added_fails :
    ∃ (w : World) (root : List Nat) (is : List (List Edit × Bool)) (d k : Nat),
      w.Ok root ∧ Careful connectOps (.start w root) is ∧
      ((Visit.start w root).run connectOps is).stop = none ∧
      ((Visit.start w root).run connectOps is).over ∧
      k ∈ root ∧ d ∈ ((Visit.start w root).run connectOps is).world.items k ∧
      (((Visit.start w root).run connectOps is).world.life d).state = .created := by
  refine ⟨exWorld, [0, 9], exInputs, 3, 0, exWorld_ok, exInputs_careful, ?_, ⟨?_, ?_⟩, ?_, ?_, ?_⟩ <;>
    decide +kernel

/-- Nor is the visit safe whatever a hook deletes: component 2 of three that deletes the earlier
component 1 of its own container makes the loop skip component 3 and run behind the end of the
container, where `at` gives a null pointer that is then used (`Container.h:256-261`, `Simulator.cpp:85-91`). -/
theorem C104_removed_fails :
    ∃ (w : World) (root : List Nat) (is : List (List Edit × Bool)),
      w.Ok root ∧ ((Visit.start w root).run connectOps is).stop = some .undefined := by
  refine ⟨⟨fun _ => Life.init, fun _ => [], fun k => if k = 0 then [1, 2, 3] else [],
    fun d => if d = 1 ∨ d = 2 ∨ d = 3 then some 0 else none, fun _ => false⟩, [0],
    List.replicate 8 ([], false) ++ [([.del 0 1], false)] ++ List.replicate 10 ([], false), ?_, ?_⟩
  · refine ⟨fun k => ?_, fun k d => ?_, fun o => ?_, fun o p k => ?_, fun d hd => by cases hd⟩
    · dsimp only; split <;> simp
    · dsimp only
      by_cases h0 : k = 0
      · subst h0; by_cases h : d = 1 ∨ d = 2 ∨ d = 3 <;> simp [h]
      · by_cases h : d = 1 ∨ d = 2 ∨ d = 3 <;> simp [h, h0, Ne.symm h0]
    · cases o <;> simp [contsOf]
    · cases o <;> cases p <;> simp [contsOf]
  · decide +kernel

end Verif.Sim.Dyn
