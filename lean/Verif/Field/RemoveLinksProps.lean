import Verif.Field.RemoveLinksLemmas

/-! Property C87: `Component::RemoveLinks` and the links between fields. -/
namespace Verif.Field
open Verif.Any (Kind Fl Val Any Out)

/-- When no field has an input, there is no connection. -/
theorem C87_start (e : Where) (w : World) (h : ∀ k i, w.targets k i = []) : Linked e w [] :=
  ⟨fun k i _ => h k i, fun k i _ => by rw [h k i]; simp, by simp⟩

/-- Every `Connect` that returns adds its connection, at the end: the inputs of all the fields are
always those of the connections made. -/
theorem C87_connect (e : Where) (narrow : Fl → Fl) (f : Nat) (w m : World) (cs : List Conn)
    (t u : FTree) (h : Linked e w cs) (hnd : ((pairs t u).map Link.source).Nodup)
    (hk : e.field t u.ident = u) (hc : wconnect narrow f w t u = .ok m) :
    Linked e m (cs ++ [(t, u)]) := connect_linked narrow f h hnd hk hc

/-- C87. `RemoveLinks` of a component whose fields are `ts` removes connections only: none is
added or changes place, those that do not end in the target are all kept, and those that do not
start at an outermost dataflow field of the component as well. -/
theorem C87_kept (e : Where) (target : Nat) (w : World) (ts : List FTree) (cs : List Conn)
    (h : Linked e w cs) (ho : ∀ t ∈ flowsList w ts, Own cs t) :
    ∃ cs', Linked e (removeFieldsLinks e target w ts) cs' ∧ cs'.Sublist cs ∧
      cs'.filter (fun c => !c.into e target) = cs.filter (fun c => !c.into e target) ∧
      cs'.filter (fun c => !(flowsList w ts).any (fun t => c.from t)) =
        cs.filter (fun c => !(flowsList w ts).any (fun t => c.from t)) := by
  rw [removeFieldsLinks_eq]
  refine ⟨_, sweeps_linked _ (flowsList_flow ts w) h ho, prunes_sublist e target _ cs, ?_, ?_⟩
  · refine prunes_good e target _ _ cs fun t _ c hb => ?_
    simp only [bad, Bool.and_eq_true] at hb
    simp [hb.2]
  · refine prunes_good e target _ _ cs fun t ht c hb => ?_
    simp only [bad, Bool.and_eq_true] at hb
    have : (flowsList w ts).any (fun t => c.from t) = true := List.any_eq_true.2 ⟨t, ht, hb.1⟩
    simp [this]

/-- C87, partial. If no field of the component has two successive connections into the target,
`RemoveLinks` removes exactly the connections from the outermost dataflow fields of the component
into the target. Missing: successive connections (`C87_fails`), connections of the items of a
dataflow field (`C87_items_fails`), published fields (`C87_published_fails`). -/
theorem C87_fields_partial (e : Where) (target : Nat) (w : World) (ts : List FTree)
    (cs : List Conn) (h : Linked e w cs) (ho : ∀ t ∈ flowsList w ts, Own cs t)
    (ha : ∀ t ∈ flowsList w ts, Apart e target t cs) :
    Linked e (removeFieldsLinks e target w ts)
      (cs.filter fun c => !(flowsList w ts).any fun t => c.from t && c.into e target) := by
  rw [removeFieldsLinks_eq]
  have := sweeps_linked (target := target) _ (flowsList_flow ts w) h ho
  rw [prunes_apart _ _ ha] at this
  exact this

/-- C87, partial. Under the same condition, when afterwards a field still has an input in the
target, it has it from a connection that does not start at an outermost dataflow field of the
component. (The components above the fields in a field are those above the field.) -/
theorem C87_inputs_partial (e : Where) (target : Nat) (w : World) (ts : List FTree)
    (cs : List Conn) (h : Linked e w cs) (ho : ∀ t ∈ flowsList w ts, Own cs t)
    (ha : ∀ t ∈ flowsList w ts, Apart e target t cs)
    (hin : ∀ c ∈ cs, ∀ k i, ∀ j ∈ given k i (pairs c.1 c.2),
      e.chain k j = e.chain c.2.cls c.2.ident)
    (k i j : Nat) (hk : (removeFieldsLinks e target w ts).keeps k i)
    (hj : j ∈ (removeFieldsLinks e target w ts).targets k i) (hi : target ∈ e.chain k j) :
    ∃ c ∈ cs, j ∈ given k i (pairs c.1 c.2) ∧ ∀ t ∈ flowsList w ts, c.from t = false := by
  have hl := C87_fields_partial e target w ts cs h ho ha
  rw [hl.built k i hk] at hj
  simp only [gives, List.mem_flatMap, List.mem_filter] at hj
  obtain ⟨c, ⟨hc, hn⟩, hj⟩ := hj
  refine ⟨c, hc, hj, fun t ht => ?_⟩
  have hi' : c.into e target = true := by
    unfold Conn.into
    rw [← hin c hc k i j hj]
    exact decide_eq_true hi
  simp only [Bool.not_eq_true', List.any_eq_false, Bool.and_eq_true, not_and] at hn
  have := hn t ht
  rw [hi'] at this
  simpa using this

/-- C87, partial. In any case at least half of the connections of a dataflow field of the component
into the target are removed: calling `RemoveLinks` again and again removes them all. -/
theorem C87_half_partial (e : Where) (target : Nat) (w : World) (ts : List FTree)
    (cs : List Conn) (h : Linked e w cs) (ho : ∀ t ∈ flowsList w ts, Own cs t) :
    ∃ cs', Linked e (removeFieldsLinks e target w ts) cs' ∧ cs'.Sublist cs ∧
      ∀ t ∈ flowsList w ts,
        2 * (cs'.filter fun c => c.from t && c.into e target).length ≤
          (cs.filter fun c => c.from t && c.into e target).length := by
  rw [removeFieldsLinks_eq]
  refine ⟨_, sweeps_linked _ (flowsList_flow ts w) h ho, prunes_sublist e target _ cs, ?_⟩
  intro t ht
  obtain ⟨as, bs, heq⟩ := List.append_of_mem ht
  rw [heq, List.foldl_append, List.foldl_cons]
  have h1 := prune_half e target t
    (as.foldl (fun cs t => prune e target t false cs) cs) false
  have h2 := ((prunes_sublist e target bs (prune e target t false
    (as.foldl (fun cs t => prune e target t false cs) cs))).filter
    (bad e target t)).length_le
  have h3 := ((prunes_sublist e target as cs).filter (bad e target t)).length_le
  simp only [Bool.toNat_false, Nat.add_zero] at h1
  simp only [show (fun c : Conn => c.from t && c.into e target) = bad e target t from rfl]
  omega

/-! ### Cases -/

/-- Fields 10 and above are in component 7, the others in component 1. -/
def demoWhere : Where := ⟨fun _ j => if 10 ≤ j then [7, 100] else [1, 100], demoTree⟩

theorem demo_empty (k i : Nat) : demoWorld.targets k i = [] := by
  match k with
  | 0 => rfl
  | 1 => rfl
  | k + 2 => rfl

/-- The world after a `Connect` that returns. -/
def WRes.get (w : World) : WRes → World
  | .ok m => m
  | _ => w

def demoOne : World := (wconnect id 5 demoWorld (demoTree 0) (demoTree 10)).get demoWorld

theorem demo_linked : Linked demoWhere demoOne [(demoTree 0, demoTree 10)] :=
  C87_connect demoWhere id 5 demoWorld demoOne [] _ _ (C87_start _ _ demo_empty) (by decide) rfl
    rfl

/-- The hypotheses are met by a structure connected to another one; its links are removed, from the
structure and from the fields in it. -/
example : Linked demoWhere demoOne [(demoTree 0, demoTree 10)] ∧
    (∀ t ∈ flowsList demoOne [demoTree 0], Own [(demoTree 0, demoTree 10)] t ∧
      Apart demoWhere 7 t [(demoTree 0, demoTree 10)]) ∧
    (demoOne.net 2).targets = [12] ∧ demoOne.ntargets 1 = [11] ∧
    Conn.into demoWhere 7 (demoTree 0, demoTree 10) = true := by
  refine ⟨demo_linked, ?_, rfl, rfl, by decide⟩
  intro t ht
  have ht : t ∈ [demoTree 0] := ht
  rw [List.mem_singleton] at ht
  subst ht
  refine ⟨fun c hc => ?_, fun a b l r hf => ?_⟩
  · rw [List.mem_singleton] at hc; subst hc; exact Or.inl rfl
  · have := congrArg List.length hf
    have h1 := List.length_filter_le (Conn.from (demoTree 0)) [(demoTree 0, demoTree 10)]
    rw [this] at h1
    simp at h1
    omega

/-- Two outputs connected to inputs of the target. -/
def demoTwo : World :=
  (wconnect id 5 ((wconnect id 5 demoWorld (.simple 0) (.simple 10)).get demoWorld)
    (.simple 0) (.simple 11)).get demoWorld

/-- C87 fails: an output connected to two inputs of the target, one after the other, stays
connected to the second one. -/
theorem C87_fails : ∃ (e : Where) (w m m' : World) (target : Nat),
    (∀ k i, w.targets k i = []) ∧
    wconnect id 5 w (.simple 0) (.simple 10) = .ok m ∧
    wconnect id 5 m (.simple 0) (.simple 11) = .ok m' ∧
    target ∈ e.chain 0 10 ∧ target ∈ e.chain 0 11 ∧
    ((removeFieldsLinks e target m' [.simple 0]).net 0).targets = [11] := by
  refine ⟨demoWhere, demoWorld, (wconnect id 5 demoWorld (.simple 0) (.simple 10)).get demoWorld,
    demoTwo, 7, demo_empty, rfl, rfl, by decide, by decide, ?_⟩
  decide +kernel

/-- C87 fails for the items of a dataflow field: an item of an output array connected on its own
stays connected, since only the array is looked at. -/
theorem C87_items_fails : ∃ (e : Where) (w m : World) (target : Nat),
    (∀ k i, w.targets k i = []) ∧
    wconnect id 5 w (.simple 1) (.simple 10) = .ok m ∧ target ∈ e.chain 0 10 ∧
    ((removeFieldsLinks e target m [.node false 0 [.simple 0, .simple 1]]).net 1).targets =
      [10] := by
  refine ⟨demoWhere, demoWorld, (wconnect id 5 demoWorld (.simple 1) (.simple 10)).get demoWorld,
    7, demo_empty, rfl, by decide, ?_⟩
  decide +kernel

end Verif.Field
