/-
Properties C31–C36 and C38: life cycle, containers, references, collections, publications and
factories.
-/
import Verif.Tree.Lemmas

namespace Verif.Tree

/-! ### C31: the life cycle of a component -/

/-- The documented order of the states. -/
def lifeChain : List LState := [.created, .publishing, .configured, .connected, .disconnected]

/-- C31 (part): each operation is accepted in one state only. In any other state it raises an
exception, and the state, publication and simulator of the component do not change; for the
operations other than `Disconnect`, nothing changes at all. When accepted, the state becomes the
next one of the chain. Missing: `Disconnect` executes the hook before the check
(`C31_fails_disconnect`), `Configure` executes it twice (`C31_fails_configure`). -/
theorem C31_partial (s : Life) (arg raises : Bool) (c : LCall) :
    (s.state ≠ c.needs →
      (s.call arg raises c).2 ≠ .ok ∧
      ((s.call arg raises c).2 = .invalidState ∨ (c = .disconnect ∧ raises = true)) ∧
      (s.call arg raises c).1.state = s.state ∧
      (s.call arg raises c).1.publication = s.publication ∧
      (s.call arg raises c).1.simulator = s.simulator ∧
      (c ≠ .disconnect → (s.call arg raises c).1 = s)) ∧
    ((s.call arg raises c).2 = .ok →
      ∃ i, lifeChain[i]? = some s.state ∧ lifeChain[i + 1]? = some (s.call arg raises c).1.state ∧
        s.state = c.needs) := by
  obtain ⟨st, p, m, hk⟩ := s
  cases c <;> cases st <;> cases arg <;> cases raises <;>
    simp [Life.call, Life.base, Life.hook, LCall.needs, lifeChain] <;>
    first
      | exact ⟨0, rfl, rfl⟩
      | exact ⟨1, rfl, rfl⟩
      | exact ⟨2, rfl, rfl⟩
      | exact ⟨3, rfl, rfl⟩

example : ((Life.init.call true false .publish).1.call true false .configure).1.state = .configured ∧
    (Life.init.call true false .connect) = (Life.init, .invalidState) ∧
    (Life.init.call false false .publish) = (Life.init, .nullPointer) := by decide

/-- The states that follow a state in the documented order. -/
def statesAfter (s : LState) : List LState := (lifeChain.dropWhile (fun t => t ≠ s)).tail

/-- C31: over every sequence of calls, the states a component goes through are those of the
documented order, none skipped and none twice. -/
theorem C31_linear (ops : List LArgs) :
    lifeStates Life.init ops <+: [.publishing, .configured, .connected, .disconnected] := by
  have key : ∀ (ops : List LArgs) (s : Life), lifeStates s ops <+: statesAfter s.state := by
    intro ops
    induction ops with
    | nil => intro s; exact List.nil_prefix
    | cons o ops ih =>
      intro s
      simp only [lifeStates]
      split
      · rename_i h; rw [← h]; exact ih _
      · rename_i h
        have hi := ih (s.call o.arg o.raises o.call).1
        obtain ⟨st, p, m, hk⟩ := s
        obtain ⟨c, a, r⟩ := o
        cases c <;> cases st <;> cases a <;> cases r <;>
          simp [Life.call, Life.base, Life.hook] at h ⊢ <;>
          simpa [Life.call, Life.base, Life.hook, statesAfter, lifeChain] using hi
  exact key ops Life.init

example : lifeStates Life.init
    [⟨.publish, true, false⟩, ⟨.publish, true, false⟩, ⟨.disconnect, true, false⟩,
     ⟨.configure, true, true⟩, ⟨.connect, true, false⟩] = [.publishing, .configured, .connected] := by
  decide

/-- C31: over every sequence of calls, a component has a publication from Publishing on; given
simulators that are not null, it has one until it is Disconnected, and none afterwards. -/
theorem C31_owns (ops : List LArgs) :
    ((lifeRun Life.init ops).publication = true ↔ (lifeRun Life.init ops).state ≠ .created) ∧
    ((lifeRun Life.init ops).state = .disconnected → (lifeRun Life.init ops).simulator = false) ∧
    ((∀ o ∈ ops, o.call = .connect → o.arg = true) →
      ((lifeRun Life.init ops).simulator = true ↔
        (lifeRun Life.init ops).state ≠ .disconnected)) := by
  have key : ∀ (ops : List LArgs) (s : Life),
      (s.publication = true ↔ s.state ≠ .created) →
      (s.state = .disconnected → s.simulator = false) →
      ((lifeRun s ops).publication = true ↔ (lifeRun s ops).state ≠ .created) ∧
      ((lifeRun s ops).state = .disconnected → (lifeRun s ops).simulator = false) ∧
      ((∀ o ∈ ops, o.call = .connect → o.arg = true) →
        (s.simulator = true ↔ s.state ≠ .disconnected) →
        ((lifeRun s ops).simulator = true ↔ (lifeRun s ops).state ≠ .disconnected)) := by
    intro ops
    induction ops with
    | nil => intro s h1 h2; exact ⟨h1, h2, fun _ h => h⟩
    | cons o ops ih =>
      intro s h1 h2
      have hstep : ((s.call o.arg o.raises o.call).1.publication = true ↔
            (s.call o.arg o.raises o.call).1.state ≠ .created) ∧
          ((s.call o.arg o.raises o.call).1.state = .disconnected →
            (s.call o.arg o.raises o.call).1.simulator = false) ∧
          ((o.call = .connect → o.arg = true) → (s.simulator = true ↔ s.state ≠ .disconnected) →
            ((s.call o.arg o.raises o.call).1.simulator = true ↔
              (s.call o.arg o.raises o.call).1.state ≠ .disconnected)) := by
        obtain ⟨st, p, m, hk⟩ := s
        obtain ⟨c, a, r⟩ := o
        cases c <;> cases st <;> cases a <;> cases r <;> cases m <;> cases p <;>
          simp [Life.call, Life.base, Life.hook] at h1 h2 ⊢
      obtain ⟨i1, i2, i3⟩ := ih _ hstep.1 hstep.2.1
      exact ⟨i1, i2, fun ha hs => i3 (fun o' ho' => ha o' (List.mem_cons_of_mem _ ho'))
        (hstep.2.2 (ha o List.mem_cons_self) hs)⟩
  obtain ⟨k1, k2, k3⟩ := key ops Life.init (by simp [Life.init]) (by simp [Life.init])
  exact ⟨k1, k2, fun h => k3 h (by simp [Life.init])⟩

example : (lifeRun Life.init [⟨.publish, true, false⟩, ⟨.configure, true, false⟩,
    ⟨.connect, true, false⟩, ⟨.disconnect, true, false⟩]).state = .disconnected := by decide

/-- C31 (part): over every sequence of calls, the publish and connect hooks are executed at most
once, and the configure hook at most twice. -/
theorem C31_hooks_partial (ops : List LArgs) :
    (lifeRun Life.init ops).hooks.count .publish ≤ 1 ∧
    (lifeRun Life.init ops).hooks.count .connect ≤ 1 ∧
    (lifeRun Life.init ops).hooks.count .configure ≤ 2 := by
  have key : ∀ (ops : List LArgs) (s : Life),
      (s.hooks.count .publish ≤ (if s.state = .created then 0 else 1) ∧
       s.hooks.count .configure ≤
         (if s.state = .created ∨ s.state = .publishing then 0 else 2) ∧
       s.hooks.count .connect ≤
         (if s.state = .connected ∨ s.state = .disconnected then 1 else 0)) →
      (lifeRun s ops).hooks.count .publish ≤ 1 ∧ (lifeRun s ops).hooks.count .connect ≤ 1 ∧
        (lifeRun s ops).hooks.count .configure ≤ 2 := by
    intro ops
    induction ops with
    | nil =>
      intro s h
      refine ⟨?_, ?_, ?_⟩
      · have := h.1; simp only [lifeRun, List.foldl_nil]; split at this <;> omega
      · have := h.2.2; simp only [lifeRun, List.foldl_nil]; split at this <;> omega
      · have := h.2.1; simp only [lifeRun, List.foldl_nil]; split at this <;> omega
    | cons o ops ih =>
      intro s h
      refine ih _ ?_
      obtain ⟨st, p, m, hk⟩ := s
      obtain ⟨c, a, r⟩ := o
      cases c <;> cases st <;> cases a <;> cases r <;>
        simp [Life.call, Life.base, Life.hook] at h ⊢ <;> simp [h] <;> try omega
  exact key ops Life.init (by decide)

example : (lifeRun Life.init [⟨.publish, true, false⟩, ⟨.publish, true, false⟩]).hooks
    = [.publish] := by decide

/-- C31 is false of `Configure`: one accepted call executes the configure hook twice
(`ComponentHelper.h:53` and `58`). -/
theorem C31_fails_configure :
    ∃ ops : List LArgs, ops.countP (fun o => o.call = .configure) = 1 ∧
      (lifeRun Life.init ops).hooks.count .configure = 2 :=
  ⟨[⟨.publish, true, false⟩, ⟨.configure, true, false⟩], by decide⟩

/-- C31 is false of `Disconnect`: a rejected call has executed the user's hook, in a component that
was never connected. -/
theorem C31_fails_disconnect :
    ∃ s : Life, s.state = .created ∧ (s.call true false .disconnect).2 = .invalidState ∧
      (s.call true false .disconnect).1 ≠ s :=
  ⟨Life.init, by decide⟩

/-! ### C32: multiplicity of containers -/

/-- The conditions under which the documentation of `IContainer::AddComponent` accepts a component,
except the ones about names of fields of the parent: right type, room, name free among the
components of the composite, right parent. -/
def MayAdd (s : Composite) (c : Ctn) (x : Comp) : Prop :=
  c.ty ∈ x.types ∧ c.comps.length < toSize c.upper ∧
    (∀ d ∈ s.containers, ∀ y ∈ d.comps, y.name ≠ x.name) ∧ x.parent = s.self

/-- C32: whatever is called on the containers of a composite, no container exceeds its upper bound
when it has one, and every contained component has the composite as parent and the type of its
container. -/
theorem C32_bounds (isComp : Bool) (s : Composite) (h0 : ∀ c ∈ s.containers, c.comps = [])
    (ops : List COp) (c : Ctn) (hc : c ∈ (crun isComp s ops).containers) :
    (0 ≤ c.upper → (c.comps.length : Int) ≤ c.upper) ∧
    (∀ x ∈ c.comps, x.parent = s.self ∧ c.ty ∈ x.types) := by
  have h := (CInv.empty h0).run isComp ops
  refine ⟨fun hu => ?_, fun x hx => ?_⟩
  · have := h.upper c hc
    have := toSize_le hu
    omega
  · have := h.comps c hc x hx
    rwa [crun_self] at this

/-- C32: a deletion that succeeds leaves at least `lower` components in the container, which has
lost the deleted component and nothing else; the other containers are unchanged. -/
theorem C32_delete (s : Composite) (i : Nat) (c : Ctn) (hc : s.containers[i]? = some c) (x : Comp)
    (hr : c.lower < 9223372036854775808)
    (hok : (deleteComponent s i x).2 = none) :
    x ∈ c.comps ∧ ∃ d, (deleteComponent s i x).1.containers[i]? = some d ∧
      c.lower ≤ d.comps.length ∧ d.comps = c.comps.erase x ∧
      d.lower = c.lower ∧ d.upper = c.upper ∧ d.ty = c.ty ∧
      ∀ j, j ≠ i → (deleteComponent s i x).1.containers[j]? = s.containers[j]? := by
  simp only [deleteComponent, hc] at hok ⊢
  split at hok
  · simp at hok
  · rename_i hx
    have hx' : x ∈ c.comps := by simpa using hx
    split at hok
    · simp at hok
    · rename_i hl
      have hi : i < s.containers.length := by
        rcases Nat.lt_or_ge i s.containers.length with h | h
        · exact h
        · rw [List.getElem?_eq_none h] at hc; simp at hc
      rw [if_neg hx, if_neg hl]
      refine ⟨hx', _, List.getElem?_set_self hi, ?_, rfl, rfl, rfl, rfl, ?_⟩
      · rw [List.length_erase_of_mem hx']
        rcases Int.lt_or_le c.lower 0 with h | h
        · omega
        · have := le_toSize hr h
          omega
      · intro j hj
        exact List.getElem?_set_ne (fun h => hj h.symm)

/-- C32: the deletion fails exactly when the component is not contained or the container holds no
more than `lower` components; the exception says which, and nothing changes. -/
theorem C32_delete_error (s : Composite) (i : Nat) (c : Ctn) (hc : s.containers[i]? = some c)
    (x : Comp) (e : Exn) :
    (deleteComponent s i x).2 = some e ↔
      (x ∉ c.comps ∧ e = .NotContained) ∨
      (x ∈ c.comps ∧ c.comps.length ≤ toSize c.lower ∧ e = .CannotDelete) := by
  simp only [deleteComponent, hc]
  grind

/-- C32 (part): an addition to a container of a simulator, or of a component that is not published,
succeeds exactly when the type is right, there is room, the name is free among the components of
the composite and among the members of the parent, and the parent is the composite; the component
is then the last one of its container, and nothing else has changed. Missing: published parents
(`C32_fails`). -/
theorem C32_add_partial (isComp : Bool) (s : Composite) (i : Nat) (c : Ctn)
    (hc : s.containers[i]? = some c) (x : Comp) (hp : s.published = false) :
    ((addComponent s isComp i x).2 = none ↔
      MayAdd s c x ∧ (isComp = true → x.name ∉ s.members)) ∧
    ((addComponent s isComp i x).2 = none → (addComponent s isComp i x).1 =
      { s with containers := s.containers.set i { c with comps := c.comps ++ [x] } }) := by
  have hnt : s.nameTaken x.name = true ↔
      ¬ ∀ d ∈ s.containers, ∀ y ∈ d.comps, y.name ≠ x.name := by
    rw [nameTaken_iff, Composite.all]
    simp only [List.mem_map, List.mem_flatMap]
    constructor
    · rintro ⟨y, ⟨d, hd, hy⟩, hn⟩ h; exact h d hd y hy hn
    · intro h
      exact Classical.byContradiction fun hne => h fun d hd y hy hn => hne ⟨y, ⟨d, hd, hy⟩, hn⟩
  refine ⟨?_, ?_⟩
  · simp only [addComponent, hc, Composite.check, Composite.checkComponent, hp, MayAdd]
    by_cases h1 : c.ty ∈ x.types
    · by_cases h2 : c.comps.length ≥ toSize c.upper
      · have h2' : ¬ c.comps.length < toSize c.upper := by omega
        simp [h1, h2, h2']
      · by_cases h3 : s.nameTaken x.name = true
        · have := hnt.1 h3
          simp [h1, h2, h3]
          intro _ hh; exact absurd hh (by simpa using this)
        · have h3' := Decidable.not_not.1 (fun h => h3 (hnt.2 h))
          cases isComp
          · by_cases h4 : s.self = x.parent
            · simp [h1, h2, h3, h4]; exact ⟨Nat.lt_of_not_ge h2, h3'⟩
            · have : ¬ x.parent = s.self := fun h => h4 h.symm
              simp [h1, h2, h3, h4, this]
          · by_cases h5 : x.name ∈ s.members
            · simp [h1, h2, h3, h5]
            · by_cases h4 : s.self = x.parent
              · simp [h1, h2, h3, h4, h5]; exact ⟨Nat.lt_of_not_ge h2, h3'⟩
              · have : ¬ x.parent = s.self := fun h => h4 h.symm
                simp [h1, h2, h3, h4, h5, this]
    · simp [h1]
  · intro h
    simp only [addComponent, hc] at h ⊢
    grind

/-- C32: an operation that raises an exception changes nothing. -/
theorem C32_error_unchanged (isComp : Bool) (s : Composite) (o : COp)
    (h : (cstep isComp s o).2 ≠ none) : (cstep isComp s o).1 = s := by
  cases o <;> simp only [cstep, addComponent, deleteComponent] at h ⊢ <;> grind

/-- C32 is false for a published composite: an addition that meets every documented condition, with
a name that is nowhere used, raises `InvalidFieldName`, because `CheckComponent` looks the name up
with `GetField` (`Container.cpp:110`), which raises instead of returning null
(`Publication.cpp:227`). No addition to a published component can succeed. -/
theorem C32_fails :
    (∃ (s : Composite) (c : Ctn) (x : Comp), s.containers[0]? = some c ∧ MayAdd s c x ∧
      x.name ∉ s.members ∧ x.name ∉ s.fields ∧
      (addComponent s true 0 x).2 = some .InvalidFieldName) ∧
    (∀ (s : Composite) (i : Nat) (c : Ctn) (x : Comp), s.published = true →
      s.containers[i]? = some c → (addComponent s true i x).2 ≠ none) := by
  refine ⟨⟨⟨1, [⟨0, -1, 7, []⟩], true, ["f"], []⟩, ⟨0, -1, 7, []⟩, ⟨2, "x", 1, [7]⟩, rfl, ?_, ?_⟩, ?_⟩
  · refine ⟨by decide, by decide, by simp, rfl⟩
  · decide
  · intro s i c x hp hc
    simp only [addComponent, hc, Composite.check, Composite.checkComponent, hp]
    grind

/-- C32: once a component is published, whatever happens before and afterwards, none of its containers
accepts another component: the call raises and changes nothing. -/
theorem C32_published_fails (s : Composite) (before after : List COp) (fs : List String) (i : Nat) (x : Comp) :
    let t := crun true s (before ++ [.publish fs] ++ after)
    (i < t.containers.length → (cstep true t (.add i x)).2 ≠ none) ∧
      (cstep true t (.add i x)).1 = t := by
  have hp : ∀ (ops : List COp) (u : Composite), u.published = true → (crun true u ops).published = true := by
    intro ops
    induction ops with
    | nil => intro u h; exact h
    | cons o ops ih =>
      intro u h
      refine ih _ ?_
      cases o <;> simp only [cstep, addComponent, deleteComponent] <;> grind
  have ht : (crun true s (before ++ [.publish fs] ++ after)).published = true := by
    unfold crun
    rw [List.foldl_append, List.foldl_append]
    exact hp after _ rfl
  intro t
  have h1 : i < t.containers.length → (cstep true t (.add i x)).2 ≠ none := fun hi =>
    C32_fails.2 t i t.containers[i] x ht (List.getElem?_eq_getElem hi)
  refine ⟨h1, ?_⟩
  by_cases hi : i < t.containers.length
  · exact C32_error_unchanged true t (.add i x) (h1 hi)
  · have : t.containers[i]? = none := List.getElem?_eq_none (by omega)
    simp only [cstep, addComponent, this]

-- a composite with two containers: two additions, one refused by the upper bound, one duplicate
-- name in the other container, and a deletion refused by the lower bound
example :
    let s : Composite := ⟨1, [⟨1, 1, 7, []⟩, ⟨0, -1, 7, []⟩], false, [], ["m"]⟩
    let t := crun true s [.add 0 ⟨2, "x", 1, [7]⟩, .add 1 ⟨3, "y", 1, [7]⟩]
    (t.containers.map (·.comps.length)) = [1, 1] ∧
    (cstep true t (.add 0 ⟨4, "z", 1, [7]⟩)).2 = some .ContainerFull ∧
    (cstep true t (.add 1 ⟨4, "x", 1, [7]⟩)).2 = some .DuplicateName ∧
    (cstep true t (.add 1 ⟨4, "m", 1, [7]⟩)).2 = some .DuplicateName ∧
    (cstep true t (.add 1 ⟨4, "w", 5, [7]⟩)).2 = some .InvalidParent ∧
    (cstep true t (.add 1 ⟨4, "w", 1, [8]⟩)).2 = some .InvalidObjectType ∧
    (cstep true t (.del 0 ⟨2, "x", 1, [7]⟩)).2 = some .CannotDelete ∧
    (cstep true t (.del 1 ⟨3, "y", 1, [7]⟩)).2 = none := by decide

/-! ### C33: names of sibling components -/

/-- C33: whatever is called on the containers of a composite, the names of all the components of
all its containers are distinct. -/
theorem C33_unique (isComp : Bool) (s : Composite) (h0 : ∀ c ∈ s.containers, c.comps = [])
    (ops : List COp) :
    (((crun isComp s ops).containers.flatMap (·.comps)).map (·.name)).Nodup :=
  ((CInv.empty h0).run isComp ops).names

/-- C33: `GetComponent(name)` of a container returns a component iff it is contained and has that
name. -/
theorem C33_lookup (isComp : Bool) (s : Composite) (h0 : ∀ c ∈ s.containers, c.comps = [])
    (ops : List COp) (c : Ctn) (hc : c ∈ (crun isComp s ops).containers) (n : String) :
    (∀ x, c.getByName n = some x ↔ x ∈ c.comps ∧ x.name = n) ∧
    (c.getByName n = none ↔ ∀ x ∈ c.comps, x.name ≠ n) := by
  have h := ((CInv.empty h0).run isComp ops).names
  have hsub : List.Sublist (c.comps.map (·.name)) ((crun isComp s ops).all.map (·.name)) := by
    refine List.Sublist.map _ ?_
    unfold Composite.all
    exact sublist_flatMap (f := fun c : Ctn => c.comps) hc
  refine ⟨fun x => find_name_some _ (List.Nodup.sublist hsub h) n x, ?_⟩
  rw [Ctn.getByName, find_name_none]
  simp

/-- C33: a component is in at most one container, at one position. -/
theorem C33_once (isComp : Bool) (s : Composite) (h0 : ∀ c ∈ s.containers, c.comps = [])
    (ops : List COp) (x : Comp) :
    ((crun isComp s ops).containers.flatMap (·.comps)).count x ≤ 1 := by
  have h := C33_unique isComp s h0 ops
  exact List.nodup_iff_count.1 (nodup_of_map h) x

example :
    let s : Composite := ⟨1, [⟨0, 5, 7, []⟩, ⟨0, -1, 7, []⟩], false, [], []⟩
    let t := crun false s [.add 0 ⟨2, "x", 1, [7]⟩, .add 1 ⟨3, "y", 1, [7]⟩,
      .del 0 ⟨2, "x", 1, [7]⟩, .add 1 ⟨4, "x", 1, [7]⟩, .add 0 ⟨5, "y", 1, [7]⟩]
    t.containers.map (fun c => c.comps.map (·.name)) = [[], ["y", "x"]] := by decide

/-- C33: `GetComponent(index)` returns a component iff the index is below the number of components,
and each component at its one index. -/
theorem C33_index (isComp : Bool) (s : Composite) (h0 : ∀ c ∈ s.containers, c.comps = [])
    (ops : List COp) (c : Ctn) (hc : c ∈ (crun isComp s ops).containers) :
    (∀ i, c.getByIndex i = none ↔ c.comps.length ≤ i) ∧
    (∀ i x, c.getByIndex i = some x → x ∈ c.comps) ∧
    (∀ x ∈ c.comps, ∃ i, ∀ j, c.getByIndex j = some x ↔ j = i) := by
  have h := ((CInv.empty h0).run isComp ops).names
  have hsub : List.Sublist (c.comps.map (·.name)) ((crun isComp s ops).all.map (·.name)) := by
    refine List.Sublist.map _ ?_
    unfold Composite.all
    exact sublist_flatMap (f := fun c : Ctn => c.comps) hc
  have hn : c.comps.Nodup := nodup_of_map (List.Nodup.sublist hsub h)
  refine ⟨fun i => List.getElem?_eq_none_iff, fun i x hx => List.mem_of_getElem? hx, ?_⟩
  intro x hx
  obtain ⟨i, hi, he⟩ := List.mem_iff_getElem.1 hx
  refine ⟨i, fun j => ⟨fun hj => ?_, fun hj => ?_⟩⟩
  · obtain ⟨hj', hje⟩ := List.getElem?_eq_some_iff.1 hj
    have hne := List.pairwise_iff_getElem.1 hn
    rcases Nat.lt_trichotomy j i with h1 | h1 | h1
    · exact absurd (hje.trans he.symm) (hne j i hj' hi h1)
    · exact h1
    · exact absurd (he.trans hje.symm) (hne i j hi hj' h1)
  · subst hj
    exact List.getElem?_eq_some_iff.2 ⟨hi, he⟩

/-- C33: a component that is added comes after those that are in the container, and these keep their
indices. -/
theorem C33_index_add (isComp : Bool) (s : Composite) (i : Nat) (x : Comp) (c : Ctn)
    (hc : s.containers[i]? = some c) (h : (addComponent s isComp i x).2 = none) :
    ∃ c', (addComponent s isComp i x).1.containers[i]? = some c' ∧
      c'.getByIndex c.comps.length = some x ∧
      ∀ j, j < c.comps.length → c'.getByIndex j = c.getByIndex j := by
  have hi : i < s.containers.length := (List.getElem?_eq_some_iff.1 hc).1
  unfold addComponent at h ⊢
  rw [hc] at h ⊢
  dsimp only at h ⊢
  by_cases h1 : c.ty ∉ x.types
  · rw [if_pos h1] at h; cases h
  by_cases h2 : c.comps.length ≥ toSize c.upper
  · rw [if_neg h1, if_pos h2] at h; cases h
  rw [if_neg h1, if_neg h2] at h ⊢
  cases h3 : s.check isComp x with
  | some e => rw [h3] at h; cases h
  | none =>
    refine ⟨{ c with comps := c.comps ++ [x] }, ?_, ?_, ?_⟩
    · simp [hi]
    · simp [Ctn.getByIndex]
    · intro j hj
      simp only [Ctn.getByIndex]
      rw [List.getElem?_append_left hj]

example :
    let s : Composite := ⟨1, [⟨0, 5, 7, []⟩], false, [], []⟩
    let t := crun false s [.add 0 ⟨2, "x", 1, [7]⟩, .add 0 ⟨3, "y", 1, [7]⟩]
    t.containers.map (fun c => [c.getByIndex 0, c.getByIndex 1, c.getByIndex 2])
      = [[some ⟨2, "x", 1, [7]⟩, some ⟨3, "y", 1, [7]⟩, none]] := by decide

/-! ### C34: references -/

/-- C34: `GetComponent(name)` of a reference gives the first of the referenced components that have
the name, and null when none has. -/
theorem C34_lookup (r : Ref) (n : String) :
    (∀ x, r.getByName n = some x ↔
      ∃ before after, r.comps = before ++ x :: after ∧ x.name = n ∧ ∀ y ∈ before, y.name ≠ n) ∧
    (r.getByName n = none ↔ ∀ x ∈ r.comps, x.name ≠ n) := by
  unfold Ref.getByName
  refine ⟨fun x => ?_, ?_⟩
  · rw [List.find?_eq_some_iff_append]
    constructor
    · rintro ⟨h1, as, bs, h2, h3⟩
      exact ⟨as, bs, h2, by simpa using h1, fun y hy => by simpa using h3 y hy⟩
    · rintro ⟨as, bs, h2, h1, h3⟩
      exact ⟨by simpa using h1, as, bs, h2, fun y hy => by simpa using h3 y hy⟩
  · rw [List.find?_eq_none]
    simp

example :
    (⟨0, -1, 7, [⟨2, "x", 1, [7]⟩, ⟨3, "y", 1, [7]⟩, ⟨4, "y", 5, [7]⟩]⟩ : Ref).getByName "y"
      = some ⟨3, "y", 1, [7]⟩ := by decide

/-- The components that the calls of a sequence try to link, in order. -/
def ROp.added : ROp → List Comp
  | .add x => [x]
  | _ => []

/-- C34: whatever is called on a reference, it never holds more than `upper` links when it has an
upper bound, all the linked components have the required type, and they are in the order in which
they were added. -/
theorem C34_bounds (r : Ref) (h0 : r.comps = []) (ops : List ROp) :
    (0 ≤ r.upper → ((rrun r ops).comps.length : Int) ≤ r.upper) ∧
    (∀ x ∈ (rrun r ops).comps, r.ty ∈ x.types) ∧
    List.Sublist (rrun r ops).comps (ops.flatMap ROp.added) := by
  have key : ∀ (ops : List ROp) (r : Ref) (hist : List Comp),
      r.comps.length ≤ toSize r.upper → (∀ x ∈ r.comps, r.ty ∈ x.types) →
      List.Sublist r.comps hist →
      (rrun r ops).comps.length ≤ toSize r.upper ∧ (∀ x ∈ (rrun r ops).comps, r.ty ∈ x.types) ∧
      List.Sublist (rrun r ops).comps (hist ++ ops.flatMap ROp.added) := by
    intro ops
    induction ops with
    | nil => intro r hist h1 h2 h3; exact ⟨h1, h2, by simpa [rrun] using h3⟩
    | cons o ops ih =>
      intro r hist h1 h2 h3
      have hu : (rstep r o).1.upper = r.upper ∧ (rstep r o).1.ty = r.ty := by
        cases o <;> simp only [rstep, Ref.add, Ref.remove, Ref.removeLinks] <;> grind
      have := ih (rstep r o).1 (hist ++ o.added) ?_ ?_ ?_
      · rw [hu.1, hu.2] at this
        simp only [List.flatMap_cons, ← List.append_assoc]
        exact this
      · rw [hu.1]
        cases o with
        | add x =>
          clear ih
          simp only [rstep, Ref.add]
          split
          · exact h1
          · split
            · exact h1
            · simp only [List.length_append, List.length_singleton]; omega
        | remove x =>
          simp only [rstep, Ref.remove]
          split
          · exact h1
          · split
            · exact h1
            · exact Nat.le_trans List.length_erase_le h1
        | removeLinks x =>
          simp only [rstep, Ref.removeLinks]
          split
          · exact h1
          · exact Nat.le_trans (List.length_filter_le _ _) h1
      · rw [hu.2]
        cases o with
        | add x =>
          simp only [rstep, Ref.add]
          split
          · exact h2
          · split
            · exact h2
            · rename_i hx
              intro y hy
              simp only [List.mem_append, List.mem_singleton] at hy
              rcases hy with hy | rfl
              · exact h2 y hy
              · simpa using hx
        | remove x =>
          simp only [rstep, Ref.remove]
          split
          · exact h2
          · split
            · exact h2
            · intro y hy; exact h2 y (List.mem_of_mem_erase hy)
        | removeLinks x =>
          simp only [rstep, Ref.removeLinks]
          split
          · exact h2
          · intro y hy; exact h2 y (List.mem_filter.1 hy).1
      · cases o with
        | add x =>
          simp only [rstep, Ref.add, ROp.added]
          split
          · exact h3.trans (List.sublist_append_left _ _)
          · split
            · exact h3.trans (List.sublist_append_left _ _)
            · exact List.Sublist.append h3 (List.Sublist.refl _)
        | remove x =>
          simp only [rstep, Ref.remove, ROp.added, List.append_nil]
          split
          · exact h3
          · split
            · exact h3
            · exact List.erase_sublist.trans h3
        | removeLinks x =>
          simp only [rstep, Ref.removeLinks, ROp.added, List.append_nil]
          split
          · exact h3
          · exact List.filter_sublist.trans h3
  have := key ops r [] (by simp [h0]) (by simp [h0]) (by simp [h0])
  refine ⟨fun hu => ?_, this.2.1, by simpa using this.2.2⟩
  have h1 := this.1
  have := toSize_le hu
  omega

/-- C34: `AddComponent` succeeds exactly when there is room and the type is right, and then appends
the component; otherwise it raises the exception that says why and changes nothing. -/
theorem C34_add (r : Ref) (x : Comp) :
    ((r.add x).2 = none ↔ r.comps.length < toSize r.upper ∧ r.ty ∈ x.types) ∧
    ((r.add x).2 = some .ReferenceFull ↔ toSize r.upper ≤ r.comps.length) ∧
    ((r.add x).2 = some .InvalidObjectType ↔ r.comps.length < toSize r.upper ∧ r.ty ∉ x.types) ∧
    ((r.add x).2 = none → (r.add x).1 = { r with comps := r.comps ++ [x] }) ∧
    ((r.add x).2 ≠ none → (r.add x).1 = r) := by
  unfold Ref.add
  grind

/-- C34: `RemoveComponent` succeeds exactly when the component is linked and there are more than
`lower` links, and then removes one link to it and keeps at least `lower`; otherwise it raises the
exception that says why and changes nothing. -/
theorem C34_remove (r : Ref) (x : Comp) (hr : r.lower < 9223372036854775808) :
    ((r.remove x).2 = none ↔ x ∈ r.comps ∧ toSize r.lower < r.comps.length) ∧
    ((r.remove x).2 = some .NotReferenced ↔ x ∉ r.comps) ∧
    ((r.remove x).2 = some .CannotRemove ↔ x ∈ r.comps ∧ r.comps.length ≤ toSize r.lower) ∧
    ((r.remove x).2 = none → (r.remove x).1 = { r with comps := r.comps.erase x } ∧
      r.lower ≤ (r.remove x).1.comps.length) ∧
    ((r.remove x).2 ≠ none → (r.remove x).1 = r) := by
  have hlen : x ∈ r.comps → ¬ r.comps.length ≤ toSize r.lower →
      r.lower ≤ ((r.comps.erase x).length : Int) := by
    intro hx hl
    rw [List.length_erase_of_mem hx]
    rcases Int.lt_or_le r.lower 0 with h | h
    · omega
    · have := le_toSize hr h
      omega
  unfold Ref.remove
  grind

/-- C34: after `RemoveLinks` the component is not linked any more, and the other links are the same,
in the same order. -/
theorem C34_removeLinks (r : Ref) (x : Comp) (hty : ∀ y ∈ r.comps, r.ty ∈ y.types) :
    x ∉ (r.removeLinks x).comps ∧
    (r.removeLinks x).comps = r.comps.filter (fun y => y ≠ x) := by
  unfold Ref.removeLinks
  split
  · rename_i h
    have hx : x ∉ r.comps := fun hx => h (hty x hx)
    refine ⟨hx, ?_⟩
    rw [List.filter_eq_self.2]
    intro y hy
    have : y ≠ x := fun he => hx (he ▸ hy)
    simpa using this
  · simp

example :
    let r : Ref := ⟨1, 2, 7, []⟩
    let x : Comp := ⟨2, "x", 1, [7]⟩
    let t := rrun r [.add x, .add ⟨3, "y", 1, [7]⟩]
    t.comps.length = 2 ∧ (rstep t (.add x)).2 = some .ReferenceFull ∧
    (rstep r (.add ⟨3, "y", 1, [8]⟩)).2 = some .InvalidObjectType ∧
    (rstep r (.remove x)).2 = some .NotReferenced ∧
    (rstep (rstep t (.remove x)).1 (.remove ⟨3, "y", 1, [7]⟩)).2 = some .CannotRemove ∧
    (rrun r [.add x, .add x, .removeLinks x]).comps = [] := by decide

/-! ### C35: collections -/

/-- The elements that the calls of a sequence try to add, in order. -/
def LOp.added : LOp → List Elem
  | .add x => [x]
  | _ => []

theorem lrun_nodup (ops : List LOp) (v : List Elem) (h : (v.map (·.name)).Nodup) :
    ((lrun false v ops).map (·.name)).Nodup := by
  induction ops generalizing v with
  | nil => exact h
  | cons o ops ih =>
    refine ih _ ?_
    cases o with
    | add x =>
      simp only [lstep, addElem, atName, find_name_isSome]
      split
      · exact h
      · rename_i hn
        have hn : x.name ∉ v.map (·.name) := fun hh => hn ⟨trivial, hh⟩
        simp only [List.map_append, List.map_cons, List.map_nil]
        rw [List.nodup_append]
        refine ⟨h, by simp, ?_⟩
        intro a ha b hb
        simp only [List.mem_singleton] at hb
        exact fun he => hn (hb ▸ he ▸ ha)
    | remove x =>
      simp only [lstep, removeElem]
      split
      · exact List.Nodup.sublist (List.erase_sublist.map _) h
      · exact h
    | clear => simp [lstep]

/-- C35: in a collection without duplicates, after any calls, `at(name)` returns an element iff it
is in the collection and has that name, and there is no other element of that name; a null name
gives null. -/
theorem C35_at_name (ops : List LOp) (n : String) :
    (∀ x, atName (lrun false [] ops) (some n) = some x ↔
      x ∈ lrun false [] ops ∧ x.name = n) ∧
    (∀ x y, x ∈ lrun false [] ops → y ∈ lrun false [] ops → x.name = n → y.name = n → x = y) ∧
    atName (lrun false [] ops) none = none := by
  have h := lrun_nodup ops [] (by simp)
  refine ⟨fun x => find_name_some _ h n x, ?_, rfl⟩
  intro x y hx hy hnx hny
  have h1 := (find_name_some _ h n x).2 ⟨hx, hnx⟩
  have h2 := (find_name_some _ h n y).2 ⟨hy, hny⟩
  rw [h1] at h2
  exact Option.some.inj h2

/-- C35: the elements are in the order in which they were added, with or without duplicates. -/
theorem C35_order (dup : Bool) (ops : List LOp) :
    List.Sublist (lrun dup [] ops) (ops.flatMap LOp.added) := by
  have key : ∀ (ops : List LOp) (v hist : List Elem), List.Sublist v hist →
      List.Sublist (lrun dup v ops) (hist ++ ops.flatMap LOp.added) := by
    intro ops
    induction ops with
    | nil => intro v hist h; simpa [lrun] using h
    | cons o ops ih =>
      intro v hist h
      have := ih (lstep dup v o) (hist ++ o.added) ?_
      · simp only [List.flatMap_cons, ← List.append_assoc]; exact this
      · cases o with
        | add x =>
          simp only [lstep, addElem, LOp.added]
          split
          · exact h.trans (List.sublist_append_left _ _)
          · exact List.Sublist.append h (List.Sublist.refl _)
        | remove x =>
          simp only [lstep, removeElem, LOp.added, List.append_nil]
          split
          · exact List.erase_sublist.trans h
          · exact h
        | clear => simp [lstep]
  simpa using key ops [] [] (List.Sublist.refl _)

/-- C35: `at(index)` enumerates the elements: the ones below `size`, nothing from `size` on. -/
theorem C35_at_index (v : List Elem) (i : Nat) :
    (∀ h : i < v.length, atIndex v i = some v[i]) ∧ (v.length ≤ i → atIndex v i = none) := by
  unfold atIndex
  refine ⟨fun h => by simp [h], fun h => by simp; omega⟩

/-- C35: adding raises `DuplicateName` exactly when duplicates are not allowed and an element of
that name is present, and then changes nothing; otherwise the element becomes the last one. -/
theorem C35_add (dup : Bool) (v : List Elem) (x : Elem) :
    ((addElem dup v x).2 = some .DuplicateName ↔
      dup = false ∧ ∃ y ∈ v, y.name = x.name) ∧
    ((addElem dup v x).2 ≠ none → (addElem dup v x).1 = v) ∧
    ((addElem dup v x).2 = none → (addElem dup v x).1 = v ++ [x]) := by
  have := find_name_isSome Elem.name v x.name
  simp only [List.mem_map] at this
  unfold addElem atName
  simp only [this]
  grind

/-- C35: removing an element takes out that element and nothing else, and tells whether it was
present. -/
theorem C35_remove (ops : List LOp) (x : Elem) :
    let v := lrun false [] ops
    ((removeElem v x).2 = true ↔ x ∈ v) ∧
    (∀ y, y ∈ (removeElem v x).1 ↔ y ∈ v ∧ y ≠ x) ∧
    List.Sublist (removeElem v x).1 v := by
  intro v
  have hn : v.Nodup := nodup_of_map (lrun_nodup ops [] (by simp))
  unfold removeElem
  split
  · rename_i h
    refine ⟨by simp [h], fun y => ?_, List.erase_sublist⟩
    simp only [hn.mem_erase_iff]
    exact And.comm
  · rename_i h
    refine ⟨by simp [h], fun y => ?_, List.Sublist.refl _⟩
    exact ⟨fun hy => ⟨hy, fun he => h (he ▸ hy)⟩, fun hy => hy.1⟩

/-- C35: a delegating collection enumerates the elements of the delegate and then its own; `at` and
`size` are those of the concatenation. -/
theorem C35_delegate (p : Pub) (i : Nat) (n : Option String) :
    p.atIndex i = (p.fields ++ p.extra)[i]? ∧ p.size = (p.fields ++ p.extra).length ∧
    p.atName n = atName (p.fields ++ p.extra) n := by
  refine ⟨?_, ?_, ?_⟩
  · unfold Pub.atIndex atIndex
    split
    · rename_i h; rw [List.getElem?_append_left h]
    · rename_i h
      rw [List.getElem?_append_right (by omega)]
      split
      · rfl
      · rw [List.getElem?_eq_none (by omega)]
  · simp [Pub.size, Nat.add_comm]
  · cases n with
    | none => rfl
    | some n => simp [Pub.atName, atName, List.find?_append]

example :
    let v := lrun false [] [.add ⟨1, "a"⟩, .add ⟨2, "b"⟩, .add ⟨3, "a"⟩, .remove ⟨1, "a"⟩,
      .add ⟨4, "a"⟩]
    v = [⟨2, "b"⟩, ⟨4, "a"⟩] ∧ atName v (some "a") = some ⟨4, "a"⟩ ∧ atIndex v 2 = none ∧
    (addElem false v ⟨5, "b"⟩).2 = some .DuplicateName ∧ (addElem true v ⟨5, "b"⟩).2 = none := by
  decide

/-! ### C36: names of published fields -/

/-- The names of all the fields `Publication::GetFields` lists. -/
def Pub.names (p : Pub) : List String := (p.fields ++ p.extra).map (·.name)

theorem pstep_nodup {p : Pub} (h : p.names.Nodup) (o : POp)
    (ho : ∀ x t, o = .byName x t → x.name ∉ p.extra.map (·.name)) : (pstep p o).1.names.Nodup := by
  cases o with
  | byName x t =>
    have hx := ho x t rfl
    cases t with
    | false => simpa [pstep] using h
    | true =>
      simp only [pstep, addElem, atName, find_name_isSome]
      by_cases hf : x.name ∈ p.fields.map (·.name)
      · rw [if_neg (by simp), if_pos ⟨trivial, hf⟩]
        exact h
      · rw [if_neg (by simp), if_neg (fun hh => hf hh.2)]
        simp only [Pub.names, List.append_assoc, List.singleton_append, List.map_append,
          List.map_cons] at h ⊢
        refine (List.perm_middle.nodup_iff).2 ?_
        rw [List.nodup_cons]
        refine ⟨?_, h⟩
        rw [List.mem_append]
        rintro (hh | hh)
        · exact hf hh
        · exact hx hh
  | object x =>
    simp only [pstep]
    rw [(C35_delegate p 0 (some x.name)).2.2]
    simp only [atName, find_name_isSome]
    split
    · exact h
    · rename_i hn
      unfold Pub.names at h ⊢
      simp only [← List.append_assoc]
      rw [List.map_append, List.nodup_append]
      refine ⟨h, by simp, ?_⟩
      intro a ha b hb
      simp only [List.map_cons, List.map_nil, List.mem_singleton] at hb
      exact fun he => hn (hb ▸ he ▸ ha)
  | unpublish => simp [pstep, Pub.names]

/-- C36 (part): the names of the published fields are distinct as long as no field is published by
name and address after a field object of the same name. Missing: that case (`C36_fails`). -/
theorem C36_partial (ops : List POp)
    (h : ∀ pre x t post, ops = pre ++ POp.byName x t :: post →
      ∀ y ∈ (prun ⟨[], []⟩ pre).extra, y.name ≠ x.name) :
    (prun ⟨[], []⟩ ops).names.Nodup := by
  have key : ∀ (ops : List POp) (p : Pub), p.names.Nodup →
      (∀ pre x t post, ops = pre ++ POp.byName x t :: post →
        ∀ y ∈ (prun p pre).extra, y.name ≠ x.name) → (prun p ops).names.Nodup := by
    intro ops
    induction ops with
    | nil => intro p hp _; exact hp
    | cons o ops ih =>
      intro p hp ho
      refine ih (pstep p o).1 (pstep_nodup hp o ?_) ?_
      · intro x t hx hm
        obtain ⟨y, hy, hyn⟩ := List.mem_map.1 hm
        exact ho [] x t ops (by rw [hx]; rfl) y hy hyn
      · intro pre x t post he y hy
        exact ho (o :: pre) x t post (by rw [he]; rfl) y hy
  exact key ops ⟨[], []⟩ (by simp [Pub.names]) h

/-- C36 (part): fields published all by name and address, or all as objects, have distinct names. -/
theorem C36_uniform_partial (ops : List POp)
    (h : (∀ o ∈ ops, ∀ x, o ≠ .object x) ∨ (∀ o ∈ ops, ∀ x t, o ≠ .byName x t)) :
    (prun ⟨[], []⟩ ops).names.Nodup := by
  refine C36_partial ops ?_
  intro pre x t post he y hy
  rcases h with h | h
  · have : ∀ (pre : List POp) (p : Pub), p.extra = [] → (∀ o ∈ pre, ∀ x, o ≠ .object x) →
        (prun p pre).extra = [] := by
      intro pre
      induction pre with
      | nil => intro p hp _; exact hp
      | cons o pre ih =>
        intro p hp ho
        refine ih _ ?_ (fun o' h' => ho o' (List.mem_cons_of_mem _ h'))
        cases o with
        | byName x t => simp only [pstep]; split <;> exact hp
        | object x => exact absurd rfl (ho _ (List.mem_cons_self) x)
        | unpublish => rfl
    rw [this pre ⟨[], []⟩ rfl (fun o ho => h o (by rw [he]; exact List.mem_append_left _ ho))] at hy
    simp at hy
  · exact absurd rfl (h (.byName x t) (by rw [he]; simp) x t)

/-- C36: a publication that raises an exception changes nothing. -/
theorem C36_error_unchanged (p : Pub) (o : POp) (h : (pstep p o).2 ≠ none) :
    (pstep p o).1 = p := by
  cases o with
  | byName x t =>
    cases t with
    | false => rfl
    | true =>
      simp only [pstep] at h ⊢
      have h' : (addElem false p.fields x).2 ≠ none := by simpa using h
      rw [if_neg (by simp), (C35_add false p.fields x).2.1 h']
  | object x => simp only [pstep] at h ⊢; grind
  | unpublish => simp [pstep] at h

/-- C36 is false: after the publication of a field object, a field of the same name can be
published by name and address, without an exception; the object cannot be looked up any more. -/
theorem C36_fails :
    ∃ ops : List POp, (∀ pre o post, ops = pre ++ o :: post → (pstep (prun ⟨[], []⟩ pre) o).2 = none) ∧
      ¬ (prun ⟨[], []⟩ ops).names.Nodup ∧
      (prun ⟨[], []⟩ ops).atName (some "a") = some ⟨2, "a"⟩ := by
  refine ⟨[.object ⟨1, "a"⟩, .byName ⟨2, "a"⟩ true], ?_, by decide, by decide⟩
  intro pre o post he
  match pre, he with
  | [], he => simp only [List.nil_append, List.cons.injEq] at he; rw [← he.1]; decide
  | [a], he =>
    simp only [List.cons_append, List.nil_append, List.cons.injEq] at he
    rw [← he.1, ← he.2.1]; decide
  | a :: b :: pre, he => simp at he

example :
    let p := prun ⟨[], []⟩ [.byName ⟨1, "a"⟩ true, .object ⟨2, "b"⟩, .byName ⟨3, "a"⟩ true,
      .object ⟨4, "a"⟩, .byName ⟨5, "c"⟩ false, .byName ⟨6, "d"⟩ true]
    p.names = ["a", "d", "b"] := by decide

/-! ### C38: factories -/

/-- The first factory with this UUID among the registered ones. -/
def firstWith (fs : List Fac) (u : Nat) : Option Fac := fs.find? (fun f => f.uuid = u)

/-- The factories that are kept: each one whose UUID does not occur before. -/
def kept : List Nat → List Fac → List Fac
  | _, [] => []
  | seen, f :: fs => if f.uuid ∈ seen then kept seen fs else f :: kept (f.uuid :: seen) fs

/-- C38: after any registrations, a UUID maps to the first factory registered with it, and to none
iff none was; `CreateInstance` uses exactly that factory, with the given name. -/
theorem C38_uuid (fs : List Fac) (u : Nat) (n : String) :
    (frun ⟨[], [], []⟩ fs).atUuid u = firstWith fs u ∧
    (∀ f m, (frun ⟨[], [], []⟩ fs).createInstance u n = some (f, m) ↔
      firstWith fs u = some f ∧ m = n) ∧
    ((frun ⟨[], [], []⟩ fs).createInstance u n = none ↔ ∀ f ∈ fs, f.uuid ≠ u) := by
  have key : ∀ (fs : List Fac) (s : Facs), (frun s fs).atUuid u = (s.atUuid u).or (firstWith fs u) := by
    intro fs
    induction fs with
    | nil => intro s; simp [frun, firstWith]
    | cons f fs ih =>
      intro s
      have := ih (s.add f).1
      rw [show frun s (f :: fs) = frun (s.add f).1 fs from rfl, this]
      unfold Facs.add Facs.atUuid firstWith
      by_cases hs : (lookup s.byUuid f.uuid).isSome
      · simp only [hs, if_true]
        by_cases hu : f.uuid = u
        · obtain ⟨w, hw⟩ := Option.isSome_iff_exists.1 (hu ▸ hs)
          simp [hw]
        · simp [hu]
      · have hn : lookup s.byUuid f.uuid = none := by simpa using hs
        rw [if_neg hs]
        simp only [lookup_tryEmplace]
        by_cases hu : f.uuid = u
        · subst hu; simp [hn]
        · have : ¬ u = f.uuid := fun h => hu h.symm
          simp [hu, this]
  have h1 := key fs ⟨[], [], []⟩
  have h2 : (frun ⟨[], [], []⟩ fs).atUuid u = firstWith fs u := by
    rw [h1]; simp [Facs.atUuid, lookup]
  refine ⟨h2, ?_, ?_⟩
  · intro f m
    unfold Facs.createInstance
    rw [h2]
    cases firstWith fs u with
    | none => simp
    | some g =>
      simp only [Option.some.injEq, Prod.mk.injEq]
      exact ⟨fun h => ⟨h.1, h.2.symm⟩, fun h => ⟨h.1, h.2.symm⟩⟩
  · unfold Facs.createInstance
    rw [h2]
    unfold firstWith
    cases hf : fs.find? (fun f => f.uuid = u) with
    | none => simp only [true_iff]; simpa using hf
    | some g =>
      have := List.find?_some hf
      have hm := List.mem_of_find?_eq_some hf
      simp only [reduceCtorEq, false_iff]
      intro h
      exact h g hm (by simpa using this)

/-- C38: the enumerated factories are the registered ones in order, without those whose UUID was
already registered; a registration is refused with `DuplicateUuid` exactly in that case. -/
theorem C38_all (fs : List Fac) (f : Fac) :
    (frun ⟨[], [], []⟩ fs).all = kept [] fs ∧
    (((frun ⟨[], [], []⟩ fs).add f).2 = some .DuplicateUuid ↔ ∃ g ∈ fs, g.uuid = f.uuid) ∧
    (((frun ⟨[], [], []⟩ fs).add f).2 ≠ none →
      ((frun ⟨[], [], []⟩ fs).add f).1 = frun ⟨[], [], []⟩ fs) := by
  have key : ∀ (fs : List Fac) (s : Facs) (seen : List Nat),
      (∀ u, (lookup s.byUuid u).isSome = true ↔ u ∈ seen) →
      (frun s fs).all = s.all ++ kept seen fs := by
    intro fs
    induction fs with
    | nil => intro s seen h; simp [frun, kept]
    | cons f fs ih =>
      intro s seen h
      rw [show frun s (f :: fs) = frun (s.add f).1 fs from rfl]
      unfold kept
      by_cases hf : f.uuid ∈ seen
      · have : (s.add f).1 = s := by unfold Facs.add; rw [if_pos ((h _).2 hf)]
        rw [this, if_pos hf]
        exact ih s seen h
      · have hs : ¬ (lookup s.byUuid f.uuid).isSome = true := fun hh => hf ((h _).1 hh)
        rw [if_neg hf, ih (s.add f).1 (f.uuid :: seen)]
        · unfold Facs.add; rw [if_neg hs]; simp
        · intro u
          unfold Facs.add
          rw [if_neg hs]
          simp only [lookup_tryEmplace, List.mem_cons]
          by_cases hu : u = f.uuid
          · simp [hu]
          · simp [hu, h u]
  refine ⟨by simpa using key fs ⟨[], [], []⟩ [] (by simp [lookup]), ?_, ?_⟩
  · have h := (C38_uuid fs f.uuid "").1
    unfold Facs.atUuid at h
    unfold Facs.add
    have hsome : (lookup (frun ⟨[], [], []⟩ fs).byUuid f.uuid).isSome = true ↔
        ∃ g ∈ fs, g.uuid = f.uuid := by
      rw [h, firstWith, List.find?_isSome]; simp
    split
    · rename_i hh; simpa using hsome.1 hh
    · rename_i hh
      simp only [reduceCtorEq, false_iff]
      exact fun hg => hh (hsome.2 hg)
  · unfold Facs.add
    split
    · simp
    · simp

/-- C38: the lookup by name gives a registered factory of that name: the first one that was kept. -/
theorem C38_name (fs : List Fac) (n : String) :
    (frun ⟨[], [], []⟩ fs).atName (some n) = (kept [] fs).find? (fun f => f.name = n) ∧
    (frun ⟨[], [], []⟩ fs).atName none = none := by
  have inv : ∀ (fs : List Fac) (s : Facs),
      lookup s.byName n = s.all.find? (fun f => f.name = n) →
      lookup (frun s fs).byName n = (frun s fs).all.find? (fun f => f.name = n) := by
    intro fs
    induction fs with
    | nil => intro s h; exact h
    | cons f fs ih =>
      intro s h
      refine ih _ ?_
      simp only [Facs.add]
      split
      · exact h
      · simp only [lookup_tryEmplace, List.find?_append]
        by_cases hn : n = f.name
        · subst hn; simp [h]
        · have : ¬ f.name = n := fun hh => hn hh.symm
          simp [hn, this, h]
  refine ⟨?_, rfl⟩
  have h := inv fs ⟨[], [], []⟩ (by simp [lookup])
  rw [(C38_all fs ⟨0, 0, ""⟩).1] at h
  exact h

example :
    let s := frun ⟨[], [], []⟩ [⟨1, 10, "f"⟩, ⟨2, 10, "g"⟩, ⟨3, 11, "f"⟩]
    s.atUuid 10 = some ⟨1, 10, "f"⟩ ∧ s.createInstance 11 "x" = some (⟨3, 11, "f"⟩, "x") ∧
    s.createInstance 12 "x" = none ∧ s.all = [⟨1, 10, "f"⟩, ⟨3, 11, "f"⟩] ∧
    s.atName (some "f") = some ⟨1, 10, "f"⟩ ∧ s.atName (some "g") = none := by decide

end Verif.Tree
