import Verif.Raise.Objects
import Verif.Tree.Props

/-! Property C111: what the exceptions of objects, services and types say. -/
namespace Verif.Raise
open Verif.Tree (Comp Ctn Composite Ref Elem Src SinkEnv Fac Facs LState LCall Life toSize)

/-! ### Specification -/

/-- The class of the exception, among those of Tree/Model.lean. -/
def TEx.cls : TEx → Option Tree.Exn
  | .containerFull .. => some .ContainerFull
  | .duplicateName _ => some .DuplicateName
  | .invalidFieldName _ => some .InvalidFieldName
  | .invalidParent => some .InvalidParent
  | .notContained .. => some .NotContained
  | .cannotDelete .. => some .CannotDelete
  | .invalidObjectType _ => some .InvalidObjectType
  | .notReferenced .. => some .NotReferenced
  | .referenceFull .. => some .ReferenceFull
  | .cannotRemove .. => some .CannotRemove
  | .invalidEventSink .. => some .InvalidEventSink
  | .sinkAlreadySubscribed .. => some .EventSinkAlreadySubscribed
  | .sinkNotSubscribed .. => some .EventSinkNotSubscribed
  | .duplicateUuid .. => some .DuplicateUuid
  | .componentState .. | .nullPointer | .badTypeid | .ub => none

/-- What an exception of `AddComponent(x)` says is true: of the container `c` called `name` of the
composite `s`. -/
def AddTells (name : String) (s : Composite) (c : Ctn) (x : Comp) : TEx → Prop
  | .containerFull n k => n = name ∧ k = c.comps.length ∧ (0 ≤ c.upper → k = c.upper)
  | .duplicateName n => n = x.name ∧
      ((∃ d ∈ s.containers, ∃ y ∈ d.comps, y.name = n) ∨ n ∈ s.fields ∨ n ∈ s.members)
  | .invalidFieldName n => n = x.name ∧ n ∉ s.fields
  | .invalidParent => x.parent ≠ s.self
  | .invalidObjectType o => o = x.id ∧ c.ty ∉ x.types
  | _ => False

/-- What an exception of `DeleteComponent(x)` says is true of the container. -/
def DeleteTells (name : String) (c : Ctn) (x : Comp) : TEx → Prop
  | .notContained n y => n = name ∧ y = some x.id ∧ x ∉ c.comps
  | .cannotDelete n y low => n = name ∧ y = some x.id ∧ x ∈ c.comps ∧ low = c.lower ∧
      (0 ≤ low → low < 9223372036854775808 → c.comps.length ≤ low)
  | _ => False

/-- What an exception of `AddComponent(x)` of a reference says is true. -/
def RefAddTells (name : String) (r : Ref) (x : Comp) : TEx → Prop
  | .referenceFull n k => n = name ∧ k = r.comps.length ∧ (0 ≤ r.upper → k = r.upper)
  | .invalidObjectType o => o = x.id ∧ r.ty ∉ x.types
  | _ => False

/-- What an exception of `RemoveComponent(x)` of a reference says is true. -/
def RefRemoveTells (name : String) (r : Ref) (x : Comp) : TEx → Prop
  | .notReferenced n y => n = name ∧ y = some x.id ∧ x ∉ r.comps
  | .cannotRemove n y low => n = name ∧ y = some x.id ∧ x ∈ r.comps ∧ low = r.lower ∧
      (0 ≤ low → low < 9223372036854775808 → r.comps.length ≤ low)
  | _ => False

/-- The class of the exception, among those of Event/Model.lean. -/
def VEx.cls : VEx → Event.Exn
  | .eventName _ => .InvalidEventName
  | .eventId _ => .InvalidEventId
  | .alreadySubscribed .. => .EntryPointAlreadySubscribed
  | .notSubscribed .. => .EntryPointNotSubscribed

/-- The exception of a call in Event/Model.lean. -/
def eventExn (m : Event.Mgr) : VCall → Option Event.Exn
  | .query n => match (m.query n).2 with
    | .error e => some e
    | .ok _ => none
  | .subscribe i ep => match (m.subscribe i ep).2 with
    | .error e => some e
    | .ok _ => none
  | .unsubscribe i ep => match (m.unsubscribe i ep).2 with
    | .error e => some e
    | .ok _ => none
  | .emit i => match m.snapshot i with
    | .error e => some e
    | .ok _ => none

/-- The event a call names, and the entry point. -/
def VCall.event : VCall → Option (Int × Option Nat)
  | .query _ => none
  | .subscribe i ep | .unsubscribe i ep => some (i, some ep)
  | .emit i => some (i, none)

/-- What an exception of the event manager says is true. -/
def EventTells (m : Event.Mgr) (c : VCall) : VEx → Prop
  | .eventName n => ∃ o, c = .query o ∧ ((o = none ∧ n = "<null>") ∨ (o = some "" ∧ n = ""))
  | .eventId i => (∃ ep, c.event = some (i, ep)) ∧ m.eventName i = .error .InvalidEventId
  | .alreadySubscribed ep n => ∃ i l, c = .subscribe i ep ∧ m.eventName i = .ok n ∧
      m.snapshot i = .ok l ∧ ep ∈ l
  | .notSubscribed ep n => ∃ i l, c = .unsubscribe i ep ∧ m.eventName i = .ok n ∧
      m.snapshot i = .ok l ∧ ep ∉ l

/-- The class of the exception, among those of Sched/Model.lean. -/
def SEx.cls : SEx → Sched.Exn
  | .eventId _ => .InvalidEventId
  | .cycleTime _ => .InvalidCycleTime
  | .eventTime .. => .InvalidEventTime
  | .simulationTime .. => .InvalidSimulationTime

/-- The exception of a result of Sched/Model.lean. -/
def schedExn : Sched.Res → Option Sched.Exn
  | .exn e => some e
  | _ => none

/-- The event a call of the scheduler names. -/
def namedEvent : Sched.Op → Option Int
  | .setTimed _ id _ | .setZulu id _ _ | .setCycle id _ | .setRepeat id _ | .remove id => some id
  | _ => none

/-- The time scale a call of the scheduler names an event of (`none`: any). -/
def namedScale : Sched.Op → Option Sched.TimeKind
  | .setTimed k _ _ => some k.kind
  | .setZulu .. => some .zulu
  | _ => none

/-- What an exception of the scheduler or of the time keeper says is true. -/
def SchedTells (s : Sched.State) (o : Sched.Op) : SEx → Prop
  | .eventId id => namedEvent o = some id ∧
      ((∀ e, s.events.find id ≠ some e) ∨
        ∃ e k, s.events.find id = some e ∧ namedScale o = some k ∧ e.kind ≠ k)
  | .cycleTime c => c ≤ 0 ∧
      ((∃ k ep x rep, o = .addTimed k ep x c rep ∧ rep ≠ 0) ∨
       (∃ ep z rep zn, o = .addZulu ep z c rep zn ∧ rep ≠ 0) ∨
       (∃ id e, o = .setCycle id c ∧ s.events.find id = some e ∧ 0 < e.rep) ∨
       (∃ id rep e, o = .setRepeat id rep ∧ rep ≠ 0 ∧ s.events.find id = some e ∧ e.cycle = c))
  | .eventTime t now => t < now ∧
      ((∃ k ep x c rep, o = .addTimed k ep x c rep ∧ Sched.target s k x = some t ∧ now = s.now) ∨
       (∃ ep c rep, o = .addZulu ep t c rep now))
  | .simulationTime now t max => o = .setSimTime t ∧ now = s.now ∧ max = s.nextScheduled ∧
      ¬ (now ≤ t ∧ t ≤ max)

open Verif.Pub (Uuid Registry)
open Verif.Any (Kind)
open Verif.Path (Str)

/-- The class of the exception, among those of Pub/Types.lean. -/
def YEx.cls : YEx → Pub.Exn
  | .alreadyRegistered .. => .typeAlreadyRegistered
  | .notRegistered _ => .typeNotRegistered
  | .primitive .. => .invalidPrimitiveType
  | .incompatible _ => .incompatibleType
  | .literal .. => .duplicateLiteral
  | .objectName _ => .invalidObjectName

/-- The UUID and the name of the type a call registers. -/
def newType : Pub.Op → Option (Uuid × Option Str)
  | .addFloat u n .. | .addInteger u n .. | .addEnumeration u n _ | .addArray u n .. |
    .addString u n _ | .addStructure u n | .addClass u n _ => some (u, n)
  | _ => none

/-- The other type a call needs: that of the items, the base class. -/
def neededType : Pub.Op → Option Uuid
  | .addArray _ _ item _ _ _ => some item
  | .addClass _ _ base => some base
  | _ => none

/-- The name as given, or the text `<null>`. -/
def shown : Option Str → Str
  | none => "<null>".toList
  | some s => s

/-- What an exception of the type registry says is true. -/
def TypeTells (R : Registry) (o : Pub.Op) : YEx → Prop
  | .alreadyRegistered n u m => (∃ a, newType o = some (u, a) ∧ n = shown a) ∧
      ∃ e ∈ R, e.uuid = u ∧ e.name = m
  | .notRegistered u => neededType o = some u ∧ ∀ e ∈ R, e.uuid ≠ u
  | .primitive n k => ∃ u a, newType o = some (u, a) ∧ n = shown a ∧
      ((∃ min max i j, o = .addFloat u a min max i j k ∧ k ∉ [.Float32, .Float64]) ∨
        (∃ min max, o = .addInteger u a min max k ∧
          k ∉ [.Int8, .Int16, .Int32, .Int64, .UInt8, .UInt16, .UInt32, .UInt64]) ∨
        ((∃ size, o = .addEnumeration u a size ∧ size ∉ [1, 2, 4, 8]) ∧ k = .None))
  | .incompatible u => neededType o = some u ∧
      ((∃ v a size count simple, o = .addArray v a u size count simple ∧
          (u = Pub.primUuid .String8 ∨ u = Pub.voidUuid)) ∨
        (∃ v a, o = .addClass v a u ∧ u ≠ Pub.voidUuid ∧
          (u = v ∨ ∃ t, Pub.getType R u = some t ∧ ∀ b m, t ≠ .cls b m)))
  | .literal n v => ∃ u m k lits, o = .addLiteral u m v ∧
      Pub.getType R u = some (.enumeration k lits) ∧ (v, n) ∈ lits
  | .objectName n => ∃ u a, newType o = some (u, a) ∧ n = shown a ∧
      Path.checkName a = .invalidObjectName

/-! ### Containers and references -/

theorem toSize_of {u : Int} (h0 : 0 ≤ u) (h1 : u < 9223372036854775808) :
    (toSize u : Int) = u := by
  unfold toSize
  omega

/-- C111: the exceptions of `AddComponent` are those of the model of containers, and in every state
that calls lead to, what they carry is true: the name of the container, the number of components it
holds, which is its upper limit, the name that is already taken, the component that is of another
type. -/
theorem C111_add (name : String) (isComp : Bool) (s₀ : Composite)
    (h0 : ∀ c ∈ s₀.containers, c.comps = []) (ops : List Tree.COp) (i : Nat) (x : Comp) (c : Ctn)
    (hc : (Tree.crun isComp s₀ ops).containers[i]? = some c)
    (hu : c.upper < 9223372036854775808) :
    (addRaises name (Tree.crun isComp s₀ ops) isComp i (some x)).map TEx.cls =
      (Tree.addComponent (Tree.crun isComp s₀ ops) isComp i x).2.map some ∧
    ∀ e, addRaises name (Tree.crun isComp s₀ ops) isComp i (some x) = some e →
      AddTells name (Tree.crun isComp s₀ ops) c x e := by
  have hb := Tree.C32_bounds isComp s₀ h0 ops c (List.mem_of_getElem? hc)
  generalize Tree.crun isComp s₀ ops = s at *
  simp only [addRaises, hc, Tree.addComponent]
  constructor
  · split
    · rfl
    · split
      · rfl
      · simp only [checkRaises, Composite.check, Composite.nameTaken, Composite.checkComponent]
        cases isComp <;> simp <;> (repeat' split) <;> simp_all [TEx.cls]
  · intro e he
    split at he
    · rename_i ht
      cases he
      exact ⟨rfl, ht⟩
    · split at he
      · rename_i hf
        cases he
        refine ⟨rfl, rfl, fun h => ?_⟩
        have := hb.1 h
        have := toSize_of h hu
        omega
      · unfold checkRaises at he
        split at he
        · rename_i ha
          cases he
          refine ⟨rfl, .inl ?_⟩
          obtain ⟨d, hd, hs⟩ := List.any_eq_true.1 ha
          obtain ⟨y, hy⟩ := Option.isSome_iff_exists.1 hs
          have hp := List.find?_some hy
          exact ⟨d, hd, y, List.mem_of_find?_eq_some hy, by simpa using hp⟩
        · split at he
          · split at he
            · rename_i hm
              cases he
              exact ⟨rfl, .inr (.inl hm)⟩
            · rename_i hm
              cases he
              exact ⟨rfl, hm⟩
          · split at he
            · rename_i hm
              cases he
              simp at hm
              exact ⟨rfl, .inr (.inr hm.2)⟩
            · split at he
              · rename_i hp
                cases he
                exact fun h => hp h.symm
              · cases he

/-- A composite with one container of at most one component, which has one. -/
def demo : Composite := ⟨0, [⟨0, 1, 7, []⟩], false, [], []⟩

example : addRaises "models" (Tree.crun true demo [.add 0 ⟨5, "a", 0, [7]⟩]) true 0
    (some ⟨6, "b", 0, [7]⟩) = some (.containerFull "models" 1) ∧
    (∀ c ∈ demo.containers, c.comps = []) ∧
    (Tree.crun true demo [.add 0 ⟨5, "a", 0, [7]⟩]).containers[0]? =
      some ⟨0, 1, 7, [⟨5, "a", 0, [7]⟩]⟩ := by
  refine ⟨by decide, by decide, by decide⟩

/-- C111: the exceptions of `DeleteComponent` are those of the model of containers, and what they
carry is true of the container and of the call. -/
theorem C111_delete (name : String) (s : Composite) (i : Nat) (x : Comp) (c : Ctn)
    (hc : s.containers[i]? = some c) :
    (deleteRaises name s i (some x)).map TEx.cls = (Tree.deleteComponent s i x).2.map some ∧
    ∀ e, deleteRaises name s i (some x) = some e → DeleteTells name c x e := by
  simp only [deleteRaises, Tree.deleteComponent, hc]
  split
  · rename_i hx
    exact ⟨rfl, fun e he => by cases he; exact ⟨rfl, rfl, hx⟩⟩
  · rename_i hx
    split
    · rename_i hl
      refine ⟨rfl, fun e he => ?_⟩
      cases he
      refine ⟨rfl, rfl, by simpa using hx, rfl, fun h1 h2 => ?_⟩
      have := toSize_of h1 h2
      omega
    · exact ⟨rfl, fun e he => by cases he⟩

example : deleteRaises "models" ⟨0, [⟨1, 1, 7, [⟨5, "a", 0, [7]⟩]⟩], false, [], []⟩ 0
    (some ⟨5, "a", 0, [7]⟩) = some (.cannotDelete "models" (some 5) 1) := by decide

/-- C111: the exceptions of a reference are those of the model of references, and in every state that
calls lead to, what they carry is true. -/
theorem C111_reference (name : String) (r₀ : Ref) (h0 : r₀.comps = [])
    (hu : r₀.upper < 9223372036854775808) (ops : List Tree.ROp) (x : Comp) :
    (refAddRaises name (Tree.rrun r₀ ops) (some x)).map TEx.cls =
      ((Tree.rrun r₀ ops).add x).2.map some ∧
    (refRemoveRaises name (Tree.rrun r₀ ops) (some x)).map TEx.cls =
      ((Tree.rrun r₀ ops).remove x).2.map some ∧
    (∀ e, refAddRaises name (Tree.rrun r₀ ops) (some x) = some e →
      RefAddTells name (Tree.rrun r₀ ops) x e) ∧
    (∀ e, refRemoveRaises name (Tree.rrun r₀ ops) (some x) = some e →
      RefRemoveTells name (Tree.rrun r₀ ops) x e) := by
  have hb := (Tree.C34_bounds r₀ h0 ops).1
  have hk : (Tree.rrun r₀ ops).upper = r₀.upper := by
    clear hb h0 hu
    unfold Tree.rrun
    induction ops generalizing r₀ with
    | nil => rfl
    | cons o os ih =>
      rw [List.foldl_cons, ih]
      cases o <;> simp only [Tree.rstep, Ref.add, Ref.remove, Ref.removeLinks] <;>
        (repeat' split) <;> rfl
  rw [← hk] at hb hu
  generalize Tree.rrun r₀ ops = r at *
  refine ⟨?_, ?_, ?_, ?_⟩
  · simp only [refAddRaises, Ref.add]
    (repeat' split) <;> rfl
  · simp only [refRemoveRaises, Ref.remove]
    (repeat' split) <;> rfl
  · intro e he
    simp only [refAddRaises] at he
    split at he
    · rename_i hf
      cases he
      refine ⟨rfl, rfl, fun h => ?_⟩
      have := hb h
      have := toSize_of h hu
      omega
    · split at he
      · rename_i ht
        cases he
        exact ⟨rfl, ht⟩
      · cases he
  · intro e he
    simp only [refRemoveRaises] at he
    split at he
    · rename_i hx
      cases he
      exact ⟨rfl, rfl, hx⟩
    · rename_i hx
      split at he
      · rename_i hl
        cases he
        refine ⟨rfl, rfl, by simpa using hx, rfl, fun h1 h2 => ?_⟩
        have := toSize_of h1 h2
        omega
      · cases he

example : refAddRaises "next" (Tree.rrun ⟨0, 1, 7, []⟩ [.add ⟨5, "a", 0, [7]⟩])
    (some ⟨6, "b", 0, [7]⟩) = some (.referenceFull "next" 1) := by decide

/-- C111 is false of a null component: `AddComponent(nullptr)` of a container, or of a reference that
has room, ends with `std::bad_typeid`, which is no exception of the standard, instead of
`InvalidObjectType`. -/
theorem C111_null_fails (name : String) (isComp : Bool) (s : Composite) (i : Nat) (c : Ctn)
    (hc : s.containers[i]? = some c) (r : Ref) (hr : r.comps.length < toSize r.upper) :
    addRaises name s isComp i none = some .badTypeid ∧
    refAddRaises name r none = some .badTypeid := by
  constructor
  · simp only [addRaises, hc]
    rfl
  · rw [refAddRaises, if_neg (by omega)]
    rfl

example : addRaises "models" demo true 0 none = some .badTypeid ∧
    refAddRaises "next" ⟨0, -1, 7, []⟩ none = some .badTypeid :=
  C111_null_fails "models" true demo 0 ⟨0, 1, 7, []⟩ rfl ⟨0, -1, 7, []⟩ (by decide)
    |> fun h => ⟨h.1, by decide⟩

/-- C111: a null component is not contained and not referenced, and is reported as null. -/
theorem C111_null (name : String) (s : Composite) (i : Nat) (c : Ctn)
    (hc : s.containers[i]? = some c) (r : Ref) :
    deleteRaises name s i none = some (.notContained name none) ∧
    refRemoveRaises name r none = some (.notReferenced name none) := by
  constructor
  · simp only [deleteRaises, hc]
  · rfl

/-! ### Collections, event sources, factories, components -/

/-- C111: a collection refuses an element with the name that is taken. -/
theorem C111_collection (dup : Bool) (v : List Elem) (x : Elem) :
    (collectionRaises dup v x).map TEx.cls = (Tree.addElem dup v x).2.map some ∧
    ∀ e, collectionRaises dup v x = some e →
      dup = false ∧ e = .duplicateName x.name ∧ ∃ y ∈ v, y.name = x.name := by
  unfold collectionRaises Tree.addElem
  split
  · rename_i h
    refine ⟨rfl, fun e he => ?_⟩
    cases he
    obtain ⟨y, hy⟩ := Option.isSome_iff_exists.1 h.2
    have hp := List.find?_some hy
    exact ⟨h.1, rfl, y, List.mem_of_find?_eq_some hy, by simpa using hp⟩
  · exact ⟨rfl, fun e he => by cases he⟩

example : collectionRaises false [⟨1, "a"⟩] ⟨2, "a"⟩ = some (.duplicateName "a") := by decide

/-- C111: the exceptions of an event source name that source and the sink of the call, and are raised
for a sink of another type, for one that is subscribed, for one that is not. -/
theorem C111_source (env : SinkEnv) (me : Nat) (s : Src) (x : Nat) :
    (subscribeRaises env me s (some x)).map TEx.cls = (s.subscribe env x).2.map some ∧
    (unsubscribeRaises me s (some x)).map TEx.cls = (s.unsubscribe x).2.map some ∧
    (∀ e, subscribeRaises env me s (some x) = some e →
      (e = .invalidEventSink me (some x) ∧ env.arg x ≠ s.arg) ∨
      (e = .sinkAlreadySubscribed me (some x) ∧ x ∈ s.sinks)) ∧
    (∀ e, unsubscribeRaises me s (some x) = some e →
      e = .sinkNotSubscribed me (some x) ∧ x ∉ s.sinks) := by
  simp only [subscribeRaises, unsubscribeRaises, Src.subscribe, Src.unsubscribe]
  refine ⟨?_, ?_, ?_, ?_⟩
  · (repeat' split) <;> rfl
  · (repeat' split) <;> rfl
  · intro e he
    split at he
    · rename_i h
      cases he
      exact .inl ⟨rfl, h⟩
    · split at he
      · rename_i h
        cases he
        exact .inr ⟨rfl, h⟩
      · cases he
  · intro e he
    split at he
    · rename_i h
      cases he
      exact ⟨rfl, h⟩
    · cases he

example : subscribeRaises ⟨fun _ => 1, fun _ => 0⟩ 9 ⟨1, [4], [], [], 0, false⟩ (some 4) =
    some (.sinkAlreadySubscribed 9 (some 4)) := by decide

/-- C111: the registration of a factory is refused with the name of the factory that has the UUID and
the name of the new one. -/
theorem C111_factory (fs : List Fac) (f : Fac) :
    (factoryRaises (Tree.frun ⟨[], [], []⟩ fs) f).map TEx.cls =
      ((Tree.frun ⟨[], [], []⟩ fs).add f).2.map some ∧
    ∀ e, factoryRaises (Tree.frun ⟨[], [], []⟩ fs) f = some e →
      ∃ g ∈ fs, g.uuid = f.uuid ∧ (Tree.frun ⟨[], [], []⟩ fs).atUuid f.uuid = some g ∧
        e = .duplicateUuid g.name f.name := by
  constructor
  · unfold factoryRaises Facs.add
    cases h : Tree.lookup (Tree.frun ⟨[], [], []⟩ fs).byUuid f.uuid <;> rfl
  · intro e he
    unfold factoryRaises at he
    split at he
    · rename_i g hg
      cases he
      have key : ∀ (fs : List Fac) (s : Facs) (all : List Fac),
          (∀ p ∈ s.byUuid, p.2 ∈ all ∧ p.2.uuid = p.1) →
          ∀ p ∈ (Tree.frun s fs).byUuid, p.2 ∈ all ++ fs ∧ p.2.uuid = p.1 := by
        intro fs
        induction fs with
        | nil => intro s all h p hp; simpa using h p hp
        | cons a as ih =>
          intro s all h p hp
          have := ih ((s.add a).1) (all ++ [a]) (by
            intro q hq
            simp only [Facs.add, Tree.tryEmplace] at hq
            split at hq
            · exact ⟨List.mem_append_left _ (h q hq).1, (h q hq).2⟩
            · rcases List.mem_append.1 hq with hq | hq
              · exact ⟨List.mem_append_left _ (h q hq).1, (h q hq).2⟩
              · rw [List.mem_singleton.1 hq]
                exact ⟨List.mem_append_right _ (List.mem_singleton_self _), rfl⟩) p hp
          simpa using this
      have hm : (f.uuid, g) ∈ (Tree.frun ⟨[], [], []⟩ fs).byUuid := by
        unfold Tree.lookup at hg
        rw [Option.map_eq_some_iff] at hg
        obtain ⟨q, hq, hqg⟩ := hg
        have h1 := List.mem_of_find?_eq_some hq
        have h2 := List.find?_some hq
        simp at h2
        obtain ⟨a, b⟩ := q
        dsimp at h2 hqg
        subst h2 hqg
        exact h1
      have := key fs ⟨[], [], []⟩ [] (by simp) _ hm
      exact ⟨g, by simpa using this.1, this.2, hg, rfl⟩
    · cases he

example : factoryRaises (Tree.frun ⟨[], [], []⟩ [⟨1, 7, "A"⟩]) ⟨2, 7, "B"⟩ =
    some (.duplicateUuid "A" "B") := by decide

/-- C111: a life cycle operation called in the wrong state says in which state the component is and
which one the operation requires; no other exception carries states, and none is raised in the right
state with an argument that is not null. -/
theorem C111_life (s : Life) (arg : Bool) (c : LCall) :
    ((∃ a b, lifeRaises s arg c = some (.componentState a b)) ↔ (s.base arg c).2 = .invalidState) ∧
    (lifeRaises s arg c = some .nullPointer ↔ (s.base arg c).2 = .nullPointer) ∧
    (lifeRaises s arg c = none ↔ (s.base arg c).2 = .ok) ∧
    (∀ a b, lifeRaises s arg c = some (.componentState a b) → a = s.state ∧ b = c.needs ∧ a ≠ b) := by
  cases c <;> simp only [lifeRaises, Life.base, LCall.needs] <;> (repeat' split) <;>
    simp_all <;> (intro a b h1 h2; subst h1 h2; exact ⟨rfl, rfl, by assumption⟩)

example : lifeRaises Life.init true .connect = some (.componentState .created .configured) := by
  decide

/-! ### Event manager -/

/-- C111: the exceptions of the event manager are those of its model, and what they carry is true: the
name that is empty or null, the id that no event has, the entry point and the name of the event it is,
or is not, subscribed to. -/
theorem C111_events (m : Event.Mgr) (c : VCall) :
    (eventRaises m c).map VEx.cls = eventExn m c ∧
    ∀ e, eventRaises m c = some e → EventTells m c e := by
  cases c with
  | query n =>
    cases n with
    | none =>
      exact ⟨rfl, fun e he => by cases he; exact ⟨none, rfl, .inl ⟨rfl, rfl⟩⟩⟩
    | some n =>
      simp only [eventRaises, eventExn, Event.Mgr.query]
      split
      · rename_i h
        subst h
        exact ⟨rfl, fun e he => by cases he; exact ⟨some "", rfl, .inr ⟨rfl, rfl⟩⟩⟩
      · refine ⟨?_, fun e he => by cases he⟩
        cases m.events.find n <;> rfl
  | subscribe i ep =>
    simp only [eventRaises, eventExn, Event.Mgr.subscribe, Event.Mgr.eventName]
    cases hi : m.ids.find i with
    | none =>
      exact ⟨rfl, fun e he => by
        cases he; exact ⟨⟨some ep, rfl⟩, by simp only [Event.Mgr.eventName, hi]⟩⟩
    | some n =>
      dsimp only
      cases hs : m.subs.find i with
      | none => exact ⟨rfl, fun e he => by cases he⟩
      | some l =>
        dsimp only
        split
        · rename_i hm
          refine ⟨rfl, fun e he => ?_⟩
          cases he
          exact ⟨i, l, rfl, by simp only [Event.Mgr.eventName, hi],
            by simp only [Event.Mgr.snapshot, Event.Mgr.eventName, hi, hs, Option.getD], hm⟩
        · exact ⟨rfl, fun e he => by cases he⟩
  | unsubscribe i ep =>
    simp only [eventRaises, eventExn, Event.Mgr.unsubscribe, Event.Mgr.eventName]
    cases hi : m.ids.find i with
    | none =>
      exact ⟨rfl, fun e he => by
        cases he; exact ⟨⟨some ep, rfl⟩, by simp only [Event.Mgr.eventName, hi]⟩⟩
    | some n =>
      dsimp only
      cases hs : m.subs.find i with
      | none =>
        refine ⟨rfl, fun e he => ?_⟩
        cases he
        exact ⟨i, [], rfl, by simp only [Event.Mgr.eventName, hi],
          by simp only [Event.Mgr.snapshot, Event.Mgr.eventName, hi, hs, Option.getD], by simp⟩
      | some l =>
        dsimp only
        split
        · exact ⟨rfl, fun e he => by cases he⟩
        · rename_i hm
          refine ⟨rfl, fun e he => ?_⟩
          cases he
          exact ⟨i, l, rfl, by simp only [Event.Mgr.eventName, hi],
            by simp only [Event.Mgr.snapshot, Event.Mgr.eventName, hi, hs, Option.getD], hm⟩
  | emit i =>
    simp only [eventRaises, eventExn, Event.Mgr.snapshot, Event.Mgr.eventName]
    cases hi : m.ids.find i with
    | none =>
      exact ⟨rfl, fun e he => by
        cases he; exact ⟨⟨none, rfl⟩, by simp only [Event.Mgr.eventName, hi]⟩⟩
    | some n => exact ⟨rfl, fun e he => by cases he⟩

example : eventRaises ((Event.Mgr.init.subscribe 4 8).1) (.subscribe 4 8) =
    some (.alreadySubscribed 8 "SMP_EnterStandby") := by decide

/-! ### Scheduler and time keeper -/

theorem sched_cls (s : Sched.State) (o : Sched.Op) :
    (schedRaises s o).map SEx.cls = schedExn (Sched.apply s o).2 := by
  cases o with
  | addImmediate ep =>
    simp only [schedRaises, Sched.apply, Sched.addImmediate]
    split <;> rfl
  | addTimed k ep x c r =>
    simp only [schedRaises, Sched.apply, Sched.addTimed]
    cases Sched.target s k x with
    | none => rfl
    | some t =>
      simp only [addEventRaises, Sched.addEvent]
      (repeat' split) <;> simp_all [SEx.cls, schedExn]
  | addZulu ep z c r zn =>
    simp only [schedRaises, Sched.apply, Sched.addZulu, addEventRaises]
    (repeat' split) <;> simp_all [SEx.cls, schedExn]
  | setTimed k id x =>
    simp only [schedRaises, Sched.apply, Sched.setTimed]
    cases Sched.target s k x with
    | none => rfl
    | some t =>
      simp only [Sched.setEventTime]
      cases s.events.find id with
      | none => rfl
      | some e => dsimp only; (repeat' split) <;> rfl
  | setZulu id z zn =>
    simp only [schedRaises, Sched.apply, Sched.setZulu]
    cases s.events.find id with
    | none => rfl
    | some e => dsimp only; (repeat' split) <;> rfl
  | setCycle id c =>
    simp only [schedRaises, Sched.apply, Sched.setCycle]
    cases s.events.find id with
    | none => rfl
    | some e => dsimp only; (repeat' split) <;> rfl
  | setRepeat id r =>
    simp only [schedRaises, Sched.apply, Sched.setRepeat]
    cases s.events.find id with
    | none => rfl
    | some e => dsimp only; (repeat' split) <;> rfl
  | remove id =>
    simp only [schedRaises, Sched.apply, Sched.remove]
    cases s.events.find id with
    | none => rfl
    | some e => dsimp only; (repeat' split) <;> rfl
  | hold => rfl
  | setSimTime t =>
    simp only [schedRaises, Sched.apply, Sched.setSimTime]
    (repeat' split) <;> rfl
  | setEpochTime t =>
    simp only [schedRaises, Sched.apply, Sched.setEpochTime]
    split <;> rfl
  | setMissionStart t => rfl
  | setMissionTime t =>
    simp only [schedRaises, Sched.apply, Sched.setMissionTime]
    split <;> rfl

theorem addEventRaises_some {t now c r : Int} {e : SEx} (h : addEventRaises t now c r = some e) :
    (e = .eventTime t now ∧ t < now) ∨ (e = .cycleTime c ∧ c ≤ 0 ∧ r ≠ 0) := by
  unfold addEventRaises at h
  split at h
  · rename_i h1; cases h; exact .inl ⟨rfl, h1⟩
  · split at h
    · rename_i h1; cases h; exact .inr ⟨rfl, h1.2, h1.1⟩
    · cases h

/-- C111: the exceptions of the scheduler and of the time keeper are those of their model, and what
they carry is true: the id that no event has (or whose event is of another time scale), the cycle time
that is not positive, an event time before the current time of the same scale, and the simulation time
that is not between the current one and that of the next event, with these two. -/
theorem C111_times (s : Sched.State) (o : Sched.Op) :
    (schedRaises s o).map SEx.cls = schedExn (Sched.apply s o).2 ∧
    ∀ e, schedRaises s o = some e → SchedTells s o e := by
  refine ⟨sched_cls s o, ?_⟩
  intro e he
  cases o with
  | addTimed k ep x c r =>
    simp only [schedRaises] at he
    split at he
    · cases he
    · rename_i t ht
      rcases addEventRaises_some he with ⟨rfl, h⟩ | ⟨rfl, h, hr⟩
      · exact ⟨h, .inl ⟨k, ep, x, c, r, rfl, ht, rfl⟩⟩
      · exact ⟨h, .inl ⟨k, ep, x, r, rfl, hr⟩⟩
  | addZulu ep z c r zn =>
    rcases addEventRaises_some he with ⟨rfl, h⟩ | ⟨rfl, h, hr⟩
    · exact ⟨h, .inr ⟨ep, c, r, rfl⟩⟩
    · exact ⟨h, .inr (.inl ⟨ep, z, r, zn, rfl, hr⟩)⟩
  | setTimed k id x =>
    simp only [schedRaises] at he
    split at he
    · cases he
    · split at he
      · rename_i hn
        cases he
        exact ⟨rfl, .inl (by simp [hn])⟩
      · rename_i ev hf
        split at he
        · rename_i hk
          cases he
          exact ⟨rfl, .inr ⟨ev, k.kind, hf, rfl, hk⟩⟩
        · cases he
  | setZulu id z zn =>
    simp only [schedRaises] at he
    split at he
    · rename_i hn
      cases he
      exact ⟨rfl, .inl (by simp [hn])⟩
    · rename_i ev hf
      split at he
      · rename_i hk
        cases he
        exact ⟨rfl, .inr ⟨ev, .zulu, hf, rfl, hk⟩⟩
      · cases he
  | setCycle id c =>
    simp only [schedRaises] at he
    split at he
    · rename_i hn
      cases he
      exact ⟨rfl, .inl (by simp [hn])⟩
    · rename_i ev hf
      split at he
      · rename_i hk
        cases he
        exact ⟨hk.2, .inr (.inr (.inl ⟨id, ev, rfl, hf, hk.1⟩))⟩
      · cases he
  | setRepeat id r =>
    simp only [schedRaises] at he
    split at he
    · rename_i hn
      cases he
      exact ⟨rfl, .inl (by simp [hn])⟩
    · rename_i ev hf
      split at he
      · rename_i hk
        cases he
        exact ⟨hk.2, .inr (.inr (.inr ⟨id, r, ev, rfl, hk.1, hf, rfl⟩))⟩
      · cases he
  | remove id =>
    simp only [schedRaises] at he
    split at he
    · rename_i hn
      cases he
      exact ⟨rfl, .inl (by simp [hn])⟩
    · cases he
  | setSimTime t =>
    simp only [schedRaises] at he
    split at he
    · cases he
    · split at he
      · rename_i ht
        cases he
        exact ⟨rfl, rfl, rfl, by omega⟩
      · cases he
  | addImmediate ep => cases he
  | hold => cases he
  | setEpochTime t => cases he
  | setMissionStart t => cases he
  | setMissionTime t => cases he

example : schedRaises { Sched.init with now := 50, changing := true } (.setSimTime 20) =
    some (.simulationTime 50 20 Sched.maxI64) := by decide

/-- C111 is false of the event time in the message: for an event of the mission time it is not the
time given, but the simulation time it stands for. -/
theorem C111_event_time_fails :
    ∃ (s : Sched.State) (x t now : Int),
      s.missionTime = some 90 ∧
      schedRaises s (.addTimed .mission 1 x 0 0) = some (.eventTime t now) ∧
      x = 80 ∧ t = 40 ∧ now = 50 :=
  ⟨{ Sched.init with now := 50, epochStart := -40 }, 80, 40, 50, by decide, by decide, rfl, rfl, rfl⟩

/-! ### Types -/

theorem type_find {R : Registry} {u : Uuid} (h : Pub.getType R u = none) :
    ∀ e ∈ R, e.uuid ≠ u := by
  intro e he hu
  unfold Pub.getType at h
  rw [Option.map_eq_none_iff, List.find?_eq_none] at h
  exact h e he (by simp [hu])

/-- The part of the claim that is about the names and the UUID of the new type. -/
theorem addType_some {R : Registry} {u : Uuid} {n : Option Str} {c : Option YEx} {e : YEx}
    (h : addTypeRaises R u n c = some e) :
    (∃ y ∈ R, y.uuid = u ∧ e = .alreadyRegistered (shown n) u y.name) ∨ c = some e := by
  unfold addTypeRaises at h
  split at h
  · rename_i y hy
    cases h
    have h1 := List.mem_of_find?_eq_some hy
    have h2 := List.find?_some hy
    have h3 : y.uuid = u := by simpa using h2
    refine .inl ⟨y, h1, h3, ?_⟩
    rw [h3]
    cases n <;> rfl
  · exact .inr h

theorem named_some {n : Option Str} {c : Option YEx} {e : YEx} (h : namedRaises n c = some e) :
    (e = .objectName (shown n) ∧ Path.checkName n = .invalidObjectName) ∨ c = some e := by
  unfold namedRaises at h
  split at h
  · exact .inr h
  · rename_i hn
    cases h
    refine .inl ⟨?_, hn⟩
    cases n <;> rfl

theorem addType_cls (R : Registry) (u : Uuid) (n : Option Str) (c : Option YEx) (k : Pub.Ctor)
    (h : c.map YEx.cls = match k with | .error e => some e | .ok _ => none) :
    (addTypeRaises R u n c).map YEx.cls = (Pub.addType R u n k).2 := by
  unfold addTypeRaises Pub.addType Pub.getType
  cases R.find? (fun e => e.uuid == u) with
  | some e => rfl
  | none =>
    simp only [Option.map_none]
    rw [h]
    cases k <;> rfl

theorem named_cls (n : Option Str) (c : Option YEx) (k : Pub.Ctor)
    (h : c.map YEx.cls = match k with | .error e => some e | .ok _ => none) :
    (namedRaises n c).map YEx.cls =
      match Pub.named n k with | .error e => some e | .ok _ => none := by
  unfold namedRaises Pub.named
  cases Path.checkName n with
  | ok s => exact h
  | invalidObjectName => rfl

theorem type_cls (R : Registry) (o : Pub.Op) :
    (typeRaises R o).map YEx.cls = (Pub.step R o).2 := by
  cases o with
  | addFloat u n min max i j k =>
    simp only [typeRaises, Pub.step]
    split
    · exact addType_cls _ _ _ _ _ (named_cls _ _ _ rfl)
    · rfl
  | addInteger u n min max k =>
    simp only [typeRaises, Pub.step]
    split
    · exact addType_cls _ _ _ _ _ (named_cls _ _ _ rfl)
    · rfl
  | addEnumeration u n size =>
    simp only [typeRaises, Pub.step]
    apply addType_cls
    cases Pub.enumKind size with
    | none => rfl
    | some k => exact named_cls _ _ _ rfl
  | addArray u n item size count simple =>
    simp only [typeRaises, Pub.step]
    refine addType_cls _ _ _ _ _ (named_cls _ _ _ ?_)
    unfold arrayRaises Pub.mkArray
    cases Pub.getType R item with
    | none => rfl
    | some t => dsimp only; split <;> rfl
  | addString u n len => exact addType_cls _ _ _ _ _ (named_cls _ _ _ rfl)
  | addStructure u n => exact addType_cls _ _ _ _ _ (named_cls _ _ _ rfl)
  | addClass u n base =>
    simp only [typeRaises, Pub.step]
    refine addType_cls _ _ _ _ _ (named_cls _ _ _ ?_)
    unfold classRaises Pub.mkClass
    split
    · rfl
    · split
      · rfl
      · cases Pub.getType R base with
        | none => rfl
        | some t => cases t <;> rfl
  | addLiteral u n v =>
    simp only [typeRaises, Pub.step]
    cases Pub.getType R u with
    | none => rfl
    | some t =>
      cases t <;> try rfl
      rename_i k lits
      simp only [Pub.addLiteral]
      cases hf : lits.find? (fun l => l.1 == v) with
      | none =>
        have hn : lits.any (fun l => l.1 == v) = false := by
          rw [List.any_eq_false]
          intro l hl
          exact List.find?_eq_none.1 hf l hl
        simp [hn]
      | some l =>
        have hn : lits.any (fun l => l.1 == v) = true := by
          rw [List.any_eq_true]
          exact ⟨l, List.mem_of_find?_eq_some hf, by have := List.find?_some hf; exact this⟩
        simp [hn, YEx.cls]
  | addField u f =>
    simp only [typeRaises, Pub.step]
    cases Pub.getType R u with
    | none => rfl
    | some t => cases t <;> rfl

/-- C111: the exceptions of the type registry are those of its model, and what they carry is true: the
name given and the type that has the UUID, the UUID of the type that is missing or does not fit, the
kind that is no kind of float or integer, the literal that has the value, the name that is not one. -/
theorem C111_types (R : Registry) (o : Pub.Op) :
    (typeRaises R o).map YEx.cls = (Pub.step R o).2 ∧
    ∀ e, typeRaises R o = some e → TypeTells R o e := by
  refine ⟨type_cls R o, ?_⟩
  have plain : ∀ {u : Uuid} {n : Option Str} {c : Option YEx} {e : YEx},
      newType o = some (u, n) → addTypeRaises R u n (namedRaises n c) = some e →
      TypeTells R o e ∨ c = some e := by
    intro u n c e hn he
    rcases addType_some he with ⟨y, hy, hu, rfl⟩ | h
    · exact .inl ⟨⟨n, hn, rfl⟩, y, hy, hu, rfl⟩
    · rcases named_some h with ⟨rfl, hc⟩ | h
      · exact .inl ⟨u, n, hn, rfl, hc⟩
      · exact .inr h
  have shown_eq : ∀ n : Option Str, nullText n = shown n := by intro n; cases n <;> rfl
  intro e he
  cases o with
  | addFloat u n min max i j k =>
    simp only [typeRaises] at he
    split at he
    · exact (plain rfl he).elim id (fun h => by cases h)
    · rename_i hk
      cases he
      exact ⟨u, n, rfl, shown_eq n, .inl ⟨min, max, i, j, rfl, by simpa using hk⟩⟩
  | addInteger u n min max k =>
    simp only [typeRaises] at he
    split at he
    · exact (plain rfl he).elim id (fun h => by cases h)
    · rename_i hk
      cases he
      exact ⟨u, n, rfl, shown_eq n, .inr (.inl ⟨min, max, rfl, by simpa using hk⟩)⟩
  | addEnumeration u n size =>
    simp only [typeRaises] at he
    cases hk : Pub.enumKind size with
    | some k =>
      rw [hk] at he
      exact (plain rfl he).elim id (fun h => by cases h)
    | none =>
      rw [hk] at he
      rcases addType_some he with ⟨y, hy, hu, rfl⟩ | h
      · exact ⟨⟨n, rfl, rfl⟩, y, hy, hu, rfl⟩
      · cases h
        refine ⟨u, n, rfl, shown_eq n, .inr (.inr ⟨⟨size, rfl, ?_⟩, rfl⟩)⟩
        unfold Pub.enumKind at hk
        simp only [List.mem_cons, List.not_mem_nil, or_false]
        intro h
        rcases h with h | h | h | h <;> subst h <;> simp at hk
  | addArray u n item size count simple =>
    simp only [typeRaises] at he
    rcases plain rfl he with h | h
    · exact h
    · unfold arrayRaises at h
      split at h
      · rename_i hn
        cases h
        exact ⟨rfl, type_find hn⟩
      · split at h
        · rename_i hi
          cases h
          exact ⟨rfl, .inl ⟨u, n, size, count, simple, rfl, hi⟩⟩
        · cases h
  | addString u n len => exact (plain rfl he).elim id (fun h => by cases h)
  | addStructure u n => exact (plain rfl he).elim id (fun h => by cases h)
  | addClass u n base =>
    simp only [typeRaises] at he
    rcases plain rfl he with h | h
    · exact h
    · unfold classRaises at h
      split at h
      · cases h
      · rename_i hv
        split at h
        · rename_i hb
          cases h
          exact ⟨rfl, .inr ⟨u, n, rfl, hv, .inl hb⟩⟩
        · split at h
          · rename_i hn
            cases h
            exact ⟨rfl, type_find hn⟩
          · cases h
          · rename_i t hnc ht
            cases h
            exact ⟨rfl, .inr ⟨u, n, rfl, hv, .inr ⟨t, ht, fun b m hh => hnc b m hh⟩⟩⟩
  | addLiteral u n v =>
    simp only [typeRaises] at he
    split at he
    · rename_i k lits ht
      rw [Option.map_eq_some_iff] at he
      obtain ⟨l, hl, rfl⟩ := he
      have h1 := List.mem_of_find?_eq_some hl
      have h2 := List.find?_some hl
      refine ⟨u, n, k, lits, rfl, ht, ?_⟩
      have h3 : l.1 = v := by simpa using h2
      rw [← h3]
      exact h1
    · cases he
  | addField u f => cases he

example : typeRaises [⟨30, "Mode".toList, .enumeration .Int32 [(1, "On".toList)]⟩]
      (.addLiteral 30 "Off".toList 1) = some (.literal "On".toList 1) ∧
    typeRaises [⟨30, "Mode".toList, .enumeration .Int32 []⟩] (.addString 30 none 8) =
      some (.alreadyRegistered "<null>".toList 30 "Mode".toList) := by decide

/-- C111 is false of the kind of an enumeration of a size that is none: it is reported as the kind
`None`, which the call did not give. -/
theorem C111_enumeration_fails (R : Registry) (u : Uuid) (n : Option Str)
    (hu : ∀ e ∈ R, e.uuid ≠ u) : typeRaises R (.addEnumeration u n 3) =
      some (.primitive (shown n) .None) := by
  have hf : R.find? (fun e => e.uuid == u) = none := by
    rw [List.find?_eq_none]
    intro e he
    simpa using hu e he
  simp only [typeRaises, addTypeRaises, hf]
  cases n <;> rfl

example : typeRaises [] (.addEnumeration 40 (some "Mode".toList) 3) =
    some (.primitive "Mode".toList .None) := by decide

end Verif.Raise
