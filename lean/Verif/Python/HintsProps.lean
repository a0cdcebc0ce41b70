import Verif.Python.HintsDecls
import Verif.Python.AttrProps

/-!
C124: the type hints that are written for a simulator describe it.

The functions modelled are in `Hints.lean`. How Python reads a file of hints (`read`), and what it should
find there (`Describes`), is in `HintsSpec.lean`.
-/
namespace Verif.Python.Hints
open Verif.Path (Str Addr Node Wf get)
open Verif.Python.Class (Ifc Lawful Above Ifc.lin merge)
open Verif.Python.Attr (Sim AttrName HasMethod C122_child C122_member_fails)
open scoped List

/-! ### A simulator to try things on -/

/-- The interfaces in a list. -/
def among (l : List Ifc) : Ifc → Bool := fun i => i ∈ l

/-- A simple field `x` with a description of two lines. -/
def fieldX : Obj :=
  .mk { name := "x".toList, desc := "the \"x\"\nvalue".toList,
        inst := among [.IObject, .IPersist, .IField, .ISimpleField] } [] []

/-- A structure `s` with a member `x`. -/
def structS : Obj :=
  .mk { name := "s".toList, desc := [], inst := among [.IObject, .IPersist, .IField, .IStructureField] }
    [fieldX] []

/-- A model `A` with a little of everything. -/
def modelA : Obj :=
  .mk { name := "A".toList, desc := "a model".toList
        inst := among [.IObject, .IComponent, .IModel, .IComposite, .IAggregate, .IDynamicInvocation,
          .IEntryPointPublisher]
        references := ["r".toList], operations := ["op".toList], properties := ["p".toList],
        entryPoints := ["run".toList] }
    [structS, fieldX] [.mk "kids".toList []]

/-- A simulator with a container for models and one for services. -/
def simulator (models : List Obj) : Obj :=
  .mk { name := "sim".toList, desc := [], inst := among [.IObject, .IComposite, .ISimulator] } []
    [.mk "Models".toList models, .mk "Services".toList []]

theorem sound_of (l : List Ifc)
    (h1 : ∀ i ∈ l, ∀ b, i.base = some b → b ∈ l) (h2 : .IObject ∈ l)
    (h3 : .IComponent ∈ l → .IModel ∈ l ∨ .IService ∈ l) (h4 : .IModel ∈ l → .IService ∉ l)
    (h5 : ∀ i ∈ services, ∀ j ∈ services, i ∈ l → j ∈ l → i = j)
    (h6 : .IField ∈ l → ∃ i ∈ kinds, i ∈ l)
    (h7 : ∀ i ∈ kinds, ∀ j ∈ kinds, i ∈ l → j ∈ l → i = j) : Sound (among l) := by
  have e : ∀ i, among l i = true ↔ i ∈ l := fun i => decide_eq_true_iff
  refine ⟨⟨(e _).2 h2, fun i b hb hi => (e _).2 (h1 i ((e _).1 hi) b hb)⟩, fun h => ?_, fun h => ?_,
    fun i hi j hj hi' hj' => h5 i hi j hj ((e _).1 hi') ((e _).1 hj'), fun h => ?_,
    fun i hi j hj hi' hj' => h7 i hi j hj ((e _).1 hi') ((e _).1 hj')⟩
  · rcases h3 ((e _).1 h) with h | h
    · exact .inl ((e _).2 h)
    · exact .inr ((e _).2 h)
  · exact decide_eq_false (h4 ((e _).1 h))
  · obtain ⟨i, hi, h⟩ := h6 ((e _).1 h)
    exact ⟨i, hi, (e _).2 h⟩

theorem deep_of {o : Obj} (hs : Sound o.head.inst)
    (hp : o.head.inst .IComponent = true → o.head.published = true) (hn : ∀ n, Names o n → PyName n)
    (hi : ∀ p, p ∈ o.fields ∨ p ∈ o.containers.flatMap Box.components →
      Deep p ∧ p.head.inst .ISimulator = false ∧ PyName p.head.name ∧ PyText p.head.desc) : Deep o := by
  have hh : ∀ p, Has o p → p ∈ o.fields ∨ p ∈ o.containers.flatMap Box.components := by
    intro p h
    cases h with
    | field _ h => exact .inl h
    | component _ hb hc => exact .inr (List.mem_flatMap.2 ⟨_, hb, hc⟩)
  intro q hq
  cases hq with
  | self => exact ⟨hs, hp, hn, fun p h => (hi p (hh p h)).2⟩
  | step h hq => exact (hi _ (hh _ h)).1 q hq

theorem pyName_of (n : Str) (c : Char) (w : Str) (e : n = c :: w) (hc : c.isAlpha = true)
    (hw : ∀ x ∈ w, x.isAlpha = true ∨ x.isDigit = true ∨ x = '_')
    (hk : keywords.all (fun k => k.toList != n) = true) (hm : n ≠ "ecss_smp".toList) : PyName n := by
  refine ⟨⟨c, w, e, hc, hw⟩, fun k hk' h => ?_, hm⟩
  have := List.all_eq_true.1 hk k hk'
  rw [h] at this
  simp at this

theorem pyText_of (s : Str) (h : ∀ c ∈ s, c ≠ '\\' ∧ c ≠ '\r' ∧ c ≠ '\x00')
    (hl : s.getLast? ≠ some '"') (hn : ∀ i < s.length, ¬ "\"\"\"".toList <+: s.drop i) : PyText s := by
  refine ⟨h, hl, ?_⟩
  rintro ⟨u, v, e⟩
  refine hn u.length ?_ ?_
  · rw [e]; simp [show "\"\"\"".toList = ['"', '"', '"'] by decide +kernel]
  · rw [e, List.append_assoc, List.drop_left]
    exact ⟨v, rfl⟩

theorem name_x : PyName "x".toList :=
  pyName_of _ 'x' [] (by decide +kernel) (by decide) (by decide) (by decide +kernel) (by decide +kernel)

theorem fieldX_deep : Deep fieldX :=
  deep_of (sound_of _ (by decide) (by decide) (by decide) (by decide) (by decide) (by decide) (by decide))
    (fun h => by cases h)
    (fun n h => by simp [Names, fieldX, Obj.head, Obj.containers] at h)
    (fun p h => by simp [fieldX, Obj.fields, Obj.containers] at h)

theorem fieldX_text : PyText fieldX.head.desc :=
  pyText_of _ (by decide +kernel) (by decide +kernel) (by decide +kernel)

theorem text_nil : PyText [] := pyText_of _ (by decide) (by decide) (by decide)

theorem structS_deep : Deep structS :=
  deep_of (sound_of _ (by decide) (by decide) (by decide) (by decide) (by decide) (by decide) (by decide))
    (fun h => by cases h)
    (fun n h => by simp [Names, structS, Obj.head, Obj.containers] at h)
    (fun p h => by
      have : p = fieldX := by simpa [structS, Obj.fields, Obj.containers] using h
      subst this
      exact ⟨fieldX_deep, rfl, name_x, fieldX_text⟩)

theorem modelA_deep : Deep modelA := by
  refine deep_of (sound_of _ (by decide) (by decide) (by decide) (by decide) (by decide) (by decide)
    (by decide)) (fun _ => rfl) ?_ ?_
  · intro n h
    have : n = "r".toList ∨ n = "op".toList ∨ n = "p".toList ∨ n = "run".toList ∨ n = "kids".toList := by
      simpa [Names, modelA, Obj.head, Obj.containers, Box.name] using h
    rcases this with rfl | rfl | rfl | rfl | rfl
    · exact pyName_of _ 'r' [] (by decide +kernel) (by decide) (by decide) (by decide +kernel)
        (by decide +kernel)
    · exact pyName_of _ 'o' ['p'] (by decide +kernel) (by decide) (by decide) (by decide +kernel)
        (by decide +kernel)
    · exact pyName_of _ 'p' [] (by decide +kernel) (by decide) (by decide) (by decide +kernel)
        (by decide +kernel)
    · exact pyName_of _ 'r' ['u', 'n'] (by decide +kernel) (by decide) (by decide) (by decide +kernel)
        (by decide +kernel)
    · exact pyName_of _ 'k' ['i', 'd', 's'] (by decide +kernel) (by decide) (by decide) (by decide +kernel)
        (by decide +kernel)
  · intro p h
    have : p = structS ∨ p = fieldX := by
      simpa [modelA, Obj.fields, Obj.containers, Box.components] using h
    rcases this with rfl | rfl
    · exact ⟨structS_deep, rfl, pyName_of _ 's' [] (by decide +kernel) (by decide) (by decide)
        (by decide +kernel) (by decide +kernel), text_nil⟩
    · exact ⟨fieldX_deep, rfl, name_x, fieldX_text⟩

theorem simulator_deep : Deep (simulator [modelA]) := by
  refine deep_of (sound_of _ (by decide) (by decide) (by decide) (by decide) (by decide) (by decide)
    (by decide)) (fun h => by cases h) ?_ ?_
  · intro n h
    have : n = "Models".toList ∨ n = "Services".toList := by
      simpa [Names, simulator, Obj.head, Obj.containers, Box.name] using h
    rcases this with rfl | rfl
    · exact pyName_of _ 'M' "odels".toList (by decide +kernel) (by decide) (by decide +kernel)
        (by decide +kernel) (by decide +kernel)
    · exact pyName_of _ 'S' "ervices".toList (by decide +kernel) (by decide) (by decide +kernel)
        (by decide +kernel) (by decide +kernel)
  · intro p h
    have : p = modelA := by
      simpa [simulator, Obj.fields, Obj.containers, Box.components] using h
    subst this
    exact ⟨modelA_deep, rfl, pyName_of _ 'A' [] (by decide +kernel) (by decide) (by decide)
      (by decide +kernel) (by decide +kernel),
      pyText_of _ (by decide +kernel) (by decide +kernel) (by decide +kernel)⟩

/-! ### The file can be read and describes the simulator -/

/-- **C124.** The hints of a simulator whose names, descriptions and interfaces are fit for it are written,
Python can read them, and what it reads describes the simulator: every class has interfaces of its object
as bases, and all of them that hints show; its attributes are those of the object, no more and no less,
down to the members of structures.

Missing from the full statement: components that have not been published, see `C124_defined`; names that
are keywords and descriptions that cannot stand between triple quotes, see `C124_keyword_fails` and
`C124_quote_fails`; `IFallibleModel`, see `C124_fallible_fails`. -/
theorem C124_read_partial (o : Obj) (hs : o.head.inst .ISimulator = true) (hd : Deep o) :
    ∃ file ty, hints o = some file ∧ read file = some ty ∧ Describes ty o := by
  obtain ⟨t, h1, h2⟩ := read_hints o hd hs
  exact ⟨t, _, h1, h2, describes o hd⟩

/-- The example meets the hypotheses; what is read declares `A` and, in it, `s` with a member `x`. -/
example : (simulator [modelA]).head.inst .ISimulator = true ∧ Deep (simulator [modelA]) ∧
    Has (simulator [modelA]) modelA ∧ Has modelA structS ∧ Has structS fieldX ∧
    Simple modelA "_kids".toList .IContainer :=
  ⟨rfl, simulator_deep,
    .component (b := .mk "Models".toList [modelA]) rfl (.head _) (.head _),
    .field (.inl rfl) (.head _), .field (.inr rfl) (.head _),
    .inr (.inl ⟨rfl, rfl, .mk "kids".toList [], .head _, by decide +kernel⟩)⟩

/-! ### Whether a file is written -/

theorem componentBody_some {ind : Str} {h : Head} (hp : h.published = true) :
    ∃ t, componentBody ind h = some t := by
  unfold componentBody
  rw [hp]
  cases h.inst .IDynamicInvocation <;> exact ⟨_, rfl⟩

theorem bind_none {α β : Type} {x : Option α} {f : α → Option β} {P : Prop} {Q : Prop}
    (h1 : x = none ↔ P) (h2 : ∀ a, x = some a → (f a = none ↔ Q)) : (x >>= f) = none ↔ P ∨ Q := by
  cases x with
  | none => simp [← h1]
  | some a =>
    have hP : ¬ P := fun h => nomatch h1.2 h
    rw [Option.bind_eq_bind, Option.bind_some, h2 a rfl]
    exact ⟨.inr, fun h => h.resolve_left hP⟩

theorem ite_none {α : Type} {b : Bool} {x : Option α} {d : α} {P : Prop} (h : b = true → (x = none ↔ P)) :
    (if b then x else some d) = none ↔ b = true ∧ P := by
  cases b
  · simp
  · simpa using h rfl

mutual
theorem generate_none : ∀ (o : Obj) (ind : Str), (∀ p, Inside o p → Sound p.head.inst) →
    (generate ind o = none ↔
      ∃ p, Inside o p ∧ p.head.inst .IComponent = true ∧ p.head.published = false)
  | .mk h fs cs, ind, hs => by
    have hn : nested h.inst = h.inst .IStructureField := nested_iff (hs _ .self)
    have ihf : (h.inst .IComponent = true ∨ h.inst .IStructureField = true) → ∀ ind,
        (generateAll ind fs = none ↔
          ∃ f ∈ fs, ∃ p, Inside f p ∧ p.head.inst .IComponent = true ∧ p.head.published = false) :=
      fun hh ind => generateAll_none fs ind fun f hf p hp => hs p (.step (.field hh hf) hp)
    have ihc : h.inst .IComposite = true → ∀ ind, (generateBoxes ind cs = none ↔
        ∃ b ∈ cs, ∃ f ∈ b.components, ∃ p, Inside f p ∧ p.head.inst .IComponent = true ∧
          p.head.published = false) :=
      fun hh ind => generateBoxes_none cs ind fun b hb f hf p hp => hs p (.step (.component hh hb hf) hp)
    have key : (∃ p, Inside (.mk h fs cs) p ∧ p.head.inst .IComponent = true ∧ p.head.published = false) ↔
        (h.inst .IComponent = true ∧ h.published = false) ∨
        ((h.inst .IComponent = true ∨ h.inst .IStructureField = true) ∧
          ∃ f ∈ fs, ∃ p, Inside f p ∧ p.head.inst .IComponent = true ∧ p.head.published = false) ∨
        (h.inst .IComposite = true ∧ ∃ b ∈ cs, ∃ f ∈ b.components, ∃ p, Inside f p ∧
          p.head.inst .IComponent = true ∧ p.head.published = false) := by
      constructor
      · rintro ⟨p, hp, h1, h2⟩
        cases hp with
        | self => exact .inl ⟨h1, h2⟩
        | step hh hp =>
          cases hh with
          | field hh hf => exact .inr (.inl ⟨hh, _, hf, p, hp, h1, h2⟩)
          | component hh hb hc => exact .inr (.inr ⟨hh, _, hb, _, hc, p, hp, h1, h2⟩)
      · rintro (⟨h1, h2⟩ | ⟨hh, f, hf, p, hp, h1, h2⟩ | ⟨hh, b, hb, c, hc, p, hp, h1, h2⟩)
        · exact ⟨_, .self, h1, h2⟩
        · exact ⟨p, .step (.field hh hf) hp, h1, h2⟩
        · exact ⟨p, .step (.component hh hb hc) hp, h1, h2⟩
    rw [key, generate, hn]
    cases hP : h.published with
    | false =>
      by_cases hC : h.inst .IComponent = true
      · refine ⟨fun _ => .inl ⟨hC, rfl⟩, fun _ => ?_⟩
        cases componentBody (ind ++ INDENT) h <;> simp [hC]
      · have hC' : h.inst .IComponent = false := by simpa using hC
        simp only [hC', Bool.false_eq_true, if_false, false_and, false_or, Option.bind_eq_bind,
          Option.bind_some]
        rw [or_comm]
        exact bind_none (ite_none fun hh => ihc hh _) fun _ _ => by
          rw [← Option.bind_eq_bind, bind_none (ite_none fun hh => ihf (.inr hh) _)
            (Q := False) (fun _ _ => by simp), or_false]
    | true =>
      obtain ⟨t, ht⟩ := componentBody_some (ind := ind ++ INDENT) hP
      simp only [ht, if_true, Bool.true_eq_false, and_false, false_or]
      have e1 : (if h.inst .IComponent = true then some t else some []) =
          some (if h.inst .IComponent = true then t else []) := by
        cases h.inst .IComponent <;> rfl
      rw [e1, Option.bind_eq_bind, Option.bind_some, ← Option.bind_eq_bind,
        bind_none (ite_none fun hh => ihf (.inl hh) _) fun _ _ =>
          bind_none (ite_none fun hh => ihc hh _) fun _ _ =>
            bind_none (ite_none fun hh => ihf (.inr hh) _) (Q := False) fun _ _ => by simp]
      constructor
      · rintro (⟨a, b⟩ | ⟨a, b⟩ | ⟨a, b⟩ | h)
        · exact .inl ⟨.inl a, b⟩
        · exact .inr ⟨a, b⟩
        · exact .inl ⟨.inr a, b⟩
        · cases h
      · rintro (⟨a | a, b⟩ | ⟨a, b⟩)
        · exact .inl ⟨a, b⟩
        · exact .inr (.inr (.inl ⟨a, b⟩))
        · exact .inr (.inl ⟨a, b⟩)
theorem generateAll_none : ∀ (l : List Obj) (ind : Str),
    (∀ o ∈ l, ∀ p, Inside o p → Sound p.head.inst) →
    (generateAll ind l = none ↔
      ∃ o ∈ l, ∃ p, Inside o p ∧ p.head.inst .IComponent = true ∧ p.head.published = false)
  | [], ind, _ => by rw [generateAll]; simp
  | o :: l, ind, hs => by
    have h1 := generate_none o ind (hs o (by simp))
    have h2 := generateAll_none l ind fun p hp => hs p (by simp [hp])
    rw [generateAll]
    simp only [List.mem_cons, exists_eq_or_imp]
    rw [← h1, ← h2]
    cases generate ind o <;> cases generateAll ind l <;> simp
theorem generateBoxes_none : ∀ (l : List Box) (ind : Str),
    (∀ b ∈ l, ∀ o ∈ b.components, ∀ p, Inside o p → Sound p.head.inst) →
    (generateBoxes ind l = none ↔
      ∃ b ∈ l, ∃ o ∈ b.components, ∃ p, Inside o p ∧ p.head.inst .IComponent = true ∧
        p.head.published = false)
  | [], ind, _ => by rw [generateBoxes]; simp
  | .mk n l :: bs, ind, hs => by
    have h1 := generateAll_none l ind (hs (.mk n l) (by simp))
    have h2 := generateBoxes_none bs ind fun b hb => hs b (by simp [hb])
    rw [generateBoxes]
    simp only [List.mem_cons, exists_eq_or_imp, Box.components]
    rw [← h1]
    simp only [Box.components] at h2
    rw [← h2]
    cases generateAll ind l <;> cases generateBoxes ind bs <;> simp
end

/-- **C124.** A file is written exactly if every component of the simulator has been published; otherwise
a null pointer is dereferenced. -/
theorem C124_defined (o : Obj) (hs : ∀ p, Inside o p → Sound p.head.inst) :
    (∃ file, hints o = some file) ↔
      ∀ p, Inside o p → p.head.inst .IComponent = true → p.head.published = true := by
  have h := generate_none o [] hs
  have e : hints o = none ↔ generate [] o = none := by
    unfold hints
    cases generate [] o <;> simp
  constructor
  · rintro ⟨t, ht⟩ p hp hc
    cases hb : p.head.published with
    | true => rfl
    | false =>
      rw [e.2 (h.2 ⟨p, hp, hc, hb⟩)] at ht
      cases ht
  · intro hall
    cases ht : hints o with
    | some t => exact ⟨t, rfl⟩
    | none =>
      obtain ⟨p, hp, hc, hb⟩ := h.1 (e.1 ht)
      rw [hall p hp hc] at hb
      cases hb

/-- **C124 fails** for a simulator with a model that has been added and not yet been published: writing
hints dereferences a null pointer. -/
theorem C124_unpublished_fails : ∃ m : Obj,
    (∀ p, Inside (simulator [m]) p → Sound p.head.inst) ∧ hints (simulator [m]) = none := by
  let m : Obj := .mk { name := "A".toList, desc := [], inst := modelA.head.inst, published := false } [] []
  have hm : Sound m.head.inst := modelA_deep.here.sound
  refine ⟨m, ?_, by decide +kernel⟩
  intro p hp
  cases hp with
  | self => exact simulator_deep.here.sound
  | step h hp =>
    have : ∀ {q}, Has (simulator [m]) q → q = m := by
      intro q hq
      cases hq with
      | field _ h => simp [simulator, Obj.fields] at h
      | component _ hb hc =>
        simp only [simulator, Obj.containers, List.mem_cons, List.not_mem_nil, or_false] at hb
        rcases hb with rfl | rfl
        · simpa [Box.components] using hc
        · simp [Box.components] at hc
    rw [this h] at hp
    cases hp with
    | self => exact hm
    | step h _ =>
      cases h with
      | field _ h => exact nomatch h
      | component _ h _ => exact nomatch h

/-! ### The file can be executed -/

/-- An order in which all interfaces of a class of hints can be searched. -/
def order : List Ifc :=
  [.IModel, .IEventManager, .ILinkRegistry, .ILogger, .IResolver, .IScheduler, .ITimeKeeper, .IService,
   .IAggregate, .IDynamicInvocation, .IEventConsumer, .IEventProvider, .ILinkingComponent, .IComponent,
   .ISimulator, .IComposite, .IEntryPointPublisher, .IForcibleField, .ISimpleField, .IArrayField,
   .ISimpleArrayField, .IStructureField, .IDataflowField, .IField, .IFailure, .IPersist, .IObject]

theorem ite_sub {b : Bool} {l m p : List Ifc} (h1 : l <+ p) (h2 : m <+ p) : (if b then l else m) <+ p := by
  cases b
  · exact h2
  · exact h1

theorem bases_order (inst : Ifc → Bool) : bases inst <+ order := by
  have e : order =
      ((([.IModel, .IEventManager, .ILinkRegistry, .ILogger, .IResolver, .IScheduler, .ITimeKeeper,
          .IService] ++ [.IAggregate] ++ [.IDynamicInvocation] ++ [.IEventConsumer] ++ [.IEventProvider] ++
          [.ILinkingComponent, .IComponent]) ++ [.ISimulator, .IComposite]) ++
        [.IEntryPointPublisher]) ++
        ([.IForcibleField, .ISimpleField, .IArrayField, .ISimpleArrayField, .IStructureField] ++
          [.IDataflowField, .IField] ++ [.IFailure, .IPersist, .IObject]) := rfl
  rw [e]
  unfold bases
  refine .append (.append (.append (ite_sub ?_ (List.nil_sublist _)) (ite_sub (ite_sub (by decide) (by decide))
    (List.nil_sublist _))) (ite_sub (by decide) (List.nil_sublist _))) (ite_sub ?_ (List.nil_sublist _))
  · unfold componentBases kindBases
    refine .append (.append (.append (.append (.append ?_ (ite_sub (by decide) (List.nil_sublist _)))
      (ite_sub (by decide) (List.nil_sublist _))) (ite_sub (by decide) (List.nil_sublist _)))
      (ite_sub (by decide) (List.nil_sublist _))) (ite_sub (by decide) (List.nil_sublist _))
    repeat' first
      | exact List.nil_sublist _
      | refine ite_sub ?_ ?_
      | decide
  · unfold persistBases
    refine ite_sub (.append (.append ?_ (ite_sub (by decide) (List.nil_sublist _)))
      (ite_sub (by decide) (List.nil_sublist _))) (ite_sub (by decide) (by decide))
    repeat' first
      | exact List.nil_sublist _
      | refine ite_sub ?_ ?_
      | decide

theorem part_bases {o : Obj} (hd : Deep o) {t u : Ty} (ht : t = .cls (bases o.head.inst) (members o))
    (hp : Part t u) : ∀ b m, u = .cls b m → ∃ inst, b = bases inst := by
  induction hp generalizing o with
  | self =>
    rintro b m rfl
    cases ht
    exact ⟨_, rfl⟩
  | @step t d u hm hp ih =>
    subst ht
    rcases (mem_members hd.here.sound).1 hm with ⟨n, i, _, rfl⟩ | ⟨_, _, n, _, rfl⟩ | ⟨p, hq, rfl⟩
    · rintro b m rfl
      cases hp with
      | step h _ => exact nomatch h
    · rintro b m rfl
      cases hp with
      | step h _ => exact nomatch h
    · exact ih (hd.has hq) rfl

/-- **C124.** Python can execute the class statements: the bases of every class that is read have a
consistent order of search, and it contains just the bases and what they inherit. -/
theorem C124_classes (o : Obj) (hs : o.head.inst .ISimulator = true) (hd : Deep o) :
    ∃ file ty, hints o = some file ∧ read file = some ty ∧ ∀ b m, Part ty (.cls b m) →
      ∃ mro, merge ((b.map Ifc.lin ++ [b]).map List.length).sum (b.map Ifc.lin ++ [b]) = some mro ∧
        mro.Nodup ∧ (∀ i, i ∈ mro ↔ ∃ c ∈ b, i ∈ c.lin) ∧ b <+ mro := by
  obtain ⟨t, h1, h2⟩ := read_hints o hd hs
  refine ⟨t, _, h1, h2, fun b m hp => ?_⟩
  obtain ⟨inst, rfl⟩ := part_bases hd rfl hp b m rfl
  have hl : ∀ i ∈ order, i.lin <+ order := by decide
  have hsub : ∀ l ∈ (bases inst).map Ifc.lin ++ [bases inst], l <+ order := by
    intro l hl'
    rcases List.mem_append.1 hl' with h | h
    · obtain ⟨c, hc, rfl⟩ := List.mem_map.1 h
      exact hl c ((bases_order inst).mem hc)
    · rw [List.mem_singleton.1 h]; exact bases_order inst
  obtain ⟨out, ho, hnd, hm, hsb⟩ := Class.merge_ok _ _ _ (Class.sorted_of_sublist (by decide) hsub)
    (Nat.le_refl _)
  refine ⟨out, ho, hnd, fun x => ?_, hsb _ (List.mem_append_right _ (by simp))⟩
  rw [hm]
  constructor
  · rintro ⟨l, hl', hx⟩
    rcases List.mem_append.1 hl' with h | h
    · obtain ⟨c, hc, rfl⟩ := List.mem_map.1 h
      exact ⟨c, hc, hx⟩
    · rw [List.mem_singleton.1 h] at hx
      exact ⟨x, hx, Class.lin_self x⟩
  · rintro ⟨c, hc, hx⟩
    exact ⟨_, List.mem_append_left _ (List.mem_map_of_mem hc), hx⟩

/-- The class of `A` in the example has five bases. -/
example : bases modelA.head.inst =
    [.IModel, .IAggregate, .IDynamicInvocation, .IComposite, .IEntryPointPublisher] := by decide

/-! ### What is declared exists -/

theorem pyName_attr {n : Str} (h : PyName n) : AttrName n ∧ AttrName ('_' :: n) := by
  have hw := ident_words (pyName_ident h)
  have ok : ∀ c ∈ n, c ≠ '.' ∧ c ≠ '/' ∧ c ≠ '[' := by
    intro c hc
    have := hw c hc
    refine ⟨?_, ?_, ?_⟩ <;> (rintro rfl; revert this; decide)
  refine ⟨⟨?_, ok⟩, ⟨by simp, ?_⟩⟩
  · obtain ⟨⟨c, w, rfl, _⟩, _⟩ := h
    simp
  · intro c hc
    rcases List.mem_cons.1 hc with rfl | hc
    · decide
    · exact ok c hc

theorem getAttr_under (S : Sim) (a : Addr) (hl : Lawful (S.inst a)) (k c : Node) (j : Nat)
    (hk : get S.tree a = some k) (hc : k.children[j]? = some c)
    (hkc : c.kind = .container ∨ c.kind = .reference)
    (hu : ∀ j' d, k.children[j']? = some d → d.kind = .container ∨ d.kind = .reference →
      d.name = c.name → j' = j)
    (hn : AttrName ('_' :: c.name)) (hm : ¬ HasMethod S a ('_' :: c.name)) :
    S.getAttr a ('_' :: c.name) = .object (j :: a) := by
  have hj : Verif.Path.underChild k ('_' :: c.name) = some j := by
    have e : Verif.Path.underChild k ('_' :: c.name) =
        match Verif.Path.child k (· == .container) c.name with
        | some i => some i
        | none => Verif.Path.child k (· == .reference) c.name := by
      simp only [Verif.Path.underChild]
      cases Verif.Path.child k (· == .container) c.name <;> rfl
    rw [e]
    cases h1 : Verif.Path.child k (· == .container) c.name with
    | some i =>
      obtain ⟨d, hd, hkd, hnd⟩ := Verif.Path.child_some h1
      rw [hu i d hd (.inl (by simpa using hkd)) hnd]
    | none =>
      cases h2 : Verif.Path.child k (· == .reference) c.name with
      | some i =>
        obtain ⟨d, hd, hkd, hnd⟩ := Verif.Path.child_some h2
        rw [hu i d hd (.inr (by simpa using hkd)) hnd]
      | none =>
        rcases hkc with h | h
        · exact absurd rfl (Verif.Path.child_none h1 hc (by rw [h]; rfl))
        · exact absurd rfl (Verif.Path.child_none h2 hc (by rw [h]; rfl))
  unfold Sim.getAttr
  rw [if_neg (by rw [Attr.hides_false S a hl _ hm]; decide), Attr.Resolve_name hn]
  unfold Verif.Path.cands
  rw [if_neg hn.ne_dots, hk]
  dsimp only
  rw [hj]
  rfl

/-- **C124.** What the hints declare exists: if they declare `simulator.n₁.n₂…`, then in Python this is an
object that implements the interfaces of the declared type, provided that no declared attribute has the
name of a method and no two containers or references of an object have the same name.

Missing from the full statement: the members of structures, see `C124_member_fails`, and names of methods,
see `C122_hidden_fails`. -/
theorem C124_attributes_partial (S : Sim) (hT : Wf S.tree)
    (hm : ∀ a p d, Shows S a p → Member p d → ¬ HasMethod S a d.name)
    (hu : ∀ a k, get S.tree a = some k → ∀ (j j' : Nat) (c d : Node), k.children[j]? = some c → k.children[j']? = some d →
      c.kind = .container ∨ c.kind = .reference → d.kind = .container ∨ d.kind = .reference →
      d.name = c.name → j' = j)
    (o : Obj) (hs : o.head.inst .ISimulator = true) (hd : Deep o) (ho : Shows S [] o) :
    ∃ file ty, hints o = some file ∧ read file = some ty ∧ ∀ names t, Along ty names t →
      ∃ b, Chain S [] names b ∧ ∀ i ∈ t.promises, S.inst b i = true := by
  obtain ⟨file, ty, h1, h2, h3⟩ := C124_read_partial o hs hd
  refine ⟨file, ty, h1, h2, ?_⟩
  suffices gen : ∀ a o, Deep o → Shows S a o → ∀ t, Describes t o → ∀ names u, Along t names u →
      ∃ b, Chain S a names b ∧ ∀ i ∈ u.promises, S.inst b i = true from
    fun names t ha => gen [] o hd ho ty h3 names t ha
  clear h1 h2 h3 ho hd hs
  intro a o hd ho t ht names u hal
  induction hal generalizing a o with
  | @nil t =>
    refine ⟨a, .nil, ?_⟩
    cases ht with
    | mk sub hb _ _ _ _ _ _ =>
      cases ho with
      | mk _ _ _ hi _ _ _ _ =>
        intro i hp
        rw [hi]
        exact hb i hp
  | @cons t d l u hf hdm hal ih =>
    have hsound := hd.here.sound
    have hlaw : Lawful (S.inst a) := by
      cases ho with
      | mk _ _ _ hi _ _ _ _ => rw [hi]; exact hsound.lawful
    have hme : Member o d := by
      cases ht with
      | mk sub _ _ h _ _ _ _ => exact h d hdm
    have hmeth := hm a o d ho hme
    have hnf : o.head.inst .IField = false := by
      cases e : o.head.inst .IField with
      | false => rfl
      | true =>
        cases ht with
        | mk sub _ h _ _ _ _ _ => exact absurd (h .IField (by decide) e) hf
    cases ho with
    | @mk _ _ k index hk hkf hi hsimp hop hhas hsub =>
      rw [hnf] at hkf
      have last : ∀ {x : Ty} {b : Addr}, x.members = [] → (∀ i ∈ x.promises, S.inst b i = true) →
          Along x l u → S.getAttr a d.name = .object b →
          ∃ b, Chain S a (d.name :: l) b ∧ ∀ i ∈ u.promises, S.inst b i = true := by
        intro x b hx hpr hxa hg
        cases hxa with
        | nil => exact ⟨b, .cons hg .nil, hpr⟩
        | cons _ h _ => rw [hx] at h; cases h
      cases hme with
      | @simple _ n i hsm =>
        obtain ⟨j, c, hc, hic, hcase⟩ := hsimp n i hsm
        have hpr : ∀ i' ∈ (Ty.ifc i).promises, S.inst (j :: a) i' = true := by
          intro i' hi'
          rw [List.mem_singleton.1 hi']; exact hic
        have hnm : PyName n ∨ ∃ m, n = '_' :: m ∧ PyName m := by
          have nm := hd.here.names
          rcases hsm with ⟨_, ⟨_, _, m, hmm, rfl⟩ | ⟨_, _, h⟩ | ⟨_, _, h⟩ | ⟨_, _, h⟩⟩ | ⟨_, _, b, hb, rfl⟩ |
            ⟨_, _, h⟩
          · exact .inr ⟨m, rfl, nm m (.inl hmm)⟩
          · exact .inl (nm n (.inr (.inr (.inl h))))
          · exact .inl (nm n (.inr (.inr (.inr (.inl h)))))
          · exact .inl (nm n (.inr (.inr (.inr (.inr (.inl h))))))
          · exact .inr ⟨b.name, rfl, nm _ (.inr (.inr (.inr (.inr (.inr (.inr ⟨b, hb, rfl⟩))))))⟩
          · exact .inl (nm n (.inr (.inr (.inr (.inr (.inr (.inl h)))))))
        have hat : AttrName n := by
          rcases hnm with h | ⟨m, rfl, h⟩
          · exact (pyName_attr h).1
          · exact (pyName_attr h).2
        rcases hcase with ⟨hnam, rfl⟩ | ⟨hcr, rfl⟩
        · exact last rfl hpr hal (C122_child S hT a hlaw k c j hk hkf hc hnam hat hmeth)
        · exact last rfl hpr hal (getAttr_under S a hlaw k c j hk hc hcr
            (fun j' d' hd' hkd hnd => hu a k hk j j' c d' hc hd' hcr hkd hnd) hat hmeth)
      | @operation _ n _ _ hn =>
        obtain ⟨j, c, hc, hic, hnam, rfl⟩ := hop n hn
        have hat := (pyName_attr (hd.here.names _ (.inr (.inl hn)))).1
        exact last (x := .fn) rfl (by
          intro i' hi'
          rw [List.mem_singleton.1 hi']; exact hic) hal
          (C122_child S hT a hlaw k c j hk hkf hc hnam hat hmeth)
      | @object _ p t' hp htp =>
        obtain ⟨c, hc, hnam, hname⟩ := hhas p hp
        have hat := (pyName_attr (hd.here.inner p hp).2.1).1
        have hg : S.getAttr a p.head.name = .object (index p :: a) := by
          have hmeth' : ¬ HasMethod S a p.head.name := hmeth
          rw [hname] at hat hmeth' ⊢
          exact C122_child S hT a hlaw k c (index p) hk hkf hc hnam hat hmeth'
        obtain ⟨b, hb, hpr⟩ := ih (index p :: a) p (hd.has hp) (hsub p hp) htp
        exact ⟨b, .cons hg hb, hpr⟩

/-- The objects of the example as a simulator keeps them. -/
def running : Sim where
  tree := .mk .simulator "sim".toList
    [.mk .container "Models".toList [], .mk .container "Services".toList [],
     .mk .component "A".toList
      [.mk .reference "r".toList [], .mk .operation "op".toList [], .mk .property "p".toList [],
       .mk .entryPoint "run".toList [], .mk .structField "s".toList [.mk .simpleField "x".toList []],
       .mk .simpleField "x".toList [], .mk .container "kids".toList []]]
  refs := Verif.Path.noRefs
  inst
    | [] => (simulator []).head.inst
    | [2] => modelA.head.inst
    | [4, 2] => structS.head.inst
    | [0, 4, 2] | [5, 2] => fieldX.head.inst
    | [0, 2] => among [.IObject, .IReference]
    | [1, 2] => among [.IObject, .IOperation]
    | [2, 2] => among [.IObject, .IProperty]
    | [3, 2] => among [.IObject, .IEntryPoint]
    | _ => among [.IObject, .IContainer]
  val := fun _ => none

mutual
/-- A check on every node of a tree. -/
def everyNode (P : Node → Bool) : Node → Bool
  | .mk k s l => P (.mk k s l) && everyNodes P l
/-- The same for trees. -/
def everyNodes (P : Node → Bool) : List Node → Bool
  | [] => true
  | n :: l => everyNode P n && everyNodes P l
end

theorem everyNodes_mem {P : Node → Bool} {l : List Node} (h : everyNodes P l = true) {c : Node}
    (hc : c ∈ l) : everyNode P c = true := by
  induction l with
  | nil => cases hc
  | cons x l ih =>
    simp only [everyNodes, Bool.and_eq_true] at h
    rcases List.mem_cons.mp hc with rfl | hc
    · exact h.1
    · exact ih h.2 hc

theorem everyNode_get {P : Node → Bool} {T : Node} (h : everyNode P T = true) (a : Addr) :
    ∀ n, get T a = some n → everyNode P n = true ∧ P n = true := by
  have top : ∀ n, everyNode P n = true → P n = true := by
    rintro ⟨k, s, l⟩ hn
    simp only [everyNode, Bool.and_eq_true] at hn
    exact hn.1
  induction a with
  | nil => intro n hn; cases hn; exact ⟨h, top _ h⟩
  | cons i p ih =>
    intro n hn
    obtain ⟨m, hm, hc⟩ := Verif.Path.get_parent hn
    have := (ih m hm).1
    cases m with
    | mk k s l =>
      simp only [everyNode, Bool.and_eq_true] at this
      have := everyNodes_mem this.2 (List.mem_of_getElem? hc)
      exact ⟨this, top _ this⟩

theorem running_shows : Shows running [] (simulator [modelA]) := by
  have hx : ∀ a k, get running.tree a = some k → k.kind.isField = true → running.inst a = fieldX.head.inst →
      Shows running a fieldX := by
    intro a k hk hf hi
    refine .mk (fun _ => 0) hk hf hi ?_ ?_ ?_ ?_
    · rintro n i (⟨h, _⟩ | ⟨h, _⟩ | ⟨h, _⟩) <;> cases h
    · exact fun n h => nomatch h
    · intro p h
      cases h with
      | field _ h => exact nomatch h
      | component _ h _ => exact nomatch h
    · intro p h
      cases h with
      | field _ h => exact nomatch h
      | component _ h _ => exact nomatch h
  have hs : Shows running [4, 2] structS := by
    have sub : ∀ p, Has structS p → p = fieldX := by
      intro p h
      cases h with
      | field _ h => simpa [structS, Obj.fields] using h
      | component _ h _ => exact nomatch h
    refine .mk (fun _ => 0) rfl rfl rfl ?_ ?_ ?_ ?_
    · rintro n i (⟨h, _⟩ | ⟨h, _⟩ | ⟨h, _⟩) <;> cases h
    · exact fun n h => nomatch h
    · intro p h
      cases sub p h
      exact ⟨_, rfl, rfl, rfl⟩
    · intro p h
      cases sub p h
      exact hx _ _ rfl rfl rfl
  have ha : Shows running [2] modelA := by
    have sub : ∀ p, Has modelA p → p = structS ∨ p = fieldX := by
      intro p h
      cases h with
      | field _ h => simpa [modelA, Obj.fields] using h
      | component _ hb hc =>
        simp only [modelA, Obj.containers, List.mem_singleton] at hb
        subst hb
        exact nomatch hc
    refine .mk (fun p => if p.head.name = "s".toList then 4 else 5) rfl rfl rfl ?_ ?_ ?_ ?_
    · rintro n i (⟨_, ⟨_, rfl, r, hr, rfl⟩ | ⟨_, rfl, hn⟩ | ⟨h, _⟩ | ⟨h, _⟩⟩ | ⟨_, rfl, b, hb, rfl⟩ |
        ⟨_, rfl, hn⟩)
      · rw [List.mem_singleton.1 hr]
        exact ⟨0, _, rfl, rfl, .inr ⟨.inr rfl, rfl⟩⟩
      · rw [List.mem_singleton.1 hn]
        exact ⟨2, _, rfl, rfl, .inl ⟨rfl, rfl⟩⟩
      · cases h
      · cases h
      · rw [List.mem_singleton.1 hb]
        exact ⟨6, _, rfl, rfl, .inr ⟨.inl rfl, rfl⟩⟩
      · rw [List.mem_singleton.1 hn]
        exact ⟨3, _, rfl, rfl, .inl ⟨rfl, rfl⟩⟩
    · intro n hn
      rw [List.mem_singleton.1 hn]
      exact ⟨1, _, rfl, rfl, rfl, rfl⟩
    · intro p h
      rcases sub p h with rfl | rfl
      · exact ⟨_, rfl, rfl, rfl⟩
      · exact ⟨_, rfl, rfl, rfl⟩
    · intro p h
      rcases sub p h with rfl | rfl
      · exact hs
      · exact hx [5, 2] _ rfl rfl rfl
  have sub : ∀ p, Has (simulator [modelA]) p → p = modelA := by
    intro p h
    cases h with
    | field _ h => exact nomatch h
    | component _ hb hc =>
      simp only [simulator, Obj.containers, List.mem_cons, List.not_mem_nil, or_false] at hb
      rcases hb with rfl | rfl
      · simpa [Box.components] using hc
      · exact nomatch hc
  refine .mk (fun _ => 2) rfl rfl rfl ?_ ?_ ?_ ?_
  · rintro n i (⟨h, _⟩ | ⟨_, rfl, b, hb, rfl⟩ | ⟨h, _⟩)
    · cases h
    · simp only [simulator, Obj.containers, List.mem_cons, List.not_mem_nil, or_false] at hb
      rcases hb with rfl | rfl
      · exact ⟨0, _, rfl, rfl, .inr ⟨.inl rfl, rfl⟩⟩
      · exact ⟨1, _, rfl, rfl, .inr ⟨.inl rfl, rfl⟩⟩
    · cases h
  · exact fun n h => nomatch h
  · intro p h
    cases sub p h
    exact ⟨_, rfl, rfl, rfl⟩
  · intro p h
    cases sub p h
    exact ha

/-- The example meets the hypotheses. -/
example : Wf running.tree ∧ Shows running [] (simulator [modelA]) ∧
    (∀ a p d, Shows running a p → Member p d → ¬ HasMethod running a d.name) ∧
    (∀ a k, get running.tree a = some k → ∀ (j j' : Nat) (c d : Node), k.children[j]? = some c →
      k.children[j']? = some d → c.kind = .container ∨ c.kind = .reference →
      d.kind = .container ∨ d.kind = .reference → d.name = c.name → j' = j) ∧
    Chain running [] ["A".toList, "_kids".toList] [6, 2] ∧ Chain running [] ["A".toList, "s".toList] [4, 2] := by
  refine ⟨Verif.Path.wf_of_ok rfl (by decide +kernel), running_shows, ?_, ?_,
    .cons (b := [2]) (by decide +kernel) (.cons (b := [6, 2]) (by decide +kernel) .nil),
    .cons (b := [2]) (by decide +kernel) (.cons (b := [4, 2]) (by decide +kernel) .nil)⟩
  · have ok : everyNode (fun n => n.children.all fun c => Class.table.names.all fun i =>
        (Attr.methods i).all fun m => m.toList != c.name && m.toList != '_' :: c.name) running.tree = true := by
      decide +kernel
    intro a p d hs hm
    cases hs with
    | @mk _ _ k index hk _ _ h1 h2 h3 _ =>
      have hc : ∃ (j : Nat) (c : Node), k.children[j]? = some c ∧ (d.name = c.name ∨ d.name = '_' :: c.name) := by
        cases hm with
        | @simple _ n i h =>
          obtain ⟨j, c, hc, _, ⟨_, e⟩ | ⟨_, e⟩⟩ := h1 n i h
          · exact ⟨j, c, hc, .inl e⟩
          · exact ⟨j, c, hc, .inr e⟩
        | @operation _ n _ _ h =>
          obtain ⟨j, c, hc, _, _, e⟩ := h2 n h
          exact ⟨j, c, hc, .inl e⟩
        | @object _ q t h _ =>
          obtain ⟨c, hc, _, e⟩ := h3 q h
          exact ⟨_, c, hc, .inl e⟩
      obtain ⟨j, c, hc, hn⟩ := hc
      have hall := (everyNode_get ok a k hk).2
      simp only [List.all_eq_true, Bool.and_eq_true, bne_iff_ne] at hall
      rintro ⟨i, hi, _, m, hm, e⟩
      have := hall c (List.mem_of_getElem? hc) i ((Class.listed_iff i).1 hi) m hm
      rcases hn with hn | hn
      · exact this.1 (e.trans hn)
      · exact this.2 (e.trans hn)
  · have ok : everyNode (fun n => (List.range n.children.length).all fun i =>
        (List.range n.children.length).all fun j => match n.children[i]?, n.children[j]? with
          | some c, some d => i == j || d.name != c.name ||
              !(c.kind == .container || c.kind == .reference) || !(d.kind == .container || d.kind == .reference)
          | _, _ => true) running.tree = true := by
      decide +kernel
    intro a k hk j j' c d hc hd hkc hkd hn
    have hall := (everyNode_get ok a k hk).2
    simp only [List.all_eq_true, List.mem_range] at hall
    have := hall j (List.getElem?_eq_some_iff.1 hc).1 j' (List.getElem?_eq_some_iff.1 hd).1
    rw [hc, hd] at this
    dsimp only at this
    rcases hkc with h1 | h1 <;> rcases hkd with h2 | h2 <;>
      (simp [h1, h2, hn] at this; exact this.symm)

/-- **C124 fails** for members of structures: the hints declare them, and in Python a declared member is
the structure itself. -/
theorem C124_member_fails (S : Sim) (hT : Wf S.tree) (a : Addr) (o : Obj) (hd : Deep o) (ho : Shows S a o)
    (hf : o.head.inst .IStructureField = true) (p : Obj) (hp : Has o p)
    (hm : ¬ HasMethod S a p.head.name) :
    Describes (.cls (bases o.head.inst) (members o)) o ∧
    (∃ t doc, .mk p.head.name t doc ∈ members o ∧ Describes t p) ∧
    S.getAttr a p.head.name = .object a := by
  have hfi := hd.here.sound.lawful.base .IStructureField .IField rfl hf
  refine ⟨describes o hd, ⟨_, _, (mem_members hd.here.sound).2 (.inr (.inr ⟨p, hp, rfl⟩)),
    describes p (hd.has hp)⟩, ?_⟩
  cases ho with
  | @mk _ _ k index hk hkf hi _ _ _ _ =>
    have hlaw : Lawful (S.inst a) := by rw [hi]; exact hd.here.sound.lawful
    rw [hfi] at hkf
    exact (C122_member_fails S hT a hlaw k hk hkf _ (pyName_attr (hd.here.inner p hp).2.1).1).1 hm

/-- In the example, `A.s.x` is declared and is `A.s`. -/
example : structS.head.inst .IStructureField = true ∧ Has structS fieldX ∧
    running.getAttr [4, 2] "x".toList = .object [4, 2] :=
  ⟨rfl, .field (.inr rfl) (.head _), by decide +kernel⟩

/-! ### Where the file cannot be read -/

/-- A simulator with one model that has one simple field. -/
def oneField (name desc : String) : Obj :=
  simulator [.mk { name := "A".toList, desc := [], inst := among [.IObject, .IComponent, .IModel] }
    [.mk { name := name.toList, desc := desc.toList,
           inst := among [.IObject, .IPersist, .IField, .ISimpleField] } [] []] []]

/-- **C124 fails** for names that are keywords of Python, such as `from` and `in`: names that every other
part of the code accepts. The file is written and cannot be read. -/
theorem C124_keyword_fails : (∃ file, hints (oneField "from" "") = some file ∧ read file = none) ∧
    (∃ file, hints (oneField "in" "") = some file ∧ read file = none) ∧
    (∃ file ty, hints (oneField "inside" "") = some file ∧ read file = some ty) := by
  have h : ∀ n, ((hints (oneField n "")).map fun f => (read f).isSome) = some false →
      ∃ file, hints (oneField n "") = some file ∧ read file = none := by
    intro n h
    cases e : hints (oneField n "") with
    | none => rw [e] at h; cases h
    | some t =>
      rw [e] at h
      refine ⟨t, rfl, ?_⟩
      cases e2 : read t with
      | none => rfl
      | some ty => simp [e2] at h
  refine ⟨h _ (by decide +kernel), h _ (by decide +kernel), ?_⟩
  have h2 : ((hints (oneField "inside" "")).map fun f => (read f).isSome) = some true := by decide +kernel
  cases e : hints (oneField "inside" "") with
  | none => rw [e] at h2; cases h2
  | some t =>
    rw [e] at h2
    cases e2 : read t with
    | none => simp [e2] at h2
    | some ty => exact ⟨t, ty, rfl, e2⟩

/-- **C124 fails** for descriptions that end in a quote, such as `called "x"`: the quote and the three that
follow end the text too early. The file is written and cannot be read. -/
theorem C124_quote_fails : (∃ file, hints (oneField "x" "called \"x\"") = some file ∧ read file = none) ∧
    (∃ file ty, hints (oneField "x" "called \"x\".") = some file ∧ read file = some ty) := by
  constructor
  · have h : ((hints (oneField "x" "called \"x\"")).map fun f => (read f).isSome) = some false := by
      decide +kernel
    cases e : hints (oneField "x" "called \"x\"") with
    | none => rw [e] at h; cases h
    | some t =>
      rw [e] at h
      refine ⟨t, rfl, ?_⟩
      cases e2 : read t with
      | none => rfl
      | some ty => simp [e2] at h
  · have h2 : ((hints (oneField "x" "called \"x\".")).map fun f => (read f).isSome) = some true := by
      decide +kernel
    cases e : hints (oneField "x" "called \"x\".") with
    | none => rw [e] at h2; cases h2
    | some t =>
      rw [e] at h2
      cases e2 : read t with
      | none => simp [e2] at h2
      | some ty => exact ⟨t, ty, rfl, e2⟩

/-- **C124 fails** for `IFallibleModel`: no class of hints has it as a base or inherits it, so `IsFailed` and
`GetFailure` of a model are not shown. -/
theorem C124_fallible_fails (o : Obj) (hs : o.head.inst .ISimulator = true) (hd : Deep o) :
    ∃ file ty, hints o = some file ∧ read file = some ty ∧ ∀ b m, Part ty (.cls b m) →
      ¬ ∃ c ∈ b, c = .IFallibleModel ∨ Above c .IFallibleModel := by
  obtain ⟨t, h1, h2⟩ := read_hints o hd hs
  refine ⟨t, _, h1, h2, fun b m hp => ?_⟩
  obtain ⟨inst, rfl⟩ := part_bases hd rfl hp b m rfl
  rintro ⟨c, hc, h⟩
  have hw : c ∈ written := (bases_mem hc).2
  rcases h with rfl | h
  · revert hw; decide
  · have no : ∀ {x y}, Above x y → y = .IFallibleModel → False := by
      intro x y hxy
      induction hxy with
      | @base x y e => rintro rfl; cases x <;> cases e
      | trans _ _ ih => exact ih
    exact no h rfl

end Verif.Python.Hints
