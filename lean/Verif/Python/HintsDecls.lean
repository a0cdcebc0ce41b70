import Verif.Python.HintsOutline

/-! Lemmas for `HintsProps.lean`: the meaning of what `generate` writes. -/
namespace Verif.Python.Hints
open Verif.Path (Str)
open Verif.Python.Class (Ifc Lawful Above)
open scoped List

/-! ### Bases -/

/-- The interfaces that are written. -/
def written : List Ifc :=
  [.IModel, .IEventManager, .ILinkRegistry, .ILogger, .IResolver, .IScheduler, .ITimeKeeper, .IService,
   .IAggregate, .IReference, .IDynamicInvocation, .IProperty, .IEventConsumer, .IEventSink,
   .IEventProvider, .IEventSource, .ILinkingComponent, .ISimulator, .IComposite, .IContainer,
   .IEntryPointPublisher, .IEntryPoint, .IForcibleField, .ISimpleField, .IArrayField,
   .ISimpleArrayField, .IStructureField, .IDataflowField, .IFailure, .IPersist]

theorem named_text : ∀ i ∈ written, named (text i) = some i := by decide +kernel

theorem text_head : ∀ i ∈ written, (text i).head? = some 'e' := by decide +kernel

theorem text_dotted : ∀ i ∈ written, (text i).all dotted = true := by decide +kernel

theorem bases_mem {inst : Ifc → Bool} {i : Ifc} (h : i ∈ bases inst) : inst i = true ∧ i ∈ written := by
  have app : ∀ {l m : List Ifc}, (∀ i ∈ l, inst i = true ∧ i ∈ written) →
      (∀ i ∈ m, inst i = true ∧ i ∈ written) → ∀ i ∈ l ++ m, inst i = true ∧ i ∈ written := by
    intro l m hl hm i hi
    rcases List.mem_append.1 hi with hi | hi
    · exact hl i hi
    · exact hm i hi
  have cond : ∀ {b : Bool} {l m : List Ifc}, (b = true → ∀ i ∈ l, inst i = true ∧ i ∈ written) →
      (∀ i ∈ m, inst i = true ∧ i ∈ written) →
      ∀ i ∈ (if b then l else m), inst i = true ∧ i ∈ written := by
    intro b l m hl hm
    cases b
    · exact hm
    · exact hl rfl
  have nil : ∀ i ∈ ([] : List Ifc), inst i = true ∧ i ∈ written := fun i hi => nomatch hi
  have one : ∀ j, j ∈ written → inst j = true → ∀ i ∈ [j], inst i = true ∧ i ∈ written := by
    intro j hj hi i hm
    rw [List.mem_singleton.1 hm]
    exact ⟨hi, hj⟩
  suffices hall : ∀ i ∈ bases inst, inst i = true ∧ i ∈ written from hall i h
  unfold bases componentBases kindBases persistBases
  repeat' first
    | exact nil
    | (refine one _ (by decide) ?_; assumption)
    | refine app ?_ ?_
    | refine cond (fun _ => ?_) ?_

theorem bases_shown {inst : Ifc → Bool} (hs : Sound inst) {i : Ifc} (hi : i ∈ shown) (h : inst i = true) :
    ∃ b ∈ bases inst, b = i ∨ Above b i := by
  have hb := hs.lawful.base
  have comp : ∀ {j}, j ∈ componentBases inst → inst .IComponent = true → j ∈ bases inst := by
    intro j hj hc
    simp only [bases, List.mem_append, hc, if_true]
    exact .inl (.inl (.inl hj))
  have pers : ∀ {j}, j ∈ persistBases inst → inst .IPersist = true → j ∈ bases inst := by
    intro j hj hc
    simp only [bases, List.mem_append, hc, if_true]
    exact .inr hj
  have svc : ∀ {j}, j ∈ services → inst j = true → inst .IService = true → inst .IComponent = true →
      j ∈ bases inst := by
    intro j hj hi hsv hc
    refine comp ?_ hc
    have hm : inst .IModel = false := by
      cases e : inst .IModel with
      | false => rfl
      | true => rw [hs.model e] at hsv; cases hsv
    have one : ∀ k ∈ services, k ≠ j → inst k = false := by
      intro k hk hne
      cases e : inst k with
      | false => rfl
      | true => exact absurd (hs.service k hk j hj e hi) hne
    simp only [services, List.mem_cons, List.not_mem_nil, or_false] at hj
    simp only [componentBases, kindBases, List.mem_append, hm, hsv, if_true, Bool.false_eq_true, if_false]
    refine .inl (.inl (.inl (.inl (.inl ?_))))
    rcases hj with rfl | rfl | rfl | rfl | rfl | rfl
    · simp [hi]
    · simp [hi, one .IEventManager (by decide) (by decide)]
    · simp [hi, one .IEventManager (by decide) (by decide), one .ILinkRegistry (by decide) (by decide)]
    · simp [hi, one .IEventManager (by decide) (by decide), one .ILinkRegistry (by decide) (by decide),
        one .ILogger (by decide) (by decide)]
    · simp [hi, one .IEventManager (by decide) (by decide), one .ILinkRegistry (by decide) (by decide),
        one .ILogger (by decide) (by decide), one .IResolver (by decide) (by decide)]
    · simp [hi, one .IEventManager (by decide) (by decide), one .ILinkRegistry (by decide) (by decide),
        one .ILogger (by decide) (by decide), one .IResolver (by decide) (by decide),
        one .IScheduler (by decide) (by decide)]
  have fld : ∀ {j}, j ∈ kinds → inst j = true → ∃ b ∈ bases inst, b = j ∨ Above b j := by
    intro j hj hi
    have hf : inst .IField = true := by
      simp only [kinds, List.mem_cons, List.not_mem_nil, or_false] at hj
      rcases hj with rfl | rfl | rfl | rfl <;> exact hb _ .IField rfl hi
    have hp := hb .IField .IPersist rfl hf
    have one : ∀ k ∈ kinds, k ≠ j → inst k = false := by
      intro k hk hne
      cases e : inst k with
      | false => rfl
      | true => exact absurd (hs.kind k hk j hj e hi) hne
    simp only [kinds, List.mem_cons, List.not_mem_nil, or_false] at hj
    rcases hj with rfl | rfl | rfl | rfl
    · by_cases hfo : inst .IForcibleField = true
      · exact ⟨.IForcibleField, pers (by simp [persistBases, hf, hi, hfo]) hp, .inr (.base rfl)⟩
      · exact ⟨.ISimpleField, pers (by simp [persistBases, hf, hi, hfo]) hp, .inl rfl⟩
    · exact ⟨.IArrayField, pers (by
        simp [persistBases, hf, hi, one .ISimpleField (by decide) (by decide)]) hp, .inl rfl⟩
    · exact ⟨.ISimpleArrayField, pers (by
        simp [persistBases, hf, hi, one .ISimpleField (by decide) (by decide),
          one .IArrayField (by decide) (by decide)]) hp, .inl rfl⟩
    · exact ⟨.IStructureField, pers (by
        simp [persistBases, hf, hi, one .ISimpleField (by decide) (by decide),
          one .IArrayField (by decide) (by decide), one .ISimpleArrayField (by decide) (by decide)]) hp,
        .inl rfl⟩
  have up : ∀ {j k b}, (b = j ∨ Above b j) → j.base = some k → (b = k ∨ Above b k) := by
    intro j k b hj hk
    have tr : ∀ {x y}, Above x y → ∀ z, y.base = some z → Above x z := by
      intro x y hxy
      induction hxy with
      | base e => intro z hz; exact .trans e (.base hz)
      | trans e _ ih => intro z hz; exact .trans e (ih z hz)
    rcases hj with rfl | hj
    · exact .inr (.base hk)
    · exact .inr (tr hj k hk)
  have fieldOf : inst .IField = true → ∃ b ∈ bases inst, b = .IField ∨ Above b .IField := by
    intro hf
    obtain ⟨k, hk, hik⟩ := hs.field hf
    obtain ⟨b, hbb, hbk⟩ := fld hk hik
    refine ⟨b, hbb, up hbk ?_⟩
    simp only [kinds, List.mem_cons, List.not_mem_nil, or_false] at hk
    rcases hk with rfl | rfl | rfl | rfl <;> rfl
  have serviceOf : inst .IService = true → ∃ b ∈ bases inst, b = .IService ∨ Above b .IService := by
    intro hsv
    have hc := hb .IService .IComponent rfl hsv
    by_cases hex : ∃ j ∈ services, inst j = true
    · obtain ⟨j, hj, hji⟩ := hex
      refine ⟨j, svc hj hji hsv hc, .inr (.base ?_)⟩
      simp only [services, List.mem_cons, List.not_mem_nil, or_false] at hj
      rcases hj with rfl | rfl | rfl | rfl | rfl | rfl <;> rfl
    · have hm : inst .IModel = false := by
        cases e : inst .IModel with
        | false => rfl
        | true => rw [hs.model e] at hsv; cases hsv
      have no : ∀ k ∈ services, inst k = false := by
        intro k hk
        cases e : inst k with
        | false => rfl
        | true => exact absurd ⟨k, hk, e⟩ hex
      refine ⟨.IService, comp ?_ hc, .inl rfl⟩
      simp [componentBases, kindBases, hm, hsv, no .IEventManager (by decide), no .ILinkRegistry (by decide),
        no .ILogger (by decide), no .IResolver (by decide), no .IScheduler (by decide),
        no .ITimeKeeper (by decide)]
  have modelOf : inst .IModel = true → .IModel ∈ bases inst := fun hm =>
    comp (by simp [componentBases, kindBases, hm]) (hb .IModel .IComponent rfl hm)
  simp only [shown, List.mem_cons, List.not_mem_nil, or_false] at hi
  rcases hi with rfl | rfl | rfl | rfl | rfl | rfl | rfl | rfl | rfl | rfl | rfl | rfl | rfl | rfl | rfl |
    rfl | rfl | rfl | rfl | rfl | rfl | rfl | rfl | rfl | rfl | rfl
  · rcases hs.component h with hm | hsv
    · exact ⟨_, modelOf hm, .inr (.base rfl)⟩
    · obtain ⟨b, h1, h2⟩ := serviceOf hsv
      exact ⟨b, h1, up h2 rfl⟩
  · exact ⟨_, modelOf h, .inl rfl⟩
  · exact serviceOf h
  iterate 6
    · exact ⟨_, svc (by decide) h (hb _ .IService rfl h) (hb .IService .IComponent rfl (hb _ .IService rfl h)),
        .inl rfl⟩
  iterate 5
    · exact ⟨_, comp (by simp [componentBases, h]) (hb _ .IComponent rfl h), .inl rfl⟩
  · by_cases hsim : inst .ISimulator = true
    · exact ⟨.ISimulator, by simp [bases, h, hsim], .inr (.base rfl)⟩
    · exact ⟨.IComposite, by simp [bases, h, hsim], .inl rfl⟩
  · exact ⟨.ISimulator, by simp [bases, h, hb .ISimulator .IComposite rfl h], .inl rfl⟩
  · exact ⟨.IEntryPointPublisher, by simp [bases, h], .inl rfl⟩
  · by_cases hf : inst .IField = true
    · obtain ⟨b, h1, h2⟩ := fieldOf hf
      exact ⟨b, h1, up h2 rfl⟩
    · by_cases hfa : inst .IFailure = true
      · exact ⟨.IFailure, pers (by simp [persistBases, hf, hfa]) h, .inr (.base rfl)⟩
      · exact ⟨.IPersist, pers (by simp [persistBases, hf, hfa]) h, .inl rfl⟩
  · exact fieldOf h
  · exact fld (by decide) h
  · have h1 := hb .IForcibleField .ISimpleField rfl h
    have h2 := hb .ISimpleField .IField rfl h1
    exact ⟨.IForcibleField, pers (by simp [persistBases, h, h1, h2]) (hb .IField .IPersist rfl h2), .inl rfl⟩
  · exact fld (by decide) h
  · exact fld (by decide) h
  · exact fld (by decide) h
  · have h1 := hb .IDataflowField .IField rfl h
    exact ⟨.IDataflowField, pers (by simp [persistBases, h, h1]) (hb .IField .IPersist rfl h1), .inl rfl⟩
  · refine ⟨.IFailure, pers ?_ (hb .IFailure .IPersist rfl h), .inl rfl⟩
    by_cases hf : inst .IField = true <;> simp [persistBases, hf, h]

theorem mapM_named (l : List Ifc) (h : ∀ i ∈ l, i ∈ written) : (l.map text).mapM named = some l := by
  induction l with
  | nil => rfl
  | cons i l ih =>
    rw [List.map_cons, List.mapM_cons, named_text i (h i (by simp)), ih (fun j hj => h j (by simp [hj]))]
    rfl

/-! ### Names -/

theorem pyName_ident {n : Str} (h : PyName n) : ident n = true := by
  obtain ⟨⟨c, w, rfl, hc, hw⟩, hk, _⟩ := h
  have ha : c.isAlphanum = true := by simp [Char.isAlphanum, hc]
  have hd : c.isDigit = false := by
    cases e : c.isDigit with
    | false => rfl
    | true =>
      simp only [Char.isDigit, Bool.and_eq_true, decide_eq_true_eq] at e
      simp only [Char.isAlpha, Char.isUpper, Char.isLower, Bool.or_eq_true, Bool.and_eq_true,
        decide_eq_true_eq] at hc
      have e1 : c.val ≤ 57 := e.2
      rcases hc with hc | hc
      · have h1 : (65 : UInt32) ≤ c.val := hc.1
        have : (65 : UInt32) ≤ 57 := UInt32.le_trans h1 e1
        exact absurd this (by decide)
      · have h1 : (97 : UInt32) ≤ c.val := hc.1
        have : (97 : UInt32) ≤ 57 := UInt32.le_trans h1 e1
        exact absurd this (by decide)
  simp only [ident, Bool.and_eq_true, Bool.not_eq_true', List.any_eq_false]
  refine ⟨⟨?_, ?_⟩, fun k hk' e => hk k hk' (beq_iff_eq.1 e).symm⟩
  · rw [List.all_eq_true]
    intro x hx
    rcases List.mem_cons.1 hx with rfl | hx
    · simp [word, ha]
    · rcases hw x hx with h | h | h <;> simp [word, Char.isAlphanum, h]
  · simp [hd]

theorem ident_underscore {n : Str} (h : PyName n) : ident ('_' :: n) = true := by
  have hi := pyName_ident h
  have hw := ident_words hi
  obtain ⟨⟨c, w, rfl, hc, _⟩, _⟩ := h
  simp only [ident, Bool.and_eq_true, Bool.not_eq_true', List.any_eq_false]
  refine ⟨⟨?_, rfl⟩, fun k hk e => ?_⟩
  · rw [List.all_eq_true]
    intro x hx
    rcases List.mem_cons.1 hx with rfl | hx
    · decide
    · exact hw x hx
  · have : ∀ k ∈ keywords, (k.toList.head? == some '_') = false := by decide +kernel
    have h2 := this k hk
    rw [beq_iff_eq.1 e] at h2
    simp at h2

theorem ident_class {n : Str} (h : PyName n) : ident (className n) = true := by
  have hi := pyName_ident h
  have hw := ident_words hi
  simp only [className, ident, Bool.and_eq_true, Bool.not_eq_true', List.any_eq_false]
  refine ⟨⟨?_, rfl⟩, fun k hk e => ?_⟩
  · rw [List.all_eq_true]
    intro x hx
    simp only [List.mem_cons] at hx
    rcases hx with rfl | rfl | hx
    · decide
    · decide
    · exact hw x hx
  · have : ∀ k ∈ keywords, (k.toList.head? == some '_') = false := by decide +kernel
    have h2 := this k hk
    rw [beq_iff_eq.1 e] at h2
    simp at h2

/-! ### The lines can be read back -/

theorem attr_fine {n : Str} {i : Ifc} (hn : ident n = true) (hi : i ∈ written) : (attrOut n i).Fine := by
  rw [attrOut, Out.Fine]
  exact ⟨⟨hn, List.all_eq_true.1 (text_dotted i hi)⟩, fun a b e => nomatch e⟩

theorem fine_one {o : Out} (h : o.Fine) : FineAll [o] := by
  rw [FineAll, FineAll]; exact ⟨h, trivial⟩

theorem fine_two {o : Out} (h : o.Fine) : FineAll [o, .blank] := by
  rw [FineAll, FineAll, FineAll, Out.Fine]; exact ⟨h, trivial, trivial⟩

theorem fine_ite {b : Bool} {l : List Out} (h : b = true → FineAll l) :
    FineAll (if b then l else []) := by
  cases b
  · show FineAll []
    rw [FineAll]; trivial
  · exact h rfl

theorem component_fine {o : Obj} (hl : Local o) : FineAll (componentOuts o.head) := by
  have nm := hl.names
  refine fineAll_append (fineAll_append (fineAll_append (fine_ite fun _ => ?_) (fine_ite fun _ => ?_))
    (fine_ite fun _ => ?_)) (fine_ite fun _ => ?_)
  · exact fineAll_flatMap fun n hn => fine_two (attr_fine (ident_underscore (nm n (.inl hn))) (by decide))
  · refine fineAll_append (fineAll_flatMap fun n hn => fine_one ?_) (fineAll_flatMap fun n hn => fine_one ?_)
    · rw [Out.Fine]
      exact ⟨pyName_ident (nm n (.inr (.inl hn))), fun a b e => nomatch e⟩
    · exact attr_fine (pyName_ident (nm n (.inr (.inr (.inl hn))))) (by decide)
  · exact fineAll_flatMap fun n hn =>
      fine_two (attr_fine (pyName_ident (nm n (.inr (.inr (.inr (.inl hn)))))) (by decide))
  · exact fineAll_flatMap fun n hn =>
      fine_two (attr_fine (pyName_ident (nm n (.inr (.inr (.inr (.inr (.inl hn))))))) (by decide))

/-- Lines that are not all empty. -/
def Solid (l : List Out) : Prop := l = [] ∨ stripAll l ≠ []

theorem solid_append {a b : List Out} (ha : Solid a) (hb : Solid b) : Solid (a ++ b) := by
  rcases ha with rfl | ha
  · exact hb
  · refine .inr fun e => ha ?_
    rw [stripAll_append] at e
    exact (List.append_eq_nil_iff.1 e).1

theorem solid_ite {b : Bool} {l : List Out} (h : Solid l) : Solid (if b then l else []) := by
  cases b
  · exact .inl rfl
  · exact h

theorem solid_cons (i : Item) (l : List Out) : Solid (.row i :: l) := by
  refine .inr ?_
  rw [stripAll, Out.strip]
  simp

theorem solid_flatMap {α : Type} (l : List α) (f : α → List Out) (h : ∀ a, Solid (f a)) :
    Solid (l.flatMap f) := by
  induction l with
  | nil => exact .inl rfl
  | cons a l ih => rw [List.flatMap_cons]; exact solid_append (h a) ih

theorem solid_component (h : Head) : Solid (componentOuts h) :=
  solid_append (solid_append (solid_append
    (solid_ite (solid_flatMap _ _ fun _ => solid_cons _ _))
    (solid_ite (solid_append (solid_flatMap _ _ fun _ => solid_cons _ _)
      (solid_flatMap _ _ fun _ => solid_cons _ _))))
    (solid_ite (solid_flatMap _ _ fun _ => solid_cons _ _)))
    (solid_ite (solid_flatMap _ _ fun _ => solid_cons _ _))

theorem solid_wrap (h : Head) (body : List Out) : Solid (wrapOuts h body) := by
  refine .inr ?_
  rw [wrapOuts, List.append_assoc, List.cons_append, stripAll, Out.strip]
  simp

theorem solid_all : ∀ l : List Obj, Solid (outsAll l)
  | [] => .inl (by rw [outsAll])
  | o :: l => by rw [outsAll]; exact solid_append (solid_wrap _ _) (solid_all l)

theorem solid_boxes : ∀ l : List Box, Solid (outsBoxes l)
  | [] => .inl (by rw [outsBoxes])
  | .mk n l :: bs => by
    rw [outsBoxes]
    exact solid_append (solid_append (solid_cons _ _) (solid_all l)) (solid_boxes bs)

theorem solid_members (o : Obj) : Solid (memberOuts o) := by
  cases o with
  | mk h fs cs =>
    rw [memberOuts]
    exact solid_append (solid_append (solid_append (solid_append (solid_ite (solid_component h))
      (solid_ite (solid_all fs))) (solid_ite (solid_boxes cs)))
      (solid_ite (solid_flatMap _ _ fun _ => solid_cons _ _))) (solid_ite (solid_all fs))

theorem body_strip {l : List Out} (h : Solid l) : stripAll (bodyOuts l) ≠ [] := by
  rw [bodyOuts]
  rcases h with rfl | h
  · show stripAll [.row .pass] ≠ []
    rw [stripAll, Out.strip]; simp
  · cases l with
    | nil => rw [stripAll] at h; exact absurd rfl h
    | cons o l => exact h

theorem body_fine {l : List Out} (h : FineAll l) : FineAll (bodyOuts l) := by
  rw [bodyOuts]
  cases l with
  | nil =>
    refine fine_one ?_
    rw [Out.Fine]
    exact ⟨trivial, fun a b e => nomatch e⟩
  | cons o l => exact h

theorem cls_fine {n : Str} (hn : ident n = true) (inst : Ifc → Bool) {o : Obj} (h : FineAll (memberOuts o)) :
    (Out.cls n ((bases inst).map text) (bodyOuts (memberOuts o))).Fine := by
  rw [Out.Fine]
  refine ⟨⟨hn, ?_⟩, body_strip (solid_members o), body_fine h⟩
  intro b hb
  obtain ⟨i, hi, rfl⟩ := List.mem_map.1 hb
  have hw := (bases_mem hi).2
  refine ⟨fun e => ?_, List.all_eq_true.1 (text_dotted i hw)⟩
  have := text_head i hw
  rw [e] at this
  cases this

theorem wrap_fine {o : Obj} (hn : PyName o.head.name) (hd : PyText o.head.desc)
    (h : FineAll (memberOuts o)) : FineAll (wrapOuts o.head (memberOuts o)) := by
  rw [wrapOuts]
  refine fineAll_append (fineAll_append ?_ ?_) (by rw [FineAll, FineAll, Out.Fine]; exact ⟨trivial, trivial⟩)
  · rw [FineAll, FineAll, FineAll, FineAll]
    refine ⟨cls_fine (ident_class hn) _ h, by rw [Out.Fine]; trivial, ?_, trivial⟩
    rw [Out.Fine]
    exact ⟨⟨pyName_ident hn, fun c hc => by
      have := ident_words (ident_class hn) c hc
      simp [dotted, this]⟩, fun a b e => nomatch e⟩
  · cases o.head.desc.isEmpty
    · refine fine_one ?_
      rw [Out.Fine]
      exact ⟨hd, fun a b e => nomatch e⟩
    · show FineAll []
      rw [FineAll]; trivial

mutual
theorem members_fine : ∀ o : Obj, Deep o → FineAll (memberOuts o)
  | .mk h fs cs, hd => by
    have hl := hd.here
    have hfs : (h.inst .IComponent = true ∨ nested h.inst = true) → FineAll (outsAll fs) := fun hh =>
      all_fine fs fun f hf => ⟨hd.has (has_field hh hf), (hl.inner f (has_field hh hf)).2⟩
    have hcs : h.inst .IComposite = true → FineAll (outsBoxes cs) := fun hh =>
      boxes_fine cs (fun b hb => hl.names b.name (.inr (.inr (.inr (.inr (.inr (.inr ⟨b, hb, rfl⟩)))))))
        fun b hb c hc => ⟨hd.has (.component hh hb hc), (hl.inner c (.component hh hb hc)).2⟩
    rw [memberOuts]
    refine fineAll_append (fineAll_append (fineAll_append (fineAll_append (fine_ite fun _ => component_fine hl)
      (fine_ite fun hh => hfs (.inl hh))) (fine_ite hcs)) (fine_ite fun _ => ?_)) (fine_ite fun hh => hfs (.inr hh))
    exact fineAll_flatMap fun n hn =>
      fine_one (attr_fine (pyName_ident (hl.names n (.inr (.inr (.inr (.inr (.inr (.inl hn)))))))) (by decide))
theorem all_fine : ∀ l : List Obj,
    (∀ o ∈ l, Deep o ∧ PyName o.head.name ∧ PyText o.head.desc) → FineAll (outsAll l)
  | [], _ => by rw [outsAll, FineAll]; trivial
  | o :: l, h => by
    have ho := h o (by simp)
    rw [outsAll]
    exact fineAll_append (wrap_fine ho.2.1 ho.2.2 (members_fine o ho.1))
      (all_fine l fun p hp => h p (by simp [hp]))
theorem boxes_fine : ∀ l : List Box, (∀ b ∈ l, PyName b.name) →
    (∀ b ∈ l, ∀ o ∈ b.components, Deep o ∧ PyName o.head.name ∧ PyText o.head.desc) → FineAll (outsBoxes l)
  | [], _, _ => by rw [outsBoxes, FineAll]; trivial
  | .mk n l :: bs, hn, h => by
    rw [outsBoxes]
    exact fineAll_append (fineAll_append
      (fine_two (attr_fine (ident_underscore (hn (.mk n l) (by simp))) (by decide)))
      (all_fine l fun o ho => h (.mk n l) (by simp) o ho))
      (boxes_fine bs (fun b hb => hn b (by simp [hb])) fun b hb => h b (by simp [hb]))
end

/-! ### Declarations -/

/-- The names of classes have an underscore in front. -/
def EnvOk (env : List (Str × Ty)) : Prop := ∀ p ∈ env, p.1.head? = some '_'

/-- Statements declare attributes, wherever they stand. -/
def Yields (g : List Stmt) (ds : List Decl) : Prop :=
  ∀ env rest, EnvOk env → docOf rest = none → docOf (g ++ rest) = none ∧
    ∃ env', EnvOk env' ∧ decls env (g ++ rest) = (decls env' rest).map (ds ++ ·)

theorem yields_nil : Yields [] [] := by
  intro env rest he hr
  refine ⟨hr, env, he, ?_⟩
  show decls env rest = _
  cases decls env rest <;> rfl

theorem yields_append {a b : List Stmt} {x y : List Decl} (ha : Yields a x) (hb : Yields b y) :
    Yields (a ++ b) (x ++ y) := by
  intro env rest he hr
  have hd : docOf (b ++ rest) = none := (hb env rest he hr).1
  obtain ⟨h1, env1, he1, e1⟩ := ha env (b ++ rest) he hd
  obtain ⟨_, env2, he2, e2⟩ := hb env1 rest he1 hr
  rw [List.append_assoc]
  refine ⟨h1, env2, he2, ?_⟩
  rw [e1, e2]
  cases decls env2 rest with
  | none => rfl
  | some l => simp

theorem yields_ite {b : Bool} {l : List Out} {x : List Decl} (h : b = true → Yields (stripAll l) x) :
    Yields (stripAll (if b then l else [])) (if b then x else []) := by
  cases b
  · show Yields (stripAll []) []
    rw [stripAll]; exact yields_nil
  · exact h rfl

theorem yields_flatMap {α : Type} {l : List α} {f : α → List Out} {g : α → Decl}
    (h : ∀ a ∈ l, Yields (stripAll (f a)) [g a]) : Yields (stripAll (l.flatMap f)) (l.map g) := by
  induction l with
  | nil =>
    show Yields (stripAll []) []
    rw [stripAll]; exact yields_nil
  | cons a l ih =>
    rw [List.flatMap_cons, stripAll_append, List.map_cons]
    exact yields_append (h a (by simp)) (ih fun b hb => h b (by simp [hb]))

theorem type_interface {env : List (Str × Ty)} (he : EnvOk env) {i : Ifc} (hi : i ∈ written) :
    typeNamed env (text i) = some (.ifc i) := by
  unfold typeNamed
  have : env.find? (fun p => p.1 == text i) = none := by
    rw [List.find?_eq_none]
    intro p hp e
    have h1 := he p hp
    rw [beq_iff_eq.1 e, text_head i hi] at h1
    cases h1
  rw [this]
  dsimp only
  rw [named_text i hi]
  rfl

theorem yields_attr (n : Str) {i : Ifc} (hi : i ∈ written) :
    Yields [.ann n (text i)] [.mk n (.ifc i) none] := by
  intro env rest he hr
  refine ⟨rfl, env, he, ?_⟩
  show decls env (.ann n (text i) :: rest) = _
  rw [decls, type_interface he hi, hr]
  cases decls env rest <;> rfl

theorem strip_attr (n : Str) (i : Ifc) : stripAll [attrOut n i] = [.ann n (text i)] := by
  rw [stripAll, stripAll, attrOut, Out.strip]; rfl

theorem strip_attr_blank (n : Str) (i : Ifc) : stripAll [attrOut n i, .blank] = [.ann n (text i)] := by
  rw [stripAll, stripAll, stripAll, attrOut, Out.strip, Out.strip]; rfl

theorem yields_op (n : Str) (h : PyName n) : Yields [.op n] [.mk n .fn none] := by
  intro env rest he hr
  refine ⟨rfl, env, he, ?_⟩
  show decls env (.op n :: rest) = _
  rw [decls, if_neg h.2.2]
  cases decls env rest <;> rfl

/-- The declarations of a component before its fields. -/
def componentDecls (h : Head) : List Decl :=
  (if h.inst .IAggregate then h.references.map fun n => .mk ('_' :: n) (.ifc .IReference) none else []) ++
  (if h.inst .IDynamicInvocation then
    h.operations.map (fun n => .mk n .fn none) ++ h.properties.map fun n => .mk n (.ifc .IProperty) none
   else []) ++
  (if h.inst .IEventConsumer then h.sinks.map fun n => .mk n (.ifc .IEventSink) none else []) ++
  (if h.inst .IEventProvider then h.sources.map fun n => .mk n (.ifc .IEventSource) none else [])

mutual
/-- The declarations of an object. -/
def members : Obj → List Decl
  | .mk h fields containers =>
    (if h.inst .IComponent then componentDecls h else []) ++
    (if h.inst .IComponent then declsAll fields else []) ++
    (if h.inst .IComposite then declsBoxes containers else []) ++
    (if h.inst .IEntryPointPublisher then h.entryPoints.map fun n => .mk n (.ifc .IEntryPoint) none else []) ++
    (if nested h.inst then declsAll fields else [])
/-- The declarations for objects. -/
def declsAll : List Obj → List Decl
  | [] => []
  | o :: l => .mk o.head.name (.cls (bases o.head.inst) (members o)) o.doc :: declsAll l
/-- The declarations for containers. -/
def declsBoxes : List Box → List Decl
  | [] => []
  | .mk n l :: bs => .mk ('_' :: n) (.ifc .IContainer) none :: (declsAll l ++ declsBoxes bs)
end

theorem yields_component {o : Obj} (hl : Local o) :
    Yields (stripAll (componentOuts o.head)) (componentDecls o.head) := by
  unfold componentOuts componentDecls
  rw [stripAll_append, stripAll_append, stripAll_append]
  refine yields_append (yields_append (yields_append (yields_ite fun _ => ?_) (yields_ite fun _ => ?_))
    (yields_ite fun _ => ?_)) (yields_ite fun _ => ?_)
  · exact yields_flatMap fun n _ => by rw [strip_attr_blank]; exact yields_attr _ (by decide)
  · rw [stripAll_append]
    refine yields_append (yields_flatMap fun n hn => ?_) (yields_flatMap fun n _ => ?_)
    · rw [stripAll, stripAll, Out.strip]
      exact yields_op n (hl.names n (.inr (.inl hn)))
    · rw [strip_attr]; exact yields_attr _ (by decide)
  · exact yields_flatMap fun n _ => by rw [strip_attr_blank]; exact yields_attr _ (by decide)
  · exact yields_flatMap fun n _ => by rw [strip_attr_blank]; exact yields_attr _ (by decide)

theorem yields_pass : Yields [.pass] [] := by
  intro env rest he hr
  refine ⟨rfl, env, he, ?_⟩
  show decls env (.pass :: rest) = _
  rw [decls]
  cases decls env rest <;> rfl

theorem yields_body {l : List Out} {ds : List Decl} (h : Yields (stripAll l) ds) :
    Yields (stripAll (bodyOuts l)) ds := by
  rw [bodyOuts]
  cases l with
  | nil =>
    have e : ds = [] := by
      have := h [] [] (fun p hp => nomatch hp) rfl
      obtain ⟨_, env', _, e⟩ := this
      rw [stripAll, List.append_nil, decls, decls] at e
      simpa using e
    subst e
    show Yields (stripAll [.row .pass]) []
    rw [stripAll, stripAll, Out.strip]
    exact yields_pass
  | cons o l => exact h

/-- The class of an object is read back. -/
theorem class_read (n : Str) (inst : Ifc → Bool) {body : List Out} {ds : List Decl}
    (h : Yields (stripAll body) ds) :
    classOf (.cls n ((bases inst).map text) (stripAll (bodyOuts body))) = some (.cls (bases inst) ds) := by
  obtain ⟨_, env', _, e⟩ := yields_body h [] [] (fun p hp => nomatch hp) rfl
  rw [List.append_nil] at e
  rw [classOf, mapM_named _ (fun i hi => (bases_mem hi).2), e, decls]
  show some (Ty.cls (bases inst) (ds ++ [])) = _
  rw [List.append_nil]

theorem yields_wrap (h : Head) {body : List Out} {ds : List Decl} (hy : Yields (stripAll body) ds) :
    Yields (stripAll (wrapOuts h body))
      [.mk h.name (.cls (bases h.inst) ds) (if h.desc = [] then none else some h.desc)] := by
  have e : stripAll (wrapOuts h body) =
      .cls (className h.name) ((bases h.inst).map text) (stripAll (bodyOuts body)) ::
        .ann h.name (className h.name) :: (if h.desc.isEmpty then [] else [.doc h.desc]) := by
    rw [wrapOuts, stripAll_append, stripAll_append, stripAll, stripAll, stripAll, stripAll, Out.strip,
      Out.strip, Out.strip]
    have e2 : stripAll [.blank] = [] := by rw [stripAll, stripAll, Out.strip]; rfl
    rw [e2]
    cases h.desc.isEmpty
    · show _ ++ stripAll [.row (.doc h.desc)] ++ [] = _
      rw [stripAll, stripAll, Out.strip]
      rfl
    · show _ ++ stripAll [] ++ [] = _
      rw [stripAll]
      rfl
  intro env rest he hr
  rw [e]
  refine ⟨rfl, (className h.name, .cls (bases h.inst) ds) :: env, ?_, ?_⟩
  · intro p hp
    rcases List.mem_cons.1 hp with rfl | hp
    · rfl
    · exact he p hp
  · rw [List.cons_append, decls, class_read (className h.name) h.inst hy]
    show decls ((className h.name, .cls (bases h.inst) ds) :: env) (.ann h.name (className h.name) :: _) = _
    have ht : typeNamed ((className h.name, .cls (bases h.inst) ds) :: env) (className h.name) =
        some (.cls (bases h.inst) ds) := by
      unfold typeNamed
      rw [List.find?_cons_of_pos (by simp)]
    cases hd : h.desc with
    | nil =>
      show decls _ (.ann h.name (className h.name) :: rest) = _
      rw [decls, ht, hr]
      cases decls ((className h.name, .cls (bases h.inst) ds) :: env) rest <;> rfl
    | cons c t =>
      show decls _ (.ann h.name (className h.name) :: .doc (c :: t) :: rest) = _
      rw [decls, ht, decls]
      cases decls ((className h.name, .cls (bases h.inst) ds) :: env) rest <;> rfl

mutual
theorem yields_members : ∀ o : Obj, Deep o → Yields (stripAll (memberOuts o)) (members o)
  | .mk h fs cs, hd => by
    have hl := hd.here
    have hfs : (h.inst .IComponent = true ∨ nested h.inst = true) →
        Yields (stripAll (outsAll fs)) (declsAll fs) := fun hh =>
      yields_all fs fun f hf => hd.has (has_field hh hf)
    have hcs : h.inst .IComposite = true → Yields (stripAll (outsBoxes cs)) (declsBoxes cs) := fun hh =>
      yields_boxes cs fun b hb c hc => hd.has (.component hh hb hc)
    rw [memberOuts, members, stripAll_append, stripAll_append, stripAll_append, stripAll_append]
    refine yields_append (yields_append (yields_append (yields_append
      (yields_ite fun _ => yields_component hl)
      (yields_ite fun hh => hfs (.inl hh))) (yields_ite hcs)) (yields_ite fun _ => ?_))
      (yields_ite fun hh => hfs (.inr hh))
    exact yields_flatMap fun n _ => by rw [strip_attr]; exact yields_attr _ (by decide)
theorem yields_all : ∀ l : List Obj, (∀ o ∈ l, Deep o) → Yields (stripAll (outsAll l)) (declsAll l)
  | [], _ => by rw [outsAll, declsAll, stripAll]; exact yields_nil
  | o :: l, h => by
    rw [outsAll, declsAll, stripAll_append]
    exact yields_append (yields_wrap o.head (yields_members o (h o (by simp))))
      (yields_all l fun p hp => h p (by simp [hp]))
theorem yields_boxes : ∀ l : List Box, (∀ b ∈ l, ∀ o ∈ b.components, Deep o) →
    Yields (stripAll (outsBoxes l)) (declsBoxes l)
  | [], _ => by rw [outsBoxes, declsBoxes, stripAll]; exact yields_nil
  | .mk n l :: bs, h => by
    rw [outsBoxes, declsBoxes, stripAll_append, stripAll_append, strip_attr_blank, List.append_assoc]
    exact yields_append (yields_attr _ (by decide)) (yields_append
      (yields_all l fun o ho => h (.mk n l) (by simp) o ho)
      (yields_boxes bs fun b hb => h b (by simp [hb])))
end

/-- The hints of a simulator are read back. -/
theorem read_hints (o : Obj) (hd : Deep o) (hs : o.head.inst .ISimulator = true) :
    ∃ t, hints o = some t ∧ read t = some (.cls (bases o.head.inst) (members o)) := by
  refine ⟨_, hints_outs o hd hs, ?_⟩
  have hf : FineAll ([.row (.imp "ecss_smp".toList), .blank, .blank] ++
      simOuts o.head (memberOuts o) ++ [.blank]) := by
    refine fineAll_append (fineAll_append ?_ ?_) ?_
    · simp only [FineAll, Out.Fine, and_true]
      exact ⟨(by decide +kernel : ident "ecss_smp".toList = true), fun a b e => nomatch e⟩
    · rw [simOuts]
      exact fine_two (cls_fine (by decide +kernel) _ (members_fine o hd))
    · rw [FineAll, FineAll, Out.Fine]; exact ⟨trivial, trivial⟩
  have hst := statements_rows _ hf
  have e : stripAll ([.row (.imp "ecss_smp".toList), .blank, .blank] ++
      simOuts o.head (memberOuts o) ++ [.blank]) =
      [.imp "ecss_smp".toList, .cls "Simulator".toList ((bases o.head.inst).map text)
        (stripAll (bodyOuts (memberOuts o)))] := by
    simp only [stripAll_append, simOuts, stripAll, Out.strip, Item.stmt, List.append_nil, List.nil_append,
      List.cons_append]
  unfold read out
  rw [hst, e]
  dsimp only
  rw [if_pos ⟨rfl, rfl⟩, class_read _ _ (yields_members o hd)]

/-! ### The declarations describe the object -/

theorem mem_declsAll {d : Decl} : ∀ {l : List Obj}, d ∈ declsAll l ↔
    ∃ o ∈ l, d = .mk o.head.name (.cls (bases o.head.inst) (members o)) o.doc
  | [] => by rw [declsAll]; simp
  | o :: l => by
    rw [declsAll, List.mem_cons, mem_declsAll]
    simp

theorem mem_declsBoxes {d : Decl} : ∀ {l : List Box}, d ∈ declsBoxes l ↔
    (∃ b ∈ l, d = .mk ('_' :: b.name) (.ifc .IContainer) none) ∨
    (∃ b ∈ l, ∃ o ∈ b.components, d = .mk o.head.name (.cls (bases o.head.inst) (members o)) o.doc)
  | [] => by rw [declsBoxes]; simp
  | .mk n l :: bs => by
    rw [declsBoxes, List.mem_cons, List.mem_append, mem_declsAll, mem_declsBoxes]
    simp only [List.mem_cons, exists_eq_or_imp, Box.name, Box.components]
    constructor
    · rintro (h | h | h | h)
      · exact .inl (.inl h)
      · exact .inr (.inl h)
      · exact .inl (.inr h)
      · exact .inr (.inr h)
    · rintro ((h | h) | (h | h))
      · exact .inl h
      · exact .inr (.inr (.inl h))
      · exact .inr (.inl h)
      · exact .inr (.inr (.inr h))

theorem mem_ite' {α : Type} {b : Bool} {l : List α} {x : α} :
    x ∈ (if b then l else []) ↔ b = true ∧ x ∈ l := by
  cases b <;> simp

theorem mem_members {o : Obj} (hs : Sound o.head.inst) {d : Decl} : d ∈ members o ↔
    (∃ n i, Simple o n i ∧ d = .mk n (.ifc i) none) ∨
    (o.head.inst .IComponent = true ∧ o.head.inst .IDynamicInvocation = true ∧
      ∃ n ∈ o.head.operations, d = .mk n .fn none) ∨
    (∃ p, Has o p ∧ d = .mk p.head.name (.cls (bases p.head.inst) (members p)) p.doc) := by
  cases o with
  | mk h fs cs =>
    have hs' : nested h.inst = h.inst .IStructureField := nested_iff hs
    rw [members]
    simp only [List.mem_append, mem_ite', componentDecls, mem_declsAll, mem_declsBoxes, List.mem_map, hs']
    constructor
    · rintro ((((⟨hc, ((⟨hi, n, hn, rfl⟩ | ⟨hi, ⟨n, hn, rfl⟩ | ⟨n, hn, rfl⟩⟩) | ⟨hi, n, hn, rfl⟩) |
        ⟨hi, n, hn, rfl⟩⟩ | ⟨hc, p, hp, rfl⟩) | ⟨hc, ⟨b, hb, rfl⟩ | ⟨b, hb, p, hp, rfl⟩⟩) |
        ⟨hc, n, hn, rfl⟩) | ⟨hc, p, hp, rfl⟩)
      · exact .inl ⟨_, _, .inl ⟨hc, .inl ⟨hi, rfl, n, hn, rfl⟩⟩, rfl⟩
      · exact .inr (.inl ⟨hc, hi, n, hn, rfl⟩)
      · exact .inl ⟨_, _, .inl ⟨hc, .inr (.inl ⟨hi, rfl, hn⟩)⟩, rfl⟩
      · exact .inl ⟨_, _, .inl ⟨hc, .inr (.inr (.inl ⟨hi, rfl, hn⟩))⟩, rfl⟩
      · exact .inl ⟨_, _, .inl ⟨hc, .inr (.inr (.inr ⟨hi, rfl, hn⟩))⟩, rfl⟩
      · exact .inr (.inr ⟨p, .field (.inl hc) hp, rfl⟩)
      · exact .inl ⟨_, _, .inr (.inl ⟨hc, rfl, b, hb, rfl⟩), rfl⟩
      · exact .inr (.inr ⟨p, .component hc hb hp, rfl⟩)
      · exact .inl ⟨_, _, .inr (.inr ⟨hc, rfl, hn⟩), rfl⟩
      · exact .inr (.inr ⟨p, .field (.inr hc) hp, rfl⟩)
    · rintro (⟨n, i, hsm, rfl⟩ | ⟨hc, hi, n, hn, rfl⟩ | ⟨p, hp, rfl⟩)
      · rcases hsm with ⟨hc, ⟨hi, rfl, m, hm, rfl⟩ | ⟨hi, rfl, hn⟩ | ⟨hi, rfl, hn⟩ | ⟨hi, rfl, hn⟩⟩ |
          ⟨hc, rfl, b, hb, rfl⟩ | ⟨hc, rfl, hn⟩
        · exact .inl (.inl (.inl (.inl ⟨hc, .inl (.inl (.inl ⟨hi, m, hm, rfl⟩))⟩)))
        · exact .inl (.inl (.inl (.inl ⟨hc, .inl (.inl (.inr ⟨hi, .inr ⟨n, hn, rfl⟩⟩))⟩)))
        · exact .inl (.inl (.inl (.inl ⟨hc, .inl (.inr ⟨hi, n, hn, rfl⟩)⟩)))
        · exact .inl (.inl (.inl (.inl ⟨hc, .inr ⟨hi, n, hn, rfl⟩⟩)))
        · exact .inl (.inl (.inr ⟨hc, .inl ⟨b, hb, rfl⟩⟩))
        · exact .inl (.inr ⟨hc, n, hn, rfl⟩)
      · exact .inl (.inl (.inl (.inl ⟨hc, .inl (.inl (.inr ⟨hi, .inl ⟨n, hn, rfl⟩⟩))⟩)))
      · cases hp with
        | field hh hf =>
          rcases hh with hh | hh
          · exact .inl (.inl (.inl (.inr ⟨hh, p, hf, rfl⟩)))
          · exact .inr ⟨hh, p, hf, rfl⟩
        | component hh hb hc => exact .inl (.inl (.inr ⟨hh, .inr ⟨_, hb, p, hc, rfl⟩⟩))

theorem describes_of {o : Obj} (hd : Deep o)
    (ih : ∀ p, Has o p → Describes (.cls (bases p.head.inst) (members p)) p) :
    Describes (.cls (bases o.head.inst) (members o)) o := by
  have hs := hd.here.sound
  refine .mk (fun p => .cls (bases p.head.inst) (members p)) (fun i hi => (bases_mem hi).1)
    (fun i hi h => bases_shown hs hi h) ?_ ?_ ?_ ih ?_
  · intro d hdm
    rcases (mem_members hs).1 hdm with ⟨n, i, h, rfl⟩ | ⟨hc, hi, n, hn, rfl⟩ | ⟨p, hp, rfl⟩
    · exact .simple h
    · exact .operation hc hi hn
    · exact .object hp (ih p hp)
  · exact fun n i h => (mem_members hs).2 (.inl ⟨n, i, h, rfl⟩)
  · exact fun hc hi n hn => (mem_members hs).2 (.inr (.inl ⟨hc, hi, n, hn, rfl⟩))
  · exact fun p hp => (mem_members hs).2 (.inr (.inr ⟨p, hp, rfl⟩))

mutual
theorem describes : ∀ o : Obj, Deep o → Describes (.cls (bases o.head.inst) (members o)) o
  | .mk h fs cs, hd => describes_of hd fun p hp => by
    have hf := describes_all fs
    have hc := describes_boxes cs
    cases hp with
    | field hh hm => exact hf p hm (hd.has (.field hh hm))
    | component hh hb hm => exact hc _ hb p hm (hd.has (.component hh hb hm))
theorem describes_all : ∀ l : List Obj, ∀ o ∈ l, Deep o → Describes (.cls (bases o.head.inst) (members o)) o
  | [], o, ho, _ => nomatch ho
  | p :: l, o, ho, hd => by
    have h1 := describes p
    have h2 := describes_all l
    rcases List.mem_cons.1 ho with rfl | ho
    · exact h1 hd
    · exact h2 o ho hd
theorem describes_boxes : ∀ l : List Box, ∀ b ∈ l, ∀ o ∈ b.components, Deep o →
    Describes (.cls (bases o.head.inst) (members o)) o
  | [], b, hb, _, _, _ => nomatch hb
  | .mk n l :: bs, b, hb, o, ho, hd => by
    have h1 := describes_all l
    have h2 := describes_boxes bs
    rcases List.mem_cons.1 hb with rfl | hb
    · exact h1 o ho hd
    · exact h2 b hb o ho hd
end

end Verif.Python.Hints
