import Verif.Python.ClassLemmas

/-!
C121: what the Python class of a simulator object inherits from.

Specification. `inst i` says that the object implements the interface `i` in C++ (`dynamic_cast`
succeeds); an object is `Lawful` if it implements the bases of what it implements, as any C++ class
does, and `IObject`. `Listed i`: `i` is one of the interfaces of the table of the module. `Above j i`:
`i` is reached from `j` by taking bases one or more times.
-/
namespace Verif.Python.Class

open scoped List

/-- The object implements the bases of what it implements, and `IObject`. -/
structure Lawful (inst : Ifc → Bool) : Prop where
  object : inst .IObject = true
  base : ∀ i b, i.base = some b → inst i = true → inst b = true

/-- An interface of the table. -/
def Listed (i : Ifc) : Prop := i ≠ .IFactory ∧ ∀ t, i ≠ .ICollection t

/-- `i` is a proper base of `j`. -/
inductive Above : Ifc → Ifc → Prop
  | base {j i} : j.base = some i → Above j i
  | trans {j k i} : j.base = some k → Above k i → Above j i

/-! ### Facts on the table, which is finite -/

theorem listed_iff (i : Ifc) : Listed i ↔ i ∈ table.names := by
  unfold Listed
  cases i with
  | IFactory => exact ⟨fun h => absurd rfl h.1, fun h => absurd h (by decide)⟩
  | ICollection t =>
    refine ⟨fun h => absurd rfl (h.2 t), fun h => ?_⟩
    have : ∀ x ∈ table.names, (match x with | .ICollection _ => false | _ => true) = true := by decide
    exact absurd (this _ h) (fun h => nomatch h)
  | _ => exact ⟨fun _ => by decide, fun _ => ⟨by decide, fun t h => by cases h⟩⟩

theorem names_nodup : table.names.Nodup := by decide

theorem lin_sublist : ∀ n ∈ table.names, n.lin <+ table.names := by decide

theorem root_in_lin : ∀ s ∈ table.sub, ∀ n ∈ s.names, s.ifc ∈ n.lin := by decide

theorem lin_in_root : ∀ s ∈ table.sub, ∀ n ∈ table.names, s.ifc ∈ n.lin → n ∈ s.names := by decide

theorem names_sub (s : Hier) (hs : s ∈ table.sub) : s.ifc ∈ table.names :=
  List.mem_map_of_mem hs

theorem sub_of_names (i : Ifc) (h : i ∈ table.names) : ∃ s ∈ table.sub, s.ifc = i := by
  obtain ⟨s, hs, he⟩ := List.mem_map.1 h
  exact ⟨s, hs, he⟩

theorem lin_lawful {inst : Ifc → Bool} (hl : Lawful inst) : ∀ (n : Nat) (i : Ifc), inst i = true →
    ∀ x ∈ lin n i, inst x = true
  | 0, i, hi, x, hx => by rw [lin, List.mem_singleton] at hx; rw [hx]; exact hi
  | n + 1, i, hi, x, hx => by
    rw [lin] at hx
    cases hb : i.base with
    | none => rw [hb] at hx; rw [List.mem_singleton.1 hx]; exact hi
    | some b =>
      rw [hb] at hx
      rcases List.mem_cons.1 hx with rfl | hx
      · exact hi
      · exact lin_lawful hl n b (hl.base i b hb hi) x hx

theorem base_listed : ∀ i ∈ table.names, ∀ b, i.base = some b → b ∈ table.names := by
  have : ∀ i ∈ table.names, (i.base.all fun b => table.names.contains b) = true := by decide
  intro i hi b hb
  have h := this i hi
  rw [hb] at h
  simpa using h

/-- Taking bases from a class is going down its list. -/
theorem base_pair : ∀ i ∈ table.names, ∀ b, i.base = some b → i.lin = i :: b.lin := by
  have : ∀ i ∈ table.names, (i.base.all fun b => decide (i.lin = i :: b.lin)) = true := by decide
  intro i hi b hb
  have h := this i hi
  rw [hb] at h
  simpa using h

theorem lin_self : ∀ (i : Ifc), i ∈ i.lin := by
  intro i; unfold Ifc.lin lin
  cases i.base with
  | none => simp
  | some b => simp

theorem above_lin {j i : Ifc} (h : Above j i) (hj : j ∈ table.names) :
    i ∈ table.names ∧ [j, i] <+ j.lin := by
  induction h with
  | base hb =>
    refine ⟨base_listed _ hj _ hb, ?_⟩
    rw [base_pair _ hj _ hb]
    exact List.Sublist.cons_cons _ (List.singleton_sublist.2 (lin_self _))
  | @trans j k i hb _ ih =>
    have := ih (base_listed _ hj _ hb)
    refine ⟨this.1, ?_⟩
    rw [base_pair _ hj _ hb]
    exact List.Sublist.cons_cons _ (List.singleton_sublist.2 (this.2.mem (by simp)))

/-! ### The class -/

theorem bases_sublist (inst : Ifc → Bool) : bases inst <+ table.names := added inst table

theorem mro_ok (inst : Ifc → Bool) : ∃ out, mro inst = some out ∧ out.Nodup ∧
    (∀ x, x ∈ out ↔ ∃ b ∈ bases inst, x ∈ b.lin) ∧
    (∀ b ∈ bases inst, b.lin <+ out) ∧ bases inst <+ out := by
  have hsub : ∀ l ∈ (bases inst).map Ifc.lin ++ [bases inst], l <+ table.names := by
    intro l hl
    rcases List.mem_append.1 hl with hl | hl
    · obtain ⟨b, hb, rfl⟩ := List.mem_map.1 hl
      exact lin_sublist b ((bases_sublist inst).mem hb)
    · rw [List.mem_singleton.1 hl]; exact bases_sublist inst
  obtain ⟨out, ho, hnd, hm, hs⟩ := merge_ok _ _ _ (sorted_of_sublist names_nodup hsub) (Nat.le_refl _)
  refine ⟨out, ho, hnd, fun x => ?_, fun b hb => hs _ (List.mem_append_left _
    (List.mem_map_of_mem hb)), hs _ (List.mem_append_right _ (by simp))⟩
  rw [hm]
  constructor
  · rintro ⟨l, hl, hx⟩
    rcases List.mem_append.1 hl with hl | hl
    · obtain ⟨b, hb, rfl⟩ := List.mem_map.1 hl
      exact ⟨b, hb, hx⟩
    · rw [List.mem_singleton.1 hl] at hx
      exact ⟨x, hx, lin_self x⟩
  · rintro ⟨b, hb, hx⟩
    exact ⟨_, List.mem_append_left _ (List.mem_map_of_mem hb), hx⟩

theorem isInstance_iff (inst : Ifc → Bool) (i : Ifc) :
    isInstance inst i = true ↔ ∃ b ∈ bases inst, i ∈ b.lin := by
  obtain ⟨out, ho, _, hm, _, _⟩ := mro_ok inst
  unfold isInstance
  rw [ho, ← hm i]
  simp

theorem bases_found {inst : Ifc → Bool} {s : Hier} (hs : s ∈ table.sub) {n : Ifc} (hn : n ∈ s.names)
    (hi : inst n = true) : ∃ b ∈ bases inst, b ∈ s.names := by
  obtain ⟨b, hb⟩ := added_some inst s ((found inst s).2 ⟨n, hn, hi⟩)
  exact ⟨b, added_sub inst table s hs b hb, (added inst s).mem hb⟩

/-! ### The property -/

/-- **C121.** Python's `isinstance` with an interface of the table tells exactly whether the C++ object
implements it.

Missing from the full statement: `IFactory` and the collections, which are interfaces the module
registers as well, see `C121_factory_fails` and `C121_collection_fails`. -/
theorem C121_isinstance_partial (inst : Ifc → Bool) (hl : Lawful inst) (i : Ifc) (hi : Listed i) :
    isInstance inst i = true ↔ inst i = true := by
  rw [isInstance_iff]
  constructor
  · rintro ⟨b, hb, hx⟩
    exact lin_lawful hl 8 b (added_only inst table b hb).1 i hx
  · intro h
    obtain ⟨s, hs, rfl⟩ := sub_of_names i ((listed_iff i).1 hi)
    have hroot : s.ifc ∈ s.names := lin_in_root s hs _ (names_sub s hs) (lin_self _)
    obtain ⟨b, hb, hbn⟩ := bases_found hs hroot h
    exact ⟨b, hb, root_in_lin s hs b hbn⟩

/-- A model with containers that takes part in events. -/
def aModel : Ifc → Bool
  | .IObject | .IComponent | .IModel | .IFallibleModel | .IComposite | .IEventProvider => true
  | _ => false

theorem aModel_lawful : Lawful aModel := by
  refine ⟨rfl, fun i b hb hi => ?_⟩
  cases i <;> simp_all [aModel, Ifc.base] <;> subst hb <;> rfl

example : Lawful aModel ∧ Listed .IModel ∧ Listed .IService ∧
    isInstance aModel .IModel = true ∧ isInstance aModel .IService = false ∧
    bases aModel = [.IEventProvider, .IFallibleModel, .IComposite] ∧
    mro aModel = some [.IEventProvider, .IFallibleModel, .IModel, .IComponent, .IComposite, .IObject] :=
  ⟨aModel_lawful, ⟨by decide, fun t h => by cases h⟩, ⟨by decide, fun t h => by cases h⟩, by decide,
    by decide, by decide, by decide⟩

/-- **C121.** The class can be made for every object: Python finds an order of the bases, without
repetition, in which a derived interface is before its bases — so that `__getitem__` or `__str__` of a
derived interface is the one used — and which keeps the order of the table for the direct bases. -/
theorem C121_order (inst : Ifc → Bool) : ∃ out, mro inst = some out ∧ out.Nodup ∧
    (∀ j ∈ out, ∀ i, Above j i → [j, i] <+ out) ∧ bases inst <+ out := by
  obtain ⟨out, ho, hnd, hm, hs, hb⟩ := mro_ok inst
  refine ⟨out, ho, hnd, fun j hj i hji => ?_, hb⟩
  obtain ⟨b, hbb, hjb⟩ := (hm j).1 hj
  have hbn := (bases_sublist inst).mem hbb
  have hjn : j ∈ table.names := (lin_sublist b hbn).mem hjb
  have hpre : ∀ b ∈ table.names, ∀ j ∈ b.lin, j.lin <+ b.lin := by decide
  exact ((above_lin hji hjn).2.trans (hpre b hbn j hjb)).trans (hs b hbb)

example : Above .IFallibleModel .IComponent ∧ Ifc.IFallibleModel ∈ (mro aModel).getD [] :=
  ⟨.trans (k := .IModel) rfl (.base rfl), by decide⟩

/-- **C121.** The direct bases are the most derived interfaces, each once: those of the table that the
object implements while it implements no interface of the table derived from them. -/
theorem C121_direct (inst : Ifc → Bool) :
    (bases inst).Nodup ∧ ∀ i, i ∈ bases inst ↔
      Listed i ∧ inst i = true ∧ ∀ j, Listed j → Above j i → inst j = false := by
  refine ⟨names_nodup.sublist (bases_sublist inst), fun i => ⟨fun h => ?_, ?_⟩⟩
  · have hi := (bases_sublist inst).mem h
    obtain ⟨hinst, cs, hs, hno⟩ := added_only inst table i h
    refine ⟨(listed_iff i).2 hi, hinst, fun j hj hji => ?_⟩
    cases hji' : inst j with
    | false => rfl
    | true =>
      exfalso
      have hjn := (listed_iff j).1 hj
      have hab := (above_lin hji hjn).2
      have hne : j ≠ i := fun he => by
        have := (names_nodup.sublist (lin_sublist j hjn)).sublist hab
        rw [he] at this
        simp at this
      have hin := lin_in_root _ hs j hjn (hab.mem (by simp [Hier.ifc]))
      rw [names_node] at hin
      rcases List.mem_append.1 hin with hin | hin
      · rw [(foundAll inst cs).2 ⟨j, hin, hji'⟩] at hno; cases hno
      · exact hne (List.mem_singleton.1 hin)
  · rintro ⟨hi, hinst, hno⟩
    have hin := (listed_iff i).1 hi
    obtain ⟨s, hs, rfl⟩ := sub_of_names i hin
    have hroot : s.ifc ∈ s.names := lin_in_root s hs _ hin (lin_self _)
    obtain ⟨b, hb, hbn⟩ := bases_found hs hroot hinst
    by_cases he : b = s.ifc
    · rw [← he]; exact hb
    · exfalso
      have hbin := (bases_sublist inst).mem hb
      have hlin := root_in_lin s hs b hbn
      have hab : Above b s.ifc := above_of_lin 8 b s.ifc hlin (fun h => he h.symm)
      have := hno b ((listed_iff b).2 hbin) hab
      rw [(added_only inst table b hb).1] at this
      cases this
where
  above_of_lin : ∀ (n : Nat) (b i : Ifc), i ∈ lin n b → i ≠ b → Above b i
    | 0, b, i, h, hne => absurd (List.mem_singleton.1 h) hne
    | n + 1, b, i, h, hne => by
      rw [lin] at h
      cases hb : b.base with
      | none => rw [hb] at h; exact absurd (List.mem_singleton.1 h) hne
      | some k =>
        rw [hb] at h
        rcases List.mem_cons.1 h with h | h
        · exact absurd h hne
        · by_cases he : i = k
          · rw [he]; exact .base hb
          · exact .trans hb (above_of_lin n k i h he)

example : Ifc.IFallibleModel ∈ bases aModel ∧ Ifc.IModel ∉ bases aModel ∧
    Ifc.IComponent ∉ bases aModel := by decide

/-! ### Interfaces that are not in the table -/

/-- An object that implements one more interface than `IObject`. -/
def only (i : Ifc) : Ifc → Bool := fun j => j == .IObject || j == i

/-- **C121 fails** for every interface that is not in the table: `isinstance` is false whatever the
object implements, so that none of the methods the module registers for the interface is found. -/
theorem C121_unlisted_fails (inst : Ifc → Bool) (i : Ifc) (hi : ¬ Listed i) :
    isInstance inst i = false := by
  cases h : isInstance inst i with
  | false => rfl
  | true =>
    obtain ⟨b, hb, hx⟩ := (isInstance_iff inst i).1 h
    exact absurd ((listed_iff i).2 ((lin_sublist b ((bases_sublist inst).mem hb)).mem hx)) hi

/-- **C121 fails** for a factory: its class only has the methods of `IObject`, while `GetUuid`,
`GetTypeName` and `CreateInstance` are registered for `IFactory`. -/
theorem C121_factory_fails :
    Lawful (only .IFactory) ∧ only .IFactory .IFactory = true ∧
    mro (only .IFactory) = some [.IObject] ∧ isInstance (only .IFactory) .IFactory = false := by
  refine ⟨⟨rfl, fun i b hb hi => ?_⟩, rfl, by decide, by decide⟩
  simp only [only, Bool.or_eq_true, beq_iff_eq] at hi ⊢
  rcases hi with rfl | rfl
  · cases hb
  · cases hb; exact .inl rfl

/-- **C121 fails** for a collection of whatever items: its class only has the methods of `IObject`,
while `__len__` and `__getitem__` are registered for `ICollection`. -/
theorem C121_collection_fails (t : Ifc) :
    Lawful (only (.ICollection t)) ∧ only (.ICollection t) (.ICollection t) = true ∧
    mro (only (.ICollection t)) = some [.IObject] ∧
    isInstance (only (.ICollection t)) (.ICollection t) = false := by
  have hb : bases (only (.ICollection t)) = [.IObject] := by
    simp [bases, table, process_node, processAll, only]
  have hm : mro (only (.ICollection t)) = some [.IObject] := by
    unfold mro; rw [hb]; decide
  refine ⟨⟨rfl, fun i b hb hi => ?_⟩, by simp [only], hm,
    C121_unlisted_fails _ _ fun h => h.2 t rfl⟩
  simp only [only, Bool.or_eq_true, beq_iff_eq] at hi ⊢
  rcases hi with rfl | rfl
  · cases hb
  · cases hb; exact .inl rfl

example : ¬ Listed (.ICollection .IField) ∧ only (.ICollection .IField) (.ICollection .IField) = true :=
  ⟨fun h => h.2 _ rfl, by decide⟩

end Verif.Python.Class
