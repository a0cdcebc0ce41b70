import Verif.Path.Props
import Verif.Python.Attr
import Verif.Python.ClassProps
import Verif.Python.ValueProps

/-! Lemmas for `AttrProps.lean`. -/
namespace Verif.Python.Attr
open Verif.Path
open Verif.Any (Any Fl)
open Verif.Python.Class (Ifc mro Lawful Listed mro_ok isInstance C121_isinstance_partial listed_iff
  lin_sublist bases_sublist)
open Verif.Python.Value (Py Res assign ofPy plus store)

/-- A name that can follow the dot in Python: no separator of paths. -/
def AttrName (n : Str) : Prop := n ≠ [] ∧ ∀ c ∈ n, c ≠ '.' ∧ c ≠ '/' ∧ c ≠ '['

theorem AttrName.segments {n : Str} (h : AttrName n) : segments n = [(false, n)] := by
  obtain ⟨hne, hc⟩ := h
  cases n with
  | nil => exact absurd rfl hne
  | cons c t =>
    have h1 := hc c (by simp)
    have hsk : skip false (c :: t) = (false, c :: t) := by
      rw [skip.eq_3]
      · intro p e; simp at e; exact h1.2.1 e.1
      · intro p e; simp at e; exact h1.1 e.1
    have hseg : segment (c :: t) = (c :: t, []) := by
      rw [segment.eq_2 _ (by intro p e; simp at e; exact h1.2.2 e.1)]
      have := scan_plain (c :: t) [] (fun x hx => by
        have := hc x hx; simp [plain, this.1, this.2.1, this.2.2]) (.inl rfl)
      rwa [List.append_nil] at this
    rw [segments_next hsk (by simp), hseg]
    rfl

theorem AttrName.ne_dots {n : Str} (h : AttrName n) : n ≠ ['.', '.'] := by
  intro e; rw [e] at h; exact (h.2 '.' (by simp)).1 rfl

theorem findSome_some {α β : Type} (f : α → β) : ∀ l : List α,
    l.findSome? (fun x => some (f x)) = (l.head?).map f
  | [] => rfl
  | a :: l => rfl

theorem Resolve_name {T : Node} {refs : Refs} {a : Addr} {n : Str} (h : AttrName n) :
    Resolve T refs a n = ((cands T refs .obj a false n).head?).map (·.2) := by
  unfold Resolve
  rw [h.segments, resolve_cons]
  exact findSome_some _ _

/-- From an object that is not a field, one name is one step. -/
theorem cands_step {T : Node} (refs : Refs) {a : Addr} {k : Node} (hn : get T a = some k)
    (hk : k.kind.isField = false) {s : Str} (hs : s ≠ ['.', '.'])
    {x : St × Addr} (hx : x ∈ cands T refs .obj a false s) : Step T refs a s x.2 := by
  unfold cands at hx
  rw [if_neg hs, hn] at hx
  simp only at hx
  have objOf : ∀ {k' : Kind} {i : Nat}, child k (· == k') s = some i → k'.named = true →
      Step T refs a s (i :: a) := by
    intro k' i h hk'
    obtain ⟨c, hc, hkc, hname⟩ := child_some h
    exact .child hn hc (by simp at hkc; rw [hkc]; exact hk') hname
  split at hx
  · rename_i i hi
    simp at hx; subst hx
    unfold underChild at hi
    split at hi
    · rename_i s'
      have go : ∀ k' : Kind, (k' = .container ∨ k' = .reference) →
          child k (· == k') s' = some i → Step T refs a ('_' :: s') (i :: a) := by
        intro k' hk' h
        obtain ⟨c, hc, hkc, hname⟩ := child_some h
        simp at hkc
        exact .under hn hc (by rw [hkc]; exact hk') (by rw [hname])
      split at hi
      · rename_i j hj
        cases hi
        exact go _ (Or.inl rfl) hj
      · exact go _ (Or.inr rfl) hi
    · simp at hi
  · rw [List.mem_append] at hx
    rcases hx with hx | hx
    · split at hx
      · rename_i i hi; simp at hx; subst hx; exact objOf hi rfl
      · split at hx
        · rename_i i hi; simp at hx; subst hx; exact objOf hi rfl
        · split at hx
          · rename_i i hi; simp at hx; subst hx; exact objOf hi rfl
          · rw [List.mem_append] at hx
            rcases hx with hx | hx
            · split at hx
              · rename_i i hi; simp at hx; subst hx; exact objOf hi rfl
              · split at hx
                · rename_i i hi; simp at hx; subst hx; exact objOf hi rfl
                · simp at hx
            · split at hx
              · rename_i i hi; simp at hx; subst hx; exact objOf hi rfl
              · split at hx
                · split at hx
                  · rename_i i hi
                    simp at hx; subst hx
                    obtain ⟨c, hc, hkc, hname⟩ := child_some hi
                    exact .child hn hc (by revert hkc; cases c.kind <;> decide) hname
                  · simp at hx
                · rw [if_neg (by rw [hk]; decide)] at hx
                  cases hx
    · rw [if_neg (by decide), List.mem_append] at hx
      rcases hx with hx | hx
      · split at hx
        · rename_i i hi; simp at hx; subst hx; exact objOf hi rfl
        · simp at hx
      · split at hx
        · rename_i b hb
          simp at hx; subst hx
          unfold refNamed at hb
          have hm := List.mem_of_find?_eq_some hb
          have hnm := List.find?_some hb
          simp at hnm
          exact .ref hm hnm
        · simp at hx

theorem stAt_obj {T : Node} {a : Addr} {k : Node} (hn : get T a = some k)
    (hk : k.kind.isField = false) : stAt T a = .obj := by
  rw [stAt_of hn, if_neg]
  revert hk; cases k.kind <;> decide

/-- A child is found by its name. -/
theorem Resolve_child {T : Node} (hT : Wf T) (refs : Refs) {a : Addr} {k : Node}
    (hn : get T a = some k) (hk : k.kind.isField = false) {i : Nat} {c : Node}
    (hc : k.children[i]? = some c) (hkc : c.kind.named = true) (h : AttrName c.name) :
    Resolve T refs a c.name = some (i :: a) := by
  have := resolve_child hT refs hn hc hkc (by revert hk; cases k.kind <;> decide) false
    (fun _ => rfl) (rest := []) (b := i :: a) rfl
  rw [stAt_obj hn hk] at this
  unfold Resolve
  rw [h.segments]
  exact this

/-- What can be reached in one step is found, or something else that can be. -/
theorem Resolve_step {T : Node} (hT : Wf T) (refs : Refs) {a : Addr} {k : Node}
    (hn : get T a = some k) (hk : k.kind.isField = false) {s : Str} (h : AttrName s) {b : Addr}
    (hb : Step T refs a s b) : ∃ c, Resolve T refs a s = some c := by
  cases hb with
  | @child n i c _ hn' hc hkc hname =>
    rw [hn] at hn'; cases hn'; subst hname
    exact ⟨_, Resolve_child hT refs hn hk hc hkc h⟩
  | @under n i c _ hn' hc hkc hname =>
    rw [hn] at hn'; cases hn'; subst hname
    rw [Resolve_name h]
    have : ∃ j, underChild k ('_' :: c.name) = some j := by
      have hu : underChild k ('_' :: c.name) = match child k (· == .container) c.name with
          | some i => some i
          | none => child k (· == .reference) c.name := by
        simp only [underChild]
        cases child k (· == .container) c.name <;> rfl
      rw [hu]
      cases h1 : child k (· == .container) c.name with
      | some j => exact ⟨j, rfl⟩
      | none =>
        cases h2 : child k (· == .reference) c.name with
        | some j => exact ⟨j, rfl⟩
        | none =>
          rcases hkc with hkc | hkc
          · exact absurd rfl (child_none h1 hc (by rw [hkc]; rfl))
          · exact absurd rfl (child_none h2 hc (by rw [hkc]; rfl))
    obtain ⟨j, hj⟩ := this
    unfold cands
    rw [if_neg h.ne_dots, hn]
    dsimp only
    rw [hj]
    exact ⟨_, rfl⟩
  | @item n i _ hn' harr _ =>
    rw [hn] at hn'; cases hn'
    revert hk harr; cases k.kind <;> simp [Kind.isField, Kind.isArray]
  | ref hm hname =>
    rw [Resolve_name h]
    cases hc : (cands T refs .obj a false s).head? with
    | some x => exact ⟨_, rfl⟩
    | none =>
      exfalso
      rw [List.head?_eq_none_iff] at hc
      unfold cands at hc
      rw [if_neg h.ne_dots, hn] at hc
      dsimp only at hc
      have hr : ∃ r, refNamed T refs a s = some r := by
        rw [← Option.isSome_iff_exists]
        unfold refNamed
        rw [List.find?_isSome]
        exact ⟨_, hm, by simp [hname]⟩
      obtain ⟨r, hr⟩ := hr
      rw [hr] at hc
      split at hc
      · cases hc
      · simp at hc

/-- Known as an `IObject`, a field is found under every name. -/
theorem Resolve_field {T : Node} (hT : Wf T) (refs : Refs) {a : Addr} {k : Node}
    (hn : get T a = some k) (hk : k.kind.isField = true) {s : Str} (h : AttrName s) :
    Resolve T refs a s = some a := by
  rw [Resolve_name h]
  have nochild : ∀ ok : Kind → Bool, (∀ k, ok k = true → k.plainField = false) →
      ∀ s', child k ok s' = none := by
    intro ok hok s'
    cases hc : child k ok s' with
    | none => rfl
    | some i =>
      exfalso
      obtain ⟨c, hc, hkc, _⟩ := child_some hc
      have hal := hT.kinds a k hn c (List.mem_of_getElem? hc)
      have := hok _ hkc
      revert hal this hk
      cases k.kind <;> cases c.kind <;> decide
  have hu : underChild k s = none := by
    unfold underChild
    split
    · rw [nochild (· == .container) (by intro k; cases k <;> decide),
        nochild (· == .reference) (by intro k; cases k <;> decide)]
    · rfl
  unfold cands
  rw [if_neg h.ne_dots, hn]
  dsimp only
  rw [hu, nochild (· == .sink) (by intro k; cases k <;> decide),
    nochild (· == .source) (by intro k; cases k <;> decide),
    nochild (· == .entryPoint) (by intro k; cases k <;> decide),
    nochild (· == .operation) (by intro k; cases k <;> decide),
    nochild (· == .property) (by intro k; cases k <;> decide),
    nochild (· == .failure) (by intro k; cases k <;> decide), if_neg (by
      intro e; rw [e] at hk; cases hk), hk]
  rfl

/-! ### The classes -/

/-- The object has a method of that name: one that the module defines for an interface the object
implements. -/
def HasMethod (S : Sim) (a : Addr) (n : Str) : Prop :=
  ∃ i, Listed i ∧ S.inst a i = true ∧ ∃ m ∈ methods i, m.toList = n

theorem mem_mro {inst : Ifc → Bool} (hl : Lawful inst) (i : Ifc) :
    i ∈ (mro inst).getD [] ↔ Listed i ∧ inst i = true := by
  obtain ⟨out, ho, _, hm, _, _⟩ := mro_ok inst
  have h1 : isInstance inst i = true ↔ i ∈ out := by
    unfold isInstance; rw [ho]; simp
  rw [ho]
  show i ∈ out ↔ _
  constructor
  · intro h
    have hli : Listed i := by
      obtain ⟨b, hb, hx⟩ := (hm i).1 h
      exact (listed_iff i).2 ((lin_sublist b ((bases_sublist inst).mem hb)).mem hx)
    exact ⟨hli, (C121_isinstance_partial inst hl i hli).1 (h1.2 h)⟩
  · rintro ⟨hli, h⟩
    exact h1.1 ((C121_isinstance_partial inst hl i hli).2 h)

theorem hides_iff (S : Sim) (a : Addr) (hl : Lawful (S.inst a)) (n : Str) :
    S.hides a n = true ↔ HasMethod S a n := by
  unfold Sim.hides HasMethod
  rw [List.any_eq_true]
  constructor
  · rintro ⟨i, hi, hm⟩
    obtain ⟨m, hm, he⟩ := List.any_eq_true.1 hm
    exact ⟨i, ((mem_mro hl i).1 hi).1, ((mem_mro hl i).1 hi).2, m, hm, by simpa using he⟩
  · rintro ⟨i, h1, h2, m, hm, he⟩
    exact ⟨i, (mem_mro hl i).2 ⟨h1, h2⟩, List.any_eq_true.2 ⟨m, hm, by simpa using he⟩⟩

theorem hides_false (S : Sim) (a : Addr) (hl : Lawful (S.inst a)) (n : Str)
    (h : ¬ HasMethod S a n) : S.hides a n = false := by
  cases e : S.hides a n with
  | false => rfl
  | true => exact absurd ((hides_iff S a hl n).1 e) h

/-- The interfaces of the table with a `__getitem__` of their own. -/
def HasItems (inst : Ifc → Bool) : Prop :=
  inst .IContainer = true ∨ inst .IReference = true ∨ inst .IArrayField = true ∨
    inst .ISimpleArrayField = true

theorem getitem_methods : ∀ i ∈ Verif.Python.Class.table.names,
    (methods i).contains "__getitem__" = true →
    i = .IObject ∨ i = .IContainer ∨ i = .IReference ∨ i = .IArrayField ∨ i = .ISimpleArrayField := by
  decide +kernel

theorem provider_object (S : Sim) (a : Addr) (hl : Lawful (S.inst a)) (h : ¬ HasItems (S.inst a)) :
    S.provider a "__getitem__" = some .IObject := by
  unfold Sim.provider
  have hob : Ifc.IObject ∈ (mro (S.inst a)).getD [] :=
    (mem_mro hl _).2 ⟨(listed_iff _).2 (by decide), hl.object⟩
  cases hf : ((mro (S.inst a)).getD []).find? fun i => (methods i).contains "__getitem__" with
  | none =>
    have := List.find?_eq_none.1 hf _ hob
    exact absurd (by decide) this
  | some i =>
    have hm := (mem_mro hl i).1 (List.mem_of_find?_eq_some hf)
    have hg : (methods i).contains "__getitem__" = true := by
      have := List.find?_some hf; exact this
    rcases getitem_methods i ((listed_iff i).1 hm.1) hg with rfl | rfl | rfl | rfl | rfl
    · rfl
    · exact absurd (.inl hm.2) h
    · exact absurd (.inr (.inl hm.2)) h
    · exact absurd (.inr (.inr (.inl hm.2))) h
    · exact absurd (.inr (.inr (.inr hm.2))) h

end Verif.Python.Attr
