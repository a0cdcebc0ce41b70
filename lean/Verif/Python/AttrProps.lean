import Verif.Python.AttrLemmas

/-!
C122: attributes and items of simulator objects in Python.

Specification. `Step` (Path/Spec.lean) says which object one name leads to: a child by its name, a
container or reference by `_` and its name, or a referenced component by its name. `HasMethod`: the
module defines a method of that name for an interface the object implements. `AttrName`: a name without
separator of paths, as every Python identifier.
-/
namespace Verif.Python.Attr
open Verif.Path
open Verif.Any (Any Fl Kind.Range Kind.isInt)
open Verif.Python.Class (Ifc Lawful Listed)
open Verif.Python.Value (Py Res assign ofPy plus store)

/-! ### A simulator to try things on -/

/-- A simulator with a component `A` that has a simple field `x`, a structure `s` with a member `b`, a
field called `GetState`, a container `kids` and a component `B` in it. -/
def tree : Node :=
  .mk .simulator "sim".toList
    [.mk .component "A".toList
      [.mk .simpleField "x".toList [],
       .mk .structField "s".toList [.mk .simpleField "b".toList []],
       .mk .simpleField "GetState".toList [],
       .mk .container "kids".toList [],
       .mk .component "B".toList []]]

/-- The interfaces of its objects. -/
def inst : Addr → Ifc → Bool
  | [] => fun i => i ∈ [.IObject, .IComposite, .ISimulator]
  | [0] | [4, 0] => fun i => i ∈ [.IObject, .IComponent, .IModel, .IComposite]
  | [0, 0] | [2, 0] | [0, 1, 0] => fun i => i ∈ [.IObject, .IPersist, .IField, .ISimpleField]
  | [1, 0] => fun i => i ∈ [.IObject, .IPersist, .IField, .IStructureField]
  | [3, 0] => fun i => i ∈ [.IObject, .IContainer]
  | _ => fun i => i = .IObject

/-- `x` is 5, the other simple fields are 0. -/
def sim : Sim where
  tree := tree
  refs := noRefs
  inst := inst
  val
    | [0, 0] => some ⟨.Int32, .int 5⟩
    | [2, 0] | [0, 1, 0] => some ⟨.UInt8, .int 0⟩
    | _ => none

theorem tree_wf : Wf tree := wf_of_ok rfl (by decide +kernel)

theorem inst_component : Lawful (sim.inst [0]) := by
  refine ⟨rfl, fun i b hb hi => ?_⟩
  have : ∀ i ∈ [Ifc.IObject, .IComponent, .IModel, .IComposite],
    i.base.all (fun b => sim.inst [0] b) = true := by decide
  have := this i (by simpa [sim, inst] using hi)
  rw [hb] at this
  exact this

theorem inst_struct : Lawful (sim.inst [1, 0]) := by
  refine ⟨rfl, fun i b hb hi => ?_⟩
  have : ∀ i ∈ [Ifc.IObject, .IPersist, .IField, .IStructureField],
    i.base.all (fun b => sim.inst [1, 0] b) = true := by decide
  have := this i (by simpa [sim, inst] using hi)
  rw [hb] at this
  exact this

theorem inst_simple : Lawful (sim.inst [0, 0]) := by
  refine ⟨rfl, fun i b hb hi => ?_⟩
  have : ∀ i ∈ [Ifc.IObject, .IPersist, .IField, .ISimpleField],
    i.base.all (fun b => sim.inst [0, 0] b) = true := by decide
  have := this i (by simpa [sim, inst] using hi)
  rw [hb] at this
  exact this

theorem no_method {a : Addr} {n : Str} (hl : Lawful (sim.inst a)) (h : sim.hides a n = false) :
    ¬ HasMethod sim a n := fun hm => by
  rw [(hides_iff sim a hl n).2 hm] at h; cases h

/-! ### Reading -/

/-- **C122.** An attribute of a simulator object that is neither a field nor the name of a method is an
object that the name leads to; if the name leads to none, `AttributeError` is raised, and only then.

Missing from the full statement: fields, see `C122_member_fails`, and names of methods, see
`C122_hidden_fails`. -/
theorem C122_get_partial (S : Sim) (hT : Wf S.tree) (a : Addr) (hl : Lawful (S.inst a)) (k : Node)
    (hk : get S.tree a = some k) (hf : k.kind.isField = false) (n : Str) (hn : AttrName n)
    (hm : ¬ HasMethod S a n) :
    (∀ b, S.getAttr a n = .object b → Step S.tree S.refs a n b) ∧
    (S.getAttr a n = .attributeError ↔ ¬ ∃ b, Step S.tree S.refs a n b) ∧
    (S.getAttr a n = .attributeError ∨ ∃ b, S.getAttr a n = .object b) := by
  have hs : ∀ b, Resolve S.tree S.refs a n = some b → Step S.tree S.refs a n b := by
    intro b hb
    rw [Resolve_name hn] at hb
    cases hc : (cands S.tree S.refs .obj a false n).head? with
    | none => rw [hc] at hb; cases hb
    | some x =>
      rw [hc] at hb
      cases hb
      exact cands_step S.refs hk hf hn.ne_dots (List.mem_of_head? hc)
  unfold Sim.getAttr
  rw [if_neg (by rw [hides_false S a hl n hm]; decide)]
  cases hr : Resolve S.tree S.refs a n with
  | none =>
    refine ⟨fun b hb => (nomatch hb), ⟨fun _ ⟨b, hb⟩ => ?_, fun _ => rfl⟩, .inl rfl⟩
    obtain ⟨c, hc⟩ := Resolve_step hT S.refs hk hf hn hb
    rw [hr] at hc; cases hc
  | some c =>
    refine ⟨fun b hb => ?_, ⟨fun hb => (nomatch hb), fun hno => absurd ⟨c, hs c hr⟩ hno⟩,
      .inr ⟨c, rfl⟩⟩
    cases hb
    exact hs _ hr

example : AttrName "y".toList ∧ ¬ HasMethod sim [0] "y".toList ∧
    sim.getAttr [0] "y".toList = .attributeError ∧
    sim.getAttr [0] "_kids".toList = .object [3, 0] :=
  ⟨⟨by decide, by decide⟩, no_method inst_component (by decide +kernel), by decide +kernel,
    by decide +kernel⟩

/-- **C122.** A child of a component is the attribute of its name, whatever is referenced. -/
theorem C122_child (S : Sim) (hT : Wf S.tree) (a : Addr) (hl : Lawful (S.inst a)) (k c : Node) (i : Nat)
    (hk : get S.tree a = some k) (hf : k.kind.isField = false) (hc : k.children[i]? = some c)
    (hkc : c.kind.named = true) (hn : AttrName c.name) (hm : ¬ HasMethod S a c.name) :
    S.getAttr a c.name = .object (i :: a) := by
  unfold Sim.getAttr
  rw [if_neg (by rw [hides_false S a hl _ hm]; decide), Resolve_child hT S.refs hk hf hc hkc hn]

example : ¬ HasMethod sim [0] "x".toList ∧ sim.getAttr [0] "x".toList = .object [0, 0] :=
  ⟨no_method inst_component (by decide +kernel), by decide +kernel⟩

/-- **C122.** `object[path]` is what the path leads to, and `KeyError` is raised if it leads nowhere, for
every object without items of its own; in particular `simulator[path of an object]` is the object. -/
theorem C122_item (S : Sim) (a : Addr) (hl : Lawful (S.inst a)) (hi : ¬ HasItems (S.inst a)) (p : Str) :
    (∀ b, S.getItem a (some p) = .object b ↔ Resolve S.tree S.refs a p = some b) ∧
    (S.getItem a (some p) = .keyError ↔ Resolve S.tree S.refs a p = none) ∧
    (a = [] → Wf S.tree → ∀ b n, get S.tree b = some n → n.kind.named = true →
      NotInAnonymousArray S.tree b → p = getPath S.tree b → S.getItem [] (some p) = .object b) := by
  have h : S.getItem a (some p) = match Resolve S.tree S.refs a p with
      | some b => .object b
      | none => .keyError := by
    unfold Sim.getItem
    rw [provider_object S a hl hi]
    dsimp only
    cases Resolve S.tree S.refs a p <;> rfl
  refine ⟨fun b => ?_, ?_, ?_⟩
  · rw [h]; cases Resolve S.tree S.refs a p <;> simp
  · rw [h]; cases Resolve S.tree S.refs a p <;> simp
  · rintro rfl hT b n hb hn hna rfl
    have hr := C39_roundTrip_partial S.tree hT S.refs b n hb hn hna
    have : Resolve S.tree S.refs [] (getPath S.tree b) = some b := by
      cases hp : getPath S.tree b with
      | nil => rw [hp] at hr; cases hr
      | cons x t =>
        rw [hp] at hr
        by_cases hx : x = '/'
        · subst hx; exact hr
        · unfold resolveAbsolute at hr
          split at hr
          · rename_i e; cases e; exact absurd rfl hx
          · cases hr
    rw [h, this]

example : ¬ HasItems (sim.inst []) ∧ getPath tree [0, 1, 0] = "/A.s.b".toList ∧
    sim.getItem [] (some "/A.s.b".toList) = .object [0, 1, 0] :=
  ⟨by unfold HasItems; decide, by decide +kernel, by decide +kernel⟩

/-! ### Assigning -/

theorem setAttr_child (S : Sim) (hT : Wf S.tree) (narrow : Fl → Fl) (a : Addr) (k c : Node) (i : Nat)
    (hk : get S.tree a = some k) (hf : k.kind.isField = false) (hc : k.children[i]? = some c)
    (hkc : c.kind.named = true) (hn : AttrName c.name) (v : Any) (hv : S.val (i :: a) = some v)
    (p : Py) : S.setAttr narrow a c.name (.py p) =
      match assign narrow v p with
      | .ok w => .ok { S with val := fun c => if c = i :: a then some w else S.val c }
      | e => .failed (asError e) := by
  have hs : S.setValue narrow a c.name (.py p) = match assign narrow v p with
      | .ok w => .set (i :: a) w
      | e => .failed (asError e) := by
    unfold Sim.setValue
    rw [Resolve_child hT S.refs hk hf hc hkc hn]
    dsimp only
    rw [if_neg (fun h => nomatch h), hv]
    rfl
  unfold Sim.setAttr
  rw [hs]
  cases assign narrow v p <;> rfl

/-- **C122.** `component.name = value` for a simple field or a property: if it succeeds, the field has the
value converted to its kind, every other field keeps its value, and nothing else changes; it succeeds
exactly when the value can be converted to that kind. -/
theorem C122_set (S : Sim) (hT : Wf S.tree) (narrow : Fl → Fl) (a : Addr) (k c : Node) (i : Nat)
    (hk : get S.tree a = some k) (hf : k.kind.isField = false) (hc : k.children[i]? = some c)
    (hkc : c.kind.named = true) (hn : AttrName c.name) (v : Any) (hv : S.val (i :: a) = some v)
    (p : Py) :
    (∀ S', S.setAttr narrow a c.name (.py p) = .ok S' →
      (∃ w, ofPy narrow p v.type = .ok w ∧ w.type = v.type ∧ S'.val (i :: a) = some w) ∧
      (∀ b, b ≠ i :: a → S'.val b = S.val b) ∧
      S'.tree = S.tree ∧ S'.refs = S.refs ∧ S'.inst = S.inst) ∧
    ((∃ S', S.setAttr narrow a c.name (.py p) = .ok S') ↔
      ∃ w, ofPy narrow p v.type = .ok w ∧ w.type = v.type) := by
  have ha : ∀ w, assign narrow v p = .ok w ↔ ofPy narrow p v.type = .ok w ∧ w.type = v.type := by
    intro w
    unfold assign
    cases ofPy narrow p v.type <;> simp [Res.bind, store]
    rename_i u
    constructor
    · intro h
      split at h
      · rename_i ht; cases h; exact ⟨rfl, ht⟩
      · cases h
    · rintro ⟨rfl, ht⟩; rw [if_pos ht]
  rw [setAttr_child S hT narrow a k c i hk hf hc hkc hn v hv p]
  constructor
  · intro S' h
    cases has : assign narrow v p <;> rw [has] at h <;> try cases h
    rename_i w
    obtain ⟨h1, h2⟩ := (ha w).1 has
    exact ⟨⟨w, h1, h2, if_pos rfl⟩, fun b hb => if_neg hb, rfl, rfl, rfl⟩
  · constructor
    · rintro ⟨S', h⟩
      cases has : assign narrow v p <;> rw [has] at h <;> try cases h
      exact ⟨_, (ha _).1 has⟩
    · rintro ⟨w, hw⟩
      rw [(ha w).2 hw]
      exact ⟨_, rfl⟩

/-- **C122.** An `int` assigned to an integer field is its value afterwards, if it is in the range of the
kind; otherwise an exception is raised. -/
theorem C122_set_int (S : Sim) (hT : Wf S.tree) (narrow : Fl → Fl) (a : Addr) (k c : Node) (i : Nat)
    (hk : get S.tree a = some k) (hf : k.kind.isField = false) (hc : k.children[i]? = some c)
    (hkc : c.kind.named = true) (hn : AttrName c.name) (t : Verif.Any.Kind) (ht : t.isInt) (v m : Int)
    (hv : S.val (i :: a) = some ⟨t, .int v⟩) :
    (t.Range m → ∃ S', S.setAttr narrow a c.name (.py (.int m)) = .ok S' ∧
      S'.val (i :: a) = some ⟨t, .int m⟩ ∧ ∀ b, b ≠ i :: a → S'.val b = S.val b) ∧
    (¬ t.Range m → S.setAttr narrow a c.name (.py (.int m)) = .failed .castError) := by
  obtain ⟨h1, h2⟩ := Value.C118_int narrow t ht m
  rw [setAttr_child S hT narrow a k c i hk hf hc hkc hn _ hv]
  unfold assign
  constructor
  · intro hr
    rw [(h1 hr).1]
    dsimp only [Res.bind, store]
    rw [if_pos rfl]
    exact ⟨_, rfl, if_pos rfl, fun b hb => if_neg hb⟩
  · intro hr
    rw [h2 hr]
    rfl

example : (Verif.Any.Kind.Int32).isInt ∧ (Verif.Any.Kind.Int32).Range 7 ∧ ¬ (Verif.Any.Kind.Int32).Range (2 ^ 31) ∧
    sim.val [0, 0] = some ⟨.Int32, .int 5⟩ := by
  refine ⟨by decide, by simp [Kind.Range], by simp [Kind.Range], rfl⟩

/-- **C122.** A misspelt name is never stored: assigning to a name that leads nowhere raises
`AttributeError`. -/
theorem C122_typo (S : Sim) (narrow : Fl → Fl) (a : Addr) (k : Node)
    (hk : get S.tree a = some k) (hf : k.kind.isField = false) (n : Str) (hn : AttrName n)
    (h : ¬ ∃ b, Step S.tree S.refs a n b) (x : Val) : S.setAttr narrow a n x = .attributeError := by
  have : Resolve S.tree S.refs a n = none := by
    rw [Resolve_name hn]
    cases hc : (cands S.tree S.refs .obj a false n).head? with
    | none => rfl
    | some x => exact absurd ⟨_, cands_step S.refs hk hf hn.ne_dots (List.mem_of_head? hc)⟩ h
  unfold Sim.setAttr Sim.setValue
  rw [this]

example : ¬ ∃ b, Step sim.tree sim.refs [0] "y".toList b := by
  have h := C122_get_partial sim tree_wf [0] inst_component _ rfl rfl "y".toList
    ⟨by decide, by decide⟩ (no_method inst_component (by decide +kernel))
  exact h.2.1.1 (by decide +kernel)

/-- **C122.** `component.name += m` adds to an integer field, once, if the sum is in the range of the kind;
otherwise an exception is raised and the field keeps its value. -/
theorem C122_add (S : Sim) (hT : Wf S.tree) (narrow : Fl → Fl) (a : Addr) (hl : Lawful (S.inst a))
    (k c : Node) (i : Nat)
    (hk : get S.tree a = some k) (hf : k.kind.isField = false) (hc : k.children[i]? = some c)
    (hkc : c.kind.named = true) (hn : AttrName c.name) (hm : ¬ HasMethod S a c.name)
    (t : Verif.Any.Kind) (ht : t.isInt) (v m : Int) (hr : t.Range v)
    (hv : S.val (i :: a) = some ⟨t, .int v⟩) :
    (t.Range (v + m) → ∃ S', S.addAttr narrow a c.name m = some (.ok S') ∧
      S'.val (i :: a) = some ⟨t, .int (v + m)⟩ ∧ ∀ b, b ≠ i :: a → S'.val b = S.val b) ∧
    (¬ t.Range (v + m) → S.addAttr narrow a c.name m = some (.failed .castError)) := by
  have hp : plus ⟨t, .int v⟩ m = .ok (.int (v + m)) := by
    unfold plus
    rw [((Value.C118_int narrow t ht v).1 hr).2]
    rfl
  have h : S.addAttr narrow a c.name m = some (S.setAttr narrow a c.name (.py (.int (v + m)))) := by
    unfold Sim.addAttr
    rw [C122_child S hT a hl k c i hk hf hc hkc hn hm]
    dsimp only
    rw [hv]
    dsimp only
    rw [hp]
  have := C122_set_int S hT narrow a k c i hk hf hc hkc hn t ht v (v + m) hv
  rw [h]
  refine ⟨fun hr' => ?_, fun hr' => ?_⟩
  · obtain ⟨S', h1, h2, h3⟩ := this.1 hr'
    exact ⟨S', by rw [h1], h2, h3⟩
  · rw [this.2 hr']

example : ∃ S', sim.addAttr id [0] "x".toList 2 = some (.ok S') ∧
    S'.val [0, 0] = some ⟨.Int32, .int 7⟩ := by
  have h := (C122_add sim tree_wf id [0] inst_component (.mk .component "A".toList _)
    (.mk .simpleField "x".toList []) 0 rfl rfl rfl rfl ⟨by decide, by decide⟩
    (no_method inst_component (by decide +kernel)) .Int32 (by decide) 5 2
    (by simp [Verif.Any.Kind.Range]) rfl).1 (by simp [Verif.Any.Kind.Range])
  obtain ⟨S', h1, h2, _⟩ := h
  exact ⟨S', h1, h2⟩

/-- **C122.** `component.source += sink`, `component._container += component`: the effect of `__iadd__`,
and no exception from the assignment that Python adds, provided the name still leads to the object. -/
theorem C122_iadd (S : Sim) (narrow : Fl → Fl) (a b : Addr) (n : Str)
    (hg : S.getAttr a n = .object b) (effect : Sim → Sim)
    (he : Resolve (effect S).tree (effect S).refs a n = some b) :
    S.iaddAttr narrow a n effect = some (.ok (effect S)) := by
  unfold Sim.iaddAttr
  rw [hg]
  dsimp only
  unfold Sim.setAttr Sim.setValue
  rw [he]
  dsimp only
  rw [if_pos (by unfold Sim.setValue.isObj; simp)]

example : sim.getAttr [0] "_kids".toList = .object [3, 0] ∧
    Resolve sim.tree sim.refs [0] "_kids".toList = some [3, 0] := by decide +kernel

/-! ### Where it fails -/

/-- **C122 fails** for fields: as an attribute of a field, every name that is not a method leads to the
field itself. `component.structure.member` is `component.structure`, a misspelt name raises no
exception, and `component.field.name = value` changes the field, whatever the name. -/
theorem C122_member_fails (S : Sim) (hT : Wf S.tree) (a : Addr) (hl : Lawful (S.inst a)) (k : Node)
    (hk : get S.tree a = some k) (hf : k.kind.isField = true) (n : Str) (hn : AttrName n) :
    (¬ HasMethod S a n → S.getAttr a n = .object a) ∧
    ∀ narrow v p w, S.val a = some v → assign narrow v p = .ok w →
      ∃ S', S.setAttr narrow a n (.py p) = .ok S' ∧ S'.val a = some w := by
  have hr := Resolve_field hT S.refs hk hf hn
  refine ⟨fun hm => ?_, fun narrow v p w hv hw => ?_⟩
  · unfold Sim.getAttr
    rw [if_neg (by rw [hides_false S a hl n hm]; decide), hr]
  · have hs : S.setValue narrow a n (.py p) = .set a w := by
      unfold Sim.setValue
      rw [hr]
      dsimp only
      rw [if_neg (fun h => nomatch h), hv]
      dsimp only
      show (match assign narrow v p with | .ok w => _ | e => _) = _
      rw [hw]
    unfold Sim.setAttr
    rw [hs]
    exact ⟨_, rfl, if_pos rfl⟩

/-- In the example, `A.s.b` is `A.s` though the structure has a member `b`. -/
example : Step sim.tree sim.refs [1, 0] "b".toList [0, 1, 0] ∧ ¬ HasMethod sim [1, 0] "b".toList ∧
    sim.getAttr [1, 0] "b".toList = .object [1, 0] :=
  ⟨.child (n := .mk .structField "s".toList [.mk .simpleField "b".toList []]) (i := 0)
    (c := .mk .simpleField "b".toList []) rfl rfl rfl rfl,
    no_method inst_struct (by decide +kernel), by decide +kernel⟩

/-- In the example, `A.x.anything = 7` sets `A.x`. -/
example : ∃ S', sim.setAttr id [0, 0] "anything".toList (.py (.int 7)) = .ok S' ∧
    S'.val [0, 0] = some ⟨.Int32, .int 7⟩ :=
  (C122_member_fails sim tree_wf [0, 0] inst_simple (.mk .simpleField "x".toList []) rfl rfl
    "anything".toList ⟨by decide, by decide⟩).2 id ⟨.Int32, .int 5⟩ (.int 7) ⟨.Int32, .int 7⟩ rfl (by
      unfold assign
      rw [((Value.C118_int id .Int32 (by decide) 7).1 (by simp [Verif.Any.Kind.Range])).1]
      rfl)

/-- **C122 fails** for names of methods: a field called `GetState` is not the attribute of that name,
though the name leads to it and it can be assigned. -/
theorem C122_hidden_fails : Wf sim.tree ∧ Lawful (sim.inst [0]) ∧ AttrName "GetState".toList ∧
    Step sim.tree sim.refs [0] "GetState".toList [2, 0] ∧
    sim.getAttr [0] "GetState".toList = .method ∧
    ∃ S', sim.setAttr id [0] "GetState".toList (.py (.int 1)) = .ok S' ∧
      S'.val [2, 0] = some ⟨.UInt8, .int 1⟩ := by
  refine ⟨tree_wf, inst_component, ⟨by decide, by decide⟩, ?_, by decide +kernel, ?_⟩
  · refine .child (n := (get tree [0]).get rfl) (i := 2) (c := .mk .simpleField "GetState".toList []) ?_
      rfl rfl rfl
    exact (Option.some_get _).symm
  · obtain ⟨S', h, h2, _⟩ := (C122_set_int sim tree_wf id [0] ((get tree [0]).get rfl)
      (.mk .simpleField "GetState".toList []) 2 (Option.some_get _).symm rfl rfl rfl
      ⟨by decide, by decide⟩ .UInt8 (by decide) 0 1 rfl).1 (by simp [Verif.Any.Kind.Range])
    exact ⟨S', h, h2⟩

/-- **C122 fails** for `None`: `object[None]` dereferences a null pointer. -/
theorem C122_none_fails (S : Sim) (a : Addr) (hl : Lawful (S.inst a)) (hi : ¬ HasItems (S.inst a)) :
    S.getItem a none = .ub := by
  unfold Sim.getItem
  rw [provider_object S a hl hi]

example : ¬ HasItems (sim.inst [0]) := by unfold HasItems; decide

/-- **C122 fails** for structures and arrays: assigning to them raises `AttributeError`, though the
attribute exists. -/
theorem C122_assign_fails (S : Sim) (hT : Wf S.tree) (narrow : Fl → Fl) (a : Addr) (k c : Node) (i : Nat)
    (hk : get S.tree a = some k) (hf : k.kind.isField = false) (hc : k.children[i]? = some c)
    (hkc : c.kind.named = true) (hn : AttrName c.name) (hv : S.val (i :: a) = none) (p : Py) :
    S.setAttr narrow a c.name (.py p) = .attributeError := by
  unfold Sim.setAttr Sim.setValue
  rw [Resolve_child hT S.refs hk hf hc hkc hn]
  dsimp only
  rw [if_neg (fun h => nomatch h), hv]

example : sim.val [1, 0] = none ∧ sim.getAttr [0] "s".toList = .object [1, 0] :=
  ⟨rfl, by decide +kernel⟩

end Verif.Python.Attr
