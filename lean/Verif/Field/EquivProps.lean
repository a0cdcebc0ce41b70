import Verif.Field.TreeProps

/-! Property C145: which fields may be connected. -/
namespace Verif.Field
open Verif.Any (Kind Fl Val Any Out)

/-! ### Specification -/

/-- The type of a field without the names: the primitive type of a simple field, the number and
the primitive type of the items of an array of simple values, the types of the fields inside an
array or a structure. -/
inductive Shape
  | simple (k : Kind)
  | sarray (size : Nat) (k : Kind)
  | node (struct : Bool) (items : List Shape)

mutual
/-- The shape of a field, given what counts as the primitive type of an array. -/
def shape (kindOf : Arr → Kind) (w : World) : FTree → Shape
  | .simple i => .simple (w.net i).kind
  | .sarray i => .sarray (w.arrs i).values.length (kindOf (w.arrs i))
  | .node s _ ts => .node s (shapes kindOf w ts)
def shapes (kindOf : Arr → Kind) (w : World) : List FTree → List Shape
  | [] => []
  | t :: ts => shape kindOf w t :: shapes kindOf w ts
end

mutual
/-- All the arrays of simple values in the field are of the class `s`. -/
def AllStyle (s : Style → Prop) (w : World) : FTree → Prop
  | .simple _ => True
  | .sarray i => s (w.arrs i).style
  | .node _ _ ts => AllStyles s w ts
def AllStyles (s : Style → Prop) (w : World) : List FTree → Prop
  | [] => True
  | t :: ts => AllStyle s w t ∧ AllStyles s w ts
end

/-- What the code takes as the primitive type of an array: the one of its type, which is none
for the arrays of a named array type. -/
def declaredKind (c : Arr) : Kind := if c.style = .anonymous then c.kind else .None

/-! ### Lemmas -/

mutual
theorem equivalent_shape (w : World) : ∀ t u, equivalent w t u = true ↔
    shape declaredKind w t = shape declaredKind w u
  | .simple i => by
    intro u; cases u <;> simp only [equivalent, shape, beq_iff_eq, Shape.simple.injEq, reduceCtorEq,
      Bool.false_eq_true]
    exact eq_comm
  | .sarray i => by
    intro u
    cases u <;> simp only [equivalent, shape, Arr.equivalent, Bool.and_eq_true, beq_iff_eq,
      Shape.sarray.injEq, reduceCtorEq, Bool.false_eq_true]
    exact and_congr eq_comm eq_comm
  | .node s id ts => by
    intro u
    cases u with
    | simple => simp [equivalent, shape]
    | sarray => simp [equivalent, shape]
    | node s' id' us =>
      have := equivalents_shapes w ts us
      simp [equivalent, shape, this]
theorem equivalents_shapes (w : World) : ∀ ts us, equivalents w ts us = true ↔
    shapes declaredKind w ts = shapes declaredKind w us
  | [] => by intro us; cases us <;> simp [equivalents, shapes]
  | t :: ts => by
    intro us
    cases us with
    | nil => simp [equivalents, shapes]
    | cons u us =>
      have h1 := equivalent_shape w t u
      have h2 := equivalents_shapes w ts us
      simp [equivalents, shapes, h1, h2]
end

mutual
theorem shape_anonymous (w : World) : ∀ t, AllStyle (· = .anonymous) w t →
    shape declaredKind w t = shape Arr.kind w t
  | .simple i => by simp [shape]
  | .sarray i => by intro h; simp only [AllStyle] at h; simp [shape, declaredKind, h]
  | .node s id ts => by
    intro h
    simp only [AllStyle] at h
    simp [shape, shapes_anonymous w ts h]
theorem shapes_anonymous (w : World) : ∀ ts, AllStyles (· = .anonymous) w ts →
    shapes declaredKind w ts = shapes Arr.kind w ts
  | [] => by simp [shapes]
  | t :: ts => by
    intro h
    simp only [AllStyles] at h
    simp [shapes, shape_anonymous w t h.1, shapes_anonymous w ts h.2]
end

mutual
theorem shape_none (w : World) : ∀ t, AllStyle (fun _ => False) w t →
    shape declaredKind w t = shape Arr.kind w t
  | .simple i => by simp [shape]
  | .sarray i => by intro h; exact h.elim
  | .node s id ts => by
    intro h
    simp only [AllStyle] at h
    simp [shape, shapes_none w ts h]
theorem shapes_none (w : World) : ∀ ts, AllStyles (fun _ => False) w ts →
    shapes declaredKind w ts = shapes Arr.kind w ts
  | [] => by simp [shapes]
  | t :: ts => by
    intro h
    simp only [AllStyles] at h
    simp [shapes, shape_none w t h.1, shapes_none w ts h.2]
end

/-! ### C145 -/

/-- C145. `AreEquivalent` is an equivalence on all fields, of any depth. -/
theorem C145_equivalence (w : World) (t u v : FTree) :
    equivalent w t t = true ∧
    (equivalent w t u = true → equivalent w u t = true) ∧
    (equivalent w t u = true → equivalent w u v = true → equivalent w t v = true) := by
  simp only [equivalent_shape]
  exact ⟨trivial, Eq.symm, Eq.trans⟩

/-- C145. Two fields are equivalent exactly if they have the same shape, with, for an array of
simple values, the primitive type of its type: none unless it is an anonymous array. -/
theorem C145_declared (w : World) (t u : FTree) :
    equivalent w t u = true ↔ shape declaredKind w t = shape declaredKind w u :=
  equivalent_shape w t u

/-- C145, when the fields have no array of simple values of a named type (no array of simple
values at all, or published through `PublishArray` only): exactly the fields of the same shape are
equivalent. With named array types it is false: `C145_kinds_fails`, `C145_anonymous_fails`. -/
theorem C145_shape_partial (w : World) (t u : FTree)
    (ht : AllStyle (fun _ => False) w t ∨ AllStyle (· = .anonymous) w t)
    (hu : AllStyle (fun _ => False) w u ∨ AllStyle (· = .anonymous) w u) :
    equivalent w t u = true ↔ shape Arr.kind w t = shape Arr.kind w u := by
  rw [equivalent_shape, ht.elim (shape_none w t) (shape_anonymous w t),
    hu.elim (shape_none w u) (shape_anonymous w u)]

/-- Fields that differ in shape, other than in the item types of arrays, are never connected:
`Connect` raises and changes nothing. -/
theorem C145_refused (narrow : Fl → Fl) (f : Nat) (w : World) (t u : FTree)
    (h : shape declaredKind w t ≠ shape declaredKind w u) :
    wconnect narrow f w t u = .raised w := by
  have : equivalent w t u = false := by
    cases he : equivalent w t u with
    | false => rfl
    | true => exact absurd ((equivalent_shape w t u).1 he) h
  simp [wconnect, this]

/-- C145 in full is false for arrays of a named type: whatever their item types are, those of the
same size are equivalent. -/
theorem C145_kinds_fails (w : World) (i j : Nat) (hi : (w.arrs i).style ≠ .anonymous)
    (hj : (w.arrs j).style ≠ .anonymous)
    (hl : (w.arrs i).values.length = (w.arrs j).values.length) :
    equivalent w (.sarray i) (.sarray j) = true := by
  rw [equivalent_shape]
  simp [shape, declaredKind, hi, hj, hl]

/-- In the other direction: an array published without a type and one of a named type are not
equivalent, although sizes and items are the same. -/
theorem C145_anonymous_fails (w : World) (i j : Nat) (hi : (w.arrs i).style = .anonymous)
    (hj : (w.arrs j).style ≠ .anonymous) (hk : (w.arrs i).kind ≠ .None) :
    equivalent w (.sarray i) (.sarray j) = false := by
  cases he : equivalent w (.sarray i) (.sarray j) with
  | false => rfl
  | true =>
    rw [equivalent_shape] at he
    simp [shape, declaredKind, hi, hj] at he
    exact absurd he.2 hk

/-- Consequence: connecting an array of numbers to one of strings is not refused as it should be.
`Connect` raises when the first value is pushed and leaves the connection: the next write of the
output raises again. -/
theorem C145_connect_fails (narrow : Fl → Fl) :
    ∃ (w m k : World), (w.arrs 0).kind = .Int32 ∧ (w.arrs 1).kind = .String8 ∧
      (w.arrs 0).targets = [] ∧
      wconnect narrow 5 w (.sarray 0) (.sarray 1) = .raised m ∧ (m.arrs 0).targets = [1] ∧
      (awrite narrow m.arrs 0 0 (.int 3)).world m = .raised k := by
  refine ⟨{ demoWorld with arrs := fun i => if i = 0 then
      ⟨.plain, .Int32, none, true, true, true, [.int 1], []⟩ else
      ⟨.plain, .String8, some 4, true, true, true, [.str (some [])], []⟩ },
    _, _, rfl, rfl, rfl, rfl, rfl, rfl⟩

/-- The fields of structures are paired by their position, whatever their names: with the names
`x`, `y` of the output and `y`, `x` of the input, `x` is connected to `y`. -/
theorem C145_names_fails (narrow : Fl → Fl) :
    ∃ (w m : World) (name : Nat → String), name 0 = "x" ∧ name 1 = "y" ∧ name 10 = "y" ∧
      name 11 = "x" ∧
      wconnect narrow 5 w (.node true 0 [.simple 0, .simple 1])
        (.node true 10 [.simple 10, .simple 11]) = .ok m ∧
      (m.net 0).targets = [10] ∧ (m.net 1).targets = [11] :=
  ⟨{ demoWorld with net := fun i => ⟨.Int32, 0, 10 ≤ i, i < 10, i < 10, false, none, .int i,
      false, []⟩ }, _, fun i => if i = 0 ∨ i = 11 then "x" else "y", by decide, by decide,
    by decide, by decide, rfl, rfl, rfl⟩

/-- The hypotheses of `C145_shape_partial`: structures with an anonymous array, of the same shape
and of another one. -/
def demoShapes : World :=
  { demoWorld with arrs := fun i =>
      ⟨.anonymous, if i = 2 then .Float64 else .Int32, none, true, true, false,
        [.int 1, .int 2], []⟩ }

example : AllStyle (· = .anonymous) demoShapes (.node true 0 [.simple 0, .sarray 0]) ∧
    equivalent demoShapes (.node true 0 [.simple 0, .sarray 0])
      (.node true 1 [.simple 1, .sarray 1]) = true ∧
    equivalent demoShapes (.node true 0 [.simple 0, .sarray 0])
      (.node true 1 [.simple 1, .sarray 2]) = false ∧
    equivalent demoShapes (.node true 0 [.simple 0, .sarray 0])
      (.node false 1 [.simple 1, .sarray 1]) = false := by
  refine ⟨?_, by decide, by decide, by decide⟩
  simp [AllStyle, AllStyles, demoShapes]

/-- The hypotheses of `C145_kinds_fails` and `C145_anonymous_fails`. -/
example : ∃ w : World, (w.arrs 0).style ≠ .anonymous ∧ (w.arrs 1).style ≠ .anonymous ∧
    (w.arrs 0).values.length = (w.arrs 1).values.length ∧ (w.arrs 0).kind ≠ (w.arrs 1).kind ∧
    (w.arrs 2).style = .anonymous ∧ (w.arrs 2).kind = (w.arrs 0).kind ∧
    (w.arrs 2).kind ≠ .None ∧ shape Arr.kind w (.sarray 2) = shape Arr.kind w (.sarray 0) :=
  ⟨{ demoWorld with arrs := fun i =>
      ⟨if i = 2 then .anonymous else .plain, if i = 1 then .Float64 else .Int32, none, true, true,
        false, [.int 1, .int 2], []⟩ }, by decide, by decide, by decide, by decide, by decide,
    by decide, by decide, by simp [shape]⟩

end Verif.Field
