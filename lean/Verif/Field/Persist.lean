import Verif.Persist.Lemmas

/-! Storing and restoring fields: `Store`/`Restore` of include/Xsmp/Field.h, src/Xsmp/Field.cpp and
src/Xsmp/Publication/Field.cpp. Property C73. -/
namespace Verif.Field.Saved
open Verif.Persist (readInto)

/-- A field, as far as it is stored. `state` is `IsState` (no `transient` annotation).
`forced`/`failed`: the flags of the fields that are forcible or failures. -/
inductive PField
  /-- a simple field or an array of simple items: the bytes of its value (Field.h:435, 812,
  Publication/Field.cpp:493, 644) -/
  | leaf (state : Bool) (value : List Nat) (forced failed : Option Bool)
  /-- an array or a structure of fields -/
  | node (state : Bool) (items : List PField) (failed : Option Bool)

/-- `AbstractForcibleField::Store` (Field.cpp:536-539), `Failure::Store` (Field.cpp:352-354):
`sizeof(bool)` is 1. -/
def storeFlag : Option Bool → List Nat
  | none => []
  | some b => [if b then 1 else 0]

/-- `AbstractForcibleField::Restore` (Field.cpp:531-534), `Failure::Restore`
(Field.cpp:348-350). -/
def restoreFlag : Option Bool → List Nat → Option Bool × Option (List Nat)
  | none, s => (none, some s)
  | some b, [] => (some b, none)
  | some _, x :: s => (some (x != 0), some s)

mutual
/-- `Store`: Field.h:443-453 (value, forced, failed), 608-615 and 1156-1162 (items, failed),
816-822 (array of simple items); Publication/Field.cpp:470-476, 497-501, 651-659, 829-835. -/
def store : PField → List Nat
  | .leaf st v fo fa => if st then v ++ storeFlag fo ++ storeFlag fa else []
  | .node st items fa => if st then storeAll items ++ storeFlag fa else []
/-- The loop over the fields inside (Field.h:600-607, 1149-1155). -/
def storeAll : List PField → List Nat
  | [] => []
  | x :: xs => store x ++ storeAll xs
end

mutual
/-- `Restore`: Field.h:432-442, 600-607, 809-815, 1149-1155; Publication/Field.cpp:462-468,
491-495, 641-649, 821-827. `none`: the reader has raised an exception. -/
def restore : PField → List Nat → PField × Option (List Nat)
  | .leaf st v fo fa => fun s =>
    if st then
      match readInto v v.length s with
      | (v, none) => (.leaf st v fo fa, none)
      | (v, some s) => match restoreFlag fo s with
        | (fo, none) => (.leaf st v fo fa, none)
        | (fo, some s) => match restoreFlag fa s with
          | (fa, r) => (.leaf st v fo fa, r)
    else (.leaf st v fo fa, some s)
  | .node st items fa => fun s =>
    if st then
      match restoreAll items s with
      | (items, none) => (.node st items fa, none)
      | (items, some s) => match restoreFlag fa s with
        | (fa, r) => (.node st items fa, r)
    else (.node st items fa, some s)
/-- The loop over the fields inside (Field.h:608-615, 1156-1162). -/
def restoreAll : List PField → List Nat → List PField × Option (List Nat)
  | [] => fun s => ([], some s)
  | x :: xs => fun s => match restore x s with
    | (x, none) => (x :: xs, none)
    | (x, some s) => match restoreAll xs s with
      | (xs, r) => (x :: xs, r)
end

/-! ### Specification -/

mutual
/-- The same declaration: same structure, annotations and sizes; the values may differ. -/
def Alike : PField → PField → Prop
  | .leaf st v fo fa => fun b => match b with
    | .leaf st' v' fo' fa' =>
      st = st' ∧ v.length = v'.length ∧ fo.isSome = fo'.isSome ∧ fa.isSome = fa'.isSome
    | .node .. => False
  | .node st items fa => fun b => match b with
    | .leaf .. => False
    | .node st' items' fa' => st = st' ∧ AlikeAll items items' ∧ fa.isSome = fa'.isSome
def AlikeAll : List PField → List PField → Prop
  | [] => fun ys => ys = []
  | x :: xs => fun ys => match ys with
    | [] => False
    | y :: ys => Alike x y ∧ AlikeAll xs ys
end

mutual
/-- `a` where the fields are part of the state, `b` where they are transient. -/
def merge : PField → PField → PField
  | .leaf st v fo fa => fun b => if st then .leaf st v fo fa else b
  | .node st items fa => fun b => match b with
    | .leaf .. => .node st items fa
    | .node _ items' _ => if st then .node st (mergeAll items items') fa else b
def mergeAll : List PField → List PField → List PField
  | [] => fun _ => []
  | x :: xs => fun ys => match ys with
    | [] => x :: xs
    | y :: ys => merge x y :: mergeAll xs ys
end

mutual
/-- No transient field. -/
def AllState : PField → Prop
  | .leaf st _ _ _ => st = true
  | .node st items _ => st = true ∧ AllStates items
def AllStates : List PField → Prop
  | [] => True
  | x :: xs => AllState x ∧ AllStates xs
end

/-! ### Properties -/

theorem restoreFlag_append (a b : Option Bool) (rest : List Nat) (h : a.isSome = b.isSome) :
    restoreFlag b (storeFlag a ++ rest) = (a, some rest) := by
  cases a <;> cases b <;> simp at h
  · rfl
  · rename_i x y; cases x <;> rfl

mutual
/-- C73. Restoring a field, or an array or structure of fields, from what was stored gives back
the value and the forced and failed flags of every field that is part of the state, leaves the
transient ones as they are, and consumes exactly the bytes stored. -/
theorem C73_roundTrip : ∀ (new old : PField) (rest : List Nat), Alike new old →
    restore old (store new ++ rest) = (merge new old, some rest)
  | .leaf st v fo fa => by
    intro old rest h
    cases old with
    | node => simp [Alike] at h
    | leaf st' v' fo' fa' =>
      simp only [Alike] at h
      obtain ⟨rfl, h1, h2, h3⟩ := h
      cases st with
      | false => simp [store, restore, merge]
      | true =>
        simp only [store, restore, merge, if_true, List.append_assoc]
        rw [Verif.Persist.readInto_append _ h1 (by omega)]
        simp only
        rw [restoreFlag_append _ _ _ h2]
        simp only
        rw [restoreFlag_append _ _ _ h3]
  | .node st items fa => by
    intro old rest h
    cases old with
    | leaf => simp [Alike] at h
    | node st' items' fa' =>
      simp only [Alike] at h
      obtain ⟨rfl, h1, h2⟩ := h
      cases st with
      | false => simp [store, restore, merge]
      | true =>
        simp only [store, restore, merge, if_true, List.append_assoc]
        rw [C73_roundTrip_all items items' _ h1]
        simp only
        rw [restoreFlag_append _ _ _ h2]
/-- C73 for a list of fields, stored one after the other. -/
theorem C73_roundTrip_all : ∀ (new old : List PField) (rest : List Nat), AlikeAll new old →
    restoreAll old (storeAll new ++ rest) = (mergeAll new old, some rest)
  | [] => by
    intro old rest h
    simp only [AlikeAll] at h
    subst h
    simp [storeAll, restoreAll, mergeAll]
  | x :: xs => by
    intro old rest h
    cases old with
    | nil => simp [AlikeAll] at h
    | cons y ys =>
      simp only [AlikeAll] at h
      simp only [storeAll, restoreAll, mergeAll, List.append_assoc]
      rw [C73_roundTrip x y _ h.1]
      simp only
      rw [C73_roundTrip_all xs ys _ h.2]
end

mutual
theorem merge_all : ∀ new old, Alike new old → AllState new → merge new old = new
  | .leaf st v fo fa => by
    intro old _ h
    simp only [AllState] at h
    simp [merge, h]
  | .node st items fa => by
    intro old h1 h2
    cases old with
    | leaf => simp [Alike] at h1
    | node st' items' fa' =>
      simp only [Alike] at h1
      simp only [AllState] at h2
      simp only [merge, h2.1, if_true, mergeAll_all items items' h1.2.1 h2.2]
theorem mergeAll_all : ∀ new old, AlikeAll new old → AllStates new → mergeAll new old = new
  | [] => by intro old _ _; simp [mergeAll]
  | x :: xs => by
    intro old h1 h2
    cases old with
    | nil => simp [AlikeAll] at h1
    | cons y ys =>
      simp only [AlikeAll] at h1
      simp only [AllStates] at h2
      simp only [mergeAll, merge_all x y h1.1 h2.1, mergeAll_all xs ys h1.2 h2.2]
end

/-- C73. Without transient fields, everything is given back. -/
theorem C73_exact (new old : PField) (rest : List Nat) (h : Alike new old) (hs : AllState new) :
    restore old (store new ++ rest) = (new, some rest) := by
  rw [C73_roundTrip new old rest h, merge_all new old h hs]

/-! ### Truncated data -/

theorem readInto_mono {buf s b r : List Nat} {n : Nat} (q : List Nat)
    (h : readInto buf n s = (b, some r)) : readInto buf n (s ++ q) = (b, some (r ++ q)) := by
  unfold readInto at h ⊢
  split at h
  · rename_i hn
    cases h
    rw [if_pos (by simp; omega), List.take_append_of_le_length hn,
      List.drop_append_of_le_length hn]
  · cases h

theorem restoreFlag_mono {o p : Option Bool} {s r : List Nat} (q : List Nat)
    (h : restoreFlag o s = (p, some r)) : restoreFlag o (s ++ q) = (p, some (r ++ q)) := by
  cases o with
  | none => simp only [restoreFlag, Prod.mk.injEq, Option.some.injEq] at h ⊢; simp [h]
  | some b =>
    cases s with
    | nil => simp [restoreFlag] at h
    | cons x s =>
      simp only [restoreFlag, List.cons_append, Prod.mk.injEq, Option.some.injEq] at h ⊢
      simp [h]

mutual
theorem restore_mono (q : List Nat) : ∀ (a : PField) (s r : List Nat) (b : PField),
    restore a s = (b, some r) → restore a (s ++ q) = (b, some (r ++ q))
  | .leaf st v fo fa => by
    intro s r b h
    cases st with
    | false =>
      simp only [restore, Bool.false_eq_true, if_false, Prod.mk.injEq, Option.some.injEq] at h ⊢
      simp [h]
    | true =>
      simp only [restore, if_true] at h ⊢
      cases h1 : readInto v v.length s with
      | mk v1 o1 =>
        cases o1 with
        | none => simp [h1] at h
        | some s1 =>
          rw [h1] at h
          rw [readInto_mono q h1]
          simp only at h ⊢
          cases h2 : restoreFlag fo s1 with
          | mk fo1 o2 =>
            cases o2 with
            | none => simp [h2] at h
            | some s2 =>
              rw [h2] at h
              rw [restoreFlag_mono q h2]
              simp only at h ⊢
              cases h3 : restoreFlag fa s2 with
              | mk fa1 o3 =>
                rw [h3] at h
                simp only [Prod.mk.injEq] at h
                obtain ⟨rfl, rfl⟩ := h
                rw [restoreFlag_mono q h3]
  | .node st items fa => by
    intro s r b h
    cases st with
    | false =>
      simp only [restore, Bool.false_eq_true, if_false, Prod.mk.injEq, Option.some.injEq] at h ⊢
      simp [h]
    | true =>
      simp only [restore, if_true] at h ⊢
      cases h1 : restoreAll items s with
      | mk i1 o1 =>
        cases o1 with
        | none => simp [h1] at h
        | some s1 =>
          rw [h1] at h
          rw [restoreAll_mono q items s s1 i1 h1]
          simp only at h ⊢
          cases h3 : restoreFlag fa s1 with
          | mk fa1 o3 =>
            rw [h3] at h
            simp only [Prod.mk.injEq] at h
            obtain ⟨rfl, rfl⟩ := h
            rw [restoreFlag_mono q h3]
theorem restoreAll_mono (q : List Nat) : ∀ (a : List PField) (s r : List Nat) (b : List PField),
    restoreAll a s = (b, some r) → restoreAll a (s ++ q) = (b, some (r ++ q))
  | [] => by
    intro s r b h
    simp only [restoreAll, Prod.mk.injEq, Option.some.injEq] at h ⊢
    simp [h]
  | x :: xs => by
    intro s r b h
    simp only [restoreAll] at h ⊢
    cases h1 : restore x s with
    | mk x1 o1 =>
      cases o1 with
      | none => simp [h1] at h
      | some s1 =>
        rw [h1] at h
        rw [restore_mono q x s s1 x1 h1]
        simp only at h ⊢
        cases h2 : restoreAll xs s1 with
        | mk xs1 o2 =>
          rw [h2] at h
          simp only [Prod.mk.injEq] at h
          obtain ⟨rfl, rfl⟩ := h
          rw [restoreAll_mono q xs s1 r xs1 h2]
end

/-- C73. Restoring from data that ends before the end of what was stored raises an exception,
wherever it is cut. -/
theorem C73_truncated (new old : PField) (p q : List Nat) (h : Alike new old)
    (hp : p ++ q = store new) (hq : q ≠ []) : (restore old p).2 = none := by
  cases hr : restore old p with
  | mk x o =>
    cases o with
    | none => rfl
    | some r =>
      have h1 := restore_mono q old p r x hr
      have h2 := C73_roundTrip new old [] h
      rw [List.append_nil, ← hp, h1] at h2
      simp only [Prod.mk.injEq, Option.some.injEq, List.append_eq_nil_iff] at h2
      exact absurd h2.2.2 hq

/-- A structure of a forced field, a transient one and an array with a failed item. -/
def demoField (a b c d : Nat) (f g : Bool) : PField :=
  .node true [.leaf true [a, b] (some f) none, .leaf false [c] none none,
    .node true [.leaf true [d] none (some g), .leaf true [7] none (some false)] none] none

example : Alike (demoField 1 2 3 4 true true) (demoField 0 0 9 0 false false) := by
  simp [Alike, AlikeAll, demoField]
example : store (demoField 1 2 3 4 true true) = [1, 2, 1, 4, 1, 7, 0] := by decide
example : restore (demoField 0 0 9 0 false false) [1, 2, 1, 4, 1, 7, 0, 5] =
    (demoField 1 2 9 4 true true, some [5]) := rfl

end Verif.Field.Saved
