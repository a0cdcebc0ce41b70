import Verif.Mem.LayoutLemmas

/-! Where published fields are (C83) and that publishing ends (C84). -/
namespace Verif.Mem
open Verif.Any (Kind)
open Verif.Path (Str Grammar)
open Verif.Pub (Uuid primUuid voidUuid)

/-! A registry with an array of two structures `{Int32 x; Int16 y[3];}`. -/

def exFl : Flags := ⟨0, true, false, false⟩

def exT : Types
  | 5 => some (.simple ⟨.Int16, none, 0⟩)
  | 6 => some (.simple ⟨.Int32, none, 0⟩)
  | 100 => some (.array 5 2 3 true)
  | 101 => some (.struct [⟨['x'], 6, 0, exFl⟩, ⟨['y'], 100, 4, ⟨1, false, true, false⟩⟩])
  | 102 => some (.array 101 12 2 false)
  | _ => none

theorem exT_sized : Sized exT 102 24 :=
  .array (isz := 12) rfl
    (.struct (fun fd => if fd.uuid = 6 then 4 else 6) rfl
      (by
        intro fd h
        simp only [List.mem_cons, List.not_mem_nil, or_false] at h
        rcases h with rfl | rfl
        · exact .simple rfl (by decide)
        · exact .array rfl (.simple rfl (by decide)) (by decide))
      (by
        intro fd h
        simp only [List.mem_cons, List.not_mem_nil, or_false] at h
        rcases h with rfl | rfl <;> decide)
      (by simp))
    (by decide)

/-- **C83.** A variable published at the address `a` with the flags `fl` gets one field for every
simple part of its type, and no other: the field is at the address of the part, and it is
annotated like the innermost structure field it is in (an input or output also if the variable
is). -/
theorem C83_addresses {T : Types} {n : Nat} {name : Option Str} {u : Uuid} {a : Int} {fl : Flags}
    {t : PTree} (h : create T n name u a fl = .ok t) (p : List Step) (l : Leaf) (a' : Int) (fl' : Flags) :
    t.find p = some (l, a', fl') ↔ ∃ o, Part T u p l o ∧ a' = a + o ∧ Annotated T u fl p fl' :=
  find_iff p h l a' fl'

/-- **C83.** When the sizes and offsets given at the registration are right, the fields are inside
the variable. -/
theorem C83_inside {T : Types} {n : Nat} {name : Option Str} {u : Uuid} {a : Int} {fl fl' : Flags}
    {t : PTree} {size : Nat} (h : create T n name u a fl = .ok t) (hs : Sized T u size)
    {p : List Step} {l : Leaf} {a' : Int} (hf : t.find p = some (l, a', fl')) :
    a ≤ a' ∧ a' + l.width ≤ a + size := by
  obtain ⟨o, hp, rfl, -⟩ := (find_iff p h _ _ _).1 hf
  have := part_inside hp hs
  omega

/-- **C83.** When the sizes and offsets given at the registration are right, two different fields
do not share a byte. -/
theorem C83_disjoint {T : Types} {n : Nat} {name : Option Str} {u : Uuid} {a : Int} {fl f f' : Flags}
    {t : PTree} {size : Nat} (h : create T n name u a fl = .ok t) (hs : Sized T u size)
    {p q : List Step} (hpq : p ≠ q) {l l' : Leaf} {x y : Int} (hp : t.find p = some (l, x, f))
    (hq : t.find q = some (l', y, f')) : x + l.width ≤ y ∨ y + l'.width ≤ x :=
  find_disjoint p q h hs hpq hp hq

/-- **C83.** A variable is published if and only if the name is valid and the type is one that
can be published. -/
theorem C83_published (T : Types) (name : Str) (u : Uuid) (a : Int) (fl : Flags) :
    (∃ n t, create T n (some name) u a fl = .ok t) ↔ Grammar name ∧ Publishable T u := by
  constructor
  · rintro ⟨n, t, h⟩
    obtain ⟨⟨s, e, hg⟩, hp⟩ := publishable_of_create h
    cases e
    exact ⟨hg, hp⟩
  · rintro ⟨hg, hp⟩
    obtain ⟨n, hn⟩ := create_publishable hp
    exact ⟨n, hn name a fl hg⟩

example : ∃ t, create exT 4 (some ['v']) 102 1000 exFl = .ok t ∧
    t.find [.item 1, .field ['x']] = some (⟨.Int32, none, 0⟩, 1012, exFl) ∧
    t.find [.item 1, .field ['y'], .item 2] = some (⟨.Int16, none, 0⟩, 1020, ⟨1, false, true, false⟩) ∧
    t.find [.item 1, .field ['y'], .item 3] = none ∧ t.find [.item 2, .field ['x']] = none :=
  ⟨_, rfl, by decide, by decide, by decide, by decide⟩

example : Sized exT 102 24 := exT_sized

/-- A type is registered after the types of the items of its arrays; the fields of a structure
may be of a type registered later, but no structure contains itself. -/
structure Ranked (T : Types) (rank : Uuid → Nat) : Prop where
  items : ∀ u item size count s, T u = some (.array item size count s) → rank item < rank u
  fields : ∀ u fds, T u = some (.struct fds) → ∀ fd ∈ fds, rank fd.uuid < rank u

/-- **C84, for types that do not contain themselves.** Publishing a variable ends: from some depth
on the result is the same, and it is a field or an exception, not an overflow of the stack.
Missing: the registry does not refuse a structure that contains itself (`C84_fails`). -/
theorem C84_ends_partial {T : Types} {rank : Uuid → Nat} (h : Ranked T rank) (u : Uuid) :
    ∃ depth, ∀ name a fl, create T depth name u a fl ≠ .error .overflow ∧
      ∀ n, depth ≤ n → create T n name u a fl = create T depth name u a fl := by
  refine ⟨rank u + 1, fun name a fl => ?_⟩
  refine ⟨(create_ranked h.items h.fields _ u rfl _ (rank u + 1) (by omega) (by omega) name a fl).1, ?_⟩
  intro n hn
  exact (create_ranked h.items h.fields _ u rfl n (rank u + 1) (by omega) (by omega) name a fl).2

example : Ranked exT (fun u => if u < 100 then 0 else u) where
  items := by
    intro u item size count s h
    unfold exT at h
    split at h <;> simp at h <;> obtain ⟨rfl, -⟩ := h <;> decide
  fields := by
    intro u fds h fd hfd
    unfold exT at h
    split at h <;> simp at h
    subst h
    simp only [List.mem_cons, List.not_mem_nil, or_false] at hfd
    rcases hfd with rfl | rfl <;> decide

/-- A structure with a field of its own type: `AddField` accepts it (Type.cpp:187-194). -/
def cyclic : Types
  | 200 => some (.struct [⟨['f'], 200, 0, exFl⟩])
  | _ => none

/-- **C84 does not hold** of a structure that contains itself: the constructor of the field calls
itself until the stack overflows. -/
theorem C84_fails : ∀ depth a fl, create cyclic depth (some ['v']) 200 a fl = .error .overflow := by
  have hv : ∀ depth a fl, create cyclic depth (some ['f']) 200 a fl = .error .overflow := by
    intro depth
    induction depth with
    | zero => intro a fl; rfl
    | succ n ih =>
      intro a fl
      rw [create]
      simp only [cyclic, createFields, ih]
      rfl
  intro depth a fl
  cases depth with
  | zero => rfl
  | succ n =>
    rw [create]
    simp only [cyclic, createFields, hv]
    rfl

end Verif.Mem
