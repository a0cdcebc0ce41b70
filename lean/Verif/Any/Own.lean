/-
Ownership of the strings of `AnySimple` (`src/Smp/AnySimple.cpp`): model and property C70.

Only what concerns memory is kept of an AnySimple: whether its kind is `String8` and the
pointer. Undefined behaviour (deleting or reading a block that is not allocated) is `none`.
-/
namespace Verif.Any.Own

/-- An AnySimple: `type == PTK_String8`, `value.string8Value` (meaningless, and taken as null, for
other kinds). (AnySimple.cpp:37.) -/
structure Obj where
  isString : Bool
  ptr : Option Nat
  deriving DecidableEq

/-- The AnySimples that exist, the allocated blocks, the blocks handed over by `MoveString` (to be
deleted by its caller). (AnySimple.cpp:27-149, 1031-1039.) -/
structure St where
  objs : Nat → Option Obj
  live : Nat → Bool
  next : Nat
  given : Nat → Bool

/-- The AnySimple `i` becomes another one; of the model only (the assignments of
AnySimple.cpp:27-88). -/
def St.setObj (s : St) (i : Nat) (o : Option Obj) : St :=
  { s with objs := fun k => if k = i then o else s.objs k }

/-- `delete[]`; null is allowed. (AnySimple.cpp:29.) -/
def delete (s : St) : Option Nat → Option St
  | none => some s
  | some p => if s.live p then some { s with live := fun q => if q = p then false else s.live q }
    else none

/-- `new Char8[size]`. (AnySimple.cpp:57-61, 142-145.) -/
def alloc (s : St) : St × Nat :=
  ({ s with live := fun q => if q = s.next then true else s.live q, next := s.next + 1 }, s.next)

/-- `_releaseContent` (AnySimple.cpp:27-32) of the AnySimple `i`. -/
def release (s : St) (i : Nat) (o : Obj) : Option St :=
  if o.isString then (delete s o.ptr).map fun s => s.setObj i (some { o with ptr := none })
  else some s

/-- Allocate and copy the string at the pointer (AnySimple.cpp:57-61, 142-145). -/
def dup (s : St) : Option Nat → Option (St × Option Nat)
  | none => some (s, none)
  | some p => if s.live p then let (s, q) := alloc s; some (s, some q) else none

/-- The argument of `SetValue(PTK_String8, newValue)`. (AnySimple.cpp:136-149.) -/
inductive Src
  | null
  /-- a string the application owns -/
  | extern
  /-- the string held by the AnySimple `j` -/
  | of (j : Nat)

/-- What a program does with AnySimples. -/
inductive Op
  /-- `AnySimple(kind)` (AnySimple.cpp:35-39) -/
  | make (i : Nat) (isString : Bool)
  /-- copy constructor (AnySimple.cpp:41-43) -/
  | copyMake (i j : Nat)
  /-- move constructor (AnySimple.cpp:45-49) -/
  | moveMake (i j : Nat)
  /-- copy assignment (AnySimple.cpp:51-73) -/
  | copy (i j : Nat)
  /-- move assignment (AnySimple.cpp:75-86) -/
  | move (i j : Nat)
  /-- `SetValue(PTK_String8, ...)` (AnySimple.cpp:136-149) -/
  | setString (i : Nat) (src : Src)
  /-- `SetValue` of another kind -/
  | setOther (i : Nat)
  /-- `SetValue` that throws -/
  | setFail (i : Nat)
  /-- `MoveString` (AnySimple.cpp:1031-1039) -/
  | moveString (i : Nat)
  /-- destructor (AnySimple.cpp:88) -/
  | destroy (i : Nat)

/-- Copy assignment of existing, different objects. (AnySimple.cpp:51-73.) -/
def copyAssign (s : St) (i : Nat) (oi oj : Obj) : Option St :=
  (release s i oi).bind fun s =>
    if oj.isString then
      (dup s oj.ptr).map fun (s, p) => s.setObj i (some ⟨true, p⟩)
    else some (s.setObj i (some ⟨false, none⟩))

/-- One operation. Operations on AnySimples that do not exist (or, for constructors, that exist)
are not programs and change nothing. (AnySimple.cpp:27-149, 1031-1039.) -/
def step (s : St) : Op → Option St
  | .make i b => match s.objs i with
    | none => some (s.setObj i (some ⟨b, none⟩))
    | some _ => some s
  | .copyMake i j => match s.objs i, s.objs j with
    | none, some oj => copyAssign (s.setObj i (some ⟨false, none⟩)) i ⟨false, none⟩ oj
    | _, _ => some s
  | .moveMake i j => match s.objs i, s.objs j with
    | none, some oj => some ((s.setObj i (some oj)).setObj j (some ⟨false, none⟩))
    | _, _ => some s
  | .copy i j => match s.objs i, s.objs j with
    | some oi, some oj => if i = j then some s else copyAssign s i oi oj
    | _, _ => some s
  | .move i j => match s.objs i, s.objs j with
    | some oi, some _ => (release s i oi).bind fun s =>
        match s.objs j with
        | some oj => some ((s.setObj i (some oj)).setObj j (some ⟨false, none⟩))
        | none => none
    | _, _ => some s
  | .setString i src => match s.objs i with
    | some oi =>
      let arg : Option (Option Nat) := match src with
        | .null => some none
        | .extern => some none
        | .of j => (s.objs j).map (·.ptr)
      match arg with
      | none => some s
      | some arg =>
        (release s i oi).bind fun s =>
          match src with
          | .null => some (s.setObj i (some ⟨true, none⟩))
          | .extern => let (s, q) := alloc s; some (s.setObj i (some ⟨true, some q⟩))
          | .of _ => (dup s arg).map fun (s, q) => s.setObj i (some ⟨true, q⟩)
    | none => some s
  | .setOther i => match s.objs i with
    | some oi => (release s i oi).map fun s => s.setObj i (some ⟨false, none⟩)
    | none => some s
  | .setFail i => match s.objs i with
    | some oi => release s i oi
    | none => some s
  | .moveString i => match s.objs i with
    | some ⟨true, some p⟩ =>
      some { (s.setObj i (some ⟨true, none⟩)) with given := fun q => if q = p then true else s.given q }
    | _ => some s
  | .destroy i => match s.objs i with
    | some oi => (release s i oi).map fun s => s.setObj i none
    | none => some s

/-- A program: operations one after the other (AnySimple.cpp:27-149, 1031-1039). -/
def run (s : St) : List Op → Option St
  | [] => some s
  | o :: os => (step s o).bind (run · os)

/-- No AnySimple, nothing allocated. (Before AnySimple.cpp:35-49.) -/
def init : St := ⟨fun _ => none, fun _ => false, 0, fun _ => false⟩

/-! ### C70 -/

/-- The AnySimple `i` holds the block `p`. -/
def Holds (s : St) (i p : Nat) : Prop := ∃ o, s.objs i = some o ∧ o.ptr = some p

/-- Each block is allocated iff it is held or was handed over; never held twice, nor held
and handed over; only strings hold blocks. -/
structure Owned (s : St) : Prop where
  live : ∀ p, s.live p = true ↔ (∃ i, Holds s i p) ∨ s.given p = true
  unique : ∀ i j p, Holds s i p → Holds s j p → i = j
  given : ∀ i p, Holds s i p → s.given p = false
  kind : ∀ i o, s.objs i = some o → o.ptr ≠ none → o.isString = true
  bound : ∀ p, s.live p = true → p < s.next

theorem owned_init : Owned init := by
  constructor <;> simp [init, Holds]

theorem holds_setObj {s : St} {i : Nat} {o : Option Obj} {k p : Nat} :
    Holds (s.setObj i o) k p ↔ (k = i ∧ ∃ x, o = some x ∧ x.ptr = some p) ∨ (k ≠ i ∧ Holds s k p) := by
  unfold Holds St.setObj
  by_cases h : k = i <;> simp [h]

/-- Replacing an object by one without a pointer, when the old one has none. -/
theorem owned_set_null {s : St} (h : Owned s) {i : Nat} {o : Option Obj}
    (h1 : ∀ p, ¬ Holds s i p) (h2 : ∀ x, o = some x → x.ptr = none) : Owned (s.setObj i o) := by
  have hh : ∀ k p, Holds (s.setObj i o) k p ↔ Holds s k p := by
    intro k p
    rw [holds_setObj]
    constructor
    · rintro (⟨rfl, x, hx, hp⟩ | ⟨_, h⟩)
      · rw [h2 x hx] at hp; simp at hp
      · exact h
    · intro hk
      right
      refine ⟨?_, hk⟩
      rintro rfl
      exact h1 p hk
  refine ⟨fun p => ?_, fun a b p ha hb => ?_, fun a p ha => ?_, fun a x ha hx => ?_, h.bound⟩
  · simp only [hh]; exact h.live p
  · rw [hh] at ha hb; exact h.unique a b p ha hb
  · rw [hh] at ha; exact h.given a p ha
  · unfold St.setObj at ha
    simp only at ha
    split at ha
    · exact absurd (h2 x ha) hx
    · exact h.kind a x ha hx

/-- Giving a new block to an object without a pointer. -/
theorem owned_alloc {s : St} (h : Owned s) {i : Nat} (h1 : ∀ p, ¬ Holds s i p) :
    Owned ((alloc s).1.setObj i (some ⟨true, some (alloc s).2⟩)) := by
  have hfresh : ∀ k, ¬ Holds s k s.next := by
    intro k hk
    have := h.bound _ ((h.live _).mpr (Or.inl ⟨k, hk⟩))
    omega
  have hg : s.given s.next = false := by
    cases hg : s.given s.next with
    | false => rfl
    | true =>
      have := h.bound _ ((h.live _).mpr (Or.inr hg))
      omega
  have hh : ∀ k p, Holds ((alloc s).1.setObj i (some ⟨true, some (alloc s).2⟩)) k p ↔
      (k = i ∧ p = s.next) ∨ Holds s k p := by
    intro k p
    rw [holds_setObj]
    simp only [Option.some.injEq, alloc]
    constructor
    · rintro (⟨rfl, x, rfl, hp⟩ | ⟨_, h⟩)
      · left; simp at hp; exact ⟨rfl, hp.symm⟩
      · right; exact h
    · rintro (⟨rfl, rfl⟩ | hk)
      · left; exact ⟨rfl, _, rfl, rfl⟩
      · right
        refine ⟨?_, hk⟩
        rintro rfl
        exact h1 p hk
  refine ⟨fun p => ?_, fun a b p ha hb => ?_, fun a p ha => ?_, fun a x ha hx => ?_, fun p hp => ?_⟩
  · simp only [hh]
    simp only [alloc, St.setObj]
    by_cases hp : p = s.next
    · simp [hp]
    · simp only [hp, if_false, and_false, false_or]
      exact h.live p
  · rw [hh] at ha hb
    rcases ha with ⟨rfl, rfl⟩ | ha <;> rcases hb with ⟨rfl, hb⟩ | hb
    · rfl
    · exact absurd hb (hfresh b)
    · subst hb; exact absurd ha (hfresh a)
    · exact h.unique a b p ha hb
  · rw [hh] at ha
    rcases ha with ⟨rfl, rfl⟩ | ha
    · exact hg
    · exact h.given a p ha
  · unfold St.setObj at ha
    simp only at ha
    split at ha
    · simp at ha; subst ha; rfl
    · exact h.kind a x ha hx
  · simp only [alloc, St.setObj] at hp ⊢
    split at hp
    · omega
    · have := h.bound p hp; omega

theorem release_ok {s : St} (h : Owned s) {i : Nat} {o : Obj} (hi : s.objs i = some o) :
    ∃ s', release s i o = some s' ∧ Owned s' ∧ (∀ p, ¬ Holds s' i p) ∧
      (∃ o', s'.objs i = some o') ∧ s'.next = s.next ∧
      ∀ k, k ≠ i → s'.objs k = s.objs k := by
  unfold release
  split
  · rename_i hs
    cases hp : o.ptr with
    | none =>
      refine ⟨_, rfl, owned_set_null h ?_ ?_, ?_, ?_, rfl, ?_⟩
      · rintro p ⟨x, hx, hxp⟩; rw [hi] at hx; cases hx; rw [hp] at hxp; simp at hxp
      · intro x hx; cases hx; rfl
      · intro p; rw [holds_setObj]; simp
      · exact ⟨{ o with ptr := none }, by simp [St.setObj]⟩
      · intro k hk; simp [St.setObj, hk]
    | some p =>
      have hold : Holds s i p := ⟨o, hi, hp⟩
      have hlive : s.live p = true := (h.live p).mpr (Or.inl ⟨i, hold⟩)
      simp only [delete, hlive, if_true, Option.map_some]
      have hh : ∀ k q, Holds (St.setObj { s with live := fun q => if q = p then false else s.live q }
          i (some { o with ptr := none })) k q ↔ k ≠ i ∧ Holds s k q := by
        intro k q
        rw [holds_setObj]
        simp [Holds]
      refine ⟨_, rfl, ⟨fun q => ?_, fun a b q ha hb => ?_, fun a q ha => ?_, fun a x ha hx => ?_,
        fun q hq => ?_⟩, ?_, ?_, rfl, ?_⟩
      · simp only [hh]
        simp only [St.setObj]
        by_cases hq : q = p
        · subst hq
          simp only [if_true, Bool.false_eq_true, false_iff, not_or, not_exists, not_and]
          refine ⟨fun k hk hkp => hk (h.unique k i q hkp hold), ?_⟩
          rw [h.given i q hold]; simp
        · simp only [hq, if_false]
          rw [h.live q]
          constructor
          · rintro (⟨k, hk⟩ | hg)
            · left
              refine ⟨k, ?_, hk⟩
              rintro rfl
              obtain ⟨x, hx, hxq⟩ := hk
              rw [hi] at hx; cases hx; rw [hp] at hxq
              exact hq (Option.some.inj hxq).symm
            · right; exact hg
          · rintro (⟨k, _, hk⟩ | hg)
            · exact Or.inl ⟨k, hk⟩
            · exact Or.inr hg
      · rw [hh] at ha hb; exact h.unique a b q ha.2 hb.2
      · rw [hh] at ha; exact h.given a q ha.2
      · unfold St.setObj at ha
        simp only at ha
        split at ha
        · simp at ha; subst ha; simp at hx
        · exact h.kind a x ha hx
      · simp only [St.setObj] at hq ⊢
        split at hq
        · simp at hq
        · exact h.bound q hq
      · intro q; rw [hh]; simp
      · exact ⟨{ o with ptr := none }, by simp [St.setObj]⟩
      · intro k hk; simp [St.setObj, hk]
  · rename_i hs
    refine ⟨s, rfl, h, ?_, ⟨o, hi⟩, rfl, fun _ _ => rfl⟩
    rintro p ⟨x, hx, hxp⟩
    rw [hi] at hx; cases hx
    exact absurd (h.kind i o hi (by rw [hxp]; simp)) (by simpa using hs)

/-- Handing the content of `j` over to an `i` without pointer. -/
theorem owned_move {s : St} (h : Owned s) {i j : Nat} {oj : Obj} (hj : s.objs j = some oj)
    (h1 : ∀ p, ¬ Holds s i p) :
    Owned ((s.setObj i (some oj)).setObj j (some ⟨false, none⟩)) := by
  by_cases hij : i = j
  · subst hij
    have e : (s.setObj i (some oj)).setObj i (some ⟨false, none⟩) = s.setObj i (some ⟨false, none⟩) := by
      unfold St.setObj
      congr 1
      funext k
      by_cases hk : k = i <;> simp [hk]
    rw [e]
    exact owned_set_null h h1 (by intro x hx; cases hx; rfl)
  have hh : ∀ k p, Holds ((s.setObj i (some oj)).setObj j (some ⟨false, none⟩)) k p ↔
      (k = i ∧ Holds s j p) ∨ (k ≠ i ∧ k ≠ j ∧ Holds s k p) := by
    intro k p
    rw [holds_setObj, holds_setObj]
    simp only [Option.some.injEq]
    constructor
    · rintro (⟨rfl, x, rfl, hp⟩ | ⟨hkj, ⟨rfl, x, rfl, hp⟩ | ⟨hki, hk⟩⟩)
      · simp at hp
      · left; exact ⟨rfl, _, hj, hp⟩
      · right; exact ⟨hki, hkj, hk⟩
    · rintro (⟨rfl, x, hx, hp⟩ | ⟨hki, hkj, hk⟩)
      · right
        refine ⟨hij, Or.inl ⟨rfl, x, ?_, hp⟩⟩
        rw [hj] at hx; exact Option.some.inj hx
      · right; exact ⟨hkj, Or.inr ⟨hki, hk⟩⟩
  refine ⟨fun p => ?_, fun a b p ha hb => ?_, fun a p ha => ?_, fun a x ha hx => ?_, h.bound⟩
  · show s.live p = true ↔ _
    rw [h.live p]
    constructor
    · rintro (⟨k, hk⟩ | hg)
      · left
        by_cases hkj : k = j
        · subst hkj; exact ⟨i, (hh _ _).mpr (Or.inl ⟨rfl, hk⟩)⟩
        · refine ⟨k, (hh _ _).mpr (Or.inr ⟨?_, hkj, hk⟩)⟩
          rintro rfl; exact h1 p hk
      · right; exact hg
    · rintro (⟨k, hk⟩ | hg)
      · left
        rcases (hh _ _).mp hk with ⟨_, hk⟩ | ⟨_, _, hk⟩
        · exact ⟨j, hk⟩
        · exact ⟨k, hk⟩
      · right; exact hg
  · rw [hh] at ha hb
    rcases ha with ⟨rfl, ha⟩ | ⟨ha1, ha2, ha⟩ <;> rcases hb with ⟨rfl, hb⟩ | ⟨hb1, hb2, hb⟩
    · rfl
    · exact absurd (h.unique j b p ha hb).symm hb2
    · exact absurd (h.unique a j p ha hb) ha2
    · exact h.unique a b p ha hb
  · rw [hh] at ha
    rcases ha with ⟨_, ha⟩ | ⟨_, _, ha⟩ <;> exact h.given _ p ha
  · unfold St.setObj at ha
    simp only at ha
    split at ha
    · simp at ha; subst ha; simp at hx
    · split at ha
      · simp at ha; subst ha; exact h.kind j oj hj hx
      · exact h.kind a x ha hx

/-- The one use excluded: passing the own string of an AnySimple to its `SetValue`. -/
def Op.ok : Op → Prop
  | .setString i (.of j) => i ≠ j
  | _ => True

theorem copyAssign_ok {s : St} (h : Owned s) {i j : Nat} {oi oj : Obj} (hi : s.objs i = some oi)
    (hj : s.objs j = some oj) (hij : i ≠ j) : ∃ s', copyAssign s i oi oj = some s' ∧ Owned s' := by
  obtain ⟨s1, e1, h1, hn, _, _, hk⟩ := release_ok h hi
  simp only [copyAssign, e1, Option.bind_some]
  have hj1 : s1.objs j = some oj := by rw [hk j (Ne.symm hij)]; exact hj
  split
  · cases hp : oj.ptr with
    | none =>
      exact ⟨_, rfl, owned_set_null h1 hn (by intro x hx; cases hx; rfl)⟩
    | some p =>
      have : s1.live p = true := (h1.live p).mpr (Or.inl ⟨j, oj, hj1, hp⟩)
      simp only [dup, this, if_true, Option.map_some]
      exact ⟨_, rfl, owned_alloc h1 hn⟩
  · exact ⟨_, rfl, owned_set_null h1 hn (by intro x hx; cases hx; rfl)⟩

theorem step_ok {s : St} (h : Owned s) (o : Op) (ho : o.ok) : ∃ s', step s o = some s' ∧ Owned s' := by
  cases o with
  | make i b =>
    simp only [step]
    cases hi : s.objs i with
    | some x => exact ⟨s, rfl, h⟩
    | none =>
      exact ⟨_, rfl, owned_set_null h (by rintro p ⟨x, hx, _⟩; rw [hi] at hx; simp at hx)
        (by intro x hx; cases hx; rfl)⟩
  | copyMake i j =>
    simp only [step]
    cases hi : s.objs i with
    | some x => exact ⟨s, rfl, h⟩
    | none =>
      cases hj : s.objs j with
      | none => exact ⟨s, rfl, h⟩
      | some oj =>
        have hij : i ≠ j := by rintro rfl; rw [hi] at hj; simp at hj
        have h1 : Owned (s.setObj i (some ⟨false, none⟩)) :=
          owned_set_null h (by rintro p ⟨x, hx, _⟩; rw [hi] at hx; simp at hx)
            (by intro x hx; cases hx; rfl)
        exact copyAssign_ok h1 (by simp [St.setObj])
          (by simp only [St.setObj]; rw [if_neg (Ne.symm hij)]; exact hj) hij
  | moveMake i j =>
    simp only [step]
    cases hi : s.objs i with
    | some x => exact ⟨s, rfl, h⟩
    | none =>
      cases hj : s.objs j with
      | none => exact ⟨s, rfl, h⟩
      | some oj =>
        exact ⟨_, rfl, owned_move h hj (by rintro p ⟨x, hx, _⟩; rw [hi] at hx; simp at hx)⟩
  | copy i j =>
    simp only [step]
    cases hi : s.objs i with
    | none => exact ⟨s, rfl, h⟩
    | some oi =>
      cases hj : s.objs j with
      | none => exact ⟨s, rfl, h⟩
      | some oj =>
        simp only
        split
        · exact ⟨s, rfl, h⟩
        · rename_i hij; exact copyAssign_ok h hi hj hij
  | move i j =>
    simp only [step]
    cases hi : s.objs i with
    | none => exact ⟨s, rfl, h⟩
    | some oi =>
      cases hj : s.objs j with
      | none => exact ⟨s, rfl, h⟩
      | some oj =>
        obtain ⟨s1, e1, h1, hn, ⟨o', ho'⟩, _, hk⟩ := release_ok h hi
        simp only [e1, Option.bind_some]
        have : ∃ x, s1.objs j = some x := by
          by_cases hij : j = i
          · subst hij; exact ⟨_, ho'⟩
          · exact ⟨oj, by rw [hk j hij]; exact hj⟩
        obtain ⟨x, hx⟩ := this
        rw [hx]
        exact ⟨_, rfl, owned_move h1 hx hn⟩
  | setString i src =>
    simp only [step]
    cases hi : s.objs i with
    | none => exact ⟨s, rfl, h⟩
    | some oi =>
      obtain ⟨s1, e1, h1, hn, _, _, hk⟩ := release_ok h hi
      cases src with
      | null =>
        simp only [e1, Option.bind_some]
        exact ⟨_, rfl, owned_set_null h1 hn (by intro x hx; cases hx; rfl)⟩
      | extern =>
        simp only [e1, Option.bind_some]
        exact ⟨_, rfl, owned_alloc h1 hn⟩
      | of j =>
        have hij : i ≠ j := ho
        cases hj : s.objs j with
        | none => simp only [hj, Option.map_none]; exact ⟨s, rfl, h⟩
        | some oj =>
          have hj1 : s1.objs j = some oj := by rw [hk j (Ne.symm hij)]; exact hj
          simp only [hj, Option.map_some, e1, Option.bind_some]
          cases hp : oj.ptr with
          | none => exact ⟨_, rfl, owned_set_null h1 hn (by intro x hx; cases hx; rfl)⟩
          | some p =>
            have : s1.live p = true := (h1.live p).mpr (Or.inl ⟨j, oj, hj1, hp⟩)
            simp only [dup, this, if_true, Option.map_some]
            exact ⟨_, rfl, owned_alloc h1 hn⟩
  | setOther i =>
    simp only [step]
    cases hi : s.objs i with
    | none => exact ⟨s, rfl, h⟩
    | some oi =>
      obtain ⟨s1, e1, h1, hn, _, _, _⟩ := release_ok h hi
      simp only [e1, Option.map_some]
      exact ⟨_, rfl, owned_set_null h1 hn (by intro x hx; cases hx; rfl)⟩
  | setFail i =>
    simp only [step]
    cases hi : s.objs i with
    | none => exact ⟨s, rfl, h⟩
    | some oi =>
      obtain ⟨s1, e1, h1, _⟩ := release_ok h hi
      exact ⟨s1, e1, h1⟩
  | moveString i =>
    simp only [step]
    split
    · rename_i p hi
      have hold : Holds s i p := ⟨_, hi, rfl⟩
      have hh : ∀ k q, Holds { (s.setObj i (some ⟨true, none⟩)) with
          given := fun q => if q = p then true else s.given q } k q ↔ k ≠ i ∧ Holds s k q := by
        intro k q
        have : Holds { (s.setObj i (some ⟨true, none⟩)) with
          given := fun q => if q = p then true else s.given q } k q ↔
          Holds (s.setObj i (some ⟨true, none⟩)) k q := Iff.rfl
        rw [this, holds_setObj]; simp
      refine ⟨_, rfl, fun q => ?_, fun a b q ha hb => ?_, fun a q ha => ?_, fun a x ha hx => ?_,
        h.bound⟩
      · show s.live q = true ↔ _
        rw [h.live q]
        constructor
        · rintro (⟨k, hk⟩ | hg)
          · by_cases hki : k = i
            · subst hki
              obtain ⟨x, hx, hxq⟩ := hk
              rw [hi] at hx; cases hx
              right; simp at hxq; simp [hxq]
            · left; exact ⟨k, (hh k q).mpr ⟨hki, hk⟩⟩
          · right; simp [hg]
        · rintro (⟨k, hk⟩ | hg)
          · left; exact ⟨k, ((hh k q).mp hk).2⟩
          · simp only at hg
            split at hg
            · rename_i hq; left; exact ⟨i, hq ▸ hold⟩
            · right; exact hg
      · exact h.unique a b q ((hh a q).mp ha).2 ((hh b q).mp hb).2
      · obtain ⟨h1, h2⟩ := (hh a q).mp ha
        simp only
        split
        · rename_i hq
          subst hq
          exact absurd (h.unique a i q h2 hold) h1
        · exact h.given a q h2
      · have ha' : (s.setObj i (some ⟨true, none⟩)).objs a = some x := ha
        unfold St.setObj at ha'
        simp only at ha'
        split at ha'
        · simp at ha'; subst ha'; rfl
        · exact h.kind a x ha' hx
    · exact ⟨s, rfl, h⟩
  | destroy i =>
    simp only [step]
    cases hi : s.objs i with
    | none => exact ⟨s, rfl, h⟩
    | some oi =>
      obtain ⟨s1, e1, h1, hn, _, _, _⟩ := release_ok h hi
      simp only [e1, Option.map_some]
      exact ⟨_, rfl, owned_set_null h1 hn (by intro x hx; cases hx)⟩

/-- C70. Over any history of constructions, copies, moves, assignments (also failing ones),
`MoveString` and destructions: no block is deleted twice or read after deletion, and at the
end each allocated block is held by exactly one AnySimple or was handed over. Partial: an
AnySimple's own string is not passed to its `SetValue`. -/
theorem C70_ownership_partial (ops : List Op) (h : ∀ o ∈ ops, o.ok) :
    ∃ s, run init ops = some s ∧ Owned s := by
  have gen : ∀ (ops : List Op) (s : St), (∀ o ∈ ops, o.ok) → Owned s →
      ∃ s', run s ops = some s' ∧ Owned s' := by
    intro ops
    induction ops with
    | nil => intro s _ hs; exact ⟨s, rfl, hs⟩
    | cons o os ih =>
      intro s ho hs
      obtain ⟨s1, e1, h1⟩ := step_ok hs o (ho o (by simp))
      obtain ⟨s2, e2, h2⟩ := ih s1 (fun x hx => ho x (by simp [hx])) h1
      exact ⟨s2, by simp [run, e1, e2], h2⟩
  exact gen ops init h owned_init

/-- C70. Nothing leaks: once every AnySimple is destroyed, the only blocks still allocated
are those handed over by `MoveString`. -/
theorem C70_noLeak_partial (ops : List Op) (h : ∀ o ∈ ops, o.ok) (s : St)
    (hs : run init ops = some s) (hd : ∀ i, s.objs i = none) (p : Nat) :
    s.live p = true ↔ s.given p = true := by
  obtain ⟨s', e, ho⟩ := C70_ownership_partial ops h
  rw [hs] at e; cases e
  rw [ho.live p]
  constructor
  · rintro (⟨i, o, hi, _⟩ | hg)
    · rw [hd i] at hi; simp at hi
    · exact hg
  · exact Or.inr

example : ∀ o ∈ [Op.make 0 true, .setString 0 .extern, .copyMake 1 0, .move 1 1, .setFail 0,
    .destroy 0, .destroy 1], o.ok := by simp [Op.ok]

/-- C70 is false of the code when an AnySimple is assigned its own string: it is read after
its deletion. -/
theorem C70_fails : run init [.make 0 true, .setString 0 .extern, .setString 0 (.of 0)] = none :=
  rfl

end Verif.Any.Own
