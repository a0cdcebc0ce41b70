import Verif.Pub.Marshal
import Verif.Pub.RequestProps
import Verif.Field.NetLemmas

/-! Property C76: structured values in requests. -/
namespace Verif.Pub.Marshal
open Verif.Any (Kind Fl Val Any Out)
open Verif.Path (Str)
open Verif.Pub
open Verif.Field (coerce coerce_same)

/-! ### Specification -/

/-- A simple value in a field: whether it is an item of a simple array, its kind, the number of
characters a string can hold, and the value. -/
structure Leaf where
  item : Bool
  kind : Kind
  len : Nat
  v : Val

def Leaf.any (l : Leaf) : Any := ⟨l.kind, l.v⟩

/-- The field has a simple value under a name relative to it: nothing for itself, `[i]` for an
item of an array, `.f` for a field of a structure. -/
inductive Holds : PField → Str → Leaf → Prop
  | simple {k len v} : Holds (.simple k len v) [] ⟨false, k, len, v⟩
  | sitem {k len vs v} (i : Nat) (h : vs[i]? = some v) :
      Holds (.sarray k len vs) (idx i) ⟨true, k, len, v⟩
  | item {ts : List PField} {t s l} (i : Nat) (h : ts[i]? = some t) (hs : Holds t s l) :
      Holds (.array ts) (idx i ++ s) l
  | field {fs : List (Str × PField)} {f t s l} (h : (f, t) ∈ fs) (hs : Holds t s l) :
      Holds (.struct fs) ('.' :: (f ++ s)) l

mutual
/-- In every structure the fields have different, plain names. -/
def PField.Names : PField → Prop
  | .simple .. | .sarray .. => True
  | .array ts => NamesI ts
  | .struct fs => (fs.map Prod.fst).Nodup ∧ (∀ f ∈ fs.map Prod.fst, Plain f) ∧ NamesF fs
def NamesI : List PField → Prop
  | [] => True
  | t :: ts => t.Names ∧ NamesI ts
def NamesF : List (Str × PField) → Prop
  | [] => True
  | (_, t) :: fs => t.Names ∧ NamesF fs
end

mutual
/-- The field without its values. -/
def PField.blank : PField → PField
  | .simple k len _ => .simple k len .none
  | .sarray k len vs => .sarray k len (vs.map fun _ => .none)
  | .array ts => .array (blankI ts)
  | .struct fs => .struct (blankF fs)
def blankI : List PField → List PField
  | [] => []
  | t :: ts => t.blank :: blankI ts
def blankF : List (Str × PField) → List (Str × PField)
  | [] => []
  | (f, t) :: fs => (f, t.blank) :: blankF fs
end

/-- The parameter of that name in a request; `none` if there is none. -/
def Req.param (r : Req) (n : Str) : Option Any :=
  if r.index (some n) = -1 then none else r.get (r.index (some n))

/-- The value fits the field: it is of its kind and a string is not longer than the field. -/
def Leaf.Fits (l : Leaf) : Prop :=
  l.kind ≠ .None ∧ l.any.Ok ∧ (l.kind = .String8 → ∃ s, l.v = .str (some s) ∧ s.length ≤ l.len)

/-! ### Names -/

theorem namesI {ts : List PField} (h : NamesI ts) : ∀ t ∈ ts, t.Names := by
  induction ts with
  | nil => simp
  | cons a ts ih =>
    simp only [NamesI] at h
    intro t ht
    rcases List.mem_cons.1 ht with rfl | ht
    · exact h.1
    · exact ih h.2 t ht

theorem namesF {fs : List (Str × PField)} (h : NamesF fs) : ∀ p ∈ fs, p.2.Names := by
  induction fs with
  | nil => simp
  | cons a fs ih =>
    obtain ⟨f, t⟩ := a
    simp only [NamesF] at h
    intro p hp
    rcases List.mem_cons.1 hp with rfl | hp
    · exact h.1
    · exact ih h.2 p hp

theorem Holds.sep {t : PField} {s : Str} {l : Leaf} (h : Holds t s l) : Sep s := by
  cases h with
  | simple => exact Or.inl rfl
  | sitem i _ => exact Or.inr ⟨'[', _, rfl, Or.inl rfl⟩
  | item i _ _ => exact Or.inr ⟨'[', _, rfl, Or.inl rfl⟩
  | field _ _ => exact Or.inr ⟨'.', _, rfl, Or.inr rfl⟩

theorem nodup_fst {fs : List (Str × PField)} (h : (fs.map Prod.fst).Nodup) {f : Str}
    {t t' : PField} (h1 : (f, t) ∈ fs) (h2 : (f, t') ∈ fs) : t = t' := by
  induction fs with
  | nil => cases h1
  | cons a fs ih =>
    simp only [List.map_cons, List.nodup_cons] at h
    rcases List.mem_cons.1 h1 with e1 | h1' <;> rcases List.mem_cons.1 h2 with e2 | h2'
    · rw [← e1] at e2; cases e2; rfl
    · rw [← e1] at h; exact absurd (List.mem_map_of_mem h2') h.1
    · rw [← e2] at h; exact absurd (List.mem_map_of_mem h1') h.1
    · exact ih h.2 h1' h2'

/-- A name stands for one value. -/
theorem Holds.unique {t : PField} {s : Str} {l : Leaf} (h : Holds t s l) :
    ∀ {l'}, t.Names → Holds t s l' → l = l' := by
  induction h with
  | simple => intro l' _ h'; cases h'; rfl
  | @sitem k len vs v i hi =>
    intro l' _ h'
    generalize hq : idx i = q at h'
    cases h' with
    | sitem j hj => have := idx_inj hq; subst this; rw [hi] at hj; cases hj; rfl
  | @item ts t s l i hi hs ih =>
    intro l' hn h'
    simp only [PField.Names] at hn
    generalize hq : idx i ++ s = q at h'
    cases h' with
    | @item _ t' s' _ j hj hs' =>
      have := idx_inj (plain_inj (idx_plain i) (idx_plain j) hs.sep hs'.sep hq)
      subst this
      rw [hi] at hj
      cases hj
      rw [List.append_cancel_left_eq] at hq
      subst hq
      exact ih (namesI hn _ (List.mem_of_getElem? hi)) hs'
  | @field fs f t s l hf hs ih =>
    intro l' hn h'
    simp only [PField.Names] at hn
    generalize hq : '.' :: (f ++ s) = q at h'
    cases h' with
    | @field _ f' t' s' _ hf' hs' =>
      simp only [List.cons.injEq, true_and] at hq
      have := plain_inj (hn.2.1 f (List.mem_map_of_mem hf)) (hn.2.1 f' (List.mem_map_of_mem hf'))
        hs.sep hs'.sep hq
      subst this
      have := nodup_fst hn.1 hf hf'
      subst this
      rw [List.append_cancel_left_eq] at hq
      subst hq
      exact ih (namesF hn.2.2 _ hf) hs'

/-! ### The simple values in order -/

mutual
def leaves (name : Str) : PField → List (Str × Leaf)
  | .simple k len v => [(name, ⟨false, k, len, v⟩)]
  | .sarray k len vs => leavesS name k len 0 vs
  | .array ts => leavesI name 0 ts
  | .struct fs => leavesF name fs
def leavesS (name : Str) (k : Kind) (len : Nat) (i : Nat) : List Val → List (Str × Leaf)
  | [] => []
  | v :: vs => (name ++ idx i, ⟨true, k, len, v⟩) :: leavesS name k len (i + 1) vs
def leavesI (name : Str) (i : Nat) : List PField → List (Str × Leaf)
  | [] => []
  | t :: ts => leaves (name ++ idx i) t ++ leavesI name (i + 1) ts
def leavesF (name : Str) : List (Str × PField) → List (Str × Leaf)
  | [] => []
  | (f, t) :: fs => leaves (name ++ '.' :: f) t ++ leavesF name fs
end

theorem mem_leavesS {name : Str} {k : Kind} {len : Nat} {n : Str} {l : Leaf} (vs : List Val) :
    ∀ i, (n, l) ∈ leavesS name k len i vs ↔
      ∃ j v, vs[j]? = some v ∧ n = name ++ idx (i + j) ∧ l = ⟨true, k, len, v⟩ := by
  induction vs with
  | nil => intro i; simp [leavesS]
  | cons v vs ih =>
    intro i
    simp only [leavesS, List.mem_cons, ih, Prod.mk.injEq]
    constructor
    · rintro (⟨rfl, rfl⟩ | ⟨j, w, h1, h2, h3⟩)
      · exact ⟨0, v, rfl, rfl, rfl⟩
      · exact ⟨j + 1, w, by simpa using h1, by rw [h2]; congr 2; omega, h3⟩
    · rintro ⟨j, w, h1, h2, h3⟩
      cases j with
      | zero => left; simp at h1; subst h1; exact ⟨h2, h3⟩
      | succ j => right; exact ⟨j, w, by simpa using h1, by rw [h2]; congr 2; omega, h3⟩

mutual
theorem mem_leaves {n : Str} {l : Leaf} (name : Str) : ∀ t : PField,
    (n, l) ∈ leaves name t ↔ ∃ s, n = name ++ s ∧ Holds t s l
  | .simple k len v => by
    simp only [leaves, List.mem_singleton, Prod.mk.injEq]
    constructor
    · rintro ⟨rfl, rfl⟩; exact ⟨[], by simp, .simple⟩
    · rintro ⟨s, rfl, h⟩; cases h; simp
  | .sarray k len vs => by
    simp only [leaves, mem_leavesS, Nat.zero_add]
    constructor
    · rintro ⟨j, v, h, rfl, rfl⟩; exact ⟨_, rfl, .sitem j h⟩
    · rintro ⟨s, rfl, h⟩; cases h with | @sitem _ _ _ v i h => exact ⟨i, v, h, rfl, rfl⟩
  | .array ts => by
    simp only [leaves]
    rw [mem_leavesI name ts 0]
    constructor
    · rintro ⟨j, t, s, h, rfl, hs⟩; exact ⟨_, by rw [Nat.zero_add], .item j h hs⟩
    · rintro ⟨s, rfl, h⟩
      cases h with | @item _ t s _ i h hs => exact ⟨i, t, s, h, by rw [Nat.zero_add], hs⟩
  | .struct fs => by
    simp only [leaves]
    rw [mem_leavesF name fs]
    constructor
    · rintro ⟨f, t, s, h, rfl, hs⟩; exact ⟨_, rfl, .field h hs⟩
    · rintro ⟨s, rfl, h⟩; cases h with | @field _ f t s _ h hs => exact ⟨f, t, s, h, rfl, hs⟩
theorem mem_leavesI {n : Str} {l : Leaf} (name : Str) : ∀ (ts : List PField) (i : Nat),
    (n, l) ∈ leavesI name i ts ↔
      ∃ (j : Nat) (t : PField) (s : Str), ts[j]? = some t ∧ n = name ++ (idx (i + j) ++ s) ∧
        Holds t s l
  | [], i => by simp [leavesI]
  | t :: ts, i => by
    simp only [leavesI, List.mem_append]
    rw [mem_leaves (name ++ idx i) t, mem_leavesI name ts (i + 1)]
    constructor
    · rintro (⟨s, rfl, h⟩ | ⟨j, u, s, h1, h2, h3⟩)
      · exact ⟨0, t, s, rfl, by simp, h⟩
      · exact ⟨j + 1, u, s, by simpa using h1, by rw [h2]; congr 3; omega, h3⟩
    · rintro ⟨j, u, s, h1, h2, h3⟩
      cases j with
      | zero => left; simp at h1; subst h1; exact ⟨s, by simpa using h2, h3⟩
      | succ j => right; exact ⟨j, u, s, by simpa using h1, by rw [h2]; congr 3; omega, h3⟩
theorem mem_leavesF {n : Str} {l : Leaf} (name : Str) : ∀ (fs : List (Str × PField)),
    (n, l) ∈ leavesF name fs ↔
      ∃ (f : Str) (t : PField) (s : Str), (f, t) ∈ fs ∧ n = name ++ '.' :: (f ++ s) ∧
        Holds t s l
  | [] => by simp [leavesF]
  | (f, t) :: fs => by
    simp only [leavesF, List.mem_append]
    rw [mem_leaves (name ++ '.' :: f) t, mem_leavesF name fs]
    constructor
    · rintro (⟨s, rfl, h⟩ | ⟨g, u, s, h1, h2, h3⟩)
      · exact ⟨f, t, s, List.mem_cons_self .., by simp, h⟩
      · exact ⟨g, u, s, List.mem_cons_of_mem _ h1, h2, h3⟩
    · rintro ⟨g, u, s, h1, h2, h3⟩
      rcases List.mem_cons.1 h1 with e | h1
      · left; cases e; exact ⟨s, by simpa using h2, h3⟩
      · right; exact ⟨g, u, s, h1, h2, h3⟩
end

/-! ### Writing -/

def injectAll (R : Registry) (r : Req) : List (Str × Leaf) → Req × IRes
  | [] => (r, .ok)
  | (n, l) :: ls => match injectLeaf R r n l.any with
    | (r', .ok) => injectAll R r' ls
    | e => e

theorem injectAll_append (R : Registry) (a b : List (Str × Leaf)) : ∀ r,
    injectAll R r (a ++ b) = match injectAll R r a with
      | (r', .ok) => injectAll R r' b
      | e => e := by
  induction a with
  | nil => intro r; rfl
  | cons x a ih =>
    intro r
    obtain ⟨n, l⟩ := x
    simp only [List.cons_append, injectAll]
    rcases h : injectLeaf R r n l.any with ⟨r', e⟩
    cases e <;> simp only [ih]

theorem injectSimples_eq (R : Registry) (name : Str) (k : Kind) (len : Nat) (vs : List Val) :
    ∀ r i, injectSimples R r name k i vs = injectAll R r (leavesS name k len i vs) := by
  induction vs with
  | nil => intro r i; rfl
  | cons v vs ih =>
    intro r i
    simp only [injectSimples, leavesS, injectAll, Leaf.any]
    rcases h : injectLeaf R r (name ++ idx i) ⟨k, v⟩ with ⟨r', e⟩
    cases e <;> simp only [ih]

mutual
theorem inject_eq (R : Registry) (name : Str) : ∀ (t : PField) (r : Req),
    inject R r name t = injectAll R r (leaves name t)
  | .simple k len v, r => by
    simp only [inject, leaves, injectAll, Leaf.any]
    rcases h : injectLeaf R r name ⟨k, v⟩ with ⟨r', e⟩
    cases e <;> rfl
  | .sarray k len vs, r => by simp only [inject, leaves, injectSimples_eq R name k len]
  | .array ts, r => by simp only [inject, leaves]; exact injectItems_eq R name ts 0 r
  | .struct fs, r => by simp only [inject, leaves]; exact injectFields_eq R name fs r
theorem injectItems_eq (R : Registry) (name : Str) : ∀ (ts : List PField) (i : Nat) (r : Req),
    injectItems R r name i ts = injectAll R r (leavesI name i ts)
  | [], i, r => by simp only [injectItems, leavesI, injectAll]
  | t :: ts, i, r => by
    simp only [injectItems, leavesI, injectAll_append]
    rw [inject_eq R (name ++ idx i) t r]
    rcases h : injectAll R r (leaves (name ++ idx i) t) with ⟨r', e⟩
    cases e <;> simp only [injectItems_eq R name ts]
theorem injectFields_eq (R : Registry) (name : Str) : ∀ (fs : List (Str × PField)) (r : Req),
    injectFields R r name fs = injectAll R r (leavesF name fs)
  | [], r => by simp only [injectFields, leavesF, injectAll]
  | (f, t) :: fs, r => by
    simp only [injectFields, leavesF, injectAll_append]
    rw [inject_eq R (name ++ '.' :: f) t r]
    rcases h : injectAll R r (leaves (name ++ '.' :: f) t) with ⟨r', e⟩
    cases e <;> simp only [injectFields_eq R name fs]
end

/-- Same parameters with the same types: only values differ. -/
structure Like (r r' : Req) : Prop where
  types : r'.values.map Prod.snd = r.values.map Prod.snd
  indexes : r'.indexes = r.indexes
  ret : r'.ret = r.ret

theorem Like.refl (r : Req) : Like r r := ⟨rfl, rfl, rfl⟩
theorem Like.trans {a b c : Req} (h : Like a b) (h' : Like b c) : Like a c :=
  ⟨h'.types.trans h.types, h'.indexes.trans h.indexes, h'.ret.trans h.ret⟩

theorem Like.index {r r' : Req} (h : Like r r') (n : Option Str) : r'.index n = r.index n := by
  cases n with
  | none => rfl
  | some n => simp only [Req.index, h.indexes]

theorem Like.length {r r' : Req} (h : Like r r') : r'.values.length = r.values.length := by
  have := congrArg List.length h.types; simpa using this

/-- What `SetParameterValue` answers does not depend on the values. -/
theorem Like.answer {r r' : Req} (h : Like r r') (R : Registry) (i : Int) (v : Any) :
    (r'.set R i v).2 = (r.set R i v).2 := by
  unfold Req.set
  rw [h.length, h.indexes]
  split
  · rfl
  · have hu : r'.values[i.toNat]?.map Prod.snd = r.values[i.toNat]?.map Prod.snd := by
      rw [← List.getElem?_map, ← List.getElem?_map, h.types]
    cases h1 : r'.values[i.toNat]? with
    | none =>
      rw [h1] at hu
      cases h2 : r.values[i.toNat]? with
      | none => rfl
      | some p => rw [h2] at hu; cases hu
    | some p =>
      rw [h1] at hu
      cases h2 : r.values[i.toNat]? with
      | none => rw [h2] at hu; cases hu
      | some q =>
        rw [h2] at hu
        simp only [Option.map_some, Option.some.injEq] at hu
        obtain ⟨a, u⟩ := p
        obtain ⟨b, w⟩ := q
        simp only at hu
        subst hu
        simp only
        cases getType R u with
        | none => rfl
        | some t =>
          simp only
          cases isValid t v with
          | throw => rfl
          | ub => rfl
          | ok b =>
            cases b with
            | true => rfl
            | false => simp only; split <;> rfl

theorem set_like (R : Registry) (r : Req) (i : Int) (v : Any) : Like r (r.set R i v).1 := by
  rcases set_cases R r i v with ⟨he, _⟩ | ⟨k, rfl, w, u, t, hk, _, _, he⟩
  · rw [he]; exact .refl r
  · rw [he]
    refine ⟨?_, rfl, rfl⟩
    simp only [List.map_set]
    apply List.ext_getElem?
    intro j
    by_cases hj : k = j
    · subst hj
      have hlt : k < r.values.length := (List.getElem?_eq_some_iff.1 hk).1
      rw [List.getElem?_set_self (by simpa using hlt), List.getElem?_map, hk]
      rfl
    · rw [List.getElem?_set_ne hj]

/-- Different names have different indexes. -/
def Distinct (r : Req) : Prop :=
  ∀ n m, r.index (some n) = r.index (some m) → r.index (some n) ≠ -1 → n = m

theorem Like.distinct {r r' : Req} (h : Like r r') (hd : Distinct r) : Distinct r' := by
  intro n m h1 h2
  rw [h.index] at h1 h2
  rw [h.index] at h1
  exact hd n m h1 h2

theorem injectLeaf_spec (R : Registry) (r : Req) (hd : Distinct r) (n : Str) (a : Any) :
    Like r (injectLeaf R r n a).1 ∧
    (∀ m, m ≠ n → Req.param (injectLeaf R r n a).1 m = Req.param r m) ∧
    ((injectLeaf R r n a).2 = .ok ↔
      r.index (some n) ≠ -1 ∧ (r.set R (r.index (some n)) a).2 = .ok) ∧
    ((injectLeaf R r n a).2 = .ok → Req.param (injectLeaf R r n a).1 n = some a) ∧
    ((injectLeaf R r n a).2 ≠ .ok → (injectLeaf R r n a).1 = r) := by
  unfold injectLeaf
  by_cases hi : r.index (some n) = -1
  · rw [if_pos hi]
    exact ⟨.refl r, fun _ _ => rfl, by simp [hi], by simp, by simp⟩
  · rw [if_neg hi]
    have hl := set_like R r (r.index (some n)) a
    obtain ⟨h1, h2, _⟩ := C54_set R r (r.index (some n)) a
    rcases hs : r.set R (r.index (some n)) a with ⟨r', e⟩
    rw [hs] at hl h1 h2
    simp only at hl h1 h2
    have hother : e = .ok → ∀ m, m ≠ n → Req.param r' m = Req.param r m := by
      intro he m hm
      simp only [Req.param, hl.index]
      split
      · rfl
      · rename_i hmi
        exact (h1 he).2.1 _ (fun hc => hm (hd m n hc hmi))
    cases e with
    | ok =>
      refine ⟨hl, hother rfl, by simp [hi], ?_, by simp⟩
      intro _
      simp only [Req.param, hl.index, if_neg hi]
      exact (h1 rfl).1
    | _ =>
      have := h2 (by simp)
      subst this
      exact ⟨.refl _, fun _ _ => rfl, by simp, by simp, by simp⟩

theorem injectAll_spec (R : Registry) (ls : List (Str × Leaf)) : ∀ (r : Req), Distinct r →
    Like r (injectAll R r ls).1 ∧
    (∀ m, Req.param (injectAll R r ls).1 m = Req.param r m ∨
      ∃ l, (m, l) ∈ ls ∧ Req.param (injectAll R r ls).1 m = some l.any) ∧
    ((injectAll R r ls).2 = .ok ↔ ∀ n l, (n, l) ∈ ls →
      r.index (some n) ≠ -1 ∧ (r.set R (r.index (some n)) l.any).2 = .ok) ∧
    ((injectAll R r ls).2 = .ok → ∀ n l, (n, l) ∈ ls →
      ∃ l', (n, l') ∈ ls ∧ Req.param (injectAll R r ls).1 n = some l'.any) := by
  induction ls with
  | nil =>
    intro r _
    exact ⟨.refl r, fun m => Or.inl rfl, by simp [injectAll], by simp⟩
  | cons p ls ih =>
    intro r hd
    obtain ⟨n, l⟩ := p
    obtain ⟨h1, h2, h3, h4, h5⟩ := injectLeaf_spec R r hd n l.any
    simp only [injectAll]
    rcases hr : injectLeaf R r n l.any with ⟨r', e⟩
    rw [hr] at h1 h2 h3 h4 h5
    simp only at h1 h2 h3 h4 h5
    by_cases he : e = .ok
    · subst he
      obtain ⟨g1, g2, g3, g4⟩ := ih r' (h1.distinct hd)
      simp only
      refine ⟨h1.trans g1, ?_, ?_, ?_⟩
      · intro m
        rcases g2 m with g | ⟨l', hl', hp⟩
        · by_cases hm : m = n
          · subst hm
            exact Or.inr ⟨l, List.mem_cons_self .., by rw [g]; exact h4 rfl⟩
          · left; rw [g, h2 m hm]
        · exact Or.inr ⟨l', List.mem_cons_of_mem _ hl', hp⟩
      · rw [g3]
        simp only [h1.index, h1.answer, List.mem_cons, Prod.mk.injEq]
        constructor
        · rintro h m l' (⟨rfl, rfl⟩ | hm)
          · exact h3.1 rfl
          · exact h m l' hm
        · intro h m l' hm
          exact h m l' (Or.inr hm)
      · intro hok m l' hm
        rcases List.mem_cons.1 hm with e | hm
        · cases e
          rcases g2 n with g | ⟨l', hl', hp⟩
          · exact ⟨l, List.mem_cons_self .., by rw [g]; exact h4 rfl⟩
          · exact ⟨l', List.mem_cons_of_mem _ hl', hp⟩
        · obtain ⟨l'', h', hp⟩ := g4 hok m l' hm
          exact ⟨l'', List.mem_cons_of_mem _ h', hp⟩
    · have hr' := h5 he
      subst hr'
      have hmatch : (match (r', e) with
          | (r', .ok) => injectAll R r' ls
          | e => e) = (r', e) := by
        cases e <;> first | exact absurd rfl he | rfl
      rw [hmatch]
      refine ⟨.refl _, fun m => Or.inl rfl, ?_, fun h => absurd h he⟩
      constructor
      · intro h; exact absurd h he
      · intro h
        exact absurd (h3.2 (h n l (List.mem_cons_self ..))) he

/-- A request an operation made, after any calls. -/
theorem distinct_run {R : Registry} {ps : List (Str × Uuid)} (hn : (ps.map Prod.fst).Nodup)
    (cs : List RCall) : Distinct (rrun (R, build ps) cs).2 :=
  (C54_index R ps hn cs).2.2.2

/-! ### Reading -/

/-- Reading one simple value. -/
def read (narrow : Fl → Fl) (r : Req) (ign : Bool) (n : Str) (l : Leaf) : Val × XRes :=
  extractLeaf narrow r ign l.item n l.kind l.len l.v

mutual
/-- The field with each simple value replaced. -/
def fill (g : Str → Leaf → Val) (name : Str) : PField → PField
  | .simple k len v => .simple k len (g name ⟨false, k, len, v⟩)
  | .sarray k len vs => .sarray k len (fillS g name k len 0 vs)
  | .array ts => .array (fillI g name 0 ts)
  | .struct fs => .struct (fillF g name fs)
def fillS (g : Str → Leaf → Val) (name : Str) (k : Kind) (len : Nat) (i : Nat) :
    List Val → List Val
  | [] => []
  | v :: vs => g (name ++ idx i) ⟨true, k, len, v⟩ :: fillS g name k len (i + 1) vs
def fillI (g : Str → Leaf → Val) (name : Str) (i : Nat) : List PField → List PField
  | [] => []
  | t :: ts => fill g (name ++ idx i) t :: fillI g name (i + 1) ts
def fillF (g : Str → Leaf → Val) (name : Str) : List (Str × PField) → List (Str × PField)
  | [] => []
  | (f, t) :: fs => (f, fill g (name ++ '.' :: f) t) :: fillF g name fs
end

/-- What the readers do, for a field and for the lists of the loops. -/
def Reads {α : Type} (f : Str → Leaf → Val × XRes) (ls : List (Str × Leaf)) (filled : α)
    (x : α × XRes) : Prop :=
  (x.2 = .ok ↔ ∀ p ∈ ls, (f p.1 p.2).2 = .ok) ∧ (x.2 = .ok → x.1 = filled)

theorem Reads.cons {α β γ : Type} {f : Str → Leaf → Val × XRes} {a b : List (Str × Leaf)}
    {fa : α} {fb : β} {x : α × XRes} {y : β × XRes} {z : γ × XRes} {c : α → β → γ}
    (ha : Reads f a fa x) (hb : Reads f b fb y)
    (h1 : x.2 = .ok → z = (c x.1 y.1, y.2)) (h2 : x.2 ≠ .ok → z.2 = x.2) :
    Reads f (a ++ b) (c fa fb) z := by
  by_cases hx : x.2 = .ok
  · have hz := h1 hx
    subst hz
    constructor
    · simp only [List.mem_append]
      rw [hb.1]
      constructor
      · rintro h p (hp | hp)
        · exact ha.1.1 hx p hp
        · exact h p hp
      · exact fun h p hp => h p (Or.inr hp)
    · intro h
      simp only at h ⊢
      rw [ha.2 hx, hb.2 h]
  · have hz := h2 hx
    constructor
    · rw [hz]
      constructor
      · exact fun h => absurd h hx
      · exact fun h => absurd (ha.1.2 fun p hp => h p (List.mem_append_left _ hp)) hx
    · rw [hz]; exact fun h => absurd h hx

theorem Reads.map {α β : Type} {f : Str → Leaf → Val × XRes} {a : List (Str × Leaf)}
    {fa : α} {x : α × XRes} (ha : Reads f a fa x) (c : α → β) :
    Reads f a (c fa) (c x.1, x.2) :=
  ⟨ha.1, fun h => congrArg c (ha.2 h)⟩

theorem reads_leaf (f : Str → Leaf → Val × XRes) (n : Str) (l : Leaf) :
    Reads f [(n, l)] (f n l).1 (f n l) := by
  constructor
  · simp
  · intro _; rfl

theorem extractSimples_reads (narrow : Fl → Fl) (r : Req) (ign : Bool) (name : Str) (k : Kind)
    (len : Nat) (vs : List Val) : ∀ i,
    Reads (read narrow r ign) (leavesS name k len i vs)
      (fillS (fun n l => (read narrow r ign n l).1) name k len i vs)
      (extractSimples narrow r ign name k len i vs) := by
  induction vs with
  | nil => intro i; simp [extractSimples, leavesS, fillS, Reads]
  | cons v vs ih =>
    intro i
    have hl := reads_leaf (read narrow r ign) (name ++ idx i) ⟨true, k, len, v⟩
    refine Reads.cons (c := List.cons) hl (ih (i + 1)) ?_ ?_
    · simp only [read, extractSimples]
      rcases extractLeaf narrow r ign true (name ++ idx i) k len v with ⟨w, e⟩
      rintro he
      simp only at he
      subst he
      rfl
    · simp only [read, extractSimples]
      rcases extractLeaf narrow r ign true (name ++ idx i) k len v with ⟨w, e⟩
      intro he
      cases e <;> first | exact absurd rfl he | rfl

mutual
theorem extract_reads (narrow : Fl → Fl) (r : Req) (ign : Bool) (name : Str) : ∀ t : PField,
    Reads (read narrow r ign) (leaves name t)
      (fill (fun n l => (read narrow r ign n l).1) name t) (extract narrow r ign name t)
  | .simple k len v => by
    simp only [leaves, fill, extract]
    exact (reads_leaf (read narrow r ign) name ⟨false, k, len, v⟩).map (PField.simple k len)
  | .sarray k len vs => by
    simp only [leaves, fill, extract]
    exact (extractSimples_reads narrow r ign name k len vs 0).map (PField.sarray k len)
  | .array ts => by
    simp only [leaves, fill, extract]
    exact (extractItems_reads narrow r ign name ts 0).map PField.array
  | .struct fs => by
    simp only [leaves, fill, extract]
    exact (extractFields_reads narrow r ign name fs).map PField.struct
theorem extractItems_reads (narrow : Fl → Fl) (r : Req) (ign : Bool) (name : Str) :
    ∀ (ts : List PField) (i : Nat),
    Reads (read narrow r ign) (leavesI name i ts)
      (fillI (fun n l => (read narrow r ign n l).1) name i ts)
      (extractItems narrow r ign name i ts)
  | [], i => by simp [extractItems, leavesI, fillI, Reads]
  | t :: ts, i => by
    simp only [leavesI, fillI]
    refine Reads.cons (c := List.cons) (extract_reads narrow r ign (name ++ idx i) t)
      (extractItems_reads narrow r ign name ts (i + 1)) ?_ ?_
    · simp only [extractItems]
      rcases extract narrow r ign (name ++ idx i) t with ⟨w, e⟩
      rintro he
      simp only at he
      subst he
      rfl
    · simp only [extractItems]
      rcases extract narrow r ign (name ++ idx i) t with ⟨w, e⟩
      intro he
      cases e <;> first | exact absurd rfl he | rfl
theorem extractFields_reads (narrow : Fl → Fl) (r : Req) (ign : Bool) (name : Str) :
    ∀ (fs : List (Str × PField)),
    Reads (read narrow r ign) (leavesF name fs)
      (fillF (fun n l => (read narrow r ign n l).1) name fs)
      (extractFields narrow r ign name fs)
  | [] => by simp [extractFields, leavesF, fillF, Reads]
  | (f, t) :: fs => by
    simp only [leavesF, fillF]
    refine Reads.cons (c := fun t ts => (f, t) :: ts)
      (extract_reads narrow r ign (name ++ '.' :: f) t)
      (extractFields_reads narrow r ign name fs) ?_ ?_
    · simp only [extractFields]
      rcases extract narrow r ign (name ++ '.' :: f) t with ⟨w, e⟩
      rintro he
      simp only at he
      subst he
      rfl
    · simp only [extractFields]
      rcases extract narrow r ign (name ++ '.' :: f) t with ⟨w, e⟩
      intro he
      cases e <;> first | exact absurd rfl he | rfl
end

theorem fillS_blank (g : Str → Leaf → Val) (name : Str) (k : Kind) (len : Nat) (vs : List Val) :
    ∀ i, (fillS g name k len i vs).map (fun _ => Val.none) = vs.map fun _ => Val.none := by
  induction vs with
  | nil => intro i; rfl
  | cons v vs ih => intro i; simp only [fillS, List.map_cons, ih]

mutual
theorem fill_blank (g : Str → Leaf → Val) (name : Str) : ∀ t : PField,
    (fill g name t).blank = t.blank
  | .simple k len v => by simp only [fill, PField.blank]
  | .sarray k len vs => by simp only [fill, PField.blank, fillS_blank]
  | .array ts => by simp only [fill, PField.blank]; rw [fillI_blank g name ts 0]
  | .struct fs => by simp only [fill, PField.blank]; rw [fillF_blank g name fs]
theorem fillI_blank (g : Str → Leaf → Val) (name : Str) : ∀ (ts : List PField) (i : Nat),
    blankI (fillI g name i ts) = blankI ts
  | [], i => by simp only [fillI]
  | t :: ts, i => by
    simp only [fillI, blankI]; rw [fill_blank g (name ++ idx i) t, fillI_blank g name ts (i + 1)]
theorem fillF_blank (g : Str → Leaf → Val) (name : Str) : ∀ (fs : List (Str × PField)),
    blankF (fillF g name fs) = blankF fs
  | [] => by simp only [fillF]
  | (f, t) :: fs => by
    simp only [fillF, blankF]
    rw [fill_blank g (name ++ '.' :: f) t, fillF_blank g name fs]
end

theorem fillS_get (g : Str → Leaf → Val) (name : Str) (k : Kind) (len : Nat) {v : Val}
    (vs : List Val) : ∀ (i j : Nat), vs[j]? = some v →
    (fillS g name k len i vs)[j]? = some (g (name ++ idx (i + j)) ⟨true, k, len, v⟩) := by
  induction vs with
  | nil => intro i j h; simp at h
  | cons w vs ih =>
    intro i j h
    cases j with
    | zero => simp at h; subst h; rfl
    | succ j =>
      simp only [fillS, List.getElem?_cons_succ]
      rw [ih (i + 1) j (by simpa using h), show i + 1 + j = i + (j + 1) by omega]

theorem fillI_get (g : Str → Leaf → Val) (name : Str) {t : PField}
    (ts : List PField) : ∀ (i j : Nat), ts[j]? = some t →
    (fillI g name i ts)[j]? = some (fill g (name ++ idx (i + j)) t) := by
  induction ts with
  | nil => intro i j h; simp at h
  | cons w ts ih =>
    intro i j h
    cases j with
    | zero => simp at h; subst h; rfl
    | succ j =>
      simp only [fillI, List.getElem?_cons_succ]
      rw [ih (i + 1) j (by simpa using h), show i + 1 + j = i + (j + 1) by omega]

theorem fillF_mem (g : Str → Leaf → Val) (name : Str) {f : Str} {t : PField}
    (fs : List (Str × PField)) : (f, t) ∈ fs →
    (f, fill g (name ++ '.' :: f) t) ∈ fillF g name fs := by
  induction fs with
  | nil => intro h; cases h
  | cons a fs ih =>
    obtain ⟨f', t'⟩ := a
    intro h
    simp only [fillF]
    rcases List.mem_cons.1 h with e | h
    · cases e; exact List.mem_cons_self ..
    · exact List.mem_cons_of_mem _ (ih h)

theorem fill_holds (g : Str → Leaf → Val) {t : PField} {s : Str} {l : Leaf} (h : Holds t s l) :
    ∀ name, Holds (fill g name t) s { l with v := g (name ++ s) l } := by
  induction h with
  | simple => intro name; simp only [fill, List.append_nil]; exact .simple
  | @sitem k len vs v i hi =>
    intro name
    simp only [fill]
    have := fillS_get g name k len vs 0 i hi
    rw [Nat.zero_add] at this
    exact .sitem i this
  | @item ts t s l i hi hs ih =>
    intro name
    simp only [fill]
    have h1 := fillI_get g name ts 0 i hi
    rw [Nat.zero_add] at h1
    have h2 := ih (name ++ idx i)
    rw [List.append_assoc] at h2
    exact .item i h1 h2
  | @field fs f t s l hf hs ih =>
    intro name
    simp only [fill]
    have h2 := ih (name ++ '.' :: f)
    rw [List.append_assoc, List.cons_append] at h2
    exact .field (fillF_mem g name fs hf) h2

/-- Two fields with the same structure and the same values are the same. -/
theorem same_simples {k k' : Kind} {len len' : Nat} {vs ws : List Val}
    (h : PField.blank (.sarray k len vs) = PField.blank (.sarray k' len' ws)) :
    k = k' ∧ len = len' ∧ vs.length = ws.length := by
  simp only [PField.blank, PField.sarray.injEq] at h
  refine ⟨h.1, h.2.1, ?_⟩
  have := congrArg List.length h.2.2
  simpa using this

mutual
theorem blank_holds : ∀ (t u : PField), t.blank = u.blank → ∀ s l, Holds t s l →
    ∃ v, Holds u s { l with v := v }
  | .simple k len v, u, h, s, l, hl => by
    cases u <;> simp only [PField.blank, reduceCtorEq, PField.simple.injEq] at h
    rename_i k' len' v'
    obtain ⟨rfl, rfl, -⟩ := h
    cases hl
    exact ⟨v', .simple⟩
  | .sarray k len vs, u, h, s, l, hl => by
    cases u with
    | sarray k' len' ws =>
      obtain ⟨rfl, rfl, hlen⟩ := same_simples h
      cases hl with
      | @sitem _ _ _ v i hi =>
        have hlt : i < ws.length := by
          rw [← hlen]; exact (List.getElem?_eq_some_iff.1 hi).1
        exact ⟨ws[i], .sitem i (List.getElem?_eq_getElem hlt)⟩
    | _ => simp [PField.blank] at h
  | .array ts, u, h, s, l, hl => by
    cases u with
    | array us =>
      simp only [PField.blank, PField.array.injEq] at h
      cases hl with
      | @item _ t s _ i hi hs =>
        obtain ⟨u, hu, v, hv⟩ := blankI_holds ts us h i t s l hi hs
        exact ⟨v, .item i hu hv⟩
    | _ => simp [PField.blank] at h
  | .struct fs, u, h, s, l, hl => by
    cases u with
    | struct gs =>
      simp only [PField.blank, PField.struct.injEq] at h
      cases hl with
      | @field _ f t s _ hf hs =>
        obtain ⟨u, hu, v, hv⟩ := blankF_holds fs gs h f t s l hf hs
        exact ⟨v, .field hu hv⟩
    | _ => simp [PField.blank] at h
theorem blankI_holds : ∀ (ts us : List PField), blankI ts = blankI us → ∀ (i : Nat) t s l,
    ts[i]? = some t → Holds t s l → ∃ u, us[i]? = some u ∧ ∃ v, Holds u s { l with v := v }
  | [], us, _, i, t, s, l, hi, _ => by simp at hi
  | t :: ts, us, h, i, t', s, l, hi, hl => by
    cases us with
    | nil => simp [blankI] at h
    | cons u us =>
      simp only [blankI, List.cons.injEq] at h
      cases i with
      | zero =>
        simp at hi
        subst hi
        exact ⟨u, rfl, blank_holds t u h.1 s l hl⟩
      | succ i =>
        obtain ⟨w, hw, hh⟩ := blankI_holds ts us h.2 i t' s l (by simpa using hi) hl
        exact ⟨w, by simpa using hw, hh⟩
theorem blankF_holds : ∀ (fs gs : List (Str × PField)), blankF fs = blankF gs → ∀ f t s l,
    (f, t) ∈ fs → Holds t s l → ∃ u, (f, u) ∈ gs ∧ ∃ v, Holds u s { l with v := v }
  | [], gs, _, f, t, s, l, hi, _ => by cases hi
  | (f, t) :: fs, gs, h, f', t', s, l, hi, hl => by
    cases gs with
    | nil => simp [blankF] at h
    | cons g gs =>
      obtain ⟨g, u⟩ := g
      simp only [blankF, List.cons.injEq, Prod.mk.injEq] at h
      rcases List.mem_cons.1 hi with e | hi
      · cases e
        rw [← h.1.1]
        exact ⟨u, List.mem_cons_self .., blank_holds t u h.1.2 s l hl⟩
      · obtain ⟨w, hw, hh⟩ := blankF_holds fs gs h.2 f' t' s l hi hl
        exact ⟨w, List.mem_cons_of_mem _ hw, hh⟩
end

theorem fillS_same (g : Str → Leaf → Val) (name : Str) (k : Kind) (len : Nat) :
    ∀ (vs ws : List Val) (i : Nat), vs.length = ws.length →
    (∀ (j : Nat) (v w : Val), vs[j]? = some v → ws[j]? = some w →
      g (name ++ idx (i + j)) ⟨true, k, len, v⟩ = w) → fillS g name k len i vs = ws
  | [], ws, i, h, _ => by cases ws <;> simp [fillS] at h ⊢
  | v :: vs, [], i, h, _ => by simp at h
  | v :: vs, w :: ws, i, h, hg => by
    simp only [fillS]
    rw [show g (name ++ idx i) ⟨true, k, len, v⟩ = w from hg 0 v w rfl rfl,
      fillS_same g name k len vs ws (i + 1) (by simpa using h)
        (fun j a b ha hb => by
          have := hg (j + 1) a b (by simpa using ha) (by simpa using hb)
          rwa [show i + (j + 1) = i + 1 + j by omega] at this)]

mutual
theorem fill_same (g : Str → Leaf → Val) (name : Str) : ∀ (t u : PField), t.blank = u.blank →
    (∀ s l v, Holds t s l → Holds u s { l with v := v } → g (name ++ s) l = v) →
    fill g name t = u
  | .simple k len v, u, h, hg => by
    cases u <;> simp only [PField.blank, reduceCtorEq, PField.simple.injEq] at h
    rename_i k' len' v'
    obtain ⟨rfl, rfl, -⟩ := h
    simp only [fill]
    have := hg [] _ v' (.simple (v := v)) .simple
    rw [List.append_nil] at this
    rw [this]
  | .sarray k len vs, u, h, hg => by
    cases u with
    | sarray k' len' ws =>
      obtain ⟨rfl, rfl, hlen⟩ := same_simples h
      simp only [fill]
      rw [fillS_same g name k len vs ws 0 hlen (fun j v w hv hw => by
        rw [Nat.zero_add]
        exact hg (idx j) ⟨true, k, len, v⟩ w (.sitem j hv) (.sitem j hw))]
    | _ => simp [PField.blank] at h
  | .array ts, u, h, hg => by
    cases u with
    | array us =>
      simp only [PField.blank, PField.array.injEq] at h
      simp only [fill]
      rw [fillI_same g name ts us 0 h (fun j t u s l v ht hu hl hv => by
        rw [Nat.zero_add]
        exact hg _ l v (.item j ht hl) (.item j hu hv))]
    | _ => simp [PField.blank] at h
  | .struct fs, u, h, hg => by
    cases u with
    | struct gs =>
      simp only [PField.blank, PField.struct.injEq] at h
      simp only [fill]
      rw [fillF_same g name fs gs h (fun f t u s l v ht hu hl hv =>
        hg _ l v (.field ht hl) (.field hu hv))]
    | _ => simp [PField.blank] at h
theorem fillI_same (g : Str → Leaf → Val) (name : Str) : ∀ (ts us : List PField) (i : Nat),
    blankI ts = blankI us →
    (∀ (j : Nat) t u s l v, ts[j]? = some t → us[j]? = some u → Holds t s l →
      Holds u s { l with v := v } → g (name ++ (idx (i + j) ++ s)) l = v) →
    fillI g name i ts = us
  | [], us, i, h, hg => by cases us <;> simp [fillI, blankI] at h ⊢
  | t :: ts, us, i, h, hg => by
    cases us with
    | nil => simp [blankI] at h
    | cons u us =>
      simp only [blankI, List.cons.injEq] at h
      simp only [fillI]
      rw [fill_same g (name ++ idx i) t u h.1 (fun s l v hl hv => by
          have := hg 0 t u s l v rfl rfl hl hv
          rw [List.append_assoc]; exact this),
        fillI_same g name ts us (i + 1) h.2 (fun j a b s l v ha hb hl hv => by
          have := hg (j + 1) a b s l v (by simpa using ha) (by simpa using hb) hl hv
          rwa [show i + (j + 1) = i + 1 + j by omega] at this)]
theorem fillF_same (g : Str → Leaf → Val) (name : Str) : ∀ (fs gs : List (Str × PField)),
    blankF fs = blankF gs →
    (∀ f t u s l v, (f, t) ∈ fs → (f, u) ∈ gs → Holds t s l →
      Holds u s { l with v := v } → g (name ++ '.' :: (f ++ s)) l = v) →
    fillF g name fs = gs
  | [], gs, h, hg => by cases gs <;> simp [fillF, blankF] at h ⊢
  | (f, t) :: fs, gs, h, hg => by
    cases gs with
    | nil => simp [blankF] at h
    | cons p gs =>
      obtain ⟨f', u⟩ := p
      simp only [blankF, List.cons.injEq, Prod.mk.injEq] at h
      obtain ⟨⟨rfl, h1⟩, h2⟩ := h
      simp only [fillF]
      rw [fill_same g (name ++ '.' :: f) t u h1 (fun s l v hl hv => by
          have := hg f t u s l v (List.mem_cons_self ..) (List.mem_cons_self ..) hl hv
          rw [List.append_assoc]; exact this),
        fillF_same g name fs gs h2 (fun f a b s l v ha hb hl hv =>
          hg f a b s l v (List.mem_cons_of_mem _ ha) (List.mem_cons_of_mem _ hb) hl hv)]
end

/-! ### C76 -/

/-- C76, writing. In a request of an operation whose parameters have different names, after any
calls, let a structured value be injected under a name. It succeeds exactly when each simple
value has a parameter that accepts it. Then each of those parameters has its value. Whether it
succeeds or not, every other parameter keeps its value and those of the structured value have
the old or the new one; names and return value are untouched. -/
theorem C76_inject (R : Registry) (ps : List (Str × Uuid)) (hn : (ps.map Prod.fst).Nodup)
    (cs : List RCall) (name : Str) (t : PField) (ht : t.Names) :
    let R' := (rrun (R, build ps) cs).1
    let r := (rrun (R, build ps) cs).2
    let r' := (inject R' r name t).1
    ((inject R' r name t).2 = .ok ↔ ∀ s l, Holds t s l → r.index (some (name ++ s)) ≠ -1 ∧
      (r.set R' (r.index (some (name ++ s))) l.any).2 = .ok) ∧
    ((inject R' r name t).2 = .ok → ∀ s l, Holds t s l →
      Req.param r' (name ++ s) = some l.any) ∧
    (∀ n, (∀ s l, Holds t s l → n ≠ name ++ s) → Req.param r' n = Req.param r n) ∧
    (∀ s l, Holds t s l → Req.param r' (name ++ s) = Req.param r (name ++ s) ∨
      Req.param r' (name ++ s) = some l.any) ∧
    r'.ret = r.ret ∧ ∀ n, r'.index n = r.index n := by
  intro R' r r'
  obtain ⟨h1, h2, h3, h4⟩ := injectAll_spec R' (leaves name t) r (distinct_run hn cs)
  simp only [← inject_eq] at h1 h2 h3 h4
  refine ⟨?_, ?_, ?_, ?_, h1.ret, h1.index⟩
  · rw [h3]
    constructor
    · exact fun h s l hl => h _ l ((mem_leaves name t).2 ⟨s, rfl, hl⟩)
    · intro h n l hl
      obtain ⟨s, rfl, hs⟩ := (mem_leaves name t).1 hl
      exact h s l hs
  · intro hok s l hl
    obtain ⟨l', hl', hp⟩ := h4 hok _ l ((mem_leaves name t).2 ⟨s, rfl, hl⟩)
    obtain ⟨s', hs', hh⟩ := (mem_leaves name t).1 hl'
    rw [List.append_cancel_left_eq] at hs'
    subst hs'
    rw [hl.unique ht hh]
    exact hp
  · intro n hne
    rcases h2 n with h | ⟨l, hl, _⟩
    · exact h
    · obtain ⟨s, rfl, hs⟩ := (mem_leaves name t).1 hl
      exact absurd rfl (hne s l hs)
  · intro s l hl
    rcases h2 (name ++ s) with h | ⟨l', hl', hp⟩
    · exact Or.inl h
    · obtain ⟨s', hs', hh⟩ := (mem_leaves name t).1 hl'
      rw [List.append_cancel_left_eq] at hs'
      subst hs'
      right
      rw [hl.unique ht hh]
      exact hp

/-- What reading one simple value gives: the parameter converted, or, when it is missing and
that is allowed, the value the field had. An item of a simple array must be of the same kind. -/
def Got (narrow : Fl → Fl) (r : Req) (ign : Bool) (n : Str) (l : Leaf) (w : Val) : Prop :=
  (r.index (some n) = -1 ∧ ign = true ∧ w = l.v) ∨
  (∃ a, Req.param r n = some a ∧ (l.item = true → a.type = l.kind) ∧
    coerce narrow l.kind l.len a = .ok w)

theorem read_ok (narrow : Fl → Fl) (r : Req) (ign : Bool) (n : Str) (l : Leaf) (w : Val) :
    read narrow r ign n l = (w, .ok) ↔ Got narrow r ign n l w := by
  unfold read extractLeaf Got Req.param
  by_cases hi : r.index (some n) = -1
  · rw [if_pos hi]
    cases ign
    · simp [hi]
    · simp [hi]; exact eq_comm
  · rw [if_neg hi, if_neg hi]
    cases hg : r.get (r.index (some n)) with
    | none => simp [hi]
    | some a =>
      simp only [hi, false_and, false_or, Option.some.injEq, exists_eq_left']
      cases hb : (l.item && a.type != l.kind) with
      | true =>
        rw [if_pos rfl]
        simp only [Bool.and_eq_true, bne_iff_ne, ne_eq] at hb
        constructor
        · intro h; cases h
        · rintro ⟨h, _⟩; exact absurd (h hb.1) hb.2
      | false =>
        rw [if_neg (by simp)]
        have : l.item = true → a.type = l.kind := by
          intro h
          rw [h] at hb
          simpa using hb
        cases coerce narrow l.kind l.len a with
        | ok x =>
          simp only [Prod.mk.injEq, and_true, Out.ok.injEq]
          exact ⟨fun h => ⟨this, h⟩, fun h => h.2⟩
        | throw => simp
        | ub => simp

/-- C76, reading. Extracting a structured value succeeds exactly when each simple value can be
read; the field then has the same structure and each value read. -/
theorem C76_extract (narrow : Fl → Fl) (r : Req) (ign : Bool) (name : Str) (t : PField) :
    ((extract narrow r ign name t).2 = .ok ↔
      ∀ s l, Holds t s l → ∃ w, Got narrow r ign (name ++ s) l w) ∧
    ((extract narrow r ign name t).2 = .ok →
      (extract narrow r ign name t).1.blank = t.blank ∧
      ∀ s l, Holds t s l → ∃ w, Got narrow r ign (name ++ s) l w ∧
        Holds (extract narrow r ign name t).1 s { l with v := w }) := by
  obtain ⟨h1, h2⟩ := extract_reads narrow r ign name t
  have hgot : ∀ n l, (read narrow r ign n l).2 = .ok ↔ ∃ w, Got narrow r ign n l w := by
    intro n l
    constructor
    · intro h
      exact ⟨(read narrow r ign n l).1, (read_ok ..).1 (Prod.ext rfl h)⟩
    · rintro ⟨w, hw⟩
      rw [(read_ok ..).2 hw]
  refine ⟨?_, ?_⟩
  · rw [h1]
    constructor
    · exact fun h s l hl => (hgot _ l).1 (h (name ++ s, l) ((mem_leaves name t).2 ⟨s, rfl, hl⟩))
    · rintro h ⟨n, l⟩ hl
      obtain ⟨s, rfl, hs⟩ := (mem_leaves name t).1 hl
      exact (hgot _ l).2 (h s l hs)
  · intro hok
    rw [h2 hok]
    refine ⟨fill_blank _ name t, fun s l hl => ?_⟩
    have hr := h1.1 hok (name ++ s, l) ((mem_leaves name t).2 ⟨s, rfl, hl⟩)
    refine ⟨(read narrow r ign (name ++ s) l).1, (read_ok ..).1 (Prod.ext rfl hr), ?_⟩
    exact fill_holds _ hl name

/-- Reading back values the request has. -/
theorem extract_same (narrow : Fl → Fl) (r : Req) (ign : Bool) (name : Str) (t u : PField)
    (hu : u.Names) (hb : t.blank = u.blank)
    (hv : ∀ s l, Holds u s l → l.Fits ∧ Req.param r (name ++ s) = some l.any) :
    extract narrow r ign name t = (u, .ok) := by
  have hgot : ∀ s l v, Holds t s l → Holds u s { l with v := v } →
      Got narrow r ign (name ++ s) l v := by
    intro s l v hl hl'
    obtain ⟨hf, hp⟩ := hv s _ hl'
    refine Or.inr ⟨_, hp, fun _ => rfl, ?_⟩
    have := coerce_same narrow ⟨l.kind, l.len, false, false, false, false, none, v, false, []⟩ v hf
    exact this
  obtain ⟨h1, h2⟩ := extract_reads narrow r ign name t
  have hok : (extract narrow r ign name t).2 = .ok := by
    rw [h1]
    rintro ⟨n, l⟩ hl
    obtain ⟨s, rfl, hs⟩ := (mem_leaves name t).1 hl
    obtain ⟨v, hv'⟩ := blank_holds t u hb s l hs
    rw [(read_ok ..).2 (hgot s l v hs hv')]
  refine Prod.ext ?_ hok
  rw [h2 hok]
  exact fill_same _ name t u hb (fun s l v hl hl' => by
    rw [(read_ok ..).2 (hgot s l v hl hl')])

/-- C76, round trip. A structured value injected in a request is what extracting it under the
same name gives, whatever the values the extracting field had before, also if other parameters
are set in between and with or without default values. -/
theorem C76_roundtrip (narrow : Fl → Fl) (R : Registry) (ps : List (Str × Uuid))
    (hn : (ps.map Prod.fst).Nodup) (cs : List RCall) (name : Str) (t u : PField) (hu : u.Names)
    (hb : t.blank = u.blank) (hfit : ∀ s l, Holds u s l → l.Fits)
    (hok : (inject (rrun (R, build ps) cs).1 (rrun (R, build ps) cs).2 name u).2 = .ok)
    (other : PField) (name' : Str) (ho : other.Names)
    (hsep : ∀ s l s' l', Holds u s l → Holds other s' l' → name ++ s ≠ name' ++ s') (ign : Bool) :
    let r := (inject (rrun (R, build ps) cs).1 (rrun (R, build ps) cs).2 name u).1
    extract narrow r ign name t = (u, .ok) ∧
    extract narrow (inject (rrun (R, build ps) cs).1 r name' other).1 ign name t = (u, .ok) := by
  intro r
  have h := C76_inject R ps hn cs name u hu
  simp only at h
  have hd : Distinct r := by
    obtain ⟨h1, _⟩ := injectAll_spec (rrun (R, build ps) cs).1 (leaves name u) _
      (distinct_run hn cs)
    rw [← inject_eq] at h1
    exact h1.distinct (distinct_run hn cs)
  refine ⟨extract_same narrow r ign name t u hu hb fun s l hl => ⟨hfit s l hl, h.2.1 hok s l hl⟩,
    extract_same narrow _ ign name t u hu hb fun s l hl => ⟨hfit s l hl, ?_⟩⟩
  obtain ⟨_, h2, _, _⟩ := injectAll_spec (rrun (R, build ps) cs).1 (leaves name' other) r hd
  rw [← inject_eq] at h2
  rcases h2 (name ++ s) with g | ⟨l', hl', _⟩
  · rw [g]; exact h.2.1 hok s l hl
  · obtain ⟨s', hs', hh⟩ := (mem_leaves name' other).1 hl'
    exact absurd hs' (hsep s l s' l' hl hh)

/-! ### The request of an operation -/

/-- The temporary field is of the type of the parameter. -/
inductive Matches (R : Registry) : PField → Shape → Prop
  | simple {k len v u ty} (h : getType R u = some ty) (hk : ty.kind = k) :
      Matches R (.simple k len v) (.simple u)
  | sarray {k len vs u ty} (h : getType R u = some ty) (hk : ty.kind = k) :
      Matches R (.sarray k len vs) (.array vs.length (.simple u))
  | array {ts : List PField} {s : Shape} (h : ∀ t ∈ ts, Matches R t s) :
      Matches R (.array ts) (.array ts.length s)
  | struct {fs : List (Str × PField)} {gs : List (Str × Shape)}
      (hl : fs.map Prod.fst = gs.map Prod.fst)
      (h : ∀ (i : Nat) f t g s, fs[i]? = some (f, t) → gs[i]? = some (g, s) → Matches R t s) :
      Matches R (.struct fs) (.struct gs)

theorem loop_mem {α} {f : Nat → Option (List α)} : ∀ {n : Nat} {L : List α}, loop f n = some L →
    ∀ i, i < n → ∃ b, f i = some b ∧ ∀ x ∈ b, x ∈ L
  | 0, L, _, i, hi => by omega
  | n + 1, L, h, i, hi => by
    simp only [loop] at h
    split at h
    · rename_i a b ha hb
      cases h
      by_cases hin : i < n
      · obtain ⟨c, hc, hm⟩ := loop_mem ha i hin
        exact ⟨c, hc, fun x hx => List.mem_append_left _ (hm x hx)⟩
      · have : i = n := by omega
        subst this
        exact ⟨b, hb, fun x hx => List.mem_append_right _ hx⟩
    · cases h

theorem fields_mem {name : Str} : ∀ {gs : List (Str × Shape)} {L : List (Str × Uuid)},
    flattenFields name gs = some L → ∀ (i : Nat) g s, gs[i]? = some (g, s) →
      ∃ b, flatten (name ++ '.' :: g) s = some b ∧ ∀ x ∈ b, x ∈ L
  | [], L, _, i, g, s, hi => by simp at hi
  | (f, s') :: gs, L, h, i, g, s, hi => by
    simp only [flattenFields] at h
    split at h
    · rename_i a b ha hb
      cases h
      cases i with
      | zero =>
        simp at hi
        obtain ⟨rfl, rfl⟩ := hi
        exact ⟨a, ha, fun x hx => List.mem_append_left _ hx⟩
      | succ i =>
        obtain ⟨c, hc, hm⟩ := fields_mem hb i g s (by simpa using hi)
        exact ⟨c, hc, fun x hx => List.mem_append_right _ (hm x hx)⟩
    · cases h

theorem flattenAll_mem : ∀ {ps : List (Str × Shape)} {L : List (Str × Uuid)},
    flattenAll ps = some L → ∀ n s, (n, s) ∈ ps →
      ∃ b, flatten n s = some b ∧ ∀ x ∈ b, x ∈ L
  | [], L, _, n, s, hi => by cases hi
  | (f, s') :: ps, L, h, n, s, hi => by
    simp only [flattenAll] at h
    split at h
    · rename_i a b ha hb
      cases h
      rcases List.mem_cons.1 hi with e | hi
      · cases e
        exact ⟨a, ha, fun x hx => List.mem_append_left _ hx⟩
      · obtain ⟨c, hc, hm⟩ := flattenAll_mem hb n s hi
        exact ⟨c, hc, fun x hx => List.mem_append_right _ (hm x hx)⟩
    · cases h

/-- Every simple value of the field is a parameter of the request, of its kind. -/
theorem matches_mem {R : Registry} {t : PField} {q : Str} {l : Leaf} (h : Holds t q l) :
    ∀ {s : Shape} {name : Str} {L : List (Str × Uuid)}, Matches R t s → flatten name s = some L →
      ∃ u ty, (name ++ q, u) ∈ L ∧ getType R u = some ty ∧ ty.kind = l.kind := by
  induction h with
  | simple =>
    intro s name L hm hf
    cases hm with
    | simple h hk =>
      simp only [flatten, Option.some.injEq] at hf
      subst hf
      exact ⟨_, _, by simp, h, hk⟩
  | @sitem k len vs v i hi =>
    intro s name L hm hf
    cases hm with
    | @sarray _ _ _ u _ h hk =>
      simp only [flatten] at hf
      obtain ⟨b, hb, hm⟩ := loop_mem hf i (List.getElem?_eq_some_iff.1 hi).1
      cases hb
      exact ⟨u, _, hm _ (by simp), h, hk⟩
  | @item ts t q l i hi hs ih =>
    intro s name L hm hf
    cases hm with
    | @array _ s' h =>
      simp only [flatten] at hf
      obtain ⟨b, hb, hm⟩ := loop_mem hf i (List.getElem?_eq_some_iff.1 hi).1
      obtain ⟨u, ty, h1, h2⟩ := ih (h t (List.mem_of_getElem? hi)) hb
      exact ⟨u, ty, hm _ (by rw [← List.append_assoc]; exact h1), h2⟩
  | @field fs f t q l hf' hs ih =>
    intro s name L hm hf
    cases hm with
    | @struct _ gs hl h =>
      simp only [flatten] at hf
      obtain ⟨i, hi⟩ := List.getElem?_of_mem hf'
      have hgi : (gs.map Prod.fst)[i]? = some f := by
        rw [← hl, List.getElem?_map, hi]; rfl
      rw [List.getElem?_map, Option.map_eq_some_iff] at hgi
      obtain ⟨⟨g, s⟩, hg, rfl⟩ := hgi
      obtain ⟨b, hb, hm⟩ := fields_mem hf i g s hg
      obtain ⟨u, ty, h1, h2⟩ := ih (h i g t g s hi hg) hb
      refine ⟨u, ty, hm _ ?_, h2⟩
      rw [List.append_assoc, List.cons_append] at h1
      exact h1

theorem namesI_of {ts : List PField} (h : ∀ t ∈ ts, t.Names) : NamesI ts := by
  induction ts with
  | nil => simp [NamesI]
  | cons a ts ih =>
    simp only [NamesI]
    exact ⟨h a (List.mem_cons_self ..), ih fun t ht => h t (List.mem_cons_of_mem _ ht)⟩

theorem namesF_of {fs : List (Str × PField)} (h : ∀ p ∈ fs, p.2.Names) : NamesF fs := by
  induction fs with
  | nil => simp [NamesF]
  | cons a fs ih =>
    obtain ⟨f, t⟩ := a
    simp only [NamesF]
    exact ⟨h _ (List.mem_cons_self ..), ih fun t ht => h t (List.mem_cons_of_mem _ ht)⟩

theorem shape_namesL {gs : List (Str × Shape)} (h : NamesL gs) : ∀ p ∈ gs, p.2.Names := by
  induction gs with
  | nil => simp
  | cons a gs ih =>
    obtain ⟨f, t⟩ := a
    simp only [NamesL] at h
    intro p hp
    rcases List.mem_cons.1 hp with rfl | hp
    · exact h.1
    · exact ih h.2 p hp

theorem matches_names {R : Registry} {t : PField} {s : Shape} (h : Matches R t s) :
    s.Names → t.Names := by
  induction h with
  | simple _ _ => intro _; simp [PField.Names]
  | sarray _ _ => intro _; simp [PField.Names]
  | array h ih =>
    intro hs
    simp only [Shape.Names] at hs
    simp only [PField.Names]
    exact namesI_of fun t ht => ih t ht hs
  | @struct fs gs hl h ih =>
    intro hs
    simp only [Shape.Names] at hs
    simp only [PField.Names]
    refine ⟨hl ▸ hs.1, hl ▸ hs.2.1, namesF_of ?_⟩
    rintro ⟨f, t⟩ hp
    obtain ⟨i, hi⟩ := List.getElem?_of_mem hp
    have hgi : (gs.map Prod.fst)[i]? = some f := by
      rw [← hl, List.getElem?_map, hi]; rfl
    rw [List.getElem?_map, Option.map_eq_some_iff] at hgi
    obtain ⟨⟨g, s⟩, hg, rfl⟩ := hgi
    exact ih i g t g s hi hg (shape_namesL hs.2.2 _ (List.mem_of_getElem? hg))

theorem set_ok {R : Registry} {r : Req} {i : Nat} {a x : Any} {v : Uuid} {ty : TypeDef}
    (ha : r.values[i]? = some (a, v)) (ht : getType R v = some ty)
    (hv : isValid ty x = .ok true) : (r.set R (i : Int) x).2 = .ok := by
  have hlt : i < r.values.length := (List.getElem?_eq_some_iff.1 ha).1
  have hc : ¬ ((i : Int) < 0 ∨ r.values.length ≤ (i : Int).toNat) := by omega
  have ha' : r.values[(i : Int).toNat]? = some (a, v) := ha
  simp only [Req.set, if_neg hc, ha', ht, hv]

/-- C76, for an operation. Take an operation whose parameters (and the fields of the structures
in them) have different valid names, its request after any calls, and a structured value of the
type of the parameter `name`, such that each simple value in it is accepted by its type. Then
it can be injected under that name, is extracted again, and the parameters of the other names
are not touched. -/
theorem C76_operation (narrow : Fl → Fl) (R : Registry) (ps : List (Str × Shape))
    (L : List (Str × Uuid)) (hn : (ps.map Prod.fst).Nodup)
    (hp : ∀ n ∈ ps.map Prod.fst, Plain n) (hs : ∀ p ∈ ps, p.2.Names)
    (hL : flattenAll ps = some L) (cs : List RCall) (name : Str) (s : Shape)
    (hmem : (name, s) ∈ ps) (t u : PField) (hb : t.blank = u.blank)
    (hu : Matches (rrun (R, build L) cs).1 u s)
    (hfit : ∀ q l, Holds u q l → l.Fits)
    (hval : ∀ q l v ty, Holds u q l → (name ++ q, v) ∈ L →
      getType (rrun (R, build L) cs).1 v = some ty → isValid ty l.any = .ok true) (ign : Bool) :
    let R' := (rrun (R, build L) cs).1
    let r := (rrun (R, build L) cs).2
    let r' := (inject R' r name u).1
    (inject R' r name u).2 = .ok ∧ extract narrow r' ign name t = (u, .ok) ∧
    ∀ other ∈ ps.map Prod.fst, other ≠ name → ∀ q, Sep q →
      Req.param r' (other ++ q) = Req.param r (other ++ q) := by
  intro R' r r'
  have hnd := C54_names ps L hn hp hs hL
  have hun : u.Names := matches_names hu (hs _ hmem)
  have h := C76_inject R L hnd cs name u hun
  simp only at h
  have hof : r.Of L := of_rrun cs (s := (R, build L)) (of_build hnd)
  have hok : (inject R' r name u).2 = .ok := by
    rw [h.1]
    intro q l hl
    obtain ⟨b, hb, hbm⟩ := flattenAll_mem hL name s hmem
    obtain ⟨v, ty, h1, h2, h3⟩ := matches_mem hl hu hb
    have hvL := hbm _ h1
    obtain ⟨i, hi⟩ := List.getElem?_of_mem hvL
    have hidx : r.index (some (name ++ q)) = i :=
      (index_of hnd hof _).1 i (by rw [List.getElem?_map, hi]; rfl)
    have hv := hval q l v ty hl hvL h2
    rw [hidx]
    refine ⟨by omega, ?_⟩
    have hlt : i < L.length := (List.getElem?_eq_some_iff.1 hi).1
    have hlen : r.values.length = L.length := by
      have := congrArg List.length hof.types; simpa using this
    have hty : r.values[i]?.map Prod.snd = some v := by
      rw [← List.getElem?_map, hof.types, List.getElem?_map, hi]; rfl
    rw [Option.map_eq_some_iff] at hty
    obtain ⟨⟨a, v'⟩, ha, rfl⟩ := hty
    exact set_ok ha h2 hv
  refine ⟨hok, extract_same narrow _ ign name t u hun hb fun q l hl =>
    ⟨hfit q l hl, h.2.1 hok q l hl⟩, ?_⟩
  intro other ho hne q hq
  apply h.2.2.1
  intro q' l hl heq
  exact hne (plain_inj (hp other ho) (hp name (List.mem_map_of_mem hmem)) hq hl.sep heq)

/-- C76, simple parameters. `get` of a parameter that is there gives its value if it is of the
kind asked for and an exception otherwise, whether or not there is a default value; of one that
is not there it gives the default value, or an exception if there is none. -/
theorem C76_simple (narrow : Fl → Fl) (r : Req) (name : Str) (k : Kind) (len : Nat)
    (dflt : Option Val) :
    (r.index (some name) = -1 →
      (∀ v, dflt = some v → getSimple narrow r name k len dflt = .value v) ∧
      (dflt = none → getSimple narrow r name k len dflt = .noParameter)) ∧
    (∀ a, Req.param r name = some a →
      (a.type ≠ k → getSimple narrow r name k len dflt = .invalidParameterType) ∧
      (∀ v, a = ⟨k, v⟩ → (Leaf.mk false k len v).Fits →
        getSimple narrow r name k len dflt = .value v)) := by
  constructor
  · intro hi
    constructor
    · rintro v rfl; simp [getSimple, hi]
    · rintro rfl; simp [getSimple, hi]
  · intro a ha
    unfold Req.param at ha
    split at ha
    · cases ha
    · rename_i hi
      constructor
      · intro hk
        simp only [getSimple, if_neg hi, ha, if_pos hk]
      · rintro v rfl hf
        have := coerce_same narrow ⟨k, len, false, false, false, false, none, v, false, []⟩ v hf
        simp only at this
        simp only [getSimple, if_neg hi, ha, ne_eq, not_true, if_false, this]

/-! ### The hypotheses are met -/

/-- A structure with a number and an array of two numbers. -/
def demo (a b c : Int) : PField :=
  .struct [("n".toList, .simple .Int32 0 (.int a)),
    ("v".toList, .sarray .Int32 0 [.int b, .int c])]

def demoPs : List (Str × Uuid) := [("p.n".toList, 6), ("p.v[0]".toList, 6), ("p.v[1]".toList, 6)]

def demoInjected : Req × IRes := inject initial (build demoPs) "p".toList (demo 1 2 3)

example : flattenAll [("p".toList,
    .struct [("n".toList, .simple 6), ("v".toList, .array 2 (.simple 6))])] = some demoPs := by
  decide
example : demoInjected.2 = .ok ∧ Req.param demoInjected.1 "p.v[1]".toList = some ⟨.Int32, .int 3⟩ ∧
    Req.param demoInjected.1 "p.w".toList = none := by decide +kernel
example (narrow : Fl → Fl) :
    extract narrow demoInjected.1 false "p".toList (demo 0 0 0) = (demo 1 2 3, .ok) := by
  rfl
example : (inject initial (build demoPs) "q".toList (demo 1 2 3)).2 =
    .noParameter "q.n".toList := by decide +kernel
example (narrow : Fl → Fl) :
    extract narrow demoInjected.1 true "q".toList (demo 7 8 9) = (demo 7 8 9, .ok) := by
  rfl
example : Matches initial (demo 1 2 3)
    (.struct [("n".toList, .simple 6), ("v".toList, .array 2 (.simple 6))]) := by
  refine .struct rfl ?_
  intro i f t g s h1 h2
  match i with
  | 0 =>
    simp only [List.getElem?_cons_zero, Option.some.injEq, Prod.mk.injEq] at h1 h2
    obtain ⟨_, rfl⟩ := h1
    obtain ⟨_, rfl⟩ := h2
    exact .simple (ty := .primitive .Int32) rfl rfl
  | 1 =>
    simp only [List.getElem?_cons_succ, List.getElem?_cons_zero, Option.some.injEq,
      Prod.mk.injEq] at h1 h2
    obtain ⟨_, rfl⟩ := h1
    obtain ⟨_, rfl⟩ := h2
    exact .sarray (vs := [.int 2, .int 3]) (ty := .primitive .Int32) rfl rfl
  | i + 2 => simp at h1

end Verif.Pub.Marshal
