import Verif.Path.Ancestor
import Verif.Path.Props

/-! Property C166: ancestors of objects. -/
namespace Verif.Path.Ancestor

/-! ### Specification -/

/-- `x` is `y` itself, or its parent, or the parent of its parent, ... -/
inductive Above (T : Node) (x : Addr) : Addr → Prop
  | self : Above T x x
  | step {y p} : parent T y = some p → Above T x p → Above T x y

/-! ### Lemmas -/

theorem scope_length (T : Node) : ∀ a : Addr, (scope T a).length ≤ a.length
  | [] => Nat.le_refl _
  | i :: p => by
    unfold scope
    split
    · have := scope_length T p
      simp only [List.length_cons]; omega
    · exact Nat.le_refl _

theorem parent_length {T : Node} {y p : Addr} (h : parent T y = some p) : p.length < y.length := by
  cases y with
  | nil => cases h
  | cons i q =>
    obtain rfl := Option.some.inj h
    have := scope_length T q
    simp only [List.length_cons]; omega

theorem Above.length {T : Node} {x y : Addr} (h : Above T x y) : x.length ≤ y.length := by
  induction h with
  | self => exact Nat.le_refl _
  | step hp _ ih => have := parent_length hp; omega

theorem Above.trans {T : Node} {x y z : Addr} (h1 : Above T x y) (h2 : Above T y z) : Above T x z := by
  induction h2 with
  | self => exact h1
  | step hp _ ih => exact .step hp ih

theorem Above.cases' {T : Node} {x y : Addr} (h : Above T x y) :
    x = y ∨ ∃ p, parent T y = some p ∧ Above T x p := by
  cases h with
  | self => exact Or.inl rfl
  | step hp h => exact Or.inr ⟨_, hp, h⟩

theorem Above.antisymm {T : Node} {x y : Addr} (h1 : Above T x y) (h2 : Above T y x) : x = y := by
  rcases h1.cases' with h | ⟨p, hp, h⟩
  · exact h
  · have := parent_length hp
    have := h.length
    have := h2.length
    omega

theorem Above.total {T : Node} {x y z : Addr} (h1 : Above T x z) (h2 : Above T y z) :
    Above T x y ∨ Above T y x := by
  induction h1 with
  | self => exact Or.inr h2
  | step hp h ih =>
    rcases h2.cases' with rfl | ⟨q, hq, h2⟩
    · exact Or.inl (.step hp h)
    · rw [hp] at hq
      obtain rfl := Option.some.inj hq
      exact ih h2

theorem ancestorLoop_iff (T : Node) (x : Addr) : ∀ n y, y.length < n →
    (ancestorLoop T x n (some y) = true ↔ Above T x y) := by
  intro n
  induction n with
  | zero => intro y h; omega
  | succ n ih =>
    intro y hl
    rw [ancestorLoop]
    by_cases hxy : y = x
    · rw [if_pos hxy, hxy]
      exact ⟨fun _ => .self, fun _ => rfl⟩
    · rw [if_neg hxy]
      simp only [up]
      cases hp : parent T y with
      | none =>
        refine ⟨fun h => (by cases n <;> simp [ancestorLoop] at h), fun h => ?_⟩
        rcases h.cases' with h | ⟨p, hp', _⟩
        · exact absurd h.symm hxy
        · rw [hp] at hp'; cases hp'
      | some p =>
        have := parent_length hp
        rw [ih p (by omega)]
        refine ⟨fun h => .step hp h, fun h => ?_⟩
        rcases h.cases' with h | ⟨q, hq, h⟩
        · exact absurd h.symm hxy
        · rw [hp] at hq
          obtain rfl := Option.some.inj hq
          exact h

theorem typeLoop_iff (T : Node) (ok : Kind → Bool) : ∀ n y, y.length < n →
    (∃ p k, typeLoop T ok n (some y) = some p ∧ Above T p y ∧ kindAt T p = some k ∧ ok k = true ∧
      ∀ q k', Above T q y → kindAt T q = some k' → ok k' = true → Above T q p) ∨
    (typeLoop T ok n (some y) = none ∧ ∀ q k, Above T q y → kindAt T q = some k → ok k = false) := by
  intro n
  induction n with
  | zero => intro y h; omega
  | succ n ih =>
    intro y hl
    rw [typeLoop]
    by_cases hk : (kindAt T y).any ok = true
    · rw [if_pos hk]
      obtain ⟨k, hk1, hk2⟩ := Option.any_eq_true_iff_get .. |>.1 hk |> fun ⟨h, e⟩ =>
        (⟨_, (Option.some_get h).symm, e⟩ : ∃ k, kindAt T y = some k ∧ ok k = true)
      exact Or.inl ⟨y, k, rfl, .self, hk1, hk2, fun q _ h _ _ => h⟩
    · rw [if_neg hk]
      have hno : ∀ k, kindAt T y = some k → ok k = false := by
        intro k h
        rw [h] at hk
        simpa using hk
      simp only [up]
      cases hp : parent T y with
      | none =>
        refine Or.inr ⟨by cases n <;> rfl, fun q k h hq => ?_⟩
        rcases h.cases' with rfl | ⟨p, hp', _⟩
        · exact hno k hq
        · rw [hp] at hp'; cases hp'
      | some p =>
        have := parent_length hp
        rcases ih p (by omega) with ⟨r, k, e, h1, h2, h3, h4⟩ | ⟨e, h1⟩
        · refine Or.inl ⟨r, k, e, .step hp h1, h2, h3, fun q k' hq hk' hok => ?_⟩
          rcases hq.cases' with rfl | ⟨p', hp', hq⟩
          · rw [hno _ hk'] at hok; cases hok
          · rw [hp] at hp'
            obtain rfl := Option.some.inj hp'
            exact h4 q k' hq hk' hok
        · refine Or.inr ⟨e, fun q k hq hk' => ?_⟩
          rcases hq.cases' with rfl | ⟨p', hp', hq⟩
          · exact hno k hk'
          · rw [hp] at hp'
            obtain rfl := Option.some.inj hp'
            exact h1 q k hq hk'

theorem scope_suffix (T : Node) : ∀ a : Addr, scope T a <:+ a
  | [] => List.suffix_refl _
  | i :: p => by
    unfold scope
    split
    · exact (scope_suffix T p).trans (List.suffix_cons i p)
    · exact List.suffix_refl _

theorem scope_kind {T : Node} (h0 : kindAt T [] ≠ some .anonArray) :
    ∀ a : Addr, kindAt T (scope T a) ≠ some .anonArray
  | [] => h0
  | i :: p => by
    unfold scope
    split
    · exact scope_kind h0 p
    · assumption

theorem suffix_scope {T : Node} {x : Addr} (hx : kindAt T x ≠ some .anonArray) :
    ∀ a : Addr, x <:+ a → x <:+ scope T a
  | [] => fun h => h
  | i :: p => fun h => by
    unfold scope
    split
    · rename_i hk
      rcases List.suffix_cons_iff.1 h with rfl | h
      · exact absurd hk hx
      · exact suffix_scope hx p h
    · exact h

theorem Above.suffix {T : Node} {x y : Addr} (h : Above T x y) : x <:+ y := by
  induction h with
  | self => exact List.suffix_refl _
  | step hp _ ih =>
    rename_i y p _
    cases y with
    | nil => cases hp
    | cons i q =>
      obtain rfl := Option.some.inj hp
      exact ih.trans ((scope_suffix T q).trans (List.suffix_cons i q))

theorem Above.kind {T : Node} (h0 : kindAt T [] ≠ some .anonArray) {x y : Addr} (h : Above T x y) :
    x = y ∨ kindAt T x ≠ some .anonArray := by
  induction h with
  | self => exact Or.inl rfl
  | step hp _ ih =>
    rename_i y p _
    rcases ih with rfl | h
    · cases y with
      | nil => cases hp
      | cons i q =>
        obtain rfl := Option.some.inj hp
        exact Or.inr (scope_kind h0 q)
    · exact Or.inr h

theorem above_of_suffix {T : Node} {x : Addr} (hx : kindAt T x ≠ some .anonArray) :
    ∀ n y, y.length ≤ n → x <:+ y → Above T x y := by
  intro n
  induction n with
  | zero =>
    intro y hl h
    rw [List.length_eq_zero_iff.1 (Nat.le_zero.1 hl)] at h ⊢
    rw [List.suffix_nil.1 h]; exact .self
  | succ n ih =>
    intro y hl h
    cases y with
    | nil => rw [List.suffix_nil.1 h]; exact .self
    | cons i p =>
      rcases List.suffix_cons_iff.1 h with rfl | h
      · exact .self
      · have := scope_length T p
        rw [List.length_cons] at hl
        exact .step rfl (ih _ (by omega) (suffix_scope hx p h))

/-! ### Property C166 -/

/-- C166. `IsAncestor` holds exactly if both objects exist and the first is the second or is reached from it
by `GetParent`. -/
theorem C166_ancestor (T : Node) (x y : Option Addr) :
    isAncestor T x y = true ↔ ∃ a b, x = some a ∧ y = some b ∧ Above T a b := by
  cases x with
  | none => simp [isAncestor]
  | some a =>
    cases y with
    | none => simp [isAncestor, ancestorLoop]
    | some b =>
      simp only [isAncestor, Option.getD_some, Option.some.injEq, exists_eq_left', exists_and_left]
      rw [ancestorLoop_iff T a _ b (by omega)]

/-- C166. `IsAncestor` is an order on the objects, and any two ancestors of an object are ordered. -/
theorem C166_order (T : Node) (x y z : Addr) :
    isAncestor T (some x) (some x) = true ∧
    (isAncestor T (some x) (some y) = true → isAncestor T (some y) (some x) = true → x = y) ∧
    (isAncestor T (some x) (some y) = true → isAncestor T (some y) (some z) = true →
      isAncestor T (some x) (some z) = true) ∧
    (isAncestor T (some x) (some z) = true → isAncestor T (some y) (some z) = true →
      isAncestor T (some x) (some y) = true ∨ isAncestor T (some y) (some x) = true) := by
  have h : ∀ a b, isAncestor T (some a) (some b) = true ↔ Above T a b := by
    intro a b; rw [C166_ancestor]; simp
  simp only [h]
  exact ⟨.self, Above.antisymm, Above.trans, Above.total⟩

/-- C166. The ancestors of an object are the object itself and the objects that contain it, directly or
not, apart from arrays made by `IPublication::PublishArray`. -/
theorem C166_contains_partial (T : Node) (hT : Wf T) (x y : Addr) :
    isAncestor T (some x) (some y) = true ↔ x <:+ y ∧ (x = y ∨ kindAt T x ≠ some .anonArray) := by
  rw [C166_ancestor]
  simp only [Option.some.injEq, exists_eq_left', exists_and_left]
  have h0 : kindAt T [] ≠ some .anonArray := by
    have : kindAt T [] = some T.kind := rfl
    rw [this, hT.root]; simp
  refine ⟨fun h => ⟨h.suffix, h.kind h0⟩, fun ⟨h, hk⟩ => ?_⟩
  rcases hk with rfl | hk
  · exact .self
  · exact above_of_suffix hk _ y (Nat.le_refl _) h

example : isAncestor (sample [.mk .anonArray "arr".toList [.mk .simpleField "[0]".toList []]])
    (some [0]) (some [0, 4, 0]) = true := by decide +kernel

/-- C166 is false of the code below an array made by `IPublication::PublishArray`: the array is not an
ancestor of its items. -/
theorem C166_contains_fails : ∃ T x y, Wf T ∧ (get T y).isSome = true ∧ x <:+ y ∧
    isAncestor T (some x) (some y) = false :=
  ⟨sample [.mk .anonArray "arr".toList [.mk .simpleField "[0]".toList []]], [4, 0], [0, 4, 0],
    wf_of_ok rfl (by decide +kernel), rfl, ⟨[0], rfl⟩, by decide +kernel⟩

/-- C166. `GetParentOfType` gives the nearest ancestor of the type: an ancestor of this type of which every
other such ancestor is an ancestor; it gives null exactly if there is none, or for null. -/
theorem C166_nearest (T : Node) (ok : Kind → Bool) (y : Addr) :
    (∀ p, getParentOfType T ok (some y) = some p ↔
      (Above T p y ∧ (kindAt T p).map ok = some true ∧
        ∀ q, Above T q y → (kindAt T q).map ok = some true →
          Above T q p)) ∧
    (getParentOfType T ok (some y) = none ↔
      ∀ q, Above T q y → (kindAt T q).map ok ≠ some true) ∧
    getParentOfType T ok none = none := by
  have hm : ∀ q, (kindAt T q).map ok = some true ↔ ∃ k, kindAt T q = some k ∧ ok k = true := by
    intro q; simp
  simp only [ne_eq, hm]
  have key := typeLoop_iff T ok (y.length + 1) y (by omega)
  have e0 : getParentOfType T ok (some y) = typeLoop T ok (y.length + 1) (some y) := rfl
  rw [e0]
  refine ⟨?_, ?_, rfl⟩
  · intro p
    rcases key with ⟨r, k, e, h1, h2, h3, h4⟩ | ⟨e, h1⟩
    · rw [e]
      refine ⟨fun hp => ?_, fun ⟨g1, ⟨k', g2, g2'⟩, g3⟩ => ?_⟩
      · obtain rfl := Option.some.inj hp
        exact ⟨h1, ⟨k, h2, h3⟩, fun q hq ⟨k', hk1, hk2⟩ => h4 q k' hq hk1 hk2⟩
      · rw [Above.antisymm (g3 r h1 ⟨k, h2, h3⟩) (h4 p k' g1 g2 g2')]
    · rw [e]
      refine ⟨fun hp => (by cases hp), fun ⟨g1, ⟨k', g2, g2'⟩, _⟩ => ?_⟩
      rw [h1 p k' g1 g2] at g2'; cases g2'
  · rcases key with ⟨r, k, e, h1, h2, h3, _⟩ | ⟨e, h1⟩
    · rw [e]
      exact ⟨fun hp => (by cases hp), fun g => absurd ⟨k, h2, h3⟩ (g r h1)⟩
    · rw [e]
      refine ⟨fun _ q hq ⟨k, hk1, hk2⟩ => ?_, fun _ => rfl⟩
      rw [h1 q k hq hk1] at hk2; cases hk2

/-- The field `t[1]` of the structure `s` of `A`, and the component `C`. -/
example : isAncestor (sample []) (some [0]) (some [1, 0, 1, 0]) = true ∧
    isAncestor (sample []) (some [1]) (some [1, 0, 1, 0]) = false ∧
    isAncestor (sample []) none (some []) = false ∧ isAncestor (sample []) (some []) none = false ∧
    getParentOfType (sample []) (· == .component) (some [1, 0, 1, 0]) = some [0] ∧
    getParentOfType (sample []) Kind.isField (some [0, 1, 0]) = some [0, 1, 0] ∧
    getParentOfType (sample []) (· == .container) (some [1, 0, 1, 0]) = none := by decide +kernel

end Verif.Path.Ancestor
