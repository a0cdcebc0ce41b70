import Verif.Text.Ops
import Verif.Text.Props
import Verif.Any.Model

/-! Property C103: the operators of `String` and `Array`. -/
namespace Verif.Text

/-! ### Specification -/

/-- Lexicographic order: the first is a proper beginning of the second, or smaller where they first
differ. -/
def Before (lt : α → α → Prop) (s t : List α) : Prop :=
  (∃ x r, t = s ++ x :: r) ∨
    ∃ p x y s' t', s = p ++ x :: s' ∧ t = p ++ y :: t' ∧ lt x y

/-- A strict total order. -/
structure Strict (lt : α → α → Prop) : Prop where
  irrefl : ∀ a, ¬ lt a a
  trans : ∀ a b c, lt a b → lt b c → lt a c
  total : ∀ a b, lt a b ∨ a = b ∨ lt b a

/-- What an operator says of two values. -/
def Rel.Holds (lt : α → α → Prop) : Rel → α → α → Prop
  | .eq, a, b => a = b
  | .ne, a, b => a ≠ b
  | .lt, a, b => lt a b
  | .gt, a, b => lt b a
  | .le, a, b => lt a b ∨ a = b
  | .ge, a, b => lt b a ∨ a = b

/-- The order of the contents of strings. -/
abbrev BeforeS : Buf → Buf → Prop := Before (· < ·)

/-! ### Lemmas -/

theorem Before.nil_cons (lt : α → α → Prop) (y : α) (t : List α) : Before lt [] (y :: t) :=
  Or.inl ⟨y, t, rfl⟩

theorem Before.not_nil (lt : α → α → Prop) (s : List α) : ¬ Before lt s [] := by
  rintro (⟨x, r, h⟩ | ⟨p, x, y, s', t', _, h, _⟩) <;> simp at h

theorem Before.cons (lt : α → α → Prop) (x y : α) (s t : List α) :
    Before lt (x :: s) (y :: t) ↔ lt x y ∨ (x = y ∧ Before lt s t) := by
  constructor
  · rintro (⟨z, r, h⟩ | ⟨p, u, v, s', t', h1, h2, h3⟩)
    · simp only [List.cons_append, List.cons.injEq] at h
      exact Or.inr ⟨h.1.symm, Or.inl ⟨z, r, h.2⟩⟩
    · cases p with
      | nil =>
        simp only [List.nil_append, List.cons.injEq] at h1 h2
        rw [h1.1, h2.1]; exact Or.inl h3
      | cons w p =>
        simp only [List.cons_append, List.cons.injEq] at h1 h2
        exact Or.inr ⟨h1.1.trans h2.1.symm, Or.inr ⟨p, u, v, s', t', h1.2, h2.2, h3⟩⟩
  · rintro (h | ⟨rfl, ⟨z, r, h⟩ | ⟨p, u, v, s', t', h1, h2, h3⟩⟩)
    · exact Or.inr ⟨[], x, y, s, t, rfl, rfl, h⟩
    · exact Or.inl ⟨z, r, by rw [h]; rfl⟩
    · exact Or.inr ⟨x :: p, u, v, s', t', by rw [h1]; rfl, by rw [h2]; rfl, h3⟩

theorem lex_before : ∀ s t : Buf, Lex s t ↔ BeforeS s t
  | [], [] => ⟨fun h => h.elim, fun h => absurd h (Before.not_nil _ _)⟩
  | [], y :: t => ⟨fun _ => Before.nil_cons _ _ _, fun _ => trivial⟩
  | x :: s, [] => ⟨fun h => h.elim, fun h => absurd h (Before.not_nil _ _)⟩
  | x :: s, y :: t => by
    show (x < y ∨ (x = y ∧ Lex s t)) ↔ Before _ _ _
    rw [Before.cons, lex_before s t]

theorem Strict.asymm {lt : α → α → Prop} (h : Strict lt) {a b : α} (h1 : lt a b) : ¬ lt b a :=
  fun h2 => h.irrefl a (h.trans a b a h1 h2)

/-- The lexicographic order of a strict total order is one. -/
theorem Before.strict {lt : α → α → Prop} (h : Strict lt) : Strict (Before lt) where
  irrefl a := by
    induction a with
    | nil => exact Before.not_nil _ _
    | cons x a ih =>
      rw [Before.cons]
      rintro (g | ⟨_, g⟩)
      · exact h.irrefl x g
      · exact ih g
  trans a := by
    induction a with
    | nil =>
      intro b c _ h2
      cases c with
      | nil => exact absurd h2 (Before.not_nil _ _)
      | cons z c => exact Before.nil_cons _ _ _
    | cons x a ih =>
      intro b c h1 h2
      cases b with
      | nil => exact absurd h1 (Before.not_nil _ _)
      | cons y b =>
        cases c with
        | nil => exact absurd h2 (Before.not_nil _ _)
        | cons z c =>
          rw [Before.cons] at h1 h2 ⊢
          rcases h1 with h1 | ⟨rfl, h1⟩
          · rcases h2 with h2 | ⟨rfl, _⟩
            · exact Or.inl (h.trans _ _ _ h1 h2)
            · exact Or.inl h1
          · rcases h2 with h2 | ⟨rfl, h2⟩
            · exact Or.inl h2
            · exact Or.inr ⟨rfl, ih b c h1 h2⟩
  total a := by
    induction a with
    | nil =>
      intro b
      cases b with
      | nil => exact Or.inr (Or.inl rfl)
      | cons y b => exact Or.inl (Before.nil_cons _ _ _)
    | cons x a ih =>
      intro b
      cases b with
      | nil => exact Or.inr (Or.inr (Before.nil_cons _ _ _))
      | cons y b =>
        rw [Before.cons, Before.cons]
        rcases h.total x y with g | rfl | g
        · exact Or.inl (Or.inl g)
        · rcases ih b with g | rfl | g
          · exact Or.inl (Or.inr ⟨rfl, g⟩)
          · exact Or.inr (Or.inl rfl)
          · exact Or.inr (Or.inr (Or.inr ⟨rfl, g⟩))
        · exact Or.inr (Or.inr (Or.inl g))

theorem strict_nat : Strict (fun a b : Nat => a < b) where
  irrefl := Nat.lt_irrefl
  trans _ _ _ := Nat.lt_trans
  total := Nat.lt_trichotomy

/-- The sign of a comparison. -/
def Sign (r : Int) (s t : Buf) : Prop :=
  (r < 0 ↔ BeforeS s t) ∧ (r = 0 ↔ s = t) ∧ (r > 0 ↔ BeforeS t s)

theorem sign_of {r : Int} {s t : Buf} (h1 : r < 0 → BeforeS s t) (h2 : r = 0 → s = t)
    (h3 : r > 0 → BeforeS t s) : Sign r s t := by
  have st : Strict BeforeS := Before.strict strict_nat
  have tri : r < 0 ∨ r = 0 ∨ r > 0 := by omega
  refine ⟨⟨h1, ?_⟩, ⟨h2, ?_⟩, ⟨h3, ?_⟩⟩
  · intro h
    rcases tri with g | g | g
    · exact g
    · rw [h2 g] at h; exact absurd h (st.irrefl _)
    · exact absurd (h3 g) (st.asymm h)
  · rintro rfl
    rcases tri with g | g | g
    · exact absurd (h1 g) (st.irrefl _)
    · exact g
    · exact absurd (h3 g) (st.irrefl _)
  · intro h
    rcases tri with g | g | g
    · exact absurd (h1 g) (st.asymm h)
    · rw [h2 g] at h; exact absurd h (st.irrefl _)
    · exact g

theorem compareCStr_sign (s t : Buf) : Sign (compareCStr s t) s t := by
  obtain ⟨h1, h2, h3⟩ := traitsCompare_cases s t
  have key : (compareCStr s t < 0 → Lex s t) ∧ (compareCStr s t = 0 → s = t) ∧
      (compareCStr s t > 0 → Lex t s) := by
    unfold compareCStr
    simp only
    split
    · rename_i h0
      obtain ⟨h4, h5, h6⟩ := h3 h0
      refine ⟨fun h => h4 ?_, fun h => h6 ?_, fun h => h5 ?_⟩ <;>
        (split at h <;> first | omega | (split at h <;> omega))
    · rename_i h0
      exact ⟨h1, fun h => absurd h h0, h2⟩
  exact sign_of (fun h => (lex_before _ _).1 (key.1 h)) key.2.1
    (fun h => (lex_before _ _).1 (key.2.2 h))

theorem viewCompare_sign (v s : Buf) : Sign
    (if traitsCompare (v.take (min v.length s.length)) (s.take (min v.length s.length)) = 0 then
      if v.length < s.length then -1 else if s.length < v.length then 1 else 0
    else traitsCompare (v.take (min v.length s.length)) (s.take (min v.length s.length))) v s := by
  obtain ⟨h1, h2, h3⟩ := traitsCompare_cases v s
  split
  · rename_i h0
    obtain ⟨h4, h5, h6⟩ := h3 h0
    refine sign_of (fun h => (lex_before _ _).1 (h4 ?_)) (fun h => h6 ?_)
      (fun h => (lex_before _ _).1 (h5 ?_)) <;>
      (split at h <;> first | omega | (split at h <;> omega))
  · rename_i h0
    exact sign_of (fun h => (lex_before _ _).1 (h1 h)) (fun h => absurd h h0)
      (fun h => (lex_before _ _).1 (h2 h))

theorem Sign.le {r : Int} {s t : Buf} (h : Sign r s t) : r ≤ 0 ↔ BeforeS s t ∨ s = t := by
  rw [← h.1, ← h.2.1]; omega

theorem Sign.ge {r : Int} {s t : Buf} (h : Sign r s t) : r ≥ 0 ↔ BeforeS t s ∨ s = t := by
  rw [← h.2.2, ← h.2.1]; omega

/-- The operators of two strings, from the comparison. -/
theorem rel_of_sign {r : Int} {s t : Buf} (h : Sign r s t) :
    ((r == 0) = true ↔ Rel.Holds BeforeS .eq s t) ∧ ((!(r == 0)) = true ↔ Rel.Holds BeforeS .ne s t) ∧
    (decide (r < 0) = true ↔ Rel.Holds BeforeS .lt s t) ∧
    (decide (r > 0) = true ↔ Rel.Holds BeforeS .gt s t) ∧
    (decide (r ≤ 0) = true ↔ Rel.Holds BeforeS .le s t) ∧
    (decide (r ≥ 0) = true ↔ Rel.Holds BeforeS .ge s t) := by
  refine ⟨?_, ?_, ?_, ?_, ?_, ?_⟩
  · simpa [Rel.Holds] using h.2.1
  · simpa [Rel.Holds] using not_congr h.2.1
  · simpa [Rel.Holds] using h.1
  · simpa [Rel.Holds] using h.2.2
  · simpa [Rel.Holds] using h.le
  · simpa [Rel.Holds] using h.ge

theorem cstr_text {c : Buf} (h : 0 ∈ c) : cstr c = some (text c) := by
  unfold cstr; rw [if_pos h]; rfl

/-! ### C103 -/

/-- **C103, strings.** The operators on two `String`s of any capacities say what they say of their
contents in the lexicographic order, whatever is behind the terminators. -/
theorem C103_strings (N M : Nat) (b c s t : Buf) (hb : Holds N b s) (hc : Holds M c t) (r : Rel) :
    ∃ x, relStrings r b c = some x ∧ (x = true ↔ r.Holds BeforeS s t) := by
  have e : compare b c = some (compareCStr s t) := by simp [compare, hb.cstr, hc.cstr]
  obtain ⟨h1, h2, h3, h4, h5, h6⟩ := rel_of_sign (compareCStr_sign s t)
  cases r <;> simp only [relStrings, e, Option.map_some, Option.some.injEq, exists_eq_left']
  · exact h1
  · exact h2
  · exact h3
  · exact h4
  · exact h5
  · exact h6

/-- **C103, views.** So do the operators on a `String` and a view, in both orders; the view may
contain any bytes. -/
theorem C103_views (N : Nat) (b s v : Buf) (hb : Holds N b s) (r : Rel) :
    (∃ x, relView r v b = some x ∧ (x = true ↔ r.Holds BeforeS v s)) ∧
    (∃ x, relStringView r b v = some x ∧ (x = true ↔ r.Holds BeforeS s v)) := by
  have e1 : compareView b v = some (compareCStr s v) := by simp [compareView, hb.cstr]
  constructor
  · obtain ⟨h1, h2, h3, h4, h5, h6⟩ := rel_of_sign (viewCompare_sign v s)
    cases r <;> simp only [relView, viewCompare, hb.cstr, Option.map_some, Option.some.injEq,
      exists_eq_left']
    · exact h1
    · exact h2
    · exact h3
    · exact h4
    · exact h5
    · exact h6
  · obtain ⟨h1, h2, h3, h4, h5, h6⟩ := rel_of_sign (compareCStr_sign s v)
    cases r <;> simp only [relStringView, e1, Option.map_some, Option.some.injEq, exists_eq_left']
    · exact h1
    · exact h2
    · exact h3
    · exact h4
    · exact h5
    · exact h6

/-- **C103, C strings.** So do the operators on a `String` and a C string, in both orders. -/
theorem C103_chars (N : Nat) (b s c : Buf) (hb : Holds N b s) (hc : 0 ∈ c) (r : Rel) :
    (∃ x, relChars r c b = some x ∧ (x = true ↔ r.Holds BeforeS (text c) s)) ∧
    (∃ x, relStringChars r b c = some x ∧ (x = true ↔ r.Holds BeforeS s (text c))) := by
  obtain ⟨g1, g2⟩ := C103_views N b s (text c) hb r
  have e : compareView b (text c) = some (compareCStr s (text c)) := by simp [compareView, hb.cstr]
  have hs := compareCStr_sign s (text c)
  constructor
  · cases r with
    | le =>
      refine ⟨_, by simp only [relChars, cstr_text hc, Option.bind_some, e, Option.map_some]; rfl, ?_⟩
      show _ ↔ (BeforeS (text c) s ∨ text c = s)
      rw [decide_eq_true_iff, hs.ge, eq_comm]
    | _ => simp only [relChars, cstr_text hc, Option.bind_some]; exact g1
  · cases r with
    | le =>
      refine ⟨_, by simp only [relStringChars, cstr_text hc, Option.bind_some, e, Option.map_some]; rfl,
        ?_⟩
      show _ ↔ (BeforeS s (text c) ∨ s = text c)
      rw [decide_eq_true_iff, hs.le]
    | _ => simp only [relStringChars, cstr_text hc, Option.bind_some]; exact g2

/-- **C103, the order.** It is a strict total one, so that `String`s can be the keys of an ordered
container. -/
theorem C103_order : Strict BeforeS := Before.strict strict_nat

/-- **C103, the hash.** Strings that are equal, of any capacities, have the same hash: that of their
contents. -/
theorem C103_hash (h : Buf → Nat) (N M : Nat) (b c s t : Buf) (hb : Holds N b s) (hc : Holds M c t) :
    hashString h b = some (h s) ∧
    (relStrings .eq b c = some true → hashString h b = hashString h c) := by
  refine ⟨by simp [hashString, hb.cstr], fun e => ?_⟩
  obtain ⟨x, h1, h2⟩ := C103_strings N M b c s t hb hc .eq
  rw [e] at h1
  have : s = t := h2.1 (Option.some.inj h1).symm
  simp [hashString, hb.cstr, hc.cstr, this]

/-- **C103, concatenation.** The results of `+` are the concatenated contents, not cut. -/
theorem C103_plus (N M : Nat) (b c s t v : Buf) (x : Nat) (hb : Holds N b s) (hc : Holds M c t) :
    plusStrings b c = some (s ++ t) ∧ plusView v b = some (v ++ s) ∧
    plusStringView b v = some (s ++ v) ∧ plusChar x b = some (x :: s) ∧
    plusStringChar b x = some (s ++ [x]) := by
  simp [plusStrings, plusView, plusStringView, plusChar, plusStringChar, hb.cstr, hc.cstr]

/-- **C103, access.** `String::at` gives the characters of the content, and throws behind it. -/
theorem C103_at (N : Nat) (b s : Buf) (hb : Holds N b s) (i : Nat) :
    getAt b i = some (s[i]?) := by
  simp only [getAt, hb.cstr, Option.map_some, Option.some.injEq]
  obtain ⟨_, _, _, g, rfl⟩ := hb
  split
  · rename_i h; rw [List.getElem?_eq_none h]
  · rename_i h; rw [List.getElem?_append_left (by omega)]

/-! ### Arrays -/

/-- The operators of the items are those of a strict total order. -/
def Sound (eq lt : α → α → Bool) : Prop :=
  (∀ a b, eq a b = true ↔ a = b) ∧ Strict fun a b => lt a b = true

theorem arrEq_iff {eq : α → α → Bool} (h : ∀ a b, eq a b = true ↔ a = b) :
    ∀ a b : List α, a.length = b.length → (arrEq eq a b = true ↔ a = b)
  | [], [], _ => by simp [arrEq]
  | [], _ :: _, hl => by simp at hl
  | _ :: _, [], hl => by simp at hl
  | x :: a, y :: b, hl => by
    simp only [arrEq, Bool.and_eq_true, List.cons.injEq, h,
      arrEq_iff h a b (by simpa using hl)]

theorem arrLt_iff {lt : α → α → Bool} (h : Strict fun a b => lt a b = true) :
    ∀ a b : List α, arrLt lt a b = true ↔ Before (fun a b => lt a b = true) a b
  | [], [] => by simp [arrLt, Before.not_nil]
  | [], y :: b => by simp [arrLt, Before.nil_cons]
  | x :: a, [] => by simp [arrLt, Before.not_nil]
  | x :: a, y :: b => by
    rw [Before.cons]
    simp only [arrLt]
    by_cases h1 : lt x y = true
    · simp [h1]
    · rw [if_neg h1]
      by_cases h2 : lt y x = true
      · rw [if_pos h2]
        have : x ≠ y := fun e => h.irrefl y (by rw [e] at h2; exact h2)
        simp [h1, this]
      · rw [if_neg h2, arrLt_iff h a b]
        rcases h.total x y with g | g | g
        · exact absurd g h1
        · simp [g, h.irrefl]
        · exact absurd g h2

/-- **C103, arrays (partial).** The operators on two arrays say what they say in the lexicographic
order of their items, if those of the items are the operators of a strict total order. Missing:
`C103_nan_fails`. -/
theorem C103_arrays_partial (eq lt : α → α → Bool) (h : Sound eq lt) (N : Nat) (a b : List α)
    (ha : a.length = N) (hb : b.length = N) (r : Rel) :
    relArrays eq lt r a b = true ↔ r.Holds (Before fun x y => lt x y = true) a b := by
  have he := arrEq_iff h.1 a b (by omega)
  have st := Before.strict h.2
  have hl := arrLt_iff h.2 a b
  have hg := arrLt_iff h.2 b a
  cases r <;> simp only [relArrays, Rel.Holds, Bool.not_eq_true', ← Bool.not_eq_true, he, hl, hg, ne_eq]
  · constructor
    · intro g
      rcases st.total a b with k | k | k
      · exact Or.inl k
      · exact Or.inr k
      · exact absurd k g
    · rintro (k | k) g
      · exact st.asymm k g
      · rw [k] at g; exact st.irrefl _ g
  · constructor
    · intro g
      rcases st.total a b with k | k | k
      · exact absurd k g
      · exact Or.inr k
      · exact Or.inl k
    · rintro (k | k) g
      · exact st.asymm k g
      · rw [k] at g; exact st.irrefl _ g

/-- Arrays of a given size. -/
abbrev Arr (α : Type) (N : Nat) := { l : List α // l.length = N }

/-- **C103, arrays of arrays (partial).** The operators of arrays are again those of a strict total
order, so that arrays of arrays, to any depth, are covered. -/
theorem C103_nested_partial {α : Type} (eq lt : α → α → Bool) (h : Sound eq lt) (N : Nat) :
    Sound (fun a b : Arr α N => relArrays eq lt .eq a.1 b.1)
      (fun a b : Arr α N => relArrays eq lt .lt a.1 b.1) := by
  have st := Before.strict h.2
  have hl : ∀ a b : Arr α N, relArrays eq lt .lt a.1 b.1 = true ↔
      Before (fun x y => lt x y = true) a.1 b.1 :=
    fun a b => C103_arrays_partial eq lt h N a.1 b.1 a.2 b.2 .lt
  refine ⟨fun a b => ?_, ⟨fun a => ?_, fun a b c => ?_, fun a b => ?_⟩⟩
  · rw [C103_arrays_partial eq lt h N a.1 b.1 a.2 b.2 .eq]
    exact ⟨Subtype.ext, fun e => by rw [e]; rfl⟩
  · rw [hl]; exact st.irrefl _
  · rw [hl, hl, hl]; exact st.trans _ _ _
  · rw [hl, hl]
    rcases st.total a.1 b.1 with k | k | k
    · exact Or.inl k
    · exact Or.inr (Or.inl (Subtype.ext k))
    · exact Or.inr (Or.inr k)

/-- **C103, access to arrays.** `at` reads and writes the item at an index below the size, and throws
at any other. -/
theorem C103_arrayAt (N : Nat) (a : List α) (h : a.length = N) (i : Nat) (x : α) :
    arrAt N a i = some (a[i]?) ∧
    arrSetAt N a i x = some (if i < N then some (a.set i x) else none) := by
  subst h
  unfold arrAt arrSetAt
  by_cases hi : i < a.length
  · rw [if_neg (by omega), if_neg (by omega), if_pos hi, if_pos hi]
    simp [hi]
  · rw [if_pos (by omega), if_pos (by omega), if_neg hi]
    simp only [and_true, Option.some.injEq]
    rw [List.getElem?_eq_none (by omega)]

theorem fillFrom_eq (x : α) : ∀ (n : Nat) (p a : List α), a.length = n →
    fillFrom x p.length n (p ++ a) = some (p ++ List.replicate n x)
  | 0, p, a, h => by
    have : a = [] := List.length_eq_zero_iff.1 h
    simp [fillFrom, this]
  | n + 1, p, [], h => by simp at h
  | n + 1, p, y :: a, h => by
    have e : (p ++ y :: a).set p.length x = (p ++ [x]) ++ a := by simp
    rw [fillFrom, if_pos (by simp), e]
    have := fillFrom_eq x n (p ++ [x]) a (by simpa using h)
    rw [List.length_append] at this
    refine this.trans ?_
    simp [List.replicate_succ]

theorem swapFrom_eq : ∀ (n : Nat) (p q a b : List α), a.length = n → b.length = n →
    p.length = q.length →
    swapFrom p.length n (p ++ a) (q ++ b) = some (p ++ b, q ++ a)
  | 0, p, q, a, b, ha, hb, _ => by
    rw [List.length_eq_zero_iff.1 ha, List.length_eq_zero_iff.1 hb]; rfl
  | n + 1, p, q, [], b, ha, _, _ => by simp at ha
  | n + 1, p, q, x :: a, [], _, hb, _ => by simp at hb
  | n + 1, p, q, x :: a, y :: b, ha, hb, hp => by
    have e1 : (p ++ x :: a)[p.length]? = some x := by simp
    have e2 : (q ++ y :: b)[p.length]? = some y := by rw [hp]; simp
    have e3 : (p ++ x :: a).set p.length y = (p ++ [y]) ++ a := by simp
    have e4 : (q ++ y :: b).set p.length x = (q ++ [x]) ++ b := by rw [hp]; simp
    rw [swapFrom, e1, e2]
    simp only [e3, e4]
    have := swapFrom_eq n (p ++ [y]) (q ++ [x]) a b (by simpa using ha) (by simpa using hb)
      (by simp [hp])
    rw [List.length_append] at this
    refine this.trans ?_
    simp

/-- **C103, `fill` and `swap`.** `fill` makes every item the value, `swap` exchanges the items. -/
theorem C103_fillSwap (N : Nat) (a b : List α) (ha : a.length = N) (hb : b.length = N) (x : α) :
    fill N a x = some (List.replicate N x) ∧ arrSwap N a b = some (b, a) :=
  ⟨fillFrom_eq x N [] a ha, swapFrom_eq N [] [] a b ha hb rfl⟩

/-- The `==` of floating-point numbers. -/
def flEq : Any.Fl → Any.Fl → Bool
  | .nan, _ | _, .nan => false
  | a, b => a == b

/-- The `<` of floating-point numbers. -/
def flLt : Any.Fl → Any.Fl → Bool
  | .fin a, .fin b => decide (a < b)
  | .inf true, .inf false | .inf true, .fin _ | .fin _, .inf false => true
  | _, _ => false

/-- C103 fails for arrays with a NaN: `a <= b` although neither `a < b` nor `a == b`, and an array is
not equal to itself; a NaN makes the items after it count, `{NaN, 1}` being `<` `{0, 2}` and
`{0, 2} < {NaN, 1}` not, while `{NaN} < {0}` is false. -/
theorem C103_nan_fails : ∃ a b : List Any.Fl,
    relArrays flEq flLt .le a b = true ∧ relArrays flEq flLt .lt a b = false ∧
    relArrays flEq flLt .eq a b = false ∧ relArrays flEq flLt .eq a a = false ∧
    relArrays flEq flLt .lt (a ++ [.fin 1]) (b ++ [.fin 2]) = true ∧
    relArrays flEq flLt .gt (a ++ [.fin 1]) (b ++ [.fin 2]) = false :=
  ⟨[.nan], [.fin 0], by decide, by decide, by decide, by decide, by decide, by decide⟩

/-- Numbers are such items, and strings of different capacities such strings. -/
example : Sound (fun a b : Int => decide (a = b)) (fun a b : Int => decide (a < b)) ∧
    relArrays (fun a b : Int => decide (a = b)) (fun a b : Int => decide (a < b)) .lt
      [1, 2, 3] [1, 3, 0] = true :=
  ⟨⟨by simp, ⟨by simp, fun a b c => by simpa using Int.lt_trans, fun a b => by simp; omega⟩⟩, by decide⟩

example : Holds 3 [97, 98, 0, 7] [97, 98] ∧ Holds 5 [97, 98, 99, 0, 7, 7] [97, 98, 99] ∧
    relStrings .lt [97, 98, 0, 7] [97, 98, 99, 0, 7, 7] = some true ∧
    relChars .le [97, 98, 0] [97, 98, 0, 7] = some true ∧
    relView .gt [97, 98, 0, 1] [97, 98, 0, 7] = some true :=
  ⟨⟨rfl, by decide, by decide, [7], rfl⟩, ⟨rfl, by decide, by decide, [7, 7], rfl⟩, by decide,
    by decide, by decide⟩

end Verif.Text
