import Verif.Text.Search
import Verif.Text.Props

/-! Property C161: unchecked accesses to fixed-size strings, and searches in them. -/
namespace Verif.Text.Search

/-! ### Specification -/

/-- A search that goes from the position to the end. -/
def Kind.forward : Kind → Bool
  | .find | .firstOf | .firstNotOf => true
  | _ => false

/-- What is searched for is at the index `i` of the text. -/
def Hit (k : Kind) (s v : Buf) (i : Nat) : Prop :=
  match k with
  | .find | .rfind => ∃ a r, s = a ++ v ++ r ∧ a.length = i
  | .firstOf | .lastOf => ∃ c, s[i]? = some c ∧ c ∈ v
  | .firstNotOf | .lastNotOf => ∃ c, s[i]? = some c ∧ c ∉ v

/-- The index is on the side of the position that is searched. -/
def Kind.Side (k : Kind) (pos i : Nat) : Prop := if k.forward then pos ≤ i else i ≤ pos

/-- The index `i` is not after `j` in the order of the search. -/
def Kind.Sooner (k : Kind) (i j : Nat) : Prop := if k.forward then i ≤ j else j ≤ i

/-- The bytes that an argument stands for: the ones of a view, one character (which may be zero), a C
string up to its terminator, or a number of bytes. -/
def Arg.Means (a : Arg) (v : Buf) : Prop :=
  match a with
  | .view w => v = w
  | .char c => v = [c]
  | .chars c => (∀ x ∈ v, x ≠ 0) ∧ ∃ g, c = v ++ 0 :: g
  | .counted c n => v.length = n ∧ ∃ g, c = v ++ g

/-- The text that a buffer has after a character was written at any index of it: `s` is the text
before, `g` what is behind its terminator. `none`: no terminator is left. -/
def written (s g : Buf) (i c : Nat) : Option Buf :=
  if i < s.length then some (if c = 0 then s.take i else s.set i c)
  else if i = s.length ∧ c ≠ 0 then
    if 0 ∈ g then some (s ++ c :: text g) else none
  else some s

/-! ### Lemmas -/

theorem upward_some {p : Nat → Bool} {i n r : Nat} :
    upward p i n = some r ↔ p r = true ∧ i ≤ r ∧ r < i + n ∧ ∀ j, i ≤ j → j < r → p j = false := by
  induction n generalizing i with
  | zero => simp only [upward]; constructor
            · intro h; cases h
            · intro h; omega
  | succ n ih =>
    simp only [upward]
    split
    · rename_i hp
      constructor
      · intro h; cases h
        exact ⟨hp, Nat.le_refl _, by omega, fun j h1 h2 => by omega⟩
      · rintro ⟨h1, h2, h3, h4⟩
        by_cases e : i = r
        · rw [e]
        · have := h4 i (Nat.le_refl _) (by omega)
          rw [hp] at this; cases this
    · rename_i hp
      rw [ih]
      have hp' : p i = false := by simpa using hp
      constructor
      · rintro ⟨h1, h2, h3, h4⟩
        refine ⟨h1, by omega, by omega, fun j h5 h6 => ?_⟩
        by_cases e : j = i
        · rw [e]; exact hp'
        · exact h4 j (by omega) h6
      · rintro ⟨h1, h2, h3, h4⟩
        have e : i ≠ r := fun e => by rw [e] at hp'; rw [hp'] at h1; cases h1
        exact ⟨h1, by omega, by omega, fun j h5 h6 => h4 j (by omega) h6⟩

theorem downward_some {p : Nat → Bool} {k r : Nat} :
    downward p k = some r ↔ p r = true ∧ r < k ∧ ∀ j, r < j → j < k → p j = false := by
  induction k with
  | zero => simp only [downward]; constructor
            · intro h; cases h
            · intro h; omega
  | succ k ih =>
    simp only [downward]
    split
    · rename_i hp
      constructor
      · intro h; cases h
        exact ⟨hp, by omega, fun j h1 h2 => by omega⟩
      · rintro ⟨h1, h2, h3⟩
        by_cases e : k = r
        · rw [e]
        · have := h3 k (by omega) (by omega)
          rw [hp] at this; cases this
    · rename_i hp
      rw [ih]
      have hp' : p k = false := by simpa using hp
      constructor
      · rintro ⟨h1, h2, h3⟩
        refine ⟨h1, by omega, fun j h5 h6 => ?_⟩
        by_cases e : j = k
        · rw [e]; exact hp'
        · exact h3 j h5 (by omega)
      · rintro ⟨h1, h2, h3⟩
        have e : k ≠ r := fun e => by rw [e] at hp'; rw [hp'] at h1; cases h1
        exact ⟨h1, by omega, fun j h5 h6 => h3 j h5 (by omega)⟩

theorem occurs_iff {s v : Buf} {i : Nat} :
    (∃ a r, s = a ++ v ++ r ∧ a.length = i) ↔
      v.isPrefixOf (s.drop i) = true ∧ i + v.length ≤ s.length := by
  constructor
  · rintro ⟨a, r, rfl, rfl⟩
    constructor
    · rw [List.append_assoc, List.drop_left]
      exact List.isPrefixOf_iff_prefix.2 ⟨r, rfl⟩
    · simp
  · rintro ⟨h, hl⟩
    obtain ⟨r, hr⟩ := List.isPrefixOf_iff_prefix.1 h
    refine ⟨s.take i, r, ?_, by simp; omega⟩
    rw [List.append_assoc, hr, List.take_append_drop]

theorem oneOf_iff {s v : Buf} {i : Nat} : oneOf s v i = true ↔ ∃ c, s[i]? = some c ∧ c ∈ v := by
  unfold oneOf
  cases s[i]? <;> simp

theorem noneOf_iff {s v : Buf} {i : Nat} : noneOf s v i = true ↔ ∃ c, s[i]? = some c ∧ c ∉ v := by
  unfold noneOf
  cases s[i]? <;> simp

theorem lt_of_some {s : Buf} {i c : Nat} (h : s[i]? = some c) : i < s.length :=
  (List.getElem?_eq_some_iff.1 h).1

/-- The searches as loops over the indexes where there is a hit. -/
theorem search_up {k : Kind} {s v : Buf} {pos r : Nat} (hk : k.forward = true) :
    search k s v pos = some r ↔ Hit k s v r ∧ pos ≤ r ∧ ∀ j, pos ≤ j → Hit k s v j → r ≤ j := by
  have gen : ∀ (p : Nat → Bool) (m : Nat), (∀ i, Hit k s v i ↔ p i = true ∧ i < m) →
      (upward p pos (m - pos) = some r ↔ Hit k s v r ∧ pos ≤ r ∧ ∀ j, pos ≤ j → Hit k s v j → r ≤ j) := by
    intro p m hm
    rw [upward_some]
    constructor
    · rintro ⟨h1, h2, h3, h4⟩
      refine ⟨(hm r).2 ⟨h1, by omega⟩, h2, fun j hj hh => ?_⟩
      by_cases e : r ≤ j
      · exact e
      · have := h4 j hj (by omega)
        rw [((hm j).1 hh).1] at this; cases this
    · rintro ⟨h1, h2, h3⟩
      have h4 := (hm r).1 h1
      refine ⟨h4.1, h2, by omega, fun j hj hl => ?_⟩
      cases e : p j with
      | false => rfl
      | true =>
        have := h3 j hj ((hm j).2 ⟨e, by omega⟩)
        omega
  cases k <;> simp [Kind.forward] at hk
  · refine gen _ (s.length + 1 - v.length) fun i => ?_
    show (∃ a r, s = a ++ v ++ r ∧ a.length = i) ↔ _
    rw [occurs_iff]
    constructor <;> (rintro ⟨h1, h2⟩; exact ⟨h1, by omega⟩)
  · refine gen _ s.length fun i => ?_
    rw [oneOf_iff]
    exact ⟨fun h => ⟨h, lt_of_some h.choose_spec.1⟩, fun h => h.1⟩
  · refine gen _ s.length fun i => ?_
    rw [noneOf_iff]
    exact ⟨fun h => ⟨h, lt_of_some h.choose_spec.1⟩, fun h => h.1⟩

theorem search_down {k : Kind} {s v : Buf} {pos r : Nat} (hk : k.forward = false) :
    search k s v pos = some r ↔ Hit k s v r ∧ r ≤ pos ∧ ∀ j, j ≤ pos → Hit k s v j → j ≤ r := by
  have gen : ∀ (p : Nat → Bool) (m n : Nat), (∀ i, Hit k s v i ↔ p i = true ∧ i < m) →
      (∀ i, i < n ↔ i ≤ pos ∧ i < m) →
      (downward p n = some r ↔ Hit k s v r ∧ r ≤ pos ∧ ∀ j, j ≤ pos → Hit k s v j → j ≤ r) := by
    intro p m n hm hn
    rw [downward_some]
    constructor
    · rintro ⟨h1, h2, h3⟩
      have h4 := (hn r).1 h2
      refine ⟨(hm r).2 ⟨h1, h4.2⟩, h4.1, fun j hj hh => ?_⟩
      by_cases e : j ≤ r
      · exact e
      · have h5 := (hm j).1 hh
        have := h3 j (by omega) ((hn j).2 ⟨hj, h5.2⟩)
        rw [h5.1] at this; cases this
    · rintro ⟨h1, h2, h3⟩
      have h4 := (hm r).1 h1
      refine ⟨h4.1, (hn r).2 ⟨h2, h4.2⟩, fun j hj hl => ?_⟩
      cases e : p j with
      | false => rfl
      | true =>
        have h5 := (hn j).1 hl
        have := h3 j h5.1 ((hm j).2 ⟨e, h5.2⟩)
        omega
  cases k <;> simp [Kind.forward] at hk
  · simp only [search]
    have hm : ∀ i, Hit .rfind s v i ↔
        v.isPrefixOf (s.drop i) = true ∧ i < s.length + 1 - v.length := by
      intro i
      show (∃ a r, s = a ++ v ++ r ∧ a.length = i) ↔ _
      rw [occurs_iff]
      constructor <;> (rintro ⟨h1, h2⟩; exact ⟨h1, by omega⟩)
    split
    · exact gen _ _ _ hm fun i => by omega
    · refine ⟨fun h => (by cases h), fun h => ?_⟩
      have := ((hm r).1 h.1).2
      omega
  · refine gen _ s.length _ (fun i => ?_) fun i => by omega
    rw [oneOf_iff]
    exact ⟨fun h => ⟨h, lt_of_some h.choose_spec.1⟩, fun h => h.1⟩
  · refine gen _ s.length _ (fun i => ?_) fun i => by omega
    rw [noneOf_iff]
    exact ⟨fun h => ⟨h, lt_of_some h.choose_spec.1⟩, fun h => h.1⟩

theorem means_bytes {a : Arg} {v : Buf} (h : a.Means v) : a.bytes = some v := by
  cases a with
  | view w => exact congrArg some (Eq.symm h)
  | char c => exact congrArg some (Eq.symm h)
  | chars c =>
    obtain ⟨h1, g, rfl⟩ := h
    show cstr _ = _
    unfold cstr
    rw [if_pos (by simp), takeWhile_nz _ _ h1]
  | counted c n =>
    obtain ⟨rfl, g, rfl⟩ := h
    simp [Arg.bytes]

/-! ### Searches -/

/-- C161. In a string that holds the text `s`, each search gives the index of the hit that comes
soonest on the side of the position that is searched, or `npos` if there is none there; what is behind
the terminator does not matter. -/
theorem C161_search (k : Kind) (N : Nat) (b s v : Buf) (a : Arg) (pos : Nat) (h : Holds N b s)
    (ha : a.Means v) :
    ∃ r, find k b a pos = some r ∧
      (∀ i, r = some i → Hit k s v i ∧ k.Side pos i ∧
        ∀ j, k.Side pos j → Hit k s v j → k.Sooner i j) ∧
      (r = none → ∀ j, k.Side pos j → ¬ Hit k s v j) := by
  refine ⟨search k s v pos, by simp [find, h.cstr, means_bytes ha], ?_, ?_⟩
  · intro i hi
    cases hk : k.forward with
    | true =>
      have := (search_up hk).1 hi
      simp only [Kind.Side, Kind.Sooner, hk, if_true]
      exact this
    | false =>
      have := (search_down hk).1 hi
      simp only [Kind.Side, Kind.Sooner, hk, Bool.false_eq_true, if_false]
      exact this
  · intro hn j hj hh
    cases hk : k.forward with
    | true =>
      simp only [Kind.Side, hk, if_true] at hj
      -- the least hit from `pos` on
      have key : ∀ n, ∀ j, j - pos ≤ n → pos ≤ j → Hit k s v j → False := by
        intro n
        induction n with
        | zero =>
          intro j h1 h2 h3
          have e : j = pos := by omega
          subst e
          have := (search_up (r := j) hk).2 ⟨h3, Nat.le_refl _, fun i hi _ => hi⟩
          rw [hn] at this; cases this
        | succ n ih =>
          intro j h1 h2 h3
          have := (search_up (s := s) (v := v) (pos := pos) (r := j) hk).2 ⟨h3, h2, fun i hi hh => by
            by_cases e : j ≤ i
            · exact e
            · exact (ih i (by omega) hi hh).elim⟩
          rw [hn] at this; cases this
      exact key (j - pos) j (Nat.le_refl _) hj hh
    | false =>
      simp only [Kind.Side, hk, Bool.false_eq_true, if_false] at hj
      have key : ∀ n, ∀ j, pos - j ≤ n → j ≤ pos → Hit k s v j → False := by
        intro n
        induction n with
        | zero =>
          intro j h1 h2 h3
          have := (search_down (s := s) (v := v) (pos := pos) (r := j) hk).2
            ⟨h3, h2, fun i hi _ => by omega⟩
          rw [hn] at this; cases this
        | succ n ih =>
          intro j h1 h2 h3
          have := (search_down (s := s) (v := v) (pos := pos) (r := j) hk).2 ⟨h3, h2, fun i hi hh => by
            by_cases e : i ≤ j
            · exact e
            · exact (ih i (by omega) hi hh).elim⟩
          rw [hn] at this; cases this
      exact key (pos - j) j (Nat.le_refl _) hj hh

example : Holds 7 [1, 2, 1, 2, 3, 0, 1, 2] [1, 2, 1, 2, 3] ∧
    find .find [1, 2, 1, 2, 3, 0, 1, 2] (.view [1, 2]) 1 = some (some 2) ∧
    find .rfind [1, 2, 1, 2, 3, 0, 1, 2] (.chars [1, 2, 0, 9]) 10 = some (some 2) ∧
    find .lastNotOf [1, 2, 1, 2, 3, 0, 1, 2] (.counted [2, 3, 0] 2) 10 = some (some 2) ∧
    find .firstOf [1, 2, 1, 2, 3, 0, 1, 2] (.char 0) 0 = some none ∧
    (Arg.chars [1, 2, 0, 9]).Means [1, 2] ∧ (Arg.counted [2, 3, 0] 2).Means [2, 3] :=
  ⟨⟨rfl, by decide, by decide, [1, 2], rfl⟩, by decide, by decide, by decide, by decide,
    ⟨by decide, [9], rfl⟩, rfl, [0], rfl⟩

/-- C161. A part of a string is the part of its text, of at most `n` characters; beyond its end there
is an exception. What was found by `find` is there, and what comes before has no other. -/
theorem C161_part (N : Nat) (b s v : Buf) (pos n : Nat) (h : Holds N b s) :
    (substr b pos n = some (if pos ≤ s.length then some ((s.drop pos).take n) else none)) ∧
    ∀ i, find .find b (.view v) pos = some (some i) → substr b i v.length = some (some v) := by
  have e : ∀ p m, substr b p m = some (if p ≤ s.length then some ((s.drop p).take m) else none) := by
    intro p m
    simp only [substr, h.cstr, Option.map_some]
    by_cases hp : p ≤ s.length
    · rw [if_pos hp, if_neg (by omega)]
    · rw [if_neg hp, if_pos (by omega)]
  refine ⟨e pos n, fun i hi => ?_⟩
  obtain ⟨r, hr, h1, _⟩ := C161_search .find N b s v (.view v) pos h rfl
  rw [hi] at hr
  cases hr
  obtain ⟨⟨a, t, hs, ha⟩, _⟩ := h1 i rfl
  rw [e, if_pos (by rw [hs, ← ha]; simp), hs, ← ha, List.append_assoc, List.drop_left, List.take_left]

example : substr [1, 2, 1, 2, 3, 0, 1, 2] 2 2 = some (some [1, 2]) ∧
    substr [1, 2, 0] 3 1 = some none := by decide

/-! ### Unchecked accesses -/

/-- C161. Reading with `[]` gives the character of the text below the size and zero at the size;
beyond the capacity it is undefined. `front` of an empty string is zero, `back` of any other is its
last character. -/
theorem C161_read (N : Nat) (b s : Buf) (h : Holds N b s) (hN : N < 2 ^ 63) :
    (∀ i, i < s.length → getIndex b i = s[i]?) ∧ getIndex b s.length = some 0 ∧
    (∀ i, getIndex b i = none ↔ N < i) ∧
    getFront b = some (s.head?.getD 0) ∧ getBack b = s.getLast? := by
  obtain ⟨hl, hs, hz, g, hb⟩ := id h
  have r1 : ∀ i, i < s.length → getIndex b i = s[i]? := by
    intro i hi
    show b[i]? = _
    rw [hb, List.getElem?_append_left hi]
  have r2 : getIndex b s.length = some 0 := by
    show b[s.length]? = _
    rw [hb, List.getElem?_append_right (Nat.le_refl _)]; simp
  refine ⟨r1, r2, ?_, ?_, ?_⟩
  · intro i
    show b[i]? = none ↔ _
    rw [List.getElem?_eq_none_iff, hl]; omega
  · show getIndex b 0 = _
    cases s with
    | nil => exact r2
    | cons x xs => rw [r1 0 (by simp)]; rfl
  · simp only [getBack, backIndex, h.cstr, Option.map_some, Option.bind_some]
    by_cases he : s.length = 0
    · have : s = [] := List.length_eq_zero_iff.1 he
      subst this
      rw [if_pos he]
      generalize hm : 2 ^ 64 - 1 = m
      have hm' : N < m := by omega
      show b[m]? = none
      rw [List.getElem?_eq_none_iff, hl]
      exact hm'
    · rw [if_neg he, r1 _ (by omega), List.getLast?_eq_getElem?]

example : getBack [7, 8, 0, 0] = some 8 ∧ getFront [0, 5, 0] = some 0 ∧ getBack [0, 5, 0] = none := by
  decide +kernel

/-- C161. What a string is after a character was written with `[]`, for any index and character:
below the size the character is replaced, or the string ends there if it is zero; behind the
terminator nothing changes; on the terminator, what is behind it becomes part of the text, and if
there is no zero in it the string has no end. Beyond the capacity it is undefined. -/
theorem C161_write (N : Nat) (b s g : Buf) (i c : Nat) (h : Holds N b s) (hg : b = s ++ 0 :: g) :
    (setIndex b i c = none ↔ N < i) ∧
    ∀ b', setIndex b i c = some b' → cstr b' = written s g i c := by
  have hl := h.1
  have hlen : s.length + (g.length + 1) = N + 1 := by
    have := hl
    rw [hg] at this; simpa using this
  have hnz := h.2.2.1
  unfold setIndex store
  constructor
  · rw [hl]
    split
    · simp; omega
    · simp; omega
  · intro b' hb'
    split at hb'
    · obtain rfl : b.set i c = b' := Option.some.inj hb'
      unfold written
      by_cases h1 : i < s.length
      · rw [if_pos h1, hg, List.set_append_left _ _ h1]
        by_cases hc : c = 0
        · subst hc
          rw [if_pos rfl]
          unfold cstr
          rw [if_pos (by simp), List.set_eq_take_append_cons_drop, if_pos h1, List.append_assoc,
            List.cons_append, takeWhile_nz _ _ fun x hx => hnz x (List.mem_of_mem_take hx)]
        · rw [if_neg hc]
          unfold cstr
          rw [if_pos (by simp), takeWhile_nz]
          intro x hx
          rcases List.mem_or_eq_of_mem_set hx with hx | hx
          · exact hnz x hx
          · rw [hx]; exact hc
      · rw [if_neg h1, hg, List.set_append_right _ _ (by omega)]
        by_cases h2 : i = s.length
        · subst h2
          rw [Nat.sub_self, List.set_cons_zero]
          by_cases hc : c = 0
          · subst hc
            rw [if_neg (by simp)]
            unfold cstr
            rw [if_pos (by simp), takeWhile_nz _ _ hnz]
          · rw [if_pos ⟨rfl, hc⟩]
            have hs0 : 0 ∉ s := fun hm => hnz 0 hm rfl
            unfold cstr
            by_cases h0 : 0 ∈ g
            · rw [if_pos h0, if_pos (by simp [h0])]
              congr 1
              rw [List.takeWhile_append_of_pos (by simpa using hnz), List.takeWhile_cons_of_pos (by simpa using hc)]
              rfl
            · rw [if_neg h0, if_neg]
              simp only [List.mem_append, List.mem_cons, not_or]
              exact ⟨hs0, fun e => hc e.symm, h0⟩
        · rw [if_neg (fun hh => h2 hh.1)]
          rw [show i - s.length = (i - s.length - 1) + 1 by omega, List.set_cons_succ]
          unfold cstr
          rw [if_pos (by simp), takeWhile_nz _ _ hnz]
    · cases hb'

example : Holds 5 [1, 0, 3, 4, 0, 0] [1] ∧ written [1] [3, 4, 0, 0] 1 2 = some [1, 2, 3, 4] :=
  ⟨⟨rfl, by decide, by decide, [3, 4, 0, 0], rfl⟩, by decide⟩

/-- C161. `back() = c` replaces the last character; on an empty string it is undefined. -/
theorem C161_back (N : Nat) (b s : Buf) (c : Nat) (h : Holds N b s) (hN : N < 2 ^ 63) (hc : c ≠ 0) :
    (s = [] → setBack b c = none) ∧
    (s ≠ [] → ∃ b', setBack b c = some b' ∧ Holds N b' (s.dropLast ++ [c])) := by
  have hs := h.2.1
  constructor
  · rintro rfl
    simp only [setBack, backIndex, h.cstr, Option.map_some, Option.bind_some, setIndex, store, h.1]
    rw [if_pos List.length_nil, if_neg (by omega)]
  · intro hn
    have hpos : 0 < s.length := List.length_pos_iff.2 hn
    simp only [setBack, backIndex, h.cstr, Option.map_some, Option.bind_some, setIndex, store, h.1]
    rw [if_neg (by omega : ¬ s.length = 0), if_pos (by omega)]
    refine ⟨_, rfl, by simpa using h.1, by simp; omega, ?_, ?_⟩
    · intro x hx
      rcases List.mem_append.1 hx with hx | hx
      · exact h.2.2.1 x (List.dropLast_subset s hx)
      · rw [List.mem_singleton.1 hx]; exact hc
    · obtain ⟨g, hg⟩ := h.2.2.2
      refine ⟨g, ?_⟩
      rw [hg, List.set_append_left _ _ (by omega), List.set_eq_take_append_cons_drop,
        if_pos (by omega), List.dropLast_eq_take, show s.length - 1 + 1 = s.length by omega,
        List.drop_length]

example : setBack [7, 8, 0, 3] 9 = some [7, 9, 0, 3] := by decide

/-- C161 fails: a character written with `[]` at the size of a full string leaves no terminator, and
every function that needs the size leaves the buffer afterwards. -/
theorem C161_full_fails (N : Nat) (b s : Buf) (c : Nat) (h : Holds N b s) (hf : s.length = N)
    (hc : c ≠ 0) : ∃ b', setIndex b s.length c = some b' ∧ cstr b' = none := by
  obtain ⟨g, hg⟩ := h.2.2.2
  have hw := C161_write N b s g s.length c h hg
  have hlen : g = [] := by
    have := h.1
    rw [hg] at this
    apply List.length_eq_zero_iff.1
    simp at this; omega
  cases e : setIndex b s.length c with
  | none => exact absurd (hw.1.1 e) (by omega)
  | some b' =>
    refine ⟨b', rfl, ?_⟩
    rw [hw.2 b' e, written, if_neg (by omega), if_pos ⟨rfl, hc⟩, hlen]
    rfl

example : Holds 2 [5, 6, 0] [5, 6] ∧ ([5, 6] : Buf).length = 2 :=
  ⟨⟨rfl, by decide, by decide, [], rfl⟩, rfl⟩

/-- C161 fails: a character written with `[]` at the size brings back characters of an earlier, longer
text: "hello", then "a", then `s[1] = 'b'` gives "abllo". -/
theorem C161_stale_fails : ∃ b b' b'' : Buf, assign 5 (new 5) [104, 101, 108, 108, 111] = some b ∧
    assign 5 b [97] = some b' ∧ setIndex b' 1 98 = some b'' ∧
    cstr b' = some [97] ∧ cstr b'' = some [97, 98, 108, 108, 111] :=
  ⟨[104, 101, 108, 108, 111, 0], [97, 0, 108, 108, 111, 0], [97, 98, 108, 108, 111, 0], by decide +kernel,
    by decide +kernel, by decide +kernel, by decide +kernel, by decide +kernel⟩

end Verif.Text.Search
