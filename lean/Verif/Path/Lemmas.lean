import Verif.Path.Model

/-! Lemmas about the segments of paths. -/
namespace Verif.Path

/-! ### skip, scan, segment -/

theorem skip_length (d : Bool) (p : Str) : (skip d p).2.length ≤ p.length := by
  fun_induction skip d p with
  | case1 d p ih => simp; omega
  | case2 => simp
  | case3 d p h ih => simp; omega
  | case4 => simp

theorem scan_length (p : Str) : (scan p).2.length ≤ p.length := by
  fun_induction scan p with
  | case1 => simp
  | case2 p =>
    have := (List.dropWhile_suffix (l := p) (· == '.')).length_le
    simp; omega
  | case3 => simp
  | case4 => simp
  | case5 => simp
  | case6 c p _ _ _ _ ih => simp; omega

/-- The first loop leaves nothing that it would skip. -/
theorem skip_stop (d : Bool) (p : Str) :
    (skip d p).2.head? ≠ some '/' ∧
      ∀ r, (skip d p).2 = '.' :: r → r.head? = some '.' := by
  fun_induction skip d p with
  | case1 d p ih => exact ih
  | case2 d p h => simpa using h
  | case3 d p h ih => exact ih
  | case4 d p h1 h2 =>
    constructor
    · intro h
      cases p with
      | nil => simp at h
      | cons c p => simp at h; exact h1 p (by rw [h])
    · intro r hr; exact absurd hr (h2 r)

theorem segment_length (q : Str) (hne : q ≠ []) (h1 : q.head? ≠ some '/')
    (h2 : ∀ r, q = '.' :: r → r.head? = some '.') :
    (segment q).2.length < q.length := by
  unfold segment
  split
  · rename_i p
    have := scan_length p
    simp; omega
  · rename_i hb
    unfold scan
    split
    · exact absurd rfl hne
    · rename_i p
      have := (List.dropWhile_suffix (l := p) (· == '.')).length_le
      simp; omega
    · rename_i p hp
      have := h2 p rfl
      cases p with
      | nil => simp at this
      | cons c p => simp at this; subst this; exact absurd rfl (hp p)
    · simp at h1
    · exact absurd rfl (hb _)
    · rename_i c p _ _ _ _
      have := scan_length p
      simp; omega

theorem segmentsN_mono (n : Nat) : ∀ (m : Nat) (p : Str), p.length ≤ n → p.length ≤ m →
    segmentsN n p = segmentsN m p := by
  induction n with
  | zero =>
    intro m p hn _
    have : p = [] := List.length_eq_zero_iff.mp (by omega)
    subst this
    cases m <;> simp [segmentsN, skip]
  | succ n ih =>
    intro m p hn hm
    cases m with
    | zero =>
      have : p = [] := List.length_eq_zero_iff.mp (by omega)
      subst this
      simp [segmentsN, skip]
    | succ m =>
      have hs := skip_stop false p
      have hl := skip_length false p
      simp only [segmentsN]
      split
      · rfl
      · rename_i d q hq heq
        rw [heq] at hs hl
        have := segment_length q hq hs.1 hs.2
        simp only at hl
        rw [ih m _ (by omega) (by omega)]

/-- How the list of segments is made. -/
theorem segments_eq (p : Str) : segments p =
    match skip false p with
    | (_, []) => []
    | (d, q) => (d, (segment q).1) :: segments (segment q).2 := by
  unfold segments
  cases hp : p with
  | nil => simp [segmentsN, skip]
  | cons c p' =>
    rw [← hp]
    have hlen : p.length = p'.length + 1 := by rw [hp]; rfl
    rw [hlen]
    simp only [segmentsN]
    have hs := skip_stop false p
    have hl := skip_length false p
    rcases hsk : skip false p with ⟨d, _ | ⟨x, q⟩⟩
    · rfl
    · rw [hsk] at hs hl
      simp only at hl
      have := segment_length (x :: q) (by simp) hs.1 hs.2
      simp only
      rw [segmentsN_mono p'.length _ _ (by omega) (Nat.le_refl _)]

theorem segments_stop {p : Str} {d : Bool} (h : skip false p = (d, [])) :
    segments p = [] := by
  rw [segments_eq, h]

theorem segments_next {p q : Str} {d : Bool} (h : skip false p = (d, q)) (hq : q ≠ []) :
    segments p = (d, (segment q).1) :: segments (segment q).2 := by
  rw [segments_eq, h]
  cases q with
  | nil => exact absurd rfl hq
  | cons => rfl

theorem segments_of_skip_eq {p q : Str} (h : skip false p = skip false q) :
    segments p = segments q := by
  rw [segments_eq p, segments_eq q, h]

/-! ### A slash separates the segments -/

theorem skip_append_slash (d : Bool) (xs ys : Str) :
    skip d (xs ++ '/' :: ys) =
      if (skip d xs).2 = [] then skip false ys
      else ((skip d xs).1, (skip d xs).2 ++ '/' :: ys) := by
  fun_induction skip d xs with
  | case1 d p ih => simpa [skip] using ih
  | case2 d p h =>
    cases p with
    | nil => simp at h
    | cons c p => simp at h; subst h; simp [skip]
  | case3 d p h ih =>
    cases p with
    | nil => simp [skip]
    | cons c p =>
      have hc : c ≠ '.' := by intro e; subst e; simp at h
      have : skip d ('.' :: c :: p ++ '/' :: ys) = skip true (c :: p ++ '/' :: ys) := by
        simp [skip, hc]
      rw [this]; exact ih
  | case4 d p h1 h2 =>
    cases p with
    | nil => simp [skip]
    | cons c p =>
      have hc : c ≠ '/' := fun e => h1 p (by rw [e])
      have hd : c ≠ '.' := fun e => h2 p (by rw [e])
      simp only [List.cons_append]
      rw [skip.eq_3]
      · simp
      · intro p' e; simp at e; exact hc e.1
      · intro p' e; simp at e; exact hd e.1

theorem takeWhile_append_stop (f : Char → Bool) (c : Char) (hc : f c = false)
    (xs ys : Str) :
    (xs ++ c :: ys).takeWhile f = xs.takeWhile f ∧
      (xs ++ c :: ys).dropWhile f = xs.dropWhile f ++ c :: ys := by
  induction xs with
  | nil => simp [hc]
  | cons x xs ih =>
    simp only [List.cons_append, List.takeWhile_cons, List.dropWhile_cons]
    split
    · exact ⟨by rw [ih.1], ih.2⟩
    · simp

theorem scan_append_slash (xs ys : Str) :
    scan (xs ++ '/' :: ys) = ((scan xs).1, (scan xs).2 ++ '/' :: ys) := by
  fun_induction scan xs with
  | case1 => simp [scan]
  | case2 p =>
    have := takeWhile_append_stop (· == '.') '/' (by decide) p ys
    simp [scan, this]
  | case3 p h =>
    cases p with
    | nil => simp [scan]
    | cons c p =>
      have hc : c ≠ '.' := fun e => h p (by rw [e])
      simp only [List.cons_append]
      rw [scan.eq_3]
      intro p' e; simp at e; exact hc e.1
  | case4 => simp [scan]
  | case5 => simp [scan]
  | case6 c p h1 h2 h3 h4 ih =>
    have hd : c ≠ '.' := h2
    simp only [List.cons_append]
    rw [scan.eq_6 _ _ (fun p' e => absurd e hd) h2 h3 h4, ih]

theorem segment_append_slash (xs ys : Str) (hne : xs ≠ []) :
    segment (xs ++ '/' :: ys) = ((segment xs).1, (segment xs).2 ++ '/' :: ys) := by
  cases xs with
  | nil => exact absurd rfl hne
  | cons c p =>
    by_cases hb : c = '['
    · subst hb; simp [segment, scan_append_slash]
    · simp only [List.cons_append]
      rw [segment.eq_2 _ (by intro p' e; simp at e; exact hb e.1),
        segment.eq_2 _ (by intro p' e; simp at e; exact hb e.1)]
      exact scan_append_slash (c :: p) ys

/-- The segments of a path with a slash in the middle. -/
theorem segments_append_slash (xs ys : Str) :
    segments (xs ++ '/' :: ys) = segments xs ++ segments ys := by
  generalize hn : xs.length = n
  induction n using Nat.strongRecOn generalizing xs with
  | ind n ih =>
    have hs := skip_append_slash false xs ys
    have hstop := skip_stop false xs
    have hlen := skip_length false xs
    rcases hsk : skip false xs with ⟨d, q⟩
    rw [hsk] at hs hstop hlen
    by_cases hq : q = []
    · subst hq
      simp only [if_true] at hs
      rw [segments_stop hsk, List.nil_append]
      exact segments_of_skip_eq hs
    · simp only [hq, if_false] at hs
      rw [segments_next hsk hq, segments_next hs (by simp), segment_append_slash q ys hq]
      have := segment_length q hq hstop.1 hstop.2
      simp only at hlen ⊢
      rw [ih _ (by omega) _ rfl]
      rfl

/-! ### Names are segments -/

/-- What may follow a name so that the name is a segment of its own. -/
def Boundary (r : Str) : Prop :=
  r = [] ∨ (∃ t, r = '/' :: t) ∨ (∃ t, r = '[' :: t) ∨
    (∃ t, r = '.' :: t ∧ t.head? ≠ some '.')

theorem scan_boundary {r : Str} (h : Boundary r) : scan r = ([], r) := by
  rcases h with rfl | ⟨t, rfl⟩ | ⟨t, rfl⟩ | ⟨t, rfl, ht⟩
  · rfl
  · simp [scan]
  · simp [scan]
  · rw [scan.eq_3]
    intro p e; subst e; simp at ht

/-- A character that `scan` keeps. -/
def plain (c : Char) : Bool := c != '.' && c != '/' && c != '['

theorem scan_plain (s r : Str) (hs : ∀ c ∈ s, plain c = true) (h : Boundary r) :
    scan (s ++ r) = (s, r) := by
  induction s with
  | nil => exact scan_boundary h
  | cons c s ih =>
    have hc := hs c (by simp)
    simp [plain] at hc
    simp only [List.cons_append]
    rw [scan.eq_6 _ _ (fun p' e => absurd e hc.1.1) hc.1.1 hc.1.2 hc.2,
      ih (fun c h => hs c (by simp [h]))]

end Verif.Path
