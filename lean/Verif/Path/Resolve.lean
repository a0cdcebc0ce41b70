import Verif.Path.Lemmas
import Verif.Path.Index

/-! Lemmas about `resolve` and `getPath`. -/
namespace Verif.Path

/-! ### Grammar -/

theorem dropWhile_nil_iff (f : Char → Bool) (s : Str) :
    s.dropWhile f = [] ↔ ∀ x ∈ s, f x = true := by
  induction s with
  | nil => simp
  | cons c s ih =>
    simp only [List.dropWhile_cons]
    split
    · rename_i h; simp [ih, h]
    · rename_i h; simp [h]

theorem dropWhile_split (f : Char → Bool) (s : Str) :
    ∃ u, s = u ++ s.dropWhile f ∧ ∀ x ∈ u, f x = true := by
  induction s with
  | nil => exact ⟨[], by simp⟩
  | cons c s ih =>
    simp only [List.dropWhile_cons]
    split
    · rename_i h
      obtain ⟨u, hu, hx⟩ := ih
      exact ⟨c :: u, by simp [← hu], by simpa [h] using hx⟩
    · exact ⟨[], by simp⟩

theorem isWord_iff (c : Char) :
    isWord c = true ↔ c.isAlpha = true ∨ c.isDigit = true ∨ c = '_' := by
  simp [isWord, or_assoc]

theorem checkName_iff (s : Str) : checkName (some s) = .ok s ↔ Grammar s := by
  cases s with
  | nil => simp [checkName, Grammar]
  | cons c rest =>
    simp only [checkName]
    by_cases ha : c.isAlpha = true
    · have hb : c ≠ '[' := by intro e; subst e; simp at ha
      simp only [ha, if_true]
      constructor
      · intro h
        split at h
        · rename_i hd
          refine Or.inl ⟨c, rest, rfl, ha, ?_⟩
          intro x hx
          exact (isWord_iff x).mp ((dropWhile_nil_iff _ _).mp hd x hx)
        · cases h
      · rintro (⟨c', w, e, _, hw⟩ | ⟨ds, e, _⟩)
        · simp at e
          rw [if_pos]
          rw [dropWhile_nil_iff]
          intro x hx
          exact (isWord_iff x).mpr (hw x (e.2 ▸ hx))
        · simp at e; exact absurd e.1 hb
    · simp only [Bool.not_eq_true] at ha
      simp only [ha, Bool.false_eq_true, if_false]
      by_cases hb : c = '['
      · subst hb
        simp only [if_true]
        cases rest with
        | nil =>
          simp only [reduceCtorEq, false_iff]
          rintro (⟨c', w, e, h, _⟩ | ⟨ds, e, _⟩)
          · simp at e; rw [← e.1] at h; simp at h
          · simp at e
        | cons d rest =>
          simp only
          constructor
          · intro h
            split at h
            · rename_i hd
              split at h
              · rename_i tail ht
                split at h
                · rename_i htl
                  subst htl
                  obtain ⟨u, hu, hx⟩ := dropWhile_split Char.isDigit rest
                  refine Or.inr ⟨d :: u, ?_, by simp, ?_⟩
                  · rw [ht] at hu; rw [hu]; simp
                  · simpa [hd] using hx
                · cases h
              · cases h
            · cases h
          · rintro (⟨c', w, e, h, _⟩ | ⟨ds, e, hne, hx⟩)
            · simp at e; rw [← e.1] at h; simp at h
            · cases ds with
              | nil => exact absurd rfl hne
              | cons d' ds =>
                simp at e
                obtain ⟨rfl, rfl⟩ := e
                simp at hx
                have hdw : ∀ l : Str, (∀ x ∈ l, x.isDigit = true) →
                    (l ++ [']']).dropWhile Char.isDigit = [']'] := by
                  intro l hl
                  induction l with
                  | nil => simp
                  | cons y l ih =>
                    simp at hl
                    simp [hl.1]
                    exact ih (fun x h => hl.2 x h)
                simp [hx.1, hdw ds hx.2]
      · simp only [hb, if_false, reduceCtorEq, false_iff]
        rintro (⟨c', w, e, h, _⟩ | ⟨ds, e, _⟩)
        · simp at e; rw [← e.1, ha] at h; cases h
        · simp at e; exact hb e.1

theorem checkName_cases (s : Option Str) :
    checkName s = .invalidObjectName ∨ ∃ t, s = some t ∧ checkName s = .ok t := by
  unfold checkName
  repeat' split
  all_goals first | exact Or.inl rfl | exact Or.inr ⟨_, rfl, rfl⟩

theorem isAlpha_plain {c : Char} (h : c.isAlpha = true) : plain c = true := by
  simp only [plain, Bool.and_eq_true, bne_iff_ne]
  refine ⟨⟨?_, ?_⟩, ?_⟩ <;> intro e <;> subst e <;> simp at h

theorem isDigit_plain {c : Char} (h : c.isDigit = true) : plain c = true := by
  simp only [plain, Bool.and_eq_true, bne_iff_ne]
  refine ⟨⟨?_, ?_⟩, ?_⟩ <;> intro e <;> subst e <;> simp at h

/-- A name is the segment at its position. -/
theorem segment_name {s r : Str} (hs : Grammar s) (hr : Boundary r) :
    segment (s ++ r) = (s, r) := by
  rcases hs with ⟨c, w, rfl, hc, hw⟩ | ⟨ds, rfl, hne, hd⟩
  · have hb : c ≠ '[' := by intro e; subst e; simp at hc
    rw [List.cons_append, segment.eq_2 _ (by intro p e; simp at e; exact hb e.1),
      ← List.cons_append]
    refine scan_plain _ _ ?_ hr
    intro x hx
    simp at hx
    rcases hx with rfl | hx
    · exact isAlpha_plain hc
    · rcases hw x hx with h | h | h
      · exact isAlpha_plain h
      · exact isDigit_plain h
      · subst h; decide
  · have : scan ((ds ++ [']']) ++ r) = (ds ++ [']'], r) := by
      refine scan_plain _ _ ?_ hr
      intro x hx
      simp at hx
      rcases hx with hx | rfl
      · exact isDigit_plain (hd x hx)
      · decide
    simp only [List.cons_append, segment, this]

theorem Grammar.head {s : Str} (hs : Grammar s) :
    ∃ c t, s = c :: t ∧ c ≠ '/' ∧ c ≠ '.' ∧ c ≠ '_' := by
  rcases hs with ⟨c, w, rfl, hc, hw⟩ | ⟨ds, rfl, hne, hd⟩
  · refine ⟨c, w, rfl, ?_, ?_, ?_⟩ <;> intro e <;> subst e <;> simp at hc
  · exact ⟨'[', _, rfl, by decide, by decide, by decide⟩

theorem Grammar.ne_dots {s : Str} (hs : Grammar s) : s ≠ ['.', '.'] := by
  obtain ⟨c, t, rfl, _, h, _⟩ := hs.head
  intro e; simp at e; exact h e.1

theorem skip_name (d : Bool) {s r : Str} (hs : Grammar s) : skip d (s ++ r) = (d, s ++ r) := by
  obtain ⟨c, t, rfl, h1, h2, _⟩ := hs.head
  rw [List.cons_append, skip.eq_3]
  · intro p e; simp at e; exact h1 e.1
  · intro p e; simp at e; exact h2 e.1

theorem segments_slash_name {s r : Str} (hs : Grammar s) (hr : Boundary r) :
    segments ('/' :: (s ++ r)) = (false, s) :: segments r := by
  have h : skip false ('/' :: (s ++ r)) = (false, s ++ r) := by
    simp only [skip]; exact skip_name false hs
  obtain ⟨c, t, e, _⟩ := hs.head
  rw [segments_next h (by rw [e]; simp), segment_name hs hr]

theorem segments_name {s r : Str} (hs : Grammar s) (hr : Boundary r) :
    segments (s ++ r) = (false, s) :: segments r := by
  obtain ⟨c, t, e, _⟩ := hs.head
  rw [segments_next (skip_name false hs) (by rw [e]; simp), segment_name hs hr]

theorem segments_dot_name {s r : Str} (hs : Grammar s) (hr : Boundary r) :
    segments ('.' :: (s ++ r)) = (true, s) :: segments r := by
  obtain ⟨c, t, e, _, h2, _⟩ := hs.head
  have h : skip false ('.' :: (s ++ r)) = (true, s ++ r) := by
    have : skip false ('.' :: (s ++ r)) = skip true (s ++ r) := by
      rw [e]; simp [skip, h2]
    rw [this]; exact skip_name true hs
  rw [segments_next h (by rw [e]; simp), segment_name hs hr]

/-! ### Candidates: `resolve` takes the first one that gives an object -/

/-- The prefix "_" case. (Helper.cpp:154-164.) -/
def underChild (n : Node) (s : Str) : Option Nat :=
  match s with
  | '_' :: s' =>
    match child n (· == .container) s' with
    | some i => some i
    | none => child n (· == .reference) s'
  | _ => none

/-- The objects tried for one segment, in order. Of the model only (the tests of
Helper.cpp:180-227). -/
def cands (T : Node) (refs : Refs) (st : St) (a : Addr) (dot : Bool) (s : Str) :
    List (St × Addr) :=
  if s = ['.', '.'] then
    match parent T a with
    | none => []
    | some p => [(.obj, p)]
  else
    match get T a with
    | none => []
    | some n =>
      match st with
      | .field =>
        if n.kind = .structField then
          match child n Kind.isField s with
          | some i => [(.field, i :: a)]
          | none => []
        else if n.kind.isArray then
          match arrayIndex s n.children.length with
          | some i => [(.field, i :: a)]
          | none => []
        else []
      | .obj =>
        match underChild n s with
        | some i => [(.obj, i :: a)]
        | none =>
          (match child n (· == .sink) s with
          | some i => [(.obj, i :: a)]
          | none =>
          match child n (· == .source) s with
          | some i => [(.obj, i :: a)]
          | none =>
          match child n (· == .entryPoint) s with
          | some i => [(.obj, i :: a)]
          | none =>
          (match child n (· == .operation) s with
          | some i => [(.obj, i :: a)]
          | none =>
          match child n (· == .property) s with
          | some i => [(.obj, i :: a)]
          | none => []) ++
          (match child n (· == .failure) s with
          | some i => [(.obj, i :: a)]
          | none =>
          if n.kind = .component then
            match child n Kind.isField s with
            | some i => [(.field, i :: a)]
            | none => []
          else if n.kind.isField then [(.field, a)]
          else [])) ++
          (if dot then []
          else
            (match child n (· == .component) s with
            | some i => [(.obj, i :: a)]
            | none => []) ++
            (match refNamed T refs a s with
            | some b => [(.obj, b)]
            | none => []))

theorem findSome?_append' {α} (f : α → Option Addr) (l m : List α) :
    (l ++ m).findSome? f = orElse (l.findSome? f) (m.findSome? f) := by
  induction l with
  | nil => simp [orElse]
  | cons x l ih =>
    simp only [List.cons_append, List.findSome?_cons]
    cases f x with
    | none => exact ih
    | some y => rfl

theorem resolve_cons (T : Node) (refs : Refs) (st : St) (a : Addr) (dot : Bool) (s : Str)
    (rest : List Seg) :
    resolve T refs st a ((dot, s) :: rest) =
      (cands T refs st a dot s).findSome? (fun x => resolve T refs x.1 x.2 rest) := by
  have one : ∀ (st : St) (b : Addr), [(st, b)].findSome?
      (fun x : St × Addr => resolve T refs x.1 x.2 rest) = resolve T refs st b rest := by
    intro st b; simp only [List.findSome?_cons, List.findSome?_nil]
    cases resolve T refs st b rest <;> rfl
  have nil : ([] : List (St × Addr)).findSome?
      (fun x : St × Addr => resolve T refs x.1 x.2 rest) = none := rfl
  simp only [resolve, cands]
  split
  · cases parent T a with
    | none => rfl
    | some p => exact (one _ _).symm
  · cases get T a with
    | none => rfl
    | some n =>
      cases st with
      | field =>
        simp only
        split
        · cases child n Kind.isField s with
          | none => rfl
          | some i => exact (one _ _).symm
        · split
          · cases arrayIndex s n.children.length with
            | none => rfl
            | some i => exact (one _ _).symm
          · rfl
      | obj =>
        simp only
        change (match underChild n s with
          | some i => _
          | none => _) = _
        cases underChild n s with
        | some i => exact (one _ _).symm
        | none =>
          simp only [findSome?_append']
          generalize child n (· == .sink) s = o1
          generalize child n (· == .source) s = o2
          generalize child n (· == .entryPoint) s = o3
          generalize child n (· == .operation) s = o4
          generalize child n (· == .property) s = o5
          generalize child n (· == .failure) s = o6
          generalize child n Kind.isField s = o7
          generalize child n (· == .component) s = o8
          generalize refNamed T refs a s = o9
          refine congr (congrArg orElse ?_) ?_
          · cases o1 with
            | some i => simp only [one]
            | none =>
            cases o2 with
            | some i => simp only [one]
            | none =>
            cases o3 with
            | some i => simp only [one]
            | none =>
            simp only [findSome?_append']
            cases o6 with
            | some i => cases o4 <;> cases o5 <;> simp only [one, nil]
            | none =>
            simp only
            by_cases hk : n.kind = .component
            · simp only [hk, if_true]
              cases o7 <;> cases o4 <;> cases o5 <;> simp only [one, nil]
            · simp only [hk, if_false]
              by_cases hf : n.kind.isField = true
              · simp only [hf, if_true]
                cases o4 <;> cases o5 <;> simp only [one, nil]
              · simp only [hf]
                cases o4 <;> cases o5 <;> simp only [one, nil, Bool.false_eq_true, if_false]
          · cases dot with
            | true => rfl
            | false =>
              simp only [Bool.false_eq_true, if_false, findSome?_append']
              cases o8 <;> cases o9 <;> simp only [one, nil]

end Verif.Path
