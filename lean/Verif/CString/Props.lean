import Verif.CString.Model

/-! Property C77: `cstring` behaves as a string value. -/
namespace Verif.CString

/-! ### Specification -/

/-- Strings as values: each cstring that exists is a string, or was moved from (`some none`). -/
abbrev Vals := Nat → Option (Option Chars)

def Vals.set (v : Vals) (i : Nat) (o : Option (Option Chars)) : Vals :=
  fun k => if k = i then o else v k

/-- The string an argument is; `none` if the program may not use it: a cstring that was moved
from. -/
def Vals.src (v : Vals) : Src → Option Chars
  | .extern l => some (cut l)
  | .of j => (v j).getD none

/-- The argument is a string of the application or of a cstring that exists. -/
def Vals.known (v : Vals) : Src → Prop
  | .extern _ => True
  | .of j => v j ≠ none

/-- What an operation does to the values; `none` if the program may not do it: use the string
of a cstring that was moved from, or assign to a cstring its own characters. -/
inductive Spec : Vals → Op → Option Vals → Prop
  | makeSized {v i l} (h : v i = none) : Spec v (.makeSized i l) (some (v.set i (some (some (cut l)))))
  | make {v i src l} (h : v i = none) (hs : v.src src = some l) :
      Spec v (.make i src) (some (v.set i (some (some l))))
  | makeBad {v i src} (h : v i = none) (hk : v.known src) (hs : v.src src = none) :
      Spec v (.make i src) none
  | copyMake {v i j l} (h : v i = none) (hj : v j = some (some l)) :
      Spec v (.copyMake i j) (some (v.set i (some (some l))))
  | copyMakeBad {v i j} (h : v i = none) (hj : v j = some none) : Spec v (.copyMake i j) none
  | moveMake {v i j x} (h : v i = none) (hj : v j = some x) :
      Spec v (.moveMake i j) (some ((v.set i (some x)).set j (some none)))
  | copySelf {v i x} (h : v i = some x) : Spec v (.copyAssign i i) (some v)
  | copyAssign {v i j x l} (h : v i = some x) (hj : v j = some (some l)) (hne : i ≠ j) :
      Spec v (.copyAssign i j) (some (v.set i (some (some l))))
  | copyAssignBad {v i j x} (h : v i = some x) (hj : v j = some none) (hne : i ≠ j) :
      Spec v (.copyAssign i j) none
  /-- also for `j = i`: the value is lost -/
  | moveAssign {v i j x y} (h : v i = some x) (hj : v j = some y) :
      Spec v (.moveAssign i j) (some ((v.set i (some y)).set j (some none)))
  | assign {v i src x l} (h : v i = some x) (hne : src ≠ .of i) (hs : v.src src = some l) :
      Spec v (.assign i src) (some (v.set i (some (some l))))
  | assignBad {v i src x} (h : v i = some x) (hne : src ≠ .of i) (hk : v.known src)
      (hs : v.src src = none) : Spec v (.assign i src) none
  | assignSelf {v i x} (h : v i = some x) : Spec v (.assign i (.of i)) none
  | destroy {v i x} (h : v i = some x) : Spec v (.destroy i) (some (v.set i none))
  /-- not a program: constructing what exists, using what does not -/
  | other {v o} (h : match o with
      | .makeSized i _ => v i ≠ none
      | .make i src => v i ≠ none ∨ ¬ v.known src
      | .copyMake i j | .moveMake i j => v i ≠ none ∨ v j = none
      | .copyAssign i j | .moveAssign i j => v i = none ∨ v j = none
      | .assign i src => v i = none ∨ ¬ v.known src
      | .destroy i => v i = none) : Spec v o (some v)

/-- Several operations. -/
inductive Specs : Vals → List Op → Option Vals → Prop
  | nil {v} : Specs v [] (some v)
  | cons {v o os v' r} (h : Spec v o (some v')) (hr : Specs v' os r) : Specs v (o :: os) r
  | bad {v o os} (h : Spec v o none) : Specs v (o :: os) none

/-- The string of a cstring in memory. -/
def St.value (s : St) (i : Nat) : Option (Option Chars) := (s.objs i).map fun p => deref s p

/-- Each allocated block is held by exactly one cstring, and each pointer held is allocated. -/
structure Owned (s : St) : Prop where
  held : ∀ i p, s.objs i = some (some p) → s.heap p ≠ none
  live : ∀ p, s.heap p ≠ none → ∃ i, s.objs i = some (some p)
  unique : ∀ i j p, s.objs i = some (some p) → s.objs j = some (some p) → i = j

/-! ### Proof -/

/-- The memory represents the values. -/
structure Rep (s : St) (v : Vals) : Prop where
  own : Owned s
  fresh : ∀ p, s.next ≤ p → s.heap p = none
  val : ∀ i, s.value i = v i

theorem Rep.init : Rep init (fun _ => none) :=
  ⟨⟨by simp [CString.init], by simp [CString.init], by simp [CString.init]⟩, by simp [CString.init], fun _ => rfl⟩

theorem Rep.none_iff {s : St} {v : Vals} (h : Rep s v) (i : Nat) : s.objs i = none ↔ v i = none := by
  rw [← h.val i]; simp [St.value]

theorem Rep.some_obj {s : St} {v : Vals} (h : Rep s v) {i : Nat} {x : Option Chars}
    (hx : v i = some x) : ∃ p, s.objs i = some p ∧ deref s p = x := by
  have := h.val i
  rw [hx, St.value, Option.map_eq_some_iff] at this
  exact this

theorem deref_null {s : St} {v : Vals} (h : Rep s v) {i : Nat} {p : Option Nat}
    (hp : s.objs i = some p) : deref s p = none ↔ p = none := by
  cases p with
  | none => simp [deref]
  | some p =>
    have := h.own.held i p hp
    simp [deref, this]

theorem cut_cut (l : Chars) : cut (cut l) = cut l := by
  induction l with
  | nil => rfl
  | cons a l ih =>
    simp only [cut, List.takeWhile_cons] at *
    split
    · rename_i h; simp only [List.takeWhile_cons, h, if_true, ih]
    · rfl

/-- A new block in an object without one. -/
theorem Rep.new {s : St} {v : Vals} (h : Rep s v) {i : Nat} (l : Chars)
    (hi : ∀ p, s.objs i ≠ some (some p)) :
    Rep ((copy s l).1.setObj i (some (some (copy s l).2))) (v.set i (some (some (cut l)))) := by
  have hlt : ∀ j p, s.objs j = some (some p) → p ≠ s.next := by
    rintro j p hp rfl
    exact h.own.held j _ hp (h.fresh _ (Nat.le_refl _))
  refine ⟨⟨?_, ?_, ?_⟩, ?_, ?_⟩
  · intro j p hj
    simp only [copy, St.setObj] at hj ⊢
    split at hj
    · cases hj; simp
    · rw [if_neg (hlt j p hj)]; exact h.own.held j p hj
  · intro p hp
    simp only [copy, St.setObj] at hp ⊢
    by_cases hpn : p = s.next
    · subst hpn; exact ⟨i, by simp⟩
    · rw [if_neg hpn] at hp
      obtain ⟨j, hj⟩ := h.own.live p hp
      refine ⟨j, ?_⟩
      have : j ≠ i := by rintro rfl; exact hi p hj
      rw [if_neg this]; exact hj
  · intro j k p hj hk
    simp only [copy, St.setObj] at hj hk
    split at hj <;> split at hk
    · rename_i a b; rw [a, b]
    · cases hj; exact absurd rfl (hlt k _ hk)
    · cases hk; exact absurd rfl (hlt j _ hj)
    · exact h.own.unique j k p hj hk
  · intro p hp
    simp only [copy, St.setObj] at hp ⊢
    rw [if_neg (by omega)]
    exact h.fresh p (by omega)
  · intro j
    by_cases hj : j = i
    · subst hj; simp [St.value, copy, St.setObj, Vals.set, deref]
    · simp only [Vals.set, if_neg hj]
      rw [← h.val j]
      simp only [St.value, copy, St.setObj, if_neg hj]
      cases ho : s.objs j with
      | none => rfl
      | some p =>
        cases p with
        | none => rfl
        | some p => simp only [Option.map_some, deref, if_neg (hlt j p ho)]

/-- Delete the block of an object, if any, and make it null. -/
theorem Rep.free {s : St} {v : Vals} (h : Rep s v) {i : Nat} {p : Option Nat}
    (hp : s.objs i = some p) : ∃ s1, delete s p = some s1 ∧ s1.objs = s.objs ∧
      s1.next = s.next ∧ (∀ j q, j ≠ i → s.objs j = some q → deref s1 q = deref s q) ∧
      Rep (s1.setObj i (some none)) (v.set i (some none)) ∧
      (∀ q, p = some q → deref s1 p = none) := by
  cases p with
  | none =>
    refine ⟨s, rfl, rfl, rfl, fun _ _ _ _ => rfl, ?_, by simp⟩
    have : s.setObj i (some none) = s := by
      cases s; simp only [St.setObj, St.mk.injEq, and_true]
      funext k; split
      · rename_i e; subst e; exact hp.symm
      · rfl
    rw [this]
    refine ⟨h.own, h.fresh, fun j => ?_⟩
    simp only [Vals.set]
    split
    · rename_i e; subst e; simp [St.value, hp, deref]
    · exact h.val j
  | some p =>
    have hh := h.own.held i p hp
    have hd : delete s (some p) = some { s with heap := fun q => if q = p then none else s.heap q } := by
      simp only [delete]
      cases hc : s.heap p with
      | none => exact absurd hc hh
      | some _ => rfl
    have hne : ∀ j q, j ≠ i → s.objs j = some (some q) → q ≠ p := by
      rintro j q hj hq rfl
      exact hj (h.own.unique j i _ hq hp)
    have hder : ∀ j q, j ≠ i → s.objs j = some q →
        deref { s with heap := fun q => if q = p then none else s.heap q } q = deref s q := by
      intro j q hj hq
      cases q with
      | none => rfl
      | some q => simp only [deref, if_neg (hne j q hj hq)]
    refine ⟨_, hd, rfl, rfl, hder, ⟨⟨?_, ?_, ?_⟩, ?_, ?_⟩, by intro q hq; cases hq; simp [deref]⟩
    · intro j q hj
      simp only [St.setObj] at hj ⊢
      split at hj
      · cases hj
      · rename_i hji
        rw [if_neg (hne j q hji hj)]; exact h.own.held j q hj
    · intro q hq
      simp only [St.setObj] at hq ⊢
      by_cases hqp : q = p
      · simp [hqp] at hq
      · rw [if_neg hqp] at hq
        obtain ⟨j, hj⟩ := h.own.live q hq
        refine ⟨j, ?_⟩
        have : j ≠ i := by rintro rfl; rw [hp] at hj; cases hj; exact hqp rfl
        rw [if_neg this]; exact hj
    · intro j k q hj hk
      simp only [St.setObj] at hj hk
      split at hj <;> split at hk
      · cases hj
      · cases hj
      · cases hk
      · exact h.own.unique j k q hj hk
    · intro q hq
      simp only [St.setObj] at hq ⊢
      split
      · rfl
      · exact h.fresh q hq
    · intro j
      by_cases hj : j = i
      · subst hj; simp [St.value, St.setObj, Vals.set, deref]
      · simp only [Vals.set, if_neg hj]
        rw [← h.val j]
        simp only [St.value, St.setObj, if_neg hj]
        cases ho : s.objs j with
        | none => rfl
        | some q => exact congrArg some (hder j q hj ho)

theorem setObj_setObj (s : St) (i : Nat) (a b : Option (Option Nat)) :
    (s.setObj i a).setObj i b = s.setObj i b := by
  simp only [St.setObj, St.mk.injEq, and_true]
  funext k; split <;> rfl

theorem set_set (v : Vals) (i : Nat) (a b : Option (Option Chars)) :
    (v.set i a).set i b = v.set i b := by
  funext k; simp only [Vals.set]; split <;> rfl

theorem copy_setObj (s : St) (i : Nat) (a : Option (Option Nat)) (l : Chars) :
    copy (s.setObj i a) l = ((copy s l).1.setObj i a, (copy s l).2) := rfl

/-- `replace` with readable characters that are not those deleted. -/
theorem Rep.replace {s : St} {v : Vals} (h : Rep s v) {i : Nat} {p : Option Nat}
    (hp : s.objs i = some p) {a : Arg} {l : Chars}
    (ha : ∀ s1, delete s p = some s1 → readArg s1 a = some l) (hl : cut l = l) :
    ∃ s', CString.replace s i p a = some s' ∧ Rep s' (v.set i (some (some l))) := by
  obtain ⟨s1, hd, _, _, _, hr, _⟩ := h.free hp
  refine ⟨(copy s1 l).1.setObj i (some (some (copy s1 l).2)), ?_, ?_⟩
  · simp only [CString.replace, hd, Option.bind_some, ha s1 hd, Option.map_some]
  · have := hr.new (i := i) l (by simp [St.setObj])
    rw [copy_setObj, setObj_setObj, set_set, hl] at this
    exact this

theorem Rep.construct {s : St} {v : Vals} (h : Rep s v) {i : Nat} (hi : s.objs i = none) {a : Arg}
    {l : Chars} (ha : readArg s a = some l) (hl : cut l = l) :
    ∃ s', CString.construct s i a = some s' ∧ Rep s' (v.set i (some (some l))) := by
  refine ⟨(copy s l).1.setObj i (some (some (copy s l).2)), ?_, ?_⟩
  · simp only [CString.construct, ha, Option.map_some]
  · have := h.new (i := i) l (by simp [hi])
    rw [hl] at this
    exact this

theorem deref_cut {s : St} {p : Option Nat} {l : Chars} (h : deref s p = some l) : cut l = l := by
  cases p with
  | none => cases h
  | some p =>
    simp only [deref, Option.map_eq_some_iff] at h
    obtain ⟨a, _, rfl⟩ := h
    exact cut_cut a

/-- Swap of ownership: `i` has no block and gets that of `j`. -/
theorem Rep.take {s : St} {v : Vals} (h : Rep s v) {i j : Nat} {q : Option Nat}
    (hi : ∀ p, s.objs i ≠ some (some p)) (hne : i ≠ j) {x : Option Chars}
    (hj : s.objs j = some q) (hx : v j = some x) :
    Rep ((s.setObj i (some q)).setObj j (some none)) ((v.set i (some x)).set j (some none)) := by
  have hq : deref s q = x := by
    obtain ⟨q', hq', e⟩ := h.some_obj hx
    rw [hj] at hq'; cases hq'; exact e
  refine ⟨⟨?_, ?_, ?_⟩, h.fresh, ?_⟩
  · intro k p hk
    simp only [St.setObj] at hk ⊢
    split at hk
    · cases hk
    · split at hk
      · cases hk; exact h.own.held j p hj
      · exact h.own.held k p hk
  · intro p hp
    obtain ⟨k, hk⟩ := h.own.live p hp
    by_cases hkj : k = j
    · subst hkj
      rw [hj] at hk
      cases hk
      exact ⟨i, by simp [St.setObj, hne]⟩
    · have : k ≠ i := by rintro rfl; exact hi p hk
      exact ⟨k, by simp [St.setObj, hkj, this, hk]⟩
  · intro k m p hk hm
    simp only [St.setObj] at hk hm
    split at hk
    · cases hk
    · split at hm
      · cases hm
      · split at hk <;> split at hm
        · rename_i a b; rw [a, b]
        · cases hk
          rename_i hmj _ _
          exact absurd (h.own.unique m j p hm hj) hmj
        · cases hm
          rename_i hkj _ _ _
          exact absurd (h.own.unique k j p hk hj) hkj
        · exact h.own.unique k m p hk hm
  · intro k
    simp only [St.value, St.setObj, Vals.set]
    split
    · rfl
    · split
      · simp only [Option.map_some]
        rw [← hq]; rfl
      · exact h.val k

/-- One operation agrees with the specification. -/
theorem Rep.step {s : St} {v : Vals} (h : Rep s v) {o : Op} {r : Option Vals} (hs : Spec v o r) :
    match r with
    | some v' => ∃ s', CString.step s o = some s' ∧ Rep s' v'
    | none => CString.step s o = none := by
  cases hs with
  | @makeSized i l hi =>
    have ho := (h.none_iff i).2 hi
    refine ⟨_, by simp only [CString.step, ho], h.new l (by simp [ho])⟩
  | @make i src l hi hsrc =>
    have ho := (h.none_iff i).2 hi
    cases src with
    | extern l0 =>
      simp only [Vals.src, Option.some.injEq] at hsrc
      subst hsrc
      obtain ⟨s', h1, h2⟩ := h.construct ho (a := .chars l0) rfl (cut_cut l0)
      exact ⟨s', by simp only [CString.step, ho, St.arg, h1], h2⟩
    | of j =>
      simp only [Vals.src] at hsrc
      cases hvj : v j with
      | none => rw [hvj] at hsrc; cases hsrc
      | some x =>
        rw [hvj] at hsrc
        simp only [Option.getD_some] at hsrc
        subst hsrc
        obtain ⟨p, hp, hd⟩ := h.some_obj hvj
        obtain ⟨s', h1, h2⟩ := h.construct ho (a := .ptr p) hd (deref_cut hd)
        exact ⟨s', by simp only [CString.step, ho, St.arg, hp, Option.map_some, h1], h2⟩
  | @makeBad i src hi hk hsrc =>
    have ho := (h.none_iff i).2 hi
    cases src with
    | extern l0 => simp [Vals.src] at hsrc
    | of j =>
      simp only [Vals.src] at hsrc
      simp only [Vals.known] at hk
      cases hvj : v j with
      | none => exact absurd hvj hk
      | some x =>
        rw [hvj] at hsrc
        simp only [Option.getD_some] at hsrc
        subst hsrc
        obtain ⟨p, hp, hd⟩ := h.some_obj hvj
        simp only [CString.step, ho, St.arg, hp, Option.map_some, CString.construct, readArg, hd,
          Option.map_none]
  | @copyMake i j l hi hj =>
    have ho := (h.none_iff i).2 hi
    obtain ⟨p, hp, hd⟩ := h.some_obj hj
    obtain ⟨s', h1, h2⟩ := h.construct ho (a := .ptr p) hd (deref_cut hd)
    exact ⟨s', by simp only [CString.step, ho, hp, h1], h2⟩
  | @copyMakeBad i j hi hj =>
    have ho := (h.none_iff i).2 hi
    obtain ⟨p, hp, hd⟩ := h.some_obj hj
    simp only [CString.step, ho, hp, CString.construct, readArg, hd, Option.map_none]
  | @moveMake i j x hi hj =>
    have ho := (h.none_iff i).2 hi
    obtain ⟨p, hp, hd⟩ := h.some_obj hj
    have hne : i ≠ j := by rintro rfl; rw [hi] at hj; cases hj
    exact ⟨_, by simp only [CString.step, ho, hp], h.take (by simp [ho]) hne hp hj⟩
  | @copySelf i x hi =>
    obtain ⟨p, hp, _⟩ := h.some_obj hi
    exact ⟨s, by simp only [CString.step, hp, if_true], h⟩
  | @copyAssign i j x l hi hj hne =>
    obtain ⟨p, hp, _⟩ := h.some_obj hi
    obtain ⟨q, hq, hd⟩ := h.some_obj hj
    obtain ⟨s1, hd1, _, _, hder, _, _⟩ := h.free hp
    obtain ⟨s', h1, h2⟩ := h.replace hp (a := .ptr q) (l := l) (fun s2 hs2 => by
      rw [hd1] at hs2; cases hs2
      exact (hder j q (Ne.symm hne) hq).trans hd) (deref_cut hd)
    exact ⟨s', by simp only [CString.step, hp, hq, if_neg hne, h1], h2⟩
  | @copyAssignBad i j x hi hj hne =>
    obtain ⟨p, hp, _⟩ := h.some_obj hi
    obtain ⟨q, hq, hd⟩ := h.some_obj hj
    obtain ⟨s1, hd1, _, _, hder, _, _⟩ := h.free hp
    have : readArg s1 (.ptr q) = none := (hder j q (Ne.symm hne) hq).trans hd
    simp only [CString.step, hp, hq, if_neg hne, CString.replace, hd1, Option.bind_some, this,
      Option.map_none]
  | @moveAssign i j x y hi hj =>
    obtain ⟨p, hp, _⟩ := h.some_obj hi
    obtain ⟨q, hq, hd⟩ := h.some_obj hj
    obtain ⟨s1, hd1, hobj, hnext, hder, hr, _⟩ := h.free hp
    refine ⟨(s1.setObj i (some q)).setObj j (some none), ?_, ?_⟩
    · simp only [CString.step, hp, hq, hd1, Option.map_some]
    · by_cases hne : i = j
      · subst hne
        rw [setObj_setObj, set_set]
        exact hr
      · have hj' : (s1.setObj i (some none)).objs j = some q := by
          simp only [St.setObj, if_neg (Ne.symm hne), hobj, hq]
        have := hr.take (i := i) (j := j) (q := q) (x := y) (by simp [St.setObj]) hne hj'
          (by simp only [Vals.set, if_neg (Ne.symm hne), hj])
        rw [setObj_setObj, set_set] at this
        exact this
  | @assign i src x l hi hne hsrc =>
    obtain ⟨p, hp, _⟩ := h.some_obj hi
    obtain ⟨s1, hd1, _, _, hder, _, _⟩ := h.free hp
    cases src with
    | extern l0 =>
      simp only [Vals.src, Option.some.injEq] at hsrc
      subst hsrc
      obtain ⟨s', h1, h2⟩ := h.replace hp (a := .chars l0) (fun _ _ => rfl) (cut_cut l0)
      exact ⟨s', by simp only [CString.step, hp, St.arg, h1], h2⟩
    | of j =>
      have hji : j ≠ i := by rintro rfl; exact hne rfl
      simp only [Vals.src] at hsrc
      cases hvj : v j with
      | none => rw [hvj] at hsrc; cases hsrc
      | some y =>
        rw [hvj] at hsrc
        simp only [Option.getD_some] at hsrc
        subst hsrc
        obtain ⟨q, hq, hd⟩ := h.some_obj hvj
        obtain ⟨s', h1, h2⟩ := h.replace hp (a := .ptr q) (l := l) (fun s2 hs2 => by
          rw [hd1] at hs2; cases hs2
          exact (hder j q hji hq).trans hd) (deref_cut hd)
        exact ⟨s', by simp only [CString.step, hp, St.arg, hq, Option.map_some, h1], h2⟩
  | @assignBad i src x hi hne hk hsrc =>
    obtain ⟨p, hp, _⟩ := h.some_obj hi
    obtain ⟨s1, hd1, _, _, hder, _, _⟩ := h.free hp
    cases src with
    | extern l0 => simp [Vals.src] at hsrc
    | of j =>
      have hji : j ≠ i := by rintro rfl; exact hne rfl
      simp only [Vals.src] at hsrc
      simp only [Vals.known] at hk
      cases hvj : v j with
      | none => exact absurd hvj hk
      | some y =>
        rw [hvj] at hsrc
        simp only [Option.getD_some] at hsrc
        subst hsrc
        obtain ⟨q, hq, hd⟩ := h.some_obj hvj
        have : readArg s1 (.ptr q) = none := (hder j q hji hq).trans hd
        simp only [CString.step, hp, St.arg, hq, Option.map_some, CString.replace, hd1,
          Option.bind_some, this, Option.map_none]
  | @assignSelf i x hi =>
    obtain ⟨p, hp, hd⟩ := h.some_obj hi
    obtain ⟨s1, hd1, _, _, _, _, hnull⟩ := h.free hp
    have : readArg s1 (.ptr p) = none := by
      cases p with
      | none => rfl
      | some p => exact hnull p rfl
    simp only [CString.step, hp, St.arg, Option.map_some, CString.replace, hd1, Option.bind_some,
      this, Option.map_none]
  | @destroy i x hi =>
    obtain ⟨p, hp, _⟩ := h.some_obj hi
    obtain ⟨s1, hd1, hobj, hnext, hder, hr, _⟩ := h.free hp
    refine ⟨s1.setObj i none, by simp only [CString.step, hp, hd1, Option.map_some], ?_⟩
    refine ⟨⟨?_, ?_, ?_⟩, hr.fresh, ?_⟩
    · intro j q hj
      have : j ≠ i := by rintro rfl; simp [St.setObj] at hj
      refine hr.own.held j q ?_
      simp only [St.setObj, if_neg this] at hj ⊢
      exact hj
    · intro q hq
      obtain ⟨j, hj⟩ := hr.own.live q hq
      have : j ≠ i := by rintro rfl; simp [St.setObj] at hj
      refine ⟨j, ?_⟩
      simp only [St.setObj, if_neg this] at hj ⊢
      exact hj
    · intro j k q hj hk
      have h1 : j ≠ i := by rintro rfl; simp [St.setObj] at hj
      have h2 : k ≠ i := by rintro rfl; simp [St.setObj] at hk
      refine hr.own.unique j k q ?_ ?_
      · simp only [St.setObj, if_neg h1] at hj ⊢; exact hj
      · simp only [St.setObj, if_neg h2] at hk ⊢; exact hk
    · intro j
      have := hr.val j
      by_cases hj : j = i
      · subst hj; simp [St.value, St.setObj, Vals.set]
      · simp only [St.value, St.setObj, Vals.set, if_neg hj] at this ⊢
        exact this
  | other ho =>
    refine ⟨s, ?_, h⟩
    have harg : ∀ src, ¬ v.known src → s.arg src = none := by
      intro src hk
      cases src with
      | extern l => exact absurd trivial hk
      | of j =>
        simp only [Vals.known, ne_eq, Decidable.not_not] at hk
        simp only [St.arg, (h.none_iff j).2 hk, Option.map_none]
    have hex : ∀ i, v i ≠ none → ∃ p, s.objs i = some p := by
      intro i hi
      cases hc : s.objs i with
      | none => exact absurd ((h.none_iff i).1 hc) hi
      | some p => exact ⟨p, rfl⟩
    cases o with
    | makeSized i l => obtain ⟨p, hp⟩ := hex i ho; simp only [CString.step, hp]
    | make i src =>
      rcases ho with ho | ho
      · obtain ⟨p, hp⟩ := hex i ho
        cases hs : s.arg src <;> simp only [CString.step, hp]
      · cases hs : s.objs i <;> simp only [CString.step, hs, harg src ho]
    | copyMake i j =>
      rcases ho with ho | ho
      · obtain ⟨p, hp⟩ := hex i ho
        cases hs : s.objs j <;> simp only [CString.step, hp]
      · cases hs : s.objs i <;> simp only [CString.step, hs, (h.none_iff j).2 ho]
    | moveMake i j =>
      rcases ho with ho | ho
      · obtain ⟨p, hp⟩ := hex i ho
        cases hs : s.objs j <;> simp only [CString.step, hp]
      · cases hs : s.objs i <;> simp only [CString.step, hs, (h.none_iff j).2 ho]
    | copyAssign i j =>
      rcases ho with ho | ho
      · cases hs : s.objs j <;> simp only [CString.step, (h.none_iff i).2 ho]
      · cases hs : s.objs i <;> simp only [CString.step, hs, (h.none_iff j).2 ho]
    | moveAssign i j =>
      rcases ho with ho | ho
      · cases hs : s.objs j <;> simp only [CString.step, (h.none_iff i).2 ho]
      · cases hs : s.objs i <;> simp only [CString.step, hs, (h.none_iff j).2 ho]
    | assign i src =>
      rcases ho with ho | ho
      · cases hs : s.arg src <;> simp only [CString.step, (h.none_iff i).2 ho]
      · cases hs : s.objs i <;> simp only [CString.step, hs, harg src ho]
    | destroy i => simp only [CString.step, (h.none_iff i).2 ho]

theorem Rep.run {os : List Op} : ∀ {s : St} {v : Vals}, Rep s v → ∀ {r : Option Vals},
    Specs v os r → match r with
    | some v' => ∃ s', CString.run s os = some s' ∧ Rep s' v'
    | none => CString.run s os = none := by
  induction os with
  | nil => intro s v h r hs; cases hs; exact ⟨s, rfl, h⟩
  | cons o os ih =>
    intro s v h r hs
    cases hs with
    | cons h1 h2 =>
      obtain ⟨s', e, hr⟩ := h.step h1
      have := ih hr h2
      simp only [CString.run, e, Option.bind_some]
      exact this
    | bad h1 =>
      have := h.step h1
      simp only at this
      simp only [CString.run, this, Option.bind_none]

/-- The specification says something of every operation. -/
theorem spec_total (v : Vals) (o : Op) : ∃ r, Spec v o r := by
  have hsrc : ∀ src, ¬ v.known src ∨ (v.known src ∧ v.src src = none) ∨ ∃ l, v.src src = some l := by
    intro src
    by_cases hk : v.known src
    · cases hl : v.src src with
      | none => exact Or.inr (Or.inl ⟨hk, rfl⟩)
      | some l => exact Or.inr (Or.inr ⟨l, rfl⟩)
    · exact Or.inl hk
  cases o with
  | makeSized i l =>
    by_cases h : v i = none
    · exact ⟨_, .makeSized h⟩
    · exact ⟨_, .other h⟩
  | make i src =>
    by_cases h : v i = none
    · rcases hsrc src with hk | ⟨hk, hs⟩ | ⟨l, hl⟩
      · exact ⟨_, .other (Or.inr hk)⟩
      · exact ⟨_, .makeBad h hk hs⟩
      · exact ⟨_, .make h hl⟩
    · exact ⟨_, .other (Or.inl h)⟩
  | copyMake i j =>
    by_cases h : v i = none
    · cases hj : v j with
      | none => exact ⟨_, .other (Or.inr hj)⟩
      | some x =>
        cases x with
        | none => exact ⟨_, .copyMakeBad h hj⟩
        | some l => exact ⟨_, .copyMake h hj⟩
    · exact ⟨_, .other (Or.inl h)⟩
  | moveMake i j =>
    by_cases h : v i = none
    · cases hj : v j with
      | none => exact ⟨_, .other (Or.inr hj)⟩
      | some x => exact ⟨_, .moveMake h hj⟩
    · exact ⟨_, .other (Or.inl h)⟩
  | copyAssign i j =>
    cases h : v i with
    | none => exact ⟨_, .other (Or.inl h)⟩
    | some x =>
      cases hj : v j with
      | none => exact ⟨_, .other (Or.inr hj)⟩
      | some y =>
        by_cases hne : i = j
        · subst hne; exact ⟨_, .copySelf h⟩
        · cases y with
          | none => exact ⟨_, .copyAssignBad h hj hne⟩
          | some l => exact ⟨_, .copyAssign h hj hne⟩
  | moveAssign i j =>
    cases h : v i with
    | none => exact ⟨_, .other (Or.inl h)⟩
    | some x =>
      cases hj : v j with
      | none => exact ⟨_, .other (Or.inr hj)⟩
      | some y => exact ⟨_, .moveAssign h hj⟩
  | assign i src =>
    cases h : v i with
    | none => exact ⟨_, .other (Or.inl h)⟩
    | some x =>
      by_cases hne : src = .of i
      · subst hne; exact ⟨_, .assignSelf h⟩
      · rcases hsrc src with hk | ⟨hk, hs⟩ | ⟨l, hl⟩
        · exact ⟨_, .other (Or.inr hk)⟩
        · exact ⟨_, .assignBad h hne hk hs⟩
        · exact ⟨_, .assign h hne hl⟩
  | destroy i =>
    cases h : v i with
    | none => exact ⟨_, .other h⟩
    | some x => exact ⟨_, .destroy h⟩

theorem specs_total (os : List Op) : ∀ v, ∃ r, Specs v os r := by
  induction os with
  | nil => exact fun v => ⟨_, .nil⟩
  | cons o os ih =>
    intro v
    obtain ⟨r, hr⟩ := spec_total v o
    cases r with
    | none => exact ⟨_, .bad hr⟩
    | some v' => obtain ⟨r, h⟩ := ih v'; exact ⟨r, .cons hr h⟩

/-! ### C77 -/

/-- C77. A program that never uses the string of a cstring that was moved from and never
assigns a cstring its own characters has no undefined behaviour, every cstring has the
string the operations say, and the memory allocated is exactly what the cstrings that exist
hold, each block held once. (Missing: the two uses excluded are undefined behaviour.) -/
theorem C77_partial (os : List Op) (v : Vals) (h : Specs (fun _ => none) os (some v)) :
    ∃ s, run init os = some s ∧ Owned s ∧ ∀ i, s.value i = v i := by
  obtain ⟨s, h1, h2⟩ := Rep.init.run h
  exact ⟨s, h1, h2.own, h2.val⟩

/-- C77. When all the cstrings have been destroyed nothing is allocated any more. -/
theorem C77_no_leak (os : List Op) (s : St) (h : run init os = some s)
    (hd : ∀ i, s.objs i = none) (p : Nat) : s.heap p = none := by
  obtain ⟨r, hr⟩ := specs_total os (fun _ => none)
  have := Rep.init.run hr
  cases r with
  | none => simp only at this; rw [this] at h; cases h
  | some v =>
    obtain ⟨s', e, hs⟩ := this
    rw [e] at h
    cases h
    cases hp : s.heap p with
    | none => rfl
    | some l =>
      obtain ⟨i, hi⟩ := hs.own.live p (by simp [hp])
      rw [hd i] at hi
      cases hi

/-- C77 is false without the two conditions: any program that violates one of them has undefined
behaviour. -/
theorem C77_fails (os : List Op) (h : Specs (fun _ => none) os none) : run init os = none :=
  Rep.init.run h

/-! ### The hypotheses are met -/

example : run init [.make 0 (.extern [65, 66]), .assign 0 (.of 0)] = none := by rfl
example : run init [.make 0 (.extern [65]), .moveMake 1 0, .copyMake 2 0] = none := by rfl
example : Specs (fun _ => none) [.make 0 (.extern [65, 66]), .assign 0 (.of 0)] none :=
  .cons (.make rfl rfl) (.bad (.assignSelf rfl))

/-- Build, copy, move, assign, destroy. -/
def demo : List Op :=
  [.makeSized 0 [65, 0, 66], .copyMake 1 0, .moveMake 2 0, .copyAssign 0 1, .assign 1 (.extern [67]),
   .moveAssign 0 1, .destroy 2]

example : ∃ s, run init demo = some s ∧ s.value 0 = some (some [67]) ∧ s.value 1 = some none ∧
    s.value 2 = none := ⟨_, rfl, rfl, rfl, rfl⟩
example : ∃ v, Specs (fun _ => none) demo (some v) := by
  refine ⟨_, .cons (.makeSized rfl) (.cons (.copyMake rfl rfl) (.cons (.moveMake rfl rfl)
    (.cons (.copyAssign rfl rfl (by decide)) (.cons (.assign rfl (by simp) rfl)
    (.cons (.moveAssign rfl rfl) (.cons (.destroy rfl) .nil))))))⟩

end Verif.CString
