import Verif.Fallible.Model
/-
C64: a fallible model is failed if and only if one of its failures is.
-/
namespace Verif.Fallible

/-! ### Specification -/

/-- What the last operation on failure `i` said, the history being given from the most recent
operation to the oldest; a failure on which nothing was done is not failed. -/
def lastSaid (i : Nat) : List Op → Bool
  | [] => false
  | .fail j :: older => if j = i then true else lastSaid i older
  | .unfail j :: older => if j = i then false else lastSaid i older
  | .restore j b :: older => if j = i then b else lastSaid i older
  | .new _ _ :: older => lastSaid i older

/-- The failure an operation is on. -/
def Op.target : Op → Option Nat
  | .new _ _ => none
  | .fail i => some i
  | .unfail i => some i
  | .restore i _ => some i

/-- Operations are on failures which exist. -/
def Valid : State → List Op → Prop
  | _, [] => True
  | s, o :: ops => (∀ i, o.target = some i → i < s.all.length) ∧ Valid (step s o) ops

/-- The failures of a model: those constructed with it as parent. -/
def IsFailureOf (s : State) (m i : Nat) : Prop := ∃ f, s.all[i]? = some f ∧ f.parent = some m

/-! ### Invariant -/

structure Inv (s : State) : Prop where
  reg : ∀ m i, i ∈ s.models m ↔ IsFailureOf s m i
  nodup : ∀ m, (s.models m).Nodup
  names : ∀ m i j f g, i ∈ s.models m → j ∈ s.models m → s.all[i]? = some f →
    s.all[j]? = some g → f.name = g.name → i = j

theorem inv_init : Inv init := by
  constructor <;> simp [init, IsFailureOf]

theorem setFailed_get (s : State) (i j : Nat) (b : Bool) :
    (setFailed s i b).all[j]? = (s.all[j]?).map (fun f => if i = j then { f with failed := b } else f) := by
  simp only [setFailed, List.getElem?_modify]
  by_cases h : i = j
  · subst h; simp
  · simp [h]

theorem inv_setFailed {s : State} (h : Inv s) (i : Nat) (b : Bool) : Inv (setFailed s i b) := by
  have key : ∀ (j : Nat) (f : Failure), (setFailed s i b).all[j]? = some f →
      ∃ g : Failure, s.all[j]? = some g ∧ g.parent = f.parent ∧ g.name = f.name := by
    intro j f hf
    rw [setFailed_get] at hf
    obtain ⟨g, hg, rfl⟩ := Option.map_eq_some_iff.mp hf
    refine ⟨g, hg, ?_, ?_⟩ <;> split <;> rfl
  refine ⟨?_, h.nodup, ?_⟩
  · intro m j
    have h1 : j ∈ (setFailed s i b).models m ↔ IsFailureOf s m j := h.reg m j
    rw [h1]
    constructor
    · rintro ⟨f, hf, hp⟩
      refine ⟨_, by rw [setFailed_get, hf, Option.map_some], ?_⟩
      split <;> exact hp
    · rintro ⟨f, hf, hp⟩
      obtain ⟨g, hg, e, _⟩ := key j f hf
      exact ⟨g, hg, by rw [e, hp]⟩
  · intro m j k f g hj hk hf hg e
    obtain ⟨f', hf', _, ef⟩ := key j f hf
    obtain ⟨g', hg', _, eg⟩ := key k g hg
    exact h.names m j k f' g' hj hk hf' hg' (by rw [ef, eg, e])

theorem mem_lt {s : State} (h : Inv s) {m i : Nat} (hi : i ∈ s.models m) : i < s.all.length := by
  obtain ⟨f, hf, _⟩ := (h.reg m i).mp hi
  exact (List.getElem?_eq_some_iff.mp hf).1

theorem getElem?_snoc {l : List Failure} {x : Failure} {i : Nat} {f : Failure}
    (h : (l ++ [x])[i]? = some f) : l[i]? = some f ∨ (i = l.length ∧ f = x) := by
  by_cases hi : i < l.length
  · rw [List.getElem?_append_left hi] at h; exact .inl h
  · rw [List.getElem?_append_right (by omega)] at h
    have : i - l.length = 0 := by
      cases hd : i - l.length with
      | zero => rfl
      | succ k => rw [hd] at h; simp at h
    rw [this] at h
    simp at h
    exact .inr ⟨by omega, h.symm⟩

theorem inv_step {s : State} (h : Inv s) (o : Op) : Inv (step s o) := by
  cases o with
  | fail i => exact inv_setFailed h i true
  | unfail i => exact inv_setFailed h i false
  | restore i b => exact inv_setFailed h i b
  | new name parent =>
    cases parent with
    | none =>
      refine ⟨?_, h.nodup, ?_⟩
      · intro m i
        have h1 : i ∈ (step s (.new name none)).models m ↔ IsFailureOf s m i := h.reg m i
        rw [h1]
        constructor
        · rintro ⟨f, hf, hp⟩
          refine ⟨f, ?_, hp⟩
          simp only [step]
          rw [List.getElem?_append_left (List.getElem?_eq_some_iff.mp hf).1]
          exact hf
        · rintro ⟨f, hf, hp⟩
          simp only [step] at hf
          rcases getElem?_snoc hf with hf | ⟨_, rfl⟩
          · exact ⟨f, hf, hp⟩
          · simp at hp
      · intro m i j f g hi hj hf hg e
        have hi' : i ∈ s.models m := hi
        have hj' : j ∈ s.models m := hj
        have h1 := mem_lt h hi'
        have h2 := mem_lt h hj'
        simp only [step] at hf hg
        rw [List.getElem?_append_left h1] at hf
        rw [List.getElem?_append_left h2] at hg
        exact h.names m i j f g hi' hj' hf hg e
    | some p =>
      simp only [step]
      split
      · exact h
      · rename_i hat
        have hnew : ∀ i ∈ s.models p, ∀ f, s.all[i]? = some f → f.name ≠ name := by
          intro i hi f hf e
          have := List.find?_eq_none.mp hat i hi
          simp [hf, e] at this
        refine ⟨?_, ?_, ?_⟩
        · intro m i
          by_cases hm : m = p
          · subst hm
            simp only [if_true, List.mem_append, List.mem_singleton]
            constructor
            · rintro (hi | rfl)
              · obtain ⟨f, hf, hp⟩ := (h.reg m i).mp hi
                refine ⟨f, ?_, hp⟩
                rw [List.getElem?_append_left (List.getElem?_eq_some_iff.mp hf).1]
                exact hf
              · exact ⟨⟨name, some m, false⟩, by simp, rfl⟩
            · rintro ⟨f, hf, hp⟩
              rcases getElem?_snoc hf with hf | ⟨rfl, _⟩
              · exact .inl ((h.reg m i).mpr ⟨f, hf, hp⟩)
              · exact .inr rfl
          · simp only [if_neg hm]
            rw [h.reg m i]
            constructor
            · rintro ⟨f, hf, hp⟩
              refine ⟨f, ?_, hp⟩
              rw [List.getElem?_append_left (List.getElem?_eq_some_iff.mp hf).1]
              exact hf
            · rintro ⟨f, hf, hp⟩
              rcases getElem?_snoc hf with hf | ⟨_, rfl⟩
              · exact ⟨f, hf, hp⟩
              · simp at hp; exact absurd hp.symm hm
        · intro m
          by_cases hm : m = p
          · subst hm
            simp only [if_true]
            rw [List.nodup_append]
            refine ⟨h.nodup m, by simp, ?_⟩
            intro a ha b hb e
            simp at hb
            have := mem_lt h ha
            omega
          · simp only [if_neg hm]; exact h.nodup m
        · intro m i j f g hi hj hf hg e
          by_cases hm : m = p
          · subst hm
            simp only [if_true, List.mem_append, List.mem_singleton] at hi hj
            rcases hi with hi | rfl
            · have h1 := mem_lt h hi
              rw [List.getElem?_append_left h1] at hf
              rcases hj with hj | rfl
              · have h2 := mem_lt h hj
                rw [List.getElem?_append_left h2] at hg
                exact h.names m i j f g hi hj hf hg e
              · simp at hg
                subst hg
                exact absurd e (hnew i hi f hf)
            · simp at hf
              subst hf
              rcases hj with hj | rfl
              · have h2 := mem_lt h hj
                rw [List.getElem?_append_left h2] at hg
                exact absurd e.symm (hnew j hj g hg)
              · rfl
          · simp only [if_neg hm] at hi hj
            have h1 := mem_lt h hi
            have h2 := mem_lt h hj
            rw [List.getElem?_append_left h1] at hf
            rw [List.getElem?_append_left h2] at hg
            exact h.names m i j f g hi hj hf hg e

theorem inv_run (ops : List Op) : ∀ s, Inv s → Inv (run s ops) := by
  induction ops with
  | nil => intro s h; exact h
  | cons o ops ih => intro s h; exact ih _ (inv_step h o)

/-- What a failure says after one more operation. -/
theorem failed_step {s : State} (o : Op) (i : Nat) (hv : ∀ j, o.target = some j → j < s.all.length)
    (old : List Op) (h : failureIsFailed s i = lastSaid i old) :
    failureIsFailed (step s o) i = lastSaid i (o :: old) := by
  have hset : ∀ (j : Nat) (b : Bool), j < s.all.length →
      failureIsFailed (setFailed s j b) i = if j = i then b else failureIsFailed s i := by
    intro j b hj
    unfold failureIsFailed
    rw [setFailed_get]
    by_cases e : j = i
    · subst e
      rw [List.getElem?_eq_getElem hj]
      simp
    · simp only [if_neg e]
      cases s.all[i]? <;> rfl
  have hnew : ∀ (x : Failure), x.failed = false →
      ((s.all ++ [x])[i]?.map Failure.failed).getD false = failureIsFailed s i := by
    intro x hx
    unfold failureIsFailed
    by_cases hi : i < s.all.length
    · rw [List.getElem?_append_left hi]
    · have hn : s.all[i]? = none := List.getElem?_eq_none_iff.mpr (by omega)
      rw [List.getElem?_append_right (by omega), hn]
      cases hd : i - s.all.length with
      | zero => simp [hx]
      | succ k => simp
  cases o with
  | fail j =>
    simp only [step, lastSaid]
    rw [hset j true (hv j rfl), h]
  | unfail j =>
    simp only [step, lastSaid]
    rw [hset j false (hv j rfl), h]
  | restore j b =>
    simp only [step, lastSaid]
    rw [hset j b (hv j rfl), h]
  | new name parent =>
    simp only [lastSaid]
    rw [← h]
    cases parent with
    | none => exact hnew ⟨name, none, false⟩ rfl
    | some m =>
      simp only [step]
      split
      · rfl
      · exact hnew ⟨name, some m, false⟩ rfl

theorem failed_run (ops : List Op) : ∀ (s : State) (old : List Op) (i : Nat),
    Valid s ops → failureIsFailed s i = lastSaid i old →
    failureIsFailed (run s ops) i = lastSaid i (ops.reverse ++ old) := by
  induction ops with
  | nil => intro s old i _ h; exact h
  | cons o ops ih =>
    intro s old i hv h
    have := ih (step s o) (o :: old) i hv.2 (failed_step o i hv.1 old h)
    simpa [run] using this

theorem anyFailed_iff (s : State) (l : List Nat) :
    anyFailed s l = true ↔ ∃ i ∈ l, failureIsFailed s i = true := by
  induction l with
  | nil => simp [anyFailed]
  | cons i l ih =>
    simp only [anyFailed]
    split
    · rename_i h; simp [h]
    · rename_i h; simp [ih, h]

/-! ### The theorems -/

/-- C64: after every history, a model is failed if and only if the last operation on one of the
failures constructed with it as parent was `Fail` (or the restore of a failed state). -/
theorem C64_isFailed (ops : List Op) (hv : Valid init ops) (m : Nat) :
    isFailed (run init ops) m = true ↔
      ∃ i, IsFailureOf (run init ops) m i ∧ lastSaid i ops.reverse = true := by
  have hi := inv_run ops init inv_init
  have hf : ∀ i, failureIsFailed (run init ops) i = lastSaid i ops.reverse := by
    intro i
    have := failed_run ops init [] i hv (by simp [failureIsFailed, init, lastSaid])
    simpa using this
  unfold isFailed
  rw [anyFailed_iff]
  constructor
  · rintro ⟨i, hm, h⟩
    exact ⟨i, (hi.reg m i).mp hm, by rw [← hf]; exact h⟩
  · rintro ⟨i, hm, h⟩
    exact ⟨i, (hi.reg m i).mpr hm, by rw [hf]; exact h⟩

/-- C64: `GetFailure` finds a failure of the model by its name, the only one, or nothing if the
model has none of that name. -/
theorem C64_getFailure (ops : List Op) (m : Nat) (name : String) :
    (∀ i, getFailure (run init ops) m name = some i ↔
      ∃ f, (run init ops).all[i]? = some f ∧ f.parent = some m ∧ f.name = name) := by
  have hi := inv_run ops init inv_init
  generalize run init ops = s at hi
  intro i
  constructor
  · intro h
    have hm := List.mem_of_find?_eq_some h
    have hp := List.find?_some h
    obtain ⟨f, hf, hpar⟩ := (hi.reg m i).mp hm
    refine ⟨f, hf, hpar, ?_⟩
    simpa [hf] using hp
  · rintro ⟨f, hf, hpar, hn⟩
    have hm := (hi.reg m i).mpr ⟨f, hf, hpar⟩
    cases h : getFailure s m name with
    | none =>
      have := List.find?_eq_none.mp h i hm
      simp [hf, hn] at this
    | some j =>
      have hm' := List.mem_of_find?_eq_some h
      have hp := List.find?_some h
      obtain ⟨g, hg, _⟩ := (hi.reg m j).mp hm'
      have hgn : g.name = name := by simpa [hg] using hp
      rw [hi.names m j i g f hm' hm hg hf (by rw [hgn, hn])]

/-- C64: every failure of a model is in its collection, once, and no other. -/
theorem C64_collection (ops : List Op) (m : Nat) :
    ((run init ops).models m).Nodup ∧
    ∀ i, i ∈ (run init ops).models m ↔ IsFailureOf (run init ops) m i := by
  have hi := inv_run ops init inv_init
  exact ⟨hi.nodup m, hi.reg m⟩

/-- Two models with two and one failures; a fourth failure belongs to no model, a fifth one is
refused. -/
def demo : List Op :=
  [.new "a" (some 0), .new "b" (some 0), .new "a" (some 1), .new "c" none, .new "a" (some 0),
    .fail 1, .fail 3, .fail 2, .unfail 2, .fail 0, .restore 0 false]

example : Valid init demo := by
  simp [demo, Valid, Op.target, step, at?, init, setFailed]
example : isFailed (run init demo) 0 = true ∧ isFailed (run init demo) 1 = false := by decide
example : (run init demo).models 0 = [0, 1] ∧ getFailure (run init demo) 0 "b" = some 1 := by
  decide

end Verif.Fallible
