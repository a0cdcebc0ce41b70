import Verif.Field.RefusedSpec

/-! Lemmas for C144. -/
namespace Verif.Field.Refused
open Verif.Any (Kind Fl Val Any Out ITy)

/-- The result of getting to the fields of `l`, those of `A` being written already. -/
def Ends (n : Net) (v : Val) (A l : List Nat) (r : Res) : Prop :=
  ((∀ j ∈ l, (n j).accepts v = true) → ∃ m, r = .ok m ∧ Written n v (A ++ l) m) ∧
  ((∃ j ∈ l, (n j).accepts v = false) →
    ∃ m, r = .raised m ∧ Written n v (A ++ Before n v l) m)

theorem before_all {n : Net} {v : Val} {l : List Nat} (h : ∀ j ∈ l, (n j).accepts v = true) :
    Before n v l = l := by
  induction l with
  | nil => rfl
  | cons a l ih =>
    unfold Before at *
    rw [List.takeWhile_cons, if_pos (h a (by simp)), ih fun j hj => h j (by simp [hj])]

theorem before_append {n : Net} {v : Val} {l : List Nat} (ls : List Nat)
    (h : ∀ j ∈ l, (n j).accepts v = true) : Before n v (l ++ ls) = l ++ Before n v ls := by
  induction l with
  | nil => rfl
  | cons a l ih =>
    unfold Before at *
    rw [List.cons_append, List.takeWhile_cons, if_pos (h a (by simp)),
      ih fun j hj => h j (by simp [hj])]
    rfl

theorem before_left {n : Net} {v : Val} {l : List Nat} (ls : List Nat)
    (h : ∃ j ∈ l, (n j).accepts v = false) : Before n v (l ++ ls) = Before n v l := by
  induction l with
  | nil => obtain ⟨_, hj, _⟩ := h; cases hj
  | cons a l ih =>
    unfold Before at *
    rw [List.cons_append, List.takeWhile_cons, List.takeWhile_cons]
    cases ha : (n a).accepts v with
    | false => rfl
    | true =>
      simp only [if_true]
      rw [ih]
      obtain ⟨j, hj, hj'⟩ := h
      rcases List.mem_cons.1 hj with rfl | hj
      · rw [ha] at hj'; cases hj'
      · exact ⟨j, hj, hj'⟩

theorem all_or (n : Net) (v : Val) (l : List Nat) :
    (∀ j ∈ l, (n j).accepts v = true) ∨ ∃ j ∈ l, (n j).accepts v = false := by
  rcases Classical.em (∃ j ∈ l, (n j).accepts v = false) with h | h
  · exact Or.inr h
  · refine Or.inl fun j hj => ?_
    cases ha : (n j).accepts v with
    | true => rfl
    | false => exact absurd ⟨j, hj, ha⟩ h

/-- One more field is written. -/
theorem written_set {n m : Net} {v : Val} {A : List Nat} (h : Written n v A m) (i : Nat) :
    Written n v (A ++ [i]) (m.set i { m i with value := v }) := by
  intro j
  obtain ⟨w, hw⟩ := h.cell j
  by_cases hj : j = i
  · subst hj
    exact ⟨fun _ => by simp [Net.set, hw], fun hn => absurd (by simp) hn⟩
  · refine ⟨fun hm => ?_, fun hn => ?_⟩
    · have : j ∈ A := by simpa [hj] using hm
      simpa [Net.set, hj] using (h j).1 this
    · have : j ∉ A := fun hm => hn (by simp [hm])
      simpa [Net.set, hj] using (h j).2 this

/-- The loop over the targets, when the fields of each are dealt with as they should. -/
theorem loop (set : Net → Nat → Any → Res) (n : Net) (v : Val) (i : Nat)
    (hset : ∀ t ∈ (n i).targets, ∀ l, Visits n t l → (∀ j ∈ l, (n j).Fits v) → ∀ A m,
      Written n v A m → Ends n v A l (set m t ⟨(n i).kind, v⟩)) :
    ∀ (ts l : List Nat), VisitsAll n ts l → (∀ t ∈ ts, t ∈ (n i).targets) →
      (∀ j ∈ l, (n j).Fits v) → ∀ A m, Written n v A m → (m i).get = ⟨(n i).kind, v⟩ →
      Ends n v A l (pushLoop set m i ts) := by
  intro ts
  induction ts with
  | nil =>
    intro l hl _ _ A m hm _
    cases hl
    exact ⟨fun _ => ⟨m, rfl, by simpa using hm⟩, fun ⟨_, hj, _⟩ => by cases hj⟩
  | cons t ts ih =>
    intro l hl hsub hfit A m hm hget
    cases hl with
    | @cons _ _ l ls h hs =>
      have E := hset t (hsub t (by simp)) l h (fun j hj => hfit j (by simp [hj])) A m hm
      rw [pushLoop, hget]
      rcases all_or n v l with hal | hex
      · obtain ⟨m1, e1, w1⟩ := E.1 hal
        rw [e1]
        dsimp only
        have hg1 : (m1 i).get = ⟨(n i).kind, v⟩ := by
          by_cases hi : i ∈ A ++ l
          · rw [(w1 i).1 hi]; rfl
          · have hiA : i ∉ A := fun hh => hi (by simp [hh])
            rw [((w1 i).2 hi).trans ((hm i).2 hiA).symm]; exact hget
        have E2 := ih ls hs (fun t ht => hsub t (by simp [ht]))
          (fun j hj => hfit j (by simp [hj])) (A ++ l) m1 w1 hg1
        refine ⟨fun hall => ?_, fun hno => ?_⟩
        · obtain ⟨m2, e2, w2⟩ := E2.1 fun j hj => hall j (by simp [hj])
          exact ⟨m2, e2, by rw [← List.append_assoc]; exact w2⟩
        · obtain ⟨j, hj, hj'⟩ := hno
          have : j ∈ ls := by
            rcases List.mem_append.1 hj with h | h
            · rw [hal j h] at hj'; cases hj'
            · exact h
          obtain ⟨m2, e2, w2⟩ := E2.2 ⟨j, this, hj'⟩
          exact ⟨m2, e2, by rw [before_append ls hal, ← List.append_assoc]; exact w2⟩
      · obtain ⟨m1, e1, w1⟩ := E.2 hex
        rw [e1]
        refine ⟨fun hall => ?_, fun _ => ⟨m1, rfl, by rw [before_left ls hex]; exact w1⟩⟩
        obtain ⟨j, hj, hj'⟩ := hex
        rw [hall j (by simp [hj])] at hj'
        cases hj'

/-- `SetValue(const T &)` of a field, when `SetValue(AnySimple)` of its targets does what it
should. -/
theorem store_ends (set : Net → Nat → Any → Res) (n : Net) (v : Val) (i : Nat)
    (hset : ∀ t ∈ (n i).targets, ∀ l, Visits n t l → (∀ j ∈ l, (n j).Fits v) → ∀ A m,
      Written n v A m → Ends n v A l (set m t ⟨(n i).kind, v⟩))
    (l : List Nat) (hl : Visits n i l) (hfit : ∀ j ∈ l, (n j).Fits v) (A : List Nat) (m : Net)
    (hm : Written n v A m) : Ends n v A l (store set m i v) := by
  obtain ⟨w, hw⟩ := hm.cell i
  have h1 : (m i).held = (n i).held := by rw [hw]; rfl
  have h2 : (m i).accepts v = (n i).accepts v := by rw [hw]; rfl
  have h3 : (m i).targets = (n i).targets := by rw [hw]
  have h4 : (m i).connectable = (n i).connectable := by rw [hw]
  have h5 : (m i).kind = (n i).kind := by rw [hw]
  unfold store
  rw [h1, h2, h3, h4]
  cases hl with
  | held h =>
    rw [if_pos h]
    exact ⟨fun _ => ⟨m, rfl, by simpa using hm⟩, fun ⟨_, hj, _⟩ => by cases hj⟩
  | last h hc =>
    rw [h, hc]
    simp only [Bool.false_eq_true, if_false]
    cases ha : (n i).accepts v with
    | true =>
      refine ⟨fun _ => ⟨_, rfl, written_set hm i⟩, fun ⟨j, hj, hj'⟩ => ?_⟩
      rw [List.mem_singleton] at hj
      rw [hj, ha] at hj'; cases hj'
    | false =>
      refine ⟨fun hall => ?_, fun _ => ⟨m, by simp, ?_⟩⟩
      · have := hall i (by simp); rw [ha] at this; cases this
      · simp only [Before, List.takeWhile_cons, ha]; simpa using hm
  | @push _ l h hc hl =>
    rw [h, hc]
    simp only [Bool.false_eq_true, if_false, if_true]
    cases ha : (n i).accepts v with
    | true =>
      simp only [if_true]
      have E := loop set n v i hset (n i).targets l hl (fun _ h => h)
        (fun j hj => hfit j (by simp [hj])) (A ++ [i]) _ (written_set hm i)
        (by simp [Net.set, Cell.get, h5])
      refine ⟨fun hall => ?_, fun hno => ?_⟩
      · obtain ⟨m2, e2, w2⟩ := E.1 fun j hj => hall j (by simp [hj])
        exact ⟨m2, e2, by simpa using w2⟩
      · obtain ⟨j, hj, hj'⟩ := hno
        have : j ∈ l := by
          rcases List.mem_cons.1 hj with rfl | h
          · rw [ha] at hj'; cases hj'
          · exact h
        obtain ⟨m2, e2, w2⟩ := E.2 ⟨j, this, hj'⟩
        refine ⟨m2, e2, ?_⟩
        have : Before n v (i :: l) = i :: Before n v l := by
          simp [Before, List.takeWhile_cons, ha]
        rw [this]
        simpa using w2
    | false =>
      refine ⟨fun hall => ?_, fun _ => ⟨m, by simp, ?_⟩⟩
      · have := hall i (by simp); rw [ha] at this; cases this
      · simp only [Before, List.takeWhile_cons, ha]; simpa using hm

/-- `SetValue(AnySimple)` with enough stack. -/
theorem set_ends (narrow : Fl → Fl) (n : Net) (v : Val) (rank : Nat → Nat)
    (hrank : ∀ i, ∀ t ∈ (n i).targets, rank t < rank i)
    (hkind : ∀ i, ∀ t ∈ (n i).targets, (n t).kind = (n i).kind) :
    ∀ (f i : Nat), rank i < f → (n i).kind ≠ .None → Any.Ok ⟨(n i).kind, v⟩ →
    ∀ l, Visits n i l → (∀ j ∈ l, (n j).Fits v) → ∀ A m, Written n v A m →
      Ends n v A l (setValue narrow f m i ⟨(n i).kind, v⟩) := by
  intro f
  induction f with
  | zero => intro i h; omega
  | succ f ih =>
    intro i hr hne hok l hl hfit A m hm
    obtain ⟨w, hw⟩ := hm.cell i
    have h1 : (m i).kind = (n i).kind := by rw [hw]
    have h2 : (m i).len = (n i).len := by rw [hw]
    have h3 : (m i).held = (n i).held := by rw [hw]; rfl
    rw [setValue, h1, h2]
    have S := store_ends (setValue narrow f) n v i (fun t ht l' hl' hf' A' m' hm' => by
      have hk := hkind i t ht
      have := ih t (by have := hrank i t ht; omega) (by rw [hk]; exact hne)
        (by rw [hk]; exact hok) l' hl' hf' A' m' hm'
      rw [hk] at this
      exact this) l hl hfit A m hm
    cases hh : (n i).held with
    | true =>
      obtain ⟨x, hx⟩ := coerce_total narrow (n i).kind (n i).len v hne hok
      rw [hx]
      dsimp only
      unfold store at S ⊢
      rw [h3, hh] at S ⊢
      exact S
    | false =>
      have hi : i ∈ l := by
        cases hl with
        | held h => rw [hh] at h; cases h
        | last => simp
        | push => simp
      rw [coerce_same narrow (n i) v (hfit i hi)]
      exact S

theorem visits_held {n : Net} {i : Nat} {l : List Nat} (hl : Visits n i l)
    (h : (n i).held = false) : i ∈ l := by
  cases hl with
  | held h' => rw [h] at h'; cases h'
  | last => simp
  | push => simp

/-- Without cycles there is an order. -/
theorem visits_exists (n : Net) (rank : Nat → Nat)
    (hrank : ∀ i, ∀ t ∈ (n i).targets, rank t < rank i) :
    ∀ (f i : Nat), rank i < f → ∃ l, Visits n i l := by
  intro f
  induction f with
  | zero => intro i h; omega
  | succ f ih =>
    intro i hr
    cases hh : (n i).held with
    | true => exact ⟨_, .held hh⟩
    | false =>
      cases hc : (n i).connectable with
      | false => exact ⟨_, .last hh hc⟩
      | true =>
        have : ∀ ts : List Nat, (∀ t ∈ ts, rank t < f) → ∃ l, VisitsAll n ts l := by
          intro ts
          induction ts with
          | nil => exact fun _ => ⟨_, .nil⟩
          | cons t ts ihs =>
            intro h
            obtain ⟨l, hl⟩ := ih t (h t (by simp))
            obtain ⟨ls, hls⟩ := ihs fun t ht => h t (by simp [ht])
            exact ⟨_, .cons hl hls⟩
        obtain ⟨l, hl⟩ := this (n i).targets fun t ht => by have := hrank i t ht; omega
        exact ⟨_, .push hh hc hl⟩

mutual

theorem visits_reach {n : Net} {i : Nat} {l : List Nat} (h : Visits n i l) :
    ∀ j ∈ l, Reach n i j := by
  intro j hj
  match h with
  | .held _ => cases hj
  | .last h _ => rw [List.mem_singleton] at hj; subst hj; exact .self h
  | .push h hc hl =>
    rcases List.mem_cons.1 hj with rfl | hj
    · exact .self h
    · obtain ⟨t, ht, hr⟩ := visitsAll_reach hl j hj
      exact .step h hc ht hr

theorem visitsAll_reach {n : Net} {ts l : List Nat} (h : VisitsAll n ts l) :
    ∀ j ∈ l, ∃ t ∈ ts, Reach n t j := by
  intro j hj
  match h with
  | .nil => cases hj
  | .cons h hs =>
    rcases List.mem_append.1 hj with hj | hj
    · exact ⟨_, by simp, visits_reach h j hj⟩
    · obtain ⟨t, ht, hr⟩ := visitsAll_reach hs j hj
      exact ⟨t, by simp [ht], hr⟩

end

theorem visitsAll_mem {n : Net} {ts l : List Nat} (h : VisitsAll n ts l) {t : Nat}
    (ht : t ∈ ts) : ∃ l', Visits n t l' ∧ ∀ j ∈ l', j ∈ l := by
  induction ts generalizing l with
  | nil => cases ht
  | cons a ts ih =>
    cases h with
    | cons h hs =>
      rcases List.mem_cons.1 ht with rfl | ht
      · exact ⟨_, h, fun j hj => by simp [hj]⟩
      · obtain ⟨l', h', hm⟩ := ih hs ht
        exact ⟨l', h', fun j hj => by simp [hm j hj]⟩

theorem reach_visits {n : Net} {i j : Nat} (h : Reach n i j) :
    ∀ l, Visits n i l → j ∈ l := by
  induction h with
  | self h => exact fun l hl => visits_held hl h
  | step h hc ht _ ih =>
    intro l hl
    cases hl with
    | held h' => rw [h] at h'; cases h'
    | last _ hc' => rw [hc] at hc'; cases hc'
    | push _ _ hl =>
      obtain ⟨l', hl', hm⟩ := visitsAll_mem hl ht
      exact List.mem_cons_of_mem _ (hm _ (ih l' hl'))

mutual

theorem visits_unique {n : Net} {i : Nat} {l l' : List Nat} (h : Visits n i l)
    (h' : Visits n i l') : l = l' := by
  match h with
  | .held hh =>
    cases h' with
    | held => rfl
    | last hf => rw [hh] at hf; cases hf
    | push hf => rw [hh] at hf; cases hf
  | .last hf hc =>
    cases h' with
    | held hh => rw [hh] at hf; cases hf
    | last => rfl
    | push _ hc' => rw [hc] at hc'; cases hc'
  | .push hf hc hl =>
    cases h' with
    | held hh => rw [hh] at hf; cases hf
    | last _ hc' => rw [hc] at hc'; cases hc'
    | push _ _ hl' => rw [visitsAll_unique hl hl']

theorem visitsAll_unique {n : Net} {ts l l' : List Nat} (h : VisitsAll n ts l)
    (h' : VisitsAll n ts l') : l = l' := by
  match h with
  | .nil => cases h'; rfl
  | .cons h hs =>
    cases h' with
    | cons h2 hs2 => rw [visits_unique h h2, visitsAll_unique hs hs2]

end

end Verif.Field.Refused
