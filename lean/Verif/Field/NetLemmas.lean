import Verif.Field.Net

/-! Lemmas on simple fields. -/
namespace Verif.Field
open Verif.Any (Kind Fl Val Any Out ITy getInt getBool getChar getString getF32 getF64)

/-! ### What a write can change -/

/-- Only values differ, and a value differs only where the field is not held and accepts it. -/
def Wrote (n n' : Net) : Prop :=
  ∀ j, ∃ v, n' j = { n j with value := v } ∧
    (v = (n j).value ∨ ((n j).held = false ∧ (n j).accepts v = true))

theorem Wrote.refl (n : Net) : Wrote n n := fun j => ⟨(n j).value, rfl, Or.inl rfl⟩

theorem Wrote.trans {a b c : Net} (h1 : Wrote a b) (h2 : Wrote b c) : Wrote a c := by
  intro j
  obtain ⟨v, hv, hv'⟩ := h1 j
  obtain ⟨w, hw, hw'⟩ := h2 j
  rw [hv] at hw hw'
  refine ⟨w, hw, ?_⟩
  rcases hw' with rfl | ⟨h, h'⟩
  · exact hv'
  · exact Or.inr ⟨h, h'⟩

theorem Wrote.set {n : Net} {i : Nat} {v : Val} (h : (n i).held = false)
    (ha : (n i).accepts v = true) : Wrote n (n.set i { n i with value := v }) := by
  intro j
  by_cases hj : j = i
  · subst hj; exact ⟨v, by simp [Net.set], Or.inr ⟨h, ha⟩⟩
  · exact ⟨(n j).value, by simp [Net.set, hj], Or.inl rfl⟩

/-- The state a call leaves, if it returns or raises. -/
def Res.leaves : Res → Net → Prop
  | .ok n, m | .raised n, m => n = m
  | _, _ => False

theorem pushLoop_wrote {set : Net → Nat → Any → Res}
    (hs : ∀ n i a m, (set n i a).leaves m → Wrote n m) (i : Nat) (ts : List Nat) :
    ∀ n m, (pushLoop set n i ts).leaves m → Wrote n m := by
  induction ts with
  | nil => rintro n m rfl; exact .refl _
  | cons t ts ih =>
    intro n m h
    simp only [pushLoop] at h
    have := hs n t (n i).get
    split at h
    · rename_i n' he
      rw [he] at this
      exact (this n' rfl).trans (ih n' m h)
    · exact this m h

theorem store_wrote {set : Net → Nat → Any → Res}
    (hs : ∀ n i a m, (set n i a).leaves m → Wrote n m) (n : Net) (i : Nat) (v : Val) (m : Net)
    (h : (store set n i v).leaves m) : Wrote n m := by
  unfold store at h
  split at h
  · cases h; exact .refl _
  · rename_i hh
    simp only [Bool.not_eq_true] at hh
    split at h
    · rename_i ha
      simp only at h
      split at h
      · exact (Wrote.set hh ha).trans (pushLoop_wrote hs _ _ _ _ h)
      · cases h; exact .set hh ha
    · cases h; exact .refl _

theorem setValue_wrote (narrow : Fl → Fl) (f : Nat) : ∀ n i a m,
    (setValue narrow f n i a).leaves m → Wrote n m := by
  induction f with
  | zero => intro n i a m h; exact h.elim
  | succ f ih =>
    intro n i a m h
    simp only [setValue] at h
    split at h
    · exact store_wrote ih _ _ _ _ h
    · cases h; exact .refl _
    · exact h.elim

/-- The parts of a field that never change. -/
structure SameField (c d : Cell) : Prop where
  kind : d.kind = c.kind
  len : d.len = c.len
  input : d.input = c.input
  output : d.output = c.output
  connectable : d.connectable = c.connectable
  forcible : d.forcible = c.forcible
  lits : d.lits = c.lits

theorem SameField.refl (c : Cell) : SameField c c := ⟨rfl, rfl, rfl, rfl, rfl, rfl, rfl⟩

theorem SameField.trans {a b c : Cell} (h1 : SameField a b) (h2 : SameField b c) :
    SameField a c :=
  ⟨h2.1.trans h1.1, h2.2.trans h1.2, h2.3.trans h1.3, h2.4.trans h1.4, h2.5.trans h1.5,
    h2.6.trans h1.6, h2.7.trans h1.7⟩

theorem Wrote.same {n m : Net} (h : Wrote n m) (j : Nat) : SameField (n j) (m j) := by
  obtain ⟨v, hv, _⟩ := h j
  rw [hv]
  exact ⟨rfl, rfl, rfl, rfl, rfl, rfl, rfl⟩

theorem Wrote.targets {n m : Net} (h : Wrote n m) (j : Nat) : (m j).targets = (n j).targets := by
  obtain ⟨v, hv, _⟩ := h j
  rw [hv]

theorem Wrote.forced {n m : Net} (h : Wrote n m) (j : Nat) : (m j).forced = (n j).forced := by
  obtain ⟨v, hv, _⟩ := h j
  rw [hv]

theorem set_same {n : Net} {i : Nat} {c : Cell} (j : Nat) (h : SameField (n i) c) :
    SameField (n j) (n.set i c j) := by
  unfold Net.set
  split
  · rename_i hj; subst hj; exact h
  · exact .refl _

theorem step_same (narrow : Fl → Fl) (f : Nat) (n : Net) (o : Op) (m : Net)
    (hm : (step narrow f n o).leaves m) (i : Nat) : SameField (n i) (m i) := by
  cases o with
  | assign j v => exact (store_wrote (setValue_wrote narrow f) _ _ _ _ hm).same i
  | set j a => exact (setValue_wrote narrow f _ _ _ _ hm).same i
  | force j a =>
    simp only [step] at hm
    split at hm
    · unfold force at hm
      have hw := setValue_wrote narrow f (n.set j { n j with forced := false }) j a
      have h0 : SameField (n i) (n.set j { n j with forced := false } i) :=
        set_same i ⟨rfl, rfl, rfl, rfl, rfl, rfl, rfl⟩
      split at hm
      · rename_i n' he
        cases hm
        rw [he] at hw
        have h1 : SameField (n' i) (n'.set j { n' j with forced := true } i) :=
          set_same i ⟨rfl, rfl, rfl, rfl, rfl, rfl, rfl⟩
        exact (h0.trans ((hw n' rfl).same i)).trans h1
      · exact h0.trans ((hw m hm).same i)
    · cases hm; exact .refl _
  | connect j k =>
    simp only [step, connect] at hm
    split at hm
    · cases hm; exact .refl _
    · split at hm
      · cases hm; exact .refl _
      · have hw := setValue_wrote narrow f _ _ _ _ hm
        have h0 : SameField (n i)
            (n.set j { n j with targets := (n j).targets ++ [k] } i) :=
          set_same i ⟨rfl, rfl, rfl, rfl, rfl, rfl, rfl⟩
        exact h0.trans (hw.same i)
  | push j => exact (pushLoop_wrote (setValue_wrote narrow f) _ _ _ _ hm).same i
  | unforce j =>
    cases hm
    unfold Net.set; split
    · rename_i h; subst h; exact ⟨rfl, rfl, rfl, rfl, rfl, rfl, rfl⟩
    · exact .refl _
  | freeze j =>
    cases hm
    unfold Net.set; split
    · rename_i h; subst h; exact ⟨rfl, rfl, rfl, rfl, rfl, rfl, rfl⟩
    · exact .refl _
  | disconnect j k =>
    cases hm
    unfold disconnect Net.set; split
    · rename_i h; subst h; exact ⟨rfl, rfl, rfl, rfl, rfl, rfl, rfl⟩
    · exact .refl _
  | restore j v b =>
    cases hm
    unfold Net.set; split
    · rename_i h; subst h; exact ⟨rfl, rfl, rfl, rfl, rfl, rfl, rfl⟩
    · exact .refl _

/-- Induction over histories. -/
theorem run_induct (narrow : Fl → Fl) (f : Nat) {P : Net → Prop} {A : Op → Prop}
    (hs : ∀ n o m, P n → A o → (step narrow f n o).leaves m → P m) (ops : List Op) :
    ∀ n m, P n → (∀ o ∈ ops, A o) → run narrow f n ops = some m → P m := by
  induction ops with
  | nil => intro n m hn _ h; cases h; exact hn
  | cons o os ih =>
    intro n m hn ha h
    simp only [run] at h
    have h1 := hs n o
    have ha' : ∀ o ∈ os, A o := fun o' h' => ha o' (List.mem_cons_of_mem _ h')
    have ho := ha o (List.mem_cons_self ..)
    split at h
    · rename_i n' he; exact ih n' m (h1 n' hn ho (by rw [he]; rfl)) ha' h
    · rename_i n' he; exact ih n' m (h1 n' hn ho (by rw [he]; rfl)) ha' h
    · cases h
    · cases h

theorem run_same (narrow : Fl → Fl) (f : Nat) (ops : List Op) (n m : Net)
    (h : run narrow f n ops = some m) (i : Nat) : SameField (n i) (m i) :=
  run_induct narrow f (P := fun m => SameField (n i) (m i)) (A := fun _ => True)
    (fun a o b ha _ hb => ha.trans (step_same narrow f a o b hb i)) ops n m (.refl _)
    (fun _ _ => trivial) h

/-! ### Held fields -/

/-- The call is about forcing or restoring that field. -/
def Op.forces (i : Nat) : Op → Prop
  | .force j _ | .unforce j | .restore j _ _ => j = i
  | _ => False

theorem held_iff (c : Cell) : c.held = true ↔ c.forcible = true ∧ c.forced = true := by
  simp [Cell.held]

theorem wrote_held {n m : Net} (h : Wrote n m) {i : Nat} (hi : (n i).held = true) :
    (m i).value = (n i).value ∧ (m i).held = true := by
  obtain ⟨v, hv, hor⟩ := h i
  rcases hor with rfl | ⟨h', _⟩
  · rw [hv]; exact ⟨rfl, hi⟩
  · rw [h'] at hi; cases hi

theorem step_held (narrow : Fl → Fl) (f : Nat) (n : Net) (o : Op) (i : Nat)
    (hi : (n i).held = true) (ho : ¬ o.forces i) (m : Net) (hm : (step narrow f n o).leaves m) :
    (m i).value = (n i).value ∧ (m i).held = true := by
  cases o with
  | assign j v => exact wrote_held (store_wrote (setValue_wrote narrow f) _ _ _ _ hm) hi
  | set j a => exact wrote_held (setValue_wrote narrow f _ _ _ _ hm) hi
  | force j a =>
    have hj : i ≠ j := fun e => ho (by simp [Op.forces, e])
    simp only [step] at hm
    split at hm
    · unfold force at hm
      have hi' : ((n.set j { n j with forced := false }) i).held = true := by
        simp [Net.set, hj, hi]
      have hv : ((n.set j { n j with forced := false }) i).value = (n i).value := by
        simp [Net.set, hj]
      have hw := setValue_wrote narrow f (n.set j { n j with forced := false }) j a
      split at hm
      · rename_i n' he
        cases hm
        rw [he] at hw
        have := wrote_held (hw n' rfl) hi'
        rw [hv] at this
        simpa [Net.set, hj] using this
      · have := wrote_held (hw m hm) hi'
        rw [hv] at this
        exact this
    · cases hm; exact ⟨rfl, hi⟩
  | unforce j =>
    have hj : i ≠ j := fun e => ho (by simp [Op.forces, e])
    cases hm
    simp [Net.set, hj, hi]
  | freeze j =>
    cases hm
    by_cases hj : i = j
    · subst hj
      rw [held_iff] at hi
      simp [Net.set, Cell.held, hi]
    · simp [Net.set, hj, hi]
  | connect j k =>
    simp only [step, connect] at hm
    split at hm
    · cases hm; exact ⟨rfl, hi⟩
    · split at hm
      · cases hm; exact ⟨rfl, hi⟩
      · have hw := setValue_wrote narrow f _ _ _ _ hm
        have hh : ((n.set j { n j with targets := (n j).targets ++ [k] }) i).held = true ∧
            ((n.set j { n j with targets := (n j).targets ++ [k] }) i).value = (n i).value := by
          by_cases hj : i = j
          · subst hj; simp [Net.set, Cell.held] at hi ⊢; exact hi
          · simp [Net.set, hj, hi]
        have := wrote_held hw hh.1
        rw [hh.2] at this
        exact this
  | disconnect j k =>
    cases hm
    by_cases hj : i = j
    · subst hj; simp [disconnect, Net.set, Cell.held] at hi ⊢; exact hi
    · simp [disconnect, Net.set, hj, hi]
  | push j => exact wrote_held (pushLoop_wrote (setValue_wrote narrow f) _ _ _ _ hm) hi
  | restore j v b =>
    have hj : i ≠ j := fun e => ho (by simp [Op.forces, e])
    cases hm
    simp [Net.set, hj, hi]

/-! ### Painting: the effect of a write -/

/-- The value fits the field: it is of its kind and a string is not longer than the field. -/
def Cell.Fits (c : Cell) (v : Val) : Prop :=
  c.kind ≠ .None ∧ Any.Ok ⟨c.kind, v⟩ ∧
    (c.kind = .String8 → ∃ s, v = .str (some s) ∧ s.length ≤ c.len)

theorem coerce_same (narrow : Fl → Fl) (c : Cell) (v : Val) (h : c.Fits v) :
    coerce narrow c.kind c.len ⟨c.kind, v⟩ = .ok v := by
  obtain ⟨h0, h1, h2⟩ := h
  have hint : ∀ (t : ITy) (x : Int), c.kind.int = some t → c.kind.Range x →
      getInt t ⟨c.kind, .int x⟩ = .ok x := by
    intro t x ht hr
    have := (Verif.Any.C50_get c.kind x t (by rw [Verif.Any.Kind.isInt, ht]; rfl) hr).1
    exact this ((Verif.Any.Kind.range_iff ht x).1 hr)
  cases hk : c.kind <;> rw [hk] at h0 h1 h2 hint <;>
    (try simp only [Any.Ok] at h1) <;>
    first
    | exact absurd rfl h0
    | (cases v with
       | int x => simp only [coerce, hint _ x rfl h1, Out.map]
       | _ => exact h1.elim)
    | (cases v with
       | bool x => simp [coerce, getBool, Out.map]
       | int x => simp [Verif.Any.Kind.Range] at h1
       | _ => exact h1.elim)
    | (cases v with
       | char x => simp [coerce, getChar, Out.map]
       | int x => simp [Verif.Any.Kind.Range] at h1
       | _ => exact h1.elim)
    | (cases v with
       | float x => simp [coerce, getF32, getF64, Out.map]
       | int x => simp [Verif.Any.Kind.Range] at h1
       | _ => exact h1.elim)
    | (obtain ⟨s, rfl, hs⟩ := h2 rfl
       simp [coerce, getString, Out.map, List.take_of_length_le hs])

/-- Fields a write of `i` reaches: through fields that are not held and push. -/
inductive Reach (n : Net) : Nat → Nat → Prop
  | self {i} (h : (n i).held = false) : Reach n i i
  | step {i t j} (h : (n i).held = false) (hc : (n i).connectable = true)
      (ht : t ∈ (n i).targets) (hr : Reach n t j) : Reach n i j

/-- `m` is `n` with the value `x` in the fields of `A`. -/
def Painted (n : Net) (x : Val) (A : Nat → Prop) (m : Net) : Prop :=
  ∀ j, (A j → m j = { n j with value := x }) ∧ (¬ A j → m j = n j)

theorem Painted.cell {n m : Net} {x : Val} {A : Nat → Prop} (h : Painted n x A m) (j : Nat) :
    ∃ v, m j = { n j with value := v } := by
  rcases Classical.em (A j) with hj | hj
  · exact ⟨x, (h j).1 hj⟩
  · exact ⟨(n j).value, (h j).2 hj⟩

theorem Painted.congr {n m : Net} {x : Val} {A B : Nat → Prop} (h : Painted n x A m)
    (hab : ∀ j, A j ↔ B j) : Painted n x B m :=
  fun j => ⟨fun hb => (h j).1 ((hab j).2 hb), fun hb => (h j).2 fun ha => hb ((hab j).1 ha)⟩

theorem coerce_total (narrow : Fl → Fl) (k : Kind) (len : Nat) (v : Val) (h0 : k ≠ .None)
    (h : Any.Ok ⟨k, v⟩) : ∃ w, coerce narrow k len ⟨k, v⟩ = .ok w := by
  by_cases hk : k = .String8
  · subst hk
    cases v with
    | str s => exact ⟨_, rfl⟩
    | int x => simp [Any.Ok, Verif.Any.Kind.Range] at h
    | _ => simp [Any.Ok] at h
  · have := coerce_same narrow ⟨k, len, false, false, false, false, none, v, false, []⟩ v
      ⟨h0, h, fun e => absurd e hk⟩
    exact ⟨v, this⟩

theorem reach_held {n : Net} {i j : Nat} (h : (n i).held = true) : ¬ Reach n i j := by
  intro hr
  cases hr with
  | self h' => rw [h] at h'; cases h'
  | step h' => rw [h] at h'; cases h'

/-- The effect of a write on acyclic connections, see C58_write. -/
theorem paint (narrow : Fl → Fl) (n : Net) (x : Val) (rank : Nat → Nat)
    (hrank : ∀ i, ∀ t ∈ (n i).targets, rank t < rank i)
    (hkind : ∀ i, ∀ t ∈ (n i).targets, (n t).kind = (n i).kind) : ∀ (f i : Nat) (m : Net)
    (A : Nat → Prop), Painted n x A m → rank i ≤ f → (n i).kind ≠ .None →
    Any.Ok ⟨(n i).kind, x⟩ →
    (∀ j, Reach n i j → (n j).Fits x ∧ (n j).accepts x = true) →
    ∃ m', store (setValue narrow f) m i x = .ok m' ∧
      Painted n x (fun j => A j ∨ Reach n i j) m' := by
  intro f
  induction f with
  | zero =>
    intro i m A hp hr hne hok hfit
    obtain ⟨v0, hv0⟩ := hp.cell i
    have hts : (n i).targets = [] := by
      cases ht : (n i).targets with
      | nil => rfl
      | cons t ts =>
        have := hrank i t (by rw [ht]; exact List.mem_cons_self ..)
        omega
    cases hh : (n i).held with
    | true =>
      refine ⟨m, ?_, hp.congr fun j => ⟨Or.inl, fun h => h.elim id fun h => (reach_held hh h).elim⟩⟩
      unfold store
      have : (m i).held = true := by rw [hv0]; exact hh
      rw [if_pos this]
    | false =>
      have ha := (hfit i (.self hh)).2
      have h1 : (m i).held = false := by rw [hv0]; exact hh
      have h2 : (m i).accepts x = true := by rw [hv0]; exact ha
      have h3 : (m i).targets = [] := by rw [hv0]; exact hts
      refine ⟨m.set i { m i with value := x }, ?_, ?_⟩
      · unfold store
        rw [h1, h2, h3]
        simp [pushLoop]
      · have hreach : ∀ j, Reach n i j ↔ j = i := by
          intro j
          constructor
          · intro h
            cases h with
            | self => rfl
            | step _ _ ht => rw [hts] at ht; cases ht
          · rintro rfl; exact .self hh
        intro j
        by_cases hj : j = i
        · subst hj
          refine ⟨fun _ => by simp [Net.set, hv0], fun h => absurd (Or.inr ((hreach j).2 rfl)) h⟩
        · refine ⟨fun h => ?_, fun h => ?_⟩
          · rcases h with h | h
            · simpa [Net.set, hj] using (hp j).1 h
            · exact absurd ((hreach j).1 h) hj
          · simpa [Net.set, hj] using (hp j).2 fun ha => h (Or.inl ha)
  | succ f ih =>
    intro i m A hp hr hne hok hfit
    obtain ⟨v0, hv0⟩ := hp.cell i
    cases hh : (n i).held with
    | true =>
      refine ⟨m, ?_, hp.congr fun j => ⟨Or.inl, fun h => h.elim id fun h => (reach_held hh h).elim⟩⟩
      unfold store
      have : (m i).held = true := by rw [hv0]; exact hh
      rw [if_pos this]
    | false =>
      have ha := (hfit i (.self hh)).2
      have h1 : (m i).held = false := by rw [hv0]; exact hh
      have h2 : (m i).accepts x = true := by rw [hv0]; exact ha
      have h3 : (m i).targets = (n i).targets := by rw [hv0]
      have h4 : (m i).connectable = (n i).connectable := by rw [hv0]
      have hp1 : Painted n x (fun j => A j ∨ j = i) (m.set i { m i with value := x }) := by
        intro j
        by_cases hj : j = i
        · subst hj
          refine ⟨fun _ => by simp [Net.set, hv0], fun h => absurd (Or.inr rfl) h⟩
        · refine ⟨fun h => ?_, fun h => ?_⟩
          · rcases h with h | h
            · simpa [Net.set, hj] using (hp j).1 h
            · exact absurd h hj
          · simpa [Net.set, hj] using (hp j).2 fun ha => h (Or.inl ha)
      unfold store
      rw [h1, h2, h3, h4]
      simp only [Bool.false_eq_true, if_false, if_true]
      cases hc : (n i).connectable with
      | false =>
        refine ⟨_, rfl, hp1.congr fun j => or_congr_right ?_⟩
        constructor
        · rintro rfl; exact .self hh
        · intro h
          cases h with
          | self => rfl
          | step _ h' => rw [hc] at h'; cases h'
      | true =>
        have loop : ∀ (ts : List Nat), (∀ t ∈ ts, t ∈ (n i).targets) → ∀ (B : Nat → Prop) m1,
            B i → Painted n x B m1 →
            ∃ m', pushLoop (setValue narrow (f + 1)) m1 i ts = .ok m' ∧
              Painted n x (fun j => B j ∨ ∃ t ∈ ts, Reach n t j) m' := by
          intro ts
          induction ts with
          | nil => intro _ B m1 _ hB; exact ⟨m1, rfl, hB.congr fun j => by simp⟩
          | cons t ts ihl =>
            intro hsub B m1 hBi hB
            have ht := hsub t (List.mem_cons_self ..)
            have hget : (m1 i).get = ⟨(n t).kind, x⟩ := by
              rw [(hB i).1 hBi, hkind i t ht]; rfl
            have htk := hkind i t ht
            have hset : ∃ m2, setValue narrow (f + 1) m1 t (m1 i).get = .ok m2 ∧
                Painted n x (fun j => B j ∨ Reach n t j) m2 := by
              obtain ⟨w0, hw0⟩ := hB.cell t
              have e1 : (m1 t).kind = (n t).kind := by rw [hw0]
              have e2 : (m1 t).len = (n t).len := by rw [hw0]
              rw [hget]
              simp only [setValue, e1, e2]
              cases hth : (n t).held with
              | true =>
                obtain ⟨w, hw⟩ := coerce_total narrow (n t).kind (n t).len x
                  (by rw [htk]; exact hne) (by rw [htk]; exact hok)
                rw [hw]
                refine ⟨m1, ?_, hB.congr fun j => ⟨Or.inl, fun h => h.elim id fun h =>
                  (reach_held hth h).elim⟩⟩
                simp only [store]
                rw [if_pos (by rw [hw0]; exact hth)]
              | false =>
                have hfx := hfit t (.step hh hc ht (.self hth))
                rw [coerce_same narrow (n t) x hfx.1]
                exact ih t m1 B hB (by have := hrank i t ht; omega) (by rw [htk]; exact hne)
                  (by rw [htk]; exact hok) (fun j hj => hfit j (.step hh hc ht hj))
            obtain ⟨m2, hm2, hP2⟩ := hset
            obtain ⟨m3, hm3, hP3⟩ := ihl (fun t' h' => hsub t' (List.mem_cons_of_mem _ h'))
              _ m2 (Or.inl hBi) hP2
            refine ⟨m3, ?_, hP3.congr fun j => ?_⟩
            · simp only [pushLoop, hm2, hm3]
            · simp only [List.mem_cons, or_assoc]
              constructor
              · rintro (h | h | ⟨t', ht', h⟩)
                · exact Or.inl h
                · exact Or.inr ⟨t, Or.inl rfl, h⟩
                · exact Or.inr ⟨t', Or.inr ht', h⟩
              · rintro (h | ⟨t', rfl | ht', h⟩)
                · exact Or.inl h
                · exact Or.inr (Or.inl h)
                · exact Or.inr (Or.inr ⟨t', ht', h⟩)
        obtain ⟨m', hm', hP'⟩ := loop (n i).targets (fun _ h => h) _ _ (Or.inr rfl) hp1
        refine ⟨m', hm', hP'.congr fun j => ?_⟩
        rw [or_assoc]
        refine or_congr_right ?_
        constructor
        · rintro (rfl | ⟨t, ht, h⟩)
          · exact .self hh
          · exact .step hh hc ht h
        · intro h
          cases h with
          | self => exact Or.inl rfl
          | step _ _ ht hr => exact Or.inr ⟨_, ht, hr⟩

theorem paint_set (narrow : Fl → Fl) (n : Net) (x : Val) (rank : Nat → Nat)
    (hrank : ∀ i, ∀ t ∈ (n i).targets, rank t < rank i)
    (hkind : ∀ i, ∀ t ∈ (n i).targets, (n t).kind = (n i).kind) (f t : Nat) (m : Net)
    (A : Nat → Prop) (hp : Painted n x A m) (hr : rank t < f) (hne : (n t).kind ≠ .None)
    (hok : Any.Ok ⟨(n t).kind, x⟩)
    (hfit : ∀ j, Reach n t j → (n j).Fits x ∧ (n j).accepts x = true) :
    ∃ m', setValue narrow f m t ⟨(n t).kind, x⟩ = .ok m' ∧
      Painted n x (fun j => A j ∨ Reach n t j) m' := by
  obtain ⟨f, rfl⟩ : ∃ g, f = g + 1 := ⟨f - 1, by omega⟩
  obtain ⟨w0, hw0⟩ := hp.cell t
  have e1 : (m t).kind = (n t).kind := by rw [hw0]
  have e2 : (m t).len = (n t).len := by rw [hw0]
  simp only [setValue, e1, e2]
  cases hth : (n t).held with
  | true =>
    obtain ⟨w, hw⟩ := coerce_total narrow (n t).kind (n t).len x hne hok
    rw [hw]
    refine ⟨m, ?_, hp.congr fun j => ⟨Or.inl, fun h => h.elim id fun h =>
      (reach_held hth h).elim⟩⟩
    simp only [store]
    rw [if_pos (by rw [hw0]; exact hth)]
  | false =>
    rw [coerce_same narrow (n t) x (hfit t (.self hth)).1]
    exact paint narrow n x rank hrank hkind f t m A hp (by omega) hne hok hfit

theorem paint_push (narrow : Fl → Fl) (n : Net) (x : Val) (rank : Nat → Nat)
    (hrank : ∀ i, ∀ t ∈ (n i).targets, rank t < rank i)
    (hkind : ∀ i, ∀ t ∈ (n i).targets, (n t).kind = (n i).kind) (f i : Nat)
    (hr : rank i ≤ f) (hne : (n i).kind ≠ .None) (hok : Any.Ok ⟨(n i).kind, x⟩) :
    ∀ (ts : List Nat), (∀ t ∈ ts, t ∈ (n i).targets) →
    (∀ t ∈ ts, ∀ j, Reach n t j → (n j).Fits x ∧ (n j).accepts x = true) →
    ∀ (A : Nat → Prop) (m : Net), Painted n x A m → (m i).value = x →
    ∃ m', pushLoop (setValue narrow f) m i ts = .ok m' ∧
      Painted n x (fun j => A j ∨ ∃ t ∈ ts, Reach n t j) m' := by
  intro ts
  induction ts with
  | nil => intro _ _ A m hp _; exact ⟨m, rfl, hp.congr fun j => by simp⟩
  | cons t ts ihl =>
    intro hsub hfit A m hp hval
    have ht := hsub t (List.mem_cons_self ..)
    have htk := hkind i t ht
    obtain ⟨w, hw⟩ := hp.cell i
    have hget : (m i).get = ⟨(n t).kind, x⟩ := by
      unfold Cell.get; rw [hval]; rw [hw, htk]
    obtain ⟨m2, hm2, hP2⟩ := paint_set narrow n x rank hrank hkind f t m A hp
      (by have := hrank i t ht; omega) (by rw [htk]; exact hne) (by rw [htk]; exact hok)
      (hfit t (List.mem_cons_self ..))
    have hval2 : (m2 i).value = x := by
      rcases Classical.em (A i ∨ Reach n t i) with h | h
      · rw [(hP2 i).1 h]
      · rw [(hP2 i).2 h, ← hval, (hp i).2 fun ha => h (Or.inl ha)]
    obtain ⟨m3, hm3, hP3⟩ := ihl (fun t' h' => hsub t' (List.mem_cons_of_mem _ h'))
      (fun t' h' => hfit t' (List.mem_cons_of_mem _ h')) _ m2 hP2 hval2
    refine ⟨m3, ?_, hP3.congr fun j => ?_⟩
    · simp only [pushLoop, hget, hm2, hm3]
    · simp only [List.mem_cons, or_assoc]
      constructor
      · rintro (h | h | ⟨t', ht', h⟩)
        · exact Or.inl h
        · exact Or.inr ⟨t, Or.inl rfl, h⟩
        · exact Or.inr ⟨t', Or.inr ht', h⟩
      · rintro (h | ⟨t', rfl | ht', h⟩)
        · exact Or.inl h
        · exact Or.inr (Or.inl h)
        · exact Or.inr (Or.inr ⟨t', ht', h⟩)

/-! ### Fields a write does not reach -/

theorem Reach.mono {n m : Net} (h1 : ∀ j, (m j).held = (n j).held)
    (h2 : ∀ j, (m j).connectable = (n j).connectable) (h3 : ∀ j, (m j).targets = (n j).targets)
    {i j : Nat} (h : Reach n i j) : Reach m i j := by
  induction h with
  | self h => exact .self (by rw [h1]; exact h)
  | step h hc ht _ ih =>
    exact .step (by rw [h1]; exact h) (by rw [h2]; exact hc) (by rw [h3]; exact ht) ih

theorem Wrote.held {n m : Net} (h : Wrote n m) (j : Nat) : (m j).held = (n j).held := by
  obtain ⟨v, hv, _⟩ := h j
  rw [hv]; rfl

theorem Wrote.reach {n m : Net} (h : Wrote n m) {i j : Nat} (hr : Reach m i j) : Reach n i j :=
  hr.mono (fun j => (h.held j).symm) (fun j => (h.same j).connectable.symm)
    (fun j => (h.targets j).symm)

theorem pushLoop_unreached {set : Net → Nat → Any → Res}
    (hw : ∀ n i a m, (set n i a).leaves m → Wrote n m)
    (hs : ∀ n i a m, (set n i a).leaves m → ∀ j, ¬ Reach n i j → m j = n j) (i : Nat)
    (ts : List Nat) : ∀ n m, (pushLoop set n i ts).leaves m → ∀ j,
    (∀ t ∈ ts, ¬ Reach n t j) → m j = n j := by
  induction ts with
  | nil => rintro n m rfl j _; rfl
  | cons t ts ih =>
    intro n m h j hj
    simp only [pushLoop] at h
    have h1 := hs n t (n i).get
    have h2 := hw n t (n i).get
    have hj1 := hj t (List.mem_cons_self ..)
    split at h
    · rename_i n' he
      rw [he] at h1 h2
      rw [ih n' m h j fun t' ht' hr => hj t' (List.mem_cons_of_mem _ ht')
        ((h2 n' rfl).reach hr)]
      exact h1 n' rfl j hj1
    · exact h1 m h j hj1

theorem store_unreached {set : Net → Nat → Any → Res}
    (hw : ∀ n i a m, (set n i a).leaves m → Wrote n m)
    (hs : ∀ n i a m, (set n i a).leaves m → ∀ j, ¬ Reach n i j → m j = n j) (n : Net) (i : Nat)
    (v : Val) (m : Net) (h : (store set n i v).leaves m) (j : Nat) (hj : ¬ Reach n i j) :
    m j = n j := by
  unfold store at h
  split at h
  · cases h; rfl
  · rename_i hh
    simp only [Bool.not_eq_true] at hh
    have hji : j ≠ i := by rintro rfl; exact hj (.self hh)
    split at h
    · rename_i ha
      simp only at h
      split at h
      · rename_i hc
        have hW := Wrote.set hh ha
        rw [pushLoop_unreached hw hs i _ _ m h j fun t ht hr =>
          hj (.step hh hc ht (hW.reach hr))]
        simp [Net.set, hji]
      · cases h; simp [Net.set, hji]
    · cases h; rfl

theorem setValue_unreached (narrow : Fl → Fl) (f : Nat) : ∀ n i a m,
    (setValue narrow f n i a).leaves m → ∀ j, ¬ Reach n i j → m j = n j := by
  induction f with
  | zero => intro n i a m h; exact h.elim
  | succ f ih =>
    intro n i a m h j hj
    simp only [setValue] at h
    split at h
    · exact store_unreached (setValue_wrote narrow f) ih _ _ _ _ h j hj
    · cases h; rfl
    · exact h.elim

theorem reach_rank {n : Net} {rank : Nat → Nat}
    (hrank : ∀ i, ∀ t ∈ (n i).targets, rank t < rank i) {i j : Nat} (h : Reach n i j) :
    rank j ≤ rank i := by
  induction h with
  | self => exact Nat.le_refl _
  | step _ _ ht _ ih => have := hrank _ _ ht; omega

/-! ### No exception between fields of the same kind -/

structure Typed (n : Net) : Prop where
  kind : ∀ i, (n i).kind ≠ .None
  ok : ∀ i, Any.Ok (n i).get

theorem coerce_ok (narrow : Fl → Fl) (k : Kind) (len : Nat) (v : Val) (h0 : k ≠ .None)
    (h : Any.Ok ⟨k, v⟩) : ∃ w, coerce narrow k len ⟨k, v⟩ = .ok w ∧ Any.Ok ⟨k, w⟩ := by
  by_cases hk : k = .String8
  · subst hk
    cases v with
    | str s => exact ⟨_, rfl, trivial⟩
    | int x => simp [Any.Ok, Verif.Any.Kind.Range] at h
    | _ => simp [Any.Ok] at h
  · have := coerce_same narrow ⟨k, len, false, false, false, false, none, v, false, []⟩ v
      ⟨h0, h, fun e => absurd e hk⟩
    exact ⟨v, this, h⟩

theorem Typed.set {n : Net} (h : Typed n) {i : Nat} {v : Val} (hv : Any.Ok ⟨(n i).kind, v⟩) :
    Typed (n.set i { n i with value := v }) := by
  constructor
  · intro j
    unfold Net.set
    split
    · exact h.kind i
    · exact h.kind j
  · intro j
    unfold Net.set
    split
    · exact hv
    · exact h.ok j

/-- What is asked of the network for no exception to be raised. -/
structure Quiet (n : Net) : Prop where
  typed : Typed n
  same : ∀ i, ∀ t ∈ (n i).targets, (n t).kind = (n i).kind
  lits : ∀ i, (n i).lits = none

theorem Quiet.set {n : Net} (h : Quiet n) {i : Nat} {v : Val} (hv : Any.Ok ⟨(n i).kind, v⟩) :
    Quiet (n.set i { n i with value := v }) := by
  refine ⟨h.typed.set hv, ?_, ?_⟩
  · intro j t ht
    have e : ∀ k, (n.set i { n i with value := v } k).kind = (n k).kind := by
      intro k; unfold Net.set; split
      · rename_i hk; subst hk; rfl
      · rfl
    have e' : (n.set i { n i with value := v } j).targets = (n j).targets := by
      unfold Net.set; split
      · rename_i hk; subst hk; rfl
      · rfl
    rw [e, e]
    exact h.same j t (by rw [← e']; exact ht)
  · intro j
    unfold Net.set
    split
    · exact h.lits i
    · exact h.lits j

/-- The call neither raises nor is undefined, and leaves such a network. -/
def Res.quiet : Res → Prop
  | .ok m => Quiet m
  | .diverges => True
  | _ => False

theorem pushLoop_quiet {set : Net → Nat → Any → Res}
    (hw : ∀ n i a m, (set n i a).leaves m → Wrote n m)
    (hs : ∀ n i v, Quiet n → Any.Ok ⟨(n i).kind, v⟩ → (set n i ⟨(n i).kind, v⟩).quiet)
    (i : Nat) (ts : List Nat) : ∀ n, Quiet n → (∀ t ∈ ts, t ∈ (n i).targets) →
    (pushLoop set n i ts).quiet := by
  induction ts with
  | nil => intro n h _; exact h
  | cons t ts ih =>
    intro n h hsub
    simp only [pushLoop]
    have hk := h.same i t (hsub t (List.mem_cons_self ..))
    have h1 := hs n t (n i).value h (by rw [hk]; exact h.typed.ok i)
    rw [hk] at h1
    have hW := hw n t (n i).get
    cases hr : set n t (n i).get with
    | ok n' =>
      rw [hr] at hW
      have h1' : (set n t (n i).get).quiet := h1
      rw [hr] at h1'
      refine ih n' h1' fun t' ht' => ?_
      rw [(hW n' rfl).targets i]
      exact hsub t' (List.mem_cons_of_mem _ ht')
    | _ =>
      have h1' : (set n t (n i).get).quiet := h1
      rw [hr] at h1'
      first | exact h1' | trivial

theorem store_quiet {set : Net → Nat → Any → Res}
    (hw : ∀ n i a m, (set n i a).leaves m → Wrote n m)
    (hs : ∀ n i v, Quiet n → Any.Ok ⟨(n i).kind, v⟩ → (set n i ⟨(n i).kind, v⟩).quiet)
    (n : Net) (i : Nat) (v : Val) (h : Quiet n) (hv : Any.Ok ⟨(n i).kind, v⟩) :
    (store set n i v).quiet := by
  unfold store
  split
  · exact h
  · rw [if_pos (by simp [Cell.accepts, h.lits i])]
    simp only
    split
    · refine pushLoop_quiet hw hs i _ _ (h.set hv) ?_
      intro t ht
      simpa [Net.set] using ht
    · exact h.set hv

theorem setValue_quiet (narrow : Fl → Fl) (f : Nat) : ∀ n i v, Quiet n →
    Any.Ok ⟨(n i).kind, v⟩ → (setValue narrow f n i ⟨(n i).kind, v⟩).quiet := by
  induction f with
  | zero => intro n i v _ _; trivial
  | succ f ih =>
    intro n i v h hv
    obtain ⟨w, hw, hwk⟩ := coerce_ok narrow (n i).kind (n i).len v (h.typed.kind i) hv
    simp only [setValue, hw]
    exact store_quiet (setValue_wrote narrow f) ih n i w h hwk

end Verif.Field
