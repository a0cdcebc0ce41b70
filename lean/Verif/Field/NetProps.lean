import Verif.Field.NetLemmas

/-! Properties C57, C58 and C60 for simple fields. -/
namespace Verif.Field
open Verif.Any (Kind Fl Val Any Out ITy)

/-! ### Specification -/

/-- No field is connected yet. -/
def Unconnected (n : Net) : Prop := ∀ i, (n i).targets = []

/-- The connections have no cycle. -/
def Acyclic (n : Net) : Prop := ∃ rank : Nat → Nat, ∀ i, ∀ t ∈ (n i).targets, rank t < rank i

/-- The call returns normally, leaving `m`, whenever there is enough stack. -/
def Returns (r : Nat → Res) (m : Net) : Prop := ∃ F, ∀ f, F ≤ f → r f = .ok m

/-- Each connection is from an output to another, input, field of the same kind; no connection
is there twice. -/
structure Wired (n : Net) : Prop where
  nodup : ∀ i, (n i).targets.Nodup
  ok : ∀ i, ∀ t ∈ (n i).targets, t ≠ i ∧ (n t).kind = (n i).kind ∧ (n i).output = true ∧
    (n t).input = true

/-! ### C57 -/

/-- C57. A forced field keeps its value and stays forced through any history of assignments,
`SetValue`, pushes from connected fields, connections and forcing of other fields, as long as it
is not forced again, unforced or restored; exceptions raised meanwhile do not matter. -/
theorem C57_forced (narrow : Fl → Fl) (f : Nat) (i : Nat) (ops : List Op) :
    ∀ (n m : Net), (n i).forcible = true → (n i).forced = true → (∀ o ∈ ops, ¬ o.forces i) →
      run narrow f n ops = some m → (m i).get = (n i).get ∧ (m i).forced = true := by
  have key : ∀ (n m : Net), (n i).held = true → (∀ o ∈ ops, ¬ o.forces i) →
      run narrow f n ops = some m → (m i).value = (n i).value ∧ (m i).held = true := by
    intro n m hi ho h
    exact run_induct narrow f (P := fun m => (m i).value = (n i).value ∧ (m i).held = true)
      (fun a o b ha ho hb =>
        have := step_held narrow f a o i ha.2 ho b hb
        ⟨this.1.trans ha.1, this.2⟩) ops n m ⟨rfl, hi⟩ ho h
  intro n m h1 h2 h3 h4
  have := key n m ((held_iff _).2 ⟨h1, h2⟩) h3 h4
  exact ⟨by simp [Cell.get, this.1, (run_same narrow f ops n m h4 i).kind], ((held_iff _).1 this.2).2⟩


theorem setValue_own (narrow : Fl → Fl) (f : Nat) (n m : Net) (i : Nat) (a : Any)
    (hh : (n i).held = false) (hac : Acyclic n) (h : setValue narrow f n i a = .ok m) :
    ∃ v, coerce narrow (n i).kind (n i).len a = .ok v ∧ m i = { n i with value := v } := by
  obtain ⟨rank, hrank⟩ := hac
  cases f with
  | zero => simp [setValue] at h
  | succ f =>
    simp only [setValue] at h
    cases hc : coerce narrow (n i).kind (n i).len a with
    | throw => simp [hc] at h
    | ub => simp [hc] at h
    | ok v =>
      refine ⟨v, rfl, ?_⟩
      rw [hc] at h
      simp only [store, hh, Bool.false_eq_true, if_false] at h
      have hn2i : (n.set i { n i with value := v }) i = { n i with value := v } := by
        simp [Net.set]
      have hrank2 : ∀ j, ∀ t ∈ ((n.set i { n i with value := v }) j).targets,
          rank t < rank j := by
        intro j t ht
        refine hrank j t ?_
        unfold Net.set at ht
        split at ht
        · rename_i hj; subst hj; exact ht
        · exact ht
      rw [← hn2i]
      split at h
      · split at h
        · refine pushLoop_unreached (setValue_wrote narrow f) (setValue_unreached narrow f) i _
            _ m (by rw [h]; rfl) i fun t ht hr => ?_
          have h1 := reach_rank hrank2 hr
          have h2 := hrank i t ht
          omega
        · cases h; rfl
      · cases h

/-- C57. When `Force` returns, the field is forced and reads as the given value (a string cut
to the length of the field); if the fields of the data flow have no cycle. -/
theorem C57_force (narrow : Fl → Fl) (f : Nat) (n m : Net) (i : Nat) (a : Any)
    (hf : (n i).forcible = true) (hac : Acyclic n) (h : step narrow f n (.force i a) = .ok m) :
    ∃ v, coerce narrow (n i).kind (n i).len a = .ok v ∧ (m i).get = ⟨(n i).kind, v⟩ ∧
      (m i).forced = true := by
  simp only [step] at h
  rw [if_pos hf] at h
  unfold force at h
  have hn1 : (n.set i { n i with forced := false }) i = { n i with forced := false } := by
    simp [Net.set]
  have hac1 : Acyclic (n.set i { n i with forced := false }) := by
    obtain ⟨rank, hrank⟩ := hac
    refine ⟨rank, fun j t ht => hrank j t ?_⟩
    unfold Net.set at ht
    split at ht
    · rename_i hj; subst hj; exact ht
    · exact ht
  split at h
  · rename_i n' he
    cases h
    obtain ⟨v, hv, hn'⟩ := setValue_own narrow f _ _ i a (by rw [hn1]; simp [Cell.held]) hac1 he
    rw [hn1] at hv hn'
    exact ⟨v, hv, by simp [Net.set, Cell.get, hn'], by simp [Net.set]⟩
  · rename_i r hne
    exact absurd h (hne m)

/-- C57. `Unforce` lets the next assignment through, `Freeze` forces the current value. -/
theorem C57_unforce (narrow : Fl → Fl) (f : Nat) (n : Net) (i : Nat) :
    (∃ m, step narrow f n (.unforce i) = .ok m ∧ (m i).forced = false ∧
      (m i).get = (n i).get ∧ ∀ j, j ≠ i → m j = n j) ∧
    (∃ m, step narrow f n (.freeze i) = .ok m ∧ (m i).forced = true ∧
      (m i).get = (n i).get ∧ ∀ j, j ≠ i → m j = n j) :=
  ⟨⟨_, rfl, by simp [Net.set], by simp [Net.set, Cell.get], fun j h => by simp [Net.set, h]⟩,
   ⟨_, rfl, by simp [Net.set], by simp [Net.set, Cell.get], fun j h => by simp [Net.set, h]⟩⟩

/-! ### C58 -/

theorem wired_of {n m : Net} (h : Wired n) (h1 : ∀ j, SameField (n j) (m j))
    (h2 : ∀ j, (m j).targets = (n j).targets) : Wired m := by
  constructor
  · intro i; rw [h2]; exact h.nodup i
  · intro i t ht
    rw [h2] at ht
    obtain ⟨a, b, c, d⟩ := h.ok i t ht
    exact ⟨a, by rw [(h1 t).kind, (h1 i).kind]; exact b, by rw [(h1 i).output]; exact c,
      by rw [(h1 t).input]; exact d⟩

theorem wired_step (narrow : Fl → Fl) (f : Nat) (n : Net) (o : Op) (m : Net) (h : Wired n)
    (hm : (step narrow f n o).leaves m) : Wired m := by
  have hsame := step_same narrow f n o m hm
  have wrote : ∀ m, Wrote n m → Wired m := fun m hw => wired_of h hw.same hw.targets
  cases o with
  | assign j v => exact wrote m (store_wrote (setValue_wrote narrow f) _ _ _ _ hm)
  | set j a => exact wrote m (setValue_wrote narrow f _ _ _ _ hm)
  | push j => exact wrote m (pushLoop_wrote (setValue_wrote narrow f) _ _ _ _ hm)
  | force j a =>
    refine wired_of h hsame fun k => ?_
    simp only [step] at hm
    split at hm
    · unfold force at hm
      have hw := setValue_wrote narrow f (n.set j { n j with forced := false }) j a
      have h0 : (n.set j { n j with forced := false } k).targets = (n k).targets := by
        unfold Net.set; split
        · rename_i hk; subst hk; rfl
        · rfl
      split at hm
      · rename_i n' he
        cases hm
        rw [he] at hw
        rw [← h0, ← (hw n' rfl).targets k]
        unfold Net.set; split
        · rename_i hk; subst hk; rfl
        · rfl
      · rw [← h0, ← (hw m hm).targets k]
    · cases hm; rfl
  | unforce j =>
    refine wired_of h hsame fun k => ?_
    cases hm
    unfold Net.set; split
    · rename_i hk; subst hk; rfl
    · rfl
  | freeze j =>
    refine wired_of h hsame fun k => ?_
    cases hm
    unfold Net.set; split
    · rename_i hk; subst hk; rfl
    · rfl
  | restore j v b =>
    refine wired_of h hsame fun k => ?_
    cases hm
    unfold Net.set; split
    · rename_i hk; subst hk; rfl
    · rfl
  | disconnect j k =>
    cases hm
    have hs : ∀ l, SameField (n l) (disconnect n j k l) := hsame
    have ht : ∀ l t, t ∈ (disconnect n j k l).targets → t ∈ (n l).targets := by
      intro l t
      unfold disconnect Net.set
      split
      · rename_i hl; subst hl; exact List.mem_of_mem_erase
      · exact id
    constructor
    · intro l
      unfold disconnect Net.set
      split
      · exact (h.nodup j).erase k
      · exact h.nodup l
    · intro l t htl
      obtain ⟨a, b, c, d⟩ := h.ok l t (ht l t htl)
      exact ⟨a, by rw [(hs t).kind, (hs l).kind]; exact b, by rw [(hs l).output]; exact c,
        by rw [(hs t).input]; exact d⟩
  | connect j k =>
    simp only [step, connect] at hm
    split at hm
    · cases hm; exact h
    · rename_i hchk
      split at hm
      · cases hm; exact h
      · rename_i hnew
        have hw := setValue_wrote narrow f _ _ _ _ hm
        refine wired_of (n := n.set j { n j with targets := (n j).targets ++ [k] }) ?_
          hw.same hw.targets
        simp only [Bool.or_eq_true, Bool.not_eq_true', beq_iff_eq, bne_iff_ne, not_or,
          Bool.not_eq_false, ne_eq, Decidable.not_not] at hchk
        have hs : ∀ l, SameField (n l) (n.set j { n j with targets := (n j).targets ++ [k] } l) :=
          fun l => set_same l ⟨rfl, rfl, rfl, rfl, rfl, rfl, rfl⟩
        constructor
        · intro l
          unfold Net.set
          split
          · refine List.nodup_append.2 ⟨h.nodup j, by simp, ?_⟩
            intro a ha b hb
            simp only [List.mem_singleton] at hb
            subst hb
            rintro rfl
            exact hnew (by simpa using ha)
          · exact h.nodup l
        · intro l t htl
          have : t ∈ (n l).targets ∨ (l = j ∧ t = k) := by
            unfold Net.set at htl
            split at htl
            · rename_i hl
              subst hl
              simp only [List.mem_append, List.mem_singleton] at htl
              exact htl.imp id fun e => ⟨rfl, e⟩
            · exact Or.inl htl
          rcases this with htl | ⟨rfl, rfl⟩
          · obtain ⟨a, b, c, d⟩ := h.ok l t htl
            exact ⟨a, by rw [(hs t).kind, (hs l).kind]; exact b,
              by rw [(hs l).output]; exact c, by rw [(hs t).input]; exact d⟩
          · exact ⟨hchk.1.2, by rw [(hs t).kind, (hs l).kind]; exact hchk.2.symm,
              by rw [(hs l).output]; exact hchk.1.1.1, by rw [(hs t).input]; exact hchk.1.1.2⟩

/-- C58. Through any history, each connection is from an output to another field, an input, of
the same kind, and is there once. -/
theorem C58_wired (narrow : Fl → Fl) (f : Nat) (n0 n : Net) (h0 : Unconnected n0)
    (ops : List Op) (h : run narrow f n0 ops = some n) : Wired n :=
  run_induct narrow f (P := Wired) (A := fun _ => True)
    (fun a o b ha _ hb => wired_step narrow f a o b ha hb) ops n0 n
    ⟨fun i => by rw [h0 i]; simp, fun i t ht => by rw [h0 i] at ht; cases ht⟩
    (fun _ _ => trivial) h

theorem painted_unique {n a b : Net} {x : Val} {A : Nat → Prop} (ha : Painted n x A a)
    (hb : Painted n x A b) : a = b := by
  funext j
  rcases Classical.em (A j) with h | h
  · rw [(ha j).1 h, (hb j).1 h]
  · rw [(ha j).2 h, (hb j).2 h]

theorem painted_self (n : Net) (x : Val) : Painted n x (fun _ => False) n :=
  fun _ => ⟨fun h => h.elim, fun _ => rfl⟩

/-- C58. Writing a field that is not forced puts the value in it, in the fields connected to it
that are not forced, in the fields connected to those, and so on; nothing else changes. In
particular every directly connected field that is not forced then has the output's value. This
is so after any history, when the connections have no cycle and the value fits the fields it
gets to (a string not too long, a literal for an enumeration). -/
theorem C58_write_partial (narrow : Fl → Fl) (f0 : Nat) (n0 n : Net) (h0 : Unconnected n0)
    (ops : List Op) (hrun : run narrow f0 n0 ops = some n) (hac : Acyclic n) (i : Nat) (v : Val)
    (hi : (n i).held = false)
    (hfit : ∀ j, Reach n i j → (n j).Fits v ∧ (n j).accepts v = true) :
    ∃ m, Returns (fun f => step narrow f n (.assign i v)) m ∧
      (m i).get = ⟨(n i).kind, v⟩ ∧
      (∀ t ∈ (n i).targets, (n i).connectable = true → (n t).held = false →
        (m t).get = (m i).get) ∧
      (∀ j, Reach n i j → m j = { n j with value := v }) ∧
      (∀ j, ¬ Reach n i j → m j = n j) := by
  obtain ⟨rank, hrank⟩ := hac
  have hw := C58_wired narrow f0 n0 n h0 ops hrun
  have hk : ∀ i, ∀ t ∈ (n i).targets, (n t).kind = (n i).kind := fun i t ht => (hw.ok i t ht).2.1
  have hf := (hfit i (.self hi)).1
  have P := fun f (h : rank i ≤ f) => paint narrow n v rank hrank hk f i n _ (painted_self n v) h
    hf.1 hf.2.1 hfit
  obtain ⟨m, hm, hp⟩ := P (rank i) (Nat.le_refl _)
  have hin : ∀ j, Reach n i j → m j = { n j with value := v } := fun j h => (hp j).1 (Or.inr h)
  refine ⟨m, ⟨rank i, fun f hf => ?_⟩, ?_, ?_, hin, ?_⟩
  · obtain ⟨m', hm', hp'⟩ := P f hf
    rw [painted_unique hp hp']
    exact hm'
  · rw [hin i (.self hi)]; rfl
  · intro t ht hc hh
    rw [hin t (.step hi hc ht (.self hh)), hin i (.self hi)]
    simp [Cell.get, hk i t ht]
  · intro j hj
    exact (hp j).2 fun h => h.elim id hj

theorem reach_kind {n : Net} (hk : ∀ i, ∀ t ∈ (n i).targets, (n t).kind = (n i).kind) {i j : Nat}
    (h : Reach n i j) : (n j).kind = (n i).kind := by
  induction h with
  | self => rfl
  | step _ _ ht _ ih => rw [ih, hk _ _ ht]

/-- C58, when no field is a string or a published enumeration: no condition on the value, other
than being of the kind of the field. -/
theorem C58_write_plain (narrow : Fl → Fl) (f0 : Nat) (n0 n : Net) (h0 : Unconnected n0)
    (hplain : ∀ i, (n0 i).kind ≠ .String8 ∧ (n0 i).kind ≠ .None ∧ (n0 i).lits = none)
    (ops : List Op) (hrun : run narrow f0 n0 ops = some n) (hac : Acyclic n) (i : Nat) (v : Val)
    (hi : (n i).held = false) (hv : Any.Ok ⟨(n i).kind, v⟩) :
    ∃ m, Returns (fun f => step narrow f n (.assign i v)) m ∧
      (m i).get = ⟨(n i).kind, v⟩ ∧
      ∀ t ∈ (n i).targets, (n i).connectable = true → (n t).held = false →
        (m t).get = (m i).get := by
  have hw := C58_wired narrow f0 n0 n h0 ops hrun
  have hs := run_same narrow f0 ops n0 n hrun
  obtain ⟨m, h1, h2, h3, _⟩ := C58_write_partial narrow f0 n0 n h0 ops hrun hac i v hi (by
    intro j hj
    have e := reach_kind (fun i t ht => (hw.ok i t ht).2.1) hj
    refine ⟨⟨?_, by rw [e]; exact hv, ?_⟩, ?_⟩
    · rw [(hs j).kind]; exact (hplain j).2.1
    · intro h; rw [(hs j).kind] at h; exact absurd h (hplain j).1
    · simp [Cell.accepts, (hs j).lits, (hplain j).2.2])
  exact ⟨m, h1, h2, h3⟩

/-- C58. `Push` gives the field's value to every connected field that is not forced. -/
theorem C58_push_partial (narrow : Fl → Fl) (f0 : Nat) (n0 n : Net) (h0 : Unconnected n0)
    (ops : List Op) (hrun : run narrow f0 n0 ops = some n) (hac : Acyclic n) (i : Nat)
    (hi : (n i).Fits (n i).value)
    (hfit : ∀ t ∈ (n i).targets, ∀ j, Reach n t j →
      (n j).Fits (n i).value ∧ (n j).accepts (n i).value = true) :
    ∃ m, Returns (fun f => step narrow f n (.push i)) m ∧ (m i).get = (n i).get ∧
      (∀ t ∈ (n i).targets, (n t).held = false → (m t).get = (n i).get) ∧
      (∀ j, (∀ t ∈ (n i).targets, ¬ Reach n t j) → m j = n j) := by
  obtain ⟨rank, hrank⟩ := hac
  have hw := C58_wired narrow f0 n0 n h0 ops hrun
  have hk : ∀ i, ∀ t ∈ (n i).targets, (n t).kind = (n i).kind := fun i t ht => (hw.ok i t ht).2.1
  have P := fun f (h : rank i ≤ f) => paint_push narrow n (n i).value rank hrank hk f i h
    hi.1 hi.2.1 (n i).targets (fun _ h => h) hfit _ n (painted_self n _) rfl
  obtain ⟨m, hm, hp⟩ := P (rank i) (Nat.le_refl _)
  refine ⟨m, ⟨rank i, fun f hf => ?_⟩, ?_, ?_, ?_⟩
  · obtain ⟨m', hm', hp'⟩ := P f hf
    rw [painted_unique hp hp']
    exact hm'
  · obtain ⟨w, hw'⟩ := hp.cell i
    rcases Classical.em (∃ t ∈ (n i).targets, Reach n t i) with h | h
    · rw [(hp i).1 (Or.inr h)]
    · rw [(hp i).2 fun h' => h'.elim id h]
  · intro t ht hh
    rw [(hp t).1 (Or.inr ⟨t, ht, .self hh⟩)]
    simp [Cell.get, hk i t ht]
  · intro j hj
    refine (hp j).2 fun h => ?_
    rcases h with h | ⟨t, ht, h⟩
    · exact h
    · exact hj t ht h

/-- C58. `Connect` is refused, and changes nothing, when the source is not an output, the target
not an input or the same field, the kinds differ, or the fields are already connected; otherwise
the connection is made and a target that is not forced gets the value of the output. -/
theorem C58_connect_partial (narrow : Fl → Fl) (f0 : Nat) (n0 n : Net) (h0 : Unconnected n0)
    (ops : List Op) (hrun : run narrow f0 n0 ops = some n) (i j : Nat) :
    let bad := (n i).output = false ∨ (n j).input = false ∨ j = i ∨ (n i).kind ≠ (n j).kind ∨
      j ∈ (n i).targets
    (bad → ∀ f, step narrow f n (.connect i j) = .raised n) ∧
    (¬ bad → ∀ rank : Nat → Nat, (∀ k, ∀ t ∈ (n k).targets, rank t < rank k) → rank j < rank i →
      (n i).Fits (n i).value →
      (∀ k, Reach n j k → (n k).Fits (n i).value ∧ (n k).accepts (n i).value = true) →
      ∃ m, Returns (fun f => step narrow f n (.connect i j)) m ∧
        (m i).targets = (n i).targets ++ [j] ∧ (m i).get = (n i).get ∧
        (∀ k, k ≠ i → (m k).targets = (n k).targets) ∧
        ((n j).held = false → (m j).get = (n i).get) ∧
        (∀ k, k ≠ i → ¬ Reach n j k → m k = n k)) := by
  intro bad
  constructor
  · intro hbad f
    simp only [step, connect]
    by_cases hc : (!(n i).output || !(n j).input || j == i || (n i).kind != (n j).kind) = true
    · rw [if_pos hc]
    · rw [if_neg hc]
      simp only [Bool.or_eq_true, Bool.not_eq_true', beq_iff_eq, bne_iff_ne, not_or] at hc
      rcases hbad with h | h | h | h | h
      · exact absurd h hc.1.1.1
      · exact absurd h hc.1.1.2
      · exact absurd h hc.1.2
      · exact absurd h hc.2
      · rw [if_pos (by simpa using h)]
  · intro hgood rank hrank hij hfi hfit
    simp only [bad, not_or] at hgood
    obtain ⟨g1, g2, g3, g4, g5⟩ := hgood
    simp only [Bool.not_eq_false] at g1 g2
    simp only [ne_eq, Decidable.not_not] at g4
    have hw := C58_wired narrow f0 n0 n h0 ops hrun
    -- the network with the connection
    let n1 := n.set i { n i with targets := (n i).targets ++ [j] }
    have hn1 : ∀ k, k ≠ i → n1 k = n k := fun k hk => by simp [n1, Net.set, hk]
    have hn1i : n1 i = { n i with targets := (n i).targets ++ [j] } := by simp [n1, Net.set]
    have hk1 : ∀ k, (n1 k).kind = (n k).kind := by
      intro k
      by_cases hk : k = i
      · subst hk; rw [hn1i]
      · rw [hn1 k hk]
    have htg : ∀ k, ∀ t ∈ (n1 k).targets, rank t < rank k ∧ (n1 t).kind = (n1 k).kind := by
      intro k t ht
      rw [hk1, hk1]
      by_cases hk : k = i
      · subst hk
        rw [hn1i] at ht
        simp only [List.mem_append, List.mem_singleton] at ht
        rcases ht with ht | rfl
        · exact ⟨hrank k t ht, (hw.ok k t ht).2.1⟩
        · exact ⟨hij, g4.symm⟩
      · rw [hn1 k hk] at ht
        exact ⟨hrank k t ht, (hw.ok k t ht).2.1⟩
    -- what is reached from j does not go through i
    have hreach : ∀ a b, rank a < rank i → Reach n1 a b → Reach n a b := by
      intro a b hab h
      induction h with
      | @self a h =>
        have : a ≠ i := by rintro rfl; omega
        rw [hn1 a this] at h
        exact .self h
      | @step a t b h hc ht _ ih =>
        have : a ≠ i := by rintro rfl; omega
        rw [hn1 a this] at h hc ht
        have := hrank a t ht
        exact .step h hc ht (ih (by omega))
    have hfit1 : ∀ k, Reach n1 j k →
        (n1 k).Fits (n i).value ∧ (n1 k).accepts (n i).value = true := by
      intro k hk
      have h1 := hreach j k hij hk
      have h2 := reach_rank hrank h1
      have : k ≠ i := by rintro rfl; omega
      rw [hn1 k this]
      exact hfit k h1
    have P := fun f (h : rank j < f) => paint_set narrow n1 (n i).value rank
      (fun k t ht => (htg k t ht).1) (fun k t ht => (htg k t ht).2) f j n1 _
      (painted_self n1 _) h (by rw [hk1, ← g4]; exact hfi.1) (by rw [hk1, ← g4]; exact hfi.2.1)
      hfit1
    obtain ⟨m, hm, hp⟩ := P (rank j + 1) (by omega)
    have hmi : m i = n1 i := by
      refine (hp i).2 fun h => ?_
      rcases h with h | h
      · exact h
      · have := reach_rank hrank (hreach j i hij h); omega
    refine ⟨m, ⟨rank j + 1, fun f hf => ?_⟩, ?_, ?_, ?_, ?_, ?_⟩
    · obtain ⟨m', hm', hp'⟩ := P f (by omega)
      rw [painted_unique hp hp']
      simp only [step, connect]
      rw [if_neg (by simp [g1, g2, g3, g4]), if_neg (by simpa using g5)]
      have hg : (n1 i).get = ⟨(n1 j).kind, (n i).value⟩ := by
        rw [hk1, ← g4, hn1i]; rfl
      show setValue narrow f n1 j (n1 i).get = .ok m'
      rw [hg]
      exact hm'
    · rw [hmi, hn1i]
    · rw [hmi, hn1i]; rfl
    · intro k hk
      obtain ⟨w, hw'⟩ := hp.cell k
      rw [hw', hn1 k hk]
    · intro hh
      have hji : j ≠ i := g3
      rw [(hp j).1 (Or.inr (.self (by rw [hn1 j hji]; exact hh)))]
      simp [Cell.get, hk1, g4]
    · intro k hk hr
      rw [(hp k).2 fun h => h.elim id fun h => hr (hreach j k hij h), hn1 k hk]

/-- C58. A `Connect` that raises has changed nothing, when there is no published enumeration
field. -/
theorem C58_connect_fails_partial (narrow : Fl → Fl) (f : Nat) (n m : Net) (hn : Quiet n)
    (i j : Nat) (h : step narrow f n (.connect i j) = .raised m) : m = n := by
  simp only [step, connect] at h
  split at h
  · cases h; rfl
  · rename_i hchk
    split at h
    · cases h; rfl
    · exfalso
      simp only [Bool.or_eq_true, Bool.not_eq_true', beq_iff_eq, bne_iff_ne, not_or, ne_eq,
        Decidable.not_not] at hchk
      let n1 := n.set i { n i with targets := (n i).targets ++ [j] }
      have hc : ∀ k, ∃ ts, n1 k = { n k with targets := ts } := by
        intro k
        by_cases hk : k = i
        · subst hk; exact ⟨_, by simp [n1, Net.set]; rfl⟩
        · exact ⟨_, by simp [n1, Net.set, hk]; rfl⟩
      have hk1 : ∀ k, (n1 k).kind = (n k).kind := by
        intro k; obtain ⟨ts, h⟩ := hc k; rw [h]
      have hg1 : ∀ k, (n1 k).get = (n k).get := by
        intro k; obtain ⟨ts, h⟩ := hc k; rw [h]; rfl
      have hq : Quiet n1 := by
        refine ⟨⟨fun k => by rw [hk1]; exact hn.typed.kind k, fun k => by
          rw [hg1]; exact hn.typed.ok k⟩, ?_, fun k => ?_⟩
        · intro k t ht
          rw [hk1, hk1]
          by_cases hk : k = i
          · subst hk
            have : n1 k = { n k with targets := (n k).targets ++ [j] } := by simp [n1, Net.set]
            rw [this] at ht
            simp only [List.mem_append, List.mem_singleton] at ht
            rcases ht with ht | rfl
            · exact hn.same k t ht
            · exact hchk.2.symm
          · have : n1 k = n k := by simp [n1, Net.set, hk]
            rw [this] at ht
            exact hn.same k t ht
        · obtain ⟨ts, h⟩ := hc k; rw [h]; exact hn.lits k
      have hv : Any.Ok ⟨(n1 j).kind, (n1 i).value⟩ := by
        have := hn.typed.ok i
        rw [← hg1 i] at this
        rw [hk1, ← hchk.2, ← hk1 i]
        exact this
      have := setValue_quiet narrow f n1 j (n1 i).value hq hv
      rw [show (⟨(n1 j).kind, (n1 i).value⟩ : Any) = (n1 i).get from by
        simp [Cell.get, hk1, hchk.2]] at this
      have h' : setValue narrow f n1 j (n1 i).get = .raised m := h
      rw [h'] at this
      exact this

/-! ### C60 -/

/-- The value is a literal of the enumeration. -/
def IsLiteral (ls : List Int) (v : Val) : Prop := ∃ x ∈ ls, v = .int x

theorem accepts_iff {c : Cell} {ls : List Int} (h : c.lits = some ls) (hk : c.kind = .Int32)
    (v : Val) : c.accepts v = true ↔ IsLiteral ls v := by
  unfold Cell.accepts IsLiteral
  rw [h, hk]
  cases v <;> simp

/-- C60 for a published field of an enumeration type of four bytes: through any history of
`SetValue`, pushes and connections, its value is the one it had or a literal of the type. (Missing:
enumerations of other sizes, see `C60_size_fails`.) -/
theorem C60_simple_partial (narrow : Fl → Fl) (f : Nat) (n m : Net) (i : Nat) (ls : List Int)
    (hl : (n i).lits = some ls) (hk : (n i).kind = .Int32) (ops : List Op)
    (hops : ∀ o ∈ ops, ∀ v b, o ≠ .restore i v b)
    (h : run narrow f n ops = some m) :
    (m i).value = (n i).value ∨ IsLiteral ls (m i).value := by
  have wrote : ∀ a b, Wrote a b → (a i).lits = some ls ∧ (a i).kind = .Int32 →
      (b i).value = (a i).value ∨ IsLiteral ls (b i).value := by
    intro a b hw ha
    obtain ⟨v, hv, hor⟩ := hw i
    rw [hv]
    rcases hor with rfl | ⟨_, h⟩
    · exact Or.inl rfl
    · exact Or.inr ((accepts_iff ha.1 ha.2 v).1 h)
  have st : ∀ a o b, (a i).lits = some ls ∧ (a i).kind = .Int32 → (∀ v b, o ≠ .restore i v b) →
      (step narrow f a o).leaves b →
      (b i).value = (a i).value ∨ IsLiteral ls (b i).value := by
    intro a o b ha ho hb
    cases o with
    | assign j v => exact wrote a b (store_wrote (setValue_wrote narrow f) _ _ _ _ hb) ha
    | set j x => exact wrote a b (setValue_wrote narrow f _ _ _ _ hb) ha
    | push j => exact wrote a b (pushLoop_wrote (setValue_wrote narrow f) _ _ _ _ hb) ha
    | force j x =>
      simp only [step] at hb
      split at hb
      · unfold force at hb
        have hw := setValue_wrote narrow f (a.set j { a j with forced := false }) j x
        have h0 : ((a.set j { a j with forced := false } i).lits = some ls ∧
            (a.set j { a j with forced := false } i).kind = .Int32) ∧
            (a.set j { a j with forced := false } i).value = (a i).value := by
          unfold Net.set; split
          · rename_i hk; subst hk; exact ⟨ha, rfl⟩
          · exact ⟨ha, rfl⟩
        split at hb
        · rename_i n' he
          cases hb
          rw [he] at hw
          have h1 := wrote _ _ (hw n' rfl) h0.1
          rw [h0.2] at h1
          have h2 : (n'.set j { n' j with forced := true } i).value = (n' i).value := by
            unfold Net.set; split
            · rename_i hk; subst hk; rfl
            · rfl
          rw [h2]
          exact h1
        · have h1 := wrote _ _ (hw b hb) h0.1
          rw [h0.2] at h1
          exact h1
      · cases hb; exact Or.inl rfl
    | unforce j =>
      cases hb; left
      unfold Net.set; split
      · rename_i hk; subst hk; rfl
      · rfl
    | freeze j =>
      cases hb; left
      unfold Net.set; split
      · rename_i hk; subst hk; rfl
      · rfl
    | disconnect j k =>
      cases hb; left
      unfold disconnect Net.set; split
      · rename_i hk; subst hk; rfl
      · rfl
    | restore j v x =>
      cases hb; left
      unfold Net.set; split
      · rename_i hk; subst hk; exact absurd rfl (ho v x)
      · rfl
    | connect j k =>
      simp only [step, connect] at hb
      split at hb
      · cases hb; exact Or.inl rfl
      · split at hb
        · cases hb; exact Or.inl rfl
        · have hw := setValue_wrote narrow f _ _ _ _ hb
          have h0 : ((a.set j { a j with targets := (a j).targets ++ [k] } i).lits = some ls ∧
              (a.set j { a j with targets := (a j).targets ++ [k] } i).kind = .Int32) ∧
              (a.set j { a j with targets := (a j).targets ++ [k] } i).value = (a i).value := by
            unfold Net.set; split
            · rename_i hk; subst hk; exact ⟨ha, rfl⟩
            · exact ⟨ha, rfl⟩
          have h1 := wrote _ _ hw h0.1
          rw [h0.2] at h1
          exact h1
  refine (run_induct narrow f (P := fun m => ((m i).lits = some ls ∧ (m i).kind = .Int32) ∧
      ((m i).value = (n i).value ∨ IsLiteral ls (m i).value))
    (A := fun o => ∀ v b, o ≠ .restore i v b) ?_ ops n m ⟨⟨hl, hk⟩, Or.inl rfl⟩ hops h).2
  rintro a o b ⟨ha, hor⟩ ho hb
  refine ⟨by rw [(step_same narrow f a o b hb i).lits, (step_same narrow f a o b hb i).kind]; exact ha, ?_⟩
  rcases st a o b ha ho hb with h1 | h1
  · rw [h1]; exact hor
  · exact Or.inr h1

/-- C60 for a published field of an enumeration type of four bytes: `SetValue` of something else
than a literal raises and changes nothing. -/
theorem C60_refused_partial (narrow : Fl → Fl) (f : Nat) (n : Net) (i : Nat) (ls : List Int) (a : Any)
    (hl : (n i).lits = some ls) (hk : (n i).kind = .Int32) (hf : (n i).forcible = false)
    (h : ∀ v, coerce narrow (n i).kind (n i).len a = .ok v → ¬ IsLiteral ls v)
    (hub : coerce narrow (n i).kind (n i).len a ≠ .ub) :
    step narrow (f + 1) n (.set i a) = .raised n := by
  simp only [step, setValue]
  cases hc : coerce narrow (n i).kind (n i).len a with
  | throw => rfl
  | ub => exact absurd hc hub
  | ok v =>
    simp only [store]
    rw [if_neg (by simp [Cell.held, hf]), if_neg (by rw [accepts_iff hl hk]; exact h v hc)]

/-! ### What does not hold, and cases -/

/-- An output, connectable, forcible field of kind `Int32`. -/
def demoOut (v : Int) : Cell := ⟨.Int32, 0, true, true, true, true, none, .int v, false, []⟩
/-- A published input field of an enumeration with the literals 0 and 1. -/
def demoEnum : Cell := ⟨.Int32, 0, true, false, false, false, some [0, 1], .int 0, false, []⟩
/-- A string field. -/
def demoStr (len : Nat) : Cell :=
  ⟨.String8, len, true, true, true, false, none, .str (some []), false, []⟩

/-- C57 fails for a `Force` that raises: a forced field given a value that cannot be converted
is not forced any more, and the next assignment changes it. -/
theorem C57_fails (narrow : Fl → Fl) : ∃ n : Net, (n 0).forcible = true ∧ (n 0).forced = true ∧
    ∃ m, step narrow 1 n (.force 0 ⟨.Bool, .bool true⟩) = .raised m ∧ (m 0).forced = false ∧
    ∃ m', step narrow 1 m (.assign 0 (.int 7)) = .ok m' ∧ (m' 0).value ≠ (n 0).value := by
  refine ⟨fun _ => { demoOut 5 with forced := true }, rfl, rfl, _, rfl, rfl, _, rfl, ?_⟩
  simp [Net.set, demoOut]

/-- C58 fails for a failing `Connect`: if the value of the output is not a literal of the target
enumeration, `Connect` raises but the fields are connected, and the next write of the output,
an assignment that must not raise, raises. -/
theorem C58_connect_fails (narrow : Fl → Fl) : ∃ n : Net, Unconnected n ∧ Acyclic n ∧
    ∃ m, step narrow 5 n (.connect 0 1) = .raised m ∧ (m 0).targets = [1] ∧
    ∃ m', step narrow 5 m (.assign 0 (.int 8)) = .raised m' := by
  refine ⟨fun i => if i = 0 then demoOut 7 else demoEnum, ?_, ⟨fun _ => 0, ?_⟩, _, rfl, rfl, _, rfl⟩
  · intro i; by_cases h : i = 0 <;> simp [h, demoOut, demoEnum]
  · intro i t ht; by_cases h : i = 0 <;> simp [h, demoOut, demoEnum] at ht

/-- C58 fails for strings: a shorter input gets a part of the value. -/
theorem C58_string_fails (narrow : Fl → Fl) : ∃ n : Net, Unconnected n ∧
    ∃ m, run narrow 5 n [.connect 0 1, .assign 0 (.str (some [65, 66]))] = some m ∧
    1 ∈ (m 0).targets ∧ (m 1).held = false ∧ (m 1).get ≠ (m 0).get := by
  refine ⟨fun i => if i = 0 then demoStr 5 else demoStr 1, ?_, _, rfl, ?_, rfl, ?_⟩
  · intro i; by_cases h : i = 0 <;> simp [h, demoStr]
  · decide
  · decide

/-- A field that pushes first to `t`, takes any `Int32` and is not forced. -/
structure Relay (n : Net) (i t : Nat) : Prop where
  kind : (n i).kind = .Int32
  held : (n i).held = false
  conn : (n i).connectable = true
  lits : (n i).lits = none
  targets : ∃ ts, (n i).targets = t :: ts

theorem Relay.set {n : Net} {i t j : Nat} {v : Val} (h : Relay n i t) :
    Relay (n.set j { n j with value := v }) i t := by
  unfold Net.set
  by_cases hj : i = j
  · subst hj
    exact ⟨by simpa using h.kind, by simpa [Cell.held] using h.held, by simpa using h.conn,
      by simpa using h.lits, by simpa using h.targets⟩
  · exact ⟨by simpa [hj] using h.kind, by simpa [hj] using h.held, by simpa [hj] using h.conn,
      by simpa [hj] using h.lits, by simpa [hj] using h.targets⟩

theorem relay_diverges (narrow : Fl → Fl) (v : Int) (hv : -2 ^ 31 ≤ v ∧ v < 2 ^ 31) (f : Nat) :
    ∀ (n : Net) (i j : Nat), Relay n i j → Relay n j i →
      store (setValue narrow f) n i (.int v) = .diverges := by
  induction f with
  | zero =>
    intro n i j hi _
    obtain ⟨ts, ht⟩ := hi.targets
    simp only [store, hi.held, Cell.accepts, hi.lits, hi.conn, ht, Bool.false_eq_true, if_false,
      if_true, pushLoop, setValue]
  | succ f ih =>
    intro n i j hi hj
    obtain ⟨ts, ht⟩ := hi.targets
    unfold store
    have hg : ((n.set i { n i with value := .int v }) i).get = ⟨.Int32, .int v⟩ := by
      simp [Net.set, Cell.get, hi.kind]
    have hco : coerce narrow ((n.set i { n i with value := .int v }) j).kind
        ((n.set i { n i with value := .int v }) j).len ⟨.Int32, .int v⟩ = .ok (.int v) := by
      rw [← (hj.set (j := i) (v := .int v)).kind]
      exact coerce_same narrow _ (.int v) ⟨by rw [hj.set.kind]; decide, by
        rw [hj.set.kind]; simp only [Any.Ok, Verif.Any.Kind.Range]; omega,
        by intro h; rw [hj.set.kind] at h; cases h⟩
    rw [hi.held, hi.conn, ht]
    have hacc : (n i).accepts (.int v) = true := by simp [Cell.accepts, hi.lits]
    rw [hacc]
    simp only [Bool.false_eq_true, if_false, if_true, pushLoop]
    rw [hg]
    have := ih _ j i hj.set (hi.set (j := i) (v := .int v))
    simp only [setValue, hco]
    rw [this]

/-- C58: with two fields connected to each other, neither forced, a write never returns. -/
theorem C58_cycle (narrow : Fl → Fl) (f0 : Nat) : ∃ (n0 n : Net), Unconnected n0 ∧
    run narrow (f0 + 2) n0 [.connect 0 1, .freeze 0, .connect 1 0, .unforce 0] = some n ∧
    ∀ v : Int, -2 ^ 31 ≤ v → v < 2 ^ 31 → ∀ f,
      step narrow f n (.assign 0 (.int v)) = .diverges := by
  obtain ⟨n, hn, h01, h10⟩ : ∃ n, run narrow (f0 + 2) (fun _ => demoOut 0)
      [.connect 0 1, .freeze 0, .connect 1 0, .unforce 0] = some n ∧ Relay n 0 1 ∧ Relay n 1 0 :=
    ⟨_, rfl, ⟨rfl, rfl, rfl, rfl, [], rfl⟩, ⟨rfl, rfl, rfl, rfl, [], rfl⟩⟩
  exact ⟨_, n, fun _ => rfl, hn, fun v h1 h2 f => relay_diverges narrow v ⟨h1, h2⟩ f n 0 1 h01 h10⟩

/-- C60 fails for the fields of the component framework: an enumeration field that is not
published through the publication takes any number. -/
theorem C60_fails (narrow : Fl → Fl) : ∃ n : Net, (n 0).kind = .Int32 ∧
    ∃ m, step narrow 2 n (.set 0 ⟨.Int32, .int 42⟩) = .ok m ∧ (m 0).value = .int 42 :=
  ⟨fun _ => demoOut 0, rfl, _, rfl, by decide⟩

/-- C60 fails for published fields of enumerations of one, two or eight bytes: whatever the
literals, every value of the kind is accepted. -/
theorem C60_size_fails (narrow : Fl → Fl) (f : Nat) (n : Net) (i : Nat) (ls : List Int) (k : Kind)
    (hk : k = .Int8 ∨ k = .Int16 ∨ k = .Int64) (hki : (n i).kind = k) (hl : (n i).lits = some ls)
    (hf : (n i).forcible = false) (hc : (n i).connectable = false) (x : Int)
    (hx : Any.Ok ⟨k, .int x⟩) :
    step narrow (f + 1) n (.set i ⟨k, .int x⟩) = .ok (n.set i { n i with value := .int x }) := by
  have hco : coerce narrow (n i).kind (n i).len ⟨(n i).kind, .int x⟩ = .ok (.int x) := by
    refine coerce_same narrow _ (.int x) ⟨?_, by rw [hki]; exact hx, ?_⟩
    · rw [hki]; rcases hk with h | h | h <;> rw [h] <;> decide
    · intro h; rw [hki] at h; rcases hk with h' | h' | h' <;> rw [h'] at h <;> cases h
  rw [hki] at hco
  simp only [step, setValue, hki, hco, store, Cell.held, hf, hc, Cell.accepts, hl]
  rcases hk with h | h | h <;> subst h <;> rfl

example : ∃ n : Net, (n 0).kind = .Int8 ∧ (n 0).lits = some [0, 1] ∧ Any.Ok ⟨.Int8, .int 42⟩ :=
  ⟨fun _ => { demoEnum with kind := .Int8 }, rfl, rfl, by
    simp only [Any.Ok, Verif.Any.Kind.Range]; omega⟩

/-- Three fields in a chain, the last also connected to the first: 0 → 1 → 2, 0 → 2. -/
def demoNet : Net := fun _ => demoOut 0
def demoOps : List Op := [.connect 0 1, .connect 1 2, .connect 0 2, .connect 0 1,
  .force 1 ⟨.Int64, .int 9⟩, .assign 0 (.int 4)]

example : Unconnected demoNet := fun _ => rfl
example : ∃ m, run id 9 demoNet demoOps = some m ∧ (m 0).targets = [1, 2] ∧
    (m 1).value = .int 9 ∧ (m 2).value = .int 4 ∧ (m 1).forced = true := by
  refine ⟨_, rfl, by decide, by decide, by decide, by decide⟩

/-- The hypotheses of `C58_write_plain`, `C58_push_partial` and `C58_connect_partial`. -/
example : ∃ n, run id 9 demoNet [.connect 0 1, .connect 1 2] = some n ∧ Acyclic n ∧
    (n 0).held = false ∧ Any.Ok ⟨(n 0).kind, .int 4⟩ ∧ (n 0).Fits (n 0).value ∧
    (∀ j, (n j).Fits (n 0).value ∧ (n j).accepts (n 0).value = true) ∧
    ¬ ((n 0).output = false ∨ (n 2).input = false ∨ 2 = 0 ∨ (n 0).kind ≠ (n 2).kind ∨
      2 ∈ (n 0).targets) := by
  have fits : (demoOut 0).Fits (.int 0) :=
    ⟨by decide, by simp only [Any.Ok, demoOut, Verif.Any.Kind.Range]; omega, by intro h; cases h⟩
  obtain ⟨n, hn, hs, h0, h1, h2⟩ : ∃ n, run id 9 demoNet [.connect 0 1, .connect 1 2] = some n ∧
      (∀ i, n i = { demoOut 0 with targets := (n i).targets }) ∧ (n 0).targets = [1] ∧
      (n 1).targets = [2] ∧ ∀ i, (n (i + 2)).targets = [] := by
    refine ⟨_, rfl, ?_, rfl, rfl, ?_⟩
    · intro i
      by_cases h0 : i = 0
      · subst h0; rfl
      · by_cases h1 : i = 1
        · subst h1; rfl
        · by_cases h2 : i = 2
          · subst h2; rfl
          · simp [Net.set, h0, h1, h2, demoNet]
    · intro i
      by_cases h2 : i = 0
      · subst h2; rfl
      · simp [Net.set, h2, demoNet, demoOut]
  refine ⟨n, hn, ⟨fun i => 2 - i, ?_⟩, ?_, ?_, ?_, ?_, ?_⟩
  · intro i t ht
    match i, ht with
    | 0, ht => rw [h0] at ht; simp at ht; subst ht; decide
    | 1, ht => rw [h1] at ht; simp at ht; subst ht; decide
    | i + 2, ht => rw [h2] at ht; cases ht
  · rw [hs]; rfl
  · rw [hs]; simp only [Any.Ok, demoOut, Verif.Any.Kind.Range]; omega
  · rw [hs]; exact fits
  · intro j; rw [hs, hs 0]; exact ⟨fits, rfl⟩
  · rw [hs 2, hs 0, h0]; simp [demoOut]

end Verif.Field
