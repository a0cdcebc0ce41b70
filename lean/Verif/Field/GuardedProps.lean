import Verif.Field.Guarded

/-! Property C148: fields written by entry points that the scheduler executes. -/
namespace Verif.Field.Guarded
open Verif.Any (Val)
open Verif.Field.Racing (Sys Act Frame goes run_goes_add run_goes_one demoPair plusOne)

/-! ### Specification -/

/-- The field written. -/
def Wr.field : Wr → Nat
  | .set i _ => i
  | .upd i _ => i

/-- The value written, when the fields are those of `n`. -/
def Wr.value (n : Net) : Wr → Val
  | .set _ v => v
  | .upd i g => g (n i).value

/-- What C58 says of a write: the value is in the field and in all those it is pushed to (that are not
forced), nothing else changes. -/
def Effect (n : Net) (w : Wr) (m : Net) : Prop :=
  ∀ j, (Reach n w.field j → m j = { n j with value := w.value n }) ∧
    (¬ Reach n w.field j → m j = n j)

/-- The writes take place one after the other. -/
inductive InTurn : Net → List Wr → Net → Prop
  | nil (n : Net) : InTurn n [] n
  | cons {n m p : Net} {w : Wr} {ws : List Wr} : Effect n w m → InTurn m ws p → InTurn n (w :: ws) p

/-- The entry points that were executed, in the order in which they got the mutex. -/
def started (s : St) : List In → List (List Wr)
  | [] => []
  | .enter t p :: l =>
    if s.holder = none then p :: started (s.step (.enter t p)) l
    else started (s.step (.enter t p)) l
  | x :: l => started (s.step x) l

/-- Only entry points executed by the scheduler write fields. -/
def Scheduled (l : List In) : Prop := ∀ t a, In.handler t a ∉ l

/-- The inputs that are not forced have the value of the outputs connected to them. -/
def Settled (n : Net) : Prop := ∀ i, (n i).connectable = true → ∀ t ∈ (n i).targets,
  (n t).held = false → (n t).value = (n i).value

/-- No input has two sources. -/
def OneSource (n : Net) : Prop := ∀ i j t, t ∈ (n i).targets → t ∈ (n j).targets → i = j

/-- The field is not connected to a source. -/
def Free (n : Net) (i : Nat) : Prop := ∀ j, i ∉ (n j).targets

/-! ### Lemmas -/

theorem InTurn.snoc {n m p : Net} {w : Wr} {ws : List Wr} (h : InTurn n ws m) (he : Effect m w p) :
    InTurn n (ws ++ [w]) p := by
  induction h with
  | nil n => exact .cons he (.nil _)
  | cons h1 _ ih => exact .cons h1 (ih he)

/-- Same fields and connections; other values. -/
def Alike (n m : Net) : Prop := ∀ j, ∃ v, m j = { n j with value := v }

theorem alike_refl (n : Net) : Alike n n := fun j => ⟨(n j).value, rfl⟩

theorem alike_trans {a b c : Net} (h : Alike a b) (h' : Alike b c) : Alike a c := by
  intro j
  obtain ⟨v, e⟩ := h j
  obtain ⟨w, e'⟩ := h' j
  exact ⟨w, by rw [e', e]⟩

theorem painted_alike {n m : Net} {x : Val} {A : Nat → Prop} (h : Painted n x A m) : Alike n m :=
  fun j => h.cell j

theorem effect_alike {n m : Net} {w : Wr} (h : Effect n w m) : Alike n m :=
  painted_alike (x := w.value n) (A := Reach n w.field) h

theorem inTurn_alike {n m : Net} {ws : List Wr} (h : InTurn n ws m) : Alike n m := by
  induction h with
  | nil n => exact alike_refl n
  | cons h1 _ ih => exact alike_trans (effect_alike h1) ih

/-- The stack of thread `t` is `fs`, those of the others are as before. -/
def put (st : Nat → List Frame) (t : Nat) (fs : List Frame) : Nat → List Frame :=
  fun u => if u = t then fs else st u

theorem put_put (st : Nat → List Frame) (t : Nat) (fs gs : List Frame) :
    put (put st t fs) t gs = put st t gs := by
  funext u
  by_cases h : u = t <;> simp [put, h]

theorem step_go (m : Net) (st : Nat → List Frame) (t : Nat) (f : Frame) (fs : List Frame)
    (h : st t = f :: fs) :
    (Sys.mk m st).step t .go
      = ⟨(Racing.instr m f).1, put st t ((Racing.instr m f).2 ++ fs)⟩ := by
  simp only [Sys.step, h]
  rfl

/-- A write at the top of the stack, by itself, comes to its end and does what C58 says. -/
theorem write_goes (n : Net) (x : Val) (t : Nat) (rank : Nat → Nat)
    (hrank : ∀ i, ∀ j ∈ (n i).targets, rank j < rank i) : ∀ (r i : Nat), rank i ≤ r →
    ∀ (m : Net) (A : Nat → Prop) (st : Nat → List Frame) (fs : List Frame), Painted n x A m →
    st t = .write i x :: fs →
    ∃ k m', (Sys.mk m st).run (goes t k) = ⟨m', put st t fs⟩ ∧
      Painted n x (fun j => A j ∨ Reach n i j) m' := by
  intro r
  induction r with
  | zero =>
    intro i hr m A st fs hp hst
    obtain ⟨w, hw⟩ := hp.cell i
    have hts : (n i).targets = [] := by
      cases ht : (n i).targets with
      | nil => rfl
      | cons a l => exact absurd (hrank i a (by rw [ht]; simp)) (by omega)
    cases hh : (n i).held with
    | true =>
      refine ⟨1, m, ?_, hp.congr fun j => ⟨Or.inl, fun h => h.elim id fun hr => ?_⟩⟩
      · rw [run_goes_one, step_go m st t _ fs hst]
        have : (m i).held = true := by rw [hw]; exact hh
        simp [Racing.instr, this]
      · cases hr with
        | self h1 => rw [hh] at h1; cases h1
        | step h1 => rw [hh] at h1; cases h1
    | false =>
      have h1 : (m i).held = false := by rw [hw]; exact hh
      have hp1 : Painted n x (fun j => A j ∨ Reach n i j) (m.set i { m i with value := x }) := by
        intro j
        by_cases hj : j = i
        · subst hj
          exact ⟨fun _ => by simp [Net.set, hw], fun h => absurd (Or.inr (.self hh)) h⟩
        · have hno : ¬ Reach n i j := by
            intro h
            cases h with
            | self => exact hj rfl
            | step _ _ ht _ => rw [hts] at ht; cases ht
          refine ⟨fun h => ?_, fun h => ?_⟩
          · simpa [Net.set, hj] using (hp j).1 (h.resolve_right hno)
          · simpa [Net.set, hj] using (hp j).2 fun ha => h (Or.inl ha)
      cases hc : (n i).connectable with
      | false =>
        refine ⟨1, _, ?_, hp1⟩
        have : (m i).connectable = false := by rw [hw]; exact hc
        rw [run_goes_one, step_go m st t _ fs hst]
        simp [Racing.instr, h1, this]
      | true =>
        refine ⟨1 + 1, _, ?_, hp1⟩
        have h2 : (m i).connectable = true := by rw [hw]; exact hc
        have h3 : (m i).targets = [] := by rw [hw]; exact hts
        rw [run_goes_add, run_goes_one, run_goes_one, step_go m st t _ fs hst]
        rw [step_go _ _ t (.push i []) fs (by simp [put, Racing.instr, h1, h2, h3]), put_put]
        simp [Racing.instr, h1]
  | succ r ih =>
    intro i hr m A st fs hp hst
    obtain ⟨w, hw⟩ := hp.cell i
    cases hh : (n i).held with
    | true =>
      refine ⟨1, m, ?_, hp.congr fun j => ⟨Or.inl, fun h => h.elim id fun hr => ?_⟩⟩
      · rw [run_goes_one, step_go m st t _ fs hst]
        have : (m i).held = true := by rw [hw]; exact hh
        simp [Racing.instr, this]
      · cases hr with
        | self h1 => rw [hh] at h1; cases h1
        | step h1 => rw [hh] at h1; cases h1
    | false =>
      have h1 : (m i).held = false := by rw [hw]; exact hh
      have hp1 : Painted n x (fun j => A j ∨ j = i) (m.set i { m i with value := x }) := by
        intro j
        by_cases hj : j = i
        · subst hj
          exact ⟨fun _ => by simp [Net.set, hw], fun h => absurd (Or.inr rfl) h⟩
        · refine ⟨fun h => ?_, fun h => ?_⟩
          · simpa [Net.set, hj] using (hp j).1 (h.resolve_right hj)
          · simpa [Net.set, hj] using (hp j).2 fun ha => h (Or.inl ha)
      cases hc : (n i).connectable with
      | false =>
        refine ⟨1, _, ?_, hp1.congr fun j => ⟨fun h => h.imp id fun e => by subst e; exact .self hh,
          fun h => h.imp id fun hr => ?_⟩⟩
        · have : (m i).connectable = false := by rw [hw]; exact hc
          rw [run_goes_one, step_go m st t _ fs hst]
          simp [Racing.instr, h1, this]
        · cases hr with
          | self => rfl
          | step _ h => rw [hc] at h; cases h
      | true =>
        have h2 : (m i).connectable = true := by rw [hw]; exact hc
        have h3 : (m i).targets = (n i).targets := by rw [hw]
        have loop : ∀ (ts : List Nat), (∀ j ∈ ts, j ∈ (n i).targets) → ∀ (m1 : Net)
            (B : Nat → Prop) (st1 : Nat → List Frame), Painted n x B m1 → B i →
            st1 t = .push i ts :: fs → ∃ k m', (Sys.mk m1 st1).run (goes t k) = ⟨m', put st1 t fs⟩ ∧
              Painted n x (fun j => B j ∨ ∃ a ∈ ts, Reach n a j) m' := by
          intro ts
          induction ts with
          | nil =>
            intro _ m1 B st1 hB hBi hst1
            refine ⟨1, m1, ?_, hB.congr fun j => by simp⟩
            rw [run_goes_one, step_go m1 st1 t _ fs hst1]
            simp [Racing.instr]
          | cons a ts ihl =>
            intro hsub m1 B st1 hB hBi hst1
            have hv : (m1 i).value = x := by rw [(hB i).1 hBi]
            obtain ⟨k2, m2, e2, p2⟩ := ih a (by have := hrank i a (hsub a (by simp)); omega) m1 B
              (put st1 t (.write a x :: .push i ts :: fs)) (.push i ts :: fs) hB (by simp [put])
            obtain ⟨k3, m3, e3, p3⟩ := ihl (fun j hj => hsub j (by simp [hj])) m2 _
              (put st1 t (.push i ts :: fs)) p2 (Or.inl hBi) (by simp [put])
            refine ⟨1 + k2 + k3, m3, ?_, p3.congr fun j => ?_⟩
            · rw [run_goes_add, run_goes_add, run_goes_one, step_go m1 st1 t _ fs hst1]
              have e1 : (Sys.mk (Racing.instr m1 (.push i (a :: ts))).1
                  (put st1 t ((Racing.instr m1 (.push i (a :: ts))).2 ++ fs)))
                  = ⟨m1, put st1 t (.write a x :: .push i ts :: fs)⟩ := by
                simp [Racing.instr, hv]
              rw [e1, e2, put_put, e3, put_put]
            · simp only [List.mem_cons, exists_eq_or_imp, or_assoc]
        obtain ⟨k, m', e, p⟩ := loop (n i).targets (fun _ h => h) _ _
          (put st t (.push i (n i).targets :: fs)) hp1 (Or.inr rfl) (by simp [put])
        refine ⟨1 + k, m', ?_, p.congr fun j => ?_⟩
        · rw [run_goes_add, run_goes_one, step_go m st t _ fs hst]
          have e1 : (Sys.mk (Racing.instr m (.write i x)).1
              (put st t ((Racing.instr m (.write i x)).2 ++ fs)))
              = ⟨m.set i { m i with value := x }, put st t (.push i (n i).targets :: fs)⟩ := by
            simp [Racing.instr, h1, h2, h3]
          rw [e1, e, put_put]
        · constructor
          · rintro ((h | rfl) | ⟨a, ha, h⟩)
            · exact Or.inl h
            · exact Or.inr (.self hh)
            · exact Or.inr (.step hh hc ha h)
          · rintro (h | h)
            · exact Or.inl (Or.inl h)
            · cases h with
              | self => exact Or.inl (Or.inr rfl)
              | step _ _ ht hr => exact Or.inr ⟨_, ht, hr⟩

theorem painted_none (n : Net) (x : Val) : Painted n x (fun _ => False) n :=
  fun _ => ⟨False.elim, fun _ => rfl⟩

/-- A write that a thread starts, by itself, comes to its end and does what C58 says. -/
theorem wr_goes (n : Net) (hac : Acyclic n) (w : Wr) (t : Nat) :
    ∃ k m, ((Sys.init n).step t w.act).run (goes t k) = Sys.init m ∧ Effect n w m := by
  obtain ⟨rank, hrank⟩ := hac
  have e0 : ∀ fs, put (put (fun _ => []) t fs) t [] = fun _ => ([] : List Frame) := by
    intro fs
    rw [put_put]
    funext u
    by_cases h : u = t <;> simp [put, h]
  cases w with
  | set i v =>
    obtain ⟨k, m, e, p⟩ := write_goes n v t rank hrank _ i (Nat.le_refl _) n _
      (put (fun _ => []) t [.write i v]) [] (painted_none n v) (by simp [put])
    refine ⟨k, m, ?_, p.congr fun j => by simp [Wr.field]⟩
    rw [e0] at e
    exact e
  | upd i g =>
    obtain ⟨k, m, e, p⟩ := write_goes n (g (n i).value) t rank hrank _ i (Nat.le_refl _) n _
      (put (fun _ => []) t [.write i (g (n i).value)]) [] (painted_none n _) (by simp [put])
    refine ⟨1 + k, m, ?_, p.congr fun j => by simp [Wr.field]⟩
    rw [e0] at e
    rw [run_goes_add, run_goes_one]
    have e1 : ((Sys.init n).step t (Wr.upd i g).act) = ⟨n, put (fun _ => []) t [.update i g]⟩ := rfl
    rw [e1, step_go _ _ t (.update i g) [] (by simp [put]), put_put]
    exact e

theorem goes_empty (s : Sys) (t : Nat) (h : s.stack t = []) (k : Nat) : s.run (goes t k) = s := by
  induction k with
  | zero => rfl
  | succ k ih =>
    rw [show k + 1 = 1 + k by omega, run_goes_add, run_goes_one]
    have : s.step t .go = s := by simp only [Sys.step, h]
    rw [this, ih]

/-- A thread by itself comes to the end of its stack in one way only. -/
theorem goes_end (s : Sys) (t : Nat) (m : Net) (k j : Nat) (hk : s.run (goes t k) = Sys.init m)
    (hj : (s.run (goes t j)).stack t = []) : s.run (goes t j) = Sys.init m := by
  rcases Nat.le_total j k with h | h
  · obtain ⟨d, rfl⟩ := Nat.exists_eq_add_of_le h
    rw [run_goes_add, goes_empty _ _ hj] at hk
    exact hk
  · obtain ⟨d, rfl⟩ := Nat.exists_eq_add_of_le h
    rw [run_goes_add, hk, goes_empty _ _ rfl]

/-- Where the system is: the writes `ds` are done, the thread with the mutex is in one write at
most. -/
inductive Inv (n : Net) : List Wr → St → Prop
  | idle {m : Net} {ds : List Wr} : InTurn n ds m → Inv n ds ⟨.init m, none, []⟩
  | between {m : Net} {ds ws : List Wr} {t : Nat} : InTurn n ds m →
      Inv n (ds ++ ws) ⟨.init m, some t, ws⟩
  | within {m : Net} {ds ws : List Wr} {t : Nat} {w : Wr} {k : Nat} {s : Sys} : InTurn n ds m →
      s = ((Sys.init m).step t w.act).run (goes t k) → s.stack t ≠ [] →
      Inv n (ds ++ w :: ws) ⟨s, some t, ws⟩

theorem acyclic_alike {n m : Net} (h : Acyclic n) (ha : Alike n m) : Acyclic m := by
  obtain ⟨rank, hr⟩ := h
  refine ⟨rank, fun i t ht => hr i t ?_⟩
  obtain ⟨v, e⟩ := ha i
  rw [e] at ht
  exact ht

/-- One more instruction of a write. -/
theorem inv_within {n : Net} (hac : Acyclic n) {m : Net} {ds ws : List Wr} {t : Nat} {w : Wr}
    {k : Nat} (hd : InTurn n ds m) :
    Inv n (ds ++ w :: ws) ⟨((Sys.init m).step t w.act).run (goes t k), some t, ws⟩ := by
  by_cases he : (((Sys.init m).step t w.act).run (goes t k)).stack t = []
  · obtain ⟨k', p, e, hp⟩ := wr_goes m (acyclic_alike hac (inTurn_alike hd)) w t
    rw [goes_end _ t p k' k e he]
    have := Inv.between (ws := ws) (t := t) (hd.snoc hp)
    simpa using this
  · exact .within hd rfl he

theorem inv_step {n : Net} (hac : Acyclic n) {ds : List Wr} {s : St} (h : Inv n ds s) {x : In}
    (hx : ∀ t a, x ≠ .handler t a) : Inv n (ds ++ (started s [x]).flatten) (s.step x) := by
  cases x with
  | handler t a => exact absurd rfl (hx t a)
  | enter t p =>
    cases h with
    | idle hd => simpa [started, St.step] using Inv.between (ws := p) (t := t) hd
    | between hd => simpa [started, St.step] using Inv.between hd
    | within hd e hs => simpa [started, St.step] using Inv.within hd e hs
  | go t =>
    have hnil : (started s [.go t]).flatten = [] := by simp [started]
    rw [hnil, List.append_nil]
    cases h with
    | idle hd => simpa [St.step] using Inv.idle hd
    | @between m ds ws u hd =>
      by_cases hu : u = t
      · subst hu
        cases ws with
        | nil => simpa [St.step, Sys.init] using Inv.idle hd
        | cons w ws =>
          have := inv_within hac (k := 0) (ws := ws) (t := u) (w := w) hd
          simpa [St.step, Sys.init, Sys.run, goes] using this
      · simpa [St.step, hu] using Inv.between hd
    | @within m ds ws u w k s hd e hs =>
      by_cases hu : u = t
      · subst hu
        have : (St.mk s (some u) ws).step (.go u) = ⟨s.step u .go, some u, ws⟩ := by
          simp only [St.step, if_true]
          cases hst : s.stack u with
          | nil => exact absurd hst hs
          | cons f fs => simp
        rw [this, e, ← run_goes_one, ← run_goes_add]
        exact inv_within hac hd
      · simpa [St.step, hu] using Inv.within hd e hs

theorem started_cons (s : St) (x : In) (l : List In) :
    started s (x :: l) = started s [x] ++ started (s.step x) l := by
  cases x <;> simp [started]
  split <;> simp

theorem inv_run {n : Net} (hac : Acyclic n) (l : List In) : ∀ (ds : List Wr) (s : St), Inv n ds s →
    Scheduled l → Inv n (ds ++ (started s l).flatten) (s.run l) := by
  induction l with
  | nil => intro ds s h _; simpa [started, St.run] using h
  | cons x l ih =>
    intro ds s h hl
    have := ih _ _ (inv_step (x := x) hac h fun t a e => hl t a (by simp [e]))
      fun t a hm => hl t a (by simp [hm])
    rw [started_cons, List.flatten_append, ← List.append_assoc]
    exact this

theorem inv_init {n : Net} (hac : Acyclic n) (l : List In) (hl : Scheduled l) :
    Inv n (started (.init n) l).flatten ((St.init n).run l) := by
  simpa using inv_run hac l [] (.init n) (.idle (.nil n)) hl

theorem reach_alike {n m : Net} (h : Alike n m) {i j : Nat} (hr : Reach m i j) : Reach n i j := by
  have hh : ∀ k, (m k).held = (n k).held := by
    intro k; obtain ⟨v, e⟩ := h k; rw [e]; rfl
  induction hr with
  | self h1 => exact .self (by rw [← hh]; exact h1)
  | @step i t j h1 h2 h3 _ ih =>
    obtain ⟨v, e⟩ := h i
    exact .step (by rw [← hh]; exact h1) (by rw [e] at h2; exact h2) (by rw [e] at h3; exact h3) ih

theorem reach_last {n : Net} {i j : Nat} (h : Reach n i j) : (n j).held = false ∧
    (j = i ∨ ∃ a, Reach n i a ∧ (n a).connectable = true ∧ j ∈ (n a).targets) := by
  induction h with
  | self h => exact ⟨h, Or.inl rfl⟩
  | @step i t j h1 h2 h3 hr ih =>
    refine ⟨ih.1, Or.inr ?_⟩
    rcases ih.2 with rfl | ⟨a, h4, h5, h6⟩
    · exact ⟨i, .self h1, h2, h3⟩
    · exact ⟨a, .step h1 h2 h3 h4, h5, h6⟩

theorem reach_snoc {n : Net} {i a t : Nat} (h : Reach n i a) (hc : (n a).connectable = true)
    (ht : t ∈ (n a).targets) (hh : (n t).held = false) : Reach n i t := by
  induction h with
  | self h => exact .step h hc ht (.self hh)
  | step h1 h2 h3 _ ih => exact .step h1 h2 h3 (ih hc ht)

theorem settled_effect {n m : Net} {w : Wr} (h : Settled n) (h1 : OneSource n)
    (hf : Free n w.field) (he : Effect n w m) : Settled m := by
  intro i hc t ht hh
  obtain ⟨v, ei⟩ := effect_alike he i
  obtain ⟨v', et⟩ := effect_alike he t
  have hc' : (n i).connectable = true := by rw [ei] at hc; exact hc
  have ht' : t ∈ (n i).targets := by rw [ei] at ht; exact ht
  have hh' : (n t).held = false := by rw [et] at hh; exact hh
  rcases Classical.em (Reach n w.field t) with hr | hr
  · rcases (reach_last hr).2 with rfl | ⟨a, h4, _, h6⟩
    · exact absurd ht' (hf i)
    · have := h1 a i t h6 ht'
      subst this
      rw [(he t).1 hr, (he a).1 h4]
  · have hri : ¬ Reach n w.field i := fun hx => hr (reach_snoc hx hc' ht' hh')
    rw [(he t).2 hr, (he i).2 hri]
    exact h i hc' t ht' hh'

/-! ### C148 -/

/-- C148: entry points that the scheduler executes, in whatever threads and with whatever
interleaving, write the fields as if one were executed after the other, in the order in which they got
the mutex: when none is being executed, the fields are as the writes of the first, then those of the
second, and so on, leave them according to C58. -/
theorem C148_serial (n : Net) (hac : Acyclic n) (l : List In) (hl : Scheduled l)
    (hn : ((St.init n).run l).holder = none) :
    InTurn n (started (.init n) l).flatten ((St.init n).run l).sys.net ∧
    ∀ t, ((St.init n).run l).sys.stack t = [] := by
  have h := inv_init hac l hl
  generalize (St.init n).run l = s at h hn
  generalize (started (.init n) l).flatten = ds at h
  cases h with
  | idle hd => exact ⟨hd, fun _ => rfl⟩
  | between => cases hn
  | within => cases hn

/-- C148: then the inputs have the values of the outputs they are connected to, if they had them in the
beginning, no input has two sources, and the entry points write no connected input. -/
theorem C148_settled (n : Net) (hac : Acyclic n) (h0 : Settled n) (h1 : OneSource n) (l : List In)
    (hl : Scheduled l) (hf : ∀ t p, In.enter t p ∈ l → ∀ w ∈ p, Free n w.field)
    (hn : ((St.init n).run l).holder = none) : Settled ((St.init n).run l).sys.net := by
  have key : ∀ (ws : List Wr) (a b : Net), InTurn a ws b → Alike n a → Settled a →
      (∀ w ∈ ws, Free n w.field) → Settled b := by
    intro ws a b h
    induction h with
    | nil n => intro _ hs _; exact hs
    | @cons a b c w ws he _ ih =>
      intro hal hs hw
      have ts : ∀ j, (a j).targets = (n j).targets := by
        intro j; obtain ⟨v, e⟩ := hal j; rw [e]
      refine ih (alike_trans hal (effect_alike he)) (settled_effect hs ?_ ?_ he)
        fun w hm => hw w (by simp [hm])
      · intro i j t; rw [ts, ts]; exact h1 i j t
      · intro j; rw [ts]; exact hw w (by simp) j
  refine key _ _ _ (C148_serial n hac l hl hn).1 (alike_refl n) h0 ?_
  have all : ∀ (l : List In) (s : St), ∀ p ∈ started s l, ∃ t, In.enter t p ∈ l := by
    intro l
    induction l with
    | nil => intro s p hp; cases hp
    | cons x l ih =>
      intro s p hp
      have rest : ∀ s', p ∈ started s' l → ∃ t, In.enter t p ∈ x :: l := fun s' h => by
        obtain ⟨t, ht⟩ := ih s' p h
        exact ⟨t, by simp [ht]⟩
      cases x with
      | enter t q =>
        simp only [started] at hp
        split at hp
        · rcases List.mem_cons.1 hp with rfl | hp
          · exact ⟨t, by simp⟩
          · exact rest _ hp
        · exact rest _ hp
      | go t => exact rest _ hp
      | handler t a => exact rest _ hp
  intro w hw
  obtain ⟨p, hp, hw⟩ := List.mem_flatten.1 hw
  obtain ⟨t, ht⟩ := all l _ p hp
  exact hf t p ht w hw

/-- C148: no increment is lost: when the entry points only update one field, which is not forced, its
value is the first one updated as many times as there are updates in the entry points executed. -/
theorem C148_updates (n : Net) (hac : Acyclic n) (l : List In) (hl : Scheduled l) (i : Nat)
    (g : Val → Val) (hi : (n i).held = false)
    (hu : ∀ p ∈ started (.init n) l, ∀ w ∈ p, w = .upd i g)
    (hn : ((St.init n).run l).holder = none) :
    (((St.init n).run l).sys.net i).value
      = Nat.repeat g (started (.init n) l).flatten.length (n i).value := by
  have key : ∀ (ws : List Wr) (a b : Net), InTurn a ws b → (a i).held = false →
      (∀ w ∈ ws, w = .upd i g) → ∀ k, (a i).value = Nat.repeat g k (n i).value →
      (b i).value = Nat.repeat g (k + ws.length) (n i).value := by
    intro ws a b h
    induction h with
    | nil => intro _ _ k hk; exact hk
    | @cons a b c w ws he _ ih =>
      intro ha hw k hk
      have e : w = .upd i g := hw w (by simp)
      subst e
      have hb := (he i).1 (.self ha)
      have := ih (by rw [hb]; exact ha) (fun w hm => hw w (by simp [hm])) (k + 1)
        (by rw [hb]; simp [Wr.value, hk, Nat.repeat])
      rw [this, List.length_cons]
      congr 1
      omega
  have := key _ _ _ (C148_serial n hac l hl hn).1 hi (by
    intro w hw
    obtain ⟨p, hp, hw⟩ := List.mem_flatten.1 hw
    exact hu p hp w hw) 0 rfl
  simpa using this

/-- C148: an entry point that is being executed comes to its end: from every state that can be reached,
some number of instructions of its thread, while the others do nothing, releases the mutex. -/
theorem C148_ends (n : Net) (hac : Acyclic n) (l : List In) (hl : Scheduled l) (t : Nat)
    (ht : ((St.init n).run l).holder = some t) :
    ∃ k, ((St.init n).run (l ++ List.replicate k (.go t))).holder = none := by
  have h := inv_init hac l hl
  have e : ∀ k, (St.init n).run (l ++ List.replicate k (.go t))
      = ((St.init n).run l).run (List.replicate k (.go t)) := by
    intro k; unfold St.run; rw [List.foldl_append]
  simp only [e]
  generalize (St.init n).run l = s at h ht
  generalize (started (.init n) l).flatten = ds at h
  have add : ∀ (s : St) j k, s.run (List.replicate (j + k) (.go t))
      = (s.run (List.replicate j (.go t))).run (List.replicate k (.go t)) := by
    intro s j k
    unfold St.run
    rw [← List.foldl_append, List.replicate_append_replicate]
  -- from a write, to its end
  have fin : ∀ (k : Nat) (s : Sys) (ws : List Wr) (m : Net), s.run (goes t k) = Sys.init m →
      ∃ j, (St.mk s (some t) ws).run (List.replicate j (.go t)) = ⟨.init m, some t, ws⟩ := by
    intro k
    induction k with
    | zero =>
      intro s ws m hk
      have : s = Sys.init m := hk
      exact ⟨0, by rw [this]; rfl⟩
    | succ k ih =>
      intro s ws m hk
      cases hs : s.stack t with
      | nil =>
        rw [goes_empty _ _ hs] at hk
        exact ⟨0, by rw [hk]; rfl⟩
      | cons f fs =>
        rw [show k + 1 = 1 + k by omega, run_goes_add, run_goes_one] at hk
        obtain ⟨j, hj⟩ := ih (s.step t .go) ws m hk
        refine ⟨1 + j, ?_⟩
        rw [add]
        have : (St.mk s (some t) ws).run (List.replicate 1 (.go t)) = ⟨s.step t .go, some t, ws⟩ := by
          simp [St.run, St.step, hs]
        rw [this, hj]
  have out : ∀ (ws : List Wr) (m : Net), Acyclic m →
      ∃ k, ((St.mk (.init m) (some t) ws).run (List.replicate k (.go t))).holder = none := by
    intro ws
    induction ws with
    | nil => intro m _; exact ⟨1, by simp [St.run, St.step, Sys.init]⟩
    | cons w ws ih =>
      intro m hm
      obtain ⟨k, p, e, hp⟩ := wr_goes m hm w t
      obtain ⟨j, hj⟩ := fin k _ ws p e
      obtain ⟨i, hi⟩ := ih p (acyclic_alike hm (effect_alike hp))
      refine ⟨1 + j + i, ?_⟩
      rw [add, add]
      have : (St.mk (.init m) (some t) (w :: ws)).run (List.replicate 1 (.go t))
          = ⟨(Sys.init m).step t w.act, some t, ws⟩ := by
        simp [St.run, St.step, Sys.init]
      rw [this, hj]
      exact hi
  cases h with
  | idle => cases ht
  | between hd =>
    cases ht
    exact out _ _ (acyclic_alike hac (inTurn_alike hd))
  | @within m ds ws u w k s hd e hs =>
    cases ht
    have hm := acyclic_alike hac (inTurn_alike hd)
    obtain ⟨k', p, e', hp⟩ := wr_goes m hm w t
    have : s.run (goes t k') = Sys.init p := by
      rw [e, ← run_goes_add, Nat.add_comm, run_goes_add, e', goes_empty _ _ rfl]
    obtain ⟨j, hj⟩ := fin k' s ws p this
    obtain ⟨i, hi⟩ := out ws p (acyclic_alike hm (effect_alike hp))
    exact ⟨j + i, by rw [add, hj]; exact hi⟩

/-! ### What fails -/

/-- C148 does not extend to the handlers of global events, which do not take the mutex. A handler in the thread
of the simulation (0) assigns 1 to an output, an entry point of Zulu time (1) assigns 2; both have
returned, and the input that is connected to the output has another value than the output. -/
theorem C148_handler_fails : Acyclic demoPair ∧ Settled demoPair ∧ OneSource demoPair ∧
    Free demoPair 0 ∧ ∃ l, ∃ s, s = (St.init demoPair).run l ∧
    (∀ t p, In.enter t p ∈ l → t = 1) ∧ (∀ t a, In.handler t a ∈ l → t = 0) ∧
    s.holder = none ∧ s.sys.stack 0 = [] ∧ s.sys.stack 1 = [] ∧
    (s.sys.net 0).value = .int 2 ∧ (s.sys.net 1).value = .int 1 ∧ ¬ Settled s.sys.net := by
  refine ⟨⟨fun i => if i = 0 then 1 else 0, ?_⟩, ?_, ?_, ?_,
    [.handler 0 (.assign 0 (.int 1)), .handler 0 .go, .handler 0 .go, .enter 1 [.set 0 (.int 2)],
      .go 1, .go 1, .go 1, .go 1, .go 1, .go 1, .go 1, .handler 0 .go, .handler 0 .go, .handler 0 .go],
    _, rfl,
    ?_, ?_, by decide, by decide, by decide, by decide, by decide, ?_⟩
  · intro i t ht
    by_cases h : i = 0
    · subst h; simp [demoPair] at ht; simp [ht]
    · simp [demoPair, h] at ht
  · intro i _ t ht _
    rfl
  · intro i j t hi hj
    by_cases h : i = 0
    · by_cases h' : j = 0
      · rw [h, h']
      · simp [demoPair, h'] at hj
    · simp [demoPair, h] at hi
  · intro j hj
    by_cases h : j = 0
    · subst h; simp [demoPair] at hj
    · simp [demoPair, h] at hj
  · intro t p h
    simp at h
    exact h.1
  · intro t a h
    simp at h
    rcases h with h | h <;> exact h.1
  · intro h
    have := h 0 (by decide) 1 (by decide) (by decide)
    revert this
    decide

/-! ### Cases -/

/-- Two entry points, of two threads: the second waits for the mutex. -/
def demoHist : List In :=
  [.enter 0 [.set 0 (.int 1), .upd 0 plusOne], .go 0, .go 0, .enter 1 [.set 0 (.int 7)], .go 1, .go 0,
    .go 0, .go 0, .go 0, .go 0, .go 0, .go 0, .go 0, .go 0, .go 0, .go 0, .go 0,
    .enter 1 [.upd 0 plusOne, .set 2 (.int 5)], .go 1, .go 1, .go 0, .go 1, .go 1, .go 1, .go 1, .go 1,
    .go 1, .go 1, .go 1, .go 1, .go 1]

/-- `C148_serial`, `C148_settled`. -/
example : Acyclic demoPair ∧ Scheduled demoHist ∧ ((St.init demoPair).run demoHist).holder = none ∧
    (started (.init demoPair) demoHist).map (·.length) = [2, 2] ∧
    (((St.init demoPair).run demoHist).sys.net 0).value = .int 3 ∧
    (((St.init demoPair).run demoHist).sys.net 1).value = .int 3 ∧
    (((St.init demoPair).run demoHist).sys.net 2).value = .int 5 :=
  ⟨⟨fun i => if i = 0 then 1 else 0, fun i t ht => by
    by_cases h : i = 0
    · subst h; simp [demoPair] at ht; simp [ht]
    · simp [demoPair, h] at ht⟩,
   fun t a h => by simp [demoHist] at h, by decide, by decide, by decide, by decide, by decide⟩

/-- `C148_updates`: two threads, three increments. -/
example : ∃ l, Scheduled l ∧ ((St.init demoPair).run l).holder = none ∧
    (started (.init demoPair) l).flatten = [.upd 0 plusOne, .upd 0 plusOne, .upd 0 plusOne] ∧
    (((St.init demoPair).run l).sys.net 0).value = .int 3 := by
  refine ⟨.enter 0 [.upd 0 plusOne] :: .enter 1 [.upd 0 plusOne] :: List.replicate 8 (.go 0)
    ++ .enter 1 [.upd 0 plusOne, .upd 0 plusOne] :: List.replicate 16 (.go 1), ?_, ?_, ?_, ?_⟩
  · intro t a h
    simp [List.replicate] at h
  · decide
  · rfl
  · decide

/-- `C148_ends`: in the middle of a write. -/
example : ((St.init demoPair).run [.enter 1 [.set 0 (.int 2)], .go 1, .go 1]).holder = some 1 ∧
    ((St.init demoPair).run [.enter 1 [.set 0 (.int 2)], .go 1, .go 1]).sys.stack 1 ≠ [] :=
  ⟨by decide, by simp [St.run, St.step, St.init, Sys.init, Sys.step, Sys.setStack, Wr.act,
    Racing.instr, demoPair, demoOut, Cell.held]⟩

end Verif.Field.Guarded
