import Verif.Field.RefusedLemmas

/-! Property C144: what a write leaves that a connected field refuses. -/
namespace Verif.Field
open Verif.Any (Kind Fl Val Any Out ITy)
open Refused

/-- C144. After any history, when the connections have no cycle, a write of a value of the kind of
the field, that fits the fields it gets to, gets to the connected fields in one order: each field
before those connected to it, the connections of a field one after the other. If none of these
fields refuses the value, the write returns and exactly these fields have it. If one refuses it,
the write ends with an exception (the program is terminated when the write is an assignment of
the component's code), and exactly the fields before the first one that refuses have the new
value; every other field is as it was. In both cases no connection, flag or type changes. The
full property, that a refused write changes nothing, is false: see `C144_undone_fails`. -/
theorem C144_write_partial (narrow : Fl → Fl) (f0 : Nat) (n0 n : Net) (h0 : Unconnected n0)
    (ops : List Op) (hrun : run narrow f0 n0 ops = some n) (hac : Acyclic n) (i : Nat) (v : Val)
    (hne : (n i).kind ≠ .None) (hok : Any.Ok ⟨(n i).kind, v⟩)
    (hfit : ∀ j, Reach n i j → (n j).Fits v) (o : Op)
    (ho : o = .assign i v ∨ o = .set i ⟨(n i).kind, v⟩) :
    ∃ l, Visits n i l ∧ (∀ l', Visits n i l' → l' = l) ∧ (∀ j, j ∈ l ↔ Reach n i j) ∧
      ((∀ j ∈ l, (n j).accepts v = true) →
        ∃ m, Returns (fun f => step narrow f n o) m ∧ Written n v l m) ∧
      ((∃ j ∈ l, (n j).accepts v = false) →
        ∃ m, Raises (fun f => step narrow f n o) m ∧ Written n v (Before n v l) m) := by
  obtain ⟨rank, hrank⟩ := hac
  have hw := C58_wired narrow f0 n0 n h0 ops hrun
  have hk : ∀ i, ∀ t ∈ (n i).targets, (n t).kind = (n i).kind := fun i t ht => (hw.ok i t ht).2.1
  obtain ⟨l, hl⟩ := visits_exists n rank hrank (rank i + 1) i (Nat.lt_succ_self _)
  have hf : ∀ j ∈ l, (n j).Fits v := fun j hj => hfit j (visits_reach hl j hj)
  have hn : Written n v [] n := fun j => ⟨fun h => absurd h (List.not_mem_nil), fun _ => rfl⟩
  have E : ∀ f, rank i < f → Ends n v [] l (step narrow f n o) := by
    intro f hlt
    rcases ho with rfl | rfl
    · refine store_ends (setValue narrow f) n v i (fun t ht l' hl' hf' A m hm => ?_) l hl hf [] n hn
      have hkt := hk i t ht
      have := set_ends narrow n v rank hrank hk f t (by have := hrank i t ht; omega)
        (by rw [hkt]; exact hne) (by rw [hkt]; exact hok) l' hl' hf' A m hm
      rw [hkt] at this
      exact this
    · exact set_ends narrow n v rank hrank hk f i hlt hne hok l hl hf [] n hn
  refine ⟨l, hl, fun l' h => visits_unique h hl,
    fun j => ⟨visits_reach hl j, fun h => reach_visits h l hl⟩, fun hall => ?_, fun hex => ?_⟩
  · obtain ⟨m, _, w⟩ := (E (rank i + 1) (Nat.lt_succ_self _)).1 hall
    refine ⟨m, ⟨rank i + 1, fun f hlt => ?_⟩, w⟩
    obtain ⟨m', e', w'⟩ := (E f hlt).1 hall
    rw [painted_unique w w']
    exact e'
  · obtain ⟨m, _, w⟩ := (E (rank i + 1) (Nat.lt_succ_self _)).2 hex
    refine ⟨m, ⟨rank i + 1, fun f hlt => ?_⟩, w⟩
    obtain ⟨m', e', w'⟩ := (E f hlt).2 hex
    rw [painted_unique w w']
    exact e'

/-- C144 for a `Push`: the fields connected to `i` get its value as by a write, until the first
one that refuses it. -/
theorem C144_push_partial (narrow : Fl → Fl) (f0 : Nat) (n0 n : Net) (h0 : Unconnected n0)
    (ops : List Op) (hrun : run narrow f0 n0 ops = some n) (hac : Acyclic n) (i : Nat)
    (hne : (n i).kind ≠ .None) (hok : Any.Ok (n i).get)
    (hfit : ∀ t ∈ (n i).targets, ∀ j, Reach n t j → (n j).Fits (n i).value) :
    ∃ l, VisitsAll n (n i).targets l ∧
      ((∀ j ∈ l, (n j).accepts (n i).value = true) →
        ∃ m, Returns (fun f => step narrow f n (.push i)) m ∧ Written n (n i).value l m) ∧
      ((∃ j ∈ l, (n j).accepts (n i).value = false) →
        ∃ m, Raises (fun f => step narrow f n (.push i)) m ∧
          Written n (n i).value (Before n (n i).value l) m) := by
  obtain ⟨rank, hrank⟩ := hac
  have hw := C58_wired narrow f0 n0 n h0 ops hrun
  have hk : ∀ i, ∀ t ∈ (n i).targets, (n t).kind = (n i).kind := fun i t ht => (hw.ok i t ht).2.1
  have hvs : ∀ ts : List Nat, ∃ l, VisitsAll n ts l := by
    intro ts
    induction ts with
    | nil => exact ⟨_, .nil⟩
    | cons t ts ih =>
      obtain ⟨ls, hls⟩ := ih
      obtain ⟨l, hl⟩ := visits_exists n rank hrank (rank t + 1) t (Nat.lt_succ_self _)
      exact ⟨_, .cons hl hls⟩
  obtain ⟨l, hl⟩ := hvs (n i).targets
  have hf : ∀ j ∈ l, (n j).Fits (n i).value := fun j hj => by
    obtain ⟨t, ht, hr⟩ := visitsAll_reach hl j hj
    exact hfit t ht j hr
  have hn : Written n (n i).value [] n := fun j => ⟨fun h => absurd h (List.not_mem_nil), fun _ => rfl⟩
  have E : ∀ f, rank i < f → Ends n (n i).value [] l (step narrow f n (.push i)) := by
    intro f hlt
    refine loop (setValue narrow f) n (n i).value i (fun t ht l' hl' hf' A m hm => ?_)
      (n i).targets l hl (fun _ h => h) hf [] n hn rfl
    have hkt := hk i t ht
    have := set_ends narrow n (n i).value rank hrank hk f t (by have := hrank i t ht; omega)
      (by rw [hkt]; exact hne) (by rw [hkt]; exact hok) l' hl' hf' A m hm
    rw [hkt] at this
    exact this
  refine ⟨l, hl, fun hall => ?_, fun hex => ?_⟩
  · obtain ⟨m, _, w⟩ := (E (rank i + 1) (Nat.lt_succ_self _)).1 hall
    refine ⟨m, ⟨rank i + 1, fun f hlt => ?_⟩, w⟩
    obtain ⟨m', e', w'⟩ := (E f hlt).1 hall
    rw [painted_unique w w']
    exact e'
  · obtain ⟨m, _, w⟩ := (E (rank i + 1) (Nat.lt_succ_self _)).2 hex
    refine ⟨m, ⟨rank i + 1, fun f hlt => ?_⟩, w⟩
    obtain ⟨m', e', w'⟩ := (E f hlt).2 hex
    rw [painted_unique w w']
    exact e'

/-- A `SetValue` whose value cannot be converted to the type of the field changes nothing. -/
theorem C144_unconverted (narrow : Fl → Fl) (f : Nat) (n : Net) (i : Nat) (a : Any)
    (h : coerce narrow (n i).kind (n i).len a = .throw) :
    step narrow (f + 1) n (.set i a) = .raised n := by
  simp only [step, setValue, h]

/-- C144 in full is false, whatever the connections: whenever the field written takes the value
and a field the write gets to refuses it, the write ends with an exception and yet the field
written has the new value. -/
theorem C144_undone_fails (narrow : Fl → Fl) (f0 : Nat) (n0 n : Net) (h0 : Unconnected n0)
    (ops : List Op) (hrun : run narrow f0 n0 ops = some n) (hac : Acyclic n) (i : Nat) (v : Val)
    (hi : (n i).held = false) (ha : (n i).accepts v = true)
    (hfit : ∀ j, Reach n i j → (n j).Fits v)
    (hex : ∃ j, Reach n i j ∧ (n j).accepts v = false) :
    ∃ m, Raises (fun f => step narrow f n (.set i ⟨(n i).kind, v⟩)) m ∧
      m i = { n i with value := v } := by
  have hfi := hfit i (.self hi)
  obtain ⟨l, hl, _, hm, _, h⟩ := C144_write_partial narrow f0 n0 n h0 ops hrun hac i v hfi.1
    hfi.2.1 hfit _ (Or.inr rfl)
  obtain ⟨j, hj, hj'⟩ := hex
  obtain ⟨m, hr, w⟩ := h ⟨j, (hm j).2 hj, hj'⟩
  refine ⟨m, hr, (w i).1 ?_⟩
  cases hl with
  | held h' => rw [hi] at h'; cases h'
  | last => simp [Before, ha]
  | push => simp [Before, ha]

/-- An output field (0), a published enumeration (1) and a field that takes any number (2). -/
def demoRefused : Net := fun i => if i = 1 then demoEnum else demoOut 0

/-- The fields connected after the one that refuses are not updated: 0 is connected to 1 and then
to 2; 2 would take the value, and no longer has the value of 0. Connected in the other order, it
gets it. -/
theorem C144_behind_fails (narrow : Fl → Fl) :
    (∃ n m, run narrow 9 demoRefused [.connect 0 1, .connect 0 2] = some n ∧
      step narrow 9 n (.set 0 ⟨.Int32, .int 7⟩) = .raised m ∧
      (m 0).value = .int 7 ∧ (m 1).value = .int 0 ∧ (m 2).value = .int 0 ∧
      (m 2).accepts (.int 7) = true) ∧
    (∃ n m, run narrow 9 demoRefused [.connect 0 2, .connect 0 1] = some n ∧
      step narrow 9 n (.set 0 ⟨.Int32, .int 7⟩) = .raised m ∧
      (m 0).value = .int 7 ∧ (m 1).value = .int 0 ∧ (m 2).value = .int 7) :=
  ⟨⟨_, _, rfl, rfl, by decide, by decide, by decide, by decide⟩,
    ⟨_, _, rfl, rfl, by decide, by decide, by decide⟩⟩

/-- A `Connect` whose first push is refused ends with an exception, and yet the field is
connected: every later write of a value that the target refuses raises too. -/
theorem C144_connect_fails (narrow : Fl → Fl) :
    ∃ n m k, step narrow 9 demoRefused (.set 0 ⟨.Int32, .int 7⟩) = .ok n ∧
      step narrow 9 n (.connect 0 1) = .raised m ∧ (m 0).targets = [1] ∧
      step narrow 9 m (.assign 0 (.int 8)) = .raised k ∧ (k 0).value = .int 8 :=
  ⟨_, _, _, rfl, rfl, by decide, rfl, by decide⟩

/-- The hypotheses of `C144_write_partial` and `C144_undone_fails`, with a field that refuses and
the order 0, 1, 2. -/
example : ∃ n, run id 9 demoRefused [.connect 0 1, .connect 0 2] = some n ∧ Acyclic n ∧
    Unconnected demoRefused ∧ (n 0).held = false ∧ (n 0).accepts (.int 7) = true ∧
    Visits n 0 [0, 1, 2] ∧ Before n (.int 7) [0, 1, 2] = [0] ∧
    (∀ j, (n j).Fits (.int 7)) ∧ (∃ j, Reach n 0 j ∧ (n j).accepts (.int 7) = false) := by
  obtain ⟨n, hn, h0, h1, h2⟩ : ∃ n, run id 9 demoRefused [.connect 0 1, .connect 0 2] = some n ∧
      n 0 = { demoOut 0 with targets := [1, 2] } ∧ n 1 = demoEnum ∧
      ∀ j, n (j + 2) = demoOut 0 := by
    refine ⟨_, rfl, rfl, rfl, ?_⟩
    intro j
    by_cases h : j = 0
    · subst h; rfl
    · simp [Net.set, h, demoRefused, demoOut]
  have hf : Any.Ok ⟨.Int32, .int 7⟩ := by simp only [Any.Ok, Verif.Any.Kind.Range]; omega
  refine ⟨n, hn, ⟨fun i => 1 - i, ?_⟩, ?_, by rw [h0]; rfl, by rw [h0]; rfl, ?_, ?_, ?_, 1, ?_, ?_⟩
  · intro i t ht
    match i, ht with
    | 0, ht => rw [h0] at ht; simp at ht; rcases ht with rfl | rfl <;> decide
    | 1, ht => rw [h1] at ht; cases ht
    | i + 2, ht => rw [h2] at ht; cases ht
  · intro i
    by_cases h : i = 1 <;> simp [demoRefused, h, demoEnum, demoOut]
  · refine .push (by rw [h0]; rfl) (by rw [h0]; rfl) ?_
    rw [h0]
    have v1 : Visits n 1 [1] := .last (by rw [h1]; rfl) (by rw [h1]; rfl)
    have v2 : Visits n 2 [2] := .push (by rw [h2 0]; rfl) (by rw [h2 0]; rfl)
      (by rw [h2 0]; exact .nil)
    exact .cons v1 (.cons v2 .nil)
  · simp [Before, List.takeWhile_cons, h0, h1, Cell.accepts, demoOut, demoEnum]
  · intro j
    match j with
    | 0 => rw [h0]; exact ⟨by decide, hf, by intro h; cases h⟩
    | 1 => rw [h1]; exact ⟨by decide, hf, by intro h; cases h⟩
    | j + 2 => rw [h2]; exact ⟨by decide, hf, by intro h; cases h⟩
  · exact .step (by rw [h0]; rfl) (by rw [h0]; rfl) (by rw [h0]; simp) (.self (by rw [h1]; rfl))
  · rw [h1]; decide

/-- The hypotheses of `C144_push_partial`: a push after a refused write, refused again. -/
example : ∃ n, run id 9 demoRefused [.connect 0 1, .connect 0 2, .set 0 ⟨.Int32, .int 7⟩] = some n ∧
    Acyclic n ∧ (n 0).kind ≠ .None ∧ Any.Ok (n 0).get ∧ (∀ j, (n j).Fits (n 0).value) ∧
    ∃ j ∈ (n 0).targets, (n j).accepts (n 0).value = false := by
  obtain ⟨n, hn, h0, h1, h2⟩ : ∃ n, run id 9 demoRefused
      [.connect 0 1, .connect 0 2, .set 0 ⟨.Int32, .int 7⟩] = some n ∧
      n 0 = { demoOut 7 with targets := [1, 2] } ∧ n 1 = demoEnum ∧
      ∀ j, n (j + 2) = demoOut 0 := by
    refine ⟨_, rfl, rfl, rfl, ?_⟩
    intro j
    by_cases h : j = 0
    · subst h; rfl
    · simp [Net.set, h, demoRefused, demoOut]
  have hf : Any.Ok ⟨.Int32, .int 7⟩ := by simp only [Any.Ok, Verif.Any.Kind.Range]; omega
  refine ⟨n, hn, ⟨fun i => 1 - i, ?_⟩, by rw [h0]; decide, by rw [h0]; exact hf, ?_, 1, ?_, ?_⟩
  · intro i t ht
    match i, ht with
    | 0, ht => rw [h0] at ht; simp at ht; rcases ht with rfl | rfl <;> decide
    | 1, ht => rw [h1] at ht; cases ht
    | i + 2, ht => rw [h2] at ht; cases ht
  · intro j
    rw [show (n 0).value = .int 7 by rw [h0]; rfl]
    match j with
    | 0 => rw [h0]; exact ⟨by decide, hf, by intro h; cases h⟩
    | 1 => rw [h1]; exact ⟨by decide, hf, by intro h; cases h⟩
    | j + 2 => rw [h2]; exact ⟨by decide, hf, by intro h; cases h⟩
  · rw [h0]; simp
  · rw [h1, h0]; decide

/-- The hypothesis of `C144_unconverted`: a string given to a number. -/
example : coerce id (demoOut 0).kind (demoOut 0).len ⟨.String8, .str (some [])⟩ = .throw := by
  decide

end Verif.Field
