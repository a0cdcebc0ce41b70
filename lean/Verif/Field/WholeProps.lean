import Verif.Field.Whole

/-! Property C162: arrays assigned to array fields as a whole. -/
namespace Verif.Field.Whole
open Verif.Any (Kind Fl Val Any Out)

/-! ### Specification -/

mutual
/-- The simple fields of an array field, from the first to the last. -/
def Item.fields : Item → List Nat
  | .simple i => [i]
  | .array ts => fieldsOf ts

/-- See `Item.fields`. -/
def fieldsOf : List Item → List Nat
  | [] => []
  | t :: ts => t.fields ++ fieldsOf ts
end

mutual
/-- The simple values of an array, from the first to the last. -/
def Value.parts : Value → List Val
  | .one v => [v]
  | .many vs => partsOf vs

/-- See `Value.parts`. -/
def partsOf : List Value → List Val
  | [] => []
  | v :: vs => v.parts ++ partsOf vs
end

mutual
/-- The value has the type of the field: as many elements on each level. -/
def Item.Typed : Item → Value → Prop
  | .simple _ => fun v => match v with
    | .one _ => True
    | .many _ => False
  | .array ts => fun v => match v with
    | .one _ => False
    | .many vs => TypedAll ts vs

/-- See `Item.Typed`. -/
def TypedAll : List Item → List Value → Prop
  | [] => fun vs => vs = []
  | t :: ts => fun vs => match vs with
    | [] => False
    | v :: vs => t.Typed v ∧ TypedAll ts vs
end

/-- The simple fields with the values they are to get. -/
def pairs (t : Item) (v : Value) : List (Nat × Val) := t.fields.zip v.parts

/-- `m` is `n` after the writes: each field has the value of the last of the writes that get to it,
through the connections and past no forced field; a field that none gets to is as it was. -/
def After (n m : Net) (ws : List (Nat × Val)) : Prop :=
  (∀ j, (∀ w ∈ ws, ¬ Reach n w.1 j) → m j = n j) ∧
  ∀ l w r j, ws = l ++ w :: r → Reach n w.1 j → (∀ u ∈ r, ¬ Reach n u.1 j) →
    m j = { n j with value := w.2 }

/-- No field of the array gets, through connections, the value of another one of it. -/
def Apart (n : Net) (t : Item) : Prop :=
  t.fields.Nodup ∧ ∀ i ∈ t.fields, ∀ j ∈ t.fields, Reach n i j → i = j

/-! ### Lemmas -/

/-- Writes one after the other. -/
def seq (narrow : Fl → Fl) (f : Nat) (n : Net) : List (Nat × Val) → Res
  | [] => .ok n
  | w :: ws => match assign narrow f n w.1 w.2 with
    | .ok n' => seq narrow f n' ws
    | r => r

theorem seq_append (narrow : Fl → Fl) (f : Nat) (as bs : List (Nat × Val)) : ∀ n,
    seq narrow f n (as ++ bs) = match seq narrow f n as with
      | .ok n' => seq narrow f n' bs
      | r => r := by
  induction as with
  | nil => intro n; rfl
  | cons a as ih =>
    intro n
    simp only [List.cons_append, seq]
    cases assign narrow f n a.1 a.2 with
    | ok n' => exact ih n'
    | _ => rfl

mutual
theorem typed_length : ∀ (t : Item) (v : Value), t.Typed v → t.fields.length = v.parts.length
  | .simple i, .one v, _ => by simp [Item.fields, Value.parts]
  | .simple i, .many vs, h => by simp [Item.Typed] at h
  | .array ts, .one v, h => by simp [Item.Typed] at h
  | .array ts, .many vs, h => by
    simp only [Item.Typed] at h
    simp only [Item.fields, Value.parts]
    exact typedAll_length ts vs h

theorem typedAll_length : ∀ (ts : List Item) (vs : List Value), TypedAll ts vs →
    (fieldsOf ts).length = (partsOf vs).length
  | [], vs, h => by
    simp only [TypedAll] at h
    subst h; simp [fieldsOf, partsOf]
  | t :: ts, [], h => by simp [TypedAll] at h
  | t :: ts, v :: vs, h => by
    simp only [TypedAll] at h
    simp only [fieldsOf, partsOf, List.length_append]
    rw [typed_length t v h.1, typedAll_length ts vs h.2]
end

mutual
theorem assignTo_seq (narrow : Fl → Fl) (f : Nat) : ∀ (t : Item) (v : Value), t.Typed v → ∀ n,
    assignTo narrow f t n v = seq narrow f n (t.fields.zip v.parts)
  | .simple i, .one v, _ => fun n => by
    simp only [assignTo, Item.fields, Value.parts, List.zip_cons_cons, List.zip_nil_right, seq]
    cases assign narrow f n i v <;> rfl
  | .simple i, .many vs, h => by simp [Item.Typed] at h
  | .array ts, .one v, h => by simp [Item.Typed] at h
  | .array ts, .many vs, h => fun n => by
    simp only [Item.Typed] at h
    simp only [assignTo, Item.fields, Value.parts]
    exact copyTo_seq narrow f ts vs h n

theorem copyTo_seq (narrow : Fl → Fl) (f : Nat) : ∀ (ts : List Item) (vs : List Value),
    TypedAll ts vs → ∀ n, copyTo narrow f ts n vs = seq narrow f n ((fieldsOf ts).zip (partsOf vs))
  | [], vs, h => fun n => by
    simp only [TypedAll] at h
    subst h
    simp [copyTo, fieldsOf, partsOf, seq]
  | t :: ts, [], h => by simp [TypedAll] at h
  | t :: ts, v :: vs, h => fun n => by
    simp only [TypedAll] at h
    simp only [copyTo, fieldsOf, partsOf]
    rw [List.zip_append (typed_length t v h.1), seq_append, assignTo_seq narrow f t v h.1 n]
    cases seq narrow f n (t.fields.zip v.parts) with
    | ok n' => exact copyTo_seq narrow f ts vs h.2 n'
    | _ => rfl
end

mutual
theorem readOf_eq (m : Net) : ∀ (t : Item) (v : Value), t.Typed v →
    (∀ w ∈ t.fields.zip v.parts, (m w.1).value = w.2) → readOf m t = v
  | .simple i, .one v, _, h => by
    have := h (i, v) (by simp [Item.fields, Value.parts])
    simp only [readOf]
    exact congrArg Value.one this
  | .simple i, .many vs, h, _ => by simp [Item.Typed] at h
  | .array ts, .one v, h, _ => by simp [Item.Typed] at h
  | .array ts, .many vs, h, hv => by
    simp only [Item.Typed] at h
    simp only [Item.fields, Value.parts] at hv
    simp only [readOf]
    rw [copyFrom_eq m ts vs h hv]

theorem copyFrom_eq (m : Net) : ∀ (ts : List Item) (vs : List Value), TypedAll ts vs →
    (∀ w ∈ (fieldsOf ts).zip (partsOf vs), (m w.1).value = w.2) → copyFrom m ts = vs
  | [], vs, h, _ => by
    simp only [TypedAll] at h
    subst h; simp [copyFrom]
  | t :: ts, [], h, _ => by simp [TypedAll] at h
  | t :: ts, v :: vs, h, hv => by
    simp only [TypedAll] at h
    simp only [fieldsOf, partsOf] at hv
    rw [List.zip_append (typed_length t v h.1)] at hv
    simp only [copyFrom]
    rw [readOf_eq m t v h.1 fun w hw => hv w (List.mem_append_left _ hw),
      copyFrom_eq m ts vs h.2 fun w hw => hv w (List.mem_append_right _ hw)]
end

mutual
theorem readOf_typed (m : Net) : ∀ (t : Item), t.Typed (readOf m t) ∧
    (readOf m t).parts = t.fields.map fun i => (m i).value
  | .simple i => by simp [readOf, Item.Typed, Item.fields, Value.parts]
  | .array ts => by
    have := copyFrom_typed m ts
    simp only [readOf, Item.Typed, Item.fields, Value.parts]
    exact this

theorem copyFrom_typed (m : Net) : ∀ (ts : List Item), TypedAll ts (copyFrom m ts) ∧
    partsOf (copyFrom m ts) = (fieldsOf ts).map fun i => (m i).value
  | [] => by simp [copyFrom, TypedAll, fieldsOf, partsOf]
  | t :: ts => by
    have h1 := readOf_typed m t
    have h2 := copyFrom_typed m ts
    simp only [copyFrom, TypedAll, fieldsOf, partsOf, List.map_append]
    rw [h1.2, h2.2]
    exact ⟨⟨h1.1, h2.1⟩, rfl⟩
end

/-- The writes one after the other, for nets whose connections have no cycle. -/
theorem seq_after (narrow : Fl → Fl) (n : Net) (rank : Nat → Nat)
    (hrank : ∀ i, ∀ t ∈ (n i).targets, rank t < rank i)
    (hkind : ∀ i, ∀ t ∈ (n i).targets, (n t).kind = (n i).kind) (ws : List (Nat × Val)) :
    ∀ m, (∀ j, ∃ v, m j = { n j with value := v }) →
      (∀ w ∈ ws, ∀ j, Reach n w.1 j → (n j).Fits w.2 ∧ (n j).accepts w.2 = true) →
      ∃ m', Returns (fun f => seq narrow f m ws) m' ∧
        (∀ j, (∀ w ∈ ws, ¬ Reach n w.1 j) → m' j = m j) ∧
        ∀ l w r j, ws = l ++ w :: r → Reach n w.1 j → (∀ u ∈ r, ¬ Reach n u.1 j) →
          m' j = { n j with value := w.2 } := by
  induction ws with
  | nil =>
    intro m _ _
    exact ⟨m, ⟨0, fun _ _ => rfl⟩, fun _ _ => rfl, fun l w r j h => by simp at h⟩
  | cons w ws ih =>
    intro m hm hfit
    have same : ∀ j, (m j).held = (n j).held ∧ (m j).connectable = (n j).connectable ∧
        (m j).targets = (n j).targets ∧ (m j).kind = (n j).kind ∧
        (∀ x, (m j).Fits x ↔ (n j).Fits x) ∧ ∀ x, (m j).accepts x = (n j).accepts x := by
      intro j
      obtain ⟨v, hv⟩ := hm j
      rw [hv]
      exact ⟨rfl, rfl, rfl, rfl, fun _ => Iff.rfl, fun _ => rfl⟩
    have reach : ∀ i j, Reach m i j ↔ Reach n i j := fun i j =>
      ⟨fun h => h.mono (fun j => (same j).1.symm) (fun j => (same j).2.1.symm)
        (fun j => (same j).2.2.1.symm),
       fun h => h.mono (fun j => (same j).1) (fun j => (same j).2.1) (fun j => (same j).2.2.1)⟩
    -- the first write
    obtain ⟨m1, hr1, hp1⟩ : ∃ m1, Returns (fun f => assign narrow f m w.1 w.2) m1 ∧
        Painted m w.2 (fun j => Reach n w.1 j) m1 := by
      cases hh : (n w.1).held with
      | true =>
        refine ⟨m, ⟨0, fun f _ => ?_⟩, fun j => ⟨fun h => (reach_held hh h).elim, fun _ => rfl⟩⟩
        show store _ m w.1 w.2 = _
        unfold store
        rw [if_pos (by rw [(same w.1).1]; exact hh)]
      | false =>
        have hf := (hfit w (List.mem_cons_self ..) w.1 (.self hh)).1
        have hk := (same w.1).2.2.2.1
        have P := fun f (h : rank w.1 ≤ f) => paint narrow m w.2 rank
          (fun i t ht => hrank i t (by rw [← (same i).2.2.1]; exact ht))
          (fun i t ht => by
            rw [(same t).2.2.2.1, (same i).2.2.2.1]
            exact hkind i t (by rw [← (same i).2.2.1]; exact ht))
          f w.1 m _ (painted_self m w.2) h (by rw [hk]; exact hf.1) (by rw [hk]; exact hf.2.1)
          (fun j hj => by
            have := hfit w (List.mem_cons_self ..) j ((reach w.1 j).1 hj)
            exact ⟨((same j).2.2.2.2.1 w.2).2 this.1, by rw [(same j).2.2.2.2.2]; exact this.2⟩)
        obtain ⟨m1, hm1, hp⟩ := P (rank w.1) (Nat.le_refl _)
        refine ⟨m1, ⟨rank w.1, fun f hf => ?_⟩, hp.congr fun j => ?_⟩
        · obtain ⟨m', hm', hp'⟩ := P f hf
          rw [painted_unique hp hp']
          exact hm'
        · rw [reach]
          exact ⟨fun h => h.elim False.elim id, Or.inr⟩
    have hm1 : ∀ j, ∃ v, m1 j = { n j with value := v } := by
      intro j
      obtain ⟨v, hv⟩ := hm j
      obtain ⟨u, hu⟩ := hp1.cell j
      exact ⟨u, by rw [hu, hv]⟩
    obtain ⟨m', hr, h1, h2⟩ := ih m1 hm1 fun u hu => hfit u (List.mem_cons_of_mem _ hu)
    refine ⟨m', ?_, ?_, ?_⟩
    · obtain ⟨F1, hF1⟩ := hr1
      obtain ⟨F2, hF2⟩ := hr
      refine ⟨max F1 F2, fun f hf => ?_⟩
      have e1 := hF1 f (by omega)
      have e2 := hF2 f (by omega)
      dsimp only at e1 e2
      simp only [seq, e1, e2]
    · intro j hj
      rw [h1 j fun u hu => hj u (List.mem_cons_of_mem _ hu)]
      exact (hp1 j).2 (hj w (List.mem_cons_self ..))
    · intro l u r j he hu hr'
      cases l with
      | nil =>
        obtain ⟨rfl, rfl⟩ : w = u ∧ ws = r := by simpa using he
        rw [h1 j hr', (hp1 j).1 hu]
        obtain ⟨v, hv⟩ := hm j
        rw [hv]
      | cons a l =>
        obtain ⟨_, he⟩ : w = a ∧ ws = l ++ u :: r := by simpa using he
        exact h2 l u r j he hu hr'

theorem zip_left {t : Item} {v : Value} {w : Nat × Val} (h : w ∈ pairs t v) : w.1 ∈ t.fields :=
  (List.of_mem_zip (a := w.1) (b := w.2) h).1

theorem nodup_zip {as : List Nat} {bs : List Val} {l r : List (Nat × Val)} {w u : Nat × Val}
    (hn : as.Nodup) (h : as.zip bs = l ++ w :: r) (hu : u ∈ r) : u.1 ≠ w.1 := by
  have hs : ((as.zip bs).map Prod.fst).Nodup := by
    refine List.Sublist.nodup ?_ hn
    clear h hn
    induction as generalizing bs with
    | nil => simp
    | cons a as ih =>
      cases bs with
      | nil => simp
      | cons b bs => exact List.Sublist.cons_cons _ ih
  rw [h, List.map_append, List.map_cons] at hs
  have := (List.nodup_cons.1 (List.nodup_append.1 hs).2.1).1
  intro e
  exact this (e ▸ List.mem_map_of_mem hu)

/-! ### Property C162 -/

/-- C162. After any history, when the connections have no cycle and the values fit the fields they get
to: the assignment of an array to a field of its type, of any depth, ends, and every field there is has
the value of the last element that gets to it. -/
theorem C162_assign_partial (narrow : Fl → Fl) (f0 : Nat) (n0 n : Net) (h0 : Unconnected n0)
    (ops : List Op) (hrun : run narrow f0 n0 ops = some n) (hac : Acyclic n) (t : Item) (v : Value)
    (ht : t.Typed v)
    (hfit : ∀ w ∈ pairs t v, ∀ j, Reach n w.1 j → (n j).Fits w.2 ∧ (n j).accepts w.2 = true) :
    ∃ m, Returns (fun f => assignTo narrow f t n v) m ∧ After n m (pairs t v) := by
  obtain ⟨rank, hrank⟩ := hac
  have hw := C58_wired narrow f0 n0 n h0 ops hrun
  obtain ⟨m, ⟨F, hF⟩, h1, h2⟩ := seq_after narrow n rank hrank (fun i t ht => (hw.ok i t ht).2.1)
    (pairs t v) n (fun j => ⟨(n j).value, rfl⟩) hfit
  refine ⟨m, ⟨F, fun f hf => ?_⟩, h1, h2⟩
  have := hF f hf
  dsimp only at this ⊢
  rw [assignTo_seq narrow f t v ht]
  exact this

/-- C162. If no element gets to another one: read back, the field has the elements of the array, but the
forced ones, which are as before. Each field that is connected to an element that is not forced, is not
forced itself and gets nothing from the others, has the value of the element. -/
theorem C162_elements_partial (n m : Net) (t : Item) (v : Value) (ht : t.Typed v) (ha : Apart n t)
    (h : After n m (pairs t v)) :
    (∀ w ∈ pairs t v, (m w.1).value = if (n w.1).held then (n w.1).value else w.2) ∧
    (∀ w ∈ pairs t v, ∀ j, Reach n w.1 j → (∀ i ∈ t.fields, i ≠ w.1 → ¬ Reach n i j) →
      (m j).value = w.2) := by
  have key : ∀ w ∈ pairs t v, ∀ j, Reach n w.1 j → (∀ i ∈ t.fields, i ≠ w.1 → ¬ Reach n i j) →
      (m j).value = w.2 := by
    intro w hw j hr ho
    obtain ⟨l, r, he⟩ := List.append_of_mem hw
    rw [h.2 l w r j he hr fun u hu => ho u.1
      (zip_left (t := t) (v := v) (by rw [he]; exact List.mem_append_right _ (List.mem_cons_of_mem _ hu)))
      (nodup_zip ha.1 he hu)]
  refine ⟨fun w hw => ?_, key⟩
  cases hh : (n w.1).held with
  | false =>
    rw [if_neg (by simp)]
    exact key w hw w.1 (.self hh) fun i hi hne hr => hne (ha.2 i hi w.1 (zip_left hw) hr)
  | true =>
    rw [if_pos rfl, h.1 w.1 fun u hu hr => ?_]
    have := ha.2 u.1 (zip_left hu) w.1 (zip_left hw) hr
    rw [this] at hr
    exact reach_held hh hr

/-- C162. If no element gets to another one and none is forced, the field read as a whole is the array
that was assigned. -/
theorem C162_roundtrip_partial (n m : Net) (t : Item) (v : Value) (ht : t.Typed v) (ha : Apart n t)
    (h : After n m (pairs t v)) (hf : ∀ i ∈ t.fields, (n i).held = false) : readOf m t = v := by
  refine readOf_eq m t v ht fun w hw => ?_
  have := (C162_elements_partial n m t v ht ha h).1 w hw
  rw [hf w.1 (zip_left hw)] at this
  simpa using this

/-- C162. A field assigned with what it is read as, when no element gets to another one, stays as it
is, in whatever state its items are. -/
theorem C162_self_partial (n m : Net) (t : Item) (ha : Apart n t)
    (h : After n m (pairs t (readOf n t))) : readOf m t = readOf n t := by
  have hr := readOf_typed n t
  refine readOf_eq m t _ hr.1 fun w hw => ?_
  have he := (C162_elements_partial n m t _ hr.1 ha h).1 w hw
  have : (n w.1).value = w.2 := by
    have hw' := hw
    rw [hr.2] at hw'
    obtain ⟨k, hk, e⟩ := List.mem_iff_getElem.1 hw'
    rw [← e]
    simp
  rw [he, this]
  split <;> rfl

/-- An array of two rows of two output fields; the first row is connected to other fields. -/
def demo : Item := .array [.array [.simple 0, .simple 1], .array [.simple 2, .simple 3]]

def demoValue : Value := .many [.many [.one (.int 5), .one (.int 6)], .many [.one (.int 7), .one (.int 8)]]

example : demo.Typed demoValue ∧ demo.fields = [0, 1, 2, 3] ∧
    (∃ n, run id 9 demoNet [.connect 0 4, .connect 1 5, .connect 4 6, .freeze 3] = some n ∧
      ∃ m, assignTo id 9 demo n demoValue = .ok m ∧ (m 0).value = .int 5 ∧ (m 3).value = .int 0 ∧
        (m 6).value = .int 5 ∧ (m 5).value = .int 6) :=
  ⟨by simp [demo, demoValue, Item.Typed, TypedAll], by simp [demo, Item.fields, fieldsOf],
   _, rfl, _, rfl, by decide, by decide, by decide, by decide⟩

theorem demo_reach {i j : Nat} (h : Reach demoNet i j) : i = j := by
  cases h with
  | self => rfl
  | step _ _ ht _ => simp [demoNet, demoOut] at ht

/-- The hypotheses of the theorems together. -/
example : ∃ m, Returns (fun f => assignTo id f demo demoNet demoValue) m ∧ readOf m demo = demoValue := by
  have ht : demo.Typed demoValue := by simp [demo, demoValue, Item.Typed, TypedAll]
  have ha : Apart demoNet demo :=
    ⟨by simp [demo, Item.fields, fieldsOf], fun i _ j _ h => demo_reach h⟩
  obtain ⟨m, hm, h⟩ := C162_assign_partial id 9 demoNet demoNet (fun _ => rfl) [] rfl
    ⟨id, fun i t ht => by simp [demoNet, demoOut] at ht⟩ demo demoValue ht (by
      intro w hw j _
      have : w.2 ∈ demoValue.parts := (List.of_mem_zip (a := w.1) (b := w.2) hw).2
      have hp : demoValue.parts = [.int 5, .int 6, .int 7, .int 8] := by
        simp [demoValue, Value.parts, partsOf]
      rw [hp] at this
      have hk : ∀ x ∈ ([.int 5, .int 6, .int 7, .int 8] : List Val), (demoOut 0).Fits x ∧
          (demoOut 0).accepts x = true := by
        intro x hx
        simp only [List.mem_cons, List.not_mem_nil, or_false] at hx
        rcases hx with rfl | rfl | rfl | rfl <;>
          simp [Cell.Fits, Cell.accepts, demoOut, Any.Ok, Verif.Any.Kind.Range]
      exact hk _ this)
  exact ⟨m, hm, C162_roundtrip_partial demoNet m demo demoValue ht ha h fun i _ => rfl⟩

/-- C162 fails: if an element is connected to one before it, the field read back is not the array that
was assigned, although nothing is forced: [5, 6] becomes [6, 6]. -/
theorem C162_connected_fails (narrow : Fl → Fl) : ∃ n : Net,
    run narrow 9 demoNet [.connect 1 0] = some n ∧ Acyclic n ∧
    ∃ m, assignTo narrow 9 (.array [.simple 0, .simple 1]) n (.many [.one (.int 5), .one (.int 6)]) =
        .ok m ∧ (∀ i, (n i).held = false) ∧
      readOf m (.array [.simple 0, .simple 1]) = .many [.one (.int 6), .one (.int 6)] := by
  refine ⟨_, rfl, ⟨id, fun i t ht => ?_⟩, _, rfl, fun i => ?_, rfl⟩
  · by_cases h : i = 1
    · subst h
      have : t ∈ [0] := ht
      simp at this; subst this; decide
    · have h0 : t ∈ ((demoNet.set 1 { demoNet 1 with targets := [0] }).set 0
        { demoNet 0 with value := .int 0 } i).targets := ht
      by_cases h1 : i = 0
      · subst h1; simp [Net.set, demoNet, demoOut] at h0
      · simp [Net.set, h, h1, demoNet, demoOut] at h0
  · by_cases h : i = 0
    · subst h; rfl
    · by_cases h1 : i = 1
      · subst h1; rfl
      · show ((demoNet.set 1 { demoNet 1 with targets := [0] }).set 0
          { demoNet 0 with value := .int 0 } i).held = false
        simp [Net.set, h, h1, demoNet, demoOut, Cell.held]

end Verif.Field.Whole
