import Verif.Field.Arrays

/-! Properties C59, and C58 and C60, for arrays of simple items. -/
namespace Verif.Field
open Verif.Any (Kind Fl Val Any Out)

/-! ### Specification -/

/-- Field `i` has the elements `vs` and nothing else has changed. -/
def Elements (n m : Arrs) (i : Nat) (vs : List Val) : Prop :=
  m i = { n i with values := vs } ∧ ∀ j, j ≠ i → m j = n j

/-- The element is refused by `SetValues`: it is not of the kind of the items, or cannot be
converted. -/
def Refused (narrow : Fl → Fl) (c : Arr) (a : Any) : Prop :=
  (c.style ≠ .anonymous ∧ a.type ≠ c.kind) ∨ c.item narrow a = .throw

/-- The value suits the items of the array. -/
def Suits (c : Arr) (a : Any) : Prop :=
  a.type = c.kind ∧ c.kind ≠ .None ∧ c.kind ≠ .String8 ∧ Any.Ok a

/-! ### Lemmas -/

theorem elements_set (n : Arrs) (i : Nat) (vs : List Val) :
    Elements n (n.set i { n i with values := vs }) i vs :=
  ⟨by simp [Arrs.set], fun j h => by simp [Arrs.set, h]⟩

theorem Elements.eq {n m : Arrs} {i : Nat} {vs : List Val} (h : Elements n m i vs) :
    m = n.set i { n i with values := vs } := by
  funext j
  by_cases hj : j = i
  · subst hj; simp [Arrs.set, h.1]
  · simp [Arrs.set, hj, h.2 j hj]

theorem Elements.trans {n m l : Arrs} {i : Nat} {vs ws : List Val} (h : Elements n m i vs)
    (h' : Elements m l i ws) : Elements n l i ws :=
  ⟨by rw [h'.1, h.1], fun j hj => by rw [h'.2 j hj, h.2 j hj]⟩

theorem aset_cases (narrow : Fl → Fl) (n : Arrs) (i k : Nat) (a : Any) :
    (k < (n i).values.length ∧ ∃ v m, (n i).item narrow a = .ok v ∧ aset narrow n i k a = .ok m ∧
      Elements n m i ((n i).values.set k v)) ∨
    (((n i).values.length ≤ k ∨ (n i).item narrow a = .throw) ∧
      aset narrow n i k a = .raised n) ∨
    (k < (n i).values.length ∧ (n i).item narrow a = .ub ∧ aset narrow n i k a = .ub) := by
  unfold aset
  by_cases h : (n i).values.length ≤ k
  · rw [if_pos h]; exact Or.inr (Or.inl ⟨Or.inl h, rfl⟩)
  · rw [if_neg h]
    have h' : k < (n i).values.length := by omega
    cases hi : (n i).item narrow a with
    | ok v => exact Or.inl ⟨h', v, _, rfl, rfl, elements_set _ _ _⟩
    | throw => exact Or.inr (Or.inl ⟨Or.inr rfl, rfl⟩)
    | ub => exact Or.inr (Or.inr ⟨h', rfl, rfl⟩)

theorem Elements.item {n m : Arrs} {i : Nat} {vs : List Val} (h : Elements n m i vs)
    (narrow : Fl → Fl) : (m i).item narrow = (n i).item narrow := by
  rw [h.1]; rfl

theorem Elements.refused {n m : Arrs} {i : Nat} {vs : List Val} (h : Elements n m i vs)
    (narrow : Fl → Fl) (a : Any) : Refused narrow (m i) a ↔ Refused narrow (n i) a := by
  unfold Refused
  rw [h.item, h.1]

theorem set_take_drop {α} (l : List α) (k : Nat) (v : α) (h : k < l.length) :
    l.set k v = l.take k ++ [v] ++ l.drop (k + 1) := by
  rw [List.set_eq_take_append_cons_drop, if_pos h]
  simp

theorem replace_step {α} (l vs : List α) (k : Nat) (v : α) (h : k < l.length) :
    (l.set k v).take (k + 1) ++ vs ++ (l.set k v).drop (k + 1 + vs.length) =
      l.take k ++ (v :: vs) ++ l.drop (k + (v :: vs).length) := by
  have h1 : (l.set k v).take (k + 1) = l.take k ++ [v] := by
    rw [set_take_drop l k v h, List.take_left' (by simp; omega)]
  have h2 : (l.set k v).drop (k + 1 + vs.length) = l.drop (k + (v :: vs).length) := by
    rw [List.drop_set_of_lt (by omega)]
    congr 1
    simp only [List.length_cons]
    omega
  rw [h1, h2]
  simp

theorem asetLoop_spec (narrow : Fl → Fl) (i : Nat) (as : List Any) : ∀ (n : Arrs) (k : Nat),
    k + as.length ≤ (n i).values.length →
    match asetLoop narrow n i k as with
    | .ok m => ∃ vs : List Val, as.map ((n i).item narrow) = vs.map .ok ∧
        (∀ a ∈ as, ¬ Refused narrow (n i) a) ∧
        Elements n m i ((n i).values.take k ++ vs ++ (n i).values.drop (k + vs.length))
    | .raised m => ∃ (as1 : List Any) (a : Any) (as2 : List Any) (vs : List Val),
        as = as1 ++ a :: as2 ∧
        as1.map ((n i).item narrow) = vs.map .ok ∧ (∀ a ∈ as1, ¬ Refused narrow (n i) a) ∧
        Refused narrow (n i) a ∧
        Elements n m i ((n i).values.take k ++ vs ++ (n i).values.drop (k + vs.length))
    | .ub => ∃ a ∈ as, (n i).item narrow a = .ub := by
  induction as with
  | nil =>
    intro n k _
    exact ⟨[], rfl, by simp, by simp, fun _ _ => rfl⟩
  | cons a as ih =>
    intro n k hk
    simp only [List.length_cons] at hk
    have self : Elements n n i ((n i).values.take k ++ [] ++
        (n i).values.drop (k + ([] : List Val).length)) := ⟨by simp, fun _ _ => rfl⟩
    unfold asetLoop
    by_cases hty : (n i).style ≠ .anonymous ∧ a.type ≠ (n i).kind
    · rw [if_pos hty]
      exact ⟨[], a, as, [], rfl, rfl, by simp, Or.inl hty, self⟩
    · rw [if_neg hty]
      rcases aset_cases narrow n i k a with ⟨hlt, v, m, hv, hm, he⟩ | ⟨hbad, hm⟩ | ⟨_, hub, hm⟩
      · rw [hm]
        have hmi : (m i).values = (n i).values.set k v := by rw [he.1]
        have hnr : ¬ Refused narrow (n i) a := by
          rintro (h | h)
          · exact hty h
          · rw [hv] at h; cases h
        have := ih m (k + 1) (by rw [hmi, List.length_set]; omega)
        simp only
        rw [he.item, hmi] at this
        revert this
        cases asetLoop narrow m i (k + 1) as with
        | ok l =>
          rintro ⟨vs, h1, h2, h3⟩
          refine ⟨v :: vs, by simp [hv, h1], ?_, ?_⟩
          · intro b hb
            rcases List.mem_cons.1 hb with rfl | hb
            · exact hnr
            · rw [← he.refused]; exact h2 b hb
          · rw [replace_step _ _ _ _ hlt] at h3
            exact he.trans h3
        | raised l =>
          rintro ⟨as1, b, as2, vs, rfl, h1, h2, h3, h4⟩
          refine ⟨a :: as1, b, as2, v :: vs, rfl, by simp [hv, h1], ?_, ?_, ?_⟩
          · intro c hc
            rcases List.mem_cons.1 hc with rfl | hc
            · exact hnr
            · rw [← he.refused]; exact h2 c hc
          · rw [← he.refused]; exact h3
          · rw [replace_step _ _ _ _ hlt] at h4
            exact he.trans h4
        | ub =>
          rintro ⟨b, hb, h⟩
          exact ⟨b, List.mem_cons_of_mem _ hb, h⟩
      · rw [hm]
        rcases hbad with h | h
        · omega
        · exact ⟨[], a, as, [], rfl, rfl, by simp, Or.inr h, self⟩
      · rw [hm]
        exact ⟨a, List.mem_cons_self, hub⟩

theorem suits_item (narrow : Fl → Fl) (c : Arr) (a : Any) (h : Suits c a) :
    c.item narrow a = .ok a.value := by
  obtain ⟨h1, h2, h3, h4⟩ := h
  have key : ∀ l, coerce narrow c.kind l a = .ok a.value := by
    intro l
    have := coerce_same narrow ⟨c.kind, l, false, false, false, false, none, a.value, false, []⟩
      a.value ⟨h2, by
        have e : a = ⟨c.kind, a.value⟩ := by rw [← h1]
        rw [e] at h4; exact h4, fun h => absurd h h3⟩
    rw [← h1] at this ⊢
    exact this
  unfold Arr.item
  cases c.style with
  | plain => simp only; rw [if_neg (by simp [h1])]; exact key _
  | published => simp only; rw [if_neg h3]; exact key _
  | anonymous => simp only; rw [if_neg h3]; exact key _

theorem suits_get (c : Arr) (k : Nat) (v : Val) (hv : c.values[k]? = some v)
    (h2 : c.kind ≠ .None) (h3 : c.kind ≠ .String8) : c.get k = .ok ⟨c.kind, v⟩ := by
  simp [Arr.get, hv, h2, h3]

theorem suits_not_refused (narrow : Fl → Fl) (c : Arr) (a : Any) (h : Suits c a) :
    ¬ Refused narrow c a := by
  rintro (⟨_, h'⟩ | h')
  · exact h' h.1
  · rw [suits_item narrow c a h] at h'; cases h'

/-! ### C59 -/

/-- C59. An index outside the array: `GetValue` and `SetValue` raise, nothing changes. -/
theorem C59_index (narrow : Fl → Fl) (n : Arrs) (i k : Nat) (h : (n i).values.length ≤ k) :
    (n i).get k = .throw ∧ ∀ a, aset narrow n i k a = .raised n := by
  constructor
  · simp [Arr.get, List.getElem?_eq_none h]
  · intro a; simp [aset, h]

/-- C59. A wrong length: `GetValues` and `SetValues` raise, nothing changes. -/
theorem C59_length (narrow : Fl → Fl) (n : Arrs) (i : Nat) (as : List Any)
    (h : as.length ≠ (n i).values.length) :
    (n i).getAll as.length = .throw ∧ asetAll narrow n i as = .raised n := by
  simp [Arr.getAll, asetAll, h]

/-- C59. `SetValue` that raises changes nothing; one that returns changes the addressed element
only. -/
theorem C59_set (narrow : Fl → Fl) (n : Arrs) (i k : Nat) (a : Any) :
    (∀ m, aset narrow n i k a = .raised m → m = n) ∧
    (∀ m, aset narrow n i k a = .ok m → k < (n i).values.length ∧ ∃ v,
      (n i).item narrow a = .ok v ∧ Elements n m i ((n i).values.set k v)) := by
  constructor
  · intro m h
    rcases aset_cases narrow n i k a with ⟨_, v, m', _, hm, _⟩ | ⟨_, hm⟩ | ⟨_, _, hm⟩ <;>
      rw [hm] at h <;> cases h
    rfl
  · intro m h
    rcases aset_cases narrow n i k a with ⟨hlt, v, m', hv, hm, he⟩ | ⟨_, hm⟩ | ⟨_, _, hm⟩ <;>
      rw [hm] at h <;> cases h
    exact ⟨hlt, v, hv, he⟩

/-- C59. `SetValue` of a value of the kind of the items, at an index of the array, returns, and
the value is read back. -/
theorem C59_set_get (narrow : Fl → Fl) (n : Arrs) (i k : Nat) (a : Any)
    (hk : k < (n i).values.length) (ha : Suits (n i) a) :
    ∃ m, aset narrow n i k a = .ok m ∧ (m i).get k = .ok a ∧
      (∀ k', k' ≠ k → (m i).get k' = (n i).get k') ∧ ∀ j, j ≠ i → m j = n j := by
  have hv := suits_item narrow (n i) a ha
  rcases aset_cases narrow n i k a with ⟨_, v, m, hv', hm, he⟩ | ⟨h, _⟩ | ⟨_, h, _⟩
  · rw [hv] at hv'
    cases hv'
    refine ⟨m, hm, ?_, ?_, he.2⟩
    · rw [suits_get (m i) k a.value (by rw [he.1]; simp [hk]) (by rw [he.1]; exact ha.2.1)
        (by rw [he.1]; exact ha.2.2.1), he.1]
      simp only [← ha.1]
    · intro k' hk'
      unfold Arr.get
      rw [he.1]
      simp only [List.getElem?_set_ne (Ne.symm hk')]
  · rcases h with h | h
    · omega
    · rw [hv] at h; cases h
  · rw [hv] at h; cases h

/-- C59. `SetValues` that returns has replaced each element by the converted value. -/
theorem C59_setAll (narrow : Fl → Fl) (n m : Arrs) (i : Nat) (as : List Any)
    (h : asetAll narrow n i as = .ok m) :
    as.length = (n i).values.length ∧ (∀ a ∈ as, ¬ Refused narrow (n i) a) ∧
    ∃ vs : List Val, as.map ((n i).item narrow) = vs.map .ok ∧ Elements n m i vs := by
  unfold asetAll at h
  split at h
  · cases h
  · rename_i hl
    simp only [ne_eq, Decidable.not_not] at hl
    have := asetLoop_spec narrow i as n 0 (by omega)
    rw [h] at this
    obtain ⟨vs, h1, h2, h3⟩ := this
    refine ⟨hl, h2, vs, h1, ?_⟩
    have hlen : vs.length = as.length := by
      have := congrArg List.length h1
      simpa using this.symm
    simpa [hlen, hl] using h3

/-- C59. `SetValues` with the right number of values, all of the kind of the items, returns, and
`GetValues` gives them back. -/
theorem C59_setAll_get (narrow : Fl → Fl) (n : Arrs) (i : Nat) (as : List Any)
    (hl : as.length = (n i).values.length) (ha : ∀ a ∈ as, Suits (n i) a) :
    ∃ m, asetAll narrow n i as = .ok m ∧ (m i).getAll as.length = .ok as ∧
      ∀ j, j ≠ i → m j = n j := by
  have hspec := asetLoop_spec narrow i as n 0 (by omega)
  cases hr : asetLoop narrow n i 0 as with
  | raised m =>
    rw [hr] at hspec
    obtain ⟨as1, a, as2, vs, rfl, _, _, h, _⟩ := hspec
    exact absurd h (suits_not_refused narrow (n i) a (ha a (by simp)))
  | ub =>
    rw [hr] at hspec
    obtain ⟨a, hm, h⟩ := hspec
    rw [suits_item narrow _ _ (ha a hm)] at h
    cases h
  | ok m =>
    have hm : asetAll narrow n i as = .ok m := by simp [asetAll, hl, hr]
    obtain ⟨_, _, vs, h1, he⟩ := C59_setAll narrow n m i as hm
    refine ⟨m, hm, ?_, he.2⟩
    have hvs : vs = as.map Any.value := by
      have : as.map ((n i).item narrow) = (as.map Any.value).map .ok := by
        rw [List.map_map]
        exact List.map_congr_left fun a h => suits_item narrow _ _ (ha a h)
      rw [this] at h1
      have inj : Function.Injective (Out.ok : Val → Out Val) := fun a b h => by cases h; rfl
      exact ((List.map_inj_right fun a b => @inj a b).1 h1).symm
    have hmv : (m i).values = as.map Any.value := by rw [he.1, hvs]
    have hmk : (m i).kind = (n i).kind := by rw [he.1]
    unfold Arr.getAll
    rw [if_neg (by simp [hmv])]
    have key : ∀ (k : Nat) (bs : List Any), as.drop k = bs →
        (List.range' k bs.length).foldr (fun k acc => match (m i).get k, acc with
          | .ok a, .ok l => .ok (a :: l)
          | .ub, _ => .ub
          | .throw, _ => .throw
          | _, r => r) (Out.ok []) = Out.ok bs := by
      intro k bs
      induction bs generalizing k with
      | nil => intro _; rfl
      | cons b bs ih =>
        intro hd
        have hb : as[k]? = some b := by
          have := congrArg (·[0]?) hd
          simpa using this
        have hmem : b ∈ as := List.mem_of_getElem? hb
        have hsb := ha b hmem
        have hd' : as.drop (k + 1) = bs := by
          rw [← List.drop_drop, hd]; rfl
        simp only [List.length_cons, List.range'_succ, List.foldr_cons]
        rw [ih (k + 1) hd', suits_get (m i) k b.value (by rw [hmv]; simp [hb])
          (by rw [hmk]; exact hsb.2.1) (by rw [hmk]; exact hsb.2.2.1), hmk, ← hsb.1]
    rw [List.range_eq_range']
    exact key 0 as rfl

/-- C59, partial. `SetValues` that raises: the elements before the first refused value have been
replaced, the others are unchanged. The property asks that none be replaced: this holds when the
length is wrong or the first value is refused. -/
theorem C59_setAll_partial (narrow : Fl → Fl) (n m : Arrs) (i : Nat) (as : List Any)
    (h : asetAll narrow n i as = .raised m) :
    (as.length ≠ (n i).values.length ∧ m = n) ∨
    (∃ (as1 : List Any) (a : Any) (as2 : List Any) (vs : List Val), as = as1 ++ a :: as2 ∧
      (∀ b ∈ as1, ¬ Refused narrow (n i) b) ∧ Refused narrow (n i) a ∧
      as1.map ((n i).item narrow) = vs.map .ok ∧
      Elements n m i (vs ++ (n i).values.drop vs.length) ∧ (as1 = [] → m = n)) := by
  unfold asetAll at h
  split at h
  · rename_i hl; cases h; exact Or.inl ⟨hl, rfl⟩
  · rename_i hl
    simp only [ne_eq, Decidable.not_not] at hl
    have := asetLoop_spec narrow i as n 0 (by omega)
    rw [h] at this
    obtain ⟨as1, a, as2, vs, h1, h2, h3, h4, h5⟩ := this
    refine Or.inr ⟨as1, a, as2, vs, h1, h3, h4, h2, by simpa using h5, ?_⟩
    rintro rfl
    have hv : vs = [] := by simpa using h2.symm
    subst hv
    funext j
    by_cases hj : j = i
    · subst hj; rw [h5.1]; simp
    · exact h5.2 j hj

/-- Three `Int32` elements. -/
def demoArr (style : Style) (out : Bool) : Arr :=
  ⟨style, .Int32, none, true, out, out, [.int 1, .int 2, .int 3], []⟩

/-- C59 fails: a `SetValues` refused because of its second value has changed the first
element. -/
theorem C59_fails (narrow : Fl → Fl) (s : Style) : ∃ n m : Arrs,
    asetAll narrow n 0 [⟨.Int32, .int 9⟩, ⟨.Bool, .bool true⟩, ⟨.Int32, .int 9⟩] = .raised m ∧
    (m 0).values = [.int 9, .int 2, .int 3] ∧ (n 0).values = [.int 1, .int 2, .int 3] := by
  refine ⟨fun _ => demoArr s false, ?_⟩
  cases s <;> exact ⟨_, rfl, rfl, rfl⟩

example : Suits (demoArr .plain true) ⟨.Int32, .int 9⟩ := by
  refine ⟨rfl, by decide, by decide, ?_⟩
  simp only [Any.Ok, Verif.Any.Kind.Range]
  omega

/-! ### C58 -/

theorem apush_spec (narrow : Fl → Fl) (i k : Nat) (v : Val) (ts : List Nat) : ∀ (n : Arrs),
    ts.Nodup → i ∉ ts → (n i).values[k]? = some v →
    (∀ t ∈ ts, k < (n t).values.length ∧ Suits (n t) ⟨(n i).kind, v⟩) →
    (n i).kind ≠ .None → (n i).kind ≠ .String8 →
    ∃ m, apush narrow n i k ts = .ok m ∧
      (∀ t ∈ ts, m t = { n t with values := (n t).values.set k v }) ∧
      (∀ j, j ∉ ts → m j = n j) := by
  induction ts with
  | nil => intro n _ _ _ _ _ _; exact ⟨n, rfl, by simp, fun _ _ => rfl⟩
  | cons t ts ih =>
    intro n hnd hi hv hs h1 h2
    simp only [List.nodup_cons] at hnd
    simp only [List.mem_cons, not_or] at hi
    have ht := hs t List.mem_cons_self
    unfold apush
    rw [suits_get (n i) k v hv h1 h2]
    rcases aset_cases narrow n t k ⟨(n i).kind, v⟩ with ⟨_, w, m, hw, hm, he⟩ | ⟨h, _⟩ | ⟨_, h, _⟩
    · rw [suits_item narrow _ _ ht.2] at hw
      cases hw
      simp only [hm]
      have hmi : m i = n i := he.2 i hi.1
      have hmt : ∀ t' ∈ ts, m t' = n t' := fun t' h' => he.2 t' fun e => hnd.1 (e ▸ h')
      obtain ⟨l, hl, hl1, hl2⟩ := ih m hnd.2 hi.2 (by rw [hmi]; exact hv)
        (fun t' h' => by rw [hmt t' h', hmi]; exact hs t' (List.mem_cons_of_mem _ h'))
        (by rw [hmi]; exact h1) (by rw [hmi]; exact h2)
      refine ⟨l, hl, ?_, ?_⟩
      · intro t' h'
        rcases List.mem_cons.1 h' with rfl | h'
        · rw [hl2 t' hnd.1, he.1]
        · rw [hl1 t' h', hmt t' h']
      · intro j hj
        simp only [List.mem_cons, not_or] at hj
        rw [hl2 j hj.2, he.2 j hj.1]
    · rw [suits_item narrow _ _ ht.2] at h
      rcases h with h | h
      · omega
      · cases h
    · rw [suits_item narrow _ _ ht.2] at h
      cases h

/-- C58, partial, for arrays. Writing an element from the component's code writes it in the
connected arrays, if they have the same kind of items and the same size; nothing else
changes. -/
theorem C58_array_partial (narrow : Fl → Fl) (n : Arrs) (i k : Nat) (v : Val)
    (hc : (n i).connectable = true) (hnd : (n i).targets.Nodup) (hi : i ∉ (n i).targets)
    (hk : k < (n i).values.length) (hv : Suits (n i) ⟨(n i).kind, v⟩)
    (ht : ∀ t ∈ (n i).targets, (n t).kind = (n i).kind ∧
      (n t).values.length = (n i).values.length) :
    ∃ m, awrite narrow n i k v = .ok m ∧
      (∀ j, j = i ∨ j ∈ (n i).targets → m j = { n j with values := (n j).values.set k v }) ∧
      (∀ j, j ≠ i → j ∉ (n i).targets → m j = n j) := by
  unfold awrite
  rw [if_neg (by omega), if_pos hc]
  let n1 := n.set i { n i with values := (n i).values.set k v }
  have hi1 : n1 i = { n i with values := (n i).values.set k v } := by simp [n1, Arrs.set]
  have hj1 : ∀ j, j ≠ i → n1 j = n j := fun j h => by simp [n1, Arrs.set, h]
  have htne : ∀ t ∈ (n i).targets, t ≠ i := fun t h e => hi (e ▸ h)
  obtain ⟨m, hm, h1, h2⟩ := apush_spec narrow i k v (n i).targets n1 hnd hi
    (by rw [hi1]; simp [hk])
    (fun t h => by
      rw [hj1 t (htne t h), hi1, (ht t h).2]
      refine ⟨hk, ?_⟩
      obtain ⟨a, b, c, d⟩ := hv
      exact ⟨(ht t h).1.symm, by rw [(ht t h).1]; exact b, by rw [(ht t h).1]; exact c, d⟩)
    (by rw [hi1]; exact hv.2.1) (by rw [hi1]; exact hv.2.2.1)
  refine ⟨m, hm, ?_, ?_⟩
  · intro j hj
    rcases Classical.em (j = i) with rfl | hne
    · rw [h2 j hi, hi1]
    · rcases hj with h | h
      · exact absurd h hne
      · rw [h1 j h, hj1 j hne]
  · intro j hj hj'
    rw [h2 j hj', hj1 j hj]

theorem apushAll_spec (narrow : Fl → Fl) (i : Nat) (ks : List Nat) : ∀ (n : Arrs),
    (n i).targets.Nodup → i ∉ (n i).targets → (n i).kind ≠ .None → (n i).kind ≠ .String8 →
    (∀ t ∈ (n i).targets, (n t).kind = (n i).kind ∧
      (n t).values.length = (n i).values.length) →
    (∀ k ∈ ks, k < (n i).values.length) → (∀ v ∈ (n i).values, Any.Ok ⟨(n i).kind, v⟩) →
    ∃ m, apushAll narrow n i ks = .ok m ∧
      (∀ t ∈ (n i).targets, m t = { n t with values := (m t).values } ∧
        ∀ k : Nat, (m t).values[k]? = if k ∈ ks then (n i).values[k]? else (n t).values[k]?) ∧
      (∀ j, j ∉ (n i).targets → m j = n j) := by
  induction ks with
  | nil => intro n _ _ _ _ _ _ _; exact ⟨n, rfl, by simp, fun _ _ => rfl⟩
  | cons k ks ih =>
    intro n hnd hi h1 h2 ht hk hv
    have hlt := hk k List.mem_cons_self
    have hvk : (n i).values[k]? = some (n i).values[k] := List.getElem?_eq_getElem hlt
    obtain ⟨m, hm, e1, e2⟩ := apush_spec narrow i k (n i).values[k] (n i).targets n hnd hi hvk
      (fun t h => ⟨by rw [(ht t h).2]; exact hlt, (ht t h).1.symm, by rw [(ht t h).1]; exact h1,
        by rw [(ht t h).1]; exact h2, hv _ (List.getElem_mem hlt)⟩) h1 h2
    have hmi : m i = n i := e2 i hi
    unfold apushAll
    rw [hm]
    simp only
    obtain ⟨l, hl, l1, l2⟩ := ih m (by rw [hmi]; exact hnd) (by rw [hmi]; exact hi)
      (by rw [hmi]; exact h1) (by rw [hmi]; exact h2)
      (by
        rw [hmi]
        intro t h
        rw [e1 t h]
        exact ⟨(ht t h).1, by rw [List.length_set]; exact (ht t h).2⟩)
      (by rw [hmi]; exact fun k' h' => hk k' (List.mem_cons_of_mem _ h'))
      (by rw [hmi]; exact hv)
    rw [hmi] at l1 l2
    refine ⟨l, hl, ?_, ?_⟩
    · intro t h
      refine ⟨by rw [(l1 t h).1, e1 t h], ?_⟩
      intro k'
      rw [(l1 t h).2 k']
      by_cases h' : k' ∈ ks
      · simp [h']
      · rw [if_neg h', e1 t h]
        by_cases e : k' = k
        · subst e
          simp [(ht t h).2, hlt]
        · rw [List.getElem?_set_ne (Ne.symm e)]
          simp [e, h']
    · intro j hj; rw [l2 j hj, e2 j hj]

/-- C58, partial, for arrays. `Push` gives all the elements of the output to every connected array, if
they have the same kind of items and the same size; nothing else changes. -/
theorem C58_array_push_partial (narrow : Fl → Fl) (n : Arrs) (i : Nat)
    (hnd : (n i).targets.Nodup) (hi : i ∉ (n i).targets)
    (h1 : (n i).kind ≠ .None) (h2 : (n i).kind ≠ .String8)
    (ht : ∀ t ∈ (n i).targets, (n t).kind = (n i).kind ∧
      (n t).values.length = (n i).values.length)
    (hv : ∀ v ∈ (n i).values, Any.Ok ⟨(n i).kind, v⟩) :
    ∃ m, apushAll narrow n i (List.range (n i).values.length) = .ok m ∧
      (∀ t ∈ (n i).targets, m t = { n t with values := (n i).values }) ∧
      ∀ j, j ∉ (n i).targets → m j = n j := by
  obtain ⟨m, hm, e1, e2⟩ := apushAll_spec narrow i (List.range (n i).values.length) n hnd hi h1 h2 ht
    (fun k h => by simpa using h) hv
  refine ⟨m, hm, ?_, e2⟩
  intro t h
  have ev : (m t).values = (n i).values := by
    apply List.ext_getElem?
    intro k
    rw [(e1 t h).2 k]
    by_cases hk : k < (n i).values.length
    · simp [hk]
    · have : k ∉ List.range (n i).values.length := by simpa using hk
      rw [if_neg this, List.getElem?_eq_none (Nat.not_lt.1 hk),
        List.getElem?_eq_none (by rw [(ht t h).2]; exact Nat.not_lt.1 hk)]
  rw [(e1 t h).1, ev]

theorem acopy_spec (narrow : Fl → Fl) (i j : Nat) (hij : j ≠ i) (ks : List Nat) : ∀ (n : Arrs),
    (n j).kind = (n i).kind → (n i).kind ≠ .None → (n i).kind ≠ .String8 →
    (∀ k ∈ ks, k < (n j).values.length) →
    (∀ k ∈ ks, ∃ v, (n i).values[k]? = some v ∧ Any.Ok ⟨(n i).kind, v⟩) →
    ∃ m, acopy narrow n i j ks = .ok m ∧
      (m j).values.length = (n j).values.length ∧
      (∀ k : Nat, (m j).values[k]? = if k ∈ ks then (n i).values[k]? else (n j).values[k]?) ∧
      m j = { n j with values := (m j).values } ∧ ∀ l, l ≠ j → m l = n l := by
  induction ks with
  | nil => intro n _ _ _ _ _; exact ⟨n, rfl, rfl, by simp, rfl, fun _ _ => rfl⟩
  | cons k ks ih =>
    intro n hk h1 h2 hlt hv
    obtain ⟨v, hv1, hv2⟩ := hv k List.mem_cons_self
    have hlk := hlt k List.mem_cons_self
    have hs : Suits (n j) ⟨(n i).kind, v⟩ := ⟨hk.symm, by rw [hk]; exact h1, by rw [hk]; exact h2, hv2⟩
    unfold acopy
    rw [suits_get (n i) k v hv1 h1 h2]
    rcases aset_cases narrow n j k ⟨(n i).kind, v⟩ with ⟨_, w, m, hw, hm, he⟩ | ⟨h, _⟩ | ⟨_, h, _⟩
    · rw [suits_item narrow _ _ hs] at hw
      cases hw
      simp only [hm]
      have hmi : m i = n i := he.2 i (Ne.symm hij)
      have hmj : (m j).values = (n j).values.set k v := by rw [he.1]
      obtain ⟨l, hl, l1, l2, l3, l4⟩ := ih m (by rw [hmi, he.1]; exact hk) (by rw [hmi]; exact h1)
        (by rw [hmi]; exact h2)
        (fun k' h' => by rw [hmj, List.length_set]; exact hlt k' (List.mem_cons_of_mem _ h'))
        (fun k' h' => by rw [hmi]; exact hv k' (List.mem_cons_of_mem _ h'))
      refine ⟨l, hl, by rw [l1, hmj, List.length_set], ?_, ?_, ?_⟩
      · intro k'
        rw [l2 k', hmi, hmj]
        by_cases h' : k' ∈ ks
        · simp [h']
        · rw [if_neg h']
          by_cases e : k' = k
          · subst e; simp [hlk, hv1]
          · rw [List.getElem?_set_ne (Ne.symm e)]; simp [e, h']
      · rw [l3, he.1]
      · intro l' h'; rw [l4 l' h', he.2 l' h']
    · rw [suits_item narrow _ _ hs] at h
      rcases h with h | h
      · omega
      · cases h
    · rw [suits_item narrow _ _ hs] at h
      cases h

/-- C58, partial, for arrays. An accepted `Connect` of arrays of the same kind and size gives the
input all the elements of the output; no other field changes. -/
theorem C58_array_connect_partial (narrow : Fl → Fl) (n : Arrs) (i j : Nat) (hij : j ≠ i)
    (hout : (n i).output = true) (hin : (n j).input = true)
    (hnew : j ∉ (n i).targets) (hk : (n j).kind = (n i).kind) (hty : (n j).style = (n i).style)
    (h1 : (n i).kind ≠ .None) (h2 : (n i).kind ≠ .String8)
    (hl : (n j).values.length = (n i).values.length)
    (hv : ∀ v ∈ (n i).values, Any.Ok ⟨(n i).kind, v⟩) :
    ∃ m, aconnect narrow n i j = .ok m ∧ (m j).values = (n i).values ∧
      m j = { n j with values := (n i).values } ∧
      m i = { n i with targets := (n i).targets ++ [j] } ∧
      ∀ l, l ≠ i → l ≠ j → m l = n l := by
  have heq : (n i).equivalent (n j) = true := by
    simp [Arr.equivalent, hl, Arr.typeKind, hk, hty]
  unfold aconnect
  rw [if_neg (by simp [hout, hin, hij, heq]), if_neg (by simpa using hnew)]
  simp only
  generalize hn1 : n.set i { n i with targets := (n i).targets ++ [j] } = n1
  have hi1 : n1 i = { n i with targets := (n i).targets ++ [j] } := by rw [← hn1]; simp [Arrs.set]
  have hj1 : ∀ l, l ≠ i → n1 l = n l := fun l h => by rw [← hn1]; simp [Arrs.set, h]
  obtain ⟨m, hm, m1, m2, m3, m4⟩ := acopy_spec narrow i j hij (List.range (n i).values.length) n1
    (by rw [hi1, hj1 j hij]; exact hk) (by rw [hi1]; exact h1) (by rw [hi1]; exact h2)
    (by intro k hk; rw [hj1 j hij, hl]; simpa using hk)
    (by
      intro k hk
      have hk' : k < (n i).values.length := by simpa using hk
      refine ⟨(n i).values[k], ?_, ?_⟩
      · rw [hi1]; simp [hk']
      · rw [hi1]; exact hv _ (List.getElem_mem hk'))
  have hval : (m j).values = (n i).values := by
    apply List.ext_getElem?
    intro k
    rw [m2 k, hi1, hj1 j hij]
    by_cases h : k < (n i).values.length
    · simp [h]
    · simp [h, hl, List.getElem?_eq_none (Nat.not_lt.1 h)]
  refine ⟨m, hm, hval, ?_, ?_, ?_⟩
  · rw [m3, hj1 j hij, hval]
  · rw [m4 i (Ne.symm hij), hi1]
  · intro l hl1 hl2; rw [m4 l hl2, hj1 l hl1]

example : (demoArr .plain true).output = true ∧ (demoArr .plain false).input = true ∧
    ∀ v ∈ (demoArr .plain true).values, Any.Ok ⟨.Int32, v⟩ := by
  refine ⟨rfl, rfl, ?_⟩
  simp [demoArr, Any.Ok, Verif.Any.Kind.Range]

/-- A case for `C58_array_push_partial`: an output with two inputs that have other values. -/
example : let n : Arrs := fun i => if i = 0 then
      { demoArr .plain true with targets := [1, 2], values := [.int 7, .int 8, .int 9] }
    else demoArr .plain false
    (n 0).targets.Nodup ∧ 0 ∉ (n 0).targets ∧ (n 0).kind ≠ .None ∧ (n 0).kind ≠ .String8 ∧
    (∀ t ∈ (n 0).targets, (n t).kind = (n 0).kind ∧ (n t).values.length = (n 0).values.length) ∧
    (∀ v ∈ (n 0).values, Any.Ok ⟨(n 0).kind, v⟩) ∧ (n 1).values ≠ (n 0).values := by
  simp [demoArr, Any.Ok, Verif.Any.Kind.Range]

/-- A real array, connectable. -/
def demoReal (fl : Fl) : Arr :=
  ⟨.plain, .Float64, none, false, true, true, [.float fl, .float fl, .float fl], []⟩

/-- C58 fails for arrays: arrays of the same size but with items of different kinds are taken to
be equivalent; `Connect` raises after having connected them. -/
theorem C58_array_fails (narrow : Fl → Fl) (fl : Fl) : ∃ n m : Arrs,
    (n 0).kind ≠ (n 1).kind ∧ (n 0).targets = [] ∧
    aconnect narrow n 0 1 = .raised m ∧ (m 0).targets = [1] :=
  ⟨fun i => if i = 0 then demoReal fl else demoArr .plain false, _,
    by simp [demoReal, demoArr], rfl, rfl, rfl⟩

/-- C58 fails for arrays: a `SetValue` on a connected output array is not followed by the
inputs. -/
theorem C58_array_set_fails (narrow : Fl → Fl) : ∃ n m l : Arrs,
    (n 0).targets = [] ∧ aconnect narrow n 0 1 = .ok m ∧ (m 0).targets = [1] ∧
    aset narrow m 0 2 ⟨.Int32, .int 9⟩ = .ok l ∧
    (l 0).get 2 = .ok ⟨.Int32, .int 9⟩ ∧ (l 1).get 2 = .ok ⟨.Int32, .int 3⟩ :=
  ⟨fun i => if i = 0 then demoArr .plain true else demoArr .plain false, _, _, rfl, rfl, rfl, rfl,
    rfl, rfl⟩

/-! ### C60 -/

/-- C60 fails for arrays, published or not: an element takes any `Int32`, whatever the literals of the
item type are (`isInvalidEnumerationValue` is given the type of the array). -/
theorem C60_array_fails (narrow : Fl → Fl) (n : Arrs) (i k : Nat) (v : Int)
    (hk : (n i).kind = .Int32) (hlt : k < (n i).values.length) (hv : -2 ^ 31 ≤ v ∧ v < 2 ^ 31) :
    ∃ m, aset narrow n i k ⟨.Int32, .int v⟩ = .ok m ∧ (m i).get k = .ok ⟨.Int32, .int v⟩ := by
  obtain ⟨m, h1, h2, _⟩ := C59_set_get narrow n i k ⟨.Int32, .int v⟩ hlt ⟨hk.symm, by
    rw [hk]; decide, by rw [hk]; decide, by
    simp only [Any.Ok, Verif.Any.Kind.Range]; omega⟩
  exact ⟨m, h1, h2⟩

/-- Setting an element of a published array of `String8` items is undefined behaviour. -/
theorem C59_string8_fails (narrow : Fl → Fl) (n : Arrs) (i k : Nat) (a : Any)
    (hs : (n i).style = .published) (hk : (n i).kind = .String8) (hl : (n i).len = none)
    (hlt : k < (n i).values.length) : aset narrow n i k a = .ub := by
  simp [aset, Arr.item, hs, hk, hl, Nat.not_le.2 hlt]

end Verif.Field
