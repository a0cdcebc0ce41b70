import Verif.Python.Index

/-!
C117: what `l[i]`, `l["n"]`, `del l[i]`, `l[i] = v` and `for x in l` mean in Python for the objects of
the simulator. The specification is what Python itself does with a list: `pyItem`.
-/
namespace Verif.Python.Index

/-- What `l[i]` is for a Python list: `i` counts from the start, or from the end when negative; `none`
is an `IndexError`. -/
def pyItem {α : Type} (l : List α) (i : Int) : Option α :=
  if 0 ≤ i then l[i.toNat]?
  else if -(l.length : Int) ≤ i then l[(l.length + i).toNat]?
  else none

/-- The list can exist: the number of elements fits an `Int64`. -/
def Fits {α : Type} (l : List α) : Prop := l.length < 2 ^ 63

instance {α : Type} (l : List α) : Decidable (Fits l) := inferInstanceAs (Decidable (_ < _))

theorem asUInt64_nat (i : Int) (h : 0 ≤ i) (h' : i < 2 ^ 64) : asUInt64 i = i.toNat := by
  unfold asUInt64; rw [Int.emod_eq_of_lt h (by omega)]

theorem asUInt64_neg (i : Int) (h : i < 0) (h' : -2 ^ 63 ≤ i) : 2 ^ 63 ≤ asUInt64 i := by
  unfold asUInt64; omega

theorem asInt64_small (n : Nat) (h : n < 2 ^ 63) : asInt64 n = n := by
  unfold asInt64; rw [Int.bmod_eq_of_le] <;> omega

theorem getIndex_nonneg (i : Int) (n : Nat) (h : 0 ≤ i) (h' : i < 2 ^ 63) :
    getIndex i n = if i.toNat < n then .ok i.toNat else .indexError := by
  unfold getIndex shifted
  rw [if_neg (by omega : ¬ i < 0)]
  dsimp only
  rw [asUInt64_nat i h (by omega)]
  by_cases hn : i.toNat < n
  · rw [if_pos hn, if_neg (by omega)]
  · rw [if_neg hn, if_pos (by omega)]

theorem getIndex_neg (i : Int) (n : Nat) (h : i < 0) (h' : -2 ^ 63 ≤ i) (hn : n < 2 ^ 63) :
    getIndex i n = .indexError := by
  unfold getIndex shifted
  have := asUInt64_neg i h h'
  rw [if_pos h, asInt64_small n hn, if_neg (by omega)]
  dsimp only
  rw [if_pos (by omega)]

theorem getItem_nonneg {α : Type} (l : List α) (i : Int) (h : 0 ≤ i) (h' : i < 2 ^ 63) :
    getItem l i = match l[i.toNat]? with | some a => .ok a | none => .indexError := by
  unfold getItem
  rw [if_neg (by omega), getIndex_nonneg i _ h h']
  by_cases hn : i.toNat < l.length
  · rw [if_pos hn]; rfl
  · rw [if_neg hn, List.getElem?_eq_none (by omega)]

/-- C117: an index that is not negative means the same as for a Python list: the element, or an
`IndexError`. Missing: negative indexes, see `C117_negative_fails`. -/
theorem C117_getitem_partial {α : Type} (l : List α) (i : Int) (h : 0 ≤ i) (h' : i < 2 ^ 63) :
    getItem l i = match pyItem l i with | some a => .ok a | none => .indexError := by
  rw [getItem_nonneg l i h h']; unfold pyItem; rw [if_pos h]

example : getItem ["a", "b", "c"] 1 = .ok "b" ∧ getItem ["a", "b", "c"] 3 = .indexError := by decide

/-- C117 fails: every negative index raises `IndexError`, also those that a Python list accepts;
"support for negative index (python like)" (ecss_smp.h:41-42) is what the code announces. -/
theorem C117_negative_fails {α : Type} (l : List α) (hl : Fits l) (i : Int) (h : i < 0)
    (h' : -2 ^ 63 ≤ i) :
    getItem l i = .indexError ∧ (-(l.length : Int) ≤ i → (pyItem l i).isSome) := by
  refine ⟨?_, fun hb => ?_⟩
  · unfold getItem; rw [if_neg (by omega), getIndex_neg i _ h h' hl]
  · unfold pyItem; rw [if_neg (by omega), if_pos hb]
    rw [List.getElem?_eq_getElem (by omega)]; rfl

example : getItem ["a", "b", "c"] (-1) = .indexError ∧ pyItem ["a", "b", "c"] (-1) = some "c" := by
  decide

/-- C117: whatever integer is given, the access stays inside the sequence and has no undefined
behaviour. -/
theorem C117_safe {α : Type} (l : List α) (hl : Fits l) (i : Int) :
    getItem l i ≠ .ub ∧
      (∀ k, -2 ^ 63 ≤ i → i < 2 ^ 63 → getIndex i l.length = .ok k → k < l.length) ∧
      (∀ a, getItem l i = .ok a → a ∈ l) := by
  by_cases hr : i < -2 ^ 63 ∨ 2 ^ 63 ≤ i
  · have : getItem l i = .typeError := by unfold getItem; rw [if_pos hr]
    rw [this]
    exact ⟨nofun, fun k a b => by omega, nofun⟩
  · by_cases h : 0 ≤ i
    · rw [getItem_nonneg l i h (by omega), getIndex_nonneg i _ h (by omega)]
      refine ⟨?_, ?_, ?_⟩
      · split <;> exact nofun
      · intro k _ _ e
        split at e
        · injection e with e; omega
        · cases e
      · intro a e
        cases hg : l[i.toNat]? with
        | none => rw [hg] at e; cases e
        | some b =>
          rw [hg] at e
          injection e with e
          subst e
          exact List.mem_of_getElem? hg
    · rw [(C117_negative_fails l hl i (by omega) (by omega)).1,
        getIndex_neg i _ (by omega) (by omega) hl]
      exact ⟨nofun, fun k _ _ e => (by cases e), nofun⟩

example : Fits [10, 20] ∧ getItem [10, 20] (2 ^ 70) = .typeError ∧ getItem [10, 20] 1 = .ok 20 := by
  decide

/-- C117: `for x in l` visits every element once, in the order of the sequence, and ends. -/
theorem C117_for {α : Type} (l : List α) (hl : Fits l) (n : Nat) (hn : l.length ≤ n) :
    iterate l n 0 = l := by
  suffices H : ∀ (n i : Nat), i ≤ l.length → l.length - i ≤ n → iterate l n i = l.drop i by
    rw [H n 0 (by omega) (by omega)]; rfl
  intro n
  induction n with
  | zero => intro i hi hn; rw [List.drop_of_length_le (by omega)]; rfl
  | succ n ih =>
    intro i hi hn
    unfold Fits at hl
    unfold iterate
    rw [getItem_nonneg l i (by omega) (by omega)]
    by_cases hlt : i < l.length
    · rw [List.drop_eq_getElem_cons hlt]
      have : l[(i : Int).toNat]? = some l[i] := by
        rw [Int.toNat_natCast]; exact List.getElem?_eq_getElem hlt
      rw [this]
      dsimp only
      rw [ih (i + 1) (by omega) (by omega)]
    · rw [List.getElem?_eq_none (by omega), List.drop_of_length_le (by omega)]

example : Fits ["a", "b"] ∧ iterate ["a", "b"] 5 0 = ["a", "b"] := by decide

/-- C117: a name gives the first element of that name, and a `KeyError` only if there is none. -/
theorem C117_name (l : List Item) (n : String) :
    (∀ c, getNamed l n = .ok c ↔
      ∃ before after, l = before ++ c :: after ∧ c.name = n ∧ ∀ b ∈ before, b.name ≠ n) ∧
    (getNamed l n = .keyError ↔ ∀ c ∈ l, c.name ≠ n) := by
  constructor
  · intro c
    unfold getNamed named
    cases h : l.find? (fun c => decide (n = c.name)) with
    | none =>
      constructor
      · intro e; cases e
      · rintro ⟨b, a, e, hn, _⟩
        rw [List.find?_eq_none] at h
        exact absurd hn.symm (by simpa using h c (by rw [e]; simp))
    | some d =>
      rw [List.find?_eq_some_iff_append] at h
      obtain ⟨hd, before, after, e, hb⟩ := h
      have hd : n = d.name := by simpa using hd
      constructor
      · intro h
        injection h with h
        subst h
        exact ⟨before, after, e, hd.symm, fun x hx => by
          have : ¬ n = x.name := by have := hb x hx; simpa using this
          exact fun h => this h.symm⟩
      · rintro ⟨b2, a2, e2, hn2, hb2⟩
        suffices hdc : d = c by rw [hdc]
        rw [e] at e2
        have hb : ∀ x ∈ before, x.name ≠ n := fun x hx => by
          have : ¬ n = x.name := by have := hb x hx; simpa using this
          exact fun h => this h.symm
        rcases List.append_eq_append_iff.mp e2 with ⟨t, e3, e4⟩ | ⟨t, e3, e4⟩
        · cases t with
          | nil => simp at e4; exact e4.1
          | cons x t =>
            simp at e4
            exact absurd (by rw [← e4.1]; exact hd.symm) (hb2 x (by rw [e3]; simp))
        · cases t with
          | nil => simp at e4; exact e4.1.symm
          | cons x t =>
            simp at e4
            exact absurd (by rw [← e4.1]; exact hn2) (hb x (by rw [e3]; simp))
  · unfold getNamed named
    cases h : l.find? (fun c => decide (n = c.name)) with
    | none =>
      rw [List.find?_eq_none] at h
      exact ⟨fun _ c hc e => absurd e.symm (by simpa using h c hc), fun _ => rfl⟩
    | some d =>
      have h1 := List.mem_of_find?_eq_some h
      have h2 : n = d.name := by have := List.find?_some h; simpa using this
      exact ⟨nofun, fun H => absurd h2.symm (H d h1)⟩

example : getNamed [⟨1, "a"⟩, ⟨2, "b"⟩, ⟨3, "b"⟩] "b" = .ok ⟨2, "b"⟩ ∧
    getNamed [⟨1, "a"⟩] "x" = .keyError := by decide

theorem eraseFirst_idx (l : List Item) (hd : (l.map Item.id).Nodup) (k : Nat) (hk : k < l.length) :
    eraseFirst l l[k] = l.eraseIdx k := by
  induction l generalizing k with
  | nil => simp at hk
  | cons x xs ih =>
    simp only [List.map_cons, List.nodup_cons] at hd
    cases k with
    | zero => simp [eraseFirst]
    | succ k =>
      have hk : k < xs.length := by simpa using hk
      simp only [List.getElem_cons_succ, eraseFirst, List.eraseIdx_cons_succ]
      rw [if_neg, ih hd.2 k hk]
      intro e
      exact hd.1 (e ▸ List.mem_map_of_mem (List.getElem_mem hk))

theorem delItem_ok (remove : List Item → Nat → Item → Res (List Item)) (l : List Item) (lower : Nat)
    (i : Nat) (hi : i < l.length) (hl : Fits l) :
    delItem remove l lower i = remove l lower l[i] := by
  unfold Fits at hl
  unfold delItem
  rw [getItem_nonneg l i (by omega) (by omega)]
  have : l[(i : Int).toNat]? = some l[i] := by
    rw [Int.toNat_natCast]; exact List.getElem?_eq_getElem hi
  rw [this]

/-- C117: `del container[i]` deletes the component at position `i` and leaves the others in order, or
raises `CannotDelete` and changes nothing; beyond the end it raises `IndexError`. A component is at
most once in a container. Missing: negative indexes. -/
theorem C117_delete_container_partial (l : List Item) (hl : Fits l) (hd : (l.map Item.id).Nodup)
    (lower i : Nat) (hi : i < 2 ^ 63) :
    delItem deleteComponent l lower i =
      if i < l.length then
        if l.length ≤ lower then .cannotDelete else .ok (l.eraseIdx i)
      else .indexError := by
  by_cases h : i < l.length
  · rw [if_pos h, delItem_ok _ l lower i h hl, deleteComponent, eraseFirst_idx l hd i h]
  · rw [if_neg h]
    unfold delItem
    rw [getItem_nonneg l i (by omega) (by omega), List.getElem?_eq_none (by omega)]

example : delItem deleteComponent [⟨1, "a"⟩, ⟨2, "b"⟩, ⟨3, "c"⟩] 0 1 = .ok [⟨1, "a"⟩, ⟨3, "c"⟩] ∧
    delItem deleteComponent [⟨1, "a"⟩, ⟨2, "b"⟩] 2 1 = .cannotDelete := by decide

/-- C117: `del` with a negative index raises `IndexError` and with an index outside of 64 bits `TypeError`;
nothing is deleted. -/
theorem C117_delete_outside (remove : List Item → Nat → Item → Res (List Item)) (l : List Item) (hl : Fits l)
    (lower : Nat) (i : Int) :
    ((i < -2 ^ 63 ∨ 2 ^ 63 ≤ i) → delItem remove l lower i = .typeError) ∧
    (-2 ^ 63 ≤ i → i < 0 → delItem remove l lower i = .indexError) := by
  constructor
  · intro h
    unfold delItem getItem
    rw [if_pos h]
  · intro h1 h2
    unfold delItem getItem
    unfold Fits at hl
    rw [if_neg (by omega), getIndex_neg i l.length h2 h1 (by omega)]

/-- C117: `del reference[i]` removes the reference at position `i` when no component is referenced
twice. Missing: see `C117_delete_reference_fails`. -/
theorem C117_delete_reference_partial (l : List Item) (hl : Fits l) (hd : (l.map Item.id).Nodup)
    (lower i : Nat) (hi : i < 2 ^ 63) :
    delItem removeComponent l lower i =
      if i < l.length then
        if l.length ≤ lower then .cannotRemove else .ok (l.eraseIdx i)
      else .indexError := by
  by_cases h : i < l.length
  · rw [if_pos h, delItem_ok _ l lower i h hl, removeComponent, eraseFirst_idx l hd i h]
  · rw [if_neg h]
    unfold delItem
    rw [getItem_nonneg l i (by omega) (by omega), List.getElem?_eq_none (by omega)]

example : delItem removeComponent [⟨1, "a"⟩, ⟨2, "b"⟩, ⟨3, "c"⟩] 0 2 = .ok [⟨1, "a"⟩, ⟨2, "b"⟩] ∧
    delItem removeComponent [⟨1, "a"⟩, ⟨2, "b"⟩] 1 7 = .indexError := by decide

/-- C117 fails: a component may be referenced twice (`Reference::AddComponent` does not forbid it);
`del reference[2]` then removes position 0. -/
theorem C117_delete_reference_fails :
    let l : List Item := [⟨1, "a"⟩, ⟨2, "b"⟩, ⟨1, "a"⟩]
    delItem removeComponent l 0 2 = .ok [⟨2, "b"⟩, ⟨1, "a"⟩] ∧
      l.eraseIdx 2 = [⟨1, "a"⟩, ⟨2, "b"⟩] := by decide

/-- C117: `del container["n"]` deletes the component that `container["n"]` gives, and raises
`KeyError` only if there is none. -/
theorem C117_delete_name (l : List Item) (hd : (l.map Item.id).Nodup) (lower : Nat) (n : String) :
    (∀ c, getNamed l n = .ok c →
      delNamed deleteComponent l lower n =
        if l.length ≤ lower then .cannotDelete else .ok (l.filter (fun x => x.id ≠ c.id))) ∧
    (delNamed deleteComponent l lower n = .keyError ↔ ∀ c ∈ l, c.name ≠ n) := by
  have key : ∀ (l : List Item) (c : Item), (l.map Item.id).Nodup →
      eraseFirst l c = l.filter (fun x => x.id ≠ c.id) := by
    intro l c hd
    induction l with
    | nil => rfl
    | cons x xs ih =>
      simp only [List.map_cons, List.nodup_cons] at hd
      unfold eraseFirst
      by_cases e : x.id = c.id
      · rw [if_pos e, List.filter_cons_of_neg (by simp [e])]
        symm
        rw [List.filter_eq_self]
        intro y hy
        have : y.id ≠ x.id := fun e2 => hd.1 (e2 ▸ List.mem_map_of_mem hy)
        simpa [e] using this
      · rw [if_neg e, List.filter_cons_of_pos (by simpa using e), ih hd.2]
  constructor
  · intro c hc
    unfold getNamed at hc
    unfold delNamed
    cases h : named l n with
    | none => rw [h] at hc; cases hc
    | some d =>
      rw [h] at hc
      injection hc with hc
      subst hc
      dsimp only
      rw [deleteComponent, key l d hd]
  · rw [← (C117_name l n).2]
    unfold delNamed getNamed
    cases named l n with
    | none => exact ⟨fun _ => rfl, fun _ => rfl⟩
    | some d =>
      dsimp only
      constructor
      · intro e; unfold deleteComponent at e; split at e <;> cases e
      · intro e; cases e

example : delNamed deleteComponent [⟨1, "a"⟩, ⟨2, "b"⟩] 0 "b" = .ok [⟨1, "a"⟩] ∧
    delNamed deleteComponent [⟨1, "a"⟩, ⟨2, "b"⟩] 0 "c" = .keyError := by decide

/-- C117: `array[i] = v` changes the item `i` and no other, so that `array[j]` then gives the new value
for `j = i` and the old one for every other `j`. -/
theorem C117_set_get {α : Type} (l l' : List α) (hl : Fits l) (i j : Int) (v : α)
    (h : setItem l i v = .ok l') :
    l'.length = l.length ∧ getItem l' i = .ok v ∧ (j ≠ i → getItem l' j = getItem l j) := by
  unfold Fits at hl
  unfold setItem at h
  by_cases h1 : i < 0 ∨ 2 ^ 64 ≤ i
  · rw [if_pos h1] at h; cases h
  · rw [if_neg h1] at h
    by_cases h2 : l.length ≤ i.toNat
    · rw [if_pos h2] at h; cases h
    · rw [if_neg h2] at h
      injection h with h
      subst h
      refine ⟨List.length_set .., ?_, fun hne => ?_⟩
      · rw [getItem_nonneg _ i (by omega) (by omega), List.getElem?_set_self (by omega)]
      · by_cases hr : j < -2 ^ 63 ∨ 2 ^ 63 ≤ j
        · unfold getItem; rw [if_pos hr, if_pos hr]
        · by_cases hj : 0 ≤ j
          · rw [getItem_nonneg _ j hj (by omega), getItem_nonneg _ j hj (by omega),
              List.getElem?_set_ne (by omega)]
          · rw [(C117_negative_fails l hl j (by omega) (by omega)).1,
              (C117_negative_fails (l.set i.toNat v) (by unfold Fits; simpa using hl) j (by omega)
                (by omega)).1]

example : setItem [1, 2, 3] 1 9 = .ok [1, 9, 3] ∧ setItem [1, 2, 3] (-1) 9 = .typeError ∧
    setItem [1, 2, 3] 3 9 = .invalidArrayIndex := by decide

/-- C117: an assignment to an array is refused exactly when the index is negative, does not fit an
`UInt64`, or is not below the size. -/
theorem C117_set {α : Type} (l : List α) (hl : Fits l) (i : Int) (v : α) :
    (∃ l', setItem l i v = .ok l') ↔ 0 ≤ i ∧ i < l.length := by
  unfold Fits at hl
  unfold setItem
  constructor
  · rintro ⟨l', h⟩
    by_cases h1 : i < 0 ∨ 2 ^ 64 ≤ i
    · rw [if_pos h1] at h; cases h
    · rw [if_neg h1] at h
      by_cases h2 : l.length ≤ i.toNat
      · rw [if_pos h2] at h; cases h
      · omega
  · intro h
    rw [if_neg (by omega), if_neg (by omega)]
    exact ⟨_, rfl⟩

example : Fits [1, 2, 3] ∧ ∃ l', setItem [1, 2, 3] 2 7 = .ok l' := ⟨by decide, _, rfl⟩

/-- C117: an item of an array of simple values is the Python form of the value at that index, and an
`IndexError` beyond the end. Missing: negative indexes. -/
theorem C117_value_partial {α β : Type} (read : α → β) (l : List α) (i : Int) (h : 0 ≤ i)
    (h' : i < 2 ^ 63) :
    getValue read l i = match pyItem (l.map read) i with | some b => .ok b | none => .indexError := by
  unfold getValue pyItem
  rw [getItem_nonneg l i h h', if_pos h, List.getElem?_map]
  cases l[i.toNat]? <;> rfl

example : getValue (· * 2) [10, 20] 1 = .ok 40 ∧ getValue (· * 2) [10, 20] 2 = .indexError := by decide

end Verif.Python.Index
