/-
Sorted association lists with integer keys: the model of `std::map<Int64, T>`.

Only the facts about `std::map` that the C++ standard guarantees are used:
iteration in increasing key order, `find`, `try_emplace`/`operator[]`/assignment
(`insert`), `erase(key)`, `begin()->first` (`minKey`), successor of an iterator
(`nextKey`).
-/
namespace Verif

/-- Model of `std::map<std::int64_t, α>`: key/value pairs in iteration order. (`_events_table`,
XsmpScheduler.h:393-418.) -/
abbrev OMap (α : Type) := List (Int × α)

namespace OMap
variable {α : Type}

/-- `std::map::find`. (Used in XsmpScheduler.cpp:234-378.) -/
def find (k : Int) : OMap α → Option α
  | [] => none
  | (k', v) :: t => if k = k' then some v else find k t

/-- `m[k] = v` (insert or overwrite), keeping the key order. (Used in XsmpScheduler.cpp:139-166.)
-/
def insert (k : Int) (v : α) : OMap α → OMap α
  | [] => [(k, v)]
  | (k', v') :: t =>
    if k < k' then (k, v) :: (k', v') :: t
    else if k = k' then (k, v) :: t
    else (k', v') :: insert k v t

/-- `std::map::erase(key)`. (Used in XsmpScheduler.cpp:245-251, 369-375.) -/
def erase (k : Int) : OMap α → OMap α
  | [] => []
  | (k', v) :: t => if k = k' then erase k t else (k', v) :: erase k t

/-- `begin()->first`, `none` for an empty map. (Used in XsmpScheduler.cpp:385-391, 592-665.) -/
def minKey : OMap α → Option Int
  | [] => none
  | (k, _) :: _ => some k

/-- Key of the element following key `k` in iteration order. (Used in XsmpScheduler.cpp:487-488,
657-659.) -/
def nextKey (k : Int) : OMap α → Option Int
  | [] => none
  | (k', _) :: t => if k < k' then some k' else nextKey k t

/-- The representation invariant of a `std::map`: strictly increasing keys. -/
def Sorted (m : OMap α) : Prop := m.Pairwise (fun a b => a.1 < b.1)

@[simp] theorem find_nil (k : Int) : find k ([] : OMap α) = none := rfl

theorem find_insert (j k : Int) (v : α) (m : OMap α) :
    find j (insert k v m) = if j = k then some v else find j m := by
  induction m with
  | nil => simp [insert, find]
  | cons p t ih =>
    obtain ⟨k', v'⟩ := p
    simp only [insert]
    split
    · simp only [find]
    · split
      · subst_vars; simp only [find]; split <;> rfl
      · simp only [find, ih]; split <;> split <;> simp_all

theorem find_erase (j k : Int) (m : OMap α) :
    find j (erase k m) = if j = k then none else find j m := by
  induction m with
  | nil => simp [erase]
  | cons p t ih =>
    obtain ⟨k', v'⟩ := p
    simp only [erase]
    split
    · subst_vars; rw [ih]; simp only [find]; split <;> simp_all
    · simp only [find, ih]; split <;> split <;> simp_all

@[simp] theorem find_insert_self (k : Int) (v : α) (m : OMap α) :
    find k (insert k v m) = some v := by simp [find_insert]

@[simp] theorem find_erase_self (k : Int) (m : OMap α) :
    find k (erase k m) = none := by simp [find_erase]

theorem find_insert_ne {j k : Int} (h : j ≠ k) (v : α) (m : OMap α) :
    find j (insert k v m) = find j m := by simp [find_insert, h]

theorem find_erase_ne {j k : Int} (h : j ≠ k) (m : OMap α) :
    find j (erase k m) = find j m := by simp [find_erase, h]

theorem mem_of_find {k : Int} {v : α} {m : OMap α} (h : find k m = some v) : (k, v) ∈ m := by
  induction m with
  | nil => simp at h
  | cons p t ih =>
    obtain ⟨k', v'⟩ := p
    simp only [find] at h
    split at h
    · simp_all
    · exact List.mem_cons_of_mem _ (ih h)

theorem Sorted.tail {p : Int × α} {m : OMap α} (h : Sorted (p :: m)) : Sorted m :=
  (List.pairwise_cons.1 h).2

theorem Sorted.head_lt {p : Int × α} {m : OMap α} (h : Sorted (p :: m)) :
    ∀ q ∈ m, p.1 < q.1 := (List.pairwise_cons.1 h).1

theorem find_of_mem {k : Int} {v : α} {m : OMap α} (hs : Sorted m) (h : (k, v) ∈ m) :
    find k m = some v := by
  induction m with
  | nil => simp at h
  | cons p t ih =>
    obtain ⟨k', v'⟩ := p
    rcases List.mem_cons.1 h with h1 | h1
    · cases h1; simp [find]
    · have := hs.head_lt _ h1
      simp only at this
      simp only [find]
      rw [if_neg (by omega)]
      exact ih hs.tail h1

theorem mem_insert {q : Int × α} {k : Int} {v : α} {m : OMap α} (h : q ∈ insert k v m) :
    q = (k, v) ∨ q ∈ m := by
  induction m with
  | nil => simpa [insert] using h
  | cons p t ih =>
    obtain ⟨k', v'⟩ := p
    simp only [insert] at h
    split at h
    · simpa using h
    · split at h
      · rcases List.mem_cons.1 h with h | h
        · exact Or.inl h
        · exact Or.inr (List.mem_cons_of_mem _ h)
      · rcases List.mem_cons.1 h with h | h
        · exact Or.inr (by rw [h]; exact List.mem_cons_self)
        · rcases ih h with h | h
          · exact Or.inl h
          · exact Or.inr (List.mem_cons_of_mem _ h)

theorem mem_erase {q : Int × α} {k : Int} {m : OMap α} (h : q ∈ erase k m) :
    q ∈ m ∧ q.1 ≠ k := by
  induction m with
  | nil => simp [erase] at h
  | cons p t ih =>
    obtain ⟨k', v'⟩ := p
    simp only [erase] at h
    split at h
    · exact ⟨List.mem_cons_of_mem _ (ih h).1, (ih h).2⟩
    · rcases List.mem_cons.1 h with h | h
      · subst h; exact ⟨List.mem_cons_self, by simp; omega⟩
      · exact ⟨List.mem_cons_of_mem _ (ih h).1, (ih h).2⟩

theorem sorted_nil : Sorted ([] : OMap α) := List.Pairwise.nil

theorem Sorted.insert {k : Int} {v : α} {m : OMap α} (hs : Sorted m) :
    Sorted (insert k v m) := by
  induction m with
  | nil => simp [OMap.insert, Sorted]
  | cons p t ih =>
    obtain ⟨k', v'⟩ := p
    have hlt := hs.head_lt
    simp only [OMap.insert]
    split
    · refine List.pairwise_cons.2 ⟨?_, hs⟩
      intro q hq
      rcases List.mem_cons.1 hq with hq | hq
      · subst hq; assumption
      · have := hlt q hq; simp only at *; omega
    · split
      · subst_vars
        exact List.pairwise_cons.2 ⟨hlt, hs.tail⟩
      · refine List.pairwise_cons.2 ⟨?_, ih hs.tail⟩
        intro q hq
        rcases mem_insert hq with hq | hq
        · subst hq; simp only; omega
        · exact hlt q hq

theorem Sorted.erase {k : Int} {m : OMap α} (hs : Sorted m) : Sorted (erase k m) := by
  induction m with
  | nil => simp [OMap.erase, Sorted]
  | cons p t ih =>
    obtain ⟨k', v'⟩ := p
    have hlt := hs.head_lt
    simp only [OMap.erase]
    split
    · exact ih hs.tail
    · exact List.pairwise_cons.2 ⟨fun q hq => hlt q (mem_erase hq).1, ih hs.tail⟩

/-- `begin()` has the smallest key. -/
theorem minKey_le {k j : Int} {v : α} {m : OMap α} (hs : Sorted m)
    (hm : minKey m = some k) (hf : find j m = some v) : k ≤ j := by
  cases m with
  | nil => simp at hf
  | cons p t =>
    obtain ⟨k', v'⟩ := p
    simp only [minKey, Option.some.injEq] at hm
    have := mem_of_find hf
    rcases List.mem_cons.1 this with h | h
    · cases h; omega
    · have := hs.head_lt _ h; simp only at this; omega

theorem minKey_find {k : Int} {m : OMap α} (hm : minKey m = some k) :
    ∃ v, find k m = some v := by
  cases m with
  | nil => simp [minKey] at hm
  | cons p t =>
    obtain ⟨k', v'⟩ := p
    simp only [minKey, Option.some.injEq] at hm
    exact ⟨v', by simp [find, hm]⟩

theorem minKey_none {m : OMap α} (hm : minKey m = none) : m = [] := by
  cases m with
  | nil => rfl
  | cons p t => simp [minKey] at hm

theorem nextKey_find {k j : Int} {m : OMap α} (hs : Sorted m) (h : nextKey k m = some j) :
    k < j ∧ ∃ v, find j m = some v := by
  induction m with
  | nil => simp [nextKey] at h
  | cons p t ih =>
    obtain ⟨k', v'⟩ := p
    simp only [nextKey] at h
    split at h
    · simp only [Option.some.injEq] at h; subst h
      exact ⟨by assumption, v', by simp [find]⟩
    · obtain ⟨h1, v, h2⟩ := ih hs.tail h
      refine ⟨h1, v, ?_⟩
      have := hs.head_lt _ (mem_of_find h2)
      simp only at this
      simp only [find]; rw [if_neg (by omega)]; exact h2

theorem nextKey_le {k j i : Int} {v : α} {m : OMap α} (hs : Sorted m)
    (h : nextKey k m = some j) (hi : find i m = some v) (hki : k < i) : j ≤ i := by
  induction m with
  | nil => simp [nextKey] at h
  | cons p t ih =>
    obtain ⟨k', v'⟩ := p
    simp only [nextKey] at h
    split at h
    · simp only [Option.some.injEq] at h; subst h
      have := mem_of_find hi
      rcases List.mem_cons.1 this with h | h
      · cases h; omega
      · have := hs.head_lt _ h; simp only at this; omega
    · simp only [find] at hi
      split at hi
      · omega
      · exact ih hs.tail h hi

theorem nextKey_none {k i : Int} {v : α} {m : OMap α} (h : nextKey k m = none)
    (hi : find i m = some v) : i ≤ k := by
  induction m with
  | nil => simp at hi
  | cons p t ih =>
    obtain ⟨k', v'⟩ := p
    simp only [nextKey] at h
    split at h
    · simp at h
    · simp only [find] at hi
      split at hi
      · omega
      · exact ih h hi

/-- Two maps with the same lookups are the same `std::map`. -/
theorem ext_of_sorted {m₁ m₂ : OMap α} (h₁ : Sorted m₁) (h₂ : Sorted m₂)
    (h : ∀ k, find k m₁ = find k m₂) : m₁ = m₂ := by
  induction m₁ generalizing m₂ with
  | nil =>
    cases m₂ with
    | nil => rfl
    | cons p t => have := h p.1; simp [find] at this
  | cons p t ih =>
    obtain ⟨k, v⟩ := p
    cases m₂ with
    | nil => have := h k; simp [find] at this
    | cons q u =>
      obtain ⟨k', v'⟩ := q
      have hk : k = k' := by
        have a1 := h k
        have a2 := h k'
        simp only [find, if_true] at a1 a2
        by_cases hkk : k = k'
        · exact hkk
        · rw [if_neg hkk] at a1
          rw [if_neg (fun h => hkk h.symm)] at a2
          have b1 := h₂.head_lt _ (mem_of_find a1.symm)
          have b2 := h₁.head_lt _ (mem_of_find a2)
          simp only at b1 b2; omega
      subst hk
      have hv := h k
      simp only [find, if_true, Option.some.injEq] at hv
      subst hv
      rw [ih h₁.tail h₂.tail]
      intro j
      by_cases hj : j = k
      · subst hj
        have hn : ∀ (w : OMap α), (∀ q ∈ w, j < q.1) → find j w = none := by
          intro w hw
          cases hf : find j w with
          | none => rfl
          | some x => have := hw _ (mem_of_find hf); simp at this
        rw [hn t h₁.head_lt, hn u h₂.head_lt]
      · have := h j
        simpa [find, hj] using this

end OMap
end Verif
