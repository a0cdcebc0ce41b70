/-
Association lists standing for `std::map` / `std::unordered_map` whose iteration
order is not observed.
-/
namespace Verif

instance {ε α : Type} [DecidableEq ε] [DecidableEq α] : DecidableEq (Except ε α)
  | .error a, .error b => decidable_of_iff (a = b) (by simp)
  | .ok a, .ok b => decidable_of_iff (a = b) (by simp)
  | .error _, .ok _ => isFalse (by simp)
  | .ok _, .error _ => isFalse (by simp)

/-- A finite map as a list of pairs; the first pair with a key counts. (The `std::unordered_map`s
of XsmpEventManager.h:117-125.) -/
abbrev Assoc (κ α : Type) := List (κ × α)

namespace Assoc
variable {κ α : Type} [DecidableEq κ]

/-- `m.find(k)`; `none` is `end()`. (Used in XsmpEventManager.cpp:93-199.) -/
def find (k : κ) : Assoc κ α → Option α
  | [] => none
  | (k', v) :: m => if k = k' then some v else find k m

/-- `m[k] = v`, `m.insert_or_assign(k, v)`: replaces or adds one entry. (Used in
XsmpEventManager.cpp:93-199.) -/
def set (k : κ) (v : α) : Assoc κ α → Assoc κ α
  | [] => [(k, v)]
  | (k', v') :: m => if k = k' then (k, v) :: m else (k', v') :: set k v m

/-- `m.try_emplace(k, v)`: adds unless the key is present. (Used in XsmpEventManager.cpp:93-199.)
-/
def tryEmplace (k : κ) (v : α) (m : Assoc κ α) : Assoc κ α :=
  match m.find k with
  | some _ => m
  | none => set k v m

/-- `m.erase(k)`. (Used in XsmpLinkRegistry.cpp:53-73.) -/
def erase (k : κ) (m : Assoc κ α) : Assoc κ α := m.filter (fun p => p.1 ≠ k)

theorem find_set (k k' : κ) (v : α) (m : Assoc κ α) :
    find k (set k' v m) = if k = k' then some v else find k m := by
  induction m with
  | nil => simp only [set, find]
  | cons p m ih =>
    obtain ⟨a, b⟩ := p
    simp only [set, find]
    split
    · rename_i h; subst h; simp only [find]; split <;> rfl
    · simp only [find, ih]
      split
      · split
        · rename_i h1 h2 h3; subst h2; subst h3; exact absurd rfl h1
        · rfl
      · rfl

@[simp] theorem find_set_self (k : κ) (v : α) (m : Assoc κ α) : find k (set k v m) = some v := by
  rw [find_set, if_pos rfl]

theorem find_set_ne {k k' : κ} (h : k ≠ k') (v : α) (m : Assoc κ α) :
    find k (set k' v m) = find k m := by rw [find_set, if_neg h]

theorem find_tryEmplace (k k' : κ) (v : α) (m : Assoc κ α) :
    find k (tryEmplace k' v m) = if k = k' ∧ find k m = none then some v else find k m := by
  unfold tryEmplace
  split
  · rename_i h
    split
    · rename_i h'; rw [h'.1] at h'; rw [h] at h'; simp at h'
    · rfl
  · rename_i h
    rw [find_set]
    by_cases hk : k = k'
    · subst hk; simp [h]
    · simp [hk]

theorem find_erase (k k' : κ) (m : Assoc κ α) :
    find k (erase k' m) = if k = k' then none else find k m := by
  induction m with
  | nil => simp [erase, find]
  | cons p m ih =>
    obtain ⟨a, b⟩ := p
    simp only [erase, List.filter_cons] at ih ⊢
    by_cases h : a = k'
    · subst h
      simp only [ne_eq, not_true_eq_false, decide_false, Bool.false_eq_true, ↓reduceIte, ih, find]
      split <;> simp_all
    · simp only [ne_eq, h, not_false_eq_true, decide_true, ↓reduceIte, find, ih]
      split
      · split
        · simp_all
        · rfl
      · rfl

theorem find_erase_self (k : κ) (m : Assoc κ α) : find k (erase k m) = none := by
  rw [find_erase, if_pos rfl]

theorem find_erase_ne {k k' : κ} (h : k ≠ k') (m : Assoc κ α) :
    find k (erase k' m) = find k m := by rw [find_erase, if_neg h]

theorem mem_of_find {k : κ} {v : α} {m : Assoc κ α} (h : find k m = some v) : (k, v) ∈ m := by
  induction m with
  | nil => simp [find] at h
  | cons p m ih =>
    obtain ⟨a, b⟩ := p
    simp only [find] at h
    split at h
    · rename_i hk; subst hk; simp at h; subst h; exact List.mem_cons_self
    · exact List.mem_cons_of_mem _ (ih h)

/-- All keys are different (the invariant of a real map). -/
def Nodup (m : Assoc κ α) : Prop := (m.map Prod.fst).Nodup

theorem find_of_mem {k : κ} {v : α} {m : Assoc κ α} (hn : Nodup m) (h : (k, v) ∈ m) :
    find k m = some v := by
  induction m with
  | nil => simp at h
  | cons p m ih =>
    obtain ⟨a, b⟩ := p
    simp only [Nodup, List.map_cons, List.nodup_cons] at hn
    simp only [find]
    rcases List.mem_cons.1 h with h | h
    · simp only [Prod.mk.injEq] at h; rw [if_pos h.1, h.2]
    · rw [if_neg, ih hn.2 h]
      intro hk
      exact hn.1 (List.mem_map.2 ⟨(k, v), h, hk⟩)

theorem find_none_iff {k : κ} {m : Assoc κ α} : find k m = none ↔ k ∉ m.map Prod.fst := by
  induction m with
  | nil => simp [find]
  | cons p m ih =>
    obtain ⟨a, b⟩ := p
    simp only [find, List.map_cons, List.mem_cons]
    split
    · rename_i h; simp [h]
    · rename_i h; simp [h, ih]

theorem set_fresh {k : κ} {v : α} {m : Assoc κ α} (h : find k m = none) :
    set k v m = m ++ [(k, v)] := by
  induction m with
  | nil => rfl
  | cons p m ih =>
    obtain ⟨a, b⟩ := p
    simp only [find] at h
    split at h
    · simp at h
    · rename_i hk; simp [set, hk, ih h]

theorem Nodup.set {k : κ} {v : α} {m : Assoc κ α} (h : Nodup m) : Nodup (set k v m) := by
  have key : ∀ m : Assoc κ α, (Assoc.set k v m).map Prod.fst =
      if k ∈ m.map Prod.fst then m.map Prod.fst else m.map Prod.fst ++ [k] := by
    intro m
    induction m with
    | nil => simp [Assoc.set]
    | cons p m ih =>
      obtain ⟨a, b⟩ := p
      simp only [Assoc.set]
      split
      · rename_i hk; subst hk; simp
      · rename_i hk
        simp only [List.map_cons, ih, List.mem_cons, hk, false_or]
        split <;> simp
  unfold Nodup at h ⊢
  rw [key]
  split
  · exact h
  · rename_i hk
    rw [List.nodup_append]
    exact ⟨h, by simp, by
      intro a ha b hb
      simp only [List.mem_singleton] at hb
      subst hb
      rintro rfl
      exact hk ha⟩

theorem Nodup.tryEmplace {k : κ} {v : α} {m : Assoc κ α} (h : Nodup m) :
    Nodup (tryEmplace k v m) := by
  unfold Assoc.tryEmplace; split
  · exact h
  · exact h.set

theorem Nodup.erase {k : κ} {m : Assoc κ α} (h : Nodup m) : Nodup (erase k m) :=
  h.sublist (List.Sublist.map _ List.filter_sublist)

theorem length_tryEmplace_fresh {k : κ} {v : α} {m : Assoc κ α} (h : find k m = none) :
    (tryEmplace k v m).length = m.length + 1 := by
  unfold tryEmplace; rw [h]; simp only; rw [set_fresh h]; simp

end Assoc
end Verif
