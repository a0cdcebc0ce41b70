/-
Helper lemmas for the object tree.
-/
import Verif.Tree.Life

namespace Verif.Tree

theorem toSize_le {x : Int} (h : 0 ≤ x) : (toSize x : Int) ≤ x := by
  unfold toSize; omega

theorem le_toSize {x : Int} (h : x < 9223372036854775808) (h0 : 0 ≤ x) : x = (toSize x : Int) := by
  unfold toSize; omega

theorem nodup_of_map {α β : Type} {f : α → β} {l : List α} (h : (l.map f).Nodup) : l.Nodup :=
  List.Pairwise.of_map f (fun _ _ hne he => hne (he ▸ rfl)) h

theorem sublist_flatMap {α β : Type} {f : α → List β} {l : List α} {a : α} (h : a ∈ l) :
    List.Sublist (f a) (l.flatMap f) := by
  induction l with
  | nil => simp at h
  | cons b l ih =>
    rw [List.flatMap_cons]
    rcases List.mem_cons.1 h with rfl | h
    · exact List.sublist_append_left _ _
    · exact (ih h).trans (List.sublist_append_right _ _)

theorem find_name_some {α : Type} (f : α → String) {l : List α} (hn : (l.map f).Nodup)
    (n : String) (x : α) : l.find? (fun y => f y = n) = some x ↔ x ∈ l ∧ f x = n := by
  induction l with
  | nil => simp
  | cons a l ih =>
    simp only [List.map_cons, List.nodup_cons] at hn
    simp only [List.find?_cons]
    by_cases ha : f a = n
    · simp only [ha, decide_true, Option.some.injEq, List.mem_cons]
      constructor
      · rintro rfl; exact ⟨.inl rfl, ha⟩
      · rintro ⟨h, hx⟩
        rcases h with rfl | h
        · rfl
        · exact absurd (List.mem_map.2 ⟨x, h, hx.trans ha.symm⟩) hn.1
    · simp only [ha, decide_false, List.mem_cons]
      rw [ih hn.2]
      constructor
      · rintro ⟨h, hx⟩; exact ⟨.inr h, hx⟩
      · rintro ⟨h, hx⟩
        rcases h with rfl | h
        · exact absurd hx ha
        · exact ⟨h, hx⟩

theorem find_name_none {α : Type} (f : α → String) (l : List α) (n : String) :
    l.find? (fun y => f y = n) = none ↔ n ∉ l.map f := by
  simp [List.find?_eq_none]

theorem find_name_isSome {α : Type} (f : α → String) (l : List α) (n : String) :
    (l.find? (fun y => f y = n)).isSome = true ↔ n ∈ l.map f := by
  rw [List.find?_isSome]; simp

/-- Everything contained in the composite, container by container. -/
def Composite.all (s : Composite) : List Comp := s.containers.flatMap (·.comps)

theorem nameTaken_iff (s : Composite) (n : String) :
    s.nameTaken n = true ↔ n ∈ s.all.map (·.name) := by
  simp only [Composite.nameTaken, Ctn.getByName, List.any_eq_true, find_name_isSome,
    Composite.all, List.mem_map, List.mem_flatMap]
  constructor
  · rintro ⟨c, hc, x, hx, rfl⟩; exact ⟨x, ⟨c, hc, hx⟩, rfl⟩
  · rintro ⟨x, ⟨c, hc, hx⟩, rfl⟩; exact ⟨c, hc, x, hx, rfl⟩

theorem flatMap_set_append {l : List Ctn} {i : Nat} {c : Ctn} (h : l[i]? = some c) (x : Comp) :
    (l.set i { c with comps := c.comps ++ [x] }).flatMap (·.comps) |>.Perm
      (x :: l.flatMap (·.comps)) := by
  induction l generalizing i with
  | nil => simp at h
  | cons a l ih =>
    cases i with
    | zero =>
      simp only [List.getElem?_cons_zero, Option.some.injEq] at h
      subst h
      simp only [List.set_cons_zero, List.flatMap_cons, List.append_assoc, List.singleton_append]
      exact List.perm_middle
    | succ i =>
      simp only [List.getElem?_cons_succ] at h
      simp only [List.set_cons_succ, List.flatMap_cons]
      exact ((ih h).append_left _).trans List.perm_middle

theorem flatMap_set_erase {l : List Ctn} {i : Nat} {c : Ctn} (h : l[i]? = some c) (x : Comp) :
    List.Sublist ((l.set i { c with comps := c.comps.erase x }).flatMap (·.comps))
      (l.flatMap (·.comps)) := by
  induction l generalizing i with
  | nil => simp at h
  | cons a l ih =>
    cases i with
    | zero =>
      simp only [List.getElem?_cons_zero, Option.some.injEq] at h
      subst h
      simp only [List.set_cons_zero, List.flatMap_cons]
      exact List.Sublist.append List.erase_sublist (List.Sublist.refl _)
    | succ i =>
      simp only [List.getElem?_cons_succ] at h
      simp only [List.set_cons_succ, List.flatMap_cons]
      exact List.Sublist.append (List.Sublist.refl _) (ih h)

/-- The invariant of a composite: names unique, sizes, parents and types. -/
structure CInv (s : Composite) : Prop where
  names : (s.all.map (·.name)).Nodup
  upper : ∀ c ∈ s.containers, c.comps.length ≤ toSize c.upper
  comps : ∀ c ∈ s.containers, ∀ x ∈ c.comps, x.parent = s.self ∧ c.ty ∈ x.types

theorem CInv.add {s : Composite} (h : CInv s) (isComp : Bool) (i : Nat) (x : Comp) :
    CInv (addComponent s isComp i x).1 := by
  unfold addComponent
  split
  · exact h
  · rename_i c hc
    have hm : c ∈ s.containers := List.mem_of_getElem? hc
    split
    · exact h
    · rename_i hty
      split
      · exact h
      · rename_i hlen
        split
        · exact h
        · rename_i hchk
          have hname : s.nameTaken x.name = false := by
            unfold Composite.check at hchk
            split at hchk
            · simp at hchk
            · rename_i hh; simpa using hh
          have hpar : s.self = x.parent := by
            unfold Composite.check at hchk
            split at hchk
            · simp at hchk
            · split at hchk
              · simp at hchk
              · split at hchk
                · simp at hchk
                · rename_i hh; simpa using hh
          have hnm : x.name ∉ s.all.map (·.name) := by
            rw [← nameTaken_iff]; simp [hname]
          refine ⟨?_, ?_, ?_⟩
          · have hp := (flatMap_set_append hc x).map (·.name)
            have : ((s.all.map (·.name))).Nodup := h.names
            exact (hp.nodup_iff).2 (by
              simp only [List.map_cons, List.nodup_cons]; exact ⟨hnm, this⟩)
          · intro d hd
            rcases List.mem_or_eq_of_mem_set hd with hd | rfl
            · exact h.upper d hd
            · simp only [List.length_append, List.length_singleton]; omega
          · intro d hd
            rcases List.mem_or_eq_of_mem_set hd with hd | rfl
            · exact h.comps d hd
            · intro y hy
              simp only [List.mem_append, List.mem_singleton] at hy
              rcases hy with hy | rfl
              · exact h.comps c hm y hy
              · exact ⟨hpar.symm, by simpa using hty⟩

theorem CInv.del {s : Composite} (h : CInv s) (i : Nat) (x : Comp) :
    CInv (deleteComponent s i x).1 := by
  unfold deleteComponent
  split
  · exact h
  · rename_i c hc
    have hm : c ∈ s.containers := List.mem_of_getElem? hc
    split
    · exact h
    · split
      · exact h
      · refine ⟨?_, ?_, ?_⟩
        · exact List.Nodup.sublist ((flatMap_set_erase hc x).map _) h.names
        · intro d hd
          rcases List.mem_or_eq_of_mem_set hd with hd | rfl
          · exact h.upper d hd
          · exact Nat.le_trans (List.length_erase_le) (h.upper c hm)
        · intro d hd
          rcases List.mem_or_eq_of_mem_set hd with hd | rfl
          · exact h.comps d hd
          · intro y hy
            exact h.comps c hm y (List.mem_of_mem_erase hy)

theorem CInv.step {s : Composite} (h : CInv s) (isComp : Bool) (o : COp) :
    CInv (cstep isComp s o).1 := by
  cases o with
  | add i x => exact h.add isComp i x
  | del i x => exact h.del i x
  | publish fs => exact ⟨h.names, h.upper, h.comps⟩
  | member n => exact ⟨h.names, h.upper, h.comps⟩

theorem CInv.run {s : Composite} (h : CInv s) (isComp : Bool) (ops : List COp) :
    CInv (crun isComp s ops) := by
  induction ops generalizing s with
  | nil => exact h
  | cons o ops ih => exact ih (h.step isComp o)

theorem CInv.empty {s : Composite} (h : ∀ c ∈ s.containers, c.comps = []) : CInv s := by
  refine ⟨?_, ?_, ?_⟩
  · have : s.all = [] := by
      simp only [Composite.all, List.flatMap_eq_nil_iff]; exact h
    simp [this]
  · intro c hc; simp [h c hc]
  · intro c hc x hx; simp [h c hc] at hx

theorem cstep_self (isComp : Bool) (s : Composite) (o : COp) :
    (cstep isComp s o).1.self = s.self := by
  cases o <;> simp only [cstep, addComponent, deleteComponent] <;> grind

theorem crun_self (isComp : Bool) (s : Composite) (ops : List COp) :
    (crun isComp s ops).self = s.self := by
  induction ops generalizing s with
  | nil => rfl
  | cons o ops ih => exact (ih _).trans (cstep_self isComp s o)

/-- Lookup after `tryEmplace`. -/
theorem lookup_tryEmplace {κ α : Type} [DecidableEq κ] (m : List (κ × α)) (k k' : κ) (v : α) :
    lookup (tryEmplace m k v) k' = if k' = k then (lookup m k).or (some v) else lookup m k' := by
  unfold tryEmplace
  by_cases h : (lookup m k).isSome
  · rw [if_pos h]
    by_cases hk : k' = k
    · subst hk; rw [if_pos rfl]
      obtain ⟨w, hw⟩ := Option.isSome_iff_exists.1 h
      simp [hw]
    · rw [if_neg hk]
  · rw [if_neg h]
    have hn : lookup m k = none := by simpa using h
    unfold lookup at *
    rw [List.find?_append]
    by_cases hk : k' = k
    · subst hk
      rw [if_pos rfl]
      simp only [Option.map_eq_none_iff] at hn
      simp [hn]
    · rw [if_neg hk]
      have : ¬ k = k' := fun h => hk h.symm
      simp [this]

end Verif.Tree
