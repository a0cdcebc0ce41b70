import Verif.Python.Class

/-! Lemmas for `ClassProps.lean`. -/
namespace Verif.Python.Class

open scoped List

/-! ### The traversal of the table -/

/-- The interface of a node. -/
def Hier.ifc : Hier → Ifc
  | .node i _ => i

mutual

/-- The nodes of a tree, those below before those above. -/
def Hier.sub : Hier → List Hier
  | .node i cs => subAll cs ++ [.node i cs]

def subAll : List Hier → List Hier
  | [] => []
  | c :: cs => c.sub ++ subAll cs

end

/-- The interfaces of a tree, those below before those above. -/
def Hier.names (t : Hier) : List Ifc := t.sub.map Hier.ifc

def namesAll (ts : List Hier) : List Ifc := (subAll ts).map Hier.ifc

theorem names_node (i : Ifc) (cs : List Hier) : (Hier.node i cs).names = namesAll cs ++ [i] := by
  unfold Hier.names Hier.sub namesAll; simp [Hier.ifc]

theorem namesAll_cons (c : Hier) (cs : List Hier) : namesAll (c :: cs) = c.names ++ namesAll cs := by
  unfold Hier.names namesAll; rw [subAll]; simp

theorem process_node (inst : Ifc → Bool) (i : Ifc) (cs : List Hier) :
    (Hier.node i cs).process inst =
      if !(processAll inst cs).1 && inst i then (true, (processAll inst cs).2 ++ [i])
      else processAll inst cs := by
  rw [Hier.process]

theorem processAll_cons (inst : Ifc → Bool) (c : Hier) (cs : List Hier) :
    processAll inst (c :: cs) =
      ((c.process inst).1 || (processAll inst cs).1, (c.process inst).2 ++ (processAll inst cs).2) := by
  rw [processAll]

mutual

theorem found (inst : Ifc → Bool) : ∀ t : Hier,
    (t.process inst).1 = true ↔ ∃ n ∈ t.names, inst n = true
  | .node i cs => by
    have ih := foundAll inst cs
    rw [process_node, names_node]
    cases h : (processAll inst cs).1 with
    | true =>
      obtain ⟨n, hn, hi⟩ := ih.1 h
      simp only [Bool.not_true, Bool.false_and, Bool.false_eq_true, if_false, h, true_iff]
      exact ⟨n, List.mem_append_left _ hn, hi⟩
    | false =>
      have hno : ∀ n ∈ namesAll cs, ¬ inst n = true := fun n hn hi => by
        rw [ih.2 ⟨n, hn, hi⟩] at h; cases h
      cases hi : inst i with
      | true =>
        simp only [Bool.not_false, Bool.true_and, if_true, true_iff]
        exact ⟨i, List.mem_append_right _ (by simp), hi⟩
      | false =>
        simp only [Bool.and_false, Bool.false_eq_true, if_false, h, false_iff]
        rintro ⟨n, hn, hi'⟩
        rcases List.mem_append.1 hn with hn | hn
        · exact hno n hn hi'
        · rw [List.mem_singleton.1 hn, hi] at hi'; cases hi'

theorem foundAll (inst : Ifc → Bool) : ∀ ts : List Hier,
    (processAll inst ts).1 = true ↔ ∃ n ∈ namesAll ts, inst n = true
  | [] => by simp [processAll, namesAll, subAll]
  | c :: cs => by
    rw [processAll_cons, namesAll_cons, Bool.or_eq_true, found inst c, foundAll inst cs]
    constructor
    · rintro (⟨n, hn, hi⟩ | ⟨n, hn, hi⟩)
      · exact ⟨n, List.mem_append_left _ hn, hi⟩
      · exact ⟨n, List.mem_append_right _ hn, hi⟩
    · rintro ⟨n, hn, hi⟩
      rcases List.mem_append.1 hn with hn | hn
      · exact .inl ⟨n, hn, hi⟩
      · exact .inr ⟨n, hn, hi⟩

end

mutual

/-- What is added are interfaces of the tree, those below before those above. -/
theorem added (inst : Ifc → Bool) : ∀ t : Hier, (t.process inst).2 <+ t.names
  | .node i cs => by
    rw [process_node, names_node]
    split
    · exact List.Sublist.append (addedAll inst cs) (List.Sublist.refl _)
    · exact (addedAll inst cs).trans (List.sublist_append_left _ _)

theorem addedAll (inst : Ifc → Bool) : ∀ ts : List Hier, (processAll inst ts).2 <+ namesAll ts
  | [] => by simp [processAll]
  | c :: cs => by
    rw [processAll_cons, namesAll_cons]
    exact List.Sublist.append (added inst c) (addedAll inst cs)

end

mutual

/-- An interface that is added is implemented, and none below it is. -/
theorem added_only (inst : Ifc → Bool) : ∀ (t : Hier) (b : Ifc), b ∈ (t.process inst).2 →
    inst b = true ∧ ∃ cs, .node b cs ∈ t.sub ∧ (processAll inst cs).1 = false
  | .node i cs, b, h => by
    rw [process_node] at h
    rw [Hier.sub]
    split at h
    · rename_i hc
      rw [Bool.and_eq_true] at hc
      rcases List.mem_append.1 h with h | h
      · obtain ⟨hb, ds, hd, hf⟩ := added_only_all inst cs b h
        exact ⟨hb, ds, List.mem_append_left _ hd, hf⟩
      · rw [List.mem_singleton.1 h]
        exact ⟨hc.2, cs, List.mem_append_right _ (by simp), by simpa using hc.1⟩
    · obtain ⟨hb, ds, hd, hf⟩ := added_only_all inst cs b h
      exact ⟨hb, ds, List.mem_append_left _ hd, hf⟩

theorem added_only_all (inst : Ifc → Bool) : ∀ (ts : List Hier) (b : Ifc),
    b ∈ (processAll inst ts).2 →
    inst b = true ∧ ∃ cs, .node b cs ∈ subAll ts ∧ (processAll inst cs).1 = false
  | [], b, h => by rw [processAll] at h; cases h
  | c :: cs, b, h => by
    rw [processAll_cons] at h
    rw [subAll]
    rcases List.mem_append.1 h with h | h
    · obtain ⟨hb, ds, hd, hf⟩ := added_only inst c b h
      exact ⟨hb, ds, List.mem_append_left _ hd, hf⟩
    · obtain ⟨hb, ds, hd, hf⟩ := added_only_all inst cs b h
      exact ⟨hb, ds, List.mem_append_right _ hd, hf⟩

end

mutual

/-- What a part of the tree adds, the tree adds. -/
theorem added_sub (inst : Ifc → Bool) : ∀ (t s : Hier), s ∈ t.sub → ∀ b ∈ (s.process inst).2,
    b ∈ (t.process inst).2
  | .node i cs, s, hs, b, hb => by
    rw [Hier.sub] at hs
    rcases List.mem_append.1 hs with hs | hs
    · have := added_sub_all inst cs s hs b hb
      rw [process_node]
      split
      · exact List.mem_append_left _ this
      · exact this
    · rw [List.mem_singleton.1 hs] at hb; exact hb

theorem added_sub_all (inst : Ifc → Bool) : ∀ (ts : List Hier) (s : Hier), s ∈ subAll ts →
    ∀ b ∈ (s.process inst).2, b ∈ (processAll inst ts).2
  | [], s, hs, b, hb => by rw [subAll] at hs; cases hs
  | c :: cs, s, hs, b, hb => by
    rw [subAll] at hs
    rw [processAll_cons]
    rcases List.mem_append.1 hs with hs | hs
    · exact List.mem_append_left _ (added_sub inst c s hs b hb)
    · exact List.mem_append_right _ (added_sub_all inst cs s hs b hb)

end

mutual

theorem added_some (inst : Ifc → Bool) : ∀ t : Hier, (t.process inst).1 = true →
    ∃ b, b ∈ (t.process inst).2
  | .node i cs, h => by
    rw [process_node] at h ⊢
    split
    · exact ⟨i, List.mem_append_right _ (by simp)⟩
    · rename_i hc
      rw [if_neg hc] at h
      exact added_some_all inst cs h

theorem added_some_all (inst : Ifc → Bool) : ∀ ts : List Hier, (processAll inst ts).1 = true →
    ∃ b, b ∈ (processAll inst ts).2
  | [], h => by rw [processAll] at h; cases h
  | c :: cs, h => by
    rw [processAll_cons] at h ⊢
    rcases Bool.or_eq_true _ _ ▸ h with h | h
    · obtain ⟨b, hb⟩ := added_some inst c h
      exact ⟨b, List.mem_append_left _ hb⟩
    · obtain ⟨b, hb⟩ := added_some_all inst cs h
      exact ⟨b, List.mem_append_right _ hb⟩

end

/-! ### Merging -/

theorem pop_cons (h x : Ifc) (xs : List Ifc) :
    merge.pop h (x :: xs) = if x = h then xs else x :: xs := rfl

theorem pop_sublist (h : Ifc) (l : List Ifc) : merge.pop h l <+ l := by
  cases l with
  | nil => exact List.Sublist.refl _
  | cons x xs =>
    rw [pop_cons]
    split
    · exact List.sublist_cons_self _ _
    · exact List.Sublist.refl _

theorem pop_length (h : Ifc) (l : List Ifc) : (merge.pop h l).length ≤ l.length :=
  (pop_sublist h l).length_le

theorem sum_le {α : Type} (f g : α → Nat) (l : List α) (h : ∀ a ∈ l, f a ≤ g a) :
    (l.map f).sum ≤ (l.map g).sum := by
  induction l with
  | nil => exact Nat.le_refl _
  | cons a l ih =>
    simp only [List.map_cons, List.sum_cons]
    have := h a (by simp)
    have := ih (fun b hb => h b (by simp [hb]))
    omega

theorem sum_lt {α : Type} (f g : α → Nat) (l : List α) (h : ∀ a ∈ l, f a ≤ g a) (a : α) (ha : a ∈ l)
    (hlt : f a < g a) : (l.map f).sum < (l.map g).sum := by
  induction l with
  | nil => cases ha
  | cons b l ih =>
    simp only [List.map_cons, List.sum_cons]
    have h1 := h b (by simp)
    rcases List.mem_cons.1 ha with rfl | ha
    · have := sum_le f g l (fun c hc => h c (by simp [hc]))
      omega
    · have := ih (fun c hc => h c (by simp [hc])) ha
      omega

/-- There is an order in which every list is sorted. -/
def Sorted (r : Ifc → Nat) (ls : List (List Ifc)) : Prop :=
  ∀ l ∈ ls, l.Pairwise fun a b => r a < r b

theorem exists_min (r : Ifc → Nat) : ∀ (hs : List Ifc), hs ≠ [] → ∃ h ∈ hs, ∀ x ∈ hs, r h ≤ r x
  | [], h => absurd rfl h
  | [a], _ => ⟨a, by simp, by simp⟩
  | a :: b :: hs, _ => by
    obtain ⟨m, hm, hle⟩ := exists_min r (b :: hs) (by simp)
    by_cases h : r a ≤ r m
    · refine ⟨a, by simp, fun x hx => ?_⟩
      rcases List.mem_cons.1 hx with rfl | hx
      · omega
      · have := hle x hx; omega
    · refine ⟨m, List.mem_cons_of_mem _ hm, fun x hx => ?_⟩
      rcases List.mem_cons.1 hx with rfl | hx
      · omega
      · exact hle x hx

/-- The least of the heads is in no tail. -/
theorem exists_good {r : Ifc → Nat} {ls : List (List Ifc)} (hs : Sorted r ls)
    (hne : ls.all List.isEmpty = false) : ∃ h t, (h :: t) ∈ ls ∧ merge.good ls (h :: t) = true := by
  have : ls.filterMap List.head? ≠ [] := by
    intro he
    rw [List.filterMap_eq_nil_iff] at he
    have : ls.all List.isEmpty = true := List.all_eq_true.2 fun l hl => by
      have := he l hl
      cases l with
      | nil => rfl
      | cons a l => cases this
    rw [this] at hne; cases hne
  obtain ⟨h, hh, hle⟩ := exists_min r _ this
  obtain ⟨l, hl, hlh⟩ := List.mem_filterMap.1 hh
  cases l with
  | nil => cases hlh
  | cons a t =>
    simp only [List.head?_cons, Option.some.injEq] at hlh
    subst hlh
    refine ⟨a, t, hl, ?_⟩
    unfold merge.good
    rw [List.all_eq_true]
    intro k hk
    cases k with
    | nil => rfl
    | cons b k =>
      simp only [List.tail_cons]
      cases hc : k.contains a with
      | false => rfl
      | true =>
        exfalso
        have ha : a ∈ k := by simpa using hc
        have h1 := (List.pairwise_cons.1 (hs _ hk)).1 a ha
        have h2 := hle b (List.mem_filterMap.2 ⟨_, hk, rfl⟩)
        omega

theorem merge_ok (r : Ifc → Nat) : ∀ (n : Nat) (ls : List (List Ifc)), Sorted r ls →
    (ls.map List.length).sum ≤ n → ∃ out, merge n ls = some out ∧ out.Nodup ∧
      (∀ x, x ∈ out ↔ ∃ l ∈ ls, x ∈ l) ∧ ∀ l ∈ ls, l <+ out
  | 0, ls, _, hn => by
    have he : ∀ l ∈ ls, l = [] := fun l hl => by
      have h0 : (ls.map List.length).sum = 0 := by omega
      exact List.eq_nil_of_length_eq_zero
        (List.sum_eq_zero_iff_forall_eq_nat.1 h0 _ (List.mem_map_of_mem hl))
    refine ⟨[], rfl, List.nodup_nil, fun x => ⟨fun h => (by cases h), fun ⟨l, hl, hx⟩ => ?_⟩,
      fun l hl => ?_⟩
    · rw [he l hl] at hx; cases hx
    · rw [he l hl]; exact List.Sublist.refl _
  | n + 1, ls, hs, hn => by
    rw [merge]
    cases hne : ls.all List.isEmpty with
    | true =>
      rw [if_pos rfl]
      have he : ∀ l ∈ ls, l = [] := fun l hl => by simpa using List.all_eq_true.1 hne l hl
      refine ⟨[], rfl, List.nodup_nil, fun x => ⟨fun h => (by cases h), fun ⟨l, hl, hx⟩ => ?_⟩,
        fun l hl => ?_⟩
      · rw [he l hl] at hx; cases hx
      · rw [he l hl]; exact List.Sublist.refl _
    | false =>
      rw [if_neg (by decide)]
      obtain ⟨h', t', hm', hg'⟩ := exists_good hs hne
      obtain ⟨l, hf⟩ : ∃ l, ls.find? (merge.good ls) = some l := by
        rw [← Option.isSome_iff_exists, List.find?_isSome]
        exact ⟨_, hm', hg'⟩
      have hm := List.mem_of_find?_eq_some hf
      have hg : merge.good ls l = true := by have := List.find?_some hf; exact this
      rw [hf]
      cases l with
      | nil => cases hg
      | cons h t =>
        dsimp only
        have hnt : ∀ k ∈ ls, h ∉ k.tail := fun k hk hc => by
          have := List.all_eq_true.1 hg k hk
          rw [List.contains_iff_mem.2 hc] at this
          cases this
        have hpop : ∀ k ∈ ls, h ∉ merge.pop h k := fun k hk hc => by
          cases k with
          | nil => cases hc
          | cons x xs =>
            have hx := hnt _ hk
            rw [pop_cons] at hc
            split at hc
            · exact hx hc
            · rename_i hne
              rcases List.mem_cons.1 hc with rfl | hc
              · exact hne rfl
              · exact hx hc
        have hs' : Sorted r (ls.map (merge.pop h)) := fun k hk => by
          obtain ⟨k', hk', rfl⟩ := List.mem_map.1 hk
          exact (hs k' hk').sublist (pop_sublist h k')
        have hlen : ((ls.map (merge.pop h)).map List.length).sum ≤ n := by
          rw [List.map_map]
          have := sum_lt (List.length ∘ merge.pop h) List.length ls (fun k _ => pop_length h k)
            (h :: t) hm (by simp [merge.pop])
          omega
        obtain ⟨out, ho, hnd, hmem, hsub⟩ := merge_ok r n _ hs' hlen
        refine ⟨h :: out, by rw [ho]; rfl, List.nodup_cons.2 ⟨fun hc => ?_, hnd⟩, fun x => ?_,
          fun k hk => ?_⟩
        · obtain ⟨k, hk, hx⟩ := (hmem h).1 hc
          obtain ⟨k', hk', rfl⟩ := List.mem_map.1 hk
          exact hpop k' hk' hx
        · constructor
          · intro hx
            rcases List.mem_cons.1 hx with rfl | hx
            · exact ⟨_, hm, by simp⟩
            · obtain ⟨k, hk, hx⟩ := (hmem x).1 hx
              obtain ⟨k', hk', rfl⟩ := List.mem_map.1 hk
              exact ⟨k', hk', (pop_sublist h k').mem hx⟩
          · rintro ⟨k, hk, hx⟩
            by_cases hxh : x = h
            · subst hxh; exact List.mem_cons_self
            · refine List.mem_cons_of_mem _ ((hmem x).2 ⟨_, List.mem_map_of_mem hk, ?_⟩)
              cases k with
              | nil => cases hx
              | cons y ys =>
                rw [pop_cons]
                split
                · rename_i he
                  rcases List.mem_cons.1 hx with rfl | hx
                  · exact absurd he hxh
                  · exact hx
                · exact hx
        · have := hsub _ (List.mem_map_of_mem hk)
          cases k with
          | nil => exact List.nil_sublist _
          | cons y ys =>
            rw [pop_cons] at this
            split at this
            · rename_i he; subst he
              exact List.Sublist.cons_cons _ this
            · exact List.Sublist.cons _ this

/-- Lists that are parts of one list without repetition can be merged. -/
theorem sorted_of_sublist {p : List Ifc} (hp : p.Nodup) {ls : List (List Ifc)}
    (h : ∀ l ∈ ls, l <+ p) : Sorted p.idxOf ls := by
  have : p.Pairwise fun a b => p.idxOf a < p.idxOf b := by
    rw [List.pairwise_iff_getElem]
    intro i j hi hj hij
    rw [List.Nodup.idxOf_getElem hp, List.Nodup.idxOf_getElem hp]
    exact hij
  exact fun l hl => this.sublist (h l hl)

end Verif.Python.Class
