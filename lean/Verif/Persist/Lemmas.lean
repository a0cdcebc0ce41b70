import Verif.Persist.Model

/-
Helper lemmas for the round trip of the persistence layer.
-/

namespace Verif.Persist

theorem decSize_encSize {n : Nat} (h : n < 2 ^ 64) : decSize (encSize n) = n := by
  simp only [decSize, encSize, List.foldr]
  omega

theorem encSize_length (n : Nat) : (encSize n).length = 8 := rfl

theorem readInto_append {buf a : List Nat} {n : Nat} (rest : List Nat) (ha : a.length = n)
    (hb : buf.length = n) : readInto buf n (a ++ rest) = (a, some rest) := by
  subst ha
  unfold readInto
  rw [if_pos (by simp), List.take_left' rfl, List.drop_left' rfl,
    List.drop_eq_nil_of_le (by omega), List.append_nil]

theorem readSize_append {n : Nat} (rest : List Nat) (h : n < 2 ^ 64) :
    readSize (encSize n ++ rest) = some (n, rest) := by
  unfold readSize
  rw [readInto_append rest (encSize_length n) (encSize_length 0)]
  simp only [decSize_encSize h]

theorem resize_length (b : List Nat) (m : Nat) : (resize b m).length = m := by
  simp only [resize, List.length_append, List.length_take, List.length_replicate]
  omega

theorem restoreStr_one (v old rest : List Nat) (h : v.length < 2 ^ 64) :
    restoreStr 1 old (storeStr 1 v ++ rest) = (v, some rest) := by
  unfold restoreStr storeStr
  simp only [Nat.div_one, List.take_length, List.append_assoc, readSize_append _ h, Nat.mul_one]
  split
  · rename_i h0
    have : v = [] := List.eq_nil_of_length_eq_zero h0
    subst this
    simp [resize]
  · exact readInto_append rest rfl (resize_length _ _)

theorem restoreEach_append {α : Type} {rd : α → List Nat → α × Option (List Nat)}
    {st : α → List Nat} :
    ∀ (vs old : List α) (rest : List Nat), old.length = vs.length →
      (∀ v ∈ vs, ∀ o ∈ old, ∀ r, rd o (st v ++ r) = (v, some r)) →
      restoreEach rd old (vs.flatMap st ++ rest) = (vs, some rest)
  | [], old, rest, hl, _ => by
    have : old = [] := List.eq_nil_of_length_eq_zero (by simpa using hl)
    subst this
    simp [restoreEach]
  | v :: vs, [], rest, hl, _ => by simp at hl
  | v :: vs, o :: old, rest, hl, h => by
    simp only [List.flatMap_cons, List.append_assoc, restoreEach]
    rw [h v (by simp) o (by simp)]
    have ih := restoreEach_append vs old rest (by simpa using hl)
      (fun v' hv' o' ho' r => h v' (by simp [hv']) o' (by simp [ho']) r)
    simp only [ih]

theorem restoreLoop_append {α : Type} {rd : List Nat → α × Option (List Nat)}
    {st : α → List Nat} {ins : List α → α → List α} :
    ∀ (vs acc : List α) (rest : List Nat),
      (∀ v ∈ vs, ∀ r, rd (st v ++ r) = (v, some r)) →
      restoreLoop rd ins vs.length acc (vs.flatMap st ++ rest) =
        (vs.foldl ins acc, some rest)
  | [], acc, rest, _ => by simp [restoreLoop]
  | v :: vs, acc, rest, h => by
    simp only [List.flatMap_cons, List.append_assoc, List.length_cons, restoreLoop,
      List.foldl_cons]
    rw [h v (by simp)]
    exact restoreLoop_append vs (ins acc v) rest (fun v' hv' r => h v' (by simp [hv']) r)

theorem restoreDyn_append {α : Type} {rd : List Nat → α × Option (List Nat)}
    {st : α → List Nat} {ins : List α → α → List α} {vs res : List α} (rest : List Nat)
    {n : Nat} (hn : n = vs.length)
    (hl : n < 2 ^ 64) (h : ∀ v ∈ vs, ∀ r, rd (st v ++ r) = (v, some r))
    (hres : vs.foldl ins [] = res) :
    restoreDyn rd ins (encSize n ++ (vs.flatMap st) ++ rest) = (res, some rest) := by
  unfold restoreDyn
  subst hn
  simp only [List.append_assoc, readSize_append _ hl]
  rw [restoreLoop_append vs [] rest h, hres]

theorem restorePair_append {α β : Type} {ra : α → List Nat → α × Option (List Nat)}
    {rb : β → List Nat → β × Option (List Nat)} {sa sb : List Nat} {v old : α × β}
    {rest : List Nat} (ha : ∀ r, ra old.1 (sa ++ r) = (v.1, some r))
    (hb : rb old.2 (sb ++ rest) = (v.2, some rest)) :
    restorePair ra rb old (sa ++ sb ++ rest) = (v, some rest) := by
  unfold restorePair
  simp only [List.append_assoc, ha, hb]

/-! ### Insertion -/

theorem foldl_snoc {α : Type} (vs acc : List α) :
    vs.foldl (fun l x => l ++ [x]) acc = acc ++ vs := by
  induction vs generalizing acc with
  | nil => simp
  | cons v vs ih => simp [ih]

theorem emplace_snoc {α : Type} {lt : α → α → Bool} {x : α} :
    ∀ {l : List α}, (∀ y ∈ l, lt y x = true) → emplace lt l x = l ++ [x]
  | [], _ => rfl
  | y :: ys, h => by
    simp only [emplace, h y (by simp), if_true, List.cons_append]
    rw [emplace_snoc (fun z hz => h z (by simp [hz]))]

/-- Reinserting the elements of an ordered container in their order. -/
theorem foldl_emplace_sorted {α : Type} {lt : α → α → Bool} :
    ∀ (vs acc : List α), (acc ++ vs).Pairwise (fun a b => lt a b = true) →
      vs.foldl (emplace lt) acc = acc ++ vs
  | [], acc, _ => by simp
  | v :: vs, acc, h => by
    simp only [List.foldl_cons]
    have h1 : ∀ y ∈ acc, lt y v = true := fun y hy =>
      (List.pairwise_append.1 h).2.2 y hy v (by simp)
    rw [emplace_snoc h1, foldl_emplace_sorted vs (acc ++ [v]) (by simpa using h)]
    simp

/-- The comparison distinguishes all elements that occur and is transitive. -/
structure StrictOn {α : Type} (lt : α → α → Bool) : Prop where
  irrefl : ∀ a, lt a a = false
  trans : ∀ a b c, lt a b = true → lt b c = true → lt a c = true

theorem emplace_mem {α : Type} {lt : α → α → Bool} {x z : α} :
    ∀ {l : List α}, z ∈ emplace lt l x → z = x ∨ z ∈ l
  | [], h => by simpa [emplace] using h
  | y :: ys, h => by
    simp only [emplace] at h
    split at h
    · rcases List.mem_cons.1 h with h | h
      · simp [h]
      · rcases emplace_mem h with h | h <;> simp [h]
    · split at h
      · simpa using h
      · exact .inr h

theorem emplace_sorted {α : Type} {lt : α → α → Bool} (hs : StrictOn lt) {x : α} :
    ∀ {l : List α}, l.Pairwise (fun a b => lt a b = true) →
      (emplace lt l x).Pairwise (fun a b => lt a b = true)
  | [], _ => by simp [emplace]
  | y :: ys, h => by
    have hy := List.pairwise_cons.1 h
    simp only [emplace]
    split
    · rename_i hyx
      refine List.pairwise_cons.2 ⟨fun z hz => ?_, emplace_sorted hs hy.2⟩
      rcases emplace_mem hz with hz | hz
      · rw [hz]; exact hyx
      · exact hy.1 z hz
    · split
      · rename_i hxy
        refine List.pairwise_cons.2 ⟨fun z hz => ?_, h⟩
        rcases List.mem_cons.1 hz with hz | hz
        · rw [hz]; exact hxy
        · exact hs.trans _ _ _ hxy (hy.1 z hz)
      · exact h

theorem emplace_perm {α : Type} {lt : α → α → Bool} {x : α} :
    ∀ {l : List α}, (∀ y ∈ l, lt y x = true ∨ lt x y = true) →
      (emplace lt l x).Perm (x :: l)
  | [], _ => by simp [emplace]
  | y :: ys, h => by
    simp only [emplace]
    split
    · exact ((emplace_perm (fun z hz => h z (by simp [hz]))).cons y).trans (.swap _ _ _)
    · rename_i h1
      split
      · exact .refl _
      · rename_i h2
        rcases h y (by simp) with h | h
        · exact absurd h h1
        · exact absurd h h2

theorem foldl_emplace_perm {α : Type} {lt : α → α → Bool} (hs : StrictOn lt) :
    ∀ (vs acc : List α), acc.Pairwise (fun a b => lt a b = true) →
      (acc ++ vs).Pairwise (fun a b => lt a b = true ∨ lt b a = true) →
      (vs.foldl (emplace lt) acc).Perm (acc ++ vs) ∧
        (vs.foldl (emplace lt) acc).Pairwise (fun a b => lt a b = true)
  | [], acc, h, _ => by simpa using h
  | v :: vs, acc, h, hd => by
    simp only [List.foldl_cons]
    have hp : (emplace lt acc v).Perm (v :: acc) :=
      emplace_perm (fun y hy => (List.pairwise_append.1 hd).2.2 y hy v (by simp))
    have hperm : (emplace lt acc v ++ vs).Perm (acc ++ v :: vs) :=
      (hp.append_right vs).trans (by simpa using List.perm_middle.symm)
    have ih := foldl_emplace_perm hs vs (emplace lt acc v) (emplace_sorted hs h)
      ((hperm.pairwise_iff (fun h => h.symm)).2 hd)
    exact ⟨ih.1.trans hperm, ih.2⟩

/-- Reinserting the elements of a container in any order. -/
theorem foldl_emplace_any {α : Type} {lt : α → α → Bool} (hs : StrictOn lt) {v it : List α}
    (hp : it.Perm v) (h : v.Pairwise (fun a b => lt a b = true)) :
    it.foldl (emplace lt) [] = v := by
  have hd : (([] : List α) ++ it).Pairwise (fun a b => lt a b = true ∨ lt b a = true) := by
    rw [List.nil_append, hp.pairwise_iff (fun h => h.symm)]
    exact h.imp (fun h => .inl h)
  have := foldl_emplace_perm hs it [] .nil hd
  refine List.Perm.eq_of_pairwise (le := fun a b => lt a b = true) ?_ this.2 h
    (this.1.trans (by simpa using hp))
  intro a b _ _ hab hba
  have := hs.trans _ _ _ hab hba
  rw [hs.irrefl] at this
  cases this

end Verif.Persist
