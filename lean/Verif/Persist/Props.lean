import Verif.Persist.Lemmas

/-
C42 Persisted values restore to themselves; C43 another type is detected; C44 wide strings;
C71 a truncated stream is detected.
-/

namespace Verif.Persist

/-! ### Specification -/

/-- Parts of a C++ variable that have a fixed size: an arithmetic value has `sizeof` bytes, an
array its extent. Every variable of the type satisfies this. -/
def Shape : (t : Ty) → t.Val → Prop
  | .num n, v => v.length = n
  | .str _, _ => True
  | .arr n t, v => v.length = n ∧ ∀ x ∈ v, Shape t x
  | .pair a b, v => Shape a v.1 ∧ Shape b v.2
  | .atomic t, v => Shape t v
  | .vec _, _ => True
  | .set _ _, _ => True
  | .map _ _ _, _ => True
  | .obj, _ => True

/-- The C++ values of a type whose round trip is claimed: containers have less than 2^64
elements, strings have one byte characters, sets and maps are ordered without equivalent keys
(for the unordered containers: the iteration order is some permutation), pointers designate
objects that are found under their own path. -/
def Valid (E : Env) : (t : Ty) → t.Val → Prop
  | .num n, v => v.length = n
  | .str c, v => c = 1 ∧ v.length < 2 ^ 64
  | .arr n t, v => v.length = n ∧ ∀ x ∈ v, Valid E t x
  | .pair a b, v => Valid E a v.1 ∧ Valid E b v.2
  | .atomic t, v => Valid E t v
  | .vec t, v => v.length < 2 ^ 64 ∧ ∀ x ∈ v, Valid E t x
  | .set o t, v => v.length < 2 ^ 64 ∧ (∀ x ∈ v, Valid E t x) ∧
      v.Pairwise (fun a b => E.lt o t a b = true) ∧
      (o = none → StrictOn (E.lt o t) ∧ (E.iterSet t v).Perm v)
  | .map o k w, v => v.length < 2 ^ 64 ∧ (∀ x ∈ v, Valid E k x.1 ∧ Valid E w x.2) ∧
      v.Pairwise (fun a b => E.lt o k a.1 b.1 = true) ∧
      (o = none → StrictOn (E.lt o k) ∧ (E.iterMap k w v).Perm v)
  | .obj, v => (E.path v).length < 2 ^ 64 ∧ E.resolve (E.path v) = v

theorem fresh_shape : (t : Ty) → Shape t t.fresh
  | .num n => by simp [Shape, Ty.fresh]
  | .str _ => trivial
  | .arr n t => by
    refine ⟨by simp [Ty.fresh], fun x hx => ?_⟩
    simp only [Ty.fresh, List.mem_replicate] at hx
    rw [hx.2]; exact fresh_shape t
  | .pair a b => ⟨fresh_shape a, fresh_shape b⟩
  | .atomic t => fresh_shape t
  | .vec _ => trivial
  | .set _ _ => trivial
  | .map _ _ _ => trivial
  | .obj => trivial

/-- **C42** For every type, value, following stream and previous content of the target:
restoring what was stored yields the stored value and leaves exactly the following stream. -/
theorem C42_roundTrip (E : Env) : ∀ (t : Ty) (v old : t.Val) (rest : List Nat),
    Valid E t v → Shape t old → restore E t old (store E t v ++ rest) = (v, some rest)
  | .num n, v, old, rest, h, ho => readInto_append rest h ho
  | .str c, v, old, rest, h, ho => by
    obtain ⟨rfl, h⟩ := h
    exact restoreStr_one v old rest h
  | .arr n t, v, old, rest, h, ho => by
    refine restoreEach_append v old rest (by rw [ho.1, h.1]) ?_
    exact fun x hx o hoo r => C42_roundTrip E t x o r (h.2 x hx) (ho.2 o hoo)
  | .pair a b, v, old, rest, h, ho =>
    restorePair_append (fun r => C42_roundTrip E a v.1 old.1 r h.1 ho.1)
      (C42_roundTrip E b v.2 old.2 rest h.2 ho.2)
  | .atomic t, v, old, rest, h, ho => by
    simp only [restore, store]
    rw [C42_roundTrip E t v t.fresh rest h (fresh_shape t)]
  | .vec t, v, old, rest, h, ho => by
    refine restoreDyn_append rest rfl h.1 ?_ (by rw [foldl_snoc]; simp)
    exact fun x hx r => C42_roundTrip E t x t.fresh r (h.2 x hx) (fresh_shape t)
  | .set (some _) t, v, old, rest, h, ho => by
    refine restoreDyn_append rest rfl h.1 ?_ (foldl_emplace_sorted _ _ (by simpa using h.2.2.1))
    exact fun x hx r => C42_roundTrip E t x t.fresh r (h.2.1 x hx) (fresh_shape t)
  | .set none t, v, old, rest, h, ho => by
    have hp := (h.2.2.2 rfl).2
    refine restoreDyn_append rest hp.length_eq.symm h.1 ?_
      (foldl_emplace_any (h.2.2.2 rfl).1 hp h.2.2.1)
    exact fun x hx r =>
      C42_roundTrip E t x t.fresh r (h.2.1 x (hp.mem_iff.1 hx)) (fresh_shape t)
  | .map (some _) k w, v, old, rest, h, ho => by
    refine restoreDyn_append rest rfl h.1 ?_ (foldl_emplace_sorted _ _ (by simpa using h.2.2.1))
    exact fun x hx r => restorePair_append
      (fun r => C42_roundTrip E k x.1 k.fresh r (h.2.1 x hx).1 (fresh_shape k))
      (C42_roundTrip E w x.2 w.fresh r (h.2.1 x hx).2 (fresh_shape w))
  | .map none k w, v, old, rest, h, ho => by
    have hp := (h.2.2.2 rfl).2
    have hs := (h.2.2.2 rfl).1
    refine restoreDyn_append rest hp.length_eq.symm h.1 ?_
      (foldl_emplace_any (lt := fun a b => E.lt none k a.1 b.1)
        ⟨fun a => hs.irrefl _, fun a b c => hs.trans _ _ _⟩ hp h.2.2.1)
    intro x hx r
    have hx := h.2.1 x (hp.mem_iff.1 hx)
    exact restorePair_append
      (fun r => C42_roundTrip E k x.1 k.fresh r hx.1 (fresh_shape k))
      (C42_roundTrip E w x.2 w.fresh r hx.2 (fresh_shape w))
  | .obj, v, old, rest, h, ho => by
    simp only [restore, store]
    rw [restoreStr_one _ _ _ h.1]
    simp only [h.2]

/-- Surroundings for the examples: numeric comparison of the first byte, reversed iteration of
the unordered containers, objects named by one byte. -/
def exEnv : Env where
  lt _ t := match t with
    | .num _ => fun a b => decide (a.headD 0 < b.headD 0)
    | .str _ => fun a b => decide (a < b)
    | _ => fun _ _ => false
  iterSet _ l := l.reverse
  iterMap _ _ l := l.reverse
  path n := [47, n]
  resolve p := p.getD 1 0

/-- A map from strings to vectors of pairs of an array and an unordered set. -/
example :
    let t : Ty := .map (some 0) (.str 1) (.vec (.pair (.arr 2 (.num 2)) .obj))
    let v : t.Val := [([97], [([[1, 2], [3, 4]], 7)]), ([98, 99], [])]
    Valid exEnv t v ∧ restore exEnv t [] (store exEnv t v ++ [1, 2]) = (v, some [1, 2]) := by
  refine ⟨⟨by decide, ?_, ?_, by simp⟩, by rfl⟩
  · simp [Valid, exEnv]
  · simp only [exEnv, List.pairwise_cons, List.mem_cons, decide_eq_true_eq]
    refine ⟨?_, by simp⟩
    rintro a (rfl | h)
    · show ([97] : List Nat) < [98, 99]
      decide
    · simp at h

example :
    let t : Ty := .set none (.atomic (.num 1))
    restore exEnv t [[9]] (store exEnv t [] ++ [5]) = ([], some [5]) := by decide

example : store exEnv (.vec (.num 2)) [[1, 2], [3, 4]] = [2, 0, 0, 0, 0, 0, 0, 0, 1, 2, 3, 4] := by
  decide

/-- **C42** Several values stored by one call are restored by one call. -/
theorem C42_sequence (E : Env) : ∀ (xs ys : List Dyn) (rest : List Nat),
    xs.map (·.1) = ys.map (·.1) → (∀ x ∈ xs, Valid E x.1 x.2) → (∀ y ∈ ys, Shape y.1 y.2) →
    restoreAll E ys (storeAll E xs ++ rest) = (xs, some rest)
  | [], [], rest, _, _, _ => rfl
  | [], _ :: _, _, h, _, _ => by simp at h
  | _ :: _, [], _, h, _, _ => by simp at h
  | ⟨t, v⟩ :: xs, ⟨t', o⟩ :: ys, rest, h, hx, hy => by
    simp only [List.map_cons, List.cons.injEq] at h
    obtain ⟨rfl, h⟩ := h
    simp only [storeAll, List.append_assoc, restoreAll]
    rw [C42_roundTrip E t v o _ (hx _ List.mem_cons_self) (hy _ List.mem_cons_self)]
    have ih := C42_sequence E xs ys rest h (fun x hx' => hx x (List.mem_cons_of_mem _ hx'))
      (fun y hy' => hy y (List.mem_cons_of_mem _ hy'))
    simp only [ih]

/-- **C43** A value stored under one type and restored under a type with another hash raises
`CannotRestore`, and the target keeps its content. -/
theorem C43_mismatch (E : Env) (hash : Ty → Nat) (x y : Dyn) (rest : List Nat)
    (hh : hash x.1 < 2 ^ 64) (hne : hash x.1 ≠ hash y.1) :
    restoreTyped1 E hash y (storeTyped1 E hash x ++ rest) = (y, none) := by
  unfold restoreTyped1 storeTyped1
  rw [List.append_assoc, readSize_append _ hh]
  simp only [if_pos hne]

/-- **C43** With equal types the typed round trip yields the stored value. -/
theorem C43_match (E : Env) (hash : Ty → Nat) (t : Ty) (v old : t.Val) (rest : List Nat)
    (hh : hash t < 2 ^ 64) (hv : Valid E t v) (ho : Shape t old) :
    restoreTyped1 E hash ⟨t, old⟩ (storeTyped1 E hash ⟨t, v⟩ ++ rest) = (⟨t, v⟩, some rest) := by
  unfold restoreTyped1 storeTyped1
  rw [List.append_assoc, readSize_append _ hh]
  simp only [ne_eq, not_true_eq_false, if_false, C42_roundTrip E t v old rest hv ho]

/-- **C43** In a call with several values: the values before the first mismatch are restored,
the mismatching one and all later ones keep their content, and `CannotRestore` is raised. -/
theorem C43_sequence (E : Env) (hash : Ty → Nat) (hh : ∀ t, hash t < 2 ^ 64)
    (x y : Dyn) (hne : hash x.1 ≠ hash y.1) (xs' ys' : List Dyn) (rest : List Nat) :
    ∀ (xs ys : List Dyn), xs.map (·.1) = ys.map (·.1) →
      (∀ x ∈ xs, Valid E x.1 x.2) → (∀ y ∈ ys, Shape y.1 y.2) →
      restoreTyped E hash (ys ++ y :: ys') (storeTyped E hash (xs ++ x :: xs') ++ rest) =
        (xs ++ y :: ys', none)
  | [], [], _, _, _ => by
    simp only [List.nil_append, storeTyped, List.flatMap_cons, List.append_assoc, restoreTyped]
    rw [C43_mismatch E hash x y _ (hh _) hne]
  | [], _ :: _, h, _, _ => by simp at h
  | _ :: _, [], h, _, _ => by simp at h
  | ⟨t, v⟩ :: xs, ⟨t', o⟩ :: ys, h, hx, hy => by
    simp only [List.map_cons, List.cons.injEq] at h
    obtain ⟨rfl, h⟩ := h
    have ih := C43_sequence E hash hh x y hne xs' ys' rest xs ys h
      (fun x hx' => hx x (List.mem_cons_of_mem _ hx'))
      (fun y hy' => hy y (List.mem_cons_of_mem _ hy'))
    simp only [List.cons_append, storeTyped, List.flatMap_cons, List.append_assoc,
      restoreTyped] at ih ⊢
    rw [C43_match E hash t v o _ (hh _) (hx _ List.mem_cons_self) (hy _ List.mem_cons_self)]
    simp only [ih]

/-- Hash for the examples. -/
def exHash : Ty → Nat
  | .num n => n
  | .str c => 100 + c
  | _ => 0

example : restoreTyped exEnv exHash [⟨.num 2, [0, 0]⟩, ⟨.str 1, [65]⟩]
    (storeTyped exEnv exHash [⟨.num 2, [1, 2]⟩, ⟨.num 4, [1, 2, 3, 4]⟩]) =
    ([⟨.num 2, [1, 2]⟩, ⟨.str 1, [65]⟩], none) := by rfl

/-! ### C44 -/

/-- What the code does with a string of `n` characters of `c` bytes that is restored into an
empty string: the first `n` bytes are kept, all others become zero. -/
theorem C44_exact (c n : Nat) (v rest : List Nat) (hc : 0 < c) (hv : v.length = n * c)
    (hn : n < 2 ^ 64) :
    restoreStr c [] (storeStr c v ++ rest) =
      (v.take n ++ List.replicate (n * c - n) 0, some rest) := by
  have hle : n ≤ n * c := Nat.le_mul_of_pos_right n hc
  unfold restoreStr storeStr
  have hd : v.length / c = n := by rw [hv, Nat.mul_div_cancel _ hc]
  simp only [hd, List.append_assoc, readSize_append _ hn]
  split
  · rename_i h0
    subst h0
    simp [resize]
  · unfold readInto
    have hl : (v.take n).length = n := by rw [List.length_take]; omega
    rw [if_pos (by rw [List.length_append, hl]; omega), List.take_left' hl, List.drop_left' hl]
    simp [resize]

/-- **C44 (fails)** For every character width above one, a string whose bytes after the first
`n` are not all zero is not restored to itself; `L"ab"` is one. -/
theorem C44_fails :
    (∀ (c n : Nat) (v rest : List Nat), 2 ≤ c → v.length = n * c → n < 2 ^ 64 →
      (∃ b ∈ v.drop n, b ≠ 0) →
      (restoreStr c [] (storeStr c v ++ rest)).1 ≠ v) ∧
    (∃ b ∈ ([97, 0, 0, 0, 98, 0, 0, 0] : List Nat).drop 2, b ≠ 0) := by
  refine ⟨fun c n v rest hc hv hn ⟨b, hb, hb0⟩ heq => ?_, ⟨98, by decide, by decide⟩⟩
  rw [C44_exact c n v rest (by omega) hv hn] at heq
  have h2 : v.take n ++ List.replicate (n * c - n) 0 = v.take n ++ v.drop n := by
    rw [List.take_append_drop]; exact heq
  rw [← List.append_cancel_left h2] at hb
  exact hb0 (List.mem_replicate.1 hb).2

/-- **C44 (partial)** The stream stays synchronised: restoring any string into any target
consumes exactly what was stored and yields a string of the right size; when the characters
have one byte, or all bytes after the first `n` are zero, an empty target receives the stored
string. Missing: all other wide strings, see `C44_fails`. -/
theorem C44_partial (c n : Nat) (v old rest : List Nat) (hc : 0 < c) (hv : v.length = n * c)
    (hn : n < 2 ^ 64) :
    ((restoreStr c old (storeStr c v ++ rest)).2 = some rest ∧
      (restoreStr c old (storeStr c v ++ rest)).1.length = n * c) ∧
    (c = 1 → (restoreStr c old (storeStr c v ++ rest)).1 = v) ∧
    ((∀ b ∈ v.drop n, b = 0) → (restoreStr c [] (storeStr c v ++ rest)).1 = v) := by
  refine ⟨?_, ?_, ?_⟩
  · have hle : n ≤ n * c := Nat.le_mul_of_pos_right n hc
    have hd : v.length / c = n := by rw [hv, Nat.mul_div_cancel _ hc]
    unfold restoreStr storeStr
    simp only [hd, List.append_assoc, readSize_append _ hn]
    split
    · rename_i h0
      subst h0
      simp [resize]
    · unfold readInto
      have hl : (v.take n).length = n := by rw [List.length_take]; omega
      rw [if_pos (by rw [List.length_append, hl]; omega), List.take_left' hl, List.drop_left' hl]
      refine ⟨rfl, ?_⟩
      rw [List.length_append, hl, List.length_drop, resize_length]
      omega
  · rintro rfl
    rw [restoreStr_one v old rest (by omega)]
  · intro h0
    rw [C44_exact c n v rest hc hv hn]
    show v.take n ++ List.replicate (n * c - n) 0 = v
    have : v.drop n = List.replicate (n * c - n) 0 :=
      List.eq_replicate_iff.2 ⟨by rw [List.length_drop, hv], h0⟩
    rw [← this, List.take_append_drop]

example : (restoreStr 4 [] (storeStr 4 [97, 0, 0, 0, 98, 0, 0, 0])).1 =
    [97, 0, 0, 0, 0, 0, 0, 0] := by decide
/-- The previous content of the target shows through. -/
example : (restoreStr 2 [1, 1, 2, 2] (storeStr 2 [97, 0, 98, 0])).1 = [97, 0, 2, 2] := by decide

/-! ### C71 -/

theorem readInto_mono {b s v r : List Nat} {n : Nat} (q : List Nat)
    (h : readInto b n s = (v, some r)) : readInto b n (s ++ q) = (v, some (r ++ q)) := by
  unfold readInto at h ⊢
  split at h
  · rename_i hn
    simp only [Prod.mk.injEq, Option.some.injEq] at h
    rw [if_pos (by rw [List.length_append]; omega), List.take_append_of_le_length hn,
      List.drop_append_of_le_length hn, h.1, h.2]
  · simp at h

theorem readSize_mono {s r : List Nat} {n : Nat} (q : List Nat)
    (h : readSize s = some (n, r)) : readSize (s ++ q) = some (n, r ++ q) := by
  unfold readSize at h ⊢
  split at h
  · rename_i b s' hb
    simp only [Option.some.injEq, Prod.mk.injEq] at h
    rw [readInto_mono q hb]
    simp [h.1, h.2]
  · cases h

theorem restoreStr_mono {c : Nat} {old s v r : List Nat} (q : List Nat)
    (h : restoreStr c old s = (v, some r)) : restoreStr c old (s ++ q) = (v, some (r ++ q)) := by
  unfold restoreStr at h ⊢
  cases hs : readSize s with
  | none => simp [hs] at h
  | some x =>
    obtain ⟨n, s'⟩ := x
    rw [readSize_mono q hs]
    simp only [hs] at h ⊢
    split at h
    · rename_i h0
      rw [if_pos h0]
      simp only [Prod.mk.injEq, Option.some.injEq] at h
      rw [h.1, h.2]
    · rename_i h0
      rw [if_neg h0]
      exact readInto_mono q h

theorem restoreEach_mono {α : Type} {rd : α → List Nat → α × Option (List Nat)} (q : List Nat)
    (hrd : ∀ o s v r, rd o s = (v, some r) → rd o (s ++ q) = (v, some (r ++ q))) :
    ∀ (old : List α) (s : List Nat) (v : List α) (r : List Nat),
      restoreEach rd old s = (v, some r) → restoreEach rd old (s ++ q) = (v, some (r ++ q))
  | [], s, v, r, h => by
    simp only [restoreEach, Prod.mk.injEq, Option.some.injEq] at h ⊢
    exact ⟨h.1, by rw [h.2]⟩
  | o :: old, s, v, r, h => by
    simp only [restoreEach] at h ⊢
    cases ho : rd o s with
    | mk x t =>
      cases t with
      | none => simp [ho] at h
      | some s' =>
        rw [hrd _ _ _ _ ho]
        simp only [ho, Prod.mk.injEq] at h
        cases hr : restoreEach rd old s' with
        | mk x' t' =>
          rw [hr] at h
          have h2 : t' = some r := h.2
          subst h2
          have ih := restoreEach_mono q hrd old s' x' r hr
          rw [← h.1]
          simp only [ih]

theorem restoreLoop_mono {α : Type} {rd : List Nat → α × Option (List Nat)}
    {ins : List α → α → List α} (q : List Nat)
    (hrd : ∀ s v r, rd s = (v, some r) → rd (s ++ q) = (v, some (r ++ q))) :
    ∀ (n : Nat) (acc : List α) (s : List Nat) (v : List α) (r : List Nat),
      restoreLoop rd ins n acc s = (v, some r) →
        restoreLoop rd ins n acc (s ++ q) = (v, some (r ++ q))
  | 0, acc, s, v, r, h => by
    simp only [restoreLoop, Prod.mk.injEq, Option.some.injEq] at h ⊢
    exact ⟨h.1, by rw [h.2]⟩
  | n + 1, acc, s, v, r, h => by
    simp only [restoreLoop] at h ⊢
    cases ho : rd s with
    | mk x t =>
      cases t with
      | none => simp [ho] at h
      | some s' =>
        rw [hrd _ _ _ ho]
        simp only [ho] at h
        exact restoreLoop_mono q hrd n _ s' v r h

theorem restoreDyn_mono {α : Type} {rd : List Nat → α × Option (List Nat)}
    {ins : List α → α → List α} (q : List Nat)
    (hrd : ∀ s v r, rd s = (v, some r) → rd (s ++ q) = (v, some (r ++ q)))
    {s : List Nat} {v : List α} {r : List Nat} (h : restoreDyn rd ins s = (v, some r)) :
    restoreDyn rd ins (s ++ q) = (v, some (r ++ q)) := by
  unfold restoreDyn at h ⊢
  cases hs : readSize s with
  | none => simp [hs] at h
  | some x =>
    obtain ⟨n, s'⟩ := x
    rw [readSize_mono q hs]
    simp only [hs] at h ⊢
    exact restoreLoop_mono q hrd n [] s' v r h

theorem restorePair_mono {α β : Type} {ra : α → List Nat → α × Option (List Nat)}
    {rb : β → List Nat → β × Option (List Nat)} (q : List Nat)
    (ha : ∀ o s v r, ra o s = (v, some r) → ra o (s ++ q) = (v, some (r ++ q)))
    (hb : ∀ o s v r, rb o s = (v, some r) → rb o (s ++ q) = (v, some (r ++ q)))
    {old v : α × β} {s r : List Nat} (h : restorePair ra rb old s = (v, some r)) :
    restorePair ra rb old (s ++ q) = (v, some (r ++ q)) := by
  unfold restorePair at h ⊢
  cases ho : ra old.1 s with
  | mk x t =>
    cases t with
    | none => simp [ho] at h
    | some s' =>
      rw [ha _ _ _ _ ho]
      simp only [ho, Prod.mk.injEq] at h
      cases hr : rb old.2 s' with
      | mk y t' =>
        rw [hr] at h
        have h2 : t' = some r := h.2
        subst h2
        rw [← h.1]
        simp only [hb _ _ _ _ hr]

/-- Bytes after the part that was read do not matter. -/
theorem restore_mono (E : Env) (q : List Nat) : ∀ (t : Ty) (old : t.Val) (s : List Nat)
    (v : t.Val) (r : List Nat), restore E t old s = (v, some r) →
      restore E t old (s ++ q) = (v, some (r ++ q))
  | .num _, _, _, _, _, h => readInto_mono q h
  | .str _, _, _, _, _, h => restoreStr_mono q h
  | .arr _ t, old, s, v, r, h => restoreEach_mono q (restore_mono E q t) old s v r h
  | .pair a b, _, _, _, _, h =>
    restorePair_mono q (restore_mono E q a) (restore_mono E q b) h
  | .atomic t, old, s, v, r, h => by
    simp only [restore] at h ⊢
    cases hr : restore E t t.fresh s with
    | mk x o =>
      cases o with
      | none => simp [hr] at h
      | some s' =>
        rw [hr] at h
        rw [restore_mono E q t _ _ _ _ hr]
        simp only [Prod.mk.injEq, Option.some.injEq] at h ⊢
        exact ⟨h.1, by rw [h.2]⟩
  | .vec t, _, _, _, _, h => restoreDyn_mono q (restore_mono E q t _) h
  | .set _ t, _, _, _, _, h => restoreDyn_mono q (restore_mono E q t _) h
  | .map _ k w, _, _, _, _, h =>
    restoreDyn_mono q (fun _ _ _ h =>
      restorePair_mono q (restore_mono E q k) (restore_mono E q w) h) h
  | .obj, old, s, v, r, h => by
    simp only [restore] at h ⊢
    cases hr : restoreStr 1 [] s with
    | mk x o =>
      cases o with
      | none => simp [hr] at h
      | some s' =>
        rw [hr] at h
        rw [restoreStr_mono q hr]
        simp only [Prod.mk.injEq, Option.some.injEq] at h ⊢
        exact ⟨h.1, by rw [h.2]⟩

/-- **C71** Restoring from a file that ends before the end of the stored value raises
`CannotRestore`, wherever it is cut. -/
theorem C71_truncated (E : Env) (t : Ty) (v old : t.Val) (p q : List Nat)
    (hv : Valid E t v) (ho : Shape t old) (hp : p ++ q = store E t v) (hq : q ≠ []) :
    (restore E t old p).2 = none := by
  cases h : restore E t old p with
  | mk x o =>
    cases o with
    | none => rfl
    | some r =>
      have h1 := restore_mono E q t old p x r h
      have h2 := C42_roundTrip E t v old [] hv ho
      rw [List.append_nil, ← hp, h1] at h2
      simp only [Prod.mk.injEq, Option.some.injEq, List.append_eq_nil_iff] at h2
      exact absurd h2.2.2 hq

example : (restore exEnv (.vec (.num 2)) [] [2, 0, 0, 0, 0, 0, 0, 0, 1, 2, 3]) =
    ([[1, 2]], none) := by decide

/-- **C71** When the restore of an atomic value or of a pointer to an object raises, the target
keeps its value (the other types may be left half restored). -/
theorem C71_unchanged (E : Env) (t : Ty) (s : List Nat) :
    (∀ old : Ty.Val (.atomic t), (restore E (.atomic t) old s).2 = none →
      (restore E (.atomic t) old s).1 = old) ∧
    (∀ old : Ty.Val .obj, (restore E .obj old s).2 = none → (restore E .obj old s).1 = old) := by
  constructor
  · intro old h
    simp only [restore] at h ⊢
    split at h
    · cases h
    · rfl
  · intro old h
    simp only [restore] at h ⊢
    split at h
    · cases h
    · rfl

theorem restoreTyped_append (E : Env) (hash : Ty → Nat) (hh : ∀ t, hash t < 2 ^ 64)
    (zs : List Dyn) (b : List Nat) : ∀ (xs ys : List Dyn),
      xs.map (·.1) = ys.map (·.1) → (∀ x ∈ xs, Valid E x.1 x.2) → (∀ y ∈ ys, Shape y.1 y.2) →
      restoreTyped E hash (ys ++ zs) (storeTyped E hash xs ++ b) =
        (xs ++ (restoreTyped E hash zs b).1, (restoreTyped E hash zs b).2)
  | [], [], _, _, _ => by simp [storeTyped]
  | [], _ :: _, h, _, _ => by simp at h
  | _ :: _, [], h, _, _ => by simp at h
  | ⟨t, v⟩ :: xs, ⟨t', o⟩ :: ys, h, hx, hy => by
    simp only [List.map_cons, List.cons.injEq] at h
    obtain ⟨rfl, h⟩ := h
    have ih := restoreTyped_append E hash hh zs b xs ys h
      (fun x hx' => hx x (List.mem_cons_of_mem _ hx'))
      (fun y hy' => hy y (List.mem_cons_of_mem _ hy'))
    simp only [storeTyped, List.flatMap_cons, List.append_assoc, List.cons_append,
      restoreTyped] at ih ⊢
    rw [C43_match E hash t v o _ (hh _) (hx _ List.mem_cons_self) (hy _ List.mem_cons_self)]
    simp only [ih]

/-- **C71** In a call with several values a file that ends within one of them raises
`CannotRestore`: the values before it are restored, those after it keep their content, and that
one is of its type still. -/
theorem C71_sequence (E : Env) (hash : Ty → Nat) (hh : ∀ t, hash t < 2 ^ 64)
    (t : Ty) (v old : t.Val) (p q : List Nat) (hv : Valid E t v) (ho : Shape t old)
    (hp : p ++ q = storeTyped1 E hash ⟨t, v⟩) (hq : q ≠ []) (xs ys zs : List Dyn)
    (hs : xs.map (·.1) = ys.map (·.1)) (hx : ∀ x ∈ xs, Valid E x.1 x.2)
    (hy : ∀ y ∈ ys, Shape y.1 y.2) :
    ∃ w : t.Val, restoreTyped E hash (ys ++ ⟨t, old⟩ :: zs) (storeTyped E hash xs ++ p) =
      (xs ++ ⟨t, w⟩ :: zs, none) := by
  have h1 : ∃ w : t.Val, restoreTyped1 E hash ⟨t, old⟩ p = (⟨t, w⟩, none) := by
    have hf := C43_match E hash t v old [] (hh _) hv ho
    rw [List.append_nil, ← hp] at hf
    unfold restoreTyped1 at hf ⊢
    cases h : readSize p with
    | none => exact ⟨old, rfl⟩
    | some r =>
      obtain ⟨n, s⟩ := r
      rw [readSize_mono q h] at hf
      dsimp only at hf ⊢
      by_cases hn : n ≠ hash t
      · rw [if_pos hn] at hf
        simp at hf
      · rw [if_neg hn] at hf ⊢
        refine ⟨(restore E t old s).1, ?_⟩
        cases hr : restore E t old s with
        | mk x o =>
          cases o with
          | none => rfl
          | some r =>
            rw [restore_mono E q t old s x r hr] at hf
            simp only [Prod.mk.injEq, Option.some.injEq, List.append_eq_nil_iff] at hf
            exact absurd hf.2.2 hq
  obtain ⟨w, hw⟩ := h1
  refine ⟨w, ?_⟩
  rw [restoreTyped_append E hash hh (⟨t, old⟩ :: zs) p xs ys hs hx hy]
  simp only [restoreTyped, hw]

theorem readInto_whole (b v s : List Nat) {n : Nat} (hv : v.length = n) (hb : b.length = n) :
    readInto b n (v ++ s) = (v, some s) := by
  unfold readInto
  rw [if_pos (by rw [List.length_append]; omega), List.take_left' hv, List.drop_left' hv,
    List.drop_of_length_le (by omega), List.append_nil]

theorem restoreLoop_cut {n : Nat} {b : List Nat} (hb : b.length = n) (cut : List Nat)
    (hc : cut.length < n) :
    ∀ (l acc : List (List Nat)) (m : Nat), (∀ v ∈ l, v.length = n) →
      restoreLoop (readInto b n) (fun l x => l ++ [x]) (l.length + (m + 1)) acc
        (l.flatMap id ++ cut) = (acc ++ l, none)
  | [], acc, m, _ => by
    simp only [List.length_nil, Nat.zero_add, List.flatMap_nil, List.nil_append, restoreLoop,
      List.append_nil]
    unfold readInto
    rw [if_neg (by omega)]
  | v :: l, acc, m, h => by
    have e : (v :: l).length + (m + 1) = (l.length + (m + 1)) + 1 := by
      rw [List.length_cons]; omega
    rw [e]
    rw [List.flatMap_cons, List.append_assoc, restoreLoop, id]
    rw [readInto_whole b v _ (h v List.mem_cons_self) hb]
    dsimp only
    rw [restoreLoop_cut hb cut hc l (acc ++ [v]) m (fun w hw => h w (List.mem_cons_of_mem _ hw)), List.append_assoc]
    rfl

/-- **C71** Exactly what is left of a vector of numbers when the file ends within the item after
the `k` first: these `k` items; what the vector held before is lost. -/
theorem C71_vector (E : Env) (hash : Ty → Nat) (hh : ∀ t, hash t < 2 ^ 64) (n m : Nat)
    (l : List (List Nat)) (hl : ∀ v ∈ l, v.length = n) (hm : l.length + (m + 1) < 2 ^ 64)
    (cut : List Nat) (hc : cut.length < n) (old : List (List Nat)) (zs : List Dyn) :
    restoreTyped E hash (⟨.vec (.num n), old⟩ :: zs)
      (encSize (hash (.vec (.num n))) ++ encSize (l.length + (m + 1)) ++ (l.flatMap id ++ cut)) =
      (⟨.vec (.num n), l⟩ :: zs, none) := by
  have hb : (Ty.fresh (.num n) : List Nat).length = n := by simp [Ty.fresh]
  unfold restoreTyped restoreTyped1
  rw [List.append_assoc, readSize_append _ (hh _)]
  simp only [ne_eq, not_true_eq_false, if_false, restore, restoreDyn]
  rw [readSize_append _ hm]
  simp only [restoreLoop_cut hb cut hc l [] m hl, List.nil_append]

/-- These are files that `Store` of a longer vector begins with. -/
example : encSize (exHash (.vec (.num 2))) ++ encSize (1 + (0 + 1)) ++ ([[1, 2]].flatMap id ++ [3])
    <+: storeTyped exEnv exHash [⟨.vec (.num 2), [[1, 2], [3, 4]]⟩] := by decide

end Verif.Persist
