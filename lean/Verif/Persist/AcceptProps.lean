import Verif.Persist.Props

/-! Property C151: streams of any bytes, as they come from a state file that was damaged or written by
another program (Persist.h, Persist/*.h). -/
namespace Verif.Persist

/-! ### Specification -/

/-- Bytes. -/
def Bytes (s : List Nat) : Prop := ∀ b ∈ s, b < 256

/-- Types without sets, maps and pointers, whose strings have characters of one byte. -/
def Plain : Ty → Prop
  | .num _ => True
  | .str c => c = 1
  | .arr _ t => Plain t
  | .pair a b => Plain a ∧ Plain b
  | .atomic t => Plain t
  | .vec t => Plain t
  | .set _ _ => False
  | .map _ _ _ => False
  | .obj => False

/-- Types whose strings have characters of one byte. -/
def Narrow : Ty → Prop
  | .str c => c = 1
  | .arr _ t => Narrow t
  | .pair a b => Narrow a ∧ Narrow b
  | .atomic t => Narrow t
  | .vec t => Narrow t
  | .set _ t => Narrow t
  | .map _ k v => Narrow k ∧ Narrow v
  | _ => True

/-- The comparisons are orders, the iteration goes over the elements, and what a path designates is
found under its own path. -/
structure Sane (E : Env) : Prop where
  order : ∀ o t, StrictOn (E.lt o t)
  iterSet : ∀ t v, (E.iterSet t v).Perm v
  iterMap : ∀ k w v, (E.iterMap k w v).Perm v
  path : ∀ p, (E.path (E.resolve p)).length < 2 ^ 64 ∧ E.resolve (E.path (E.resolve p)) = E.resolve p

/-! ### Lemmas -/

theorem bytes_append {s r : List Nat} : Bytes (s ++ r) ↔ Bytes s ∧ Bytes r := by
  simp only [Bytes, List.mem_append]
  exact ⟨fun h => ⟨fun b hb => h b (.inl hb), fun b hb => h b (.inr hb)⟩,
    fun h b hb => hb.elim (h.1 b) (h.2 b)⟩

theorem encSize_decSize {b : List Nat} (hl : b.length = 8) (hb : Bytes b) :
    encSize (decSize b) = b ∧ decSize b < 2 ^ 64 := by
  match b, hl with
  | [a0, a1, a2, a3, a4, a5, a6, a7], _ =>
    have h0 := hb a0 (by simp)
    have h1 := hb a1 (by simp)
    have h2 := hb a2 (by simp)
    have h3 := hb a3 (by simp)
    have h4 := hb a4 (by simp)
    have h5 := hb a5 (by simp)
    have h6 := hb a6 (by simp)
    have h7 := hb a7 (by simp)
    simp only [decSize, encSize, List.foldr, List.cons.injEq, and_true]
    omega

theorem readInto_ok {buf s v r : List Nat} {n : Nat} (hb : buf.length = n)
    (h : readInto buf n s = (v, some r)) : s = v ++ r ∧ v.length = n := by
  unfold readInto at h
  split at h
  · rename_i hn
    simp only [Prod.mk.injEq, Option.some.injEq] at h
    obtain ⟨rfl, rfl⟩ := h
    rw [List.drop_eq_nil_of_le (by omega), List.append_nil, List.take_append_drop]
    refine ⟨rfl, ?_⟩
    rw [List.length_take]; omega
  · simp at h

theorem readSize_ok {s r : List Nat} {n : Nat} (hs : Bytes s) (h : readSize s = some (n, r)) :
    s = encSize n ++ r ∧ n < 2 ^ 64 := by
  unfold readSize at h
  split at h
  · rename_i b s' hb
    simp only [Option.some.injEq, Prod.mk.injEq] at h
    obtain ⟨rfl, rfl⟩ := h
    obtain ⟨e, hl⟩ := readInto_ok (encSize_length 0) hb
    subst e
    obtain ⟨e1, e2⟩ := encSize_decSize hl (bytes_append.1 hs).1
    exact ⟨by rw [e1], e2⟩
  · cases h

theorem restoreStr_ok {old s v r : List Nat} (hs : Bytes s) (h : restoreStr 1 old s = (v, some r)) :
    s = storeStr 1 v ++ r ∧ v.length < 2 ^ 64 := by
  unfold restoreStr at h
  cases hr : readSize s with
  | none => simp [hr] at h
  | some x =>
    obtain ⟨n, s'⟩ := x
    rw [hr] at h
    obtain ⟨e, hn⟩ := readSize_ok hs hr
    simp only [Nat.mul_one] at h
    have fin : s' = v ++ r ∧ v.length = n := by
      split at h
      · rename_i h0
        subst h0
        simp only [Prod.mk.injEq, Option.some.injEq] at h
        obtain ⟨rfl, rfl⟩ := h
        simp [resize]
      · exact readInto_ok (resize_length _ _) h
    obtain ⟨rfl, rfl⟩ := fin
    refine ⟨?_, hn⟩
    rw [e]
    simp [storeStr]

/-- One element, then the others. -/
theorem restoreEach_ok {α : Type} {rd : α → List Nat → α × Option (List Nat)} {P : α → Prop}
    {Q : α → List Nat → Prop} {J : List Nat → Prop}
    (hrd : ∀ o s v r, P o → J s → rd o s = (v, some r) → ∃ p, s = p ++ r ∧ Q v p ∧ J r) :
    ∀ (old : List α) (s : List Nat) (v : List α) (r : List Nat), (∀ o ∈ old, P o) → J s →
      restoreEach rd old s = (v, some r) → v.length = old.length ∧
      ∃ ps : List (List Nat), s = ps.flatten ++ r ∧ ps.length = v.length ∧
        ∀ x ∈ v.zip ps, Q x.1 x.2
  | [], s, v, r, _, _, h => by
    simp only [restoreEach, Prod.mk.injEq, Option.some.injEq] at h
    obtain ⟨rfl, rfl⟩ := h
    exact ⟨rfl, [], by simp⟩
  | o :: old, s, v, r, hp, hj, h => by
    simp only [restoreEach] at h
    cases ho : rd o s with
    | mk x t =>
      cases t with
      | none => simp [ho] at h
      | some s' =>
        simp only [ho, Prod.mk.injEq] at h
        obtain ⟨p, hs, hq, hj'⟩ := hrd o s x s' (hp o (by simp)) hj ho
        cases hr : restoreEach rd old s' with
        | mk x' t' =>
          rw [hr] at h
          have h2 : t' = some r := h.2
          subst h2
          obtain ⟨hl, ps, h1, h3, h4⟩ := restoreEach_ok hrd old s' x' r
            (fun o ho => hp o (by simp [ho])) hj' hr
          rw [← h.1]
          refine ⟨by simp [hl], p :: ps, by simp [hs, h1], by simp [h3], ?_⟩
          intro y hy
          simp only [List.zip_cons_cons, List.mem_cons] at hy
          rcases hy with rfl | hy
          · exact hq
          · exact h4 y hy

/-- The loop of the containers: the elements that were read, then inserted. -/
theorem restoreLoop_ok {α : Type} {rd : List Nat → α × Option (List Nat)} {ins : List α → α → List α}
    {Q : α → List Nat → Prop} {J : List Nat → Prop}
    (hrd : ∀ s v r, J s → rd s = (v, some r) → ∃ p, s = p ++ r ∧ Q v p ∧ J r) :
    ∀ (n : Nat) (acc : List α) (s : List Nat) (v : List α) (r : List Nat), J s →
      restoreLoop rd ins n acc s = (v, some r) →
      ∃ (xs : List α) (ps : List (List Nat)), xs.length = n ∧ v = xs.foldl ins acc ∧
        s = ps.flatten ++ r ∧ ps.length = n ∧ ∀ x ∈ xs.zip ps, Q x.1 x.2
  | 0, acc, s, v, r, _, h => by
    simp only [restoreLoop, Prod.mk.injEq, Option.some.injEq] at h
    obtain ⟨rfl, rfl⟩ := h
    exact ⟨[], [], by simp⟩
  | n + 1, acc, s, v, r, hj, h => by
    simp only [restoreLoop] at h
    cases ho : rd s with
    | mk x t =>
      cases t with
      | none => simp [ho] at h
      | some s' =>
        simp only [ho] at h
        obtain ⟨p, hs, hq, hj'⟩ := hrd s x s' hj ho
        obtain ⟨xs, ps, h1, h2, h3, h4, h5⟩ := restoreLoop_ok hrd n _ s' v r hj' h
        refine ⟨x :: xs, p :: ps, by simp [h1], by simp [h2], by simp [hs, h3], by simp [h4], ?_⟩
        intro y hy
        simp only [List.zip_cons_cons, List.mem_cons] at hy
        rcases hy with rfl | hy
        · exact hq
        · exact h5 y hy

theorem flatten_zip {α : Type} {st : α → List Nat} : ∀ (v : List α) (ps : List (List Nat)),
    ps.length = v.length → (∀ x ∈ v.zip ps, x.2 = st x.1) → ps.flatten = v.flatMap st
  | [], [], _, _ => rfl
  | [], _ :: _, h, _ => by simp at h
  | _ :: _, [], h, _ => by simp at h
  | x :: v, p :: ps, h, hx => by
    have h1 := hx (x, p) (by simp)
    have h2 := flatten_zip v ps (by simpa using h) fun y hy => hx y (by simp [hy])
    simp only at h1
    simp [h1, h2]

theorem zip_all {α β : Type} {Q : α → Prop} : ∀ (v : List α) (ps : List β), ps.length = v.length →
    (∀ x ∈ v.zip ps, Q x.1) → ∀ x ∈ v, Q x
  | [], _, _, _ => by simp
  | _ :: _, [], h, _ => by simp at h
  | x :: v, p :: ps, h, hx => by
    intro y hy
    rcases List.mem_cons.1 hy with rfl | hy
    · exact hx (y, p) (by simp)
    · exact zip_all v ps (by simpa using h) (fun z hz => hx z (by simp [hz])) y hy

theorem exact_each {s r p : List Nat} (hs : Bytes s) (h : s = p ++ r) : Bytes r :=
  (bytes_append.1 (h ▸ hs)).2

theorem emplace_length {α : Type} (lt : α → α → Bool) (x : α) : ∀ l : List α,
    (emplace lt l x).length ≤ l.length + 1
  | [] => by simp [emplace]
  | y :: ys => by
    have := emplace_length lt x ys
    simp only [emplace]
    split
    · simp only [List.length_cons]; omega
    · split <;> simp

theorem foldl_emplace_inv {α : Type} {lt : α → α → Bool} (hs : StrictOn lt) {Q : α → Prop} :
    ∀ (xs acc : List α), (∀ x ∈ xs, Q x) → (∀ x ∈ acc, Q x) →
      acc.Pairwise (fun a b => lt a b = true) →
      (∀ x ∈ xs.foldl (emplace lt) acc, Q x) ∧
      (xs.foldl (emplace lt) acc).Pairwise (fun a b => lt a b = true) ∧
      (xs.foldl (emplace lt) acc).length ≤ xs.length + acc.length
  | [], acc, _, ha, hp => ⟨ha, hp, by simp⟩
  | x :: xs, acc, hx, ha, hp => by
    have := foldl_emplace_inv hs xs (emplace lt acc x) (fun y hy => hx y (by simp [hy]))
      (fun y hy => (emplace_mem hy).elim (fun e => e ▸ hx x (by simp)) (ha y)) (emplace_sorted hs hp)
    refine ⟨this.1, this.2.1, ?_⟩
    have h1 := this.2.2
    have h2 := emplace_length lt x acc
    simp only [List.foldl_cons, List.length_cons]
    omega

/-- What is accepted is valid, and a part of the stream. -/
theorem restore_valid (E : Env) (hE : Sane E) : ∀ (t : Ty), Narrow t → ∀ (old : t.Val) (s : List Nat)
    (v : t.Val) (r : List Nat), Shape t old → Bytes s → restore E t old s = (v, some r) →
    Valid E t v ∧ ∃ p, s = p ++ r
  | .num n, _, old, s, v, r, ho, _, h => ⟨(readInto_ok ho h).2, v, (readInto_ok ho h).1⟩
  | .str c, hp, old, s, v, r, _, hs, h => by
    have hp : c = 1 := hp
    subst hp
    obtain ⟨h1, h2⟩ := restoreStr_ok hs h
    exact ⟨⟨rfl, h2⟩, _, h1⟩
  | .arr n t, hp, old, s, v, r, ho, hs, h => by
    obtain ⟨hl, ps, h1, h2, h3⟩ := restoreEach_ok (P := Shape t) (J := Bytes)
      (Q := fun v _ => Valid E t v)
      (fun o s v r hP hJ he => by
        obtain ⟨hv, p, e⟩ := restore_valid E hE t hp o s v r hP hJ he
        exact ⟨p, e, hv, exact_each hJ e⟩) old s v r ho.2 hs h
    exact ⟨⟨hl.trans ho.1, zip_all v ps h2 h3⟩, _, h1⟩
  | .pair a b, hp, old, s, v, r, ho, hs, h => by
    simp only [restore, restorePair] at h
    cases ha : restore E a old.1 s with
    | mk x o =>
      cases o with
      | none => simp [ha] at h
      | some s' =>
        simp only [ha, Prod.mk.injEq] at h
        obtain ⟨hv1, p1, e1⟩ := restore_valid E hE a hp.1 old.1 s x s' ho.1 hs ha
        have hs' := exact_each hs e1
        cases hb : restore E b old.2 s' with
        | mk y o' =>
          rw [hb] at h
          have h2 : o' = some r := h.2
          subst h2
          obtain ⟨hv2, p2, e2⟩ := restore_valid E hE b hp.2 old.2 s' y r ho.2 hs' hb
          rw [← h.1]
          exact ⟨⟨hv1, hv2⟩, p1 ++ p2, by rw [e1, e2, List.append_assoc]⟩
  | .atomic t, hp, old, s, v, r, ho, hs, h => by
    simp only [restore] at h
    cases ha : restore E t t.fresh s with
    | mk x o =>
      cases o with
      | none => simp [ha] at h
      | some s' =>
        simp only [ha, Prod.mk.injEq, Option.some.injEq] at h
        obtain ⟨rfl, rfl⟩ := h
        exact restore_valid E hE t hp t.fresh s x s' (fresh_shape t) hs ha
  | .vec t, hp, old, s, v, r, _, hs, h => by
    simp only [restore, restoreDyn] at h
    cases hr : readSize s with
    | none => simp [hr] at h
    | some x =>
      obtain ⟨n, s'⟩ := x
      simp only [hr] at h
      obtain ⟨e, hn⟩ := readSize_ok hs hr
      obtain ⟨xs, ps, h1, h2, h3, h4, h5⟩ := restoreLoop_ok (J := Bytes) (Q := fun v _ => Valid E t v)
        (fun s v r hJ he => by
          obtain ⟨hv, p, e⟩ := restore_valid E hE t hp _ s v r (fresh_shape t) hJ he
          exact ⟨p, e, hv, exact_each hJ e⟩) n [] s' v r (exact_each hs e) h
      rw [foldl_snoc, List.nil_append] at h2
      subst h2
      exact ⟨⟨by omega, zip_all _ ps (by omega) h5⟩, encSize n ++ ps.flatten, by
        rw [e, h3, List.append_assoc]⟩
  | .set o t, hp, old, s, v, r, _, hs, h => by
    simp only [restore, restoreDyn] at h
    cases hr : readSize s with
    | none => simp [hr] at h
    | some x =>
      obtain ⟨n, s'⟩ := x
      simp only [hr] at h
      obtain ⟨e, hn⟩ := readSize_ok hs hr
      obtain ⟨xs, ps, h1, h2, h3, h4, h5⟩ := restoreLoop_ok (J := Bytes) (Q := fun v _ => Valid E t v)
        (fun s v r hJ he => by
          obtain ⟨hv, p, e⟩ := restore_valid E hE t hp _ s v r (fresh_shape t) hJ he
          exact ⟨p, e, hv, exact_each hJ e⟩) n [] s' v r (exact_each hs e) h
      obtain ⟨g1, g2, g3⟩ := foldl_emplace_inv (hE.order o t) xs [] (zip_all _ ps (by omega) h5)
        (by simp) List.Pairwise.nil
      rw [← h2] at g1 g2 g3
      simp only [List.length_nil] at g3
      exact ⟨⟨by omega, g1, g2, fun _ => ⟨hE.order o t, hE.iterSet t v⟩⟩,
        encSize n ++ ps.flatten, by rw [e, h3, List.append_assoc]⟩
  | .map o k w, hp, old, s, v, r, _, hs, h => by
    simp only [restore, restoreDyn] at h
    cases hr : readSize s with
    | none => simp [hr] at h
    | some x =>
      obtain ⟨n, s'⟩ := x
      simp only [hr] at h
      obtain ⟨e, hn⟩ := readSize_ok hs hr
      obtain ⟨xs, ps, h1, h2, h3, h4, h5⟩ := restoreLoop_ok (J := Bytes)
        (Q := fun v _ => Valid E k v.1 ∧ Valid E w v.2)
        (fun s v r hJ he => by
          simp only [restorePair] at he
          cases ha : restore E k k.fresh s with
          | mk x o =>
            cases o with
            | none => simp [ha] at he
            | some s1 =>
              simp only [ha, Prod.mk.injEq] at he
              obtain ⟨hv1, p1, e1⟩ := restore_valid E hE k hp.1 _ s x s1 (fresh_shape k) hJ ha
              have hs1 := exact_each hJ e1
              cases hb : restore E w w.fresh s1 with
              | mk y o' =>
                rw [hb] at he
                have h2 : o' = some r := he.2
                subst h2
                obtain ⟨hv2, p2, e2⟩ := restore_valid E hE w hp.2 _ s1 y r (fresh_shape w) hs1 hb
                rw [← he.1]
                exact ⟨p1 ++ p2, by rw [e1, e2, List.append_assoc], ⟨hv1, hv2⟩, exact_each hs1 e2⟩)
        n [] s' v r (exact_each hs e) h
      have so : StrictOn (fun (a b : k.Val × w.Val) => E.lt o k a.1 b.1) :=
        ⟨fun a => (hE.order o k).irrefl a.1, fun a b c => (hE.order o k).trans a.1 b.1 c.1⟩
      obtain ⟨g1, g2, g3⟩ := foldl_emplace_inv so (Q := fun v => Valid E k v.1 ∧ Valid E w v.2) xs []
        (zip_all _ ps (by omega) h5)
        (by simp) List.Pairwise.nil
      rw [← h2] at g1 g2 g3
      simp only [List.length_nil] at g3
      exact ⟨⟨by omega, g1, g2, fun _ => ⟨hE.order o k, hE.iterMap k w v⟩⟩,
        encSize n ++ ps.flatten, by rw [e, h3, List.append_assoc]⟩
  | .obj, _, old, s, v, r, _, hs, h => by
    simp only [restore] at h
    cases ha : restoreStr 1 [] s with
    | mk x o =>
      cases o with
      | none => simp [ha] at h
      | some s' =>
        simp only [ha, Prod.mk.injEq, Option.some.injEq] at h
        obtain ⟨rfl, rfl⟩ := h
        exact ⟨hE.path x, _, (restoreStr_ok hs ha).1⟩

/-- The loop on elements of `n` bytes keeps within the stream. -/
theorem restoreLoop_within {ins : List (List Nat) → List Nat → List (List Nat)}
    (hi : ∀ l x, (ins l x).length ≤ l.length + 1) (n : Nat) : ∀ (k : Nat) (acc : List (List Nat))
    (s : List Nat), (restoreLoop (readInto (List.replicate n 0) n) ins k acc s).1.length * n
      ≤ acc.length * n + s.length
  | 0, acc, s => by simp only [restoreLoop]; omega
  | k + 1, acc, s => by
    simp only [restoreLoop]
    cases hr : readInto (List.replicate n 0) n s with
    | mk x o =>
      cases o with
      | none => simp only; omega
      | some s' =>
        simp only
        obtain ⟨e, hl⟩ := readInto_ok (by simp) hr
        have h1 := restoreLoop_within hi n k (ins acc x) s'
        have h2 : (ins acc x).length * n ≤ acc.length * n + n := by
          have := Nat.mul_le_mul_right n (hi acc x)
          rw [Nat.add_mul, Nat.one_mul] at this
          exact this
        have h3 : s.length = n + s'.length := by rw [e, List.length_append, hl]
        omega

/-! ### C151 -/

/-- C151, what holds: whatever the bytes of the stream, if they are accepted they are what `Store` writes
for the value restored. Missing: sets, maps and pointers (`C151_fails`), strings of wide characters
(C44). -/
theorem C151_exact_partial (E : Env) : ∀ (t : Ty), Plain t → ∀ (old : t.Val) (s : List Nat) (v : t.Val)
    (r : List Nat), Shape t old → Bytes s → restore E t old s = (v, some r) → s = store E t v ++ r
  | .num n, _, old, s, v, r, ho, _, h => (readInto_ok ho h).1
  | .str c, hp, old, s, v, r, _, hs, h => by
    have hp : c = 1 := hp
    subst hp
    exact (restoreStr_ok hs h).1
  | .arr n t, hp, old, s, v, r, ho, hs, h => by
    obtain ⟨_, ps, h1, h2, h3⟩ := restoreEach_ok (P := Shape t) (J := Bytes)
      (Q := fun v p => p = store E t v)
      (fun o s v r hP hJ he => ⟨store E t v, C151_exact_partial E t hp o s v r hP hJ he, rfl,
        exact_each hJ (C151_exact_partial E t hp o s v r hP hJ he)⟩) old s v r ho.2 hs h
    rw [h1, flatten_zip v ps h2 h3]
    rfl
  | .pair a b, hp, old, s, v, r, ho, hs, h => by
    simp only [restore, restorePair] at h
    cases ha : restore E a old.1 s with
    | mk x o =>
      cases o with
      | none => simp [ha] at h
      | some s' =>
        simp only [ha, Prod.mk.injEq] at h
        have e1 := C151_exact_partial E a hp.1 old.1 s x s' ho.1 hs ha
        have hs' := exact_each hs e1
        cases hb : restore E b old.2 s' with
        | mk y o' =>
          rw [hb] at h
          have h2 : o' = some r := h.2
          subst h2
          have e2 := C151_exact_partial E b hp.2 old.2 s' y r ho.2 hs' hb
          rw [← h.1, e1, e2]
          simp [store]
  | .atomic t, hp, old, s, v, r, ho, hs, h => by
    simp only [restore] at h
    cases ha : restore E t t.fresh s with
    | mk x o =>
      cases o with
      | none => simp [ha] at h
      | some s' =>
        simp only [ha, Prod.mk.injEq, Option.some.injEq] at h
        obtain ⟨rfl, rfl⟩ := h
        exact C151_exact_partial E t hp t.fresh s x s' (fresh_shape t) hs ha
  | .vec t, hp, old, s, v, r, _, hs, h => by
    simp only [restore, restoreDyn] at h
    cases hr : readSize s with
    | none => simp [hr] at h
    | some x =>
      obtain ⟨n, s'⟩ := x
      simp only [hr] at h
      obtain ⟨e, hn⟩ := readSize_ok hs hr
      have hs' := exact_each hs e
      obtain ⟨xs, ps, h1, h2, h3, h4, h5⟩ := restoreLoop_ok (J := Bytes)
        (Q := fun v p => p = store E t v)
        (fun s v r hJ he => ⟨store E t v, C151_exact_partial E t hp _ s v r (fresh_shape t) hJ he, rfl,
          exact_each hJ (C151_exact_partial E t hp _ s v r (fresh_shape t) hJ he)⟩) n [] s' v r hs' h
      rw [foldl_snoc, List.nil_append] at h2
      subst h2
      rw [e, h3, flatten_zip _ ps (by omega) h5, ← h1]
      simp [store]

/-- C151, what holds: the same for all the values of a component, each with the hash of its type. -/
theorem C151_sequence_partial (E : Env) (hash : Ty → Nat) : ∀ (ys xs : List Dyn) (s r : List Nat),
    (∀ y ∈ ys, Plain y.1 ∧ Shape y.1 y.2) → Bytes s → restoreTyped E hash ys s = (xs, some r) →
    s = storeTyped E hash xs ++ r ∧ xs.map (·.1) = ys.map (·.1)
  | [], xs, s, r, _, _, h => by
    simp only [restoreTyped, Prod.mk.injEq, Option.some.injEq] at h
    obtain ⟨rfl, rfl⟩ := h
    simp [storeTyped]
  | ⟨t, old⟩ :: ys, xs, s, r, hp, hs, h => by
    simp only [restoreTyped, restoreTyped1] at h
    cases hr : readSize s with
    | none => simp [hr] at h
    | some x =>
      obtain ⟨n, s1⟩ := x
      simp only [hr] at h
      obtain ⟨e, _⟩ := readSize_ok hs hr
      by_cases hn : n = hash t
      · rw [if_neg (by simp [hn])] at h
        cases ha : restore E t old s1 with
        | mk v o =>
          cases o with
          | none => simp [ha] at h
          | some s2 =>
            simp only [ha, Prod.mk.injEq] at h
            have hs1 := exact_each hs e
            have e1 := C151_exact_partial E t (hp ⟨t, old⟩ (by simp)).1 old s1 v s2
              (hp ⟨t, old⟩ (by simp)).2 hs1 ha
            cases hb : restoreTyped E hash ys s2 with
            | mk zs o' =>
              rw [hb] at h
              have h2 : o' = some r := h.2
              subst h2
              obtain ⟨e2, e3⟩ := C151_sequence_partial E hash ys zs s2 r
                (fun y hy => hp y (by simp [hy])) (exact_each hs1 e1) hb
              rw [← h.1]
              refine ⟨?_, by simp [e3]⟩
              rw [e, e1, e2, hn]
              simp [storeTyped, storeTyped1]
      · rw [if_pos (by simp [hn])] at h
        simp at h

/-- C151: for all types (but strings of wide characters, C44), a value accepted from a stream of any bytes
is one that can be stored and restored again: to the same value, from what `Store` writes. -/
theorem C151_again (E : Env) (hE : Sane E) (t : Ty) (hn : Narrow t) (old : t.Val) (s : List Nat)
    (v : t.Val) (r : List Nat) (ho : Shape t old) (hs : Bytes s)
    (h : restore E t old s = (v, some r)) (old' : t.Val) (ho' : Shape t old') (r' : List Nat) :
    restore E t old' (store E t v ++ r') = (v, some r') :=
  C42_roundTrip E t v old' r' (restore_valid E hE t hn old s v r ho hs h).1 ho'

/-- C151: only a beginning of the stream is read, and what follows has no influence. -/
theorem C151_prefix (E : Env) (hE : Sane E) (t : Ty) (hn : Narrow t) (old : t.Val) (s : List Nat)
    (v : t.Val) (r : List Nat) (ho : Shape t old) (hs : Bytes s)
    (h : restore E t old s = (v, some r)) :
    ∃ p, s = p ++ r ∧ ∀ q, restore E t old (s ++ q) = (v, some (r ++ q)) :=
  ⟨_, (restore_valid E hE t hn old s v r ho hs h).2.choose_spec, fun q => restore_mono E q t old s v r h⟩

/-- C151: whatever size a stream announces, and whether or not an exception is thrown, a vector or a set
of numbers has no more elements afterwards than the stream has bytes for. -/
theorem C151_within (E : Env) (o : Option Nat) (n : Nat) (old : List (List Nat)) (s : List Nat) :
    (restore E (.vec (.num n)) old s).1.length * n ≤ s.length ∧
    (restore E (.set o (.num n)) old s).1.length * n ≤ s.length := by
  have key : ∀ ins : List (List Nat) → List Nat → List (List Nat),
      (∀ l x, (ins l x).length ≤ l.length + 1) →
      (restoreDyn (readInto (List.replicate n 0) n) ins s).1.length * n ≤ s.length := by
    intro ins hi
    unfold restoreDyn
    cases hr : readSize s with
    | none => simp
    | some x =>
      obtain ⟨k, s'⟩ := x
      have h1 := restoreLoop_within hi n k [] s'
      have h2 : s'.length ≤ s.length := by
        unfold readSize at hr
        split at hr
        · rename_i b s1 hb
          simp only [Option.some.injEq, Prod.mk.injEq] at hr
          obtain ⟨e, _⟩ := readInto_ok (encSize_length 0) hb
          rw [e, ← hr.2, List.length_append]; omega
        · cases hr
      simp only [List.length_nil, Nat.zero_mul, Nat.zero_add] at h1
      exact Nat.le_trans h1 h2
  exact ⟨key _ fun l x => by simp, key _ fun l x => emplace_length _ x l⟩

/-- C151 fails for strings: the eight bytes of a size are enough for the string to be given that size,
before it is known that the stream does not have the characters. (The allocation of 2^63 characters
throws an exception of the standard library, not `CannotRestore`.) -/
theorem C151_string_fails (E : Env) (n : Nat) (h0 : 0 < n) (hn : n < 2 ^ 64) (old : List Nat) :
    (restore E (.str 1) old (encSize n)).1.length = n ∧ (restore E (.str 1) old (encSize n)).2 = none ∧
    (encSize n).length = 8 := by
  have h := readSize_append [] hn
  rw [List.append_nil] at h
  have e : restore E (.str 1) old (encSize n) = (resize old n, none) := by
    show restoreStr 1 old (encSize n) = _
    unfold restoreStr
    rw [h]
    simp only [Nat.mul_one, if_neg (Nat.ne_of_gt h0)]
    simp [readInto, Nat.not_le.2 h0]
  rw [e]
  exact ⟨resize_length old n, rfl, rfl⟩

/-- C151 fails for sets and maps: a stream in which an element or a key is there twice is accepted, and
is not what `Store` writes; the second value of a key is lost silently. -/
theorem C151_fails (E : Env) (o : Option Nat) (h : StrictOn (E.lt o (.num 1))) (ho : o.isSome) :
    restore E (.set o (.num 1)) [] (encSize 2 ++ [7, 7]) = ([[7]], some []) ∧
    store E (.set o (.num 1)) [[7]] = encSize 1 ++ [7] ∧
    restore E (.map o (.num 1) (.num 1)) [] (encSize 2 ++ [7, 1, 7, 2]) = ([([7], [1])], some []) := by
  have hi : E.lt o (.num 1) [7] [7] = false := h.irrefl [7]
  refine ⟨?_, ?_, ?_⟩
  · simp only [restore, restoreDyn, readSize_append _ (show 2 < 2 ^ 64 by decide)]
    simp [restoreLoop, readInto, Ty.fresh, emplace, hi]
  · simp [store, ho]
  · simp only [restore, restoreDyn, readSize_append _ (show 2 < 2 ^ 64 by decide)]
    simp [restoreLoop, restorePair, restore, readInto, Ty.fresh, emplace, hi]

/-! ### Cases -/

/-- `C151_exact_partial`: a vector of pairs of a string and two bytes, from bytes, with two more bytes
after it. -/
example (E : Env) : Plain (.vec (.pair (.str 1) (.num 2))) ∧
    Bytes (encSize 1 ++ encSize 3 ++ [97, 98, 99, 1, 2] ++ [9, 9]) ∧
    restore E (.vec (.pair (.str 1) (.num 2))) [] (encSize 1 ++ encSize 3 ++ [97, 98, 99, 1, 2] ++ [9, 9])
      = ([([97, 98, 99], [1, 2])], some [9, 9]) :=
  ⟨⟨rfl, trivial⟩, by unfold Bytes; decide, by rfl⟩

/-- Surroundings: no object; numbers are compared as lists of bytes, other values are all equivalent. -/
def demoSane : Env where
  lt := fun _ t => match t with
    | .num _ => fun (a b : List Nat) => decide (a < b)
    | _ => fun _ _ => false
  iterSet := fun _ v => v.reverse
  iterMap := fun _ _ v => v.reverse
  path := fun _ => []
  resolve := fun _ => 0

theorem demoSane_sane : Sane demoSane where
  order := fun o t => by
    cases t with
    | num n => exact ⟨fun (a : List Nat) => decide_eq_false (List.lt_irrefl a),
        fun (a b c : List Nat) h1 h2 => decide_eq_true
          (List.lt_trans (of_decide_eq_true h1) (of_decide_eq_true h2))⟩
    | _ => exact ⟨fun _ => rfl, fun _ _ _ h _ => h⟩
  iterSet := fun _ v => List.reverse_perm v
  iterMap := fun _ _ v => List.reverse_perm v
  path := fun _ => ⟨Nat.two_pow_pos 64, rfl⟩

/-- `C151_again`, `C151_prefix`: an unordered set, from a stream with an element twice. -/
example : Narrow (.set none (.num 1)) ∧ Bytes (encSize 3 ++ [7, 5, 7]) ∧
    restore demoSane (.set none (.num 1)) [] (encSize 3 ++ [7, 5, 7]) = ([[5], [7]], some []) :=
  ⟨trivial, by unfold Bytes; decide, by rfl⟩

/-- `C151_sequence_partial`: two values of a component, accepted. -/
example (E : Env) : restoreTyped E (fun t => if t = .num 2 then 5 else 6)
    [⟨.num 2, [0, 0]⟩, ⟨.str 1, []⟩] (encSize 5 ++ [1, 2] ++ encSize 6 ++ encSize 1 ++ [65])
      = ([⟨.num 2, [1, 2]⟩, ⟨.str 1, [65]⟩], some []) := by rfl

end Verif.Persist
