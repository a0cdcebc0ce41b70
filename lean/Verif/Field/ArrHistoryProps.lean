import Verif.Field.ArrHistory

/-! Property C150: arrays through any history, and pushes that an array refuses. -/
namespace Verif.Field.ArrHist
open Verif.Any (Kind Fl Val Any Out ITy)

/-! ### Specification -/

/-- The same array with other elements, as many, and other connections. -/
structure Same (c d : Arr) : Prop where
  style : d.style = c.style
  kind : d.kind = c.kind
  len : d.len = c.len
  input : d.input = c.input
  output : d.output = c.output
  connectable : d.connectable = c.connectable
  size : d.values.length = c.values.length

/-- Every element is a value of the kind of the items. -/
def Sound (c : Arr) : Prop := ∀ v ∈ c.values, Any.Ok ⟨c.kind, v⟩

/-- The values given are values of some kind; those of the component's code have the type of the
items. -/
def Proper (n : Arrs) : Op → Prop
  | .set _ _ a => Any.Ok a
  | .setAll _ as => ∀ a ∈ as, Any.Ok a
  | .write i _ v => Any.Ok ⟨(n i).kind, v⟩
  | _ => True

/-- Connections are from outputs to other arrays, which are inputs of the same size; anonymous arrays are
connected when their items have the same kind. None is there twice. -/
structure Linked (n : Arrs) : Prop where
  nodup : ∀ i, (n i).targets.Nodup
  ok : ∀ i, ∀ t ∈ (n i).targets, t ≠ i ∧ (n i).output = true ∧ (n t).input = true ∧
    (n t).values.length = (n i).values.length ∧
    ((n i).style = .anonymous → (n t).style = .anonymous → (n t).kind = (n i).kind)

/-- The arrays `ts` have got the value, converted, as their element `k`; the others are as they were. -/
def Got (narrow : Fl → Fl) (n m : Arrs) (k : Nat) (a : Any) (ts : List Nat) : Prop :=
  (∀ t ∈ ts, ∃ v, (n t).item narrow a = .ok v ∧
    m t = { n t with values := (n t).values.set k v }) ∧
  ∀ t, t ∉ ts → m t = n t

/-! ### Lemmas -/

theorem same_refl (c : Arr) : Same c c := ⟨rfl, rfl, rfl, rfl, rfl, rfl, rfl⟩

theorem same_trans {a b c : Arr} (h : Same a b) (h' : Same b c) : Same a c :=
  ⟨h'.1.trans h.1, h'.2.trans h.2, h'.3.trans h.3, h'.4.trans h.4, h'.5.trans h.5, h'.6.trans h.6,
    h'.7.trans h.7⟩

/-- What a call leaves, unless it is undefined. -/
def Leaves : ARes → Arrs → Prop
  | .ok n, m => n = m
  | .raised n, m => n = m
  | .ub, _ => False

/-- Elements have changed; sound arrays are still so if the values given (`Q`) are. -/
structure Wrote (Q : Prop) (n m : Arrs) : Prop where
  same : ∀ j, Same (n j) (m j)
  targets : ∀ j, (m j).targets = (n j).targets
  sound : Q → (∀ j, Sound (n j)) → ∀ j, Sound (m j)

theorem wrote_refl {Q : Prop} (n : Arrs) : Wrote Q n n :=
  ⟨fun j => same_refl _, fun _ => rfl, fun _ h => h⟩

theorem wrote_trans {Q : Prop} {a b c : Arrs} (h : Wrote Q a b) (h' : Wrote Q b c) : Wrote Q a c :=
  ⟨fun j => same_trans (h.same j) (h'.same j), fun j => (h'.targets j).trans (h.targets j),
    fun q s => h'.sound q (h.sound q s)⟩

/-- A conversion gives a value of the kind. -/
theorem coerce_ok {narrow : Fl → Fl} {k : Kind} {len : Nat} {a : Any} {v : Val} (ha : Any.Ok a)
    (h : coerce narrow k len a = .ok v) : Any.Ok ⟨k, v⟩ := by
  have int : ∀ t : ITy, ∀ w, Verif.Any.getInt t a = .ok w → t.Range w := by
    intro t w hw
    obtain ⟨ty, val⟩ := a
    cases val with
    | int x =>
      by_cases hk : ty.isInt
      · have hx : ty.Range x := by
          cases ty <;> simp [Kind.isInt, Kind.int] at hk <;> exact ha
        obtain ⟨h1, h2⟩ := Verif.Any.C50_get ty x t hk hx
        by_cases hr : t.Range x
        · rw [h1 hr] at hw; cases hw; exact hr
        · rw [h2 hr] at hw; cases hw
      · have : ty.int = none := by
          cases hh : ty.int with
          | none => rfl
          | some U => exact absurd (by simp [Kind.isInt, hh]) hk
        simp [Verif.Any.getInt, this] at hw
    | _ => simp [Verif.Any.getInt] at hw
  have map : ∀ {α : Type} (o : Out α) (f : α → Val), o.map f = .ok v → ∃ w, o = .ok w ∧ v = f w := by
    intro α o f h
    cases o with
    | ok w => exact ⟨w, rfl, by simpa [Out.map] using h.symm⟩
    | throw => cases h
    | ub => cases h
  cases k <;> simp only [coerce] at h
  case None => cases h
  all_goals
    obtain ⟨w, h1, rfl⟩ := map _ _ h
    first
      | trivial
      | exact int _ w h1

theorem item_ok {narrow : Fl → Fl} {c : Arr} {a : Any} {v : Val} (ha : Any.Ok a)
    (h : c.item narrow a = .ok v) : Any.Ok ⟨c.kind, v⟩ := by
  unfold Arr.item at h
  split at h
  · split at h
    · cases h
    · exact coerce_ok ha h
  · split at h
    · split at h
      · cases h
      · exact coerce_ok ha h
    · exact coerce_ok ha h
  · split at h
    · cases h
    · exact coerce_ok ha h

theorem get_ok {c : Arr} {k : Nat} {a : Any} (hs : Sound c) (h : c.get k = .ok a) : Any.Ok a := by
  unfold Arr.get at h
  split at h
  · cases h
  · rename_i v hv
    split at h
    · cases h
    · cases h
      exact hs v (List.mem_of_getElem? hv)

theorem sound_set {c : Arr} (h : Sound c) (k : Nat) {v : Val} (hv : Any.Ok ⟨c.kind, v⟩) :
    Sound { c with values := c.values.set k v } := by
  intro w hw
  rcases List.mem_or_eq_of_mem_set hw with hw | rfl
  · exact h w hw
  · exact hv

theorem wrote_set {Q : Prop} (n : Arrs) (i k : Nat) (v : Val)
    (hv : Q → (∀ j, Sound (n j)) → Any.Ok ⟨(n i).kind, v⟩) :
    Wrote Q n (n.set i { n i with values := (n i).values.set k v }) := by
  refine ⟨fun j => ?_, fun j => ?_, fun q h j => ?_⟩
  · by_cases hj : j = i
    · subst hj
      simp only [Arrs.set, if_true]
      exact ⟨rfl, rfl, rfl, rfl, rfl, rfl, by simp⟩
    · simp only [Arrs.set, if_neg hj]; exact same_refl _
  · by_cases hj : j = i
    · subst hj; simp [Arrs.set]
    · simp [Arrs.set, hj]
  · by_cases hj : j = i
    · subst hj
      simp only [Arrs.set, if_true]
      exact sound_set (h j) k (hv q h)
    · simp only [Arrs.set, if_neg hj]; exact h j

theorem aset_wrote {Q : Prop} {narrow : Fl → Fl} {n m : Arrs} {i k : Nat} {a : Any}
    (ha : Q → (∀ j, Sound (n j)) → Any.Ok a) (h : Leaves (aset narrow n i k a) m) : Wrote Q n m := by
  unfold aset at h
  split at h
  · cases h; exact wrote_refl n
  · split at h
    · rename_i v hv
      cases h
      exact wrote_set n i k v fun q hs => item_ok (ha q hs) hv
    · cases h; exact wrote_refl n
    · cases h

theorem asetLoop_wrote {Q : Prop} {narrow : Fl → Fl} {i : Nat} (as : List Any) :
    ∀ {n m : Arrs} (k : Nat), (Q → ∀ a ∈ as, Any.Ok a) → Leaves (asetLoop narrow n i k as) m →
      Wrote Q n m := by
  induction as with
  | nil => intro n m k _ h; cases h; exact wrote_refl n
  | cons a as ih =>
    intro n m k ha h
    have one : ∀ m', Leaves (aset narrow n i k a) m' → Wrote Q n m' := fun m' =>
      aset_wrote fun q _ => ha q a (by simp)
    unfold asetLoop at h
    split at h
    · cases h; exact wrote_refl n
    · split at h
      · rename_i n' hn
        exact wrote_trans (one n' (by rw [hn]; rfl)) (ih _ (fun q b hb => ha q b (by simp [hb])) h)
      · exact one m h

theorem apush_wrote {Q : Prop} {narrow : Fl → Fl} {i k : Nat} (ts : List Nat) : ∀ {n m : Arrs},
    Leaves (apush narrow n i k ts) m → Wrote Q n m := by
  induction ts with
  | nil => intro n m h; cases h; exact wrote_refl n
  | cons t ts ih =>
    intro n m h
    unfold apush at h
    split at h
    · rename_i a ha
      have one : ∀ m', Leaves (aset narrow n t k a) m' → Wrote Q n m' := fun m' =>
        aset_wrote fun _ hs => get_ok (hs i) ha
      split at h
      · rename_i n' hn
        exact wrote_trans (one n' (by rw [hn]; rfl)) (ih h)
      · exact one m h
    · cases h; exact wrote_refl n
    · cases h

theorem apushAll_wrote {Q : Prop} {narrow : Fl → Fl} {i : Nat} (ks : List Nat) : ∀ {n m : Arrs},
    Leaves (apushAll narrow n i ks) m → Wrote Q n m := by
  induction ks with
  | nil => intro n m h; cases h; exact wrote_refl n
  | cons k ks ih =>
    intro n m h
    unfold apushAll at h
    split at h
    · rename_i n' hn
      exact wrote_trans (apush_wrote _ (by rw [hn]; rfl)) (ih h)
    · exact apush_wrote _ h

theorem acopy_wrote {Q : Prop} {narrow : Fl → Fl} {i t : Nat} (ks : List Nat) : ∀ {n m : Arrs},
    Leaves (acopy narrow n i t ks) m → Wrote Q n m := by
  induction ks with
  | nil => intro n m h; cases h; exact wrote_refl n
  | cons k ks ih =>
    intro n m h
    unfold acopy at h
    split at h
    · rename_i a ha
      have one : ∀ m', Leaves (aset narrow n t k a) m' → Wrote Q n m' := fun m' =>
        aset_wrote fun _ hs => get_ok (hs i) ha
      split at h
      · rename_i n' hn
        exact wrote_trans (one n' (by rw [hn]; rfl)) (ih h)
      · exact one m h
    · cases h; exact wrote_refl n
    · cases h

theorem awrite_wrote {Q : Prop} {narrow : Fl → Fl} {n m : Arrs} {i k : Nat} {v : Val}
    (hv : Q → Any.Ok ⟨(n i).kind, v⟩) (h : Leaves (awrite narrow n i k v) m) : Wrote Q n m := by
  unfold awrite at h
  split at h
  · cases h
  · have w : Wrote Q n (n.set i { n i with values := (n i).values.set k v }) :=
      wrote_set n i k v fun q _ => hv q
    simp only at h
    split at h
    · exact wrote_trans w (apush_wrote _ h)
    · cases h; exact w

/-- The list of targets of one array has changed. -/
theorem same_targets (n : Arrs) (i : Nat) (ts : List Nat) (j : Nat) :
    Same (n j) ((n.set i { n i with targets := ts }) j) ∧
      ((n.set i { n i with targets := ts }) j).values = (n j).values := by
  by_cases hj : j = i
  · subst hj; simp only [Arrs.set, if_true]; exact ⟨⟨rfl, rfl, rfl, rfl, rfl, rfl, rfl⟩, trivial⟩
  · simp only [Arrs.set, if_neg hj]; exact ⟨same_refl _, trivial⟩

theorem sound_targets {n : Arrs} (i : Nat) (ts : List Nat) (h : ∀ j, Sound (n j)) (j : Nat) :
    Sound ((n.set i { n i with targets := ts }) j) := by
  obtain ⟨h1, h2⟩ := same_targets n i ts j
  intro v hv
  rw [h2] at hv
  rw [h1.kind]
  exact h j v hv

/-- What one call does. -/
theorem step_leaves {narrow : Fl → Fl} {n m : Arrs} {o : Op} (h : Leaves (step narrow n o) m) :
    (∀ j, Same (n j) (m j)) ∧ (Proper n o → (∀ j, Sound (n j)) → ∀ j, Sound (m j)) := by
  have fin : Wrote (Proper n o) n m → (∀ j, Same (n j) (m j)) ∧
      (Proper n o → (∀ j, Sound (n j)) → ∀ j, Sound (m j)) := fun w => ⟨w.same, w.sound⟩
  cases o with
  | set i k a => exact fin (aset_wrote (fun q _ => q) h)
  | setAll i as =>
    simp only [step, asetAll] at h
    split at h
    · cases h; exact fin (wrote_refl n)
    · exact fin (asetLoop_wrote as 0 (fun q => q) h)
  | write i k v => exact fin (awrite_wrote (fun q => q) h)
  | connect i j =>
    simp only [step, aconnect] at h
    split at h
    · cases h; exact fin (wrote_refl n)
    · split at h
      · cases h; exact fin (wrote_refl n)
      · have w := acopy_wrote (Q := True) _ h
        exact ⟨fun l => same_trans (same_targets n i _ l).1 (w.same l),
          fun _ hs => w.sound trivial (sound_targets i _ hs)⟩
  | disconnect i j =>
    cases h
    exact ⟨fun l => (same_targets n i _ l).1, fun _ hs => sound_targets i _ hs⟩
  | push i => exact fin (apushAll_wrote _ h)

theorem linked_keep {n m : Arrs} (w : Wrote False n m) (l : Linked n) : Linked m := by
  refine ⟨fun i => by rw [w.targets]; exact l.nodup i, fun i t ht => ?_⟩
  rw [w.targets] at ht
  obtain ⟨h1, h2, h3, h4, h5⟩ := l.ok i t ht
  refine ⟨h1, by rw [(w.same i).output]; exact h2, by rw [(w.same t).input]; exact h3,
    by rw [(w.same i).size, (w.same t).size]; exact h4, ?_⟩
  rw [(w.same i).style, (w.same t).style, (w.same i).kind, (w.same t).kind]
  exact h5

theorem linked_targets {n : Arrs} (l : Linked n) (i : Nat) (ts : List Nat) (hn : ts.Nodup)
    (ht : ∀ t ∈ ts, t ∈ (n i).targets ∨ (t ≠ i ∧ (n i).output = true ∧ (n t).input = true ∧
      (n t).values.length = (n i).values.length ∧
      ((n i).style = .anonymous → (n t).style = .anonymous → (n t).kind = (n i).kind))) :
    Linked (n.set i { n i with targets := ts }) := by
  have key : ∀ j, ∀ t ∈ ((n.set i { n i with targets := ts }) j).targets, t ≠ j ∧
      (n j).output = true ∧ (n t).input = true ∧ (n t).values.length = (n j).values.length ∧
      ((n j).style = .anonymous → (n t).style = .anonymous → (n t).kind = (n j).kind) := by
    intro j t h
    by_cases hj : j = i
    · subst hj
      simp only [Arrs.set, if_true] at h
      rcases ht t h with h | h
      · exact l.ok j t h
      · exact h
    · simp only [Arrs.set, if_neg hj] at h
      exact l.ok j t h
  refine ⟨fun j => ?_, fun j t h => ?_⟩
  · by_cases hj : j = i
    · subst hj; simp only [Arrs.set, if_true]; exact hn
    · simp only [Arrs.set, if_neg hj]; exact l.nodup j
  · obtain ⟨h1, h2, h3, h4, h5⟩ := key j t h
    have sj := (same_targets n i ts j).1
    have st := (same_targets n i ts t).1
    refine ⟨h1, by rw [sj.output]; exact h2, by rw [st.input]; exact h3,
      by rw [sj.size, st.size]; exact h4, ?_⟩
    rw [sj.style, st.style, sj.kind, st.kind]
    exact h5

/-- What one call does to the connections. -/
theorem step_linked {narrow : Fl → Fl} {n m : Arrs} {o : Op} (h : Leaves (step narrow n o) m)
    (hl : Linked n) : Linked m := by
  cases o with
  | set i k a => exact linked_keep (aset_wrote (fun q _ => q.elim) h) hl
  | setAll i as =>
    simp only [step, asetAll] at h
    split at h
    · cases h; exact hl
    · exact linked_keep (asetLoop_wrote as 0 (fun q => q.elim) h) hl
  | write i k v => exact linked_keep (awrite_wrote (fun q => q.elim) h) hl
  | connect i j =>
    simp only [step, aconnect] at h
    split at h
    · cases h; exact hl
    · rename_i hc
      simp only [Arr.equivalent, Bool.or_eq_true, Bool.not_eq_true', beq_iff_eq, not_or,
        Bool.not_eq_false, Bool.and_eq_true] at hc
      obtain ⟨⟨⟨ho, hi⟩, hij⟩, hlen, hk⟩ := hc
      split at h
      · cases h; exact hl
      · rename_i hm
        have hm : j ∉ (n i).targets := by simpa using hm
        refine linked_keep (acopy_wrote _ h) (linked_targets hl i _ ?_ ?_)
        · rw [List.nodup_append]
          refine ⟨hl.nodup i, by simp, ?_⟩
          intro a ha b hb e
          simp only [List.mem_singleton] at hb
          subst hb; subst e
          exact hm ha
        · intro t ht
          rcases List.mem_append.1 ht with ht | ht
          · exact Or.inl ht
          · simp only [List.mem_singleton] at ht
            subst ht
            refine Or.inr ⟨hij, ho, hi, hlen, fun h1 h2 => ?_⟩
            simpa [Arr.typeKind, h1, h2] using hk
  | disconnect i j =>
    cases h
    exact linked_targets hl i _ ((hl.nodup i).erase j) fun t ht => Or.inl (List.mem_of_mem_erase ht)
  | push i => exact linked_keep (apushAll_wrote _ h) hl

theorem proper_same {n m : Arrs} (h : ∀ j, Same (n j) (m j)) {o : Op} (p : Proper n o) :
    Proper m o := by
  cases o with
  | write i k v =>
    show Any.Ok ⟨(m i).kind, v⟩
    rw [(h i).kind]; exact p
  | _ => exact p

/-- Induction on the calls. -/
theorem run_cons {narrow : Fl → Fl} {n m : Arrs} {o : Op} {os : List Op}
    (h : run narrow n (o :: os) = some m) : ∃ n', Leaves (step narrow n o) n' ∧
      run narrow n' os = some m := by
  unfold run at h
  cases hr : step narrow n o with
  | ok n' => rw [hr] at h; exact ⟨n', rfl, h⟩
  | raised n' =>
    rw [hr] at h
    simp only at h
    split at h
    · cases h
    · exact ⟨n', rfl, h⟩
  | ub => rw [hr] at h; cases h

theorem apush_got {narrow : Fl → Fl} {i k : Nat} (ts : List Nat) : ∀ {n : Arrs} {a : Any},
    ts.Nodup → i ∉ ts → (n i).get k = .ok a →
    match apush narrow n i k ts with
    | .ok m => Got narrow n m k a ts
    | .raised m => ∃ pre t post, ts = pre ++ t :: post ∧ Got narrow n m k a pre ∧
        ((n t).values.length ≤ k ∨ (n t).item narrow a = .throw)
    | .ub => ∃ t ∈ ts, (n t).item narrow a = .ub := by
  induction ts with
  | nil => intro n a _ _ _; exact ⟨by simp, fun _ _ => rfl⟩
  | cons t ts ih =>
    intro n a hn hi ha
    have hi1 : i ≠ t := fun e => hi (by simp [e])
    have hi2 : i ∉ ts := fun e => hi (by simp [e])
    have hn1 : t ∉ ts := (List.nodup_cons.1 hn).1
    have hn2 : ts.Nodup := (List.nodup_cons.1 hn).2
    unfold apush
    rw [ha]
    simp only
    rcases aset_cases narrow n t k a with ⟨hlt, v, n', hv, hm, he⟩ | ⟨hbad, hm⟩ | ⟨_, hub, hm⟩
    · rw [hm]
      simp only
      have ha' : (n' i).get k = .ok a := by rw [he.2 i hi1]; exact ha
      have grow : ∀ {m : Arrs} {pre : List Nat}, t ∉ pre → Got narrow n' m k a pre →
          Got narrow n m k a (t :: pre) := by
        intro m pre hp ⟨g1, g2⟩
        refine ⟨fun s hs => ?_, fun s hs => ?_⟩
        · rcases List.mem_cons.1 hs with rfl | hs
          · exact ⟨v, hv, by rw [g2 s hp, he.1]⟩
          · have : s ≠ t := fun e => hp (e ▸ hs)
            obtain ⟨w, h1, h2⟩ := g1 s hs
            rw [he.2 s this] at h1 h2
            exact ⟨w, h1, h2⟩
        · simp only [List.mem_cons, not_or] at hs
          rw [g2 s hs.2, he.2 s hs.1]
      have := ih hn2 hi2 ha'
      revert this
      cases apush narrow n' i k ts with
      | ok m => exact grow hn1
      | raised m =>
        rintro ⟨pre, s, post, rfl, g, b⟩
        have hst : s ≠ t := fun e => hn1 (by simp [e])
        refine ⟨t :: pre, s, post, rfl, grow (fun e => hn1 (by simp [e])) g, ?_⟩
        rw [he.2 s hst] at b
        exact b
      | ub =>
        rintro ⟨s, hs, b⟩
        have hst : s ≠ t := fun e => hn1 (e ▸ hs)
        rw [he.2 s hst] at b
        exact ⟨s, List.mem_cons_of_mem _ hs, b⟩
    · rw [hm]
      exact ⟨[], t, ts, rfl, ⟨by simp, fun _ _ => rfl⟩, hbad⟩
    · rw [hm]
      exact ⟨t, List.mem_cons_self, hub⟩

/-! ### C150 -/

/-- C150. After any calls an array has the class, the kind of items, the flags and the number of elements
that it had. -/
theorem C150_keeps (narrow : Fl → Fl) (os : List Op) : ∀ (n m : Arrs), run narrow n os = some m →
    ∀ j, Same (n j) (m j) := by
  induction os with
  | nil => intro n m h j; cases h; exact same_refl _
  | cons o os ih =>
    intro n m h j
    obtain ⟨n', h1, h2⟩ := run_cons h
    exact same_trans ((step_leaves h1).1 j) (ih n' m h2 j)

/-- C150. After any calls with values of the type that they claim, the elements are values of the kind
of the items: a conversion, a copy or a push stores nothing else. -/
theorem C150_values (narrow : Fl → Fl) (os : List Op) : ∀ (n m : Arrs),
    run narrow n os = some m → (∀ o ∈ os, Proper n o) → (∀ j, Sound (n j)) → ∀ j, Sound (m j) := by
  induction os with
  | nil => intro n m h _ hs; cases h; exact hs
  | cons o os ih =>
    intro n m h hp hs
    obtain ⟨n', h1, h2⟩ := run_cons h
    obtain ⟨k, s⟩ := step_leaves h1
    exact ih n' m h2 (fun o' ho => proper_same k (hp o' (by simp [ho]))) (s (hp o (by simp)) hs)

/-- C150. From arrays without connections, after any calls: an array is connected at most once to
another, never to itself, only an output to an input, of the same size. -/
theorem C150_linked (narrow : Fl → Fl) (os : List Op) (n m : Arrs) (h : run narrow n os = some m)
    (h0 : ∀ i, (n i).targets = []) : Linked m := by
  have l : Linked n := ⟨fun i => by simp [h0], fun i t ht => by simp [h0] at ht⟩
  clear h0
  induction os generalizing n with
  | nil => cases h; exact l
  | cons o os ih =>
    obtain ⟨n', h1, h2⟩ := run_cons h
    exact ih n' h2 (step_linked h1 l)

/-- C150, what holds. An element written by the component's code, when the arrays are linked as they are
after any history: the function returns when every connected array has the new value; it does not (an
exception leaves it) because one array refuses the value, and then the arrays before that one have the new
value and those after it do not. (The full statement: all have it or none.) -/
theorem C150_write_partial (narrow : Fl → Fl) (n : Arrs) (i k : Nat) (v : Val) (a : Any)
    (hl : Linked n) (hc : (n i).connectable = true) (hk : k < (n i).values.length)
    (ha : ({ n i with values := (n i).values.set k v } : Arr).get k = .ok a) :
    let n1 : Arrs := n.set i { n i with values := (n i).values.set k v }
    (∀ m, step narrow n (.write i k v) = .ok m → Got narrow n1 m k a (n i).targets) ∧
    (∀ m, step narrow n (.write i k v) = .raised m → ∃ pre t post,
      (n i).targets = pre ++ t :: post ∧ Got narrow n1 m k a pre ∧
      (n t).item narrow a = .throw ∧ m t = n t ∧ ∀ s ∈ post, m s = n s) := by
  intro n1
  have hself : i ∉ (n i).targets := fun e => (hl.ok i i e).1 rfl
  have hs : step narrow n (.write i k v) = apush narrow n1 i k (n i).targets := by
    show awrite narrow n i k v = _
    unfold awrite
    rw [if_neg (by omega)]
    simp only
    rw [if_pos hc]
  have hi : n1 i = { n i with values := (n i).values.set k v } := by simp [n1, Arrs.set]
  have ho : ∀ s, s ≠ i → n1 s = n s := fun s e => by simp [n1, Arrs.set, e]
  have spec := apush_got (narrow := narrow) (n := n1) (i := i) (k := k) (a := a) (n i).targets
    (hl.nodup i) hself (by rw [hi]; exact ha)
  rw [hs]
  refine ⟨fun m h => ?_, fun m h => ?_⟩
  · rw [h] at spec; exact spec
  · rw [h] at spec
    obtain ⟨pre, t, post, e, g, b⟩ := spec
    have mem : ∀ s, s ∈ t :: post → s ∉ pre ∧ s ≠ i := by
      intro s hs
      have hnd := hl.nodup i
      rw [e, List.nodup_append] at hnd
      refine ⟨fun hp => hnd.2.2 s hp s hs rfl, fun es => hself ?_⟩
      rw [e, ← es]
      exact List.mem_append_right _ hs
    have at1 : ∀ s, s ∈ t :: post → m s = n s := fun s hs => by
      rw [g.2 s (mem s hs).1, ho s (mem s hs).2]
    have ht := ho t (mem t (by simp)).2
    refine ⟨pre, t, post, e, g, ?_, at1 t (by simp), fun s hs => at1 s (by simp [hs])⟩
    rw [ht] at b
    rcases b with b | b
    · have := (hl.ok i t (by rw [e]; simp)).2.2.2.1
      omega
    · exact b

/-- An array of three `Int64`. -/
def demoLong : Arr := ⟨.plain, .Int64, none, true, false, false, [.int 1, .int 2, .int 3], []⟩

/-- An output of `Int32` and inputs: `Int32` but for one of `Int64`. -/
def demoNet : Arrs := fun i =>
  if i = 0 then { demoArr .plain true with input := false }
  else if i = 2 then demoLong else demoArr .plain false

/-- C150 fails: arrays whose items have another kind can be connected (the `Connect` raises, but the
connection is there). From then on every push raises, and the arrays connected after that one get nothing
any more, although their own connection was accepted. -/
theorem C150_fails (narrow : Fl → Fl) : ∃ m l : Arrs,
    run narrow demoNet [.connect 0 1, .connect 0 2, .connect 0 3, .set 0 0 ⟨.Int32, .int 9⟩] = some m ∧
    (m 0).targets = [1, 2, 3] ∧
    step narrow m (.push 0) = .raised l ∧
    (l 1).values = [.int 9, .int 2, .int 3] ∧ (l 3).values = [.int 1, .int 2, .int 3] :=
  ⟨_, _, rfl, rfl, rfl, rfl, rfl⟩

/-- C150 fails: for the component's code the same situation ends the program. -/
theorem C150_ends_fails (narrow : Fl → Fl) :
    run narrow demoNet [.connect 0 1, .connect 0 2, .write 0 0 (.int 9)] = none ∧
    (run narrow demoNet [.connect 0 1, .connect 0 3, .write 0 0 (.int 9)]).isSome :=
  ⟨rfl, rfl⟩

/-- A case for `C150_keeps`, `C150_values` and `C150_linked`. -/
example (narrow : Fl → Fl) : (∀ i, (demoNet i).targets = []) ∧ (∀ j, Sound (demoNet j)) ∧
    (∀ o ∈ [Op.connect 0 1, .connect 0 2, .set 0 0 ⟨.Int32, .int 9⟩, .push 0], Proper demoNet o) ∧
    (run narrow demoNet [.connect 0 1, .connect 0 2, .set 0 0 ⟨.Int32, .int 9⟩, .push 0]).isSome := by
  refine ⟨fun i => ?_, fun j => ?_, ?_, rfl⟩
  · unfold demoNet; split
    · rfl
    · split <;> rfl
  · unfold demoNet; split
    · simp [Sound, demoArr, Any.Ok, Verif.Any.Kind.Range]
    · split <;> simp [Sound, demoArr, demoLong, Any.Ok, Verif.Any.Kind.Range]
  · simp [Proper, Any.Ok, Verif.Any.Kind.Range]

/-- A case for `C150_write_partial`: three connections, the second refuses. -/
example (narrow : Fl → Fl) : ∃ n m : Arrs,
    run narrow demoNet [.connect 0 1, .connect 0 2, .connect 0 3] = some n ∧ Linked n ∧
    (n 0).connectable = true ∧ 0 < (n 0).values.length ∧
    ({ n 0 with values := (n 0).values.set 0 (.int 9) } : Arr).get 0 = .ok ⟨.Int32, .int 9⟩ ∧
    step narrow n (.write 0 0 (.int 9)) = .raised m := by
  refine ⟨_, _, rfl, C150_linked narrow [.connect 0 1, .connect 0 2, .connect 0 3] demoNet _ rfl ?_,
    rfl, by decide, rfl, rfl⟩
  intro i
  unfold demoNet; split
  · rfl
  · split <;> rfl

end Verif.Field.ArrHist
