import Verif.Field.Push

/-! Property C158: connections that change while values are pushed. -/
namespace Verif.Field.Push

/-! ### Specification -/

/-- No field is disconnected. -/
def Keeps (ps : List Op) : Prop := ∀ x, Op.disconnect x ∉ ps

/-- No field is disconnected while a loop goes on. -/
def Careful (o : Out) : List Op → Prop
  | [] => True
  | p :: ps => ((∃ x, p = .disconnect x) → o.loops = []) ∧ Careful (o.step p) ps

/-- A thread takes steps. -/
def goes (t k : Nat) : List Op := List.replicate k (.go t)

/-! ### Lemmas -/

theorem run_cons (o : Out) (p : Op) (ps : List Op) : o.run (p :: ps) = (o.step p).run ps := rfl

theorem run_append (o : Out) (ps qs : List Op) : o.run (ps ++ qs) = (o.run ps).run qs :=
  List.foldl_append

theorem split_some {t : Nat} : ∀ {ls a b : List Loop} {l : Loop}, split t ls = some (a, l, b) →
    ls = a ++ l :: b ∧ l.thread = t
  | [], _, _, _, h => by cases h
  | m :: ls, a, b, l, h => by
    rw [split] at h
    split at h
    · rename_i hm
      cases h
      exact ⟨rfl, hm⟩
    · cases hs : split t ls with
      | none => rw [hs] at h; cases h
      | some r =>
        obtain ⟨a', l', b'⟩ := r
        rw [hs] at h
        cases h
        obtain ⟨h1, h2⟩ := split_some hs
        exact ⟨by rw [h1]; rfl, h2⟩

/-- What is true of a loop, given the fields at its start. -/
def Sound (o : Out) (l : Loop) : Prop := l.index ≤ l.stop ∧ l.stop ≤ o.fields.length

/-- As long as no field is disconnected in a loop. -/
structure Good (o : Out) : Prop where
  null : o.null = false
  loops : ∀ l ∈ o.loops, Sound o l

theorem good_init : Good Out.init := ⟨rfl, by simp [Out.init]⟩

theorem good_step {o : Out} (hg : Good o) (p : Op) (hp : (∃ x, p = .disconnect x) → o.loops = []) :
    Good (o.step p) := by
  unfold Out.step
  rw [if_neg (by simp [hg.null])]
  cases p with
  | connect x =>
    simp only [Out.connect]
    split
    · exact hg
    · exact ⟨hg.null, fun l hl => ⟨(hg.loops l hl).1,
        Nat.le_trans (hg.loops l hl).2 (by simp)⟩⟩
  | disconnect x =>
    have := hp ⟨x, rfl⟩
    exact ⟨hg.null, fun l hl => by simp [Out.disconnect, this] at hl⟩
  | push t =>
    refine ⟨hg.null, fun l hl => ?_⟩
    rcases List.mem_cons.1 hl with rfl | hl
    · exact ⟨Nat.zero_le _, Nat.le_refl _⟩
    · exact hg.loops l hl
  | go t =>
    simp only [Out.go]
    split
    · exact hg
    · rename_i a l b hs
      have hm := (split_some hs).1
      have hin : ∀ m ∈ a ++ b, m ∈ o.loops := by
        intro m h
        rw [hm]
        rcases List.mem_append.1 h with h | h
        · exact List.mem_append_left _ h
        · exact List.mem_append_right _ (List.mem_cons_of_mem _ h)
      split
      · exact ⟨hg.null, fun m h => hg.loops m (hin m h)⟩
      · rename_i hne
        have hl := hg.loops l (by rw [hm]; simp)
        have hlt : l.index < o.fields.length :=
          Nat.lt_of_lt_of_le (Nat.lt_of_le_of_ne hl.1 hne) hl.2
        split
        · rename_i hn
          rw [List.getElem?_eq_none_iff] at hn
          omega
        · refine ⟨hg.null, fun m h => ?_⟩
          rcases List.mem_append.1 h with h | h
          · exact hg.loops m (hin m (List.mem_append_left _ h))
          · rcases List.mem_cons.1 h with rfl | h
            · exact ⟨Nat.lt_of_le_of_ne hl.1 hne, hl.2⟩
            · exact hg.loops m (hin m (List.mem_append_right _ h))
  | raise t =>
    simp only [Out.raise]
    split
    · exact hg
    · rename_i a l b hs
      have hm := (split_some hs).1
      refine ⟨hg.null, fun m h => hg.loops m ?_⟩
      rw [hm]
      rcases List.mem_append.1 h with h | h
      · exact List.mem_append_left _ h
      · exact List.mem_append_right _ (List.mem_cons_of_mem _ h)

/-- A loop that has written a field. -/
def Loop.next (l : Loop) (x : Nat) : Loop :=
  { l with index := l.index + 1, done := l.done ++ [x] }

/-- The loops of a thread. -/
def mine (t : Nat) (ls : List Loop) : List Loop := ls.filter (·.thread = t)

theorem split_mine {t : Nat} : ∀ {ls r : List Loop} {l : Loop}, mine t ls = l :: r →
    ∃ a b, split t ls = some (a, l, b) ∧ mine t (a ++ b) = r ∧
      ∀ m : Loop, m.thread = t → mine t (a ++ m :: b) = m :: r
  | [], _, _, h => by cases h
  | m :: ls, r, l, h => by
    by_cases hm : m.thread = t
    · rw [mine, List.filter_cons_of_pos (by simp [hm])] at h
      cases h
      refine ⟨[], ls, by rw [split, if_pos hm], rfl, fun m' hm' => ?_⟩
      rw [List.nil_append, mine, List.filter_cons_of_pos (by simp [hm'])]
    · rw [mine, List.filter_cons_of_neg (by simp [hm])] at h
      obtain ⟨a, b, h1, h2, h3⟩ := split_mine h
      refine ⟨m :: a, b, by rw [split, if_neg hm, h1]; rfl, ?_, fun m' hm' => ?_⟩
      · rw [List.cons_append, mine, List.filter_cons_of_neg (by simp [hm])]
        exact h2
      · rw [List.cons_append, mine, List.filter_cons_of_neg (by simp [hm])]
        exact h3 m' hm'

/-- The loops of the others do not matter. -/
theorem mine_other {t u : Nat} (hu : u ≠ t) {ls a b : List Loop} {l : Loop}
    (hs : split u ls = some (a, l, b)) :
    mine t (a ++ b) = mine t ls ∧
      ∀ m : Loop, m.thread = u → mine t (a ++ m :: b) = mine t ls := by
  obtain ⟨h1, h2⟩ := split_some hs
  have e : ∀ m : Loop, m.thread = u → mine t (a ++ m :: b) = mine t (a ++ b) := by
    intro m hm
    simp only [mine, List.filter_append]
    rw [List.filter_cons_of_neg (by simp [hm, hu])]
  have := e l h2
  rw [← h1] at this
  exact ⟨this.symm, fun m hm => (e m hm).trans this.symm⟩

/-- A loop that began with some fields, while more are connected. -/
structure Track (k t : Nat) (F : List Nat) (o : Out) : Prop where
  pre : F <+: o.fields
  count : k < o.count
  loops : ∀ l ∈ o.loops, l.id = k →
    l.thread = t ∧ l.stop = F.length ∧ l.index ≤ F.length ∧ l.done = F.take l.index
  ended : ∀ l ∈ o.ended, l.id = k →
    l.thread = t ∧ l.stop = F.length ∧ l.index ≤ F.length ∧ l.done = F.take l.index

theorem take_snoc {F G : List Nat} (h : F <+: G) {i x : Nat} (hi : i < F.length)
    (hx : G[i]? = some x) : F.take i ++ [x] = F.take (i + 1) := by
  obtain ⟨s, rfl⟩ := h
  rw [List.getElem?_append_left hi] at hx
  rw [List.take_add_one, hx]
  rfl

theorem track_step {k t : Nat} {F : List Nat} {o : Out} (h : Track k t F o) (p : Op)
    (hp : ∀ x, p ≠ .disconnect x) : Track k t F (o.step p) := by
  unfold Out.step
  split
  · exact h
  cases p with
  | connect x =>
    simp only [Out.connect]
    split
    · exact h
    · exact ⟨List.IsPrefix.trans h.pre (List.prefix_append _ _), h.count, h.loops, h.ended⟩
  | disconnect x => exact absurd rfl (hp x)
  | push u =>
    refine ⟨h.pre, Nat.lt_succ_of_lt h.count, fun l hl hk => ?_, h.ended⟩
    rcases List.mem_cons.1 hl with rfl | hl
    · exact absurd hk (Nat.ne_of_gt h.count)
    · exact h.loops l hl hk
  | go u =>
    simp only [Out.go]
    split
    · exact h
    · rename_i a l b hs
      have hm := (split_some hs).1
      have hl : l ∈ o.loops := by rw [hm]; simp
      have ha : ∀ m ∈ a, m ∈ o.loops := fun m h => by rw [hm]; simp [h]
      have hb : ∀ m ∈ b, m ∈ o.loops := fun m h => by rw [hm]; simp [h]
      split
      · refine ⟨h.pre, h.count, fun m hm hk => ?_, fun m hm hk => ?_⟩
        · rcases List.mem_append.1 hm with hm | hm
          · exact h.loops m (ha m hm) hk
          · exact h.loops m (hb m hm) hk
        · rcases List.mem_cons.1 hm with rfl | hm
          · exact h.loops m hl hk
          · exact h.ended m hm hk
      · rename_i hne
        split
        · exact ⟨h.pre, h.count, h.loops, h.ended⟩
        · rename_i x hx
          refine ⟨h.pre, h.count, fun m hm hk => ?_, h.ended⟩
          rcases List.mem_append.1 hm with hm | hm
          · exact h.loops m (ha m hm) hk
          · rcases List.mem_cons.1 hm with rfl | hm
            · obtain ⟨h1, h2, h3, h4⟩ := h.loops l hl hk
              have hlt : l.index < F.length := by
                rw [h2] at hne
                omega
              refine ⟨h1, h2, hlt, ?_⟩
              show l.done ++ [x] = _
              rw [h4]
              exact take_snoc h.pre hlt hx
            · exact h.loops m (hb m hm) hk
  | raise u =>
    simp only [Out.raise]
    split
    · exact h
    · rename_i a l b hs
      have hm := (split_some hs).1
      refine ⟨h.pre, h.count, fun m hm' hk => ?_, fun m hm' hk => ?_⟩
      · refine h.loops m ?_ hk
        rw [hm]
        rcases List.mem_append.1 hm' with h | h
        · simp [h]
        · simp [h]
      · rcases List.mem_cons.1 hm' with rfl | hm'
        · exact h.loops m (by rw [hm]; simp) hk
        · exact h.ended m hm' hk

/-- Loops have different numbers. -/
structure Fresh (o : Out) : Prop where
  loops : ∀ l ∈ o.loops, l.id < o.count
  ended : ∀ l ∈ o.ended, l.id < o.count

theorem fresh_step {o : Out} (h : Fresh o) (p : Op) : Fresh (o.step p) := by
  unfold Out.step
  split
  · exact h
  cases p with
  | connect x => simp only [Out.connect]; split <;> exact ⟨h.loops, h.ended⟩
  | disconnect x => exact ⟨h.loops, h.ended⟩
  | push u =>
    refine ⟨fun l hl => ?_, fun l hl => Nat.lt_succ_of_lt (h.ended l hl)⟩
    rcases List.mem_cons.1 hl with rfl | hl
    · exact Nat.lt_succ_self _
    · exact Nat.lt_succ_of_lt (h.loops l hl)
  | go u =>
    simp only [Out.go]
    split
    · exact h
    · rename_i a l b hs
      have hm := (split_some hs).1
      have hl : l ∈ o.loops := by rw [hm]; simp
      have ha : ∀ m ∈ a, m ∈ o.loops := fun m h => by rw [hm]; simp [h]
      have hb : ∀ m ∈ b, m ∈ o.loops := fun m h => by rw [hm]; simp [h]
      split
      · refine ⟨fun m hm => ?_, fun m hm => ?_⟩
        · rcases List.mem_append.1 hm with hm | hm
          · exact h.loops m (ha m hm)
          · exact h.loops m (hb m hm)
        · rcases List.mem_cons.1 hm with rfl | hm
          · exact h.loops m hl
          · exact h.ended m hm
      · split
        · exact ⟨h.loops, h.ended⟩
        · refine ⟨fun m hm => ?_, h.ended⟩
          rcases List.mem_append.1 hm with hm | hm
          · exact h.loops m (ha m hm)
          · rcases List.mem_cons.1 hm with rfl | hm
            · exact h.loops l hl
            · exact h.loops m (hb m hm)
  | raise u =>
    simp only [Out.raise]
    split
    · exact h
    · rename_i a l b hs
      have hm := (split_some hs).1
      refine ⟨fun m hm' => h.loops m ?_, fun m hm' => ?_⟩
      · rw [hm]
        rcases List.mem_append.1 hm' with h | h
        · simp [h]
        · simp [h]
      · rcases List.mem_cons.1 hm' with rfl | hm'
        · exact h.loops m (by rw [hm]; simp)
        · exact h.ended m hm'

theorem fresh_run (ps : List Op) : Fresh (Out.init.run ps) := by
  have key : ∀ (ps : List Op) (o : Out), Fresh o → Fresh (o.run ps) := by
    intro ps
    induction ps with
    | nil => intro o h; exact h
    | cons p ps ih => intro o h; exact ih _ (fresh_step h p)
  exact key ps _ ⟨by simp [Out.init], by simp [Out.init]⟩

theorem track_push {o : Out} (hf : Fresh o) (hn : o.null = false) (t : Nat) :
    Track o.count t o.fields (o.step (.push t)) := by
  unfold Out.step
  rw [if_neg (by simp [hn])]
  refine ⟨List.prefix_refl _, Nat.lt_succ_self _, fun l hl hk => ?_, fun l hl hk => ?_⟩
  · rcases List.mem_cons.1 hl with rfl | hl
    · exact ⟨rfl, rfl, Nat.zero_le _, by simp⟩
    · exact absurd hk (Nat.ne_of_lt (hf.loops l hl))
  · exact absurd hk (Nat.ne_of_lt (hf.ended l hl))

theorem track_run {k t : Nat} {F : List Nat} : ∀ {ps : List Op} {o : Out}, Track k t F o →
    Keeps ps → Track k t F (o.run ps)
  | [], _, h, _ => h
  | p :: ps, o, h, hk => by
    rw [run_cons]
    exact track_run (track_step h p (fun x hx => hk x (by rw [hx]; simp)))
      (fun x hx => hk x (List.mem_cons_of_mem _ hx))

/-- Loops that no exception leaves end at their end. -/
def AtEnd (k : Nat) (o : Out) : Prop := ∀ l ∈ o.ended, l.id = k → l.index = l.stop

theorem atEnd_step {k t : Nat} {F : List Nat} {o : Out} (h : Track k t F o) (he : AtEnd k o)
    (p : Op) (hp : p ≠ .raise t) : AtEnd k (o.step p) := by
  unfold Out.step
  split
  · exact he
  cases p with
  | connect x => simp only [Out.connect]; split <;> exact he
  | disconnect x => exact he
  | push u => exact he
  | go u =>
    simp only [Out.go]
    split
    · exact he
    · split
      · rename_i hi
        intro m hm hk
        rcases List.mem_cons.1 hm with rfl | hm
        · exact hi
        · exact he m hm hk
      · split <;> exact he
  | raise u =>
    simp only [Out.raise]
    split
    · exact he
    · rename_i a l b hs
      intro m hm hk
      rcases List.mem_cons.1 hm with rfl | hm
      · obtain ⟨h1, h2⟩ := split_some hs
        have := (h.loops m (by rw [h1]; simp) hk).1
        rw [h2] at this
        exact absurd (by rw [this]) hp
      · exact he m hm hk

theorem atEnd_run {k t : Nat} {F : List Nat} : ∀ {ps : List Op} {o : Out}, Track k t F o →
    AtEnd k o → Keeps ps → Op.raise t ∉ ps → AtEnd k (o.run ps)
  | [], _, _, he, _, _ => he
  | p :: ps, o, h, he, hk, hr => by
    rw [run_cons]
    exact atEnd_run (track_step h p (fun x hx => hk x (by rw [hx]; simp)))
      (atEnd_step h he p (fun e => hr (by rw [e]; simp)))
      (fun x hx => hk x (List.mem_cons_of_mem _ hx)) (fun hx => hr (List.mem_cons_of_mem _ hx))

/-- Where the loop is: it has ended, or it is the innermost one of its thread. -/
def Where (k t n : Nat) (o : Out) : Prop :=
  (∃ l ∈ o.ended, l.id = k) ∨ ∃ l r, mine t o.loops = l :: r ∧ l.id = k ∧ l.index = n

theorem where_step {k t n : Nat} {o : Out} (h : Where k t n o) (p : Op)
    (hp : p ≠ .go t) (hr : p ≠ .raise t) (hq : p ≠ .push t) : Where k t n (o.step p) := by
  unfold Out.step
  split
  · exact h
  cases p with
  | connect x => simp only [Out.connect]; split <;> exact h
  | disconnect x => exact h
  | push u =>
    have hu : u ≠ t := fun e => hq (by rw [e])
    rcases h with h | ⟨l, r, h1, h2⟩
    · exact Or.inl h
    · refine Or.inr ⟨l, r, ?_, h2⟩
      show mine t (_ :: o.loops) = _
      rw [mine, List.filter_cons_of_neg (by simp [hu])]
      exact h1
  | go u =>
    have hu : u ≠ t := fun e => hp (by rw [e])
    simp only [Out.go]
    split
    · exact h
    · rename_i a l b hs
      have e := mine_other hu hs
      split
      · rcases h with ⟨m, hm, hk⟩ | ⟨m, r, h1, h2⟩
        · exact Or.inl ⟨m, List.mem_cons_of_mem _ hm, hk⟩
        · exact Or.inr ⟨m, r, e.1.trans h1, h2⟩
      · split
        · exact h
        · rcases h with h | ⟨m, r, h1, h2⟩
          · exact Or.inl h
          · exact Or.inr ⟨m, r, (e.2 (l.next _) (split_some hs).2).trans h1, h2⟩
  | raise u =>
    have hu : u ≠ t := fun e => hr (by rw [e])
    simp only [Out.raise]
    split
    · exact h
    · rename_i a l b hs
      have e := mine_other hu hs
      rcases h with ⟨m, hm, hk⟩ | ⟨m, r, h1, h2⟩
      · exact Or.inl ⟨m, List.mem_cons_of_mem _ hm, hk⟩
      · exact Or.inr ⟨m, r, e.1.trans h1, h2⟩

theorem ended_step {k : Nat} {o : Out} (h : ∃ l ∈ o.ended, l.id = k) (p : Op) :
    ∃ l ∈ (o.step p).ended, l.id = k := by
  obtain ⟨l, hl, hk⟩ := h
  refine ⟨l, ?_, hk⟩
  unfold Out.step
  split
  · exact hl
  cases p with
  | connect x => simp only [Out.connect]; split <;> exact hl
  | disconnect x => exact hl
  | push u => exact hl
  | go u =>
    simp only [Out.go]
    split
    · exact hl
    · split
      · exact List.mem_cons_of_mem _ hl
      · split <;> exact hl
  | raise u =>
    simp only [Out.raise]
    split
    · exact hl
    · exact List.mem_cons_of_mem _ hl

theorem null_step {o : Out} (h : o.null = true) (p : Op) : o.step p = o := by
  unfold Out.step
  rw [if_pos h]

theorem null_run : ∀ (ps : List Op) {o : Out}, o.null = true → o.run ps = o
  | [], _, _ => rfl
  | p :: ps, o, h => by rw [run_cons, null_step h]; exact null_run ps h

/-- One step of the thread itself. -/
theorem where_go {k t n : Nat} {F : List Nat} {o : Out} (ht : Track k t F o)
    (hn : o.null = false) (h : Where k t n o) : (n < F.length → Where k t (n + 1) (o.step (.go t))) ∧
      (n = F.length → ∃ l ∈ (o.step (.go t)).ended, l.id = k) := by
  rcases h with h | ⟨l, r, h1, h2, h3⟩
  · exact ⟨fun _ => Or.inl (ended_step h _), fun _ => ended_step h _⟩
  · obtain ⟨a, b, e1, e2, e3⟩ := split_mine h1
    obtain ⟨g1, g2⟩ := split_some e1
    obtain ⟨_, i2, _, _⟩ := ht.loops l (by rw [g1]; simp) h2
    have e : o.step (.go t) = o.go t := by unfold Out.step; rw [if_neg (by simp [hn])]
    rw [e]
    simp only [Out.go, e1]
    constructor
    · intro hlt
      have hx : l.index < o.fields.length := by
        have := ht.pre.length_le
        omega
      rw [if_neg (by omega), List.getElem?_eq_getElem hx]
      exact Or.inr ⟨_, r, e3 _ g2, h2, by rw [← h3]⟩
    · intro he
      rw [if_pos (by omega)]
      exact ⟨l, List.mem_cons_self, h2⟩

/-- Enough steps of the thread. -/
theorem where_run {k t : Nat} {F : List Nat} : ∀ {ps : List Op} {o : Out} {n : Nat}, Track k t F o →
    Where k t n o → n ≤ F.length → Keeps ps → Op.raise t ∉ ps → Op.push t ∉ ps →
    (o.run ps).null = false → F.length + 1 ≤ n + ps.count (.go t) →
    ∃ l ∈ (o.run ps).ended, l.id = k
  | [], _, n, _, _, hn, _, _, _, _, hc => by
    simp at hc
    omega
  | p :: ps, o, n, ht, hw, hn, hk, hr, hq, hz, hc => by
    have hk' : Keeps ps := fun x hx => hk x (List.mem_cons_of_mem _ hx)
    have hr' : Op.raise t ∉ ps := fun hx => hr (List.mem_cons_of_mem _ hx)
    have hq' : Op.push t ∉ ps := fun hx => hq (List.mem_cons_of_mem _ hx)
    have ht' := track_step ht p (fun x hx => hk x (by rw [hx]; simp))
    have ho : o.null = false := by
      cases h : o.null with
      | false => rfl
      | true => rw [null_run _ h, h] at hz; cases hz
    rw [run_cons] at hz ⊢
    by_cases hp : p = .go t
    · subst hp
      rw [List.count_cons_self] at hc
      obtain ⟨h1, h2⟩ := where_go ht ho hw
      by_cases he : n = F.length
      · have := h2 he
        have key : ∀ (ps : List Op) (o : Out), (∃ l ∈ o.ended, l.id = k) →
            ∃ l ∈ (o.run ps).ended, l.id = k := by
          intro ps
          induction ps with
          | nil => intro o h; exact h
          | cons p ps ih => intro o h; exact ih _ (ended_step h p)
        exact key ps _ this
      · exact where_run ht' (h1 (by omega)) (by omega) hk' hr' hq' hz (by omega)
    · rw [List.count_cons_of_ne hp] at hc
      exact where_run ht' (where_step hw p hp (fun e => hr (by rw [e]; simp))
        (fun e => hq (by rw [e]; simp))) hn hk' hr' hq' hz hc

/-- Steps over the fields that are there. -/
theorem goes_run {t : Nat} : ∀ (n : Nat) {o : Out} {l : Loop} {a b : List Loop}, o.null = false →
    split t o.loops = some (a, l, b) → l.index + n ≤ l.stop → l.index + n ≤ o.fields.length →
    o.run (goes t n) = { o with loops := a ++
      { l with index := l.index + n, done := l.done ++ (o.fields.drop l.index).take n } :: b } ∧
    split t (o.run (goes t n)).loops = some (a,
      { l with index := l.index + n, done := l.done ++ (o.fields.drop l.index).take n }, b)
  | 0, o, l, a, b, _, hs, _, _ => by
    have := (split_some hs).1
    simp [goes, Out.run, ← this, hs]
  | n + 1, o, l, a, b, hn, hs, h1, h2 => by
    have hx : l.index < o.fields.length := by omega
    obtain ⟨g1, g2⟩ := split_some hs
    have e : o.step (.go t) = { o with loops := a ++ l.next o.fields[l.index] :: b } := by
      unfold Out.step
      rw [if_neg (by simp [hn])]
      simp only [Out.go, hs]
      rw [if_neg (by omega), List.getElem?_eq_getElem hx]
      rfl
    have hs' : split t (a ++ l.next o.fields[l.index] :: b) =
        some (a, l.next o.fields[l.index], b) := by
      have : ∀ (a ls : List Loop), split t ls = some (a, l, b) → ∀ m : Loop, m.thread = t →
          split t (a ++ m :: b) = some (a, m, b) := by
        intro a
        induction a with
        | nil => intro ls _ m hm; rw [List.nil_append, split, if_pos hm]
        | cons c a ih =>
          intro ls h m hm
          cases ls with
          | nil => cases h
          | cons d ls =>
            rw [split] at h
            split at h
            · cases h
            · rename_i hd
              cases hq : split t ls with
              | none => rw [hq] at h; cases h
              | some r =>
                rw [hq] at h
                obtain ⟨a', x, b'⟩ := r
                cases h
                rw [List.cons_append, split, if_neg hd, ih ls hq m hm]
                rfl
      exact this a _ hs _ g2
    have ih := goes_run (t := t) n (o := o.step (.go t)) (l := l.next o.fields[l.index]) (a := a)
      (b := b)
      (by rw [e]; exact hn) (by rw [e]; exact hs') (by show l.index + 1 + n ≤ l.stop; omega)
      (by rw [e]; show l.index + 1 + n ≤ o.fields.length; omega)
    have hd : l.done ++ [o.fields[l.index]] ++ (o.fields.drop (l.index + 1)).take n =
        l.done ++ (o.fields.drop l.index).take (n + 1) := by
      rw [List.drop_eq_getElem_cons hx, List.take_succ_cons, List.append_assoc]
      rfl
    have hi : l.index + 1 + n = l.index + (n + 1) := by omega
    have eg : goes t (n + 1) = .go t :: goes t n := rfl
    rw [eg, run_cons]
    rw [e] at ih ⊢
    simp only [Loop.next, hd, hi] at ih ⊢
    exact ih

/-! ### Property C158 -/

/-- In a history in which no field is disconnected while a loop goes on, no null pointer is
followed. -/
theorem C158_safe (ps : List Op) (hc : Careful Out.init ps) :
    (Out.init.run ps).null = false := by
  have key : ∀ (ps : List Op) (o : Out), Good o → Careful o ps → Good (o.run ps) := by
    intro ps
    induction ps with
    | nil => intro o hg _; exact hg
    | cons p ps ih => intro o hg hc; exact ih _ (good_step hg p hc.1) hc.2
  exact (key ps _ good_init hc).null

/-- What a push has written, while fields are connected and other threads push, is the beginning of
the fields that were connected when it began, in their order; also if an exception leaves it. -/
theorem C158_prefix (ps qs : List Op) (t : Nat) (hn : (Out.init.run ps).null = false)
    (hk : Keeps qs) (l : Loop)
    (hl : l ∈ (Out.init.run (ps ++ .push t :: qs)).loops ∨
      l ∈ (Out.init.run (ps ++ .push t :: qs)).ended)
    (hi : l.id = (Out.init.run ps).count) : l.done <+: (Out.init.run ps).fields := by
  rw [run_append, run_cons] at hl
  have h := track_run (track_push (fresh_run ps) hn t) hk
  have : l.done = (Out.init.run ps).fields.take l.index := by
    rcases hl with hl | hl
    · exact (h.loops l hl hi).2.2.2
    · exact (h.ended l hl hi).2.2.2
  rw [this]
  exact List.take_prefix _ _

/-- When it ends, it has written exactly the fields that were connected when it began, in their
order. -/
theorem C158_exact (ps qs : List Op) (t : Nat) (hn : (Out.init.run ps).null = false)
    (hk : Keeps qs) (hr : Op.raise t ∉ qs) (l : Loop)
    (hl : l ∈ (Out.init.run (ps ++ .push t :: qs)).ended)
    (hi : l.id = (Out.init.run ps).count) : l.done = (Out.init.run ps).fields := by
  rw [run_append, run_cons] at hl
  have h0 := track_push (fresh_run ps) hn t
  have h := track_run h0 hk
  have he : AtEnd (Out.init.run ps).count ((Out.init.run ps).step (.push t)) := by
    intro m hm hmk
    have : m ∈ (Out.init.run ps).ended := by
      unfold Out.step at hm
      rw [if_neg (by simp [hn])] at hm
      exact hm
    exact absurd hmk (Nat.ne_of_lt ((fresh_run ps).ended m this))
  have e := atEnd_run h0 he hk hr l hl hi
  obtain ⟨_, h2, _, h4⟩ := h.ended l hl hi
  rw [h4, e, h2, List.take_length]

/-- It ends when its thread has taken as many steps as there were fields, and one: what the others
do meanwhile delays it by nothing. -/
theorem C158_ends (ps qs : List Op) (t : Nat) (hk : Keeps qs) (hr : Op.raise t ∉ qs)
    (hp : Op.push t ∉ qs) (hn : (Out.init.run (ps ++ .push t :: qs)).null = false)
    (hc : (Out.init.run ps).fields.length < qs.count (.go t)) :
    ∃ l ∈ (Out.init.run (ps ++ .push t :: qs)).ended, l.id = (Out.init.run ps).count := by
  rw [run_append, run_cons] at hn ⊢
  have h0 : (Out.init.run ps).null = false := by
    cases h : (Out.init.run ps).null with
    | false => rfl
    | true =>
      rw [null_step h, null_run _ h, h] at hn
      cases hn
  refine where_run (n := 0) (track_push (fresh_run ps) h0 t) (Or.inr ?_) (Nat.zero_le _) hk hr hp hn
    (by omega)
  unfold Out.step
  rw [if_neg (by simp [h0])]
  exact ⟨⟨t, (Out.init.run ps).count, 0, (Out.init.run ps).fields.length, []⟩,
    mine t (Out.init.run ps).loops, by simp [Out.push, mine], rfl, rfl⟩

/-- C158 is false when a field is disconnected in the middle of a push, in every state and for every
field, also one that was written already: the push follows a null pointer in the end. -/
theorem C158_null_fails (o : Out) (hn : o.null = false) (t x j : Nat) (hx : x ∈ o.fields)
    (hj : j < o.fields.length) :
    (o.run (.push t :: goes t j ++ .disconnect x :: goes t (o.fields.length - j))).null = true := by
  have e0 : o.step (.push t) = o.push t := by unfold Out.step; rw [if_neg (by simp [hn])]
  have s0 : split t (o.push t).loops =
      some ([], ⟨t, o.count, 0, o.fields.length, []⟩, o.loops) := by
    simp [Out.push, split]
  obtain ⟨r1, r2⟩ := goes_run j (o := o.push t) (by exact hn) s0
    (by show 0 + j ≤ o.fields.length; omega) (by show 0 + j ≤ o.fields.length; omega)
  rw [List.cons_append, run_cons, e0, run_append, run_cons]
  generalize ho : (o.push t).run (goes t j) = o1 at r1 r2
  have n1 : o1.null = false := by rw [r1]; exact hn
  have f1 : o1.fields = o.fields := by rw [r1]; rfl
  have e1 : o1.step (.disconnect x) = o1.disconnect x := by
    unfold Out.step
    rw [if_neg (by simp [n1])]
  have len : (o1.disconnect x).fields.length = o.fields.length - 1 := by
    show (o1.fields.erase x).length = _
    rw [f1, List.length_erase_of_mem hx]
  obtain ⟨q1, q2⟩ := goes_run (o.fields.length - 1 - j) (o := o1.disconnect x) (by exact n1)
    (by exact r2) (by show 0 + j + _ ≤ o.fields.length; omega)
    (by rw [len]; show 0 + j + _ ≤ _; omega)
  have eg : goes t (o.fields.length - j) = goes t (o.fields.length - 1 - j) ++ [.go t] := by
    have : o.fields.length - j = (o.fields.length - 1 - j) + 1 := by omega
    rw [this, goes, List.replicate_succ']
    rfl
  rw [e1, eg, run_append]
  generalize hq : (o1.disconnect x).run (goes t (o.fields.length - 1 - j)) = o2 at q1 q2
  have n2 : o2.null = false := by rw [q1]; exact n1
  have l2 : o2.fields.length = o.fields.length - 1 := by rw [q1]; exact len
  show (o2.step (.go t)).null = true
  unfold Out.step
  rw [if_neg (by simp [n2])]
  simp only [Out.go, q2]
  rw [if_neg (by show ¬ 0 + j + _ = o.fields.length; omega), List.getElem?_eq_none (by
    rw [l2]
    show o.fields.length - 1 ≤ 0 + j + _
    omega)]

/-- And if the field is connected again at once, the push ends without writing the next field, and
writes the other one twice: in every state, for every field that the push has passed. -/
theorem C158_skip_fails (o : Out) (hn : o.null = false) (hd : o.fields.Nodup) (t x j : Nat)
    (hx : x ∈ o.fields.take j) (hj : j < o.fields.length) :
    ∃ l ∈ (o.run (.push t :: goes t j ++ .disconnect x :: .connect x ::
        goes t (o.fields.length - j + 1))).ended, l.id = o.count ∧
      l.done = o.fields.take j ++ o.fields.drop (j + 1) ++ [x] ∧ o.fields[j] ∉ l.done := by
  have e0 : o.step (.push t) = o.push t := by unfold Out.step; rw [if_neg (by simp [hn])]
  have s0 : split t (o.push t).loops =
      some ([], ⟨t, o.count, 0, o.fields.length, []⟩, o.loops) := by
    simp [Out.push, split]
  have hxm : x ∈ o.fields := List.mem_of_mem_take hx
  obtain ⟨r1, r2⟩ := goes_run j (o := o.push t) (by exact hn) s0
    (by show 0 + j ≤ o.fields.length; omega) (by show 0 + j ≤ o.fields.length; omega)
  rw [List.cons_append, run_cons, e0, run_append, run_cons, run_cons]
  generalize ho : (o.push t).run (goes t j) = o1 at r1 r2
  have n1 : o1.null = false := by rw [r1]; exact hn
  have f1 : o1.fields = o.fields := by rw [r1]; rfl
  have hxe : x ∉ o.fields.erase x := fun h => (List.Nodup.mem_erase_iff hd).1 h |>.1 rfl
  have e1 : (o1.step (.disconnect x)).step (.connect x) =
      { o1 with fields := o.fields.erase x ++ [x] } := by
    have : o1.step (.disconnect x) = { o1 with fields := o.fields.erase x } := by
      unfold Out.step
      rw [if_neg (by simp [n1])]
      simp only [Out.disconnect, f1]
    rw [this]
    unfold Out.step
    rw [if_neg (by simp [n1])]
    simp only [Out.connect]
    rw [if_neg hxe]
  -- the fields after the change
  have split_at : o.fields = o.fields.take j ++ o.fields[j] :: o.fields.drop (j + 1) := by
    rw [← List.drop_eq_getElem_cons hj, List.take_append_drop]
  have er : o.fields.erase x = (o.fields.take j).erase x ++ o.fields[j] :: o.fields.drop (j + 1) := by
    conv => lhs; rw [split_at]
    exact List.erase_append_left _ hx
  have lt : (o.fields.take j).length = j := by simp; omega
  have le : ((o.fields.take j).erase x).length = j - 1 := by
    rw [List.length_erase_of_mem hx, lt]
  have jpos : 0 < j := by
    have := List.length_pos_of_mem hx
    omega
  have dr : (o.fields.erase x ++ [x]).drop j = o.fields.drop (j + 1) ++ [x] := by
    rw [er, List.append_assoc, List.drop_append, le, List.drop_of_length_le (by omega)]
    have : j - (j - 1) = 1 := by omega
    rw [this]
    rfl
  have len : (o.fields.erase x ++ [x]).length = o.fields.length := by
    rw [List.length_append, List.length_erase_of_mem hxm]
    simp
    omega
  rw [e1]
  obtain ⟨q1, q2⟩ := goes_run (o.fields.length - j)
    (o := { o1 with fields := o.fields.erase x ++ [x] }) (by exact n1) (by exact r2)
    (by show 0 + j + _ ≤ o.fields.length; omega)
    (by show 0 + j + _ ≤ (o.fields.erase x ++ [x]).length; rw [len]; omega)
  have eg : goes t (o.fields.length - j + 1) = goes t (o.fields.length - j) ++ [.go t] := by
    rw [goes, List.replicate_succ']
    rfl
  rw [eg, run_append]
  generalize hq : ({ o1 with fields := o.fields.erase x ++ [x] } : Out).run
    (goes t (o.fields.length - j)) = o2 at q1 q2
  have n2 : o2.null = false := by rw [q1]; exact n1
  have last : ∃ l ∈ (o2.step (.go t)).ended, l.id = o.count ∧
      l.done = ([] ++ ((o.push t).fields.drop 0).take j) ++
        ((o.fields.erase x ++ [x]).drop (0 + j)).take (o.fields.length - j) := by
    unfold Out.step
    rw [if_neg (by simp [n2])]
    simp only [Out.go, q2]
    rw [if_pos (by show 0 + j + _ = o.fields.length; omega)]
    exact ⟨_, List.mem_cons_self, rfl, rfl⟩
  obtain ⟨l, hl, hi, hdone⟩ := last
  have hdone' : l.done = o.fields.take j ++ o.fields.drop (j + 1) ++ [x] := by
    have hle : (o.fields.drop (j + 1) ++ [x]).length ≤ o.fields.length - j := by simp; omega
    rw [hdone, Nat.zero_add, dr, List.take_of_length_le hle, List.nil_append, List.drop_zero,
      List.append_assoc]
    rfl
  refine ⟨l, hl, hi, hdone', ?_⟩
  rw [hdone']
  rw [split_at] at hd
  have hnd := List.nodup_append.1 hd
  intro hm
  rcases List.mem_append.1 hm with hm | hm
  · rcases List.mem_append.1 hm with hm | hm
    · exact hnd.2.2 _ hm _ List.mem_cons_self rfl
    · exact (List.nodup_cons.1 hnd.2.1).1 hm
  · rw [List.mem_singleton.1 hm] at hnd
    exact hnd.2.2 _ hx _ List.mem_cons_self rfl

/-- Three fields are connected, a push begins in thread 0, another in thread 1, a fourth field is
connected meanwhile: both write the three fields. -/
example : ((Out.init.run [.connect 7, .connect 8, .connect 9, .push 0, .go 0, .push 1, .go 1,
    .connect 6, .go 0, .go 1, .go 0, .go 1, .go 0, .go 1]).ended.map (·.done)) =
    [[7, 8, 9], [7, 8, 9]] := by decide

example : Careful Out.init [.connect 7, .connect 8, .disconnect 7, .push 0, .go 0, .go 0,
    .disconnect 8] := by
  refine ⟨?_, ?_, ?_, ?_, ?_, ?_, ?_, trivial⟩
  all_goals first | (intro; rfl) | (rintro ⟨x, h⟩; cases h)

/-- The hypotheses of the two failures. -/
example : (Out.init.run [.connect 7, .connect 8, .connect 9]).fields.Nodup ∧
    7 ∈ (Out.init.run [.connect 7, .connect 8, .connect 9]).fields.take 1 := by decide

end Verif.Field.Push
