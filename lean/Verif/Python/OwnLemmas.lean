import Verif.Python.Own

/-! Lemmas for C136. -/
namespace Verif.Python.Own

theorem live_iff {s : St} {x : Nat} : s.live x = true ↔ ∃ o ∈ s.objs, o.addr = x := by
  unfold St.live
  simp [List.any_eq_true]

theorem live_mem {s : St} {o : Obj} (h : o ∈ s.objs) : s.live o.addr = true :=
  live_iff.2 ⟨o, h, rfl⟩

theorem at_some {s : St} {x : Nat} {o : Obj} (h : s.at? x = some o) :
    o ∈ s.objs ∧ o.addr = x := by
  unfold St.at? at h
  exact ⟨List.mem_of_find?_eq_some h, by simpa using List.find?_some h⟩

theorem at_live {s : St} {x : Nat} (h : s.live x = true) : ∃ o, s.at? x = some o := by
  obtain ⟨o, ho, he⟩ := live_iff.1 h
  cases hf : s.at? x with
  | some o => exact ⟨o, rfl⟩
  | none =>
    unfold St.at? at hf
    rw [List.find?_eq_none] at hf
    exact absurd (by simpa using he) (hf o ho)

theorem at_dead {s : St} {x : Nat} (h : s.live x = false) : s.at? x = none := by
  cases hf : s.at? x with
  | none => rfl
  | some o =>
    obtain ⟨ho, he⟩ := at_some hf
    have := live_mem ho
    rw [he, h] at this
    cases this

theorem wrap_some {s : St} {x t : Nat} {w : Wrap} (h : s.wrap? x t = some w) :
    w ∈ s.wraps ∧ w.addr = x ∧ w.type = t := by
  unfold St.wrap? at h
  have h2 := List.find?_some h
  simp only [Bool.and_eq_true, beq_iff_eq] at h2
  exact ⟨List.mem_of_find?_eq_some h, h2.1, h2.2⟩

theorem wrap_mem {s : St} {w : Wrap} (h : w ∈ s.wraps) :
    ∃ v, s.wrap? w.addr w.type = some v := by
  cases hf : s.wrap? w.addr w.type with
  | some v => exact ⟨v, rfl⟩
  | none =>
    unfold St.wrap? at hf
    rw [List.find?_eq_none] at hf
    exact absurd (by simp) (hf w h)

theorem wrap_none {s : St} {x t : Nat} (h : s.wrap? x t = none) {w : Wrap} (hw : w ∈ s.wraps)
    (hx : w.addr = x) (ht : w.type = t) : False := by
  obtain ⟨v, hv⟩ := wrap_mem hw
  rw [hx, ht, h] at hv
  cases hv

theorem mem_dead {s : St} {x y : Nat} : y ∈ s.dead x ↔ y = x ∨ (x, y) ∈ s.within := by
  unfold St.dead
  simp only [List.mem_cons, List.mem_map, List.mem_filter, beq_iff_eq]
  constructor
  · rintro (h | ⟨⟨a, b⟩, ⟨hm, rfl⟩, rfl⟩)
    · exact .inl h
    · exact .inr hm
  · rintro (h | h)
    · exact .inl h
    · exact .inr ⟨(x, y), ⟨h, rfl⟩, rfl⟩

/-- What holds between the steps of a careful program; `sim` and `ts` are the address and the type
of the simulator. -/
structure Inv (sim ts : Nat) (s : St) : Prop where
  addrs : (s.objs.map (·.addr)).Nodup
  ends : ∀ a b, (a, b) ∈ s.within → s.live a = true ∧ s.live b = true
  trans : ∀ a b c, (a, b) ∈ s.within → (b, c) ∈ s.within → (a, c) ∈ s.within
  line : ∀ a b c, (a, c) ∈ s.within → (b, c) ∈ s.within →
    a = b ∨ (a, b) ∈ s.within ∨ (b, a) ∈ s.within
  nodup : s.within.Nodup
  irrefl : ∀ a, (a, a) ∉ s.within
  keys : (s.wraps.map (fun w => (w.addr, w.type))).Nodup
  owned : ∀ w ∈ s.wraps, w.owned = true → w.addr = sim ∧ w.type = ts ∧ s.live sim = true
  top : ∀ a, (a, sim) ∉ s.within
  obj : s.live sim = true → ∃ o ∈ s.objs, o.addr = sim ∧ o.type = ts ∧ o.heap = true
  wrap : s.live sim = true → ∃ w ∈ s.wraps, w.addr = sim ∧ w.type = ts ∧ w.owned = true

theorem obj_unique {s : St} (h : (s.objs.map (·.addr)).Nodup) {o p : Obj} (ho : o ∈ s.objs)
    (hp : p ∈ s.objs) (he : o.addr = p.addr) : o = p := by
  generalize s.objs = l at *
  induction l with
  | nil => cases ho
  | cons q l ih =>
    simp only [List.map_cons, List.nodup_cons, List.mem_map, not_exists, not_and] at h
    rcases List.mem_cons.1 ho with ho1 | ho1 <;> rcases List.mem_cons.1 hp with hp1 | hp1
    · rw [ho1, hp1]
    · exact absurd (ho1 ▸ he).symm (h.1 p hp1)
    · exact absurd (hp1 ▸ he) (h.1 o ho1)
    · exact ih h.2 ho1 hp1

theorem wrap_unique {s : St} (h : (s.wraps.map (fun w => (w.addr, w.type))).Nodup) {v w : Wrap}
    (hv : v ∈ s.wraps) (hw : w ∈ s.wraps) (ha : v.addr = w.addr) (ht : v.type = w.type) :
    v = w := by
  generalize s.wraps = l at *
  induction l with
  | nil => cases hv
  | cons q l ih =>
    simp only [List.map_cons, List.nodup_cons, List.mem_map, not_exists, not_and,
      Prod.mk.injEq] at h
    rcases List.mem_cons.1 hv with h1 | h1 <;> rcases List.mem_cons.1 hw with h2 | h2
    · rw [h1, h2]
    · exact absurd (h1 ▸ ht).symm (h.1 w h2 (h1 ▸ ha).symm)
    · exact absurd (h2 ▸ ht) (h.1 v h1 (h2 ▸ ha))
    · exact ih h.2 h1 h2

theorem at_of_mem {s : St} (h : (s.objs.map (·.addr)).Nodup) {o : Obj} (ho : o ∈ s.objs) :
    s.at? o.addr = some o := by
  obtain ⟨p, hp⟩ := at_live (live_mem ho)
  rw [hp, obj_unique h (at_some hp).1 ho (at_some hp).2]

theorem wrap_of_mem {s : St} (h : (s.wraps.map (fun w => (w.addr, w.type))).Nodup) {w : Wrap}
    (hw : w ∈ s.wraps) : s.wrap? w.addr w.type = some w := by
  obtain ⟨v, hv⟩ := wrap_mem hw
  rw [hv, wrap_unique h (wrap_some hv).1 hw (wrap_some hv).2.1 (wrap_some hv).2.2]

theorem dead_nodup {sim ts : Nat} {s : St} (h : Inv sim ts s) (x : Nat) : (s.dead x).Nodup := by
  unfold St.dead
  rw [List.nodup_cons]
  constructor
  · intro hx
    simp only [List.mem_map, List.mem_filter, beq_iff_eq] at hx
    obtain ⟨⟨a, b⟩, ⟨hm, ha⟩, hb⟩ := hx
    dsimp only at ha hb
    subst ha hb
    exact h.irrefl _ hm
  · unfold List.Nodup
    rw [List.pairwise_map]
    refine (h.nodup.filter (·.1 == x)).imp_of_mem ?_
    intro p q hp hq hne he
    have h1 := (List.mem_filter.1 hp).2
    have h2 := (List.mem_filter.1 hq).2
    simp only [beq_iff_eq] at h1 h2
    exact hne (Prod.ext (h1.trans h2.symm) he)

/-- The objects and the pairs that are left. -/
def St.less (s : St) (d : List Nat) : St :=
  { s with
    objs := s.objs.filter (fun o => !d.contains o.addr)
    within := s.within.filter (fun p => !d.contains p.1) }

theorem destroy_eq {sim ts : Nat} {s : St} (h : Inv sim ts s) {x : Nat} (hx : s.live x = true) :
    s.destroy x = some (s.less (s.dead x)) := by
  unfold St.destroy
  have h1 : (s.dead x).all s.live = true := by
    rw [List.all_eq_true]
    intro y hy
    rcases mem_dead.1 hy with rfl | hy
    · exact hx
    · exact (h.ends _ _ hy).2
  simp only [h1, dead_nodup h x, decide_true, Bool.and_self, if_true]
  rfl

theorem delete_eq {sim ts : Nat} {s : St} (h : Inv sim ts s) {o : Obj} (ho : o ∈ s.objs)
    (hh : o.heap = true) : s.delete o.addr = some (s.less (s.dead o.addr)) := by
  unfold St.delete
  rw [at_of_mem h.addrs ho]
  simp only [hh, if_true]
  exact destroy_eq h (live_mem ho)

theorem less_live {s : St} {d : List Nat} {y : Nat} :
    (s.less d).live y = true ↔ s.live y = true ∧ y ∉ d := by
  rw [live_iff, live_iff]
  unfold St.less
  simp only [List.mem_filter, Bool.not_eq_true', List.contains_eq_mem, decide_eq_false_iff_not]
  constructor
  · rintro ⟨o, ⟨ho, hd⟩, rfl⟩
    exact ⟨⟨o, ho, rfl⟩, hd⟩
  · rintro ⟨⟨o, ho, rfl⟩, hd⟩
    exact ⟨o, ⟨ho, hd⟩, rfl⟩

theorem less_within {s : St} {d : List Nat} {a b : Nat} :
    (a, b) ∈ (s.less d).within ↔ (a, b) ∈ s.within ∧ a ∉ d := by
  unfold St.less
  simp only [List.mem_filter, Bool.not_eq_true', List.contains_eq_mem, decide_eq_false_iff_not]

/-- Forgetting the pairs that end in a list. -/
def St.forget (s : St) (d : List Nat) : St :=
  { s with within := s.within.filter (fun p => !d.contains p.2) }

theorem forget_within {s : St} {d : List Nat} {a b : Nat} :
    (a, b) ∈ (s.forget d).within ↔ (a, b) ∈ s.within ∧ b ∉ d := by
  unfold St.forget
  simp only [List.mem_filter, Bool.not_eq_true', List.contains_eq_mem, decide_eq_false_iff_not]

theorem forget_live {s : St} {d : List Nat} {y : Nat} : (s.forget d).live y = s.live y := rfl

/-- Objects go away, with all pairs that they are in. -/
theorem inv_gone {sim ts : Nat} {s : St} (h : Inv sim ts s) (d : List Nat) (hs : sim ∉ d) :
    Inv sim ts ((s.less d).forget d) where
  addrs := by
    show ((s.objs.filter _).map _).Nodup
    exact h.addrs.sublist (List.Sublist.map _ List.filter_sublist)
  ends := by
    intro a b hab
    rw [forget_within, less_within] at hab
    rw [forget_live, forget_live, less_live, less_live]
    exact ⟨⟨(h.ends a b hab.1.1).1, hab.1.2⟩, (h.ends a b hab.1.1).2, hab.2⟩
  trans := by
    intro a b c hab hbc
    rw [forget_within, less_within] at hab hbc ⊢
    exact ⟨⟨h.trans a b c hab.1.1 hbc.1.1, hab.1.2⟩, hbc.2⟩
  line := by
    intro a b c hac hbc
    rw [forget_within, less_within] at hac hbc
    rw [forget_within, less_within, forget_within, less_within]
    rcases h.line a b c hac.1.1 hbc.1.1 with h1 | h1 | h1
    · exact .inl h1
    · exact .inr (.inl ⟨⟨h1, hac.1.2⟩, hbc.1.2⟩)
    · exact .inr (.inr ⟨⟨h1, hbc.1.2⟩, hac.1.2⟩)
  nodup := (h.nodup.filter _).filter _
  irrefl := by
    intro a ha
    rw [forget_within, less_within] at ha
    exact h.irrefl a ha.1.1
  keys := h.keys
  owned := by
    intro w hw ho
    obtain ⟨h1, h2, h3⟩ := h.owned w hw ho
    exact ⟨h1, h2, less_live.2 ⟨h3, hs⟩⟩
  top := by
    intro a ha
    rw [forget_within, less_within] at ha
    exact h.top a ha.1.1
  obj := by
    intro hl
    rw [forget_live, less_live] at hl
    obtain ⟨o, ho, h1, h2⟩ := h.obj hl.1
    refine ⟨o, ?_, h1, h2⟩
    show o ∈ s.objs.filter _
    simp only [List.mem_filter, Bool.not_eq_true', List.contains_eq_mem,
      decide_eq_false_iff_not]
    exact ⟨ho, h1 ▸ hs⟩
  wrap := by
    intro hl
    rw [forget_live, less_live] at hl
    exact h.wrap hl.1

/-- Without pairs that end in the list, there is nothing to forget. -/
theorem forget_self {s : St} {d : List Nat} (h : ∀ a b, (a, b) ∈ s.within → b ∉ d) :
    s.forget d = s := by
  unfold St.forget
  have : s.within.filter (fun p => !d.contains p.2) = s.within := by
    rw [List.filter_eq_self]
    intro p hp
    simp only [Bool.not_eq_true', List.contains_eq_mem, decide_eq_false_iff_not]
    exact h p.1 p.2 hp
  rw [this]

/-- The pairs that are left end in no object of a list that was removed, if it was held by no
other object. -/
theorem less_forget {sim ts : Nat} {s : St} (h : Inv sim ts s) {x : Nat}
    (hx : ∀ a, (a, x) ∉ s.within) : (s.less (s.dead x)).forget (s.dead x) = s.less (s.dead x) := by
  refine forget_self ?_
  intro a b hab hb
  rw [less_within] at hab
  rcases mem_dead.1 hb with rfl | hb
  · exact hx a hab.1
  · rcases h.line a x b hab.1 hb with h1 | h1 | h1
    · exact hab.2 (mem_dead.2 (.inl h1))
    · exact hx a h1
    · exact hab.2 (mem_dead.2 (.inr h1))

theorem count_live {s : St} {x t y : Nat} {g : Nat → Nat} : (s.count x t g).live y = s.live y := rfl

theorem count_keys (s : St) (x t : Nat) (g : Nat → Nat) :
    (s.count x t g).wraps.map (fun w => (w.addr, w.type)) =
      s.wraps.map (fun w => (w.addr, w.type)) := by
  unfold St.count
  simp only [List.map_map]
  apply List.map_congr_left
  intro w _
  simp only [Function.comp]
  split <;> rfl

theorem count_mem {s : St} {x t : Nat} {g : Nat → Nat} {w : Wrap}
    (h : w ∈ (s.count x t g).wraps) :
    ∃ v ∈ s.wraps, v.addr = w.addr ∧ v.type = w.type ∧ v.owned = w.owned := by
  unfold St.count at h
  simp only [List.mem_map] at h
  obtain ⟨v, hv, rfl⟩ := h
  refine ⟨v, hv, ?_⟩
  split <;> exact ⟨rfl, rfl, rfl⟩

theorem mem_count {s : St} (x t : Nat) (g : Nat → Nat) {v : Wrap} (h : v ∈ s.wraps) :
    ∃ w ∈ (s.count x t g).wraps, w.addr = v.addr ∧ w.type = v.type ∧ w.owned = v.owned := by
  refine ⟨_, List.mem_map.2 ⟨v, h, rfl⟩, ?_⟩
  split <;> exact ⟨rfl, rfl, rfl⟩

theorem inv_count {sim ts : Nat} {s : St} (h : Inv sim ts s) (x t : Nat) (g : Nat → Nat) :
    Inv sim ts (s.count x t g) where
  addrs := h.addrs
  ends := h.ends
  trans := h.trans
  line := h.line
  nodup := h.nodup
  irrefl := h.irrefl
  keys := by rw [count_keys]; exact h.keys
  owned := by
    intro w hw ho
    obtain ⟨v, hv, h1, h2, h3⟩ := count_mem hw
    obtain ⟨g1, g2, g3⟩ := h.owned v hv (h3.trans ho)
    exact ⟨h1.symm.trans g1, h2.symm.trans g2, g3⟩
  top := h.top
  obj := h.obj
  wrap := by
    intro hl
    obtain ⟨v, hv, h1, h2, h3⟩ := h.wrap hl
    obtain ⟨w, hw, g1, g2, g3⟩ := mem_count x t g hv
    exact ⟨w, hw, g1.trans h1, g2.trans h2, g3.trans h3⟩

theorem nodup_snoc {α : Type} {l : List α} {a : α} (h : l.Nodup) (ha : a ∉ l) :
    (l ++ [a]).Nodup := by
  rw [List.nodup_append]
  refine ⟨h, by simp, ?_⟩
  intro x hx y hy
  simp only [List.mem_singleton] at hy
  subst hy
  rintro rfl
  exact ha hx

/-- A new wrapper that owns nothing. -/
theorem inv_wrap {sim ts : Nat} {s : St} (h : Inv sim ts s) {x t : Nat}
    (hn : s.wrap? x t = none) :
    Inv sim ts { s with wraps := s.wraps ++ [⟨x, t, false, 1⟩] } where
  addrs := h.addrs
  ends := h.ends
  trans := h.trans
  line := h.line
  nodup := h.nodup
  irrefl := h.irrefl
  keys := by
    simp only [List.map_append, List.map_cons, List.map_nil]
    refine nodup_snoc h.keys ?_
    intro hm
    obtain ⟨w, hw, he⟩ := List.mem_map.1 hm
    simp only [Prod.mk.injEq] at he
    exact wrap_none hn hw he.1 he.2
  owned := by
    intro w hw ho
    rcases List.mem_append.1 hw with hw1 | hw1
    · exact h.owned w hw1 ho
    · simp only [List.mem_singleton] at hw1
      subst hw1
      cases ho
  top := h.top
  obj := h.obj
  wrap := by
    intro hl
    obtain ⟨v, hv, h1⟩ := h.wrap hl
    exact ⟨v, List.mem_append_left _ hv, h1⟩

theorem get_ok {sim ts : Nat} {s : St} (h : Inv sim ts s) {p : Policy} {x : Nat}
    (hx : s.live x = true)
    (hp : p = .reference ∨ ∃ o ∈ s.objs, ∃ w ∈ s.wraps, o.addr = x ∧ w.addr = x ∧ w.type = o.type) :
    ∃ s', s.get p x = some s' ∧ Inv sim ts s' ∧ s'.objs = s.objs ∧ s'.within = s.within := by
  unfold St.get
  obtain ⟨o, ho⟩ := at_live hx
  rw [ho]
  dsimp only
  cases hw : s.wrap? x o.type with
  | some w => exact ⟨_, rfl, inv_count h _ _ _, rfl, rfl⟩
  | none =>
    rcases hp with rfl | ⟨q, hq, w, hw', h1, h2, h3⟩
    · exact ⟨_, rfl, inv_wrap h hw, rfl, rfl⟩
    · exfalso
      have := obj_unique h.addrs (at_some ho).1 hq ((at_some ho).2.trans h1.symm)
      subst this
      exact wrap_none hw hw' h2 h3

/-- A wrapper that owns nothing goes away. -/
theorem inv_unwrap {sim ts : Nat} {s : St} (h : Inv sim ts s) {x t : Nat} {w : Wrap}
    (hw : s.wrap? x t = some w) (ho : w.owned = false) :
    Inv sim ts { s with wraps := s.wraps.filter (fun v => !(v.addr == x && v.type == t)) } where
  addrs := h.addrs
  ends := h.ends
  trans := h.trans
  line := h.line
  nodup := h.nodup
  irrefl := h.irrefl
  keys := h.keys.sublist (List.Sublist.map _ List.filter_sublist)
  owned := fun v hv => h.owned v (List.mem_filter.1 hv).1
  top := h.top
  obj := h.obj
  wrap := by
    intro hl
    obtain ⟨v, hv, h1, h2, h3⟩ := h.wrap hl
    refine ⟨v, List.mem_filter.2 ⟨hv, ?_⟩, h1, h2, h3⟩
    simp only [Bool.not_eq_true', Bool.and_eq_false_iff, beq_eq_false_iff_ne]
    by_cases hx : v.addr = x
    · right
      intro ht
      have := wrap_unique h.keys hv (wrap_some hw).1 (hx.trans (wrap_some hw).2.1.symm)
        (ht.trans (wrap_some hw).2.2.symm)
      subst this
      rw [ho] at h3
      cases h3
    · exact .inl hx

/-- Destroying an object does not look at the wrappers. -/
theorem delete_wraps (s : St) (ws : List Wrap) (x : Nat) :
    ({ s with wraps := ws } : St).delete x =
      (s.delete x).map (fun s' => { s' with wraps := ws }) := by
  unfold St.delete
  show (match s.at? x with | some o => _ | none => _) = _
  cases s.at? x with
  | none => rfl
  | some o =>
    dsimp only
    split
    · unfold St.destroy
      show (if (s.dead x).all s.live && decide (s.dead x).Nodup then _ else _) = _
      dsimp only
      split <;> rfl
    · rfl

/-- The last reference to the simulator is dropped. -/
theorem inv_end {sim ts : Nat} {s : St} (h : Inv sim ts s) (hl : s.live sim = true) :
    ∃ s', ({ s with wraps := s.wraps.filter (fun v => !(v.addr == sim && v.type == ts)) } :
        St).delete sim = some s' ∧ Inv sim ts s' ∧
      s'.objs = s.objs.filter (fun o => !(s.dead sim).contains o.addr) := by
  obtain ⟨o, ho, h1, h2, h3⟩ := h.obj hl
  -- the state without the wrapper, as far as the destructor is concerned
  have hd := delete_eq h ho h3
  rw [h1] at hd
  refine ⟨{ s.less (s.dead sim) with
      wraps := s.wraps.filter (fun v => !(v.addr == sim && v.type == ts)) }, ?_, ?_, rfl⟩
  · rw [delete_wraps, hd]
    rfl
  · have hf := less_forget h h.top
    refine
      { addrs := h.addrs.sublist (List.Sublist.map _ List.filter_sublist)
        ends := ?_
        trans := ?_
        line := ?_
        nodup := h.nodup.filter _
        irrefl := ?_
        keys := h.keys.sublist (List.Sublist.map _ List.filter_sublist)
        owned := ?_
        top := ?_
        obj := ?_
        wrap := ?_ }
    · intro a b hab
      have hab' : (a, b) ∈ (s.less (s.dead sim)).within := hab
      rw [← hf, forget_within] at hab'
      obtain ⟨hab1, hb⟩ := hab'
      rw [less_within] at hab1
      exact ⟨less_live.2 ⟨(h.ends a b hab1.1).1, hab1.2⟩, less_live.2 ⟨(h.ends a b hab1.1).2, hb⟩⟩
    · intro a b c hab hbc
      have h1' := less_within.1 (show (a, b) ∈ (s.less (s.dead sim)).within from hab)
      have h2' := less_within.1 (show (b, c) ∈ (s.less (s.dead sim)).within from hbc)
      exact less_within.2 ⟨h.trans a b c h1'.1 h2'.1, h1'.2⟩
    · intro a b c hac hbc
      have h1' := less_within.1 (show (a, c) ∈ (s.less (s.dead sim)).within from hac)
      have h2' := less_within.1 (show (b, c) ∈ (s.less (s.dead sim)).within from hbc)
      rcases h.line a b c h1'.1 h2'.1 with g | g | g
      · exact .inl g
      · exact .inr (.inl (less_within.2 ⟨g, h1'.2⟩))
      · exact .inr (.inr (less_within.2 ⟨g, h2'.2⟩))
    · intro a ha
      exact h.irrefl a (less_within.1 (show (a, a) ∈ (s.less (s.dead sim)).within from ha)).1
    · intro v hv hov
      obtain ⟨hv1, hv2⟩ := List.mem_filter.1 hv
      obtain ⟨g1, g2, _⟩ := h.owned v hv1 hov
      simp [g1, g2] at hv2
    · intro a ha
      exact h.top a (less_within.1 (show (a, sim) ∈ (s.less (s.dead sim)).within from ha)).1
    · intro hh
      exact absurd (mem_dead.2 (.inl rfl)) (less_live.1 hh).2
    · intro hh
      exact absurd (mem_dead.2 (.inl rfl)) (less_live.1 hh).2

theorem drop_ok {sim ts : Nat} {s : St} (h : Inv sim ts s) (x t : Nat) :
    ∃ s', s.drop x t = some s' ∧ Inv sim ts s' ∧
      (s'.objs = s.objs ∨ (x = sim ∧ t = ts ∧ (∃ w, s.wrap? x t = some w ∧ w.refs ≤ 1) ∧
        s'.objs = s.objs.filter (fun o => !(s.dead sim).contains o.addr))) := by
  unfold St.drop
  cases hw : s.wrap? x t with
  | none => exact ⟨s, rfl, h, .inl rfl⟩
  | some w =>
    dsimp only
    by_cases hr : w.refs ≤ 1
    · rw [if_pos hr]
      cases ho : w.owned with
      | false =>
        exact ⟨_, rfl, inv_unwrap h hw ho, .inl rfl⟩
      | true =>
        obtain ⟨g1, g2, g3⟩ := h.owned w (wrap_some hw).1 ho
        have hx : x = sim := (wrap_some hw).2.1.symm.trans g1
        have ht : t = ts := (wrap_some hw).2.2.symm.trans g2
        subst hx ht
        obtain ⟨s', e1, e2, e3⟩ := inv_end h g3
        exact ⟨s', e1, e2, .inr ⟨rfl, rfl, ⟨w, rfl, hr⟩, e3⟩⟩
    · rw [if_neg hr]
      exact ⟨_, rfl, inv_count h _ _ _, .inl rfl⟩

/-! ### New objects -/

/-- What the addresses of a new component satisfy. -/
def Free (s : St) (x : Nat) (parts : List (Nat × Nat)) : Prop :=
  (∀ a ∈ x :: parts.map (·.1), s.live a = false) ∧ (x :: parts.map (·.1)).Nodup

theorem make_cases (s : St) (x t : Nat) (parts : List (Nat × Nat)) :
    (¬ Free s x parts ∧ s.make x t parts = s) ∨
    (Free s x parts ∧ s.make x t parts =
      { s with
        objs := s.objs ++ ⟨x, t, true⟩ :: parts.map (fun p => ⟨p.1, p.2, false⟩)
        within := s.within ++ parts.map (fun p => (x, p.1)) }) := by
  unfold St.make
  by_cases hf : Free s x parts
  · right
    refine ⟨hf, if_neg ?_⟩
    simp only [Bool.or_eq_true, Bool.not_eq_true', decide_eq_false_iff_not, not_or,
      Bool.not_eq_true, List.any_eq_false, Decidable.not_not]
    exact ⟨hf.1, hf.2⟩
  · left
    refine ⟨hf, if_pos ?_⟩
    by_cases hn : (x :: parts.map (·.1)).Nodup
    · by_cases ha : (x :: parts.map (·.1)).any s.live = true
      · rw [ha]; rfl
      · exfalso
        refine hf ⟨?_, hn⟩
        simpa only [Bool.not_eq_true, List.any_eq_false] using ha
    · simp [hn]

theorem make_eq {s : St} {x t : Nat} {parts : List (Nat × Nat)}
    (h : (s.make x t parts).objs = s.objs) : s.make x t parts = s := by
  rcases make_cases s x t parts with ⟨_, h1⟩ | ⟨_, h1⟩
  · exact h1
  · exfalso
    rw [h1] at h
    have := congrArg List.length h
    simp at this

theorem make_live {s : St} {x t : Nat} {parts : List (Nat × Nat)} (hf : Free s x parts) {y : Nat} :
    (s.make x t parts).live y = true ↔ s.live y = true ∨ y ∈ x :: parts.map (·.1) := by
  rcases make_cases s x t parts with ⟨h1, _⟩ | ⟨_, h1⟩
  · exact absurd hf h1
  · rw [h1, live_iff, live_iff]
    simp only [List.mem_append, List.mem_cons, List.mem_map]
    constructor
    · rintro ⟨o, ho | rfl | ⟨p, hp, rfl⟩, rfl⟩
      · exact .inl ⟨o, ho, rfl⟩
      · exact .inr (.inl rfl)
      · exact .inr (.inr ⟨p, hp, rfl⟩)
    · rintro (⟨o, ho, rfl⟩ | rfl | ⟨p, hp, rfl⟩)
      · exact ⟨o, .inl ho, rfl⟩
      · exact ⟨_, .inr (.inl rfl), rfl⟩
      · exact ⟨_, .inr (.inr ⟨p, hp, rfl⟩), rfl⟩

theorem make_within {s : St} {x t : Nat} {parts : List (Nat × Nat)} (hf : Free s x parts)
    {a b : Nat} : (a, b) ∈ (s.make x t parts).within ↔
      (a, b) ∈ s.within ∨ (a = x ∧ b ∈ parts.map (·.1)) := by
  rcases make_cases s x t parts with ⟨h1, _⟩ | ⟨_, h1⟩
  · exact absurd hf h1
  · rw [h1]
    simp only [List.mem_append, List.mem_map, Prod.mk.injEq]
    constructor
    · rintro (h | ⟨p, hp, rfl, rfl⟩)
      · exact .inl h
      · exact .inr ⟨rfl, p, hp, rfl⟩
    · rintro (h | ⟨rfl, p, hp, rfl⟩)
      · exact .inl h
      · exact .inr ⟨p, hp, rfl, rfl⟩

theorem make_inv {sim ts : Nat} {s : St} (h : Inv sim ts s) (hl : s.live sim = true)
    {x t : Nat} {parts : List (Nat × Nat)} (hf : Free s x parts) :
    Inv sim ts (s.make x t parts) := by
  have old : ∀ {a b : Nat}, (a, b) ∈ s.within → a ∉ x :: parts.map (·.1) ∧
      b ∉ x :: parts.map (·.1) := by
    intro a b hab
    obtain ⟨h1, h2⟩ := h.ends a b hab
    constructor
    · intro ha; rw [hf.1 a ha] at h1; cases h1
    · intro hb; rw [hf.1 b hb] at h2; cases h2
  have hx : x ∉ parts.map (·.1) := (List.nodup_cons.1 hf.2).1
  have hm := (make_cases s x t parts).resolve_left (fun hh => hh.1 hf)
  refine
    { addrs := ?_, ends := ?_, trans := ?_, line := ?_, nodup := ?_, irrefl := ?_, keys := ?_,
      owned := ?_, top := ?_, obj := ?_, wrap := ?_ }
  · rw [hm.2]
    simp only [List.map_append, List.map_cons, List.map_map]
    have e : (parts.map ((fun o : Obj => o.addr) ∘ fun p : Nat × Nat => (⟨p.1, p.2, false⟩ : Obj))) =
        parts.map (·.1) := rfl
    rw [e, List.nodup_append]
    refine ⟨h.addrs, hf.2, ?_⟩
    intro a ha b hb he
    subst he
    obtain ⟨o, ho, rfl⟩ := List.mem_map.1 ha
    have := hf.1 _ hb
    rw [live_mem ho] at this
    cases this
  · intro a b hab
    rw [make_live hf, make_live hf]
    rcases (make_within hf).1 hab with g | ⟨rfl, g⟩
    · exact ⟨.inl (h.ends a b g).1, .inl (h.ends a b g).2⟩
    · exact ⟨.inr List.mem_cons_self, .inr (List.mem_cons_of_mem _ g)⟩
  · intro a b c hab hbc
    rw [make_within hf] at hab hbc ⊢
    rcases hab with g | ⟨rfl, g⟩ <;> rcases hbc with k | ⟨rfl, k⟩
    · exact .inl (h.trans a b c g k)
    · exact absurd List.mem_cons_self (old g).2
    · exact absurd (List.mem_cons_of_mem _ g) (old k).1
    · exact absurd g hx
  · intro a b c hac hbc
    rw [make_within hf] at hac hbc
    rw [make_within hf, make_within hf]
    rcases hac with g | ⟨rfl, g⟩ <;> rcases hbc with k | ⟨rfl, k⟩
    · rcases h.line a b c g k with r | r | r
      · exact .inl r
      · exact .inr (.inl (.inl r))
      · exact .inr (.inr (.inl r))
    · exact absurd (List.mem_cons_of_mem _ k) (old g).2
    · exact absurd (List.mem_cons_of_mem _ g) (old k).2
    · exact .inl rfl
  · rw [hm.2]
    dsimp only
    rw [List.nodup_append]
    refine ⟨h.nodup, ?_, ?_⟩
    · have h2 := (List.nodup_cons.1 hf.2).2
      unfold List.Nodup at h2 ⊢
      rw [List.pairwise_map] at h2 ⊢
      refine h2.imp ?_
      intro p q hpq he
      exact hpq (Prod.mk.injEq .. ▸ he).2
    · intro p hp q hq he
      subst he
      obtain ⟨r, hr, rfl⟩ := List.mem_map.1 hq
      exact absurd List.mem_cons_self (old hp).1
  · intro a ha
    rcases (make_within hf).1 ha with g | ⟨rfl, g⟩
    · exact h.irrefl a g
    · exact hx g
  · rw [hm.2]; exact h.keys
  · intro w hw ho
    rw [hm.2] at hw
    obtain ⟨g1, g2, g3⟩ := h.owned w hw ho
    exact ⟨g1, g2, (make_live hf).2 (.inl g3)⟩
  · intro a ha
    rcases (make_within hf).1 ha with g | ⟨rfl, g⟩
    · exact h.top a g
    · have := hf.1 sim (List.mem_cons_of_mem _ g)
      rw [hl] at this
      cases this
  · intro _
    obtain ⟨o, ho, g⟩ := h.obj hl
    refine ⟨o, ?_, g⟩
    rw [hm.2]
    exact List.mem_append_left _ ho
  · intro _
    obtain ⟨w, hw, g⟩ := h.wrap hl
    refine ⟨w, ?_, g⟩
    rw [hm.2]
    exact hw

theorem add_within {s s' : St} {k c a b : Nat} (h : s.add k c = some s') :
    (a, b) ∈ s'.within ↔ (a, b) ∈ s.within ∨
      ((a = k ∨ (a, k) ∈ s.within) ∧ (b = c ∨ (c, b) ∈ s.within)) := by
  unfold St.add at h
  split at h
  · cases h
    simp only [List.mem_append, List.mem_flatMap, List.mem_map, List.mem_cons, List.mem_filter,
      beq_iff_eq, Prod.mk.injEq]
    constructor
    · rintro (h | ⟨a', h1, b', h2, rfl, rfl⟩)
      · exact .inl h
      · refine .inr ⟨?_, mem_dead.1 h2⟩
        rcases h1 with h1 | ⟨⟨p, q⟩, ⟨h3, rfl⟩, rfl⟩
        · exact .inl h1
        · exact .inr h3
    · rintro (h | ⟨h1, h2⟩)
      · exact .inl h
      · refine .inr ⟨a, ?_, b, mem_dead.2 h2, rfl, rfl⟩
        rcases h1 with h1 | h1
        · exact .inl h1
        · exact .inr ⟨(a, k), ⟨h1, rfl⟩, rfl⟩
  · cases h

theorem above_nodup {sim ts : Nat} {s : St} (h : Inv sim ts s) (k : Nat) :
    (k :: (s.within.filter (·.2 == k)).map (·.1)).Nodup := by
  rw [List.nodup_cons]
  constructor
  · intro hx
    simp only [List.mem_map, List.mem_filter, beq_iff_eq] at hx
    obtain ⟨⟨a, b⟩, ⟨hm, hb⟩, ha⟩ := hx
    dsimp only at ha hb
    subst ha hb
    exact h.irrefl _ hm
  · unfold List.Nodup
    rw [List.pairwise_map]
    refine (h.nodup.filter (·.2 == k)).imp_of_mem ?_
    intro p q hp hq hne he
    have h1 := (List.mem_filter.1 hp).2
    have h2 := (List.mem_filter.1 hq).2
    simp only [beq_iff_eq] at h1 h2
    exact hne (Prod.ext he (h1.trans h2.symm))

theorem add_ok {sim ts : Nat} {s : St} (h : Inv sim ts s) {k c : Nat} (hk : s.live k = true)
    (hc : s.live c = true) (hl : ∀ a, (a, c) ∉ s.within) (hkc : k ≠ c) (hck : (c, k) ∉ s.within)
    (hs : c ≠ sim) : ∃ s', s.add k c = some s' ∧ Inv sim ts s' ∧ s'.objs = s.objs ∧
      s'.wraps = s.wraps := by
  have hadd : ∃ s', s.add k c = some s' ∧ s'.objs = s.objs ∧ s'.wraps = s.wraps := by
    unfold St.add
    simp only [hk, hc, Bool.and_self, if_true]
    exact ⟨_, rfl, rfl, rfl⟩
  obtain ⟨s', he, ho, hw⟩ := hadd
  have hliv : ∀ y, s'.live y = s.live y := by intro y; unfold St.live; rw [ho]
  -- what is above `k` is not within `c`, and is not `c`
  have up : ∀ {a}, (a = k ∨ (a, k) ∈ s.within) → a ≠ c ∧ (c, a) ∉ s.within := by
    intro a ha
    rcases ha with rfl | ha
    · exact ⟨hkc, hck⟩
    · constructor
      · rintro rfl; exact hck ha
      · intro hca; exact hck (h.trans c a k hca ha)
  have fresh : ∀ {a b}, (a = k ∨ (a, k) ∈ s.within) → (b = c ∨ (c, b) ∈ s.within) →
      (a, b) ∉ s.within := by
    intro a b ha hb hab
    rcases hb with rfl | hb
    · exact hl a hab
    · rcases h.line a c b hab hb with g | g | g
      · exact (up ha).1 g
      · exact hl a g
      · exact (up ha).2 g
  refine ⟨s', he, ?_, ho, hw⟩
  refine
    { addrs := by rw [ho]; exact h.addrs
      ends := ?_, trans := ?_, line := ?_, nodup := ?_, irrefl := ?_
      keys := by rw [hw]; exact h.keys
      owned := ?_, top := ?_, obj := ?_, wrap := ?_ }
  · intro a b hab
    rw [hliv, hliv]
    rcases (add_within he).1 hab with g | ⟨ha, hb⟩
    · exact h.ends a b g
    · constructor
      · rcases ha with rfl | ha
        · exact hk
        · exact (h.ends _ _ ha).1
      · rcases hb with rfl | hb
        · exact hc
        · exact (h.ends _ _ hb).2
  · intro a b d hab hbd
    rw [add_within he] at hab hbd ⊢
    rcases hab with g | ⟨ha, hb⟩ <;> rcases hbd with g' | ⟨hb', hd⟩
    · exact .inl (h.trans a b d g g')
    · refine .inr ⟨.inr ?_, hd⟩
      rcases hb' with rfl | hb'
      · exact g
      · exact h.trans a b k g hb'
    · refine .inr ⟨ha, .inr ?_⟩
      rcases hb with rfl | hb
      · exact g'
      · exact h.trans c b d hb g'
    · exfalso
      rcases hb with rfl | hb
      · exact (up hb').1 rfl
      · exact (up hb').2 hb
  · intro a b d had hbd
    rw [add_within he] at had hbd
    rw [add_within he, add_within he]
    rcases had with g | ⟨ha, hd⟩ <;> rcases hbd with g' | ⟨hb, hd'⟩
    · rcases h.line a b d g g' with r | r | r
      · exact .inl r
      · exact .inr (.inl (.inl r))
      · exact .inr (.inr (.inl r))
    · -- `b` is above `k`, `d` is in `c`, `a` above `d` was there before
      have : a = c ∨ (c, a) ∈ s.within := by
        rcases hd' with rfl | hd'
        · exact absurd g (hl a)
        · rcases h.line a c d g hd' with r | r | r
          · exact .inl r
          · exact absurd r (hl a)
          · exact .inr r
      exact .inr (.inr (.inr ⟨hb, this⟩))
    · have : b = c ∨ (c, b) ∈ s.within := by
        rcases hd with rfl | hd
        · exact absurd g' (hl b)
        · rcases h.line b c d g' hd with r | r | r
          · exact .inl r
          · exact absurd r (hl b)
          · exact .inr r
      exact .inr (.inl (.inr ⟨ha, this⟩))
    · rcases ha with rfl | ha <;> rcases hb with rfl | hb
      · exact .inl rfl
      · exact .inr (.inr (.inl hb))
      · exact .inr (.inl (.inl ha))
      · rcases h.line a b k ha hb with r | r | r
        · exact .inl r
        · exact .inr (.inl (.inl r))
        · exact .inr (.inr (.inl r))
  · unfold St.add at he
    simp only [hk, hc, Bool.and_self, if_true, Option.some.injEq] at he
    subst he
    dsimp only
    rw [List.nodup_append]
    refine ⟨h.nodup, ?_, ?_⟩
    · unfold List.Nodup
      rw [List.pairwise_flatMap]
      constructor
      · intro a _
        have hd := dead_nodup h c
        unfold List.Nodup at hd
        rw [List.pairwise_map]
        exact hd.imp (fun hne he => hne (Prod.mk.injEq .. ▸ he).2)
      · have ha := above_nodup h k
        unfold List.Nodup at ha
        refine ha.imp ?_
        intro a b hne p hp q hq hpq
        obtain ⟨_, _, rfl⟩ := List.mem_map.1 hp
        obtain ⟨_, _, rfl⟩ := List.mem_map.1 hq
        exact hne (Prod.mk.injEq .. ▸ hpq).1
    · intro p hp q hq hpq
      subst hpq
      obtain ⟨a, ha, hq2⟩ := List.mem_flatMap.1 hq
      obtain ⟨b, hb, hpe⟩ := List.mem_map.1 hq2
      subst hpe
      refine fresh ?_ (mem_dead.1 hb) hp
      rcases List.mem_cons.1 ha with h1 | h1
      · exact .inl h1
      · simp only [List.mem_map, List.mem_filter, beq_iff_eq] at h1
        obtain ⟨⟨p, q⟩, ⟨h3, rfl⟩, rfl⟩ := h1
        exact .inr h3
  · intro a ha
    rcases (add_within he).1 ha with g | ⟨g1, g2⟩
    · exact h.irrefl a g
    · rcases g2 with g2 | g2
      · exact (up g1).1 g2
      · exact (up g1).2 g2
  · intro w hw' hov
    rw [hw] at hw'
    rw [hliv]
    exact h.owned w hw' hov
  · intro a ha
    rcases (add_within he).1 ha with g | ⟨g1, g2⟩
    · exact h.top a g
    · rcases g2 with g2 | g2
      · exact hs g2.symm
      · exact h.top c g2
  · intro hh
    rw [hliv] at hh
    rw [ho]
    exact h.obj hh
  · intro hh
    rw [hliv] at hh
    rw [hw]
    exact h.wrap hh

theorem remove_ok {sim ts : Nat} {s : St} (h : Inv sim ts s) {c : Nat}
    (hh : ∀ o ∈ s.objs, o.addr = c → o.heap = true) :
    ∃ s', s.remove c = some s' ∧ Inv sim ts s' ∧ s'.wraps = s.wraps ∧
      s'.objs = (if s.within.any (·.2 == c) then
        s.objs.filter (fun o => !(s.dead c).contains o.addr) else s.objs) := by
  unfold St.remove
  by_cases hw : s.within.any (·.2 == c) = true
  · rw [if_pos hw]
    simp only [List.any_eq_true, beq_iff_eq] at hw
    obtain ⟨⟨a, b⟩, hm, hb⟩ := hw
    dsimp only at hb
    subst hb
    obtain ⟨o, ho, rfl⟩ := live_iff.1 (h.ends a b hm).2
    rw [delete_eq h ho (hh o ho rfl)]
    refine ⟨_, rfl, ?_, rfl, ?_⟩
    · refine inv_gone h (s.dead o.addr) ?_
      intro hs
      rcases mem_dead.1 hs with g | g
      · exact h.top a (g ▸ hm)
      · exact h.top _ g
    · rw [if_pos]
      · rfl
      · simp only [List.any_eq_true, beq_iff_eq]
        exact ⟨_, hm, rfl⟩
  · rw [if_neg hw, if_neg hw]
    exact ⟨s, rfl, h, rfl, rfl⟩

theorem deleteInstance_ok {sim ts : Nat} {s : St} (h : Inv sim ts s) {o : Obj} (ho : o ∈ s.objs)
    (hh : o.heap = true) (hl : ∀ a, (a, o.addr) ∉ s.within) (hs : o.addr ≠ sim) :
    ∃ s', s.delete o.addr = some s' ∧ Inv sim ts s' := by
  rw [delete_eq h ho hh]
  refine ⟨_, rfl, ?_⟩
  rw [← less_forget h hl]
  refine inv_gone h _ ?_
  intro hm
  rcases mem_dead.1 hm with g | g
  · exact hs g.symm
  · exact h.top _ g

theorem start_inv {sim ts : Nat} {parts : List (Nat × Nat)} {s : St}
    (h : start sim ts parts = some s) :
    Inv sim ts s ∧ s.live sim = true ∧ Free (St.mk [] [] []) sim parts := by
  unfold start at h
  rcases make_cases (St.mk [] [] []) sim ts parts with ⟨_, h1⟩ | ⟨hf, h1⟩
  · rw [h1] at h
    cases h
  · have hx : sim ∉ parts.map (·.1) := (List.nodup_cons.1 hf.2).1
    have ha : ((St.mk [] [] []).make sim ts parts).at? sim = some ⟨sim, ts, true⟩ := by
      rw [h1]
      simp [St.at?]
    unfold St.get at h
    rw [ha] at h
    have hwr : ((St.mk [] [] []).make sim ts parts).wrap? sim ts = none := by rw [h1]; rfl
    dsimp only at h
    rw [hwr] at h
    simp only [Option.some.injEq] at h
    rw [h1] at h
    subst h
    simp only [List.nil_append]
    refine ⟨?_, by simp [St.live], hf⟩
    have mw : ∀ {a b : Nat}, (a, b) ∈ parts.map (fun p => (sim, p.1)) ↔
        a = sim ∧ b ∈ parts.map (·.1) := by
      intro a b
      simp only [List.mem_map, Prod.mk.injEq]
      constructor
      · rintro ⟨p, hp, rfl, rfl⟩; exact ⟨rfl, p, hp, rfl⟩
      · rintro ⟨rfl, p, hp, rfl⟩; exact ⟨p, hp, rfl, rfl⟩
    refine
      { addrs := ?_, ends := ?_, trans := ?_, line := ?_, nodup := ?_, irrefl := ?_, keys := ?_,
        owned := ?_, top := ?_, obj := ?_, wrap := ?_ }
    · simp only [List.map_cons, List.map_map]
      exact hf.2
    · intro a b hab
      obtain ⟨rfl, hb⟩ := mw.1 hab
      obtain ⟨p, hp, rfl⟩ := List.mem_map.1 hb
      rw [live_iff, live_iff]
      exact ⟨⟨_, List.mem_cons_self, rfl⟩,
        ⟨_, List.mem_cons_of_mem _ (List.mem_map.2 ⟨p, hp, rfl⟩), rfl⟩⟩
    · intro a b c hab hbc
      exact absurd ((mw.1 hbc).1 ▸ (mw.1 hab).2) hx
    · intro a b c hac hbc
      exact .inl ((mw.1 hac).1.trans (mw.1 hbc).1.symm)
    · have h2 := (List.nodup_cons.1 hf.2).2
      unfold List.Nodup at h2 ⊢
      rw [List.pairwise_map] at h2 ⊢
      exact h2.imp (fun hpq he => hpq (Prod.mk.injEq .. ▸ he).2)
    · intro a ha'
      exact absurd ((mw.1 ha').1 ▸ (mw.1 ha').2) hx
    · simp
    · intro w hw _
      simp only [List.mem_singleton] at hw
      subst hw
      exact ⟨rfl, rfl, by simp [St.live]⟩
    · intro a ha'
      exact absurd (mw.1 ha').2 hx
    · intro _
      exact ⟨_, List.mem_cons_self, rfl, rfl, rfl⟩
    · intro _
      exact ⟨_, List.mem_cons_self, rfl, rfl, rfl⟩

end Verif.Python.Own
