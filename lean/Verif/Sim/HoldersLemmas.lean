import Verif.Sim.HoldersSpec

/-!
The invariant of the states of careful programs (C137).
-/
namespace Verif.Sim.Holders

structure Inv (s : St) : Prop where
  held : ∀ ep, Held s ep → s.live ep = true
  ids : (s.events.map (·.id)).Nodup
  bound : ∀ e ∈ s.events, e.id ≤ s.last
  busy : (s.imm ++ s.busy).Nodup
  known : ∀ i ∈ s.imm ++ s.busy, i ∈ s.events.map (·.id)
  owns : ∀ p ∈ s.owner, p.2 ∈ s.comps
  eps : (s.owner.map (·.1)).Nodup

theorem live_iff {s : St} {ep : Nat} : s.live ep = true ↔ ∃ c, (ep, c) ∈ s.owner := by
  unfold St.live
  simp only [List.any_eq_true, beq_iff_eq]
  constructor
  · rintro ⟨⟨a, c⟩, h, rfl⟩; exact ⟨c, h⟩
  · rintro ⟨c, h⟩; exact ⟨_, h, rfl⟩

theorem event_some {s : St} {id : Nat} {e : Ev} (h : s.event? id = some e) :
    e ∈ s.events ∧ e.id = id := by
  unfold St.event? at h
  exact ⟨List.mem_of_find?_eq_some h, by simpa using List.find?_some h⟩

theorem event_known {s : St} {id : Nat} (h : id ∈ s.events.map (·.id)) :
    ∃ e, s.event? id = some e := by
  cases hf : s.event? id with
  | some e => exact ⟨e, rfl⟩
  | none =>
    unfold St.event? at hf
    rw [List.find?_eq_none] at hf
    obtain ⟨e, he, hi⟩ := List.mem_map.1 h
    exact absurd (by simpa using hi) (hf e he)

theorem event_unique {s : St} (h : (s.events.map (·.id)).Nodup) {e : Ev} (he : e ∈ s.events) :
    s.event? e.id = some e := by
  obtain ⟨e', hf⟩ := event_known (List.mem_map.2 ⟨e, he, rfl⟩)
  rw [hf]
  obtain ⟨h1, h2⟩ := event_some hf
  congr 1
  generalize s.events = l at *
  clear hf
  induction l with
  | nil => cases he
  | cons a l ih =>
    simp only [List.map_cons, List.nodup_cons, List.mem_map, not_exists, not_and] at h
    rcases List.mem_cons.1 he with g | g <;> rcases List.mem_cons.1 h1 with g' | g'
    · rw [g, g']
    · exact absurd (h2.trans (congrArg Ev.id g)) (h.1 e' g')
    · exact absurd (h2.symm.trans (congrArg Ev.id g')) (h.1 e g)
    · exact ih h.2 g g'

theorem nodup_snoc {α : Type} {l : List α} {a : α} (h : l.Nodup) (ha : a ∉ l) :
    (l ++ [a]).Nodup := by
  rw [List.nodup_append]
  refine ⟨h, by simp, ?_⟩
  intro x hx y hy
  simp only [List.mem_singleton] at hy
  subst hy
  rintro rfl
  exact ha hx

theorem start_inv : Inv start where
  held := by
    rintro ep (⟨e, h, _⟩ | ⟨evt, h⟩ | h | ⟨f, h, _⟩) <;> cases h
  ids := by decide
  bound := by intro e h; cases h
  busy := by decide
  known := by intro i h; cases h
  owns := by intro p h; cases h
  eps := by decide

/-- The pointers after a change of nothing but what is kept. -/
theorem Inv.mono {s s' : St} (h : Inv s) (hc : s'.comps = s.comps) (ho : s'.owner = s.owner)
    (hheld : ∀ ep, Held s' ep → s.live ep = true)
    (hids : (s'.events.map (·.id)).Nodup) (hbound : ∀ e ∈ s'.events, e.id ≤ s'.last)
    (hbusy : (s'.imm ++ s'.busy).Nodup)
    (hknown : ∀ i ∈ s'.imm ++ s'.busy, i ∈ s'.events.map (·.id)) : Inv s' where
  held := by
    intro ep he
    have := hheld ep he
    unfold St.live at this ⊢
    rw [ho]
    exact this
  ids := hids
  bound := hbound
  busy := hbusy
  known := hknown
  owns := by rw [hc, ho]; exact h.owns
  eps := by rw [ho]; exact h.eps

theorem create_inv {s : St} (h : Inv s) (c : Nat) (eps : List Nat) : Inv (s.create c eps) := by
  unfold St.create
  split
  · exact h
  · rename_i hn
    simp only [Bool.or_eq_true, List.contains_eq_mem, decide_eq_true_eq, List.any_eq_true,
      Bool.not_eq_true', decide_eq_false_iff_not, not_or, Decidable.not_not, not_exists,
      not_and] at hn
    obtain ⟨⟨hc, hl⟩, hd⟩ := hn
    refine ⟨?_, h.ids, h.bound, h.busy, h.known, ?_, ?_⟩
    · intro ep he
      obtain ⟨c', hm⟩ := live_iff.1 (h.held ep he)
      exact live_iff.2 ⟨c', List.mem_append_left _ hm⟩
    · intro p hp
      rcases List.mem_append.1 hp with hp1 | hp1
      · exact List.mem_append_left _ (h.owns p hp1)
      · obtain ⟨e, _, rfl⟩ := List.mem_map.1 hp1
        simp
    · simp only [List.map_append, List.map_map]
      have e : (eps.map ((fun p : Nat × Nat => p.1) ∘ fun e => (e, c))) = eps := by
        simp [Function.comp_def]
      rw [e, List.nodup_append]
      refine ⟨h.eps, hd, ?_⟩
      intro a ha b hb hab
      subst hab
      obtain ⟨⟨x, c'⟩, hm, rfl⟩ := List.mem_map.1 ha
      exact hl x hb (live_iff.2 ⟨c', hm⟩)

theorem delete_ok {s : St} (h : Inv s) {c : Nat} (hc : Careful s (.delete c)) :
    ∃ s', s.delete c = some s' ∧ Inv s' := by
  obtain ⟨h1, h2⟩ := hc
  unfold St.delete
  rw [if_pos (by simpa using h1)]
  refine ⟨_, rfl, ?_⟩
  refine ⟨?_, h.ids, h.bound, h.busy, h.known, ?_, ?_⟩
  · intro ep he
    have he' : Held s ep := he
    obtain ⟨c', hm⟩ := live_iff.1 (h.held ep he')
    refine live_iff.2 ⟨c', List.mem_filter.2 ⟨hm, ?_⟩⟩
    simp only [bne_iff_ne, ne_eq]
    rintro rfl
    exact h2 ep hm he'
  · intro p hp
    obtain ⟨hp1, hp2⟩ := List.mem_filter.1 hp
    exact List.mem_filter.2 ⟨h.owns p hp1, hp2⟩
  · exact h.eps.sublist (List.Sublist.map _ List.filter_sublist)

theorem post_inv {s : St} (h : Inv s) {ep : Nat} (hl : s.live ep = true) (rep : Int) :
    Inv { s with events := s.events ++ [⟨s.last + 1, ep, rep⟩], last := s.last + 1 } := by
  refine h.mono rfl rfl ?_ ?_ ?_ h.busy ?_
  · rintro ep' (⟨e, he, rfl⟩ | he)
    · rcases List.mem_append.1 he with g | g
      · exact h.held _ (.inl ⟨e, g, rfl⟩)
      · simp only [List.mem_singleton] at g
        subst g
        exact hl
    · exact h.held _ (.inr he)
  · simp only [List.map_append, List.map_cons, List.map_nil]
    refine nodup_snoc h.ids ?_
    intro hm
    obtain ⟨e, he, hi⟩ := List.mem_map.1 hm
    have := h.bound e he
    omega
  · intro e he
    rcases List.mem_append.1 he with g | g
    · exact Nat.le_succ_of_le (h.bound e g)
    · simp only [List.mem_singleton] at g
      subst g
      exact Nat.le_refl _
  · intro i hi
    simp only [List.map_append, List.mem_append]
    exact .inl (h.known i hi)

theorem postImmediate_inv {s : St} (h : Inv s) {ep : Nat} (hl : s.live ep = true) :
    Inv (s.postImmediate ep) := by
  have hp := post_inv h hl 0
  have hnew : s.last + 1 ∉ s.imm ++ s.busy := by
    intro hm
    obtain ⟨e, he, hi⟩ := List.mem_map.1 (h.known _ hm)
    have := h.bound e he
    omega
  refine hp.mono rfl rfl hp.held hp.ids hp.bound ?_ ?_
  · show ((s.imm ++ [s.last + 1]) ++ s.busy).Nodup
    have hb := h.busy
    rw [List.nodup_append] at hb ⊢
    simp only [List.mem_append, not_or] at hnew
    refine ⟨nodup_snoc hb.1 hnew.1, hb.2.1, ?_⟩
    intro a ha b hb' hab
    subst hab
    rcases List.mem_append.1 ha with g | g
    · exact hb.2.2 a g a hb' rfl
    · simp only [List.mem_singleton] at g
      subst g
      exact hnew.2 hb'
  · intro i hi
    have hi' : i ∈ (s.imm ++ [s.last + 1]) ++ s.busy := hi
    simp only [List.mem_append, List.mem_singleton] at hi'
    show i ∈ (s.events ++ [(⟨s.last + 1, ep, 0⟩ : Ev)]).map (·.id)
    simp only [List.map_append, List.mem_append, List.map_cons, List.map_nil, List.mem_singleton]
    rcases hi' with (g | g) | g
    · exact .inl (h.known i (List.mem_append_left _ g))
    · exact .inr g
    · exact .inl (h.known i (List.mem_append_right _ g))

theorem current_mem {s : St} {id : Nat} (h : id ∈ s.busy)
    (hr : ∀ f ∈ s.stack, (f.kind = .table ∨ f.kind = .immediate) → id ∉ f.rest) :
    ∃ f ∈ s.stack, f.kind.sched = true ∧ ∃ ep, f.cur = some (id, ep) := by
  unfold St.busy at h
  obtain ⟨f, hf, hi⟩ := List.mem_flatMap.1 h
  unfold Frame.ids at hi
  split at hi
  · rename_i hk
    rcases List.mem_append.1 hi with g | g
    · refine ⟨f, hf, hk, ?_⟩
      cases hc : f.cur with
      | none => rw [hc] at g; cases g
      | some p =>
        rw [hc] at g
        simp only [Option.toList_some, List.map_cons, List.map_nil, List.mem_singleton] at g
        exact ⟨p.2, by rw [g]⟩
    · refine absurd g (hr f hf ?_)
      cases hk' : f.kind <;> rw [hk'] at hk <;> simp_all [Kind.sched]
  · cases hi

/-- At most one loop of the scheduler executes an entry point. -/
def OneCur (l : List Frame) : Prop :=
  l.Pairwise (fun f g => ¬ ((f.kind.sched = true ∧ f.cur.isSome = true) ∧
    (g.kind.sched = true ∧ g.cur.isSome = true)))

theorem current_of_mem {s : St} (h1 : OneCur s.stack) {f : Frame} (hf : f ∈ s.stack)
    (hk : f.kind.sched = true) {x ep : Nat} (hc : f.cur = some (x, ep)) : s.current = some x := by
  unfold St.current
  generalize s.stack = l at *
  induction l with
  | nil => cases hf
  | cons g l ih =>
    rw [OneCur, List.pairwise_cons] at h1
    rcases List.mem_cons.1 hf with rfl | hf'
    · simp [hk, hc]
    · rw [List.findSome?_cons]
      have : (if g.kind.sched then g.cur.map (·.1) else none) = none := by
        by_cases hg : g.kind.sched = true
        · rw [if_pos hg]
          cases hgc : g.cur with
          | none => rfl
          | some p => exact absurd ⟨⟨hg, by rw [hgc]; rfl⟩, hk, by rw [hc]; rfl⟩ (h1.1 f hf')
        · rw [if_neg hg]
      rw [this]
      exact ih h1.2 hf'

theorem current_none {s : St} (h : s.current = none) {f : Frame} (hf : f ∈ s.stack)
    (hk : f.kind.sched = true) : f.cur = none := by
  unfold St.current at h
  rw [List.findSome?_eq_none_iff] at h
  have := h f hf
  rw [if_pos hk] at this
  cases hc : f.cur with
  | none => rfl
  | some p => rw [hc] at this; cases this

structure Good (s : St) : Prop extends Inv s where
  one : OneCur s.stack

theorem removeEvent_inv {s : St} (h : Good s) {id : Nat} (hc : Careful s (.removeEvent id)) :
    Good (s.removeEvent id) := by
  obtain ⟨hi, hr⟩ := hc
  unfold St.removeEvent
  cases he : s.event? id with
  | none => exact h
  | some e =>
    dsimp only
    by_cases hcur : s.current = some id
    · rw [if_pos hcur]
      have hmap : (s.events.map (fun e => if e.id = id then { e with rep := 0 } else e)).map (·.id) =
          s.events.map (·.id) := by
        rw [List.map_map]
        apply List.map_congr_left
        intro e _
        simp only [Function.comp]
        split <;> rfl
      refine ⟨h.toInv.mono rfl rfl ?_ ?_ ?_ h.busy ?_, h.one⟩
      · rintro ep (⟨e', he', rfl⟩ | g)
        · obtain ⟨e'', h1, rfl⟩ := List.mem_map.1 he'
          refine h.held _ (.inl ⟨e'', h1, ?_⟩)
          split <;> rfl
        · exact h.held _ (.inr g)
      · rw [hmap]; exact h.ids
      · intro e' he'
        obtain ⟨e'', h1, rfl⟩ := List.mem_map.1 he'
        have := h.bound e'' h1
        split <;> exact this
      · intro i hi'
        rw [hmap]
        exact h.known i hi'
    · rw [if_neg hcur]
      refine ⟨h.toInv.mono rfl rfl ?_ ?_ ?_ h.busy ?_, h.one⟩
      · rintro ep (⟨e', he', rfl⟩ | g)
        · exact h.held _ (.inl ⟨e', (List.mem_filter.1 he').1, rfl⟩)
        · exact h.held _ (.inr g)
      · exact h.ids.sublist (List.Sublist.map _ List.filter_sublist)
      · exact fun e' he' => h.bound e' (List.mem_filter.1 he').1
      · intro i hi'
        obtain ⟨e', h1, rfl⟩ := List.mem_map.1 (h.known i hi')
        refine List.mem_map.2 ⟨e', List.mem_filter.2 ⟨h1, ?_⟩, rfl⟩
        simp only [bne_iff_ne, ne_eq]
        rintro hid
        have hi2 : id ∈ s.imm ++ s.busy := hid ▸ hi'
        rcases List.mem_append.1 hi2 with g | g
        · exact hi g
        · obtain ⟨f, hf, hk, ep, hfc⟩ := current_mem g hr
          exact hcur (current_of_mem h.one hf hk hfc)

theorem subscribe_ok {s : St} (h : Good s) {evt ep : Nat} (hl : s.live ep = true) :
    ∃ s', s.subscribe evt ep = some s' ∧ Good s' := by
  unfold St.subscribe
  rw [if_pos hl]
  split
  · exact ⟨s, rfl, h⟩
  · refine ⟨_, rfl, h.toInv.mono rfl rfl ?_ h.ids h.bound h.busy h.known, h.one⟩
    rintro ep' (g | ⟨evt', g⟩ | g)
    · exact h.held _ (.inl g)
    · rcases List.mem_append.1 g with g1 | g1
      · exact h.held _ (.inr (.inl ⟨evt', g1⟩))
      · simp only [List.mem_singleton, Prod.mk.injEq] at g1
        rw [g1.2]
        exact hl
    · exact h.held _ (.inr (.inr g))

theorem unsubscribe_ok {s : St} (h : Good s) {evt ep : Nat} (hl : s.live ep = true) :
    ∃ s', s.unsubscribe evt ep = some s' ∧ Good s' := by
  unfold St.unsubscribe
  rw [if_pos hl]
  refine ⟨_, rfl, h.toInv.mono rfl rfl ?_ h.ids h.bound h.busy h.known, h.one⟩
  rintro ep' (g | ⟨evt', g⟩ | g)
  · exact h.held _ (.inl g)
  · exact h.held _ (.inr (.inl ⟨evt', List.mem_of_mem_erase g⟩))
  · exact h.held _ (.inr (.inr g))

theorem addInit_inv {s : St} (h : Good s) {ep : Nat} (hl : s.live ep = true) :
    Good (s.addInit ep) := by
  refine ⟨h.toInv.mono rfl rfl ?_ h.ids h.bound h.busy h.known, h.one⟩
  rintro ep' (g | g | g | g)
  · exact h.held _ (.inl g)
  · exact h.held _ (.inr (.inl g))
  · rcases List.mem_append.1 g with g1 | g1
    · exact h.held _ (.inr (.inr (.inl g1)))
    · simp only [List.mem_singleton] at g1
      rw [g1]
      exact hl
  · exact h.held _ (.inr (.inr (.inr g)))

theorem slot_inv {s : St} (h : Good s) (ids : List Nat) : Good (s.slot ids) := by
  unfold St.slot
  split
  · rename_i hc
    obtain ⟨h1, h2, h3⟩ := hc
    have hb : ({ s with stack := ⟨.table, none, ids⟩ :: s.stack } : St).busy = ids ++ s.busy := by
      unfold St.busy
      rw [List.flatMap_cons]
      rfl
    refine ⟨h.toInv.mono rfl rfl ?_ h.ids h.bound ?_ ?_, ?_⟩
    · rintro ep (g | g | g | ⟨f, hf, g⟩)
      · exact h.held _ (.inl g)
      · exact h.held _ (.inr (.inl g))
      · exact h.held _ (.inr (.inr (.inl g)))
      · rcases List.mem_cons.1 hf with hf1 | hf1
        · subst hf1
          rcases g with ⟨x, g⟩ | ⟨g | g, _⟩ <;> cases g
        · exact h.held _ (.inr (.inr (.inr ⟨f, hf1, g⟩)))
    · rw [hb]
      have hn := h.busy
      rw [List.nodup_append] at hn
      rw [List.nodup_append, List.nodup_append]
      refine ⟨hn.1, ⟨h2, hn.2.1, ?_⟩, ?_⟩
      · rintro a ha b hb' rfl
        exact (h3 a ha).2.2 hb'
      · rintro a ha b hb' rfl
        rcases List.mem_append.1 hb' with g | g
        · exact (h3 a g).2.1 ha
        · exact hn.2.2 a ha a g rfl
    · intro i hi
      rw [hb] at hi
      rcases List.mem_append.1 hi with g | g
      · exact h.known i (List.mem_append_left _ g)
      · rcases List.mem_append.1 g with g1 | g1
        · exact (h3 i g1).1
        · exact h.known i (List.mem_append_right _ g1)
    · refine List.pairwise_cons.2 ⟨?_, h.one⟩
      rintro f _ ⟨⟨_, g⟩, _⟩
      cases g
  · exact h

theorem immediates_inv {s : St} (h : Good s) : Good s.immediates := by
  unfold St.immediates
  split
  · have hb : ({ s with imm := [], stack := ⟨.immediate, none, s.imm⟩ :: s.stack } : St).busy =
        s.imm ++ s.busy := by
      unfold St.busy
      rw [List.flatMap_cons]
      rfl
    refine ⟨h.toInv.mono rfl rfl ?_ h.ids h.bound ?_ ?_, ?_⟩
    · rintro ep (g | g | g | ⟨f, hf, g⟩)
      · exact h.held _ (.inl g)
      · exact h.held _ (.inr (.inl g))
      · exact h.held _ (.inr (.inr (.inl g)))
      · rcases List.mem_cons.1 hf with hf1 | hf1
        · subst hf1
          rcases g with ⟨x, g⟩ | ⟨g | g, _⟩ <;> cases g
        · exact h.held _ (.inr (.inr (.inr ⟨f, hf1, g⟩)))
    · rw [hb]; exact h.busy
    · intro i hi
      rw [hb] at hi
      exact h.known i hi
    · refine List.pairwise_cons.2 ⟨?_, h.one⟩
      rintro f _ ⟨⟨_, g⟩, _⟩
      cases g
  · exact h

theorem push_inv {s : St} (h : Good s) {k : Kind} (hk : k.sched = false) (l : List Nat)
    (hl : ∀ ep ∈ l, s.live ep = true) (init : List Nat) (hi : ∀ ep ∈ init, ep ∈ s.init) :
    Good { s with init := init, stack := ⟨k, none, l⟩ :: s.stack } := by
  have hb : ({ s with init := init, stack := ⟨k, none, l⟩ :: s.stack } : St).busy = s.busy := by
    unfold St.busy
    rw [List.flatMap_cons]
    simp [Frame.ids, hk]
  refine ⟨h.toInv.mono rfl rfl ?_ h.ids h.bound (by rw [hb]; exact h.busy)
    (by rw [hb]; exact h.known), ?_⟩
  · rintro ep (g | g | g | ⟨f, hf, g⟩)
    · exact h.held _ (.inl g)
    · exact h.held _ (.inr (.inl g))
    · exact h.held _ (.inr (.inr (.inl (hi ep g))))
    · rcases List.mem_cons.1 hf with hf1 | hf1
      · subst hf1
        rcases g with ⟨x, g⟩ | ⟨_, g⟩
        · cases g
        · exact hl ep g
      · exact h.held _ (.inr (.inr (.inr ⟨f, hf1, g⟩)))
  · refine List.pairwise_cons.2 ⟨?_, h.one⟩
    rintro f _ ⟨⟨_, g⟩, _⟩
    cases g

theorem emit_inv {s : St} (h : Good s) (evt : Nat) : Good (s.emit evt) := by
  refine push_inv h rfl _ ?_ s.init (fun _ g => g)
  intro ep hep
  obtain ⟨⟨a, b⟩, hm, rfl⟩ := List.mem_map.1 hep
  exact h.held _ (.inr (.inl ⟨a, (List.mem_filter.1 hm).1⟩))

theorem initialise_inv {s : St} (h : Good s) : Good s.initialise :=
  push_inv h rfl _ (fun ep hep => h.held _ (.inr (.inr (.inl hep)))) [] (fun _ g => nomatch g)

/-- The innermost loop is replaced by another one. -/
theorem swap_inv {s : St} (h : Good s) {f : Frame} {fs : List Frame} (hs : s.stack = f :: fs)
    (g : Frame) (hg : g.kind = f.kind) (hids : g.ids = f.ids)
    (hcur : ∀ x ep, g.cur = some (x, ep) → s.live ep = true)
    (hrest : ∀ ep ∈ g.rest, ep ∈ f.rest)
    (hone : g.kind.sched = true → g.cur.isSome = true → ∀ f' ∈ fs, f'.kind.sched = true →
      f'.cur = none) :
    Good { s with stack := g :: fs } := by
  have hb : ({ s with stack := g :: fs } : St).busy = s.busy := by
    unfold St.busy
    rw [hs]
    simp only [List.flatMap_cons, hids]
  refine ⟨h.toInv.mono rfl rfl ?_ h.ids h.bound (by rw [hb]; exact h.busy)
    (by rw [hb]; exact h.known), ?_⟩
  · rintro ep (k | k | k | ⟨f', hf, k⟩)
    · exact h.held _ (.inl k)
    · exact h.held _ (.inr (.inl k))
    · exact h.held _ (.inr (.inr (.inl k)))
    · rcases List.mem_cons.1 hf with hf1 | hf1
      · subst hf1
        rcases k with ⟨x, k⟩ | ⟨k1, k2⟩
        · exact hcur x ep k
        · refine h.held _ (.inr (.inr (.inr ⟨f, by rw [hs]; exact List.mem_cons_self, .inr ⟨?_, ?_⟩⟩)))
          · rw [← hg]; exact k1
          · exact hrest ep k2
      · exact h.held _ (.inr (.inr (.inr ⟨f', by rw [hs]; exact List.mem_cons_of_mem _ hf1, k⟩)))
  · have ho := h.one
    rw [hs, OneCur, List.pairwise_cons] at ho
    refine List.pairwise_cons.2 ⟨?_, ho.2⟩
    rintro f' hf' ⟨⟨g1, g2⟩, g3, g4⟩
    rw [hone g1 g2 f' hf' g3] at g4
    cases g4

/-- The innermost loop ends. -/
theorem pop_inv {s : St} (h : Good s) {f : Frame} {fs : List Frame} (hs : s.stack = f :: fs) :
    Good { s with stack := fs } := by
  have hb : s.busy = f.ids ++ ({ s with stack := fs } : St).busy := by
    unfold St.busy
    rw [hs, List.flatMap_cons]
  refine ⟨h.toInv.mono rfl rfl ?_ h.ids h.bound ?_ ?_, ?_⟩
  · rintro ep (k | k | k | ⟨f', hf, k⟩)
    · exact h.held _ (.inl k)
    · exact h.held _ (.inr (.inl k))
    · exact h.held _ (.inr (.inr (.inl k)))
    · exact h.held _ (.inr (.inr (.inr ⟨f', by rw [hs]; exact List.mem_cons_of_mem _ hf, k⟩)))
  · have hn := h.busy
    rw [hb] at hn
    exact hn.sublist (List.Sublist.append_left (List.sublist_append_right _ _) _)
  · intro i hi
    refine h.known i ?_
    rw [hb]
    rcases List.mem_append.1 hi with g | g
    · exact List.mem_append_left _ g
    · exact List.mem_append_right _ (List.mem_append_right _ g)
  · have ho := h.one
    rw [hs, OneCur, List.pairwise_cons] at ho
    exact ho.2

/-- When an entry point is about to be called by a loop of the scheduler, no other one of the
scheduler is being executed further out: such a loop is begun only then. -/
structure Nest (s : St) : Prop extends Good s where
  nest : s.stack.Pairwise (fun f g => f.kind.sched = true → g.kind.sched = true → g.cur = none)

theorem nest_tail {f : Frame} {fs : List Frame}
    (h : (f :: fs).Pairwise (fun f g => f.kind.sched = true → g.kind.sched = true → g.cur = none)) :
    fs.Pairwise (fun f g => f.kind.sched = true → g.kind.sched = true → g.cur = none) :=
  (List.pairwise_cons.1 h).2

theorem next_ok {s : St} (h : Nest s) : ∃ s', s.next = some s' ∧ Nest s' := by
  unfold St.next
  cases hs : s.stack with
  | nil => exact ⟨s, rfl, h⟩
  | cons f fs =>
    have hn := h.nest
    rw [hs] at hn
    obtain ⟨k, cur, rest⟩ := f
    cases cur with
    | some p => exact ⟨s, rfl, h⟩
    | none =>
      cases rest with
      | nil => exact ⟨_, rfl, pop_inv h.toGood hs, nest_tail hn⟩
      | cons x r =>
        dsimp only
        by_cases hk : k.sched = true
        · rw [if_pos hk]
          have hx : x ∈ s.imm ++ s.busy := by
            refine List.mem_append_right _ ?_
            unfold St.busy
            rw [hs, List.flatMap_cons]
            refine List.mem_append_left _ ?_
            simp [Frame.ids, hk]
          obtain ⟨e, he⟩ := event_known (h.known x hx)
          rw [he]
          dsimp only
          have hl := h.held e.ep (.inl ⟨e, (event_some he).1, rfl⟩)
          rw [if_pos hl]
          refine ⟨_, rfl, swap_inv h.toGood hs ⟨k, some (x, e.ep), r⟩ rfl ?_ ?_ ?_ ?_, ?_⟩
          · simp [Frame.ids, hk]
          · intro y ep hy
            cases hy
            exact hl
          · exact fun ep hep => List.mem_cons_of_mem _ hep
          · intro _ _ f' hf' hk'
            exact (List.pairwise_cons.1 hn).1 f' hf' hk hk'
          · exact List.pairwise_cons.2 (List.pairwise_cons.1 hn)
        · rw [if_neg hk]
          have hl : s.live x = true := by
            refine h.held x (.inr (.inr (.inr ⟨_, by rw [hs]; exact List.mem_cons_self, .inr
              ⟨?_, List.mem_cons_self⟩⟩)))
            cases k <;> simp_all [Kind.sched]
          rw [if_pos hl]
          refine ⟨_, rfl, swap_inv h.toGood hs ⟨k, some (x, x), r⟩ rfl ?_ ?_ ?_ ?_, ?_⟩
          · simp [Frame.ids, hk]
          · intro y ep hy
            cases hy
            exact hl
          · exact fun ep hep => List.mem_cons_of_mem _ hep
          · intro hk' _
            exact absurd hk' hk
          · exact List.pairwise_cons.2 ⟨fun f' _ hk' => absurd hk' hk, nest_tail hn⟩

theorem finish_mem {id : Nat} {es : List Ev} {e : Ev} (h : e ∈ finish id es) :
    ∃ e' ∈ es, e'.id = e.id ∧ e'.ep = e.ep := by
  unfold finish at h
  obtain ⟨e', h1, h2⟩ := List.mem_filterMap.1 h
  refine ⟨e', h1, ?_⟩
  split at h2
  · split at h2
    · cases h2
    · split at h2 <;> cases h2 <;> exact ⟨rfl, rfl⟩
  · cases h2; exact ⟨rfl, rfl⟩

theorem finish_ids {id : Nat} (es : List Ev) :
    List.Sublist ((finish id es).map (·.id)) (es.map (·.id)) := by
  unfold finish
  induction es with
  | nil => exact List.Sublist.slnil
  | cons e es ih =>
    simp only [List.filterMap_cons, List.map_cons]
    split
    · exact ih.cons _
    · rename_i e' he'
      have : e'.id = e.id := by
        split at he'
        · split at he'
          · cases he'
          · split at he' <;> cases he' <;> rfl
        · cases he'; rfl
      rw [List.map_cons, this]
      exact ih.cons_cons _

theorem finish_other {id : Nat} {es : List Ev} {i : Nat} (hi : i ∈ es.map (·.id)) (hne : i ≠ id) :
    i ∈ (finish id es).map (·.id) := by
  obtain ⟨e, he, rfl⟩ := List.mem_map.1 hi
  refine List.mem_map.2 ⟨e, ?_, rfl⟩
  unfold finish
  refine List.mem_filterMap.2 ⟨e, he, ?_⟩
  rw [if_neg hne]

theorem ret_ok {s : St} (h : Nest s) : ∃ s', s.ret = some s' ∧ Nest s' := by
  unfold St.ret
  cases hs : s.stack with
  | nil => exact ⟨s, rfl, h⟩
  | cons f fs =>
    have hn := h.nest
    rw [hs] at hn
    obtain ⟨k, cur, rest⟩ := f
    cases cur with
    | none => exact ⟨s, rfl, h⟩
    | some p =>
      obtain ⟨x, ep⟩ := p
      dsimp only
      have hl : s.live ep = true :=
        h.held ep (.inr (.inr (.inr ⟨_, by rw [hs]; exact List.mem_cons_self, .inl ⟨x, rfl⟩⟩)))
      rw [if_pos hl]
      refine ⟨_, rfl, ⟨?_, ?_⟩, ?_⟩
      · have hb : s.busy = (if k.sched then x :: rest else []) ++ fs.flatMap Frame.ids := by
          unfold St.busy
          rw [hs, List.flatMap_cons]
          by_cases hk : k.sched = true <;> simp [Frame.ids, hk]
        have hn' := h.busy
        rw [hb] at hn'
        have hheld : ∀ (es : List Ev), (∀ e ∈ es, ∃ e' ∈ s.events, e'.ep = e.ep) → ∀ ep',
            Held { s with events := es, stack := ⟨k, none, rest⟩ :: fs } ep' →
              s.live ep' = true := by
          rintro es hes ep' (⟨e, he, rfl⟩ | g | g | ⟨f', hf, g⟩)
          · obtain ⟨e', h1, h2⟩ := hes e he
            exact h.held _ (.inl ⟨e', h1, h2⟩)
          · exact h.held _ (.inr (.inl g))
          · exact h.held _ (.inr (.inr (.inl g)))
          · rcases List.mem_cons.1 hf with hf1 | hf1
            · subst hf1
              rcases g with ⟨y, g⟩ | g
              · cases g
              · exact h.held _ (.inr (.inr (.inr ⟨⟨k, some (x, ep), rest⟩,
                  by rw [hs]; exact List.mem_cons_self, .inr g⟩)))
            · exact h.held _ (.inr (.inr (.inr ⟨f', by rw [hs]; exact List.mem_cons_of_mem _ hf1, g⟩)))
        by_cases hk : k.sched = true
        · simp only [hk, if_true] at hn' hb ⊢
          have hb2 : ({ s with events := finish x s.events, stack := ⟨k, none, rest⟩ :: fs } :
              St).busy = rest ++ fs.flatMap Frame.ids := by
            unfold St.busy
            rw [List.flatMap_cons]
            simp [Frame.ids, hk]
          have hn2 : (s.imm ++ (x :: (rest ++ fs.flatMap Frame.ids))).Nodup := by
            simpa using hn'
          have hx : x ∉ s.imm ∧ x ∉ rest ++ fs.flatMap Frame.ids := by
            rw [List.nodup_append, List.nodup_cons] at hn2
            exact ⟨fun hx => hn2.2.2 x hx x List.mem_cons_self rfl, hn2.2.1.1⟩
          refine h.toInv.mono rfl rfl (hheld _ ?_) ?_ ?_ ?_ ?_
          · intro e he
            obtain ⟨e', h1, _, h2⟩ := finish_mem he
            exact ⟨e', h1, h2⟩
          · exact h.ids.sublist (finish_ids _)
          · intro e he
            obtain ⟨e', h1, h2, _⟩ := finish_mem he
            have := h.bound e' h1
            show e.id ≤ s.last
            omega
          · rw [hb2]
            exact hn2.sublist (List.Sublist.append_left (List.sublist_cons_self _ _) _)
          · intro i hi
            rw [hb2] at hi
            have hi2 : i ∈ s.imm ++ s.busy := by
              rw [hb]
              rcases List.mem_append.1 hi with g | g
              · exact List.mem_append_left _ g
              · exact List.mem_append_right _ (List.mem_cons_of_mem _ g)
            refine finish_other (h.known i hi2) ?_
            rintro rfl
            rcases List.mem_append.1 hi with g | g
            · exact hx.1 g
            · exact hx.2 g
        · have hb2 : ({ s with events := s.events, stack := ⟨k, none, rest⟩ :: fs } :
              St).busy = s.busy := by
            rw [hb]
            unfold St.busy
            rw [List.flatMap_cons]
            simp [Frame.ids, hk]
          rw [if_neg hk]
          refine h.toInv.mono rfl rfl (hheld s.events (fun e he => ⟨e, he, rfl⟩)) h.ids h.bound ?_ ?_
          · rw [hb2]; exact h.busy
          · rw [hb2]; exact h.known
      · have ho := h.one
        rw [hs, OneCur, List.pairwise_cons] at ho
        refine List.pairwise_cons.2 ⟨?_, ho.2⟩
        rintro f' _ ⟨⟨_, g⟩, _⟩
        cases g
      · exact List.pairwise_cons.2 (List.pairwise_cons.1 hn)

theorem hold_inv {s : St} (h : Nest s) : Nest s.hold := by
  unfold St.hold
  split
  · rename_i hs
    exact ⟨pop_inv h.toGood hs, nest_tail (hs ▸ h.nest)⟩
  · rename_i r fs hs
    have hb : s.busy = r ++ fs.flatMap Frame.ids := by
      unfold St.busy
      rw [hs, List.flatMap_cons]
      rfl
    refine ⟨⟨h.toInv.mono rfl rfl ?_ h.ids h.bound ?_ ?_, ?_⟩, nest_tail (hs ▸ h.nest)⟩
    · exact (pop_inv h.toGood hs).held
    · show ((r ++ s.imm) ++ fs.flatMap Frame.ids).Nodup
      have hn := h.busy
      rw [hb, ← List.append_assoc] at hn
      rw [List.nodup_append] at hn ⊢
      refine ⟨?_, hn.2.1, fun a ha => hn.2.2 a ?_⟩
      · have h1 := List.nodup_append.1 hn.1
        exact List.nodup_append.2 ⟨h1.2.1, h1.1, fun a ha b hb hab => h1.2.2 b hb a ha hab.symm⟩
      simp only [List.mem_append] at ha ⊢
      exact ha.symm
    · intro i hi
      refine h.known i ?_
      rw [hb]
      have hi2 : i ∈ (r ++ s.imm) ++ fs.flatMap Frame.ids := hi
      simp only [List.mem_append] at hi2 ⊢
      rcases hi2 with (g | g) | g
      · exact .inr (.inl g)
      · exact .inl g
      · exact .inr (.inr g)
    · exact (pop_inv h.toGood hs).one
  · exact h

theorem store_ok {s : St} (h : Inv s) : s.store = some s := by
  unfold St.store
  rw [if_pos]
  simp only [Bool.and_eq_true, List.all_eq_true]
  exact ⟨fun e he => h.held _ (.inl ⟨e, he, rfl⟩),
    fun p hp => h.held _ (.inr (.inl ⟨p.1, hp⟩))⟩

theorem nest_push {s : St} (h : Nest s) (f : Frame)
    (hf : f.kind.sched = true → ∀ g ∈ s.stack, g.kind.sched = true → g.cur = none) :
    (f :: s.stack).Pairwise (fun f g => f.kind.sched = true → g.kind.sched = true → g.cur = none) :=
  List.pairwise_cons.2 ⟨fun g hg hk => hf hk g hg, h.nest⟩

theorem step_ok {s : St} (h : Nest s) {op : Op} (hc : Careful s op) :
    ∃ s', s.step op = some s' ∧ Nest s' := by
  cases op with
  | create c eps =>
    refine ⟨_, rfl, ⟨create_inv h.toInv c eps, ?_⟩, ?_⟩
    · unfold St.create; split <;> exact h.one
    · unfold St.create; split <;> exact h.nest
  | delete c =>
    obtain ⟨s', h1, h2⟩ := delete_ok h.toInv hc
    have hs : s'.stack = s.stack := by
      unfold St.delete at h1
      split at h1
      · cases h1; rfl
      · cases h1
    exact ⟨s', h1, ⟨h2, hs ▸ h.one⟩, hs ▸ h.nest⟩
  | post ep rep =>
    refine ⟨_, ?_, ⟨post_inv h.toInv hc rep, h.one⟩, h.nest⟩
    show s.post ep rep = _
    unfold St.post
    rw [if_pos (show s.live ep = true from hc)]
  | postImmediate ep => exact ⟨_, rfl, ⟨postImmediate_inv h.toInv hc, h.one⟩, h.nest⟩
  | removeEvent id =>
    refine ⟨_, rfl, removeEvent_inv h.toGood hc, ?_⟩
    have : (s.removeEvent id).stack = s.stack := by
      unfold St.removeEvent
      split
      · rfl
      · split <;> rfl
    rw [this]
    exact h.nest
  | subscribe evt ep =>
    obtain ⟨s', h1, h2⟩ := subscribe_ok h.toGood (evt := evt) hc
    refine ⟨s', h1, h2, ?_⟩
    unfold St.subscribe at h1
    split at h1
    · split at h1 <;> cases h1 <;> exact h.nest
    · cases h1
  | unsubscribe evt ep =>
    obtain ⟨s', h1, h2⟩ := unsubscribe_ok h.toGood (evt := evt) hc
    refine ⟨s', h1, h2, ?_⟩
    unfold St.unsubscribe at h1
    split at h1
    · cases h1; exact h.nest
    · cases h1
  | addInit ep => exact ⟨_, rfl, addInit_inv h.toGood hc, h.nest⟩
  | slot ids =>
    refine ⟨_, rfl, slot_inv h.toGood ids, ?_⟩
    unfold St.slot
    split
    · rename_i hh
      exact nest_push h _ (fun _ g hg hk => current_none hh.1 hg hk)
    · exact h.nest
  | immediates =>
    refine ⟨_, rfl, immediates_inv h.toGood, ?_⟩
    unfold St.immediates
    split
    · rename_i hh
      exact nest_push h _ (fun _ g hg hk => current_none hh hg hk)
    · exact h.nest
  | emit evt => exact ⟨_, rfl, emit_inv h.toGood evt, nest_push h _ (fun hk => nomatch hk)⟩
  | initialise => exact ⟨_, rfl, initialise_inv h.toGood, nest_push h _ (fun hk => nomatch hk)⟩
  | next => exact next_ok h
  | ret => exact ret_ok h
  | hold => exact ⟨_, rfl, hold_inv h⟩
  | store => exact ⟨s, store_ok h.toInv, h⟩

theorem reach_nest {s : St} (h : Reach s) : Nest s := by
  induction h with
  | start => exact ⟨⟨start_inv, .nil⟩, .nil⟩
  | step _ hc hs ih =>
    obtain ⟨s', h1, h2⟩ := step_ok ih hc
    rw [hs] at h1
    cases h1
    exact h2

end Verif.Sim.Holders
