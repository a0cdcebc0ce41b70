import Verif.Tree.Gone

/-! Property C108: nothing refers to a component that was removed. -/
namespace Verif.Tree.Gone

/-! ### Specification -/

/-- The component `s` holds a pointer to the component `c`, to one of its sinks or inputs. -/
def Points (w : World) (s c : Id) : Prop :=
  (∃ l ∈ (w.hold s).refs, c ∈ l) ∨ (∃ l ∈ (w.hold s).sources, ∃ p ∈ l, p.1 = c) ∨
    ∃ l ∈ (w.hold s).outs, ∃ p ∈ l, p.1 = c

/-- A component that exists holds a pointer to one that does not. -/
def Dangling (w : World) : Prop := ∃ s c, w.live s = true ∧ w.live c = false ∧ Points w s c

/-- The components in the subtree of `x`, those made last first. -/
def World.subtree (w : World) (x : Id) : List Id :=
  (w.comps.filter fun c => x.isPrefixOf c).reverse

/-- What a careful program does: it registers each link it makes; before it deletes a component, it
has the links to it and to all components below removed, from the bottom up, and the links of those
components forgotten. -/
inductive Act
  | create (c : Id) (refs sources outs : Nat)
  | refer (s : Id) (k : Nat) (t : Id)
  | subscribe (s : Id) (k : Nat) (p : Part)
  | connect (s : Id) (k : Nat) (p : Part)
  | remove (x : Id)

/-- The calls of an action. -/
def Act.calls (w : World) : Act → List Call
  | .create c r s o => [.create c r s o]
  | .refer s k t => [.refer s k t, .addLink s t]
  | .subscribe s k p => [.subscribe s k p, .addLink s p.1]
  | .connect s k p => [.connect s k p, .addLink s p.1]
  | .remove x => (w.subtree x).map .removeLinks ++ (w.subtree x).map .dropLinks ++ [.delete x]

/-- The action is about components that exist; a component is new, and its parent exists; an output
is not connected to two inputs of the same component. -/
def Act.Fine (w : World) : Act → Prop
  | .create c _ _ _ => c ≠ [] ∧ w.live c = false ∧ (c.dropLast = [] ∨ w.live c.dropLast = true)
  | .refer s _ t => w.live s = true ∧ w.live t = true
  | .subscribe s _ p => w.live s = true ∧ w.live p.1 = true
  | .connect s k p => w.live s = true ∧ w.live p.1 = true ∧
      ∀ l, (w.hold s).outs[k]? = some l → ∀ q ∈ l, q.1 ≠ p.1
  | .remove x => w.live x = true

/-- The worlds a careful program can get to. -/
inductive Reach : World → Prop
  | start : Reach World.empty
  | act {w w' : World} (a : Act) : Reach w → a.Fine w → Gone.calls w (a.calls w) = some w' → Reach w'

/-! ### Lemmas -/

theorem live_iff {w : World} {c : Id} : w.live c = true ↔ c ∈ w.comps := by
  simp [World.live]

/-- Everything that is true between two actions. -/
structure Inv (w : World) : Prop where
  root : [] ∉ w.comps
  closed : ∀ c ∈ w.comps, ∀ p, p <+: c → p ≠ [] → p ∈ w.comps
  order : w.comps.Pairwise fun a b => ¬ b <+: a
  alive : ∀ q ∈ w.links, q.2 ∈ w.comps
  held : ∀ s ∈ w.comps, ∀ c, Points w s c → c ∈ w.comps ∧ (c, s) ∈ w.links
  single : ∀ s ∈ w.comps, ∀ l ∈ (w.hold s).outs, (l.map Prod.fst).Nodup

theorem turn_sub (t : Id) (l : List Part) (i : Nat) : (turn t l i).Sublist l := by
  unfold turn
  split
  · exact List.Sublist.refl _
  · split
    · exact List.erase_sublist
    · exact List.Sublist.refl _

theorem turns_sub (t : Id) (is : List Nat) : ∀ l : List Part, (is.foldl (turn t) l).Sublist l := by
  induction is with
  | nil => intro l; exact List.Sublist.refl _
  | cons i is ih => intro l; exact (ih _).trans (turn_sub t l i)

theorem sweep_sub (t : Id) (l : List Part) : (sweep t l).Sublist l := turns_sub t _ l

theorem turns_keep (t : Id) (is : List Nat) {p : Part} (hp : ¬ t <+: p.1) :
    ∀ l : List Part, p ∈ l → p ∈ is.foldl (turn t) l := by
  induction is with
  | nil => intro l h; exact h
  | cons i is ih =>
    intro l h
    refine ih _ ?_
    unfold turn
    split
    · exact h
    · split
      · rename_i q _ hq
        refine (List.mem_erase_of_ne ?_).2 h
        rintro rfl
        exact hp (List.isPrefixOf_iff_prefix.1 hq)
      · exact h

/-- Turns on a list without elements below `t` change nothing. -/
theorem turns_none (t : Id) (is : List Nat) (l : List Part) (h : ∀ p ∈ l, ¬ t <+: p.1) :
    is.foldl (turn t) l = l := by
  induction is with
  | nil => rfl
  | cons i is ih =>
    rw [List.foldl_cons]
    have : turn t l i = l := by
      unfold turn
      split
      · rfl
      · rename_i p hp
        rw [if_neg]
        intro hh
        exact h p (List.mem_of_getElem? hp) (List.isPrefixOf_iff_prefix.1 hh)
    rw [this]; exact ih

/-- A single element below `t` is removed. -/
theorem sweep_one (t : Id) (l : List Part) (h1 : ∀ p ∈ l, t <+: p.1 → p.1 = t)
    (h2 : (l.map Prod.fst).Nodup) : ∀ p ∈ sweep t l, p.1 ≠ t := by
  by_cases hex : ∃ p ∈ l, p.1 = t
  · obtain ⟨p, hp, hpt⟩ := hex
    obtain ⟨i, hi, he⟩ := List.getElem_of_mem hp
    have hsplit : List.range l.length = List.range i ++ i :: (List.range' (i + 1) (l.length - i - 1)) := by
      have : List.range l.length = List.range' 0 (i + (1 + (l.length - i - 1))) := by
        rw [List.range_eq_range']; congr 1; omega
      rw [this, ← List.range'_append_1, List.range_eq_range', ← List.range'_append_1]
      simp [List.range'_succ]
    have huniq : ∀ q ∈ l, q.1 = t → q = p := by
      intro q hq hqt
      obtain ⟨j, hj, hje⟩ := List.getElem_of_mem hq
      have : i = j := by
        rcases Nat.lt_trichotomy i j with hlt | rfl | hlt
        · have := (List.pairwise_iff_getElem.1 h2) i j (by simpa using hi) (by simpa using hj) hlt
          simp [he, hje, hpt, hqt] at this
        · rfl
        · have := (List.pairwise_iff_getElem.1 h2) j i (by simpa using hj) (by simpa using hi) hlt
          simp [he, hje, hpt, hqt] at this
      subst this
      rw [← hje, he]
    have hfix : ∀ is : List Nat, (∀ j ∈ is, j < i) → is.foldl (turn t) l = l := by
      intro is
      induction is with
      | nil => intro _; rfl
      | cons j is ih =>
        intro hj
        rw [List.foldl_cons]
        have hji := hj j List.mem_cons_self
        have : turn t l j = l := by
          unfold turn
          rw [List.getElem?_eq_getElem (by omega)]
          dsimp only
          rw [if_neg]
          intro hh
          have h4 := h1 _ (List.getElem_mem (by omega)) (List.isPrefixOf_iff_prefix.1 hh)
          have := (List.pairwise_iff_getElem.1 h2) j i (by simp; omega) (by simpa using hi) hji
          simp [he, hpt, h4] at this
        rw [this]
        exact ih fun k hk => hj k (List.mem_cons_of_mem _ hk)
    have hat : turn t l i = l.erase p := by
      unfold turn
      rw [List.getElem?_eq_getElem hi, he]
      dsimp only
      rw [if_pos (List.isPrefixOf_iff_prefix.2 (by rw [hpt]; exact List.prefix_refl _))]
    have hno : ∀ q ∈ l.erase p, q.1 ≠ t := by
      intro q hq hqt
      have hql := List.mem_of_mem_erase hq
      have := huniq q hql hqt
      subst this
      have hnd : l.Nodup := by
        refine List.Pairwise.imp ?_ (List.pairwise_map.1 h2)
        intro a b hab e
        exact hab (by rw [e])
      exact (List.Nodup.mem_erase_iff hnd).1 hq |>.1 rfl
    unfold sweep
    rw [hsplit, List.foldl_append, List.foldl_cons, hfix _ (by simp), hat,
      turns_none t _ _ (fun q hq hh => hno q hq (h1 q (List.mem_of_mem_erase hq) hh))]
    exact hno
  · intro p hp hpt
    exact hex ⟨p, (sweep_sub t l).subset hp, hpt⟩

/-- The second world has the components and links of the first, and holds no more pointers; it has
lost only such to components below `x`. -/
structure Less (x : Id) (w v : World) : Prop where
  comps : v.comps = w.comps
  links : v.links = w.links
  points : ∀ s c, Points v s c → Points w s c
  kept : ∀ s c, ¬ x <+: c → Points w s c → Points v s c
  outs : ∀ s, ∀ l ∈ (v.hold s).outs, ∃ l' ∈ (w.hold s).outs, l.Sublist l'

theorem Less.refl (x : Id) (w : World) : Less x w w :=
  ⟨rfl, rfl, fun _ _ h => h, fun _ _ _ h => h, fun _ l h => ⟨l, h, List.Sublist.refl _⟩⟩

theorem Less.trans {x : Id} {w v u : World} (h : Less x w v) (h' : Less x v u) : Less x w u := by
  refine ⟨h'.comps.trans h.comps, h'.links.trans h.links,
    fun s c hp => h.points s c (h'.points s c hp),
    fun s c hc hp => h'.kept s c hc (h.kept s c hc hp), fun s l hl => ?_⟩
  obtain ⟨l', h1, h2⟩ := h'.outs s l hl
  obtain ⟨l'', h3, h4⟩ := h.outs s l' h1
  exact ⟨l'', h3, h2.trans h4⟩

theorem Less.inv {x : Id} {w v : World} (h : Less x w v) (hi : Inv w) : Inv v := by
  obtain ⟨a, b, c, d, e, f⟩ := hi
  refine ⟨?_, ?_, ?_, ?_, ?_, ?_⟩ <;> simp only [h.comps, h.links] <;> try assumption
  · exact fun s hs x hp => e s hs x (h.points s x hp)
  · intro s hs l hl
    obtain ⟨l', h1, h2⟩ := h.outs s l hl
    exact List.Pairwise.sublist (h2.map _) (f s hs l' h1)

theorem ask_spec {x : Id} {w : World} (hi : Inv w) {s t : Id} (hx : x <+: t) (hs : s ∈ w.comps) (ht : t ∈ w.comps)
    (hlow : ∀ c, t <+: c → c ≠ t → ¬ Points w s c) :
    ∃ v, ask t w s = some v ∧ Less x w v ∧ ¬ Points v s t ∧ ∀ r, r ≠ s → v.hold r = w.hold r := by
  have hread : (w.hold s).readable w = true := by
    unfold Holder.readable
    simp only [Bool.and_eq_true, List.all_eq_true]
    refine ⟨fun l hl p hp => live_iff.2 (hi.held s hs p.1 (.inr (.inl ⟨l, hl, p, hp, rfl⟩))).1,
      fun l hl p hp => live_iff.2 (hi.held s hs p.1 (.inr (.inr ⟨l, hl, p, hp, rfl⟩))).1⟩
  refine ⟨w.put s ((w.hold s).removeLinks t), ?_, ?_, ?_, ?_⟩
  · unfold ask
    rw [if_pos (by simp [live_iff.2 hs, live_iff.2 ht, hread])]
  · refine ⟨rfl, rfl, fun r c hp => ?_, fun r c hc hp => ?_, fun r l hl => ?_⟩
    · by_cases hr : r = s
      · subst hr
        simp only [Points, World.put, if_true, Holder.removeLinks, List.mem_map] at hp
        rcases hp with ⟨l, ⟨l', hl', rfl⟩, hc⟩ | ⟨l, ⟨l', hl', rfl⟩, p, hp, hc⟩ |
          ⟨l, ⟨l', hl', rfl⟩, p, hp, hc⟩
        · exact .inl ⟨l', hl', (List.mem_filter.1 hc).1⟩
        · exact .inr (.inl ⟨l', hl', p, (List.mem_filter.1 hp).1, hc⟩)
        · exact .inr (.inr ⟨l', hl', p, (sweep_sub t l').subset hp, hc⟩)
      · simpa only [Points, World.put, if_neg hr] using hp
    · by_cases hr : r = s
      · subst hr
        have hct : c ≠ t := fun e => hc (e ▸ hx)
        simp only [Points, World.put, if_true, Holder.removeLinks, List.mem_map]
        rcases hp with ⟨l, hl, hcl⟩ | ⟨l, hl, p, hp, rfl⟩ | ⟨l, hl, p, hp, rfl⟩
        · exact .inl ⟨_, ⟨l, hl, rfl⟩, List.mem_filter.2 ⟨hcl, by simpa using hct⟩⟩
        · exact .inr (.inl ⟨_, ⟨l, hl, rfl⟩, p, List.mem_filter.2 ⟨hp, by simpa using hct⟩, rfl⟩)
        · exact .inr (.inr ⟨_, ⟨l, hl, rfl⟩, p,
            turns_keep t _ (fun h => hc (hx.trans h)) l hp, rfl⟩)
      · simpa only [Points, World.put, if_neg hr] using hp
    · by_cases hr : r = s
      · subst hr
        simp only [World.put, if_true, Holder.removeLinks, List.mem_map] at hl
        obtain ⟨l', hl', rfl⟩ := hl
        exact ⟨l', hl', sweep_sub t l'⟩
      · simp only [World.put, if_neg hr] at hl
        exact ⟨l, hl, List.Sublist.refl _⟩
  · intro hp
    simp only [Points, World.put, if_true, Holder.removeLinks, List.mem_map] at hp
    rcases hp with ⟨l, ⟨l', hl', rfl⟩, hc⟩ | ⟨l, ⟨l', hl', rfl⟩, p, hp, hc⟩ |
      ⟨l, ⟨l', hl', rfl⟩, p, hp, hc⟩
    · simp at hc
    · simp [hc] at hp
    · refine sweep_one t l' (fun q hq hh => ?_) (hi.single s hs l' hl') p hp hc
      exact Classical.byContradiction fun hne =>
        hlow q.1 hh hne (.inr (.inr ⟨l', hl', q, hq, rfl⟩))
  · intro r hr
    simp [World.put, hr]

theorem asks_spec {x t : Id} (hx : x <+: t) (ss : List Id) : ∀ {w : World}, Inv w → (∀ s ∈ ss, s ∈ w.comps) →
    t ∈ w.comps → (∀ s ∈ w.comps, ∀ c, t <+: c → c ≠ t → ¬ Points w s c) →
    ∃ v, ss.foldlM (ask t) w = some v ∧ Less x w v ∧ ∀ s ∈ ss, ¬ Points v s t := by
  induction ss with
  | nil => intro w _ _ _ _; exact ⟨w, rfl, Less.refl x w, by simp⟩
  | cons s ss ih =>
    intro w hi hss ht hlow
    have hs := hss s List.mem_cons_self
    obtain ⟨v, h1, h2, h3, _⟩ := ask_spec hi hx hs ht (hlow s hs)
    obtain ⟨u, h5, h6, h7⟩ := ih (h2.inv hi)
      (fun r hr => by rw [h2.comps]; exact hss r (List.mem_cons_of_mem _ hr))
      (by rw [h2.comps]; exact ht)
      (fun r hr c hc hne hp => hlow r (by rw [← h2.comps]; exact hr) c hc hne (h2.points r c hp))
    refine ⟨u, ?_, h2.trans h6, fun r hr => ?_⟩
    · rw [List.foldlM_cons, h1]
      exact h5
    · rcases List.mem_cons.1 hr with rfl | hr
      · exact fun hp => h3 (h6.points r t hp)
      · exact h7 r hr

theorem removeLinks_spec {x : Id} {w : World} {t : Id} (hx : x <+: t) (hi : Inv w) (ht : t ∈ w.comps)
    (hlow : ∀ s ∈ w.comps, ∀ c, t <+: c → c ≠ t → ¬ Points w s c) :
    ∃ v, call w (.removeLinks t) = some v ∧ Less x w v ∧ ∀ s ∈ w.comps, ¬ Points v s t := by
  obtain ⟨v, h1, h2, h3⟩ := asks_spec hx (w.sourcesOf t) hi (by
    intro s hs
    simp only [World.sourcesOf, List.mem_map, List.mem_filter] at hs
    obtain ⟨q, ⟨hq, _⟩, rfl⟩ := hs
    exact hi.alive q hq) ht hlow
  refine ⟨v, h1, h2, fun s hs hp => ?_⟩
  refine h3 s ?_ hp
  simp only [World.sourcesOf, List.mem_map, List.mem_filter]
  exact ⟨(t, s), ⟨(hi.held s hs t (h2.points s t hp)).2, by simp⟩, rfl⟩

/-- The links to the components of a list removed, each after those below it. -/
theorem removeAll_spec {x : Id} (cs : List Id) : ∀ {w : World} (done : List Id), Inv w →
    (∀ c ∈ cs, c ∈ w.comps ∧ x <+: c) →
    (∀ s ∈ w.comps, ∀ c ∈ done, ¬ Points w s c) →
    cs.Pairwise (fun a b => ¬ a <+: b) →
    (∀ c ∈ cs, ∀ d ∈ w.comps, c <+: d → d ∈ done ∨ d ∈ cs) →
    ∃ v, calls w (cs.map .removeLinks) = some v ∧ Less x w v ∧
      ∀ s ∈ w.comps, ∀ c, c ∈ done ∨ c ∈ cs → ¬ Points v s c := by
  induction cs with
  | nil => intro w done _ _ hd _ _; exact ⟨w, rfl, Less.refl x w, fun s hs c hc => hd s hs c (by simpa using hc)⟩
  | cons t cs ih =>
    intro w done hi hcs hd hord hcov
    obtain ⟨v, h1, h2, h3⟩ := removeLinks_spec (hcs t List.mem_cons_self).2 hi
      (hcs t List.mem_cons_self).1 (by
      intro s hs c hc hne hp
      have hcw := (hi.held s hs c hp).1
      rcases hcov t List.mem_cons_self c hcw hc with h | h
      · exact hd s hs c h hp
      · rcases List.mem_cons.1 h with h | h
        · exact hne h
        · exact (List.pairwise_cons.1 hord).1 c h hc)
    obtain ⟨u, h4, h5, h6⟩ := ih (w := v) (t :: done) (h2.inv hi)
      (fun c hc => by rw [h2.comps]; exact hcs c (List.mem_cons_of_mem _ hc))
      (fun s hs c hc hp => by
        rw [h2.comps] at hs
        rcases List.mem_cons.1 hc with rfl | hc
        · exact h3 s hs hp
        · exact hd s hs c hc (h2.points s c hp))
      (List.pairwise_cons.1 hord).2
      (fun c hc d hdw hcd => by
        rw [h2.comps] at hdw
        rcases hcov c (List.mem_cons_of_mem _ hc) d hdw hcd with h | h
        · exact .inl (List.mem_cons_of_mem _ h)
        · rcases List.mem_cons.1 h with rfl | h
          · exact .inl List.mem_cons_self
          · exact .inr h)
    refine ⟨u, ?_, h2.trans h5, fun s hs c hc => ?_⟩
    · unfold calls
      rw [List.map_cons, List.foldlM_cons, h1]
      exact h4
    · refine h6 s (by rw [h2.comps]; exact hs) c ?_
      rcases hc with h | h
      · exact .inl (List.mem_cons_of_mem _ h)
      · rcases List.mem_cons.1 h with rfl | h
        · exact .inl List.mem_cons_self
        · exact .inr h

theorem drops_spec (cs : List Id) : ∀ w : World, calls w (cs.map .dropLinks) =
    some { w with links := w.links.filter fun p => p.2 ∉ cs } := by
  induction cs with
  | nil =>
    intro w
    have e : (w.links.filter fun p => p.2 ∉ ([] : List Id)) = w.links :=
      List.filter_eq_self.2 (by simp)
    rw [e]; rfl
  | cons c cs ih =>
    intro w
    have := ih { w with links := w.links.filter fun p => p.2 ≠ c }
    unfold calls at this ⊢
    rw [List.map_cons, List.foldlM_cons]
    refine Eq.trans this ?_
    simp only [List.filter_filter]
    congr 2
    apply List.filter_congr
    intro p _
    simp [Bool.and_comm]

theorem calls_append (w : World) (as bs : List Call) :
    calls w (as ++ bs) = (calls w as).bind fun v => calls v bs := by
  unfold calls
  rw [List.foldlM_append]
  rfl

theorem subtree_mem {w : World} {x c : Id} : c ∈ w.subtree x ↔ c ∈ w.comps ∧ x <+: c := by
  simp [World.subtree, List.isPrefixOf_iff_prefix]

theorem remove_spec {w : World} (hi : Inv w) {x : Id} (hx : x ∈ w.comps) :
    ∃ v, calls w ((Act.remove x).calls w) = some v ∧ Inv v ∧
      v.comps = (w.comps.filter fun c => !x.isPrefixOf c) ∧
      ∀ s ∈ v.comps, ∀ c, Points v s c ↔ Points w s c ∧ ¬ x <+: c := by
  obtain ⟨v, h1, h2, h3⟩ := removeAll_spec (x := x) (w.subtree x) [] hi
    (fun c hc => subtree_mem.1 hc) (by simp)
    (by
      unfold World.subtree
      rw [List.pairwise_reverse]
      exact List.Pairwise.sublist List.filter_sublist hi.order)
    (fun c hc d hd hcd => .inr (subtree_mem.2 ⟨hd, (subtree_mem.1 hc).2.trans hcd⟩))
  have hxv : v.live x = true := live_iff.2 (by rw [h2.comps]; exact hx)
  let u : World := { v with
    links := v.links.filter fun p => p.2 ∉ w.subtree x
    comps := v.comps.filter fun c => !x.isPrefixOf c }
  have hmem : ∀ c, c ∈ u.comps ↔ c ∈ w.comps ∧ ¬ x <+: c := by
    intro c
    simp [u, h2.comps, ← List.isPrefixOf_iff_prefix]
  have hpts : ∀ s ∈ u.comps, ∀ c, Points u s c ↔ Points w s c ∧ ¬ x <+: c := by
    intro s hs c
    have hs' := ((hmem s).1 hs).1
    constructor
    · intro hp
      have hp' : Points v s c := hp
      have hpw := h2.points s c hp'
      refine ⟨hpw, fun hc => ?_⟩
      exact h3 s hs' c (.inr (subtree_mem.2 ⟨(hi.held s hs' c hpw).1, hc⟩)) hp'
    · rintro ⟨hp, hc⟩
      exact h2.kept s c hc hp
  refine ⟨u, ?_, ?_, by simp [u, h2.comps], hpts⟩
  · show calls w (_ ++ _ ++ _) = _
    rw [calls_append, calls_append, h1, Option.bind_some, drops_spec, Option.bind_some]
    unfold calls
    simp only [List.foldlM_cons, List.foldlM_nil, call]
    rw [if_pos (by exact hxv)]
    rfl
  · refine ⟨fun h => hi.root ((hmem _).1 h).1, ?_, ?_, ?_, ?_, ?_⟩
    · intro c hc p hpc hne
      have := (hmem c).1 hc
      exact (hmem p).2 ⟨hi.closed c this.1 p hpc hne, fun h => this.2 (h.trans hpc)⟩
    · have : u.comps = w.comps.filter fun c => !x.isPrefixOf c := by simp [u, h2.comps]
      rw [this]
      exact List.Pairwise.sublist List.filter_sublist hi.order
    · intro q hq
      have hq' : q ∈ v.links ∧ q.2 ∉ w.subtree x := by simpa [u] using hq
      rw [h2.links] at hq'
      have hl := hi.alive q hq'.1
      exact (hmem _).2 ⟨hl, fun h => hq'.2 (subtree_mem.2 ⟨hl, h⟩)⟩
    · intro s hs c hp
      have hpw := (hpts s hs c).1 hp
      have hs' := (hmem s).1 hs
      have hh := hi.held s hs'.1 c hpw.1
      refine ⟨(hmem c).2 ⟨hh.1, hpw.2⟩, ?_⟩
      simp only [u, List.mem_filter, h2.links]
      refine ⟨hh.2, ?_⟩
      simp only [decide_eq_true_eq]
      exact fun h => hs'.2 (subtree_mem.1 h).2
    · intro s hs l hl
      exact (h2.inv hi).single s (by rw [h2.comps]; exact ((hmem s).1 hs).1) l hl

theorem mem_modify {α : Type} {f : α → α} {b : α} : ∀ {l : List α} {k : Nat}, b ∈ l.modify k f →
    b ∈ l ∨ ∃ a, l[k]? = some a ∧ b = f a := by
  intro l
  induction l with
  | nil => intro k h; simp at h
  | cons a l ih =>
    intro k h
    cases k with
    | zero =>
      rw [List.modify_zero_cons] at h
      rcases List.mem_cons.1 h with rfl | h
      · exact .inr ⟨a, rfl, rfl⟩
      · exact .inl (List.mem_cons_of_mem _ h)
    | succ k =>
      rw [List.modify_succ_cons] at h
      rcases List.mem_cons.1 h with rfl | h
      · exact .inl List.mem_cons_self
      · rcases ih h with h | ⟨c, h1, h2⟩
        · exact .inl (List.mem_cons_of_mem _ h)
        · exact .inr ⟨c, h1, h2⟩

theorem addLink_inv {w : World} (v : World) (hi : Inv w) {s t : Id} (hs : s ∈ w.comps)
    (ht : t ∈ w.comps) (hc : v.comps = w.comps) (hl : v.links = w.links)
    (hp : ∀ r ∈ w.comps, ∀ c, Points v r c → Points w r c ∨ (r = s ∧ c = t))
    (ho : ∀ r ∈ w.comps, ∀ l ∈ (v.hold r).outs, (l.map Prod.fst).Nodup) :
    ∃ u, call v (.addLink s t) = some u ∧ Inv u := by
  refine ⟨_, rfl, ?_⟩
  generalize hu : (if v.links.contains (t, s) then v else { v with links := v.links ++ [(t, s)] }) = u
  have h1 : u.comps = w.comps := by rw [← hu]; split <;> exact hc
  have h2 : u.hold = v.hold := by rw [← hu]; split <;> rfl
  have h3 : ∀ q, q ∈ u.links ↔ q ∈ w.links ∨ q = (t, s) := by
    intro q
    rw [← hu]
    split
    · rename_i h
      rw [hl] at h ⊢
      refine ⟨.inl, fun hq => hq.elim id ?_⟩
      rintro rfl
      simpa using h
    · simp [hl]
  have h4 : ∀ r c, Points u r c ↔ Points v r c := fun r c => by unfold Points; rw [h2]
  refine ⟨by rw [h1]; exact hi.root, by rw [h1]; exact hi.closed, by rw [h1]; exact hi.order,
    fun q hq => ?_, fun r hr c hpc => ?_, fun r hr l hl => ?_⟩
  · rw [h1]
    rcases (h3 q).1 hq with h | rfl
    · exact hi.alive q h
    · exact hs
  · rw [h1] at hr ⊢
    rw [h3]
    rcases hp r hr c ((h4 r c).1 hpc) with h | ⟨rfl, rfl⟩
    · exact ⟨(hi.held r hr c h).1, .inl (hi.held r hr c h).2⟩
    · exact ⟨ht, .inr rfl⟩
  · rw [h1] at hr
    rw [h2] at hl
    exact ho r hr l hl

theorem two_calls {w v u : World} {a b : Call} (h1 : call w a = some v) (h2 : call v b = some u) :
    calls w [a, b] = some u := by
  unfold calls
  rw [List.foldlM_cons, h1]
  show List.foldlM call v [b] = some u
  rw [List.foldlM_cons, h2]
  rfl

theorem put_points {w : World} {s r c : Id} {h : Holder} (hp : Points (w.put s h) r c)
    (hr : r ≠ s) : Points w r c := by
  simpa only [Points, World.put, if_neg hr] using hp

theorem act_spec {w : World} (hi : Inv w) (a : Act) (hf : a.Fine w) :
    ∃ v, calls w (a.calls w) = some v ∧ Inv v := by
  cases a with
  | remove x =>
    obtain ⟨v, h1, h2, _⟩ := remove_spec hi (live_iff.1 hf)
    exact ⟨v, h1, h2⟩
  | create c r s o =>
    obtain ⟨hne, hc, hpar⟩ := hf
    have hcw : c ∉ w.comps := fun h => by rw [live_iff.2 h] at hc; cases hc
    refine ⟨{ (w.put c ⟨List.replicate r [], List.replicate s [], List.replicate o []⟩) with
      comps := w.comps ++ [c] }, ?_, ?_⟩
    · show calls w [_] = _
      unfold calls
      rw [List.foldlM_cons, call, if_neg]
      · rfl
      · rw [hc]
        rcases hpar with h | h
        · simp [h]
        · simp [h]
    · have hsub : ∀ p, p <+: c → p ≠ [] → p ≠ c → p ∈ w.comps := by
        intro p hp hpn hpc
        obtain ⟨q, hq⟩ := hp
        have hqn : q ≠ [] := by rintro rfl; exact hpc (by simpa using hq)
        have hd : p <+: c.dropLast := by
          rw [← hq, List.dropLast_append_of_ne_nil hqn]
          exact List.prefix_append _ _
        rcases hpar with h | h
        · rw [h, List.prefix_nil] at hd
          exact absurd hd hpn
        · exact hi.closed _ (live_iff.1 h) p hd hpn
      refine ⟨?_, ?_, ?_, ?_, ?_, ?_⟩
      · simp only [List.mem_append, List.mem_singleton, not_or]
        exact ⟨hi.root, fun h => hne h.symm⟩
      · intro d hd p hp hpn
        simp only [List.mem_append, List.mem_singleton] at hd ⊢
        rcases hd with hd | rfl
        · exact .inl (hi.closed d hd p hp hpn)
        · by_cases e : p = d
          · exact .inr e
          · exact .inl (hsub p hp hpn e)
      · refine List.pairwise_append.2 ⟨hi.order, List.pairwise_singleton _ _, ?_⟩
        intro a ha b hb
        rw [List.mem_singleton.1 hb]
        exact fun h => hcw (hi.closed a ha c h hne)
      · intro q hq
        exact List.mem_append_left _ (hi.alive q hq)
      · intro d hd e hp
        simp only [List.mem_append, List.mem_singleton] at hd ⊢
        by_cases hdc : d = c
        · subst hdc
          simp only [Points, World.put, if_true] at hp
          rcases hp with ⟨l, hl, h⟩ | ⟨l, hl, p, h, _⟩ | ⟨l, hl, p, h, _⟩ <;>
            rw [(List.mem_replicate.1 hl).2] at h <;> cases h
        · have hd' : d ∈ w.comps := hd.resolve_right hdc
          have := hi.held d hd' e (put_points hp hdc)
          exact ⟨.inl this.1, this.2⟩
      · intro d hd l hl
        simp only [List.mem_append, List.mem_singleton] at hd
        by_cases hdc : d = c
        · subst hdc
          simp only [World.put, if_true] at hl
          rw [(List.mem_replicate.1 hl).2]
          simp
        · simp only [World.put, if_neg hdc] at hl
          exact hi.single d (hd.resolve_right hdc) l hl
  | refer s k t =>
    obtain ⟨hs, ht⟩ := hf
    obtain ⟨u, h1, h2⟩ := addLink_inv
      (w.put s { w.hold s with refs := (w.hold s).refs.modify k (· ++ [t]) }) hi (s := s) (t := t)
      (live_iff.1 hs) (live_iff.1 ht) rfl rfl
      (fun r _ c hp => by
        by_cases hr : r = s
        · subst hr
          simp only [Points, World.put, if_true] at hp
          rcases hp with ⟨l, hl, hc⟩ | hp
          · rcases mem_modify hl with h | ⟨a, h, rfl⟩
            · exact .inl (.inl ⟨l, h, hc⟩)
            · rcases List.mem_append.1 hc with hc | hc
              · exact .inl (.inl ⟨a, List.mem_of_getElem? h, hc⟩)
              · exact .inr ⟨rfl, List.mem_singleton.1 hc⟩
          · exact .inl (.inr hp)
        · exact .inl (put_points hp hr))
      (fun r hr l hl => by
        by_cases hrs : r = s
        · subst hrs
          simp only [World.put, if_true] at hl
          exact hi.single r hr l hl
        · simp only [World.put, if_neg hrs] at hl
          exact hi.single r hr l hl)
    exact ⟨u, two_calls (by simp only [call]; rw [if_pos (by simp [hs, ht])]) h1, h2⟩
  | subscribe s k q =>
    obtain ⟨hs, ht⟩ := hf
    obtain ⟨u, h1, h2⟩ := addLink_inv
      (w.put s { w.hold s with sources := (w.hold s).sources.modify k (· ++ [q]) }) hi (s := s)
      (t := q.1) (live_iff.1 hs) (live_iff.1 ht) rfl rfl
      (fun r _ c hp => by
        by_cases hr : r = s
        · subst hr
          simp only [Points, World.put, if_true] at hp
          rcases hp with hp | ⟨l, hl, p, hpl, hc⟩ | hp
          · exact .inl (.inl hp)
          · rcases mem_modify hl with h | ⟨a, h, rfl⟩
            · exact .inl (.inr (.inl ⟨l, h, p, hpl, hc⟩))
            · rcases List.mem_append.1 hpl with hpl | hpl
              · exact .inl (.inr (.inl ⟨a, List.mem_of_getElem? h, p, hpl, hc⟩))
              · rw [List.mem_singleton.1 hpl] at hc
                exact .inr ⟨rfl, hc.symm⟩
          · exact .inl (.inr (.inr hp))
        · exact .inl (put_points hp hr))
      (fun r hr l hl => by
        by_cases hrs : r = s
        · subst hrs
          simp only [World.put, if_true] at hl
          exact hi.single r hr l hl
        · simp only [World.put, if_neg hrs] at hl
          exact hi.single r hr l hl)
    exact ⟨u, two_calls (by simp only [call]; rw [if_pos (by simp [hs, ht])]) h1, h2⟩
  | connect s k q =>
    obtain ⟨hs, ht, hnew⟩ := hf
    obtain ⟨u, h1, h2⟩ := addLink_inv
      (w.put s { w.hold s with outs := (w.hold s).outs.modify k (· ++ [q]) }) hi (s := s)
      (t := q.1) (live_iff.1 hs) (live_iff.1 ht) rfl rfl
      (fun r _ c hp => by
        by_cases hr : r = s
        · subst hr
          simp only [Points, World.put, if_true] at hp
          rcases hp with hp | hp | ⟨l, hl, p, hpl, hc⟩
          · exact .inl (.inl hp)
          · exact .inl (.inr (.inl hp))
          · rcases mem_modify hl with h | ⟨a, h, rfl⟩
            · exact .inl (.inr (.inr ⟨l, h, p, hpl, hc⟩))
            · rcases List.mem_append.1 hpl with hpl | hpl
              · exact .inl (.inr (.inr ⟨a, List.mem_of_getElem? h, p, hpl, hc⟩))
              · rw [List.mem_singleton.1 hpl] at hc
                exact .inr ⟨rfl, hc.symm⟩
        · exact .inl (put_points hp hr))
      (fun r hr l hl => by
        by_cases hrs : r = s
        · subst hrs
          simp only [World.put, if_true] at hl
          rcases mem_modify hl with h | ⟨a, h, rfl⟩
          · exact hi.single r hr l h
          · rw [List.map_append]
            refine List.nodup_append.2 ⟨hi.single r hr a (List.mem_of_getElem? h), by simp, ?_⟩
            intro x hx y hy
            obtain ⟨p, hpa, rfl⟩ := List.mem_map.1 hx
            simp only [List.map_cons, List.map_nil, List.mem_singleton] at hy
            rw [hy]
            exact hnew a h p hpa
        · simp only [World.put, if_neg hrs] at hl
          exact hi.single r hr l hl)
    exact ⟨u, two_calls (by simp only [call]; rw [if_pos (by simp [hs, ht])]) h1, h2⟩

theorem reach_inv {w : World} (h : Reach w) : Inv w := by
  induction h with
  | start => exact ⟨by simp [World.empty], by simp [World.empty], by simp [World.empty],
      by simp [World.empty], by simp [World.empty], by simp [World.empty]⟩
  | act a _ hf hc ih =>
    obtain ⟨v, h1, h2⟩ := act_spec ih a hf
    rw [h1] at hc
    cases hc
    exact h2

/-! ### C108 -/

/-- C108, partial. A careful program never uses a component that does not exist. (The care taken is
more than what is documented: see `Act.calls`, and the theorems below.) -/
theorem C108_safe_partial {w : World} (h : Reach w) (a : Act) (hf : a.Fine w) :
    ∃ v, calls w (a.calls w) = some v := by
  obtain ⟨v, h1, _⟩ := act_spec (reach_inv h) a hf
  exact ⟨v, h1⟩

/-- C108, partial. Nothing in a component refers to a component that was removed. -/
theorem C108_dangling_partial {w : World} (h : Reach w) : ¬ Dangling w := by
  rintro ⟨s, c, hs, hc, hp⟩
  have := ((reach_inv h).held s (live_iff.1 hs) c hp).1
  rw [live_iff.2 this] at hc
  cases hc

/-- C108, partial. Removing a component removes it and those below, and the pointers to them; every
other component and pointer stays. -/
theorem C108_removed_partial {w v : World} (h : Reach w) (x : Id) (hx : w.live x = true)
    (hv : calls w ((Act.remove x).calls w) = some v) :
    (∀ c, v.live c = true ↔ w.live c = true ∧ ¬ x <+: c) ∧
    ∀ s c, v.live s = true → (Points v s c ↔ Points w s c ∧ ¬ x <+: c) := by
  obtain ⟨u, h1, _, h2, h3⟩ := remove_spec (reach_inv h) (live_iff.1 hx)
  rw [h1] at hv
  cases hv
  refine ⟨fun c => ?_, fun s c hs => h3 s (live_iff.1 hs) c⟩
  rw [live_iff, live_iff, h2]
  simp [← List.isPrefixOf_iff_prefix]

/-- A reachable world with pointers of the three kinds into a composite, and one that stays. -/
example : ∃ w, Reach w ∧ Points w [2] [1] ∧ Points w [2] [1, 0] ∧ Points w [2] [3] ∧
    ∃ v, calls w ((Act.remove [1]).calls w) = some v ∧ Points v [2] [3] := by
  have r1 := Reach.start.act (.create [1] 0 0 0) ⟨by decide, by decide, by decide⟩ rfl
  have r2 := r1.act (.create [1, 0] 0 0 0) ⟨by decide, by decide, by decide⟩ rfl
  have r3 := r2.act (.create [2] 1 1 1) ⟨by decide, by decide, by decide⟩ rfl
  have r4 := r3.act (.create [3] 0 0 0) ⟨by decide, by decide, by decide⟩ rfl
  have r5 := r4.act (.refer [2] 0 [1]) ⟨rfl, rfl⟩ rfl
  have r6 := r5.act (.subscribe [2] 0 ([1, 0], 4)) ⟨rfl, rfl⟩ rfl
  have r7 := r6.act (.refer [2] 0 [3]) ⟨rfl, rfl⟩ rfl
  refine ⟨_, r7, .inl ⟨[[1], [3]], List.mem_cons_self, List.mem_cons_self⟩,
    .inr (.inl ⟨[([1, 0], 4)], List.mem_cons_self, _, List.mem_cons_self, rfl⟩),
    .inl ⟨[[1], [3]], List.mem_cons_self, by decide⟩, _, rfl,
    .inl ⟨[[3]], List.mem_cons_self, List.mem_cons_self⟩⟩

/-! ### The documented way -/

/-- A composite 1 with a component in it, and an observer 2. -/
def demoCalls : List Call := [.create [1] 0 0 0, .create [1, 0] 0 0 0, .create [2] 1 1 1]

/-- C108 fails: after `RemoveLinks` of a composite, an event source still has the sink of a
component in it; the composite is deleted, and the next `RemoveLinks` of the observer reads the sink
that does not exist. -/
theorem C108_nested_fails : ∃ w, calls World.empty (demoCalls ++ [.subscribe [2] 0 ([1, 0], 0),
      .addLink [2] [1, 0], .addLink [2] [1], .removeLinks [1], .delete [1]]) = some w ∧ Dangling w ∧
    ask [2] w [2] = none :=
  ⟨_, rfl, ⟨[2], [1, 0], rfl, rfl, .inr (.inl ⟨[([1, 0], 0)], by decide, _, List.mem_singleton_self _, rfl⟩)⟩, rfl⟩

/-- C108 fails: the second of two inputs of a component stays connected. -/
theorem C108_fields_fails : ∃ w, calls World.empty (demoCalls ++ [.connect [2] 0 ([1], 0),
      .addLink [2] [1], .connect [2] 0 ([1], 1), .addLink [2] [1], .removeLinks [1, 0],
      .removeLinks [1], .delete [1]]) = some w ∧ Dangling w :=
  ⟨_, rfl, [2], [1], rfl, rfl, .inr (.inr ⟨[([1], 1)], by decide, _, List.mem_singleton_self _, rfl⟩)⟩

/-- C108 fails: a component that was a source of links is deleted after `RemoveLinks` of itself; its
links stay in the registry, and `RemoveLinks` of the target calls the deleted component. -/
theorem C108_source_fails : ∃ w, calls World.empty (demoCalls ++ [.refer [2] 0 [1],
      .addLink [2] [1], .removeLinks [2], .delete [2]]) = some w ∧
    call w (.removeLinks [1]) = none :=
  ⟨_, rfl, rfl⟩

/-- C108 fails: the links to a component that was removed stay in the registry: a new component at
the same address has sources, though nothing refers to it. -/
theorem C108_stale_fails : ∃ w v, calls World.empty (demoCalls ++ [.refer [2] 0 [1],
      .addLink [2] [1]]) = some w ∧ Reach w ∧
    calls w ((Act.remove [1]).calls w ++ [.create [1] 0 0 0]) = some v ∧ Reach v ∧
    v.sourcesOf [1] = [[2]] ∧ ¬ Points v [2] [1] := by
  have r1 := Reach.start.act (.create [1] 0 0 0) ⟨by decide, by decide, by decide⟩ rfl
  have r2 := r1.act (.create [1, 0] 0 0 0) ⟨by decide, by decide, by decide⟩ rfl
  have r3 := r2.act (.create [2] 1 1 1) ⟨by decide, by decide, by decide⟩ rfl
  have r4 := r3.act (.refer [2] 0 [1]) ⟨by decide, by decide⟩ rfl
  have r5 := r4.act (.remove [1]) rfl rfl
  have r6 := r5.act (.create [1] 0 0 0) ⟨by decide, by decide, by decide⟩ rfl
  refine ⟨_, _, rfl, r4, rfl, r6, by decide, ?_⟩
  rintro (⟨l, hl, h⟩ | ⟨l, hl, p, h, _⟩ | ⟨l, hl, p, h, _⟩)
  · have : l = [] := by
      have : l ∈ [([] : List Id)] := hl
      simpa using this
    subst this; cases h
  · have : l = [] := by
      have : l ∈ [([] : List Part)] := hl
      simpa using this
    subst this; cases h
  · have : l = [] := by
      have : l ∈ [([] : List Part)] := hl
      simpa using this
    subst this; cases h

end Verif.Tree.Gone
