import Verif.Event.Restoring

/-!
Specification and lemmas for `Restore` of the event manager.
-/
namespace Verif.Event.Restoring

/-- A call of `Restore`. -/
def Frame.restores : Frame → Bool
  | .restoring _ => true
  | .rebuilding _ => true
  | .iterating _ _ => true
  | _ => false

/-- A call of `Restore` that has replaced `_events`. -/
def Frame.late : Frame → Bool
  | .rebuilding _ => true
  | .iterating _ _ => true
  | _ => false

/-- An emission that is executing its entry points. -/
def Frame.executes : Frame → Bool
  | .running _ _ _ => true
  | _ => false

/-- While a thread is in `Restore`, the others are at most executing the entry points of an
emission: they are not within another call of the event manager. -/
def Alone (s : Sys) : Prop :=
  ∀ t u, t ≠ u → (∃ f ∈ s.stack t, f.restores = true) → ∀ g ∈ s.stack u, g.executes = true

/-- What the event manager can have stored: names and ids differ, and the ids are `1 .. n`. -/
def Stored (ev : List (String × Int)) : Prop :=
  (ev.map Prod.fst).Nodup ∧ (ev.map Prod.snd).Nodup ∧ ∀ p ∈ ev, 1 ≤ p.2 ∧ p.2 ≤ ev.length

/-- A breakpoint that is refused at once, or that is complete. -/
def Fine : Data → Prop
  | .refused => True
  | .whole ev _ => Stored ev
  | _ => False

/-- An input whose breakpoint, if it has one, is fine. -/
def FineInput : Input → Prop
  | .restore _ d => Fine d
  | _ => True

/-- An interleaving in which the others are idle during each `Restore`, and every breakpoint is
fine. -/
def Quiet (s : Sys) (l : List Input) : Prop :=
  (∀ x ∈ l, FineInput x) ∧ ∀ a b, l = a ++ b → Alone (s.run a)

/-- The manager holds the event. -/
def Has (s : Sys) (x : String) (i : Int) : Prop := ∃ r, (r, x, i) ∈ s.events

/-- Id, references and names agree: what `_ids` refers to is alive and is the name of this id, and
each event is in `_ids`, unless its `QueryEventId` has yet to register it. -/
def Settled (s : Sys) : Prop :=
  (∀ i r, s.ids.find i = some r → ∃ x, (r, x, i) ∈ s.events) ∧
  ∀ r x i, (r, x, i) ∈ s.events →
    s.ids.find i = some r ∨ ∃ t, Frame.registering x i r ∈ s.stack t

/-- The breakpoint is what the manager holds. -/
def Loaded (s : Sys) : Data → Prop
  | .whole ev su => s.events.map Prod.snd = ev ∧ ∀ i, s.subs.find i = Assoc.find i su
  | _ => False

/-- What is known of a call in progress. -/
def OkFrame (s : Sys) : Frame → Prop
  | .registering x i r => (r, x, i) ∈ s.events
  | .emitting i r => ∃ x, (r, x, i) ∈ s.events
  | .subscribing i _ r => ∃ x, (r, x, i) ∈ s.events
  | .subscribed i _ r => ∃ x, (r, x, i) ∈ s.events
  | .unsubscribing i _ r => ∃ x, (r, x, i) ∈ s.events
  | .restoring d => Fine d
  | .rebuilding d => Loaded s d
  | .iterating d rest => Loaded s d ∧ ∃ done, s.events = done ++ rest ∧
      ∀ i r, s.ids.find i = some r ↔ ∃ x, (r, x, i) ∈ done
  | _ => True

/-- The invariant. -/
structure Good (s : Sys) : Prop where
  ub : s.ub = false
  tails : ∀ t f fs, s.stack t = f :: fs → ∀ g ∈ fs, g.executes = true
  nodes : (s.events.map Prod.fst).Nodup
  old : ∀ p ∈ s.events, p.1 < s.fresh
  names : (s.events.map fun p => p.2.1).Nodup
  nums : (s.events.map fun p => p.2.2).Nodup
  bound : ∀ p ∈ s.events, 1 ≤ p.2.2 ∧ p.2.2 ≤ s.events.length
  frames : ∀ t, ∀ f ∈ s.stack t, OkFrame s f
  own : ∀ t, s.owner = some t → ∃ d rest, Frame.iterating d rest ∈ s.stack t
  own' : ∀ t d rest, Frame.iterating d rest ∈ s.stack t → s.owner = some t
  settled : (∀ t, ∀ f ∈ s.stack t, f.late = false) → Settled s

theorem late_restores {f : Frame} (h : f.late = true) : f.restores = true := by
  cases f <;> simp_all [Frame.late, Frame.restores]

theorem executes_not {f : Frame} (h : f.executes = true) : f.restores = false ∧ f.late = false := by
  cases f <;> simp_all [Frame.executes, Frame.late, Frame.restores]

theorem okFrame_executes {s : Sys} {f : Frame} (h : f.executes = true) : OkFrame s f := by
  cases f <;> simp_all [Frame.executes, OkFrame]

theorem setStack_self (s : Sys) (t : Nat) (l : List Frame) : s.setStack t l t = l := by
  simp [Sys.setStack]

theorem setStack_ne (s : Sys) {t u : Nat} (l : List Frame) (h : u ≠ t) :
    s.setStack t l u = s.stack u := by
  simp [Sys.setStack, h]

theorem userRuns_executes {st : List Frame} (h : userRuns st = true)
    (ht : ∀ f fs, st = f :: fs → ∀ g ∈ fs, g.executes = true) : ∀ g ∈ st, g.executes = true := by
  cases st with
  | nil => simp
  | cons f fs =>
    intro g hg
    rcases List.mem_cons.1 hg with e | hg
    · subst e
      cases g <;> simp_all [userRuns, Frame.executes]
    · exact ht f fs rfl g hg

/-- Frames other than `rebuilding` and `iterating` speak of `_events` only. -/
theorem okFrame_events {s s' : Sys} {f : Frame} (hl : f.late = false)
    (he : ∀ p ∈ s.events, p ∈ s'.events) (h : OkFrame s f) : OkFrame s' f := by
  cases f <;> simp only [OkFrame, Frame.late] at h hl ⊢ <;>
    first
      | trivial
      | exact he _ h
      | (obtain ⟨x, hx⟩ := h; exact ⟨x, he _ hx⟩)
      | exact h
      | cases hl

theorem okFrame_same {s s' : Sys} {f : Frame} (he : s'.events = s.events) (hi : s'.ids = s.ids)
    (hsu : s'.subs = s.subs) (h : OkFrame s f) : OkFrame s' f := by
  cases f with
  | rebuilding d =>
    simp only [OkFrame] at h ⊢
    cases d <;> simp_all [Loaded]
  | iterating d rest =>
    simp only [OkFrame] at h ⊢
    refine ⟨?_, by rw [he, hi]; exact h.2⟩
    have := h.1
    cases d <;> simp_all [Loaded]
  | _ => exact okFrame_events (by rfl) (by rw [he]; exact fun p hp => hp) h

/-- A step that changes neither `_events` nor `_ids`. -/
theorem Good.move {s s' : Sys} (h : Good s) {t : Nat} {l : List Frame}
    (he : s'.events = s.events) (hi : s'.ids = s.ids) (hf : s'.fresh = s.fresh)
    (ho : s'.owner = s.owner) (hub : s'.ub = false) (hst : s'.stack = s.setStack t l)
    (hlate : ∀ g ∈ s.stack t, g.late = false)
    (hreg : ∀ x i r, Frame.registering x i r ∉ s.stack t)
    (hl : ∀ g ∈ l, OkFrame s g) (hll : ∀ g ∈ l, g.late = false)
    (hlt : ∀ f fs, l = f :: fs → ∀ g ∈ fs, g.executes = true)
    (hsub : s'.subs = s.subs ∨ ∀ u, ∀ g ∈ s.stack u, g.late = false) : Good s' := by
  have stk : ∀ u, s'.stack u = if u = t then l else s.stack u := by
    intro u; rw [hst]; rfl
  refine { ub := hub, tails := ?_, nodes := by rw [he]; exact h.nodes,
           old := by rw [he, hf]; exact h.old, names := by rw [he]; exact h.names,
           nums := by rw [he]; exact h.nums, bound := by rw [he]; exact h.bound,
           frames := ?_, own := ?_, own' := ?_, settled := ?_ }
  · intro u f fs hu
    rw [stk] at hu
    split at hu
    · exact hlt f fs hu
    · exact h.tails u f fs hu
  · intro u f hu
    rw [stk] at hu
    split at hu
    · exact okFrame_events (hll f hu) (by rw [he]; exact fun p hp => hp) (hl f hu)
    · rcases hsub with hsub | hsub
      · exact okFrame_same he hi hsub (h.frames u f hu)
      · exact okFrame_events (hsub u f hu) (by rw [he]; exact fun p hp => hp) (h.frames u f hu)
  · intro u hu
    rw [ho] at hu
    obtain ⟨d, rest, hm⟩ := h.own u hu
    refine ⟨d, rest, ?_⟩
    rw [stk]
    split
    · rename_i e; subst e
      have := hlate _ hm
      simp [Frame.late] at this
    · exact hm
  · intro u d rest hu
    rw [stk] at hu
    rw [ho]
    split at hu
    · have := hll _ hu
      simp [Frame.late] at this
    · exact h.own' u d rest hu
  · intro hn
    have hn' : ∀ u, ∀ f ∈ s.stack u, f.late = false := by
      intro u f hu
      by_cases e : u = t
      · subst e; exact hlate f hu
      · have := hn u f
        rw [stk, if_neg e] at this
        exact this hu
    obtain ⟨a, b⟩ := h.settled hn'
    refine ⟨by rw [he, hi]; exact a, ?_⟩
    intro r x i hm
    rw [he] at hm
    rw [hi]
    rcases b r x i hm with b | ⟨u, b⟩
    · exact .inl b
    · refine .inr ⟨u, ?_⟩
      rw [stk, if_neg]
      · exact b
      · intro e; subst e; exact hreg x i r b

/-- If a thread is in a call that is not `Restore` and not executing entry points, no thread is in
`Restore`. -/
theorem Good.noRestore {s : Sys} (h : Good s) (ha : Alone s) {t : Nat} {f : Frame}
    {fs : List Frame} (hs : s.stack t = f :: fs) (h1 : f.restores = false)
    (h2 : f.executes = false) : ∀ u, ∀ g ∈ s.stack u, g.restores = false := by
  intro u g hg
  cases hr : g.restores with
  | false => rfl
  | true =>
    by_cases e : u = t
    · subst e
      rw [hs] at hg
      rcases List.mem_cons.1 hg with e | hg
      · subst e; rw [h1] at hr; cases hr
      · rw [(executes_not (h.tails u f fs hs g hg)).1] at hr; cases hr
    · have := ha u t e ⟨g, hg, hr⟩ f (by rw [hs]; simp)
      rw [h2] at this; cases this

theorem Good.noOwner {s : Sys} (h : Good s) (hn : ∀ u, ∀ g ∈ s.stack u, g.restores = false) :
    s.owner = none := by
  cases ho : s.owner with
  | none => rfl
  | some t =>
    obtain ⟨d, rest, hm⟩ := h.own t ho
    have := hn t _ hm
    simp [Frame.restores] at this

theorem noLate {s : Sys} (hn : ∀ u, ∀ g ∈ s.stack u, g.restores = false) :
    ∀ u, ∀ g ∈ s.stack u, g.late = false := by
  intro u g hg
  cases hl : g.late with
  | false => rfl
  | true => rw [← hn u g hg]; exact (late_restores hl).symm

theorem nodup_of_map {α β : Type} {f : α → β} {l : List α} (h : (l.map f).Nodup) {a b : α}
    (ha : a ∈ l) (hb : b ∈ l) (e : f a = f b) : a = b := by
  induction l with
  | nil => cases ha
  | cons c l ih =>
    rw [List.map_cons, List.nodup_cons] at h
    rcases List.mem_cons.1 ha with ha' | ha' <;> rcases List.mem_cons.1 hb with hb' | hb'
    · rw [ha', hb']
    · rw [← ha'] at h; exact absurd (List.mem_map.2 ⟨b, hb', e.symm⟩) h.1
    · rw [← hb'] at h; exact absurd (List.mem_map.2 ⟨a, ha', e⟩) h.1
    · exact ih h.2 ha' hb'

theorem nameAt_mem {r : Nat} {x : String} {i : Int} {l : List Node}
    (hn : (l.map Prod.fst).Nodup) (h : (r, x, i) ∈ l) : nameAt r l = some x := by
  induction l with
  | nil => cases h
  | cons p l ih =>
    rw [List.map_cons, List.nodup_cons] at hn
    rw [nameAt]
    rcases List.mem_cons.1 h with e | h
    · subst e; rw [if_pos rfl]
    · rw [if_neg, ih hn.2 h]
      intro e
      exact hn.1 (List.mem_map.2 ⟨_, h, e.symm⟩)

theorem findName_mem {x : String} {p : Node} {l : List Node} (h : findName x l = some p) :
    p ∈ l ∧ p.2.1 = x := by
  induction l with
  | nil => cases h
  | cons q l ih =>
    rw [findName] at h
    split at h
    · cases h; rename_i e; exact ⟨by simp, e⟩
    · exact ⟨List.mem_cons_of_mem _ (ih h).1, (ih h).2⟩

theorem findName_none {x : String} {l : List Node} (h : findName x l = none) :
    x ∉ l.map fun p => p.2.1 := by
  induction l with
  | nil => simp
  | cons q l ih =>
    rw [findName] at h
    split at h
    · cases h
    · rename_i e
      rw [List.map_cons, List.mem_cons]
      rintro (h' | h')
      · exact e h'.symm
      · exact ih h h'

theorem findName_absent {x : String} {l : List Node} (h : x ∉ l.map fun p => p.2.1) :
    findName x l = none := by
  cases hf : findName x l with
  | none => rfl
  | some p =>
    obtain ⟨a, b⟩ := findName_mem hf
    exact absurd (List.mem_map.2 ⟨p, a, b⟩) h

/-- Restoring names that differ: the keys are new. -/
theorem addAll_spec : ∀ (l : List (String × Int)) (fresh : Nat) (ev : List Node),
    (∀ p ∈ ev, p.1 < fresh) → (ev.map Prod.fst).Nodup →
    (ev.map (fun p => p.2.1) ++ l.map Prod.fst).Nodup →
    (addAll fresh ev l).1.map Prod.snd = ev.map Prod.snd ++ l ∧
    (∀ p ∈ (addAll fresh ev l).1, p.1 < (addAll fresh ev l).2) ∧
    ((addAll fresh ev l).1.map Prod.fst).Nodup
  | [], fresh, ev, ho, hn, _ => by
    simp only [addAll, List.append_nil]
    exact ⟨trivial, ho, hn⟩
  | (x, i) :: l, fresh, ev, ho, hn, hd => by
    have hx : x ∉ ev.map fun p => p.2.1 := by
      intro hm
      rw [List.nodup_append] at hd
      exact hd.2.2 x hm x (by simp) rfl
    rw [addAll, findName_absent hx]
    have := addAll_spec l (fresh + 1) (ev ++ [(fresh, x, i)]) ?_ ?_ ?_
    · simpa using this
    · intro p hp
      rcases List.mem_append.1 hp with hp | hp
      · exact Nat.lt_succ_of_lt (ho p hp)
      · rw [List.mem_singleton.1 hp]; exact Nat.lt_succ_self _
    · rw [List.map_append, List.nodup_append]
      refine ⟨hn, by simp, ?_⟩
      intro a ha b hb e
      obtain ⟨p, hp, e'⟩ := List.mem_map.1 ha
      have := ho p hp
      simp at hb
      omega
    · simpa using hd

theorem addSubs_find : ∀ (l : List (Int × List Nat)) (m : Assoc Int (List Nat)) (i : Int),
    (addSubs m l).find i = match m.find i with
      | some x => some x
      | none => Assoc.find i l
  | [], m, i => by
    rw [addSubs]
    cases m.find i <;> rfl
  | p :: l, m, i => by
    rw [addSubs, addSubs_find l, Assoc.find_tryEmplace]
    cases hm : m.find i with
    | some x => by_cases e : i = p.1 <;> simp_all
    | none =>
      by_cases e : i = p.1
      · subst e; simp [hm, Assoc.find]
      · have : ¬ p.1 = i := fun h => e h.symm
        simp_all [Assoc.find]

/-- A read of a name that is alive. -/
theorem reading_alive {s s' : Sys} (h : Good s) {r : Nat} {i : Int} {b : Bool}
    (hr : ∃ x, (r, x, i) ∈ s.events) : s.reading b r s' = s' := by
  obtain ⟨x, hx⟩ := hr
  unfold Sys.reading
  rw [nameAt_mem h.nodes hx]
  cases b <;> rfl

/-- A call returns or goes on, with no change of `_events` or `_ids`. -/
theorem Good.next {s s' : Sys} (h : Good s) (ha : Alone s) {t : Nat} {f : Frame} {fs l : List Frame}
    (hs : s.stack t = f :: fs) (h1 : f.restores = false)
    (hr : ∀ x i r, f ≠ .registering x i r)
    (hl : l = fs ∨ ∃ g, l = g :: fs ∧ OkFrame s g ∧ g.late = false)
    (he : s'.events = s.events) (hi : s'.ids = s.ids) (hf : s'.fresh = s.fresh)
    (ho : s'.owner = s.owner) (hub : s'.ub = s.ub) (hst : s'.stack = s.setStack t l)
    (hsub : s'.subs = s.subs ∨ f.executes = false) : Good s' := by
  have tl := h.tails t f fs hs
  have tl' : ∀ g ∈ fs, OkFrame s g ∧ g.late = false ∧
      ∀ x i r, g ≠ .registering x i r := by
    intro g hg
    refine ⟨okFrame_executes (tl g hg), (executes_not (tl g hg)).2, ?_⟩
    intro x i r e
    have := tl g hg
    rw [e] at this
    cases this
  refine h.move he hi hf ho (hub.trans h.ub) hst ?_ ?_ ?_ ?_ ?_ ?_
  · intro g hg
    rw [hs] at hg
    rcases List.mem_cons.1 hg with e | hg
    · subst e
      cases hl : g.late with
      | false => rfl
      | true => rw [late_restores hl] at h1; cases h1
    · exact (tl' g hg).2.1
  · intro x i r hg
    rw [hs] at hg
    rcases List.mem_cons.1 hg with e | hg
    · exact hr x i r e.symm
    · exact (tl' _ hg).2.2 x i r rfl
  · intro g hg
    rcases hl with e | ⟨g', e, e', _⟩
    · rw [e] at hg; exact (tl' g hg).1
    · rw [e] at hg
      rcases List.mem_cons.1 hg with e | hg
      · rw [e]; exact e'
      · exact (tl' g hg).1
  · intro g hg
    rcases hl with e | ⟨g', e, _, e'⟩
    · rw [e] at hg; exact (tl' g hg).2.1
    · rw [e] at hg
      rcases List.mem_cons.1 hg with e | hg
      · rw [e]; exact e'
      · exact (tl' g hg).2.1
  · intro g gs e g' hg'
    rcases hl with e' | ⟨g'', e', _⟩
    · exact tl g' (by rw [← e', e]; exact List.mem_cons_of_mem _ hg')
    · rw [e'] at e
      cases e
      exact tl g' hg'
  · rcases hsub with hsub | hsub
    · exact .inl hsub
    · exact .inr (noLate (h.noRestore ha hs h1 hsub))

/-- `QueryEventId` adds an event. -/
theorem good_query {s : Sys} (h : Good s) (ha : Alone s) {t : Nat} {x : String} {fs : List Frame}
    (hs : s.stack t = .naming (.query x) :: fs) (hx : findName x s.events = none) :
    Good { s with events := s.events ++ [(s.fresh, x, (s.events.length : Int) + 1)],
                  fresh := s.fresh + 1,
                  stack := s.setStack t
                    (.registering x ((s.events.length : Int) + 1) s.fresh :: fs) } := by
  have nr := h.noRestore ha hs rfl rfl
  have nl := noLate nr
  have tl := h.tails t _ fs hs
  have sub : ∀ p ∈ s.events, p ∈ s.events ++ [(s.fresh, x, (s.events.length : Int) + 1)] :=
    fun p hp => List.mem_append_left _ hp
  have stk : ∀ u f, f ∈ s.setStack t
      (.registering x ((s.events.length : Int) + 1) s.fresh :: fs) u →
      f ∈ s.stack u ∨ f = .registering x ((s.events.length : Int) + 1) s.fresh := by
    intro u f hf
    by_cases e : u = t
    · subst e
      rw [setStack_self] at hf
      rcases List.mem_cons.1 hf with e | hf
      · exact .inr e
      · exact .inl (by rw [hs]; exact List.mem_cons_of_mem _ hf)
    · rw [setStack_ne _ _ e] at hf; exact .inl hf
  refine { ub := h.ub, tails := ?_, nodes := ?_, old := ?_, names := ?_, nums := ?_, bound := ?_,
           frames := ?_, own := ?_, own' := ?_, settled := ?_ }
  · intro u f gs hu
    by_cases e : u = t
    · subst e
      have hu : s.setStack u _ u = _ := hu
      rw [setStack_self] at hu
      cases hu
      exact tl
    · have hu : s.setStack t _ u = _ := hu
      rw [setStack_ne _ _ e] at hu
      exact h.tails u f gs hu
  · simp only [List.map_append, List.map_cons, List.map_nil, List.nodup_append]
    refine ⟨h.nodes, by simp, ?_⟩
    intro a ha' b hb e
    obtain ⟨p, hp, e'⟩ := List.mem_map.1 ha'
    have := h.old p hp
    simp only [List.mem_singleton] at hb
    omega
  · intro p hp
    rcases List.mem_append.1 hp with hp | hp
    · exact Nat.lt_succ_of_lt (h.old p hp)
    · rw [List.mem_singleton.1 hp]; exact Nat.lt_succ_self _
  · simp only [List.map_append, List.map_cons, List.map_nil, List.nodup_append]
    refine ⟨h.names, by simp, ?_⟩
    intro a ha' b hb e
    simp only [List.mem_singleton] at hb
    rw [e, hb] at ha'
    exact findName_none hx ha'
  · simp only [List.map_append, List.map_cons, List.map_nil, List.nodup_append]
    refine ⟨h.nums, by simp, ?_⟩
    intro a ha' b hb e
    obtain ⟨p, hp, e'⟩ := List.mem_map.1 ha'
    have := (h.bound p hp).2
    simp only [List.mem_singleton] at hb
    omega
  · intro p hp
    simp only [List.length_append, List.length_cons, List.length_nil]
    rcases List.mem_append.1 hp with hp | hp
    · have := h.bound p hp
      omega
    · rw [List.mem_singleton.1 hp]
      constructor <;> simp only [] <;> omega
  · intro u f hf
    rcases stk u f hf with hf | e
    · exact okFrame_events (nl u f hf) sub (h.frames u f hf)
    · rw [e]
      simp [OkFrame]
  · intro u hu
    have hu : s.owner = some u := hu
    rw [h.noOwner nr] at hu
    cases hu
  · intro u d rest hu
    rcases stk u _ hu with hu | e
    · exact h.own' u d rest hu
    · cases e
  · intro _
    obtain ⟨a, b⟩ := h.settled nl
    constructor
    · intro i r hi
      obtain ⟨y, hy⟩ := a i r hi
      exact ⟨y, sub _ hy⟩
    · intro r y i hm
      rcases List.mem_append.1 hm with hm | hm
      · rcases b r y i hm with b | ⟨u, b⟩
        · exact .inl b
        · refine .inr ⟨u, ?_⟩
          show _ ∈ s.setStack t _ u
          by_cases e : u = t
          · subst e
            rw [hs] at b
            rcases List.mem_cons.1 b with e | b
            · cases e
            · have := tl _ b
              cases this
          · rw [setStack_ne _ _ e]; exact b
      · cases List.mem_singleton.1 hm
        refine .inr ⟨t, ?_⟩
        show _ ∈ s.setStack t _ t
        rw [setStack_self]
        simp

/-- `QueryEventId` registers an event. -/
theorem good_register {s : Sys} (h : Good s) (ha : Alone s) {t : Nat} {x : String} {i : Int}
    {r : Nat} {fs : List Frame} (hs : s.stack t = .registering x i r :: fs) (o : List Done) :
    Good { s with ids := s.ids.tryEmplace i r, stack := s.setStack t fs, log := o } := by
  have nr := h.noRestore ha hs rfl rfl
  have nl := noLate nr
  have tl := h.tails t _ fs hs
  have me : (r, x, i) ∈ s.events := h.frames t (.registering x i r) (by rw [hs]; simp)
  have stk : ∀ u f, f ∈ s.setStack t fs u → f ∈ s.stack u := by
    intro u f hf
    by_cases e : u = t
    · subst e
      rw [setStack_self] at hf
      rw [hs]; exact List.mem_cons_of_mem _ hf
    · rw [setStack_ne _ _ e] at hf; exact hf
  refine { ub := h.ub, tails := ?_, nodes := h.nodes, old := h.old, names := h.names,
           nums := h.nums, bound := h.bound, frames := ?_, own := ?_, own' := ?_, settled := ?_ }
  · intro u f gs hu
    have hu : s.setStack t fs u = _ := hu
    by_cases e : u = t
    · subst e
      rw [setStack_self] at hu
      intro g hg
      exact tl g (by rw [hu]; exact List.mem_cons_of_mem _ hg)
    · rw [setStack_ne _ _ e] at hu
      exact h.tails u f gs hu
  · intro u f hf
    exact okFrame_events (s := s) (nl u f (stk u f hf)) (fun p hp => hp) (h.frames u f (stk u f hf))
  · intro u hu
    have hu : s.owner = some u := hu
    rw [h.noOwner nr] at hu
    cases hu
  · intro u d rest hu
    exact h.own' u d rest (stk u _ hu)
  · intro _
    obtain ⟨a, b⟩ := h.settled nl
    constructor
    · intro j q hq
      have hq : (s.ids.tryEmplace i r).find j = some q := hq
      rw [Assoc.find_tryEmplace] at hq
      split at hq
      · rename_i e
        cases hq
        rw [e.1]
        exact ⟨x, me⟩
      · exact a j q hq
    · intro q y j hm
      show (s.ids.tryEmplace i r).find j = some q ∨ _
      rw [Assoc.find_tryEmplace]
      by_cases e : j = i
      · subst e
        left
        have heq : ((q, y, j) : Node) = (r, x, j) := nodup_of_map h.nums hm me rfl
        cases heq
        cases hf : s.ids.find j with
        | none => simp
        | some q' =>
          obtain ⟨y', hy'⟩ := a j q' hf
          have heq : ((q', y', j) : Node) = (r, x, j) := nodup_of_map h.nums hy' me rfl
          cases heq
          simp
      · rw [if_neg (fun hh => e hh.1)]
        rcases b q y j hm with b | ⟨u, b⟩
        · exact .inl b
        · refine .inr ⟨u, ?_⟩
          show _ ∈ s.setStack t fs u
          by_cases e' : u = t
          · subst e'
            rw [hs] at b
            rcases List.mem_cons.1 b with e' | b
            · cases e'; exact absurd rfl e
            · have := tl _ b
              cases this
          · rw [setStack_ne _ _ e']; exact b

/-- All frames but the innermost one of a thread are executing entry points. -/
def Only (s : Sys) (t : Nat) (fs : List Frame) : Prop :=
  (∀ g ∈ fs, g.executes = true) ∧ ∀ u, u ≠ t → ∀ g ∈ s.stack u, g.executes = true

theorem Good.only {s : Sys} (h : Good s) (ha : Alone s) {t : Nat} {f : Frame} {fs : List Frame}
    (hs : s.stack t = f :: fs) (hf : f.restores = true) : Only s t fs :=
  ⟨h.tails t f fs hs, fun u hu g hg =>
    ha t u (fun e => hu e.symm) ⟨f, by rw [hs]; simp, hf⟩ g hg⟩

theorem Only.tails {s : Sys} {t : Nat} {fs : List Frame} (h : Only s t fs) (f : Frame) :
    ∀ u g gs, s.setStack t (f :: fs) u = g :: gs → ∀ k ∈ gs, k.executes = true := by
  intro u g gs hu k hk
  by_cases e : u = t
  · subst e
    rw [setStack_self] at hu
    cases hu
    exact h.1 k hk
  · rw [setStack_ne _ _ e] at hu
    exact h.2 u e k (by rw [hu]; exact List.mem_cons_of_mem _ hk)

theorem Only.mem {s : Sys} {t : Nat} {fs : List Frame} (h : Only s t fs) (f : Frame) {u : Nat}
    {g : Frame} (hg : g ∈ s.setStack t (f :: fs) u) : (u = t ∧ g = f) ∨ g.executes = true := by
  by_cases e : u = t
  · subst e
    rw [setStack_self] at hg
    rcases List.mem_cons.1 hg with e | hg
    · exact .inl ⟨rfl, e⟩
    · exact .inr (h.1 g hg)
  · rw [setStack_ne _ _ e] at hg
    exact .inr (h.2 u e g hg)

theorem Only.mem' {s : Sys} {t : Nat} {fs : List Frame} (h : Only s t fs) {u : Nat}
    {g : Frame} (hg : g ∈ s.setStack t fs u) : g.executes = true := by
  by_cases e : u = t
  · subst e
    rw [setStack_self] at hg
    exact h.1 g hg
  · rw [setStack_ne _ _ e] at hg
    exact h.2 u e g hg

/-- `Restore` replaces `_events` and `_subscriptions`: whatever they were. -/
theorem good_load {s : Sys} (hub : s.ub = false) (hown : s.owner = none) {t : Nat}
    {fs : List Frame} (ho : Only s t fs) {ev : List (String × Int)} {su : List (Int × List Nat)}
    (hev : Stored ev) :
    Good { s with events := (addAll s.fresh [] ev).1,
                  fresh := (addAll s.fresh [] ev).2,
                  subs := addSubs [] su,
                  stack := s.setStack t (.rebuilding (.whole ev su) :: fs) } := by
  obtain ⟨e1, e2, e3⟩ := addAll_spec ev s.fresh [] (by simp) (by simp) (by simpa using hev.1)
  simp only [List.map_nil, List.nil_append] at e1
  have n1 : ((addAll s.fresh [] ev).1.map fun p => p.2.1) = ev.map Prod.fst := by
    conv => rhs; rw [← e1]
    rw [List.map_map]; rfl
  have n2 : ((addAll s.fresh [] ev).1.map fun p => p.2.2) = ev.map Prod.snd := by
    conv => rhs; rw [← e1]
    rw [List.map_map]; rfl
  have len : (addAll s.fresh [] ev).1.length = ev.length := by
    conv => rhs; rw [← e1]
    rw [List.length_map]
  refine { ub := hub, tails := ho.tails _, nodes := e3, old := e2, names := ?_, nums := ?_,
           bound := ?_, frames := ?_, own := ?_, own' := ?_, settled := ?_ }
  · show (List.map _ (addAll s.fresh [] ev).1).Nodup
    rw [n1]; exact hev.1
  · show (List.map _ (addAll s.fresh [] ev).1).Nodup
    rw [n2]; exact hev.2.1
  · intro p hp
    show _ ∧ _ ≤ ((addAll s.fresh [] ev).1.length : Int)
    rw [len]
    have : p.2 ∈ ev := by
      rw [← e1]; exact List.mem_map.2 ⟨p, hp, rfl⟩
    exact hev.2.2 _ this
  · intro u f hf
    rcases ho.mem _ hf with ⟨_, e⟩ | e
    · subst e
      refine ⟨e1, fun i => ?_⟩
      show (addSubs [] su).find i = _
      rw [addSubs_find]; rfl
    · exact okFrame_executes e
  · intro u hu
    have hu : s.owner = some u := hu
    rw [hown] at hu; cases hu
  · intro u d rest hu
    rcases ho.mem _ hu with ⟨_, e⟩ | e <;> cases e
  · intro hn
    have := hn t (.rebuilding (.whole ev su)) (by
      show _ ∈ s.setStack t _ t
      rw [setStack_self]; simp)
    cases this

/-- `Restore` locks and clears `_ids`. -/
theorem good_rebuild {s : Sys} (h : Good s) (ha : Alone s) {t : Nat} {d : Data} {fs : List Frame}
    (hs : s.stack t = .rebuilding d :: fs) :
    Good { s with ids := [], owner := some t,
                  stack := s.setStack t (.iterating d s.events :: fs) } := by
  have ho := h.only ha hs rfl
  have hd : Loaded s d := h.frames t (.rebuilding d) (by rw [hs]; simp)
  refine { ub := h.ub, tails := ho.tails _, nodes := h.nodes, old := h.old, names := h.names,
           nums := h.nums, bound := h.bound, frames := ?_, own := ?_, own' := ?_, settled := ?_ }
  · intro u f hf
    rcases ho.mem _ hf with ⟨_, e⟩ | e
    · subst e
      refine ⟨?_, [], rfl, ?_⟩
      · cases d <;> simp only [Loaded] at hd ⊢
        exact hd
      · intro i r
        simp [Assoc.find]
    · exact okFrame_executes e
  · intro u hu
    cases hu
    exact ⟨d, s.events, by show _ ∈ s.setStack t _ t; rw [setStack_self]; simp⟩
  · intro u d' rest hu
    rcases ho.mem _ hu with ⟨e, _⟩ | e
    · rw [e]
    · cases e
  · intro hn
    have := hn t (.iterating d s.events) (by
      show _ ∈ s.setStack t _ t
      rw [setStack_self]; simp)
    cases this

/-- One round of the loop of `Restore`. -/
theorem good_iterate {s : Sys} (h : Good s) (ha : Alone s) {t : Nat} {d : Data} {p : Node}
    {rest : List Node} {fs : List Frame} (hs : s.stack t = .iterating d (p :: rest) :: fs) :
    Good { s with ids := s.ids.tryEmplace p.2.2 p.1,
                  stack := s.setStack t (.iterating d rest :: fs) } := by
  have ho := h.only ha hs rfl
  have hw : s.owner = some t := h.own' t d (p :: rest) (by rw [hs]; simp)
  obtain ⟨hd, dn, hdn, hid⟩ := h.frames t (.iterating d (p :: rest)) (by rw [hs]; simp)
  refine { ub := h.ub, tails := ho.tails _, nodes := h.nodes, old := h.old, names := h.names,
           nums := h.nums, bound := h.bound, frames := ?_, own := ?_, own' := ?_, settled := ?_ }
  · intro u f hf
    rcases ho.mem _ hf with ⟨_, e⟩ | e
    · subst e
      refine ⟨?_, dn ++ [p], by rw [List.append_assoc]; exact hdn, ?_⟩
      · cases d <;> simp only [Loaded] at hd ⊢
        exact hd
      · intro i r
        show (s.ids.tryEmplace p.2.2 p.1).find i = some r ↔ _
        rw [Assoc.find_tryEmplace]
        have hp : p ∈ s.events := by rw [hdn]; simp
        have nf : s.ids.find p.2.2 = none := by
          cases hf : s.ids.find p.2.2 with
          | none => rfl
          | some q =>
            obtain ⟨x, hx⟩ := (hid p.2.2 q).1 hf
            have nn := h.nums
            rw [hdn, List.map_append, List.nodup_append] at nn
            exact absurd rfl (nn.2.2 p.2.2 (List.mem_map.2 ⟨_, hx, rfl⟩) p.2.2 (by simp))
        by_cases e : i = p.2.2
        · subst e
          rw [if_pos ⟨rfl, nf⟩]
          constructor
          · intro e
            cases e
            exact ⟨p.2.1, by simp⟩
          · rintro ⟨x, hx⟩
            have : (r, x, p.2.2) = p := by
              refine nodup_of_map h.nums ?_ hp rfl
              rw [hdn]
              rcases List.mem_append.1 hx with hx | hx
              · exact List.mem_append_left _ hx
              · rw [List.mem_singleton.1 hx]; simp
            rw [← this]
        · rw [if_neg (fun hh => e hh.1), hid]
          constructor
          · rintro ⟨x, hx⟩; exact ⟨x, List.mem_append_left _ hx⟩
          · rintro ⟨x, hx⟩
            rcases List.mem_append.1 hx with hx | hx
            · exact ⟨x, hx⟩
            · rw [← List.mem_singleton.1 hx] at e
              exact absurd rfl e
    · exact okFrame_executes e
  · intro u hu
    have hu : s.owner = some u := hu
    rw [hw] at hu
    cases hu
    exact ⟨d, rest, by show _ ∈ s.setStack t _ t; rw [setStack_self]; simp⟩
  · intro u d' rest' hu
    rcases ho.mem _ hu with ⟨e, _⟩ | e
    · rw [e]; exact hw
    · cases e
  · intro hn
    have := hn t (.iterating d rest) (by
      show _ ∈ s.setStack t _ t
      rw [setStack_self]; simp)
    cases this

/-- `Restore` returns: what it leaves. -/
theorem good_end {s : Sys} (h : Good s) (ha : Alone s) {t : Nat} {d : Data} {fs : List Frame}
    (hs : s.stack t = .iterating d [] :: fs) (o : List Done) :
    Good { s with owner := none, stack := s.setStack t fs, log := o } := by
  have ho := h.only ha hs rfl
  obtain ⟨hd, dn, hdn, hid⟩ := h.frames t (.iterating d []) (by rw [hs]; simp)
  rw [List.append_nil] at hdn
  subst hdn
  refine { ub := h.ub, tails := ?_, nodes := h.nodes, old := h.old, names := h.names,
           nums := h.nums, bound := h.bound, frames := ?_, own := ?_, own' := ?_, settled := ?_ }
  · intro u g gs hu k hk
    exact ho.mem' (u := u) (by
      have hu : s.setStack t fs u = _ := hu
      rw [hu]; exact List.mem_cons_of_mem _ hk)
  · intro u f hf
    exact okFrame_executes (ho.mem' hf)
  · intro u hu; cases hu
  · intro u d' rest' hu
    have := ho.mem' hu
    cases this
  · intro _
    constructor
    · intro i r hi
      exact (hid i r).1 hi
    · intro r x i hm
      exact .inl ((hid i r).2 ⟨x, hm⟩)

/-- Every step of a quiet interleaving. -/
theorem good_step {s : Sys} (h : Good s) (ha : Alone s) (x : Input) (hx : FineInput x) :
    Good (s.step x) := by
  have push : ∀ t g, userRuns (s.stack t) = true → OkFrame s g → g.late = false →
      Good (s.to t (g :: s.stack t)) := by
    intro t g hu hg hgl
    have ex := userRuns_executes hu (h.tails t)
    refine h.move rfl rfl rfl rfl h.ub rfl ?_ ?_ ?_ ?_ ?_ (.inl rfl)
    · exact fun k hk => (executes_not (ex k hk)).2
    · intro x i r hm
      have := ex _ hm
      cases this
    · intro k hk
      rcases List.mem_cons.1 hk with e | hk
      · rw [e]; exact hg
      · exact okFrame_executes (ex k hk)
    · intro k hk
      rcases List.mem_cons.1 hk with e | hk
      · rw [e]; exact hgl
      · exact (executes_not (ex k hk)).2
    · intro f fs e k hk
      cases e
      exact ex k hk
  unfold Sys.step
  rw [h.ub]
  simp only [Bool.false_eq_true, if_false]
  cases x with
  | call t c =>
    dsimp only
    split
    · rename_i hu
      exact push t (.naming c) hu trivial rfl
    · exact h
  | restore t d =>
    dsimp only
    split
    · rename_i hu
      exact push t (.restoring d) hu hx rfl
    · exact h
  | go t =>
    dsimp only
    split
    · exact h
    · rename_i f fs hs
      have fr : OkFrame s f := h.frames t f (by rw [hs]; simp)
      cases f with
      | naming c =>
        have nr := h.noRestore ha hs rfl rfl
        have no := h.noOwner nr
        have se := h.settled (noLate nr)
        cases c with
        | query x =>
          unfold Sys.advance
          dsimp only
          split
          · exact h.next ha hs rfl (by intro _ _ _ e; cases e) (.inl rfl) rfl rfl rfl rfl rfl rfl
              (.inl rfl)
          · split
            · exact h.next ha hs rfl (by intro _ _ _ e; cases e) (.inl rfl) rfl rfl rfl rfl rfl rfl
                (.inl rfl)
            · rename_i hf
              rw [if_neg (by rw [no]; simp)]
              exact good_query h ha hs hf
        | subscribe i ep =>
          unfold Sys.advance
          dsimp only
          rw [if_neg (by rw [no]; simp)]
          split
          · exact h.next ha hs rfl (by intro _ _ _ e; cases e) (.inl rfl) rfl rfl rfl rfl rfl rfl
              (.inl rfl)
          · rename_i r hr
            exact h.next ha hs rfl (by intro _ _ _ e; cases e)
              (.inr ⟨.subscribing i ep r, rfl, se.1 _ _ hr, rfl⟩) rfl rfl rfl rfl rfl rfl (.inl rfl)
        | unsubscribe i ep =>
          unfold Sys.advance
          dsimp only
          rw [if_neg (by rw [no]; simp)]
          split
          · exact h.next ha hs rfl (by intro _ _ _ e; cases e) (.inl rfl) rfl rfl rfl rfl rfl rfl
              (.inl rfl)
          · rename_i r hr
            exact h.next ha hs rfl (by intro _ _ _ e; cases e)
              (.inr ⟨.unsubscribing i ep r, rfl, se.1 _ _ hr, rfl⟩) rfl rfl rfl rfl rfl rfl (.inl rfl)
        | emit i =>
          unfold Sys.advance
          dsimp only
          rw [if_neg (by rw [no]; simp)]
          split
          · exact h.next ha hs rfl (by intro _ _ _ e; cases e) (.inl rfl) rfl rfl rfl rfl rfl rfl
              (.inl rfl)
          · rename_i r hr
            exact h.next ha hs rfl (by intro _ _ _ e; cases e)
              (.inr ⟨.emitting i r, rfl, se.1 _ _ hr, rfl⟩) rfl rfl rfl rfl rfl rfl (.inl rfl)
      | registering x i r =>
        unfold Sys.advance
        dsimp only
        rw [if_neg (by rw [h.noOwner (h.noRestore ha hs rfl rfl)]; simp)]
        exact good_register h ha hs _
      | emitting i r =>
        unfold Sys.advance
        dsimp only
        rw [reading_alive h fr]
        exact h.next ha hs rfl (by intro _ _ _ e; cases e) (.inr ⟨.copying i, rfl, trivial, rfl⟩)
          rfl rfl rfl rfl rfl rfl (.inl rfl)
      | copying i =>
        unfold Sys.advance
        dsimp only
        split
        · rename_i l _
          exact h.next ha hs rfl (by intro _ _ _ e; cases e)
            (.inr ⟨.running i l false, rfl, trivial, rfl⟩)
            rfl rfl rfl rfl rfl rfl (.inl rfl)
        · exact h.next ha hs rfl (by intro _ _ _ e; cases e) (.inl rfl)
            rfl rfl rfl rfl rfl rfl (.inl rfl)
      | running i rest b =>
        cases b with
        | true =>
          exact h.next ha hs rfl (by intro _ _ _ e; cases e) (.inr ⟨.running i rest false, rfl, trivial, rfl⟩)
            rfl rfl rfl rfl rfl rfl (.inl rfl)
        | false =>
          cases rest with
          | nil =>
            exact h.next ha hs rfl (by intro _ _ _ e; cases e) (.inl rfl)
              rfl rfl rfl rfl rfl rfl (.inl rfl)
          | cons ep rest =>
            exact h.next ha hs rfl (by intro _ _ _ e; cases e)
              (.inr ⟨.running i rest true, rfl, trivial, rfl⟩)
              rfl rfl rfl rfl rfl rfl (.inl rfl)
      | subscribing i ep r =>
        unfold Sys.advance
        dsimp only
        split
        · split
          · rw [reading_alive h fr]
            exact h.next ha hs rfl (by intro _ _ _ e; cases e) (.inl rfl)
              rfl rfl rfl rfl rfl rfl (.inl rfl)
          · exact h.next ha hs rfl (by intro _ _ _ e; cases e)
              (.inr ⟨.subscribed i ep r, rfl, fr, rfl⟩) rfl rfl rfl rfl rfl rfl (.inr rfl)
        · exact h.next ha hs rfl (by intro _ _ _ e; cases e)
            (.inr ⟨.subscribed i ep r, rfl, fr, rfl⟩) rfl rfl rfl rfl rfl rfl (.inr rfl)
      | subscribed i ep r =>
        unfold Sys.advance
        dsimp only
        rw [reading_alive h fr]
        exact h.next ha hs rfl (by intro _ _ _ e; cases e) (.inl rfl)
          rfl rfl rfl rfl rfl rfl (.inl rfl)
      | unsubscribing i ep r =>
        unfold Sys.advance
        dsimp only
        split
        · split
          · rw [reading_alive h fr]
            exact h.next ha hs rfl (by intro _ _ _ e; cases e) (.inl rfl)
              rfl rfl rfl rfl rfl rfl (.inr rfl)
          · rw [reading_alive h fr]
            exact h.next ha hs rfl (by intro _ _ _ e; cases e) (.inl rfl)
              rfl rfl rfl rfl rfl rfl (.inl rfl)
        · rw [reading_alive h fr]
          exact h.next ha hs rfl (by intro _ _ _ e; cases e) (.inl rfl)
            rfl rfl rfl rfl rfl rfl (.inl rfl)
      | restoring d =>
        have ho := h.only ha hs rfl
        have no : s.owner = none := by
          cases hw : s.owner with
          | none => rfl
          | some u =>
            obtain ⟨d', rest, hm⟩ := h.own u hw
            by_cases e : u = t
            · subst e
              rw [hs] at hm
              rcases List.mem_cons.1 hm with e | hm
              · cases e
              · have := ho.1 _ hm
                cases this
            · have := ho.2 u e _ hm
              cases this
        cases d with
        | refused =>
          unfold Sys.advance
          dsimp only
          refine h.move rfl rfl rfl rfl h.ub rfl ?_ ?_ ?_ ?_ ?_ (.inl rfl)
          · intro g hg
            rw [hs] at hg
            rcases List.mem_cons.1 hg with e | hg
            · rw [e]; rfl
            · exact (executes_not (ho.1 g hg)).2
          · intro x i r hg
            rw [hs] at hg
            rcases List.mem_cons.1 hg with e | hg
            · cases e
            · have := ho.1 _ hg
              cases this
          · exact fun g hg => okFrame_executes (ho.1 g hg)
          · exact fun g hg => (executes_not (ho.1 g hg)).2
          · intro f gs e g hg
            exact ho.1 g (by rw [e]; exact List.mem_cons_of_mem _ hg)
        | eventsCut ev => exact fr.elim
        | subsCut ev b su => exact fr.elim
        | whole ev su =>
          unfold Sys.advance
          dsimp only
          rw [if_neg (by rw [no]; simp)]
          exact good_load h.ub no ho fr
      | rebuilding d =>
        have ho := h.only ha hs rfl
        unfold Sys.advance
        dsimp only
        split
        · exact h
        · exact good_rebuild h ha hs
      | iterating d rest =>
        cases rest with
        | nil => exact good_end h ha hs _
        | cons p rest => exact good_iterate h ha hs

theorem run_append (s : Sys) (a b : List Input) : s.run (a ++ b) = (s.run a).run b := by
  simp [Sys.run, List.foldl_append]

theorem good_run : ∀ (l : List Input) (s : Sys), Good s → Quiet s l → Good (s.run l)
  | [], _, h, _ => h
  | x :: l, s, h, hq => by
    have h0 : Alone s := hq.2 [] (x :: l) rfl
    have h1 := good_step h h0 x (hq.1 x (by simp))
    refine good_run l (s.step x) h1 ⟨fun y hy => hq.1 y (List.mem_cons_of_mem _ hy), ?_⟩
    intro a b e
    exact hq.2 (x :: a) b (by rw [e]; rfl)

theorem good_init (lg : Bool) : Good (Sys.init lg) := by
  refine { ub := rfl, tails := ?_, nodes := ?_, old := ?_, names := ?_, nums := ?_, bound := ?_,
           frames := ?_, own := ?_, own' := ?_, settled := ?_ }
  · intro t f fs h; cases h
  · show ((addAll 0 [] predefined).1.map Prod.fst).Nodup
    decide +kernel
  · show ∀ p ∈ (addAll 0 [] predefined).1, p.1 < (addAll 0 [] predefined).2
    decide +kernel
  · show ((addAll 0 [] predefined).1.map fun p => p.2.1).Nodup
    decide +kernel
  · show ((addAll 0 [] predefined).1.map fun p => p.2.2).Nodup
    decide +kernel
  · show ∀ p ∈ (addAll 0 [] predefined).1,
      1 ≤ p.2.2 ∧ p.2.2 ≤ ((addAll 0 [] predefined).1.length : Int)
    decide +kernel
  · intro t f h; cases h
  · intro t h; cases h
  · intro t d rest h; cases h
  · intro _
    constructor
    · intro i r h
      have h' := Assoc.mem_of_find h
      have key : ∀ q ∈ (Sys.init lg).ids, ∃ p ∈ (Sys.init lg).events, p.1 = q.2 ∧ p.2.2 = q.1 := by
        show ∀ q ∈ register [] (addAll 0 [] predefined).1,
          ∃ p ∈ (addAll 0 [] predefined).1, p.1 = q.2 ∧ p.2.2 = q.1
        decide +kernel
      obtain ⟨p, hp, e1, e2⟩ := key _ h'
      refine ⟨p.2.1, ?_⟩
      have e1 : p.1 = r := e1
      have e2 : p.2.2 = i := e2
      rw [← e1, ← e2]
      exact hp
    · intro r x i h
      left
      have key : ∀ p ∈ (Sys.init lg).events, (Sys.init lg).ids.find p.2.2 = some p.1 := by
        show ∀ p ∈ (addAll 0 [] predefined).1,
          (register [] (addAll 0 [] predefined).1).find p.2.2 = some p.1
        decide +kernel
      exact key _ h

end Verif.Event.Restoring
