import Verif.Field.RemoveLinksProps
import Verif.Field.ArrProps

/-! Property C88: `Connect` and `Push` of published outputs. -/
namespace Verif.Field
open Verif.Any (Kind Fl Val Any Out)

/-! ### Specification -/

/-- The pair is a pair of simple fields or of arrays of simple items. -/
def Link.leaf : Link → Bool
  | .node _ _ => false
  | _ => true

/-- The target of a pair. -/
def Link.sink : Link → Nat × Nat
  | .simple _ j => (0, j)
  | .sarray _ j => (1, j)
  | .node _ j => (2, j)

/-- The targets that are written. -/
def sinks (ls : List Link) : List (Nat × Nat) := (ls.filter Link.leaf).map Link.sink

/-- The target of the pair can take the value of the source: it is of the same kind, and it is forced
or does not refuse the value and does not push it further. -/
def World.ready (w : World) : Link → Prop
  | .simple i j => (w.net j).kind = (w.net i).kind ∧ (w.net j).Fits (w.net i).value ∧
      ((w.net j).held = true ∨ (w.net j).accepts (w.net i).value = true ∧
      ((w.net j).connectable = false ∨ (w.net j).targets = []))
  | .sarray i j => (w.arrs j).kind = (w.arrs i).kind ∧ (w.arrs i).kind ≠ .None ∧
      (w.arrs i).kind ≠ .String8 ∧ (w.arrs j).values.length = (w.arrs i).values.length ∧
      ∀ v ∈ (w.arrs i).values, Any.Ok ⟨(w.arrs i).kind, v⟩
  | .node _ _ => True

/-- In `m` the target of the pair has the value that the source has in `w`, unless it is forced: then
it is as it was. -/
def Delivered (w m : World) : Link → Prop
  | .simple i j => if (w.net j).held then m.net j = w.net j else (m.net j).get = (w.net i).get
  | .sarray i j => (m.arrs j).values = (w.arrs i).values
  | .node _ _ => True

/-- All the other fields are as they were. -/
def OnlyAt (w m : World) (ks : List (Nat × Nat)) : Prop :=
  (∀ j, (0, j) ∉ ks → m.net j = w.net j) ∧ (∀ j, (1, j) ∉ ks → m.arrs j = w.arrs j) ∧
  m.nin = w.nin ∧ m.nout = w.nout ∧ m.nflow = w.nflow ∧ m.ntargets = w.ntargets

/-! ### Lemmas -/

/-- The copy of one pair. -/
def Link.copy (narrow : Fl → Fl) (f : Nat) (w : World) : Link → WRes
  | .simple i j => (setValue narrow f w.net j (w.net i).get).world w
  | .sarray i j => (acopy narrow w.arrs i j (List.range (w.arrs i).values.length)).world w
  | .node _ _ => .ok w

def copyAll (narrow : Fl → Fl) (f : Nat) (w : World) : List Link → WRes
  | [] => .ok w
  | l :: ls => match l.copy narrow f w with
    | .ok w' => copyAll narrow f w' ls
    | r => r

theorem copyAll_append (narrow : Fl → Fl) (f : Nat) (ls ks : List Link) : ∀ w,
    copyAll narrow f w (ls ++ ks) = match copyAll narrow f w ls with
      | .ok w' => copyAll narrow f w' ks
      | r => r := by
  induction ls with
  | nil => intro w; rfl
  | cons l ls ih =>
    intro w
    simp only [List.cons_append, copyAll]
    cases l.copy narrow f w with
    | ok w' => exact ih w'
    | raised => rfl
    | ub => rfl
    | diverges => rfl

mutual
theorem pcopy_spec (narrow : Fl → Fl) (f : Nat) (w : World) : ∀ t u, sameShape t u = true →
    pcopy narrow f w t u = copyAll narrow f w (pairs t u)
  | .simple i => by
    intro u h
    cases u with
    | simple j =>
      simp only [pcopy, pairs, copyAll, Link.copy]
      generalize (setValue narrow f _ j _).world w = r
      cases r <;> rfl
    | _ => simp [sameShape] at h
  | .sarray i => by
    intro u h
    cases u with
    | sarray j =>
      simp only [pcopy, pairs, copyAll, Link.copy]
      generalize (acopy narrow _ i j _).world w = r
      cases r <;> rfl
    | _ => simp [sameShape] at h
  | .node s id ts => by
    intro u h
    cases u with
    | node s' id' us =>
      simp only [sameShape, Bool.and_eq_true] at h
      simp only [pcopy, pairs, copyAll, Link.copy]
      exact pcopies_spec narrow f w ts us h.2
    | _ => simp [sameShape] at h
theorem pcopies_spec (narrow : Fl → Fl) (f : Nat) (w : World) : ∀ ts us,
    sameShapes ts us = true → pcopies narrow f w ts us = copyAll narrow f w (pairsList ts us)
  | [] => by intro us _; simp [pcopies, pairsList, copyAll]
  | t :: ts => by
    intro us h
    cases us with
    | nil => simp [sameShapes] at h
    | cons u us =>
      simp only [sameShapes, Bool.and_eq_true] at h
      simp only [pcopies, pairsList, copyAll_append]
      rw [pcopy_spec narrow f w t u h.1]
      cases copyAll narrow f w (pairs t u) with
      | ok w' => exact pcopies_spec narrow f w' ts us h.2
      | raised => rfl
      | ub => rfl
      | diverges => rfl
end

theorem ppushLoop_spec (narrow : Fl → Fl) (f : Nat) (t : FTree) : ∀ (us : List FTree) (w : World),
    (∀ u ∈ us, sameShape t u = true) →
    ppushLoop narrow f w t us = copyAll narrow f w (us.flatMap (pairs t)) := by
  intro us
  induction us with
  | nil => intro w _; rfl
  | cons u us ih =>
    intro w h
    rw [List.flatMap_cons, copyAll_append, ppushLoop,
      pcopy_spec narrow f w t u (h u List.mem_cons_self)]
    cases copyAll narrow f w (pairs t u) with
    | ok w' => exact ih w' fun x hx => h x (List.mem_cons_of_mem _ hx)
    | raised => rfl
    | ub => rfl
    | diverges => rfl

/-- One pair. -/
theorem copy_spec (narrow : Fl → Fl) (f : Nat) (w : World) (l : Link) (h : w.ready l)
    (hne : l.leaf = true → l.sink ≠ l.source) :
    ∃ m, l.copy narrow (f + 1) w = .ok m ∧ Delivered w m l ∧ OnlyAt w m (sinks [l]) := by
  cases l with
  | simple i j =>
    obtain ⟨h1, h3, h2⟩ := h
    have hc := coerce_same narrow (w.net j) (w.net i).value h3
    have hget : (w.net i).get = ⟨(w.net j).kind, (w.net i).value⟩ := by rw [h1]; rfl
    by_cases hh : (w.net j).held = true
    · have hset : setValue narrow (f + 1) w.net j (w.net i).get = .ok w.net := by
        unfold setValue
        rw [hget, hc]
        simp only
        unfold store
        rw [if_pos hh]
      refine ⟨w, by simp only [Link.copy]; rw [hset]; rfl, ?_, fun _ _ => rfl, fun _ _ => rfl, rfl,
        rfl, rfl, rfl⟩
      simp only [Delivered, if_pos hh]
    replace h2 := h2.resolve_left hh
    obtain ⟨h4, h5⟩ := h2
    have h2 : (w.net j).held = false := by simpa using hh
    have hset : setValue narrow (f + 1) w.net j (w.net i).get =
        .ok (w.net.set j { w.net j with value := (w.net i).value }) := by
      unfold setValue
      rw [hget, hc]
      simp only
      unfold store
      rw [if_neg (by rw [h2]; decide), if_pos h4]
      simp only
      rcases h5 with h5 | h5
      · rw [h5]; rfl
      · rw [h5]
        split <;> rfl
    refine ⟨_, by simp only [Link.copy]; rw [hset]; rfl, ?_, ?_⟩
    · simp [Delivered, Net.set, Cell.get, h1, h2]
    · refine ⟨fun k hk => ?_, fun k _ => rfl, rfl, rfl, rfl, rfl⟩
      have : k ≠ j := by rintro rfl; exact hk (List.mem_singleton.2 rfl)
      simp [Net.set, this]
  | sarray i j =>
    obtain ⟨h1, h2, h3, h4, h5⟩ := h
    have hij : j ≠ i := by
      rintro rfl
      exact hne rfl rfl
    obtain ⟨m, hm, m1, m2, m3, m4⟩ := acopy_spec narrow i j hij
      (List.range (w.arrs i).values.length) w.arrs h1 h2 h3
      (by intro k hk; rw [h4]; simpa using hk)
      (by
        intro k hk
        have hk' : k < (w.arrs i).values.length := by simpa using hk
        exact ⟨(w.arrs i).values[k], by simp [hk'], h5 _ (List.getElem_mem hk')⟩)
    refine ⟨{ w with arrs := m }, by simp only [Link.copy]; rw [hm]; rfl, ?_, ?_⟩
    · simp only [Delivered]
      apply List.ext_getElem?
      intro k
      rw [m2 k]
      by_cases hk : k < (w.arrs i).values.length
      · rw [if_pos (by simpa using hk)]
      · rw [if_neg (by simpa using hk), List.getElem?_eq_none (by omega),
          List.getElem?_eq_none (by omega)]
    · refine ⟨fun k _ => rfl, fun k hk => ?_, rfl, rfl, rfl, rfl⟩
      exact m4 k (by rintro rfl; exact hk (List.mem_singleton.2 rfl))
  | node i j =>
    exact ⟨w, rfl, trivial, fun _ _ => rfl, fun _ _ => rfl, rfl, rfl, rfl, rfl⟩

theorem sinks_cons (l : Link) (ls : List Link) : sinks (l :: ls) = sinks [l] ++ sinks ls := by
  unfold sinks
  rw [← List.singleton_append, List.filter_append, List.map_append]

theorem mem_sinks {l : Link} {ls : List Link} (hl : l ∈ ls) (h : l.leaf = true) :
    l.sink ∈ sinks ls := List.mem_map_of_mem (List.mem_filter.2 ⟨hl, h⟩)

theorem copyAll_spec (narrow : Fl → Fl) (f : Nat) : ∀ (ls : List Link) (w : World),
    (∀ l ∈ ls, w.ready l) → (sinks ls).Nodup → (∀ l ∈ ls, l.source ∉ sinks ls) →
    ∃ m, copyAll narrow (f + 1) w ls = .ok m ∧ (∀ l ∈ ls, Delivered w m l) ∧
      OnlyAt w m (sinks ls) := by
  intro ls
  induction ls with
  | nil =>
    intro w _ _ _
    exact ⟨w, rfl, by simp, fun _ _ => rfl, fun _ _ => rfl, rfl, rfl, rfl, rfl⟩
  | cons l ls ih =>
    intro w hr hnd hs
    have hne : l.leaf = true → l.sink ≠ l.source := by
      intro hl he
      exact hs l List.mem_cons_self (he ▸ mem_sinks List.mem_cons_self hl)
    obtain ⟨w1, c1, c2, c3⟩ := copy_spec narrow f w l (hr l List.mem_cons_self) hne
    rw [sinks_cons, List.nodup_append] at hnd
    obtain ⟨_, hnd, hdis⟩ := hnd
    have hsrc : ∀ k ∈ ls, k.source ∉ sinks [l] := by
      intro k hk hm
      apply hs k (List.mem_cons_of_mem _ hk)
      rw [sinks_cons]
      exact List.mem_append_left _ hm
    have hsnk : ∀ k ∈ ls, k.leaf = true → k.sink ∉ sinks [l] := by
      intro k hk hl hm
      exact hdis _ hm _ (mem_sinks hk hl) rfl
    have hr1 : ∀ k ∈ ls, w1.ready k := by
      intro k hk
      have h0 := hr k (List.mem_cons_of_mem _ hk)
      cases k with
      | simple i j =>
        have e1 := c3.1 i (hsrc _ hk)
        have e2 := c3.1 j (hsnk _ hk rfl)
        simp only [World.ready, e1, e2] at h0 ⊢
        exact h0
      | sarray i j =>
        have e1 := c3.2.1 i (hsrc _ hk)
        have e2 := c3.2.1 j (hsnk _ hk rfl)
        simp only [World.ready, e1, e2] at h0 ⊢
        exact h0
      | node i j => trivial
    obtain ⟨m, d1, d2, d3⟩ := ih w1 hr1 hnd fun k hk hm =>
      hs k (List.mem_cons_of_mem _ hk) (by
        rw [sinks_cons]; exact List.mem_append_right _ hm)
    refine ⟨m, by simp only [copyAll, c1]; exact d1, ?_, ?_⟩
    · intro k hk
      rcases List.mem_cons.1 hk with rfl | hk
      · -- the target of the first pair is not written again
        cases k with
        | simple i j =>
          simp only [Delivered] at c2 ⊢
          rw [d3.1 j fun hm => hdis _ (mem_sinks (List.mem_singleton.2 rfl) rfl) _ hm rfl]
          exact c2
        | sarray i j =>
          simp only [Delivered] at c2 ⊢
          rw [d3.2.1 j fun hm => hdis _ (mem_sinks (List.mem_singleton.2 rfl) rfl) _ hm rfl]
          exact c2
        | node i j => trivial
      · have := d2 k hk
        cases k with
        | simple i j =>
          simp only [Delivered] at this ⊢
          rw [c3.1 i (hsrc _ hk), c3.1 j (hsnk _ hk rfl)] at this
          exact this
        | sarray i j =>
          simp only [Delivered] at this ⊢
          rw [this, c3.2.1 i (hsrc _ hk)]
        | node i j => trivial
    · obtain ⟨a1, a2, a3, a4, a5, a6⟩ := c3
      obtain ⟨b1, b2, b3, b4, b5, b6⟩ := d3
      rw [sinks_cons]
      refine ⟨fun j hj => ?_, fun j hj => ?_, by rw [b3, a3], by rw [b4, a4], by rw [b5, a5],
        by rw [b6, a6]⟩
      · rw [b1 j fun h => hj (List.mem_append_right _ h),
          a1 j fun h => hj (List.mem_append_left _ h)]
      · rw [b2 j fun h => hj (List.mem_append_right _ h),
          a2 j fun h => hj (List.mem_append_left _ h)]

theorem insertField_mem (before : Nat × Nat → Nat × Nat → Bool) (u : FTree) :
    ∀ (xs : List FTree) (x : FTree), x ∈ insertField before u xs ↔ x = u ∨ x ∈ xs := by
  intro xs
  induction xs with
  | nil => intro x; simp [insertField]
  | cons y ys ih =>
    intro x
    rw [insertField]
    split
    · simp only [List.mem_cons, ih]
      constructor
      · rintro (h | h | h)
        · exact Or.inr (Or.inl h)
        · exact Or.inl h
        · exact Or.inr (Or.inr h)
      · rintro (h | h | h)
        · exact Or.inr (Or.inl h)
        · exact Or.inl h
        · exact Or.inr (Or.inr h)
    · simp

/-! ### Properties -/

/-- C88. `Connect` of a published output raises and changes nothing when the target is already
connected, the source is not an output, the target not an input, they are the same field, do not
have the same structure, or two corresponding leaves do not agree. -/
theorem C88_refused (narrow : Fl → Fl) (f : Nat) (p : PWorld) (t u : FTree)
    (h : (∃ x ∈ p.outs t.key, x.key = u.key) ∨ p.w.output t = false ∨ p.w.input u = false ∨
      u.is t = true ∨ sameShape t u = false ∨ ∃ l ∈ pairs t u, ¬ p.w.agree l) :
    pconnect narrow f p t u = .raised p := by
  unfold pconnect
  by_cases h1 : (p.outs t.key).any (fun x => x.key == u.key) = true
  · rw [if_pos h1]
  · rw [if_neg h1, if_pos]
    rcases h with ⟨x, hx, h⟩ | h | h | h | h | ⟨l, hl, h⟩
    · exact absurd (List.any_eq_true.2 ⟨x, hx, by simp [h]⟩) h1
    · simp [h]
    · simp [h]
    · simp [h]
    · have : equivalent p.w t u = false := by
        cases he : equivalent p.w t u with
        | false => rfl
        | true => rw [((equivalent_spec p.w t u).1 he).1] at h; cases h
      simp [this]
    · have : equivalent p.w t u = false := by
        cases he : equivalent p.w t u with
        | false => rfl
        | true => exact absurd (((equivalent_spec p.w t u).1 he).2 l hl) h
      simp [this]

/-- C88, partial. Otherwise, when every leaf of the target can take the value of the corresponding
leaf of the source, `Connect` connects the target and copies all the values to it, and touches
nothing else; forced leaves keep their value. Missing: what happens when a leaf refuses (`C88_fails`)
or pushes further. -/
theorem C88_connect_partial (narrow : Fl → Fl) (f : Nat) (p : PWorld) (t u : FTree)
    (h0 : ∀ x ∈ p.outs t.key, x.key ≠ u.key) (h1 : p.w.output t = true)
    (h2 : p.w.input u = true) (h3 : u.is t = false) (h4 : sameShape t u = true)
    (h5 : ∀ l ∈ pairs t u, p.w.agree l ∧ p.w.ready l) (h6 : (sinks (pairs t u)).Nodup)
    (h7 : ∀ l ∈ pairs t u, l.source ∉ sinks (pairs t u)) :
    ∃ q, pconnect narrow (f + 1) p t u = .ok q ∧
      (∀ l ∈ pairs t u, Delivered p.w q.w l) ∧ OnlyAt p.w q.w (sinks (pairs t u)) ∧
      (∀ x, x ∈ q.outs t.key ↔ x = u ∨ x ∈ p.outs t.key) ∧
      ∀ k, k ≠ t.key → q.outs k = p.outs k := by
  obtain ⟨m, c1, c2, c3⟩ := copyAll_spec narrow f (pairs t u) p.w (fun l hl => (h5 l hl).2) h6 h7
  have he : equivalent p.w t u = true :=
    (equivalent_spec p.w t u).2 ⟨h4, fun l hl => (h5 l hl).1⟩
  unfold pconnect
  rw [if_neg (by simpa using h0), if_neg (by simp [h1, h2, h3, he]),
    pcopy_spec narrow _ p.w t u h4, c1]
  refine ⟨_, rfl, c2, c3, fun x => ?_, fun k hk => ?_⟩
  · simp only [if_true]
    exact insertField_mem p.before u _ x
  · simp only [if_neg hk]

/-- C88, partial. When every leaf of every connected target can take the value of the
corresponding leaf of the source and they are distinct, `Push` copies all the values to all the
targets, and touches nothing else; forced leaves keep their value. -/
theorem C88_push_partial (narrow : Fl → Fl) (f : Nat) (p : PWorld) (t : FTree)
    (h4 : ∀ u ∈ p.outs t.key, sameShape t u = true)
    (h5 : ∀ u ∈ p.outs t.key, ∀ l ∈ pairs t u, p.w.ready l)
    (h6 : (sinks ((p.outs t.key).flatMap (pairs t))).Nodup)
    (h7 : ∀ u ∈ p.outs t.key, ∀ l ∈ pairs t u,
      l.source ∉ sinks ((p.outs t.key).flatMap (pairs t))) :
    ∃ m, ppush narrow (f + 1) p t = .ok { p with w := m } ∧
      (∀ u ∈ p.outs t.key, ∀ l ∈ pairs t u, Delivered p.w m l) ∧
      OnlyAt p.w m (sinks ((p.outs t.key).flatMap (pairs t))) := by
  obtain ⟨m, c1, c2, c3⟩ := copyAll_spec narrow f ((p.outs t.key).flatMap (pairs t)) p.w
    (fun l hl => by
      obtain ⟨u, hu, hl⟩ := List.mem_flatMap.1 hl
      exact h5 u hu l hl) h6
    (fun l hl => by
      obtain ⟨u, hu, hl⟩ := List.mem_flatMap.1 hl
      exact h7 u hu l hl)
  unfold ppush
  rw [ppushLoop_spec narrow _ t _ p.w h4, c1]
  exact ⟨m, rfl, fun u hu l hl => c2 l (List.mem_flatMap.2 ⟨u, hu, hl⟩), c3⟩

/-! ### Cases -/

/-- Published structures: the first one is an output, the others are inputs. -/
def demoPub (refuses : Nat → Bool) : PWorld :=
  ⟨{ net := fun i => ⟨.Int32, 0, 10 ≤ i, i < 10, false, false,
        if refuses i then some [77] else none, .int i, false, []⟩
     arrs := fun i => ⟨.published, .Int32, none, 10 ≤ i, i < 10, false, [.int i, .int (i + 1)], []⟩
     nin := fun i => 10 ≤ i, nout := fun i => i < 10, nflow := fun _ => false
     ntargets := fun _ => [] },
   fun k => if k = (2, 0) then [demoTree 20, demoTree 30] else [], fun a b => decide (a.2 < b.2)⟩

example : let p := demoPub fun _ => false
    (∀ u ∈ p.outs (demoTree 0).key, sameShape (demoTree 0) u = true) ∧
    (sinks ((p.outs (demoTree 0).key).flatMap (pairs (demoTree 0)))).Nodup ∧
    (∀ l ∈ (p.outs (demoTree 0).key).flatMap (pairs (demoTree 0)),
      l.source ∉ sinks ((p.outs (demoTree 0).key).flatMap (pairs (demoTree 0)))) := by
  refine ⟨fun u hu => ?_, by decide, by decide⟩
  have hu : u ∈ [demoTree 20, demoTree 30] := hu
  simp only [List.mem_cons, List.not_mem_nil, or_false] at hu
  rcases hu with rfl | rfl <;> rfl

/-- The leaves of the demonstration can take the values. -/
example : ∀ u ∈ (demoPub fun _ => false).outs (demoTree 0).key, ∀ l ∈ pairs (demoTree 0) u,
    (demoPub fun _ => false).w.ready l := by
  intro u hu l hl
  have hu : u ∈ [demoTree 20, demoTree 30] := hu
  have hnet : ∀ i j : Nat, i < 10 → (demoPub fun _ => false).w.ready (.simple i j) := by
    intro i j hi
    refine ⟨rfl, ⟨by simp [demoPub], ?_, by simp [demoPub]⟩, Or.inr ⟨rfl, Or.inl rfl⟩⟩
    simp only [demoPub, Any.Ok, Verif.Any.Kind.Range]
    omega
  have harr : ∀ j : Nat, (demoPub fun _ => false).w.ready (.sarray 0 j) := by
    intro j
    refine ⟨rfl, by simp [demoPub], by simp [demoPub], rfl, ?_⟩
    intro v hv
    simp only [demoPub, List.mem_cons, List.not_mem_nil, or_false] at hv
    rcases hv with rfl | rfl <;> simp [demoPub, Any.Ok, Verif.Any.Kind.Range]
  simp only [List.mem_cons, List.not_mem_nil, or_false] at hu
  rcases hu with rfl | rfl
  all_goals
    simp only [demoTree, pairs, pairsList, List.mem_cons, List.mem_append, List.not_mem_nil,
      or_false] at hl
    rcases hl with rfl | rfl | (rfl | rfl | rfl) | rfl
    · trivial
    · exact hnet _ _ (by decide)
    · trivial
    · exact hnet _ _ (by decide)
    · exact hnet _ _ (by decide)
    · exact harr _

/-- C88 fails: when a leaf of the target refuses its value, `Connect` raises but the target stays
connected, and the leaves before it have been written. -/
theorem C88_fails (narrow : Fl → Fl) : ∃ (p q : PWorld) (t u : FTree),
    p.outs t.key = [] ∧ pconnect narrow 5 p t u = .raised q ∧ q.outs t.key = [u] ∧
    (p.w.net 10).value = .int 10 ∧ (q.w.net 10).value = .int 0 ∧ (q.w.net 11).value = .int 11 :=
  ⟨{ demoPub (fun i => i == 11) with outs := fun _ => [] }, _,
    .node true 0 [.simple 0, .simple 1], .node true 10 [.simple 10, .simple 11],
    rfl, rfl, rfl, rfl, rfl, rfl⟩

/-- Fields that are inputs and outputs; the first two are connected to each other. -/
def ringPub : PWorld :=
  { w := { ringWorld with
      net := fun i => ⟨.Int32, 0, true, true, true, false, none, .int 7, false,
        if i = 0 then [1] else if i = 1 then [0] else []⟩ }
    outs := fun _ => [], before := fun _ _ => false }

/-- C88: the connection of a published output to an input that is connected in a cycle never returns. -/
theorem C88_cycle (narrow : Fl → Fl) (f : Nat) :
    pconnect narrow f ringPub (.simple 2) (.simple 0) = .diverges := by
  have h : setValue narrow f ringPub.w.net 0 (ringPub.w.net 2).get = .diverges :=
    relay_set_diverges narrow f _ 0 1 2 7 (by decide) ⟨rfl, rfl, rfl, rfl, [], rfl⟩
      ⟨rfl, rfl, rfl, rfl, [], rfl⟩ rfl
  unfold pconnect
  rw [if_neg (by decide), if_neg (by decide)]
  simp only [pcopy, h, Res.world, WRes.pub]

/-- C88 fails: the set of targets is in the order of the addresses; when a leaf refuses its value
`Push` raises and the targets after it keep their old values. -/
theorem C88_push_fails (narrow : Fl → Fl) : ∃ (p q : PWorld) (t : FTree),
    p.outs t.key = [.simple 10, .simple 20] ∧ ppush narrow 5 p t = .raised q ∧
    (q.w.net 20).value = .int 20 ∧ (q.w.net 0).value = .int 0 :=
  ⟨{ demoPub (fun i => i == 10) with outs := fun _ => [.simple 10, .simple 20] }, _, .simple 0,
    rfl, rfl, rfl, rfl⟩

/-- C87 fails for published outputs: `RemoveLinks` leaves them connected to the fields of the
target. -/
theorem C87_published_fails : ∃ (e : Where) (p : PWorld) (t u : FTree) (target : Nat),
    p.outs t.key = [u] ∧ e.inside target u.cls u.ident = true ∧
    (p.removeLinks e target [t]).outs t.key = [u] :=
  ⟨demoWhere, { demoPub (fun _ => false) with outs := fun _ => [.simple 10] }, .simple 0,
    .simple 10, 7, rfl, rfl, rfl⟩

end Verif.Field
