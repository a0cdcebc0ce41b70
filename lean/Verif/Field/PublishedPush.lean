import Verif.Field.NetProps
import Verif.Field.PublishedProps

/-! Property C88, when the inputs that are written are outputs too, and push further. -/
namespace Verif.Field
open Verif.Any (Kind Fl Val Any Out)

/-! ### Specification -/

/-- The fields that the copy of a pair writes: the target and all that is connected to it, directly or
not, but for forced fields and what is behind them. (The arrays do not push what is set.) -/
def World.reaches (w : World) : Link → Nat × Nat → Prop
  | .simple _ j => fun k => k.1 = 0 ∧ Reach w.net j k.2
  | .sarray _ j => fun k => k = (1, j)
  | .node _ _ => fun _ => False

/-- All these fields can take the value of the source. -/
def World.open (w : World) : Link → Prop
  | .simple i j => (w.net j).kind = (w.net i).kind ∧ (w.net j).kind ≠ .None ∧
      Any.Ok ⟨(w.net j).kind, (w.net i).value⟩ ∧
      ∀ k, Reach w.net j k → (w.net k).Fits (w.net i).value ∧
        (w.net k).accepts (w.net i).value = true
  | .sarray i j => w.ready (.sarray i j)
  | .node _ _ => True

/-- All these fields have in `m` the value that the source has in `w`; in particular the target, if
it is not forced. -/
def Arrived (w m : World) : Link → Prop
  | .simple i j => (∀ k, Reach w.net j k → m.net k = { w.net k with value := (w.net i).value }) ∧
      ((w.net j).held = false → (m.net j).get = (w.net i).get)
  | .sarray i j => (m.arrs j).values = (w.arrs i).values
  | .node _ _ => True

/-- All the other fields are as they were. -/
def OnlyWhere (w m : World) (P : Nat × Nat → Prop) : Prop :=
  (∀ j, ¬ P (0, j) → m.net j = w.net j) ∧ (∀ j, ¬ P (1, j) → m.arrs j = w.arrs j) ∧
  m.nin = w.nin ∧ m.nout = w.nout ∧ m.nflow = w.nflow ∧ m.ntargets = w.ntargets

/-- No two pairs write the same field, and no source is written. -/
structure Separate (w : World) (ls : List Link) : Prop where
  once : ls.Pairwise fun l l' => ∀ k, w.reaches l k → ¬ w.reaches l' k
  sources : ∀ l ∈ ls, ∀ l' ∈ ls, ¬ w.reaches l' l.source

/-- The connections of the simple fields: without cycles, between fields of the same kind. -/
def Orderly (n : Net) : Prop :=
  Acyclic n ∧ ∀ i, ∀ t ∈ (n i).targets, (n t).kind = (n i).kind

/-! ### Lemmas -/

theorem reach_painted {n m : Net} {x : Val} {A : Nat → Prop} (h : Painted n x A m) {i j : Nat} :
    Reach m i j ↔ Reach n i j := by
  have hh : ∀ j, (m j).held = (n j).held := fun j => by
    obtain ⟨v, hv⟩ := h.cell j; rw [hv]; rfl
  have hc : ∀ j, (m j).connectable = (n j).connectable := fun j => by
    obtain ⟨v, hv⟩ := h.cell j; rw [hv]
  have ht : ∀ j, (m j).targets = (n j).targets := fun j => by
    obtain ⟨v, hv⟩ := h.cell j; rw [hv]
  exact ⟨fun r => r.mono (fun j => (hh j).symm) (fun j => (hc j).symm) fun j => (ht j).symm,
    fun r => r.mono hh hc ht⟩

/-- The first pair leaves the paths. -/
structure Kept (w m : World) : Prop where
  reach : ∀ l k, m.reaches l k ↔ w.reaches l k
  rank : ∀ i, (m.net i).targets = (w.net i).targets
  kind : ∀ i, (m.net i).kind = (w.net i).kind

theorem Kept.refl (w : World) : Kept w w := ⟨fun _ _ => Iff.rfl, fun _ => rfl, fun _ => rfl⟩

/-- One pair. -/
theorem copy_through (narrow : Fl → Fl) (w : World) (l : Link) (rank : Nat → Nat)
    (hrank : ∀ i, ∀ t ∈ (w.net i).targets, rank t < rank i)
    (hkind : ∀ i, ∀ t ∈ (w.net i).targets, (w.net t).kind = (w.net i).kind)
    (h : w.open l) (hne : ¬ w.reaches l l.source) :
    ∃ m, (∃ F, ∀ f, F ≤ f → l.copy narrow f w = .ok m) ∧ Arrived w m l ∧
      OnlyWhere w m (w.reaches l) ∧ Kept w m := by
  cases l with
  | simple i j =>
    obtain ⟨h1, h2, h3, h4⟩ := h
    have P := fun f (hf : rank j < f) => paint_set narrow w.net (w.net i).value rank hrank hkind f j
      w.net _ (painted_self w.net _) hf h2 h3 h4
    obtain ⟨m, hm, hp⟩ := P (rank j + 1) (by omega)
    have hin : ∀ k, Reach w.net j k → m k = { w.net k with value := (w.net i).value } :=
      fun k hk => (hp k).1 (Or.inr hk)
    have hget : (w.net i).get = ⟨(w.net j).kind, (w.net i).value⟩ := by rw [h1]; rfl
    refine ⟨{ w with net := m }, ⟨rank j + 1, fun f hf => ?_⟩, ⟨hin, fun hh => ?_⟩, ?_, ?_⟩
    · obtain ⟨m', hm', hp'⟩ := P f hf
      rw [painted_unique hp hp']
      simp only [Link.copy]
      rw [hget, hm']
      rfl
    · rw [hget]
      simp only [hin j (.self hh)]
      rfl
    · refine ⟨fun k hk => (hp k).2 fun h => h.elim id fun h => hk ⟨rfl, h⟩, fun _ _ => rfl, rfl, rfl,
        rfl, rfl⟩
    · refine ⟨fun l k => ?_, fun k => ?_, fun k => ?_⟩
      · cases l with
        | simple a b => simp only [World.reaches, reach_painted hp]
        | sarray a b => exact Iff.rfl
        | node a b => exact Iff.rfl
      · obtain ⟨v, hv⟩ := hp.cell k
        simp only [hv]
      · obtain ⟨v, hv⟩ := hp.cell k
        simp only [hv]
  | sarray i j =>
    obtain ⟨m, c1, c2, c3⟩ := copy_spec narrow 0 w (.sarray i j) h fun _ he => hne he.symm
    have hall : ∀ f, Link.copy narrow f w (.sarray i j) = .ok m := fun f => c1
    obtain ⟨a1, a2, a3, a4, a5, a6⟩ := c3
    have hnet : m.net = w.net := by
      funext k
      exact a1 k fun hm => by cases List.mem_singleton.1 hm
    refine ⟨m, ⟨0, fun f _ => hall f⟩, c2, ⟨fun k _ => by rw [hnet], fun k hk => a2 k fun hm =>
      hk (List.mem_singleton.1 hm), a3, a4, a5, a6⟩, fun l k => ?_, fun k => by rw [hnet],
      fun k => by rw [hnet]⟩
    cases l with
    | simple a b => simp only [World.reaches, hnet]
    | sarray a b => exact Iff.rfl
    | node a b => exact Iff.rfl
  | node i j =>
    exact ⟨w, ⟨0, fun _ _ => rfl⟩, trivial, ⟨fun _ _ => rfl, fun _ _ => rfl, rfl, rfl, rfl, rfl⟩,
      .refl w⟩

theorem copyAll_through (narrow : Fl → Fl) (rank : Nat → Nat) : ∀ (ls : List Link) (w : World),
    (∀ i, ∀ t ∈ (w.net i).targets, rank t < rank i) →
    (∀ i, ∀ t ∈ (w.net i).targets, (w.net t).kind = (w.net i).kind) →
    (∀ l ∈ ls, w.open l) → Separate w ls →
    ∃ m, (∃ F, ∀ f, F ≤ f → copyAll narrow f w ls = .ok m) ∧ (∀ l ∈ ls, Arrived w m l) ∧
      OnlyWhere w m (fun k => ∃ l ∈ ls, w.reaches l k) := by
  intro ls
  induction ls with
  | nil =>
    intro w _ _ _ _
    exact ⟨w, ⟨0, fun _ _ => rfl⟩, nofun, fun _ _ => rfl, fun _ _ => rfl, rfl, rfl, rfl, rfl⟩
  | cons l ls ih =>
    intro w hrank hkind ho hap
    obtain ⟨once, sources⟩ := hap
    rw [List.pairwise_cons] at once
    have hl := List.mem_cons_self (a := l) (l := ls)
    obtain ⟨w1, ⟨F, c1⟩, c2, c3, c4⟩ := copy_through narrow w l rank hrank hkind (ho l hl)
      (sources l hl l hl)
    -- what the next pairs read and write was not written
    have hsrc : ∀ k ∈ ls, ¬ w.reaches l k.source := fun k hk =>
      sources k (List.mem_cons_of_mem _ hk) l hl
    have hsnk : ∀ k ∈ ls, ∀ x, w.reaches k x → ¬ w.reaches l x := fun k hk x hx hx' =>
      once.1 k hk x hx' hx
    have ho1 : ∀ k ∈ ls, w1.open k := by
      intro k hk
      have h0 := ho k (List.mem_cons_of_mem _ hk)
      cases k with
      | simple i j =>
        have e1 := c3.1 i (hsrc _ hk)
        obtain ⟨a, b, c, d⟩ := h0
        refine ⟨by rw [c4.kind, c4.kind]; exact a, by rw [c4.kind]; exact b,
          by rw [c4.kind, e1]; exact c, fun x hx => ?_⟩
        have hx' : w.reaches (.simple i j) (0, x) := (c4.reach (.simple i j) (0, x)).1 ⟨rfl, hx⟩
        rw [e1, c3.1 x (hsnk _ hk (0, x) hx')]
        exact d x hx'.2
      | sarray i j =>
        have e1 := c3.2.1 i (hsrc _ hk)
        have e2 := c3.2.1 j (hsnk _ hk (1, j) rfl)
        simp only [World.open, World.ready, e1, e2] at h0 ⊢
        exact h0
      | node i j => trivial
    obtain ⟨m, ⟨G, d1⟩, d2, d3⟩ := ih w1
      (fun i t ht => hrank i t (by rw [← c4.rank]; exact ht))
      (fun i t ht => by rw [c4.kind, c4.kind]; exact hkind i t (by rw [← c4.rank]; exact ht)) ho1
      ⟨once.2.imp fun h k hk hk' => h k ((c4.reach _ _).1 hk) ((c4.reach _ _).1 hk'),
        fun a ha b hb h => sources a (List.mem_cons_of_mem _ ha) b (List.mem_cons_of_mem _ hb)
          ((c4.reach _ _).1 h)⟩
    refine ⟨m, ⟨F + G, fun f hf => ?_⟩, ?_, ?_⟩
    · simp only [copyAll, c1 f (by omega)]
      exact d1 f (by omega)
    · intro k hk
      rcases List.mem_cons.1 hk with rfl | hk
      · have hno : ∀ x, w.reaches k x → ¬ ∃ l' ∈ ls, w1.reaches l' x := by
          rintro x hx ⟨l', hl', h⟩
          exact hsnk l' hl' x ((c4.reach _ _).1 h) hx
        cases k with
        | simple i j =>
          refine ⟨fun x hx => ?_, fun hh => ?_⟩
          · rw [d3.1 x (hno (0, x) ⟨rfl, hx⟩)]; exact c2.1 x hx
          · rw [d3.1 j (hno (0, j) ⟨rfl, .self hh⟩)]; exact c2.2 hh
        | sarray i j =>
          simp only [Arrived] at c2 ⊢
          rw [d3.2.1 j (hno (1, j) rfl)]; exact c2
        | node i j => trivial
      · have := d2 k hk
        cases k with
        | simple i j =>
          have e1 := c3.1 i (hsrc _ hk)
          refine ⟨fun x hx => ?_, fun hh => ?_⟩
          · have e2 := c3.1 x (hsnk _ hk (0, x) ⟨rfl, hx⟩)
            rw [this.1 x ((c4.reach (.simple i j) (0, x)).2 ⟨rfl, hx⟩).2, e1, e2]
          · rw [← e1]
            apply this.2
            rw [c3.1 j (hsnk _ hk (0, j) ⟨rfl, .self hh⟩)]
            exact hh
        | sarray i j =>
          simp only [Arrived] at this ⊢
          rw [this, c3.2.1 i (hsrc _ hk)]
        | node i j => trivial
    · obtain ⟨a1, a2, a3, a4, a5, a6⟩ := c3
      obtain ⟨b1, b2, b3, b4, b5, b6⟩ := d3
      have hno : ∀ x, (¬ ∃ l' ∈ l :: ls, w.reaches l' x) →
          (¬ w.reaches l x) ∧ ¬ ∃ l' ∈ ls, w1.reaches l' x := by
        refine fun x hx => ⟨fun h => hx ⟨l, hl, h⟩, ?_⟩
        rintro ⟨l', hl', h⟩
        exact hx ⟨l', List.mem_cons_of_mem _ hl', (c4.reach _ _).1 h⟩
      exact ⟨fun j hj => by rw [b1 j (hno _ hj).2, a1 j (hno _ hj).1],
        fun j hj => by rw [b2 j (hno _ hj).2, a2 j (hno _ hj).1], by rw [b3, a3], by rw [b4, a4],
        by rw [b5, a5], by rw [b6, a6]⟩

/-! ### Properties -/

/-- C88, partial. Also when the inputs are outputs that push further (without cycles): when all the
fields reached can take the values, `Connect` connects the target, every leaf of it that is not forced
gets the value of the corresponding leaf, and so do the fields that these are connected to, and so on;
forced fields, and all other fields, are as they were. Missing: fields that refuse (`C88_fails`), and
those that are written twice. -/
theorem C88_connect_through_partial (narrow : Fl → Fl) (p : PWorld) (t u : FTree)
    (h0 : ∀ x ∈ p.outs t.key, x.key ≠ u.key) (h1 : p.w.output t = true)
    (h2 : p.w.input u = true) (h3 : u.is t = false) (h4 : sameShape t u = true)
    (h5 : ∀ l ∈ pairs t u, p.w.agree l ∧ p.w.open l) (hn : Orderly p.w.net)
    (h6 : Separate p.w (pairs t u)) :
    ∃ q F, (∀ f, F ≤ f → pconnect narrow f p t u = .ok q) ∧
      (∀ l ∈ pairs t u, Arrived p.w q.w l) ∧
      OnlyWhere p.w q.w (fun k => ∃ l ∈ pairs t u, p.w.reaches l k) ∧
      (∀ x, x ∈ q.outs t.key ↔ x = u ∨ x ∈ p.outs t.key) ∧
      ∀ k, k ≠ t.key → q.outs k = p.outs k := by
  obtain ⟨⟨rank, hrank⟩, hkind⟩ := hn
  obtain ⟨m, ⟨F, c1⟩, c2, c3⟩ := copyAll_through narrow rank (pairs t u) p.w hrank hkind
    (fun l hl => (h5 l hl).2) h6
  have he : equivalent p.w t u = true :=
    (equivalent_spec p.w t u).2 ⟨h4, fun l hl => (h5 l hl).1⟩
  refine ⟨⟨m, fun k => if k = t.key then insertField p.before u (p.outs k) else p.outs k, p.before⟩,
    F, fun f hf => ?_, c2, c3, fun x => ?_, fun k hk => ?_⟩
  · unfold pconnect
    rw [if_neg (by simpa using h0), if_neg (by simp [h1, h2, h3, he]),
      pcopy_spec narrow _ p.w t u h4, c1 f hf]
    rfl
  · simp only [if_true]
    exact insertField_mem p.before u _ x
  · simp only [if_neg hk]

/-- C88, partial. Also when the targets push further: `Push` gives the values to every leaf of every
target that is not forced, and to the fields connected to it, and so on; all other fields are as they
were. -/
theorem C88_push_through_partial (narrow : Fl → Fl) (p : PWorld) (t : FTree)
    (h4 : ∀ u ∈ p.outs t.key, sameShape t u = true)
    (h5 : ∀ u ∈ p.outs t.key, ∀ l ∈ pairs t u, p.w.open l) (hn : Orderly p.w.net)
    (h6 : Separate p.w ((p.outs t.key).flatMap (pairs t))) :
    ∃ m F, (∀ f, F ≤ f → ppush narrow f p t = .ok { p with w := m }) ∧
      (∀ u ∈ p.outs t.key, ∀ l ∈ pairs t u, Arrived p.w m l) ∧
      OnlyWhere p.w m (fun k => ∃ u ∈ p.outs t.key, ∃ l ∈ pairs t u, p.w.reaches l k) := by
  obtain ⟨⟨rank, hrank⟩, hkind⟩ := hn
  obtain ⟨m, ⟨F, c1⟩, c2, c3⟩ := copyAll_through narrow rank ((p.outs t.key).flatMap (pairs t)) p.w
    hrank hkind (fun l hl => by
      obtain ⟨u, hu, hl⟩ := List.mem_flatMap.1 hl
      exact h5 u hu l hl) h6
  refine ⟨m, F, fun f hf => ?_, fun u hu l hl => c2 l (List.mem_flatMap.2 ⟨u, hu, hl⟩), ?_⟩
  · unfold ppush
    rw [ppushLoop_spec narrow _ t _ p.w h4, c1 f hf]
    rfl
  · obtain ⟨a1, a2, a⟩ := c3
    refine ⟨fun j hj => a1 j ?_, fun j hj => a2 j ?_, a⟩ <;>
    · rintro ⟨l, hl, h⟩
      obtain ⟨u, hu, hl⟩ := List.mem_flatMap.1 hl
      exact hj ⟨u, hu, l, hl, h⟩

/-! ### Cases -/

/-- The published output 0, connected to the field 10, which pushes to the field 11, which pushes to
the forced field 12; that one is connected to the field 13. -/
def chain : PWorld :=
  ⟨{ net := fun i => ⟨.Int32, 0, 10 ≤ i, true, 10 ≤ i, 10 ≤ i, none, .int i, i == 12,
        if 10 ≤ i ∧ i < 13 then [i + 1] else []⟩
     arrs := fun i => ⟨.published, .Int32, none, 10 ≤ i, i < 10, false, [], []⟩
     nin := fun _ => true, nout := fun _ => true, nflow := fun _ => false
     ntargets := fun _ => [] },
   fun k => if k = (0, 0) then [.simple 10] else [], fun a b => decide (a.2 < b.2)⟩

theorem chain_reach : ∀ k, Reach chain.w.net 10 k → k = 10 ∨ k = 11 := by
  have h12 : ∀ k, ¬ Reach chain.w.net 12 k := fun k => reach_held rfl
  have h11 : ∀ k, Reach chain.w.net 11 k → k = 11 := by
    intro k h
    cases h with
    | self => rfl
    | step _ _ ht hr =>
      have : _ ∈ [12] := ht
      rw [List.mem_singleton.1 this] at hr
      exact absurd hr (h12 k)
  intro k h
  cases h with
  | self => exact .inl rfl
  | step _ _ ht hr =>
    have : _ ∈ [11] := ht
    rw [List.mem_singleton.1 this] at hr
    exact .inr (h11 k hr)

theorem chain_orderly : Orderly chain.w.net := by
  refine ⟨⟨fun i => 20 - i, fun i t ht => ?_⟩, fun _ _ _ => rfl⟩
  simp only [chain] at ht
  split at ht
  · have := List.mem_singleton.1 ht
    show 20 - t < 20 - i
    omega
  · simp at ht

/-- The hypotheses hold of the chain. -/
example : (∀ u ∈ chain.outs (FTree.simple 0).key, ∀ l ∈ pairs (.simple 0) u, chain.w.open l) ∧
    Separate chain.w ((chain.outs (FTree.simple 0).key).flatMap (pairs (.simple 0))) := by
  refine ⟨fun u hu l hl => ?_, ⟨?_, ?_⟩⟩
  · have hu : u ∈ [FTree.simple 10] := hu
    rw [List.mem_singleton.1 hu] at hl
    rw [List.mem_singleton.1 (show l ∈ [Link.simple 0 10] from hl)]
    refine ⟨rfl, by decide, by simp [chain, Any.Ok, Verif.Any.Kind.Range], fun k hk => ?_⟩
    rcases chain_reach k hk with rfl | rfl <;>
    · refine ⟨⟨by decide, ?_, by intro h; cases h⟩, rfl⟩
      simp [chain, Any.Ok, Verif.Any.Kind.Range]
  · exact List.pairwise_singleton ..
  · intro l hl l' hl' h
    rw [List.mem_singleton.1 (show l ∈ [Link.simple 0 10] from hl)] at h
    rw [List.mem_singleton.1 (show l' ∈ [Link.simple 0 10] from hl')] at h
    rcases chain_reach 0 h.2 with h | h <;> cases h

end Verif.Field
