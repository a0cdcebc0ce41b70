import Verif.Field.RemoveLinksSpec

/-! Lemmas for C87. -/
namespace Verif.Field
open Verif.Any (Fl)

theorem given_append (k i : Nat) (as bs : List Link) :
    given k i (as ++ bs) = given k i as ++ given k i bs := by
  unfold given; rw [List.filterMap_append]

theorem gives_append (k i : Nat) (as bs : List Conn) :
    gives k i (as ++ bs) = gives k i as ++ gives k i bs := by
  unfold gives; rw [List.flatMap_append]

theorem gives_cons (k i : Nat) (c : Conn) (cs : List Conn) :
    gives k i (c :: cs) = given k i (pairs c.1 c.2) ++ gives k i cs := by
  unfold gives; rw [List.flatMap_cons]

theorem removeAll_targets' (w : World) (ls : List Link) (k i : Nat) (hk : w.keeps k i) :
    (removeAll w ls).targets k i = (given k i ls).foldl List.erase (w.targets k i) := by
  obtain ⟨_, h0, h1, h2⟩ := removeAll_targets ls w
  rcases hk with hk | ⟨rfl, hf⟩
  · match k, hk with
    | 0, _ => exact h0 i
    | 1, _ => exact h1 i
  · simp only [World.targets]
    rw [h2 i, if_pos hf]

theorem addAll_targets' (narrow : Fl → Fl) (f : Nat) (w m : World) (ls : List Link)
    (h : addAll narrow f w ls = .ok m) (k i : Nat) (hk : w.keeps k i) :
    m.targets k i = w.targets k i ++ given k i ls := by
  obtain ⟨_, h0, h1, h2⟩ := addAll_targets narrow f ls w m h
  rcases hk with hk | ⟨rfl, hf⟩
  · match k, hk with
    | 0, _ => exact h0 i
    | 1, _ => exact h1 i
  · simp only [World.targets]
    rw [h2 i, if_pos hf]

theorem keeps_congr {w m : World} (h : m.nflow = w.nflow) (k i : Nat) :
    m.keeps k i ↔ w.keeps k i := by unfold World.keeps; rw [h]

theorem mem_given_node {i j : Nat} {ls : List Link} (h : Link.node i j ∈ ls) :
    j ∈ given 2 i ls := by
  unfold given
  rw [List.mem_filterMap]
  exact ⟨_, h, by simp⟩

/-- `Disconnect` of a connection removes it. -/
theorem unlink_linked {e : Where} {w : World} {as bs : List Conn} {c : Conn}
    (h : Linked e w (as ++ c :: bs)) :
    Linked e (unlink w c.1 c.2) (as ++ bs) ∧ (unlink w c.1 c.2).nflow = w.nflow := by
  have hs := h.sound c (by simp)
  have hno : Nodes w (pairs c.1 c.2) := by
    intro i j hm hf
    have := h.built 2 i (Or.inr ⟨rfl, hf⟩)
    simp only [World.targets] at this
    rw [this, gives_append, gives_cons]
    simp [mem_given_node hm]
  have hu := unlink_spec c.1 w c.2 hs.shape hs.once hno
  rw [hu]
  have hfl := (removeAll_targets (pairs c.1 c.2) w).1
  have key : ∀ k i, w.keeps k i →
      (removeAll w (pairs c.1 c.2)).targets k i = gives k i (as ++ bs) := by
    intro k i hk
    have hb := h.built k i hk
    have hnd := h.nodup k i hk
    rw [hb, gives_append, gives_cons] at hnd
    rw [removeAll_targets' w _ k i hk, hb, gives_append, gives_cons, gives_append]
    rcases given_le_one k i _ hs.once with e | ⟨j, e⟩
    · simp [e]
    · rw [e] at hnd ⊢
      have hj : j ∉ gives k i as := by
        intro hj
        rw [List.nodup_append] at hnd
        exact hnd.2.2 j hj j (by simp) rfl
      simp [List.erase_append_right _ hj]
  refine ⟨⟨fun k i hk => key k i ((keeps_congr hfl k i).1 hk), fun k i hk => ?_, fun c hc => ?_⟩,
    hfl⟩
  · have hk := (keeps_congr hfl k i).1 hk
    have hnd := h.nodup k i hk
    rw [h.built k i hk, gives_append, gives_cons] at hnd
    rw [key k i hk, gives_append]
    exact hnd.sublist (List.Sublist.append (List.Sublist.refl _) (List.sublist_append_right _ _))
  · exact h.sound c (by
      rw [List.mem_append] at hc ⊢
      rcases hc with hc | hc
      · exact Or.inl hc
      · exact Or.inr (List.mem_cons_of_mem _ hc))

/-- `Connect` adds a connection. -/
theorem connect_linked {e : Where} {w m : World} {cs : List Conn} {t u : FTree}
    (narrow : Fl → Fl) (f : Nat) (h : Linked e w cs)
    (hnd : ((pairs t u).map Link.source).Nodup) (hk : e.field t u.ident = u)
    (hc : wconnect narrow f w t u = .ok m) : Linked e m (cs ++ [(t, u)]) := by
  unfold wconnect at hc
  split at hc
  · cases hc
  · split at hc
    · cases hc
    · rename_i h2
      simp only [Bool.not_eq_true', Bool.not_eq_false] at h2
      obtain ⟨hs, hn⟩ := (canConnect_spec w t u).1 h2
      rw [link_spec narrow f w t u hs] at hc
      have hfl := (addAll_targets narrow f _ w m hc).1
      have key := addAll_targets' narrow f w m _ hc
      refine ⟨fun k i hk => ?_, fun k i hk => ?_, fun c hc => ?_⟩
      · rw [keeps_congr hfl] at hk
        rw [key k i hk, h.built k i hk, gives_append, gives_cons]
        simp [gives]
      · rw [keeps_congr hfl] at hk
        rw [key k i hk]
        rcases given_le_one k i _ hnd with e | ⟨j, e⟩
        · rw [e]; simpa using h.nodup k i hk
        · rw [e, List.nodup_append]
          refine ⟨h.nodup k i hk, by simp, ?_⟩
          rintro a ha b hb rfl
          rw [List.mem_singleton] at hb
          subst hb
          have hg : a ∈ given k i (pairs t u) := by rw [e]; simp
          rcases given_mem hg with ⟨rfl, hm⟩ | ⟨rfl, hm⟩ | ⟨rfl, hm⟩
          · exact (hn _ hm).2 ha
          · exact (hn _ hm).2 ha
          · rcases hk with hk | ⟨_, hf⟩
            · omega
            · exact (hn _ hm).2 ⟨hf, ha⟩
      · rw [List.mem_append] at hc
        rcases hc with hc | hc
        · exact h.sound c hc
        · rw [List.mem_singleton] at hc
          subst hc
          exact ⟨hs, hnd, hk⟩

/-! ### The loop -/

theorem key_mem {t u : FTree} (h : sameShape t u = true) :
    t.key ∈ (pairs t u).map Link.source := by
  cases t <;> cases u <;> simp_all [sameShape, pairs, Link.source, FTree.key, FTree.cls,
    FTree.ident]

theorem given_key {t u : FTree} (h : sameShape t u = true)
    (hn : ((pairs t u).map Link.source).Nodup) : given t.cls t.ident (pairs t u) = [u.ident] := by
  rcases given_le_one t.cls t.ident _ hn with e | ⟨j, e⟩
  · exfalso
    cases t <;> cases u <;> simp_all [sameShape, pairs, given, FTree.cls, FTree.ident]
  · cases t <;> cases u <;> simp_all [sameShape, pairs, given, FTree.cls, FTree.ident]

theorem from_iff {e : Where} {cs : List Conn} {t : FTree} (ho : Own cs t)
    (hs : ∀ c ∈ cs, Sound e c) (c : Conn) (hc : c ∈ cs) : c.from t = true ↔ c.1 = t := by
  unfold Conn.from
  constructor
  · intro h
    rcases ho c hc with h1 | h1
    · exact h1
    · exfalso
      apply h1
      have := key_mem (hs c hc).shape
      rw [eq_of_beq h] at this
      exact this
  · rintro rfl; simp

/-- The inputs of `t` are the targets of its connections. -/
theorem gives_key {e : Where} {cs : List Conn} {t : FTree} (ho : Own cs t)
    (hs : ∀ c ∈ cs, Sound e c) :
    gives t.cls t.ident cs = (cs.filter (Conn.from t)).map fun c => c.2.ident := by
  induction cs with
  | nil => rfl
  | cons c cs ih =>
    have ih := ih (fun c hc => ho c (List.mem_cons_of_mem _ hc))
      (fun c hc => hs c (List.mem_cons_of_mem _ hc))
    rw [gives_cons, ih, List.filter_cons]
    have hi := from_iff ho hs c List.mem_cons_self
    by_cases hf : c.from t = true
    · rw [if_pos hf]
      have := hi.1 hf
      subst this
      rw [given_key (hs c List.mem_cons_self).shape (hs c List.mem_cons_self).once]
      rfl
    · rw [if_neg hf]
      rw [given_none]
      · rfl
      · intro hm
        rcases ho c List.mem_cons_self with h1 | h1
        · exact hf (hi.2 h1)
        · exact h1 (by cases t <;> exact hm)

theorem Own.sub {cs ds : List Conn} {t : FTree} (ho : Own cs t) (h : ∀ c ∈ ds, c ∈ cs) :
    Own ds t := fun c hc => ho c (h c hc)

theorem inputs_targets (w : World) (t : FTree) : w.inputs t = w.targets t.cls t.ident := by
  cases t <;> rfl

theorem flow_keeps {w : World} {t : FTree} (h : w.flow t = true) : w.keeps t.cls t.ident := by
  cases t with
  | simple i => exact Or.inl (by simp [FTree.cls])
  | sarray i => exact Or.inl (by simp [FTree.cls])
  | node s id ts => exact Or.inr ⟨rfl, h⟩

theorem no_from_prune {e : Where} {target : Nat} {t : FTree} : ∀ (b : Bool) (cs : List Conn),
    (∀ c ∈ cs, c.from t = false) → prune e target t b cs = cs := by
  intro b cs
  induction cs generalizing b with
  | nil => intro _; rfl
  | cons c cs ih =>
    intro h
    rw [prune, if_neg (by rw [h c List.mem_cons_self]; decide),
      ih b fun c hc => h c (List.mem_cons_of_mem _ hc)]

theorem prune_skip {e : Where} {target : Nat} {t : FTree} : ∀ (b : Bool) (as cs : List Conn),
    (∀ c ∈ as, c.from t = false) →
    prune e target t b (as ++ cs) = as ++ prune e target t b cs := by
  intro b as cs
  induction as with
  | nil => intro _; rfl
  | cons c as ih =>
    intro h
    rw [List.cons_append, prune, if_neg (by rw [h c List.mem_cons_self]; decide),
      ih fun c hc => h c (List.mem_cons_of_mem _ hc)]
    rfl

theorem first_from (t : FTree) : ∀ cs : List Conn, (∀ c ∈ cs, c.from t = false) ∨
    ∃ as c bs, cs = as ++ c :: bs ∧ (∀ c ∈ as, c.from t = false) ∧ c.from t = true := by
  intro cs
  induction cs with
  | nil => exact Or.inl (by simp)
  | cons c cs ih =>
    by_cases h : c.from t = true
    · exact Or.inr ⟨[], c, cs, rfl, by simp, h⟩
    · simp only [Bool.not_eq_true] at h
      rcases ih with ih | ⟨as, d, bs, rfl, ha, hd⟩
      · exact Or.inl fun d hd => by
          rcases List.mem_cons.1 hd with rfl | hd
          · exact h
          · exact ih d hd
      · refine Or.inr ⟨c :: as, d, bs, rfl, fun d hd => ?_, hd⟩
        rcases List.mem_cons.1 hd with rfl | hd
        · exact h
        · exact ha d hd

theorem filter_none {t : FTree} {cs : List Conn} (h : ∀ c ∈ cs, c.from t = false) :
    cs.filter (Conn.from t) = [] := by
  rw [List.filter_eq_nil_iff]
  intro c hc; rw [h c hc]; decide

theorem turns (e : Where) (target : Nat) (t : FTree) : ∀ (m i : Nat) (w : World)
    (pre rest : List Conn), w.keeps t.cls t.ident →
    Linked e w (pre ++ rest) → Own (pre ++ rest) t →
    ((pre.filter (Conn.from t)).length = i ∨
      (∀ c ∈ rest, c.from t = false) ∧ (pre.filter (Conn.from t)).length ≤ i) →
    (rest.filter (Conn.from t)).length ≤ m →
    Linked e ((List.range' i m).foldl (turn e target t) w) (pre ++ prune e target t false rest) ∧
    ((List.range' i m).foldl (turn e target t) w).nflow = w.nflow := by
  intro m
  induction m with
  | zero =>
    intro i w pre rest _ h _ _ hm
    have hn : ∀ c ∈ rest, c.from t = false := by
      intro c hc
      by_cases hf : c.from t = true
      · exfalso
        have : c ∈ rest.filter (Conn.from t) := List.mem_filter.2 ⟨hc, hf⟩
        have := List.length_pos_of_mem this
        omega
      · simpa using hf
    rw [no_from_prune _ _ hn]
    exact ⟨h, rfl⟩
  | succ m ih =>
    intro i w pre rest hk h ho hi hm
    rw [List.range'_succ, List.foldl_cons]
    have hin : w.inputs t = ((pre ++ rest).filter (Conn.from t)).map fun c => c.2.ident := by
      rw [inputs_targets, h.built _ _ hk]
      exact gives_key ho h.sound
    have hstop : (∀ c ∈ rest, c.from t = false) → (pre.filter (Conn.from t)).length ≤ i →
        turn e target t w i = w := by
      intro h1 h2
      unfold turn
      rw [hin, List.filter_append, filter_none h1, List.append_nil,
        List.getElem?_eq_none (by simpa using h2)]
    rcases hi with hi | ⟨h1, h2⟩
    · rcases first_from t rest with hn | ⟨as, c, bs, rfl, ha, hc⟩
      · rw [hstop hn (by omega)]
        refine ih (i + 1) w pre rest hk h ho (Or.inr ⟨hn, by omega⟩) ?_
        rw [filter_none hn]; simp
      · have hct : c.1 = t := (from_iff ho h.sound c (by simp)).1 hc
        have hget : (w.inputs t)[i]? = some c.2.ident := by
          rw [hin, List.filter_append, List.filter_append, filter_none ha, List.nil_append,
            List.filter_cons, if_pos hc, List.map_append,
            List.getElem?_append_right (by simp [hi])]
          simp [hi]
        have hfield : e.field t c.2.ident = c.2 := by
          have := (h.sound c (by simp)).known
          rw [hct] at this
          exact this
        have hcls : t.cls = c.2.cls := by
          have := (h.sound c (by simp)).shape
          rw [hct] at this
          cases t <;> cases hu : c.2 <;> rw [hu] at this <;> simp_all [sameShape, FTree.cls]
        have hto : e.inside target t.cls c.2.ident = c.into e target := by
          unfold Conn.into Where.inside; rw [hcls, List.contains_eq_mem]
        rw [prune_skip _ _ _ ha, prune, if_pos hc]
        simp only [List.filter_append, filter_none ha, List.nil_append, List.filter_cons,
          if_pos hc, List.length_cons] at hm
        by_cases hp : c.into e target = true
        · rw [if_pos (by simp [hp])]
          have hturn : turn e target t w i = unlink w t c.2 := by
            unfold turn
            rw [hget]
            simp only
            rw [hto, if_pos hp, hfield]
          rw [hturn, ← hct]
          have hl := unlink_linked (as := pre ++ as) (c := c) (bs := bs)
            (by rw [List.append_assoc]; exact h)
          obtain ⟨hl, hfl⟩ := hl
          have ho' : Own (pre ++ as ++ bs) t := ho.sub (by simp; grind)
          have hk' : (unlink w c.1 c.2).keeps t.cls t.ident := (keeps_congr hfl _ _).2 hk
          rcases first_from t bs with hn | ⟨as', d, bs', rfl, ha', hd⟩
          · have := ih (i + 1) (unlink w c.1 c.2) (pre ++ as ++ bs) [] hk'
              (by simpa using hl) (by simpa using ho')
              (Or.inr ⟨by simp, by
                simp only [List.filter_append, filter_none ha, filter_none hn, List.append_nil]
                omega⟩) (by simp)
            rw [hct] at this ⊢
            rw [no_from_prune _ _ hn]
            simp only [prune, List.append_nil] at this
            rw [← List.append_assoc]
            exact ⟨this.1, by rw [this.2, ← hct, hfl]⟩
          · have := ih (i + 1) (unlink w c.1 c.2) (pre ++ as ++ as' ++ [d]) bs' hk'
              (by simpa using hl) (by simpa using ho')
              (Or.inl (by
                simp only [List.filter_append, filter_none ha, filter_none ha', List.append_nil,
                  List.filter_cons, if_pos hd, List.filter_nil, List.length_append,
                  List.length_cons, List.length_nil]
                omega))
              (by
                simp only [List.filter_append, filter_none ha', List.nil_append,
                  List.filter_cons, if_pos hd, List.length_cons] at hm
                omega)
            rw [hct] at this ⊢
            rw [prune_skip _ _ _ ha', prune, if_pos hd, if_neg (by simp)]
            simp only [List.append_assoc, List.singleton_append] at this
            exact ⟨this.1, by rw [this.2, ← hct, hfl]⟩
        · rw [if_neg (by simp [hp])]
          have hturn : turn e target t w i = w := by
            unfold turn
            rw [hget]
            simp only
            rw [hto, if_neg hp]
          rw [hturn]
          have := ih (i + 1) w (pre ++ as ++ [c]) bs hk (by simpa using h) (by simpa using ho)
            (Or.inl (by
              simp only [List.filter_append, filter_none ha, List.append_nil, List.filter_cons,
                if_pos hc, List.filter_nil, List.length_append, List.length_cons,
                List.length_nil]
              omega))
            (by omega)
          simp only [List.append_assoc, List.singleton_append] at this
          exact this
    · rw [hstop h1 h2]
      refine ih (i + 1) w pre rest hk h ho (Or.inr ⟨h1, by omega⟩) ?_
      rw [filter_none h1]; simp

/-- The loop does to the connections what `prune` says. -/
theorem sweep_linked {e : Where} {target : Nat} {w : World} {t : FTree} {cs : List Conn}
    (hk : w.keeps t.cls t.ident) (h : Linked e w cs) (ho : Own cs t) :
    Linked e (sweep e target w t) (prune e target t false cs) ∧
    (sweep e target w t).nflow = w.nflow := by
  unfold sweep
  rw [List.range_eq_range']
  have hin : w.inputs t = (cs.filter (Conn.from t)).map fun c => c.2.ident := by
    rw [inputs_targets, h.built _ _ hk]
    exact gives_key ho h.sound
  have := turns e target t (w.inputs t).length 0 w [] cs hk (by simpa using h)
    (by simpa using ho) (Or.inl (by simp)) (by rw [hin]; simp)
  simpa using this

/-! ### All the fields -/

mutual
theorem unlink_flow : ∀ t w u x, (unlink w t u).flow x = w.flow x
  | .simple i => by
    intro w u x
    cases u <;> cases x <;> simp only [unlink, World.flow, disconnect, Net.set]
    split
    · rename_i h; subst h; rfl
    · rfl
  | .sarray i => by
    intro w u x
    cases u <;> cases x <;> simp only [unlink, World.flow, adisconnect, Arrs.set]
    split
    · rename_i h; subst h; rfl
    · rfl
  | .node s id ts => by
    intro w u x
    cases u with
    | node s' id' us =>
      simp only [unlink]
      split
      · split
        · rw [unlinks_flow ts]; cases x <;> rfl
        · rfl
      · rw [unlinks_flow ts]
    | simple j => simp only [unlink]
    | sarray j => simp only [unlink]
theorem unlinks_flow : ∀ ts w us x, (unlinks w ts us).flow x = w.flow x
  | [] => by intro w us x; simp [unlinks]
  | t :: ts => by
    intro w us x
    cases us with
    | nil => simp [unlinks]
    | cons u us => simp only [unlinks]; rw [unlinks_flow ts, unlink_flow t]
end

theorem sweep_flow (e : Where) (target : Nat) (w : World) (t x : FTree) :
    (sweep e target w t).flow x = w.flow x := by
  unfold sweep
  generalize List.range _ = is
  induction is generalizing w with
  | nil => rfl
  | cons i is ih =>
    rw [List.foldl_cons, ih]
    unfold turn
    split
    · rfl
    · split
      · rw [unlink_flow]
      · rfl

mutual
theorem flows_congr : ∀ t (w m : World), (∀ x, m.flow x = w.flow x) → flows m t = flows w t
  | .simple i => by intro w m h; simp only [flows, h]
  | .sarray i => by intro w m h; simp only [flows, h]
  | .node s id ts => by
    intro w m h
    simp only [flows, h, flowsList_congr ts w m h]
theorem flowsList_congr : ∀ ts (w m : World), (∀ x, m.flow x = w.flow x) →
    flowsList m ts = flowsList w ts
  | [] => by intro w m h; simp [flowsList]
  | t :: ts => by
    intro w m h
    simp only [flowsList, flows_congr t w m h, flowsList_congr ts w m h]
end

theorem sweeps_flow (e : Where) (target : Nat) (ts : List FTree) (x : FTree) : ∀ w : World,
    (ts.foldl (sweep e target) w).flow x = w.flow x := by
  induction ts with
  | nil => intro w; rfl
  | cons t ts ih => intro w; rw [List.foldl_cons, ih, sweep_flow]

mutual
theorem removeFieldLinks_eq (e : Where) (target : Nat) : ∀ t w,
    removeFieldLinks e target w t = (flows w t).foldl (sweep e target) w
  | .simple i => by
    intro w
    simp only [removeFieldLinks, flows]
    by_cases h : w.flow (.simple i) = true
    · rw [if_pos h, if_pos (show ((w.net i).connectable && (w.net i).output) = true from h)]; rfl
    · rw [if_neg h, if_neg (show ¬ ((w.net i).connectable && (w.net i).output) = true from h)]; rfl
  | .sarray i => by
    intro w
    simp only [removeFieldLinks, flows]
    by_cases h : w.flow (.sarray i) = true
    · rw [if_pos h, if_pos (show ((w.arrs i).connectable && (w.arrs i).output) = true from h)]; rfl
    · rw [if_neg h, if_neg (show ¬ ((w.arrs i).connectable && (w.arrs i).output) = true from h)]; rfl
  | .node s id ts => by
    intro w
    simp only [removeFieldLinks, flows]
    by_cases h : w.flow (.node s id ts) = true
    · rw [if_pos h, if_pos (show w.nflow id = true from h)]; rfl
    · rw [if_neg h, if_neg (show ¬ w.nflow id = true from h)]
      exact removeFieldsLinks_eq e target ts w
theorem removeFieldsLinks_eq (e : Where) (target : Nat) : ∀ ts w,
    removeFieldsLinks e target w ts = (flowsList w ts).foldl (sweep e target) w
  | [] => by intro w; simp [removeFieldsLinks, flowsList]
  | t :: ts => by
    intro w
    simp only [removeFieldsLinks, flowsList, List.foldl_append]
    rw [removeFieldsLinks_eq e target ts, removeFieldLinks_eq e target t]
    rw [flowsList_congr ts w _ (fun x => sweeps_flow e target _ x w)]
end

mutual
theorem flows_flow : ∀ t (w : World), ∀ x ∈ flows w t, w.flow x = true
  | .simple i => by
    intro w x hx
    simp only [flows] at hx
    split at hx
    · rename_i h; rw [List.mem_singleton] at hx; subst hx; exact h
    · cases hx
  | .sarray i => by
    intro w x hx
    simp only [flows] at hx
    split at hx
    · rename_i h; rw [List.mem_singleton] at hx; subst hx; exact h
    · cases hx
  | .node s id ts => by
    intro w x hx
    simp only [flows] at hx
    split at hx
    · rename_i h; rw [List.mem_singleton] at hx; subst hx; exact h
    · exact flowsList_flow ts w x hx
theorem flowsList_flow : ∀ ts (w : World), ∀ x ∈ flowsList w ts, w.flow x = true
  | [] => by intro w x hx; simp [flowsList] at hx
  | t :: ts => by
    intro w x hx
    simp only [flowsList, List.mem_append] at hx
    exact hx.elim (flows_flow t w x) (flowsList_flow ts w x)
end

theorem prune_sublist (e : Where) (target : Nat) (t : FTree) : ∀ (cs : List Conn) (b : Bool),
    (prune e target t b cs).Sublist cs := by
  intro cs
  induction cs with
  | nil => intro b; exact List.Sublist.refl _
  | cons c cs ih =>
    intro b
    rw [prune]
    split
    · split
      · exact (ih true).cons _
      · exact (ih false).cons_cons _
    · exact (ih b).cons_cons _

/-- The sweeps do to the connections what the prunings say. -/
theorem sweeps_linked {e : Where} {target : Nat} : ∀ (ts : List FTree) {w : World}
    {cs : List Conn}, (∀ t ∈ ts, w.flow t = true) → Linked e w cs → (∀ t ∈ ts, Own cs t) →
    Linked e (ts.foldl (sweep e target) w)
      (ts.foldl (fun cs t => prune e target t false cs) cs) := by
  intro ts
  induction ts with
  | nil => intro w cs _ h _; exact h
  | cons t ts ih =>
    intro w cs hf h ho
    rw [List.foldl_cons, List.foldl_cons]
    have hl := sweep_linked (target := target) (flow_keeps (hf t List.mem_cons_self)) h
      (ho t List.mem_cons_self)
    refine ih (fun x hx => ?_) hl.1 fun x hx => ?_
    · rw [sweep_flow]; exact hf x (List.mem_cons_of_mem _ hx)
    · exact (ho x (List.mem_cons_of_mem _ hx)).sub (prune_sublist e target t cs false).subset

/-! ### Prunings -/

/-- The connections that must go. -/
def bad (e : Where) (target : Nat) (t : FTree) (c : Conn) : Bool := c.from t && c.into e target

theorem prune_good (e : Where) (target : Nat) (t : FTree) : ∀ (cs : List Conn) (b : Bool),
    (prune e target t b cs).filter (fun c => !bad e target t c) =
      cs.filter (fun c => !bad e target t c) := by
  intro cs
  induction cs with
  | nil => intro b; rfl
  | cons c cs ih =>
    intro b
    rw [prune]
    by_cases h1 : c.from t = true
    · rw [if_pos h1]
      by_cases h2 : (!b && c.into e target) = true
      · rw [if_pos h2, ih, List.filter_cons, if_neg]
        simp only [Bool.and_eq_true, Bool.not_eq_true'] at h2
        simp [bad, h1, h2.2]
      · rw [if_neg h2, List.filter_cons, List.filter_cons, ih]
    · rw [if_neg h1, List.filter_cons, List.filter_cons, ih]

theorem prune_half (e : Where) (target : Nat) (t : FTree) : ∀ (cs : List Conn) (b : Bool),
    2 * ((prune e target t b cs).filter (bad e target t)).length ≤
      (cs.filter (bad e target t)).length + b.toNat := by
  intro cs
  induction cs with
  | nil => intro b; simp [prune]
  | cons c cs ih =>
    intro b
    rw [prune]
    by_cases h1 : c.from t = true
    · rw [if_pos h1]
      by_cases h3 : c.into e target = true
      · have hb : bad e target t c = true := by simp [bad, h1, h3]
        cases b
        · rw [if_pos (by simp [h3]), List.filter_cons, if_pos hb]
          have := ih true
          simp only [Bool.toNat_true, List.length_cons, Bool.toNat_false] at this ⊢
          omega
        · rw [if_neg (by simp), List.filter_cons, List.filter_cons, if_pos hb, if_pos hb]
          have := ih false
          simp only [Bool.toNat_true, List.length_cons, Bool.toNat_false] at this ⊢
          omega
      · have hb : ¬ bad e target t c = true := by simp [bad, h3]
        rw [if_neg (by simp [h3]), List.filter_cons, List.filter_cons, if_neg hb, if_neg hb]
        have := ih false
        simp only [Bool.toNat_false] at this
        omega
    · have hb : ¬ bad e target t c = true := by simp [bad, h1]
      rw [if_neg h1, List.filter_cons, List.filter_cons, if_neg hb, if_neg hb]
      exact ih b

/-- The next connection of `t` is not into the target. -/
def NextGood (e : Where) (target : Nat) (t : FTree) (cs : List Conn) : Prop :=
  ∀ b r, cs.filter (Conn.from t) = b :: r → b.into e target = false

theorem apart_tail {e : Where} {target : Nat} {t : FTree} {c : Conn} {cs : List Conn}
    (h : Apart e target t (c :: cs)) : Apart e target t cs := by
  intro a b l r hf
  by_cases hc : c.from t = true
  · exact h a b (c :: l) r (by rw [List.filter_cons, if_pos hc, hf]; rfl)
  · exact h a b l r (by rw [List.filter_cons, if_neg hc, hf])

theorem prune_apart (e : Where) (target : Nat) (t : FTree) : ∀ (cs : List Conn) (b : Bool),
    Apart e target t cs → (b = true → NextGood e target t cs) →
    prune e target t b cs = cs.filter (fun c => !bad e target t c) := by
  intro cs
  induction cs with
  | nil => intro b _ _; rfl
  | cons c cs ih =>
    intro b ha hb
    rw [prune]
    by_cases h1 : c.from t = true
    · rw [if_pos h1]
      by_cases h3 : c.into e target = true
      · have hbad : bad e target t c = true := by simp [bad, h1, h3]
        have hbf : b = false := by
          cases b
          · rfl
          · have := hb rfl c (cs.filter (Conn.from t)) (by rw [List.filter_cons, if_pos h1])
            rw [h3] at this; cases this
        subst hbf
        rw [if_pos (by simp [h3]), List.filter_cons, if_neg (by simp [hbad])]
        refine ih true (apart_tail ha) fun _ d r hd => ?_
        have := ha c d [] r (by rw [List.filter_cons, if_pos h1, hd]; rfl)
        simpa [h3] using this
      · rw [if_neg (by simp [h3]), List.filter_cons, if_pos (by simp [bad, h3]),
          ih false (apart_tail ha) (by simp)]
    · rw [if_neg h1, List.filter_cons, if_pos (by simp [bad, h1])]
      rw [ih b (apart_tail ha) fun hbt d r hd => hb hbt d r (by
        rw [List.filter_cons, if_neg h1]; exact hd)]

theorem apart_filter {e : Where} {target : Nat} {t t' : FTree} {cs : List Conn}
    (h : Apart e target t cs) :
    Apart e target t (cs.filter fun c => !bad e target t' c) := by
  intro a b l r hf
  rw [List.filter_filter] at hf
  by_cases hk : t.key = t'.key
  · rintro ⟨h1, _⟩
    have ha : a ∈ l ++ a :: b :: r := by simp
    rw [← hf, List.mem_filter] at ha
    obtain ⟨_, ha⟩ := ha
    simp only [Bool.and_eq_true, Bool.not_eq_true', bad, Conn.from, ← hk] at ha
    have h2 := ha.2
    rw [ha.1, h1] at h2
    cases h2
  · refine h a b l r ?_
    rw [← hf]
    apply List.filter_congr
    intro c _
    by_cases hc : c.from t = true
    · have hc' : c.from t' = false := by
        unfold Conn.from at hc ⊢
        rw [eq_of_beq hc]
        simpa using hk
      simp [bad, hc']
    · simp [hc]

theorem prunes_apart {e : Where} {target : Nat} : ∀ (ts : List FTree) (cs : List Conn),
    (∀ t ∈ ts, Apart e target t cs) →
    ts.foldl (fun cs t => prune e target t false cs) cs =
      cs.filter fun c => !ts.any fun t => bad e target t c := by
  intro ts
  induction ts with
  | nil => intro cs _; exact (List.filter_eq_self.2 fun _ _ => rfl).symm
  | cons t ts ih =>
    intro cs h
    rw [List.foldl_cons, prune_apart e target t cs false (h t List.mem_cons_self) (by simp)]
    rw [ih _ fun x hx => apart_filter (h x (List.mem_cons_of_mem _ hx)), List.filter_filter]
    apply List.filter_congr
    intro c _
    simp only [List.any_cons, Bool.not_or]
    exact Bool.and_comm _ _

theorem prunes_sublist (e : Where) (target : Nat) : ∀ (ts : List FTree) (cs : List Conn),
    (ts.foldl (fun cs t => prune e target t false cs) cs).Sublist cs := by
  intro ts
  induction ts with
  | nil => intro cs; exact List.Sublist.refl _
  | cons t ts ih => intro cs; exact (ih _).trans (prune_sublist e target t cs false)

theorem prunes_good (e : Where) (target : Nat) (p : Conn → Bool) : ∀ (ts : List FTree)
    (cs : List Conn), (∀ t ∈ ts, ∀ c, bad e target t c = true → p c = false) →
    (ts.foldl (fun cs t => prune e target t false cs) cs).filter p = cs.filter p := by
  intro ts
  induction ts with
  | nil => intro cs _; rfl
  | cons t ts ih =>
    intro cs h
    rw [List.foldl_cons, ih _ fun x hx => h x (List.mem_cons_of_mem _ hx)]
    have := prune_good e target t cs false
    have h2 := congrArg (List.filter p) this
    rw [List.filter_filter, List.filter_filter] at h2
    have hp : (fun c => p c && !bad e target t c) = p := by
      funext c
      by_cases hb : bad e target t c = true
      · simp [hb, h t List.mem_cons_self c hb]
      · simp [hb]
    rw [hp] at h2
    exact h2

end Verif.Field
