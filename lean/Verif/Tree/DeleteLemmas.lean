import Verif.Tree.Delete

/-! Lemmas for C123. -/
namespace Verif.Tree.Reent

/-- The running calls of `DeleteComponent` are for the components `cs`, innermost first, and hold
their positions. Of the proof only. -/
structure Good (e : Env) (cap : Nat) (s : St) (cs : List Nat) : Prop where
  asc : s.vec.Pairwise (· < ·)
  below : ∀ x ∈ s.vec, x < s.next
  live : ∀ x ∈ s.vec, x ∉ s.gone
  its : s.its = cs.map fun c => some (s.vec.idxOf c)
  mem : ∀ c ∈ cs, c ∈ s.vec
  desc : cs.Pairwise (· > ·)
  dying : ∀ x ∈ s.dying, x ∈ s.vec → x ∈ cs
  dyingLt : ∀ x ∈ s.dying, x < s.next
  goneLt : ∀ x ∈ s.gone, x < s.next
  nodup : s.gone.Nodup
  cap : s.cap = cap
  size : s.vec.length ≤ e.upper

/-- What a call has done. Of the proof only. -/
structure Did (D : Nat → Prop) (s s' : St) : Prop where
  pre : s.gone <+: s'.gone
  named : ∀ x ∈ s'.gone, x ∉ s.gone → D x
  vec : ∃ new, s'.vec = s.vec.filter (fun x => decide (x ∉ s'.gone)) ++ new ∧ ∀ x ∈ new, s.next ≤ x
  next : s.next ≤ s'.next
  conn : ∀ x, x ∉ s'.gone → s'.conn x = s.conn x
  dead : ∀ x ∈ s'.dying, x ∈ s.dying ∨ x ∈ s'.gone

theorem Good.filter {e cap s cs} (h : Good e cap s cs) :
    s.vec.filter (fun x => decide (x ∉ s.gone)) = s.vec :=
  List.filter_eq_self.2 fun x hx => decide_eq_true (h.live x hx)

theorem Good.notDangling {e cap s cs} (h : Good e cap s cs) : s.dangling = false := by
  unfold St.dangling
  rw [List.any_eq_false]
  intro x hx
  simpa using h.live x hx

theorem Did.refl {D e cap s cs} (h : Good e cap s cs) : Did D s s :=
  ⟨List.prefix_rfl, fun _ h1 h2 => absurd h1 h2,
    ⟨[], by rw [h.filter, List.append_nil], fun _ h => (nomatch h)⟩, Nat.le_refl _,
    fun _ _ => rfl, fun _ h => .inl h⟩

theorem Did.trans {D s t u} (h : Did D s t) (k : Did D t u) : Did D s u := by
  refine ⟨h.pre.trans k.pre, fun x hx hn => ?_, ?_, Nat.le_trans h.next k.next, fun x hx => ?_,
    fun x hx => ?_⟩
  · by_cases ht : x ∈ t.gone
    · exact h.named x ht hn
    · exact k.named x hx ht
  · obtain ⟨n, hn, hl⟩ := h.vec
    obtain ⟨m, hm, hl'⟩ := k.vec
    refine ⟨n.filter (fun x => decide (x ∉ u.gone)) ++ m, ?_, ?_⟩
    · rw [hm, hn, List.filter_append, List.filter_filter, List.append_assoc]
      congr 1
      apply List.filter_congr
      intro x _
      by_cases hx : x ∈ u.gone
      · simp [hx]
      · have : x ∉ t.gone := fun h => hx (k.pre.subset h)
        simp [hx, this]
    · intro x hx
      rcases List.mem_append.1 hx with hx | hx
      · exact hl x (List.mem_filter.1 hx).1
      · exact Nat.le_trans h.next (hl' x hx)
  · rw [k.conn x hx, h.conn x fun h => hx (k.pre.subset h)]
  · rcases k.dead x hx with h1 | h1
    · exact (h.dead x h1).imp id fun h => k.pre.subset h
    · exact .inr h1

/-- Positions of a list in increasing order. -/
theorem idxOf_lt {l : List Nat} (h : l.Pairwise (· < ·)) {a b : Nat} (ha : a ∈ l) (hb : b ∈ l)
    (hab : a < b) : l.idxOf a < l.idxOf b := by
  have h1 := List.idxOf_lt_length_of_mem ha
  have h2 := List.idxOf_lt_length_of_mem hb
  rcases Nat.lt_trichotomy (l.idxOf a) (l.idxOf b) with h3 | h3 | h3
  · exact h3
  · have e1 := List.getElem_idxOf h1
    have e2 := List.getElem_idxOf h2
    simp only [h3] at e1
    omega
  · have := List.pairwise_iff_getElem.1 h _ _ h2 h1 h3
    rw [List.getElem_idxOf, List.getElem_idxOf] at this
    omega

theorem idxOf_erase {l : List Nat} (h : l.Pairwise (· < ·)) {a b : Nat} (ha : a ∈ l)
    (hab : a < b) : (l.erase b).idxOf a = l.idxOf a := by
  induction l with
  | nil => cases ha
  | cons x l ih =>
    have hp := List.pairwise_cons.1 h
    by_cases hx : x = b
    · subst hx
      rcases List.mem_cons.1 ha with rfl | ha'
      · omega
      · have := hp.1 a ha'
        omega
    · rw [List.erase_cons_tail (by simpa using hx)]
      by_cases hxa : x = a
      · subst hxa
        simp
      · rcases List.mem_cons.1 ha with rfl | ha'
        · exact absurd rfl hxa
        · rw [List.idxOf_cons, List.idxOf_cons, ih hp.2 ha']

theorem erase_filter {l : List Nat} (h : l.Pairwise (· < ·)) (c : Nat) :
    l.erase c = l.filter fun x => decide (x ≠ c) := by
  have : l.Nodup := h.imp (fun h => Nat.ne_of_lt h)
  rw [this.erase_eq_filter]
  apply List.filter_congr
  intro x _
  by_cases hx : x = c <;> simp [hx]

theorem eraseIdx_idxOf (l : List Nat) (c : Nat) : l.eraseIdx (l.idxOf c) = l.erase c :=
  (List.erase_eq_eraseIdx_of_idxOf rfl).symm

/-- The insertion of a new component. -/
theorem Good.pushed {D : Nat → Prop} {e cap s cs} (h : Good e cap s cs) (hroom : e.upper ≤ cap)
    (hsz : s.vec.length < e.upper) :
    Good e cap { s.push s.next with next := s.next + 1 } cs ∧
    Did D s { s.push s.next with next := s.next + 1 } := by
  have hp : s.push s.next = { s with vec := s.vec ++ [s.next] } := by
    unfold St.push
    rw [if_pos (by have := h.cap; omega)]
  rw [hp]
  refine ⟨⟨?_, ?_, ?_, ?_, ?_, h.desc, ?_, ?_, ?_, h.nodup, h.cap, ?_⟩, List.prefix_rfl, ?_,
    ⟨[s.next], ?_, ?_⟩, Nat.le_succ _, fun _ _ => rfl, fun _ h => .inl h⟩
  · show (s.vec ++ [s.next]).Pairwise (· < ·)
    rw [List.pairwise_append]
    refine ⟨h.asc, List.pairwise_singleton _ _, fun a ha b hb => ?_⟩
    rw [List.mem_singleton.1 hb]
    exact h.below a ha
  · intro x hx
    rcases List.mem_append.1 hx with hx | hx
    · exact Nat.lt_succ_of_lt (h.below x hx)
    · rw [List.mem_singleton.1 hx]; exact Nat.lt_succ_self _
  · intro x hx hg
    rcases List.mem_append.1 hx with hx | hx
    · exact h.live x hx hg
    · rw [List.mem_singleton.1 hx] at hg
      exact Nat.lt_irrefl _ (h.goneLt _ hg)
  · show s.its = _
    rw [h.its]
    apply List.map_congr_left
    intro c hc
    show some _ = some ((s.vec ++ [s.next]).idxOf c)
    rw [List.idxOf_append, if_pos (h.mem c hc)]
  · intro c hc
    exact List.mem_append_left _ (h.mem c hc)
  · intro x hx hv
    rcases List.mem_append.1 hv with hv | hv
    · exact h.dying x hx hv
    · rw [List.mem_singleton.1 hv] at hx
      exact absurd (h.dyingLt _ hx) (Nat.lt_irrefl _)
  · intro x hx; exact Nat.lt_succ_of_lt (h.dyingLt x hx)
  · intro x hx; exact Nat.lt_succ_of_lt (h.goneLt x hx)
  · show (s.vec ++ [s.next]).length ≤ e.upper
    rw [List.length_append]; exact hsz
  · intro x hx hn; exact absurd hx hn
  · show s.vec ++ [s.next] = _
    rw [show (s.vec.filter fun x => decide (x ∉ s.gone)) = s.vec from h.filter]
  · intro x hx; rw [List.mem_singleton.1 hx]; exact Nat.le_refl _

theorem Good.skipped {D : Nat → Prop} {e cap s cs} (h : Good e cap s cs) :
    Good e cap { s with next := s.next + 1 } cs ∧ Did D s { s with next := s.next + 1 } :=
  ⟨⟨h.asc, fun x hx => Nat.lt_succ_of_lt (h.below x hx), h.live, h.its, h.mem, h.desc, h.dying,
    fun x hx => Nat.lt_succ_of_lt (h.dyingLt x hx), fun x hx => Nat.lt_succ_of_lt (h.goneLt x hx),
    h.nodup, h.cap, h.size⟩,
   ⟨List.prefix_rfl, fun x hx hn => absurd hx hn,
    ⟨[], by
      show s.vec = _
      rw [show (s.vec.filter fun x => decide (x ∉ s.gone)) = s.vec from h.filter,
        List.append_nil], fun _ h => (nomatch h)⟩, Nat.le_succ _, fun _ _ => rfl,
    fun _ h => .inl h⟩⟩

theorem add_spec {D : Nat → Prop} {e cap s cs} (h : Good e cap s cs) (hroom : e.upper ≤ cap)
    (refused : Bool) :
    ((add e refused s).2 = .ok ∨ (add e refused s).2 = .thrown) ∧
    Good e cap (add e refused s).1 cs ∧ Did D s (add e refused s).1 := by
  unfold add
  rw [h.notDangling]
  by_cases h1 : e.upper ≤ s.vec.length
  · rw [if_pos h1]
    exact ⟨.inr rfl, h.skipped⟩
  · rw [if_neg h1, if_neg (by decide)]
    cases refused
    · exact ⟨.inl rfl, h.pushed hroom (by omega)⟩
    · exact ⟨.inr rfl, h.skipped⟩

/-- The end of `DeleteComponent`: the component is destroyed and erased. -/
theorem Good.erased {D : Nat → Prop} {e cap s c cs} (h : Good e cap s (c :: cs)) (hD : D c) :
    ∃ its, s.its = some (s.vec.idxOf c) :: its ∧
      Good e cap (({ s with gone := s.gone ++ [c], its := its } : St).erase (s.vec.idxOf c)) cs ∧
      (∀ t, Did D t s → Did D t
        (({ s with gone := s.gone ++ [c], its := its } : St).erase (s.vec.idxOf c))) := by
  have hdes := List.pairwise_cons.1 h.desc
  have hc : c ∈ s.vec := h.mem c (List.mem_cons_self ..)
  have hitem : ∀ d ∈ cs, d ∈ s.vec ∧ d < c := fun d hd =>
    ⟨h.mem d (List.mem_cons_of_mem _ hd), hdes.1 d hd⟩
  have hvec : s.vec.eraseIdx (s.vec.idxOf c) = s.vec.filter fun x => decide (x ≠ c) := by
    rw [eraseIdx_idxOf, erase_filter h.asc]
  refine ⟨cs.map fun c => some (s.vec.idxOf c), by rw [h.its]; rfl, ?_, ?_⟩
  · refine ⟨?_, ?_, ?_, ?_, ?_, hdes.2, ?_, h.dyingLt, ?_, ?_, h.cap, ?_⟩
    · show (s.vec.eraseIdx _).Pairwise _
      rw [hvec]
      exact h.asc.filter _
    · show ∀ x ∈ s.vec.eraseIdx _, _
      rw [hvec]
      intro x hx
      exact h.below x (List.mem_filter.1 hx).1
    · show ∀ x ∈ s.vec.eraseIdx _, x ∉ s.gone ++ [c]
      rw [hvec]
      intro x hx hg
      have := List.mem_filter.1 hx
      rcases List.mem_append.1 hg with hg | hg
      · exact h.live x this.1 hg
      · exact of_decide_eq_true this.2 (List.mem_singleton.1 hg)
    · show (cs.map fun c => some (s.vec.idxOf c)).map _ =
        cs.map fun d => some ((s.vec.eraseIdx (s.vec.idxOf c)).idxOf d)
      rw [List.map_map]
      apply List.map_congr_left
      intro d hd
      show (if s.vec.idxOf d < s.vec.idxOf c then some (s.vec.idxOf d) else none) = _
      rw [if_pos (idxOf_lt h.asc (hitem d hd).1 hc (hitem d hd).2), eraseIdx_idxOf,
        idxOf_erase h.asc (hitem d hd).1 (hitem d hd).2]
    · intro d hd
      show d ∈ s.vec.eraseIdx _
      rw [hvec]
      exact List.mem_filter.2 ⟨(hitem d hd).1, decide_eq_true (by have := (hitem d hd).2; omega)⟩
    · show ∀ x ∈ s.dying, x ∈ s.vec.eraseIdx _ → x ∈ cs
      rw [hvec]
      intro x hx hv
      have hv := List.mem_filter.1 hv
      rcases List.mem_cons.1 (h.dying x hx hv.1) with rfl | h
      · exact absurd rfl (of_decide_eq_true hv.2)
      · exact h
    · intro x hx
      rcases List.mem_append.1 hx with hx | hx
      · exact h.goneLt x hx
      · rw [List.mem_singleton.1 hx]; exact h.below c hc
    · show (s.gone ++ [c]).Nodup
      rw [List.nodup_append]
      refine ⟨h.nodup, by simp, ?_⟩
      intro a ha b hb hab
      rw [List.mem_singleton.1 hb] at hab
      subst hab
      exact h.live _ hc ha
    · show (s.vec.eraseIdx _).length ≤ _
      rw [hvec]
      exact Nat.le_trans (List.length_filter_le ..) h.size
  · intro t ht
    refine ⟨ht.pre.trans (List.prefix_append _ _), ?_, ?_, ht.next, ?_, ?_⟩
    · intro x hx hn
      rcases List.mem_append.1 hx with hx | hx
      · exact ht.named x hx hn
      · rw [List.mem_singleton.1 hx]; exact hD
    · obtain ⟨n, hn, hl⟩ := ht.vec
      refine ⟨n.filter fun x => decide (x ≠ c), ?_, fun x hx => hl x (List.mem_filter.1 hx).1⟩
      show s.vec.eraseIdx _ = t.vec.filter (fun x => decide (x ∉ s.gone ++ [c])) ++ _
      rw [hvec, hn, List.filter_append, List.filter_filter]
      congr 1
      apply List.filter_congr
      intro x _
      by_cases h1 : x = c <;> by_cases h2 : x ∈ s.gone <;> simp [h1, h2]
    · intro x hx
      exact ht.conn x fun h => hx (List.mem_append_left _ h)
    · intro x hx
      exact (ht.dead x hx).imp id fun h => List.mem_append_left _ h

/-- Hooks delete only components that came after their own, and add none if there is no room. -/
structure Hooks (e : Env) (cap : Nat) (D : Nat → Prop) : Prop where
  later : ∀ k c s x a, .del x a ∈ e.hook k c s → c < x
  room : ∀ k c s r a, .add r a ∈ e.hook k c s → e.upper ≤ cap
  named : ∀ k c s x a, .del x a ∈ e.hook k c s → D x

/-- What is proved of a call that has ended or has been left by an exception. -/
def Fine (e : Env) (cap : Nat) (D : Nat → Prop) (cs : List Nat) (s : St) (r : St × Res) : Prop :=
  r.2 ≠ .undefined ∧ (r.2 = .ok ∨ r.2 = .thrown → Good e cap r.1 cs ∧ Did D s r.1)

theorem Did.trivial {D : Nat → Prop} {e cap s t cs} (h : Good e cap s cs) (hv : t.vec = s.vec)
    (hg : t.gone = s.gone) (hn : t.next = s.next) (hc : t.conn = s.conn) (hd : t.dying = s.dying) :
    Did D s t := by
  refine ⟨by rw [hg]; exact List.prefix_rfl, by rw [hg]; exact fun _ h1 h2 => absurd h1 h2,
    ⟨[], by rw [hg, hv, h.filter, List.append_nil], fun _ h => (nomatch h)⟩,
    Nat.le_of_eq hn.symm, fun _ _ => by rw [hc], fun _ h => .inl (by rw [hd] at h; exact h)⟩

/-- A call of `DeleteComponent` begins. -/
theorem Good.entered {e cap s c cs} (h : Good e cap s cs) (hc : c ∈ s.vec) (hl : ∀ d ∈ cs, d < c) :
    Good e cap { s with its := some (s.vec.idxOf c) :: s.its } (c :: cs) :=
  ⟨h.asc, h.below, h.live, by
      show some _ :: s.its = _
      rw [h.its]; rfl,
    fun d hd => by
      rcases List.mem_cons.1 hd with rfl | hd
      · exact hc
      · exact h.mem d hd,
    List.pairwise_cons.2 ⟨fun d hd => hl d hd, h.desc⟩,
    fun x hx hv => List.mem_cons_of_mem _ (h.dying x hx hv), h.dyingLt, h.goneLt, h.nodup, h.cap,
    h.size⟩

/-- A call of `DeleteComponent` is left by an exception. -/
theorem Good.left {e cap s c cs} (h : Good e cap s (c :: cs)) (hd : c ∉ s.dying) :
    Good e cap { s with its := s.its.tail } cs :=
  ⟨h.asc, h.below, h.live, by
      show s.its.tail = _
      rw [h.its]; rfl,
    fun d hd => h.mem d (List.mem_cons_of_mem _ hd), (List.pairwise_cons.1 h.desc).2,
    fun x hx hv => by
      rcases List.mem_cons.1 (h.dying x hx hv) with rfl | h
      · exact absurd hx hd
      · exact h,
    h.dyingLt, h.goneLt, h.nodup, h.cap, h.size⟩

theorem run_spec {e cap D} (f : Nat)
    (ih1 : ∀ c s cs, Good e cap s cs → (∀ d ∈ cs, d < c) → D c →
      Fine e cap D cs s (del e f c s))
    (ih4 : ∀ os s cs, Good e cap s cs → (∀ x a, .del x a ∈ os → (∀ d ∈ cs, d < x) ∧ D x) →
      (∀ r a, .add r a ∈ os → e.upper ≤ cap) → Fine e cap D cs s (run e f os s))
    (os : List Op) (s : St) (cs : List Nat) (h : Good e cap s cs)
    (hd : ∀ x a, .del x a ∈ os → (∀ d ∈ cs, d < x) ∧ D x)
    (ha : ∀ r a, .add r a ∈ os → e.upper ≤ cap) : Fine e cap D cs s (run e (f + 1) os s) := by
  cases os with
  | nil =>
    rw [run]
    exact ⟨nofun, fun _ => ⟨h, .refl h⟩⟩
  | cons o os =>
    have hd' : ∀ x a, .del x a ∈ os → (∀ d ∈ cs, d < x) ∧ D x := fun x a hx =>
      hd x a (List.mem_cons_of_mem _ hx)
    have ha' : ∀ r a, .add r a ∈ os → e.upper ≤ cap := fun r a hx =>
      ha r a (List.mem_cons_of_mem _ hx)
    have key : ∀ r : St × Res, Fine e cap D cs s r → Fine e cap D cs s (match r with
        | (s, .ok) => run e f os s
        | (s, .thrown) => if o.caught then run e f os s else (s, .thrown)
        | r => r) := by
      intro r hr
      obtain ⟨t, r⟩ := r
      have next : Good e cap t cs ∧ Did D s t → Fine e cap D cs s (run e f os t) := fun ⟨g, d⟩ =>
        ⟨(ih4 os t cs g hd' ha').1, fun hk =>
          ⟨((ih4 os t cs g hd' ha').2 hk).1, d.trans ((ih4 os t cs g hd' ha').2 hk).2⟩⟩
      cases r with
      | ok => exact next (hr.2 (.inl rfl))
      | thrown =>
        show Fine e cap D cs s (if o.caught then run e f os t else (t, .thrown))
        split
        · exact next (hr.2 (.inr rfl))
        · exact hr
      | undefined => exact hr
      | terminated => exact hr
      | deep => exact hr
    cases o with
    | add r a =>
      rw [run]
      apply key
      have := add_spec (D := D) h (ha r a (List.mem_cons_self ..)) r
      exact ⟨fun hu => (by rcases this.1 with h | h <;> rw [h] at hu <;> exact nomatch hu),
        fun _ => this.2⟩
    | del x a =>
      rw [run]
      exact key _ <| ih1 x s cs h (hd x a (List.mem_cons_self ..)).1 (hd x a (List.mem_cons_self ..)).2

/-- What is proved of `Disconnect`. -/
def FineDisc (e : Env) (cap : Nat) (D : Nat → Prop) (c : Nat) (cs : List Nat) (s : St)
    (r : St × Res) : Prop :=
  r.2 ≠ .undefined ∧ (r.2 = .ok ∨ r.2 = .thrown → (c ∉ s.dying → c ∉ r.1.dying) ∧
    Good e cap r.1 (c :: cs) ∧ ∀ t, (r.2 = .ok → c ∈ t.gone) → Did D r.1 t → Did D s t)

theorem disc_spec {e cap D} (H : Hooks e cap D) (f : Nat)
    (ih4 : ∀ os s cs, Good e cap s cs → (∀ x a, .del x a ∈ os → (∀ d ∈ cs, d < x) ∧ D x) →
      (∀ r a, .add r a ∈ os → e.upper ≤ cap) → Fine e cap D cs s (run e f os s))
    (c : Nat) (s : St) (cs : List Nat) (h : Good e cap s (c :: cs)) :
    FineDisc e cap D c cs s (disconnect e (f + 1) c s) := by
  rw [disconnect]
  have hlt : ∀ d ∈ cs, d < c := (List.pairwise_cons.1 h.desc).1
  cases hc : s.conn c
  · rw [if_neg (by decide)]
    exact ⟨nofun, fun _ => ⟨id, h, fun t _ d => d⟩⟩
  · rw [if_pos rfl]
    have hr := ih4 (e.hook .disconnect c s) s (c :: cs) h (fun x a hx =>
      ⟨fun d hd => by
        have := H.later _ _ _ _ _ hx
        rcases List.mem_cons.1 hd with rfl | hd
        · exact this
        · exact Nat.lt_trans (hlt d hd) this, H.named _ _ _ _ _ hx⟩)
      (fun r a hx => H.room _ _ _ _ _ hx)
    revert hr
    generalize run e f (e.hook .disconnect c s) s = r
    intro hr
    obtain ⟨t, r⟩ := r
    have dy : Did D s t → Good e cap t (c :: cs) → c ∉ s.dying → c ∉ t.dying := fun d g hn hx => by
      rcases d.dead c hx with h1 | h1
      · exact hn h1
      · exact g.live c (g.mem c (List.mem_cons_self ..)) h1
    cases r with
    | ok =>
      obtain ⟨g, d⟩ := hr.2 (.inl rfl)
      dsimp only
      rw [if_neg (g.live c (g.mem c (List.mem_cons_self ..)))]
      split
      · refine ⟨nofun, fun _ => ⟨dy d g, ⟨g.asc, g.below, g.live, g.its, g.mem, g.desc, g.dying,
          g.dyingLt, g.goneLt, g.nodup, g.cap, g.size⟩, fun u hu k => ?_⟩⟩
        have hu := hu rfl
        refine d.trans ⟨k.pre, k.named, k.vec, k.next, fun x hx => ?_, k.dead⟩
        rw [k.conn x hx]
        show (if x = c then false else t.conn x) = _
        rw [if_neg (fun h : x = c => hx (h ▸ hu))]
      · exact ⟨nofun, fun _ => ⟨dy d g, g, fun u _ k => d.trans k⟩⟩
    | thrown =>
      obtain ⟨g, d⟩ := hr.2 (.inr rfl)
      exact ⟨nofun, fun _ => ⟨dy d g, g, fun u _ k => d.trans k⟩⟩
    | undefined => exact absurd rfl hr.1
    | terminated => exact ⟨nofun, fun h => by rcases h with h | h <;> cases h⟩
    | deep => exact ⟨nofun, fun h => by rcases h with h | h <;> cases h⟩

/-- What is proved of `delete component`. -/
def FineDestroy (e : Env) (cap : Nat) (D : Nat → Prop) (c : Nat) (cs : List Nat) (s : St)
    (r : St × Res) : Prop :=
  r.2 ≠ .undefined ∧ r.2 ≠ .thrown ∧ (r.2 = .ok → ∃ t, Good e cap t (c :: cs) ∧
    r.1 = { t with gone := t.gone ++ [c] } ∧ ∀ u, c ∈ u.gone → Did D t u → Did D s u)

theorem destroy_spec {e cap D} (H : Hooks e cap D) (f : Nat)
    (ih4 : ∀ os s cs, Good e cap s cs → (∀ x a, .del x a ∈ os → (∀ d ∈ cs, d < x) ∧ D x) →
      (∀ r a, .add r a ∈ os → e.upper ≤ cap) → Fine e cap D cs s (run e f os s))
    (c : Nat) (s : St) (cs : List Nat) (h : Good e cap s (c :: cs)) (hc : c ∉ s.dying) :
    FineDestroy e cap D c cs s (destroy e (f + 1) c s) := by
  rw [destroy, if_neg hc]
  have hlt : ∀ d ∈ cs, d < c := (List.pairwise_cons.1 h.desc).1
  have hmem : c ∈ s.vec := h.mem c (List.mem_cons_self ..)
  have g0 : Good e cap { s with dying := c :: s.dying } (c :: cs) :=
    ⟨h.asc, h.below, h.live, h.its, h.mem, h.desc, fun x hx hv => by
      rcases List.mem_cons.1 hx with rfl | hx
      · exact List.mem_cons_self ..
      · exact h.dying x hx hv, fun x hx => by
      rcases List.mem_cons.1 hx with rfl | hx
      · exact h.below _ hmem
      · exact h.dyingLt x hx, h.goneLt, h.nodup, h.cap, h.size⟩
  have hr := ih4 (e.hook .destroy c { s with dying := c :: s.dying })
    { s with dying := c :: s.dying } (c :: cs) g0 (fun x a hx =>
      ⟨fun d hd => by
        have := H.later _ _ _ _ _ hx
        rcases List.mem_cons.1 hd with rfl | hd
        · exact this
        · exact Nat.lt_trans (hlt d hd) this, H.named _ _ _ _ _ hx⟩)
      (fun r a hx => H.room _ _ _ _ _ hx)
  revert hr
  generalize run e f _ _ = r
  intro hr
  obtain ⟨t, r⟩ := r
  cases r with
  | ok =>
    obtain ⟨g, d⟩ := hr.2 (.inl rfl)
    refine ⟨nofun, nofun, fun _ => ⟨t, g, rfl, fun u hu k => ?_⟩⟩
    have dk := d.trans k
    refine ⟨dk.pre, dk.named, dk.vec, dk.next, dk.conn, fun x hx => ?_⟩
    rcases dk.dead x hx with h1 | h1
    · rcases List.mem_cons.1 h1 with rfl | h1
      · exact .inr hu
      · exact .inl h1
    · exact .inr h1
  | thrown => exact ⟨nofun, nofun, nofun⟩
  | undefined => exact absurd rfl hr.1
  | terminated => exact ⟨nofun, nofun, nofun⟩
  | deep => exact ⟨nofun, nofun, nofun⟩

/-- What is proved of `DeleteComponent`. -/
def FineDel (e : Env) (cap : Nat) (D : Nat → Prop) (c : Nat) (cs : List Nat) (s : St)
    (r : St × Res) : Prop :=
  Fine e cap D cs s r ∧ (r.2 = .ok → c ∉ r.1.vec ∧ (c ∈ s.vec → c ∈ r.1.gone)) ∧
  (r.2 = .thrown → c ∈ s.vec ∧ c ∈ r.1.vec)

theorem del_spec {e cap D} (f : Nat)
    (ih2 : ∀ c s cs, Good e cap s (c :: cs) → FineDisc e cap D c cs s (disconnect e f c s))
    (ih3 : ∀ c s cs, Good e cap s (c :: cs) → c ∉ s.dying →
      FineDestroy e cap D c cs s (destroy e f c s))
    (c : Nat) (s : St) (cs : List Nat) (h : Good e cap s cs) (hlt : ∀ d ∈ cs, d < c) (hD : D c) :
    FineDel e cap D c cs s (del e (f + 1) c s) := by
  rw [del, if_neg (by rw [h.notDangling]; decide)]
  by_cases hc : c ∈ s.vec
  · rw [if_pos hc]
    by_cases hlow : s.vec.length ≤ e.lower
    · rw [if_pos hlow]
      exact ⟨⟨nofun, fun _ => ⟨h, .refl h⟩⟩, nofun, fun _ => ⟨hc, hc⟩⟩
    · rw [if_neg hlow]
      have g0 := h.entered hc hlt
      have hnd : c ∉ s.dying := fun hx => Nat.lt_irrefl _ (hlt c (h.dying c hx hc))
      have h2 := ih2 c _ cs g0
      revert h2
      generalize disconnect e f c _ = r
      intro h2
      obtain ⟨t, r⟩ := r
      cases r with
      | ok =>
        obtain ⟨dy, g, k⟩ := h2.2 (.inl rfl)
        have h3 := ih3 c t cs g (dy hnd)
        dsimp only
        revert h3
        generalize destroy e f c t = r
        intro h3
        obtain ⟨u, r⟩ := r
        cases r with
        | ok =>
          obtain ⟨v, gv, hv, kv⟩ := h3.2.2 rfl
          dsimp only at hv
          obtain ⟨its, hi, ge, kd⟩ := gv.erased hD
          subst hv
          dsimp only
          rw [hi]
          dsimp only
          have hin : c ∈ (({ v with gone := v.gone ++ [c], its := its } : St).erase
              (v.vec.idxOf c)).gone := List.mem_append_right _ (List.mem_singleton.2 rfl)
          have d := k _ (fun _ => hin) (kv _ hin (kd v (.refl gv)))
          refine ⟨⟨nofun, fun _ => ⟨ge, ?_⟩⟩, fun _ => ⟨fun hx => ge.live c hx hin, fun _ => hin⟩, nofun⟩
          exact ⟨d.pre, d.named, d.vec, d.next, d.conn, d.dead⟩
        | thrown => exact absurd rfl h3.2.1
        | undefined => exact absurd rfl h3.1
        | terminated => exact ⟨⟨nofun, fun h => by rcases h with h | h <;> cases h⟩, nofun, nofun⟩
        | deep => exact ⟨⟨nofun, fun h => by rcases h with h | h <;> cases h⟩, nofun, nofun⟩
      | thrown =>
        obtain ⟨dy, g, k⟩ := h2.2 (.inr rfl)
        have d := k t nofun (.refl g)
        exact ⟨⟨nofun, fun _ => ⟨g.left (dy hnd), ⟨d.pre, d.named, d.vec, d.next, d.conn, d.dead⟩⟩⟩,
          nofun, fun _ => ⟨hc, g.mem c (List.mem_cons_self ..)⟩⟩
      | undefined => exact absurd rfl h2.1
      | terminated => exact ⟨⟨nofun, fun h => by rcases h with h | h <;> cases h⟩, nofun, nofun⟩
      | deep => exact ⟨⟨nofun, fun h => by rcases h with h | h <;> cases h⟩, nofun, nofun⟩
  · rw [if_neg hc]
    exact ⟨⟨nofun, fun _ => ⟨h, .refl h⟩⟩, fun _ => ⟨hc, fun h => absurd h hc⟩, nofun⟩

theorem spec {e cap D} (H : Hooks e cap D) (f : Nat) :
    (∀ c s cs, Good e cap s cs → (∀ d ∈ cs, d < c) → D c →
      FineDel e cap D c cs s (del e f c s)) ∧
    (∀ c s cs, Good e cap s (c :: cs) → FineDisc e cap D c cs s (disconnect e f c s)) ∧
    (∀ c s cs, Good e cap s (c :: cs) → c ∉ s.dying →
      FineDestroy e cap D c cs s (destroy e f c s)) ∧
    (∀ os s cs, Good e cap s cs → (∀ x a, .del x a ∈ os → (∀ d ∈ cs, d < x) ∧ D x) →
      (∀ r a, .add r a ∈ os → e.upper ≤ cap) → Fine e cap D cs s (run e f os s)) := by
  induction f with
  | zero =>
    refine ⟨fun c s cs _ _ _ => ?_, fun c s cs _ => ?_, fun c s cs _ _ => ?_, fun os s cs _ _ _ => ?_⟩
    · rw [del]; exact ⟨⟨nofun, fun h => by rcases h with h | h <;> cases h⟩, nofun, nofun⟩
    · rw [disconnect]; exact ⟨nofun, fun h => by rcases h with h | h <;> cases h⟩
    · rw [destroy]; exact ⟨nofun, nofun, nofun⟩
    · rw [run]; exact ⟨nofun, fun h => by rcases h with h | h <;> cases h⟩
  | succ f ih =>
    obtain ⟨ih1, ih2, ih3, ih4⟩ := ih
    exact ⟨del_spec f ih2 ih3, disc_spec H f ih4, destroy_spec H f ih4,
      run_spec f (fun c s cs h hl hD => (ih1 c s cs h hl hD).1) ih4⟩

end Verif.Tree.Reent
