import Verif.Sim.MatchedSpec

/-! Lemmas for C138 and C139. -/
namespace Verif.Sim.Matched
open Verif.Tree (LState)

/-- The life of a component in a state. -/
def pat (c : Nat) : LState → List Obs
  | .created | .publishing | .configured => []
  | .connected => [.connect c]
  | .disconnected => [.connect c, .disconnect c]

theorem life_append (c : Nat) (a b : List Obs) : life c (a ++ b) = life c a ++ life c b :=
  List.filter_append ..

theorem life_nil (c : Nat) : life c [] = [] := rfl

/-- A part of the trace that says nothing about connections. -/
theorem life_calls (d c : Nat) (l : List (Nat × SvcOp)) :
    ∀ w, ∃ t, (calls c l w).tr = w.tr ++ t ∧ life d t = [] ∧ (calls c l w).off = w.off := by
  induction l with
  | nil => intro w; exact ⟨[], by simp [calls], rfl, rfl⟩
  | cons x l ih =>
    obtain ⟨s, op⟩ := x
    intro w
    unfold calls
    split
    · exact ⟨[], by simp, rfl, rfl⟩
    · obtain ⟨t, h1, h2, h3⟩ := ih { w with tr := w.tr ++ [.called c s] }
      refine ⟨.called c s :: t, ?_, ?_, h3⟩
      · rw [h1]; simp
      · have : life d (.called c s :: t) = life d t := by simp [life]
        rw [this, h2]

/-- `calls` either crashes or leaves the result as it was. -/
theorem calls_res (c : Nat) (l : List (Nat × SvcOp)) :
    ∀ w, (calls c l w).res = .crash ∨ (calls c l w).res = w.res := by
  induction l with
  | nil => intro w; exact .inr rfl
  | cons x l ih =>
    obtain ⟨s, op⟩ := x
    intro w
    unfold calls
    split
    · exact .inl rfl
    · exact ih _

theorem calls_mild (c : Nat) (l : List (Nat × SvcOp)) :
    ∀ w, (∀ x ∈ l, x.2.follows = true → x.1 ∉ w.off) → (calls c l w).res = w.res := by
  induction l with
  | nil => intro w _; rfl
  | cons x l ih =>
    obtain ⟨s, op⟩ := x
    intro w h
    unfold calls
    rw [if_neg]
    · rw [ih]
      intro y hy
      exact h y (List.mem_cons_of_mem _ hy)
    · intro hh
      rw [Bool.and_eq_true, List.contains_iff_mem] at hh
      exact h _ List.mem_cons_self hh.1 hh.2

theorem calls_crash (c : Nat) (l : List (Nat × SvcOp)) :
    ∀ w, (∃ x ∈ l, x.2.follows = true ∧ x.1 ∈ w.off) → (calls c l w).res = .crash := by
  induction l with
  | nil => intro w h; obtain ⟨x, hx, _⟩ := h; cases hx
  | cons x l ih =>
    obtain ⟨s, op⟩ := x
    intro w h
    unfold calls
    by_cases hc : (op.follows && w.off.contains s) = true
    · rw [if_pos hc]
    · rw [if_neg hc]
      apply ih
      obtain ⟨y, hy, h1, h2⟩ := h
      rcases List.mem_cons.1 hy with rfl | hy'
      · refine absurd ?_ hc
        rw [Bool.and_eq_true, List.contains_iff_mem]
        exact ⟨h1, h2⟩
      · exact ⟨y, hy', h1, h2⟩

/-- From `L` to `L'`, having seen `l`. -/
structure Trans (L L' : List (Nat × LState)) (l : List Obs) : Prop where
  ids : L'.map (·.1) = L.map (·.1)
  out : ∀ d, d ∉ L.map (·.1) → life d l = []
  pats : ∀ c x, (c, x) ∈ L' → ∃ y, (c, y) ∈ L ∧ pat c y ++ life c l = pat c x

theorem Trans.refl (L : List (Nat × LState)) : Trans L L [] :=
  ⟨rfl, fun _ _ => rfl, fun c x h => ⟨x, h, by simp [life]⟩⟩

theorem mem_ids {L : List (Nat × LState)} {c x} (h : (c, x) ∈ L) : c ∈ L.map (·.1) :=
  List.mem_map.2 ⟨_, h, rfl⟩

theorem Trans.append {A A' B B' : List (Nat × LState)} {a b : List Obs}
    (hn : ((A ++ B).map (·.1)).Nodup) (h1 : Trans A A' a) (h2 : Trans B B' b) :
    Trans (A ++ B) (A' ++ B') (a ++ b) := by
  rw [List.map_append, List.nodup_append] at hn
  refine ⟨by simp [h1.ids, h2.ids], ?_, ?_⟩
  · intro d hd
    rw [List.map_append, List.mem_append, not_or] at hd
    rw [life_append, h1.out d hd.1, h2.out d hd.2]; rfl
  · intro c x hx
    rcases List.mem_append.1 hx with hx | hx
    · obtain ⟨y, hy, he⟩ := h1.pats c x hx
      refine ⟨y, List.mem_append_left _ hy, ?_⟩
      rw [life_append, h2.out c, List.append_nil, he]
      intro hc
      exact hn.2.2 _ (mem_ids hy) _ hc rfl
    · obtain ⟨y, hy, he⟩ := h2.pats c x hx
      refine ⟨y, List.mem_append_right _ hy, ?_⟩
      rw [life_append, h1.out c, List.nil_append, he]
      intro hc
      exact hn.2.2 _ hc _ (mem_ids hy) rfl

/-- What the visit of a component does. -/
def Fine (f : Nat → LState → W → LState × W) : Prop :=
  ∀ c st w, w.res = .ok → ∃ l, (f c st w).2.tr = w.tr ++ l ∧ (∀ d, d ≠ c → life d l = []) ∧
    pat c st ++ life c l = pat c (f c st w).1

theorem life_single_ne {d c : Nat} (h : d ≠ c) :
    life d [.connect c] = [] ∧ life d [.disconnect c] = [] ∧ life d [.leaving c] = [] := by
  have h' : ¬ c = d := fun hh => h hh.symm
  simp [life, h']

theorem life_single (c : Nat) :
    life c [.connect c] = [.connect c] ∧ life c [.disconnect c] = [.disconnect c] ∧
      life c [.leaving c] = [] := by
  simp [life]

theorem leave_fine (h : Hooks) (c : Nat) (w : W) :
    ∃ l, (leave h c w).2.tr = w.tr ++ l ∧ (∀ d, d ≠ c → life d l = []) ∧
      pat c .connected ++ life c l = pat c (leave h c w).1 := by
  have key : ∀ d, ∃ t, (calls c h.calls { w with tr := w.tr ++ [.leaving c] }).tr
      = (w.tr ++ [.leaving c]) ++ t ∧ life d t = [] := fun d => by
    obtain ⟨t, h1, h2, _⟩ := life_calls d c h.calls { w with tr := w.tr ++ [.leaving c] }
    exact ⟨t, h1, h2⟩
  obtain ⟨t, ht, -⟩ := key c
  have hl : ∀ d, life d t = [] := fun d => by
    obtain ⟨t', ht', hd⟩ := key d
    rw [ht] at ht'
    rw [List.append_cancel_left ht', hd]
  have hl2 : ∀ d, life d [.leaving c] = [] := fun d => by simp [life]
  unfold leave
  dsimp only
  split
  · refine ⟨[.leaving c] ++ t, by rw [ht, List.append_assoc], fun d _ => ?_, ?_⟩
    · rw [life_append, hl, hl2]; rfl
    · rw [life_append, hl, hl2]; rfl
  · split
    · refine ⟨[.leaving c] ++ t, by dsimp only; rw [ht, List.append_assoc], fun d _ => ?_, ?_⟩
      · rw [life_append, hl, hl2]; rfl
      · rw [life_append, hl, hl2]; rfl
    · refine ⟨[.leaving c] ++ t ++ [.disconnect c], ?_, fun d hd => ?_, ?_⟩
      · dsimp only; rw [ht]; simp
      · rw [life_append, life_append, hl, hl2, (life_single_ne hd).2.1]; rfl
      · rw [life_append, life_append, hl, hl2, (life_single c).2.1]; rfl

theorem exit_fine (e : Env) : Fine (visitExit e) := by
  intro c st w _
  unfold visitExit
  by_cases h : st = .connected
  · rw [if_pos h]; subst h; exact leave_fine _ _ _
  · rw [if_neg h]; exact ⟨[], by simp, fun _ _ => rfl, by simp [life]⟩

theorem publish_same (e : Env) (c : Nat) (st : LState) (w : W) :
    (visitPublish e c st w).2.tr = w.tr ∧ (visitPublish e c st w).2.off = w.off ∧
      pat c (visitPublish e c st w).1 = pat c st := by
  unfold visitPublish
  by_cases h : st = .created
  · rw [if_pos h]; subst h
    refine ⟨?_, ?_, rfl⟩ <;> (dsimp only; split <;> rfl)
  · rw [if_neg h]; exact ⟨rfl, rfl, rfl⟩

theorem configure_same (e : Env) (c : Nat) (st : LState) (w : W) :
    (visitConfigure e c st w).2.tr = w.tr ∧ (visitConfigure e c st w).2.off = w.off ∧
      pat c (visitConfigure e c st w).1 = pat c st := by
  obtain ⟨h1, h2, h3⟩ := publish_same e c st w
  unfold visitConfigure
  generalize visitPublish e c st w = p at *
  obtain ⟨st', w'⟩ := p
  dsimp only at *
  by_cases h : w'.res = .ok ∧ st' = .publishing
  · rw [if_pos h]
    refine ⟨?_, ?_, ?_⟩
    · dsimp only; split <;> exact h1
    · dsimp only; split <;> exact h2
    · rw [h.2] at h3; exact h3
  · rw [if_neg h]; exact ⟨h1, h2, h3⟩

theorem publish_fine (e : Env) : Fine (visitPublish e) := by
  intro c st w _
  obtain ⟨h1, -, h3⟩ := publish_same e c st w
  exact ⟨[], by simp [h1], fun _ _ => rfl, by simp [life, h3]⟩

theorem configure_fine (e : Env) : Fine (visitConfigure e) := by
  intro c st w _
  obtain ⟨h1, -, h3⟩ := configure_same e c st w
  exact ⟨[], by simp [h1], fun _ _ => rfl, by simp [life, h3]⟩

theorem connect_fine (e : Env) : Fine (visitConnect e) := by
  intro c st w _
  obtain ⟨h1, h2, h3⟩ := configure_same e c st w
  unfold visitConnect
  generalize visitConfigure e c st w = p at *
  obtain ⟨st', w'⟩ := p
  dsimp only at *
  by_cases h : w'.res = .ok ∧ st' = .configured
  · rw [if_pos h]
    refine ⟨[.connect c], by simp [h1], fun d hd => (life_single_ne hd).1, ?_⟩
    rw [(life_single c).1, ← h3, h.2]; rfl
  · rw [if_neg h]
    exact ⟨[], by simp [h1], fun _ _ => rfl, by simp [life, h3]⟩

theorem walk_stop (f) (F : Forest) (w : W) (h : w.res ≠ .ok) : walk f F w = (F, w) := by
  cases F with
  | nil => rfl
  | cons c st kids rest => unfold walk; rw [if_pos h]

theorem walk_trans {f} (hf : Fine f) (F : Forest) :
    ∀ w, (F.flat.map (·.1)).Nodup →
      ∃ l, (walk f F w).2.tr = w.tr ++ l ∧ Trans F.flat (walk f F w).1.flat l := by
  induction F with
  | nil => intro w _; exact ⟨[], by simp [walk], Trans.refl _⟩
  | cons c st kids rest ihk ihr =>
    intro w hn
    by_cases hw : w.res ≠ .ok
    · rw [walk_stop f _ w hw]; exact ⟨[], by simp, Trans.refl _⟩
    · have hw' : w.res = .ok := Decidable.not_not.1 hw
      unfold walk
      rw [if_neg hw]
      obtain ⟨l1, t1, o1, p1⟩ := hf c st w hw'
      have hn' : (([(c, st)] ++ (kids.flat ++ rest.flat)).map (·.1)).Nodup := hn
      have hkr : ((kids.flat ++ rest.flat).map (·.1)).Nodup := by
        simp only [Forest.flat, List.map_cons, List.nodup_cons] at hn
        exact hn.2
      have hk : (kids.flat.map (·.1)).Nodup := by
        rw [List.map_append, List.nodup_append] at hkr; exact hkr.1
      have hr : (rest.flat.map (·.1)).Nodup := by
        rw [List.map_append, List.nodup_append] at hkr; exact hkr.2.1
      obtain ⟨l2, t2, T2⟩ := ihk (f c st w).2 hk
      obtain ⟨l3, t3, T3⟩ := ihr (walk f kids (f c st w).2).2 hr
      refine ⟨l1 ++ (l2 ++ l3), ?_, ?_⟩
      · dsimp only; rw [t3, t2, t1]; simp
      · have T1 : Trans [(c, st)] [(c, (f c st w).1)] l1 := by
          refine ⟨rfl, fun d hd => o1 d ?_, fun d x hx => ?_⟩
          · intro hh; apply hd; simp [hh]
          · simp only [List.mem_singleton, Prod.mk.injEq] at hx
            obtain ⟨rfl, rfl⟩ := hx
            exact ⟨st, by simp, p1⟩
        exact Trans.append hn' T1 (Trans.append hkr T2 T3)

theorem below_trans {f} (hf : Fine f) (r : Nat) (F : Forest) :
    ∀ w, (F.flat.map (·.1)).Nodup →
      ∃ l, (walkBelow f r F w).2.tr = w.tr ++ l ∧ Trans F.flat (walkBelow f r F w).1.flat l := by
  induction F with
  | nil => intro w _; exact ⟨[], by simp [walkBelow], Trans.refl _⟩
  | cons c st kids rest ihk ihr =>
    intro w hn
    have hn' : (([(c, st)] ++ (kids.flat ++ rest.flat)).map (·.1)).Nodup := hn
    have hkr : ((kids.flat ++ rest.flat).map (·.1)).Nodup := by
      simp only [Forest.flat, List.map_cons, List.nodup_cons] at hn
      exact hn.2
    have hk : (kids.flat.map (·.1)).Nodup := by
      rw [List.map_append, List.nodup_append] at hkr; exact hkr.1
    have hr : (rest.flat.map (·.1)).Nodup := by
      rw [List.map_append, List.nodup_append] at hkr; exact hkr.2.1
    unfold walkBelow
    by_cases h : c = r
    · rw [if_pos h]
      obtain ⟨l, t, T⟩ := walk_trans hf kids w hk
      refine ⟨l, t, ?_⟩
      have := Trans.append hn' (Trans.refl [(c, st)]) (Trans.append hkr T (Trans.refl rest.flat))
      rw [List.append_nil, List.nil_append] at this
      exact this
    · rw [if_neg h]
      obtain ⟨l2, t2, T2⟩ := ihk w hk
      obtain ⟨l3, t3, T3⟩ := ihr (walkBelow f r kids w).2 hr
      refine ⟨l2 ++ l3, ?_, ?_⟩
      · dsimp only; rw [t3, t2]; simp
      · have := Trans.append hn' (Trans.refl [(c, st)]) (Trans.append hkr T2 T3)
        rw [List.nil_append] at this
        exact this

/-- The components of the simulator. -/
def St.comps (s : St) : List (Nat × LState) := s.svcs.flat ++ s.models.flat

/-- What holds of every simulator. -/
structure Inv (P : List Obs → Nat → Prop) (s : St) : Prop where
  nodup : (s.comps.map (·.1)).Nodup
  seen : ∀ c ∈ s.comps.map (·.1), c ∈ s.seen
  pats : ∀ c x, (c, x) ∈ s.comps → life c s.tr = pat c x
  gone : ∀ c ∈ s.seen, c ∉ s.comps.map (·.1) → P (life c s.tr) c
  fresh : ∀ c, c ∉ s.seen → life c s.tr = []

theorem Inv.trans {P s} (h : Inv P s) {t : St} {l : List Obs} (ht : t.tr = s.tr ++ l)
    (hs : t.seen = s.seen) (T : Trans s.comps t.comps l) : Inv P t := by
  refine ⟨?_, ?_, ?_, ?_, ?_⟩
  · rw [T.ids]; exact h.nodup
  · rw [T.ids, hs]; exact h.seen
  · intro c x hx
    obtain ⟨y, hy, he⟩ := T.pats c x hx
    rw [ht, life_append, h.pats c y hy, he]
  · intro c hc hn
    rw [hs] at hc; rw [T.ids] at hn
    rw [ht, life_append, T.out c hn, List.append_nil]
    exact h.gone c hc hn
  · intro c hc
    rw [hs] at hc
    rw [ht, life_append, T.out c (fun hh => hc (h.seen c hh)), h.fresh c hc]; rfl

theorem Inv.congr {P s} (h : Inv P s) {t : St} (h1 : t.svcs = s.svcs) (h2 : t.models = s.models)
    (h3 : t.tr = s.tr) (h4 : t.seen = s.seen) : Inv P t := by
  have hc : t.comps = s.comps := by unfold St.comps; rw [h1, h2]
  refine h.trans (l := []) (by simp [h3]) h4 ?_
  rw [hc]; exact Trans.refl _

theorem Inv.parts {P s} (h : Inv P s) :
    (s.svcs.flat.map (·.1)).Nodup ∧ (s.models.flat.map (·.1)).Nodup := by
  have := h.nodup
  unfold St.comps at this
  rw [List.map_append, List.nodup_append] at this
  exact ⟨this.1, this.2.1⟩

theorem all_inv {P s} (h : Inv P s) {f} (hf : Fine f) : Inv P (s.all f).1 := by
  obtain ⟨l1, t1, T1⟩ := walk_trans hf s.svcs ⟨s.off, s.tr, .ok⟩ h.parts.1
  obtain ⟨l2, t2, T2⟩ := walk_trans hf s.models (walk f s.svcs ⟨s.off, s.tr, .ok⟩).2 h.parts.2
  refine h.trans (l := l1 ++ l2) ?_ rfl ?_
  · show (walk f s.models _).2.tr = _
    rw [t2, t1]; simp
  · exact Trans.append h.nodup T1 T2

/-! ### Destruction -/

theorem destroyed_perm (F : Forest) : (destroyed F).Perm (F.flat.map (·.1)) := by
  induction F with
  | nil => exact .refl _
  | cons c st kids rest ihk ihr =>
    simp only [destroyed, Forest.flat, List.map_cons, List.map_append]
    refine (List.Perm.append ihr (List.Perm.cons c ihk)).trans ?_
    refine List.perm_middle.trans (List.Perm.cons c List.perm_append_comm)

theorem life_destroy (c : Nat) (l : List Nat) (hn : l.Nodup) :
    life c (l.map .destroy) = if c ∈ l then [.destroy c] else [] := by
  induction l with
  | nil => rfl
  | cons d l ih =>
    rw [List.nodup_cons] at hn
    have hs : life c ((d :: l).map .destroy) = life c [.destroy d] ++ life c (l.map .destroy) := by
      rw [← life_append]; rfl
    rw [hs, ih hn.2]
    by_cases h : c = d
    · subst h
      rw [if_neg hn.1, if_pos List.mem_cons_self]
      simp [life]
    · have h' : ¬ d = c := fun hh => h hh.symm
      have : life c [.destroy d] = [] := by simp [life, h']
      rw [this, List.nil_append]
      simp [List.mem_cons, h]

theorem take_some {c : Nat} (F : Forest) : ∀ {st kids rest}, take c F = some (st, kids, rest) →
    ∃ pre post, F.flat = pre ++ (c, st) :: (kids.flat ++ post) ∧ rest.flat = pre ++ post ∧
      ∀ d x, (d, x) ∈ kids.flat → (Under c F d x) := by
  have hasOf : ∀ (G : Forest) d x, (d, x) ∈ G.flat → Has G d x := by
    intro G
    induction G with
    | nil => intro d x h; cases h
    | cons b y k r ihk ihr =>
      intro d x h
      rcases List.mem_cons.1 h with h1 | h1
      · cases h1; exact .here
      · rcases List.mem_append.1 h1 with h2 | h2
        · exact .kid (ihk d x h2)
        · exact .rest (ihr d x h2)
  induction F with
  | nil => intro st kids rest h; cases h
  | cons d x k r ihk ihr =>
    intro st kids rest h
    unfold take at h
    by_cases hd : d = c
    · rw [if_pos hd] at h
      cases h
      subst hd
      exact ⟨[], r.flat, rfl, rfl, fun a y ha => .here (hasOf _ a y ha)⟩
    · rw [if_neg hd] at h
      cases hk : take c k with
      | some p =>
        obtain ⟨x', k', kids'⟩ := p
        rw [hk] at h
        cases h
        obtain ⟨pre, post, h1, h2, h3⟩ := ihk hk
        refine ⟨(d, x) :: pre, post ++ r.flat, ?_, ?_, fun a y ha => .kid (h3 a y ha)⟩
        · simp [Forest.flat, h1]
        · simp [Forest.flat, h2]
      | none =>
        rw [hk] at h
        dsimp only at h
        cases hr : take c r with
        | some p =>
          obtain ⟨x', k', rest'⟩ := p
          rw [hr] at h
          cases h
          obtain ⟨pre, post, h1, h2, h3⟩ := ihr hr
          refine ⟨(d, x) :: (k.flat ++ pre), post, ?_, ?_, fun a y ha => .rest (h3 a y ha)⟩
          · simp [Forest.flat, h1]
          · simp [Forest.flat, h2]
        | none => rw [hr] at h; cases h

theorem take_none {c : Nat} (F : Forest) : take c F = none → c ∉ F.flat.map (·.1) := by
  induction F with
  | nil => intro _ h; cases h
  | cons d x k r ihk ihr =>
    intro h
    unfold take at h
    by_cases hd : d = c
    · rw [if_pos hd] at h; cases h
    · rw [if_neg hd] at h
      cases hk : take c k with
      | some p => rw [hk] at h; cases h
      | none =>
        rw [hk] at h
        dsimp only at h
        cases hr : take c r with
        | some p => rw [hr] at h; cases h
        | none =>
          simp only [Forest.flat, List.map_cons, List.map_append, List.mem_cons, List.mem_append,
            not_or]
          exact ⟨fun hh => hd hh.symm, ihk hk, ihr hr⟩

theorem has_iff (F : Forest) (c : Nat) (x : LState) : Has F c x ↔ (c, x) ∈ F.flat := by
  constructor
  · intro h
    induction h with
    | here => exact List.mem_cons_self
    | kid _ ih => exact List.mem_cons_of_mem _ (List.mem_append_left _ ih)
    | rest _ ih => exact List.mem_cons_of_mem _ (List.mem_append_right _ ih)
  · induction F with
    | nil => intro h; cases h
    | cons b y k r ihk ihr =>
      intro h
      rcases List.mem_cons.1 h with h1 | h1
      · cases h1; exact .here
      · rcases List.mem_append.1 h1 with h2 | h2
        · exact .kid (ihk h2)
        · exact .rest (ihr h2)

theorem sHas_iff (s : St) (c : Nat) (x : LState) : s.Has c x ↔ (c, x) ∈ s.comps := by
  unfold St.Has St.comps
  rw [has_iff, has_iff, List.mem_append]

/-! ### Adding -/

theorem push_flat (F : Forest) (c : Nat) : (F.push c).flat = F.flat ++ [(c, .created)] := by
  induction F with
  | nil => rfl
  | cons d x k r ihk ihr => simp [Forest.push, Forest.flat, ihr]

theorem pushIn_none (F : Forest) (p c : Nat) (h : p ∉ F.flat.map (·.1)) : F.pushIn p c = F := by
  induction F with
  | nil => rfl
  | cons d x k r ihk ihr =>
    simp only [Forest.flat, List.map_cons, List.map_append, List.mem_cons, List.mem_append,
      not_or] at h
    unfold Forest.pushIn
    rw [if_neg (fun hh => h.1 hh.symm), ihk h.2.1, ihr h.2.2]

theorem pushIn_flat (F : Forest) (p c : Nat) (hn : (F.flat.map (·.1)).Nodup)
    (h : p ∈ F.flat.map (·.1)) :
    ∃ a b, F.flat = a ++ b ∧ (F.pushIn p c).flat = a ++ (c, .created) :: b := by
  induction F with
  | nil => cases h
  | cons d x k r ihk ihr =>
    have hn0 := hn
    simp only [Forest.flat, List.map_cons, List.map_append, List.nodup_cons,
      List.nodup_append] at hn
    unfold Forest.pushIn
    by_cases hd : d = p
    · rw [if_pos hd]
      exact ⟨(d, x) :: k.flat, r.flat, by simp [Forest.flat], by simp [Forest.flat, push_flat]⟩
    · rw [if_neg hd]
      simp only [Forest.flat, List.map_cons, List.map_append, List.mem_cons, List.mem_append] at h
      rcases h with h | h | h
      · exact absurd h.symm hd
      · have hr : p ∉ r.flat.map (·.1) := fun hh => hn.2.2.2 _ h _ hh rfl
        obtain ⟨a, b, h1, h2⟩ := ihk hn.2.1 h
        refine ⟨(d, x) :: a, b ++ r.flat, by simp [Forest.flat, h1], ?_⟩
        simp [Forest.flat, h2, pushIn_none r p c hr]
      · have hk : p ∉ k.flat.map (·.1) := fun hh => hn.2.2.2 _ hh _ h rfl
        obtain ⟨a, b, h1, h2⟩ := ihr hn.2.2.1 h
        refine ⟨(d, x) :: (k.flat ++ a), b, by simp [Forest.flat, h1], ?_⟩
        simp [Forest.flat, h2, pushIn_none k p c hk]

theorem Inv.add {P s} (h : Inv P s) {t : St} {c : Nat} (hc : c ∉ s.seen) (ht : t.tr = s.tr)
    (hs : t.seen = c :: s.seen) (hp : t.comps.Perm ((c, .created) :: s.comps)) : Inv P t := by
  have hids : (t.comps.map (·.1)).Perm (c :: s.comps.map (·.1)) := hp.map _
  refine ⟨?_, ?_, ?_, ?_, ?_⟩
  · rw [hids.nodup_iff, List.nodup_cons]
    exact ⟨fun hh => hc (h.seen c hh), h.nodup⟩
  · intro d hd
    rw [hs]
    rcases List.mem_cons.1 (hids.mem_iff.1 hd) with h1 | h1
    · rw [h1]; exact List.mem_cons_self
    · exact List.mem_cons_of_mem _ (h.seen d h1)
  · intro d x hd
    rw [ht]
    rcases List.mem_cons.1 (hp.mem_iff.1 hd) with h1 | h1
    · cases h1; exact h.fresh c hc
    · exact h.pats d x h1
  · intro d hd hn
    rw [ht]
    rw [hids.mem_iff, List.mem_cons, not_or] at hn
    rw [hs] at hd
    rcases List.mem_cons.1 hd with h1 | h1
    · exact absurd h1 hn.1
    · exact h.gone d h1 hn.2
  · intro d hd
    rw [hs, List.mem_cons, not_or] at hd
    rw [ht]; exact h.fresh d hd.2

/-! ### Deletion -/

/-- Some components, all that is in `gone`, are destroyed. -/
theorem Inv.remove {P s} (h : Inv P s) {t : St} {ids : List Nat} {gone : List (Nat × LState)}
    {l : List Obs} (hp : s.comps.Perm (gone ++ t.comps)) (hids : ids.Perm (gone.map (·.1)))
    (hs : t.seen = s.seen) (ht : t.tr = s.tr ++ l ++ ids.map .destroy)
    (hl : ∀ d, d ∉ gone.map (·.1) → life d l = [])
    (hP : ∀ c x, (c, x) ∈ gone → P (pat c x ++ life c l ++ [.destroy c]) c) : Inv P t := by
  have hmap : (s.comps.map (·.1)).Perm (gone.map (·.1) ++ t.comps.map (·.1)) := by
    rw [← List.map_append]; exact hp.map _
  have hnd := h.nodup
  rw [hmap.nodup_iff, List.nodup_append] at hnd
  have hin : ids.Nodup := hids.nodup_iff.2 hnd.1
  have hlife : ∀ d, life d t.tr = life d s.tr ++ life d l ++
      (if d ∈ ids then [.destroy d] else []) := fun d => by
    rw [ht, life_append, life_append, life_destroy d ids hin]
  refine ⟨hnd.2.1, ?_, ?_, ?_, ?_⟩
  · intro d hd
    rw [hs]
    exact h.seen d (hmap.mem_iff.2 (List.mem_append_right _ hd))
  · intro d x hd
    have hng : d ∉ gone.map (·.1) := fun hh => hnd.2.2 _ hh _ (mem_ids hd) rfl
    rw [hlife, hl d hng, if_neg (fun hh => hng (hids.mem_iff.1 hh)),
      h.pats d x (hp.mem_iff.2 (List.mem_append_right _ hd))]
    simp
  · intro d hd hn
    rw [hs] at hd
    by_cases hg : d ∈ gone.map (·.1)
    · obtain ⟨⟨d', x⟩, hx, rfl⟩ := List.mem_map.1 hg
      rw [hlife, if_pos (hids.mem_iff.2 hg),
        h.pats d' x (hp.mem_iff.2 (List.mem_append_left _ hx))]
      exact hP d' x hx
    · rw [hlife, hl d hg, if_neg (fun hh => hg (hids.mem_iff.1 hh))]
      simp only [List.append_nil]
      refine h.gone d hd (fun hh => ?_)
      rcases List.mem_append.1 (hmap.mem_iff.1 hh) with h1 | h1
      · exact hg h1
      · exact hn h1
  · intro d hd
    rw [hs] at hd
    have hns : d ∉ s.comps.map (·.1) := fun hh => hd (h.seen d hh)
    have hg : d ∉ gone.map (·.1) := fun hh => hns (hmap.mem_iff.2 (List.mem_append_left _ hh))
    rw [hlife, hl d hg, if_neg (fun hh => hg (hids.mem_iff.1 hh)), h.fresh d hd]; rfl

/-- The simulator destroys its members. -/
theorem Inv.clear {P s} (h : Inv P s)
    (hP : ∀ c x, (c, x) ∈ s.comps → P (pat c x ++ [.destroy c]) c) : Inv P s.clear := by
  refine h.remove (gone := s.comps) (ids := destroyed s.models ++ destroyed s.svcs) (l := [])
    ?_ ?_ rfl ?_ (fun _ _ => rfl) ?_
  · show s.comps.Perm (s.comps ++ [])
    rw [List.append_nil]
  · unfold St.comps
    rw [List.map_append]
    exact (List.Perm.append (destroyed_perm _) (destroyed_perm _)).trans List.perm_append_comm
  · simp [St.clear]
  · intro c x hx
    simpa [life] using hP c x hx

/-- A deleted component is found, or nothing is done. -/
theorem delete_cases (s : St) (e : Env) (c : Nat) :
    (s.delete e c = s ∧ c ∉ s.comps.map (·.1)) ∨
    ∃ st kids svcs models pre post, 
      s.comps = pre ++ (c, st) :: (kids.flat ++ post) ∧ svcs.flat ++ models.flat = pre ++ post ∧
      (∀ d x, (d, x) ∈ kids.flat → s.Under c d x) ∧
      s.delete e c =
        match (visitExit e c st ⟨s.off, s.tr, .ok⟩).2.res with
        | .ok =>
          { s with
            svcs := svcs
            models := models
            off := (c :: destroyed kids) ++ (visitExit e c st ⟨s.off, s.tr, .ok⟩).2.off
            tr := (visitExit e c st ⟨s.off, s.tr, .ok⟩).2.tr
              ++ (c :: destroyed kids).map .destroy }
        | .raised =>
          { s with
            off := (visitExit e c st ⟨s.off, s.tr, .ok⟩).2.off
            tr := (visitExit e c st ⟨s.off, s.tr, .ok⟩).2.tr }
        | .crash =>
          { s with
            phase := .crashed
            off := (visitExit e c st ⟨s.off, s.tr, .ok⟩).2.off
            tr := (visitExit e c st ⟨s.off, s.tr, .ok⟩).2.tr } := by
  unfold St.delete
  cases h1 : take c s.svcs with
  | some p =>
    obtain ⟨st, kids, rest⟩ := p
    obtain ⟨pre, post, a1, a2, a3⟩ := take_some _ h1
    right
    refine ⟨st, kids, rest, s.models, pre, post ++ s.models.flat, ?_, ?_, ?_, rfl⟩
    · unfold St.comps; rw [a1]; simp
    · rw [a2]; simp
    · exact fun d x hd => .inl (a3 d x hd)
  | none =>
    dsimp only
    cases h2 : take c s.models with
    | some p =>
      obtain ⟨st, kids, rest⟩ := p
      obtain ⟨pre, post, a1, a2, a3⟩ := take_some _ h2
      right
      refine ⟨st, kids, s.svcs, rest, s.svcs.flat ++ pre, post, ?_, ?_, ?_, rfl⟩
      · unfold St.comps; rw [a1]; simp
      · rw [a2]; simp
      · exact fun d x hd => .inr (a3 d x hd)
    | none =>
      left
      refine ⟨rfl, ?_⟩
      unfold St.comps
      rw [List.map_append, List.mem_append, not_or]
      exact ⟨take_none _ h1, take_none _ h2⟩

/-- A visit of `Exit` that ends well leaves the component disconnected if it was connected. -/
theorem visitExit_ok (e : Env) (c : Nat) (st : LState) (w : W)
    (h : (visitExit e c st w).2.res = .ok) :
    (visitExit e c st w).1 = if st = .connected then .disconnected else st := by
  unfold visitExit at *
  by_cases hs : st = .connected
  · rw [if_pos hs] at h ⊢
    rw [if_pos hs]
    unfold leave at *
    dsimp only at *
    by_cases h1 : (calls c (e c).calls { w with tr := w.tr ++ [.leaving c] }).res = .crash
    · rw [if_pos h1] at h; rw [h1] at h; cases h
    · rw [if_neg h1] at h ⊢
      by_cases h2 : (e c).dis = true
      · rw [if_pos h2] at h; cases h
      · rw [if_neg h2]
  · rw [if_neg hs, if_neg hs]

theorem Inv.delete {P s} (h : Inv P s) (e : Env) (c : Nat)
    (hP : ∀ d x, P (pat d (if x = .connected then .disconnected else x) ++ [.destroy d]) d)
    (hU : ∀ d x, s.Under c d x → P (pat d x ++ [.destroy d]) d) : Inv P (s.delete e c) := by
  rcases delete_cases s e c with ⟨h1, -⟩ | ⟨st, kids, svcs, models, pre, post, h1, h2, h3, h4⟩
  · rw [h1]; exact h
  obtain ⟨l, t, o, p⟩ := exit_fine e c st ⟨s.off, s.tr, .ok⟩ rfl
  have hv := visitExit_ok e c st ⟨s.off, s.tr, .ok⟩
  rw [h4]
  generalize hg : visitExit e c st ⟨s.off, s.tr, .ok⟩ = q at *
  obtain ⟨st', w⟩ := q
  dsimp only at *
  have hnd := h.nodup
  rw [h1] at hnd
  have hck : c ∉ kids.flat.map (·.1) := by
    intro hh
    simp only [List.map_append, List.map_cons, List.nodup_append, List.nodup_cons,
      List.mem_append] at hnd
    exact hnd.2.1.1 (.inl hh)
  cases hw : w.res with
  | ok =>
    dsimp only
    refine h.remove (gone := (c, st) :: kids.flat) (ids := c :: destroyed kids) (l := l)
      ?_ ?_ rfl ?_ ?_ ?_
    · show s.comps.Perm ((c, st) :: kids.flat ++ (svcs.flat ++ models.flat))
      rw [h1, h2]
      refine List.perm_middle.trans (List.Perm.cons _ ?_)
      show (pre ++ (kids.flat ++ post)).Perm (kids.flat ++ (pre ++ post))
      rw [← List.append_assoc, ← List.append_assoc]
      exact List.Perm.append_right _ List.perm_append_comm
    · exact List.Perm.cons c (destroyed_perm kids)
    · dsimp only; rw [t]
    · intro d hd
      apply o
      intro hh; apply hd; rw [hh]; exact List.mem_cons_self
    · intro d x hd
      rcases List.mem_cons.1 hd with hd | hd
      · cases hd
        rw [p, hv hw]; exact hP _ _
      · have hne : d ≠ c := fun hh => hck (hh ▸ mem_ids hd)
        rw [o d hne, List.append_nil]
        exact hU d x (h3 d x hd)
  | raised =>
    dsimp only
    -- the component is still there, connected
    refine h.trans (l := l) (by dsimp only; rw [t]) rfl ?_
    show Trans s.comps s.comps l
    refine ⟨rfl, fun d hd => o d ?_, fun d x hx => ⟨x, hx, ?_⟩⟩
    · rintro rfl; apply hd; rw [h1]; simp
    · have hst : pat c st' = pat c st := by
        unfold visitExit at hg
        by_cases hs : st = .connected
        · rw [if_pos hs] at hg
          unfold leave at hg
          dsimp only at hg
          split at hg
          · cases hg; rw [hs]
          · split at hg
            · cases hg; rw [hs]
            · rename_i a b
              cases hg
              dsimp only at hw
              rcases calls_res c (e c).calls
                (⟨s.off, s.tr ++ [.leaving c], .ok⟩ : W) with h5 | h5
              · exact absurd h5 a
              · rw [h5] at hw; cases hw
        · rw [if_neg hs] at hg; cases hg; rfl
      have hl0 : life c l = [] := by
        rw [hst] at p
        exact List.append_cancel_left (p.trans (List.append_nil _).symm)
      by_cases hd : d = c
      · subst hd; rw [hl0]; simp
      · rw [o d hd]; simp
  | crash =>
    dsimp only
    refine h.trans (l := l) (by dsimp only; rw [t]) rfl ?_
    show Trans s.comps s.comps l
    refine ⟨rfl, fun d hd => o d ?_, fun d x hx => ⟨x, hx, ?_⟩⟩
    · rintro rfl; apply hd; rw [h1]; simp
    · have hst : pat c st' = pat c st := by
        unfold visitExit at hg
        by_cases hs : st = .connected
        · rw [if_pos hs] at hg
          unfold leave at hg
          dsimp only at hg
          split at hg
          · cases hg; rw [hs]
          · split at hg
            · cases hg; rw [hs]
            · rename_i a b
              cases hg
              dsimp only at hw
              exact absurd hw a
        · rw [if_neg hs] at hg; cases hg; rfl
      have hl0 : life c l = [] := by
        rw [hst] at p
        exact List.append_cancel_left (p.trans (List.append_nil _).symm)
      by_cases hd : d = c
      · subst hd; rw [hl0]; simp
      · rw [o d hd]; simp

end Verif.Sim.Matched
