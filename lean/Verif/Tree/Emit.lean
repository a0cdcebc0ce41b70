/-
Property C37: an event source notifies each subscribed sink exactly once.
-/
import Verif.Tree.Lemmas

namespace Verif.Tree

/-- The sinks notified by the emission number `e`, in order. Of the model only (the calls of
EventSource.cpp:80-85). -/
def notified (e : Nat) (log : List Note) : List Nat :=
  (log.filter (fun n => n.eid = e)).map (·.sink)

/-! ### Lemmas -/

theorem insertSink_mem (x y : Nat) (l : List Nat) : y ∈ insertSink x l ↔ y = x ∨ y ∈ l := by
  induction l with
  | nil => simp [insertSink]
  | cons a l ih => simp only [insertSink]; grind

theorem insertSink_sorted (x : Nat) (l : List Nat) (h : l.Pairwise (· < ·)) :
    (insertSink x l).Pairwise (· < ·) := by
  induction l with
  | nil => simp [insertSink]
  | cons a l ih =>
    simp only [insertSink]
    rw [List.pairwise_cons] at h
    split
    · rename_i hx
      refine List.pairwise_cons.2 ⟨?_, List.pairwise_cons.2 h⟩
      intro b hb
      rcases List.mem_cons.1 hb with rfl | hb
      · exact hx
      · exact Nat.lt_trans hx (h.1 b hb)
    · split
      · exact List.pairwise_cons.2 h
      · refine List.pairwise_cons.2 ⟨?_, ih h.2⟩
        intro b hb
        rcases (insertSink_mem x b l).1 hb with rfl | hb
        · omega
        · exact h.1 b hb

theorem find_least {l : List Nat} (h : l.Pairwise (· < ·)) {c y : Nat}
    (hf : l.find? (fun z => c < z) = some y) : c < y ∧ y ∈ l ∧ ∀ x ∈ l, c < x → y ≤ x := by
  induction l with
  | nil => simp at hf
  | cons a l ih =>
    rw [List.pairwise_cons] at h
    rw [List.find?_cons] at hf
    split at hf
    · rename_i ha
      obtain rfl := Option.some.inj hf
      refine ⟨by simpa using ha, by simp, ?_⟩
      intro x hx _
      rcases List.mem_cons.1 hx with rfl | hx
      · exact Nat.le_refl _
      · exact Nat.le_of_lt (h.1 x hx)
    · rename_i ha
      obtain ⟨h1, h2, h3⟩ := ih h.2 hf
      refine ⟨h1, List.mem_cons_of_mem _ h2, ?_⟩
      intro x hx hcx
      rcases List.mem_cons.1 hx with rfl | hx
      · simp [hcx] at ha
      · exact h3 x hx hcx

theorem notified_append (e : Nat) (l : List Note) (n : Note) :
    notified e (l ++ [n]) = if n.eid = e then notified e l ++ [n.sink] else notified e l := by
  unfold notified
  rw [List.filter_append, List.map_append]
  by_cases h : n.eid = e <;> simp [h]

/-- What always holds of an event source. -/
structure EInv (env : SinkEnv) (s : Src) : Prop where
  sorted : s.sinks.Pairwise (· < ·)
  typed : ∀ x ∈ s.sinks, env.arg x = s.arg
  feid : ∀ f ∈ s.frames, f.eid < s.count
  fnodup : (s.frames.map (·.eid)).Nodup
  leid : ∀ n ∈ s.log, n.eid < s.count
  ltyped : ∀ n ∈ s.log, env.arg n.sink = s.arg

theorem EInv.init (env : SinkEnv) (a : Nat) : EInv env (Src.init a) := by
  constructor <;> simp [Src.init]

theorem lose_eid (p : Nat → Bool) (f : Frame) :
    (f.lose p).eid = f.eid ∧ (f.lose p).cur = f.cur ∧ (f.lose p).value = f.value ∧
      (f.lose p).thread = f.thread := by
  unfold Frame.lose
  split <;> exact ⟨rfl, rfl, rfl, rfl⟩

theorem map_lose_eid (p : Nat → Bool) (l : List Frame) : (l.map (·.lose p)).map (·.eid) = l.map (·.eid) := by
  rw [List.map_map]
  exact List.map_congr_left fun f _ => (lose_eid p f).1

theorem mem_lose {p : Nat → Bool} {l : List Frame} {f : Frame} (h : f ∈ l.map (·.lose p)) :
    ∃ g ∈ l, f = g.lose p := by
  obtain ⟨g, hg, rfl⟩ := List.mem_map.1 h
  exact ⟨g, hg, rfl⟩

theorem erase_eid {l : List Frame} (hnd : (l.map (·.eid)).Nodup) {f : Frame} (hf : f ∈ l) :
    (∀ g ∈ l.erase f, g ∈ l ∧ g.eid ≠ f.eid) ∧ ((l.erase f).map (·.eid)).Nodup ∧
    ∀ g ∈ l, g = f ∨ g ∈ l.erase f := by
  obtain ⟨a, b, rfl⟩ := List.append_of_mem hf
  have hfa : f ∉ a := by
    intro h
    rw [List.map_append, List.nodup_append] at hnd
    exact hnd.2.2 f.eid (List.mem_map.2 ⟨f, h, rfl⟩) f.eid (by simp) rfl
  rw [List.erase_append_right _ hfa, List.erase_cons_head]
  refine ⟨fun g hg => ⟨by grind, fun he => ?_⟩, ?_, fun g hg => by grind⟩
  · rw [List.map_append, List.nodup_append, List.map_cons, List.nodup_cons] at hnd
    rcases List.mem_append.1 hg with hg | hg
    · exact hnd.2.2 g.eid (List.mem_map.2 ⟨g, hg, rfl⟩) f.eid (by simp) he
    · exact hnd.2.1.1 (List.mem_map.2 ⟨g, hg, he⟩)
  · exact List.Nodup.sublist (List.Sublist.map _ (List.Sublist.append_left (List.sublist_cons_self _ _) _)) hnd

theorem EInv.notify {env : SinkEnv} {s : Src} (h : EInv env s) (t e v : Nat) (o : Option Nat)
    (he : e < s.count) (hf : ∀ f ∈ s.frames, f.eid ≠ e) (ho : ∀ x, o = some x → x ∈ s.sinks) :
    EInv env (s.notify t e v o) := by
  cases o with
  | none => exact h
  | some x =>
    refine ⟨h.sorted, h.typed, ?_, ?_, ?_, ?_⟩
    · intro f hm
      rcases List.mem_cons.1 hm with rfl | hm
      · exact he
      · exact h.feid f hm
    · simp only [Src.notify, List.map_cons, List.nodup_cons]
      refine ⟨?_, h.fnodup⟩
      intro hm
      obtain ⟨f, hm, hfe⟩ := List.mem_map.1 hm
      exact hf f hm hfe
    · intro n hn
      simp only [Src.notify, List.mem_append, List.mem_singleton] at hn
      rcases hn with hn | rfl
      · exact h.leid n hn
      · exact he
    · intro n hn
      simp only [Src.notify, List.mem_append, List.mem_singleton] at hn
      rcases hn with hn | rfl
      · exact h.ltyped n hn
      · exact h.typed x (ho x rfl)

theorem EInv.step {env : SinkEnv} {s : Src} (h : EInv env s) (o : EOp) :
    EInv env (estep env s o) := by
  cases o with
  | subscribe x =>
    simp only [estep, Src.subscribe]
    split
    · exact h
    · rename_i hx
      split
      · exact h
      · refine ⟨insertSink_sorted x _ h.sorted, ?_, h.feid, h.fnodup, h.leid, h.ltyped⟩
        intro y hy
        rcases (insertSink_mem x y _).1 hy with rfl | hy
        · simpa using hx
        · exact h.typed y hy
  | unsubscribe x =>
    simp only [estep, Src.unsubscribe]
    split
    · exact h
    · refine ⟨h.sorted.sublist List.erase_sublist, fun y hy => h.typed y (List.mem_of_mem_erase hy),
        ?_, ?_, h.leid, h.ltyped⟩
      · intro f hf
        obtain ⟨g, hg, rfl⟩ := mem_lose hf
        rw [(lose_eid _ g).1]; exact h.feid g hg
      · dsimp only; rw [map_lose_eid]; exact h.fnodup
  | removeLinks t =>
    refine ⟨h.sorted.sublist List.filter_sublist, fun y hy => h.typed y (List.mem_filter.1 hy).1,
      ?_, ?_, h.leid, h.ltyped⟩
    · intro f hf
      obtain ⟨g, hg, rfl⟩ := mem_lose hf
      rw [(lose_eid _ g).1]; exact h.feid g hg
    · show (List.map _ (List.map _ _)).Nodup
      rw [map_lose_eid]; exact h.fnodup
  | emit t v =>
    simp only [estep, Src.emit]
    refine EInv.notify (s := { s with count := s.count + 1 }) ⟨h.sorted, h.typed, fun f hf => Nat.lt_succ_of_lt (h.feid f hf), h.fnodup,
      fun n hn => Nat.lt_succ_of_lt (h.leid n hn), h.ltyped⟩ _ _ _ _ (Nat.lt_succ_self _) ?_ ?_
    · intro f hf; exact Nat.ne_of_lt (h.feid f hf)
    · intro x hx; exact List.mem_of_mem_head? hx
  | next t =>
    simp only [estep, Src.next]
    split
    · exact h
    · rename_i f hfs
      have hf := List.mem_of_find?_eq_some hfs
      obtain ⟨e1, e2, -⟩ := erase_eid h.fnodup hf
      split
      · exact ⟨h.sorted, h.typed, by simp, by simp, h.leid, h.ltyped⟩
      · refine EInv.notify (s := { s with frames := s.frames.erase f })
          ⟨h.sorted, h.typed, ?_, e2, h.leid, h.ltyped⟩ _ _ _ _ ?_ ?_ ?_
        · intro g hg; exact h.feid g (e1 g hg).1
        · exact h.feid f hf
        · intro g hg; exact (e1 g hg).2
        · intro x hx; exact List.mem_of_find?_eq_some hx
  | raise t =>
    simp only [estep, Src.raise]
    split
    · exact h
    · rename_i f hfs
      obtain ⟨e1, e2, -⟩ := erase_eid h.fnodup (List.mem_of_find?_eq_some hfs)
      exact ⟨h.sorted, h.typed, fun g hg => h.feid g (e1 g hg).1, e2, h.leid, h.ltyped⟩

theorem EInv.run {env : SinkEnv} (ops : List EOp) {s : Src} (h : EInv env s) :
    EInv env (erun env s ops) := by
  induction ops generalizing s with
  | nil => exact h
  | cons o ops ih => exact ih (h.step o)

theorem notify_ub (s : Src) (t e v : Nat) (o : Option Nat) : (s.notify t e v o).ub = s.ub := by
  cases o <;> rfl

theorem estep_ub (env : SinkEnv) (s : Src) (o : EOp) (h : (estep env s o).ub = false) :
    s.ub = false := by
  cases o with
  | subscribe x => simp only [estep, Src.subscribe] at h; grind
  | unsubscribe x => simp only [estep, Src.unsubscribe] at h; grind
  | removeLinks t => exact h
  | emit t v => simpa [estep, Src.emit, notify_ub] using h
  | next t =>
    simp only [estep, Src.next] at h
    split at h
    · exact h
    · split at h
      · simp at h
      · simpa [notify_ub] using h
  | raise t =>
    simp only [estep, Src.raise] at h
    split at h <;> exact h

theorem erun_ub (env : SinkEnv) (ops : List EOp) (s : Src) (h : (erun env s ops).ub = false) :
    s.ub = false := by
  induction ops generalizing s with
  | nil => exact h
  | cons o ops ih => exact estep_ub env s o (ih _ h)

/-- What holds of emission `e` of value `v` while it runs and after it: `X` is the set of the sinks
that stay subscribed, `Y` the set of those that may be notified. -/
structure Run (t e v : Nat) (X Y : Nat → Prop) (s : Src) : Prop where
  started : e < s.count
  keep : ∀ x, X x → x ∈ s.sinks
  from_ : ∀ x ∈ s.sinks, Y x
  sorted : (notified e s.log).Pairwise (· < ·)
  value : ∀ n ∈ s.log, n.eid = e → n.value = v ∧ Y n.sink
  now : (∃ f ∈ s.frames, f.eid = e ∧ f.thread = t ∧ f.value = v ∧ (∀ x ∈ notified e s.log, x ≤ f.cur) ∧
          ∀ x, X x → x ≤ f.cur → x ∈ notified e s.log) ∨
        ((∀ f ∈ s.frames, f.eid ≠ e) ∧ ∀ x, X x → x ∈ notified e s.log)

theorem Run.notify_other {t e v : Nat} {X Y : Nat → Prop} {s : Src} (h : Run t e v X Y s) (t' e' v' : Nat)
    (o : Option Nat) (he : e' ≠ e) : Run t e v X Y (s.notify t' e' v' o) := by
  cases o with
  | none => exact h
  | some x =>
    have hn : notified e (s.log ++ [⟨e', x, v'⟩]) = notified e s.log := by
      rw [notified_append, if_neg he]
    refine ⟨h.started, h.keep, h.from_, ?_, ?_, ?_⟩
    · simp only [Src.notify, hn]; exact h.sorted
    · intro n hm hne
      simp only [Src.notify, List.mem_append, List.mem_singleton] at hm
      rcases hm with hm | rfl
      · exact h.value n hm hne
      · exact absurd hne he
    · simp only [Src.notify, hn]
      rcases h.now with ⟨f, hf, h'⟩ | ⟨hf, h'⟩
      · exact .inl ⟨f, List.mem_cons_of_mem _ hf, h'⟩
      · refine .inr ⟨?_, h'⟩
        intro f hm
        rcases List.mem_cons.1 hm with rfl | hm
        · exact he
        · exact hf f hm

/-- The loops that are left by the erasure of another one. -/
theorem Run.erase_other {t e v : Nat} {X Y : Nat → Prop} {s : Src} (h : Run t e v X Y s)
    (hnd : (s.frames.map (·.eid)).Nodup) {g : Frame} (hg : g ∈ s.frames) (hge : g.eid ≠ e) :
    Run t e v X Y { s with frames := s.frames.erase g } := by
  obtain ⟨e1, -, e3⟩ := erase_eid hnd hg
  refine ⟨h.started, h.keep, h.from_, h.sorted, h.value, ?_⟩
  rcases h.now with ⟨f, hf, hfe, hrest⟩ | ⟨hf, hrest⟩
  · rcases e3 f hf with rfl | hf'
    · exact absurd hfe hge
    · exact .inl ⟨f, hf', hfe, hrest⟩
  · exact .inr ⟨fun f hm => hf f (e1 f hm).1, hrest⟩

theorem Run.lose {t e v : Nat} {X Y : Nat → Prop} {s : Src} (h : Run t e v X Y s) (p : Nat → Bool)
    (l : List Nat) (h1 : ∀ x, X x → x ∈ l) (h2 : ∀ x ∈ l, Y x) :
    Run t e v X Y { s with sinks := l, frames := s.frames.map (·.lose p) } := by
  refine ⟨h.started, h1, h2, h.sorted, h.value, ?_⟩
  rcases h.now with ⟨f, hf, hrest⟩ | ⟨hf, hrest⟩
  · refine .inl ⟨f.lose p, List.mem_map.2 ⟨f, hf, rfl⟩, ?_⟩
    obtain ⟨q1, q2, q3, q4⟩ := lose_eid p f
    rw [q1, q2, q3, q4]; exact hrest
  · refine .inr ⟨fun f hm => ?_, hrest⟩
    obtain ⟨g, hg, rfl⟩ := mem_lose hm
    rw [(lose_eid p g).1]; exact hf g hg

theorem Run.step {env : SinkEnv} {t e v : Nat} {X Y : Nat → Prop} {s : Src} (h : Run t e v X Y s)
    (hi : EInv env s) (o : EOp) (hub : (estep env s o).ub = false)
    (hs : ∀ x, o = .subscribe x → Y x) (hu : ∀ x, o = .unsubscribe x → ¬ X x)
    (hl : ∀ t, o = .removeLinks t → ∀ x, env.parent x = t → ¬ X x) (hr : o ≠ .raise t) :
    Run t e v X Y (estep env s o) := by
  cases o with
  | subscribe x =>
    simp only [estep, Src.subscribe]
    split
    · exact h
    · split
      · exact h
      · refine ⟨h.started, fun y hy => (insertSink_mem x y _).2 (.inr (h.keep y hy)), ?_, h.sorted,
          h.value, h.now⟩
        intro y hy
        rcases (insertSink_mem x y _).1 hy with rfl | hy
        · exact hs y rfl
        · exact h.from_ y hy
  | unsubscribe x =>
    simp only [estep, Src.unsubscribe]
    split
    · exact h
    · refine h.lose _ _ ?_ fun y hy => h.from_ y (List.mem_of_mem_erase hy)
      intro y hy
      have hne : y ≠ x := fun he => hu x rfl (he ▸ hy)
      exact (List.mem_erase_of_ne hne).2 (h.keep y hy)
  | removeLinks t =>
    refine h.lose _ _ ?_ fun y hy => h.from_ y (List.mem_filter.1 hy).1
    intro y hy
    simp only [List.mem_filter]
    exact ⟨h.keep y hy, by simpa using fun he => hl t rfl y he hy⟩
  | emit u w =>
    simp only [estep, Src.emit]
    refine Run.notify_other (s := { s with count := s.count + 1 })
      ⟨Nat.lt_succ_of_lt h.started, h.keep, h.from_, h.sorted, h.value, h.now⟩ _ _ _ _ ?_
    exact Nat.ne_of_gt h.started
  | next u =>
    simp only [estep, Src.next] at hub ⊢
    split
    · exact h
    · rename_i g hfs
      rw [hfs] at hub
      have hg := List.mem_of_find?_eq_some hfs
      have hgt : g.thread = u := by simpa using List.find?_some hfs
      obtain ⟨e1, -, e3⟩ := erase_eid hi.fnodup hg
      split
      · rename_i hcur
        simp [hcur] at hub
      · rename_i hcur
        by_cases hge : g.eid = e
        · -- the emission of interest goes on
          have hgs : ∀ f ∈ s.frames.erase g, f.eid ≠ e := fun f hf => hge ▸ (e1 f hf).2
          have hact : g.thread = t ∧ g.value = v ∧ (∀ x ∈ notified e s.log, x ≤ g.cur) ∧
              ∀ x, X x → x ≤ g.cur → x ∈ notified e s.log := by
            rcases h.now with ⟨f, hf, hfe, hrest⟩ | ⟨hf, _⟩
            · rcases e3 f hf with rfl | hf
              · exact hrest
              · exact absurd hfe (hgs f hf)
            · exact absurd hge (hf g hg)
          obtain ⟨hthr, hact⟩ := hact
          cases hn : s.sinks.find? (fun y => g.cur < y) with
          | none =>
            simp only [Src.notify]
            refine ⟨h.started, h.keep, h.from_, h.sorted, h.value, .inr ⟨hgs, ?_⟩⟩
            intro x hx
            refine hact.2.2 x hx ?_
            have := List.find?_eq_none.1 hn x (h.keep x hx)
            simpa using this
          | some y =>
            obtain ⟨hy1, hy2, hy3⟩ := find_least hi.sorted hn
            have hlog : notified e (s.log ++ [⟨g.eid, y, g.value⟩]) = notified e s.log ++ [y] := by
              rw [notified_append, if_pos hge]
            simp only [Src.notify]
            refine ⟨h.started, h.keep, h.from_, ?_, ?_, .inl ⟨⟨u, g.eid, y, g.value, false⟩,
              List.mem_cons_self, hge, hgt.symm.trans hthr, hact.1, ?_, ?_⟩⟩
            · simp only [hlog]
              rw [List.pairwise_append]
              refine ⟨h.sorted, by simp, ?_⟩
              intro a ha b hb
              simp only [List.mem_singleton] at hb
              have := hact.2.1 a ha
              omega
            · intro n hm hne
              simp only [List.mem_append, List.mem_singleton] at hm
              rcases hm with hm | rfl
              · exact h.value n hm hne
              · exact ⟨hact.1, h.from_ y hy2⟩
            · intro x hx
              simp only [hlog, List.mem_append, List.mem_singleton] at hx
              rcases hx with hx | rfl
              · have := hact.2.1 x hx; exact Nat.le_of_lt (Nat.lt_of_le_of_lt this hy1)
              · exact Nat.le_refl _
            · intro x hx hxy
              simp only [hlog, List.mem_append, List.mem_singleton]
              by_cases hxc : x ≤ g.cur
              · exact .inl (hact.2.2 x hx hxc)
              · have := hy3 x (h.keep x hx) (by omega)
                exact .inr (Nat.le_antisymm hxy this)
        · -- another emission goes on
          exact Run.notify_other (h.erase_other hi.fnodup hg hge) _ _ _ _ hge
  | raise u =>
    simp only [estep, Src.raise]
    split
    · exact h
    · rename_i g hfs
      have hg := List.mem_of_find?_eq_some hfs
      have hgt : g.thread = u := by simpa using List.find?_some hfs
      refine h.erase_other hi.fnodup hg fun hge => ?_
      rcases h.now with ⟨f, hf, hfe, hft, _⟩ | ⟨hf, _⟩
      · rcases (erase_eid hi.fnodup hg).2.2 f hf with rfl | hf'
        · exact hr (by rw [← hgt, hft])
        · exact ((erase_eid hi.fnodup hg).1 f hf').2 (hfe.trans hge.symm)
      · exact hf g hg hge

theorem Run.run {env : SinkEnv} {t e v : Nat} {X Y : Nat → Prop} (ops : List EOp) {s : Src}
    (h : Run t e v X Y s) (hi : EInv env s) (hub : (erun env s ops).ub = false)
    (hs : ∀ x, .subscribe x ∈ ops → Y x) (hu : ∀ x, .unsubscribe x ∈ ops → ¬ X x)
    (hl : ∀ t, .removeLinks t ∈ ops → ∀ x, env.parent x = t → ¬ X x) (hr : EOp.raise t ∉ ops) :
    Run t e v X Y (erun env s ops) := by
  induction ops generalizing s with
  | nil => exact h
  | cons o ops ih =>
    refine ih (h.step hi o (erun_ub env ops _ hub) ?_ ?_ ?_ ?_) (hi.step o) hub ?_ ?_ ?_ ?_
    · rintro x rfl; exact hs x List.mem_cons_self
    · rintro x rfl; exact hu x List.mem_cons_self
    · rintro t rfl; exact hl t List.mem_cons_self
    · rintro rfl; exact hr List.mem_cons_self
    · exact fun x hx => hs x (List.mem_cons_of_mem _ hx)
    · exact fun x hx => hu x (List.mem_cons_of_mem _ hx)
    · exact fun t ht => hl t (List.mem_cons_of_mem _ ht)
    · exact fun h => hr (List.mem_cons_of_mem _ h)

theorem Run.start {env : SinkEnv} {s : Src} (hi : EInv env s) (t v : Nat) (X Y : Nat → Prop)
    (hX : ∀ x, X x → x ∈ s.sinks) (hY : ∀ x ∈ s.sinks, Y x) :
    Run t s.count v X Y (s.emit t v) := by
  have hnone : notified s.count s.log = [] := by
    unfold notified
    rw [List.filter_eq_nil_iff.2, List.map_nil]
    intro n hn
    have := hi.leid n hn
    simp; omega
  have hne : ∀ n ∈ s.log, n.eid ≠ s.count := fun n hn => Nat.ne_of_lt (hi.leid n hn)
  cases hh : s.sinks with
  | nil =>
    have he : s.emit t v = { s with count := s.count + 1 } := by simp [Src.emit, hh, Src.notify]
    rw [he]
    refine ⟨Nat.lt_succ_self _, hX, hY, by simp [hnone], fun n hn he => absurd he (hne n hn),
      .inr ⟨fun f hf => Nat.ne_of_lt (hi.feid f hf), ?_⟩⟩
    intro x hx
    have := hX x hx
    rw [hh] at this
    simp at this
  | cons a l =>
    have hlog : notified s.count (s.log ++ [⟨s.count, a, v⟩]) = [a] := by
      rw [notified_append, if_pos rfl, hnone]; rfl
    have he : s.emit t v = { s with
        count := s.count + 1
        frames := ⟨t, s.count, a, v, false⟩ :: s.frames
        log := s.log ++ [⟨s.count, a, v⟩] } := by simp [Src.emit, hh, Src.notify]
    rw [he]
    refine ⟨Nat.lt_succ_self _, hX, hY, by simp only [hlog]; simp, ?_, .inl ⟨⟨t, s.count, a, v, false⟩,
      List.mem_cons_self, rfl, rfl, rfl, ?_, ?_⟩⟩
    · intro n hm he
      simp only [List.mem_append, List.mem_singleton] at hm
      rcases hm with hm | rfl
      · exact absurd he (hne n hm)
      · exact ⟨rfl, hY a (by rw [hh]; exact List.mem_cons_self)⟩
    · simp only [hlog]; simp
    · intro x hx hxa
      simp only [hlog, List.mem_singleton]
      have hm := hX x hx
      have hsort := hi.sorted
      rw [hh] at hm hsort
      rcases List.mem_cons.1 hm with rfl | hm
      · rfl
      · have h := (List.pairwise_cons.1 hsort).1 x hm
        simp only at hxa
        omega

/-! ### C37 -/

/-- C37 (part): take an event source after any history, in any number of threads, and any emission of a
value `v` that runs to its end in thread `t`, during which this and the other threads may subscribe and
unsubscribe sinks and emit again, but no sink raises in this thread and no loop goes on from an erased
element. Then the emission notified no sink twice, only with
the value `v`, only sinks of the right type, only sinks that were subscribed before it or during
it, and every sink that was subscribed before it and is not unsubscribed during it. Missing: a sink
that is unsubscribed while it is notified (`C37_fails`, `C156_erased_fails`). -/
theorem C37_emit_partial (env : SinkEnv) (a t v : Nat) (before during : List EOp)
    (hraise : EOp.raise t ∉ during)
    (hub : (erun env (Src.init a) (before ++ .emit t v :: during)).ub = false)
    (hend : ∀ f ∈ (erun env (Src.init a) (before ++ .emit t v :: during)).frames,
      f.eid ≠ (erun env (Src.init a) before).count) :
    let s := erun env (Src.init a) before
    let w := erun env (Src.init a) (before ++ .emit t v :: during)
    (notified s.count w.log).Nodup ∧
    (∀ n ∈ w.log, n.eid = s.count → n.value = v ∧ env.arg n.sink = a ∧
      (n.sink ∈ s.sinks ∨ .subscribe n.sink ∈ during)) ∧
    (∀ x ∈ s.sinks, .unsubscribe x ∉ during → .removeLinks (env.parent x) ∉ during →
      x ∈ notified s.count w.log) := by
  intro s w
  have ht : w = erun env (s.emit t v) during := by
    simp only [w, s, erun, List.foldl_append, List.foldl_cons]; rfl
  have hi : EInv env s := EInv.run before (EInv.init env a)
  have hi' : EInv env (s.emit t v) := hi.step (.emit t v)
  have harg : ∀ (ops : List EOp) (u : Src), (erun env u ops).arg = u.arg := by
    intro ops
    induction ops with
    | nil => intro u; rfl
    | cons o ops ih =>
      intro u
      refine (ih _).trans ?_
      have hn : ∀ (u : Src) (t e v : Nat) (o : Option Nat), (u.notify t e v o).arg = u.arg := by
        intro u t e v o; cases o <;> rfl
      cases o <;> simp only [estep, Src.subscribe, Src.unsubscribe, Src.removeLinks, Src.emit,
        Src.next, Src.raise] <;> grind
  have hr := Run.run (env := env) during
    (Run.start hi t v (fun x => x ∈ s.sinks ∧ .unsubscribe x ∉ during ∧
        .removeLinks (env.parent x) ∉ during)
      (fun x => x ∈ s.sinks ∨ .subscribe x ∈ during) (fun x h => h.1) (fun x h => .inl h))
    hi' (by rw [← ht]; exact hub) (fun x h => .inr h) (fun x h hx => hx.2.1 h)
    (fun t' h x hx hX => hX.2.2 (hx ▸ h)) hraise
  rw [← ht] at hr
  refine ⟨hr.sorted.imp Nat.ne_of_lt, ?_, ?_⟩
  · intro n hn he
    have h1 := hr.value n hn he
    refine ⟨h1.1, ?_, h1.2⟩
    have h2 := (EInv.run (before ++ .emit t v :: during) (EInv.init env a)).ltyped n hn
    rw [h2]; exact harg _ _
  · intro x hx h1 h2
    rcases hr.now with ⟨f, hf, hfe, _⟩ | ⟨_, h⟩
    · exact absurd hfe (hend f hf)
    · exact h x ⟨hx, h1, h2⟩

/-- C37: without changes of the subscriptions, an emission started by an idle event source ends,
after as many returns as there are sinks, and it has notified exactly the subscribed sinks, each
once. -/
theorem C37_plain (env : SinkEnv) (a t v : Nat) (before : List EOp)
    (hidle : (erun env (Src.init a) before).frames = []) :
    let s := erun env (Src.init a) before
    let w := erun env s (.emit t v :: List.replicate s.sinks.length (.next t))
    w.frames = [] ∧ w.sinks = s.sinks ∧ w.ub = s.ub ∧
    w.log = s.log ++ s.sinks.map (fun x => ⟨s.count, x, v⟩) := by
  intro s w
  have hi : EInv env s := EInv.run before (EInv.init env a)
  -- the loop stands at `x`, with `post` to come
  have key : ∀ (post pre : List Nat) (x : Nat) (u : Src),
      u.sinks = pre ++ x :: post → u.sinks.Pairwise (· < ·) → u.frames = [⟨t, s.count, x, v, false⟩] →
      let w := erun env u (List.replicate (post.length + 1) (.next t))
      w.frames = [] ∧ w.sinks = u.sinks ∧ w.ub = u.ub ∧
      w.log = u.log ++ post.map (fun x => ⟨s.count, x, v⟩) := by
    intro post
    induction post with
    | nil =>
      intro pre x u hs hp hf
      have hx : x ∈ u.sinks := by rw [hs]; simp
      have hnone : u.sinks.find? (fun y => x < y) = none := by
        rw [List.find?_eq_none]
        intro y hy
        rw [hs] at hy hp
        rw [List.pairwise_append] at hp
        rcases List.mem_append.1 hy with hy | hy
        · have := hp.2.2 y hy x (by simp); simp; omega
        · simp at hy; simp [hy]
      simp [erun, estep, Src.next, hf, hx, hnone, Src.notify]
    | cons b post ih =>
      intro pre x u hs hp hf
      have hx : x ∈ u.sinks := by rw [hs]; simp
      have hb : u.sinks.find? (fun y => x < y) = some b := by
        rw [hs] at hp ⊢
        rw [List.pairwise_append] at hp
        rw [List.find?_append, List.find?_eq_none.2, Option.none_or]
        · have := (List.pairwise_cons.1 hp.2.1).1 b (by simp)
          simp [this]
        · intro y hy
          have := hp.2.2 y hy x (by simp); simp; omega
      have hstep : estep env u (.next t) =
          { u with frames := [⟨t, s.count, b, v, false⟩], log := u.log ++ [⟨s.count, b, v⟩] } := by
        simp [estep, Src.next, hf, hx, hb, Src.notify]
      have := ih (pre ++ [x]) b (estep env u (.next t)) (by rw [hstep]; simp [hs])
        (by rw [hstep]; exact hp) (by rw [hstep])
      simp only [List.length_cons, List.replicate_succ]
      simp only [List.replicate_succ] at this
      rw [show erun env u (.next t :: .next t :: List.replicate post.length (.next t)) =
        erun env (estep env u (.next t)) (.next t :: List.replicate post.length (.next t)) from rfl]
      refine ⟨this.1, this.2.1.trans (by rw [hstep]), this.2.2.1.trans (by rw [hstep]), ?_⟩
      rw [this.2.2.2, hstep]
      simp
  have ht : w = erun env (s.emit t v) (List.replicate s.sinks.length (.next t)) := rfl
  cases hh : s.sinks with
  | nil =>
    have : w = { s with count := s.count + 1 } := by
      rw [ht, hh]; simp [erun, Src.emit, hh, Src.notify]
    rw [this]
    exact ⟨hidle, hh, rfl, by simp⟩
  | cons x post =>
    have he : s.emit t v = { s with
        count := s.count + 1
        frames := [⟨t, s.count, x, v, false⟩]
        log := s.log ++ [⟨s.count, x, v⟩] } := by
      simp only [Src.emit, hh, List.head?_cons, Src.notify]
      have : s.frames = [] := hidle
      rw [this]
    have := key post [] x (s.emit t v) (by rw [he]; simp [hh]) (by rw [he]; exact hi.sorted)
      (by rw [he])
    rw [ht, hh, List.length_cons]
    refine ⟨this.1, this.2.1.trans (by rw [he]; exact hh), this.2.2.1.trans (by rw [he]), ?_⟩
    rw [this.2.2.2, he]
    simp

/-- C37: `Subscribe` fails exactly for a sink of another type or a subscribed one, `Unsubscribe`
exactly for a sink that is not subscribed; the exception says which, and nothing changes. On
success the sink is subscribed, or not any more, and the others are as before. -/
theorem C37_subscribe (env : SinkEnv) (s : Src) (hs : s.sinks.Nodup) (x : Nat) :
    ((s.subscribe env x).2 = some .InvalidEventSink ↔ env.arg x ≠ s.arg) ∧
    ((s.subscribe env x).2 = some .EventSinkAlreadySubscribed ↔
      env.arg x = s.arg ∧ x ∈ s.sinks) ∧
    ((s.subscribe env x).2 = none ↔ env.arg x = s.arg ∧ x ∉ s.sinks) ∧
    ((s.subscribe env x).2 ≠ none → (s.subscribe env x).1 = s) ∧
    ((s.subscribe env x).2 = none → ∀ y, y ∈ (s.subscribe env x).1.sinks ↔ y = x ∨ y ∈ s.sinks) ∧
    ((s.unsubscribe x).2 = some .EventSinkNotSubscribed ↔ x ∉ s.sinks) ∧
    ((s.unsubscribe x).2 = none ↔ x ∈ s.sinks) ∧
    ((s.unsubscribe x).2 ≠ none → (s.unsubscribe x).1 = s) ∧
    ((s.unsubscribe x).2 = none → ∀ y, y ∈ (s.unsubscribe x).1.sinks ↔ y ≠ x ∧ y ∈ s.sinks) := by
  have h1 : ∀ y, y ∈ insertSink x s.sinks ↔ y = x ∨ y ∈ s.sinks := fun y => insertSink_mem x y _
  have h2 : ∀ y, y ∈ s.sinks.erase x ↔ y ≠ x ∧ y ∈ s.sinks := fun y => hs.mem_erase_iff
  unfold Src.subscribe Src.unsubscribe
  refine ⟨?_, ?_, ?_, ?_, ?_, ?_, ?_, ?_, ?_⟩ <;> grind

/-- C37: the set of the subscribed sinks never contains a sink twice (hypothesis of
`C37_subscribe`). -/
theorem C37_set (env : SinkEnv) (a : Nat) (ops : List EOp) :
    (erun env (Src.init a) ops).sinks.Nodup :=
  (EInv.run ops (EInv.init env a)).sorted.imp Nat.ne_of_lt

/-- C37 is false for a sink that unsubscribes itself while it is notified: the loop continues from
the erased element, which is undefined behaviour, and the remaining sinks are not known to be
notified. -/
theorem C37_fails :
    ∃ (env : SinkEnv) (during : List EOp),
      let s := erun env (Src.init 0) [.subscribe 1, .subscribe 2]
      let t := erun env s (.emit 0 5 :: during)
      during = [.unsubscribe 1, .next 0] ∧ t.ub = true ∧
      2 ∈ t.sinks ∧ 2 ∉ notified s.count t.log :=
  ⟨⟨fun _ => 0, fun _ => 0⟩, [.unsubscribe 1, .next 0], by decide⟩

-- sinks 1, 2, 3; during the emission of 5 to sink 1 it unsubscribes 2 and subscribes 4, and emits 6
example :
    let env : SinkEnv := ⟨fun _ => 0, fun x => x⟩
    let before : List EOp := [.subscribe 3, .subscribe 1, .subscribe 2, .subscribe 1]
    let during : List EOp := [.unsubscribe 2, .subscribe 4, .emit 0 6, .next 0, .next 0, .next 0,
      .next 0, .next 0, .next 0]
    let t := erun env (Src.init 0) (before ++ .emit 0 5 :: during)
    t.ub = false ∧ t.frames = [] ∧ notified 0 t.log = [1, 3, 4] ∧ notified 1 t.log = [1, 3, 4] := by
  decide

end Verif.Tree
