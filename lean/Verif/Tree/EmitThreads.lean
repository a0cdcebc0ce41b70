/-
Property C156: emissions of an event source in several threads.
-/
import Verif.Tree.Emit

namespace Verif.Tree

/-! ### Lemmas -/

theorem sorted_ext : ∀ (l m : List Nat), l.Pairwise (· < ·) → m.Pairwise (· < ·) →
    (∀ x, x ∈ l ↔ x ∈ m) → l = m
  | [], [], _, _, _ => rfl
  | [], b :: m, _, _, h => absurd ((h b).2 List.mem_cons_self) (by simp)
  | a :: l, [], _, _, h => absurd ((h a).1 List.mem_cons_self) (by simp)
  | a :: l, b :: m, hl, hm, h => by
    rw [List.pairwise_cons] at hl hm
    have hab : a = b := by
      rcases List.mem_cons.1 ((h a).1 List.mem_cons_self) with e | e
      · exact e
      · rcases List.mem_cons.1 ((h b).2 List.mem_cons_self) with e' | e'
        · exact e'.symm
        · have h1 := hm.1 a e
          have h2 := hl.1 b e'
          omega
    subst hab
    rw [sorted_ext l m hl.2 hm.2 fun x => ?_]
    constructor
    · intro hx
      rcases List.mem_cons.1 ((h x).1 (List.mem_cons_of_mem _ hx)) with e | e
      · have := hl.1 x hx; omega
      · exact e
    · intro hx
      rcases List.mem_cons.1 ((h x).2 (List.mem_cons_of_mem _ hx)) with e | e
      · have := hm.1 x hx; omega
      · exact e

theorem erase_filter_other {l : List Frame} {f : Frame} {p : Frame → Bool} (h : p f = false) :
    (l.erase f).filter p = l.filter p := by
  induction l with
  | nil => rfl
  | cons a l ih =>
    rw [List.erase_cons]
    by_cases ha : a = f
    · subst ha; simp [h]
    · simp only [beq_iff_eq, ha, if_false, List.filter_cons, ih]

theorem erase_filter_same {l : List Frame} {f : Frame} {p : Frame → Bool} (h : p f = true) :
    (l.erase f).filter p = (l.filter p).erase f := by
  induction l with
  | nil => rfl
  | cons a l ih =>
    rw [List.erase_cons]
    by_cases ha : a = f
    · subst ha; simp [h]
    · simp only [beq_iff_eq, ha, if_false, List.filter_cons, ih]
      split
      · rw [List.erase_cons]; simp [ha]
      · rfl

/-- No loop is at an erased element. -/
def Whole (s : Src) : Prop := s.ub = false ∧ ∀ f ∈ s.frames, f.gone = false

theorem Whole.notify {s : Src} (h : Whole s) (t e v : Nat) (o : Option Nat) : Whole (s.notify t e v o) := by
  cases o with
  | none => exact h
  | some x =>
    refine ⟨h.1, fun f hf => ?_⟩
    rcases List.mem_cons.1 hf with rfl | hf
    · rfl
    · exact h.2 f hf

theorem Whole.step {env : SinkEnv} {s : Src} (h : Whole s) (o : EOp)
    (hu : ∀ x, o = .unsubscribe x → ∀ f ∈ s.frames, f.cur ≠ x)
    (hl : ∀ p, o = .removeLinks p → ∀ f ∈ s.frames, env.parent f.cur ≠ p) : Whole (estep env s o) := by
  cases o with
  | subscribe x => simp only [estep, Src.subscribe]; split; exact h; split <;> exact h
  | unsubscribe x =>
    simp only [estep, Src.unsubscribe]
    split
    · exact h
    · refine ⟨h.1, fun f hf => ?_⟩
      obtain ⟨g, hg, rfl⟩ := mem_lose hf
      unfold Frame.lose
      rw [if_neg (by simpa using hu x rfl g hg)]
      exact h.2 g hg
  | removeLinks p =>
    refine ⟨h.1, fun f hf => ?_⟩
    obtain ⟨g, hg, rfl⟩ := mem_lose hf
    unfold Frame.lose
    rw [if_neg (by simpa using hl p rfl g hg)]
    exact h.2 g hg
  | emit t v => exact Whole.notify (s := { s with count := s.count + 1 }) h _ _ _ _
  | next t =>
    simp only [estep, Src.next]
    split
    · exact h
    · rename_i f hf
      have hm := List.mem_of_find?_eq_some hf
      rw [if_neg (by simp [h.2 f hm])]
      exact Whole.notify (s := { s with frames := s.frames.erase f })
        ⟨h.1, fun g hg => h.2 g (List.mem_of_mem_erase hg)⟩ _ _ _ _
  | raise t =>
    simp only [estep, Src.raise]
    split
    · exact h
    · exact ⟨h.1, fun g hg => h.2 g (List.mem_of_mem_erase hg)⟩

theorem erun_append (env : SinkEnv) (s : Src) (p q : List EOp) :
    erun env s (p ++ q) = erun env (erun env s p) q := List.foldl_append

/-- An operation of an emission in another thread: a call of `Emit`, a return of a sink, an exception of a
sink. -/
def Other (t : Nat) : EOp → Prop
  | .emit u _ | .next u | .raise u => u ≠ t
  | _ => False

theorem notify_other {s : Src} {t u : Nat} (h : u ≠ t) (e v : Nat) (o : Option Nat) :
    (s.notify u e v o).sinks = s.sinks ∧
    (s.notify u e v o).frames.filter (·.thread == t) = s.frames.filter (·.thread == t) := by
  cases o with
  | none => exact ⟨rfl, rfl⟩
  | some x => simp [Src.notify, h]

theorem other_step {env : SinkEnv} {s : Src} {t : Nat} (o : EOp) (h : Other t o)
    (hub : (estep env s o).ub = false) :
    (estep env s o).sinks = s.sinks ∧
    (estep env s o).frames.filter (·.thread == t) = s.frames.filter (·.thread == t) := by
  cases o with
  | emit u v => exact notify_other (s := { s with count := s.count + 1 }) h _ _ _
  | next u =>
    simp only [estep, Src.next] at hub ⊢
    split
    · exact ⟨rfl, rfl⟩
    · rename_i f hf
      rw [hf] at hub
      have hft : f.thread = u := by simpa using List.find?_some hf
      by_cases hg : f.gone = true
      · simp [hg] at hub
      · rw [if_neg hg]
        have := notify_other (s := { s with frames := s.frames.erase f }) h f.eid f.value
          (s.sinks.find? fun y => f.cur < y)
        refine ⟨this.1, this.2.trans ?_⟩
        exact erase_filter_other (by simp [hft]; exact h)
  | raise u =>
    simp only [estep, Src.raise]
    split
    · exact ⟨rfl, rfl⟩
    · rename_i f hf
      have hft : f.thread = u := by simpa using List.find?_some hf
      exact ⟨rfl, erase_filter_other (by simp [hft]; exact h)⟩
  | _ => exact h.elim

/-- Thread `t` has `k` returns of sinks to go in an emission, or none. -/
def ToGo (t : Nat) (sinks : List Nat) (k : Nat) (s : Src) : Prop :=
  s.sinks = sinks ∧
  ((k = 0 ∧ s.frames.filter (·.thread == t) = []) ∨
    ∃ e v pre x post, sinks = pre ++ x :: post ∧ k = post.length + 1 ∧
      s.frames.filter (·.thread == t) = [⟨t, e, x, v, false⟩])

theorem next_of {sinks pre post : List Nat} {x : Nat} (hs : sinks = pre ++ x :: post)
    (hp : sinks.Pairwise (· < ·)) : sinks.find? (fun y => x < y) = post.head? := by
  subst hs
  rw [List.pairwise_append, List.pairwise_cons] at hp
  rw [List.find?_append, List.find?_eq_none.2, Option.none_or, List.find?_cons]
  · simp only [Nat.lt_irrefl, decide_false]
    cases post with
    | nil => rfl
    | cons b post =>
      have := hp.2.1.1 b (by simp)
      simp [this]
  · intro y hy
    have := hp.2.2 y hy x (by simp); simp; omega

theorem toGo_next {env : SinkEnv} {s : Src} {t k : Nat} {sinks : List Nat} (h : ToGo t sinks (k + 1) s)
    (hp : sinks.Pairwise (· < ·)) : ToGo t sinks k (estep env s (.next t)) := by
  obtain ⟨hs, h⟩ := h
  rcases h with ⟨h, _⟩ | ⟨e, v, pre, x, post, h1, h2, h3⟩
  · omega
  have hf : s.frames.find? (·.thread == t) = some ⟨t, e, x, v, false⟩ := by
    rw [← List.head?_filter, h3]; rfl
  have he : (s.frames.erase ⟨t, e, x, v, false⟩).filter (·.thread == t) = [] := by
    rw [erase_filter_same (by simp), h3]; simp
  simp only [estep, Src.next, hf]
  rw [hs, next_of h1 hp, if_neg (by simp)]
  have hk : k = post.length := by omega
  cases post with
  | nil => exact ⟨rfl, .inl ⟨hk, he⟩⟩
  | cons b post =>
    refine ⟨rfl, .inr ⟨e, v, pre ++ [x], b, post, by simp [h1], by simpa using hk, ?_⟩⟩
    show List.filter _ (_ :: _) = _
    rw [List.filter_cons_of_pos (by simp), he]

theorem toGo_run {env : SinkEnv} {t : Nat} {sinks : List Nat} (hp : sinks.Pairwise (· < ·)) :
    ∀ (ops : List EOp) (k : Nat) (s : Src), ToGo t sinks k s →
      (∀ o ∈ ops, o = .next t ∨ Other t o) → ops.count (.next t) = k → (erun env s ops).ub = false →
      ToGo t sinks 0 (erun env s ops)
  | [], k, s, h, _, hc, _ => by
    have : k = 0 := by simpa using hc.symm
    subst this; exact h
  | o :: ops, k, s, h, ho, hc, hub => by
    have hub' : (estep env s o).ub = false := erun_ub env ops _ hub
    rcases ho o List.mem_cons_self with rfl | h1
    · rw [List.count_cons_self] at hc
      subst hc
      exact toGo_run hp ops _ _ (toGo_next h hp) (fun o h => ho o (List.mem_cons_of_mem _ h)) rfl hub
    · have hne : o ≠ .next t := by rintro rfl; exact h1 rfl
      rw [List.count_cons_of_ne hne] at hc
      obtain ⟨e1, e2⟩ := other_step o h1 hub'
      refine toGo_run hp ops k _ ?_ (fun o h => ho o (List.mem_cons_of_mem _ h)) hc hub
      unfold ToGo
      rw [e1, e2]
      exact h

/-- What holds of emission `e` while the subscriptions do not change, also after an exception. -/
structure Part (e : Nat) (s : Src) : Prop where
  sorted : (notified e s.log).Pairwise (· < ·)
  sub : ∀ x ∈ notified e s.log, x ∈ s.sinks
  down : ∀ x ∈ notified e s.log, ∀ y ∈ s.sinks, y < x → y ∈ notified e s.log
  loop : ∀ f ∈ s.frames, f.eid = e → (∀ x ∈ notified e s.log, x ≤ f.cur) ∧
    ∀ y ∈ s.sinks, y ≤ f.cur → y ∈ notified e s.log
  started : e < s.count

theorem Part.notify_other {e : Nat} {s : Src} (h : Part e s) (t' e' v' : Nat) (o : Option Nat) (he : e' ≠ e) :
    Part e (s.notify t' e' v' o) := by
  cases o with
  | none => exact h
  | some x =>
    have hn : notified e (s.log ++ [⟨e', x, v'⟩]) = notified e s.log := by
      rw [notified_append, if_neg he]
    refine ⟨?_, ?_, ?_, ?_, h.started⟩ <;> simp only [Src.notify, hn]
    · exact h.sorted
    · exact h.sub
    · exact h.down
    · intro f hf hfe
      rcases List.mem_cons.1 hf with rfl | hf
      · exact absurd hfe he
      · exact h.loop f hf hfe

theorem Part.step {env : SinkEnv} {e : Nat} {s : Src} (h : Part e s) (hi : EInv env s) (o : EOp)
    (ho : (∃ u w, o = .emit u w) ∨ (∃ u, o = .next u) ∨ ∃ u, o = .raise u) :
    Part e (estep env s o) ∧ (estep env s o).sinks = s.sinks := by
  have hns : ∀ (s : Src) t e v o, (s.notify t e v o).sinks = s.sinks := by
    intro s t e v o; cases o <;> rfl
  rcases ho with ⟨u, w, rfl⟩ | ⟨u, rfl⟩ | ⟨u, rfl⟩
  · exact ⟨Part.notify_other (s := { s with count := s.count + 1 })
      ⟨h.sorted, h.sub, h.down, h.loop, Nat.lt_succ_of_lt h.started⟩ _ _ _ _ (Nat.ne_of_gt h.started),
      hns _ _ _ _ _⟩
  · simp only [estep, Src.next]
    split
    · exact ⟨h, rfl⟩
    · rename_i g hfs
      have hg := List.mem_of_find?_eq_some hfs
      obtain ⟨e1, -, -⟩ := erase_eid hi.fnodup hg
      split
      · exact ⟨⟨h.sorted, h.sub, h.down, by simp, h.started⟩, rfl⟩
      · refine ⟨?_, hns _ _ _ _ _⟩
        have h' : Part e { s with frames := s.frames.erase g } :=
          ⟨h.sorted, h.sub, h.down, fun f hf => h.loop f (e1 f hf).1, h.started⟩
        by_cases hge : g.eid = e
        · obtain ⟨l1, l2⟩ := h.loop g hg hge
          cases hn : s.sinks.find? (fun y => g.cur < y) with
          | none => exact h'
          | some y =>
            obtain ⟨hy1, hy2, hy3⟩ := find_least hi.sorted hn
            have hlog : notified e (s.log ++ [⟨g.eid, y, g.value⟩]) = notified e s.log ++ [y] := by
              rw [notified_append, if_pos hge]
            refine ⟨?_, ?_, ?_, ?_, h.started⟩ <;>
              simp only [Src.notify, hlog, List.mem_append, List.mem_singleton]
            · rw [List.pairwise_append]
              refine ⟨h.sorted, by simp, ?_⟩
              intro a ha b hb
              simp only [List.mem_singleton] at hb
              have := l1 a ha
              omega
            · rintro x (hx | rfl)
              · exact h.sub x hx
              · exact hy2
            · rintro x (hx | rfl) z hz hzx
              · exact .inl (h.down x hx z hz hzx)
              · refine .inl (l2 z hz ?_)
                apply Nat.le_of_not_lt
                intro hc
                have := hy3 z hz hc
                omega
            · intro f hf hfe
              rcases List.mem_cons.1 hf with rfl | hf
              · refine ⟨?_, ?_⟩
                · rintro x (hx | rfl)
                  · have := l1 x hx
                    simp only; omega
                  · exact Nat.le_refl _
                · intro z hz hzy
                  simp only at hzy
                  by_cases hzc : z ≤ g.cur
                  · exact .inl (l2 z hz hzc)
                  · have := hy3 z hz (by omega)
                    exact .inr (by omega)
              · exact absurd (hfe.trans hge.symm) (e1 f hf).2
        · exact h'.notify_other _ _ _ _ hge
  · simp only [estep, Src.raise]
    split
    · exact ⟨h, rfl⟩
    · rename_i g hfs
      obtain ⟨e1, -, -⟩ := erase_eid hi.fnodup (List.mem_of_find?_eq_some hfs)
      exact ⟨⟨h.sorted, h.sub, h.down, fun f hf => h.loop f (e1 f hf).1, h.started⟩, rfl⟩

theorem Part.run {env : SinkEnv} {e : Nat} (ops : List EOp) {s : Src} (h : Part e s) (hi : EInv env s)
    (ho : ∀ o ∈ ops, (∃ u w, o = .emit u w) ∨ (∃ u, o = .next u) ∨ ∃ u, o = .raise u) :
    Part e (erun env s ops) ∧ (erun env s ops).sinks = s.sinks := by
  induction ops generalizing s with
  | nil => exact ⟨h, rfl⟩
  | cons o ops ih =>
    obtain ⟨h1, h2⟩ := h.step hi o (ho o List.mem_cons_self)
    obtain ⟨h3, h4⟩ := ih h1 (hi.step o) fun o h => ho o (List.mem_cons_of_mem _ h)
    exact ⟨h3, h4.trans h2⟩

theorem Part.start {env : SinkEnv} {s : Src} (hi : EInv env s) (t v : Nat) : Part s.count (s.emit t v) := by
  have hnone : notified s.count s.log = [] := by
    unfold notified
    rw [List.filter_eq_nil_iff.2, List.map_nil]
    intro n hn
    have := hi.leid n hn
    simp; omega
  unfold Src.emit
  cases hh : s.sinks with
  | nil =>
    refine ⟨?_, ?_, ?_, ?_, Nat.lt_succ_self _⟩ <;> simp only [List.head?_nil, Src.notify, hnone]
    · simp
    · simp
    · simp
    · intro f hf hfe; have := hi.feid f hf; omega
  | cons a l =>
    have hlog : notified s.count (s.log ++ [⟨s.count, a, v⟩]) = [a] := by
      rw [notified_append, if_pos rfl, hnone]; rfl
    have hsort := hi.sorted
    rw [hh, List.pairwise_cons] at hsort
    refine ⟨?_, ?_, ?_, ?_, Nat.lt_succ_self _⟩ <;> simp only [List.head?_cons, Src.notify, hlog]
    · simp
    · simp
    · intro x hx y hy hyx
      simp only [List.mem_singleton] at hx
      subst hx
      rcases List.mem_cons.1 hy with rfl | hy
      · simp
      · have := hsort.1 y hy; omega
    · intro f hf hfe
      rcases List.mem_cons.1 hf with rfl | hf
      · refine ⟨by simp, ?_⟩
        intro y hy hya
        simp only at hya
        rcases List.mem_cons.1 hy with rfl | hy
        · simp
        · have := hsort.1 y hy; omega
      · have := hi.feid f hf; omega

theorem sorted_prefix : ∀ (l m : List Nat), l.Pairwise (· < ·) → m.Pairwise (· < ·) →
    (∀ x ∈ l, x ∈ m) → (∀ x ∈ l, ∀ y ∈ m, y < x → y ∈ l) → l <+: m
  | [], m, _, _, _, _ => List.nil_prefix
  | a :: l, [], _, _, h, _ => absurd (h a List.mem_cons_self) (by simp)
  | a :: l, b :: m, hl, hm, h, hd => by
    rw [List.pairwise_cons] at hl hm
    have hab : a = b := by
      rcases List.mem_cons.1 (h a List.mem_cons_self) with e | e
      · exact e
      · have h1 := hm.1 a e
        rcases List.mem_cons.1 (hd a List.mem_cons_self b List.mem_cons_self h1) with e' | e'
        · exact e'.symm
        · have := hl.1 b e'; omega
    subst hab
    refine List.cons_prefix_cons.2 ⟨rfl, sorted_prefix l m hl.2 hm.2 (fun x hx => ?_) fun x hx y hy hyx => ?_⟩
    · rcases List.mem_cons.1 (h x (List.mem_cons_of_mem _ hx)) with e | e
      · have := hl.1 x hx; omega
      · exact e
    · rcases List.mem_cons.1 (hd x (List.mem_cons_of_mem _ hx) y (List.mem_cons_of_mem _ hy) hyx) with e | e
      · have := hm.1 y hy; omega
      · exact e

/-- Emission `e` has ended. -/
def Over (e : Nat) (s : Src) : Prop := e < s.count ∧ ∀ f ∈ s.frames, f.eid ≠ e

theorem Over.notify {e : Nat} {s : Src} (h : Over e s) (t' e' v' : Nat) (o : Option Nat) (he : e' ≠ e) :
    Over e (s.notify t' e' v' o) ∧ notified e (s.notify t' e' v' o).log = notified e s.log := by
  cases o with
  | none => exact ⟨h, rfl⟩
  | some x =>
    refine ⟨⟨h.1, fun f hf => ?_⟩, ?_⟩
    · rcases List.mem_cons.1 hf with rfl | hf
      · exact he
      · exact h.2 f hf
    · simp only [Src.notify]; rw [notified_append, if_neg he]

theorem Over.step {env : SinkEnv} {e : Nat} {s : Src} (h : Over e s) (o : EOp) :
    Over e (estep env s o) ∧ notified e (estep env s o).log = notified e s.log := by
  have hlose : ∀ p : Nat → Bool, ∀ f ∈ s.frames.map (·.lose p), f.eid ≠ e := by
    intro p f hf
    obtain ⟨g, hg, rfl⟩ := mem_lose hf
    rw [(lose_eid p g).1]; exact h.2 g hg
  cases o with
  | subscribe x => simp only [estep, Src.subscribe]; split; exact ⟨h, rfl⟩; split <;> exact ⟨h, rfl⟩
  | unsubscribe x =>
    simp only [estep, Src.unsubscribe]
    split
    · exact ⟨h, rfl⟩
    · exact ⟨⟨h.1, hlose _⟩, rfl⟩
  | removeLinks p => exact ⟨⟨h.1, hlose _⟩, rfl⟩
  | emit t v =>
    exact Over.notify (s := { s with count := s.count + 1 }) ⟨Nat.lt_succ_of_lt h.1, h.2⟩ _ _ _ _
      (Nat.ne_of_gt h.1)
  | next t =>
    simp only [estep, Src.next]
    split
    · exact ⟨h, rfl⟩
    · rename_i g hfs
      have hg := List.mem_of_find?_eq_some hfs
      split
      · exact ⟨⟨h.1, by simp⟩, rfl⟩
      · exact Over.notify (s := { s with frames := s.frames.erase g })
          ⟨h.1, fun f hf => h.2 f (List.mem_of_mem_erase hf)⟩ _ _ _ _ (h.2 g hg)
  | raise t =>
    simp only [estep, Src.raise]
    split
    · exact ⟨h, rfl⟩
    · exact ⟨⟨h.1, fun f hf => h.2 f (List.mem_of_mem_erase hf)⟩, rfl⟩

/-! ### C156 -/

/-- C156: take an event source after any history, in any number of threads, and an emission in thread `t`
that runs to its end while this and the other threads emit too, and sinks raise in the other threads, but
no thread changes the subscriptions: it notifies exactly the subscribed sinks, in the order of their
addresses, each once. -/
theorem C156_exact (env : SinkEnv) (a t v : Nat) (before during : List EOp)
    (hops : ∀ o ∈ during, (∃ u w, o = .emit u w) ∨ (∃ u, o = .next u) ∨ ∃ u, u ≠ t ∧ o = .raise u)
    (hub : (erun env (Src.init a) (before ++ .emit t v :: during)).ub = false)
    (hend : ∀ f ∈ (erun env (Src.init a) (before ++ .emit t v :: during)).frames,
      f.eid ≠ (erun env (Src.init a) before).count) :
    let s := erun env (Src.init a) before
    notified s.count (erun env (Src.init a) (before ++ .emit t v :: during)).log = s.sinks := by
  intro s
  have h1 : ∀ x, .unsubscribe x ∉ during := fun x h => by
    rcases hops _ h with ⟨_, _, e⟩ | ⟨_, e⟩ | ⟨_, _, e⟩ <;> cases e
  have h2 : ∀ x, .removeLinks x ∉ during := fun x h => by
    rcases hops _ h with ⟨_, _, e⟩ | ⟨_, e⟩ | ⟨_, _, e⟩ <;> cases e
  have h3 : ∀ x, .subscribe x ∉ during := fun x h => by
    rcases hops _ h with ⟨_, _, e⟩ | ⟨_, e⟩ | ⟨_, _, e⟩ <;> cases e
  have h4 : EOp.raise t ∉ during := fun h => by
    rcases hops _ h with ⟨_, _, e⟩ | ⟨_, e⟩ | ⟨u, hu, e⟩
    · cases e
    · cases e
    · cases e; exact hu rfl
  have hi : EInv env s := EInv.run before (EInv.init env a)
  have hr := Run.run (env := env) during
    (Run.start hi t v (fun x => x ∈ s.sinks) (fun x => x ∈ s.sinks) (fun _ h => h) (fun _ h => h))
    (hi.step (.emit t v)) (by rw [erun_append] at hub; exact hub)
    (fun x h => absurd h (h3 x)) (fun x h => absurd h (h1 x)) (fun x h => absurd h (h2 x)) h4
  have hw : erun env (Src.init a) (before ++ .emit t v :: during) = erun env (s.emit t v) during := by
    rw [erun_append]; rfl
  rw [hw] at hend ⊢
  refine sorted_ext _ _ hr.sorted hi.sorted fun x => ⟨fun hx => ?_, fun hx => ?_⟩
  · obtain ⟨n, hn, rfl⟩ := List.mem_map.1 hx
    obtain ⟨hn1, hn2⟩ := List.mem_filter.1 hn
    exact (hr.value n hn1 (by simpa using hn2)).2
  · rcases hr.now with ⟨f, hf, hfe, _⟩ | ⟨_, h⟩
    · exact absurd hfe (hend f hf)
    · exact h x hx

/-- C156: it ends as soon as its thread has returned from as many sinks as there are, whatever the other
threads do meanwhile. -/
theorem C156_ends (env : SinkEnv) (a t v : Nat) (before during : List EOp)
    (hidle : ∀ f ∈ (erun env (Src.init a) before).frames, f.thread ≠ t)
    (hops : ∀ o ∈ during, o = .next t ∨ (∃ u w, u ≠ t ∧ o = .emit u w) ∨ (∃ u, u ≠ t ∧ o = .next u) ∨
      ∃ u, u ≠ t ∧ o = .raise u)
    (hn : during.count (.next t) = (erun env (Src.init a) before).sinks.length)
    (hub : (erun env (Src.init a) (before ++ .emit t v :: during)).ub = false) :
    let s := erun env (Src.init a) before
    let w := erun env (Src.init a) (before ++ .emit t v :: during)
    (∀ f ∈ w.frames, f.thread ≠ t) ∧ notified s.count w.log = s.sinks := by
  intro s w
  have hi : EInv env s := EInv.run before (EInv.init env a)
  have hw : w = erun env (s.emit t v) during := by show erun _ _ _ = _; rw [erun_append]; rfl
  have hnone : s.frames.filter (·.thread == t) = [] := by
    rw [List.filter_eq_nil_iff]; intro f hf; simpa using hidle f hf
  have h0 : ToGo t s.sinks s.sinks.length (s.emit t v) := by
    unfold Src.emit
    cases hs : s.sinks with
    | nil => exact ⟨rfl, .inl ⟨rfl, hnone⟩⟩
    | cons x post =>
      refine ⟨rfl, .inr ⟨s.count, v, [], x, post, rfl, rfl, ?_⟩⟩
      show List.filter _ (_ :: _) = _
      rw [List.filter_cons_of_pos (by simp)]
      exact congrArg _ hnone
  have hoth : ∀ o ∈ during, o = .next t ∨ Other t o := by
    intro o ho
    rcases hops o ho with h | ⟨u, w, h, rfl⟩ | ⟨u, h, rfl⟩ | ⟨u, h, rfl⟩
    · exact .inl h
    · exact .inr h
    · exact .inr h
    · exact .inr h
  have hu : (erun env (s.emit t v) during).ub = false := by rw [← hw]; exact hub
  have h1 := toGo_run hi.sorted during _ _ h0 hoth hn hu
  have hfr : ∀ f ∈ w.frames, f.thread ≠ t := by
    rw [hw]
    obtain ⟨_, h1⟩ := h1
    rcases h1 with ⟨_, h1⟩ | ⟨_, _, _, _, _, _, h, _⟩
    · rw [List.filter_eq_nil_iff] at h1
      intro f hf; simpa using h1 f hf
    · omega
  refine ⟨hfr, ?_⟩
  have hi' : EInv env (s.emit t v) := hi.step (.emit t v)
  have hr := Run.run (env := env) during
    (Run.start hi t v (fun x => x ∈ s.sinks) (fun x => x ∈ s.sinks) (fun _ h => h) (fun _ h => h))
    hi' hu
    (fun x h => by rcases hoth _ h with e | e; cases e; exact e.elim)
    (fun x h => by rcases hoth _ h with e | e; cases e; exact e.elim)
    (fun x h => by rcases hoth _ h with e | e; cases e; exact e.elim)
    (fun h => by rcases hoth _ h with e | e; cases e; exact e rfl)
  refine C156_exact env a t v before during (fun o ho => ?_) hub fun f hf he => ?_
  · rcases hops o ho with h | ⟨u, w, _, h⟩ | ⟨u, _, h⟩ | ⟨u, h', h⟩
    · exact .inr (.inl ⟨_, h⟩)
    · exact .inl ⟨_, _, h⟩
    · exact .inr (.inl ⟨_, h⟩)
    · exact .inr (.inr ⟨_, h', h⟩)
  · rcases hr.now with ⟨g, hg, hge, hgt, _⟩ | ⟨hg, _⟩
    · exact hfr g (by rw [hw]; exact hg) hgt
    · exact hg f (by rw [← hw]; exact hf) he

/-- C156: at any time, also after exceptions of sinks, an emission has notified the first ones of the
subscribed sinks, each once, if no thread changes the subscriptions meanwhile. -/
theorem C156_prefix (env : SinkEnv) (a t v : Nat) (before during : List EOp)
    (hops : ∀ o ∈ during, (∃ u w, o = .emit u w) ∨ (∃ u, o = .next u) ∨ ∃ u, o = .raise u) :
    let s := erun env (Src.init a) before
    notified s.count (erun env (Src.init a) (before ++ .emit t v :: during)).log <+: s.sinks := by
  intro s
  have hi : EInv env s := EInv.run before (EInv.init env a)
  have he : (s.emit t v).sinks = s.sinks := by unfold Src.emit; cases s.sinks.head? <;> rfl
  obtain ⟨h, hs⟩ := Part.run during (Part.start hi t v) (hi.step (.emit t v)) hops
  rw [show erun env (Src.init a) (before ++ .emit t v :: during) = erun env (s.emit t v) during by
    rw [erun_append]; rfl]
  have h1 := h.sub
  have h2 := h.down
  rw [hs, he] at h1 h2
  exact sorted_prefix _ _ h.sorted hi.sorted h1 h2

/-- C156: an exception of the sink that the innermost emission of a thread is at ends this emission: it
notifies no other sink, whatever any thread does afterwards. The other emissions and the subscriptions are as
before. -/
theorem C156_raise (env : SinkEnv) (a t : Nat) (before after : List EOp) (f : Frame)
    (hf : (erun env (Src.init a) before).frames.find? (·.thread == t) = some f) :
    let s := erun env (Src.init a) before
    let r := erun env (Src.init a) (before ++ [.raise t])
    notified f.eid (erun env (Src.init a) (before ++ .raise t :: after)).log = notified f.eid s.log ∧
    (∀ g, g ∈ r.frames ↔ g ∈ s.frames ∧ g ≠ f) ∧ r.sinks = s.sinks := by
  intro s r
  have hi : EInv env s := EInv.run before (EInv.init env a)
  have hm := List.mem_of_find?_eq_some hf
  have hr : r = { s with frames := s.frames.erase f } := by
    show erun _ _ _ = _
    rw [erun_append]
    show s.raise t = _
    unfold Src.raise
    rw [show s.frames.find? (·.thread == t) = some f from hf]
  obtain ⟨e1, e2, e3⟩ := erase_eid hi.fnodup hm
  have h0 : Over f.eid r := by
    rw [hr]; exact ⟨hi.feid f hm, fun g hg => (e1 g hg).2⟩
  have key : ∀ (ops : List EOp) (u : Src), Over f.eid u →
      notified f.eid (erun env u ops).log = notified f.eid u.log := by
    intro ops
    induction ops with
    | nil => intro u _; rfl
    | cons o ops ih =>
      intro u hu
      obtain ⟨h1, h2⟩ := hu.step (env := env) o
      exact (ih _ h1).trans h2
  refine ⟨?_, ?_, by rw [hr]⟩
  · have hw : erun env (Src.init a) (before ++ .raise t :: after) = erun env r after := by
      show _ = erun env (erun _ _ _) after
      rw [← erun_append]
      simp
    rw [hw, key after r h0, hr]
  · intro g
    rw [hr]
    refine ⟨fun hg => ⟨(e1 g hg).1, fun h => (e1 g hg).2 (by rw [h])⟩, fun ⟨hg, hne⟩ => ?_⟩
    exact (e3 g hg).resolve_left hne

/-- C156: no loop ever goes on from an erased element, in any number of threads, when no sink is unsubscribed
while it is notified, in whatever thread. -/
theorem C156_safe (env : SinkEnv) (a : Nat) (ops : List EOp)
    (hu : ∀ p x q, ops = p ++ .unsubscribe x :: q → ∀ f ∈ (erun env (Src.init a) p).frames, f.cur ≠ x)
    (hl : ∀ p c q, ops = p ++ .removeLinks c :: q →
      ∀ f ∈ (erun env (Src.init a) p).frames, env.parent f.cur ≠ c) :
    (erun env (Src.init a) ops).ub = false := by
  have key : ∀ q p, ops = p ++ q → Whole (erun env (Src.init a) p) → Whole (erun env (Src.init a) ops) := by
    intro q
    induction q with
    | nil => intro p h hw; rw [h, List.append_nil]; exact hw
    | cons o q ih =>
      intro p h hw
      refine ih (p ++ [o]) (by simp [h]) ?_
      rw [erun_append]
      exact hw.step o (by rintro x rfl; exact hu p x q h) (by rintro c rfl; exact hl p c q h)
  exact (key ops [] rfl ⟨rfl, fun f hf => by simp [erun, Src.init] at hf⟩).1

/-- C156, false in general: whatever happened before, when a thread unsubscribes the sink at which the
emission of a thread is, the emission goes on from an erased element, which is undefined behaviour; also when
the sink is subscribed again meanwhile. The source has no lock that would prevent it. -/
theorem C156_erased_fails (env : SinkEnv) (a t : Nat) (before : List EOp) (f : Frame)
    (hf : (erun env (Src.init a) before).frames.find? (·.thread == t) = some f)
    (hx : f.cur ∈ (erun env (Src.init a) before).sinks) :
    (erun env (Src.init a) (before ++ [.unsubscribe f.cur, .next t])).ub = true ∧
    (erun env (Src.init a) (before ++ [.unsubscribe f.cur, .subscribe f.cur, .next t])).ub = true ∧
    (erun env (Src.init a) (before ++ [.removeLinks (env.parent f.cur), .next t])).ub = true := by
  have hlose : ∀ (l : List Frame) (p : Nat → Bool), (l.map (·.lose p)).find? (·.thread == t) =
      (l.find? (·.thread == t)).map (·.lose p) := by
    intro l p
    induction l with
    | nil => rfl
    | cons g l ih =>
      rw [List.map_cons, List.find?_cons, List.find?_cons, (lose_eid p g).2.2.2, ih]
      cases g.thread == t <;> rfl
  have hgone : ∀ p : Nat → Bool, p f.cur = true → (f.lose p).gone = true := by
    intro p h; unfold Frame.lose; rw [if_pos h]
  simp only [erun_append]
  generalize erun env (Src.init a) before = s at *
  have hun : ∀ u : Src, u.frames = s.frames.map (·.lose (· == f.cur)) → (u.next t).ub = true := by
    intro u hu
    unfold Src.next
    rw [hu, hlose, hf]
    dsimp only [Option.map]
    rw [if_pos (hgone _ (by simp))]
  refine ⟨?_, ?_, ?_⟩
  · refine hun _ ?_
    simp [estep, Src.unsubscribe, hx]
  · refine hun _ ?_
    simp only [estep, Src.unsubscribe, Src.subscribe, hx, not_true_eq_false, if_false]
    split
    · rfl
    · split <;> rfl
  · have h := (hlose s.frames (fun x => env.parent x == env.parent f.cur)).trans (by rw [hf])
    show (Src.next (Src.removeLinks env s (env.parent f.cur)) t).ub = true
    unfold Src.next Src.removeLinks
    dsimp only
    rw [h]
    dsimp only [Option.map]
    rw [if_pos (hgone _ (by simp))]

/-! ### The hypotheses are met -/

/-- Sinks 1, 2, 3; threads 0 and 1 emit at the same time. -/
example :
    let env : SinkEnv := ⟨fun _ => 0, fun x => x⟩
    let before : List EOp := [.subscribe 3, .subscribe 1, .subscribe 2]
    let during : List EOp := [.emit 1 6, .next 1, .next 0, .next 0, .next 1, .next 0]
    let w := erun env (Src.init 0) (before ++ .emit 0 5 :: during)
    w.ub = false ∧ (∀ f ∈ w.frames, f.thread ≠ 0) ∧ w.frames.length = 1 ∧
    during.count (.next 0) = 3 ∧ notified 0 w.log = [1, 2, 3] ∧ notified 1 w.log = [1, 2, 3] := by
  decide

/-- The sink 2 raises in thread 0: the sink 3 is not notified, thread 1 goes on. -/
example :
    let env : SinkEnv := ⟨fun _ => 0, fun x => x⟩
    let before : List EOp := [.subscribe 3, .subscribe 1, .subscribe 2, .emit 0 5, .emit 1 6, .next 0]
    let s := erun env (Src.init 0) before
    let w := erun env s [.raise 0, .next 1, .next 1, .next 1]
    s.frames.find? (·.thread == 0) = some ⟨0, 0, 2, 5, false⟩ ∧ w.frames = [] ∧
    notified 0 w.log = [1, 2] ∧ notified 1 w.log = [1, 2, 3] := by
  decide

/-- Thread 0 notifies sink 1 while thread 1 unsubscribes it. -/
example :
    let env : SinkEnv := ⟨fun _ => 0, fun x => x⟩
    let before : List EOp := [.subscribe 1, .subscribe 2, .emit 0 5]
    let s := erun env (Src.init 0) before
    s.frames.find? (·.thread == 0) = some ⟨0, 0, 1, 5, false⟩ ∧ 1 ∈ s.sinks ∧
    (erun env s [.unsubscribe 1, .next 0]).ub = true ∧ (erun env s [.unsubscribe 2, .next 0]).ub = false := by
  decide

end Verif.Tree
