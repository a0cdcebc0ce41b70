import Verif.Event.ThreadsProps
import Verif.Event.Props

/-!
C98, ids: the ids that `QueryEventId` gives, and which ids the other calls accept, with several
threads.
-/
namespace Verif.Event

/-! ## Specification -/

/-- The id is one of the standard. -/
def Standard (i : Int) : Prop := ∃ x, (x, i) ∈ predefined

/-- Some call of `QueryEventId` was given this id. -/
def Given (l : List Obs) (i : Int) : Prop := ∃ k x, Obs.effect k (.query x) (.id i) ∈ l

/-- The call of `QueryEventId` that was the first to be given this id has returned. -/
def Settled (l : List Obs) (i : Int) : Prop :=
  ∃ k x p q, l = p ++ .effect k (.query x) (.id i) :: q ∧ ¬ Given p i ∧ .returned k (.id i) ∈ q

/-- A call that reads or changes the subscriptions of an event has an id that was given before, or
one of the standard. -/
def Accepted (l : List Obs) : Obs → Prop
  | .effect _ (.subscribe i _) _ => Standard i ∨ Given l i
  | .effect _ (.unsubscribe i _) _ => Standard i ∨ Given l i
  | .copied _ i _ => Standard i ∨ Given l i
  | _ => True

/-! ## Names and ids -/

/-- The invariant about names and ids. -/
structure NamesOk (s : TSys) : Prop where
  enodup : s.mgr.events.Nodup
  bound : ∀ x i, (x, i) ∈ s.mgr.events → 1 ≤ i ∧ i ≤ s.mgr.events.length
  inj : ∀ x y i, s.mgr.events.find x = some i → s.mgr.events.find y = some i → x = y
  eff : ∀ k x i, .effect k (.query x) (.id i) ∈ s.log → s.mgr.events.find x = some i
  known : ∀ x i, s.mgr.events.find x = some i → (x, i) ∈ predefined ∨ Given s.log i
  std : ∀ x i, (x, i) ∈ predefined → s.mgr.events.find x = some i ∧ s.mgr.ids.find i = some x
  first : ∀ k x i p q, s.log = p ++ .effect k (.query x) (.id i) :: q → ¬ Given p i →
    s.mgr.ids.find i = some x ∨ ∃ t, .registering k i x ∈ s.stack t
  sound : ∀ x i, s.mgr.ids.find i = some x → s.mgr.events.find x = some i
  reg : ∀ t k x i, .registering k i x ∈ s.stack t → s.mgr.events.find x = some i
  act : ∀ t n c, .acting n c ∈ s.stack t → s.mgr.ids.find c.target ≠ none

theorem Given.mono {a b : List Obs} {i : Int} (h : Given a i) : Given (a ++ b) i := by
  obtain ⟨k, x, h⟩ := h
  exact ⟨k, x, List.mem_append_left _ h⟩

theorem Settled.mono {a b : List Obs} {i : Int} (h : Settled a i) : Settled (a ++ b) i := by
  obtain ⟨k, x, p, q, h1, h2, h3⟩ := h
  exact ⟨k, x, p, q ++ b, by simp [h1], h2, List.mem_append_left _ h3⟩

theorem split_append {m : List Obs} : ∀ {l a b : List Obs} {o : Obs},
    l ++ m = a ++ o :: b → o ∉ m → ∃ b', l = a ++ o :: b' := by
  intro l
  induction l with
  | nil =>
    intro a b o h hm
    exfalso; apply hm
    rw [List.nil_append] at h
    rw [h]; simp
  | cons y l ih =>
    intro a b o h hm
    cases a with
    | nil => exact ⟨l, by simp at h; simp [h.1]⟩
    | cons z a =>
      simp only [List.cons_append, List.cons.injEq] at h
      obtain ⟨b', hb⟩ := ih h.2 hm
      exact ⟨b', by rw [h.1, hb]; rfl⟩

/-- A step that leaves names and ids, and adds no observation of a query. -/
theorem NamesOk.quiet {s s' : TSys} (h : NamesOk s) (he : s'.mgr.events = s.mgr.events)
    (hi : s'.mgr.ids = s.mgr.ids) (m : List Obs) (hl : s'.log = s.log ++ m)
    (hm : ∀ k x i, .effect k (.query x) (.id i) ∉ m)
    (hkeep : ∀ t k x i, .registering k i x ∈ s.stack t → .registering k i x ∈ s'.stack t)
    (hreg : ∀ t k x i, .registering k i x ∈ s'.stack t → .registering k i x ∈ s.stack t)
    (hact : ∀ t n c, .acting n c ∈ s'.stack t →
      .acting n c ∈ s.stack t ∨ s.mgr.ids.find c.target ≠ none) : NamesOk s' := by
  refine ⟨by rw [he]; exact h.enodup, by rw [he]; exact h.bound, by rw [he]; exact h.inj, ?_, ?_,
    by rw [he, hi]; exact h.std, ?_, by rw [he, hi]; exact h.sound, ?_, ?_⟩
  · intro k x i hk
    rw [hl] at hk
    rw [he]
    rcases List.mem_append.1 hk with hk | hk
    · exact h.eff k x i hk
    · exact absurd hk (hm k x i)
  · intro x i hx
    rw [he] at hx
    rw [hl]
    exact (h.known x i hx).imp id fun g => g.mono
  · intro k x i p q hp hg
    rw [hl] at hp
    obtain ⟨q', hq⟩ := split_append hp (hm k x i)
    rw [hi]
    exact (h.first k x i p q' hq hg).imp id fun ⟨t, ht⟩ => ⟨t, hkeep t _ _ _ ht⟩
  · intro t k x i hk
    rw [he]; exact h.reg t k x i (hreg t k x i hk)
  · intro t n c hc
    rw [hi]
    rcases hact t n c hc with hc | hc
    · exact h.act t n c hc
    · exact hc

theorem mem_setStack {s : TSys} {t u : Nat} {l : List TFrame} {f : TFrame}
    (h : f ∈ s.setStack t l u) : (u = t ∧ f ∈ l) ∨ (u ≠ t ∧ f ∈ s.stack u) := by
  by_cases hu : u = t
  · subst hu; rw [setStack_eq] at h; exact .inl ⟨rfl, h⟩
  · rw [setStack_other s _ hu] at h; exact .inr ⟨hu, h⟩

theorem mem_setStack_of {s : TSys} {t u : Nat} {f g : TFrame} {fs : List TFrame} {l : List TFrame}
    (hst : s.stack t = f :: fs) (h : g ∈ s.stack u) (hl : ∀ k ∈ fs, k ∈ l) (hg : g ≠ f) :
    g ∈ s.setStack t l u := by
  by_cases hu : u = t
  · subst hu
    rw [setStack_eq]
    rw [hst] at h
    rcases List.mem_cons.1 h with h | h
    · exact absurd h hg
    · exact hl g h
  · rw [setStack_other s _ hu]; exact h

/-- … in which the innermost frame, not one that registers, becomes others, none of which
registers. -/
theorem NamesOk.quietFrame {s s' : TSys} (h : NamesOk s) {t : Nat} {f : TFrame} {fs gs : List TFrame}
    (hst : s.stack t = f :: fs) (hs : s'.stack = s.setStack t (gs ++ fs))
    (he : s'.mgr.events = s.mgr.events) (hi : s'.mgr.ids = s.mgr.ids) (m : List Obs)
    (hl : s'.log = s.log ++ m) (hm : ∀ k x i, .effect k (.query x) (.id i) ∉ m)
    (hf : ∀ k x i, .registering k i x ≠ f) (hg : ∀ k x i, .registering k i x ∉ gs)
    (ha : ∀ n c, .acting n c ∈ gs → s.mgr.ids.find c.target ≠ none) : NamesOk s' := by
  refine h.quiet he hi m hl hm ?_ ?_ ?_
  · intro u k x i hk
    rw [hs]
    exact mem_setStack_of hst hk (fun k hk => by simp [hk]) (hf k x i)
  · intro u k x i hk
    rw [hs] at hk
    rcases mem_setStack hk with ⟨rfl, hk'⟩ | ⟨_, hk'⟩
    · rcases List.mem_append.1 hk' with hk' | hk'
      · exact absurd hk' (hg k x i)
      · rw [hst]; simp [hk']
    · exact hk'
  · intro u n c hc
    rw [hs] at hc
    rcases mem_setStack hc with ⟨rfl, hc'⟩ | ⟨_, hc'⟩
    · rcases List.mem_append.1 hc' with hc' | hc'
      · exact .inr (ha n c hc')
      · left; rw [hst]; simp [hc']
    · exact .inl hc'

theorem namesOk_query_known {s : TSys} (h : NamesOk s) {t n : Nat} {x : String} {i : Int}
    {fs : List TFrame} (hst : s.stack t = .naming n (.query x) :: fs)
    (hx : s.mgr.events.find x = some i) :
    NamesOk { s with stack := s.setStack t (.leaving n (.id i) :: fs),
                     log := s.log ++ [.effect n (.query x) (.id i)] } := by
  refine ⟨h.enodup, h.bound, h.inj, ?_, ?_, h.std, ?_, h.sound, ?_, ?_⟩
  · intro k y j hk
    rcases List.mem_append.1 hk with hk | hk
    · exact h.eff k y j hk
    · simp only [List.mem_singleton, Obs.effect.injEq, Call.query.injEq, Res.id.injEq] at hk
      obtain ⟨_, rfl, rfl⟩ := hk
      exact hx
  · intro y j hy
    exact (h.known y j hy).imp id fun g => g.mono
  · intro k y j p q hp hg
    rcases split_snoc hp with ⟨q', hq⟩ | ⟨rfl, hq⟩
    · refine (h.first k y j p q' hq hg).imp id fun ⟨u, hu⟩ => ⟨u, ?_⟩
      exact mem_setStack_of hst hu (fun k hk => by simp [hk]) (by simp)
    · simp only [Obs.effect.injEq, Call.query.injEq, Res.id.injEq] at hq
      obtain ⟨_, rfl, rfl⟩ := hq
      rcases h.known _ _ hx with hp | hp
      · exact .inl (h.std _ _ hp).2
      · exact absurd hp hg
  · intro u k y j hk
    refine h.reg u k y j ?_
    rcases mem_setStack hk with ⟨rfl, hk'⟩ | ⟨_, hk'⟩
    · rw [hst]; simp at hk'; simp [hk']
    · exact hk'
  · intro u k c hk
    refine h.act u k c ?_
    rcases mem_setStack hk with ⟨rfl, hk'⟩ | ⟨_, hk'⟩
    · rw [hst]; simp at hk'; simp [hk']
    · exact hk'

theorem namesOk_query_new {s : TSys} (h : NamesOk s) {t n : Nat} {x : String}
    {fs : List TFrame} (hst : s.stack t = .naming n (.query x) :: fs)
    (hx : s.mgr.events.find x = none) :
    NamesOk { s with
      mgr := { s.mgr with events := s.mgr.events.tryEmplace x (s.mgr.events.length + 1) },
      stack := s.setStack t (.registering n (s.mgr.events.length + 1) x :: fs),
      log := s.log ++ [.effect n (.query x) (.id (s.mgr.events.length + 1))] } := by
  have hfresh : ∀ y, s.mgr.events.find y ≠ some (s.mgr.events.length + 1) := by
    intro y hy
    have := h.bound y _ (Assoc.mem_of_find hy)
    omega
  have hkeep : ∀ y j, s.mgr.events.find y = some j →
      Assoc.find y (s.mgr.events.tryEmplace x ((s.mgr.events.length : Int) + 1)) = some j := by
    intro y j hy
    rw [Assoc.find_tryEmplace, if_neg (by rw [hy]; simp), hy]
  have hnew : Assoc.find x (s.mgr.events.tryEmplace x ((s.mgr.events.length : Int) + 1)) =
      some ((s.mgr.events.length : Int) + 1) := by
    simp [Assoc.find_tryEmplace, hx]
  refine ⟨h.enodup.tryEmplace, ?_, ?_, ?_, ?_, ?_, ?_, ?_, ?_, ?_⟩
  · intro a i ha
    simp only at ha ⊢
    rw [mem_tryEmplace_fresh hx] at ha
    rw [Assoc.length_tryEmplace_fresh hx]
    rcases ha with ha | ha
    · have := h.bound a i ha; omega
    · simp only [Prod.mk.injEq] at ha; omega
  · intro a b i ha hb
    simp only [Assoc.find_tryEmplace] at ha hb
    split at ha <;> split at hb
    · rename_i h1 h2; rw [h1.1, h2.1]
    · simp only [Option.some.injEq] at ha; subst ha; exact absurd hb (hfresh _)
    · simp only [Option.some.injEq] at hb; subst hb; exact absurd ha (hfresh _)
    · exact h.inj _ _ _ ha hb
  · intro k y j hk
    rcases List.mem_append.1 hk with hk | hk
    · exact hkeep _ _ (h.eff k y j hk)
    · simp only [List.mem_singleton, Obs.effect.injEq, Call.query.injEq, Res.id.injEq] at hk
      obtain ⟨_, rfl, rfl⟩ := hk
      exact hnew
  · intro y j hy
    simp only [Assoc.find_tryEmplace] at hy
    split at hy
    · simp only [Option.some.injEq] at hy
      subst hy
      exact .inr ⟨n, x, by simp⟩
    · exact (h.known y j hy).imp id fun g => g.mono
  · intro y j hy
    exact ⟨hkeep _ _ (h.std y j hy).1, (h.std y j hy).2⟩
  · intro k y j p q hp hg
    rcases split_snoc hp with ⟨q', hq⟩ | ⟨rfl, hq⟩
    · refine (h.first k y j p q' hq hg).imp id fun ⟨u, hu⟩ => ⟨u, ?_⟩
      exact mem_setStack_of hst hu (fun k hk => by simp [hk]) (by simp)
    · simp only [Obs.effect.injEq, Call.query.injEq, Res.id.injEq] at hq
      obtain ⟨rfl, rfl, rfl⟩ := hq
      exact .inr ⟨t, by show _ ∈ s.setStack t _ t; rw [setStack_eq]; simp⟩
  · intro y j hy
    exact hkeep _ _ (h.sound y j hy)
  · intro u k y j hk
    rcases mem_setStack hk with ⟨rfl, hk'⟩ | ⟨_, hk'⟩
    · rcases List.mem_cons.1 hk' with hk' | hk'
      · simp only [TFrame.registering.injEq] at hk'
        obtain ⟨_, rfl, rfl⟩ := hk'
        exact hnew
      · exact hkeep _ _ (h.reg u k y j (by rw [hst]; simp [hk']))
    · exact hkeep _ _ (h.reg u k y j hk')
  · intro u k c hk
    refine h.act u k c ?_
    rcases mem_setStack hk with ⟨rfl, hk'⟩ | ⟨_, hk'⟩
    · rw [hst]; simp at hk'; simp [hk']
    · exact hk'

theorem namesOk_register {s : TSys} (h : NamesOk s) {t n : Nat} {x : String} {i : Int}
    {fs : List TFrame} (hst : s.stack t = .registering n i x :: fs) :
    NamesOk { s with mgr := { s.mgr with ids := s.mgr.ids.tryEmplace i x },
                     stack := s.setStack t (.leaving n (.id i) :: fs) } := by
  have hx : s.mgr.events.find x = some i := h.reg t n x i (by rw [hst]; simp)
  have hkeep : ∀ j y, s.mgr.ids.find j = some y →
      Assoc.find j (s.mgr.ids.tryEmplace i x) = some y := by
    intro j y hy
    rw [Assoc.find_tryEmplace, if_neg (by rw [hy]; simp), hy]
  have hnew : Assoc.find i (s.mgr.ids.tryEmplace i x) = some x := by
    cases hi : s.mgr.ids.find i with
    | none => simp [Assoc.find_tryEmplace, hi]
    | some y => rw [hkeep i y hi, h.inj x y i hx (h.sound y i hi)]
  refine ⟨h.enodup, h.bound, h.inj, h.eff, h.known,
    fun y j hy => ⟨(h.std y j hy).1, hkeep _ _ (h.std y j hy).2⟩, ?_, ?_, ?_, ?_⟩
  · intro k y j p q hp hg
    rcases h.first k y j p q hp hg with h1 | ⟨u, hu⟩
    · exact .inl (hkeep _ _ h1)
    · by_cases e : TFrame.registering k j y = .registering n i x
      · simp only [TFrame.registering.injEq] at e
        obtain ⟨-, rfl, rfl⟩ := e
        exact .inl hnew
      · exact .inr ⟨u, mem_setStack_of hst hu (fun k hk => by simp [hk]) e⟩
  · intro y j hy
    simp only [Assoc.find_tryEmplace] at hy
    split at hy
    · rename_i h1
      simp only [Option.some.injEq] at hy
      rw [← hy, h1.1]; exact hx
    · exact h.sound y j hy
  · intro u k y j hk
    refine h.reg u k y j ?_
    rcases mem_setStack hk with ⟨rfl, hk'⟩ | ⟨_, hk'⟩
    · rw [hst]; simp at hk'; simp [hk']
    · exact hk'
  · intro u k c hk
    have : s.mgr.ids.find c.target ≠ none := by
      refine h.act u k c ?_
      rcases mem_setStack hk with ⟨rfl, hk'⟩ | ⟨_, hk'⟩
      · rw [hst]; simp at hk'; simp [hk']
      · exact hk'
    cases hi : s.mgr.ids.find c.target with
    | none => exact absurd hi this
    | some y =>
      show Assoc.find c.target (s.mgr.ids.tryEmplace i x) ≠ none
      rw [hkeep _ _ hi]; simp

theorem namesOk_advance {s : TSys} (h : NamesOk s) {t : Nat} {f : TFrame} {fs : List TFrame}
    (hst : s.stack t = f :: fs) : NamesOk (s.advance t f fs) := by
  cases f with
  | naming n c =>
    cases c with
    | query x =>
      simp only [TSys.advance]
      split
      · exact h.quietFrame (gs := [_]) hst rfl rfl rfl [] (by simp) (by simp) (by simp) (by simp)
          (by simp)
      · split
        · rename_i i hx
          exact namesOk_query_known h hst hx
        · rename_i hx
          exact namesOk_query_new h hst hx
    | _ =>
      simp only [TSys.advance]
      split
      · exact h.quietFrame (gs := [_]) hst rfl rfl rfl [] (by simp) (by simp) (by simp) (by simp)
          (by simp)
      · rename_i hx
        refine h.quietFrame (gs := [_]) hst rfl rfl rfl [] (by simp) (by simp) (by simp) (by simp) ?_
        intro k c hc
        simp only [List.mem_singleton, TFrame.acting.injEq] at hc
        rw [hc.2, hx]; simp
  | acting n c =>
    cases c with
    | query x => exact h
    | _ =>
      exact h.quietFrame (gs := [_]) hst rfl rfl rfl [_] rfl (by simp) (by simp) (by simp) (by simp)
  | registering n i x => exact namesOk_register h hst
  | running n rest inside =>
    cases inside with
    | true =>
      exact h.quietFrame (gs := [_]) hst rfl rfl rfl [] (by simp [TSys.advance]) (by simp) (by simp)
        (by simp) (by simp)
    | false =>
      cases rest with
      | nil =>
        exact h.quietFrame (gs := [_]) hst rfl rfl rfl [] (by simp [TSys.advance]) (by simp) (by simp)
          (by simp) (by simp)
      | cons ep rest =>
        exact h.quietFrame (gs := [_]) hst rfl rfl rfl [_] rfl (by simp) (by simp) (by simp) (by simp)
  | leaving n r =>
    exact h.quietFrame (gs := []) hst rfl rfl rfl [_] rfl (by simp) (by simp) (by simp) (by simp)

theorem namesOk_step {s : TSys} (h : NamesOk s) (x : TInput) : NamesOk (s.step x) := by
  cases x with
  | call t c =>
    simp only [TSys.step]
    split
    · refine h.quiet rfl rfl [.called s.next t c] rfl (by simp) ?_ ?_ ?_
      · intro u k x i hk
        by_cases hu : u = t
        · subst hu; show _ ∈ s.setStack u _ u; rw [setStack_eq]; simp [hk]
        · show _ ∈ s.setStack t _ u; rw [setStack_other s _ hu]; exact hk
      · intro u k x i hk
        rcases mem_setStack hk with ⟨rfl, hk'⟩ | ⟨_, hk'⟩
        · simpa using hk'
        · exact hk'
      · intro u k c hk
        left
        rcases mem_setStack hk with ⟨rfl, hk'⟩ | ⟨_, hk'⟩
        · simpa using hk'
        · exact hk'
    · exact h
  | go t =>
    simp only [TSys.step]
    split
    · exact h
    · rename_i f fs hst
      exact namesOk_advance h hst

theorem std_init : ∀ p ∈ predefined, Mgr.init.events.find p.1 = some p.2 ∧
    Mgr.init.ids.find p.2 = some p.1 := by decide +kernel

theorem init_std : ∀ p ∈ Mgr.init.events, p ∈ predefined := by decide +kernel

theorem namesOk_init : NamesOk TSys.init := by
  have h := inv_init
  refine ⟨h.enodup, h.bound, ?_, ?_, ?_, ?_, ?_, ?_, ?_, ?_⟩
  · intro n n' i h1 h2
    have e1 := (h.find _ _).1 h1
    rw [(h.find _ _).1 h2] at e1
    simpa using e1.symm
  · intro k x i hk; simp [TSys.init] at hk
  · intro x i hx; exact .inl (init_std _ (Assoc.mem_of_find hx))
  · intro x i hx; exact std_init _ hx
  · intro k x i p q hp; simp [TSys.init] at hp
  · intro x i hx; exact (h.find _ _).2 hx
  · intro t k x i hk; simp [TSys.init] at hk
  · intro t k x hk; simp [TSys.init] at hk

/-! ## Rejected calls -/

theorem NamesOk.settled {s : TSys} (h : NamesOk s) (hc : CallsOk s) {i : Int}
    (hs : Settled s.log i) : s.mgr.ids.find i ≠ none := by
  obtain ⟨k, x, p, q, h1, h2, h3⟩ := hs
  rcases h.first k x i p q h1 h2 with h4 | ⟨t, ht⟩
  · rw [h4]; simp
  · exfalso
    have hsh := (hc.shape t _ ht).1
    have : Obs.returned k (.id i) ∈ trace k s.log := by
      unfold trace
      rw [List.mem_filter]
      exact ⟨by rw [h1]; simp [h3], by simp [Obs.num]⟩
    have e : trace k s.log = _ := hsh
    rw [e] at this
    simp at this

/-- The call `n` was made with an id that is not of the standard and was not settled. -/
def Unsettled (l : List Obs) (n : Nat) : Prop :=
  ∀ a u c b, l = a ++ .called n u c :: b → ¬ Standard c.target ∧ ¬ Settled a c.target

/-- The invariant about rejected calls. -/
structure RejOk (s : TSys) : Prop where
  rej : ∀ t n, .leaving n (.exn .InvalidEventId) ∈ s.stack t → Unsettled s.log n
  out : ∀ n, .returned n (.exn .InvalidEventId) ∈ s.log → Unsettled s.log n

theorem mem_trace {n : Nat} {l : List Obs} {o : Obs} (h : o ∈ l) (hn : o.num = n) :
    o ∈ trace n l := by
  unfold trace
  rw [List.mem_filter]
  exact ⟨h, by simp [hn]⟩

theorem CallsOk.num_lt {s : TSys} (hc : CallsOk s) {o : Obs} (h : o ∈ s.log) : o.num < s.next := by
  apply Nat.lt_of_not_le
  intro hle
  have := mem_trace h rfl
  rw [hc.fresh _ hle] at this
  cases this

theorem rejOk_step {s : TSys} (h : RejOk s) (hn : NamesOk s) (hc : CallsOk s) (x : TInput) :
    RejOk (s.step x) := by
  -- what the log and the stacks become
  have key : ∀ (s' : TSys) (m : List Obs), s'.log = s.log ++ m →
      (∀ n u c, .called n u c ∈ m → n = s.next) →
      (∀ t n, .leaving n (.exn .InvalidEventId) ∈ s'.stack t →
        .leaving n (.exn .InvalidEventId) ∈ s.stack t ∨ (n < s.next ∧ Unsettled s.log n)) →
      (∀ n, .returned n (.exn .InvalidEventId) ∈ m →
        ∃ t, .leaving n (.exn .InvalidEventId) ∈ s.stack t) → RejOk s' := by
    intro s' m hl hm hs ho
    have keep : ∀ n, n < s.next → Unsettled s.log n → Unsettled s'.log n := by
      intro n hlt hu a u c b hab
      rw [hl] at hab
      obtain ⟨b', hb⟩ := split_append hab (fun h => by have := hm n u c h; omega)
      exact hu a u c b' hb
    have old : ∀ t n, .leaving n (.exn .InvalidEventId) ∈ s.stack t → Unsettled s'.log n :=
      fun t n ht => keep n (hc.lt t _ ht) (h.rej t n ht)
    refine ⟨fun t n ht => ?_, fun n hr => ?_⟩
    · rcases hs t n ht with h1 | ⟨h1, h2⟩
      · exact old t n h1
      · exact keep n h1 h2
    · rw [hl] at hr
      rcases List.mem_append.1 hr with hr | hr
      · exact keep n (hc.num_lt hr) (h.out n hr)
      · obtain ⟨t, ht⟩ := ho n hr
        exact old t n ht
  cases x with
  | call t c =>
    simp only [TSys.step]
    split
    · refine key _ [.called s.next t c] rfl ?_ ?_ (by simp)
      · intro n u d hd
        simp only [List.mem_singleton, Obs.called.injEq] at hd
        exact hd.1
      intro u n hu
      left
      rcases mem_setStack hu with ⟨rfl, hu'⟩ | ⟨_, hu'⟩
      · simpa using hu'
      · exact hu'
    · exact h
  | go t =>
    simp only [TSys.step]
    split
    · exact h
    · rename_i f fs hst
      have stk : ∀ (g : TFrame), (∀ n, g ≠ .leaving n (.exn .InvalidEventId)) →
          ∀ u n, .leaving n (.exn .InvalidEventId) ∈ s.setStack t (g :: fs) u →
          .leaving n (.exn .InvalidEventId) ∈ s.stack u ∨ (n < s.next ∧ Unsettled s.log n) := by
        intro g hg u n hu
        left
        rcases mem_setStack hu with ⟨rfl, hu'⟩ | ⟨_, hu'⟩
        · rcases List.mem_cons.1 hu' with hu' | hu'
          · exact absurd hu'.symm (hg n)
          · rw [hst]; simp [hu']
        · exact hu'
      cases f with
      | naming n c =>
        have hsh : trace n s.log = [.called n t c] :=
          hc.shape t (.naming n c) (by rw [hst]; simp)
        have hlt : n < s.next := hc.lt t (.naming n c) (by rw [hst]; simp)
        cases c with
        | query y =>
          simp only [TSys.advance]
          split
          · exact key _ [] (by simp) (by simp) (stk _ (by simp)) (by simp)
          · split
            · exact key _ [_] rfl (by simp) (stk _ (by simp)) (by simp)
            · exact key _ [_] rfl (by simp) (stk _ (by simp)) (by simp)
        | _ =>
          simp only [TSys.advance]
          split
          · rename_i hnone
            refine key _ [] (by simp) (by simp) ?_ (by simp)
            intro u k hu
            rcases mem_setStack hu with ⟨rfl, hu'⟩ | ⟨_, hu'⟩
            · rcases List.mem_cons.1 hu' with hu' | hu'
              · simp only [TFrame.leaving.injEq, and_true] at hu'
                subst hu'
                refine .inr ⟨hlt, ?_⟩
                intro a v c b hab
                have hmem : Obs.called k v c ∈ trace k s.log :=
                  mem_trace (by rw [hab]; simp) rfl
                rw [hsh] at hmem
                simp only [List.mem_singleton, Obs.called.injEq, true_and] at hmem
                obtain ⟨-, rfl⟩ := hmem
                refine ⟨?_, ?_⟩
                · rintro ⟨y, hy⟩
                  rw [(hn.std y _ hy).2] at hnone
                  cases hnone
                · intro hset
                  refine hn.settled hc ?_ hnone
                  rw [hab]
                  exact hset.mono
              · left; rw [hst]; simp [hu']
            · exact .inl hu'
          · exact key _ [] (by simp) (by simp) (stk _ (by simp)) (by simp)
      | acting n c =>
        cases c with
        | query y => exact h
        | emit i => exact key _ [_] rfl (by simp) (stk _ (by simp)) (by simp)
        | subscribe i ep =>
          refine key _ [_] rfl (by simp) (stk _ ?_) (by simp)
          intro k hk
          simp only [TFrame.leaving.injEq] at hk
          have := hk.2
          rw [(doSubscribe_spec _ _ _).1] at this
          split at this <;> cases this
        | unsubscribe i ep =>
          refine key _ [_] rfl (by simp) (stk _ ?_) (by simp)
          intro k hk
          simp only [TFrame.leaving.injEq] at hk
          have := hk.2
          rw [(doUnsubscribe_spec _ _ _).1] at this
          split at this <;> cases this
      | registering n i y => exact key _ [] (by simp [TSys.advance]) (by simp) (stk _ (by simp)) (by simp)
      | running n rest inside =>
        cases inside with
        | true => exact key _ [] (by simp [TSys.advance]) (by simp) (stk _ (by simp)) (by simp)
        | false =>
          cases rest with
          | nil => exact key _ [] (by simp [TSys.advance]) (by simp) (stk _ (by simp)) (by simp)
          | cons ep rest => exact key _ [_] rfl (by simp) (stk _ (by simp)) (by simp)
      | leaving n r =>
        refine key _ [.returned n r] rfl (by simp) ?_ ?_
        · intro u k hu
          left
          rcases mem_setStack hu with ⟨rfl, hu'⟩ | ⟨_, hu'⟩
          · rw [hst]; simp [hu']
          · exact hu'
        · intro k hk
          simp only [List.mem_singleton, Obs.returned.injEq] at hk
          obtain ⟨rfl, rfl⟩ := hk
          exact ⟨t, by rw [hst]; simp⟩

/-! ## Accepted calls -/

theorem NamesOk.accepted {s : TSys} (h : NamesOk s) {t n : Nat} {c : Call} {fs : List TFrame}
    (hst : s.stack t = .acting n c :: fs) : Standard c.target ∨ Given s.log c.target := by
  have := h.act t n c (by rw [hst]; simp)
  cases hi : s.mgr.ids.find c.target with
  | none => exact absurd hi this
  | some x => exact (h.known x _ (h.sound x _ hi)).imp (fun h => ⟨x, h⟩) id

/-- All accepted calls had a known id. -/
def AccOk (s : TSys) : Prop := ∀ a o b, s.log = a ++ o :: b → Accepted a o

theorem AccOk.snoc {s s' : TSys} (h : AccOk s) (o : Obs) (hl : s'.log = s.log ++ [o])
    (ho : Accepted s.log o) : AccOk s' := by
  intro a x b hab
  rw [hl] at hab
  rcases split_snoc hab with ⟨b', hb⟩ | ⟨rfl, rfl⟩
  · exact h a x b' hb
  · exact ho

theorem AccOk.same {s s' : TSys} (h : AccOk s) (hl : s'.log = s.log) : AccOk s' := by
  intro a x b hab
  rw [hl] at hab
  exact h a x b hab

theorem accOk_step {s : TSys} (h : AccOk s) (hn : NamesOk s) (x : TInput) : AccOk (s.step x) := by
  cases x with
  | call t c =>
    simp only [TSys.step]
    split
    · exact h.snoc _ rfl trivial
    · exact h
  | go t =>
    simp only [TSys.step]
    split
    · exact h
    · rename_i f fs hst
      cases f with
      | naming n c =>
        cases c with
        | query y =>
          simp only [TSys.advance]
          split
          · exact h.same rfl
          · split <;> exact h.snoc _ rfl trivial
        | _ =>
          simp only [TSys.advance]
          split <;> exact h.same rfl
      | acting n c =>
        have hacc := hn.accepted hst
        cases c with
        | query y => exact h
        | _ => exact h.snoc _ rfl hacc
      | registering n i y => exact h.same rfl
      | running n rest inside =>
        cases inside with
        | true => exact h.same rfl
        | false =>
          cases rest with
          | nil => exact h.same rfl
          | cons ep rest => exact h.snoc _ rfl trivial
      | leaving n r => exact h.snoc _ rfl trivial

theorem all_reach (l : List TInput) :
    CallsOk (tReach l) ∧ NamesOk (tReach l) ∧ RejOk (tReach l) ∧ AccOk (tReach l) := by
  have : ∀ (l : List TInput) (s : TSys), CallsOk s ∧ NamesOk s ∧ RejOk s ∧ AccOk s →
      CallsOk (s.run l) ∧ NamesOk (s.run l) ∧ RejOk (s.run l) ∧ AccOk (s.run l) := by
    intro l
    induction l with
    | nil => intro s h; exact h
    | cons x l ih =>
      intro s h
      exact ih _ ⟨callsOk_step h.1 x, namesOk_step h.2.1 x, rejOk_step h.2.2.1 h.2.1 h.1 x,
        accOk_step h.2.2.2 h.2.1 x⟩
  exact this l _ ⟨callsOk_reach [], namesOk_init, by
    constructor <;> simp [TSys.init], by intro a o b h; simp [TSys.init] at h⟩

/-! ## Properties -/

/-- C98, ids. In every interleaving, two calls of `QueryEventId` are given the same id exactly if they
ask for the same name, and a name of the standard has the id of the standard. -/
theorem C98_ids (l : List TInput) {k m : Nat} {x y : String} {i j : Int}
    (hk : .effect k (.query x) (.id i) ∈ (tReach l).log)
    (hm : .effect m (.query y) (.id j) ∈ (tReach l).log) :
    (i = j ↔ x = y) ∧ ((x, j) ∈ predefined → i = j) := by
  have h := (all_reach l).2.1
  have e1 := h.eff _ _ _ hk
  have e2 := h.eff _ _ _ hm
  refine ⟨⟨?_, ?_⟩, fun hp => ?_⟩
  · rintro rfl; exact h.inj _ _ _ e1 e2
  · rintro rfl; rw [e1] at e2; simpa using e2
  · have := (h.std _ _ hp).1
    rw [e1] at this; simpa using this

/-- C98, known ids (partial: see `C19_fails` for the ids that are given but not settled). A call is
rejected as having an unknown id only if this id is not of the standard, and the first call of
`QueryEventId` that was given it had not returned before the call. -/
theorem C98_known_partial (l : List TInput) (a b : List Obs) (n t : Nat) (c : Call)
    (h : (tReach l).log = a ++ .called n t c :: b)
    (hr : .returned n (.exn .InvalidEventId) ∈ (tReach l).log) :
    ¬ Standard c.target ∧ ¬ Settled a c.target :=
  (all_reach l).2.2.1.out n hr a t c b h

/-- C98, accepted ids. A call that reads or changes the subscriptions of an event has an id that
`QueryEventId` gave before, or one of the standard. -/
theorem C98_accepted (l : List TInput) (a b : List Obs) (o : Obs)
    (h : (tReach l).log = a ++ o :: b) : Accepted a o :=
  (all_reach l).2.2.2 a o b h

/-! ## Cases -/

/-- Thread 1 asks for "A"; thread 2 is given the id too, subscribes with it and is rejected; thread 1
finishes; thread 2 subscribes again. -/
def caseIds : List TInput :=
  [.call 1 (.query "A"), .go 1, .call 2 (.query "A"), .go 2, .go 2, .call 2 (.subscribe 20 7), .go 2,
   .go 2, .go 1, .go 1, .call 2 (.subscribe 20 7), .go 2, .go 2, .go 2, .call 2 (.query "SMP_EnterStandby"),
   .go 2, .go 2]

/-- What happens. -/
def caseIdsLog : List Obs :=
  [.called 0 1 (.query "A"), .effect 0 (.query "A") (.id 20),
   .called 1 2 (.query "A"), .effect 1 (.query "A") (.id 20), .returned 1 (.id 20),
   .called 2 2 (.subscribe 20 7), .returned 2 (.exn .InvalidEventId),
   .returned 0 (.id 20),
   .called 3 2 (.subscribe 20 7), .effect 3 (.subscribe 20 7) .done, .returned 3 .done,
   .called 4 2 (.query "SMP_EnterStandby"), .effect 4 (.query "SMP_EnterStandby") (.id 4),
   .returned 4 (.id 4)]

theorem caseIds_log : (tReach caseIds).log = caseIdsLog := by decide +kernel

/-- C98 fails for ids that are given but not settled: a call with an id that `QueryEventId` has
returned to the same thread is rejected. -/
theorem C98_known_fails : ∃ l a b c d k n x i ep,
    (tReach l).log = a ++ .effect k (.query x) (.id i) :: b ++ .returned k (.id i) ::
      .called n 2 (.subscribe i ep) :: c ++ .returned n (.exn .InvalidEventId) :: d :=
  ⟨caseIds, caseIdsLog.take 3, [], [], caseIdsLog.drop 7, 1, 2, "A", 20, 7, by
    rw [caseIds_log]; rfl⟩

/-- Non-vacuity: the second subscription is made when the id is settled. -/
example : Settled (caseIdsLog.take 8) 20 ∧ ¬ Standard 20 := by
  refine ⟨⟨0, "A", caseIdsLog.take 1, (caseIdsLog.drop 2).take 6, rfl, ?_, by decide⟩, ?_⟩
  · rintro ⟨k, x, h⟩; simp [caseIdsLog] at h
  · rintro ⟨x, h⟩; simp [predefined] at h

end Verif.Event
