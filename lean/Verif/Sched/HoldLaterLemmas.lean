import Verif.Sched.HoldLater

/-! Lemmas for `HoldLaterProps`. -/
namespace Verif.Sched.HoldLater

/-- Schedulers and simulators that are reached. -/
def Reach (s : S) : Prop := ∃ l, s = run S.init l

theorem act_now (s : S) (a : Act) : (s.act a).1.now = s.now ∧ (s.act a).1.phase = s.phase := by
  cases a <;> simp only [S.act, S.holdLater, S.holdNow, S.abort, S.subscribe, S.unsubscribe] <;>
    (repeat' split) <;> simp

theorem acts_now (l : List Act) : ∀ s : S, (s.acts l).1.now = s.now ∧ (s.acts l).1.phase = s.phase := by
  induction l with
  | nil => intro s; exact ⟨rfl, rfl⟩
  | cons a l ih =>
    intro s
    have h := act_now s a
    unfold S.acts
    split
    · rename_i t ht; rw [ht] at h; exact h
    · rename_i t ht; rw [ht] at h; exact ⟨(ih t).1.trans h.1, (ih t).2.trans h.2⟩

theorem safe_now (s : S) (l : List Act) : (s.safe l).now = s.now ∧ (s.safe l).phase = s.phase := by
  have h := acts_now l s
  unfold S.safe
  split
  · rename_i t ht; rw [ht] at h; exact h
  · rename_i t ht; rw [ht] at h; exact h

/-! ### Predicates kept by every call -/

/-- `P` is kept by every call of an entry point. -/
structure Kept (P : S → Prop) : Prop where
  act : ∀ s a, P s → P (s.act a).1
  abort : ∀ s, P s → P s.abort

theorem Kept.acts {P : S → Prop} (h : Kept P) (l : List Act) : ∀ s, P s → P (s.acts l).1 := by
  induction l with
  | nil => intro s hs; exact hs
  | cons a l ih =>
    intro s hs
    have h1 := h.act s a hs
    unfold S.acts
    split
    · rename_i t ht; rw [ht] at h1; exact h1
    · rename_i t ht; rw [ht] at h1; exact ih t h1

theorem Kept.safe {P : S → Prop} (h : Kept P) (l : List Act) (s : S) (hs : P s) : P (s.safe l) := by
  have h1 := h.acts l s hs
  unfold S.safe
  split
  · rename_i t ht; rw [ht] at h1; exact h.abort t h1
  · rename_i t ht; rw [ht] at h1; exact h1

theorem kept_nodup : Kept (fun s => s.subs.Nodup) where
  act := by
    intro s a hs
    have hsub : ∀ x, (s.subscribe x).1.subs.Nodup := by
      intro x
      unfold S.subscribe
      split
      · exact hs
      · rename_i hx
        show (s.subs ++ [x]).Nodup
        rw [List.nodup_append]
        refine ⟨hs, by simp, ?_⟩
        intro a ha b hb
        simp only [List.mem_singleton] at hb
        subst hb
        rintro rfl
        exact hx ha
    cases a with
    | holdLater => simp only [S.act, S.holdLater]; split; exact hsub _; exact hs
    | holdNow => simp only [S.act, S.holdNow]; split <;> exact hs
    | abort => exact hs
    | subscribe n => exact hsub _
    | unsubscribe n =>
      simp only [S.act, S.unsubscribe]
      split
      · exact hs.sublist List.erase_sublist
      · exact hs
    | raise => exact hs
  abort := fun s hs => hs

theorem holdEntry_nodup {s : S} (hs : s.subs.Nodup) : s.holdEntry.subs.Nodup := by
  unfold S.holdEntry S.unsubscribe
  by_cases h : Sub.holdImmediately ∈ s.subs
  · simp only [if_pos h, S.holdNow]
    split <;> exact hs.sublist List.erase_sublist
  · simp only [if_neg h, S.abort]; exact hs

theorem nodup_step {s : S} (i : In) (hs : s.subs.Nodup) : (step s i).subs.Nodup := by
  cases i with
  | run => simp only [step]; split <;> exact hs
  | event l =>
    have := kept_nodup.safe l s hs
    simp only [step]; split
    · split <;> exact this
    · exact hs
  | next => simp only [step]; split <;> exact hs
  | tell l =>
    simp only [step]; split
    · exact holdEntry_nodup hs
    · exact kept_nodup.safe l s hs
    · exact hs
  | change d w =>
    simp only [step]; split
    · split
      · exact hs
      · split <;> exact hs
    · exact hs
  | wake =>
    simp only [step]; split
    · split <;> exact hs
    · exact hs
  | finish => simp only [step]; split <;> exact hs
  | ext a => exact kept_nodup.act s a hs

theorem Reach.nodup {s : S} (h : Reach s) : s.subs.Nodup := by
  obtain ⟨l, rfl⟩ := h
  have : ∀ (l : List In) (s : S), s.subs.Nodup → (run s l).subs.Nodup := by
    intro l
    induction l with
    | nil => intro s hs; exact hs
    | cons i l ih => intro s hs; exact ih _ (nodup_step i hs)
  exact this l _ (by simp [S.init])

/-! ### The first thing that happens -/

/-- `L` has been added to by a hold at time `n` first. -/
def Stood (L : List Obs) (n : Nat) (s : S) : Prop := ∃ r, s.log = L ++ .held n :: r

/-- The request is pending and nothing has happened; or the simulation was held; or it was ended. -/
def Asked (L : List Obs) (n : Nat) (s : S) : Prop :=
  (s.st = .executing ∧ .holdImmediately ∈ s.subs ∧ s.log = L ∧ s.now = n) ∨ Stood L n s ∨
  s.st = .aborting

theorem Stood.more {L : List Obs} {n : Nat} {s t : S} (h : Stood L n s) {m : List Obs}
    (ht : t.log = s.log ++ m) : Stood L n t := by
  obtain ⟨r, hr⟩ := h
  exact ⟨r ++ m, by rw [ht, hr]; simp⟩

theorem kept_asked (L : List Obs) (n : Nat) : Kept (Asked L n) where
  act := by
    intro s a hs
    have hsub : ∀ x, Asked L n (s.subscribe x).1 := by
      intro x
      unfold S.subscribe
      split
      · exact hs
      · rcases hs with ⟨h1, h2, h3, h4⟩ | h | h
        · exact .inl ⟨h1, List.mem_append_left _ h2, h3, h4⟩
        · exact .inr (.inl h)
        · exact .inr (.inr h)
    cases a with
    | holdLater => simp only [S.act, S.holdLater]; split; exact hsub _; exact hs
    | holdNow =>
      simp only [S.act, S.holdNow]
      split
      · rename_i he
        rcases hs with ⟨h1, h2, h3, h4⟩ | h | h
        · exact .inr (.inl ⟨[], by simp only [h3, h4]⟩)
        · exact .inr (.inl (h.more rfl))
        · rw [h] at he; cases he
      · exact hs
    | abort => exact .inr (.inr rfl)
    | subscribe m => exact hsub _
    | unsubscribe m =>
      simp only [S.act, S.unsubscribe]
      split
      · rcases hs with ⟨h1, h2, h3, h4⟩ | h | h
        · exact .inl ⟨h1, (List.mem_erase_of_ne (by simp)).2 h2, h3, h4⟩
        · exact .inr (.inl h)
        · exact .inr (.inr h)
      · exact hs
    | raise => exact hs
  abort := fun s _ => .inr (.inr rfl)

/-- Where the loop can be before the hold. -/
def Before (p : Phase) : Prop :=
  p = .ready ∨ p = .idle ∨ ∃ todo, p = .pre todo ∧ .holdImmediately ∈ todo

/-- `Asked`, and as long as nothing has happened the loop is before the change. -/
def Asking (L : List Obs) (n : Nat) (s : S) : Prop :=
  (s.st = .executing ∧ .holdImmediately ∈ s.subs ∧ s.log = L ∧ s.now = n ∧ Before s.phase) ∨
  Stood L n s ∨ s.st = .aborting

theorem Asking.of {L : List Obs} {n : Nat} {s : S} (h : Asked L n s) (hp : Before s.phase) :
    Asking L n s := by
  rcases h with ⟨h1, h2, h3, h4⟩ | h
  · exact .inl ⟨h1, h2, h3, h4, hp⟩
  · exact .inr h

theorem Asking.asked {L : List Obs} {n : Nat} {s : S} (h : Asking L n s) : Asked L n s := by
  rcases h with ⟨h1, h2, h3, h4, _⟩ | h
  · exact .inl ⟨h1, h2, h3, h4⟩
  · exact .inr h

/-- Over: it stays so, whatever is done. -/
theorem over_step {L : List Obs} {n : Nat} {s : S} (i : In) (h : Stood L n s ∨ s.st = .aborting) :
    Stood L n (step s i) ∨ (step s i).st = .aborting := by
  have hk : Kept (fun s => Stood L n s ∨ s.st = .aborting) := by
    refine ⟨?_, fun s _ => .inr rfl⟩
    intro s a hs
    have hsub : ∀ x, Stood L n (s.subscribe x).1 ∨ (s.subscribe x).1.st = .aborting := by
      intro x; unfold S.subscribe; split <;> exact hs
    cases a with
    | holdLater => simp only [S.act, S.holdLater]; split; exact hsub _; exact hs
    | holdNow =>
      simp only [S.act, S.holdNow]
      split
      · rename_i he
        rcases hs with h | h
        · exact .inl (h.more rfl)
        · rw [h] at he; cases he
      · exact hs
    | abort => exact .inr rfl
    | subscribe m => exact hsub _
    | unsubscribe m => simp only [S.act, S.unsubscribe]; split <;> exact hs
    | raise => exact hs
  cases i with
  | run =>
    simp only [step]; split
    · rename_i he
      rcases h with h | h
      · exact .inl h
      · rw [h] at he; cases he.1
    · exact h
  | event l =>
    have := hk.safe l s h
    simp only [step]; split
    · split <;> exact this
    · exact h
  | next => simp only [step]; split <;> exact h
  | tell l =>
    simp only [step]; split
    · unfold S.holdEntry S.unsubscribe
      by_cases hh : Sub.holdImmediately ∈ s.subs
      · simp only [if_pos hh, S.holdNow]
        split
        · rename_i he
          rcases h with h | h
          · exact .inl (h.more rfl)
          · rw [h] at he; cases he
        · exact h
      · simp only [if_neg hh, S.abort]; right; trivial
    · exact hk.safe l s h
    · exact h
  | change d w =>
    simp only [step]; split
    · split
      · exact h
      · split
        · exact h
        · rcases h with h | h
          · exact .inl (h.more rfl)
          · exact .inr h
    · exact h
  | wake =>
    simp only [step]; split
    · split
      · exact h
      · rcases h with h | h
        · exact .inl (h.more rfl)
        · exact .inr h
    · exact h
  | finish => simp only [step]; split <;> exact h
  | ext a => exact hk.act s a h

theorem asking_step {L : List Obs} {n : Nat} {s : S} (i : In) (h : Asking L n s) :
    Asking L n (step s i) := by
  rcases h with ⟨h1, h2, h3, h4, hp⟩ | h
  case inr => exact .inr (over_step i h)
  have ha : Asked L n s := .inl ⟨h1, h2, h3, h4⟩
  have hs : Asking L n s := .inl ⟨h1, h2, h3, h4, hp⟩
  cases i with
  | run =>
    simp only [step]; split
    · rename_i he; rw [h1] at he; cases he.1
    · exact hs
  | event l =>
    simp only [step]; split
    · have hk := (kept_asked L n).safe l s ha
      have hph := (safe_now s l).2
      split
      · exact .of hk (.inr (.inl rfl))
      · exact .of hk (by rw [hph]; exact hp)
    · exact hs
  | next =>
    simp only [step]; split
    · exact .of ha (.inr (.inr ⟨s.subs, rfl, h2⟩))
    · exact hs
  | tell l =>
    simp only [step]; split
    · unfold S.holdEntry S.unsubscribe
      simp only [if_pos h2, S.holdNow, h1, if_true]
      exact .inr (.inl ⟨[], by simp only [h3, h4]⟩)
    · rename_i m todo hph
      have hk := (kept_asked L n).safe l s ha
      refine .of hk (.inr (.inr ⟨todo, rfl, ?_⟩))
      rcases hp with hp | hp | ⟨t, hp, ht⟩
      · rw [hph] at hp; cases hp
      · rw [hph] at hp; cases hp
      · rw [hph] at hp; cases hp
        simpa using ht
    · exact hs
  | change d w =>
    simp only [step]; split
    · rename_i hph
      rcases hp with hp | hp | ⟨t, hp, ht⟩
      · rw [hph] at hp; cases hp
      · rw [hph] at hp; cases hp
      · rw [hph] at hp; cases hp; cases ht
    · exact hs
  | wake =>
    simp only [step]; split
    · rename_i d hph
      rcases hp with hp | hp | ⟨t, hp, ht⟩ <;> rw [hph] at hp <;> cases hp
    · exact hs
  | finish =>
    simp only [step]; split
    · exact .of ha (.inr (.inl rfl))
    · exact hs
  | ext a =>
    exact .of ((kept_asked L n).act s a ha) (by
      show Before (s.act a).1.phase
      rw [(act_now s a).2]; exact hp)

theorem asking_run {L : List Obs} {n : Nat} (l : List In) : ∀ {s : S}, Asking L n s →
    Asking L n (run s l) := by
  induction l with
  | nil => intro s h; exact h
  | cons i l ih => intro s h; exact ih (asking_step i h)

/-! ### The emission -/

/-- While the subscribers are told. -/
def Telling (L : List Obs) (n : Nat) (todo : List Sub) (s : S) : Prop :=
  s.subs.Nodup ∧ s.now = n ∧
  (s.st = .aborting ∨
   (s.st = .executing ∧ .holdImmediately ∈ todo ∧ .holdImmediately ∈ s.subs ∧ s.log = L) ∨
   (s.st = .standby ∧ s.flag = true ∧ s.log = L ++ [.held n] ∧
     (.holdImmediately ∈ todo ∨ .holdImmediately ∉ s.subs)))

theorem kept_telling (L : List Obs) (n : Nat) (todo : List Sub) : Kept (Telling L n todo) where
  act := by
    rintro s a ⟨hn, hw, hs⟩
    refine ⟨kept_nodup.act s a hn, (act_now s a).1.trans hw, ?_⟩
    have hmem : ∀ m, Sub.holdImmediately ∉ s.subs →
        Sub.holdImmediately ∉ (s.subscribe (.other m)).1.subs := by
      intro m h; unfold S.subscribe; split
      · exact h
      · simpa using h
    rcases hs with h | ⟨h1, h2, h3, h4⟩ | ⟨h1, h2, h3, h4⟩
    · left
      cases a <;> simp only [S.act, S.holdLater, S.holdNow, S.abort, S.subscribe, S.unsubscribe] <;>
        (repeat' split) <;> simp_all
    · cases a with
      | holdLater =>
        right; left
        simp only [S.act, S.holdLater, S.subscribe, if_pos h1, if_pos h3]
        exact ⟨h1, h2, h3, h4⟩
      | holdNow =>
        right; right
        simp only [S.act, S.holdNow, if_pos h1]
        exact ⟨trivial, trivial, by rw [h4, hw], .inl h2⟩
      | abort => left; rfl
      | subscribe m =>
        right; left
        simp only [S.act, S.subscribe]
        split
        · exact ⟨h1, h2, h3, h4⟩
        · exact ⟨h1, h2, List.mem_append_left _ h3, h4⟩
      | unsubscribe m =>
        right; left
        simp only [S.act, S.unsubscribe]
        split
        · exact ⟨h1, h2, (List.mem_erase_of_ne (by simp)).2 h3, h4⟩
        · exact ⟨h1, h2, h3, h4⟩
      | raise => right; left; exact ⟨h1, h2, h3, h4⟩
    · cases a with
      | holdLater =>
        right; right
        simp only [S.act, S.holdLater, h1]
        exact ⟨h1, h2, h3, h4⟩
      | holdNow =>
        right; right
        simp only [S.act, S.holdNow, h1]
        exact ⟨h1, h2, h3, h4⟩
      | abort => left; rfl
      | subscribe m =>
        right; right
        have : (s.subscribe (.other m)).1.st = s.st ∧ (s.subscribe (.other m)).1.flag = s.flag ∧
            (s.subscribe (.other m)).1.log = s.log := by
          unfold S.subscribe; split <;> exact ⟨rfl, rfl, rfl⟩
        exact ⟨this.1.trans h1, this.2.1.trans h2, this.2.2.trans h3, h4.imp id (hmem m)⟩
      | unsubscribe m =>
        right; right
        simp only [S.act, S.unsubscribe]
        split
        · exact ⟨h1, h2, h3, h4.imp id (fun h hh => h (List.mem_of_mem_erase hh))⟩
        · exact ⟨h1, h2, h3, h4⟩
      | raise => right; right; exact ⟨h1, h2, h3, h4⟩
  abort := fun s hs => ⟨hs.1, hs.2.1, .inl rfl⟩

theorem telling_run {L : List Obs} {n : Nat} : ∀ (bodies : List (List Act)) {todo : List Sub} {s : S},
    bodies.length = todo.length → s.phase = .pre todo → Telling L n todo s →
    Telling L n [] (run s (bodies.map .tell)) ∧ (run s (bodies.map .tell)).phase = .pre [] := by
  intro bodies
  induction bodies with
  | nil =>
    intro todo s hl hp ht
    cases todo with
    | nil => exact ⟨ht, hp⟩
    | cons x t => cases hl
  | cons b bodies ih =>
    intro todo s hl hp ht
    cases todo with
    | nil => cases hl
    | cons x todo =>
      simp only [List.length_cons, Nat.succ.injEq] at hl
      show Telling L n [] (run (step s (.tell b)) (bodies.map .tell)) ∧ _
      cases x with
      | other m =>
        have hst : step s (.tell b) = { s.safe b with phase := .pre todo } := by
          simp only [step, hp]
        have h1 := (kept_telling L n _).safe b s ht
        have h2 : Telling L n todo (step s (.tell b)) := by
          rw [hst]
          refine ⟨h1.1, h1.2.1, ?_⟩
          rcases h1.2.2 with h | ⟨a1, a2, a3, a4⟩ | ⟨a1, a2, a3, a4⟩
          · exact .inl h
          · exact .inr (.inl ⟨a1, by simpa using a2, a3, a4⟩)
          · exact .inr (.inr ⟨a1, a2, a3, by simpa using a4⟩)
        exact ih hl (by rw [hst]) h2
      | holdImmediately =>
        have hst : step s (.tell b) = { s.holdEntry with phase := .pre todo } := by
          simp only [step, hp]
        have h2 : Telling L n todo (step s (.tell b)) := by
          rw [hst]
          refine ⟨holdEntry_nodup ht.1, ?_, ?_⟩
          · show s.holdEntry.now = n
            rw [← ht.2.1]
            by_cases hm : Sub.holdImmediately ∈ s.subs
            · simp only [S.holdEntry, S.unsubscribe, if_pos hm, S.holdNow]
              split <;> rfl
            · simp only [S.holdEntry, S.unsubscribe, if_neg hm, S.abort]
          · show s.holdEntry.st = .aborting ∨ _
            by_cases hm : Sub.holdImmediately ∈ s.subs
            · have hn : Sub.holdImmediately ∉ s.subs.erase .holdImmediately := by
                rw [ht.1.mem_erase_iff]; simp
              rcases ht.2.2 with h | ⟨a1, a2, a3, a4⟩ | ⟨a1, a2, a3, a4⟩
              · left
                simp [S.holdEntry, S.unsubscribe, if_pos hm, S.holdNow, h]
              · right; right
                simp only [S.holdEntry, S.unsubscribe, if_pos hm, S.holdNow, a1, if_true, a4, ht.2.1]
                exact ⟨trivial, trivial, trivial, .inr hn⟩
              · right; right
                simp only [S.holdEntry, S.unsubscribe, if_pos hm, S.holdNow, a1, reduceCtorEq, if_false]
                exact ⟨trivial, a2, a3, .inr hn⟩
            · left
              simp only [S.holdEntry, S.unsubscribe, if_neg hm, S.abort]
        exact ih hl (by rw [hst]) h2

end Verif.Sched.HoldLater
