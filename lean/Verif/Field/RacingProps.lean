import Verif.Field.Racing

/-! Property C147: fields written by several threads. -/
namespace Verif.Field.Racing
open Verif.Any (Kind Fl Val Any Out ITy)

/-! ### Specification -/

/-- The fields that the threads write do not meet: thread `t` writes fields of `own t` only,
nothing is connected from there to elsewhere, and no field is owned by two threads. -/
structure Apart (n : Net) (own : Nat → Nat → Prop) : Prop where
  closed : ∀ t i, own t i → ∀ j ∈ (n i).targets, own t j
  disjoint : ∀ t u i, own t i → own u i → t = u

/-- The thread starts a write of fields of its own only. -/
def Within (own : Nat → Nat → Prop) (x : Nat × Act) : Prop :=
  match x.2 with
  | .assign i _ => own x.1 i
  | .update i _ => own x.1 i
  | .go => True

/-! ### Lemmas -/

/-- What an instruction of a thread needs to stay within its fields. -/
def Inside (own : Nat → Nat → Prop) (t : Nat) : Frame → Prop
  | .update i _ => own t i
  | .write i _ => own t i
  | .push i ts => own t i ∧ ∀ j ∈ ts, own t j

/-- The connections and flags are those of `n`. -/
def Like (n m : Net) : Prop := ∀ j, ∃ v, m j = { n j with value := v }

theorem like_set {n m : Net} (h : Like n m) (i : Nat) (v : Val) :
    Like n (m.set i { m i with value := v }) := by
  intro j
  obtain ⟨w, hw⟩ := h j
  by_cases hj : j = i
  · subst hj; exact ⟨v, by simp [Net.set, hw]⟩
  · exact ⟨w, by simp [Net.set, hj, hw]⟩

theorem like_instr {n m : Net} (h : Like n m) (f : Frame) : Like n (instr m f).1 := by
  cases f with
  | update i g => exact h
  | write i v =>
    simp only [instr]
    split
    · exact h
    · exact like_set h i v
  | push i ts => cases ts <;> exact h

/-- An instruction of a thread changes fields of its own only. -/
theorem instr_own {own : Nat → Nat → Prop} {t : Nat} {m : Net} {f : Frame} (h : Inside own t f)
    {j : Nat} (hj : ¬ own t j) : (instr m f).1 j = m j := by
  cases f with
  | update i g => rfl
  | write i v =>
    simp only [instr]
    split
    · rfl
    · have : j ≠ i := by rintro rfl; exact hj h
      simp [Net.set, this]
  | push i ts => cases ts <;> rfl

/-- An instruction of a thread depends on its fields only. -/
theorem instr_eq {own : Nat → Nat → Prop} {t : Nat} {m m' : Net} {f : Frame} (h : Inside own t f)
    (he : ∀ j, own t j → m j = m' j) :
    (instr m f).2 = (instr m' f).2 ∧ ∀ j, own t j → (instr m f).1 j = (instr m' f).1 j := by
  cases f with
  | update i g => exact ⟨by simp [instr, he i h], he⟩
  | write i v =>
    have hi := he i h
    simp only [instr, hi]
    split
    · exact ⟨rfl, he⟩
    · refine ⟨rfl, fun j hj => ?_⟩
      by_cases hji : j = i
      · subst hji; simp [Net.set]
      · simpa [Net.set, hji] using he j hj
  | push i ts =>
    cases ts with
    | nil => exact ⟨rfl, he⟩
    | cons a ts => exact ⟨by simp [instr, he i h.1], he⟩

theorem instr_inside {own : Nat → Nat → Prop} {t : Nat} {n m : Net} (hc : Apart n own)
    (hl : Like n m) {f : Frame} (h : Inside own t f) : ∀ g ∈ (instr m f).2, Inside own t g := by
  intro g hg
  cases f with
  | update i g' => simp [instr] at hg; subst hg; exact h
  | write i v =>
    simp only [instr] at hg
    split at hg
    · cases hg
    · obtain ⟨w, hw⟩ := hl i
      split at hg
      · simp at hg
        subst hg
        refine ⟨h, fun j hj => hc.closed t i h j ?_⟩
        rw [hw] at hj; exact hj
      · cases hg
  | push i ts =>
    cases ts with
    | nil => simp [instr] at hg
    | cons a ts =>
      simp [instr] at hg
      rcases hg with rfl | rfl
      · exact h.2 a (by simp)
      · exact ⟨h.1, fun j hj => h.2 j (by simp [hj])⟩

theorem stack_self (s : Sys) (t : Nat) (fs : List Frame) : s.setStack t fs t = fs := by
  simp [Sys.setStack]

theorem stack_other (s : Sys) (t : Nat) (fs : List Frame) {u : Nat} (h : u ≠ t) :
    s.setStack t fs u = s.stack u := by
  simp [Sys.setStack, h]

/-- What the threads keep. -/
structure Good (n : Net) (own : Nat → Nat → Prop) (s : Sys) : Prop where
  like : Like n s.net
  inside : ∀ t, ∀ f ∈ s.stack t, Inside own t f

theorem good_step {n : Net} {own : Nat → Nat → Prop} (hc : Apart n own) {s : Sys} (h : Good n own s)
    {x : Nat × Act} (hx : Within own x) : Good n own (s.step x.1 x.2) := by
  obtain ⟨t, a⟩ := x
  have put : ∀ (m : Net) (fs : List Frame), Like n m → (∀ f ∈ fs, Inside own t f) →
      Good n own ⟨m, s.setStack t fs⟩ := by
    intro m fs hm hf
    refine ⟨hm, fun u f hu => ?_⟩
    by_cases hut : u = t
    · subst hut
      rw [show (⟨m, s.setStack u fs⟩ : Sys).stack u = fs from stack_self s u fs] at hu
      exact hf f hu
    · rw [show (⟨m, s.setStack t fs⟩ : Sys).stack u = s.stack u from stack_other s t fs hut] at hu
      exact h.inside u f hu
  cases a with
  | assign i v =>
    simp only [Sys.step]
    split
    · exact put s.net _ h.like (by intro f hf; simp at hf; subst hf; exact hx)
    · exact h
  | update i g =>
    simp only [Sys.step]
    split
    · exact put s.net _ h.like (by intro f hf; simp at hf; subst hf; exact hx)
    · exact h
  | go =>
    simp only [Sys.step]
    cases hs : s.stack t with
    | nil => exact h
    | cons f fs =>
      have hf : Inside own t f := h.inside t f (by rw [hs]; simp)
      refine put _ _ (like_instr h.like f) fun g hg => ?_
      rcases List.mem_append.1 hg with hg | hg
      · exact instr_inside hc h.like hf g hg
      · exact h.inside t g (by rw [hs]; simp [hg])

/-- The states look the same to the thread. -/
def Same (own : Nat → Nat → Prop) (t : Nat) (s s' : Sys) : Prop :=
  s.stack t = s'.stack t ∧ ∀ j, own t j → s.net j = s'.net j

theorem same_step {n : Net} {own : Nat → Nat → Prop} {t : Nat} {s s' : Sys}
    (h : Good n own s) (hs : Same own t s s') (a : Act) :
    Same own t (s.step t a) (s'.step t a) := by
  obtain ⟨h1, h2⟩ := hs
  cases a with
  | assign i v =>
    simp only [Sys.step, ← h1]
    split
    · exact ⟨by simp [stack_self], h2⟩
    · exact ⟨h1, h2⟩
  | update i g =>
    simp only [Sys.step, ← h1]
    split
    · exact ⟨by simp [stack_self], h2⟩
    · exact ⟨h1, h2⟩
  | go =>
    simp only [Sys.step, ← h1]
    cases hst : s.stack t with
    | nil => exact ⟨h1, h2⟩
    | cons f fs =>
      obtain ⟨e1, e2⟩ := instr_eq (h.inside t f (by rw [hst]; simp)) h2
      exact ⟨by simp [stack_self, e1], e2⟩

theorem other_step {n : Net} {own : Nat → Nat → Prop} (hc : Apart n own) {t u : Nat} {s : Sys}
    (h : Good n own s) (hne : u ≠ t) (a : Act) : Same own t (s.step u a) s := by
  have hst : (s.step u a).stack t = s.stack t := by
    cases a with
    | assign i v => simp only [Sys.step]; split; · exact stack_other s u _ (Ne.symm hne)
                    · rfl
    | update i g => simp only [Sys.step]; split; · exact stack_other s u _ (Ne.symm hne)
                    · rfl
    | go => simp only [Sys.step]; split; · rfl
            · exact stack_other s u _ (Ne.symm hne)
  refine ⟨hst, fun j hj => ?_⟩
  cases a with
  | assign i v => simp only [Sys.step]; split <;> rfl
  | update i g => simp only [Sys.step]; split <;> rfl
  | go =>
    simp only [Sys.step]
    cases hs : s.stack u with
    | nil => rfl
    | cons f fs =>
      exact instr_own (h.inside u f (by rw [hs]; simp)) fun hu => hne (hc.disjoint u t j hu hj)

/-! ### C147 -/

/-- C147, part that holds: when the threads write fields that do not meet, each one sees its fields
as if it were alone: for every interleaving, the fields of a thread and what it still has to do are
those of the history of this thread by itself. (And alone a write does what C58 and C144 say:
`C147_alone`.) Missing: threads that write connected fields, see the theorems below. -/
theorem C147_apart_partial (n : Net) (own : Nat → Nat → Prop) (hc : Apart n own)
    (l : List (Nat × Act)) (hl : ∀ x ∈ l, Within own x) (t : Nat) :
    ((Sys.init n).run l).stack t = ((Sys.init n).run (l.filter fun x => x.1 == t)).stack t ∧
    ∀ j, own t j → ((Sys.init n).run l).net j =
      ((Sys.init n).run (l.filter fun x => x.1 == t)).net j := by
  have key : ∀ (l : List (Nat × Act)) (s s' : Sys), (∀ x ∈ l, Within own x) → Good n own s →
      Same own t s s' → Same own t (s.run l) (s'.run (l.filter fun x => x.1 == t)) := by
    intro l
    induction l with
    | nil => intro s s' _ _ h; exact h
    | cons x l ih =>
      intro s s' hw hg hs
      have hx := hw x (by simp)
      have hw' : ∀ y ∈ l, Within own y := fun y hy => hw y (by simp [hy])
      have e : s.run (x :: l) = (s.step x.1 x.2).run l := rfl
      rw [e, List.filter_cons]
      by_cases ht : x.1 = t
      · rw [if_pos (by simpa using ht)]
        have e' : s'.run (x :: l.filter fun x => x.1 == t)
            = (s'.step x.1 x.2).run (l.filter fun x => x.1 == t) := rfl
        rw [e']
        refine ih _ _ hw' (good_step hc hg hx) ?_
        rw [ht]
        exact same_step hg hs x.2
      · rw [if_neg (by simpa using ht)]
        refine ih _ _ hw' (good_step hc hg hx) ?_
        obtain ⟨a, b⟩ := other_step hc hg ht x.2
        exact ⟨a.trans hs.1, fun j hj => (b j hj).trans (hs.2 j hj)⟩
  exact key l (.init n) (.init n) hl
    ⟨fun j => ⟨(n j).value, rfl⟩, fun _ f hf => absurd hf (List.not_mem_nil)⟩ ⟨rfl, fun _ _ => rfl⟩

/-- Instructions of one thread. -/
def goes (t k : Nat) : List (Nat × Act) := List.replicate k (t, .go)

theorem run_goes_add (s : Sys) (t j k : Nat) :
    s.run (goes t (j + k)) = (s.run (goes t j)).run (goes t k) := by
  unfold goes Sys.run
  rw [← List.foldl_append, List.replicate_append_replicate]

theorem run_goes_one (s : Sys) (t : Nat) : s.run (goes t 1) = s.step t .go := rfl

/-- Some fields have the value `v` instead of theirs. -/
def LikeV (v : Val) (n m : Net) : Prop := ∀ j, m j = n j ∨ m j = { n j with value := v }

theorem LikeV.trans {v : Val} {a b c : Net} (h : LikeV v a b) (h' : LikeV v b c) : LikeV v a c := by
  intro j
  rcases h j with e | e <;> rcases h' j with e' | e' <;> rw [e', e] <;> simp

theorem LikeV.cell {v : Val} {n m : Net} (h : LikeV v n m) (j : Nat) :
    ∃ w, m j = { n j with value := w } := by
  rcases h j with e | e
  · exact ⟨(n j).value, e⟩
  · exact ⟨v, e⟩

/-- The value goes through the fields as it is. -/
structure Passes (narrow : Fl → Fl) (v : Val) (n : Net) : Prop where
  coerce : ∀ j, Verif.Field.coerce narrow (n j).kind (n j).len ⟨(n j).kind, v⟩ = .ok v
  kind : ∀ j, ∀ k ∈ (n j).targets, (n k).kind = (n j).kind

theorem Passes.like {narrow : Fl → Fl} {v : Val} {n m : Net} (h : Passes narrow v n)
    (hl : LikeV v n m) : Passes narrow v m := by
  refine ⟨fun j => ?_, fun j k hk => ?_⟩
  · obtain ⟨w, e⟩ := hl.cell j
    rw [e]; exact h.coerce j
  · obtain ⟨w, e⟩ := hl.cell j
    obtain ⟨w', e'⟩ := hl.cell k
    rw [e] at hk ⊢
    rw [e']
    exact h.kind j k hk

/-- From a write at the top of its stack, thread `t` gets to `m` and the rest of the stack. -/
def Does (v : Val) (t i : Nat) (n m : Net) : Prop :=
  LikeV v n m ∧ ∀ (st : Nat → List Frame) (fs : List Frame), st t = .write i v :: fs →
    ∃ k, (Sys.mk n st).run (goes t k) = ⟨m, fun u => if u = t then fs else st u⟩

theorem loop_goes (set : Net → Nat → Any → Res) (narrow : Fl → Fl) (v : Val) (t i : Nat)
    (H : ∀ n j m, Passes narrow v n → set n j ⟨(n j).kind, v⟩ = .ok m → Does v t j n m) :
    ∀ (ts : List Nat) (n m : Net), Passes narrow v n → (n i).value = v →
      (∀ j ∈ ts, j ∈ (n i).targets) → pushLoop set n i ts = .ok m → LikeV v n m ∧
      ∀ (st : Nat → List Frame) (fs : List Frame), st t = .push i ts :: fs →
        ∃ k, (Sys.mk n st).run (goes t k) = ⟨m, fun u => if u = t then fs else st u⟩ := by
  intro ts
  induction ts with
  | nil =>
    intro n m _ _ _ h
    simp only [pushLoop, Res.ok.injEq] at h
    subst h
    refine ⟨fun j => Or.inl rfl, fun st fs hst => ⟨1, ?_⟩⟩
    rw [run_goes_one]
    simp only [Sys.step, hst, instr, List.nil_append]
    rfl
  | cons j ts ih =>
    intro n m hp hv hsub h
    have hk := hp.kind i j (hsub j (by simp))
    have hget : (n i).get = ⟨(n j).kind, v⟩ := by simp [Cell.get, hv, hk]
    rw [pushLoop, hget] at h
    cases hs : set n j ⟨(n j).kind, v⟩ with
    | ok n2 =>
      rw [hs] at h
      dsimp only at h
      obtain ⟨l2, g2⟩ := H n j n2 hp hs
      have hv2 : (n2 i).value = v := by
        rcases l2 i with e | e <;> rw [e]
        exact hv
      have hsub2 : ∀ k ∈ ts, k ∈ (n2 i).targets := by
        intro k hk
        obtain ⟨w, e⟩ := l2.cell i
        rw [e]
        exact hsub k (by simp [hk])
      obtain ⟨l3, g3⟩ := ih n2 m (hp.like l2) hv2 hsub2 h
      refine ⟨l2.trans l3, fun st fs hst => ?_⟩
      let st1 : Nat → List Frame := fun u => if u = t then .write j v :: .push i ts :: fs else st u
      obtain ⟨k2, e2⟩ := g2 st1 (.push i ts :: fs) (by simp [st1])
      obtain ⟨k3, e3⟩ := g3 (fun u => if u = t then .push i ts :: fs else st1 u) fs (by simp)
      refine ⟨1 + k2 + k3, ?_⟩
      rw [run_goes_add, run_goes_add, run_goes_one]
      have e1 : (Sys.mk n st).step t .go = ⟨n, st1⟩ := by
        simp only [Sys.step, hst, instr, hv]
        rfl
      rw [e1, e2, e3]
      congr 1
      funext u
      by_cases hu : u = t <;> simp [hu, st1]
    | raised n2 => rw [hs] at h; cases h
    | ub => rw [hs] at h; cases h
    | diverges => rw [hs] at h; cases h

theorem store_does (set : Net → Nat → Any → Res) (narrow : Fl → Fl) (v : Val) (t : Nat)
    (H : ∀ n j m, Passes narrow v n → set n j ⟨(n j).kind, v⟩ = .ok m → Does v t j n m)
    (n : Net) (i : Nat) (m : Net) (hp : Passes narrow v n) (h : store set n i v = .ok m) :
    Does v t i n m := by
  unfold store at h
  cases hh : (n i).held with
  | true =>
    rw [if_pos hh, Res.ok.injEq] at h
    subst h
    refine ⟨fun j => Or.inl rfl, fun st fs hst => ⟨1, ?_⟩⟩
    rw [run_goes_one]
    simp only [Sys.step, hst, instr, hh, if_true, List.nil_append]
    rfl
  | false =>
    rw [if_neg (by simp [hh])] at h
    split at h
    · have hl1 : LikeV v n (n.set i { n i with value := v }) := by
        intro j
        by_cases hj : j = i
        · subst hj; exact Or.inr (by simp [Net.set])
        · exact Or.inl (by simp [Net.set, hj])
      cases hc : (n i).connectable with
      | false =>
        rw [if_neg (by simp [hc]), Res.ok.injEq] at h
        subst h
        refine ⟨hl1, fun st fs hst => ⟨1, ?_⟩⟩
        rw [run_goes_one]
        simp only [Sys.step, hst, instr, hh, hc, Bool.false_eq_true, if_false, List.nil_append]
        rfl
      | true =>
        rw [if_pos hc] at h
        obtain ⟨l2, g2⟩ := loop_goes set narrow v t i H (n i).targets
          (n.set i { n i with value := v }) m (hp.like hl1) (by simp [Net.set])
          (by intro j hj; simpa [Net.set] using hj) h
        refine ⟨hl1.trans l2, fun st fs hst => ?_⟩
        let st1 : Nat → List Frame := fun u => if u = t then .push i (n i).targets :: fs else st u
        obtain ⟨k, e⟩ := g2 st1 fs (by simp [st1])
        refine ⟨1 + k, ?_⟩
        rw [run_goes_add, run_goes_one]
        have e1 : (Sys.mk n st).step t .go = ⟨n.set i { n i with value := v }, st1⟩ := by
          simp only [Sys.step, hst, instr, hh, hc, Bool.false_eq_true, if_false, if_true]
          rfl
        rw [e1, e]
        congr 1
        funext u
        by_cases hu : u = t <;> simp [hu, st1]
    · cases h

theorem set_does (narrow : Fl → Fl) (v : Val) (t : Nat) : ∀ (f : Nat) n j m, Passes narrow v n →
    setValue narrow f n j ⟨(n j).kind, v⟩ = .ok m → Does v t j n m := by
  intro f
  induction f with
  | zero => intro n j m _ h; cases h
  | succ f ih =>
    intro n j m hp h
    rw [setValue, hp.coerce j] at h
    exact store_does (setValue narrow f) narrow v t ih n j m hp h

/-- C147: the write of one thread, while the others do nothing, does instruction by instruction what
C58 and C144 say of it: when `assign` returns with `m`, the thread gets to `m` and out of the
write. -/
theorem C147_alone (narrow : Fl → Fl) (f : Nat) (n m : Net) (i : Nat) (v : Val) (t : Nat)
    (hp : Passes narrow v n) (h : assign narrow f n i v = .ok m) :
    ∃ k, (Sys.init n).run ((t, .assign i v) :: goes t k) = Sys.init m := by
  obtain ⟨-, g⟩ := store_does (setValue narrow f) narrow v t (set_does narrow v t f) n i m hp h
  obtain ⟨k, e⟩ := g (fun u => if u = t then [.write i v] else []) [] (by simp)
  refine ⟨k, ?_⟩
  have e1 : (Sys.init n).run ((t, .assign i v) :: goes t k)
      = (Sys.mk n fun u => if u = t then [.write i v] else []).run (goes t k) := rfl
  rw [e1, e]
  unfold Sys.init
  congr 1
  funext u
  by_cases hu : u = t <;> simp [hu]

/-- C147, part that holds: whatever the threads assign, at every moment each field has its first
value or one that was assigned to a field, by whatever thread; no value is made up. (No compound
assignments; for values whose accesses are atomic.) -/
theorem C147_values_partial (n : Net) (l : List (Nat × Act))
    (hl : ∀ x ∈ l, ∀ i g, x.2 ≠ .update i g) (j : Nat) :
    (∃ k, (((Sys.init n).run l).net j).value = (n k).value) ∨
    ∃ x ∈ l, ∃ i, x.2 = .assign i (((Sys.init n).run l).net j).value := by
  let Q : List (Nat × Act) → Val → Prop := fun l v =>
    (∃ k, v = (n k).value) ∨ ∃ x ∈ l, ∃ i, x.2 = .assign i v
  let F : (Val → Prop) → Frame → Prop := fun q f => match f with
    | .update _ _ => False
    | .write _ v => q v
    | .push _ _ => True
  have key : ∀ (l' : List (Nat × Act)) (s : Sys), (∀ x ∈ l', x ∈ l) →
      (∀ j, Q l (s.net j).value) → (∀ t, ∀ f ∈ s.stack t, F (Q l) f) →
      ∀ j, Q l ((s.run l').net j).value := by
    intro l'
    induction l' with
    | nil => intro s _ h _; exact h
    | cons x l' ih =>
      intro s hsub h1 h2
      have e : s.run (x :: l') = (s.step x.1 x.2).run l' := rfl
      rw [e]
      have hx := hsub x (by simp)
      have put : ∀ (m : Net) (fs : List Frame), (∀ f ∈ fs, F (Q l) f) →
          ∀ t, ∀ f ∈ (Sys.mk m (s.setStack x.1 fs)).stack t, F (Q l) f := by
        intro m fs hf t f hm
        by_cases ht : t = x.1
        · subst ht
          rw [show (Sys.mk m (s.setStack x.1 fs)).stack x.1 = fs from stack_self s x.1 fs] at hm
          exact hf f hm
        · rw [show (Sys.mk m (s.setStack x.1 fs)).stack t = s.stack t from
            stack_other s x.1 fs ht] at hm
          exact h2 t f hm
      have both : (∀ j, Q l ((s.step x.1 x.2).net j).value) ∧
          ∀ t, ∀ f ∈ (s.step x.1 x.2).stack t, F (Q l) f := by
        cases ha : x.2 with
        | assign i v =>
          simp only [Sys.step]
          split
          · refine ⟨h1, put s.net _ ?_⟩
            intro f hf
            simp at hf
            subst hf
            exact Or.inr ⟨x, hx, i, ha⟩
          · exact ⟨h1, h2⟩
        | update i g => exact absurd ha (hl x hx i g)
        | go =>
          simp only [Sys.step]
          cases hs : s.stack x.1 with
          | nil => exact ⟨h1, h2⟩
          | cons f fs =>
            have hf : F (Q l) f := h2 x.1 f (by rw [hs]; simp)
            have hfs : ∀ g ∈ fs, F (Q l) g := fun g hg => h2 x.1 g (by rw [hs]; simp [hg])
            cases f with
            | update i g => exact hf.elim
            | write i v =>
              simp only [instr]
              split
              · exact ⟨h1, put s.net _ (by simpa using hfs)⟩
              · refine ⟨fun j => ?_, put s.net _ ?_⟩
                · by_cases hj : j = i
                  · subst hj; simpa [Net.set] using hf
                  · simpa [Net.set, hj] using h1 j
                · intro g hg
                  split at hg
                  · rcases List.mem_append.1 hg with hg | hg
                    · simp at hg; subst hg; trivial
                    · exact hfs g hg
                  · exact hfs g (by simpa using hg)
            | push i ts =>
              cases ts with
              | nil => exact ⟨h1, put s.net _ (by simpa [instr] using hfs)⟩
              | cons a ts =>
                refine ⟨h1, put s.net _ ?_⟩
                intro g hg
                simp [instr] at hg
                rcases hg with rfl | rfl | hg
                · exact h1 i
                · trivial
                · exact hfs g hg
      exact ih _ (fun y hy => hsub y (by simp [hy])) both.1 both.2
  exact key l (.init n) (fun _ h => h) (fun j => Or.inl ⟨j, rfl⟩)
    (fun _ f hf => absurd hf (List.not_mem_nil)) j

/-! ### What fails -/

/-- An output (0) connected to an input (1). -/
def demoPair : Net := fun i => { demoOut 0 with targets := if i = 0 then [1] else [] }

/-- C147 in full is false: two threads assign to an output that is connected to an input. Both writes
have returned, nothing is forced, and the input does not have the value of the output (C58). -/
theorem C147_connected_fails : ∃ l, ∃ s, s = (Sys.init demoPair).run l ∧ (∀ t, s.stack t = []) ∧
    (s.net 0).value = .int 2 ∧ (s.net 1).value = .int 1 ∧ 1 ∈ (s.net 0).targets := by
  refine ⟨[(0, .assign 0 (.int 1)), (0, .go), (0, .go)] ++ ((1, .assign 0 (.int 2)) :: goes 1 5)
    ++ goes 0 3, _, rfl, ?_, by decide, by decide, by decide⟩
  intro t
  by_cases h0 : t = 0
  · subst h0; rfl
  · by_cases h1 : t = 1
    · subst h1; rfl
    · simp [Sys.run, Sys.step, Sys.init, Sys.setStack, goes, h0, h1, instr, List.replicate, demoPair,
        demoOut, Cell.held, Net.set]

/-- Adds one. -/
def plusOne : Val → Val
  | .int x => .int (x + 1)
  | v => v

/-- C147 in full is false: of two increments by two threads one is lost. -/
theorem C147_lost_fails : ∃ l, ∃ s, s = (Sys.init fun _ => { demoOut 0 with connectable := false }).run l ∧
    l = [(0, .update 0 plusOne), (1, .update 0 plusOne), (0, .go), (1, .go), (0, .go), (1, .go)] ∧
    s.stack 0 = [] ∧ s.stack 1 = [] ∧ (s.net 0).value = .int 1 :=
  ⟨_, _, rfl, rfl, rfl, rfl, by decide⟩

/-! ### Cases -/

/-- Two pairs of connected fields: 0 → 1 and 2 → 3. -/
def demoPairs : Net := fun i =>
  { demoOut 0 with targets := if i = 0 then [1] else if i = 2 then [3] else [] }

/-- `C147_apart_partial`: thread 0 writes 0, thread 1 writes 2, their instructions alternate. -/
example : ∃ (own : Nat → Nat → Prop) (l : List (Nat × Act)), Apart demoPairs own ∧
    (∀ x ∈ l, Within own x) ∧ own 0 1 ∧ own 1 3 ∧
    (((Sys.init demoPairs).run l).net 1).value = .int 1 ∧
    (((Sys.init demoPairs).run l).net 3).value = .int 2 ∧
    (l.filter fun x => x.1 == 1).length = 6 := by
  refine ⟨fun t i => (t = 0 ∧ (i = 0 ∨ i = 1)) ∨ (t = 1 ∧ (i = 2 ∨ i = 3)),
    [(0, .assign 0 (.int 1)), (1, .assign 2 (.int 2)), (1, .go), (0, .go), (0, .go), (1, .go), (0, .go),
      (1, .go), (0, .go), (1, .go), (1, .go), (0, .go)], ⟨?_, ?_⟩, ?_, ?_, ?_, ?_, ?_, ?_⟩
  · rintro t i (⟨rfl, rfl | rfl⟩ | ⟨rfl, rfl | rfl⟩) j hj <;> simp [demoPairs] at hj <;> simp [hj]
  · rintro t u i (⟨rfl, rfl | rfl⟩ | ⟨rfl, rfl | rfl⟩) h <;> simp at h <;> simp [h]
  · intro x hx
    simp at hx
    rcases hx with rfl | rfl | rfl | rfl | rfl | rfl | rfl | rfl | rfl | rfl | rfl | rfl <;>
      simp [Within]
  · simp
  · simp
  · decide
  · decide
  · decide

/-- `C147_alone`. -/
example : Passes id (.int 4) demoPair ∧ ∃ m, assign id 3 demoPair 0 (.int 4) = .ok m ∧
    (m 0).value = .int 4 ∧ (m 1).value = .int 4 := by
  refine ⟨⟨fun j => by
    show coerce id .Int32 0 ⟨.Int32, .int 4⟩ = .ok (.int 4)
    decide, fun j k _ => rfl⟩, _, rfl, by decide, by decide⟩

/-- `C147_values_partial`: the history of `C147_connected_fails` has no compound assignment. -/
example : ∀ x ∈ [(0, Act.assign 0 (.int 1)), (1, .assign 0 (.int 2)), (0, .go)], ∀ i g,
    x.2 ≠ .update i g := by simp

end Verif.Field.Racing
