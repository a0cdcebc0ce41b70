import Verif.Link.Threads
import Verif.Link.Props

/-! Property C94: the link registry used by several threads. -/
namespace Verif.Link

/-! ### Specification -/

/-- The system after an interleaving. -/
def reach (env : Env) (as : List Act) : Sys := Sys.run env Sys.init as

/-- The calls that `AddLink` and `RemoveLink` were, in the order in which they began, newest first,
and what one thread alone gets from them. -/
def sequential (env : Env) (y : Sys) : Reg × List (Op × Res) := run env (y.results.map Prod.fst)

/-- In every state of the interleaving, no `AddLink` of a pair is made while a thread is in the middle
of `RemoveLink` of the same pair. -/
def Apart (env : Env) : Sys → List Act → Prop
  | _, [] => True
  | y, a :: as =>
    (∀ th s t, a = .call th (.add s t) → y.busy.find th = none →
      ∀ th', y.busy.find th' ≠ some (.removing s t)) ∧
    Apart env (y.step env a) as

/-- The calls that take part. -/
def addCalls (s t : Comp) (as : List Act) : Nat :=
  as.countP fun a => match a with
    | .call _ o => o == .add s t
    | .resume _ => false

/-! ### Counts and results -/

theorem removeFirst_links (r : Reg) (s t : Comp) :
    (removeFirst r s t).1.links = (removeLink r s t).1.links ∧
    (removeFirst r s t).1.targets = r.targets ∧
    (removeFirst r s t).2.1 = (removeLink r s t).2 := by
  unfold removeFirst removeLink
  cases r.links.find (s, t) with
  | none => exact ⟨rfl, rfl, rfl⟩
  | some n =>
    simp only
    split
    · cases r.targets.find t <;> exact ⟨rfl, rfl, rfl⟩
    · exact ⟨rfl, rfl, rfl⟩

theorem addLink_links (env : Env) (r q : Reg) (h : r.links = q.links) (s t : Comp) :
    (addLink env r s t).1.links = (addLink env q s t).1.links := by
  unfold addLink
  rw [h]
  cases q.links.find (s, t) with
  | some n => rfl
  | none =>
    simp only
    split <;> split <;> rfl

theorem removeLink_links (r q : Reg) (h : r.links = q.links) (s t : Comp) :
    (removeLink r s t).1.links = (removeLink q s t).1.links ∧
    (removeLink r s t).2 = (removeLink q s t).2 := by
  unfold removeLink
  rw [h]
  cases q.links.find (s, t) with
  | none => exact ⟨h, rfl⟩
  | some n =>
    simp only
    split
    · cases r.targets.find t <;> cases q.targets.find t <;> exact ⟨rfl, rfl⟩
    · exact ⟨rfl, rfl⟩

theorem run_cons (env : Env) (o : Op) (h : List Op) :
    run env (o :: h) = ((apply env (run env h).1 o).1, (o, (apply env (run env h).1 o).2) :: (run env h).2) :=
  rfl

/-- The results of `RemoveLink`. -/
def removeResults (l : List (Op × Res)) : List (Op × Res) :=
  l.filter fun e => match e.1 with | .remove .. => true | _ => false

theorem links_step {env : Env} {y : Sys} (a : Act)
    (h : y.reg.links = (sequential env y).1.links ∧
      removeResults y.results = removeResults (sequential env y).2) :
    (y.step env a).reg.links = (sequential env (y.step env a)).1.links ∧
      removeResults (y.step env a).results = removeResults (sequential env (y.step env a)).2 := by
  obtain ⟨h1, h2⟩ := h
  cases a with
  | call th o =>
    unfold Sys.step
    cases hb : y.busy.find th with
    | some p => simp only [hb]; exact ⟨h1, h2⟩
    | none =>
      simp only [hb]
      cases o with
      | add s t =>
        simp only [sequential, List.map_cons, run_cons, apply]
        refine ⟨addLink_links env _ _ h1 s t, ?_⟩
        simp only [removeResults, List.filter_cons] at h2 ⊢
        exact h2
      | remove s t =>
        obtain ⟨r1, _, r3⟩ := removeFirst_links y.reg s t
        obtain ⟨q1, q2⟩ := removeLink_links _ _ h1 s t
        simp only [sequential, List.map_cons, run_cons, apply]
        refine ⟨r1.trans q1, ?_⟩
        simp only [removeResults, List.filter_cons, if_true] at h2 ⊢
        rw [h2, r3, q2]
        rfl
      | sources t =>
        simp only
        cases y.reg.targets.find t <;> exact ⟨h1, h2⟩
  | resume th =>
    unfold Sys.step
    cases hb : y.busy.find th with
    | none => simp only [hb]; exact ⟨h1, h2⟩
    | some p =>
      simp only [hb]
      cases p with
      | removing s t =>
        refine ⟨?_, h2⟩
        show (removeSecond y.reg s t).links = _
        unfold removeSecond
        cases y.reg.targets.find t <;> exact h1
      | creating t => exact ⟨h1, h2⟩

/-- C94, counts. Whatever the threads call and however they are interleaved, `GetLinkCount` and the
results of `RemoveLink` are always those of the same calls made one after the other. -/
theorem C94_counts (env : Env) (as : List Act) (s t : Comp) :
    getLinkCount (reach env as).reg s t =
      getLinkCount (sequential env (reach env as)).1 s t ∧
    removeResults (reach env as).results = removeResults (sequential env (reach env as)).2 := by
  have : ∀ (as : List Act) (y : Sys), (y.reg.links = (sequential env y).1.links ∧
      removeResults y.results = removeResults (sequential env y).2) →
      ((y.run env as).reg.links = (sequential env (y.run env as)).1.links ∧
      removeResults (y.run env as).results = removeResults (sequential env (y.run env as)).2) := by
    intro as
    induction as with
    | nil => intro y h; exact h
    | cons a as ih => intro y h; exact ih _ (links_step a h)
  obtain ⟨h1, h2⟩ := this as Sys.init ⟨rfl, rfl⟩
  exact ⟨by unfold getLinkCount reach; rw [h1], h2⟩

/-! ### Sources -/

/-- A thread is in the middle of `RemoveLink`. -/
def pending (y : Sys) (s t : Comp) : Bool := y.busy.any fun e => e.2 == .removing s t

/-- The state and that of the calls one after the other. -/
structure Sim (env : Env) (y : Sys) : Prop where
  busy : y.busy.Nodup
  one : ∀ th th' s t, y.busy.find th = some (.removing s t) →
    y.busy.find th' = some (.removing s t) → th = th'
  gone : ∀ th s t, y.busy.find th = some (.removing s t) →
    y.reg.links.find (s, t) = none ∧ s ∈ y.reg.of t
  links : y.reg.links = (sequential env y).1.links
  nodup : ∀ t, (y.reg.of t).Nodup
  of : ∀ t, (sequential env y).1.of t = (y.reg.of t).filter fun s => !pending y s t
  res : y.results = (sequential env y).2

theorem pending_iff {y : Sys} (hn : y.busy.Nodup) (s t : Comp) :
    pending y s t = true ↔ ∃ th, y.busy.find th = some (.removing s t) := by
  unfold pending
  rw [List.any_eq_true]
  constructor
  · rintro ⟨⟨th, p⟩, hm, hp⟩
    have : p = .removing s t := by simpa using hp
    subst this
    exact ⟨th, Assoc.find_of_mem hn hm⟩
  · rintro ⟨th, h⟩
    exact ⟨(th, .removing s t), Assoc.mem_of_find h, by simp⟩

theorem addLink_old {env : Env} {r : Reg} {s t : Comp} {n : Nat} (h : r.links.find (s, t) = some n) :
    addLink env r s t = ({ r with links := r.links.set (s, t) (u32 (n + 1)) }, .done) := by
  unfold addLink; rw [h]

theorem addLink_new {env : Env} (hn : Named env) {r : Reg} {s t : Comp}
    (h : r.links.find (s, t) = none) (hs : s ∉ r.of t) :
    (addLink env r s t).2 = .done ∧ (addLink env r s t).1.links = r.links.set (s, t) 1 ∧
    ∀ t', (addLink env r s t).1.of t' = if t' = t then r.of t ++ [s] else r.of t' := by
  have e : ((r.targets.tryEmplace t []).find t).getD [] = r.of t := of_tryEmplace r t t r.links
  unfold addLink
  simp only [h, e, collAdd_named hn, if_neg hs]
  refine ⟨trivial, trivial, ?_⟩
  intro t'
  simp only [Reg.of, Assoc.find_set]
  split
  · simp
  · rename_i hne
    rw [Assoc.find_tryEmplace, if_neg (fun h => hne h.1)]

theorem removeLink_last {r : Reg} {s t : Comp} {n : Nat} (h : r.links.find (s, t) = some n)
    (hz : u32 ((n : Int) - 1) = 0) :
    (removeLink r s t).2 = .bool true ∧ (removeLink r s t).1.links = r.links.erase (s, t) ∧
    ∀ t', (removeLink r s t).1.of t' = if t' = t then (r.of t).erase s else r.of t' := by
  unfold removeLink
  simp only [h, hz, if_true]
  cases htg : r.targets.find t with
  | none =>
    refine ⟨rfl, rfl, ?_⟩
    intro t'
    simp only [Reg.of]
    split
    · rename_i he; rw [he, htg]; rfl
    · rfl
  | some l =>
    refine ⟨rfl, rfl, ?_⟩
    intro t'
    simp only [Reg.of, Assoc.find_set]
    split
    · simp [collRemove, htg]
    · rfl

theorem removeSecond_of (r : Reg) (s t t' : Comp) :
    (removeSecond r s t).of t' = if t' = t then (r.of t).erase s else r.of t' := by
  unfold removeSecond
  cases htg : r.targets.find t with
  | none =>
    simp only [Reg.of]
    split
    · rename_i he; rw [he, htg]; rfl
    · rfl
  | some l =>
    simp only [Reg.of, Assoc.find_set]
    split
    · simp [collRemove, htg]
    · rfl

theorem bool_eq {a b : Bool} (h : a = true ↔ b = true) : a = b := by
  cases a <;> cases b <;> simp_all

theorem pending_congr {y z : Sys} (hy : y.busy.Nodup) (hz : z.busy.Nodup) {s t s' t' : Comp}
    (h : (∃ th, y.busy.find th = some (.removing s t)) ↔
      ∃ th, z.busy.find th = some (.removing s' t')) : pending y s t = pending z s' t' := by
  apply bool_eq
  rw [pending_iff hy, pending_iff hz]
  exact h

theorem sim_step {env : Env} (hn : Named env) {y : Sys} (h : Sim env y) (a : Act)
    (hb : ∀ s t, adds s t (y.results.map Prod.fst) < 4294967296)
    (ha : ∀ th s t, a = .call th (.add s t) → y.busy.find th = none →
      ∀ th', y.busy.find th' ≠ some (.removing s t)) : Sim env (y.step env a) := by
  have hl : Listed (sequential env y).1 := listed hn _ hb
  cases a with
  | call th o =>
    cases hbz : y.busy.find th with
    | some p =>
      have : y.step env (.call th o) = y := by unfold Sys.step; simp only [hbz]
      rw [this]; exact h
    | none =>
      cases o with
      | add s t =>
        have he : y.step env (.call th (.add s t)) = ⟨(addLink env y.reg s t).1, y.busy,
            (.add s t, (addLink env y.reg s t).2) :: y.results⟩ := by
          unfold Sys.step; simp only [hbz]
        have hnp := ha th s t rfl hbz
        have hseq : sequential env (y.step env (.call th (.add s t))) =
            ((addLink env (sequential env y).1 s t).1,
              (.add s t, (addLink env (sequential env y).1 s t).2) :: (sequential env y).2) := by
          rw [he]; rfl
        have hp : ∀ s' t', pending (y.step env (.call th (.add s t))) s' t' = pending y s' t' := by
          intro s' t'; rw [he]; rfl
        cases hf : y.reg.links.find (s, t) with
        | some n =>
          have h1 := addLink_old (env := env) hf
          have h2 := addLink_old (env := env) (show (sequential env y).1.links.find (s, t) = some n by
            rw [← h.links]; exact hf)
          rw [h2] at hseq
          rw [h1] at he
          refine ⟨by rw [he]; exact h.busy, by rw [he]; exact h.one, ?_, ?_, ?_, ?_, ?_⟩
          · rw [he]
            intro th' s' t' hth'
            obtain ⟨g1, g2⟩ := h.gone th' s' t' hth'
            refine ⟨?_, g2⟩
            show Assoc.find _ (Assoc.set _ _ _) = none
            rw [Assoc.find_set, if_neg]
            · exact g1
            · intro heq; cases heq; exact hnp th' hth'
          · rw [hseq, he]; show Assoc.set _ _ _ = Assoc.set _ _ _; rw [h.links]
          · rw [he]; exact h.nodup
          · intro t'
            simp only [hp]
            rw [hseq, he]
            exact h.of t'
          · rw [hseq, he]; show _ :: y.results = _ :: _; rw [← h.res]
        | none =>
          have hf' : (sequential env y).1.links.find (s, t) = none := by rw [← h.links]; exact hf
          have hns' : s ∉ (sequential env y).1.of t := by rw [hl.mem, hf']; simp
          have hns : s ∉ y.reg.of t := by
            intro hm
            apply hns'
            rw [h.of, List.mem_filter]
            refine ⟨hm, ?_⟩
            cases hpn : pending y s t with
            | false => rfl
            | true =>
              obtain ⟨th', hth'⟩ := (pending_iff h.busy s t).1 hpn
              exact absurd hth' (hnp th')
          obtain ⟨a1, a2, a3⟩ := addLink_new hn hf hns
          obtain ⟨b1, b2, b3⟩ := addLink_new hn hf' hns'
          refine ⟨by rw [he]; exact h.busy, by rw [he]; exact h.one, ?_, ?_, ?_, ?_, ?_⟩
          · rw [he]
            intro th' s' t' hth'
            obtain ⟨g1, g2⟩ := h.gone th' s' t' hth'
            simp only [a2, a3]
            refine ⟨?_, ?_⟩
            · rw [Assoc.find_set, if_neg]
              · exact g1
              · intro heq; cases heq; exact hnp th' hth'
            · split
              · rename_i heq; rw [heq] at g2; exact List.mem_append_left _ g2
              · exact g2
          · rw [hseq, he]; simp only [a2, b2, h.links]
          · rw [he]
            intro t'
            simp only [a3]
            split
            · rw [List.nodup_append]
              refine ⟨h.nodup t, by simp, ?_⟩
              intro a hm b hb hab; simp at hb; subst hb; subst hab; exact hns hm
            · exact h.nodup t'
          · intro t'
            simp only [hp]
            rw [hseq, he]
            simp only [a3, b3]
            by_cases ht : t' = t
            · subst ht
              rw [if_pos rfl, if_pos rfl, List.filter_append, h.of]
              have : pending y s t' = false := by
                cases hpn : pending y s t' with
                | false => rfl
                | true =>
                  obtain ⟨th', hth'⟩ := (pending_iff h.busy s t').1 hpn
                  exact absurd hth' (hnp th')
              simp [this]
            · rw [if_neg ht, if_neg ht]; exact h.of t'
          · rw [hseq, he]; simp only [a1, b1, ← h.res]
      | remove s t =>
        have hseq : ∀ r bz x, sequential env ⟨r, bz, (.remove s t, x) :: y.results⟩ =
            ((removeLink (sequential env y).1 s t).1,
              (.remove s t, (removeLink (sequential env y).1 s t).2) :: (sequential env y).2) := by
          intro r bz x; rfl
        cases hf : y.reg.links.find (s, t) with
        | none =>
          have he : y.step env (.call th (.remove s t)) =
              ⟨y.reg, y.busy, (.remove s t, .bool false) :: y.results⟩ := by
            unfold Sys.step; simp only [hbz, removeFirst, hf]; rfl
          have hf' : (sequential env y).1.links.find (s, t) = none := by rw [← h.links]; exact hf
          have hr : removeLink (sequential env y).1 s t = ((sequential env y).1, .bool false) := by
            unfold removeLink; rw [hf']
          rw [he]
          have hq := hseq y.reg y.busy (.bool false)
          rw [hr] at hq
          refine ⟨h.busy, h.one, h.gone, ?_, h.nodup, ?_, ?_⟩
          · rw [hq]; exact h.links
          · intro t'; rw [hq]; exact h.of t'
          · rw [hq]; show _ :: y.results = _ :: _; rw [← h.res]
        | some n =>
          have hf' : (sequential env y).1.links.find (s, t) = some n := by rw [← h.links]; exact hf
          have hnp : ∀ th', y.busy.find th' ≠ some (.removing s t) := by
            intro th' hth'
            have := (h.gone th' s t hth').1
            rw [hf] at this; cases this
          by_cases hz : u32 ((n : Int) - 1) = 0
          · have he : y.step env (.call th (.remove s t)) =
                ⟨{ y.reg with links := y.reg.links.erase (s, t) },
                  y.busy.set th (.removing s t), (.remove s t, .bool true) :: y.results⟩ := by
              unfold Sys.step; simp only [hbz, removeFirst, hf, hz, if_true]
            rw [he]
            obtain ⟨b1, b2, b3⟩ := removeLink_last hf' hz
            have hq := hseq { y.reg with links := y.reg.links.erase (s, t) }
              (y.busy.set th (.removing s t)) (.bool true)
            have hnd : (y.busy.set th (.removing s t)).Nodup := h.busy.set
            have hfind : ∀ th' s' t', (y.busy.set th (.removing s t)).find th' =
                some (.removing s' t') ↔ (th' = th ∧ s' = s ∧ t' = t) ∨
                  (th' ≠ th ∧ y.busy.find th' = some (.removing s' t')) := by
              intro th' s' t'
              rw [Assoc.find_set]
              by_cases hth : th' = th
              · subst hth
                rw [if_pos rfl]
                simp only [Option.some.injEq, Pc.removing.injEq, true_and, ne_eq, not_true_eq_false,
                  false_and, or_false]
                constructor
                · rintro ⟨rfl, rfl⟩; exact ⟨rfl, rfl⟩
                · rintro ⟨rfl, rfl⟩; exact ⟨rfl, rfl⟩
              · rw [if_neg hth]; simp [hth]
            have hin : s ∈ y.reg.of t := by
              have : s ∈ (sequential env y).1.of t := by rw [hl.mem, hf']; rfl
              rw [h.of, List.mem_filter] at this
              exact this.1
            refine ⟨hnd, ?_, ?_, ?_, h.nodup, ?_, ?_⟩
            · intro th1 th2 s' t' g1 g2
              rcases (hfind th1 s' t').1 g1 with ⟨e1, e2, e3⟩ | ⟨e1, e2⟩
              · subst e2; subst e3
                rcases (hfind th2 s' t').1 g2 with ⟨f1, _, _⟩ | ⟨_, f2⟩
                · rw [e1, f1]
                · exact absurd f2 (hnp th2)
              · rcases (hfind th2 s' t').1 g2 with ⟨_, f2, f3⟩ | ⟨_, f2⟩
                · subst f2; subst f3; exact absurd e2 (hnp th1)
                · exact h.one _ _ _ _ e2 f2
            · intro th' s' t' g
              show Assoc.find _ (Assoc.erase _ _) = none ∧ s' ∈ y.reg.of t'
              rcases (hfind th' s' t').1 g with ⟨_, e2, e3⟩ | ⟨_, e2⟩
              · subst e2; subst e3
                exact ⟨Assoc.find_erase_self _ _, hin⟩
              · obtain ⟨g1, g2⟩ := h.gone th' s' t' e2
                refine ⟨?_, g2⟩
                rw [Assoc.find_erase]
                split
                · rfl
                · exact g1
            · rw [hq]; simp only [b2, h.links]
            · intro t'
              rw [hq]
              simp only [b3]
              show _ = (y.reg.of t').filter _
              by_cases ht : t' = t
              · subst ht
                rw [if_pos rfl, h.of, List.Nodup.erase_eq_filter ((h.nodup t').filter _),
                  List.filter_filter]
                apply List.filter_congr
                intro x _
                apply bool_eq
                rw [Bool.and_eq_true, Bool.not_eq_true', Bool.not_eq_true', ← Bool.not_eq_true,
                  ← Bool.not_eq_true, pending_iff h.busy, pending_iff hnd]
                simp only [hfind, bne_iff_ne, ne_eq, and_true]
                constructor
                · rintro ⟨e1, e2⟩ ⟨th', (⟨_, e4⟩ | ⟨_, e4⟩)⟩
                  · exact e1 e4
                  · exact e2 ⟨th', e4⟩
                · intro e
                  refine ⟨fun hx => e ⟨th, Or.inl ⟨rfl, hx⟩⟩, ?_⟩
                  rintro ⟨th', e4⟩
                  exact e ⟨th', Or.inr ⟨fun hh => (by rw [hh, hbz] at e4; cases e4), e4⟩⟩
              · rw [if_neg ht, h.of]
                apply List.filter_congr
                intro x _
                congr 1
                apply pending_congr h.busy hnd
                simp only [hfind, ht, and_false, false_or]
                constructor
                · rintro ⟨th', e4⟩
                  exact ⟨th', fun hh => (by rw [hh, hbz] at e4; cases e4), e4⟩
                · rintro ⟨th', _, e4⟩; exact ⟨th', e4⟩
            · rw [hq]; simp only [b1, ← h.res]
          · have he : y.step env (.call th (.remove s t)) =
                ⟨{ y.reg with links := y.reg.links.set (s, t) (u32 ((n : Int) - 1)) },
                  y.busy, (.remove s t, .bool true) :: y.results⟩ := by
              unfold Sys.step; simp only [hbz, removeFirst, hf, if_neg hz]; rfl
            have hr : removeLink (sequential env y).1 s t =
                ({ (sequential env y).1 with
                    links := (sequential env y).1.links.set (s, t) (u32 ((n : Int) - 1)) }, .bool true) := by
              unfold removeLink; simp only [hf', if_neg hz]
            have hq := hseq { y.reg with links := y.reg.links.set (s, t) (u32 ((n : Int) - 1)) }
              y.busy (.bool true)
            rw [hr] at hq
            rw [he]
            refine ⟨h.busy, h.one, ?_, ?_, h.nodup, ?_, ?_⟩
            · intro th' s' t' g
              obtain ⟨g1, g2⟩ := h.gone th' s' t' g
              refine ⟨?_, g2⟩
              show Assoc.find _ (Assoc.set _ _ _) = none
              rw [Assoc.find_set, if_neg]
              · exact g1
              · intro heq; cases heq; exact hnp th' g
            · rw [hq]; simp only [h.links]
            · intro t'; rw [hq]; exact h.of t'
            · rw [hq]; simp only [← h.res]
      | sources t =>
        cases htg : y.reg.targets.find t with
        | some l =>
          have : y.step env (.call th (.sources t)) = y := by
            unfold Sys.step; simp only [hbz, htg]
          rw [this]; exact h
        | none =>
          have he : y.step env (.call th (.sources t)) =
              { y with busy := y.busy.set th (.creating t) } := by
            unfold Sys.step; simp only [hbz, htg]
          rw [he]
          have hnd : (y.busy.set th (.creating t)).Nodup := h.busy.set
          have hfind : ∀ th' s' t', (y.busy.set th (.creating t)).find th' =
              some (.removing s' t') ↔ y.busy.find th' = some (.removing s' t') := by
            intro th' s' t'
            rw [Assoc.find_set]
            by_cases hth : th' = th
            · subst hth; rw [if_pos rfl, hbz]; simp
            · rw [if_neg hth]
          refine ⟨hnd, ?_, ?_, h.links, h.nodup, ?_, h.res⟩
          · intro th1 th2 s' t' g1 g2
            exact h.one _ _ _ _ ((hfind _ _ _).1 g1) ((hfind _ _ _).1 g2)
          · intro th' s' t' g; exact h.gone _ _ _ ((hfind _ _ _).1 g)
          · intro t'
            refine (h.of t').trans ?_
            apply List.filter_congr
            intro x _
            congr 1
            apply pending_congr h.busy hnd
            simp only [hfind]
  | resume th =>
    cases hbz : y.busy.find th with
    | none =>
      have : y.step env (.resume th) = y := by unfold Sys.step; simp only [hbz]
      rw [this]; exact h
    | some p =>
      have hnd : (y.busy.erase th).Nodup := h.busy.erase
      have hfind : ∀ th' s' t', (y.busy.erase th).find th' = some (.removing s' t') ↔
          th' ≠ th ∧ y.busy.find th' = some (.removing s' t') := by
        intro th' s' t'
        rw [Assoc.find_erase]
        by_cases hth : th' = th
        · rw [if_pos hth]; simp [hth]
        · rw [if_neg hth]; simp [hth]
      cases p with
      | creating t =>
        have he : y.step env (.resume th) =
            { y with reg := { y.reg with targets := y.reg.targets.tryEmplace t [] },
                     busy := y.busy.erase th } := by
          unfold Sys.step; simp only [hbz]
        rw [he]
        have hof : ∀ t', ({ y.reg with targets := y.reg.targets.tryEmplace t [] } : Reg).of t' =
            y.reg.of t' := fun t' => of_tryEmplace y.reg t t' _
        refine ⟨hnd, ?_, ?_, h.links, ?_, ?_, h.res⟩
        · intro th1 th2 s' t' g1 g2
          exact h.one _ _ _ _ ((hfind _ _ _).1 g1).2 ((hfind _ _ _).1 g2).2
        · intro th' s' t' g
          simp only [hof]
          exact h.gone _ _ _ ((hfind _ _ _).1 g).2
        · intro t'; simp only [hof]; exact h.nodup t'
        · intro t'
          simp only [hof]
          refine (h.of t').trans ?_
          apply List.filter_congr
          intro x _
          congr 1
          apply pending_congr h.busy hnd
          simp only [hfind]
          constructor
          · rintro ⟨th', e4⟩
            exact ⟨th', fun hh => (by rw [hh, hbz] at e4; cases e4), e4⟩
          · rintro ⟨th', _, e4⟩; exact ⟨th', e4⟩
      | removing s t =>
        have he : y.step env (.resume th) =
            { y with reg := removeSecond y.reg s t, busy := y.busy.erase th } := by
          unfold Sys.step; simp only [hbz]
        have hlk : (removeSecond y.reg s t).links = y.reg.links := by
          unfold removeSecond; cases y.reg.targets.find t <;> rfl
        rw [he]
        refine ⟨hnd, ?_, ?_, ?_, ?_, ?_, h.res⟩
        · intro th1 th2 s' t' g1 g2
          exact h.one _ _ _ _ ((hfind _ _ _).1 g1).2 ((hfind _ _ _).1 g2).2
        · intro th' s' t' g
          obtain ⟨e1, e2⟩ := (hfind _ _ _).1 g
          obtain ⟨g1, g2⟩ := h.gone _ _ _ e2
          simp only [hlk, removeSecond_of]
          refine ⟨g1, ?_⟩
          split
          · rename_i ht
            subst ht
            rw [(h.nodup t').mem_erase_iff]
            refine ⟨?_, g2⟩
            intro hs
            subst hs
            exact e1 (h.one _ _ _ _ e2 hbz)
          · exact g2
        · simp only [hlk]; exact h.links
        · intro t'
          simp only [removeSecond_of]
          split
          · exact (h.nodup t).erase s
          · exact h.nodup t'
        · intro t'
          simp only [removeSecond_of]
          refine (h.of t').trans ?_
          by_cases ht : t' = t
          · subst ht
            rw [if_pos rfl, List.Nodup.erase_eq_filter (h.nodup t'), List.filter_filter]
            apply List.filter_congr
            intro x _
            apply bool_eq
            rw [Bool.and_eq_true, Bool.not_eq_true', Bool.not_eq_true', ← Bool.not_eq_true,
              ← Bool.not_eq_true, pending_iff h.busy, pending_iff hnd]
            simp only [hfind, bne_iff_ne, ne_eq]
            constructor
            · intro e
              refine ⟨?_, fun hx => e ⟨th, by rw [hx]; exact hbz⟩⟩
              rintro ⟨th', _, e4⟩
              exact e ⟨th', e4⟩
            · rintro ⟨e1, e2⟩ ⟨th', e4⟩
              refine e1 ⟨th', ?_, e4⟩
              intro hh
              subst hh
              rw [hbz] at e4
              cases e4
              exact e2 rfl
          · rw [if_neg ht]
            apply List.filter_congr
            intro x _
            congr 1
            apply pending_congr h.busy hnd
            simp only [hfind]
            constructor
            · rintro ⟨th', e4⟩
              refine ⟨th', ?_, e4⟩
              intro hh
              subst hh
              rw [hbz] at e4
              cases e4
              exact ht rfl
            · rintro ⟨th', _, e4⟩; exact ⟨th', e4⟩

theorem step_adds {env : Env} (y : Sys) (a : Act) (s t : Comp) :
    adds s t ((y.step env a).results.map Prod.fst) ≤
      adds s t (y.results.map Prod.fst) + addCalls s t [a] := by
  cases a with
  | call th o =>
    unfold Sys.step
    cases hb : y.busy.find th with
    | some p => simp only [hb]; omega
    | none =>
      simp only [hb]
      cases o with
      | add s' t' =>
        simp only [List.map_cons, adds_cons, addCalls, List.countP_cons, List.countP_nil]
        by_cases h : Op.add s' t' = Op.add s t <;> simp [h]
      | remove s' t' => simp [adds_cons]
      | sources t' => simp only; cases y.reg.targets.find t' <;> simp
  | resume th =>
    unfold Sys.step
    cases hb : y.busy.find th with
    | none => simp only [hb]; omega
    | some p => simp only [hb]; cases p <;> simp

theorem sim_run {env : Env} (hn : Named env) (as : List Act) : ∀ y, Sim env y → Apart env y as →
    (∀ s t, adds s t (y.results.map Prod.fst) + addCalls s t as < 4294967296) →
    Sim env (y.run env as) := by
  induction as with
  | nil => intro y h _ _; exact h
  | cons a as ih =>
    intro y h ha hb
    apply ih
    · refine sim_step hn h a (fun s t => ?_) ha.1
      have := hb s t; omega
    · exact ha.2
    · intro s t
      have h1 := step_adds (env := env) y a s t
      have h2 := hb s t
      have h3 : addCalls s t (a :: as) = addCalls s t [a] + addCalls s t as := by
        unfold addCalls; rw [← List.countP_append]; rfl
      omega

/-- C94. If no `AddLink` of a pair is made while a thread is in the middle of `RemoveLink` of the same
pair, then whatever the threads call and however they are interleaved: the results are those of
the calls made one after the other, in the order in which they began; and when no thread is in
a call, the counts and the sources of all targets are too, so that a component is a source exactly
when its count is positive. Partial: the condition is needed (`C94_fails`); distinct names and
less than 2^32 additions of a link as in C22 and C23. -/
theorem C94_partial {env : Env} (hn : Named env) (as : List Act) (ha : Apart env Sys.init as)
    (hb : ∀ s t, addCalls s t as < 4294967296) :
    (reach env as).results = (sequential env (reach env as)).2 ∧
    ((reach env as).busy = [] →
      ∀ t, (reach env as).reg.of t = (sequential env (reach env as)).1.of t ∧
        ((reach env as).reg.of t).Nodup ∧
        ∀ s, s ∈ (reach env as).reg.of t ↔ 0 < getLinkCount (reach env as).reg s t) := by
  have h0 : Sim env Sys.init := by
    refine ⟨List.nodup_nil, ?_, ?_, rfl, ?_, ?_, rfl⟩
    · intro th th' s t h; cases h
    · intro th s t h; cases h
    · intro t; exact List.nodup_nil
    · intro t; rfl
  have hS := sim_run hn as Sys.init h0 ha (by
    intro s t; have := hb s t; simpa [Sys.init, adds] using this)
  refine ⟨hS.res, fun hbz t => ?_⟩
  have hof : (reach env as).reg.of t = (sequential env (reach env as)).1.of t := by
    refine Eq.trans ?_ (hS.of t).symm
    have : ∀ s, pending (reach env as) s t = false := by
      intro s; unfold pending; rw [hbz]; rfl
    show (reach env as).reg.of t = ((reach env as).reg.of t).filter fun s => !pending (reach env as) s t
    simp only [this, Bool.not_false]
    exact (List.filter_eq_self.2 fun _ _ => rfl).symm
  refine ⟨hof, hS.nodup t, fun s => ?_⟩
  have hbd : ∀ s t, adds s t ((reach env as).results.map Prod.fst) < 4294967296 := by
    intro s t
    have key : ∀ (as : List Act) (y : Sys), adds s t ((y.run env as).results.map Prod.fst) ≤
        adds s t (y.results.map Prod.fst) + addCalls s t as := by
      intro as
      induction as with
      | nil => intro y; exact Nat.le_refl _
      | cons a as ih =>
        intro y
        have h1 := step_adds (env := env) y a s t
        have h2 := ih (y.step env a)
        have h3 : addCalls s t (a :: as) = addCalls s t [a] + addCalls s t as := by
          unfold addCalls; rw [← List.countP_append]; rfl
        have h4 : y.run env (a :: as) = (y.step env a).run env as := rfl
        rw [h4]; omega
    have h1 := key as Sys.init
    have h2 := hb s t
    have h3 : adds s t (Sys.init.results.map Prod.fst) = 0 := rfl
    unfold reach
    omega
  have hl : Listed (sequential env (reach env as)).1 := listed hn _ hbd
  rw [hof, hl.mem, (C94_counts env as s t).1]
  have hp := (counted env _ s t (hbd s t)).pos
  unfold getLinkCount
  cases hf : (sequential env (reach env as)).1.links.find (s, t) with
  | none => simp
  | some n => have := hp n hf; simp [this]

/-- Two threads remove and add links to the target 7. -/
def shared : List Act :=
  [.call 1 (.add 1 7), .call 2 (.add 2 7), .call 1 (.remove 1 7), .call 2 (.remove 2 7),
   .call 3 (.add 3 7), .call 4 (.sources 8), .resume 2, .call 2 (.add 2 7), .resume 1, .resume 4]

example : Named ⟨id, fun _ => true⟩ ∧ Apart ⟨id, fun _ => true⟩ Sys.init shared ∧
    (reach ⟨id, fun _ => true⟩ shared).busy = [] ∧
    (reach ⟨id, fun _ => true⟩ shared).reg.of 7 = [3, 2] := by
  refine ⟨fun _ _ h => h, ?_, by decide, by decide⟩
  simp only [shared, Apart, Act.call.injEq, Op.add.injEq, reduceCtorEq, and_false, false_implies,
    implies_true, true_and, and_true]
  refine ⟨?_, ?_, ?_, ?_⟩
  all_goals
    rintro th s t ⟨rfl, rfl, rfl⟩ _ th' h
    have := Assoc.mem_of_find h
    revert this
    simp [Sys.step, removeFirst, addLink, Sys.init, init, Assoc.find, Assoc.set, Assoc.erase,
      Assoc.tryEmplace, collAdd, removeSecond, u32, collRemove]

/-- C94 fails when another thread adds the link again in the middle of its removal: `AddLink` raises
`DuplicateName`, and after all calls have ended the link is counted while its source is not a source
of the target, so that the target can be removed although a component that does not let go of links
is linked to it. One thread after the other, `AddLink` returns and the source is listed. -/
theorem C94_fails : ∃ (env : Env) (as : List Act), Named env ∧ (reach env as).busy = [] ∧
    (reach env as).results.head? = some (.add 1 7, .duplicateName) ∧
    getLinkCount (reach env as).reg 1 7 = 1 ∧ (reach env as).reg.of 7 = [] ∧
    env.linking 1 = false ∧ canRemove env (reach env as).reg 7 = true ∧
    (sequential env (reach env as)).1.of 7 = [1] :=
  ⟨⟨id, fun _ => false⟩, [.call 1 (.add 1 7), .call 1 (.remove 1 7), .call 2 (.add 1 7), .resume 1],
    fun _ _ h => h, by decide, by decide, by decide, by decide, by decide, by decide, by decide⟩

end Verif.Link
