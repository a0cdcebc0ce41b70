import Verif.Sim.Ending
/-! C114: a simulator can be destroyed while the Zulu thread of its scheduler is running
(src/Xsmp/Simulator.cpp:117-151, src/Xsmp/Services/XsmpScheduler.cpp:83-112, 514-570). -/
namespace Verif.Sim.Ending

/-- The events taken up have an entry point of one of these components and do not call `Exit`
(Simulator.cpp:519). -/
def Tame (cs : List Nat) (t : List Step) : Prop :=
  ∀ e, .poll e ∈ t → e.owner ∈ cs ∧ e.act ≠ .exits

/-- What always holds of such runs. -/
structure Inv (cs : List Nat) (s : St) : Prop where
  ok : s.fault = none
  before : s.phase = .before → s.thr = .none ∧ s.joinable = false
  gone : s.joinable = false → s.thr = .none ∨ s.thr = .ended
  freed : s.main = .free → s.term = true → s.joinable = false
  asked : s.main = .joinExit ∨ s.main = .joinDestroy ∨ s.main = .joinDelete → s.term = true
  whole : s.main ≠ .deleting → s.main ≠ .joinDelete → s.comps = cs
  active : s.phase = .active → s.term = false ∧ s.main = .free
  tame : ∀ e, s.thr = .running e → e.owner ∈ cs ∧ e.act ≠ .exits
  last : s.main = .deleting ∨ s.main = .joinDelete → s.phase ≠ .active ∧
    (s.joinable = false ∨ ((∀ e, s.thr ≠ .running e) ∧ timeKeeper ∈ s.comps ∧
      ∃ ms ss, s.comps = ms ++ scheduler :: ss ∧ timeKeeper ∉ ms))
  wait : s.main = .joinDelete → ∃ ss, s.comps = scheduler :: ss
  once : s.main = .deleting → s.term = true → s.joinable = false
  fresh : s.phase = .before → s.main ≠ .joinExit ∧ (s.main = .free → s.term = false)

theorem inv_start (cs : List Nat) : Inv cs (.start cs) := by
  constructor <;> simp [St.start]

theorem keeper_ne : timeKeeper ≠ scheduler := by decide

/-- Every step but `destroy`. -/
theorem inv_step {cs : List Nat} (ht : timeKeeper ∈ cs) {s : St} (I : Inv cs s) {x : Step}
    (hx : x ≠ .destroy) (hp : ∀ e, x = .poll e → e.owner ∈ cs ∧ e.act ≠ .exits) :
    Inv cs (step s x) := by
  obtain ⟨h1, h2, h3, h4, h5, h6, h7, h8, h9, h10, h11, h12⟩ := I
  unfold step
  rw [if_neg (by simp [h1])]
  cases x with
  | connect =>
    dsimp only
    split
    · next h => constructor <;> grind
    · constructor <;> assumption
  | poll e =>
    dsimp only
    split
    · next h =>
      have hc : timeKeeper ∈ s.comps := by
        by_cases hm : s.main = .deleting ∨ s.main = .joinDelete
        · rcases (h9 hm).2 with hj | ⟨_, hk, _⟩
          · rcases h3 hj with e | e <;> rw [h.1] at e <;> cases e
          · exact hk
        · rw [h6 (fun e => hm (.inl e)) (fun e => hm (.inr e))]; exact ht
      unfold St.poll
      rw [if_neg (by simp [hc])]
      split
      · constructor <;> assumption
      · next hph =>
        have hph : s.phase = .active := by simpa using hph
        have hm := (h7 hph).2
        have hcs : s.comps = cs := h6 (by simp [hm]) (by simp [hm])
        have ho := hp e rfl
        rw [if_neg (by simp [hcs, ho.1])]
        constructor <;> grind
    · constructor <;> assumption
  | done =>
    dsimp only
    split
    · next e he =>
      have ha := (h8 e he).2
      unfold St.done
      cases hact : e.act with
      | quiet =>
        dsimp only [St.back]
        constructor <;> grind
      | raises =>
        dsimp only [St.back]
        constructor <;> grind
      | exits => exact absurd hact ha
    · constructor <;> assumption
  | stop =>
    dsimp only
    split
    · constructor <;> grind
    · constructor <;> assumption
  | exit =>
    dsimp only
    split
    · next h =>
      have := (h7 h.2).1
      unfold St.leave
      rw [if_neg (by simp [this])]
      split
      · constructor <;> grind
      · constructor <;> grind
    · constructor <;> assumption
  | abort =>
    dsimp only
    split
    · constructor <;> grind
    · constructor <;> assumption
  | destroy => exact absurd rfl hx
  | joined =>
    dsimp only
    split
    · next hj =>
      have hj : s.thr = .ended ∨ s.thr = .none := by simpa [St.joinedNow] using hj
      split
      · constructor <;> grind
      · constructor <;> grind
      · constructor <;> grind
      · constructor <;> assumption
    · constructor <;> assumption
  | delete =>
    dsimp only
    split
    · next hm =>
      have hl := h9 (.inl hm)
      unfold St.delete
      split
      · constructor <;> assumption
      · next c cs' hcs =>
        split
        · next hc =>
          split
          · next htm =>
            have := h11 hm htm
            rw [if_neg (by simp [this])]
            constructor <;> grind
          · split
            · constructor <;> grind
            · constructor <;> grind
        · next hc =>
          have hl2 : s.joinable = false ∨ ((∀ e, s.thr ≠ .running e) ∧ timeKeeper ∈ cs' ∧
              ∃ ms ss, cs' = ms ++ scheduler :: ss ∧ timeKeeper ∉ ms) := by
            rcases hl.2 with h | ⟨ha, hb, ms, ss, he, hn⟩
            · exact .inl h
            · refine .inr ⟨ha, ?_⟩
              rw [hcs] at he hb
              cases ms with
              | nil => simp at he; exact absurd he.1 hc
              | cons m ms =>
                simp only [List.cons_append, List.cons.injEq] at he
                simp only [List.mem_cons, not_or] at hn
                refine ⟨?_, ms, ss, he.2, hn.2⟩
                rcases List.mem_cons.mp hb with e | e
                · exact absurd (e.trans he.1) hn.1
                · exact e
          have hnr : ∀ e, s.thr ≠ .running e := by
            intro e he
            rcases hl.2 with h | ⟨ha, _⟩
            · rcases h3 h with e' | e' <;> rw [he] at e' <;> cases e'
            · exact ha e he
          split
          · next e he => exact absurd he (hnr e)
          · constructor <;> grind
    · constructor <;> assumption

theorem inv_run {cs : List Nat} (ht : timeKeeper ∈ cs) : (t : List Step) → {s : St} → Inv cs s →
    Tame cs t → .destroy ∉ t → Inv cs (run s t)
  | [], _, I, _, _ => I
  | x :: t, _, I, hp, hd =>
    inv_run ht t (inv_step ht I (fun e => hd (e ▸ List.mem_cons_self ..))
      (fun e he => hp e (he ▸ List.mem_cons_self ..)))
      (fun e he => hp e (List.mem_cons_of_mem _ he)) (fun h => hd (List.mem_cons_of_mem _ h))

theorem run_append (s : St) : (t t' : List Step) → run s (t ++ t') = run (run s t) t'
  | [], _ => rfl
  | _ :: t, t' => run_append _ t t'

/-- `destroy`, under the condition of the claim. -/
theorem inv_destroy {cs : List Nat} {s : St} (I : Inv cs s)
    (hs : s.phase = .active ∨ s.joinable = false ∨ ((∀ e, s.thr ≠ .running e) ∧
      timeKeeper ∈ cs ∧ ∃ ms ss, cs = ms ++ scheduler :: ss ∧ timeKeeper ∉ ms)) :
    Inv cs (step s .destroy) := by
  obtain ⟨h1, h2, h3, h4, h5, h6, h7, h8, h9, h10, h11, h12⟩ := I
  unfold step
  rw [if_neg (by simp [h1])]
  dsimp only
  split
  · next hm =>
    have hc := h6 (by simp [hm]) (by simp [hm])
    split
    · next hph =>
      have := (h7 hph).1
      unfold St.leave
      rw [if_neg (by simp [this])]
      split
      · constructor <;> grind
      · constructor <;> grind
    · next hph => constructor <;> grind
  · constructor <;> assumption

/-- **C114**. For every run of the two threads up to the destruction of the simulator and every one
after it, in which no Zulu entry point calls `Exit`: when at that time the simulator is in Standby
(or Executing), or no Zulu entry point is running and the scheduler is deleted before the time
keeper, nothing goes wrong. No entry point of a deleted component is called, no component is
deleted while its entry point runs, and the thread is joined. Missing: the cases of
`C114_exit_fails`, `C114_abort_fails` and `C114_order_fails`. -/
theorem C114_destroy_partial (cs : List Nat) (ht : timeKeeper ∈ cs) (t t' : List Step)
    (tame : Tame cs (t ++ .destroy :: t')) (hd : .destroy ∉ t ∧ .destroy ∉ t')
    (hs : (run (.start cs) t).phase = .active ∨
      ((∀ e, (run (.start cs) t).thr ≠ .running e) ∧
        ∃ ms ss, cs = ms ++ scheduler :: ss ∧ timeKeeper ∉ ms)) :
    (run (.start cs) (t ++ .destroy :: t')).fault = none := by
  have I := inv_run ht t (inv_start cs)
    (fun e he => tame e (List.mem_append_left _ he)) hd.1
  rw [run_append]
  refine (inv_run ht t' (inv_destroy I ?_) (fun e he => tame e
    (List.mem_append_right _ (List.mem_cons_of_mem _ he))) hd.2).ok
  rcases hs with h | ⟨h, h'⟩
  · exact .inl h
  · exact .inr (.inr ⟨h, ht, h'⟩)

/-- After a run without aborts the simulator is active, or the thread is gone when the owner is
free. -/
theorem calm_run {cs : List Nat} (ht : timeKeeper ∈ cs) : (t : List Step) → {s : St} → Inv cs s →
    (s.phase ≠ .aborting ∧ (∀ e, s.thr = .running e → e.act = .quiet) ∧
      (s.phase = .exiting → s.main = .free → s.joinable = false)) →
    (∀ e, .poll e ∈ t → e.owner ∈ cs ∧ e.act = .quiet) → .abort ∉ t → .destroy ∉ t →
    ((run s t).phase ≠ .aborting ∧
      ((run s t).phase = .exiting → (run s t).main = .free → (run s t).joinable = false))
  | [], _, _, h, _, _, _ => ⟨h.1, h.2.2⟩
  | x :: t, s, I, h, hp, ha, hd => by
    have hx : x ≠ .destroy := fun e => hd (e ▸ List.mem_cons_self ..)
    have I' := inv_step ht I hx (fun e he => by
      have := hp e (he ▸ List.mem_cons_self ..)
      exact ⟨this.1, by rw [this.2]; decide⟩)
    refine calm_run ht t I' ?_ (fun e he => hp e (List.mem_cons_of_mem _ he))
      (fun h => ha (List.mem_cons_of_mem _ h)) (fun h => hd (List.mem_cons_of_mem _ h))
    obtain ⟨h1, h2, h3, h4, h5, h6, h7, h8, h9, h10, h11, h12⟩ := I
    obtain ⟨g1, g2, g3⟩ := h
    unfold step
    rw [if_neg (by simp [h1])]
    cases x with
    | connect => dsimp only; split <;> grind
    | poll e =>
      have := hp e (List.mem_cons_self ..)
      dsimp only
      split
      · unfold St.poll
        repeat' split
        all_goals grind
      · exact ⟨g1, g2, g3⟩
    | done =>
      dsimp only
      split
      · next e he =>
        unfold St.done
        rw [g2 e he]
        dsimp only [St.back]
        grind
      · exact ⟨g1, g2, g3⟩
    | stop => dsimp only; split <;> grind
    | exit =>
      dsimp only
      split
      · unfold St.leave
        repeat' split
        all_goals grind
      · exact ⟨g1, g2, g3⟩
    | abort => exact absurd (List.mem_cons_self ..) ha
    | destroy => exact absurd rfl hx
    | joined =>
      dsimp only
      split
      · split <;> grind
      · exact ⟨g1, g2, g3⟩
    | delete =>
      dsimp only
      split
      · unfold St.delete
        repeat' split
        all_goals grind
      · exact ⟨g1, g2, g3⟩

/-- **C114** (no exceptions). If nothing aborts the simulator before and no Zulu entry point raises
or calls `Exit`, it can be destroyed at any time, whatever the order of its components. -/
theorem C114_calm_partial (cs : List Nat) (ht : timeKeeper ∈ cs) (t t' : List Step)
    (tame : ∀ e, .poll e ∈ t ++ t' → e.owner ∈ cs ∧ e.act = .quiet)
    (ha : .abort ∉ t) (hd : .destroy ∉ t ∧ .destroy ∉ t') :
    (run (.start cs) (t ++ .destroy :: t')).fault = none := by
  have I := inv_run ht t (inv_start cs) (fun e he => by
    have := tame e (List.mem_append_left _ he)
    exact ⟨this.1, by rw [this.2]; decide⟩) hd.1
  have C := calm_run ht t (inv_start cs) (by simp [St.start])
    (fun e he => tame e (List.mem_append_left _ he)) ha hd.1
  rw [run_append]
  by_cases hm : (run (.start cs) t).main = .free
  · refine (inv_run ht t' (inv_destroy I ?_) (fun e he => by
      have := tame e (List.mem_append_right _ he)
      exact ⟨this.1, by rw [this.2]; decide⟩) hd.2).ok
    cases hph : (run (.start cs) t).phase with
    | active => exact .inl rfl
    | before => exact .inr (.inl (I.before hph).2)
    | exiting => exact .inr (.inl (C.2 hph hm))
    | aborting => exact absurd hph C.1
  · have e : step (run (.start cs) t) .destroy = run (.start cs) t := by
      simp [step, hm]
    show (run (step (run (.start cs) t) .destroy) t').fault = none
    rw [e]
    exact (inv_run ht t' I (fun e he => by
      have := tame e (List.mem_append_right _ he)
      exact ⟨this.1, by rw [this.2]; decide⟩) hd.2).ok

/-- **C114** (the wait ends). While the owner waits for the thread, at most two steps of the thread
let it go on: the end of the entry point that is running, and that the thread sees it has to end.
This holds in every state, whatever the entry point does. -/
theorem C114_wait (s : St) (ok : s.fault = none) (hm : s.main = .joinExit ∨ s.main = .joinDestroy ∨
      s.main = .joinDelete) (ht : s.term = true) :
    let s' := run s [.done, .stop, .joined]
    s'.fault = none ∧ (s'.main = .free ∨ s'.main = .deleting) ∧ s'.joinable = false := by
  have h1 : step s .done = match s.thr with | .running e => s.done e | _ => s := by
    unfold step; rw [if_neg (by simp [ok])]; rfl
  have key : ∃ u, step s .done = u ∧ u.fault = none ∧ u.main = s.main ∧ u.term = true ∧
      (∀ e, u.thr ≠ .running e) := by
    refine ⟨_, rfl, ?_⟩
    rw [h1]
    cases hthr : s.thr with
    | running e =>
      dsimp only
      unfold St.done
      cases e.act <;> dsimp only [St.back]
      · simp [ok, ht]
      · simp [ok, ht]
      · split
        · simp [ok, ht]
        · simp [ok, ht]
    | none => simp [ok, ht, hthr]
    | idle => simp [ok, ht, hthr]
    | ended => simp [ok, ht, hthr]
  obtain ⟨u, hu, u1, u2, u3, u4⟩ := key
  have key2 : ∃ v, step u .stop = v ∧ v.fault = none ∧ v.main = s.main ∧ v.joinedNow = true := by
    refine ⟨_, rfl, ?_⟩
    unfold step
    rw [if_neg (by simp [u1])]
    dsimp only
    split
    · simp [u1, u2, St.joinedNow]
    · next h =>
      refine ⟨u1, u2, ?_⟩
      cases hthr : u.thr with
      | running e => exact absurd hthr (u4 e)
      | idle => exact absurd ⟨hthr, u3⟩ h
      | none => simp [St.joinedNow, hthr]
      | ended => simp [St.joinedNow, hthr]
  obtain ⟨v, hv, v1, v2, v3⟩ := key2
  simp only [run, hu, hv]
  unfold step
  rw [if_neg (by simp [v1])]
  dsimp only
  rw [if_pos v3]
  rcases hm with hm | hm | hm <;> rw [hm] at v2 <;> simp [v2, v1]

/-- The owner deletes `n` components, the thread going on as far as it is waited for
(Container.h:227-233, XsmpScheduler.cpp:98-112). -/
def rounds : Nat → List Step
  | 0 => []
  | n + 1 => .delete :: .stop :: .joined :: rounds n

theorem round_step {cs : List Nat} {s : St} (I : Inv cs s) (hm : s.main = .deleting) {c : Nat}
    {cs' : List Nat} (hc : s.comps = c :: cs') :
    (run s [.delete, .stop, .joined]).main = .deleting ∧
    (run s [.delete, .stop, .joined]).comps = cs' := by
  obtain ⟨h1, h2, h3, h4, h5, h6, h7, h8, h9, h10, h11, h12⟩ := I
  have hnr : ∀ e, s.thr ≠ .running e := by
    intro e he
    rcases (h9 (.inl hm)).2 with h | ⟨ha, _⟩
    · rcases h3 h with e' | e' <;> rw [he] at e' <;> cases e'
    · exact ha e he
  have hd : step s .delete = s.delete := by
    unfold step; rw [if_neg (by simp [h1])]; simp [hm]
  have hrun : ∀ u : St, run u [.stop, .joined] = step (step u .stop) .joined := fun _ => rfl
  have go : ∀ u : St, u.fault = none → u.main = .deleting →
      (step (step u .stop) .joined).main = .deleting ∧
      (step (step u .stop) .joined).comps = u.comps := by
    intro u hu hum
    have e1 : (step u .stop).fault = none ∧ (step u .stop).main = .deleting ∧
        (step u .stop).comps = u.comps := by
      unfold step; rw [if_neg (by simp [hu])]
      dsimp only
      split <;> simp [hu, hum]
    generalize step u .stop = v at e1
    unfold step; rw [if_neg (by simp [e1.1])]
    dsimp only
    rw [e1.2.1]
    dsimp only
    split <;> exact ⟨e1.2.1, e1.2.2⟩
  show (run (step s .delete) [.stop, .joined]).main = _ ∧
    (run (step s .delete) [.stop, .joined]).comps = _
  rw [hd, hrun]
  unfold St.delete
  rw [hc]
  dsimp only
  split
  · split
    · next ht =>
      rw [if_neg (by simp [h11 hm ht])]
      exact go _ h1 hm
    · split
      · have hthr : s.thr = .none ∨ s.thr = .idle ∨ s.thr = .ended := by
          cases h : s.thr with
          | none => simp
          | idle => simp
          | ended => simp
          | running e => exact absurd h (hnr e)
        rcases hthr with h | h | h <;>
          simp [step, h1, h, St.joinedNow, hc]
      · exact go _ h1 hm
  · split
    · next e he => exact absurd he (hnr e)
    · exact go _ h1 hm

theorem rounds_inv {cs : List Nat} (ht : timeKeeper ∈ cs) : (n : Nat) → {s : St} → Inv cs s →
    s.main = .deleting → s.comps.length = n →
    (run s (rounds n)).comps = [] ∧ (run s (rounds n)).fault = none
  | 0, s, I, _, hl => ⟨List.length_eq_zero_iff.mp hl, I.ok⟩
  | n + 1, s, I, hm, hl => by
    cases hc : s.comps with
    | nil => rw [hc] at hl; cases hl
    | cons c cs' =>
      have r := round_step I hm hc
      have I' := inv_run ht [.delete, .stop, .joined] I
        (by intro e he; simp at he) (by simp)
      have e : run s (rounds (n + 1)) = run (run s [.delete, .stop, .joined]) (rounds n) := rfl
      rw [e]
      refine rounds_inv ht n I' r.1 ?_
      rw [r.2]
      rw [hc] at hl
      exact Nat.succ.inj hl

/-- **C114** (the destruction ends). Under the conditions of `C114_destroy_partial`, from every
state in which components are being deleted, each of those left is deleted by one step of the owner
(the scheduler after its thread has been waited for), and nothing is left. -/
theorem C114_end_partial (cs : List Nat) (ht : timeKeeper ∈ cs) (t t' : List Step)
    (tame : Tame cs (t ++ .destroy :: t')) (hd : .destroy ∉ t ∧ .destroy ∉ t')
    (hs : (run (.start cs) t).phase = .active ∨
      ((∀ e, (run (.start cs) t).thr ≠ .running e) ∧
        ∃ ms ss, cs = ms ++ scheduler :: ss ∧ timeKeeper ∉ ms)) :
    let s := run (.start cs) (t ++ .destroy :: t')
    s.main = .deleting → (run s (rounds s.comps.length)).comps = [] ∧
      (run s (rounds s.comps.length)).fault = none := by
  intro s hm
  have I := inv_run ht t (inv_start cs)
    (fun e he => tame e (List.mem_append_left _ he)) hd.1
  have I' : Inv cs s := by
    show Inv cs (run (.start cs) (t ++ .destroy :: t'))
    rw [run_append]
    refine inv_run ht t' (inv_destroy I ?_) (fun e he => tame e
      (List.mem_append_right _ (List.mem_cons_of_mem _ he))) hd.2
    rcases hs with h | ⟨h, h'⟩
    · exact .inl h
    · exact .inr (.inr ⟨h, ht, h'⟩)
  exact rounds_inv ht _ I' hm rfl

/-- **C114** (until then). As long as nothing is left, aborted or destroyed, every event is taken
up after any number of others that did not raise: the thread does not end by itself. -/
theorem C114_works (cs : List Nat) (ht : timeKeeper ∈ cs) (evs : List Ev)
    (h : ∀ e ∈ evs, e.owner ∈ cs ∧ e.act = .quiet) (e : Ev) (he : e.owner ∈ cs) :
    (run (.start cs) (.connect :: evs.flatMap (fun e => [.poll e, .done]) ++ [.poll e])).thr =
      .running e := by
  have key : ∀ evs : List Ev, (∀ e ∈ evs, e.owner ∈ cs ∧ e.act = .quiet) →
      run { St.start cs with phase := .active, thr := .idle, joinable := true }
        (evs.flatMap (fun e => [Step.poll e, .done])) =
      { St.start cs with phase := .active, thr := .idle, joinable := true } := by
    intro evs
    induction evs with
    | nil => intro _; rfl
    | cons d evs ih =>
      intro h
      have hd := h d (List.mem_cons_self ..)
      simp only [List.flatMap_cons, List.cons_append, List.nil_append, run]
      have e1 : step (step { St.start cs with phase := .active, thr := .idle, joinable := true }
          (.poll d)) .done =
          { St.start cs with phase := .active, thr := .idle, joinable := true } := by
        simp [step, St.start, St.poll, ht, hd.1, St.done, hd.2, St.back]
      rw [e1]
      exact ih (fun e he => h e (List.mem_cons_of_mem _ he))
  have e0 : step (.start cs) .connect =
      { St.start cs with phase := .active, thr := .idle, joinable := true } := by
    simp [step, St.start]
  rw [run_append]
  show (step (run (step (.start cs) .connect) _) (.poll e)).thr = _
  rw [e0, key evs h]
  simp [step, St.start, St.poll, ht, he]

/-! ### Where it fails -/

/-- **C114 fails** when a Zulu entry point calls `Exit`: the thread cannot join itself, the
simulation is aborted instead of left, and when the simulator is destroyed the program ends,
because the `std::thread` was never joined. Here `7` is a model. -/
theorem C114_exit_fails :
    let s := run (.start [7, 0, 1]) [.connect, .poll ⟨7, .exits⟩, .done]
    s.phase = .aborting ∧ s.thr = .ended ∧ s.joinable = true ∧
    (run s [.destroy, .delete, .delete]).fault = some .terminate := by
  decide

/-- **C114 fails** after `Abort`: the simulator does not wait for the Zulu entry point that is
running; the component is deleted while it runs. -/
theorem C114_abort_fails :
    (run (.start [7, 0, 1]) [.connect, .poll ⟨7, .quiet⟩, .abort, .destroy, .delete]).fault =
      some (.deletedInUse 7) := by
  decide

/-- **C114 fails** after `Abort` when the time keeper was added after the scheduler, so that it is
deleted first: the thread goes on reading the time. -/
theorem C114_order_fails :
    (run (.start [7, 1, 0]) [.connect, .abort, .destroy, .delete, .delete,
      .poll ⟨7, .quiet⟩]).fault = some .noTimeKeeper := by
  decide

/-! ### The hypotheses are met -/

/-- An aborted simulator, destroyed when no entry point is running. -/
example : Tame [7, 8, 0, 1] ([.connect, .poll ⟨7, .raises⟩, .done] ++ .destroy ::
      [.delete, .poll ⟨8, .quiet⟩, .delete, .delete, .stop, .joined, .delete]) ∧
    (run (.start [7, 8, 0, 1]) [.connect, .poll ⟨7, .raises⟩, .done]).thr = .idle ∧
    (run (.start [7, 8, 0, 1]) [.connect, .poll ⟨7, .raises⟩, .done]).phase = .aborting ∧
    (run (.start [7, 8, 0, 1]) ([.connect, .poll ⟨7, .raises⟩, .done] ++ .destroy ::
      [.delete, .poll ⟨8, .quiet⟩, .delete, .delete, .stop, .joined, .delete])).comps = [] := by
  refine ⟨?_, by decide, by decide, by decide⟩
  intro e he
  simp at he
  rcases he with rfl | rfl <;> simp

/-- Destroyed in Standby while an entry point is running: the owner waits for it. -/
example : (run (.start [7, 0, 1]) [.connect, .poll ⟨7, .quiet⟩, .destroy]).main = .joinDestroy ∧
    (run (.start [7, 0, 1]) [.connect, .poll ⟨7, .quiet⟩, .destroy, .delete, .joined, .done,
      .joined, .delete, .delete, .delete]) =
      { phase := .exiting, thr := .ended, term := true, joinable := false, main := .deleting,
        comps := [], fault := none } := by decide

end Verif.Sim.Ending
