import Verif.Python.OwnLemmas

/-!
C136: the references that a Python program has to the objects of a simulation destroy none of them:
dropping any of them leaves the simulation as it is, except that dropping the last reference to the
simulator destroys it and all that is in it, each object once.

It holds of a program that gets its objects by the functions that name a policy, and that does not
use an object that it has deleted; it does not hold of five functions.
-/
namespace Verif.Python.Own

/-! ## Specification -/

/-- A component that no container holds. -/
def Loose (s : St) (c : Nat) : Prop := ∀ a, (a, c) ∉ s.within

/-- There is an object of that type at that address. -/
def Exists (s : St) (x t : Nat) : Prop := ∃ o ∈ s.objs, o.addr = x ∧ o.type = t

/-- What a careful program may do next: it gets objects that exist, by a function that keeps the
ownership in C++ (or by any, if it has the object already); it uses no object that was destroyed; it
adds only components that are in no container, and deletes only components. -/
def Careful (sim : Nat) (s : St) : Op → Prop
  | .get f x => s.live x = true ∧ (f.policy = .reference ∨
      ∃ o ∈ s.objs, ∃ w ∈ s.wraps, o.addr = x ∧ w.addr = x ∧ w.type = o.type)
  | .again _ _ => True
  | .drop _ _ => True
  | .use x t => Exists s x t
  | .create _ _ _ => s.live sim = true
  | .inside k _ _ _ => s.live sim = true ∧ s.live k = true
  | .add k c => s.live k = true ∧ s.live c = true ∧ Loose s c ∧ k ≠ c ∧ (c, k) ∉ s.within ∧ c ≠ sim
  | .remove c => ∀ o ∈ s.objs, o.addr = c → o.heap = true
  | .deleteInstance c => (∃ o ∈ s.objs, o.addr = c ∧ o.heap = true) ∧ Loose s c ∧ c ≠ sim

/-- The states of careful programs that made a simulator of type `ts` at `sim`. -/
inductive Reach (sim ts : Nat) : St → Prop
  | start {parts s} : start sim ts parts = some s → Reach sim ts s
  | step {s op s'} : Reach sim ts s → Careful sim s op → s.step op = some s' → Reach sim ts s'

/-- The last reference to the wrapper of the object of type `t` at `x`. -/
def Last (s : St) (x t : Nat) : Prop := ∃ w, s.wrap? x t = some w ∧ w.refs ≤ 1

/-! ## Proofs -/

theorem wrap_count {s : St} {x t : Nat} {w : Wrap} (hw : s.wrap? x t = some w) (g : Nat → Nat) :
    (s.count x t g).wrap? x t = some { w with refs := g w.refs } := by
  unfold St.wrap? at hw
  unfold St.wrap? St.count
  dsimp only
  generalize s.wraps = l at hw ⊢
  induction l with
  | nil => cases hw
  | cons v l ih =>
    simp only [List.map_cons, List.find?_cons] at hw ⊢
    by_cases hk : (v.addr == x && v.type == t) = true
    · rw [hk] at hw
      cases hw
      simp only [hk, if_true]
    · rw [if_neg hk]
      simp only [Bool.not_eq_true] at hk
      rw [hk] at hw ⊢
      exact ih hw

theorem step_ok {sim ts : Nat} {s : St} (h : Inv sim ts s) {op : Op} (hc : Careful sim s op) :
    ∃ s', s.step op = some s' ∧ Inv sim ts s' := by
  cases op with
  | get f x =>
    obtain ⟨s', h1, h2, _⟩ := get_ok h hc.1 hc.2
    exact ⟨s', h1, h2⟩
  | again x t => exact ⟨_, rfl, inv_count h _ _ _⟩
  | drop x t =>
    obtain ⟨s', h1, h2, _⟩ := drop_ok h x t
    exact ⟨s', h1, h2⟩
  | use x t =>
    obtain ⟨o, ho, rfl, rfl⟩ := hc
    refine ⟨s, ?_, h⟩
    show s.use o.addr o.type = some s
    unfold St.use
    rw [at_of_mem h.addrs ho]
    cases s.wrap? o.addr o.type <;> simp
  | create x t parts =>
    show ∃ s', (if (s.make x t parts).objs = s.objs then some s
      else (s.make x t parts).get Fn.simulatorCreateInstance.policy x) = some s' ∧ _
    rcases make_cases s x t parts with ⟨_, h1⟩ | ⟨hf, _⟩
    · rw [h1, if_pos rfl]; exact ⟨s, rfl, h⟩
    · by_cases he : (s.make x t parts).objs = s.objs
      · rw [if_pos he]; exact ⟨s, rfl, h⟩
      · rw [if_neg he]
        obtain ⟨s', g1, g2, _⟩ := get_ok (p := Fn.simulatorCreateInstance.policy)
          (make_inv h hc (t := t) hf)
          ((make_live hf).2 (.inr List.mem_cons_self)) (.inl rfl)
        exact ⟨s', g1, g2⟩
  | inside k x t parts =>
    show ∃ s', (if (s.make x t parts).objs = s.objs then some s
      else (s.make x t parts).add k x) = some s' ∧ _
    rcases make_cases s x t parts with ⟨_, h1⟩ | ⟨hf, _⟩
    · rw [h1, if_pos rfl]; exact ⟨s, rfl, h⟩
    · by_cases he : (s.make x t parts).objs = s.objs
      · rw [if_pos he]; exact ⟨s, rfl, h⟩
      · rw [if_neg he]
        have hx : s.live x = false := hf.1 x List.mem_cons_self
        have hkx : k ≠ x := by rintro rfl; rw [hc.2] at hx; cases hx
        have hin : ∀ {a b}, (a, b) ∈ (s.make x t parts).within → b ≠ x ∧
            ((a = x ∧ b ∈ parts.map (·.1)) ∨ (a, b) ∈ s.within) := by
          intro a b hab
          rcases (make_within hf).1 hab with g | g
          · refine ⟨?_, .inr g⟩
            rintro rfl
            rw [(h.ends _ _ g).2] at hx
            cases hx
          · refine ⟨?_, .inl g⟩
            rintro rfl
            exact (List.nodup_cons.1 hf.2).1 g.2
        obtain ⟨s', g1, g2, _⟩ := add_ok (make_inv h hc.1 (t := t) hf) (k := k) (c := x)
          ((make_live hf).2 (.inl hc.2)) ((make_live hf).2 (.inr List.mem_cons_self))
          (fun a ha => (hin ha).1 rfl) hkx
          (by
            intro hxk
            rcases (hin hxk).2 with g | g
            · have := hf.1 k (List.mem_cons_of_mem _ g.2)
              rw [hc.2] at this
              cases this
            · rw [(h.ends _ _ g).1] at hx
              cases hx)
          (by rintro rfl; rw [hc.1] at hx; cases hx)
        exact ⟨s', g1, g2⟩
  | add k c =>
    obtain ⟨h1, h2, h3, h4, h5, h6⟩ := hc
    obtain ⟨s', g1, g2, _⟩ := add_ok h h1 h2 h3 h4 h5 h6
    exact ⟨s', g1, g2⟩
  | remove c =>
    obtain ⟨s', g1, g2, _⟩ := remove_ok h hc
    exact ⟨s', g1, g2⟩
  | deleteInstance c =>
    obtain ⟨⟨o, ho, rfl, hh⟩, h2, h3⟩ := hc
    exact deleteInstance_ok h ho hh h2 h3

theorem reach_inv {sim ts : Nat} {s : St} (h : Reach sim ts s) : Inv sim ts s := by
  induction h with
  | start h => exact (start_inv h).1
  | step _ hc hs ih =>
    obtain ⟨s', h1, h2⟩ := step_ok ih hc
    rw [hs] at h1
    cases h1
    exact h2

/-! ## The properties -/

/-- Nothing that a careful program does is undefined: no object is destroyed twice, or used or
destroyed when it does not exist, however the references are dropped.

Missing: the five functions of `C136_which` that take the ownership. -/
theorem C136_safe_partial {sim ts : Nat} {s : St} (h : Reach sim ts s) {op : Op}
    (hc : Careful sim s op) : s.step op ≠ none := by
  obtain ⟨s', h1, _⟩ := step_ok (reach_inv h) hc
  rw [h1]
  exact fun hh => by cases hh

/-- Dropping a reference destroys nothing, unless it is the last one to the simulator. -/
theorem C136_drop_partial {sim ts : Nat} {s : St} (h : Reach sim ts s) {x t : Nat}
    (hl : ¬ (x = sim ∧ t = ts ∧ Last s sim ts)) {s' : St} (hd : s.step (.drop x t) = some s') :
    s'.objs = s.objs ∧ s'.within = s.within := by
  have hd' : s.drop x t = some s' := hd
  unfold St.drop at hd'
  cases hw : s.wrap? x t with
  | none =>
    rw [hw] at hd'
    cases hd'
    exact ⟨rfl, rfl⟩
  | some w =>
    rw [hw] at hd'
    dsimp only at hd'
    by_cases hr : w.refs ≤ 1
    · rw [if_pos hr] at hd'
      cases ho : w.owned with
      | false =>
        rw [ho] at hd'
        cases hd'
        exact ⟨rfl, rfl⟩
      | true =>
        exfalso
        obtain ⟨g1, g2, _⟩ := (reach_inv h).owned w (wrap_some hw).1 ho
        have hx : x = sim := (wrap_some hw).2.1.symm.trans g1
        have ht : t = ts := (wrap_some hw).2.2.symm.trans g2
        subst hx ht
        exact hl ⟨rfl, rfl, w, hw, hr⟩
    · rw [if_neg hr] at hd'
      cases hd'
      exact ⟨rfl, rfl⟩

/-- The other references are what they were: a wrapper goes away only with its last reference. -/
theorem C136_others {s : St} {x t : Nat} {s' : St} (hd : s.step (.drop x t) = some s') {y u : Nat}
    (hne : ¬ (y = x ∧ u = t)) (w : Wrap) (hy : w.addr = y) (hu : w.type = u) :
    w ∈ s'.wraps ↔ w ∈ s.wraps := by
  have hd' : s.drop x t = some s' := hd
  have hfil : w ∈ s.wraps.filter (fun v => !(v.addr == x && v.type == t)) ↔ w ∈ s.wraps := by
    rw [List.mem_filter]
    refine ⟨fun hh => hh.1, fun hh => ⟨hh, ?_⟩⟩
    simp only [Bool.not_eq_true', Bool.and_eq_false_iff, beq_eq_false_iff_ne]
    by_cases hx : w.addr = x
    · exact .inr (fun ht => hne ⟨hy.symm.trans hx, hu.symm.trans ht⟩)
    · exact .inl hx
  unfold St.drop at hd'
  cases hw : s.wrap? x t with
  | none =>
    rw [hw] at hd'
    cases hd'
    exact Iff.rfl
  | some v =>
    rw [hw] at hd'
    dsimp only at hd'
    by_cases hr : v.refs ≤ 1
    · rw [if_pos hr] at hd'
      cases ho : v.owned with
      | false =>
        rw [ho] at hd'
        cases hd'
        exact hfil
      | true =>
        rw [ho, if_pos rfl, delete_wraps] at hd'
        cases hdel : s.delete x with
        | none => rw [hdel] at hd'; cases hd'
        | some r =>
          rw [hdel] at hd'
          cases hd'
          exact hfil
    · rw [if_neg hr] at hd'
      cases hd'
      unfold St.count
      simp only [List.mem_map]
      constructor
      · rintro ⟨v', hv', he⟩
        by_cases hk : (v'.addr == x && v'.type == t) = true
        · rw [if_pos hk] at he
          subst he
          simp only [Bool.and_eq_true, beq_iff_eq] at hk
          exact absurd ⟨hy.symm.trans hk.1, hu.symm.trans hk.2⟩ hne
        · rw [if_neg hk] at he
          subst he
          exact hv'
      · intro hw'
        refine ⟨w, hw', if_neg ?_⟩
        simp only [Bool.and_eq_true, beq_iff_eq, not_and]
        intro hx ht
        exact hne ⟨hy.symm.trans hx, hu.symm.trans ht⟩

/-- Dropping the last reference to the simulator destroys it and what is in it, and nothing else;
the wrappers of other objects stay, and hold nothing. -/
theorem C136_end_partial {sim ts : Nat} {s : St} (h : Reach sim ts s) (hl : s.live sim = true)
    (hlast : Last s sim ts) :
    ∃ s', s.step (.drop sim ts) = some s' ∧
      (∀ o, o ∈ s'.objs ↔ o ∈ s.objs ∧ o.addr ≠ sim ∧ (sim, o.addr) ∉ s.within) ∧
      ∀ w ∈ s'.wraps, w.owned = false := by
  have hi := reach_inv h
  obtain ⟨w, hw, hr⟩ := hlast
  obtain ⟨s', e1, e2, e3⟩ := inv_end hi hl
  have hown : w.owned = true := by
    obtain ⟨v, hv, h1, h2, h3⟩ := hi.wrap hl
    rw [wrap_unique hi.keys (wrap_some hw).1 hv ((wrap_some hw).2.1.trans h1.symm)
      ((wrap_some hw).2.2.trans h2.symm)]
    exact h3
  refine ⟨s', ?_, ?_, ?_⟩
  · show s.drop sim ts = some s'
    unfold St.drop
    rw [hw]
    dsimp only
    rw [if_pos hr, hown, if_pos rfl]
    exact e1
  · intro o
    rw [e3, List.mem_filter]
    simp only [Bool.not_eq_true', List.contains_eq_mem, decide_eq_false_iff_not, mem_dead, not_or,
      ne_eq]
  · intro v hv
    cases ho : v.owned with
    | false => rfl
    | true =>
      exfalso
      obtain ⟨_, _, h3⟩ := e2.owned v hv ho
      obtain ⟨o, ho1, ho2⟩ := live_iff.1 h3
      rw [e3, List.mem_filter] at ho1
      have : sim ∈ s.dead sim := mem_dead.2 (.inl rfl)
      rw [ho2] at ho1
      simp [this] at ho1

/-- An object goes away only because the last reference to the simulator is dropped, or because the
program deletes it or an object that it is in. -/
theorem C136_only_partial {sim ts : Nat} {s : St} (h : Reach sim ts s) {op : Op}
    (hc : Careful sim s op) {s' : St} (hs : s.step op = some s') {o : Obj} (ho : o ∈ s.objs)
    (hn : o ∉ s'.objs) :
    (op = .drop sim ts ∧ Last s sim ts ∧ (o.addr = sim ∨ (sim, o.addr) ∈ s.within)) ∨
    ∃ c, (op = .remove c ∨ op = .deleteInstance c) ∧ (o.addr = c ∨ (c, o.addr) ∈ s.within) := by
  have hi := reach_inv h
  have gone : ∀ {d : List Nat}, o ∉ s.objs.filter (fun o => !d.contains o.addr) → o.addr ∈ d := by
    intro d hd
    rw [List.mem_filter] at hd
    simp only [Bool.not_eq_true', List.contains_eq_mem, decide_eq_false_iff_not, not_and,
      Decidable.not_not] at hd
    exact hd ho
  have kept : ∀ x t parts, o ∈ (s.make x t parts).objs := by
    intro x t parts
    rcases make_cases s x t parts with ⟨_, h1⟩ | ⟨_, h1⟩
    · rw [h1]; exact ho
    · rw [h1]; exact List.mem_append_left _ ho
  have getObjs : ∀ {r r' : St} {p : Policy} {x : Nat}, r.get p x = some r' → r'.objs = r.objs := by
    intro r r' p x hg
    unfold St.get at hg
    split at hg
    · cases hg
    · split at hg <;> cases hg <;> rfl
  have addObjs : ∀ {r r' : St} {k c : Nat}, r.add k c = some r' → r'.objs = r.objs := by
    intro r r' k c hg
    unfold St.add at hg
    split at hg
    · cases hg; rfl
    · cases hg
  cases op with
  | get f x => exact absurd (getObjs hs ▸ ho) hn
  | again x t => cases hs; exact absurd ho hn
  | drop x t =>
    obtain ⟨r, h1, _, h3⟩ := drop_ok hi x t
    have hs' : s.drop x t = some s' := hs
    rw [hs'] at h1
    cases h1
    rcases h3 with h3 | ⟨rfl, rfl, h4, h5⟩
    · exact absurd (h3 ▸ ho) hn
    · exact .inl ⟨rfl, h4, mem_dead.1 (gone (h5 ▸ hn))⟩
  | use x t =>
    have hs' : s.use x t = some s' := hs
    unfold St.use at hs'
    split at hs'
    · cases hs'; exact absurd ho hn
    · split at hs'
      · split at hs'
        · cases hs'; exact absurd ho hn
        · cases hs'
      · cases hs'
  | create x t parts =>
    have hs' : (if (s.make x t parts).objs = s.objs then some s
      else (s.make x t parts).get Fn.simulatorCreateInstance.policy x) = some s' := hs
    split at hs'
    · cases hs'; exact absurd ho hn
    · exact absurd (getObjs hs' ▸ kept x t parts) hn
  | inside k x t parts =>
    have hs' : (if (s.make x t parts).objs = s.objs then some s
      else (s.make x t parts).add k x) = some s' := hs
    split at hs'
    · cases hs'; exact absurd ho hn
    · exact absurd (addObjs hs' ▸ kept x t parts) hn
  | add k c => exact absurd (addObjs hs ▸ ho) hn
  | remove c =>
    obtain ⟨r, h1, _, _, h3⟩ := remove_ok hi hc
    have hs' : s.remove c = some s' := hs
    rw [hs'] at h1
    cases h1
    split at h3
    · exact .inr ⟨c, .inl rfl, mem_dead.1 (gone (h3 ▸ hn))⟩
    · exact absurd (h3 ▸ ho) hn
  | deleteInstance c =>
    obtain ⟨⟨p, hp, rfl, hh⟩, _, _⟩ := hc
    have hs' : s.delete p.addr = some s' := hs
    rw [delete_eq hi hp hh] at hs'
    cases hs'
    exact .inr ⟨_, .inr rfl, mem_dead.1 (gone hn)⟩

/-- The programs that delete nothing: they get objects that exist by functions that keep the
ownership in C++, and keep the simulator. They use the wrappers that they have as they like. -/
def Plain (sim ts : Nat) (s : St) : Op → Prop
  | .use _ _ => True
  | .remove _ => False
  | .deleteInstance _ => False
  | .drop x t => ¬ (x = sim ∧ t = ts ∧ Last s sim ts)
  | op => Careful sim s op

/-- The states of programs that delete nothing. -/
inductive Kept (sim ts : Nat) : St → Prop
  | start {parts s} : start sim ts parts = some s → Kept sim ts s
  | step {s op s'} : Kept sim ts s → Plain sim ts s op → s.step op = some s' → Kept sim ts s'

theorem use_eq {s s' : St} {x t : Nat} (h : s.use x t = some s') : s' = s := by
  unfold St.use at h
  split at h
  · cases h; rfl
  · split at h
    · split at h
      · cases h; rfl
      · cases h
    · cases h

theorem kept_inv {sim ts : Nat} {s : St} (h : Kept sim ts s) :
    Reach sim ts s ∧ s.live sim = true ∧ ∀ w ∈ s.wraps, Exists s w.addr w.type := by
  have getW : ∀ {r r' : St} {p : Policy} {x : Nat}, r.get p x = some r' →
      (∀ w ∈ r.wraps, Exists r w.addr w.type) →
      (∀ w ∈ r'.wraps, Exists r' w.addr w.type) ∧ r'.objs = r.objs := by
    intro r r' p x hg hr
    unfold St.get at hg
    split at hg
    · cases hg
    · rename_i o ho
      split at hg
      · cases hg
        refine ⟨?_, rfl⟩
        intro w hw
        obtain ⟨v, hv, h1, h2, _⟩ := count_mem hw
        obtain ⟨q, hq, g1, g2⟩ := hr v hv
        exact ⟨q, hq, g1.trans h1, g2.trans h2⟩
      · cases hg
        refine ⟨?_, rfl⟩
        intro w hw
        rcases List.mem_append.1 hw with hw1 | hw1
        · exact hr w hw1
        · simp only [List.mem_singleton] at hw1
          subst hw1
          exact ⟨o, (at_some ho).1, (at_some ho).2, rfl⟩
  have mono : ∀ {r r' : St}, (∀ q ∈ r.objs, q ∈ r'.objs) → r.live sim = true →
      r'.live sim = true := by
    intro r r' hm hl
    obtain ⟨q, hq, he⟩ := live_iff.1 hl
    exact live_iff.2 ⟨q, hm q hq, he⟩
  have makeW : ∀ {r : St} {x t : Nat} {parts : List (Nat × Nat)},
      (∀ q ∈ r.objs, q ∈ (r.make x t parts).objs) ∧ (r.make x t parts).wraps = r.wraps := by
    intro r x t parts
    rcases make_cases r x t parts with ⟨_, h1⟩ | ⟨_, h1⟩
    · rw [h1]; exact ⟨fun _ h => h, rfl⟩
    · rw [h1]; exact ⟨fun _ h => List.mem_append_left _ h, rfl⟩
  have addW : ∀ {r r' : St} {k c : Nat}, r.add k c = some r' →
      r'.objs = r.objs ∧ r'.wraps = r.wraps := by
    intro r r' k c hg
    unfold St.add at hg
    split at hg
    · cases hg; exact ⟨rfl, rfl⟩
    · cases hg
  induction h with
  | @start parts s h =>
    refine ⟨.start h, (start_inv h).2.1, ?_⟩
    refine (getW h ?_).1
    intro w hw
    rw [makeW.2] at hw
    cases hw
  | @step s op s' _ hp hs ih =>
    obtain ⟨ih1, ih2, ih3⟩ := ih
    cases op with
    | get f x =>
      obtain ⟨g1, g2⟩ := getW hs ih3
      exact ⟨.step (op := Op.get f x) ih1 hp hs, mono (fun q hq => g2 ▸ hq) ih2, g1⟩
    | again x t =>
      refine ⟨.step (op := Op.again x t) ih1 hp hs, ?_, ?_⟩
      · cases hs; exact ih2
      · cases hs
        intro w hw
        obtain ⟨v, hv, h1, h2, _⟩ := count_mem hw
        obtain ⟨q, hq, g1, g2⟩ := ih3 v hv
        exact ⟨q, hq, g1.trans h1, g2.trans h2⟩
    | drop x t =>
      have hr : Reach sim ts s' := .step ih1 (show Careful sim s (.drop x t) from trivial) hs
      obtain ⟨g1, _⟩ := C136_drop_partial ih1 hp hs
      refine ⟨hr, mono (fun q hq => g1 ▸ hq) ih2, ?_⟩
      have hs' : s.drop x t = some s' := hs
      have sub : ∀ w ∈ s'.wraps, ∃ v ∈ s.wraps, v.addr = w.addr ∧ v.type = w.type := by
        intro w hw
        by_cases hk : w.addr = x ∧ w.type = t
        · unfold St.drop at hs'
          cases hv : s.wrap? x t with
          | none => rw [hv] at hs'; cases hs'; exact ⟨w, hw, rfl, rfl⟩
          | some v =>
            exact ⟨v, (wrap_some hv).1, (wrap_some hv).2.1.trans hk.1.symm,
              (wrap_some hv).2.2.trans hk.2.symm⟩
        · exact ⟨w, (C136_others hs hk w rfl rfl).1 hw, rfl, rfl⟩
      intro w hw
      obtain ⟨v, hv, h1, h2⟩ := sub w hw
      obtain ⟨q, hq, k1, k2⟩ := ih3 v hv
      exact ⟨q, g1.symm ▸ hq, k1.trans h1, k2.trans h2⟩
    | use x t =>
      have := use_eq hs
      subst this
      exact ⟨ih1, ih2, ih3⟩
    | create x t parts =>
      refine ⟨.step (op := Op.create x t parts) ih1 hp hs, ?_⟩
      have hs' : (if (s.make x t parts).objs = s.objs then some s
        else (s.make x t parts).get Fn.simulatorCreateInstance.policy x) = some s' := hs
      split at hs'
      · cases hs'; exact ⟨ih2, ih3⟩
      · obtain ⟨g1, g2⟩ := getW hs' (by
          intro w hw
          rw [makeW.2] at hw
          obtain ⟨q, hq, k⟩ := ih3 w hw
          exact ⟨q, makeW.1 q hq, k⟩)
        exact ⟨mono (fun q hq => g2 ▸ makeW.1 q hq) ih2, g1⟩
    | inside k x t parts =>
      refine ⟨.step (op := Op.inside k x t parts) ih1 hp hs, ?_⟩
      have hs' : (if (s.make x t parts).objs = s.objs then some s
        else (s.make x t parts).add k x) = some s' := hs
      split at hs'
      · cases hs'; exact ⟨ih2, ih3⟩
      · obtain ⟨g1, g2⟩ := addW hs'
        refine ⟨mono (fun q hq => g1 ▸ makeW.1 q hq) ih2, ?_⟩
        intro w hw
        rw [g2, makeW.2] at hw
        obtain ⟨q, hq, k⟩ := ih3 w hw
        exact ⟨q, g1.symm ▸ makeW.1 q hq, k⟩
    | add k c =>
      obtain ⟨g1, g2⟩ := addW hs
      refine ⟨.step (op := Op.add k c) ih1 hp hs, mono (fun q hq => g1 ▸ hq) ih2, ?_⟩
      intro w hw
      rw [g2] at hw
      obtain ⟨q, hq, k⟩ := ih3 w hw
      exact ⟨q, g1.symm ▸ hq, k⟩
    | remove c => exact absurd hp id
    | deleteInstance c => exact absurd hp id

/-- While a program keeps the simulator and deletes nothing, every wrapper that it has is that of an
object that exists and has the type of the wrapper, and whatever it does is defined. -/
theorem C136_live_partial {sim ts : Nat} {s : St} (h : Kept sim ts s) :
    (∀ w ∈ s.wraps, Exists s w.addr w.type) ∧ ∀ op, Plain sim ts s op → s.step op ≠ none := by
  obtain ⟨h1, h2, h3⟩ := kept_inv h
  refine ⟨h3, ?_⟩
  intro op hp
  cases op with
  | use x t =>
    show s.use x t ≠ none
    unfold St.use
    cases hw : s.wrap? x t with
    | none => exact fun hh => by cases hh
    | some w =>
      obtain ⟨o, ho, g1, g2⟩ := h3 w (wrap_some hw).1
      rw [(wrap_some hw).2.1] at g1
      rw [(wrap_some hw).2.2] at g2
      subst g1 g2
      rw [at_of_mem (reach_inv h1).addrs ho]
      simp
  | remove c => exact absurd hp id
  | deleteInstance c => exact absurd hp id
  | drop x t => exact C136_safe_partial h1 (show Careful sim s (.drop x t) from trivial)
  | get f x => exact C136_safe_partial h1 hp
  | again x t => exact C136_safe_partial h1 hp
  | create x t parts => exact C136_safe_partial h1 hp
  | inside k x t parts => exact C136_safe_partial h1 hp
  | add k c => exact C136_safe_partial h1 hp

/-- There is one wrapper of an object and its type at a time (`a.b is a.b`). -/
theorem C136_one_partial {sim ts : Nat} {s : St} (h : Reach sim ts s) {v w : Wrap}
    (hv : v ∈ s.wraps) (hw : w ∈ s.wraps) (ha : v.addr = w.addr) (ht : v.type = w.type) : v = w :=
  wrap_unique (reach_inv h).keys hv hw ha ht

/-- The wrapper of an object that is got again is the one that there is, with one more reference,
whatever the function: it does not become an owner. -/
theorem C136_again {s : St} {f : Fn} {o : Obj} (ho : s.at? o.addr = some o) {w : Wrap}
    (hw : s.wrap? o.addr o.type = some w) :
    ∃ s', s.step (.get f o.addr) = some s' ∧
      s'.wrap? o.addr o.type = some { w with refs := w.refs + 1 } ∧
      s'.wraps.length = s.wraps.length := by
  refine ⟨s.count o.addr o.type (· + 1), ?_, ?_, ?_⟩
  · show s.get f.policy o.addr = _
    unfold St.get
    rw [ho]
    dsimp only
    rw [hw]
  · exact wrap_count hw (· + 1)
  · unfold St.count
    simp

/-- The functions that take the ownership of an object that they do not make: five name no policy.
`createSimulator` takes that of the simulator that it has made. -/
theorem C136_which (f : Fn) : f.policy.owns = true ↔
    f = .createSimulator ∨ f = .containerGetComponent ∨ f = .referenceGetComponent ∨
    f = .resolverResolveAbsolute ∨ f = .resolverResolveRelative ∨
    f = .linkRegistryGetLinkSources := by
  cases f <;> simp [Fn.policy, Policy.owns]

/-- The statement does not hold of those functions: a component that is in the simulator, and that
Python does not know, is got by one of them and dropped. It is destroyed, and what is in it, though
its container still holds it; dropping the simulator is then undefined (the component is destroyed
twice), and so is dropping or deleting any object that it is in. -/
theorem C136_take_fails {sim ts : Nat} {s : St} (h : Reach sim ts s) {f : Fn}
    (hf : f.policy.owns = true) {o : Obj} (ho : o ∈ s.objs) (hh : o.heap = true)
    (hin : (sim, o.addr) ∈ s.within) (hw : s.wrap? o.addr o.type = none) :
    ∃ s1 s2, s.step (.get f o.addr) = some s1 ∧ s1.step (.drop o.addr o.type) = some s2 ∧
      (∀ p, p ∈ s2.objs ↔ p ∈ s.objs ∧ p.addr ≠ o.addr ∧ (o.addr, p.addr) ∉ s.within) ∧
      (Last s sim ts → s2.step (.drop sim ts) = none) ∧
      (∀ k, (k, o.addr) ∈ s.within → (k, o.addr) ∈ s2.within ∧ s2.live k = true ∧
        s2.step (.deleteInstance k) = none) := by
  have hi := reach_inv h
  have hget : s.get f.policy o.addr =
      some { s with wraps := s.wraps ++ [⟨o.addr, o.type, true, 1⟩] } := by
    unfold St.get
    rw [at_of_mem hi.addrs ho]
    dsimp only
    rw [hw, hf]
  have hfind : ({ s with wraps := s.wraps ++ [⟨o.addr, o.type, true, 1⟩] } : St).wrap? o.addr o.type
      = some ⟨o.addr, o.type, true, 1⟩ := by
    unfold St.wrap? at hw ⊢
    dsimp only
    rw [List.find?_append, hw]
    simp
  have hfil : (s.wraps ++ [(⟨o.addr, o.type, true, 1⟩ : Wrap)]).filter
      (fun v => !(v.addr == o.addr && v.type == o.type)) = s.wraps := by
    rw [List.filter_append]
    have e1 : s.wraps.filter (fun v => !(v.addr == o.addr && v.type == o.type)) = s.wraps := by
      rw [List.filter_eq_self]
      intro v hv
      simp only [Bool.not_eq_true', Bool.and_eq_false_iff, beq_eq_false_iff_ne]
      by_cases hx : v.addr = o.addr
      · exact .inr (fun ht => wrap_none hw hv hx ht)
      · exact .inl hx
    rw [e1]
    simp
  have hdel := delete_eq hi ho hh
  refine ⟨_, s.less (s.dead o.addr), hget, ?_, ?_, ?_, ?_⟩
  · show St.drop _ _ _ = _
    unfold St.drop
    rw [hfind]
    simp only [Nat.le_refl, if_true]
    rw [hfil]
    exact hdel
  · intro p
    show p ∈ s.objs.filter _ ↔ _
    rw [List.mem_filter]
    simp only [Bool.not_eq_true', List.contains_eq_mem, decide_eq_false_iff_not, mem_dead, not_or,
      ne_eq]
  all_goals
    have key : ∀ k, (k, o.addr) ∈ s.within → (k, o.addr) ∈ (s.less (s.dead o.addr)).within ∧
        (s.less (s.dead o.addr)).live k = true ∧ ∀ ws,
        ({ s.less (s.dead o.addr) with wraps := ws } : St).delete k = none := by
      intro k hk
      have hkd : k ∉ s.dead o.addr := by
        intro hd
        rcases mem_dead.1 hd with g | g
        · exact hi.irrefl _ (g ▸ hk)
        · exact hi.irrefl _ (hi.trans _ _ _ g hk)
      have hm := less_within.2 ⟨hk, hkd⟩
      refine ⟨hm, less_live.2 ⟨(hi.ends _ _ hk).1, hkd⟩, ?_⟩
      intro ws
      rw [delete_wraps]
      have : (s.less (s.dead o.addr)).delete k = none := by
        unfold St.delete
        split
        · split
          · unfold St.destroy
            dsimp only
            refine if_neg ?_
            simp only [Bool.and_eq_true, List.all_eq_true, not_and]
            intro hall
            have := hall o.addr (mem_dead.2 (.inr hm))
            exact absurd (mem_dead.2 (.inl rfl)) (less_live.1 this).2
          · rfl
        · rfl
      rw [this]
      rfl
  · rintro ⟨w, hws, hr⟩
    show St.drop _ _ _ = none
    unfold St.drop
    have e1 : (s.less (s.dead o.addr)).wrap? sim ts = s.wrap? sim ts := rfl
    rw [e1, hws]
    dsimp only
    rw [if_pos hr]
    have hown : w.owned = true := by
      obtain ⟨v, hv, h1, h2, h3⟩ := hi.wrap (hi.ends _ _ hin).1
      rw [wrap_unique hi.keys (wrap_some hws).1 hv ((wrap_some hws).2.1.trans h1.symm)
        ((wrap_some hws).2.2.trans h2.symm)]
      exact h3
    rw [hown, if_pos rfl]
    exact (key sim hin).2.2 _
  · intro k hk
    obtain ⟨k1, k2, k3⟩ := key k hk
    exact ⟨k1, k2, k3 (s.less (s.dead o.addr)).wraps⟩

/-- Nor of an object that was not made by `new` (a field that `ResolveAbsolute` returns, the
collection that `GetLinkSources` returns): dropping it is undefined at once. -/
theorem C136_member_fails {s : St} {f : Fn} (hf : f.policy.owns = true) {o : Obj}
    (ho : s.at? o.addr = some o) (hh : o.heap = false) (hw : s.wrap? o.addr o.type = none) :
    ∃ s1, s.step (.get f o.addr) = some s1 ∧ s1.step (.drop o.addr o.type) = none := by
  refine ⟨{ s with wraps := s.wraps ++ [⟨o.addr, o.type, true, 1⟩] }, ?_, ?_⟩
  · show s.get f.policy o.addr = _
    unfold St.get
    rw [ho]
    dsimp only
    rw [hw, hf]
  · show St.drop _ _ _ = none
    unfold St.drop
    have hfind : ({ s with wraps := s.wraps ++ [⟨o.addr, o.type, true, 1⟩] } : St).wrap?
        o.addr o.type = some ⟨o.addr, o.type, true, 1⟩ := by
      unfold St.wrap? at hw ⊢
      dsimp only
      rw [List.find?_append, hw]
      simp
    rw [hfind]
    simp only [Nat.le_refl, if_true]
    rw [delete_wraps]
    unfold St.delete
    rw [ho]
    simp [hh]

/-- A component that `CreateInstance` has made and that is in no container is destroyed by nothing
but `DeleteInstance`: not by dropping it, and not by dropping the simulator. -/
theorem C136_leak_fails {sim ts : Nat} {s : St} (h : Reach sim ts s) {o : Obj} (ho : o ∈ s.objs)
    (hl : Loose s o.addr) (hs : o.addr ≠ sim) {x t : Nat} {s' : St}
    (hd : s.step (.drop x t) = some s') : o ∈ s'.objs := by
  by_cases hn : o ∈ s'.objs
  · exact hn
  · exfalso
    rcases C136_only_partial h (show Careful sim s (.drop x t) from trivial) hd ho hn with
      ⟨_, _, g | g⟩ | ⟨c, g | g, _⟩
    · exact hs g
    · exact hl _ g
    · cases g
    · cases g

/-- No wrapper keeps the simulator: when the last reference to it is dropped, every wrapper that the
program still has of an object in it is that of an object that was destroyed; using it is
undefined. -/
theorem C136_stale_fails {sim ts : Nat} {s : St} (h : Reach sim ts s) (hl : s.live sim = true)
    (hlast : Last s sim ts) {w : Wrap} (hw : w ∈ s.wraps) (hin : (sim, w.addr) ∈ s.within) :
    ∃ s', s.step (.drop sim ts) = some s' ∧ w ∈ s'.wraps ∧ s'.step (.use w.addr w.type) = none := by
  obtain ⟨s', h1, h2, _⟩ := C136_end_partial h hl hlast
  have hne : ¬ (w.addr = sim ∧ w.type = ts) := by
    rintro ⟨g, _⟩
    exact (reach_inv h).top _ (g ▸ hin)
  have hmem : w ∈ s'.wraps := (C136_others h1 hne w rfl rfl).2 hw
  refine ⟨s', h1, hmem, ?_⟩
  show s'.use w.addr w.type = none
  unfold St.use
  obtain ⟨v, hv⟩ := wrap_mem hmem
  rw [hv]
  have : s'.at? w.addr = none := by
    refine at_dead ?_
    cases hlv : s'.live w.addr with
    | false => rfl
    | true =>
      obtain ⟨o, ho, he⟩ := live_iff.1 hlv
      exact absurd (he ▸ hin) ((h2 o).1 ho).2.2
  rw [this]

/-- Deleting a component (which a container holds, or which is in none) destroys it and what is in
it, and nothing else; no object holds it any more, and the wrappers stay. -/
theorem C136_delete {sim ts : Nat} {s : St} (h : Reach sim ts s) {c : Nat} {op : Op}
    (hop : (op = .remove c ∧ ∃ a, (a, c) ∈ s.within) ∨ op = .deleteInstance c)
    (hc : Careful sim s op) :
    ∃ s', s.step op = some s' ∧
      (∀ o, o ∈ s'.objs ↔ o ∈ s.objs ∧ o.addr ≠ c ∧ (c, o.addr) ∉ s.within) ∧
      (∀ a, (a, c) ∉ s'.within) ∧ s'.wraps = s.wraps := by
  have hi := reach_inv h
  have hm : ∀ o : Obj, o ∈ s.objs.filter (fun o => !(s.dead c).contains o.addr) ↔
      o ∈ s.objs ∧ o.addr ≠ c ∧ (c, o.addr) ∉ s.within := by
    intro o
    rw [List.mem_filter]
    simp only [Bool.not_eq_true', List.contains_eq_mem, decide_eq_false_iff_not, mem_dead, not_or,
      ne_eq]
  rcases hop with ⟨rfl, a, ha⟩ | rfl
  · obtain ⟨s', h1, h2, h3, h4⟩ := remove_ok hi hc
    have hany : s.within.any (·.2 == c) = true := by
      simp only [List.any_eq_true, beq_iff_eq]
      exact ⟨_, ha, rfl⟩
    rw [if_pos hany] at h4
    have hmem : ∀ o, o ∈ s'.objs ↔ o ∈ s.objs ∧ o.addr ≠ c ∧ (c, o.addr) ∉ s.within := by
      rw [h4]; exact hm
    refine ⟨s', h1, hmem, ?_, h3⟩
    intro b hb
    obtain ⟨o, ho, he⟩ := live_iff.1 (h2.ends b c hb).2
    exact ((hmem o).1 ho).2.1 he
  · obtain ⟨⟨o, ho, he, hh⟩, h2, _⟩ := hc
    subst he
    refine ⟨s.less (s.dead o.addr), delete_eq hi ho hh, hm, ?_, rfl⟩
    intro b hb
    exact h2 b (less_within.1 hb).1

/-- A component that C++ code makes in a container exists with its parts, and is destroyed with the
container, and with all that the container is in. -/
theorem C136_made {sim : Nat} {s : St} {k x t : Nat}
    {parts : List (Nat × Nat)} (hc : Careful sim s (.inside k x t parts)) (hf : Free s x parts) :
    ∃ s', s.step (.inside k x t parts) = some s' ∧
      s'.objs = s.objs ++ ⟨x, t, true⟩ :: parts.map (fun p => ⟨p.1, p.2, false⟩) ∧
      (∀ p ∈ parts, (x, p.1) ∈ s'.within) ∧
      ∀ a, (a = k ∨ (a, k) ∈ s.within) → ∀ y, y ∈ x :: parts.map (·.1) → (a, y) ∈ s'.within := by
  have hmk := ((make_cases s x t parts).resolve_left (fun hh => hh.1 hf)).2
  have hne : ¬ (s.make x t parts).objs = s.objs := by
    intro he
    rw [hmk] at he
    have := congrArg List.length he
    simp at this
  have hadd : ∃ s', (s.make x t parts).add k x = some s' ∧
      s'.objs = (s.make x t parts).objs := by
    unfold St.add
    have h1 := (make_live (t := t) hf (y := k)).2 (.inl hc.2)
    have h2 := (make_live (t := t) hf (y := x)).2 (.inr List.mem_cons_self)
    simp only [h1, h2, Bool.and_self, if_true]
    exact ⟨_, rfl, rfl⟩
  obtain ⟨s', h1, h2⟩ := hadd
  have part : ∀ y, y ∈ parts.map (·.1) → (x, y) ∈ (s.make x t parts).within := fun y hy =>
    (make_within hf).2 (.inr ⟨rfl, hy⟩)
  refine ⟨s', ?_, ?_, ?_, ?_⟩
  · show (if (s.make x t parts).objs = s.objs then some s else (s.make x t parts).add k x) = some s'
    rw [if_neg hne, h1]
  · rw [h2, hmk]
  · intro p hp
    exact (add_within h1).2 (.inl (part _ (List.mem_map.2 ⟨p, hp, rfl⟩)))
  · intro a ha y hy
    refine (add_within h1).2 (.inr ⟨?_, ?_⟩)
    · rcases ha with g | g
      · exact .inl g
      · exact .inr ((make_within hf).2 (.inl g))
    · rcases List.mem_cons.1 hy with g | g
      · exact .inl g
      · exact .inr (part y g)

/-- References are counted: after `n` more of them are taken and `m` are dropped, fewer than there
are, the wrapper is there with the rest of them. -/
theorem C136_balance {s : St} {x t : Nat} {w : Wrap} (hw : s.wrap? x t = some w) (n : Nat) :
    ∀ m, m < w.refs + n →
      ∃ s', s.run (List.replicate n (.again x t) ++ List.replicate m (.drop x t)) = some s' ∧
        s'.wrap? x t = some { w with refs := w.refs + n - m } ∧ s'.objs = s.objs := by
  induction n generalizing s w with
  | zero =>
    intro m
    induction m generalizing s w with
    | zero => intro _; exact ⟨s, rfl, hw, rfl⟩
    | succ m ih =>
      intro hm
      have hr : ¬ w.refs ≤ 1 := by omega
      have hd : s.step (.drop x t) = some (s.count x t (· - 1)) := by
        show s.drop x t = _
        unfold St.drop
        rw [hw]
        dsimp only
        rw [if_neg hr]
      obtain ⟨s', h1, h2, h3⟩ := ih (wrap_count hw (· - 1)) (by dsimp only; omega)
      refine ⟨s', ?_, ?_, h3⟩
      · simp only [List.replicate_zero, List.nil_append] at h1 ⊢
        rw [List.replicate_succ, St.run, hd]
        exact h1
      · rw [h2]
        dsimp only
        have : w.refs - 1 + 0 - m = w.refs + 0 - (m + 1) := by omega
        rw [this]
  | succ n ih =>
    intro m hm
    obtain ⟨s', h1, h2, h3⟩ := ih (wrap_count hw (· + 1)) m (by dsimp only; omega)
    refine ⟨s', ?_, ?_, h3⟩
    · rw [List.replicate_succ, List.cons_append, St.run]
      exact h1
    · rw [h2]
      dsimp only
      have : w.refs + 1 + n - m = w.refs + (n + 1) - m := by omega
      rw [this]

/-! ## Examples

A simulator (1, type 10) with its container of models (2, type 20) and its resolver (3, type 30); a
component (5, type 50) with a field (6, type 60) and a container (7, type 20). -/

/-- The simulator with the component. -/
def demo : List Op :=
  [.inside 2 5 50 [(6, 60), (7, 20)], .get .compositeGetContainer 2, .get .containerGetitem 5]

def demoState : Option St :=
  (start 1 10 [(2, 20), (3, 30)]).bind (fun s => s.run demo)

example : demoState = some
    { objs := [⟨1, 10, true⟩, ⟨2, 20, false⟩, ⟨3, 30, false⟩, ⟨5, 50, true⟩, ⟨6, 60, false⟩,
        ⟨7, 20, false⟩]
      within := [(1, 2), (1, 3), (5, 6), (5, 7), (2, 5), (2, 6), (2, 7), (1, 5), (1, 6), (1, 7)]
      wraps := [⟨1, 10, true, 1⟩, ⟨2, 20, false, 1⟩, ⟨5, 50, false, 1⟩] } := by decide

/-- A reachable state with what the theorems ask for. -/
theorem demo_reach : ∃ s, Reach 1 10 s ∧ s.live 1 = true ∧ Last s 1 10 ∧
    (∃ w ∈ s.wraps, w.addr = 5 ∧ (1, w.addr) ∈ s.within) ∧
    s.wraps.length = 3 := by
  refine ⟨_, .step (.step (.step (.start (parts := [(2, 20), (3, 30)]) rfl)
    (op := .inside 2 5 50 [(6, 60), (7, 20)]) ⟨rfl, rfl⟩ rfl)
    (op := .get .compositeGetContainer 2) ⟨rfl, .inl rfl⟩ rfl)
    (op := .get .containerGetitem 5) ⟨rfl, .inl rfl⟩ rfl, rfl, ?_, ?_, rfl⟩
  · exact ⟨⟨1, 10, true, 1⟩, rfl, by decide⟩
  · exact ⟨⟨5, 50, false, 1⟩, by decide, rfl, by decide⟩

/-- A reachable state where Python does not know the component (`C136_take_fails`). -/
example : ∃ s, Reach 1 10 s ∧ Last s 1 10 ∧
    (⟨5, 50, true⟩ : Obj) ∈ s.objs ∧ (1, 5) ∈ s.within ∧ (2, 5) ∈ s.within ∧
    s.wrap? 5 50 = none ∧ Fn.containerGetComponent.policy.owns = true := by
  refine ⟨_, .step (.start (parts := [(2, 20), (3, 30)]) rfl)
    (op := .inside 2 5 50 [(6, 60), (7, 20)]) ⟨rfl, rfl⟩ rfl, ?_, by decide, by decide, by decide,
    by decide, rfl⟩
  exact ⟨⟨1, 10, true, 1⟩, rfl, by decide⟩

/-- The program of the finding: `simulator.GetContainer("Models").GetComponent("c")` in an
expression, then the end of the program. -/
example : ((start 1 10 [(2, 20), (3, 30)]).bind (fun s => s.run
    [.inside 2 5 50 [(6, 60), (7, 20)], .get .containerGetComponent 5, .drop 5 50,
      .drop 1 10])) = none := by decide

/-- With `reference`, it is as it should be. -/
example : ((start 1 10 [(2, 20), (3, 30)]).bind (fun s => s.run
    [.inside 2 5 50 [(6, 60), (7, 20)], .get .containerGetitem 5, .drop 5 50,
      .drop 1 10])) = some ⟨[], [], []⟩ := by decide

/-- A field that the resolver returns. -/
example : ((start 1 10 [(2, 20), (3, 30)]).bind (fun s => s.run
    [.inside 2 5 50 [(6, 60), (7, 20)], .get .resolverResolveAbsolute 6, .drop 6 60])) = none := by
  decide

/-- A component that is created and never added, and one that is added. -/
example : ((start 1 10 [(2, 20), (3, 30)]).bind (fun s => s.run
    [.create 5 50 [(6, 60)], .create 8 50 [], .add 2 8, .drop 5 50, .drop 8 50, .drop 1 10])) =
      some ⟨[⟨5, 50, true⟩, ⟨6, 60, false⟩], [(5, 6)], []⟩ := by decide

/-- `Kept` programs exist that use what they have. -/
example : ∃ s, Kept 1 10 s ∧ s.wraps.length = 2 ∧ Plain 1 10 s (.use 5 50) ∧
    Plain 1 10 s (.drop 5 50) := by
  refine ⟨_, .step (.step (.start (parts := [(2, 20), (3, 30)]) rfl)
    (op := .inside 2 5 50 [(6, 60), (7, 20)]) ⟨rfl, rfl⟩ rfl)
    (op := .get .containerGetitem 5) ⟨rfl, .inl rfl⟩ rfl, rfl, trivial, ?_⟩
  rintro ⟨h, _⟩
  cases h

/-- Deleting the component of the demonstration, and counting. -/
example : ∃ s, Reach 1 10 s ∧ (2, 5) ∈ s.within ∧ Careful 1 s (.remove 5) ∧
    Careful 1 s (.inside 7 8 50 [(9, 60)]) ∧ Free s 8 [(9, 60)] ∧
    s.wrap? 5 50 = some ⟨5, 50, false, 1⟩ := by
  refine ⟨_, .step (.step (.start (parts := [(2, 20), (3, 30)]) rfl)
    (op := .inside 2 5 50 [(6, 60), (7, 20)]) ⟨rfl, rfl⟩ rfl)
    (op := .get .containerGetitem 5) ⟨rfl, .inl rfl⟩ rfl, by decide, ?_, ⟨rfl, rfl⟩, ?_, rfl⟩
  · show ∀ o ∈ _, _
    decide
  · exact ⟨by decide, by decide⟩

end Verif.Python.Own
