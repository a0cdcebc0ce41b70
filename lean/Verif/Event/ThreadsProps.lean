import Verif.Event.Threads

/-!
C98: the event manager used by several threads.
-/
namespace Verif.Event

/-! ## Specification -/

/-- The subscriptions that follow from what happened: a successful subscription puts the entry point
behind the others, a successful unsubscription takes it out. -/
def applyObs (f : Int → List Nat) : Obs → Int → List Nat
  | .effect _ (.subscribe i ep) .done => fun j => if j = i then f j ++ [ep] else f j
  | .effect _ (.unsubscribe i ep) .done => fun j => if j = i then (f j).erase ep else f j
  | _ => f

/-- … from nothing. -/
def replay (l : List Obs) : Int → List Nat := l.foldl applyObs fun _ => []

/-- The result of a locked part, or the copy of an emission, is right for these subscriptions. -/
def Right (f : Int → List Nat) : Obs → Prop
  | .effect _ (.subscribe i ep) r =>
    r = if ep ∈ f i then .exn .EntryPointAlreadySubscribed else .done
  | .effect _ (.unsubscribe i ep) r =>
    r = if ep ∈ f i then .done else .exn .EntryPointNotSubscribed
  | .effect _ (.query _) r => ∃ i, r = .id i
  | .effect _ (.emit _) _ => False
  | .copied _ i l => l = f i
  | _ => True

/-- All that happens in one call, from beginning to end. -/
inductive Whole (n : Nat) : List Obs → Prop
  /-- `QueryEventId("")` -/
  | noName (t : Nat) :
      Whole n [.called n t (.query ""), .returned n (.exn .InvalidEventName)]
  /-- an id that is not known -/
  | noId (t : Nat) (c : Call) (h : ∀ x, c ≠ .query x) :
      Whole n [.called n t c, .returned n (.exn .InvalidEventId)]
  /-- one locked part, whose result is returned -/
  | acted (t : Nat) (c : Call) (r : Res) (h : ∀ i, c ≠ .emit i) (h' : c ≠ .query "") :
      Whole n [.called n t c, .effect n c r, .returned n r]
  /-- a copy of the subscribers, each of which is executed once, in order -/
  | emitted (t : Nat) (i : Int) (l : List Nat) :
      Whole n ([.called n t (.emit i), .copied n i l] ++ l.map (.executed n) ++
        [.returned n .done])

/-- What happened in the call `n`. -/
def trace (n : Nat) (l : List Obs) : List Obs := l.filter fun o => o.num = n

/-- After any interleaving. -/
def tReach (l : List TInput) : TSys := TSys.init.run l

/-! ## The subscriptions -/

theorem replay_snoc (l : List Obs) (o : Obs) : replay (l ++ [o]) = applyObs (replay l) o := by
  simp [replay]

/-- The manager has the subscriptions that follow from what happened, without duplicates. -/
structure SubsOk (s : TSys) : Prop where
  subs : ∀ i, (s.mgr.subs.find i).getD [] = replay s.log i
  nodup : ∀ i, (replay s.log i).Nodup
  right : ∀ a o b, s.log = a ++ o :: b → Right (replay a) o

theorem split_snoc {α} {l : List α} {x : α} {a : List α} {o : α} {b : List α}
    (h : l ++ [x] = a ++ o :: b) : (∃ b', l = a ++ o :: b') ∨ (l = a ∧ x = o) := by
  rcases List.eq_nil_or_concat b with rfl | ⟨b', y, rfl⟩
  · right
    have := List.append_inj' h rfl
    exact ⟨this.1, by simpa using this.2⟩
  · left
    refine ⟨b', ?_⟩
    have h' : l ++ [x] = (a ++ o :: b') ++ [y] := by simpa using h
    exact (List.append_inj' h' rfl).1

theorem right_snoc {l : List Obs} {x : Obs}
    (h : ∀ a o b, l = a ++ o :: b → Right (replay a) o) (hx : Right (replay l) x) :
    ∀ a o b, l ++ [x] = a ++ o :: b → Right (replay a) o := by
  intro a o b hab
  rcases split_snoc hab with ⟨b', h'⟩ | ⟨rfl, rfl⟩
  · exact h a o b' h'
  · exact hx

/-- A step that leaves the subscriptions and adds an observation that does not change them. -/
theorem SubsOk.quiet {s s' : TSys} (h : SubsOk s) (x : Obs) (hm : s'.mgr.subs = s.mgr.subs)
    (hl : s'.log = s.log ++ [x]) (hx : ∀ f, applyObs f x = f) (hr : Right (replay s.log) x) :
    SubsOk s' := by
  have e : replay s'.log = replay s.log := by rw [hl, replay_snoc, hx]
  refine ⟨fun i => by rw [hm, e]; exact h.subs i, fun i => by rw [e]; exact h.nodup i, ?_⟩
  rw [hl]; exact right_snoc h.right hr

theorem SubsOk.same {s s' : TSys} (h : SubsOk s) (hm : s'.mgr.subs = s.mgr.subs)
    (hl : s'.log = s.log) : SubsOk s' :=
  ⟨fun i => by rw [hm, hl]; exact h.subs i, fun i => by rw [hl]; exact h.nodup i,
    by rw [hl]; exact h.right⟩

theorem find_getD_set (m : Assoc Int (List Nat)) (i j : Int) (l : List Nat) :
    ((m.set i l).find j).getD [] = if j = i then l else (m.find j).getD [] := by
  rw [Assoc.find_set]; split <;> rfl

theorem doSubscribe_spec (m : Assoc Int (List Nat)) (i : Int) (ep : Nat) :
    (doSubscribe m i ep).2 =
      (if ep ∈ (m.find i).getD [] then .exn .EntryPointAlreadySubscribed else .done) ∧
    ∀ j, ((doSubscribe m i ep).1.find j).getD [] =
      if ep ∈ (m.find i).getD [] then (m.find j).getD []
      else if j = i then (m.find j).getD [] ++ [ep] else (m.find j).getD [] := by
  unfold doSubscribe
  cases h : m.find i with
  | none =>
    refine ⟨by simp, fun j => ?_⟩
    simp only [Assoc.tryEmplace, h, Option.getD_none, List.not_mem_nil, if_false]
    rw [find_getD_set]
    by_cases hj : j = i
    · subst hj; simp [h]
    · simp [hj]
  | some l =>
    by_cases he : ep ∈ l
    · simp [he]
    · refine ⟨by simp [he], fun j => ?_⟩
      simp only [he, if_false, Option.getD_some]
      rw [find_getD_set]
      by_cases hj : j = i
      · subst hj; simp [h]
      · simp [hj]

theorem doUnsubscribe_spec (m : Assoc Int (List Nat)) (i : Int) (ep : Nat) :
    (doUnsubscribe m i ep).2 =
      (if ep ∈ (m.find i).getD [] then .done else .exn .EntryPointNotSubscribed) ∧
    ∀ j, ((doUnsubscribe m i ep).1.find j).getD [] =
      if ep ∈ (m.find i).getD [] then
        (if j = i then ((m.find j).getD []).erase ep else (m.find j).getD [])
      else (m.find j).getD [] := by
  unfold doUnsubscribe
  cases h : m.find i with
  | none => simp
  | some l =>
    by_cases he : ep ∈ l
    · refine ⟨by simp [he], fun j => ?_⟩
      simp only [he, if_true, Option.getD_some]
      rw [find_getD_set]
      by_cases hj : j = i
      · subst hj; simp [h]
      · simp [hj]
    · simp [he]

theorem subsOk_advance {s : TSys} (h : SubsOk s) (t : Nat) (f : TFrame) (fs : List TFrame) :
    SubsOk (s.advance t f fs) := by
  cases f with
  | naming n c =>
    cases c with
    | query name =>
      simp only [TSys.advance]
      split
      · exact h.same rfl rfl
      · split
        · exact h.quiet _ rfl rfl (fun _ => rfl) ⟨_, rfl⟩
        · exact h.quiet _ rfl rfl (fun _ => rfl) ⟨_, rfl⟩
    | _ =>
      simp only [TSys.advance]
      split <;> exact h.same rfl rfl
  | acting n c =>
    cases c with
    | query name => exact h
    | emit i => exact h.quiet (.copied n i _) rfl rfl (fun _ => rfl) (h.subs i)
    | subscribe i ep =>
      obtain ⟨h1, h2⟩ := doSubscribe_spec s.mgr.subs i ep
      rw [h.subs] at h1
      have e : replay (s.log ++ [.effect n (.subscribe i ep) (doSubscribe s.mgr.subs i ep).2]) =
          fun j => if ep ∈ replay s.log i then replay s.log j
            else if j = i then replay s.log j ++ [ep] else replay s.log j := by
        rw [replay_snoc, h1]
        by_cases he : ep ∈ replay s.log i
        · simp only [if_pos he]; rfl
        · simp only [if_neg he]; rfl
      refine ⟨fun j => ?_, fun j => ?_, ?_⟩
      · show ((doSubscribe s.mgr.subs i ep).1.find j).getD [] = replay (s.log ++ [_]) j
        rw [e, h2, h.subs, h.subs]
      · show (replay (s.log ++ [_]) j).Nodup
        rw [e]
        by_cases he : ep ∈ replay s.log i
        · simp only [if_pos he]; exact h.nodup j
        · simp only [if_neg he]
          by_cases hj : j = i
          · subst hj
            simp only [if_true]
            rw [List.nodup_append]
            refine ⟨h.nodup j, by simp, ?_⟩
            intro x hx y hy
            rw [List.mem_singleton] at hy
            subst hy
            rintro rfl; exact he hx
          · simp only [if_neg hj]; exact h.nodup j
      · exact right_snoc h.right h1
    | unsubscribe i ep =>
      obtain ⟨h1, h2⟩ := doUnsubscribe_spec s.mgr.subs i ep
      rw [h.subs] at h1
      have e : replay (s.log ++ [.effect n (.unsubscribe i ep) (doUnsubscribe s.mgr.subs i ep).2]) =
          fun j => if ep ∈ replay s.log i then
            (if j = i then (replay s.log j).erase ep else replay s.log j) else replay s.log j := by
        rw [replay_snoc, h1]
        by_cases he : ep ∈ replay s.log i
        · simp only [if_pos he]; rfl
        · simp only [if_neg he]; rfl
      refine ⟨fun j => ?_, fun j => ?_, ?_⟩
      · show ((doUnsubscribe s.mgr.subs i ep).1.find j).getD [] = replay (s.log ++ [_]) j
        rw [e, h2, h.subs, h.subs]
      · show (replay (s.log ++ [_]) j).Nodup
        rw [e]
        by_cases he : ep ∈ replay s.log i
        · simp only [if_pos he]
          by_cases hj : j = i
          · subst hj; simp only [if_true]; exact (h.nodup j).erase _
          · simp only [if_neg hj]; exact h.nodup j
        · simp only [if_neg he]; exact h.nodup j
      · exact right_snoc h.right h1
  | registering n i name => exact h.same rfl rfl
  | running n rest inside =>
    cases inside with
    | true => exact h.same rfl rfl
    | false =>
      cases rest with
      | nil => exact h.same rfl rfl
      | cons ep rest => exact h.quiet (.executed n ep) rfl rfl (fun _ => rfl) trivial
  | leaving n r => exact h.quiet (.returned n r) rfl rfl (fun _ => rfl) trivial

theorem subsOk_step {s : TSys} (h : SubsOk s) (x : TInput) : SubsOk (s.step x) := by
  cases x with
  | call t c =>
    simp only [TSys.step]
    split
    · exact h.quiet (.called s.next t c) rfl rfl (fun _ => rfl) trivial
    · exact h
  | go t =>
    simp only [TSys.step]
    split
    · exact h
    · exact subsOk_advance h t _ _

theorem subsOk_reach (l : List TInput) : SubsOk (tReach l) := by
  have : ∀ (l : List TInput) (s : TSys), SubsOk s → SubsOk (s.run l) := by
    intro l
    induction l with
    | nil => intro s h; exact h
    | cons x l ih => intro s h; exact ih _ (subsOk_step h x)
  refine this l _ ⟨fun i => rfl, fun i => List.nodup_nil, ?_⟩
  intro a o b h
  simp [TSys.init] at h

/-- C98, one order. In every interleaving of any number of threads, the locked parts of the calls, in
the order in which they happen, are a history of one thread: `Subscribe` fails exactly if the entry
point is subscribed at that moment, `Unsubscribe` exactly if it is not, `Emit` copies the subscribers
of that moment, in the order of their subscription and without duplicates. -/
theorem C98_order (l : List TInput) :
    (∀ a o b, (tReach l).log = a ++ o :: b → Right (replay a) o) ∧
    ∀ i, (replay (tReach l).log i).Nodup :=
  ⟨(subsOk_reach l).right, (subsOk_reach l).nodup⟩

/-! ## The calls -/

/-- What has happened in a call in progress. -/
def Shape (t : Nat) : TFrame → List Obs → Prop
  | .naming n c, tr => tr = [.called n t c]
  | .acting n c, tr => tr = [.called n t c] ∧ ∀ x, c ≠ .query x
  | .registering n i name, tr =>
    tr = [.called n t (.query name), .effect n (.query name) (.id i)] ∧ name ≠ ""
  | .running n rest _, tr => ∃ i past,
    tr = [.called n t (.emit i), .copied n i (past ++ rest)] ++ past.map (.executed n)
  | .leaving n r, tr => Whole n (tr ++ [.returned n r])

/-- The invariant. -/
structure CallsOk (s : TSys) : Prop where
  shape : ∀ t, ∀ f ∈ s.stack t, Shape t f (trace f.num s.log)
  lt : ∀ t, ∀ f ∈ s.stack t, f.num < s.next
  fresh : ∀ n, s.next ≤ n → trace n s.log = []
  ended : ∀ n, (∀ t, ∀ f ∈ s.stack t, f.num ≠ n) → trace n s.log = [] ∨ Whole n (trace n s.log)
  nodup : ∀ t, ((s.stack t).map TFrame.num).Nodup
  apart : ∀ t u, t ≠ u → ∀ f ∈ s.stack t, ∀ g ∈ s.stack u, f.num ≠ g.num

theorem setStack_eq (s : TSys) (t l) : s.setStack t l t = l := by simp [TSys.setStack]

theorem setStack_other (s : TSys) {t u} (l) (h : u ≠ t) : s.setStack t l u = s.stack u := by
  simp [TSys.setStack, h]

theorem trace_snoc (n : Nat) (l : List Obs) (o : Obs) :
    trace n (l ++ [o]) = trace n l ++ if o.num = n then [o] else [] := by
  unfold trace
  rw [List.filter_append]
  by_cases h : o.num = n <;> simp [h]

/-- A step of the innermost call: what it adds (`m`) is about that call, and the new frame fits. -/
theorem CallsOk.move {s s' : TSys} (h : CallsOk s) {t : Nat} {f g : TFrame} {fs : List TFrame}
    (hst : s.stack t = f :: fs) (hs : s'.stack = s.setStack t (g :: fs)) (hn : s'.next = s.next)
    (hg : g.num = f.num) (m : List Obs) (hl : s'.log = s.log ++ m) (hm : ∀ o ∈ m, o.num = f.num)
    (hsh : Shape t g (trace f.num s.log ++ m)) : CallsOk s' := by
  have tr : ∀ n, trace n s'.log = if n = f.num then trace n s.log ++ m else trace n s.log := by
    intro n
    rw [hl]
    unfold trace
    rw [List.filter_append]
    by_cases hnf : n = f.num
    · have e : m.filter (fun o => o.num = n) = m :=
        List.filter_eq_self.2 (fun o ho => by simp [hm o ho, hnf])
      rw [if_pos hnf, e]
    · have e : m.filter (fun o => o.num = n) = [] :=
        List.filter_eq_nil_iff.2 (fun o ho => by
          simp only [decide_eq_true_eq]; rw [hm o ho]; exact fun h => hnf h.symm)
      rw [if_neg hnf, e, List.append_nil]
  have hmem : ∀ u, ∀ k ∈ s'.stack u, (u = t ∧ k = g) ∨ (k ∈ s.stack u ∧ k.num ≠ f.num) := by
    intro u k hk
    rw [hs] at hk
    by_cases hu : u = t
    · subst hu
      rw [setStack_eq] at hk
      rcases List.mem_cons.1 hk with rfl | hk
      · exact .inl ⟨rfl, rfl⟩
      · refine .inr ⟨by rw [hst]; simp [hk], ?_⟩
        have := h.nodup u
        rw [hst, List.map_cons, List.nodup_cons] at this
        intro he
        exact this.1 (he ▸ List.mem_map_of_mem hk)
    · rw [setStack_other s _ hu] at hk
      refine .inr ⟨hk, ?_⟩
      exact (h.apart t u (fun h => hu h.symm) f (by rw [hst]; simp) k hk).symm
  have hback : ∀ u, ∀ k ∈ s.stack u, ∃ k' ∈ s'.stack u, k'.num = k.num := by
    intro u k hk
    rw [hs]
    by_cases hu : u = t
    · subst hu
      rw [setStack_eq]
      rw [hst] at hk
      rcases List.mem_cons.1 hk with rfl | hk
      · exact ⟨g, by simp, hg⟩
      · exact ⟨k, by simp [hk], rfl⟩
    · rw [setStack_other s _ hu]; exact ⟨k, hk, rfl⟩
  have flt : f.num < s.next := h.lt t f (by rw [hst]; simp)
  refine ⟨?_, ?_, ?_, ?_, ?_, ?_⟩
  · intro u k hk
    rcases hmem u k hk with ⟨rfl, rfl⟩ | ⟨hk', hne⟩
    · rw [tr, if_pos hg, hg]; exact hsh
    · rw [tr, if_neg hne]; exact h.shape u k hk'
  · intro u k hk
    rw [hn]
    rcases hmem u k hk with ⟨rfl, rfl⟩ | ⟨hk', hne⟩
    · rw [hg]; exact flt
    · exact h.lt u k hk'
  · intro n hnn
    rw [hn] at hnn
    rw [tr, if_neg (by omega)]; exact h.fresh n hnn
  · intro n hno
    have hne : n ≠ f.num := by
      rintro rfl
      exact hno t g (by rw [hs, setStack_eq]; simp) hg
    rw [tr, if_neg hne]
    refine h.ended n fun u k hk he => ?_
    obtain ⟨k', hk', he'⟩ := hback u k hk
    exact hno u k' hk' (he'.trans he)
  · intro u
    rw [hs]
    by_cases hu : u = t
    · subst hu
      rw [setStack_eq]
      have := h.nodup u
      rw [hst] at this
      simpa [hg] using this
    · rw [setStack_other s _ hu]; exact h.nodup u
  · intro u v huv k hk k' hk'
    rcases hmem u k hk with ⟨rfl, rfl⟩ | ⟨h1, h2⟩
    · rcases hmem v k' hk' with ⟨rfl, -⟩ | ⟨h3, h4⟩
      · exact absurd rfl huv
      · rw [hg]; exact h4.symm
    · rcases hmem v k' hk' with ⟨rfl, rfl⟩ | ⟨h3, h4⟩
      · rw [hg]; exact h2
      · exact h.apart u v huv k h1 k' h3

/-- The innermost call returns. -/
theorem CallsOk.leave {s s' : TSys} (h : CallsOk s) {t n : Nat} {r : Res} {fs : List TFrame}
    (hst : s.stack t = .leaving n r :: fs) (hs : s'.stack = s.setStack t fs)
    (hn : s'.next = s.next) (hl : s'.log = s.log ++ [.returned n r]) : CallsOk s' := by
  have tr : ∀ k, trace k s'.log =
      if n = k then trace k s.log ++ [.returned n r] else trace k s.log := by
    intro k
    rw [hl, trace_snoc]
    by_cases hk : n = k <;> simp [Obs.num, hk]
  have hne : ∀ u, ∀ k ∈ s'.stack u, k ∈ s.stack u ∧ n ≠ k.num := by
    intro u k hk
    rw [hs] at hk
    by_cases hu : u = t
    · subst hu
      rw [setStack_eq] at hk
      refine ⟨by rw [hst]; simp [hk], ?_⟩
      have := h.nodup u
      rw [hst, List.map_cons, List.nodup_cons] at this
      intro he
      exact this.1 (by
        show n ∈ _
        rw [he]; exact List.mem_map_of_mem hk)
    · rw [setStack_other s _ hu] at hk
      exact ⟨hk, h.apart t u (fun h => hu h.symm) (.leaving n r) (by rw [hst]; simp) k hk⟩
  have hlt : n < s.next := h.lt t (.leaving n r) (by rw [hst]; simp)
  refine ⟨?_, ?_, ?_, ?_, ?_, ?_⟩
  · intro u k hk
    obtain ⟨h1, h2⟩ := hne u k hk
    rw [tr, if_neg h2]; exact h.shape u k h1
  · intro u k hk
    rw [hn]; exact h.lt u k (hne u k hk).1
  · intro k hk
    rw [hn] at hk
    rw [tr, if_neg (by omega)]; exact h.fresh k hk
  · intro k hk
    rw [tr]
    by_cases hkn : n = k
    · subst hkn
      rw [if_pos rfl]
      exact .inr (h.shape t (.leaving n r) (by rw [hst]; simp))
    · rw [if_neg hkn]
      refine h.ended k fun u g hg he => ?_
      by_cases hu : u = t
      · subst hu
        rw [hst] at hg
        rcases List.mem_cons.1 hg with rfl | hg
        · exact hkn he
        · exact hk u g (by rw [hs, setStack_eq]; exact hg) he
      · exact hk u g (by rw [hs, setStack_other s _ hu]; exact hg) he
  · intro u
    rw [hs]
    by_cases hu : u = t
    · subst hu
      rw [setStack_eq]
      have := h.nodup u
      rw [hst, List.map_cons, List.nodup_cons] at this
      exact this.2
    · rw [setStack_other s _ hu]; exact h.nodup u
  · intro u v huv k hk k' hk'
    exact h.apart u v huv k (hne u k hk).1 k' (hne v k' hk').1

/-- A call begins. -/
theorem CallsOk.call {s s' : TSys} (h : CallsOk s) {t : Nat} {c : Call}
    (hs : s'.stack = s.setStack t (.naming s.next c :: s.stack t)) (hn : s'.next = s.next + 1)
    (hl : s'.log = s.log ++ [.called s.next t c]) : CallsOk s' := by
  have tr : ∀ k, trace k s'.log =
      if s.next = k then trace k s.log ++ [.called s.next t c] else trace k s.log := by
    intro k
    rw [hl, trace_snoc]
    by_cases hk : s.next = k <;> simp [Obs.num, hk]
  have hmem : ∀ u, ∀ k ∈ s'.stack u,
      (u = t ∧ k = .naming s.next c) ∨ (k ∈ s.stack u ∧ k.num < s.next) := by
    intro u k hk
    rw [hs] at hk
    by_cases hu : u = t
    · subst hu
      rw [setStack_eq] at hk
      rcases List.mem_cons.1 hk with rfl | hk
      · exact .inl ⟨rfl, rfl⟩
      · exact .inr ⟨hk, h.lt u k hk⟩
    · rw [setStack_other s _ hu] at hk
      exact .inr ⟨hk, h.lt u k hk⟩
  refine ⟨?_, ?_, ?_, ?_, ?_, ?_⟩
  · intro u k hk
    rcases hmem u k hk with ⟨rfl, rfl⟩ | ⟨h1, h2⟩
    · show trace s.next s'.log = _
      rw [tr, if_pos rfl, h.fresh _ (Nat.le_refl _)]; rfl
    · rw [tr, if_neg (by omega)]; exact h.shape u k h1
  · intro u k hk
    rw [hn]
    rcases hmem u k hk with ⟨rfl, rfl⟩ | ⟨h1, h2⟩
    · exact Nat.lt_succ_self _
    · omega
  · intro k hk
    rw [hn] at hk
    rw [tr, if_neg (by omega)]; exact h.fresh k (by omega)
  · intro k hk
    have hkn : s.next ≠ k := fun he =>
      hk t (.naming s.next c) (by rw [hs, setStack_eq]; simp) he
    rw [tr, if_neg hkn]
    refine h.ended k fun u g hg he => ?_
    refine hk u g ?_ he
    rw [hs]
    by_cases hu : u = t
    · subst hu; rw [setStack_eq]; simp [hg]
    · rw [setStack_other s _ hu]; exact hg
  · intro u
    rw [hs]
    by_cases hu : u = t
    · subst hu
      rw [setStack_eq, List.map_cons, List.nodup_cons]
      refine ⟨?_, h.nodup u⟩
      intro hm
      obtain ⟨k, hk, he⟩ := List.mem_map.1 hm
      have := h.lt u k hk
      have he : k.num = s.next := he
      omega
    · rw [setStack_other s _ hu]; exact h.nodup u
  · intro u v huv k hk k' hk'
    rcases hmem u k hk with ⟨rfl, rfl⟩ | ⟨h1, h2⟩
    · rcases hmem v k' hk' with ⟨rfl, -⟩ | ⟨h3, h4⟩
      · exact absurd rfl huv
      · show s.next ≠ _; omega
    · rcases hmem v k' hk' with ⟨rfl, rfl⟩ | ⟨h3, h4⟩
      · show _ ≠ s.next; omega
      · exact h.apart u v huv k h1 k' h3

theorem callsOk_advance {s : TSys} (h : CallsOk s) {t : Nat} {f : TFrame} {fs : List TFrame}
    (hst : s.stack t = f :: fs) : CallsOk (s.advance t f fs) := by
  have hsh := h.shape t f (by rw [hst]; simp)
  cases f with
  | naming n c =>
    have hsh : trace n s.log = [.called n t c] := hsh
    cases c with
    | query name =>
      simp only [TSys.advance]
      split
      · rename_i he
        subst he
        refine h.move hst rfl rfl rfl [] (by simp) (by simp) ?_
        show Whole n (trace n s.log ++ [] ++ [_])
        rw [hsh]; exact .noName t
      · split
        · refine h.move hst rfl rfl rfl [_] rfl (by simp [Obs.num, TFrame.num]) ?_
          show Whole n (trace n s.log ++ [_] ++ [_])
          rw [hsh]; exact .acted t _ _ (by simp) (by simpa using ‹¬ name = ""›)
        · refine h.move hst rfl rfl rfl [_] rfl (by simp [Obs.num, TFrame.num]) ?_
          show trace n s.log ++ [_] = _ ∧ _
          rw [hsh]; exact ⟨rfl, ‹¬ name = ""›⟩
    | _ =>
      simp only [TSys.advance]
      split
      · refine h.move hst rfl rfl rfl [] (by simp) (by simp) ?_
        show Whole n (trace n s.log ++ [] ++ [_])
        rw [hsh]; exact .noId t _ (by simp)
      · refine h.move hst rfl rfl rfl [] (by simp) (by simp) ?_
        show trace n s.log ++ [] = _ ∧ _
        rw [hsh]; exact ⟨rfl, by simp⟩
  | acting n c =>
    have hsh : trace n s.log = [.called n t c] ∧ ∀ x, c ≠ .query x := hsh
    cases c with
    | query name => exact absurd rfl (hsh.2 name)
    | emit i =>
      refine h.move hst rfl rfl rfl [_] rfl (by simp [Obs.num, TFrame.num]) ⟨i, [], ?_⟩
      show trace n s.log ++ [_] = _
      rw [hsh.1]; rfl
    | _ =>
      refine h.move hst rfl rfl rfl [_] rfl (by simp [Obs.num, TFrame.num]) ?_
      show Whole n (trace n s.log ++ [_] ++ [_])
      rw [hsh.1]; exact .acted t _ _ (by simp) (by simp)
  | registering n i name =>
    refine h.move hst rfl rfl rfl [] (by simp [TSys.advance]) (by simp) ?_
    have hsh : trace n s.log = _ ∧ name ≠ "" := hsh
    show Whole n (trace n s.log ++ [] ++ [_])
    rw [hsh.1]; exact .acted t _ _ (by simp) (by simpa using hsh.2)
  | running n rest inside =>
    obtain ⟨i, past, hsh'⟩ := hsh
    have hsh : trace n s.log =
        [.called n t (.emit i), .copied n i (past ++ rest)] ++ past.map (.executed n) := hsh'
    clear hsh'
    cases inside with
    | true =>
      refine h.move hst rfl rfl rfl [] (by simp [TSys.advance]) (by simp) ⟨i, past, ?_⟩
      show trace n s.log ++ [] = _
      rw [hsh, List.append_nil]
    | false =>
      cases rest with
      | nil =>
        refine h.move hst rfl rfl rfl [] (by simp [TSys.advance]) (by simp) ?_
        show Whole n (trace n s.log ++ [] ++ [_])
        rw [hsh, List.append_nil, List.append_nil]; exact .emitted t i past
      | cons ep rest =>
        refine h.move hst rfl rfl rfl [_] rfl (by simp [Obs.num, TFrame.num]) ⟨i, past ++ [ep], ?_⟩
        show trace n s.log ++ [_] = _
        rw [hsh]; simp
  | leaving n r => exact h.leave hst rfl rfl rfl

theorem callsOk_step {s : TSys} (h : CallsOk s) (x : TInput) : CallsOk (s.step x) := by
  cases x with
  | call t c =>
    simp only [TSys.step]
    split
    · exact h.call rfl rfl rfl
    · exact h
  | go t =>
    simp only [TSys.step]
    split
    · exact h
    · rename_i f fs hst
      exact callsOk_advance h hst

theorem callsOk_reach (l : List TInput) : CallsOk (tReach l) := by
  have : ∀ (l : List TInput) (s : TSys), CallsOk s → CallsOk (s.run l) := by
    intro l
    induction l with
    | nil => intro s h; exact h
    | cons x l ih => intro s h; exact ih _ (callsOk_step h x)
  refine this l _ ⟨?_, ?_, ?_, ?_, ?_, ?_⟩ <;> simp [TSys.init, trace]

/-- C98, calls. In every interleaving, what has happened in a call is the beginning of a whole call:
it has at most one locked part that counts, between its beginning and its end, and returns the result
of that part; an emission executes, once each and in order, the entry points of its copy, and only
then returns. -/
theorem C98_calls (l : List TInput) (n : Nat) :
    trace n (tReach l).log = [] ∨ ∃ w, Whole n w ∧ trace n (tReach l).log <+: w := by
  have h := callsOk_reach l
  by_cases hn : ∃ t, ∃ f ∈ (tReach l).stack t, f.num = n
  · obtain ⟨t, f, hf, rfl⟩ := hn
    have hsh := h.shape t f hf
    right
    generalize trace f.num (tReach l).log = tr at hsh
    cases f with
    | naming n c =>
      have hsh : tr = _ := hsh
      subst hsh
      cases c with
      | query name =>
        by_cases hn : name = ""
        · subst hn; exact ⟨_, .noName t, ⟨_, rfl⟩⟩
        · exact ⟨_, .acted t (.query name) .done (by simp) (by simpa using hn), ⟨_, rfl⟩⟩
      | _ => exact ⟨_, .noId t _ (by simp), ⟨_, rfl⟩⟩
    | acting n c =>
      obtain ⟨rfl, h2⟩ := hsh
      exact ⟨_, .noId t _ h2, ⟨_, rfl⟩⟩
    | registering n i name =>
      obtain ⟨rfl, hn⟩ := hsh
      exact ⟨_, .acted t (.query name) (.id i) (by simp) (by simpa using hn), ⟨_, rfl⟩⟩
    | running n rest inside =>
      obtain ⟨i, past, rfl⟩ := hsh
      exact ⟨_, .emitted t i (past ++ rest), ⟨rest.map (.executed n) ++ [.returned n .done], by
        simp [TFrame.num]⟩⟩
    | leaving n r => exact ⟨_, hsh, List.prefix_append _ _⟩
  · rcases h.ended n (fun t f hf he => hn ⟨t, f, hf, he⟩) with h1 | h1
    · exact .inl h1
    · exact .inr ⟨_, h1, List.prefix_rfl⟩

/-! ## After Unsubscribe -/

/-- No successful subscription of the entry point to the event. -/
def NoSubscribe (i : Int) (ep : Nat) (l : List Obs) : Prop :=
  ∀ n r, .effect n (.subscribe i ep) r ∉ l

theorem replay_absent {i : Int} {ep : Nat} (l : List Obs) (f : Int → List Nat)
    (hf : ep ∉ f i) (hn : NoSubscribe i ep l) : ep ∉ (l.foldl applyObs f) i := by
  induction l generalizing f with
  | nil => exact hf
  | cons o l ih =>
    refine ih _ ?_ fun n r h => hn n r (by simp [h])
    cases o with
    | effect n c r =>
      cases c with
      | subscribe j e =>
        cases r with
        | done =>
          show ep ∉ (if i = j then f i ++ [e] else f i)
          by_cases hj : i = j
          · subst hj
            have : e ≠ ep := by rintro rfl; exact hn n .done (by simp)
            rw [if_pos rfl]
            simp only [List.mem_append, List.mem_singleton, not_or]
            exact ⟨hf, this.symm⟩
          · rw [if_neg hj]; exact hf
        | _ => exact hf
      | unsubscribe j e =>
        cases r with
        | done =>
          show ep ∉ (if i = j then (f i).erase e else f i)
          by_cases hj : i = j
          · rw [if_pos hj]; exact fun h => hf (List.mem_of_mem_erase h)
          · rw [if_neg hj]; exact hf
        | _ => exact hf
      | _ => exact hf
    | _ => exact hf

/-- C98, unsubscribed. Once `Unsubscribe(i, ep)` has succeeded, an emission of `i` that copies its
subscribers later does not copy `ep`, unless `ep` is subscribed again. -/
theorem C98_unsubscribed (l : List TInput) (a b c : List Obs) (n m : Nat) (i : Int) (ep : Nat)
    (copy : List Nat)
    (h : (tReach l).log = a ++ .effect n (.unsubscribe i ep) .done :: b ++ .copied m i copy :: c)
    (hn : NoSubscribe i ep b) : ep ∉ copy := by
  have hs := subsOk_reach l
  have h1 : copy = replay (a ++ .effect n (.unsubscribe i ep) .done :: b) i :=
    hs.right _ _ _ h
  have hnd : (replay a i).Nodup := by
    -- the subscriptions after the first part of what happened
    have key : ∀ (x y : List Obs), (tReach l).log = x.reverse ++ y →
        (replay x.reverse i).Nodup := by
      intro x
      induction x with
      | nil => intro y _; exact List.nodup_nil
      | cons o x' ih =>
        intro y hy
        have hx := ih (o :: y) (by simpa using hy)
        have hr := hs.right x'.reverse o y (by simpa using hy)
        rw [List.reverse_cons, replay_snoc]
        generalize x'.reverse = x at hx hr
        cases o with
        | effect n c r =>
          cases c with
          | subscribe j e =>
            cases r with
            | done =>
              show (if i = j then replay x i ++ [e] else replay x i).Nodup
              by_cases hj : i = j
              · subst hj
                rw [if_pos rfl]
                have hr : Res.done = if e ∈ replay x i then _ else _ := hr
                have he : e ∉ replay x i := by
                  intro he; rw [if_pos he] at hr; cases hr
                rw [List.nodup_append]
                refine ⟨hx, by simp, ?_⟩
                intro p hp q hq
                rw [List.mem_singleton] at hq
                subst hq
                rintro rfl; exact he hp
              · rw [if_neg hj]; exact hx
            | _ => exact hx
          | unsubscribe j e =>
            cases r with
            | done =>
              show (if i = j then (replay x i).erase e else replay x i).Nodup
              by_cases hj : i = j
              · rw [if_pos hj]; exact hx.erase _
              · rw [if_neg hj]; exact hx
            | _ => exact hx
          | _ => exact hx
        | _ => exact hx
    have := key a.reverse _ (by simpa using h)
    rwa [List.reverse_reverse] at this
  rw [h1]
  have e : replay (a ++ .effect n (.unsubscribe i ep) .done :: b) =
      b.foldl applyObs (applyObs (replay a) (.effect n (.unsubscribe i ep) .done)) := by
    simp [replay]
  rw [e]
  refine replay_absent b _ ?_ hn
  show ep ∉ (if i = i then (replay a i).erase ep else replay a i)
  rw [if_pos rfl]
  exact fun hm => ((List.Nodup.mem_erase_iff hnd).1 hm).1 rfl

/-! ## Cases -/

/-- Two threads: thread 1 subscribes the entry points 7 and 8 to event 5 and emits it; while 7 is
running, thread 2 unsubscribes 8, and 7 emits the event again. -/
def caseRace : List TInput :=
  [.call 1 (.subscribe 5 7), .go 1, .go 1, .go 1, .call 1 (.subscribe 5 8), .go 1, .go 1, .go 1,
   .call 1 (.emit 5), .go 1, .go 1, .go 1,
   .call 2 (.unsubscribe 5 8), .go 2, .go 2, .go 2,
   .call 1 (.emit 5), .go 1, .go 1, .go 1, .go 1, .go 1, .go 1,
   .go 1, .go 1, .go 1, .go 1, .go 1]

/-- What happens. -/
def caseRaceLog : List Obs :=
  [.called 0 1 (.subscribe 5 7), .effect 0 (.subscribe 5 7) .done, .returned 0 .done,
   .called 1 1 (.subscribe 5 8), .effect 1 (.subscribe 5 8) .done, .returned 1 .done,
   .called 2 1 (.emit 5), .copied 2 5 [7, 8], .executed 2 7,
   .called 3 2 (.unsubscribe 5 8), .effect 3 (.unsubscribe 5 8) .done, .returned 3 .done,
   .called 4 1 (.emit 5), .copied 4 5 [7], .executed 4 7, .returned 4 .done,
   .executed 2 8, .returned 2 .done]

theorem caseRace_log : (tReach caseRace).log = caseRaceLog := by decide +kernel

/-- C98 fails in one respect: an entry point is executed after its `Unsubscribe` has returned, by an
emission that had copied its subscribers before. -/
theorem C98_unsubscribed_fails : ∃ l a b c n m i ep,
    (tReach l).log = a ++ .effect n (.unsubscribe i ep) .done :: .returned n .done :: b ++
      .executed m ep :: c ∧ NoSubscribe i ep b :=
  ⟨caseRace, caseRaceLog.take 10, (caseRaceLog.drop 12).take 4, caseRaceLog.drop 17, 3, 2, 5, 8,
    by rw [caseRace_log]; rfl, by intro n r h; simp [caseRaceLog] at h⟩

/-- Non-vacuity of `C98_unsubscribed`. -/
example : ∃ a b c, (tReach caseRace).log =
    a ++ .effect 3 (.unsubscribe 5 8) .done :: b ++ .copied 4 5 [7] :: c ∧
    NoSubscribe 5 8 b :=
  ⟨caseRaceLog.take 10, (caseRaceLog.drop 11).take 2, caseRaceLog.drop 14,
    by rw [caseRace_log]; rfl, by intro n r h; simp [caseRaceLog] at h⟩

/-- Non-vacuity of `C98_order` and `C98_calls`: subscriptions there are at the second emission, and
its whole call. -/
example : replay (caseRaceLog.take 13) 5 = [7] ∧ replay (caseRaceLog.take 7) 5 = [7, 8] ∧
    trace 2 caseRaceLog = [.called 2 1 (.emit 5), .copied 2 5 [7, 8], .executed 2 7, .executed 2 8,
      .returned 2 .done] := by decide +kernel

/-- Failing calls: unsubscribing what is not subscribed, subscribing twice, an unknown id, no
name. -/
example : ((tReach [.call 1 (.unsubscribe 5 8), .go 1, .go 1, .go 1, .call 1 (.subscribe 5 8), .go 1,
      .go 1, .go 1, .call 2 (.subscribe 5 8), .go 2, .go 2, .go 2, .call 3 (.emit 99), .go 3, .go 3,
      .call 4 (.query ""), .go 4, .go 4]).log.filter fun o => o matches .returned _ (.exn _)) =
    [.returned 0 (.exn .EntryPointNotSubscribed), .returned 2 (.exn .EntryPointAlreadySubscribed),
     .returned 3 (.exn .InvalidEventId), .returned 4 (.exn .InvalidEventName)] := by decide +kernel

end Verif.Event
