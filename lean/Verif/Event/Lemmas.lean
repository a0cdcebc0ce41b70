import Verif.Event.Model

/-
Invariant of the event manager.
-/
namespace Verif.Event

/-- The two name maps are inverse to each other, ids are `1 .. size`, and no entry
point is subscribed twice to the same event. -/
structure Inv (m : Mgr) : Prop where
  enodup : m.events.Nodup
  inodup : m.ids.Nodup
  bound : ∀ n i, (n, i) ∈ m.events → 1 ≤ i ∧ i ≤ m.events.length
  inv : ∀ n i, (n, i) ∈ m.events ↔ (i, n) ∈ m.ids
  snodup : ∀ i l, m.subs.find i = some l → l.Nodup

theorem Inv.find {m : Mgr} (h : Inv m) (n : String) (i : Int) :
    m.events.find n = some i ↔ m.ids.find i = some n := by
  constructor
  · intro hf; exact Assoc.find_of_mem h.inodup ((h.inv n i).1 (Assoc.mem_of_find hf))
  · intro hf; exact Assoc.find_of_mem h.enodup ((h.inv n i).2 (Assoc.mem_of_find hf))

theorem Inv.fresh {m : Mgr} (h : Inv m) : m.ids.find ((m.events.length : Int) + 1) = none := by
  cases hf : m.ids.find ((m.events.length : Int) + 1) with
  | none => rfl
  | some n =>
    have := h.bound n _ ((h.inv n _).2 (Assoc.mem_of_find hf))
    omega

theorem inv_init : Inv Mgr.init := by
  have h1 : Mgr.init.events = predefined := by decide +kernel
  have h2 : Mgr.init.ids = predefined.map (fun p => (p.2, p.1)) := by decide +kernel
  refine ⟨?_, ?_, ?_, ?_, ?_⟩
  · rw [h1]; unfold Assoc.Nodup; decide +kernel
  · rw [h2]; unfold Assoc.Nodup; decide +kernel
  · have : ∀ p ∈ Mgr.init.events, 1 ≤ p.2 ∧ p.2 ≤ Mgr.init.events.length := by
      rw [h1]; decide +kernel
    exact fun n i h => this _ h
  · intro n i
    rw [h1, h2, List.mem_map]
    constructor
    · intro h; exact ⟨_, h, rfl⟩
    · rintro ⟨⟨a, b⟩, h, h'⟩
      simp only [Prod.mk.injEq] at h'
      rw [← h'.1, ← h'.2]; exact h
  · intro i l h; simp [Mgr.init, Assoc.find] at h

theorem mem_tryEmplace_fresh {κ α : Type} [DecidableEq κ] {k : κ} {v : α} {m : Assoc κ α}
    (h : m.find k = none) (p : κ × α) : p ∈ m.tryEmplace k v ↔ p ∈ m ∨ p = (k, v) := by
  unfold Assoc.tryEmplace
  rw [h]; simp only
  rw [Assoc.set_fresh h]; simp

theorem Inv.query {m : Mgr} (h : Inv m) (name : Option String) : Inv (m.query name).1 := by
  unfold Mgr.query
  split
  · exact h
  · rename_i n
    split
    · exact h
    · split
      · exact h
      · rename_i hn hf
        have hfr := h.fresh
        refine ⟨h.enodup.tryEmplace, h.inodup.tryEmplace, ?_, ?_, h.snodup⟩
        · intro a i ha
          simp only at ha ⊢
          rw [mem_tryEmplace_fresh hf] at ha
          rw [Assoc.length_tryEmplace_fresh hf]
          rcases ha with ha | ha
          · have := h.bound a i ha; omega
          · simp only [Prod.mk.injEq] at ha; omega
        · intro a i
          simp only
          rw [mem_tryEmplace_fresh hf, mem_tryEmplace_fresh hfr, h.inv]
          simp only [Prod.mk.injEq]
          constructor
          · rintro (h | h)
            · exact Or.inl h
            · exact Or.inr ⟨h.2, h.1⟩
          · rintro (h | h)
            · exact Or.inl h
            · exact Or.inr ⟨h.2, h.1⟩

theorem Inv.subscribe {m : Mgr} (h : Inv m) (i : Int) (ep : Nat) : Inv (m.subscribe i ep).1 := by
  unfold Mgr.subscribe
  split
  · exact h
  · split
    · rename_i l hl
      split
      · exact h
      · rename_i hn
        refine ⟨h.enodup, h.inodup, h.bound, h.inv, ?_⟩
        intro j l' hj
        simp only [Assoc.find_set] at hj
        split at hj
        · simp only [Option.some.injEq] at hj
          subst hj
          rw [List.nodup_append]
          exact ⟨h.snodup _ _ hl, by simp, by
            intro a ha b hb
            simp only [List.mem_singleton] at hb
            subst hb; rintro rfl; exact hn ha⟩
        · exact h.snodup _ _ hj
    · refine ⟨h.enodup, h.inodup, h.bound, h.inv, ?_⟩
      intro j l' hj
      simp only [Assoc.find_tryEmplace] at hj
      split at hj
      · simp only [Option.some.injEq] at hj; subst hj; simp
      · exact h.snodup _ _ hj

theorem Inv.unsubscribe {m : Mgr} (h : Inv m) (i : Int) (ep : Nat) :
    Inv (m.unsubscribe i ep).1 := by
  unfold Mgr.unsubscribe
  split
  · exact h
  · split
    · rename_i l hl
      split
      · refine ⟨h.enodup, h.inodup, h.bound, h.inv, ?_⟩
        intro j l' hj
        simp only [Assoc.find_set] at hj
        split at hj
        · simp only [Option.some.injEq] at hj
          subst hj
          exact (h.snodup _ _ hl).erase _
        · exact h.snodup _ _ hj
      · exact h
    · exact h

theorem Inv.step {s : State} (h : Inv s.mgr) (i : Input) : Inv (step s i).mgr := by
  cases i with
  | query n => exact h.query n
  | subscribe i ep => exact h.subscribe i ep
  | unsubscribe i ep => exact h.unsubscribe i ep
  | emit i => unfold Event.step; simp only; split <;> exact h
  | advance => unfold Event.step; simp only; split <;> exact h

theorem Inv.exec {s : State} (h : Inv s.mgr) (is : List Input) : Inv (exec s is).mgr := by
  induction is generalizing s with
  | nil => exact h
  | cons i is ih => exact ih (h.step i)

/-- A known name keeps its id. -/
theorem step_events {s : State} (i : Input) {n : String} {k : Int}
    (h : s.mgr.events.find n = some k) : (step s i).mgr.events.find n = some k := by
  cases i with
  | query m =>
    simp only [Event.step, Mgr.query]
    split
    · exact h
    · split
      · exact h
      · split
        · exact h
        · simp only [Assoc.find_tryEmplace]
          rw [if_neg (by rw [h]; simp), h]
  | subscribe i ep =>
    simp only [Event.step, Mgr.subscribe]
    (repeat' split) <;> exact h
  | unsubscribe i ep =>
    simp only [Event.step, Mgr.unsubscribe]
    (repeat' split) <;> exact h
  | emit i => unfold Event.step; simp only; split <;> exact h
  | advance => unfold Event.step; simp only; split <;> exact h

theorem exec_events {s : State} (is : List Input) {n : String} {k : Int}
    (h : s.mgr.events.find n = some k) : (exec s is).mgr.events.find n = some k := by
  induction is generalizing s with
  | nil => exact h
  | cons i is ih => exact ih (step_events i h)

/-- Result of a query. -/
theorem query_ok {m : Mgr} {name : Option String} {k : Int} (h : (m.query name).2 = .ok k) :
    ∃ n, name = some n ∧ n ≠ "" ∧ (m.query name).1.events.find n = some k ∧
      (m.events.find n = some k ∨ (m.events.find n = none ∧ k = m.events.length + 1)) := by
  unfold Mgr.query at h ⊢
  split at h
  · simp at h
  · rename_i n
    refine ⟨n, rfl, ?_⟩
    simp only
    split at h
    · simp at h
    · rename_i hn
      refine ⟨hn, ?_⟩
      rw [if_neg hn]
      split at h
      · rename_i j hj
        simp only [Except.ok.injEq] at h
        subst h
        simp [hj]
      · rename_i hj
        simp only [Except.ok.injEq] at h
        subst h
        try simp only [hj]
        simp [Assoc.find_tryEmplace, hj]

theorem query_known {m : Mgr} {n : String} {k : Int} (hn : n ≠ "")
    (h : m.events.find n = some k) : m.query (some n) = (m, .ok k) := by
  unfold Mgr.query
  simp [hn, h]

/-- Rebuilding `_ids` gives back the same map. -/
theorem rebuild_aux (l : Assoc String Int) : ∀ m : Assoc Int String,
    (∀ p ∈ l, m.find p.2 = none) → (l.map Prod.snd).Nodup →
    l.foldl (fun m p => m.tryEmplace p.2 p.1) m = m ++ l.map (fun p => (p.2, p.1)) := by
  induction l with
  | nil => simp
  | cons p l ih =>
    intro m hm hl
    simp only [List.map_cons, List.nodup_cons] at hl
    have hp := hm p List.mem_cons_self
    have he : m.tryEmplace p.2 p.1 = m ++ [(p.2, p.1)] := by
      unfold Assoc.tryEmplace; rw [hp]; exact Assoc.set_fresh hp
    rw [List.foldl_cons, he, ih]
    · simp
    · intro q hq
      rw [← he, Assoc.find_tryEmplace]
      rw [if_neg]
      · exact hm q (List.mem_cons_of_mem _ hq)
      · rintro ⟨h, _⟩
        exact hl.1 (List.mem_map.2 ⟨q, hq, h⟩)
    · exact hl.2

end Verif.Event
