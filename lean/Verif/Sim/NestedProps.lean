import Verif.Sim.Nested

/-! Property C160: breakpoints that are stored while another one is. -/
namespace Verif.Sim.Nested

/-! ### Specification -/

/-- A writer is only created for a file that no other writer has at that time. -/
def Apart (d : Disk) : List Op → Prop
  | [] => True
  | p :: ps => (∀ f, p = .create f → ∀ s ∈ d.streams, s.file ≠ f) ∧ Apart (d.step p) ps

/-- What is done with one writer: bytes are stored, or go to the file. -/
def Writes (ws : List Op) : Prop := ∀ p ∈ ws, (∃ bs, p = .put bs) ∨ ∃ n, p = .flush n

/-- All the bytes that are stored. -/
def bytes : List Op → Data
  | [] => []
  | .put bs :: ps => bs ++ bytes ps
  | _ :: ps => bytes ps

/-- How many of them went to the file before the writer is destroyed: `n` bytes of those that were
stored and did not go yet, each time. -/
def gone (total done : Nat) : List Op → Nat
  | [] => done
  | .put bs :: ps => gone (total + bs.length) done ps
  | .flush n :: ps => gone total (done + min n (total - done)) ps
  | _ :: ps => gone total done ps

/-! ### Lemmas -/

theorem update_same {α : Type} (g : Nat → α) (f : Nat) (x : α) : update g f x f = x := by
  simp [update]

theorem update_other {α : Type} (g : Nat → α) {f i : Nat} (x : α) (h : i ≠ f) :
    update g f x i = g i := by simp [update, h]

theorem writeAt_end (c bs : Data) : writeAt c c.length bs = c ++ bs := by
  unfold writeAt
  split
  · simp [*]
  · simp

/-- A stream and its file, when no other stream has written it. -/
def Good (d : Disk) (s : Stream) : Prop :=
  d.files s.file = s.all.take s.pos ∧ s.buf = s.all.drop s.pos ∧ s.pos ≤ s.all.length

theorem Good.write {d : Disk} {s : Stream} (h : Good d s) (n : Nat) :
    writeAt (d.files s.file) s.pos (s.buf.take n) = s.all.take (s.pos + (s.buf.take n).length) := by
  obtain ⟨h1, h2, h3⟩ := h
  have hl : (d.files s.file).length = s.pos := by rw [h1, List.length_take]; omega
  conv => lhs; rw [← hl]
  rw [writeAt_end, h1, h2, List.length_take, List.length_drop, List.take_add, List.take_eq_take_min (i := n)]
  simp

theorem step_put {d : Disk} {s : Stream} {ss : List Stream} (h : d.streams = s :: ss) (bs : Data) :
    d.step (.put bs) = { d with streams := { s with buf := s.buf ++ bs, all := s.all ++ bs } :: ss } := by
  simp only [Disk.step, h]

theorem step_flush {d : Disk} {s : Stream} {ss : List Stream} (h : d.streams = s :: ss) (n : Nat) :
    d.step (.flush n) = { d.write s n with
        streams := { s with pos := s.pos + (s.buf.take n).length, buf := s.buf.drop n } :: ss } := by
  simp only [Disk.step, h]

theorem step_destroy {d : Disk} {s : Stream} {ss : List Stream} (h : d.streams = s :: ss) :
    d.step .destroy = { d.write s s.buf.length with
        streams := ss, saved := update d.saved s.file (some s.all) } := by
  simp only [Disk.step, h]

/-- The writer at the top stores its bytes. -/
theorem run_writes {ws : List Op} (hw : Writes ws) {d : Disk} {s : Stream} {ss : List Stream}
    (hs : d.streams = s :: ss) (hg : Good d s) :
    ∃ s', (d.run ws).streams = s' :: ss ∧ s'.file = s.file ∧ Good (d.run ws) s' ∧
      s'.all = s.all ++ bytes ws ∧ s'.pos = gone s.all.length s.pos ws ∧
      (∀ i, i ≠ s.file → (d.run ws).files i = d.files i) ∧ (d.run ws).saved = d.saved := by
  induction ws generalizing d s with
  | nil => exact ⟨s, hs, rfl, hg, by simp [bytes], rfl, fun _ _ => rfl, rfl⟩
  | cons p ps ih =>
    have hps : Writes ps := fun q hq => hw q (by simp [hq])
    rcases hw p (by simp) with ⟨bs, rfl⟩ | ⟨n, rfl⟩
    · have e := step_put hs bs
      have hg' : Good (d.step (.put bs)) { s with buf := s.buf ++ bs, all := s.all ++ bs } := by
        rw [e]
        obtain ⟨h1, h2, h3⟩ := hg
        refine ⟨?_, ?_, ?_⟩
        · show d.files s.file = (s.all ++ bs).take s.pos
          rw [h1, List.take_append_of_le_length h3]
        · show s.buf ++ bs = (s.all ++ bs).drop s.pos
          rw [h2, List.drop_append_of_le_length h3]
        · show s.pos ≤ (s.all ++ bs).length
          simp; omega
      obtain ⟨s', a1, a2, a3, a4, a5, a6, a7⟩ := ih hps (d := d.step (.put bs)) (by rw [e]) hg'
      refine ⟨s', a1, a2, a3, ?_, ?_, ?_, ?_⟩
      · rw [a4]; simp [bytes]
      · rw [a5]; simp [gone]
      · intro i hi
        refine (a6 i hi).trans ?_
        rw [e]
      · refine a7.trans ?_
        rw [e]
    · have e := step_flush hs n
      have hl : (s.buf.take n).length = min n (s.all.length - s.pos) := by
        rw [List.length_take, hg.2.1, List.length_drop]
      have hg' : Good (d.step (.flush n))
          { s with pos := s.pos + (s.buf.take n).length, buf := s.buf.drop n } := by
        rw [e]
        refine ⟨?_, ?_, ?_⟩
        · show update d.files s.file _ s.file = _
          rw [update_same]
          exact hg.write n
        · show s.buf.drop n = s.all.drop (s.pos + (s.buf.take n).length)
          rw [← List.drop_drop, ← hg.2.1, List.length_take]
          by_cases h : n ≤ s.buf.length
          · rw [Nat.min_eq_left h]
          · rw [Nat.min_eq_right (by omega), List.drop_length, List.drop_eq_nil_of_le (by omega)]
        · show s.pos + (s.buf.take n).length ≤ s.all.length
          have := hg.2.2
          omega
      obtain ⟨s', a1, a2, a3, a4, a5, a6, a7⟩ := ih hps (d := d.step (.flush n)) (by rw [e]) hg'
      refine ⟨s', a1, a2, a3, ?_, ?_, ?_, ?_⟩
      · rw [a4]; simp [bytes]
      · rw [a5]; simp only [gone, hl]
      · intro i hi
        refine (a6 i hi).trans ?_
        rw [e]
        exact update_other _ _ hi
      · refine a7.trans ?_
        rw [e]; rfl

theorem run_append (d : Disk) (a b : List Op) : d.run (a ++ b) = (d.run a).run b := by
  simp [Disk.run, List.foldl_append]

theorem run_cons (d : Disk) (p : Op) (b : List Op) : d.run (p :: b) = (d.step p).run b := rfl

theorem create_good (d : Disk) (f : Nat) : Good (d.step (.create f)) ⟨f, 0, [], []⟩ :=
  ⟨by show update d.files f [] f = _; rw [update_same]; rfl, rfl, Nat.le_refl _⟩

theorem good_destroy {d : Disk} {s : Stream} {ss : List Stream} (hs : d.streams = s :: ss)
    (hg : Good d s) : (d.step .destroy).files s.file = s.all := by
  rw [step_destroy hs]
  show update d.files s.file _ s.file = _
  rw [update_same, hg.write, List.take_length, hg.2.1, List.length_drop]
  have := hg.2.2
  rw [show s.pos + (s.all.length - s.pos) = s.all.length by omega, List.take_length]

/-! ### Different files -/

/-- What holds as long as the writers have different files. -/
def Inv (d : Disk) : Prop :=
  (d.streams.map (·.file)).Nodup ∧ (∀ s ∈ d.streams, Good d s) ∧
  ∀ f a, d.saved f = some a → (∀ s ∈ d.streams, s.file ≠ f) → d.files f = a

theorem Good.other {d d' : Disk} {s : Stream} (h : Good d s) (e : d'.files s.file = d.files s.file) :
    Good d' s := ⟨e.trans h.1, h.2⟩

theorem inv_step {d : Disk} (h : Inv d) (p : Op) (hp : ∀ f, p = .create f → ∀ s ∈ d.streams, s.file ≠ f) :
    Inv (d.step p) := by
  obtain ⟨h1, h2, h3⟩ := h
  cases p with
  | create f =>
    have hf := hp f rfl
    refine ⟨?_, ?_, ?_⟩
    · show (f :: d.streams.map (·.file)).Nodup
      refine List.nodup_cons.2 ⟨fun hm => ?_, h1⟩
      obtain ⟨s, hs, e⟩ := List.mem_map.1 hm
      exact hf s hs e
    · intro s hs
      rcases List.mem_cons.1 hs with rfl | hs
      · exact create_good d f
      · exact (h2 s hs).other (update_other _ _ (hf s hs))
    · intro g a hg hn
      have hgf : g ≠ f := fun e => hn ⟨f, 0, [], []⟩ (by simp [Disk.step]) e.symm
      show update d.files f [] g = a
      rw [update_other _ _ hgf]
      exact h3 g a hg fun s hs => hn s (by simp [Disk.step, hs])
  | put bs =>
    cases hs : d.streams with
    | nil => simp only [Disk.step, hs]; exact ⟨h1, h2, h3⟩
    | cons s ss =>
      have hw : Writes [.put bs] := by simp [Writes]
      obtain ⟨s', a1, a2, a3, _, _, a6, a7⟩ := run_writes hw hs (h2 s (by simp [hs]))
      have a1' : (d.step (.put bs)).streams = s' :: ss := a1
      rw [hs] at h1
      have hne : ∀ t ∈ ss, t.file ≠ s.file := fun t ht e =>
        (List.nodup_cons.1 h1).1 (List.mem_map.2 ⟨t, ht, e⟩)
      refine ⟨?_, ?_, ?_⟩
      · rw [a1', List.map_cons, a2]; exact h1
      · intro t ht
        rw [a1'] at ht
        rcases List.mem_cons.1 ht with rfl | ht
        · exact a3
        · exact (h2 t (by simp [hs, ht])).other (a6 _ (hne t ht))
      · intro g a hg hn
        rw [a1'] at hn
        have hgs : g ≠ s.file := fun e => hn s' (by simp) (a2.trans e.symm)
        refine (a6 g hgs).trans (h3 g a ?_ ?_)
        · rw [← a7]; exact hg
        · intro t ht
          rw [hs] at ht
          rcases List.mem_cons.1 ht with rfl | ht
          · exact fun e => hgs e.symm
          · exact hn t (by simp [ht])
  | flush n =>
    cases hs : d.streams with
    | nil => simp only [Disk.step, hs]; exact ⟨h1, h2, h3⟩
    | cons s ss =>
      have hw : Writes [.flush n] := by simp [Writes]
      obtain ⟨s', a1, a2, a3, _, _, a6, a7⟩ := run_writes hw hs (h2 s (by simp [hs]))
      have a1' : (d.step (.flush n)).streams = s' :: ss := a1
      rw [hs] at h1
      have hne : ∀ t ∈ ss, t.file ≠ s.file := fun t ht e =>
        (List.nodup_cons.1 h1).1 (List.mem_map.2 ⟨t, ht, e⟩)
      refine ⟨?_, ?_, ?_⟩
      · rw [a1', List.map_cons, a2]; exact h1
      · intro t ht
        rw [a1'] at ht
        rcases List.mem_cons.1 ht with rfl | ht
        · exact a3
        · exact (h2 t (by simp [hs, ht])).other (a6 _ (hne t ht))
      · intro g a hg hn
        rw [a1'] at hn
        have hgs : g ≠ s.file := fun e => hn s' (by simp) (a2.trans e.symm)
        refine (a6 g hgs).trans (h3 g a ?_ ?_)
        · rw [← a7]; exact hg
        · intro t ht
          rw [hs] at ht
          rcases List.mem_cons.1 ht with rfl | ht
          · exact fun e => hgs e.symm
          · exact hn t (by simp [ht])
  | destroy =>
    cases hs : d.streams with
    | nil => simp only [Disk.step, hs]; exact ⟨h1, h2, h3⟩
    | cons s ss =>
      have hd := good_destroy hs (h2 s (by simp [hs]))
      have e := step_destroy hs
      rw [hs] at h1
      have hne : ∀ t ∈ ss, t.file ≠ s.file := fun t ht e =>
        (List.nodup_cons.1 h1).1 (List.mem_map.2 ⟨t, ht, e⟩)
      have hst : (d.step .destroy).streams = ss := by rw [e]
      have hfi : ∀ i, i ≠ s.file → (d.step .destroy).files i = d.files i := by
        intro i hi; rw [e]; exact update_other _ _ hi
      refine ⟨?_, ?_, ?_⟩
      · rw [hst]; exact (List.nodup_cons.1 h1).2
      · intro t ht
        rw [hst] at ht
        exact (h2 t (by simp [hs, ht])).other (hfi _ (hne t ht))
      · intro g a hg hn
        rw [hst] at hn
        have hsv : (d.step .destroy).saved = update d.saved s.file (some s.all) := by rw [e]
        rw [hsv] at hg
        by_cases hgs : g = s.file
        · subst hgs
          rw [update_same] at hg
          cases hg
          exact hd
        · rw [update_other _ _ hgs] at hg
          refine (hfi g hgs).trans (h3 g a hg ?_)
          intro t ht
          rw [hs] at ht
          rcases List.mem_cons.1 ht with rfl | ht
          · exact fun e => hgs e.symm
          · exact hn t ht

theorem inv_run {ps : List Op} {d : Disk} (h : Inv d) (ha : Apart d ps) : Inv (d.run ps) := by
  induction ps generalizing d with
  | nil => exact h
  | cons p ps ih => exact ih (inv_step h p ha.1) ha.2

/-- C160, partial. Through any history of breakpoints that are stored, at any depth of nesting, as
long as those that are nested go to different files: a file that no writer has open holds the state
that the last `Store` to it has stored, and the others hold a beginning of it. Missing: the same file
(false, see below). -/
theorem C160_files_partial (files : Nat → Data) (ps : List Op) (ha : Apart (.init files) ps) :
    (∀ f a, ((Disk.init files).run ps).saved f = some a →
      (∀ s ∈ ((Disk.init files).run ps).streams, s.file ≠ f) →
      ((Disk.init files).run ps).files f = a) ∧
    ∀ s ∈ ((Disk.init files).run ps).streams, ((Disk.init files).run ps).files s.file <+: s.all := by
  have h : Inv ((Disk.init files).run ps) :=
    inv_run ⟨by simp [Disk.init], by simp [Disk.init], by simp [Disk.init]⟩ ha
  refine ⟨h.2.2, fun s hs => ?_⟩
  rw [(h.2.1 s hs).1]
  exact List.take_prefix _ _

example : Apart (.init fun _ => []) [.create 0, .put [1, 2], .flush 1, .create 1, .put [3], .destroy,
      .destroy] ∧
    ((Disk.init fun _ => []).run [.create 0, .put [1, 2], .flush 1, .create 1, .put [3], .destroy,
      .destroy]).files 0 = [1, 2] ∧
    ((Disk.init fun _ => []).run [.create 0, .put [1, 2], .flush 1, .create 1, .put [3], .destroy,
      .destroy]).files 1 = [3] := by
  refine ⟨?_, by decide, by decide⟩
  simp [Apart, Disk.step, Disk.init, Disk.write]

/-! ### The same file -/

theorem gone_le (ws : List Op) (hw : Writes ws) (t d : Nat) (h : d ≤ t) :
    gone t d ws ≤ t + (bytes ws).length := by
  induction ws generalizing t d with
  | nil => simpa [gone, bytes] using h
  | cons p ps ih =>
    have hps : Writes ps := fun q hq => hw q (by simp [hq])
    rcases hw p (by simp) with ⟨bs, rfl⟩ | ⟨n, rfl⟩
    · have := ih hps (t + bs.length) d (by omega)
      simp only [gone, bytes, List.length_append]; omega
    · simp only [gone, bytes]
      exact ih hps t _ (by omega)

theorem nested_file (d : Disk) (f : Nat) (ws vs : List Op) (hw : Writes ws) (hv : Writes vs) :
    (d.run (.create f :: ws ++ .create f :: vs ++ [.destroy, .destroy])).files f =
      writeAt (bytes vs) (gone 0 0 ws) ((bytes ws).drop (gone 0 0 ws)) := by
  rw [List.append_assoc, List.cons_append, run_cons, run_append]
  obtain ⟨s, a1, a2, a3, a4, a5, _, _⟩ := run_writes hw (d := d.step (.create f)) rfl (create_good d f)
  generalize (d.step (.create f)).run ws = e at a1 a3
  rw [List.cons_append, run_cons, run_append]
  obtain ⟨r, b1, b2, b3, b4, b5, _, _⟩ :=
    run_writes hv (d := e.step (.create f)) rfl (create_good e f)
  have b1' : ((e.step (.create f)).run vs).streams = r :: s :: d.streams := by
    rw [b1]
    show r :: e.streams = _
    rw [a1]
  generalize (e.step (.create f)).run vs = g at b1' b3
  have c := good_destroy b1' b3
  have c' := step_destroy b1'
  have hst : (g.step .destroy).streams = s :: d.streams := by rw [c']
  show ((g.step .destroy).step .destroy).files f = _
  have hf : s.file = f := a2
  have hr : r.file = f := b2
  rw [step_destroy hst]
  show update (g.step .destroy).files s.file _ f = _
  rw [hf, update_same]
  rw [hr] at c
  rw [c, b4, List.take_length, a3.2.1, a4, a5]
  rfl

/-- C160. What the file holds when a breakpoint was stored to the same file while another one was
(by an entry point of `SMP_EnterStandby`), whatever went to the file before: `a` is the state of the
outer `Store`, `p` how much of it had gone to the file, `b` the state of the inner one. From `p` on
there is the outer state, elsewhere the inner one, or zeros where it has ended. -/
theorem C160_nested (d : Disk) (f : Nat) (ws vs : List Op) (hw : Writes ws) (hv : Writes vs)
    (a b : Data) (p : Nat) (ha : a = bytes ws) (hb : b = bytes vs) (hp : p = gone 0 0 ws) (i : Nat) :
    p ≤ a.length ∧
    ((d.run (.create f :: ws ++ .create f :: vs ++ [.destroy, .destroy])).files f)[i]? =
      if p ≤ i ∧ i < a.length then a[i]?
      else if i < b.length then b[i]?
      else if i < p ∧ p < a.length then some 0 else none := by
  have hl : p ≤ a.length := by
    have := gone_le ws hw 0 0 (Nat.le_refl _)
    subst ha hp; omega
  refine ⟨hl, ?_⟩
  rw [nested_file d f ws vs hw hv, ← ha, ← hb, ← hp]
  unfold writeAt
  split
  · rename_i hn
    have hpa : a.length ≤ p := by simpa using hn
    rw [if_neg (by omega)]
    by_cases h : i < b.length
    · rw [if_pos h]
    · rw [if_neg h, if_neg (by omega), List.getElem?_eq_none (by omega)]
  · rename_i hn
    have hpa : p < a.length := by simpa using hn
    have hlen : (b.take p ++ List.replicate (p - b.length) 0).length = p := by simp; omega
    have hd : (a.drop p).length = a.length - p := List.length_drop
    by_cases h1 : i < p
    · rw [if_neg (by omega), List.append_assoc, List.getElem?_append_left (by omega)]
      by_cases h2 : i < b.length
      · rw [if_pos h2, List.getElem?_append_left (by simp; omega), List.getElem?_take, if_pos h1]
      · rw [if_neg h2, if_pos ⟨h1, hpa⟩, List.getElem?_append_right (by simp; omega),
          List.getElem?_replicate, if_pos (by simp; omega)]
    · rw [List.append_assoc, List.getElem?_append_right (by omega), hlen]
      by_cases h2 : i < a.length
      · rw [if_pos (by omega), List.getElem?_append_left (by omega), List.getElem?_drop]
        congr 1; omega
      · rw [if_neg (by omega), List.getElem?_append_right (by omega), List.getElem?_drop, hd]
        by_cases h3 : i < b.length
        · rw [if_pos h3]; congr 1; omega
        · rw [if_neg h3, if_neg (by omega), List.getElem?_eq_none (by omega)]

example : Writes [.put [1, 2, 3, 4], .flush 2] ∧ Writes [.put [5, 6, 7, 8]] ∧
    gone 0 0 [.put [1, 2, 3, 4], .flush 2] = 2 ∧
    ((Disk.init fun _ => []).run (.create 0 :: [.put [1, 2, 3, 4], .flush 2] ++
      .create 0 :: [.put [5, 6, 7, 8]] ++ [.destroy, .destroy])).files 0 = [5, 6, 3, 4] := by
  refine ⟨?_, ?_, by decide, by decide⟩ <;> simp [Writes]

/-- C160. The file is right when both have stored the same state, and when all of the outer state had
gone to the file: then it holds the inner one. -/
theorem C160_right (d : Disk) (f : Nat) (ws vs : List Op) (hw : Writes ws) (hv : Writes vs)
    (h : bytes ws = bytes vs ∨ gone 0 0 ws = (bytes ws).length) :
    (d.run (.create f :: ws ++ .create f :: vs ++ [.destroy, .destroy])).files f = bytes vs := by
  apply List.ext_getElem?
  intro i
  obtain ⟨hl, e⟩ := C160_nested d f ws vs hw hv _ _ _ rfl rfl rfl i
  rw [e]
  rcases h with h | h
  · rw [h] at hl ⊢
    by_cases h1 : i < (bytes vs).length
    · rw [if_pos h1]; simp
    · rw [if_neg (by omega), if_neg h1, if_neg (by omega), List.getElem?_eq_none (by omega)]
  · rw [h, if_neg (by omega)]
    by_cases h1 : i < (bytes vs).length
    · rw [if_pos h1]
    · rw [if_neg h1, if_neg (by omega), List.getElem?_eq_none (by omega)]

/-- C160 fails: if nothing of the outer state had gone to the file (it is smaller than the buffer),
the file holds the outer state, though the inner one was stored after it; and if the inner one is
longer, its end follows. -/
theorem C160_older_fails (d : Disk) (f : Nat) (a b : Data) :
    (d.run [.create f, .put a, .create f, .put b, .destroy, .destroy]).files f =
      a ++ b.drop a.length := by
  have e := nested_file d f [.put a] [.put b] (by simp [Writes]) (by simp [Writes])
  refine e.trans ?_
  simp only [bytes, gone, List.append_nil, List.drop_zero]
  unfold writeAt
  split
  · simp [*]
  · simp

/-- C160 fails: if some of it had gone to the file, the file holds a mixture of two states, which is
none of them, whenever they differ before and after that place. -/
theorem C160_mixture_fails (d : Disk) (f p : Nat) (a b : Data) (hp : p ≤ a.length)
    (hl : b.length = a.length) (h1 : a.take p ≠ b.take p) (h2 : a.drop p ≠ b.drop p) :
    (d.run [.create f, .put a, .flush p, .create f, .put b, .destroy, .destroy]).files f =
      b.take p ++ a.drop p ∧
    b.take p ++ a.drop p ≠ a ∧ b.take p ++ a.drop p ≠ b := by
  have e := nested_file d f [.put a, .flush p] [.put b] (by simp [Writes]) (by simp [Writes])
  have hlen : (b.take p).length = p := by simp; omega
  refine ⟨e.trans ?_, ?_, ?_⟩
  · have hg : gone 0 0 [.put a, .flush p] = p := by simp [gone]; omega
    rw [hg]
    simp only [bytes, List.append_nil]
    unfold writeAt
    split
    · rename_i hn
      have : a.length ≤ p := by simpa using hn
      rw [hn, List.append_nil, List.take_of_length_le (by omega)]
    · have h3 : b.drop (p + (a.drop p).length) = [] := by
        refine List.drop_eq_nil_of_le ?_
        rw [List.length_drop]; omega
      have h4 : p - b.length = 0 := by omega
      rw [h3, h4]
      simp
  · intro h
    have := congrArg (List.take p) h
    rw [List.take_append_of_le_length (by omega), List.take_take, Nat.min_self] at this
    exact h1 this.symm
  · intro h
    have := congrArg (List.drop p) h
    rw [List.drop_append_of_le_length (by omega), List.drop_eq_nil_of_le (by omega),
      List.nil_append] at this
    exact h2 this

example : ([1, 2, 3, 4] : Data).take 2 ≠ [5, 6, 7, 8].take 2 ∧
    ([1, 2, 3, 4] : Data).drop 2 ≠ [5, 6, 7, 8].drop 2 := by decide

end Verif.Sim.Nested
