import Verif.Tree.Factory
import Verif.Tree.Props

/-! Property C126: factories live as long as the simulator and make instances of their type. -/
namespace Verif.Tree.Make
open Verif.Tree (Fac Facs lookup tryEmplace lookup_tryEmplace)
open Verif.Path (Str checkName)

/-! ### Specification -/

/-- What callers have to respect: a callback returns an instance if its constructor does not throw,
a factory is registered by whoever still owns it, so not a second time, and only an existing
instance is deleted. -/
def Allowed (w : W) : Call → Prop
  | .make _ _ cb => ∀ n, cb n ≠ .null
  | .register p => (find w.facs p).isSome ∧ ∀ g ∈ w.coll.all, g.id ≠ p
  | .create _ _ => True
  | .delete none => True
  | .delete (some p) => (find w.insts p).isSome

/-- Every call of a sequence respects that. -/
def AllAllowed : W → List Call → Prop
  | _, [] => True
  | w, c :: cs => Allowed w c ∧ AllAllowed (step w c).1 cs

/-! ### Lemmas -/

theorem find_append {α : Type} (m : List (Addr × α)) (p q : Addr) (x : α)
    (h : ∀ y ∈ m, y.1 ≠ p) :
    find (m ++ [(p, x)]) q = if q = p then some x else find m q := by
  unfold find
  rw [List.find?_append]
  by_cases hq : q = p
  · subst hq
    have : m.find? (fun y => decide (y.1 = q)) = none := by
      rw [List.find?_eq_none]; intro y hy; simpa using h y hy
    simp [this]
  · have : ¬ p = q := fun e => hq e.symm
    simp [hq, this]

theorem find_free {α : Type} (m : List (Addr × α)) (p q : Addr) :
    find (free m p) q = if q = p then none else find m q := by
  unfold find free
  induction m with
  | nil => simp
  | cons x m ih =>
    by_cases hx : x.1 = p
    · rw [List.filter_cons_of_neg (by simpa using hx), ih]
      by_cases hq : q = p
      · simp [hq]
      · have : ¬ x.1 = q := fun e => hq (e.symm.trans hx)
        simp [hq, this]
    · rw [List.filter_cons_of_pos (by simpa using hx), List.find?_cons, List.find?_cons]
      by_cases hxq : x.1 = q
      · have : ¬ q = p := fun e => hx (hxq.trans e)
        simp [hxq, this]
      · simp only [hxq, decide_false]
        exact ih

theorem find_isSome {α : Type} {m : List (Addr × α)} {p : Addr} {x : α} (h : find m p = some x) :
    (p, x) ∈ m := by
  unfold find at h
  obtain ⟨y, hy, rfl⟩ := Option.map_eq_some_iff.1 h
  have h1 : y.1 = p := by have := List.find?_some hy; simpa using this
  have h2 := List.mem_of_find?_eq_some hy
  rw [← h1]; exact h2

/-- What holds of the memory after allowed calls. -/
structure Inv (w : W) : Prop where
  facLt : ∀ x ∈ w.facs, x.1 < w.next
  instLt : ∀ x ∈ w.insts, x.1 < w.next
  key : ∀ x ∈ w.coll.byUuid, x.1 = x.2.uuid
  alive : ∀ x ∈ w.coll.byUuid, ∃ f, find w.facs x.2.id = some f ∧ f.uuid = x.2.uuid ∧ f.name = x.2.name
  same : ∀ g, g ∈ w.coll.all ↔ ∃ u, (u, g) ∈ w.coll.byUuid
  ids : (w.coll.byUuid.map (fun x => x.2.id)).Nodup
  uuids : ∀ x ∈ w.coll.byUuid, ∀ y ∈ w.coll.byUuid, x.2.uuid = y.2.uuid → x = y
  nonnull : ∀ p f, find w.facs p = some f → ∀ n, f.callback n ≠ .null
  made : ∀ x ∈ w.insts, ∃ g ∈ w.coll.all, g.uuid = x.2.uuid

theorem inv_init : Inv W.init := by
  constructor <;> simp [W.init, find]

theorem lookup_none {κ α : Type} [DecidableEq κ] {m : List (κ × α)} {k : κ}
    (h : lookup m k = none) : ∀ x ∈ m, x.1 ≠ k := by
  unfold lookup at h
  simpa using h

theorem lookup_mem {κ α : Type} [DecidableEq κ] {m : List (κ × α)} {k : κ} {v : α}
    (h : lookup m k = some v) : (k, v) ∈ m := by
  unfold lookup at h
  obtain ⟨y, hy, rfl⟩ := Option.map_eq_some_iff.1 h
  have h1 : y.1 = k := by have := List.find?_some hy; simpa using this
  have h2 := List.mem_of_find?_eq_some hy
  rw [← h1]; exact h2

theorem add_cases (s : Facs) (f : Fac) :
    (∃ g, (f.uuid, g) ∈ s.byUuid ∧ s.add f = (s, some .DuplicateUuid)) ∨
    ((∀ x ∈ s.byUuid, x.1 ≠ f.uuid) ∧
      ∃ bn, s.add f = (⟨s.byUuid ++ [(f.uuid, f)], bn, s.all ++ [f]⟩, none)) := by
  unfold Facs.add
  cases h : lookup s.byUuid f.uuid with
  | some g => left; exact ⟨g, lookup_mem h, by simp⟩
  | none =>
    right
    refine ⟨lookup_none h, tryEmplace s.byName f.name f, ?_⟩
    simp [tryEmplace, h]

theorem inv_step {w : W} (h : Inv w) (c : Call) (ha : Allowed w c) :
    Inv (step w c).1 ∧ (step w c).2 ≠ .ub := by
  have noFac : ∀ y ∈ w.facs, y.1 ≠ w.next := fun y hy => Nat.ne_of_lt (h.facLt y hy)
  have noInst : ∀ y ∈ w.insts, y.1 ≠ w.next := fun y hy => Nat.ne_of_lt (h.instLt y hy)
  cases c with
  | make n u cb =>
    simp only [step, W.make]
    split
    · rename_i s _ _
      refine ⟨?_, by simp⟩
      constructor
      · intro x hx
        rcases List.mem_append.1 hx with hx | hx
        · exact Nat.lt_succ_of_lt (h.facLt x hx)
        · simp only [List.mem_singleton] at hx; subst hx; exact Nat.lt_succ_self _
      · intro x hx; exact Nat.lt_succ_of_lt (h.instLt x hx)
      · exact h.key
      · intro x hx
        obtain ⟨f, hf, h1, h2⟩ := h.alive x hx
        refine ⟨f, ?_, h1, h2⟩
        show find (w.facs ++ [(w.next, _)]) x.2.id = some f
        rw [find_append _ _ _ _ noFac]
        have := h.facLt _ (find_isSome hf)
        rw [if_neg (Nat.ne_of_lt this)]
        exact hf
      · exact h.same
      · exact h.ids
      · exact h.uuids
      · intro p f hf
        have hf : find (w.facs ++ [(w.next, _)]) p = some f := hf
        rw [find_append _ _ _ _ noFac] at hf
        split at hf
        · cases hf; exact ha
        · exact h.nonnull p f hf
      · exact h.made
    · exact ⟨h, by simp⟩
  | register p =>
    obtain ⟨hs, hnot⟩ := ha
    obtain ⟨f, hf⟩ := Option.isSome_iff_exists.1 hs
    simp only [step, W.register, hf]
    have hnot' : ∀ x ∈ w.coll.byUuid, x.2.id ≠ p := by
      intro x hx; exact hnot x.2 ((h.same x.2).2 ⟨x.1, hx⟩)
    rcases add_cases w.coll ⟨p, f.uuid, f.name⟩ with ⟨g, hg, he⟩ | ⟨hnew, bn, he⟩
    · rw [he]
      refine ⟨?_, by simp⟩
      constructor
      · intro x hx; exact h.facLt x (List.mem_filter.1 hx).1
      · exact h.instLt
      · exact h.key
      · intro x hx
        obtain ⟨f', hf', h1, h2⟩ := h.alive x hx
        refine ⟨f', ?_, h1, h2⟩
        show find (free w.facs p) x.2.id = some f'
        rw [find_free, if_neg (hnot' x hx)]
        exact hf'
      · exact h.same
      · exact h.ids
      · exact h.uuids
      · intro q f' hf'
        have hf' : find (free w.facs p) q = some f' := hf'
        rw [find_free] at hf'
        split at hf'
        · cases hf'
        · exact h.nonnull q f' hf'
      · exact h.made
    · rw [he]
      refine ⟨?_, by simp⟩
      constructor
      · exact h.facLt
      · exact h.instLt
      · intro x hx
        rcases List.mem_append.1 hx with hx | hx
        · exact h.key x hx
        · simp only [List.mem_singleton] at hx; subst hx; rfl
      · intro x hx
        rcases List.mem_append.1 hx with hx | hx
        · exact h.alive x hx
        · simp only [List.mem_singleton] at hx; subst hx; exact ⟨f, hf, rfl, rfl⟩
      · intro g
        simp only [List.mem_append, List.mem_singleton, h.same, Prod.mk.injEq]
        constructor
        · rintro (⟨u, hu⟩ | rfl)
          · exact ⟨u, .inl hu⟩
          · exact ⟨f.uuid, .inr ⟨rfl, rfl⟩⟩
        · rintro ⟨u, hu | ⟨_, rfl⟩⟩
          · exact .inl ⟨u, hu⟩
          · exact .inr rfl
      · simp only [List.map_append, List.map_cons, List.map_nil]
        rw [List.nodup_append]
        refine ⟨h.ids, by simp, ?_⟩
        intro a ha b hb e
        simp only [List.mem_singleton] at hb
        obtain ⟨x, hx, rfl⟩ := List.mem_map.1 ha
        exact hnot' x hx (e.trans hb)
      · intro x hx y hy e
        rcases List.mem_append.1 hx with hx | hx <;> rcases List.mem_append.1 hy with hy | hy
        · exact h.uuids x hx y hy e
        · simp only [List.mem_singleton] at hy; subst hy
          exact absurd ((h.key x hx).trans e) (hnew x hx)
        · simp only [List.mem_singleton] at hx; subst hx
          exact absurd ((h.key y hy).trans e.symm) (hnew y hy)
        · simp only [List.mem_singleton] at hx hy; rw [hx, hy]
      · exact h.nonnull
      · intro x hx
        obtain ⟨g, hg, e⟩ := h.made x hx
        exact ⟨g, List.mem_append_left _ hg, e⟩
  | create u n =>
    simp only [step, W.create, Facs.atUuid]
    cases hl : lookup w.coll.byUuid u with
    | none => exact ⟨h, by simp⟩
    | some g =>
      have hm := lookup_mem hl
      obtain ⟨f, hf, hu, _⟩ := h.alive _ hm
      have hk : u = g.uuid := h.key _ hm
      simp only [hf, W.createBy]
      cases hc : f.callback n with
      | throws e => exact ⟨h, by simp⟩
      | null => exact absurd hc (h.nonnull _ _ hf n)
      | «instance» v =>
        simp only
        by_cases hv : v = f.uuid
        · rw [if_neg (fun hh => hh hv)]
          refine ⟨?_, by simp⟩
          constructor
          · intro x hx; exact Nat.lt_succ_of_lt (h.facLt x hx)
          · intro x hx
            rcases List.mem_append.1 hx with hx | hx
            · exact Nat.lt_succ_of_lt (h.instLt x hx)
            · simp only [List.mem_singleton] at hx; subst hx; exact Nat.lt_succ_self _
          · exact h.key
          · exact h.alive
          · exact h.same
          · exact h.ids
          · exact h.uuids
          · exact h.nonnull
          · intro x hx
            rcases List.mem_append.1 hx with hx | hx
            · exact h.made x hx
            · simp only [List.mem_singleton] at hx; subst hx
              exact ⟨g, (h.same g).2 ⟨u, hm⟩, (hu.symm.trans hv.symm)⟩
        · rw [if_pos hv]
          refine ⟨?_, by simp⟩
          have sub : ∀ x ∈ free (w.insts ++ [(w.next, (⟨v, n.getD []⟩ : Inst))]) w.next,
              x ∈ w.insts := by
            intro x hx
            obtain ⟨h1, h2⟩ := List.mem_filter.1 hx
            rcases List.mem_append.1 h1 with h1 | h1
            · exact h1
            · simp only [List.mem_singleton] at h1; subst h1; simp at h2
          constructor
          · intro x hx; exact Nat.lt_succ_of_lt (h.facLt x hx)
          · intro x hx; exact Nat.lt_succ_of_lt (h.instLt x (sub x hx))
          · exact h.key
          · exact h.alive
          · exact h.same
          · exact h.ids
          · exact h.uuids
          · exact h.nonnull
          · intro x hx; exact h.made x (sub x hx)
  | delete p =>
    cases p with
    | none => exact ⟨h, by simp [step, W.delete]⟩
    | some p =>
      obtain ⟨i, hi⟩ := Option.isSome_iff_exists.1 ha
      simp only [step, W.delete, hi]
      refine ⟨?_, by simp⟩
      constructor
      · exact h.facLt
      · intro x hx; exact h.instLt x (List.mem_filter.1 hx).1
      · exact h.key
      · exact h.alive
      · exact h.same
      · exact h.ids
      · exact h.uuids
      · exact h.nonnull
      · intro x hx; exact h.made x (List.mem_filter.1 hx).1

theorem inv_run (cs : List Call) : ∀ {w : W}, Inv w → AllAllowed w cs → Inv (run w cs) := by
  induction cs with
  | nil => intro w h _; exact h
  | cons c cs ih => intro w h ha; exact ih (inv_step h c ha.1).1 ha.2

theorem freeAll_ok (m : List (Nat × Fac)) : ∀ (facs : List (Addr × FacObj)),
    (∀ x ∈ m, ∃ f, find facs x.2.id = some f) → (m.map (fun x => x.2.id)).Nodup →
    ∃ rest, freeAll facs m = some rest ∧
      ∀ p, find rest p = if p ∈ m.map (fun x => x.2.id) then none else find facs p := by
  induction m with
  | nil => intro facs _ _; exact ⟨facs, rfl, by simp⟩
  | cons x m ih =>
    intro facs h hnd
    obtain ⟨u, g⟩ := x
    simp only [List.map_cons, List.nodup_cons] at hnd
    obtain ⟨f, hf⟩ := h _ List.mem_cons_self
    have hf : find facs g.id = some f := hf
    obtain ⟨rest, hr, hp⟩ := ih (free facs g.id) (by
      intro y hy
      obtain ⟨f', hf'⟩ := h y (List.mem_cons_of_mem _ hy)
      refine ⟨f', ?_⟩
      rw [find_free, if_neg]
      · exact hf'
      · intro e; exact hnd.1 (e ▸ List.mem_map_of_mem hy)) hnd.2
    refine ⟨rest, by simp only [freeAll, hf]; exact hr, ?_⟩
    intro p
    rw [hp p, find_free]
    simp only [List.map_cons, List.mem_cons]
    by_cases h1 : p ∈ m.map (fun x => x.2.id)
    · simp [h1]
    · by_cases h2 : p = g.id <;> simp [h1, h2]

/-! ### C126 -/

/-- C126, the memory, partial: after any allowed calls every registered factory exists, no allowed
call reaches undefined behaviour, every existing instance has the UUID of a registered factory, and
the destruction of the collection deletes each registered factory once and no other one. Missing:
callers that register a factory twice (`C126_fails`). -/
theorem C126_memory_partial (cs : List Call) (ha : AllAllowed W.init cs) :
    let w := run W.init cs
    (∀ g ∈ w.coll.all, ∃ f, find w.facs g.id = some f ∧ f.uuid = g.uuid ∧ f.name = g.name) ∧
    (∀ c, Allowed w c → (step w c).2 ≠ .ub) ∧
    (∀ p i, find w.insts p = some i → ∃ g ∈ w.coll.all, g.uuid = i.uuid) ∧
    ∃ rest, freeAll w.facs w.coll.byUuid = some rest ∧
      ∀ p, find rest p = if ∃ g ∈ w.coll.all, g.id = p then none else find w.facs p := by
  intro w
  have h : Inv w := inv_run cs inv_init ha
  refine ⟨?_, fun c hc => (inv_step h c hc).2, fun p i hi => h.made _ (find_isSome hi), ?_⟩
  · intro g hg
    obtain ⟨u, hu⟩ := (h.same g).1 hg
    exact h.alive _ hu
  · obtain ⟨rest, hr, hp⟩ := freeAll_ok w.coll.byUuid w.facs
      (fun x hx => by obtain ⟨f, hf, _⟩ := h.alive x hx; exact ⟨f, hf⟩) h.ids
    refine ⟨rest, hr, fun p => ?_⟩
    rw [hp p]
    have : p ∈ w.coll.byUuid.map (fun x => x.2.id) ↔ ∃ g ∈ w.coll.all, g.id = p := by
      constructor
      · intro hm
        obtain ⟨x, hx, rfl⟩ := List.mem_map.1 hm
        exact ⟨x.2, (h.same _).2 ⟨x.1, hx⟩, rfl⟩
      · rintro ⟨g, hg, rfl⟩
        obtain ⟨u, hu⟩ := (h.same g).1 hg
        exact List.mem_map.2 ⟨_, hu, rfl⟩
    by_cases hq : p ∈ w.coll.byUuid.map (fun x => x.2.id)
    · rw [if_pos hq, if_pos (this.1 hq)]
    · rw [if_neg hq, if_neg (fun hh => hq (this.2 hh))]

/-- C126, creation: `CreateInstance` of the simulator gives a null pointer and does nothing if no
factory has the UUID. Otherwise the one factory with it is used: what its constructor throws is
thrown and nothing is left of the instance; an instance of another type is destroyed and
`InvalidFactory` thrown; and else the caller gets a new instance, which has the UUID that was asked
for and the given name, while all other instances stay. -/
theorem C126_create_partial (cs : List Call) (ha : AllAllowed W.init cs) (u : Nat)
    (name : Option Str) :
    let w := run W.init cs
    let (w', r) := step w (.create u name)
    w'.facs = w.facs ∧ w'.coll = w.coll ∧
    (((∀ g ∈ w.coll.all, g.uuid ≠ u) ∧ r = .ptr none ∧ w'.insts = w.insts) ∨
     ∃ g ∈ w.coll.all, g.uuid = u ∧ (∀ g' ∈ w.coll.all, g'.uuid = u → g' = g) ∧
       ∃ f, find w.facs g.id = some f ∧
        ((∃ e, f.callback name = .throws e ∧ r = .exn e ∧ w'.insts = w.insts) ∨
         (∃ v, v ≠ u ∧ f.callback name = .instance v ∧ r = .exn .invalidFactory ∧
            ∀ p, find w'.insts p = find w.insts p) ∨
         (f.callback name = .instance u ∧ ∃ p, r = .ptr (some p) ∧ find w.insts p = none ∧
            find w'.insts p = some ⟨u, name.getD []⟩ ∧
            ∀ q, q ≠ p → find w'.insts q = find w.insts q))) := by
  intro w
  have h : Inv w := inv_run cs inv_init ha
  have noInst : ∀ y ∈ w.insts, y.1 ≠ w.next := fun y hy => Nat.ne_of_lt (h.instLt y hy)
  have noInst' : find w.insts w.next = none := by
    cases hf : find w.insts w.next with
    | none => rfl
    | some i => exact absurd rfl (noInst _ (find_isSome hf))
  simp only [step, W.create, Facs.atUuid]
  cases hl : lookup w.coll.byUuid u with
  | none =>
    refine ⟨rfl, rfl, .inl ⟨?_, rfl, rfl⟩⟩
    intro g hg e
    obtain ⟨v, hv⟩ := (h.same g).1 hg
    exact lookup_none hl _ hv ((h.key _ hv).trans e)
  | some g =>
    have hm := lookup_mem hl
    obtain ⟨f, hf, hu, _⟩ := h.alive _ hm
    have hf : find w.facs g.id = some f := hf
    have hu : f.uuid = g.uuid := hu
    have hk : u = g.uuid := h.key _ hm
    have hone : ∀ g' ∈ w.coll.all, g'.uuid = u → g' = g := by
      intro g' hg' e
      obtain ⟨v, hv⟩ := (h.same g').1 hg'
      have := h.uuids _ hv _ hm (e.trans hk)
      exact (Prod.mk.injEq .. ▸ this).2
    simp only [hf, W.createBy]
    cases hc : f.callback name with
    | throws e =>
      exact ⟨rfl, rfl, .inr ⟨g, (h.same g).2 ⟨u, hm⟩, hk.symm, hone, f, hf,
        .inl ⟨e, hc, rfl, rfl⟩⟩⟩
    | null => exact absurd hc (h.nonnull _ _ hf name)
    | «instance» v =>
      simp only
      by_cases hv : v = f.uuid
      · rw [if_neg (fun hh => hh hv)]
        refine ⟨rfl, rfl, .inr ⟨g, (h.same g).2 ⟨u, hm⟩, hk.symm, hone, f, hf, .inr (.inr
          ⟨?_, w.next, rfl, noInst', ?_, ?_⟩)⟩⟩
        · rw [hc, hv, hu, hk]
        · rw [find_append _ _ _ _ noInst, if_pos rfl, hv, hu, hk]
        · intro q hq
          rw [find_append _ _ _ _ noInst, if_neg hq]
      · rw [if_pos hv]
        refine ⟨rfl, rfl, .inr ⟨g, (h.same g).2 ⟨u, hm⟩, hk.symm, hone, f, hf, .inr (.inl
          ⟨v, ?_, hc, rfl, ?_⟩)⟩⟩
        · rw [hk, ← hu]; exact hv
        · intro p
          rw [find_free, find_append _ _ _ _ noInst]
          by_cases hp : p = w.next
          · rw [if_pos hp, hp, noInst']
          · rw [if_neg hp, if_neg hp]

/-- C126, registration, partial: a factory whose UUID is new is added at the end; if the UUID is
known the exception is `DuplicateUuid`, the new factory is destroyed, the collection and all other
factories stay. Missing: a factory that is registered twice (`C126_fails`). -/
theorem C126_register_partial (cs : List Call) (ha : AllAllowed W.init cs) (p : Addr) :
    let w := run W.init cs
    Allowed w (.register p) →
    ∃ f, find w.facs p = some f ∧
      let (w', r) := step w (.register p)
      w'.insts = w.insts ∧
      (((∃ g ∈ w.coll.all, g.uuid = f.uuid) ∧ r = .exn .duplicateUuid ∧ w'.coll = w.coll ∧
          find w'.facs p = none ∧ ∀ q, q ≠ p → find w'.facs q = find w.facs q) ∨
       ((∀ g ∈ w.coll.all, g.uuid ≠ f.uuid) ∧ r = .done ∧
          w'.coll.all = w.coll.all ++ [⟨p, f.uuid, f.name⟩] ∧ w'.facs = w.facs)) := by
  intro w hp
  have h : Inv w := inv_run cs inv_init ha
  obtain ⟨hs, hnot⟩ := hp
  obtain ⟨f, hf⟩ := Option.isSome_iff_exists.1 hs
  refine ⟨f, hf, ?_⟩
  simp only [step, W.register, hf]
  rcases add_cases w.coll ⟨p, f.uuid, f.name⟩ with ⟨g, hg, he⟩ | ⟨hnew, bn, he⟩
  · rw [he]
    refine ⟨rfl, .inl ⟨⟨g, (h.same g).2 ⟨_, hg⟩, (h.key _ hg).symm⟩, rfl, rfl, ?_, ?_⟩⟩
    · show find (free w.facs p) p = none
      rw [find_free, if_pos rfl]
    · intro q hq
      show find (free w.facs p) q = _
      rw [find_free, if_neg hq]
  · rw [he]
    refine ⟨rfl, .inr ⟨?_, rfl, rfl, rfl⟩⟩
    intro g hg e
    obtain ⟨v, hv⟩ := (h.same g).1 hg
    exact hnew _ hv ((h.key _ hv).trans e)

/-- C126, making a factory: with a name that is accepted there is a new factory with that name, UUID
and callback, all others stay; with another name `InvalidObjectName` is thrown and nothing happens.
Neither registers a factory. -/
theorem C126_make_partial (cs : List Call) (ha : AllAllowed W.init cs) (name : Option Str) (u : Nat)
    (cb : Option Str → Made) :
    let w := run W.init cs
    let (w', r) := step w (.make name u cb)
    w'.coll = w.coll ∧ w'.insts = w.insts ∧
    ((∃ n s, name = some n ∧ checkName name = .ok s ∧ ∃ p, r = .ptr (some p) ∧
        find w.facs p = none ∧ find w'.facs p = some ⟨String.ofList n, u, cb⟩ ∧
        ∀ q, q ≠ p → find w'.facs q = find w.facs q) ∨
     (checkName name = .invalidObjectName ∧ r = .exn .invalidObjectName ∧ w' = w)) := by
  intro w
  have h : Inv w := inv_run cs inv_init ha
  have noFac : ∀ y ∈ w.facs, y.1 ≠ w.next := fun y hy => Nat.ne_of_lt (h.facLt y hy)
  cases name with
  | none => exact ⟨rfl, rfl, .inr ⟨rfl, rfl, rfl⟩⟩
  | some n =>
    simp only [step, W.make]
    cases hc : checkName (some n) with
    | invalidObjectName => exact ⟨rfl, rfl, .inr ⟨rfl, rfl, rfl⟩⟩
    | ok s =>
      refine ⟨rfl, rfl, .inl ⟨n, s, rfl, rfl, w.next, rfl, ?_, ?_, ?_⟩⟩
      · cases hf : find w.facs w.next with
        | none => rfl
        | some i => exact absurd rfl (noFac _ (find_isSome hf))
      · rw [find_append _ _ _ _ noFac, if_pos rfl]
      · intro q hq
        rw [find_append _ _ _ _ noFac, if_neg hq]

/-- C126, deleting an instance: it is gone, all other instances and all factories stay. -/
theorem C126_delete (w : W) (p : Addr) (hp : (find w.insts p).isSome) :
    let (w', r) := step w (.delete (some p))
    r = .done ∧ w'.facs = w.facs ∧ w'.coll = w.coll ∧ find w'.insts p = none ∧
    ∀ q, q ≠ p → find w'.insts q = find w.insts q := by
  obtain ⟨i, hi⟩ := Option.isSome_iff_exists.1 hp
  simp only [step, W.delete, hi]
  refine ⟨trivial, trivial, trivial, ?_, fun q hq => ?_⟩
  · rw [find_free, if_pos rfl]
  · rw [find_free, if_neg hq]

/-- C126 is false of a callback that gives no instance: `CreateInstance` follows the null pointer.
Nothing else makes `CreateInstance` of a factory undefined, and a null instance may be deleted. -/
theorem C126_null_fails (w : W) (f : FacObj) (name : Option Str) :
    ((w.createBy f name).2 = .ub ↔ f.callback name = .null) ∧ w.delete none = (w, .done) := by
  refine ⟨?_, rfl⟩
  unfold W.createBy
  cases f.callback name with
  | throws e => simp
  | null => simp
  | «instance» u => dsimp only; split <;> simp

/-- C126, factories made by `Factory::Create<T>` with the UUID of `T`: the instance is made if the
name is accepted, and otherwise `InvalidObjectName` is thrown. `InvalidFactory` is for a factory
that was given another UUID than that of `T`. -/
theorem C126_typed (w : W) (f : FacObj) (u : Nat) (hcb : f.callback = callbackOf u)
    (name : Option Str) :
    let r := (w.createBy f name).2
    (checkName name = .invalidObjectName → r = .exn .invalidObjectName) ∧
    (checkName name ≠ .invalidObjectName → f.uuid = u → r = .ptr (some w.next)) ∧
    (checkName name ≠ .invalidObjectName → f.uuid ≠ u → r = .exn .invalidFactory) := by
  simp only [W.createBy, hcb, callbackOf]
  cases hc : checkName name with
  | invalidObjectName => simp
  | ok s =>
    simp only [reduceCtorEq, false_implies, ne_eq, not_false_eq_true, true_implies, true_and]
    refine ⟨fun e => ?_, fun e => ?_⟩
    · subst e; simp
    · have : ¬ u = f.uuid := fun h => e h.symm
      simp [this]

/-- A factory, registered twice. -/
def twice : List Call :=
  [.make (some "F".toList) 5 (callbackOf 5), .register 0, .register 0]

/-- C126, false in full: registering a factory a second time throws `DuplicateUuid`, as the
standard says, and deletes the registered factory. The next creation uses the deleted factory, and
the destructor deletes it a second time. -/
theorem C126_fails :
    (step (run W.init (twice.take 1)) (.register 0)).2 = .done ∧
    (step (run W.init (twice.take 2)) (.register 0)).2 = .exn .duplicateUuid ∧
    find (run W.init twice).facs 0 = none ∧
    (∃ g ∈ (run W.init twice).coll.all, g.id = 0) ∧
    (step (run W.init twice) (.create 5 (some "a".toList))).2 = .ub ∧
    freeAll (run W.init twice).facs (run W.init twice).coll.byUuid = none := by
  refine ⟨by rfl, by rfl, by rfl, ⟨⟨0, 5, "F"⟩, ?_, rfl⟩, by rfl, by rfl⟩
  exact List.mem_singleton.2 rfl

/-- Two factories with different UUIDs, one of which makes instances of another type, one with a
UUID that is taken, and some instances. -/
def demo : List Call :=
  [.make (some "F".toList) 5 (callbackOf 5), .register 0,
   .make (some "G".toList) 6 (callbackOf 7), .register 1,
   .make (some "H".toList) 5 (callbackOf 5), .register 2,
   .create 5 (some "a".toList), .create 5 (some "b".toList), .delete (some 3),
   .create 6 (some "c".toList)]

example : AllAllowed W.init demo := by
  have cb : ∀ u n, callbackOf u n ≠ .null := by
    intro u n; unfold callbackOf; split <;> simp
  refine ⟨cb 5, ⟨by rfl, ?_⟩, cb 7, ⟨by rfl, ?_⟩, cb 5, ⟨by rfl, ?_⟩, trivial, trivial, by rfl,
    trivial, trivial⟩
  · intro g hg; cases hg
  · intro g hg
    have : g = ⟨0, 5, "F"⟩ := List.mem_singleton.1 hg
    subst this; decide
  · intro g hg
    have : g = ⟨0, 5, "F"⟩ ∨ g = ⟨1, 6, "G"⟩ := by
      rcases List.mem_cons.1 hg with h | h
      · exact .inl h
      · exact .inr (List.mem_singleton.1 h)
    rcases this with h | h <;> subst h <;> decide
example : (find (run W.init demo).insts 4).isSome = true := by rfl
example : (run W.init demo).insts = [(4, ⟨5, "b".toList⟩)] := by rfl
example : (run W.init demo).coll.all = [⟨0, 5, "F"⟩, ⟨1, 6, "G"⟩] := by rfl
example : (step (run W.init demo) (.create 6 (some "c".toList))).2 = .exn .invalidFactory := by rfl
example : (step (run W.init demo) (.create 5 (some "1".toList))).2 = .exn .invalidObjectName := by
  rfl
example : (step (run W.init demo) (.create 9 (some "c".toList))).2 = .ptr none := by rfl

end Verif.Tree.Make
