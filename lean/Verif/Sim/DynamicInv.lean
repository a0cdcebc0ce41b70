import Verif.Sim.Dynamic

/-! Invariant of the visits of `Verif.Sim.Dynamic`. -/
namespace Verif.Sim.Dyn
open Verif.Tree

/-- The containers of the simulator or root (`none`) or of a component. -/
def contsOf (w : World) (root : List Nat) : Option Nat → List Nat
  | none => root
  | some c => w.conts c

/-- The owner is the root, or has been visited. -/
def OV (log : List Ev) (o : Option Nat) : Prop := ∀ c, o = some c → Ev.visited c ∈ log

/-- The component was added to a container in which the loop had begun. -/
def Late : List Ev → Nat → Prop
  | [], _ => False
  | .added k e :: l, d => (e = d ∧ ∃ n, Ev.begun k n ∈ l) ∨ Late l d
  | .visited _ :: l, d => Late l d
  | .called _ _ :: l, d => Late l d
  | .begun _ _ :: l, d => Late l d

/-- The calls made on a component, oldest first. -/
def callsOf (c : Nat) : List Ev → List LCall
  | [] => []
  | .called d o :: l => if d = c then callsOf c l ++ [o] else callsOf c l
  | .visited _ :: l => callsOf c l
  | .added _ _ :: l => callsOf c l
  | .begun _ _ :: l => callsOf c l

/-- The order of the visits: each component once, and after the owner of its container. -/
def VOk (w : World) (root : List Nat) : List Ev → Prop
  | [] => True
  | .visited d :: l => Ev.visited d ∉ l ∧
      (∃ k o, k ∈ contsOf w root o ∧ w.place d = some k ∧ OV l o) ∧ VOk w root l
  | .called _ _ :: l => VOk w root l
  | .added _ _ :: l => VOk w root l
  | .begun _ _ :: l => VOk w root l

/-- The order of the calls: those on a component come before the loops over its containers. -/
def COk (w : World) : List Ev → Prop
  | [] => True
  | .called c _ :: l => (∀ k, k ∈ w.conts c → ∀ n, Ev.begun k n ∉ l) ∧ COk w l
  | .visited _ :: l => COk w l
  | .added _ _ :: l => COk w l
  | .begun _ _ :: l => COk w l

/-- The container of a loop over components. -/
def Frame.kOf : Frame → Option Nat
  | .comps k _ _ => some k
  | .conts _ _ => none

/-- The owner of a loop over containers. -/
def Frame.oOf : Frame → Option (Option Nat)
  | .comps _ _ _ => none
  | .conts o _ => some o

/-- A component is in one container, at one place; every container has one owner, which has it
once; the deleted components are in no container. -/
structure World.Ok (w : World) (root : List Nat) : Prop where
  nodup : ∀ k, (w.items k).Nodup
  place : ∀ k d, d ∈ w.items k ↔ w.place d = some k
  contsNodup : ∀ o, (contsOf w root o).Nodup
  owner : ∀ o p k, k ∈ contsOf w root o → k ∈ contsOf w root p → o = p
  dead : ∀ d, w.dead d = true → w.place d = none

structure Inv (ops : List LCall) (root : List Nat) (w0 : World) (w : World)
    (acting : Option (Nat × List LCall)) (stack : List Frame) (log : List Ev) : Prop where
  conts : w.conts = w0.conts
  ok : w.Ok root
  f1 : ∀ k i n, .comps k i n ∈ stack → .begun k n ∈ log ∧ i ≤ n
  f2 : ∀ o rest, .conts o rest ∈ stack →
    OV log o ∧ (∀ k, k ∈ rest → k ∈ contsOf w root o) ∧ rest.Nodup
  f3 : ∀ c os, acting = some (c, os) → .visited c ∈ log
  u1 : (stack.filterMap Frame.kOf).Nodup
  u2 : (stack.filterMap Frame.oOf).Nodup
  u3 : ∀ c os rest, acting = some (c, os) → .conts (some c) rest ∉ stack
  b1 : ∀ k n n', .begun k n ∈ log → .begun k n' ∈ log → n = n'
  b2 : ∀ k n, .begun k n ∈ log → n ≤ (w.items k).length ∧
    ∀ i c, i < n → (w.items k)[i]? = some c →
      .visited c ∈ log ∨ ∃ i', .comps k i' n ∈ stack ∧ i' ≤ i
  b3 : ∀ k n, .begun k n ∈ log → ∃ o, k ∈ contsOf w root o ∧ OV log o ∧
    (∀ rest, .conts o rest ∈ stack → k ∉ rest) ∧ (∀ c os, acting = some (c, os) → o ≠ some c)
  v1 : ∀ c, .visited c ∈ log → ∃ k n i, .begun k n ∈ log ∧ (w.items k)[i]? = some c ∧ i < n ∧
    ∀ i' n', .comps k i' n' ∈ stack → i < i'
  v2 : ∀ o k, OV log o → k ∈ contsOf w root o → (∃ n, .begun k n ∈ log) ∨
    (∃ rest, .conts o rest ∈ stack ∧ k ∈ rest) ∨ ∃ c os, o = some c ∧ acting = some (c, os)
  v3 : VOk w root log
  v4 : COk w0 log
  l1 : ∀ k i d, (w.items k)[i]? = some d → (Late log d ↔ ∃ n, .begun k n ∈ log ∧ n ≤ i)
  l2 : ∀ d, Late log d → w.place d ≠ none ∨ w.dead d = true
  c1 : ∀ c, .visited c ∉ log → w.life c = w0.life c ∧ callsOf c log = []
  c2 : ∀ c os, acting = some (c, os) →
    callsOf c log ++ due os (w.life c).state = due ops (w0.life c).state ∧
    final os (w.life c).state = final ops (w0.life c).state
  c3 : ∀ c, .visited c ∈ log → (∀ os, acting ≠ some (c, os)) →
    callsOf c log = due ops (w0.life c).state ∧
    (w.life c).state = final ops (w0.life c).state

theorem idx_unique {l : List Nat} (h : l.Nodup) {i j c : Nat} (hi : l[i]? = some c)
    (hj : l[j]? = some c) : i = j := by
  obtain ⟨hi', hi2⟩ := List.getElem?_eq_some_iff.1 hi
  obtain ⟨hj', hj2⟩ := List.getElem?_eq_some_iff.1 hj
  rcases Nat.lt_trichotomy i j with hl | hl | hl
  · exact absurd (hi2.trans hj2.symm) (List.pairwise_iff_getElem.1 h i j hi' hj' hl)
  · exact hl
  · exact absurd (hj2.trans hi2.symm) (List.pairwise_iff_getElem.1 h j i hj' hi' hl)

theorem Frame.k_unique {stack : List Frame} (h : (stack.filterMap Frame.kOf).Nodup) {k i n : Nat}
    {st : List Frame} (hs : stack = .comps k i n :: st) :
    ∀ i' n', .comps k i' n' ∈ st → False := by
  subst hs
  intro i' n' hm
  simp only [List.filterMap_cons, Frame.kOf, List.nodup_cons] at h
  exact h.1 (List.mem_filterMap.2 ⟨_, hm, rfl⟩)

theorem Frame.o_unique {stack : List Frame} (h : (stack.filterMap Frame.oOf).Nodup) {o : Option Nat}
    {rest : List Nat} {st : List Frame} (hs : stack = .conts o rest :: st) :
    ∀ rest', .conts o rest' ∈ st → False := by
  subst hs
  intro rest' hm
  simp only [List.filterMap_cons, Frame.oOf, List.nodup_cons] at h
  exact h.1 (List.mem_filterMap.2 ⟨_, hm, rfl⟩)

theorem OV.mono {l l' : List Ev} (h : ∀ e ∈ l, e ∈ l') {o : Option Nat} (ho : OV l o) : OV l' o :=
  fun c hc => h _ (ho c hc)

theorem OV.of_cons {e : Ev} {l : List Ev} {o : Option Nat} (ho : OV (e :: l) o)
    (he : ∀ c, o = some c → e ≠ .visited c) : OV l o := fun c hc => by
  rcases List.mem_cons.1 (ho c hc) with h | h
  · exact absurd h.symm (he c hc)
  · exact h

theorem VOk.mono {w w' : World} {root : List Nat} (hc : w'.conts = w.conts) :
    ∀ {log : List Ev}, VOk w root log →
      (∀ d k, .visited d ∈ log → w.place d = some k → w'.place d = some k) → VOk w' root log
  | [], _, _ => trivial
  | .visited d :: l, h, hp => by
    obtain ⟨h1, ⟨k, o, h2, h3, h4⟩, h5⟩ := h
    refine ⟨h1, ⟨k, o, ?_, hp d k List.mem_cons_self h3, h4⟩,
      VOk.mono hc h5 fun e k he => hp e k (List.mem_cons_of_mem _ he)⟩
    cases o with
    | none => exact h2
    | some c => show k ∈ w'.conts c; rw [hc]; exact h2
  | .called _ _ :: l, h, hp =>
    VOk.mono (log := l) hc h fun e k he => hp e k (List.mem_cons_of_mem _ he)
  | .added _ _ :: l, h, hp =>
    VOk.mono (log := l) hc h fun e k he => hp e k (List.mem_cons_of_mem _ he)
  | .begun _ _ :: l, h, hp =>
    VOk.mono (log := l) hc h fun e k he => hp e k (List.mem_cons_of_mem _ he)

theorem contsOf_congr {w w' : World} (h : w'.conts = w.conts) (root : List Nat) (o : Option Nat) :
    contsOf w' root o = contsOf w root o := by
  cases o with
  | none => rfl
  | some c => show w'.conts c = w.conts c; rw [h]

section
variable {ops : List LCall} {root : List Nat} {w0 w : World} {acting : Option (Nat × List LCall)}
  {stack : List Frame} {log : List Ev}

/-- What is in a container has been visited only if the loop over it has begun. -/
theorem Inv.begun_of_visited (h : Inv ops root w0 w acting stack log) {d k : Nat}
    (hv : .visited d ∈ log) (hp : w.place d = some k) : ∃ n, .begun k n ∈ log := by
  obtain ⟨k', n, i, h1, h2, _⟩ := h.v1 d hv
  have : w.place d = some k' := (h.ok.place k' d).1 (List.mem_of_getElem? h2)
  rw [hp] at this
  cases this
  exact ⟨n, h1⟩

theorem Inv.edit (h : Inv ops root w0 w acting stack log) (e : Edit)
    (hs : ∀ k d, e = .del k d → ∀ n, .begun k n ∉ log) :
    Inv ops root w0 (w.edit e).1 acting stack ((w.edit e).2 ++ log) := by
  cases e with
  | add k d =>
    dsimp only [World.edit]
    by_cases hd : w.place d = none ∧ w.dead d = false
    · rw [if_pos hd]
      obtain ⟨hd1, hd2⟩ := hd
      have hnot : ∀ j, d ∉ w.items j := fun j hj => by
        rw [(h.ok.place j d).1 hj] at hd1; cases hd1
      have hvis : .visited d ∉ log := fun hv => by
        obtain ⟨k', n, i, _, h2, _⟩ := h.v1 d hv
        exact hnot k' (List.mem_of_getElem? h2)
      -- the items up to the old size are the old ones
      have hget : ∀ j i c : Nat, (w.items j)[i]? = some c →
          (if j = k then w.items k ++ [d] else w.items j)[i]? = some c := by
        intro j i c hc
        split
        · rename_i hjk
          subst hjk
          rw [List.getElem?_append_left (List.getElem?_eq_some_iff.1 hc).1]; exact hc
        · exact hc
      have hget' : ∀ j i c : Nat, (if j = k then w.items k ++ [d] else w.items j)[i]? = some c →
          (w.items j)[i]? = some c ∨ (j = k ∧ i = (w.items k).length ∧ c = d) := by
        intro j i c hc
        split at hc
        · rename_i hjk
          subst hjk
          rcases Nat.lt_or_ge i (w.items j).length with hi | hi
          · rw [List.getElem?_append_left hi] at hc; exact Or.inl hc
          · rw [List.getElem?_append_right hi] at hc
            have hlt := (List.getElem?_eq_some_iff.1 hc).1
            simp only [List.length_cons, List.length_nil] at hlt
            have : i = (w.items j).length := by omega
            subst this
            simp only [Nat.sub_self, List.getElem?_cons_zero, Option.some.injEq] at hc
            exact Or.inr ⟨rfl, rfl, hc.symm⟩
        · exact Or.inl hc
      have hlen : ∀ j, (w.items j).length ≤
          (if j = k then w.items k ++ [d] else w.items j).length := by
        intro j; split
        · rename_i hjk; subst hjk; simp
        · exact Nat.le_refl _
      refine
        { conts := h.conts
          ok := ?_, f1 := ?_, f2 := ?_, f3 := ?_, u1 := h.u1, u2 := h.u2, u3 := h.u3, b1 := ?_
          b2 := ?_, b3 := ?_, v1 := ?_, v2 := ?_, v3 := ?_, v4 := h.v4, l1 := ?_, l2 := ?_, c1 := ?_, c2 := ?_
          c3 := ?_ }
      · refine ⟨fun j => ?_, fun j e => ?_, h.ok.contsNodup, h.ok.owner, fun e he => ?_⟩
        · show (if j = k then w.items k ++ [d] else w.items j).Nodup
          split
          · rw [List.nodup_append]
            exact ⟨h.ok.nodup k, by simp, fun a ha b hb hab => by
              simp only [List.mem_singleton] at hb; subst hb; subst hab; exact hnot k ha⟩
          · exact h.ok.nodup j
        · show e ∈ (if j = k then _ else _) ↔ (if e = d then _ else _) = _
          by_cases hed : e = d
          · subst hed
            rw [if_pos rfl]
            split
            · rename_i hjk; subst hjk; simp
            · rename_i hjk
              refine ⟨fun hh => absurd hh (hnot j), fun hh => ?_⟩
              cases hh; exact absurd rfl hjk
          · rw [if_neg hed, ← h.ok.place]
            split
            · rename_i hjk; subst hjk; simp [hed]
            · rfl
        · show (if e = d then _ else _) = _
          split
          · rename_i hed; subst hed; rw [hd2] at he; cases he
          · exact h.ok.dead e he
      · intro j i n hm
        exact ⟨List.mem_cons_of_mem _ (h.f1 j i n hm).1, (h.f1 j i n hm).2⟩
      · intro o rest hm
        exact ⟨(h.f2 o rest hm).1.mono fun _ => List.mem_cons_of_mem _, (h.f2 o rest hm).2⟩
      · intro c os ha; exact List.mem_cons_of_mem _ (h.f3 c os ha)
      · intro j n n' h1 h2
        exact h.b1 j n n' (by simpa using h1) (by simpa using h2)
      · intro j n hb
        have hb' : .begun j n ∈ log := by simpa using hb
        obtain ⟨g1, g2⟩ := h.b2 j n hb'
        refine ⟨Nat.le_trans g1 (hlen j), fun i c hi hc => ?_⟩
        rcases hget' j i c hc with hc | ⟨rfl, rfl, _⟩
        · rcases g2 i c hi hc with g | g
          · exact Or.inl (List.mem_cons_of_mem _ g)
          · exact Or.inr g
        · omega
      · intro j n hb
        obtain ⟨o, g1, g2, g3, g4⟩ := h.b3 j n (by simpa using hb)
        exact ⟨o, g1, g2.mono fun _ => List.mem_cons_of_mem _, g3, g4⟩
      · intro c hv
        obtain ⟨j, n, i, g1, g2, g3, g4⟩ := h.v1 c (by simpa using hv)
        exact ⟨j, n, i, List.mem_cons_of_mem _ g1, hget j i c g2, g3, g4⟩
      · intro o j ho hj
        rcases h.v2 o j (ho.of_cons fun c _ => by simp) hj with ⟨n, g⟩ | g | g
        · exact Or.inl ⟨n, List.mem_cons_of_mem _ g⟩
        · exact Or.inr (Or.inl g)
        · exact Or.inr (Or.inr g)
      · show VOk _ root log
        refine VOk.mono (w := w) ?_ h.v3 fun e j he hp => ?_
        · rfl
        show (if e = d then _ else _) = _
        rw [if_neg (fun hed : e = d => hvis (hed ▸ he))]; exact hp
      · intro j i e hc
        have hbe : ∀ n, (Ev.begun j n ∈ Ev.added k d :: log) ↔ Ev.begun j n ∈ log := by simp
        show (d = e ∧ ∃ n, .begun k n ∈ log) ∨ Late log e ↔ ∃ n, (.begun j n ∈ .added k d :: log) ∧ n ≤ i
        simp only [hbe]
        rcases hget' j i e hc with hc' | ⟨rfl, rfl, rfl⟩
        · have hne : d ≠ e := fun hh => hnot j (hh ▸ List.mem_of_getElem? hc')
          rw [← h.l1 j i e hc']
          simp [hne]
        · constructor
          · rintro (⟨_, n, hn⟩ | hl)
            · exact ⟨n, hn, (h.b2 _ n hn).1⟩
            · rcases h.l2 e hl with g | g
              · exact absurd hd1 g
              · rw [hd2] at g; cases g
          · rintro ⟨n, hn, _⟩; exact Or.inl ⟨rfl, n, hn⟩
      · intro e hl
        rcases hl with ⟨rfl, _⟩ | hl
        · left; show (if d = d then _ else _) ≠ _; simp
        · rcases h.l2 e hl with g | g
          · left
            show (if e = d then _ else _) ≠ _
            split
            · simp
            · exact g
          · exact Or.inr g
      · intro c hv
        exact h.c1 c (by simpa using hv)
      · intro c os ha; exact h.c2 c os ha
      · intro c hv ha; exact h.c3 c (by simpa using hv) ha
    · rw [if_neg hd]; exact h
  | del k d =>
    dsimp only [World.edit]
    by_cases hd : w.place d = some k
    · rw [if_pos hd]
      have hnb := hs k d rfl
      have hvis : .visited d ∉ log := fun hv => by
        obtain ⟨n, hn⟩ := h.begun_of_visited hv hd
        exact hnb n hn
      have hother : ∀ j, (∃ n, .begun j n ∈ log) →
          (if j = k then (w.items k).erase d else w.items j) = w.items j := by
        rintro j ⟨n, hn⟩
        rw [if_neg (fun hjk : j = k => hnb n (hjk ▸ hn))]
      refine
        { conts := h.conts
          ok := ?_, f1 := h.f1, f2 := h.f2, f3 := h.f3, u1 := h.u1, u2 := h.u2, u3 := h.u3
          b1 := h.b1, b2 := ?_, b3 := h.b3, v1 := ?_, v2 := h.v2, v3 := ?_, v4 := h.v4, l1 := ?_, l2 := ?_
          c1 := h.c1, c2 := h.c2, c3 := h.c3 }
      · refine ⟨fun j => ?_, fun j e => ?_, h.ok.contsNodup, h.ok.owner, fun e he => ?_⟩
        · show (if j = k then (w.items k).erase d else w.items j).Nodup
          split
          · exact (h.ok.nodup k).erase d
          · exact h.ok.nodup j
        · show e ∈ (if j = k then _ else _) ↔ (if e = d then _ else _) = _
          by_cases hed : e = d
          · subst hed
            rw [if_pos rfl]
            simp only [reduceCtorEq, iff_false]
            split
            · rename_i hjk; subst hjk
              rw [(h.ok.nodup j).mem_erase_iff]; simp
            · rename_i hjk
              intro hh
              have := (h.ok.place j e).1 hh
              rw [hd] at this; cases this; exact hjk rfl
          · rw [if_neg hed, ← h.ok.place]
            split
            · rename_i hjk; subst hjk; rw [(h.ok.nodup j).mem_erase_iff]; simp [hed]
            · rfl
        · show (if e = d then _ else _) = _
          split
          · rfl
          · rename_i hed
            have he' : (if e = d then true else w.dead e) = true := he
            rw [if_neg hed] at he'
            exact h.ok.dead e he'
      · intro j n hb
        show n ≤ (if j = k then (w.items k).erase d else w.items j).length ∧ _
        have := h.b2 j n hb
        have e := hother j ⟨n, hb⟩
        refine ⟨by rw [e]; exact this.1, fun i c hi hc => ?_⟩
        have hc' : (if j = k then (w.items k).erase d else w.items j)[i]? = some c := hc
        rw [e] at hc'
        exact this.2 i c hi hc'
      · intro c hv
        obtain ⟨j, n, i, g1, g2, g3, g4⟩ := h.v1 c hv
        refine ⟨j, n, i, g1, ?_, g3, g4⟩
        show (if j = k then (w.items k).erase d else w.items j)[i]? = some c
        rw [hother j ⟨n, g1⟩]; exact g2
      · show VOk _ root log
        refine VOk.mono (w := w) ?_ h.v3 fun e j he hp => ?_
        · rfl
        show (if e = d then _ else _) = _
        rw [if_neg (fun hed : e = d => hvis (hed ▸ he))]; exact hp
      · intro j i e hc
        have hc' : (if j = k then (w.items k).erase d else w.items j)[i]? = some e := hc
        show Late log e ↔ ∃ n, .begun j n ∈ log ∧ n ≤ i
        by_cases hjk : j = k
        · subst hjk
          rw [if_pos rfl] at hc'
          have hm := (List.erase_subset (a := d)) (List.mem_of_getElem? hc')
          obtain ⟨i', hi'⟩ := List.getElem?_of_mem hm
          rw [h.l1 j i' e hi']
          constructor
          · rintro ⟨n, hn, _⟩; exact absurd hn (hnb n)
          · rintro ⟨n, hn, _⟩; exact absurd hn (hnb n)
        · rw [if_neg hjk] at hc'
          exact h.l1 j i e hc'
      · intro e hl
        show (if e = d then _ else _) ≠ _ ∨ (if e = d then _ else _) = _
        by_cases hed : e = d
        · right; rw [if_pos hed]
        · rw [if_neg hed, if_neg hed]; exact h.l2 e hl
    · rw [if_neg hd]; exact h

theorem Inv.edits {es : List Edit} : ∀ {w : World} {log : List Ev},
    Inv ops root w0 w acting stack log →
    (∀ k d, .del k d ∈ es → ∀ n, .begun k n ∉ log) →
    Inv ops root w0 (w.edits log es).1 acting stack (w.edits log es).2 := by
  induction es with
  | nil => intro w log h _; exact h
  | cons e es ih =>
    intro w log h hs
    refine ih (h.edit e fun k d he => hs k d (he ▸ List.mem_cons_self)) fun k d hm n hb => ?_
    refine hs k d (List.mem_cons_of_mem _ hm) n ?_
    rcases List.mem_append.1 hb with hb | hb
    · cases e <;> simp only [World.edit] at hb <;> split at hb <;> simp at hb
    · exact hb

/-- Nothing the visit still uses has been deleted. -/
theorem Inv.not_dangling (h : Inv ops root w0 w acting stack log) (st : Option Stop) :
    (Visit.mk w acting stack log st).dangling = false := by
  have hv : ∀ c, .visited c ∈ log → w.dead c = false := fun c hc => by
    obtain ⟨k, n, i, _, h2, _⟩ := h.v1 c hc
    have hp := (h.ok.place k c).1 (List.mem_of_getElem? h2)
    cases hd : w.dead c with
    | false => rfl
    | true => rw [h.ok.dead c hd] at hp; cases hp
  unfold Visit.dangling
  rw [Bool.or_eq_false_iff]
  constructor
  · cases ha : acting with
    | none => rfl
    | some x => obtain ⟨c, os⟩ := x; exact hv c (h.f3 c os ha)
  · rw [List.any_eq_false]
    intro f hf
    match f, hf with
    | .conts (some c) rest, hf =>
      have := hv c ((h.f2 _ _ hf).1 c rfl)
      simp [this]
    | .conts none _, _ => simp
    | .comps _ _ _, _ => simp

/-- The calls are over: the containers of the component are next. -/
theorem Inv.enter {c : Nat} (h : Inv ops root w0 w (some (c, [])) stack log) :
    Inv ops root w0 w none (.conts (some c) (w.conts c) :: stack) log where
  conts := h.conts
  ok := h.ok
  f1 := fun k i n hm => h.f1 k i n (by simpa using hm)
  f2 := fun o rest hm => by
    rcases List.mem_cons.1 hm with hm | hm
    · cases hm
      refine ⟨fun d hd => ?_, fun k hk => hk, h.ok.contsNodup (some c)⟩
      cases hd; exact h.f3 c [] rfl
    · exact h.f2 o rest hm
  f3 := fun _ _ ha => (nomatch ha)
  u1 := h.u1
  u2 := by
    simp only [List.filterMap_cons, Frame.oOf, List.nodup_cons]
    refine ⟨fun hm => ?_, h.u2⟩
    obtain ⟨f, hf, hfo⟩ := List.mem_filterMap.1 hm
    cases f with
    | comps => cases hfo
    | conts o rest => cases hfo; exact h.u3 c [] rest rfl hf
  u3 := fun _ _ _ ha => (nomatch ha)
  b1 := h.b1
  b2 := fun k n hb => ⟨(h.b2 k n hb).1, fun i d hi hd => by
    rcases (h.b2 k n hb).2 i d hi hd with g | ⟨i', g1, g2⟩
    · exact Or.inl g
    · exact Or.inr ⟨i', List.mem_cons_of_mem _ g1, g2⟩⟩
  b3 := fun k n hb => by
    obtain ⟨o, g1, g2, g3, g4⟩ := h.b3 k n hb
    refine ⟨o, g1, g2, fun rest hm => ?_, fun _ _ ha => (nomatch ha)⟩
    rcases List.mem_cons.1 hm with hm | hm
    · cases hm; exact absurd rfl (g4 c [] rfl)
    · exact g3 rest hm
  v1 := fun d hd => by
    obtain ⟨k, n, i, g1, g2, g3, g4⟩ := h.v1 d hd
    exact ⟨k, n, i, g1, g2, g3, fun i' n' hm => g4 i' n' (by simpa using hm)⟩
  v2 := fun o k ho hk => by
    rcases h.v2 o k ho hk with g | ⟨rest, g1, g2⟩ | ⟨d, os, g1, g2⟩
    · exact Or.inl g
    · exact Or.inr (Or.inl ⟨rest, List.mem_cons_of_mem _ g1, g2⟩)
    · cases g2; subst g1; exact Or.inr (Or.inl ⟨_, List.mem_cons_self, hk⟩)
  v3 := h.v3
  v4 := h.v4
  l1 := h.l1
  l2 := h.l2
  c1 := h.c1
  c2 := fun _ _ ha => (nomatch ha)
  c3 := fun d hd _ => by
    by_cases hdc : d = c
    · subst hdc
      have := h.c2 d [] rfl
      simpa [due, final] using this
    · exact h.c3 d hd fun os hos => hdc (by cases hos; rfl)

/-- The call is not due. -/
theorem Inv.skip {c : Nat} {o : LCall} {os : List LCall}
    (h : Inv ops root w0 w (some (c, o :: os)) stack log) (hn : (w.life c).state ≠ o.needs) :
    Inv ops root w0 w (some (c, os)) stack log where
  conts := h.conts
  ok := h.ok
  f1 := h.f1
  f2 := h.f2
  f3 := fun d _ hd => by cases hd; exact h.f3 c _ rfl
  u1 := h.u1
  u2 := h.u2
  u3 := fun d _ rest hd => by cases hd; exact h.u3 c _ rest rfl
  b1 := h.b1
  b2 := h.b2
  b3 := fun k n hb => by
    obtain ⟨p, g1, g2, g3, g4⟩ := h.b3 k n hb
    exact ⟨p, g1, g2, g3, fun d _ hd => by cases hd; exact g4 c _ rfl⟩
  v1 := h.v1
  v2 := fun p k hp hk => by
    rcases h.v2 p k hp hk with g | g | ⟨d, xs, g1, g2⟩
    · exact Or.inl g
    · exact Or.inr (Or.inl g)
    · cases g2; exact Or.inr (Or.inr ⟨c, os, g1, rfl⟩)
  v3 := h.v3
  v4 := h.v4
  l1 := h.l1
  l2 := h.l2
  c1 := h.c1
  c2 := fun d _ hd => by
    cases hd
    have := h.c2 c _ rfl
    simpa only [due, final, if_neg hn] using this
  c3 := fun d hd ha => h.c3 d hd fun xs hx => by cases hx; exact ha os rfl

/-- The call is made, and does not raise; the changes of the hook come after. -/
theorem Inv.call {c : Nat} {o : LCall} {os : List LCall} {l : Life}
    (h : Inv ops root w0 w (some (c, o :: os)) stack log) (hn : (w.life c).state = o.needs)
    (hl : l.state = due.after o) :
    Inv ops root w0 (w.setLife c l) (some (c, os)) stack (.called c o :: log) where
  conts := h.conts
  ok := ⟨h.ok.nodup, h.ok.place, h.ok.contsNodup, h.ok.owner, h.ok.dead⟩
  f1 := fun k i n hm => ⟨List.mem_cons_of_mem _ (h.f1 k i n hm).1, (h.f1 k i n hm).2⟩
  f2 := fun p rest hm =>
    ⟨(h.f2 p rest hm).1.mono fun _ => List.mem_cons_of_mem _, (h.f2 p rest hm).2⟩
  f3 := fun d _ hd => by cases hd; exact List.mem_cons_of_mem _ (h.f3 c _ rfl)
  u1 := h.u1
  u2 := h.u2
  u3 := fun d _ rest hd => by cases hd; exact h.u3 c _ rest rfl
  b1 := fun k n n' h1 h2 => h.b1 k n n' (by simpa using h1) (by simpa using h2)
  b2 := fun k n hb => by
    obtain ⟨g1, g2⟩ := h.b2 k n (by simpa using hb)
    refine ⟨g1, fun i d hi hd => ?_⟩
    rcases g2 i d hi hd with g | g
    · exact Or.inl (List.mem_cons_of_mem _ g)
    · exact Or.inr g
  b3 := fun k n hb => by
    obtain ⟨p, g1, g2, g3, g4⟩ := h.b3 k n (by simpa using hb)
    exact ⟨p, g1, g2.mono fun _ => List.mem_cons_of_mem _, g3,
      fun d _ hd => by cases hd; exact g4 c _ rfl⟩
  v1 := fun d hd => by
    obtain ⟨k, n, i, g1, g2⟩ := h.v1 d (by simpa using hd)
    exact ⟨k, n, i, List.mem_cons_of_mem _ g1, g2⟩
  v2 := fun p k hp hk => by
    rcases h.v2 p k (hp.of_cons fun c _ => by simp) hk with ⟨n, g⟩ | g | ⟨d, xs, g1, g2⟩
    · exact Or.inl ⟨n, List.mem_cons_of_mem _ g⟩
    · exact Or.inr (Or.inl g)
    · cases g2; exact Or.inr (Or.inr ⟨c, os, g1, rfl⟩)
  v3 := by
    show VOk _ root log
    refine VOk.mono (w := w) ?_ h.v3 fun _ _ _ hp => hp
    rfl
  v4 := by
    refine ⟨fun k hk n hb => ?_, h.v4⟩
    obtain ⟨p, g1, _, _, g4⟩ := h.b3 k n hb
    have hk' : k ∈ contsOf w root (some c) := by show k ∈ w.conts c; rw [h.conts]; exact hk
    exact g4 c _ rfl (h.ok.owner p (some c) k g1 hk')
  l1 := fun k i d hd => by
    refine (h.l1 k i d hd).trans ⟨fun ⟨n, g1, g2⟩ => ⟨n, List.mem_cons_of_mem _ g1, g2⟩,
      fun ⟨n, g1, g2⟩ => ⟨n, by simpa using g1, g2⟩⟩
  l2 := h.l2
  c1 := fun d hd => by
    have hdc : d ≠ c := fun hh => by subst hh; exact hd (List.mem_cons_of_mem _ (h.f3 d _ rfl))
    have := h.c1 d (fun hh => hd (List.mem_cons_of_mem _ hh))
    refine ⟨?_, ?_⟩
    · show (if d = c then _ else _) = _
      rw [if_neg hdc]; exact this.1
    · show (if c = d then _ else _) = _
      rw [if_neg (fun hh : c = d => hdc hh.symm)]; exact this.2
  c2 := fun d _ hd => by
    cases hd
    have := h.c2 c _ rfl
    have e : ((w.setLife c l).life c) = l := by simp [World.setLife]
    simp only [due, final, if_pos hn] at this
    rw [e, hl]
    refine ⟨?_, this.2⟩
    show (if c = c then callsOf c log ++ [o] else _) ++ _ = _
    rw [if_pos rfl, List.append_assoc]
    exact this.1
  c3 := fun d hd ha => by
    have hdc : d ≠ c := fun hh => ha os (by rw [hh])
    have := h.c3 d (by simpa using hd) fun xs hx => by
      cases hx; exact hdc rfl
    refine ⟨?_, ?_⟩
    · show (if c = d then _ else _) = _
      rw [if_neg (fun hh : c = d => hdc hh.symm)]; exact this.1
    · show (if d = c then _ else _ : Life).state = _
      rw [if_neg hdc]; exact this.2

/-- The loop over the containers of an owner is over. -/
theorem Inv.leaveConts {o : Option Nat} {st : List Frame}
    (h : Inv ops root w0 w none (.conts o [] :: st) log) : Inv ops root w0 w none st log where
  conts := h.conts
  ok := h.ok
  f1 := fun k i n hm => h.f1 k i n (List.mem_cons_of_mem _ hm)
  f2 := fun p rest hm => h.f2 p rest (List.mem_cons_of_mem _ hm)
  f3 := fun _ _ ha => (nomatch ha)
  u1 := h.u1
  u2 := (List.nodup_cons.1 h.u2).2
  u3 := fun _ _ _ ha => (nomatch ha)
  b1 := h.b1
  b2 := fun k n hb => ⟨(h.b2 k n hb).1, fun i d hi hd => by
    rcases (h.b2 k n hb).2 i d hi hd with g | ⟨i', g1, g2⟩
    · exact Or.inl g
    · exact Or.inr ⟨i', by simpa using g1, g2⟩⟩
  b3 := fun k n hb => by
    obtain ⟨p, g1, g2, g3, g4⟩ := h.b3 k n hb
    exact ⟨p, g1, g2, fun rest hm => g3 rest (List.mem_cons_of_mem _ hm), g4⟩
  v1 := fun d hd => by
    obtain ⟨k, n, i, g1, g2, g3, g4⟩ := h.v1 d hd
    exact ⟨k, n, i, g1, g2, g3, fun i' n' hm => g4 i' n' (List.mem_cons_of_mem _ hm)⟩
  v2 := fun p k hp hk => by
    rcases h.v2 p k hp hk with g | ⟨rest, g1, g2⟩ | g
    · exact Or.inl g
    · rcases List.mem_cons.1 g1 with g1 | g1
      · cases g1; cases g2
      · exact Or.inr (Or.inl ⟨rest, g1, g2⟩)
    · exact Or.inr (Or.inr g)
  v3 := h.v3
  v4 := h.v4
  l1 := h.l1
  l2 := h.l2
  c1 := h.c1
  c2 := fun _ _ ha => (nomatch ha)
  c3 := h.c3

/-- The loop over the components of a container begins. -/
theorem Inv.begin {p : Option Nat} {k : Nat} {ks : List Nat} {st : List Frame}
    (h : Inv ops root w0 w none (.conts p (k :: ks) :: st) log) :
    Inv ops root w0 w none (.comps k 0 (w.items k).length :: .conts p ks :: st)
      (.begun k (w.items k).length :: log) := by
  obtain ⟨hp, hks, hnd⟩ := h.f2 p _ List.mem_cons_self
  have hnew : ∀ n, .begun k n ∉ log := fun n hn => by
    obtain ⟨o, g1, _, g3, _⟩ := h.b3 k n hn
    have := h.ok.owner o p k g1 (hks k List.mem_cons_self)
    subst this
    exact g3 _ List.mem_cons_self List.mem_cons_self
  have hone := Frame.o_unique h.u2 rfl
  have hbe : ∀ j n, .begun j n ∈ .begun k (w.items k).length :: log →
      (j = k ∧ n = (w.items k).length) ∨ (j ≠ k ∧ .begun j n ∈ log) := fun j n hb => by
    rcases List.mem_cons.1 hb with hb | hb
    · cases hb; exact Or.inl ⟨rfl, rfl⟩
    · exact Or.inr ⟨fun hh => hnew n (hh ▸ hb), hb⟩
  refine
    { conts := h.conts
      ok := h.ok, f1 := ?_, f2 := ?_, f3 := fun _ _ ha => (nomatch ha), u1 := ?_, u2 := ?_
      u3 := fun _ _ _ ha => (nomatch ha), b1 := ?_, b2 := ?_, b3 := ?_, v1 := ?_, v2 := ?_
      v3 := h.v3, v4 := h.v4, l1 := ?_, l2 := h.l2, c1 := ?_, c2 := fun _ _ ha => (nomatch ha), c3 := ?_ }
  · intro j i n hm
    rcases List.mem_cons.1 hm with hm | hm
    · cases hm; exact ⟨List.mem_cons_self, Nat.zero_le _⟩
    · have := h.f1 j i n (by simpa using hm)
      exact ⟨List.mem_cons_of_mem _ this.1, this.2⟩
  · intro o rest hm
    have hm' : .conts o rest ∈ .conts p ks :: st := by simpa using hm
    rcases List.mem_cons.1 hm' with hm | hm
    · cases hm
      exact ⟨hp.mono fun _ => List.mem_cons_of_mem _,
        fun j hj => hks j (List.mem_cons_of_mem _ hj), (List.nodup_cons.1 hnd).2⟩
    · have := h.f2 o rest (List.mem_cons_of_mem _ hm)
      exact ⟨this.1.mono fun _ => List.mem_cons_of_mem _, this.2⟩
  · simp only [List.filterMap_cons, Frame.kOf, List.nodup_cons]
    refine ⟨fun hm => ?_, h.u1⟩
    obtain ⟨f, hf, hfk⟩ := List.mem_filterMap.1 hm
    cases f with
    | conts => cases hfk
    | comps j i n => cases hfk; exact hnew n (h.f1 _ i n (List.mem_cons_of_mem _ hf)).1
  · exact h.u2
  · intro j n n' h1 h2
    rcases hbe j n h1 with ⟨g1, g2⟩ | ⟨g1, g2⟩ <;> rcases hbe j n' h2 with ⟨g3, g4⟩ | ⟨g3, g4⟩
    · rw [g2, g4]
    · exact absurd g1 g3
    · exact absurd g3 g1
    · exact h.b1 j n n' g2 g4
  · intro j n hb
    rcases hbe j n hb with ⟨rfl, rfl⟩ | ⟨g1, g2⟩
    · exact ⟨Nat.le_refl _, fun i d hi hd => Or.inr ⟨0, List.mem_cons_self, Nat.zero_le _⟩⟩
    · obtain ⟨g3, g4⟩ := h.b2 j n g2
      refine ⟨g3, fun i d hi hd => ?_⟩
      rcases g4 i d hi hd with g | ⟨i', g5, g6⟩
      · exact Or.inl (List.mem_cons_of_mem _ g)
      · refine Or.inr ⟨i', ?_, g6⟩
        have : .comps j i' n ∈ st := by simpa using g5
        exact List.mem_cons_of_mem _ (List.mem_cons_of_mem _ this)
  · intro j n hb
    rcases hbe j n hb with ⟨rfl, rfl⟩ | ⟨g1, g2⟩
    · refine ⟨p, hks j List.mem_cons_self, hp.mono fun _ => List.mem_cons_of_mem _,
        fun rest hm => ?_, fun _ _ ha => (nomatch ha)⟩
      have hm' : .conts p rest ∈ .conts p ks :: st := by simpa using hm
      rcases List.mem_cons.1 hm' with hm | hm
      · cases hm; exact (List.nodup_cons.1 hnd).1
      · exact absurd hm (hone rest)
    · obtain ⟨o, g3, g4, g5, _⟩ := h.b3 j n g2
      refine ⟨o, g3, g4.mono fun _ => List.mem_cons_of_mem _, fun rest hm => ?_,
        fun _ _ ha => (nomatch ha)⟩
      have hm' : .conts o rest ∈ .conts p ks :: st := by simpa using hm
      rcases List.mem_cons.1 hm' with hm | hm
      · cases hm
        exact fun hj => g5 _ List.mem_cons_self (List.mem_cons_of_mem _ hj)
      · exact g5 rest (List.mem_cons_of_mem _ hm)
  · intro c hv
    obtain ⟨j, n, i, g1, g2, g3, g4⟩ := h.v1 c (by simpa using hv)
    refine ⟨j, n, i, List.mem_cons_of_mem _ g1, g2, g3, fun i' n' hm => ?_⟩
    rcases List.mem_cons.1 hm with hm | hm
    · cases hm; exact absurd g1 (hnew n)
    · exact g4 i' n' (by simpa using hm)
  · intro o j ho hj
    rcases h.v2 o j (ho.of_cons fun c _ => by simp) hj with ⟨n, g⟩ | ⟨rest, g1, g2⟩ | ⟨_, _, _, g⟩
    · exact Or.inl ⟨n, List.mem_cons_of_mem _ g⟩
    · rcases List.mem_cons.1 g1 with g1 | g1
      · cases g1
        rcases List.mem_cons.1 g2 with g2 | g2
        · subst g2; exact Or.inl ⟨_, List.mem_cons_self⟩
        · exact Or.inr (Or.inl ⟨ks, by simp, g2⟩)
      · exact Or.inr (Or.inl ⟨rest, List.mem_cons_of_mem _ (List.mem_cons_of_mem _ g1), g2⟩)
    · cases g
  · intro j i d hd
    show Late log d ↔ _
    rw [h.l1 j i d hd]
    constructor
    · rintro ⟨n, g1, g2⟩; exact ⟨n, List.mem_cons_of_mem _ g1, g2⟩
    · rintro ⟨n, g1, g2⟩
      rcases hbe j n g1 with ⟨rfl, rfl⟩ | ⟨_, g⟩
      · have := (List.getElem?_eq_some_iff.1 hd).1; omega
      · exact ⟨n, g, g2⟩
  · intro c hv; exact h.c1 c (by simpa using hv)
  · intro c hv ha; exact h.c3 c (by simpa using hv) ha

/-- The loop over the components of a container is over. -/
theorem Inv.leaveComps {k n : Nat} {st : List Frame}
    (h : Inv ops root w0 w none (.comps k n n :: st) log) : Inv ops root w0 w none st log where
  conts := h.conts
  ok := h.ok
  f1 := fun k i n hm => h.f1 k i n (List.mem_cons_of_mem _ hm)
  f2 := fun p rest hm => h.f2 p rest (List.mem_cons_of_mem _ hm)
  f3 := fun _ _ ha => (nomatch ha)
  u1 := (List.nodup_cons.1 h.u1).2
  u2 := h.u2
  u3 := fun _ _ _ ha => (nomatch ha)
  b1 := h.b1
  b2 := fun j m hb => ⟨(h.b2 j m hb).1, fun i d hi hd => by
    rcases (h.b2 j m hb).2 i d hi hd with g | ⟨i', g1, g2⟩
    · exact Or.inl g
    · rcases List.mem_cons.1 g1 with g1 | g1
      · cases g1; omega
      · exact Or.inr ⟨i', g1, g2⟩⟩
  b3 := fun j m hb => by
    obtain ⟨p, g1, g2, g3, g4⟩ := h.b3 j m hb
    exact ⟨p, g1, g2, fun rest hm => g3 rest (List.mem_cons_of_mem _ hm), g4⟩
  v1 := fun d hd => by
    obtain ⟨j, m, i, g1, g2, g3, g4⟩ := h.v1 d hd
    exact ⟨j, m, i, g1, g2, g3, fun i' n' hm => g4 i' n' (List.mem_cons_of_mem _ hm)⟩
  v2 := fun p j hp hj => by
    rcases h.v2 p j hp hj with g | ⟨rest, g1, g2⟩ | g
    · exact Or.inl g
    · exact Or.inr (Or.inl ⟨rest, by simpa using g1, g2⟩)
    · exact Or.inr (Or.inr g)
  v3 := h.v3
  v4 := h.v4
  l1 := h.l1
  l2 := h.l2
  c1 := h.c1
  c2 := fun _ _ ha => (nomatch ha)
  c3 := h.c3

/-- A component is visited. -/
theorem Inv.visit {k i n c : Nat} {st : List Frame}
    (h : Inv ops root w0 w none (.comps k i n :: st) log) (hin : i ≠ n)
    (hc : (w.items k)[i]? = some c) :
    Inv ops root w0 w (some (c, ops)) (.comps k (i + 1) n :: st) (.visited c :: log) := by
  obtain ⟨hbk, hle⟩ := h.f1 k i n List.mem_cons_self
  have hone := Frame.k_unique h.u1 rfl
  have hcm := List.mem_of_getElem? hc
  have hcp := (h.ok.place k c).1 hcm
  have hnew : .visited c ∉ log := fun hv => by
    obtain ⟨j, m, i', _, g2, _, g4⟩ := h.v1 c hv
    have hp := (h.ok.place j c).1 (List.mem_of_getElem? g2)
    rw [hcp] at hp
    cases hp
    have := idx_unique (h.ok.nodup k) hc g2
    have := g4 i n List.mem_cons_self
    omega
  have hpre : ∀ p, OV log p → p ≠ some c := fun p hp hh => hnew (hp c hh)
  refine
    { conts := h.conts
      ok := h.ok, f1 := ?_, f2 := ?_, f3 := ?_, u1 := h.u1, u2 := h.u2
      u3 := ?_, b1 := ?_, b2 := ?_, b3 := ?_, v1 := ?_, v2 := ?_
      v3 := ?_, v4 := h.v4, l1 := ?_, l2 := h.l2, c1 := ?_, c2 := ?_, c3 := ?_ }
  · intro j i' m hm
    rcases List.mem_cons.1 hm with hm | hm
    · cases hm; exact ⟨List.mem_cons_of_mem _ hbk, by omega⟩
    · have := h.f1 j i' m (List.mem_cons_of_mem _ hm)
      exact ⟨List.mem_cons_of_mem _ this.1, this.2⟩
  · intro o rest hm
    have := h.f2 o rest (by simpa using hm)
    exact ⟨this.1.mono fun _ => List.mem_cons_of_mem _, this.2⟩
  · intro d _ hd; cases hd; exact List.mem_cons_self
  · intro d _ rest hd hm
    cases hd
    exact hpre _ (h.f2 (some c) rest (by simpa using hm)).1 rfl
  · intro j m m' h1 h2
    exact h.b1 j m m' (by simpa using h1) (by simpa using h2)
  · intro j m hb
    have hb' : .begun j m ∈ log := by simpa using hb
    obtain ⟨g1, g2⟩ := h.b2 j m hb'
    refine ⟨g1, fun i' d hi hd => ?_⟩
    rcases g2 i' d hi hd with g | ⟨i'', g3, g4⟩
    · exact Or.inl (List.mem_cons_of_mem _ g)
    · rcases List.mem_cons.1 g3 with g3 | g3
      · cases g3
        by_cases hii : i' = i
        · subst hii
          rw [hc] at hd
          cases hd
          exact Or.inl List.mem_cons_self
        · exact Or.inr ⟨i + 1, List.mem_cons_self, by omega⟩
      · exact Or.inr ⟨i'', List.mem_cons_of_mem _ g3, g4⟩
  · intro j m hb
    obtain ⟨o, g1, g2, g3, _⟩ := h.b3 j m (by simpa using hb)
    refine ⟨o, g1, g2.mono fun _ => List.mem_cons_of_mem _, fun rest hm => ?_, fun d _ hd => ?_⟩
    · exact g3 rest (by simpa using hm)
    · cases hd; exact hpre o g2
  · intro d hd
    rcases List.mem_cons.1 hd with hd | hd
    · cases hd
      refine ⟨k, n, i, List.mem_cons_of_mem _ hbk, hc, by omega, fun i' n' hm => ?_⟩
      rcases List.mem_cons.1 hm with hm | hm
      · cases hm; omega
      · exact absurd hm (hone i' n')
    · obtain ⟨j, m, i', g1, g2, g3, g4⟩ := h.v1 d hd
      refine ⟨j, m, i', List.mem_cons_of_mem _ g1, g2, g3, fun i'' n' hm => ?_⟩
      rcases List.mem_cons.1 hm with hm | hm
      · cases hm
        have := g4 i n List.mem_cons_self
        omega
      · exact g4 i'' n' (List.mem_cons_of_mem _ hm)
  · intro o j ho hj
    by_cases hoc : o = some c
    · exact Or.inr (Or.inr ⟨c, ops, hoc, rfl⟩)
    · have ho' : OV log o := ho.of_cons fun d hd hh => by cases hh; exact hoc hd
      rcases h.v2 o j ho' hj with ⟨m, g⟩ | ⟨rest, g1, g2⟩ | ⟨_, _, _, g⟩
      · exact Or.inl ⟨m, List.mem_cons_of_mem _ g⟩
      · refine Or.inr (Or.inl ⟨rest, ?_, g2⟩)
        have : .conts o rest ∈ st := by simpa using g1
        exact List.mem_cons_of_mem _ this
      · cases g
  · obtain ⟨o, g1, g2, _⟩ := h.b3 k n hbk
    exact ⟨hnew, ⟨k, o, g1, hcp, g2⟩, h.v3⟩
  · intro j i' d hd
    refine (h.l1 j i' d hd).trans ⟨fun ⟨n, g1, g2⟩ => ⟨n, List.mem_cons_of_mem _ g1, g2⟩,
      fun ⟨n, g1, g2⟩ => ⟨n, by simpa using g1, g2⟩⟩
  · intro d hd; exact h.c1 d fun hh => hd (List.mem_cons_of_mem _ hh)
  · intro d _ hd
    cases hd
    obtain ⟨g1, g2⟩ := h.c1 c hnew
    refine ⟨?_, ?_⟩
    · show callsOf c log ++ _ = _
      rw [g1, g2]; rfl
    · rw [g1]
  · intro d hd ha
    rcases List.mem_cons.1 hd with hd | hd
    · cases hd; exact absurd rfl (ha ops)
    · exact h.c3 d hd fun _ hh => (nomatch hh)

/-- The invariant of a visit that has not ended with an exception. -/
def Visit.Good (ops : List LCall) (root : List Nat) (w0 : World) (s : Visit) : Prop :=
  s.stop ≠ some .undefined ∧ (s.stop = none → Inv ops root w0 s.world s.acting s.stack s.log)

theorem Visit.Good.step {s : Visit} (h : s.Good ops root w0) (es : List Edit) (raises : Bool)
    (hs : ∀ k d, .del k d ∈ es → ∀ n, .begun k n ∉ s.log) :
    (s.step ops es raises).Good ops root w0 := by
  obtain ⟨w, acting, stack, log, stop⟩ := s
  cases stop with
  | some x => exact h
  | none =>
    have hi : Inv ops root w0 w acting stack log := h.2 rfl
    unfold Visit.step
    rw [if_neg (by simp), if_neg (by rw [hi.not_dangling]; simp)]
    dsimp only
    cases acting with
    | some x =>
      obtain ⟨c, os⟩ := x
      cases os with
      | nil => exact ⟨by simp, fun _ => hi.enter⟩
      | cons o os =>
        dsimp only
        by_cases hn : (w.life c).state = o.needs
        · rw [if_pos hn]
          obtain ⟨e1, e2⟩ := call_ok (w.life c) o hn raises
          cases raises with
          | true =>
            rw [if_neg (fun hh => by have := e1.1 hh; cases this)]
            exact ⟨by simp, fun hh => (nomatch hh)⟩
          | false =>
            rw [if_pos (e1.2 rfl)]
            refine ⟨by simp, fun _ => ?_⟩
            refine (hi.call hn (by rw [e2]; simp)).edits fun k d hm n hb => ?_
            exact hs k d hm n (by simpa using hb)
        · rw [if_neg hn]; exact ⟨by simp, fun _ => hi.skip hn⟩
    | none =>
      match stack, hi with
      | [], hi => exact ⟨by simp, fun _ => hi⟩
      | .conts _ [] :: st, hi => exact ⟨by simp, fun _ => hi.leaveConts⟩
      | .conts p (k :: ks) :: st, hi => exact ⟨by simp, fun _ => hi.begin⟩
      | .comps k i n :: st, hi =>
        dsimp only
        by_cases hin : i = n
        · rw [if_pos hin]; subst hin; exact ⟨by simp, fun _ => hi.leaveComps⟩
        · rw [if_neg hin]
          obtain ⟨hb, hle⟩ := hi.f1 k i n List.mem_cons_self
          have hlen := (hi.b2 k n hb).1
          have hlt : i < (w.items k).length := by omega
          have hc : (w.items k)[i]? = some (w.items k)[i] := List.getElem?_eq_getElem hlt
          rw [hc]
          exact ⟨by simp, fun _ => hi.visit hin hc⟩

theorem Visit.Good.start {w0 : World} (hw : w0.Ok root) :
    (Visit.start w0 root).Good ops root w0 := by
  refine ⟨by simp [Visit.start], fun _ => ?_⟩
  have hm : ∀ f, f ∈ (Visit.start w0 root).stack → f = .conts none root := fun f hf => by
    simpa [Visit.start] using hf
  refine
    { conts := rfl
      ok := hw, f1 := fun k i n hf => (nomatch hm _ hf), f2 := fun o rest hf => ?_
      f3 := fun _ _ ha => (nomatch ha)
      u1 := List.nodup_nil, u2 := by simp [Visit.start, Frame.oOf]
      u3 := fun _ _ _ ha => (nomatch ha)
      b1 := fun _ _ _ ha => (nomatch ha), b2 := fun _ _ ha => (nomatch ha)
      b3 := fun _ _ ha => (nomatch ha)
      v1 := fun _ ha => (nomatch ha), v2 := fun o k ho hk => ?_
      v3 := trivial, v4 := trivial, l1 := fun k i d hd => ⟨fun hh => hh.elim, fun ⟨_, hh, _⟩ => (nomatch hh)⟩
      l2 := fun _ hh => hh.elim, c1 := fun _ _ => ⟨rfl, rfl⟩
      c2 := fun _ _ ha => (nomatch ha), c3 := fun _ ha => (nomatch ha) }
  · have := hm _ hf
    cases this
    exact ⟨fun c hc => (nomatch hc), fun k hk => hk, hw.contsNodup none⟩
  · cases o with
    | none => exact Or.inr (Or.inl ⟨root, by simp [Visit.start], hk⟩)
    | some c => exact nomatch ho c rfl

end

end Verif.Sim.Dyn
