import Verif.Field.NetProps
import Verif.Field.Tree

/-! Property C58 for arrays and structures of fields. -/
namespace Verif.Field
open Verif.Any (Kind Fl Val Any Out)

/-! ### Specification -/

/-- A pair of fields to connect. -/
inductive Link
  | simple (i j : Nat)
  | sarray (i j : Nat)
  | node (i j : Nat)
deriving DecidableEq

mutual
/-- The pairs of corresponding fields of two fields: themselves, and those in them, in order. -/
def pairs : FTree → FTree → List Link
  | .simple i => fun u => match u with
    | .simple j => [.simple i j]
    | _ => []
  | .sarray i => fun u => match u with
    | .sarray j => [.sarray i j]
    | _ => []
  | .node _ id ts => fun u => match u with
    | .node _ id' us => .node id id' :: pairsList ts us
    | _ => []
def pairsList : List FTree → List FTree → List Link
  | [] => fun _ => []
  | t :: ts => fun us => match us with
    | [] => []
    | u :: us => pairs t u ++ pairsList ts us
end

mutual
/-- The fields have the same structure. -/
def sameShape : FTree → FTree → Bool
  | .simple _ => fun u => match u with
    | .simple _ => true
    | _ => false
  | .sarray _ => fun u => match u with
    | .sarray _ => true
    | _ => false
  | .node s _ ts => fun u => match u with
    | .node s' _ us => s == s' && sameShapes ts us
    | _ => false
def sameShapes : List FTree → List FTree → Bool
  | [] => fun us => us.isEmpty
  | t :: ts => fun us => match us with
    | [] => false
    | u :: us => sameShape t u && sameShapes ts us
end

/-- The pair is connected: the target is in the list of the source. -/
def World.connected (w : World) : Link → Prop
  | .simple i j => j ∈ (w.net i).targets
  | .sarray i j => j ∈ (w.arrs i).targets
  | .node i j => w.nflow i = true ∧ j ∈ w.ntargets i

/-- The leaves of the pair agree: kinds of simple fields, sizes (and kinds of the array types)
of arrays of simple items. -/
def World.agree (w : World) : Link → Prop
  | .simple i j => (w.net j).kind = (w.net i).kind
  | .sarray i j => (w.arrs i).equivalent (w.arrs j) = true
  | .node _ _ => True

/-- A leaf of the pair can push. -/
def World.pushes (w : World) : Link → Prop
  | .simple i _ => (w.net i).connectable = true
  | .sarray i _ => (w.arrs i).connectable = true
  | .node _ _ => True

/-- The source of a pair. -/
def Link.source : Link → Nat × Nat
  | .simple i _ => (0, i)
  | .sarray i _ => (1, i)
  | .node i _ => (2, i)

/-- The targets that pairs give to a source. -/
def given (k i : Nat) (ls : List Link) : List Nat :=
  ls.filterMap fun
    | .simple i' j => if k = 0 ∧ i' = i then some j else none
    | .sarray i' j => if k = 1 ∧ i' = i then some j else none
    | .node i' j => if k = 2 ∧ i' = i then some j else none

/-- The connection of one pair. -/
def Link.add (narrow : Fl → Fl) (f : Nat) (w : World) : Link → WRes
  | .simple i j =>
    let n1 := w.net.set i { w.net i with targets := (w.net i).targets ++ [j] }
    (setValue narrow f n1 j (n1 i).get).world w
  | .sarray i j =>
    let n1 := w.arrs.set i { w.arrs i with targets := (w.arrs i).targets ++ [j] }
    (acopy narrow n1 i j (List.range (w.arrs i).values.length)).world w
  | .node id id' => .ok (if w.nflow id then
      { w with ntargets := fun k => if k = id then w.ntargets k ++ [id'] else w.ntargets k }
      else w)

/-- The connection of pairs, one after the other, until an exception. -/
def addAll (narrow : Fl → Fl) (f : Nat) (w : World) : List Link → WRes
  | [] => .ok w
  | l :: ls => match l.add narrow f w with
    | .ok w' => addAll narrow f w' ls
    | r => r

/-! ### Lemmas -/

mutual
theorem equivalent_spec (w : World) : ∀ t u, equivalent w t u = true ↔
    sameShape t u = true ∧ ∀ l ∈ pairs t u, w.agree l
  | .simple i => by
    intro u; cases u <;> simp [equivalent, sameShape, pairs, World.agree]
  | .sarray i => by
    intro u; cases u <;> simp [equivalent, sameShape, pairs, World.agree]
  | .node s id ts => by
    intro u
    cases u with
    | simple => simp [equivalent, sameShape]
    | sarray => simp [equivalent, sameShape]
    | node s' id' us =>
      have := equivalents_spec w ts us
      simp only [equivalent, sameShape, pairs, Bool.and_eq_true, List.mem_cons, this]
      constructor
      · rintro ⟨h1, h2, h3⟩
        refine ⟨⟨h1, h2⟩, ?_⟩
        rintro l (rfl | hl)
        · trivial
        · exact h3 l hl
      · rintro ⟨⟨h1, h2⟩, h3⟩
        exact ⟨h1, h2, fun l hl => h3 l (Or.inr hl)⟩
theorem equivalents_spec (w : World) : ∀ ts us, equivalents w ts us = true ↔
    sameShapes ts us = true ∧ ∀ l ∈ pairsList ts us, w.agree l
  | [] => by intro us; simp [equivalents, sameShapes, pairsList]
  | t :: ts => by
    intro us
    cases us with
    | nil => simp [equivalents, sameShapes]
    | cons u us =>
      have h1 := equivalent_spec w t u
      have h2 := equivalents_spec w ts us
      simp only [equivalents, sameShapes, pairsList, Bool.and_eq_true, List.mem_append, h1, h2]
      constructor
      · rintro ⟨⟨a, b⟩, c, d⟩
        exact ⟨⟨a, c⟩, fun l hl => hl.elim (b l) (d l)⟩
      · rintro ⟨⟨a, c⟩, d⟩
        exact ⟨⟨a, fun l hl => d l (Or.inl hl)⟩, c, fun l hl => d l (Or.inr hl)⟩
end

mutual
theorem canConnect_spec (w : World) : ∀ t u, canConnect w t u = true ↔
    sameShape t u = true ∧ ∀ l ∈ pairs t u, w.pushes l ∧ ¬ w.connected l
  | .simple i => by
    intro u; cases u <;> simp [canConnect, sameShape, pairs, World.pushes, World.connected]
  | .sarray i => by
    intro u; cases u <;> simp [canConnect, sameShape, pairs, World.pushes, World.connected]
  | .node s id ts => by
    intro u
    cases u with
    | simple => simp [canConnect, sameShape]
    | sarray => simp [canConnect, sameShape]
    | node s' id' us =>
      have := canConnects_spec w ts us
      have hc : (!w.nflow id || !(w.ntargets id).contains id') = true ↔
          ¬ w.connected (.node id id') := by
        simp only [World.connected]
        cases w.nflow id <;> simp
      simp only [canConnect, sameShape, pairs, Bool.and_eq_true, List.mem_cons, this, hc]
      constructor
      · rintro ⟨⟨h1, h2⟩, h3, h4⟩
        refine ⟨⟨h1, h3⟩, ?_⟩
        rintro l (rfl | hl)
        · exact ⟨trivial, h2⟩
        · exact h4 l hl
      · rintro ⟨⟨h1, h2⟩, h3⟩
        exact ⟨⟨h1, (h3 _ (Or.inl rfl)).2⟩, h2, fun l hl => h3 l (Or.inr hl)⟩
theorem canConnects_spec (w : World) : ∀ ts us, canConnects w ts us = true ↔
    sameShapes ts us = true ∧ ∀ l ∈ pairsList ts us, w.pushes l ∧ ¬ w.connected l
  | [] => by intro us; simp [canConnects, sameShapes, pairsList]
  | t :: ts => by
    intro us
    cases us with
    | nil => simp [canConnects, sameShapes]
    | cons u us =>
      have h1 := canConnect_spec w t u
      have h2 := canConnects_spec w ts us
      simp only [canConnects, sameShapes, pairsList, Bool.and_eq_true, List.mem_append, h1, h2]
      constructor
      · rintro ⟨⟨a, b⟩, c, d⟩
        exact ⟨⟨a, c⟩, fun l hl => hl.elim (b l) (d l)⟩
      · rintro ⟨⟨a, c⟩, d⟩
        exact ⟨⟨a, fun l hl => d l (Or.inl hl)⟩, c, fun l hl => d l (Or.inr hl)⟩
end

theorem addAll_append (narrow : Fl → Fl) (f : Nat) (ls ks : List Link) : ∀ w,
    addAll narrow f w (ls ++ ks) = match addAll narrow f w ls with
      | .ok w' => addAll narrow f w' ks
      | r => r := by
  induction ls with
  | nil => intro w; rfl
  | cons l ls ih =>
    intro w
    simp only [List.cons_append, addAll]
    cases l.add narrow f w with
    | ok w' => exact ih w'
    | raised => rfl
    | ub => rfl
    | diverges => rfl

mutual
theorem link_spec (narrow : Fl → Fl) (f : Nat) (w : World) : ∀ t u, sameShape t u = true →
    link narrow f w t u = addAll narrow f w (pairs t u)
  | .simple i => by
    intro u h
    cases u with
    | simple j =>
      simp only [link, pairs, addAll, Link.add]
      generalize (setValue narrow f _ j _).world w = r
      cases r <;> rfl
    | _ => simp [sameShape] at h
  | .sarray i => by
    intro u h
    cases u with
    | sarray j =>
      simp only [link, pairs, addAll, Link.add]
      generalize (acopy narrow _ i j _).world w = r
      cases r <;> rfl
    | _ => simp [sameShape] at h
  | .node s id ts => by
    intro u h
    cases u with
    | node s' id' us =>
      simp only [sameShape, Bool.and_eq_true] at h
      simp only [link, pairs, addAll, Link.add]
      exact links_spec narrow f _ ts us h.2
    | _ => simp [sameShape] at h
theorem links_spec (narrow : Fl → Fl) (f : Nat) (w : World) : ∀ ts us, sameShapes ts us = true →
    links narrow f w ts us = addAll narrow f w (pairsList ts us)
  | [] => by intro us _; simp [links, pairsList, addAll]
  | t :: ts => by
    intro us h
    cases us with
    | nil => simp [sameShapes] at h
    | cons u us =>
      simp only [sameShapes, Bool.and_eq_true] at h
      simp only [links, pairsList, addAll_append]
      rw [link_spec narrow f w t u h.1]
      cases addAll narrow f w (pairs t u) with
      | ok w' => exact links_spec narrow f w' ts us h.2
      | raised => rfl
      | ub => rfl
      | diverges => rfl
end

theorem aset_targets (narrow : Fl → Fl) (n m : Arrs) (i k : Nat) (a : Any)
    (h : aset narrow n i k a = .ok m) (j : Nat) : (m j).targets = (n j).targets := by
  unfold aset at h
  split at h
  · cases h
  · split at h
    · cases h
      unfold Arrs.set
      split
      · rename_i e; subst e; rfl
      · rfl
    · cases h
    · cases h

theorem acopy_targets (narrow : Fl → Fl) (i t : Nat) (ks : List Nat) : ∀ n m : Arrs,
    acopy narrow n i t ks = .ok m → ∀ j, (m j).targets = (n j).targets := by
  induction ks with
  | nil => intro n m h j; cases h; rfl
  | cons k ks ih =>
    intro n m h j
    unfold acopy at h
    split at h
    · rename_i a _
      cases hs : aset narrow n t k a with
      | ok n' =>
        rw [hs] at h
        rw [ih n' m h j, aset_targets narrow n n' t k a hs j]
      | raised => rw [hs] at h; cases h
      | ub => rw [hs] at h; cases h
    · cases h
    · cases h

/-- The targets of a source, of any class. -/
def World.targets (w : World) (k i : Nat) : List Nat :=
  match k with
  | 0 => (w.net i).targets
  | 1 => (w.arrs i).targets
  | _ => w.ntargets i

theorem add_targets (narrow : Fl → Fl) (f : Nat) (w m : World) (l : Link)
    (h : l.add narrow f w = .ok m) : m.nflow = w.nflow ∧
    (∀ i, (m.net i).targets = (w.net i).targets ++ given 0 i [l]) ∧
    (∀ i, (m.arrs i).targets = (w.arrs i).targets ++ given 1 i [l]) ∧
    (∀ i, m.ntargets i = if w.nflow i then w.ntargets i ++ given 2 i [l] else w.ntargets i) := by
  cases l with
  | simple i j =>
    simp only [Link.add] at h
    cases hs : setValue narrow f (w.net.set i { w.net i with targets := (w.net i).targets ++ [j] })
        j ((w.net.set i { w.net i with targets := (w.net i).targets ++ [j] }) i).get with
    | ok n =>
      rw [hs] at h
      cases h
      have hw := setValue_wrote narrow f _ _ _ n (by rw [hs]; rfl)
      refine ⟨rfl, fun k => ?_, fun k => by simp [given], fun k => by simp [given]⟩
      simp only
      rw [hw.targets k]
      unfold Net.set
      by_cases hk : k = i
      · subst hk; simp [given]
      · simp [given, hk, Ne.symm hk]
    | raised => rw [hs] at h; cases h
    | ub => rw [hs] at h; cases h
    | diverges => rw [hs] at h; cases h
  | sarray i j =>
    simp only [Link.add] at h
    cases hs : acopy narrow
        (w.arrs.set i { w.arrs i with targets := (w.arrs i).targets ++ [j] }) i j
        (List.range (w.arrs i).values.length) with
    | ok n =>
      rw [hs] at h
      cases h
      have hw := acopy_targets narrow i j _ _ n hs
      refine ⟨rfl, fun k => by simp [given], fun k => ?_, fun k => by simp [given]⟩
      simp only
      rw [hw k]
      unfold Arrs.set
      by_cases hk : k = i
      · subst hk; simp [given]
      · simp [given, hk, Ne.symm hk]
    | raised => rw [hs] at h; cases h
    | ub => rw [hs] at h; cases h
  | node id id' =>
    simp only [Link.add] at h
    cases h
    refine ⟨by split <;> rfl, fun k => by split <;> simp [given],
      fun k => by split <;> simp [given], fun k => ?_⟩
    by_cases hf : w.nflow id = true
    · rw [if_pos hf]
      by_cases hk : k = id
      · subst hk; simp [given, hf]
      · simp [given, hk, Ne.symm hk]
    · rw [if_neg hf]
      by_cases hk : k = id
      · subst hk; simp [hf]
      · simp [given, Ne.symm hk]

theorem given_cons (k i : Nat) (l : Link) (ls : List Link) :
    given k i (l :: ls) = given k i [l] ++ given k i ls := by
  unfold given
  rw [← List.singleton_append, List.filterMap_append]

theorem addAll_targets (narrow : Fl → Fl) (f : Nat) (ls : List Link) : ∀ w m,
    addAll narrow f w ls = .ok m → m.nflow = w.nflow ∧
    (∀ i, (m.net i).targets = (w.net i).targets ++ given 0 i ls) ∧
    (∀ i, (m.arrs i).targets = (w.arrs i).targets ++ given 1 i ls) ∧
    (∀ i, m.ntargets i = if w.nflow i then w.ntargets i ++ given 2 i ls else w.ntargets i) := by
  induction ls with
  | nil => intro w m h; cases h; simp [given]
  | cons l ls ih =>
    intro w m h
    unfold addAll at h
    cases hl : l.add narrow f w with
    | ok w' =>
      rw [hl] at h
      obtain ⟨a1, a2, a3, a4⟩ := add_targets narrow f w w' l hl
      obtain ⟨b1, b2, b3, b4⟩ := ih w' m h
      refine ⟨by rw [b1, a1], fun i => ?_, fun i => ?_, fun i => ?_⟩
      · rw [b2, a2, given_cons _ _ l ls, List.append_assoc]
      · rw [b3, a3, given_cons _ _ l ls, List.append_assoc]
      · rw [b4, a4, a1, given_cons _ _ l ls]
        split <;> simp
    | raised => rw [hl] at h; cases h
    | ub => rw [hl] at h; cases h
    | diverges => rw [hl] at h; cases h

/-! ### Properties -/

/-- C58. `Connect` of a field, whatever its structure, raises and changes nothing when the source
is not an output, the target not an input, they are the same, do not have the same structure, two
corresponding leaves do not agree, or two corresponding fields are already connected (or a leaf
cannot push). -/
theorem C58_tree_refused (narrow : Fl → Fl) (f : Nat) (w : World) (t u : FTree)
    (h : w.output t = false ∨ w.input u = false ∨ u.is t = true ∨ sameShape t u = false ∨
      ∃ l ∈ pairs t u, ¬ w.agree l ∨ w.connected l ∨ ¬ w.pushes l) :
    wconnect narrow f w t u = .raised w := by
  unfold wconnect
  by_cases h1 : (!w.output t || !w.input u || u.is t || !equivalent w t u) = true
  · rw [if_pos h1]
  · rw [if_neg h1]
    simp only [Bool.or_eq_true, Bool.not_eq_true', not_or, Bool.not_eq_false] at h1
    obtain ⟨⟨⟨a, b⟩, c⟩, d⟩ := h1
    have he := (equivalent_spec w t u).1 d
    rw [if_pos]
    simp only [Bool.not_eq_true', ← Bool.not_eq_true, canConnect_spec]
    rintro ⟨_, hc⟩
    rcases h with h | h | h | h | ⟨l, hl, h | h | h⟩
    · rw [h] at a; cases a
    · rw [h] at b; cases b
    · exact c h
    · rw [he.1] at h; cases h
    · exact h (he.2 l hl)
    · exact (hc l hl).2 h
    · exact h (hc l hl).1

/-- C58. A field is connected from only if its own flag says that it is an output, and connected to
only if its own flag says that it is an input, whether it is a simple field, an array of simple values
or an array or structure of fields. -/
theorem C58_ends (narrow : Fl → Fl) (f : Nat) (w : World) (t u : FTree)
    (h : wconnect narrow f w t u ≠ .raised w) :
    ((∃ i, t = .simple i ∧ (w.net i).output = true) ∨ (∃ i, t = .sarray i ∧ (w.arrs i).output = true) ∨
      ∃ s i ts, t = .node s i ts ∧ w.nout i = true) ∧
    ((∃ i, u = .simple i ∧ (w.net i).input = true) ∨ (∃ i, u = .sarray i ∧ (w.arrs i).input = true) ∨
      ∃ s i us, u = .node s i us ∧ w.nin i = true) := by
  have h1 : w.output t = true := by
    cases e : w.output t with
    | true => rfl
    | false => exact absurd (C58_tree_refused narrow f w t u (.inl e)) h
  have h2 : w.input u = true := by
    cases e : w.input u with
    | true => rfl
    | false => exact absurd (C58_tree_refused narrow f w t u (.inr (.inl e))) h
  constructor
  · cases t with
    | simple i => exact .inl ⟨i, rfl, h1⟩
    | sarray i => exact .inr (.inl ⟨i, rfl, h1⟩)
    | node s i ts => exact .inr (.inr ⟨s, i, ts, rfl, h1⟩)
  · cases u with
    | simple i => exact .inl ⟨i, rfl, h2⟩
    | sarray i => exact .inr (.inl ⟨i, rfl, h2⟩)
    | node s i us => exact .inr (.inr ⟨s, i, us, rfl, h2⟩)

/-- C58. A field is not connected to itself. -/
theorem C58_self (narrow : Fl → Fl) (f : Nat) (w : World) (t : FTree) :
    wconnect narrow f w t t = .raised w := by
  refine C58_tree_refused narrow f w t t (.inr (.inr (.inl ?_)))
  cases t <;> simp [FTree.is]

/-- C58, partial. Otherwise `Connect` connects the corresponding fields, one by one, in order
(`C58_connect_partial` and `C58_array_partial` tell what happens to the values of the leaves); if
it returns, the connections are the ones that were there and those pairs. -/
theorem C58_tree_partial (narrow : Fl → Fl) (f : Nat) (w : World) (t u : FTree)
    (h1 : w.output t = true) (h2 : w.input u = true) (h3 : u.is t = false)
    (h4 : sameShape t u = true)
    (h5 : ∀ l ∈ pairs t u, w.agree l ∧ ¬ w.connected l ∧ w.pushes l) :
    wconnect narrow f w t u = addAll narrow f w (pairs t u) ∧
    ∀ m, wconnect narrow f w t u = .ok m →
      (∀ i, (m.net i).targets = (w.net i).targets ++ given 0 i (pairs t u)) ∧
      (∀ i, (m.arrs i).targets = (w.arrs i).targets ++ given 1 i (pairs t u)) ∧
      (∀ i, m.ntargets i =
        if w.nflow i then w.ntargets i ++ given 2 i (pairs t u) else w.ntargets i) := by
  have he : equivalent w t u = true := (equivalent_spec w t u).2 ⟨h4, fun l hl => (h5 l hl).1⟩
  have hc : canConnect w t u = true :=
    (canConnect_spec w t u).2 ⟨h4, fun l hl => ⟨(h5 l hl).2.2, (h5 l hl).2.1⟩⟩
  have hw : wconnect narrow f w t u = addAll narrow f w (pairs t u) := by
    simp only [wconnect, h1, h2, h3, he, hc]
    simpa using link_spec narrow f w t u h4
  refine ⟨hw, fun m hm => ?_⟩
  rw [hw] at hm
  exact (addAll_targets narrow f _ w m hm).2

/-! ### Disconnection -/

def Link.remove (w : World) : Link → World
  | .simple i j => { w with net := disconnect w.net i j }
  | .sarray i j => { w with arrs := adisconnect w.arrs i j }
  | .node id id' => if w.nflow id then
      { w with ntargets := fun k => if k = id then (w.ntargets k).erase id' else w.ntargets k }
      else w

def removeAll (w : World) : List Link → World
  | [] => w
  | l :: ls => removeAll (l.remove w) ls

theorem removeAll_append (ls ks : List Link) : ∀ w,
    removeAll w (ls ++ ks) = removeAll (removeAll w ls) ks := by
  induction ls with
  | nil => intro w; rfl
  | cons l ls ih => intro w; exact ih _

theorem remove_targets (w : World) (l : Link) : (l.remove w).nflow = w.nflow ∧
    (∀ i, ((l.remove w).net i).targets = (given 0 i [l]).foldl List.erase (w.net i).targets) ∧
    (∀ i, ((l.remove w).arrs i).targets = (given 1 i [l]).foldl List.erase (w.arrs i).targets) ∧
    (∀ i, (l.remove w).ntargets i =
      if w.nflow i then (given 2 i [l]).foldl List.erase (w.ntargets i) else w.ntargets i) := by
  cases l with
  | simple i j =>
    refine ⟨rfl, fun k => ?_, fun k => by simp [given, Link.remove],
      fun k => by simp [given, Link.remove]⟩
    simp only [Link.remove, disconnect, Net.set]
    by_cases hk : k = i
    · subst hk; simp [given]
    · simp [given, hk, Ne.symm hk]
  | sarray i j =>
    refine ⟨rfl, fun k => by simp [given, Link.remove], fun k => ?_,
      fun k => by simp [given, Link.remove]⟩
    simp only [Link.remove, adisconnect, Arrs.set]
    by_cases hk : k = i
    · subst hk; simp [given]
    · simp [given, hk, Ne.symm hk]
  | node id id' =>
    simp only [Link.remove]
    refine ⟨by split <;> rfl, fun k => by split <;> simp [given],
      fun k => by split <;> simp [given], fun k => ?_⟩
    by_cases hf : w.nflow id = true
    · rw [if_pos hf]
      by_cases hk : k = id
      · subst hk; simp [given, hf]
      · simp [given, hk, Ne.symm hk]
    · rw [if_neg hf]
      by_cases hk : k = id
      · subst hk; simp [hf]
      · simp [given, Ne.symm hk]

theorem removeAll_targets (ls : List Link) : ∀ w, (removeAll w ls).nflow = w.nflow ∧
    (∀ i, ((removeAll w ls).net i).targets = (given 0 i ls).foldl List.erase (w.net i).targets) ∧
    (∀ i, ((removeAll w ls).arrs i).targets =
      (given 1 i ls).foldl List.erase (w.arrs i).targets) ∧
    (∀ i, (removeAll w ls).ntargets i =
      if w.nflow i then (given 2 i ls).foldl List.erase (w.ntargets i) else w.ntargets i) := by
  induction ls with
  | nil => intro w; simp [removeAll, given]
  | cons l ls ih =>
    intro w
    obtain ⟨a1, a2, a3, a4⟩ := remove_targets w l
    obtain ⟨b1, b2, b3, b4⟩ := ih (l.remove w)
    refine ⟨by rw [removeAll, b1, a1], fun i => ?_, fun i => ?_, fun i => ?_⟩
    · rw [removeAll, b2, a2, given_cons _ _ l ls, List.foldl_append]
    · rw [removeAll, b3, a3, given_cons _ _ l ls, List.foldl_append]
    · rw [removeAll, b4, a4, a1, given_cons _ _ l ls, List.foldl_append]
      split <;> rfl

theorem given_none {k i : Nat} {ls : List Link} (h : (k, i) ∉ ls.map Link.source) :
    given k i ls = [] := by
  unfold given
  rw [List.filterMap_eq_nil_iff]
  intro l hl
  have hne : l.source ≠ (k, i) := fun e => h (e ▸ List.mem_map_of_mem hl)
  cases l with
  | simple a b =>
    simp only [Link.source, ne_eq, Prod.mk.injEq, not_and] at hne
    exact if_neg (by rintro ⟨rfl, rfl⟩; exact hne rfl rfl)
  | sarray a b =>
    simp only [Link.source, ne_eq, Prod.mk.injEq, not_and] at hne
    exact if_neg (by rintro ⟨rfl, rfl⟩; exact hne rfl rfl)
  | node a b =>
    simp only [Link.source, ne_eq, Prod.mk.injEq, not_and] at hne
    exact if_neg (by rintro ⟨rfl, rfl⟩; exact hne rfl rfl)

/-- The nodes of the pairs are connected. -/
def Nodes (w : World) (ls : List Link) : Prop :=
  ∀ i j, Link.node i j ∈ ls → w.nflow i = true → j ∈ w.ntargets i

theorem Nodes.after {w : World} {ls ks : List Link} (h : Nodes w ks)
    (hd : ∀ l ∈ ls, ∀ k ∈ ks, l.source ≠ k.source) : Nodes (removeAll w ls) ks := by
  intro i j hm hf
  obtain ⟨b1, _, _, b4⟩ := removeAll_targets ls w
  rw [b1] at hf
  rw [b4, if_pos hf, given_none]
  · exact h i j hm hf
  · intro hs
    obtain ⟨l, hl, e⟩ := List.mem_map.1 hs
    exact hd l hl _ hm e

theorem nodup_split {ls ks : List Link} (h : ((ls ++ ks).map Link.source).Nodup) :
    (ls.map Link.source).Nodup ∧ (ks.map Link.source).Nodup ∧
    ∀ l ∈ ls, ∀ k ∈ ks, l.source ≠ k.source := by
  rw [List.map_append, List.nodup_append] at h
  exact ⟨h.1, h.2.1, fun l hl k hk => h.2.2 _ (List.mem_map_of_mem hl) _ (List.mem_map_of_mem hk)⟩

mutual
theorem unlink_spec : ∀ t w u, sameShape t u = true → ((pairs t u).map Link.source).Nodup →
    Nodes w (pairs t u) → unlink w t u = removeAll w (pairs t u)
  | .simple i => by
    intro w u h _ _
    cases u with
    | simple j => simp [unlink, pairs, removeAll, Link.remove]
    | _ => simp [sameShape] at h
  | .sarray i => by
    intro w u h _ _
    cases u with
    | sarray j => simp [unlink, pairs, removeAll, Link.remove]
    | _ => simp [sameShape] at h
  | .node s id ts => by
    intro w u h hnd hno
    cases u with
    | node s' id' us =>
      simp only [sameShape, Bool.and_eq_true] at h
      simp only [pairs] at hnd hno
      have hsp := nodup_split (ls := [.node id id']) (ks := pairsList ts us) hnd
      have hno' : Nodes (removeAll w [.node id id']) (pairsList ts us) :=
        Nodes.after (fun i j hm hf => hno i j (List.mem_cons_of_mem _ hm) hf) hsp.2.2
      have ih := unlinks_spec ts (removeAll w [.node id id']) us h.2 hsp.2.1 hno'
      simp only [unlink, pairs, removeAll, Link.remove] at ih ⊢
      by_cases hf : w.nflow id = true
      · have hin : (w.ntargets id).contains id' = true := by
          simpa using hno id id' List.mem_cons_self hf
        rw [if_pos hf, if_pos hin]
        rw [if_pos hf] at ih ⊢
        exact ih
      · rw [if_neg hf] at ih ⊢
        rw [if_neg hf]
        exact ih
    | _ => simp [sameShape] at h
theorem unlinks_spec : ∀ ts w us, sameShapes ts us = true →
    ((pairsList ts us).map Link.source).Nodup → Nodes w (pairsList ts us) →
    unlinks w ts us = removeAll w (pairsList ts us)
  | [] => by intro w us _ _ _; simp [unlinks, pairsList, removeAll]
  | t :: ts => by
    intro w us h hnd hno
    cases us with
    | nil => simp [sameShapes] at h
    | cons u us =>
      simp only [sameShapes, Bool.and_eq_true] at h
      simp only [pairsList] at hnd hno
      have hsp := nodup_split hnd
      simp only [unlinks, pairsList, removeAll_append]
      rw [unlink_spec t w u h.1 hsp.1 fun i j hm hf => hno i j (List.mem_append_left _ hm) hf]
      exact unlinks_spec ts _ us h.2 hsp.2.1
        (Nodes.after (fun i j hm hf => hno i j (List.mem_append_right _ hm) hf) hsp.2.2)
end

theorem given_mem {k i j : Nat} {ls : List Link} (h : j ∈ given k i ls) :
    (k = 0 ∧ Link.simple i j ∈ ls) ∨ (k = 1 ∧ Link.sarray i j ∈ ls) ∨
      (k = 2 ∧ Link.node i j ∈ ls) := by
  unfold given at h
  rw [List.mem_filterMap] at h
  obtain ⟨l, hl, h⟩ := h
  cases l with
  | simple a b =>
    dsimp only at h
    split at h
    · rename_i e; obtain ⟨rfl, rfl⟩ := e; cases h; exact Or.inl ⟨rfl, hl⟩
    · cases h
  | sarray a b =>
    dsimp only at h
    split at h
    · rename_i e; obtain ⟨rfl, rfl⟩ := e; cases h; exact Or.inr (Or.inl ⟨rfl, hl⟩)
    · cases h
  | node a b =>
    dsimp only at h
    split at h
    · rename_i e; obtain ⟨rfl, rfl⟩ := e; cases h; exact Or.inr (Or.inr ⟨rfl, hl⟩)
    · cases h

theorem given_le_one (k i : Nat) (ls : List Link) (h : (ls.map Link.source).Nodup) :
    given k i ls = [] ∨ ∃ j, given k i ls = [j] := by
  induction ls with
  | nil => exact Or.inl rfl
  | cons l ls ih =>
    simp only [List.map_cons, List.nodup_cons] at h
    rw [given_cons]
    by_cases hs : l.source = (k, i)
    · rw [given_none (ls := ls) (by rw [← hs]; exact h.1), List.append_nil]
      unfold given
      cases l <;> simp [Link.source] at hs <;> simp [hs]
    · have : given k i [l] = [] := given_none (by simpa using fun e => hs e.symm)
      rw [this]
      exact ih h.2

theorem erase_back (l g : List Nat) (h1 : g = [] ∨ ∃ j, g = [j]) (h2 : ∀ j ∈ g, j ∉ l) :
    g.foldl List.erase (l ++ g) = l := by
  rcases h1 with rfl | ⟨j, rfl⟩
  · simp
  · have : j ∉ l := h2 j (by simp)
    simp [List.erase_append_right _ this]

/-- C58. `Disconnect` undoes `Connect`, whatever the structure of the fields: afterwards every
field has the targets that it had before (the fields of the source being distinct). -/
theorem C58_tree_disconnect (narrow : Fl → Fl) (f : Nat) (w m : World) (t u : FTree)
    (hnd : ((pairs t u).map Link.source).Nodup) (h : wconnect narrow f w t u = .ok m) :
    ∀ k i, (unlink m t u).targets k i = w.targets k i := by
  unfold wconnect at h
  split at h
  · cases h
  · rename_i h1
    split at h
    · cases h
    · rename_i h2
      simp only [Bool.not_eq_true', Bool.not_eq_false] at h2
      obtain ⟨hs, hc⟩ := (canConnect_spec w t u).1 h2
      rw [link_spec narrow f w t u hs] at h
      obtain ⟨a1, a2, a3, a4⟩ := addAll_targets narrow f _ w m h
      have hno : Nodes m (pairs t u) := by
        intro i j hm hf
        rw [a1] at hf
        rw [a4, if_pos hf]
        refine List.mem_append_right _ ?_
        unfold given
        rw [List.mem_filterMap]
        exact ⟨_, hm, by simp⟩
      obtain ⟨b1, b2, b3, b4⟩ := removeAll_targets (pairs t u) m
      rw [unlink_spec t m u hs hnd hno]
      intro k i
      match k with
      | 0 =>
        simp only [World.targets]
        rw [b2, a2]
        refine erase_back _ _ (given_le_one 0 i _ hnd) fun j hj => ?_
        rcases given_mem hj with ⟨_, h⟩ | ⟨h, _⟩ | ⟨h, _⟩
        · exact (hc _ h).2
        · cases h
        · cases h
      | 1 =>
        simp only [World.targets]
        rw [b3, a3]
        refine erase_back _ _ (given_le_one 1 i _ hnd) fun j hj => ?_
        rcases given_mem hj with ⟨h, _⟩ | ⟨_, h⟩ | ⟨h, _⟩
        · cases h
        · exact (hc _ h).2
        · cases h
      | k + 2 =>
        simp only [World.targets]
        rw [b4, a4, a1]
        by_cases hf : w.nflow i = true
        · rw [if_pos hf, if_pos hf]
          refine erase_back _ _ (given_le_one 2 i _ hnd) fun j hj hin => ?_
          rcases given_mem hj with ⟨h, _⟩ | ⟨h, _⟩ | ⟨_, h⟩
          · cases h
          · cases h
          · exact (hc _ h).2 ⟨hf, hin⟩
        · rw [if_neg hf, if_neg hf]

/-! ### Cases -/

/-- Two structures of a simple field, an array of two simple fields and an array of simple
items; the second one is an input. -/
def demoWorld : World :=
  { net := fun i => ⟨.Int32, 0, 10 ≤ i, i < 10, i < 10, false, none, .int i, false, []⟩
    arrs := fun i => ⟨.plain, .Int32, none, 10 ≤ i, i < 10, i < 10, [.int i, .int i], []⟩
    nin := fun i => 10 ≤ i, nout := fun i => i < 10, nflow := fun i => i < 10
    ntargets := fun _ => [] }
def demoTree (k : Nat) : FTree :=
  .node true k [.simple k, .node false (k + 1) [.simple (k + 1), .simple (k + 2)], .sarray k]

example : (pairs (demoTree 0) (demoTree 10)).length = 6 ∧
    ((pairs (demoTree 0) (demoTree 10)).map Link.source).Nodup := by decide

example : ∃ m, wconnect id 5 demoWorld (demoTree 0) (demoTree 10) = .ok m ∧
    (m.net 2).targets = [12] ∧ m.ntargets 1 = [11] :=
  ⟨_, rfl, rfl, rfl⟩

example : wconnect id 5 demoWorld (demoTree 10) (demoTree 0) = .raised demoWorld :=
  C58_tree_refused id 5 demoWorld _ _ (Or.inl rfl)

theorem relay_set_diverges (narrow : Fl → Fl) (f : Nat) (n : Net) (i j k : Nat) (v : Int)
    (hv : -2 ^ 31 ≤ v ∧ v < 2 ^ 31) (hi : Relay n i j) (hj : Relay n j i) (hk : (n k).get = ⟨.Int32, .int v⟩) :
    setValue narrow f n i (n k).get = .diverges := by
  cases f with
  | zero => rfl
  | succ f =>
    have hco : coerce narrow (n i).kind (n i).len ⟨.Int32, .int v⟩ = .ok (.int v) := by
      rw [← hi.kind]
      exact coerce_same narrow _ (.int v) ⟨by rw [hi.kind]; decide, by
        rw [hi.kind]; simp only [Any.Ok, Verif.Any.Kind.Range]; omega,
        by intro h; rw [hi.kind] at h; cases h⟩
    rw [hk]
    simp only [setValue, hco]
    exact relay_diverges narrow v hv f n i j hi hj

/-- Fields that are inputs and outputs; the first is connected to the second. -/
def ringWorld : World :=
  { net := fun i => ⟨.Int32, 0, true, true, true, false, none, .int 7, false, if i = 0 then [1] else []⟩
    arrs := fun _ => ⟨.plain, .Int32, none, true, true, true, [], []⟩
    nin := fun _ => true, nout := fun _ => true, nflow := fun _ => true, ntargets := fun _ => [] }

/-- C58: the connection of structures that closes a cycle of their members never returns. -/
theorem C58_tree_cycle (narrow : Fl → Fl) (f : Nat) :
    wconnect narrow f ringWorld (.node true 1 [.simple 1]) (.node true 0 [.simple 0]) = .diverges := by
  have h : setValue narrow f
      (ringWorld.net.set 1 { ringWorld.net 1 with targets := (ringWorld.net 1).targets ++ [0] }) 0
      ((ringWorld.net.set 1 { ringWorld.net 1 with targets := (ringWorld.net 1).targets ++ [0] }) 1).get =
      .diverges :=
    relay_set_diverges narrow f _ 0 1 1 7 (by decide) ⟨rfl, rfl, rfl, rfl, [], rfl⟩
      ⟨rfl, rfl, rfl, rfl, [], rfl⟩ rfl
  have e : wconnect narrow f ringWorld (.node true 1 [.simple 1]) (.node true 0 [.simple 0]) =
      links narrow f { ringWorld with ntargets := fun k => if k = 1 then [] ++ [0] else [] }
        [.simple 1] [.simple 0] := rfl
  rw [e]
  simp only [links, link]
  rw [h]
  rfl

/-- C58 fails for structures: when the second leaf refuses the value, `Connect` raises having
connected the structure and its first two leaves. -/
theorem C58_tree_fails (narrow : Fl → Fl) : ∃ (w m : World) (t u : FTree),
    (∀ k i, w.targets k i = []) ∧ wconnect narrow 5 w t u = .raised m ∧
    m.ntargets 0 = [10] ∧ (m.net 0).targets = [10] ∧ (m.net 1).targets = [11] := by
  refine ⟨{ demoWorld with net := fun i => ⟨.Int32, 0, 10 ≤ i, i < 10, i < 10, false,
    if i = 11 then some [0] else none, .int i, false, []⟩ }, _,
    .node true 0 [.simple 0, .simple 1], .node true 10 [.simple 10, .simple 11],
    ?_, rfl, rfl, rfl, rfl⟩
  intro k i
  match k with
  | 0 => rfl
  | 1 => rfl
  | k + 2 => rfl

end Verif.Field
