import Verif.Field.Annot
import Verif.Field.TreeProps

/-! Property C106: which annotations the fields inside a field have. -/
namespace Verif.Field.Annot
open Verif.Any (Fl)

/-! ### Specification -/

/-- How a field is reached from the one around it. -/
inductive Step
  | root | item | member
deriving DecidableEq

/-- A field on the way to a part: how it is reached, and the suffixes written in its own
declaration (none for the items of an array). -/
structure Level where
  via : Step
  decl : Anns

mutual
/-- The type at a path of indexes, and the levels passed, innermost first. -/
def Ty.trail : Ty → List Level → List Nat → Option (Ty × List Level)
  | t, tr, [] => some (t, tr)
  | .array marked _ item, tr, _ :: p =>
    if marked && item.isSimple then none else item.trail (⟨.item, []⟩ :: tr) p
  | .struct ms, tr, i :: p => ms.trail tr i p
  | .simple, _, _ :: _ => none
def Members.trail : Members → List Level → Nat → List Nat → Option (Ty × List Level)
  | .nil, _, _, _ => none
  | .cons d t _, tr, 0, p => t.trail (⟨.member, d⟩ :: tr) p
  | .cons _ _ r, tr, i + 1, p => r.trail tr i p
end

/-- The number of structures passed. -/
def structures (tr : List Level) : Nat := tr.countP fun l => l.via == .member

/-- The suffix is written in a declaration around the part, at most `n` structures away. -/
def Above (n : Nat) (a : Ann) (tr : List Level) : Prop :=
  ∃ inner l outer, tr = inner ++ l :: outer ∧ a ∈ l.decl ∧ structures inner ≤ n

/-- The suffix is written in a declaration of the part or around it. -/
def Anywhere (a : Ann) (tr : List Level) : Prop := ∃ l ∈ tr, a ∈ l.decl

/-- The suffix is written in the declaration of the part itself. -/
def Own (a : Ann) (tr : List Level) : Prop := ∃ l, tr.head? = some l ∧ a ∈ l.decl

/-- A part that holds values. -/
def FT.isLeaf : FT → Bool
  | .simple _ => true
  | .sarray _ _ => true
  | _ => false

/-- The type of a part that holds values. -/
def Ty.isLeaf : Ty → Bool
  | .simple => true
  | .array marked _ item => marked && item.isSimple
  | .struct _ => false

/-! ### Lemmas -/

theorem isSimple_iff (T : Ty) : T.isSimple = true ↔ T = .simple := by
  cases T <;> simp [Ty.isSimple]

theorem mem_suffix (A : Anns) (x a : Ann) :
    a ∈ suffix A x ↔ a ∈ A ∨ a = x ∨ (a = .connectable ∧ x = .output) := by
  cases x <;> simp [suffix]

theorem mem_declare (d : Anns) : ∀ (A : Anns) (a : Ann),
    a ∈ declare A d ↔ a ∈ A ∨ a ∈ d ∨ (a = .connectable ∧ .output ∈ d) := by
  induction d with
  | nil => intro A a; simp [declare]
  | cons x d ih =>
    intro A a
    show a ∈ declare (suffix A x) d ↔ _
    rw [ih, mem_suffix]
    simp only [List.mem_cons]
    constructor
    · rintro ((h | h | ⟨h, h'⟩) | h | ⟨h, h'⟩)
      · exact .inl h
      · exact .inr (.inl (.inl h))
      · exact .inr (.inr ⟨h, .inl h'.symm⟩)
      · exact .inr (.inl (.inr h))
      · exact .inr (.inr ⟨h, .inr h'⟩)
    · rintro (h | (h | h) | ⟨h, h' | h'⟩)
      · exact .inl (.inl h)
      · exact .inl (.inr (.inl h))
      · exact .inr (.inl h)
      · exact .inl (.inr (.inr ⟨h, h'.symm⟩))
      · exact .inr (.inr ⟨h, h'⟩)

theorem mem_itemAnns (A : Anns) (a : Ann) : a ∈ itemAnns A ↔
    (a ∈ A ∧ (a = .output ∨ a = .connectable ∨ a = .input ∨ a = .forcible)) ∨
    (a = .connectable ∧ .output ∈ A) := by
  unfold itemAnns
  rw [mem_declare]
  have h : ∀ b, b ∈ A.flatMap itemSuffix ↔
      b ∈ A ∧ (b = .output ∨ b = .connectable ∨ b = .input ∨ b = .forcible) := by
    intro b
    rw [List.mem_flatMap]
    constructor
    · rintro ⟨x, hx, hb⟩
      cases x <;> simp [itemSuffix] at hb <;> subst hb <;> simp [hx]
    · rintro ⟨hb, h | h | h | h⟩ <;> subst h <;> exact ⟨_, hb, by simp [itemSuffix]⟩
  rw [h, h]
  simp

theorem mem_memberAnns (A : Anns) (a : Ann) : a ∈ memberAnns A ↔
    (a = .connectable ∧ .output ∈ A) ∨ (a = .forcible ∧ .forcible ∈ A) := by
  unfold memberAnns
  rw [mem_declare]
  have h : ∀ b, b ∈ A.flatMap memberSuffix ↔
      (b = .connectable ∧ .output ∈ A) ∨ (b = .forcible ∧ .forcible ∈ A) := by
    intro b
    rw [List.mem_flatMap]
    constructor
    · rintro ⟨x, hx, hb⟩
      cases x <;> simp [memberSuffix] at hb <;> subst hb <;> simp [hx]
    · rintro (⟨h, hb⟩ | ⟨h, hb⟩) <;> subst h <;> exact ⟨_, hb, by simp [memberSuffix]⟩
  rw [h, h]
  simp

theorem above_cons (n : Nat) (a : Ann) (l : Level) (tr : List Level) :
    Above n a (l :: tr) ↔ a ∈ l.decl ∨
      (l.via ≠ .member ∧ Above n a tr) ∨ (l.via = .member ∧ ∃ k, n = k + 1 ∧ Above k a tr) := by
  constructor
  · rintro ⟨inner, x, outer, he, ha, hn⟩
    cases inner with
    | nil =>
      simp only [List.nil_append, List.cons.injEq] at he
      exact .inl (he.1 ▸ ha)
    | cons y inner =>
      simp only [List.cons_append, List.cons.injEq] at he
      obtain ⟨rfl, he⟩ := he
      unfold structures at hn
      rw [List.countP_cons] at hn
      by_cases hv : l.via = .member
      · rw [if_pos (by simp [hv])] at hn
        refine .inr (.inr ⟨hv, n - 1, by omega, inner, x, outer, he, ha, ?_⟩)
        unfold structures; omega
      · exact .inr (.inl ⟨hv, inner, x, outer, he, ha, by unfold structures; omega⟩)
  · rintro (h | ⟨hv, inner, x, outer, he, ha, hn⟩ | ⟨hv, k, rfl, inner, x, outer, he, ha, hn⟩)
    · exact ⟨[], l, tr, rfl, h, by simp [structures]⟩
    · refine ⟨l :: inner, x, outer, by rw [he]; rfl, ha, ?_⟩
      unfold structures at hn ⊢
      rw [List.countP_cons, if_neg (by simpa using hv)]; exact hn
    · refine ⟨l :: inner, x, outer, by rw [he]; rfl, ha, ?_⟩
      unfold structures at hn ⊢
      rw [List.countP_cons, if_pos (by simp [hv])]; omega

theorem not_above_nil (n : Nat) (a : Ann) : ¬ Above n a [] := by
  rintro ⟨inner, l, outer, h, _⟩
  simp at h

theorem above_mono {n m : Nat} {a : Ann} {tr : List Level} (h : Above n a tr) (hnm : n ≤ m) :
    Above m a tr := by
  obtain ⟨i, l, o, e, ha, hn⟩ := h
  exact ⟨i, l, o, e, ha, by omega⟩

/-- The annotations of a part are those of its trail. -/
structure Carries (A : Anns) (tr : List Level) : Prop where
  forcible : .forcible ∈ A ↔ Anywhere .forcible tr
  output : .output ∈ A ↔ Above 0 .output tr
  input : .input ∈ A ↔ Above 0 .input tr
  connectable : .connectable ∈ A ↔ Above 1 .output tr ∨ Above 0 .connectable tr
  transient : .transient ∈ A ↔ Own .transient tr
  failure : .failure ∈ A ↔ Own .failure tr

theorem Carries.root (d : Anns) : Carries (declare [] d) [⟨.root, d⟩] := by
  constructor <;> simp [mem_declare, Anywhere, Own, above_cons, not_above_nil, or_comm]

theorem Carries.step_item {A : Anns} {tr : List Level} (h : Carries A tr) :
    Carries (itemAnns A) (⟨.item, []⟩ :: tr) := by
  have h1 : Above 0 .output tr → Above 1 .output tr := fun x => above_mono x (by omega)
  constructor <;> simp [mem_itemAnns, above_cons, Anywhere, Own]
  · rw [h.forcible]; rfl
  · exact h.output
  · exact h.input
  · rw [h.connectable, h.output]
    constructor
    · rintro (h | h)
      · exact h
      · exact .inl (h1 h)
    · exact .inl

theorem Carries.step_member {A : Anns} {tr : List Level} (h : Carries A tr) (d : Anns) :
    Carries (declare (memberAnns A) d) (⟨.member, d⟩ :: tr) := by
  constructor <;> simp [mem_declare, mem_memberAnns, above_cons, Anywhere, Own]
  · rw [h.forcible, or_comm]; rfl
  · have h0 : (∃ k, 1 = k + 1 ∧ Above k .output tr) ↔ Above 0 .output tr := by
      constructor
      · rintro ⟨k, hk, hx⟩
        have : k = 0 := by omega
        exact this ▸ hx
      · exact fun h => ⟨0, rfl, h⟩
    rw [h.output]
    have : (∃ k, 0 = k ∧ Above k .output tr) ↔ Above 0 .output tr := by
      constructor
      · rintro ⟨k, hk, hx⟩
        exact hk ▸ hx
      · exact fun h => ⟨0, rfl, h⟩
    grind

mutual
/-- The field at a path of a built field is built from the type at that path. -/
theorem at_trail : ∀ (T : Ty) (A : Anns) (tr : List Level) (f : FT) (p : List Nat) (g : FT),
    Carries A tr → build T A = some f → f.at p = some g →
    ∃ T' tr', T.trail tr p = some (T', tr') ∧ build T' g.anns = some g ∧ Carries g.anns tr'
  | .simple, A, tr, f, p, g, hc, hb, ha => by
    simp only [build, Option.some.injEq] at hb
    subst hb
    cases p with
    | nil =>
      simp only [FT.at, Option.some.injEq] at ha
      subst ha
      exact ⟨_, _, rfl, rfl, hc⟩
    | cons i p => simp [FT.at] at ha
  | .array marked n item, A, tr, f, p, g, hc, hb, ha => by
    have hb' := hb
    simp only [build] at hb
    split at hb
    · rename_i hm
      split at hb
      · cases hb
      · simp only [Option.some.injEq] at hb
        subst hb
        cases p with
        | nil =>
          simp only [FT.at, Option.some.injEq] at ha
          subst ha
          exact ⟨_, _, rfl, hb', hc⟩
        | cons i p => simp [FT.at] at ha
    · rename_i hm
      cases hi : build item (itemAnns A) with
      | none => rw [hi] at hb; cases hb
      | some fi =>
        rw [hi] at hb
        simp only [Option.map_some, Option.some.injEq] at hb
        subst hb
        cases p with
        | nil =>
          simp only [FT.at, Option.some.injEq] at ha
          subst ha
          exact ⟨_, _, rfl, hb', hc⟩
        | cons i p =>
          simp only [FT.at] at ha
          split at ha
          · obtain ⟨T', tr', h1, h2⟩ := at_trail item _ _ fi p g hc.step_item hi ha
            refine ⟨T', tr', ?_, h2⟩
            simp only [Ty.trail]
            rw [if_neg hm]
            exact h1
          · cases ha
  | .struct ms, A, tr, f, p, g, hc, hb, ha => by
    have hb' := hb
    simp only [build] at hb
    cases hi : builds ms A with
    | none => rw [hi] at hb; cases hb
    | some fs =>
      rw [hi] at hb
      simp only [Option.map_some, Option.some.injEq] at hb
      subst hb
      cases p with
      | nil =>
        simp only [FT.at, Option.some.injEq] at ha
        subst ha
        exact ⟨_, _, rfl, hb', hc⟩
      | cons i p =>
        simp only [FT.at] at ha
        obtain ⟨T', tr', h1, h2⟩ := at_trails ms A tr fs i p g hc hi ha
        exact ⟨T', tr', by simp only [Ty.trail]; exact h1, h2⟩
theorem at_trails : ∀ (ms : Members) (A : Anns) (tr : List Level) (fs : FTs) (i : Nat)
    (p : List Nat) (g : FT), Carries A tr → builds ms A = some fs → fs.at i p = some g →
    ∃ T' tr', ms.trail tr i p = some (T', tr') ∧ build T' g.anns = some g ∧ Carries g.anns tr'
  | .nil, A, tr, fs, i, p, g, hc, hb, ha => by
    simp only [builds, Option.some.injEq] at hb
    subst hb
    simp [FTs.at] at ha
  | .cons d t r, A, tr, fs, i, p, g, hc, hb, ha => by
    simp only [builds] at hb
    cases h1 : build t (declare (memberAnns A) d) with
    | none => rw [h1] at hb; cases hb
    | some f =>
      cases h2 : builds r A with
      | none => rw [h1, h2] at hb; cases hb
      | some fr =>
        rw [h1, h2] at hb
        simp only [Option.some.injEq] at hb
        subst hb
        cases i with
        | zero =>
          simp only [FTs.at] at ha
          simp only [Members.trail]
          exact at_trail t _ _ f p g (hc.step_member d) h1 ha
        | succ i =>
          simp only [FTs.at] at ha
          simp only [Members.trail]
          exact at_trails r A tr fr i p g hc h2 ha
end

mutual
/-- A field is not compiled when an array of simple values in it would be forcible, and only
then. -/
theorem build_none : ∀ (T : Ty) (A : Anns) (tr : List Level), Carries A tr →
    (build T A = none ↔ ∃ p n T' tr', T.trail tr p = some (.array true n T', tr') ∧
      T' = .simple ∧ Anywhere .forcible tr')
  | .simple, A, tr, hc => by
    constructor
    · intro h; cases h
    · rintro ⟨p, n, T', tr', h, _⟩
      cases p <;> simp [Ty.trail] at h
  | .array marked n item, A, tr, hc => by
    simp only [build]
    by_cases hm : (marked && item.isSimple) = true
    · rw [if_pos hm]
      simp only [Bool.and_eq_true] at hm
      constructor
      · intro h
        split at h
        · rename_i hf
          refine ⟨[], n, item, tr, ?_, (isSimple_iff _).1 hm.2, hc.forcible.1 (by simpa using hf)⟩
          simp [Ty.trail, hm.1]
        · cases h
      · rintro ⟨p, n', T', tr', h, hs, hf⟩
        cases p with
        | nil =>
          simp only [Ty.trail, Option.some.injEq, Prod.mk.injEq] at h
          rw [if_pos]
          have := hc.forcible.2 (h.2 ▸ hf)
          simpa using this
        | cons i p => simp [Ty.trail, hm.1, hm.2] at h
    · rw [if_neg hm]
      have ih := build_none item _ _ hc.step_item
      rw [Option.map_eq_none_iff, ih]
      constructor
      · rintro ⟨p, n', T', tr', h, hs, hf⟩
        refine ⟨0 :: p, n', T', tr', ?_, hs, hf⟩
        simp only [Ty.trail]
        rw [if_neg hm]
        exact h
      · rintro ⟨p, n', T', tr', h, hs, hf⟩
        cases p with
        | nil =>
          simp only [Ty.trail, Option.some.injEq, Prod.mk.injEq, Ty.array.injEq] at h
          obtain ⟨⟨rfl, rfl, rfl⟩, rfl⟩ := h
          exact absurd (by simp [hs, Ty.isSimple]) hm
        | cons i p =>
          simp only [Ty.trail] at h
          rw [if_neg hm] at h
          exact ⟨p, n', T', tr', h, hs, hf⟩
  | .struct ms, A, tr, hc => by
    simp only [build]
    rw [Option.map_eq_none_iff, builds_none ms A tr hc]
    constructor
    · rintro ⟨i, p, n', T', tr', h, hs, hf⟩
      exact ⟨i :: p, n', T', tr', by simp only [Ty.trail]; exact h, hs, hf⟩
    · rintro ⟨p, n', T', tr', h, hs, hf⟩
      cases p with
      | nil => simp [Ty.trail] at h
      | cons i p =>
        simp only [Ty.trail] at h
        exact ⟨i, p, n', T', tr', h, hs, hf⟩
theorem builds_none : ∀ (ms : Members) (A : Anns) (tr : List Level), Carries A tr →
    (builds ms A = none ↔ ∃ i p n T' tr', ms.trail tr i p = some (.array true n T', tr') ∧
      T' = .simple ∧ Anywhere .forcible tr')
  | .nil, A, tr, hc => by
    constructor
    · intro h; cases h
    · rintro ⟨i, p, n, T', tr', h, _⟩
      simp [Members.trail] at h
  | .cons d t r, A, tr, hc => by
    have h1 := build_none t _ _ (hc.step_member d)
    have h2 := builds_none r A tr hc
    have h3 : builds (.cons d t r) A = none ↔
        build t (declare (memberAnns A) d) = none ∨ builds r A = none := by
      simp only [builds]
      cases build t (declare (memberAnns A) d) <;> cases builds r A <;> simp
    rw [h3, h1, h2]
    constructor
    · rintro (⟨p, n, T', tr', h⟩ | ⟨i, p, n, T', tr', h⟩)
      · exact ⟨0, p, n, T', tr', h⟩
      · exact ⟨i + 1, p, n, T', tr', h⟩
    · rintro ⟨i, p, n, T', tr', h⟩
      cases i with
      | zero => exact .inl ⟨p, n, T', tr', h⟩
      | succ i => exact .inr ⟨i, p, n, T', tr', h⟩
end

/-- All the leaves of a field can push. -/
def FT.pushes (f : FT) : Prop := ∀ p g, f.at p = some g → g.isLeaf = true → g.isConnectable = true

mutual
theorem pushes_pairs (w : World) : ∀ (f : FT) (t u : FTree), shows w f t = true →
    sameShape t u = true → (f.pushes ↔ ∀ l ∈ pairs t u, w.pushes l)
  | .simple A, t, u, hs, hu => by
    cases t with
    | simple i =>
      cases u with
      | simple j =>
        simp only [shows, Bool.and_eq_true, beq_iff_eq] at hs
        simp only [pairs, List.mem_singleton, forall_eq, World.pushes, hs.1.2]
        constructor
        · intro h; exact h [] _ rfl rfl
        · intro h p g hg hl
          cases p with
          | nil =>
            simp only [FT.at, Option.some.injEq] at hg
            subst hg
            exact h
          | cons i p => simp [FT.at] at hg
      | sarray j => simp [sameShape] at hu
      | node s j us => simp [sameShape] at hu
    | sarray i => simp [shows] at hs
    | node s i us => cases s <;> simp [shows] at hs
  | .sarray n A, t, u, hs, hu => by
    cases t with
    | sarray i =>
      cases u with
      | sarray j =>
        simp only [shows, Bool.and_eq_true, beq_iff_eq] at hs
        simp only [pairs, List.mem_singleton, forall_eq, World.pushes, hs.1.2]
        constructor
        · intro h; exact h [] _ rfl rfl
        · intro h p g hg hl
          cases p with
          | nil =>
            simp only [FT.at, Option.some.injEq] at hg
            subst hg
            exact h
          | cons i p => simp [FT.at] at hg
      | simple j => simp [sameShape] at hu
      | node s j us => simp [sameShape] at hu
    | simple i => simp [shows] at hs
    | node s i us => cases s <;> simp [shows] at hs
  | .array n A item, t, u, hs, hu => by
    cases t with
    | sarray i => simp [shows] at hs
    | simple i => simp [shows] at hs
    | node s id ts =>
      cases s with
      | true => simp [shows] at hs
      | false =>
        cases u with
        | simple j => simp [sameShape] at hu
        | sarray j => simp [sameShape] at hu
        | node s' id' us =>
          simp only [shows, Bool.and_eq_true, beq_iff_eq, List.all_eq_true] at hs
          simp only [sameShape, Bool.and_eq_true] at hu
          have hnode : w.pushes (.node id id') := trivial
          simp only [pairs, List.mem_cons, forall_eq_or_imp]
          rw [and_iff_right hnode]
          have key : ∀ (ts us : List FTree), (∀ t ∈ ts, shows w item t = true) →
              sameShapes ts us = true →
              ((ts ≠ [] → item.pushes) ↔ ∀ l ∈ pairsList ts us, w.pushes l) := by
            intro ts
            induction ts with
            | nil => intro us _ _; simp [pairsList]
            | cons t ts ih =>
              intro us ht hu
              cases us with
              | nil => simp [sameShapes] at hu
              | cons u us =>
                simp only [sameShapes, Bool.and_eq_true] at hu
                have h1 := pushes_pairs w item t u (ht t (by simp)) hu.1
                have h2 := ih us (fun x hx => ht x (by simp [hx])) hu.2
                simp only [pairsList, List.mem_append]
                constructor
                · intro h l hl
                  have h := h (by simp)
                  rcases hl with hl | hl
                  · exact h1.1 h l hl
                  · exact h2.1 (fun _ => h) l hl
                · intro h _
                  exact h1.2 fun l hl => h l (.inl hl)
          rw [← key ts us hs.2 hu.2]
          constructor
          · intro h hne p g hg hl
            have hn : 0 < n := by
              rw [← hs.1.2]
              cases ts with
              | nil => exact absurd rfl hne
              | cons _ _ => simp
            exact h (0 :: p) g (by simp only [FT.at]; rw [if_pos hn]; exact hg) hl
          · intro h p g hg hl
            cases p with
            | nil =>
              simp only [FT.at, Option.some.injEq] at hg
              subst hg
              simp [FT.isLeaf] at hl
            | cons i p =>
              simp only [FT.at] at hg
              split at hg
              · rename_i hi
                refine h ?_ p g hg hl
                intro he
                have := hs.1.2
                rw [he] at this
                simp at this
                omega
              · cases hg
  | .struct A fs, t, u, hs, hu => by
    cases t with
    | sarray i => simp [shows] at hs
    | simple i => simp [shows] at hs
    | node s id ts =>
      cases s with
      | false => simp [shows] at hs
      | true =>
        cases u with
        | simple j => simp [sameShape] at hu
        | sarray j => simp [sameShape] at hu
        | node s' id' us =>
          simp only [shows, Bool.and_eq_true, beq_iff_eq] at hs
          simp only [sameShape, Bool.and_eq_true] at hu
          have hnode : w.pushes (.node id id') := trivial
          simp only [pairs, List.mem_cons, forall_eq_or_imp]
          rw [and_iff_right hnode]
          rw [← pushes_pairsList w fs ts us hs.2 hu.2]
          constructor
          · intro h i p g hg hl
            exact h (i :: p) g (by simp only [FT.at]; exact hg) hl
          · intro h p g hg hl
            cases p with
            | nil =>
              simp only [FT.at, Option.some.injEq] at hg
              subst hg
              simp [FT.isLeaf] at hl
            | cons i p =>
              simp only [FT.at] at hg
              exact h i p g hg hl
theorem pushes_pairsList (w : World) : ∀ (fs : FTs) (ts us : List FTree),
    showsAll w fs ts = true → sameShapes ts us = true →
    ((∀ i p g, fs.at i p = some g → g.isLeaf = true → g.isConnectable = true) ↔
      ∀ l ∈ pairsList ts us, w.pushes l)
  | .nil, ts, us, hs, hu => by
    cases ts with
    | nil => simp [pairsList, FTs.at]
    | cons t ts => simp [showsAll] at hs
  | .cons f fs, ts, us, hs, hu => by
    cases ts with
    | nil => simp [showsAll] at hs
    | cons t ts =>
      cases us with
      | nil => simp [sameShapes] at hu
      | cons u us =>
        simp only [showsAll, Bool.and_eq_true] at hs
        simp only [sameShapes, Bool.and_eq_true] at hu
        have h1 := pushes_pairs w f t u hs.1 hu.1
        have h2 := pushes_pairsList w fs ts us hs.2 hu.2
        simp only [pairsList, List.mem_append]
        constructor
        · rintro h l (hl | hl)
          · exact h1.1 (fun p g hg => h 0 p g hg) l hl
          · exact h2.1 (fun i p g hg => h (i + 1) p g hg) l hl
        · intro h i p g hg hl
          cases i with
          | zero => exact h1.2 (fun l hl => h l (.inl hl)) p g hg hl
          | succ i => exact h2.2 (fun l hl => h l (.inr hl)) i p g hg hl
end

theorem connectable_iff {g : FT} {tr : List Level} (hc : Carries g.anns tr)
    (hl : g.isLeaf = true) :
    g.isConnectable = true ↔ Above 1 .output tr ∨ Above 0 .connectable tr := by
  have h : g.isConnectable = true ↔ .output ∈ g.anns ∨ .connectable ∈ g.anns := by
    cases g <;> simp [FT.isLeaf] at hl <;> simp [FT.isConnectable, FT.anns]
  rw [h, hc.output, hc.connectable]
  constructor
  · rintro (h | h)
    · exact .inl (above_mono h (by omega))
    · exact h
  · exact .inr

theorem leaf_type {T : Ty} {A : Anns} {g : FT} (h : build T A = some g) :
    g.isLeaf = T.isLeaf := by
  cases T with
  | simple => cases h; rfl
  | struct ms =>
    simp only [build] at h
    cases hb : builds ms A with
    | none => rw [hb] at h; cases h
    | some fs => rw [hb] at h; cases h; rfl
  | array marked n item =>
    simp only [build] at h
    split at h
    · rename_i hm
      split at h
      · cases h
      · cases h; exact hm.symm
    · rename_i hm
      cases hb : build item (itemAnns A) with
      | none => rw [hb] at h; cases h
      | some fs =>
        rw [hb] at h; cases h
        simp only [FT.isLeaf, Ty.isLeaf]
        cases hx : marked && item.isSimple
        · rfl
        · exact absurd hx hm

mutual
theorem trail_root : ∀ (T : Ty) (tr : List Level) (p : List Nat) (T' : Ty) (tr' : List Level),
    T.trail tr p = some (T', tr') → ∃ inner, tr' = inner ++ tr
  | .simple, tr, p, T', tr', h => by
    cases p with
    | nil => simp only [Ty.trail, Option.some.injEq, Prod.mk.injEq] at h; exact ⟨[], h.2.symm⟩
    | cons i p => simp [Ty.trail] at h
  | .array m n t, tr, p, T', tr', h => by
    cases p with
    | nil => simp only [Ty.trail, Option.some.injEq, Prod.mk.injEq] at h; exact ⟨[], h.2.symm⟩
    | cons i p =>
      simp only [Ty.trail] at h
      split at h
      · cases h
      · obtain ⟨inner, e⟩ := trail_root t _ p T' tr' h
        exact ⟨inner ++ [⟨.item, []⟩], by rw [e]; simp⟩
  | .struct ms, tr, p, T', tr', h => by
    cases p with
    | nil => simp only [Ty.trail, Option.some.injEq, Prod.mk.injEq] at h; exact ⟨[], h.2.symm⟩
    | cons i p =>
      simp only [Ty.trail] at h
      exact trails_root ms tr i p T' tr' h
theorem trails_root : ∀ (ms : Members) (tr : List Level) (i : Nat) (p : List Nat) (T' : Ty)
    (tr' : List Level), ms.trail tr i p = some (T', tr') → ∃ inner, tr' = inner ++ tr
  | .nil, tr, i, p, T', tr', h => by simp [Members.trail] at h
  | .cons d t r, tr, i, p, T', tr', h => by
    cases i with
    | zero =>
      simp only [Members.trail] at h
      obtain ⟨inner, e⟩ := trail_root t _ p T' tr' h
      exact ⟨inner ++ [⟨.member, d⟩], by rw [e]; simp⟩
    | succ i =>
      simp only [Members.trail] at h
      exact trails_root r tr i p T' tr' h
end

/-! ### Properties -/

/-- C106. A field declared with the suffixes `d` is compiled, unless an array of simple values in it
is declared forcible or is inside something that is. -/
theorem C106_compiles (T : Ty) (d : Anns) :
    build T (declare [] d) = none ↔
      ∃ p n T' tr, T.trail [⟨.root, d⟩] p = some (.array true n T', tr) ∧ T' = .simple ∧
        Anywhere .forcible tr :=
  build_none T _ _ (.root d)

/-- C106. A simple field inside a field is forcible when it is declared so, or something around it
is, and only then. -/
theorem C106_forcible (T : Ty) (d : Anns) (f g : FT) (p : List Nat)
    (hb : build T (declare [] d) = some f) (hg : f.at p = some g) :
    ∃ T' tr, T.trail [⟨.root, d⟩] p = some (T', tr) ∧ g.isLeaf = T'.isLeaf ∧
      (g.isForcible = true ↔ T' = .simple ∧ Anywhere .forcible tr) := by
  obtain ⟨T', tr, h1, h2, h3⟩ := at_trail T _ _ f p g (.root d) hb hg
  refine ⟨T', tr, h1, leaf_type h2, ?_⟩
  have h4 : ∀ A, build T' A = some g → (g.isForcible = true ↔ T' = .simple ∧ .forcible ∈ A) := by
    intro A hA
    cases T' with
    | simple => cases hA; simp [FT.isForcible]
    | struct ms =>
      simp only [build] at hA
      cases hb : builds ms A with
      | none => rw [hb] at hA; cases hA
      | some fs => rw [hb] at hA; cases hA; simp [FT.isForcible]
    | array m n t =>
      simp only [build] at hA
      split at hA
      · split at hA
        · cases hA
        · cases hA; simp [FT.isForcible]
      · cases hb : build t (itemAnns A) with
        | none => rw [hb] at hA; cases hA
        | some fs => rw [hb] at hA; cases hA; simp [FT.isForcible]
  rw [h4 _ h2, h3.forcible]

/-- C106, partial. A field inside a field is an output, or an input, when it or something around it
is declared so with only arrays in between; it can push its values when something around it is
declared an output with at most one structure in between (or `connectable`, with only arrays in
between); whether it is a state depends on its own declaration alone. Missing: structures do not
pass on `input` and `output`, and nothing passes on `transient`. -/
theorem C106_flags_partial (T : Ty) (d : Anns) (f g : FT) (p : List Nat)
    (hb : build T (declare [] d) = some f) (hg : f.at p = some g) :
    ∃ T' tr, T.trail [⟨.root, d⟩] p = some (T', tr) ∧
      (g.isOutput = true ↔ Above 0 .output tr) ∧
      (g.isInput = true ↔ Above 0 .input tr) ∧
      (g.isState = true ↔ ¬ Own .transient tr) ∧
      (g.isDataflow = true ↔ Above 0 .output tr) ∧
      (g.isConnectable = true ↔ T'.isLeaf = true ∧
        (Above 1 .output tr ∨ Above 0 .connectable tr)) := by
  obtain ⟨T', tr, h1, h2, h3⟩ := at_trail T _ _ f p g (.root d) hb hg
  refine ⟨T', tr, h1, ?_, ?_, ?_, ?_, ?_⟩
  · rw [← h3.output]; simp [FT.isOutput]
  · rw [← h3.input]; simp [FT.isInput]
  · rw [← h3.transient]; simp [FT.isState]
  · rw [← h3.output]; simp [FT.isDataflow]
  · rw [← leaf_type h2]
    by_cases hl : g.isLeaf = true
    · rw [connectable_iff h3 hl]; simp [hl]
    · constructor
      · intro h
        cases g <;> simp [FT.isConnectable, FT.isLeaf] at h hl
      · exact fun h => absurd h.1 hl

/-- C106, partial. A field declared an output whose type has no structure inside a structure is
connected to every input of the same shape, kinds and sizes it is not connected to: `Connect`
connects all corresponding parts, one after the other, and an array or structure itself remembers the
connection (so that `Disconnect` of it finds the connection). Missing: structures inside structures,
`C106_nested_fails`. -/
theorem C106_connect_partial (narrow : Fl → Fl) (fuel : Nat) (w : World) (T : Ty) (d : Anns)
    (f : FT) (t u : FTree) (hd : .output ∈ d)
    (hT : ∀ p T' tr, T.trail [⟨.root, d⟩] p = some (T', tr) → structures tr ≤ 1)
    (hb : build T (declare [] d) = some f) (hs : shows w f t = true)
    (hi : w.input u = true) (hne : u.is t = false) (hu : sameShape t u = true)
    (hl : ∀ l ∈ pairs t u, w.agree l ∧ ¬ w.connected l) :
    wconnect narrow fuel w t u = addAll narrow fuel w (pairs t u) ∧ ∀ s id ts, t = .node s id ts →
      w.nflow id = true := by
  have hp : f.pushes := by
    intro p g hg hl
    obtain ⟨T', tr, h1, h2, h3⟩ := at_trail T _ _ f p g (.root d) hb hg
    rw [connectable_iff h3 hl]
    refine .inl ?_
    have hroot : ∃ inner, tr = inner ++ [⟨.root, d⟩] := trail_root T [⟨.root, d⟩] p T' tr h1
    obtain ⟨inner, e⟩ := hroot
    refine ⟨inner, _, [], e, hd, ?_⟩
    have := hT p T' tr h1
    rw [e] at this
    unfold structures at this ⊢
    rw [List.countP_append] at this
    omega
  have hf : Ann.output ∈ f.anns := by
    obtain ⟨T', tr, h1, h2, h3⟩ := at_trail T _ _ f [] f (.root d) hb (by cases f <;> rfl)
    have := h3.output
    simp only [Ty.trail, Option.some.injEq, Prod.mk.injEq] at h1
    exact this.2 ⟨[], ⟨.root, d⟩, [], h1.2.symm, hd, by simp [structures]⟩
  have ho : w.output t = true := by
    have ho : f.isOutput = true := by simpa [FT.isOutput] using hf
    cases f <;> cases t
    all_goals first
      | (simp only [shows, Bool.and_eq_true, beq_iff_eq] at hs; simp [World.output, hs, ho]; done)
      | (simp [shows] at hs; done)
      | (rename_i s _ _; cases s <;> simp only [shows, Bool.and_eq_true, beq_iff_eq] at hs
         · first | (cases hs; done) | simp [World.output, hs, ho]
         · first | (cases hs; done) | simp [World.output, hs, ho])
  refine ⟨(C58_tree_partial narrow fuel w t u ho hi hne hu fun l hm =>
    ⟨(hl l hm).1, (hl l hm).2, (pushes_pairs w f t u hs hu).1 hp l hm⟩).1, ?_⟩
  rintro s id ts rfl
  have hfl : f.isDataflow = true := by simpa [FT.isDataflow] using hf
  cases f <;> cases s <;> simp only [shows, Bool.and_eq_true, beq_iff_eq, Bool.false_eq_true] at hs
  · rw [hs.1.1.2, hfl]
  · rw [hs.1.2, hfl]

/-- C106 fails for structures inside structures. Whatever the type, when a part with values has two
structures or more around it (and nothing inside the outermost is declared an output or
connectable itself), every `Connect` of the output raises: the part cannot push. -/
theorem C106_nested_fails (narrow : Fl → Fl) (fuel : Nat) (w : World) (T : Ty) (d : Anns)
    (f g : FT) (t u : FTree) (p : List Nat) (T' : Ty) (inner : List Level)
    (hd : .connectable ∉ d)
    (hb : build T (declare [] d) = some f) (hg : f.at p = some g)
    (hp : T.trail [⟨.root, d⟩] p = some (T', inner ++ [⟨.root, d⟩])) (hl : T'.isLeaf = true)
    (h2 : 2 ≤ structures inner)
    (hn : ∀ l ∈ inner, .output ∉ l.decl ∧ .connectable ∉ l.decl)
    (hs : shows w f t = true) : wconnect narrow fuel w t u = .raised w := by
  by_cases hu : sameShape t u = true
  · obtain ⟨T1, tr, h1, h3, h4⟩ := at_trail T _ _ f p g (.root d) hb hg
    rw [hp] at h1
    simp only [Option.some.injEq, Prod.mk.injEq] at h1
    obtain ⟨rfl, rfl⟩ := h1
    have hgl : g.isLeaf = true := (leaf_type h3).trans hl
    have hno : ¬ g.isConnectable = true := by
      rw [connectable_iff h4 hgl]
      rintro (⟨i, l, o, e, ha, hk⟩ | ⟨i, l, o, e, ha, hk⟩)
      · rcases List.append_eq_append_iff.1 e with ⟨k, e1, e2⟩ | ⟨k, e1, e2⟩
        · rw [e1] at hk
          unfold structures at hk h2
          rw [List.countP_append] at hk
          omega
        · cases k with
          | nil =>
            simp only [List.append_nil] at e1
            rw [← e1] at hk
            omega
          | cons x k =>
            simp only [List.cons_append, List.cons.injEq] at e2
            exact (hn l (by rw [e1, e2.1]; simp)).1 ha
      · have hm : l ∈ inner ++ [⟨.root, d⟩] := by rw [e]; simp
        rcases List.mem_append.1 hm with hm | hm
        · exact (hn l hm).2 ha
        · simp only [List.mem_singleton] at hm
          subst hm
          exact hd ha
    refine C58_tree_refused narrow fuel w t u (.inr (.inr (.inr (.inr ?_))))
    apply Classical.byContradiction
    intro hx
    exact hno ((pushes_pairs w f t u hs hu).2 (fun l hm => Classical.byContradiction fun hc =>
      hx ⟨l, hm, .inr (.inr hc)⟩) p g hg hgl)
  · refine C58_tree_refused narrow fuel w t u (.inr (.inr (.inr (.inl ?_))))
    simpa using hu

/-! ### Cases -/

/-- A structure of a simple field and an array of three simple fields. -/
def demoFlat : Ty := .struct (.cons [] .simple (.cons [] (.array false 3 .simple) .nil))

/-- A structure of a simple field and a structure of a simple field. -/
def demoDeep : Ty := .struct (.cons [] .simple (.cons [] (.struct (.cons [] .simple .nil)) .nil))

/-- The world of `demoWorld`, for the annotations of a nested structure: the simple field 1 cannot
push, the structure 1 is not a dataflow field. -/
def deepWorld : World :=
  { net := fun i => ⟨.Int32, 0, 10 ≤ i, false, i == 0, false, none, .int i, false, []⟩
    arrs := demoWorld.arrs
    nin := fun i => 10 ≤ i, nout := fun i => i == 0, nflow := fun i => i == 0
    ntargets := fun _ => [] }

example : ∃ f, build demoDeep (declare [] [.output]) = some f ∧
    shows deepWorld f (.node true 0 [.simple 0, .node true 1 [.simple 1]]) = true :=
  ⟨_, rfl, by decide⟩

example (narrow : Fl → Fl) (u : FTree) :
    wconnect narrow 5 deepWorld (.node true 0 [.simple 0, .node true 1 [.simple 1]]) u =
      .raised deepWorld :=
  C106_nested_fails narrow 5 deepWorld demoDeep [.output] _ _ _ u [1, 0] .simple
    [⟨.member, []⟩, ⟨.member, []⟩] (by decide) rfl rfl rfl rfl (by decide) (by decide) (by decide)

/-- The world of two flat structures, an output and an input. -/
def flatWorld : World :=
  { net := fun i => ⟨.Int32, 0, false, false, i < 10, false, none, .int i, false, []⟩
    arrs := demoWorld.arrs
    nin := fun i => i == 10, nout := fun i => i == 0, nflow := fun i => i == 0
    ntargets := fun _ => [] }

/-- The two structures. -/
def flatTree (k : Nat) : FTree :=
  .node true k [.simple k, .node false (k + 1) [.simple (k + 1), .simple (k + 2), .simple (k + 3)]]

example : ∃ f, build demoFlat (declare [] [.output]) = some f ∧ shows flatWorld f (flatTree 0) = true
    ∧ sameShape (flatTree 0) (flatTree 10) = true := ⟨_, rfl, by decide, by decide⟩

example : ∃ m, wconnect id 5 flatWorld (flatTree 0) (flatTree 10) = .ok m ∧
    (m.net 3).targets = [13] ∧ (m.net 13).value = .int 3 := ⟨_, rfl, rfl, rfl⟩

theorem trail_flat (d : Anns) (p : List Nat) (T' : Ty) (tr : List Level)
    (h : demoFlat.trail [⟨.root, d⟩] p = some (T', tr)) : structures tr ≤ 1 := by
  match p with
  | [] => cases h; simp [structures, List.countP_cons]
  | [0] => cases h; simp [structures, List.countP_cons]
  | 0 :: _ :: _ => cases h
  | [1] => cases h; simp [structures, List.countP_cons]
  | [1, _] => cases h; simp [structures, List.countP_cons]
  | 1 :: _ :: _ :: _ => cases h
  | (_ + 2) :: _ => cases h

example (narrow : Fl → Fl) : wconnect narrow 5 flatWorld (flatTree 0) (flatTree 10) =
    addAll narrow 5 flatWorld (pairs (flatTree 0) (flatTree 10)) := by
  refine (C106_connect_partial narrow 5 flatWorld demoFlat [.output] _ _ _ (by decide)
    (fun p T' tr h => trail_flat _ p T' tr h) rfl (by decide) rfl rfl (by decide) ?_).1
  intro l hl
  simp only [flatTree, pairs, pairsList, List.append_nil, List.cons_append, List.nil_append,
    List.mem_cons, List.not_mem_nil, or_false] at hl
  rcases hl with rfl | rfl | rfl | rfl | rfl | rfl <;>
    simp [World.agree, World.connected, flatWorld]

/-- A forcible structure with an array of simple values in an array is not compiled. -/
example : build (.struct (.cons [] (.array false 2 (.array true 3 .simple)) .nil))
    (declare [] [.forcible]) = none := rfl

/-- A forcible array of a structure: its simple fields are forcible. -/
example : ∃ f g, build (.array false 2 demoFlat) (declare [] [.input, .forcible]) = some f ∧
    f.at [1, 1, 2] = some g ∧ g.isForcible = true ∧ g.isInput = false ∧ g.isState = true :=
  ⟨_, _, rfl, rfl, rfl, rfl, rfl⟩

/-- C106 fails for inputs: the members of a structure declared an input are not inputs, and the
parts of a transient field say that they are states. -/
theorem C106_input_fails : ∃ (T : Ty) (f g : FT) (p : List Nat),
    build T (declare [] [.transient, .input]) = some f ∧ f.at p = some g ∧
    f.isInput = true ∧ f.isState = false ∧ g.isLeaf = true ∧ g.isInput = false ∧
    g.isState = true :=
  ⟨demoFlat, _, _, [0], rfl, rfl, rfl, rfl, rfl, rfl, rfl⟩

end Verif.Field.Annot
