import Verif.Pub.Types

/-! Property C53. -/
namespace Verif.Pub
open Verif.Any (Kind Fl Any)
open Verif.Path (Str checkName)

/-! ### Specification -/

/-- The later type differs from the earlier one at most by literals or fields added at the
end. -/
def Grows : TypeDef → TypeDef → Prop
  | .enumeration k l, .enumeration k' l' => k = k' ∧ l <+: l'
  | .struct f, .struct f' => f <+: f'
  | .cls b f, .cls b' f' => b = b' ∧ f <+: f'
  | t, t' => t = t'

/-- The type a call is made on or with. -/
def Op.target : Op → Uuid
  | .addFloat u .. | .addInteger u .. | .addEnumeration u .. | .addArray u ..
  | .addString u .. | .addStructure u .. | .addClass u .. | .addLiteral u ..
  | .addField u .. => u

/-- The call adds a type (rather than a literal or a field to a type). -/
def Op.adds : Op → Bool
  | .addLiteral .. | .addField .. => false
  | _ => true

/-- What an array or a class refers to was registered before it: the item type of an array,
which is neither `String8` nor `Void`, and the base of a class, which is a class. -/
def RefsEarlier (R : Registry) : Prop :=
  ∀ pre e post, R = pre ++ e :: post →
    (∀ item s c b, e.type = .array item s c b →
      item ≠ primUuid .String8 ∧ item ≠ primUuid .None ∧ ∃ d ∈ pre, d.uuid = item) ∧
    (∀ base fs, e.type = .cls base fs → base ≠ primUuid .None →
      ∃ d ∈ pre, d.uuid = base ∧ ∃ b' fs', d.type = .cls b' fs')

/-- The type a call asks for. A negative size or count of an array counts as zero. -/
def Op.asks : Op → TypeDef → Prop
  | .addFloat _ _ lo hi i j k, t => t = .float k lo hi i j ∧ (k = .Float32 ∨ k = .Float64)
  | .addInteger _ _ lo hi k, t => t = .integer k lo hi ∧
      k ∈ [Kind.Int8, .Int16, .Int32, .Int64, .UInt8, .UInt16, .UInt32, .UInt64]
  | .addEnumeration _ _ n, t => ∃ k, t = .enumeration k [] ∧
      (n, k) ∈ [(1, Kind.Int8), (2, .Int16), (4, .Int32), (8, .Int64)]
  | .addArray _ _ item size count simple, t =>
      t = .array item size.toNat count.toNat simple
  | .addString _ _ len, t => t = .string len
  | .addStructure .., t => t = .struct []
  | .addClass _ _ base, t => t = .cls base []
  | .addLiteral .., _ | .addField .., _ => True

/-! ### Lemmas -/

theorem Grows.refl (t : TypeDef) : Grows t t := by
  cases t <;> simp [Grows]

theorem Grows.trans {a b c : TypeDef} (h : Grows a b) (h' : Grows b c) : Grows a c := by
  cases a <;> cases b <;> simp only [Grows] at h <;> first | (cases h; done) | skip
  all_goals cases c <;> simp only [Grows] at h' ⊢ <;>
    first
    | (cases h'; done)
    | exact ⟨h.1.trans h'.1, h.2.trans h'.2⟩
    | exact List.IsPrefix.trans h h'
    | simp_all

theorem getType_none {R : Registry} {u : Uuid} :
    getType R u = none ↔ ∀ e ∈ R, e.uuid ≠ u := by
  simp [getType, List.find?_eq_none]

theorem getType_some {R : Registry} {u : Uuid} {t : TypeDef} (h : getType R u = some t) :
    ∃ e ∈ R, e.uuid = u ∧ e.type = t := by
  simp only [getType, Option.map_eq_some_iff] at h
  obtain ⟨e, he, rfl⟩ := h
  exact ⟨e, List.mem_of_find?_eq_some he, by simpa using List.find?_some he, rfl⟩

theorem getType_of_mem {R : Registry} (hn : (R.map Entry.uuid).Nodup) {e : Entry}
    (he : e ∈ R) : getType R e.uuid = some e.type := by
  induction R with
  | nil => cases he
  | cons d R ih =>
    simp only [List.map_cons, List.nodup_cons] at hn
    rcases List.mem_cons.1 he with rfl | h
    · simp [getType]
    · have : d.uuid ≠ e.uuid := by
        intro hh; exact hn.1 (hh ▸ List.mem_map_of_mem h)
      have := ih hn.2 h
      simp only [getType, List.find?_cons] at this ⊢
      rw [show (d.uuid == e.uuid) = false by simpa]
      exact this

theorem getType_append {R S : Registry} {u : Uuid} {t : TypeDef} (h : getType R u = some t) :
    getType (R ++ S) u = some t := by
  simp only [getType, Option.map_eq_some_iff] at h ⊢
  obtain ⟨e, he, rfl⟩ := h
  exact ⟨e, by simp [List.find?_append, he], rfl⟩

theorem getType_modify (R : Registry) (u v : Uuid) (t : TypeDef) :
    getType (modify R u t) v =
      if v = u then (getType R v).map (fun _ => t) else getType R v := by
  induction R with
  | nil => simp [modify, getType]
  | cons e R ih =>
    simp only [modify, getType, List.map_cons, List.find?_cons] at ih ⊢
    by_cases h1 : e.uuid = v
    · subst h1
      by_cases h2 : e.uuid = u <;> simp [h2]
    · have hb : (e.uuid == v) = false := by simpa
      have hb' : ((if e.uuid = u then { e with type := t } else e).uuid == v) = false := by
        split <;> simpa
      rw [hb, hb']
      exact ih

/-- The shapes of a call's effect. -/
theorem step_cases (R : Registry) (op : Op) :
    ((step R op).1 = R) ∨
    (op.adds = true ∧ (step R op).2 = none ∧ getType R op.target = none ∧
      ∃ n t, (step R op).1 = R ++ [⟨op.target, n, t⟩] ∧
        (∀ item s c b, t = .array item s c b →
          item ≠ primUuid .String8 ∧ item ≠ primUuid .None ∧ ∃ d, getType R item = some d) ∧
        (∀ base fs, t = .cls base fs → base ≠ primUuid .None →
          ∃ b' fs', getType R base = some (.cls b' fs')) ∧
        (∀ k l, t = .enumeration k l → l = [])) ∨
    (op.adds = false ∧ (step R op).2 = none ∧
      ∃ t t', getType R op.target = some t ∧ Grows t t' ∧ (step R op).1 = modify R op.target t' ∧
        (∀ item s c b, t' ≠ .array item s c b) ∧
        (∀ k l, t' = .enumeration k l → ∃ l0, t = .enumeration k l0 ∧
          ((l0.map Prod.fst).Nodup → (l.map Prod.fst).Nodup))) := by
  have hadd : ∀ (u : Uuid) (n : Option Str) (c : Ctor),
      (addType R u n c).1 = R ∨
      ((addType R u n c).2 = none ∧ getType R u = none ∧
        ∃ t, c = .ok t ∧ (addType R u n c).1 = R ++ [⟨u, n.getD [], t⟩]) := by
    intro u n c
    unfold addType
    split
    · exact Or.inl rfl
    · rename_i h
      cases c with
      | error e => exact Or.inl rfl
      | ok t => exact Or.inr ⟨rfl, h, t, rfl, rfl⟩
  have hnamed : ∀ (n : Option Str) (c : Ctor) t, named n c = .ok t → c = .ok t := by
    intro n c t h
    unfold named at h
    split at h
    · exact h
    · cases h
  have simple : ∀ (u : Uuid) (n : Option Str) (t0 : TypeDef),
      (∀ item s c b, t0 ≠ .array item s c b) → (∀ base fs, t0 ≠ .cls base fs) →
      (∀ k l, t0 = .enumeration k l → l = []) →
      ∀ c, (∀ t, c = Except.ok t → t = t0) →
      ((addType R u n c).1 = R) ∨
      ((addType R u n c).2 = none ∧ getType R u = none ∧
        ∃ n' t, (addType R u n c).1 = R ++ [⟨u, n', t⟩] ∧
        (∀ item s c b, t = .array item s c b →
          item ≠ primUuid .String8 ∧ item ≠ primUuid .None ∧ ∃ d, getType R item = some d) ∧
        (∀ base fs, t = .cls base fs → base ≠ primUuid .None →
          ∃ b' fs', getType R base = some (.cls b' fs')) ∧
        (∀ k l, t = .enumeration k l → l = [])) := by
    intro u n t0 h1 h2 h3 c hc
    rcases hadd u n c with h | ⟨ha, hb, t, ht, h⟩
    · exact Or.inl h
    · have := hc t ht
      subst this
      exact Or.inr ⟨ha, hb, _, t, h, fun _ _ _ _ e => absurd e (h1 _ _ _ _),
        fun _ _ e => absurd e (h2 _ _), h3⟩
  have lift : ∀ {P Q : Prop}, op.adds = true → (P ∨ Q) → ∀ {S : Prop},
      P ∨ (op.adds = true ∧ Q) ∨ S := by
    intro P Q ha h S
    rcases h with h | h
    · exact Or.inl h
    · exact Or.inr (Or.inl ⟨ha, h⟩)
  cases op with
  | addFloat u n min max i j k =>
    simp only [step]
    split
    · exact lift rfl (simple u n (.float k min max i j) (by simp) (by simp) (by simp) _
        (fun t h => by have := hnamed _ _ _ h; cases this; rfl))
    · exact Or.inl rfl
  | addInteger u n min max k =>
    simp only [step]
    split
    · exact lift rfl (simple u n (.integer k min max) (by simp) (by simp) (by simp) _
        (fun t h => by have := hnamed _ _ _ h; cases this; rfl))
    · exact Or.inl rfl
  | addEnumeration u n size =>
    simp only [step]
    refine lift rfl (simple u n (.enumeration ((enumKind size).getD .None) []) (by simp)
      (by simp) (by simp) _ (fun t h => ?_))
    split at h
    · cases h
    · rename_i hk
      have := hnamed _ _ _ h; cases this; rw [hk]; rfl
  | addString u n len =>
    simp only [step]
    exact lift rfl (simple u n (.string len) (by simp) (by simp) (by simp) _
        (fun t h => by have := hnamed _ _ _ h; cases this; rfl))
  | addStructure u n =>
    simp only [step]
    exact lift rfl (simple u n (.struct []) (by simp) (by simp) (by simp) _
        (fun t h => by have := hnamed _ _ _ h; cases this; rfl))
  | addArray u n item size count simple' =>
    simp only [step]
    rcases hadd u n (named n (mkArray R item size count simple')) with h | ⟨ha, hb, t, ht, h⟩
    · exact Or.inl h
    · have h2 := hnamed _ _ _ ht
      unfold mkArray at h2
      split at h2
      · cases h2
      · rename_i d hd
        split at h2
        · cases h2
        · rename_i hne
          cases h2
          refine Or.inr (Or.inl ⟨rfl, ha, hb, _, _, h, ?_, ?_, by simp⟩)
          · intro item' s c b e
            cases e
            exact ⟨fun hh => hne (Or.inl hh), fun hh => hne (Or.inr hh), d, hd⟩
          · intro base fs e; cases e
  | addClass u n base =>
    simp only [step]
    rcases hadd u n (named n (mkClass R u base)) with h | ⟨ha, hb, t, ht, h⟩
    · exact Or.inl h
    · have h2 := hnamed _ _ _ ht
      unfold mkClass at h2
      split at h2
      · rename_i hv
        cases h2
        refine Or.inr (Or.inl ⟨rfl, ha, hb, _, _, h, ?_, ?_, by simp⟩)
        · intro item' s c b e; cases e
        · intro base' fs e hne; cases e; exact absurd hv hne
      · split at h2
        · cases h2
        · split at h2
          · cases h2
          · rename_i b' fs' hd
            cases h2
            refine Or.inr (Or.inl ⟨rfl, ha, hb, _, _, h, ?_, ?_, by simp⟩)
            · intro item' s c b e; cases e
            · intro base' fs e hne; cases e; exact ⟨b', fs', hd⟩
          · cases h2
  | addLiteral u n v =>
    simp only [step]
    split
    · rename_i k lits hk
      split
      · rename_i lits' hl
        unfold addLiteral at hl
        split at hl
        · cases hl
        · cases hl
          rename_i hx
          refine Or.inr (Or.inr ⟨rfl, rfl, _, .enumeration k (lits ++ [(v, n)]), hk,
            ⟨rfl, List.prefix_append _ _⟩, rfl, by simp, ?_⟩)
          intro k' l' e
          cases e
          refine ⟨_, rfl, fun hnd => ?_⟩
          rw [List.map_append, List.nodup_append]
          refine ⟨hnd, by simp, ?_⟩
          intro a ham b hb
          simp only [List.map_cons, List.map_nil, List.mem_singleton] at hb
          subst hb
          obtain ⟨l, hl, rfl⟩ := List.mem_map.1 ham
          intro heq
          exact hx (List.any_eq_true.2 ⟨l, hl, by simpa using heq⟩)
      · exact Or.inl rfl
    · exact Or.inl rfl
  | addField u f =>
    simp only [step]
    split
    · rename_i fs hk
      exact Or.inr (Or.inr ⟨rfl, rfl, _, .struct (fs ++ [f]), hk,
        (List.prefix_append fs [f] :), rfl, by simp, by simp⟩)
    · rename_i b fs hk
      exact Or.inr (Or.inr ⟨rfl, rfl, _, .cls b (fs ++ [f]), hk,
        ⟨rfl, List.prefix_append _ _⟩, rfl, by simp, by simp⟩)
    · exact Or.inl rfl

theorem modify_uuids (R : Registry) (u : Uuid) (t : TypeDef) :
    (modify R u t).map Entry.uuid = R.map Entry.uuid := by
  simp only [modify, List.map_map]
  apply List.map_congr_left
  intro e _
  simp only [Function.comp]
  split <;> rfl

structure Inv (R : Registry) : Prop where
  nodup : (R.map Entry.uuid).Nodup
  refs : RefsEarlier R

theorem inv_step {R : Registry} (h : Inv R) (op : Op) : Inv (step R op).1 := by
  rcases step_cases R op with he | ⟨_, _, hnone, n, t, he, ha, hc, _⟩ |
      ⟨_, _, t, t', ht, hg, he, hna, _⟩
  · rw [he]; exact h
  · rw [he]
    constructor
    · rw [List.map_append, List.nodup_append]
      refine ⟨h.nodup, by simp, ?_⟩
      intro a hm b hb
      simp only [List.map_cons, List.map_nil, List.mem_singleton] at hb
      subst hb
      obtain ⟨e, he', rfl⟩ := List.mem_map.1 hm
      exact getType_none.1 hnone e he'
    · intro pre e post hs
      rcases List.eq_nil_or_concat post with rfl | ⟨post', x, rfl⟩
      · obtain ⟨rfl, hx⟩ := List.append_inj' hs rfl
        simp only [List.cons.injEq, and_true] at hx
        subst hx
        refine ⟨fun item s c b e => ?_, fun base fs e hb => ?_⟩
        · obtain ⟨h1, h2, d, hd⟩ := ha item s c b e
          obtain ⟨d', hm, hu, _⟩ := getType_some hd
          exact ⟨h1, h2, d', hm, hu⟩
        · obtain ⟨b', fs', hd⟩ := hc base fs e hb
          obtain ⟨d', hm, hu, hty⟩ := getType_some hd
          exact ⟨d', hm, hu, b', fs', hty⟩
      · rw [List.concat_eq_append, ← List.cons_append, ← List.append_assoc] at hs
        obtain ⟨hR, _⟩ := List.append_inj' hs rfl
        exact h.refs pre e post' hR
  · rw [he]
    constructor
    · rw [modify_uuids]; exact h.nodup
    · intro pre e post hs
      simp only [modify] at hs
      obtain ⟨pre0, rest0, hR, hpre, hrest⟩ := List.map_eq_append_iff.1 hs
      obtain ⟨e0, post0, rfl, he0, hpost⟩ := List.map_eq_cons_iff.1 hrest
      have hold := h.refs pre0 e0 post0 hR
      have hmem : ∀ d ∈ pre0, (if d.uuid = op.target then { d with type := t' } else d) ∈ pre := by
        intro d hd; rw [← hpre]; exact List.mem_map_of_mem hd
      have hty : ∀ d ∈ R, d.uuid = op.target → d.type = t := by
        intro d hd hu
        have := getType_of_mem h.nodup hd
        rw [hu, ht] at this
        simpa using this.symm
      refine ⟨fun item s c b e1 => ?_, fun base fs e1 hb => ?_⟩
      · have : e0.type = .array item s c b := by
          rw [← he0] at e1
          split at e1
          · exact absurd e1 (hna _ _ _ _)
          · exact e1
        obtain ⟨h1, h2, d, hd, hu⟩ := hold.1 item s c b this
        refine ⟨h1, h2, _, hmem d hd, ?_⟩
        split <;> exact hu
      · have : ∃ fs0, e0.type = .cls base fs0 := by
          rw [← he0] at e1
          split at e1
          · rename_i hu
            have he0t : e0.type = t := hty e0 (by rw [hR]; simp) hu
            simp only at e1
            subst e1
            rw [he0t]
            cases t <;> simp only [Grows] at hg <;> first | (cases hg; done) | skip
            exact ⟨_, by rw [hg.1]⟩
          · exact ⟨_, e1⟩
        obtain ⟨fs0, h0⟩ := this
        obtain ⟨d, hd, hu, b', fs', hdt⟩ := hold.2 base fs0 h0 hb
        refine ⟨_, hmem d hd, ?_, ?_⟩
        · split <;> exact hu
        · split
          · rename_i hut
            have : d.type = t := hty d (by rw [hR]; simp [hd]) hut
            rw [this] at hdt
            subst hdt
            cases t' <;> simp only [Grows] at hg <;> first | (cases hg; done) | skip
            exact ⟨_, _, rfl⟩
          · exact ⟨b', fs', hdt⟩

theorem inv_initial : Inv initial := by
  constructor
  · decide
  · have : ∀ e ∈ initial, (match e.type with | .array .. => false | .cls .. => false | _ => true)
        = true := by decide
    intro pre e post hs
    have he := this e (by rw [hs]; simp)
    refine ⟨fun item s c b h => ?_, fun base fs h => ?_⟩ <;> rw [h] at he <;> simp at he

theorem inv_run (ops : List Op) : ∀ {R : Registry}, Inv R → Inv (run R ops) := by
  induction ops with
  | nil => intro R h; exact h
  | cons op ops ih => intro R h; exact ih (inv_step h op)

theorem step_grows (R : Registry) (op : Op) (u : Uuid) (t : TypeDef)
    (h : getType R u = some t) :
    ∃ t', getType (step R op).1 u = some t' ∧ Grows t t' ∧
      (op.adds = true ∨ op.target ≠ u → t' = t) := by
  rcases step_cases R op with he | ⟨_, _, _, n, t1, he, _⟩ | ⟨ha, _, t1, t', ht, hg, he, _⟩
  · rw [he]; exact ⟨t, h, Grows.refl t, fun _ => rfl⟩
  · rw [he]; exact ⟨t, getType_append h, Grows.refl t, fun _ => rfl⟩
  · rw [he, getType_modify]
    by_cases hu : u = op.target
    · subst hu
      rw [h] at ht
      cases ht
      exact ⟨t', by simp [h], hg, by simp [ha]⟩
    · exact ⟨t, by simp [hu, h], Grows.refl t, fun _ => rfl⟩

/-! ### C53 -/

/-- C53, one type per UUID: after any calls no two types have the same UUID, so a look-up by
UUID finds the one type registered with it. -/
theorem C53_unique (ops : List Op) :
    ((run initial ops).map Entry.uuid).Nodup ∧
    ∀ e ∈ run initial ops, getType (run initial ops) e.uuid = some e.type := by
  have h := (inv_run ops inv_initial).nodup
  exact ⟨h, fun e he => getType_of_mem h he⟩

/-- C53, existing types stay: no call removes or replaces a type. Adding a type changes no
other type; adding a literal or a field changes that type only, at its end. -/
theorem C53_stable (R : Registry) (op : Op) (ops : List Op) (u : Uuid) (t : TypeDef)
    (h : getType R u = some t) :
    (∃ t', getType (step R op).1 u = some t' ∧ Grows t t' ∧
      (op.adds = true ∨ op.target ≠ u → t' = t)) ∧
    ∃ t', getType (run R ops) u = some t' ∧ Grows t t' := by
  refine ⟨step_grows R op u t h, ?_⟩
  induction ops generalizing R t with
  | nil => exact ⟨t, h, Grows.refl t⟩
  | cons op ops ih =>
    obtain ⟨t1, h1, hg1, _⟩ := step_grows R op u t h
    obtain ⟨t2, h2, hg2⟩ := ih _ t1 h1
    exact ⟨t2, h2, hg1.trans hg2⟩

/-- C53, failed calls add nothing; a call that adds a type and does not fail adds exactly that
type, whose UUID was unknown. -/
theorem C53_failed (R : Registry) (op : Op) :
    ((step R op).2 ≠ none → (step R op).1 = R) ∧
    (op.adds = true → (step R op).2 = none →
      getType R op.target = none ∧ ∃ n t, (step R op).1 = R ++ [⟨op.target, n, t⟩]) := by
  have add : ∀ (u : Uuid) (n : Option Str) (c : Ctor), (addType R u n c).2 = none →
      getType R u = none ∧ ∃ n' t, (addType R u n c).1 = R ++ [⟨u, n', t⟩] := by
    intro u n c h
    unfold addType at h ⊢
    split
    · rename_i hs; rw [hs] at h; simp at h
    · rename_i hs
      rw [hs] at h
      cases c with
      | error e => simp at h
      | ok t => exact ⟨hs, _, _, rfl⟩
  constructor
  · intro h
    rcases step_cases R op with he | ⟨_, hn, _⟩ | ⟨_, hn, _⟩
    · exact he
    · exact absurd hn h
    · exact absurd hn h
  · intro ha hn
    cases op <;> simp only [step, Op.adds, Bool.false_eq_true] at ha hn ⊢
    case addFloat => split at hn; exact (by rw [if_pos (by assumption)]; exact add _ _ _ hn); simp at hn
    case addInteger => split at hn; exact (by rw [if_pos (by assumption)]; exact add _ _ _ hn); simp at hn
    all_goals exact add _ _ _ hn

/-- C53, the type added is the one asked for, under the UUID given. -/
theorem C53_added (R : Registry) (op : Op) (ha : op.adds = true) (hn : (step R op).2 = none) :
    ∃ t, getType (step R op).1 op.target = some t ∧ op.asks t := by
  have hnamed : ∀ (n : Option Str) (c : Ctor) t, named n c = .ok t → c = .ok t := by
    intro n c t h
    unfold named at h
    split at h
    · exact h
    · cases h
  have add : ∀ (u : Uuid) (n : Option Str) (c : Ctor), (addType R u n c).2 = none →
      ∃ t, c = .ok t ∧ getType (addType R u n c).1 u = some t := by
    intro u n c h
    unfold addType at h ⊢
    split
    · rename_i hs; rw [hs] at h; simp at h
    · rename_i hs
      rw [hs] at h
      cases c with
      | error e => simp at h
      | ok t =>
        refine ⟨t, rfl, ?_⟩
        simp only [getType, Option.map_eq_none_iff] at hs
        simp [getType, List.find?_append, hs]
  cases op with
  | addLiteral => simp [Op.adds] at ha
  | addField => simp [Op.adds] at ha
  | addFloat u n lo hi i j k =>
    simp only [step] at hn ⊢
    split at hn
    · rename_i hk
      rw [if_pos hk]
      obtain ⟨t, hc, hg⟩ := add _ _ _ hn
      have := hnamed _ _ _ hc; cases this
      exact ⟨_, hg, rfl, hk⟩
    · simp at hn
  | addInteger u n lo hi k =>
    simp only [step] at hn ⊢
    split at hn
    · rename_i hk
      rw [if_pos hk]
      obtain ⟨t, hc, hg⟩ := add _ _ _ hn
      have := hnamed _ _ _ hc; cases this
      exact ⟨_, hg, rfl, by simpa using hk⟩
    · simp at hn
  | addEnumeration u n size =>
    simp only [step] at hn ⊢
    obtain ⟨t, hc, hg⟩ := add _ _ _ hn
    refine ⟨t, hg, ?_⟩
    split at hc
    · cases hc
    · rename_i k hk
      have := hnamed _ _ _ hc; cases this
      refine ⟨k, rfl, ?_⟩
      unfold enumKind at hk
      split at hk
      · simp_all
      · split at hk
        · simp_all
        · split at hk
          · simp_all
          · split at hk <;> simp_all
  | addArray u n item size count simple =>
    simp only [step] at hn ⊢
    obtain ⟨t, hc, hg⟩ := add _ _ _ hn
    refine ⟨t, hg, ?_⟩
    have h2 := hnamed _ _ _ hc
    unfold mkArray at h2
    split at h2
    · cases h2
    · split at h2
      · cases h2
      · cases h2
        have : ∀ i : Int, (if i ≥ 0 then i.toNat else 0) = i.toNat := by
          intro i; split <;> omega
        simp only [Op.asks, this]
  | addString u n len =>
    simp only [step] at hn ⊢
    obtain ⟨t, hc, hg⟩ := add _ _ _ hn
    have := hnamed _ _ _ hc; cases this
    exact ⟨_, hg, rfl⟩
  | addStructure u n =>
    simp only [step] at hn ⊢
    obtain ⟨t, hc, hg⟩ := add _ _ _ hn
    have := hnamed _ _ _ hc; cases this
    exact ⟨_, hg, rfl⟩
  | addClass u n base =>
    simp only [step] at hn ⊢
    obtain ⟨t, hc, hg⟩ := add _ _ _ hn
    refine ⟨t, hg, ?_⟩
    have h2 := hnamed _ _ _ hc
    unfold mkClass at h2
    split at h2
    · cases h2; rfl
    · split at h2
      · cases h2
      · split at h2 <;> cases h2
        rfl

/-- C53, a type whose UUID is in use is refused. -/
theorem C53_refused (R : Registry) (op : Op) (ha : op.adds = true)
    (h : getType R op.target ≠ none) : (step R op).2 ≠ none ∧ (step R op).1 = R := by
  have add : ∀ (u : Uuid) (n : Option Str) (c : Ctor), getType R u ≠ none →
      (addType R u n c).2 ≠ none := by
    intro u n c h
    unfold addType
    split
    · simp
    · contradiction
  have hn : (step R op).2 ≠ none := by
    cases op <;> simp only [step, Op.adds, Bool.false_eq_true] at ha ⊢
    case addFloat => split; exact add _ _ _ h; simp
    case addInteger => split; exact add _ _ _ h; simp
    all_goals exact add _ _ _ h
  exact ⟨hn, (C53_failed R op).1 hn⟩

/-- C53, the primitive types are always found by their kind. -/
theorem C53_primitive (ops : List Op) (k : Kind) :
    getTypeOfKind (run initial ops) k = some (.primitive k) := by
  have h0 : getType initial (primUuid k) = some (.primitive k) := by
    cases k <;> rfl
  obtain ⟨t', h, hg⟩ := (C53_stable initial (.addStructure 0 none) ops _ _ h0).2
  unfold getTypeOfKind
  rw [h]
  cases t' <;> simp only [Grows] at hg <;> cases hg
  rfl

/-- C53, references, partial: an array refers to an item type and a class to a base class
registered before it, after any calls; hence arrays and bases cannot form a cycle. Missing:
the fields of structures and classes, which the code does not check (`C53_fails`). -/
theorem C53_refs_partial (ops : List Op) : RefsEarlier (run initial ops) :=
  (inv_run ops inv_initial).refs

/-- C53, literals of an enumeration have different values after any calls. -/
theorem C53_literals (ops : List Op) (u : Uuid) (k : Kind) (lits : List (Int × Str))
    (h : getType (run initial ops) u = some (.enumeration k lits)) :
    (lits.map Prod.fst).Nodup := by
  suffices H : ∀ R : Registry, (∀ u k lits, getType R u = some (.enumeration k lits) →
      (lits.map Prod.fst).Nodup) →
      ∀ ops u k lits, getType (run R ops) u = some (.enumeration k lits) →
      (lits.map Prod.fst).Nodup by
    refine H initial ?_ ops u k lits h
    intro u k lits h
    obtain ⟨e, he, _, ht⟩ := getType_some h
    have : ∀ e ∈ initial, (match e.type with
        | .enumeration _ l => decide (l.map Prod.fst).Nodup | _ => true) = true := by
      decide +kernel
    have := this e he
    rw [ht] at this
    simpa using this
  intro R hR ops
  induction ops generalizing R with
  | nil => exact hR
  | cons op ops ih =>
    refine ih _ ?_
    intro u k lits h
    rcases step_cases R op with he | ⟨_, hn, hnone, n, t, he, _, _, hl⟩ |
        ⟨ha, _, t, t', ht, _, he, _, hl⟩
    · rw [he] at h; exact hR _ _ _ h
    · rw [he] at h
      cases h0 : getType R u with
      | some t0 =>
        rw [getType_append h0] at h
        exact hR _ _ _ (h0.trans h)
      | none =>
        simp only [getType, Option.map_eq_none_iff] at h0
        simp only [getType, List.find?_append, h0, Option.none_or, List.find?_cons,
          List.find?_nil] at h
        split at h <;> simp at h
        rw [hl k lits h]; simp
    · rw [he, getType_modify] at h
      split at h
      · rename_i hu
        subst hu
        rw [ht] at h
        simp only [Option.map_some, Option.some.injEq] at h
        obtain ⟨l0, rfl, hnd⟩ := hl k lits h
        exact hnd (hR _ _ _ ht)
      · exact hR _ _ _ h

/-- C53, false of fields: a structure may name an unregistered type, or itself, in a field
(`StructureType::AddField` checks nothing). -/
theorem C53_fails :
    ∃ ops : List Op,
      getType (run initial ops) 101 = none ∧
      getType (run initial ops) 100 =
        some (.struct [⟨"a".toList, 101⟩, ⟨"b".toList, 100⟩]) :=
  ⟨[.addStructure 100 (some "S".toList), .addField 100 ⟨"a".toList, 101⟩,
    .addField 100 ⟨"b".toList, 100⟩], rfl, rfl⟩

/-! ### The hypotheses are met, and the calls do something -/

/-- A registry with an array of an integer type, an enumeration with literals, a class and a
class derived from it. -/
def demoOps : List Op :=
  [.addInteger 100 (some "Small".toList) 0 10 .Int32,
   .addArray 101 (some "Smalls".toList) 100 4 3 true,
   .addEnumeration 102 (some "Mode".toList) 4,
   .addLiteral 102 "On".toList 1,
   .addLiteral 102 "Off".toList 0,
   .addLiteral 102 "Again".toList 1,
   .addClass 103 (some "Base".toList) voidUuid,
   .addClass 104 (some "Derived".toList) 103,
   .addField 104 ⟨"data".toList, 101⟩,
   .addArray 105 (some "Bad".toList) 106 4 3 true]

example : getType (run initial demoOps) 101 = some (.array 100 4 3 true) := by rfl
example : getType (run initial demoOps) 102 =
    some (.enumeration .Int32 [(1, "On".toList), (0, "Off".toList)]) := by rfl
example : getType (run initial demoOps) 104 = some (.cls 103 [⟨"data".toList, 101⟩]) := by rfl
example : getType (run initial demoOps) 105 = none := by rfl
example : (step (run initial demoOps) (.addLiteral 102 "X".toList 1)).2 =
    some .duplicateLiteral := by rfl
example : (step (run initial demoOps) (.addString 101 (some "S".toList) 3)).2 =
    some .typeAlreadyRegistered := by rfl
example : (step (run initial demoOps) (.addArray 110 (some "S".toList) (primUuid .String8) 8 2
    true)).2 = some .incompatibleType := by rfl
example : (step (run initial demoOps) (.addClass 110 (some "S".toList) 110)).2 =
    some .incompatibleType := by rfl
example : (step (run initial demoOps) (.addString 110 (some "1S".toList) 3)).2 =
    some .invalidObjectName := by rfl

end Verif.Pub
