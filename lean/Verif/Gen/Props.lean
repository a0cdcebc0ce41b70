import Verif.Gen.Model
import Verif.Pub.OperProps
import Verif.Pub.MarshalProps

/-! Property C92: properties of generated components. -/
namespace Verif.Gen
open Verif.Any (Kind Fl Val Any Out)
open Verif.Path (Str checkName)
open Verif.Pub
open Verif.Field (coerce)

/-! ### Specification -/

/-- The definition of a property that counts: that of the most derived class that has one. -/
def owner (cls : List (List PropDef)) (n : Str) : Option PropDef :=
  cls.flatten.find? (fun d => d.name == n)

/-- Where a field is: static fields are the same for all components. -/
def place (c : Nat) (x : Cell) : Option Nat × Nat := (if x.static then none else some c, x.index)

/-- A class as the generator writes it: its properties have different valid names; the type of each
is registered and is the type of its field. -/
def Sound (R : Registry) (cls : List (List PropDef)) : Prop :=
  ∀ ps ∈ cls, (ps.map PropDef.name).Nodup ∧ ∀ p ∈ ps, checkName (some p.name) = .ok p.name ∧
    ∃ t, getType R p.uuid = some t ∧ t.kind = p.cell.kind ∧ t.kind ≠ .None ∧
      (t.kind = .String8 → ∃ len : Int, t = .string len ∧ 0 ≤ len ∧ len ≤ p.cell.len ∧
        len < 2 ^ 63)

/-- What the field holds after a value was assigned: the value; the empty string for a null one. -/
def held (v : Any) : Any := if v.value = .str none then ⟨v.type, .str (some [])⟩ else v

/-- `SetValue` must accept the value: the property can be written and the value is of its type. -/
def Accepts (R : Registry) (d : PropDef) (v : Any) : Prop :=
  d.access ≠ .readOnly ∧ ∃ t, getType R d.uuid = some t ∧ isValid t v = .ok true

open Classical in
/-- The last value accepted for the place of the field `x` of the component `c`. -/
noncomputable def lastSet (R : Registry) (cls : List (List PropDef)) (c : Nat) (x : Cell) :
    List (Nat × Str × Any) → Option Any
  | [] => none
  | (c', n, v) :: os => (lastSet R cls c x os).or <|
      if ∃ d, owner cls n = some d ∧ place c' d.cell = place c x ∧ Accepts R d v then some v
      else none

/-! ### Lemmas: handlers -/

theorem find_add (hs : Handlers) (n m : Str) (h : Handler) :
    (hs.add n h).find? (fun e => e.1 == m) =
      (hs.find? (fun e => e.1 == m)).or (if n = m then some (n, h) else none) := by
  unfold Handlers.add
  by_cases ha : hs.any (fun e => e.1 == n) = true
  · rw [if_pos ha]
    by_cases hn : n = m
    · subst hn
      obtain ⟨e, he, hp⟩ := List.any_eq_true.1 ha
      have : (hs.find? (fun e => e.1 == n)).isSome := by
        rw [List.find?_isSome]; exact ⟨e, he, hp⟩
      obtain ⟨x, hx⟩ := Option.isSome_iff_exists.1 this
      rw [hx]; rfl
    · rw [if_neg hn]; simp
  · rw [if_neg ha, List.find?_append]
    congr 1
    by_cases hn : n = m
    · simp [hn]
    · have : (n == m) = false := by simpa using hn
      simp [hn, List.find?, this]

theorem get_ne_set (a b : Str) : "get_".toList ++ a ≠ "set_".toList ++ b := by
  intro h
  have := congrArg List.head? h
  simp at this

theorem get_inj {a b : Str} : "get_".toList ++ a = "get_".toList ++ b ↔ a = b :=
  ⟨List.append_cancel_left, fun h => by rw [h]⟩

theorem set_inj {a b : Str} : "set_".toList ++ a = "set_".toList ++ b ↔ a = b :=
  ⟨List.append_cancel_left, fun h => by rw [h]⟩

/-- The getter a definition brings for the name. -/
def getterOf (n : Str) (d : PropDef) : Option (Str × Handler) :=
  if d.name = n ∧ d.access ≠ .writeOnly then some ("get_".toList ++ n, .getter d.cell) else none

/-- The setter a definition brings for the name. -/
def setterOf (n : Str) (d : PropDef) : Option (Str × Handler) :=
  if d.name = n ∧ d.access ≠ .readOnly then some ("set_".toList ++ n, .setter n d.cell) else none

theorem find_get_add (hs : Handlers) (d : PropDef) (n : Str) :
    (hs.addProperty d).find? (fun e => e.1 == "get_".toList ++ n) =
      (hs.find? (fun e => e.1 == "get_".toList ++ n)).or (getterOf n d) := by
  have hset : ∀ hs : Handlers, (if d.access = .readOnly then hs
      else hs.add ("set_".toList ++ d.name) (.setter d.name d.cell)).find?
        (fun e => e.1 == "get_".toList ++ n) = hs.find? (fun e => e.1 == "get_".toList ++ n) := by
    intro hs
    by_cases h : d.access = .readOnly
    · rw [if_pos h]
    · rw [if_neg h, find_add, if_neg (fun h => get_ne_set _ _ h.symm)]; simp
  have : (hs.addProperty d).find? (fun e => e.1 == "get_".toList ++ n) =
      (if d.access = .writeOnly then hs
        else hs.add ("get_".toList ++ d.name) (.getter d.cell)).find?
          (fun e => e.1 == "get_".toList ++ n) := hset _
  rw [this]
  unfold getterOf
  by_cases h : d.access = .writeOnly
  · rw [if_pos h, if_neg (fun g => g.2 h)]; simp
  · rw [if_neg h, find_add]
    by_cases hn : d.name = n
    · subst hn; rw [if_pos rfl, if_pos ⟨rfl, h⟩]
    · rw [if_neg (fun g => hn (get_inj.1 g)), if_neg (fun g => hn g.1)]

theorem find_set_add (hs : Handlers) (d : PropDef) (n : Str) :
    (hs.addProperty d).find? (fun e => e.1 == "set_".toList ++ n) =
      (hs.find? (fun e => e.1 == "set_".toList ++ n)).or (setterOf n d) := by
  have hget : ∀ hs : Handlers, (if d.access = .writeOnly then hs
      else hs.add ("get_".toList ++ d.name) (.getter d.cell)).find?
        (fun e => e.1 == "set_".toList ++ n) = hs.find? (fun e => e.1 == "set_".toList ++ n) := by
    intro hs
    by_cases h : d.access = .writeOnly
    · rw [if_pos h]
    · rw [if_neg h, find_add, if_neg (fun h => get_ne_set _ _ h)]; simp
  rw [← hget hs]
  unfold Handlers.addProperty setterOf
  simp only
  generalize (if d.access = .writeOnly then hs
      else hs.add ("get_".toList ++ d.name) (.getter d.cell)) = hs'
  by_cases h : d.access = .readOnly
  · rw [if_pos h, if_neg (fun g => g.2 h)]; simp
  · rw [if_neg h, find_add]
    by_cases hn : d.name = n
    · subst hn; rw [if_pos rfl, if_pos ⟨rfl, h⟩]
    · rw [if_neg (fun g => hn (set_inj.1 g)), if_neg (fun g => hn g.1)]

theorem find_fold (p : Str) (f : PropDef → Option (Str × Handler))
    (hf : ∀ (hs : Handlers) d, (hs.addProperty d).find? (fun e => e.1 == p) =
      (hs.find? (fun e => e.1 == p)).or (f d)) (ps : List PropDef) : ∀ hs : Handlers,
    (ps.foldl Handlers.addProperty hs).find? (fun e => e.1 == p) =
      (hs.find? (fun e => e.1 == p)).or (ps.findSome? f) := by
  induction ps with
  | nil => intro hs; simp
  | cons d ps ih =>
    intro hs
    rw [List.foldl_cons, ih, hf, Option.or_assoc, List.findSome?_cons]
    congr 1
    cases f d <;> rfl

/-- The handler of a name, in the classes. -/
def lookup (n : Str) : List Handlers → Option Handler
  | [] => none
  | hs :: base => match hs.find? (fun e => e.1 == n) with
    | some e => some e.2
    | none => lookup n base

theorem invokeIn_eq (narrow : Fl → Fl) (R : Registry) (w : World) (c : Nat) (q : AnyReq)
    (hss : List Handlers) : invokeIn narrow R w c q hss =
      match lookup q.opName hss with
      | some h => h.run narrow R w c q
      | none => (w, q, .raised) := by
  induction hss with
  | nil => rfl
  | cons hs base ih =>
    unfold invokeIn lookup
    cases hs.find? (fun e => e.1 == q.opName) with
    | some e => rfl
    | none => exact ih

theorem findSome_none (ps : List PropDef) (n : Str) (h : ps.find? (fun d => d.name == n) = none) :
    ps.findSome? (getterOf n) = none ∧ ps.findSome? (setterOf n) = none := by
  rw [List.find?_eq_none] at h
  constructor <;> (rw [List.findSome?_eq_none_iff]; intro d hd; have := h d hd)
  · unfold getterOf; rw [if_neg]; rintro ⟨rfl, _⟩; simp at this
  · unfold setterOf; rw [if_neg]; rintro ⟨rfl, _⟩; simp at this

theorem findSome_some (ps : List PropDef) (hn : (ps.map PropDef.name).Nodup) (n : Str) (d : PropDef)
    (h : ps.find? (fun d => d.name == n) = some d) :
    ps.findSome? (getterOf n) = getterOf n d ∧ ps.findSome? (setterOf n) = setterOf n d := by
  induction ps with
  | nil => simp at h
  | cons a ps ih =>
    rw [List.map_cons, List.nodup_cons] at hn
    rw [List.find?_cons] at h
    rw [List.findSome?_cons, List.findSome?_cons]
    cases ha : (a.name == n) with
    | true =>
      rw [ha] at h; cases h
      have hno : ps.find? (fun d => d.name == n) = none := by
        rw [List.find?_eq_none]
        intro e he hen
        apply hn.1
        rw [show d.name = e.name from (eq_of_beq ha).trans (eq_of_beq hen).symm]
        exact List.mem_map_of_mem he
      rw [(findSome_none ps n hno).1, (findSome_none ps n hno).2]
      constructor
      · generalize getterOf n d = x; cases x <;> rfl
      · generalize setterOf n d = x; cases x <;> rfl
    | false =>
      rw [ha] at h
      have hne : a.name ≠ n := by intro e; rw [e] at ha; simp at ha
      have h1 : getterOf n a = none := by unfold getterOf; rw [if_neg fun g => hne g.1]
      have h2 : setterOf n a = none := by unfold setterOf; rw [if_neg fun g => hne g.1]
      rw [h1, h2]
      exact ih hn.2 h

theorem sound_cons {R : Registry} {ps : List PropDef} {cls : List (List PropDef)}
    (h : Sound R (ps :: cls)) : Sound R cls := fun qs hq => h qs (List.mem_cons_of_mem _ hq)

theorem lookup_owner {R : Registry} {cls : List (List PropDef)} (hs : Sound R cls) (n : Str) :
    (∀ d, owner cls n = some d →
      (d.access ≠ .writeOnly →
        lookup ("get_".toList ++ n) (cls.map initHandlers) = some (.getter d.cell)) ∧
      (d.access ≠ .readOnly →
        lookup ("set_".toList ++ n) (cls.map initHandlers) = some (.setter n d.cell))) := by
  induction cls with
  | nil => intro d h; simp [owner] at h
  | cons ps cls ih =>
    intro d h
    have hn := (hs ps List.mem_cons_self).1
    unfold owner at h
    rw [List.flatten_cons, List.find?_append] at h
    have e1 := find_fold _ (getterOf n) (fun hs d => find_get_add hs d n) ps []
    have e2 := find_fold _ (setterOf n) (fun hs d => find_set_add hs d n) ps []
    rw [List.find?_nil, Option.none_or] at e1 e2
    cases hp : ps.find? (fun d => d.name == n) with
    | some d' =>
      rw [hp] at h; cases h
      have hdn : d.name = n := by simpa using List.find?_some hp
      obtain ⟨f1, f2⟩ := findSome_some ps hn n d hp
      constructor
      · intro ha
        rw [List.map_cons, lookup]
        rw [show initHandlers ps = ps.foldl Handlers.addProperty [] from rfl, e1, f1, getterOf,
          if_pos ⟨hdn, ha⟩]
      · intro ha
        rw [List.map_cons, lookup]
        rw [show initHandlers ps = ps.foldl Handlers.addProperty [] from rfl, e2, f2, setterOf,
          if_pos ⟨hdn, ha⟩]
    | none =>
      rw [hp, Option.none_or] at h
      obtain ⟨f1, f2⟩ := findSome_none ps n hp
      have := ih (sound_cons hs) d h
      constructor
      · intro ha
        rw [List.map_cons, lookup]
        rw [show initHandlers ps = ps.foldl Handlers.addProperty [] from rfl, e1, f1]
        exact this.1 ha
      · intro ha
        rw [List.map_cons, lookup]
        rw [show initHandlers ps = ps.foldl Handlers.addProperty [] from rfl, e2, f2]
        exact this.2 ha

/-! ### Lemmas: publication -/

theorem propOf_publish {R : Registry} (P : Pubn) (p : PropDef) (n : Str)
    (hc : checkName (some p.name) = .ok p.name) (ht : (getType R p.uuid).isSome) :
    propOf (P.publishProperty R (some p.name) p.uuid p.access).1 n =
      if p.name = n then some ⟨n, p.uuid, p.access⟩ else propOf P n := by
  obtain ⟨t, ht⟩ := Option.isSome_iff_exists.1 ht
  unfold Pubn.publishProperty
  rw [ht]
  simp only
  cases hf : P.props.find? (fun q => some q.name == some p.name) with
  | none =>
    simp only [hc]
    unfold propOf
    simp only
    rw [List.find?_append]
    by_cases hn : p.name = n
    · subst hn
      have : P.props.find? (fun q => q.name == p.name) = none := by
        rw [List.find?_eq_none] at hf ⊢
        intro q hq; have := hf q hq; simpa using this
      rw [this, if_pos rfl]
      simp
    · rw [if_neg hn]
      have : (p.name == n) = false := by simpa using hn
      simp [List.find?, this]
  | some q0 =>
    simp only
    unfold propOf
    simp only
    rw [List.find?_map]
    by_cases hn : p.name = n
    · subst hn
      rw [if_pos rfl]
      have hfun : ((fun q : Prp => q.name == p.name) ∘ fun q : Prp =>
          if some q.name = some p.name then { q with uuid := p.uuid, access := p.access } else q) =
          fun q : Prp => some q.name == some p.name := by
        funext q
        simp only [Function.comp]
        split <;> rfl
      rw [hfun, hf]
      have h0 : some q0.name = some p.name := by simpa using List.find?_some hf
      simp only [Option.map_some, if_pos h0]
      cases q0; cases h0; rfl
    · rw [if_neg hn]
      have hfun : ((fun q : Prp => q.name == n) ∘ fun q : Prp =>
          if some q.name = some p.name then { q with uuid := p.uuid, access := p.access } else q) =
          fun q : Prp => q.name == n := by
        funext q
        simp only [Function.comp]
        split <;> rfl
      rw [hfun]
      cases hq : P.props.find? (fun q => q.name == n) with
      | none => rfl
      | some q =>
        have : q.name = n := by simpa using List.find?_some hq
        simp only [Option.map_some]
        rw [if_neg]
        intro h; apply hn; rw [← this]; exact (Option.some.inj h).symm

theorem propOf_fold {R : Registry} (ps : List PropDef) (n : Str)
    (hn : (ps.map PropDef.name).Nodup)
    (hs : ∀ p ∈ ps, checkName (some p.name) = .ok p.name ∧ (getType R p.uuid).isSome) :
    ∀ P : Pubn, propOf (ps.foldl
      (fun P p => (P.publishProperty R (some p.name) p.uuid p.access).1) P) n =
      ((ps.find? (fun d => d.name == n)).map fun d => ⟨n, d.uuid, d.access⟩).or (propOf P n) := by
  induction ps with
  | nil => intro P; simp
  | cons p ps ih =>
    intro P
    rw [List.map_cons, List.nodup_cons] at hn
    have h1 := hs p List.mem_cons_self
    rw [List.foldl_cons, ih hn.2 (fun q hq => hs q (List.mem_cons_of_mem _ hq)),
      propOf_publish P p n h1.1 h1.2, List.find?_cons]
    by_cases hpn : p.name = n
    · subst hpn
      have : ps.find? (fun d => d.name == p.name) = none := by
        rw [List.find?_eq_none]
        intro e he hen
        apply hn.1
        rw [← eq_of_beq hen]
        exact List.mem_map_of_mem he
      simp [this]
    · have : (p.name == n) = false := by simpa using hpn
      rw [if_neg hpn, this]

/-! ### Lemmas: values -/

theorem held_ok (narrow : Fl → Fl) {R : Registry} {p : PropDef} {t : TypeDef} {v : Any}
    (hk : t.kind = p.cell.kind) (hn : t.kind ≠ .None)
    (hs : t.kind = .String8 → ∃ len : Int, t = .string len ∧ 0 ≤ len ∧ len ≤ p.cell.len ∧
      len < 2 ^ 63) (hv : v.Ok) (hval : isValid t v = .ok true) :
    v.type = p.cell.kind ∧ coerce narrow p.cell.kind p.cell.len v = .ok (held v).value ∧
    held v = ⟨p.cell.kind, (held v).value⟩ ∧ isValid t (held v) = .ok true := by
  have hty : t.kind = v.type := by
    apply Classical.byContradiction
    intro h
    unfold isValid at hval
    rw [if_pos h] at hval
    cases hval
  have hvk : v.type = p.cell.kind := hty.symm.trans hk
  refine ⟨hvk, ?_⟩
  obtain ⟨k, x⟩ := v
  simp only at hvk hty
  rw [← hk] at hvk
  subst hvk
  by_cases h8 : t.kind = .String8
  · obtain ⟨len, rfl, h0, h1, h2⟩ := hs h8
    rw [← hk]
    have hsz : toSize len = len.toNat := by unfold toSize; omega
    cases x with
    | str s =>
      cases s with
      | none =>
        refine ⟨?_, ?_, ?_⟩
        · simp [coerce, TypeDef.kind, Verif.Any.getString, Out.map, held]
        · simp [held]
        · simp [held, isValid, TypeDef.kind, Verif.Any.getString, Out.map]
      | some l =>
        have hl : l.length ≤ len.toNat := by
          simp [isValid, TypeDef.kind, Verif.Any.getString, Out.map, hsz] at hval
          omega
        refine ⟨?_, ?_, ?_⟩
        · simp [coerce, TypeDef.kind, Verif.Any.getString, Out.map, held,
            List.take_of_length_le (show l.length ≤ p.cell.len by omega)]
        · simp [held]
        · simpa [held] using hval
    | int v => simp [Any.Ok, TypeDef.kind, Kind.Range] at hv
    | _ => simp [Any.Ok, TypeDef.kind] at hv
  · have hne : x ≠ .str none := by
      rintro rfl
      cases hkk : t.kind <;> rw [hkk] at hv <;> simp [Any.Ok] at hv
      exact h8 hkk
    have hh : held ⟨t.kind, x⟩ = ⟨t.kind, x⟩ := by unfold held; rw [if_neg hne]
    rw [hh]
    refine ⟨?_, by rw [← hk], hval⟩
    rw [← hk]
    exact Verif.Field.coerce_same narrow
      ⟨t.kind, p.cell.len, false, false, false, false, none, x, false, []⟩ x
      ⟨hn, hv, fun h => absurd h h8⟩

theorem owner_mem {cls : List (List PropDef)} {n : Str} {d : PropDef} (h : owner cls n = some d) :
    d.name = n ∧ ∃ ps ∈ cls, d ∈ ps := by
  unfold owner at h
  refine ⟨by simpa using List.find?_some h, ?_⟩
  exact List.mem_flatten.1 (List.mem_of_find?_eq_some h)

theorem get_set (w : World) (c c' : Nat) (x y : Cell) (v : Val) :
    (w.set c x v).get c' y = if place c x = place c' y then v else w.get c' y := by
  unfold World.set World.get place
  cases hx : x.static <;> cases hy : y.static <;> simp <;> grind

/-! ### The theorems -/

/-- C92. The published property of a name has the type and access of the most derived definition,
and there is one exactly for the names of the classes. -/
theorem C92_published (R : Registry) (cls : List (List PropDef)) (hs : Sound R cls) (n : Str) :
    propOf (publish R cls) n = (owner cls n).map fun d => ⟨n, d.uuid, d.access⟩ := by
  induction cls with
  | nil => rfl
  | cons ps cls ih =>
    have h := hs ps List.mem_cons_self
    unfold publish
    rw [propOf_fold ps n h.1 (fun p hp => ⟨(h.2 p hp).1, by
      obtain ⟨t, ht, _⟩ := (h.2 p hp).2; rw [ht]; rfl⟩), ih (sound_cons hs)]
    unfold owner
    rw [List.flatten_cons, List.find?_append]
    cases ps.find? (fun d => d.name == n) <;> rfl

/-- C92, reading. `GetValue` changes nothing; it raises for a write-only property, and otherwise
returns what the field of the most derived definition holds in that component, unless that is not a
value of the type of the property. -/
theorem C92_get (narrow : Fl → Fl) (R : Registry) (cls : List (List PropDef)) (hs : Sound R cls)
    (w : World) (c : Nat) (n : Str) (d : PropDef) (t : TypeDef) (hd : owner cls n = some d)
    (ht : getType R d.uuid = some t) :
    getValue narrow R cls w c ⟨n, d.uuid, d.access⟩ =
      (w, if d.access = .writeOnly then .throw
        else match isValid t ⟨d.cell.kind, w.get c d.cell⟩ with
          | .ok true => .ok ⟨d.cell.kind, w.get c d.cell⟩
          | .ub => .ub
          | _ => .throw) := by
  unfold getValue
  by_cases ha : d.access = .writeOnly
  · simp only [ha, if_true]
  · simp only [ha, if_false]
    have hl := (lookup_owner hs n d hd).1 ha
    have ho : AnyReq.opName (.getter ⟨⟨n, d.uuid, d.access⟩, noValue⟩) = "get_".toList ++ n := rfl
    rw [invokeIn_eq, ho, hl]
    simp only [Handler.run, setReturn, validFor, ht]
    generalize isValid t ⟨d.cell.kind, w.get c d.cell⟩ = r
    cases r with
    | ok b => cases b <;> rfl
    | throw => rfl
    | ub => rfl

/-- C92, writing. `SetValue` returns if and only if the property can be written and the value is of
its type; then exactly the field of the most derived definition has changed and holds the value.
Otherwise nothing has changed. -/
theorem C92_set (narrow : Fl → Fl) (R : Registry) (cls : List (List PropDef)) (hs : Sound R cls)
    (w : World) (c : Nat) (n : Str) (d : PropDef) (v : Any) (hv : v.Ok)
    (hd : owner cls n = some d) :
    (Accepts R d v →
      (setValue narrow R cls w c ⟨n, d.uuid, d.access⟩ v).2 = .ok ∧
      ∀ c' y, (setValue narrow R cls w c ⟨n, d.uuid, d.access⟩ v).1.get c' y =
        if place c d.cell = place c' y then (held v).value else w.get c' y) ∧
    (¬ Accepts R d v →
      (setValue narrow R cls w c ⟨n, d.uuid, d.access⟩ v).2 ≠ .ok ∧
      (setValue narrow R cls w c ⟨n, d.uuid, d.access⟩ v).1 = w) := by
  obtain ⟨hdn, ps, hps, hdp⟩ := owner_mem hd
  obtain ⟨_, t, ht, hk, hne, hstr⟩ := (hs ps hps).2 d hdp
  constructor
  · rintro ⟨ha, t', ht', hval⟩
    rw [ht] at ht'; cases ht'
    obtain ⟨h1, h2, h3, h4⟩ := held_ok narrow (R := R) hk hne hstr hv hval
    have hl := (lookup_owner hs n d hd).2 ha
    have ho : AnyReq.opName (.setter ⟨⟨n, d.uuid, d.access⟩, v⟩) = "set_".toList ++ n := rfl
    have hp : param narrow (.setter ⟨⟨n, d.uuid, d.access⟩, v⟩) n d.cell = .ok (held v).value := by
      have : param narrow (.setter ⟨⟨n, d.uuid, d.access⟩, v⟩) n d.cell =
          if v.type ≠ d.cell.kind then .throw else coerce narrow d.cell.kind d.cell.len v := rfl
      rw [this, if_neg (by simp [h1]), h2]
    have he : setValue narrow R cls w c ⟨n, d.uuid, d.access⟩ v =
        (w.set c d.cell (held v).value, .ok) := by
      unfold setValue
      simp only [ha, if_false, validFor, ht, hval]
      rw [invokeIn_eq, ho, hl]
      simp only [Handler.run, hp]
    rw [he]
    exact ⟨rfl, fun c' y => get_set w c c' d.cell y _⟩
  · intro hna
    unfold setValue
    by_cases ha : d.access = .readOnly
    · simp [ha]
    · simp only [ha, if_false, validFor, ht]
      cases hval : isValid t v with
      | throw => simp
      | ub => simp
      | ok b =>
        cases b with
        | false => simp
        | true => exact absurd ⟨ha, t, ht, hval⟩ hna

/-- C92. A value that `SetValue` accepted is what `GetValue` returns then, for every property that
can be read and written. Partial: a null string is read back as the empty one (`C92_fails`). -/
theorem C92_partial (narrow : Fl → Fl) (R : Registry) (cls : List (List PropDef))
    (hs : Sound R cls) (w : World) (c : Nat) (n : Str) (p : Prp) (v : Any) (hv : v.Ok)
    (hp : propOf (publish R cls) n = some p) (hrw : p.access = .readWrite)
    (hok : (setValue narrow R cls w c p v).2 = .ok) (hnull : v.value ≠ .str none) :
    (getValue narrow R cls (setValue narrow R cls w c p v).1 c p).2 = .ok v := by
  rw [C92_published R cls hs] at hp
  obtain ⟨d, hd, rfl⟩ := Option.map_eq_some_iff.1 hp
  have hacc : Accepts R d v := by
    apply Classical.byContradiction
    intro h
    exact ((C92_set narrow R cls hs w c n d v hv hd).2 h).1 hok
  obtain ⟨_, hw⟩ := (C92_set narrow R cls hs w c n d v hv hd).1 hacc
  obtain ⟨hdn, ps, hps, hdp⟩ := owner_mem hd
  obtain ⟨_, t, ht, hk, hne, hstr⟩ := (hs ps hps).2 d hdp
  obtain ⟨ha, t', ht', hval⟩ := hacc
  rw [ht] at ht'; cases ht'
  obtain ⟨h1, h2, h3, h4⟩ := held_ok narrow (R := R) hk hne hstr hv hval
  have hh : held v = v := by unfold held; rw [if_neg hnull]
  rw [C92_get narrow R cls hs _ c n d t hd ht, hw c d.cell, if_pos rfl, ← h3, hh, hval]
  rw [hh] at h3
  simp only at hrw ⊢
  rw [if_neg (by rw [hrw]; simp)]

/-- C92, histories. Whatever calls of `SetValue` are made on the properties of all components of
the class, a field of a component holds the last value accepted for it - or its first value if there
was none: a field that is not static is only reached by calls on its own component. -/
theorem C92_history (narrow : Fl → Fl) (R : Registry) (cls : List (List PropDef))
    (hs : Sound R cls) (os : List (Nat × Str × Any)) (hv : ∀ o ∈ os, o.2.2.Ok) (c : Nat) (x : Cell) :
    ∀ w : World, (sets narrow R cls w os).get c x =
      ((lastSet R cls c x os).map fun v => (held v).value).getD (w.get c x) := by
  induction os with
  | nil => intro w; rfl
  | cons o os ih =>
    intro w
    obtain ⟨c', n, v⟩ := o
    have ih := ih (fun o ho => hv o (List.mem_cons_of_mem _ ho))
    have hvo : v.Ok := hv _ List.mem_cons_self
    unfold sets lastSet
    rw [C92_published R cls hs]
    cases hd : owner cls n with
    | none =>
      simp only [Option.map_none]
      rw [ih w, if_neg (by rintro ⟨d, h, _⟩; cases h)]
      simp
    | some d =>
      simp only [Option.map_some]
      rw [ih]
      obtain ⟨hyes, hno⟩ := C92_set narrow R cls hs w c' n d v hvo hd
      cases lastSet R cls c x os with
      | some u => rfl
      | none =>
        simp only [Option.map_none, Option.getD_none, Option.none_or]
        by_cases hacc : Accepts R d v
        · rw [(hyes hacc).2 c x]
          by_cases hpl : place c' d.cell = place c x
          · rw [if_pos hpl, if_pos ⟨d, rfl, hpl, hacc⟩]; rfl
          · rw [if_neg hpl, if_neg (by rintro ⟨d', h, h', _⟩; cases h; exact hpl h')]; rfl
        · rw [(hno hacc).2, if_neg (by rintro ⟨d', h, _, h'⟩; cases h; exact hacc h')]; rfl

/-- C92, direct requests. `Invoke` with a request for a name that is no accessor of a property of
the classes raises and changes neither the fields nor the request. A null request is ignored,
whereas a class that is not generated raises. -/
theorem C92_invoke (narrow : Fl → Fl) (R : Registry) (cls : List (List PropDef)) (w : World)
    (c : Nat) :
    (∀ q : AnyReq, (∀ ps ∈ cls, ∀ d ∈ ps, q.opName ≠ "get_".toList ++ d.name ∧
        q.opName ≠ "set_".toList ++ d.name) →
      invoke narrow R cls w c (some q) = (w, some q, .raised)) ∧
    invoke narrow R cls w c none = (w, none, if cls = [] then .raised else .ok) := by
  refine ⟨fun q hq => ?_, rfl⟩
  have hinit : ∀ (ps : List PropDef), (∀ d ∈ ps, q.opName ≠ "get_".toList ++ d.name ∧
      q.opName ≠ "set_".toList ++ d.name) → ∀ hs : Handlers,
      hs.find? (fun e => e.1 == q.opName) = none →
      (ps.foldl Handlers.addProperty hs).find? (fun e => e.1 == q.opName) = none := by
    intro ps
    induction ps with
    | nil => intro _ hs h; exact h
    | cons d ps ih =>
      intro hps hs h
      rw [List.foldl_cons]
      apply ih (fun e he => hps e (List.mem_cons_of_mem _ he))
      have hd := hps d List.mem_cons_self
      have h1 : (if d.access = .writeOnly then hs
          else hs.add ("get_".toList ++ d.name) (.getter d.cell)).find?
            (fun e => e.1 == q.opName) = none := by
        by_cases ha : d.access = .writeOnly
        · rw [if_pos ha, h]
        · rw [if_neg ha, find_add, h, if_neg (fun g => hd.1 g.symm)]; rfl
      show (if d.access = .readOnly then _ else Handlers.add _ _ _).find? _ = none
      by_cases ha : d.access = .readOnly
      · rw [if_pos ha]; exact h1
      · rw [if_neg ha, find_add, h1, if_neg (fun g => hd.2 g.symm)]; rfl
  have hin : ∀ cls : List (List PropDef), (∀ ps ∈ cls, ∀ d ∈ ps,
      q.opName ≠ "get_".toList ++ d.name ∧ q.opName ≠ "set_".toList ++ d.name) →
      invokeIn narrow R w c q (cls.map initHandlers) = (w, q, .raised) := by
    intro cls
    induction cls with
    | nil => intro _; rfl
    | cons ps cls ih =>
      intro h
      rw [List.map_cons]
      unfold invokeIn
      have : (initHandlers ps).find? (fun e => e.1 == q.opName) = none :=
        hinit ps (h ps List.mem_cons_self) [] rfl
      rw [this]
      exact ih (fun qs hqs => h qs (List.mem_cons_of_mem _ hqs))
  show (_, some _, _) = _
  rw [hin cls hq]

/-! ### An instance: `ModelWithProperties` -/

/-- The types of its properties: `Enum1` (Types/Enum1.cpp:33-43) and `String1` (a string of 10). -/
def testTypes : Registry := initial ++
  [⟨100, "Enum1".toList,
      .enumeration .Int32 [(0, "L1".toList), (1, "L2".toList), (2, "L3".toList)]⟩,
   ⟨101, "String1".toList, .string 10⟩]

/-- Four properties of one access, static or not. -/
def testProps (pre : String) (a : Access) (s : Bool) : List PropDef :=
  [⟨(pre ++ "enum_property").toList, 100, a, ⟨s, 0, .Int32, 0⟩⟩,
   ⟨(pre ++ "string_property").toList, 101, a, ⟨s, 1, .String8, 10⟩⟩,
   ⟨(pre ++ "int_property").toList, primUuid .Int32, a, ⟨s, 2, .Int32, 0⟩⟩,
   ⟨(pre ++ "float_property").toList, primUuid .Float64, a, ⟨s, 3, .Float64, 0⟩⟩]

/-- The properties of `ModelWithPropertiesGen` (ModelWithPropertiesGen.cpp:65-175). -/
def testModel : List PropDef :=
  testProps "" .readWrite false ++ testProps "readonly_" .readOnly false ++
  testProps "writeonly_" .writeOnly false ++ testProps "static_" .readWrite true ++
  testProps "readonly_static_" .readOnly true ++ testProps "writeonly_static_" .writeOnly true

/-- All fields as they are after construction. -/
def testWorld : World :=
  let v : Nat → Val := fun i => if i = 1 then .str (some []) else if i = 3 then .float (.fin 0)
    else .int 0
  ⟨fun _ => v, v⟩

theorem testModel_sound : Sound testTypes [testModel] := by
  intro ps hps
  rw [List.mem_singleton] at hps
  subst hps
  refine ⟨by decide +kernel, ?_⟩
  have h1 : ∀ p ∈ testModel, checkName (some p.name) = .ok p.name := by decide +kernel
  have h2 : ∀ p ∈ testModel, (p.uuid = 100 ∧ p.cell.kind = .Int32) ∨
      (p.uuid = 101 ∧ p.cell.kind = .String8 ∧ p.cell.len = 10) ∨
      (p.uuid = primUuid .Int32 ∧ p.cell.kind = .Int32) ∨
      (p.uuid = primUuid .Float64 ∧ p.cell.kind = .Float64) := by decide +kernel
  intro p hp
  refine ⟨h1 p hp, ?_⟩
  rcases h2 p hp with ⟨hu, hk⟩ | ⟨hu, hk, hl⟩ | ⟨hu, hk⟩ | ⟨hu, hk⟩ <;> rw [hu, hk]
  · exact ⟨_, rfl, rfl, by decide, fun h => nomatch h⟩
  · exact ⟨_, rfl, rfl, by decide, fun _ => ⟨10, rfl, by decide, by omega, by decide⟩⟩
  · exact ⟨_, rfl, rfl, by decide, fun h => nomatch h⟩
  · exact ⟨_, rfl, rfl, by decide, fun h => nomatch h⟩

/-- C92 fails for a null string: `SetValue` accepts it for a string property, and `GetValue` then
returns the empty string. -/
theorem C92_fails : ∃ (R : Registry) (cls : List (List PropDef)) (w : World) (p : Prp) (v : Any),
    Sound R cls ∧ v.Ok ∧ propOf (publish R cls) p.name = some p ∧ p.access = .readWrite ∧
    (setValue id R cls w 0 p v).2 = .ok ∧
    (getValue id R cls (setValue id R cls w 0 p v).1 0 p).2 = .ok ⟨.String8, .str (some [])⟩ ∧
    v ≠ ⟨.String8, .str (some [])⟩ :=
  ⟨testTypes, [testModel], testWorld, ⟨"string_property".toList, 101, .readWrite⟩,
    ⟨.String8, .str none⟩, testModel_sound, trivial,
    by rw [C92_published _ _ testModel_sound]; rfl, rfl, by decide +kernel,
    by decide +kernel, by decide⟩

/-- Writing the static property of the component 1 is seen by the component 2; writing the other one
is not. -/
example :
    let w := sets id testTypes [testModel] testWorld
      [(1, "static_int_property".toList, ⟨.Int32, .int 5⟩),
       (1, "writeonly_int_property".toList, ⟨.Int32, .int 6⟩),
       (1, "readonly_int_property".toList, ⟨.Int32, .int 7⟩),
       (1, "enum_property".toList, ⟨.Int32, .int 3⟩)]
    (getValue id testTypes [testModel] w 2 ⟨"readonly_static_int_property".toList, 6, .readOnly⟩).2
        = .ok ⟨.Int32, .int 5⟩ ∧
      (getValue id testTypes [testModel] w 2 ⟨"int_property".toList, 6, .readWrite⟩).2
        = .ok ⟨.Int32, .int 0⟩ ∧
      (getValue id testTypes [testModel] w 1 ⟨"int_property".toList, 6, .readWrite⟩).2
        = .ok ⟨.Int32, .int 6⟩ ∧
      (getValue id testTypes [testModel] w 1 ⟨"enum_property".toList, 100, .readWrite⟩).2
        = .ok ⟨.Int32, .int 0⟩ := by decide +kernel

/-- A derived class can redefine a property of its base. -/
example : Sound testTypes
    [[⟨"int_property".toList, 101, .readOnly, ⟨false, 9, .String8, 12⟩⟩], testModel] := by
  intro ps hps
  rcases List.mem_cons.1 hps with rfl | h
  · refine ⟨by decide, fun p hp => ?_⟩
    rw [List.mem_singleton] at hp
    subst hp
    exact ⟨by decide +kernel, _, rfl, rfl, by decide, fun _ => ⟨10, rfl, by decide⟩⟩
  · exact testModel_sound ps h

end Verif.Gen
