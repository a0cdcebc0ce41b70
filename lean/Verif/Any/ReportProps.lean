import Verif.Any.Report

/-! Property C99: what `InvalidAnyType` of `AnySimple` says. -/
namespace Verif.Any

/-! ### Specification -/

/-- The kind of an argument of `SetValue`. -/
def Arg.kind : Arg → Kind
  | .bool _ => .Bool
  | .char _ => .Char8
  | .str _ => .String8
  | .int t _ => t.kind
  | .f32 _ => .Float32
  | .f64 _ => .Float64

/-- The kind a reader asks for. -/
def Reader.kind : Reader → Kind
  | .bool => .Bool
  | .char => .Char8
  | .str | .move => .String8
  | .int t => t.kind
  | .f32 => .Float32
  | .f64 => .Float64

/-- The kinds of whole numbers, of times, of floating point numbers. -/
def Kind.whole (k : Kind) : _root_.Bool :=
  k ∈ [Kind.Int8, .Int16, .Int32, .Int64, .UInt8, .UInt16, .UInt32, .UInt64]
def Kind.time (k : Kind) : _root_.Bool := k ∈ [Kind.Duration, .DateTime]
def Kind.flt (k : Kind) : _root_.Bool := k ∈ [Kind.Float32, .Float64]

/-- Values of kind `g` can be written to an AnySimple of kind `k`, some of them at least. -/
def writable (g k : Kind) : Bool :=
  g == k || g.whole && (k.whole || k.time || k.flt) || g.flt && k.flt

/-- Values held with kind `k` can be read as kind `g`, some of them at least. -/
def readable (k g : Kind) : Bool :=
  k == g || (k.whole || k.time) && g.whole || (k.whole || k.flt) && g.flt ||
    (k.whole || k.time || k == .Char8 || k == .String8) && g == .Bool

/-- What the exception should say: what was expected is the kind asked for (by `SetValue(kind, …)` or
by the conversion), what was invalid the kind of the value there is (passed, or held). -/
def Right (r : Report) (asked there : Kind) : Prop := r.expected = asked ∧ r.invalid = there

/-! ### Lemmas: the exceptions are those of Any/Model.lean -/

theorem ITy.named_eq (t : ITy) : t.named = t.kind := by cases t <;> rfl

theorem map_forget {α β} (f : α → β) (o : OutE α) : (o.map f).forget = o.forget.map f := by
  cases o <;> rfl

theorem convertIntegralE_forget (T U : ITy) (v : Int) (k p : Kind) :
    (convertIntegralE T U v k p).forget = convertIntegral T U v := by
  unfold convertIntegralE convertIntegral
  split <;> rfl

theorem convertFloatIntE_forget (b : Nat) (U : ITy) (v : Int) (k p : Kind) :
    (convertFloatIntE b U v k p).forget = convertFloatInt b U v := by
  unfold convertFloatIntE convertFloatInt
  simp only
  split
  · split <;> rfl
  · rfl

theorem convertFloat64E_forget (narrow : Fl → Fl) (x : Fl) (k p : Kind) :
    (convertFloat64E narrow x k p).forget = convertFloat64 narrow x := by
  unfold convertFloat64E convertFloat64
  split <;> rfl

theorem convE_forget (U : ITy) (d : Option ITy) (v : Int) (k p : Kind) (c : Conv) :
    (convE U d v k p c).forget = conv U d v c := by
  cases c with
  | direct => cases d <;> rfl
  | checked => cases d with
    | none => rfl
    | some T => simp only [convE, conv, map_forget, convertIntegralE_forget]
  | float b => rfl
  | floatChecked b => simp only [convE, conv, map_forget, convertFloatIntE_forget]
  | reject => rfl

theorem newValueE_forget (narrow : Fl → Fl) (k : Kind) (arg : Arg) :
    (newValueE narrow k arg).forget = newValue narrow k arg := by
  cases arg with
  | bool b => simp only [newValueE, newValue]; split <;> rfl
  | char b => simp only [newValueE, newValue]; split <;> rfl
  | str b => simp only [newValueE, newValue]; split <;> rfl
  | int t v => exact convE_forget ..
  | f32 x => cases k <;> rfl
  | f64 x =>
    cases k <;> first
      | rfl
      | simp only [newValueE, newValue, map_forget, convertFloat64E_forget]

theorem getIntE_forget (T : ITy) (a : Any) : (getIntE T a).forget = getInt T a := by
  unfold getIntE getInt
  split
  · rename_i U v h1 h2
    have := convE_forget U (some T) v a.type T.named (getTable T a.type)
    simp only [h1, h2]
    cases h : convE U (some T) v a.type T.named (getTable T a.type) with
    | ok w => rw [h] at this; rw [← this]; cases w <;> rfl
    | bad r => rw [h] at this; rw [← this]; rfl
    | ub => rw [h] at this; rw [← this]; rfl
  · rename_i h
    split
    · rename_i U v h1 h2; exact absurd h2 (h U v h1)
    · rfl

theorem getBoolE_forget (a : Any) : (getBoolE a).forget = getBool a := by
  obtain ⟨t, v⟩ := a; cases v <;> rfl

theorem getCharE_forget (a : Any) : (getCharE a).forget = getChar a := by
  obtain ⟨t, v⟩ := a; cases t <;> cases v <;> rfl

theorem getStringE_forget (a : Any) : (getStringE a).forget = getString a := by
  obtain ⟨t, v⟩ := a; cases t <;> cases v <;> rfl

theorem convFlE_forget (a : Any) (p : Kind) (c : Conv) : (convFlE a p c).forget = convFl a c := by
  unfold convFlE convFl
  split
  · rename_i U v h1 h2
    have := convE_forget U none v a.type p c
    simp only [h1, h2]
    cases h : convE U none v a.type p c with
    | ok w => rw [h] at this; rw [← this]; cases w <;> rfl
    | bad r => rw [h] at this; rw [← this]; rfl
    | ub => rw [h] at this; rw [← this]; rfl
  · rename_i h
    split
    · rename_i U v h1 h2; exact absurd h2 (h U v h1)
    · rfl

theorem getF32E_forget (narrow : Fl → Fl) (a : Any) :
    (getF32E narrow a).forget = getF32 narrow a := by
  obtain ⟨t, v⟩ := a
  cases t <;> cases v <;>
    simp only [getF32E, getF32, convFlE_forget, convertFloat64E_forget] <;> rfl

theorem getF64E_forget (a : Any) : (getF64E a).forget = getF64 a := by
  obtain ⟨t, v⟩ := a
  cases t <;> cases v <;> simp only [getF64E, getF64, convFlE_forget] <;> rfl

/-! ### Which of the two forms is raised -/

theorem convE_bad {U : ITy} {d : Option ITy} {v : Int} {k p : Kind} {c : Conv} {r : Report}
    (h : convE U d v k p c = .bad r) :
    r = ⟨k, p⟩ ∧ (c = .reject ∨ d = none ∧ (c = .direct ∨ c = .checked)) ∨
    r = ⟨p, k⟩ ∧ (c = .checked ∨ ∃ b, c = .floatChecked b) := by
  cases c with
  | direct => cases d with
    | none => simp only [convE, throwInvalidAnyType, OutE.bad.injEq] at h; exact .inl ⟨h.symm, .inr ⟨rfl, .inl rfl⟩⟩
    | some T => simp [convE] at h
  | checked => cases d with
    | none => simp only [convE, throwInvalidAnyType, OutE.bad.injEq] at h; exact .inl ⟨h.symm, .inr ⟨rfl, .inr rfl⟩⟩
    | some T =>
      simp only [convE, convertIntegralE] at h
      split at h
      · simp [OutE.map] at h
      · simp only [throwInvalidAnyType, OutE.map, OutE.bad.injEq] at h
        exact .inr ⟨h.symm, .inl rfl⟩
  | float b => simp [convE] at h
  | floatChecked b =>
    simp only [convE, convertFloatIntE] at h
    split at h
    · split at h
      · simp only [throwInvalidAnyType, OutE.map, OutE.bad.injEq] at h
        exact .inr ⟨h.symm, .inr ⟨b, rfl⟩⟩
      · simp [OutE.map] at h
    · simp [OutE.map] at h
  | reject => simp only [convE, throwInvalidAnyType, OutE.bad.injEq] at h; exact .inl ⟨h.symm, .inl rfl⟩

theorem map_bad {α β} {f : α → β} {o : OutE α} {r : Report} (h : o.map f = .bad r) :
    o = .bad r := by
  cases o <;> simp_all [OutE.map]

theorem convertFloat64E_bad {narrow : Fl → Fl} {x : Fl} {k p : Kind} {r : Report}
    (h : convertFloat64E narrow x k p = .bad r) : r = ⟨p, k⟩ := by
  unfold convertFloat64E at h
  split at h
  · simp only [throwInvalidAnyType, OutE.bad.injEq] at h; exact h.symm
  · cases h

theorem setTable_bad (t : ITy) (k : Kind) :
    (setTable t k = .reject ∨ k.int = none ∧ (setTable t k = .direct ∨ setTable t k = .checked) →
      writable t.kind k = false) ∧
    (setTable t k = .checked ∨ (∃ b, setTable t k = .floatChecked b) → writable t.kind k = true) := by
  cases t <;> cases k <;> simp [setTable, setUInt8, setUInt16, setUInt32, setUInt64, setInt8,
    setInt16, setInt32, setInt64, Kind.int, writable, ITy.kind, Kind.whole, Kind.time, Kind.flt]

theorem newValueE_bad {narrow : Fl → Fl} {k : Kind} {arg : Arg} {r : Report}
    (h : newValueE narrow k arg = .bad r) :
    (writable arg.kind k = false ∧ r = ⟨k, arg.kind⟩) ∨
    (writable arg.kind k = true ∧ r = ⟨arg.kind, k⟩) := by
  cases arg with
  | bool b =>
    cases k <;> simp [newValueE, throwInvalidAnyType] at h <;> exact .inl ⟨rfl, h.symm⟩
  | char b =>
    cases k <;> simp [newValueE, throwInvalidAnyType] at h <;> exact .inl ⟨rfl, h.symm⟩
  | str b =>
    cases k <;> simp [newValueE, throwInvalidAnyType] at h <;> exact .inl ⟨rfl, h.symm⟩
  | f32 x =>
    cases k <;> simp [newValueE, throwInvalidAnyType] at h <;> exact .inl ⟨rfl, h.symm⟩
  | f64 x =>
    cases k <;> simp [newValueE, throwInvalidAnyType] at h <;> first
      | exact .inl ⟨rfl, h.symm⟩
      | exact .inr ⟨rfl, convertFloat64E_bad (map_bad h)⟩
  | int t v =>
    simp only [newValueE, ITy.named_eq] at h
    rcases convE_bad h with ⟨e, hc⟩ | ⟨e, hc⟩
    · exact .inl ⟨(setTable_bad t k).1 hc, e⟩
    · exact .inr ⟨(setTable_bad t k).2 hc, e⟩

theorem getTable_bad (t : ITy) (k : Kind) (hk : k.int ≠ none) :
    getTable t k ≠ .reject ∧ (∀ b, getTable t k ≠ .float b) ∧ (∀ b, getTable t k ≠ .floatChecked b) ∧
      readable k t.kind = true := by
  cases t <;> cases k <;> simp [Kind.int] at hk <;>
    simp [getTable, getUInt8, getUInt16, getUInt32, getUInt64, getInt8, getInt16, getInt32, getInt64,
      readable, ITy.kind, Kind.whole, Kind.time, Kind.flt]

theorem not_readable_int (t : ITy) (k : Kind) (hk : k.int = none) : readable k t.kind = false := by
  cases t <;> cases k <;> simp [Kind.int] at hk <;> rfl

theorem Ok.int {a : Any} (h : a.Ok) : a.type.int ≠ none ↔ ∃ v, a.value = .int v := by
  obtain ⟨t, v⟩ := a
  cases t <;> cases v <;> simp_all [Any.Ok, Kind.int, Kind.Range]

theorem getIntE_bad {T : ITy} {a : Any} {r : Report} (hok : a.Ok) (h : getIntE T a = .bad r) :
    (readable a.type T.kind = true ∧ r = ⟨T.kind, a.type⟩) ∨
    (readable a.type T.kind = false ∧ r = ⟨a.type, T.kind⟩) := by
  unfold getIntE at h
  split at h
  · rename_i U v h1 h2
    have hk : a.type.int ≠ none := by rw [h1]; simp
    obtain ⟨g1, g2, g3, g4⟩ := getTable_bad T a.type hk
    have key : ∀ o, convE U (some T) v a.type T.named (getTable T a.type) = o →
        (∀ w, o = .ok w → ∃ n, w = .int n) := by
      intro o ho w hw
      subst hw
      cases hc : getTable T a.type with
      | direct => rw [hc] at ho; simp only [convE, OutE.ok.injEq] at ho; exact ⟨_, ho.symm⟩
      | checked =>
        rw [hc] at ho; simp only [convE] at ho
        cases hx : convertIntegralE T U v a.type T.named with
        | ok n => rw [hx] at ho; simp only [OutE.map, OutE.ok.injEq] at ho; exact ⟨_, ho.symm⟩
        | bad r => rw [hx] at ho; simp [OutE.map] at ho
        | ub => rw [hx] at ho; simp [OutE.map] at ho
      | float b => exact absurd hc (g2 b)
      | floatChecked b => exact absurd hc (g3 b)
      | reject => exact absurd hc g1
    split at h
    · cases h
    · cases h
    · rename_i r' hr
      cases h
      rw [ITy.named_eq] at hr
      rcases convE_bad hr with ⟨_, hc | ⟨hd, _⟩⟩ | ⟨e, _⟩
      · exact absurd hc g1
      · cases hd
      · exact .inl ⟨g4, e⟩
    · rename_i w hne hw
      obtain ⟨n, rfl⟩ := key _ hw w rfl
      exact absurd rfl (hne n)
  · rename_i hne
    simp only [throwInvalidAnyType, OutE.bad.injEq, ITy.named_eq] at h
    have : a.type.int = none := by
      cases hi : a.type.int with
      | none => rfl
      | some U =>
        obtain ⟨v, hv⟩ := (Ok.int hok).1 (by rw [hi]; simp)
        exact absurd hv (hne U v hi)
    exact .inr ⟨not_readable_int T a.type this, h.symm⟩

theorem convFlE_bad {a : Any} {p : Kind} {c : Conv} {r : Report} (h : convFlE a p c = .bad r)
    (hok : a.Ok) :
    (r = ⟨a.type, p⟩ ∧ (a.type.int = none ∨ c = .reject ∨ c = .direct ∨ c = .checked)) ∨
    (r = ⟨p, a.type⟩ ∧ a.type.int ≠ none ∧ (c = .checked ∨ ∃ b, c = .floatChecked b)) := by
  unfold convFlE at h
  split at h
  · rename_i U v h1 h2
    have hk : a.type.int ≠ none := by rw [h1]; simp
    split at h
    · cases h
    · cases h
    · rename_i r' hr
      cases h
      rcases convE_bad hr with ⟨e, hc⟩ | ⟨e, hc⟩
      · refine .inl ⟨e, .inr ?_⟩
        rcases hc with hc | ⟨_, hc⟩
        · exact .inl hc
        · exact .inr hc
      · exact .inr ⟨e, hk, hc⟩
    · rename_i w hne hw
      exfalso
      cases c with
      | direct => simp [convE, throwInvalidAnyType] at hw
      | checked => simp [convE, throwInvalidAnyType] at hw
      | float b => simp only [convE, OutE.ok.injEq] at hw; exact hne _ hw.symm
      | floatChecked b =>
        simp only [convE] at hw
        cases hx : convertFloatIntE b U v a.type p with
        | ok n => rw [hx] at hw; simp only [OutE.map, OutE.ok.injEq] at hw; exact hne _ hw.symm
        | bad r => rw [hx] at hw; simp [OutE.map] at hw
        | ub => rw [hx] at hw; simp [OutE.map] at hw
      | reject => simp [convE, throwInvalidAnyType] at hw
  · rename_i hne
    simp only [throwInvalidAnyType, OutE.bad.injEq] at h
    refine .inl ⟨h.symm, .inl ?_⟩
    cases hi : a.type.int with
    | none => rfl
    | some U =>
      obtain ⟨v, hv⟩ := (Ok.int hok).1 (by rw [hi]; simp)
      exact absurd hv (hne U v hi)

theorem getF32E_bad {narrow : Fl → Fl} {a : Any} {r : Report} (hok : a.Ok)
    (h : getF32E narrow a = .bad r) :
    (readable a.type .Float32 = true ∧ r = ⟨.Float32, a.type⟩) ∨
    (readable a.type .Float32 = false ∧ r = ⟨a.type, .Float32⟩) := by
  obtain ⟨t, v⟩ := a
  unfold getF32E at h
  split at h
  · cases h
  · rename_i h1 h2
    simp only at h1
    subst h1
    exact .inl ⟨rfl, convertFloat64E_bad h⟩
  · rename_i h1 h2
    rcases convFlE_bad h hok with ⟨e, hc⟩ | ⟨e, hk, hc⟩
    · refine .inr ⟨?_, e⟩
      cases t <;> simp_all [Kind.int, getFloat32, readable, Kind.whole, Kind.flt, Kind.time] <;>
        cases v <;> simp_all [Any.Ok, Kind.Range]
    · refine .inl ⟨?_, e⟩
      cases t <;> simp_all [Kind.int, getFloat32, readable, Kind.whole, Kind.flt, Kind.time]

theorem getF64E_bad {a : Any} {r : Report} (hok : a.Ok) (h : getF64E a = .bad r) :
    (readable a.type .Float64 = true ∧ r = ⟨.Float64, a.type⟩) ∨
    (readable a.type .Float64 = false ∧ r = ⟨a.type, .Float64⟩) := by
  obtain ⟨t, v⟩ := a
  unfold getF64E at h
  split at h
  · cases h
  · cases h
  · rename_i h1 h2
    rcases convFlE_bad h hok with ⟨e, hc⟩ | ⟨e, hk, hc⟩
    · refine .inr ⟨?_, e⟩
      cases t <;> simp_all [Kind.int, getFloat64, readable, Kind.whole, Kind.flt, Kind.time] <;>
        cases v <;> simp_all [Any.Ok, Kind.Range]
    · refine .inl ⟨?_, e⟩
      cases t <;> simp_all [Kind.int, getFloat64, readable, Kind.whole, Kind.flt, Kind.time]

theorem raised_some {α} {o : OutE α} {r : Report} (h : raised o = some r) : o = .bad r := by
  cases o <;> simp_all [raised]

theorem readRaises_bad {narrow : Fl → Fl} {a : Any} {rd : Reader} {r : Report} (hok : a.Ok)
    (h : readRaises narrow a rd = some r) :
    (readable a.type rd.kind = true ∧ r = ⟨rd.kind, a.type⟩) ∨
    (readable a.type rd.kind = false ∧ r = ⟨a.type, rd.kind⟩) := by
  cases rd with
  | int t => exact getIntE_bad hok (raised_some h)
  | f32 => exact getF32E_bad hok (raised_some h)
  | f64 => exact getF64E_bad hok (raised_some h)
  | bool =>
    obtain ⟨t, v⟩ := a
    cases t <;> cases v <;> simp_all [Any.Ok, Kind.Range, readRaises, raised, getBoolE,
      throwInvalidAnyType, readable, Kind.whole, Kind.time, Kind.flt, Reader.kind]
  | char =>
    obtain ⟨t, v⟩ := a
    cases t <;> cases v <;> simp_all [Any.Ok, Kind.Range, readRaises, raised, getCharE,
      throwInvalidAnyType, readable, Kind.whole, Kind.time, Kind.flt, Reader.kind]
  | str =>
    obtain ⟨t, v⟩ := a
    cases t <;> cases v <;> simp_all [Any.Ok, Kind.Range, readRaises, raised, getStringE,
      throwInvalidAnyType, readable, Kind.whole, Kind.time, Kind.flt, Reader.kind]
  | move =>
    obtain ⟨t, v⟩ := a
    cases t <;> cases v <;> simp_all [Any.Ok, Kind.Range, readRaises, raised, getStringE,
      throwInvalidAnyType, readable, Kind.whole, Kind.time, Kind.flt, Reader.kind]

/-! ### C99 -/

/-- C99, the exceptions are the ones of C50 and C69: leaving out what they carry, `SetValue` and the
conversions of this model are those of Any/Model.lean. -/
theorem C99_same (narrow : Fl → Fl) (a : Any) (k : Kind) (arg : Arg) (t : ITy) :
    (∀ b e, setValue narrow a k arg = .ok (b, e) ↔
      ∃ r, setValueE narrow a k arg = .ok (b, r) ∧ r.isSome = e) ∧
    (setValue narrow a k arg = .ub ↔ setValueE narrow a k arg = .ub) ∧
    (getBoolE a).forget = getBool a ∧ (getCharE a).forget = getChar a ∧
    (getStringE a).forget = getString a ∧ (getIntE t a).forget = getInt t a ∧
    (getF32E narrow a).forget = getF32 narrow a ∧ (getF64E a).forget = getF64 a := by
  have hn := newValueE_forget narrow k arg
  refine ⟨?_, ?_, getBoolE_forget a, getCharE_forget a, getStringE_forget a, getIntE_forget t a,
    getF32E_forget narrow a, getF64E_forget a⟩
  · intro b e
    unfold setValue setValueE
    simp only [← hn]
    cases newValueE narrow k arg with
    | ok v =>
      simp only [OutE.forget, Out.ok.injEq, Prod.mk.injEq, OutE.ok.injEq]
      constructor
      · rintro ⟨rfl, rfl⟩; exact ⟨none, ⟨rfl, rfl⟩, rfl⟩
      · rintro ⟨r, ⟨rfl, rfl⟩, rfl⟩; exact ⟨rfl, rfl⟩
    | bad r =>
      simp only [OutE.forget, Out.ok.injEq, Prod.mk.injEq, OutE.ok.injEq]
      constructor
      · rintro ⟨rfl, rfl⟩; exact ⟨some r, ⟨rfl, rfl⟩, rfl⟩
      · rintro ⟨r, ⟨rfl, rfl⟩, rfl⟩; exact ⟨rfl, rfl⟩
    | ub => simp [OutE.forget]
  · unfold setValue setValueE
    simp only [← hn]
    cases newValueE narrow k arg <;> simp [OutE.forget]

/-- **C99**, writing, as far as it is true. `SetValue(k, v)` with a `v` of a kind that can never be
written as `k` raises an exception that says so: expected `k`, invalid the kind of `v`. When the kind
fits and the number does not, the exception names the same two kinds in the wrong order.
Missing: the order in the second case (`C99_write_fails`). -/
theorem C99_write_partial (narrow : Fl → Fl) (a : Any) (k : Kind) (arg : Arg) :
    (writable arg.kind k = false →
      ∃ a' r, setValueE narrow a k arg = .ok (a', some r) ∧ Right r k arg.kind) ∧
    (∀ a' r, setValueE narrow a k arg = .ok (a', some r) →
      (writable arg.kind k = false ∧ Right r k arg.kind) ∨
      (writable arg.kind k = true ∧ Right r arg.kind k)) := by
  have key : ∀ a' r, setValueE narrow a k arg = .ok (a', some r) →
      (writable arg.kind k = false ∧ Right r k arg.kind) ∨
      (writable arg.kind k = true ∧ Right r arg.kind k) := by
    intro a' r h
    unfold setValueE at h
    split at h
    · simp at h
    · rename_i r' hr
      simp only [OutE.ok.injEq, Prod.mk.injEq, Option.some.injEq] at h
      obtain ⟨_, rfl⟩ := h
      rcases newValueE_bad hr with ⟨hw, rfl⟩ | ⟨hw, rfl⟩
      · exact .inl ⟨hw, rfl, rfl⟩
      · exact .inr ⟨hw, rfl, rfl⟩
    · cases h
  refine ⟨fun hw => ?_, key⟩
  have hb : ∃ r, newValueE narrow k arg = .bad r := by
    cases arg with
    | int t v =>
      have : setTable t k = .reject := by
        revert hw
        cases t <;> cases k <;> simp [Arg.kind, writable, ITy.kind, Kind.whole, Kind.time, Kind.flt,
          setTable, setUInt8, setUInt16, setUInt32, setUInt64, setInt8, setInt16, setInt32, setInt64]
      exact ⟨⟨k, t.named⟩, by simp only [newValueE, this, convE, throwInvalidAnyType]⟩
    | _ =>
      cases k <;> first
        | (exact ⟨_, rfl⟩)
        | (simp [Arg.kind, writable, Kind.whole, Kind.time, Kind.flt] at hw)
  obtain ⟨r, hr⟩ := hb
  have hs : setValueE narrow a k arg = .ok (release a, some r) := by
    unfold setValueE; rw [hr]
  refine ⟨_, r, hs, ?_⟩
  rcases key _ _ hs with ⟨_, h⟩ | ⟨h, _⟩
  · exact h
  · rw [hw] at h; cases h

/-- **C99**, reading, as far as it is true. When the kind held can be read as the kind asked for and
the value cannot, the exception says so: expected the kind asked for, invalid the kind held. When the
kind held can never be read as the kind asked for, an exception is raised that names the same two
kinds in the wrong order. Missing: the order in the second case (`C99_read_fails`). -/
theorem C99_read_partial (narrow : Fl → Fl) (a : Any) (rd : Reader) (hok : a.Ok) :
    (readable a.type rd.kind = false → ∃ r, readRaises narrow a rd = some r) ∧
    (∀ r, readRaises narrow a rd = some r →
      (readable a.type rd.kind = true ∧ Right r rd.kind a.type) ∨
      (readable a.type rd.kind = false ∧ Right r a.type rd.kind)) := by
  constructor
  · intro hr
    obtain ⟨t, v⟩ := a
    cases rd with
    | int T =>
      cases hk : t.int with
      | none => exact ⟨_, by simp [readRaises, getIntE, hk, throwInvalidAnyType, raised]; rfl⟩
      | some U =>
        have := (getTable_bad T t (by rw [hk]; simp)).2.2.2
        simp only [Reader.kind] at hr
        rw [hr] at this; cases this
    | bool =>
      cases t <;> cases v <;> simp_all [Any.Ok, Kind.Range, readRaises, raised, getBoolE,
        throwInvalidAnyType, readable, Kind.whole, Kind.time, Kind.flt, Reader.kind]
    | char =>
      cases t <;> cases v <;> simp_all [Any.Ok, Kind.Range, readRaises, raised, getCharE,
        throwInvalidAnyType, readable, Kind.whole, Kind.time, Kind.flt, Reader.kind]
    | str =>
      cases t <;> cases v <;> simp_all [Any.Ok, Kind.Range, readRaises, raised, getStringE,
        throwInvalidAnyType, readable, Kind.whole, Kind.time, Kind.flt, Reader.kind]
    | move =>
      cases t <;> cases v <;> simp_all [Any.Ok, Kind.Range, readRaises, raised, getStringE,
        throwInvalidAnyType, readable, Kind.whole, Kind.time, Kind.flt, Reader.kind]
    | f32 =>
      cases t <;> cases v <;> simp_all [Any.Ok, Kind.Range, readRaises, raised, getF32E, convFlE,
        Kind.int, getFloat32, convE,
        throwInvalidAnyType, readable, Kind.whole, Kind.time, Kind.flt, Reader.kind]
    | f64 =>
      cases t <;> cases v <;> simp_all [Any.Ok, Kind.Range, readRaises, raised, getF64E, convFlE,
        Kind.int, getFloat64, convE,
        throwInvalidAnyType, readable, Kind.whole, Kind.time, Kind.flt, Reader.kind]
  · intro r h
    rcases readRaises_bad hok h with ⟨h', rfl⟩ | ⟨h', rfl⟩
    · exact .inl ⟨h', rfl, rfl⟩
    · exact .inr ⟨h', rfl, rfl⟩

/-- **C99**, the claim does not hold of writing: `SetValue(PTK_UInt8, Int32{300})` raises an exception
that says that `Int32` was expected and `UInt8` is invalid. -/
theorem C99_write_fails : ¬ ∀ (narrow : Fl → Fl) (a a' : Any) (k : Kind) (arg : Arg) (r : Report),
    setValueE narrow a k arg = .ok (a', some r) → Right r k arg.kind := by
  intro h
  have := h id ⟨.None, .none⟩ ⟨.None, .none⟩ .UInt8 (.int .i32 300) ⟨.Int32, .UInt8⟩ (by decide)
  exact absurd this.1 (by decide)

/-- **C99**, the claim does not hold of reading: reading a string as an `Int32` raises an exception
that says that a string was expected and `Int32` is invalid. -/
theorem C99_read_fails : ¬ ∀ (narrow : Fl → Fl) (a : Any) (rd : Reader) (r : Report), a.Ok →
    readRaises narrow a rd = some r → Right r rd.kind a.type := by
  intro h
  have := h id ⟨.String8, .str none⟩ (.int .i32) ⟨.String8, .Int32⟩ trivial (by decide)
  exact absurd this.1 (by decide)

/-- **C99**, event sinks without argument: an argument of any kind is refused with an exception that
says that its kind was expected and `None` is invalid; an empty argument is accepted. -/
theorem C99_notify_fails (value : Any) :
    (value.type = .None → notifyVoid value = none) ∧
    (value.type ≠ .None → ∃ r, notifyVoid value = some r ∧ Right r value.type .None ∧
      ¬ Right r .None value.type) := by
  constructor
  · intro h; simp [notifyVoid, h]
  · intro h
    refine ⟨⟨value.type, .None⟩, by simp [notifyVoid, h, throwInvalidAnyType, raised], ⟨rfl, rfl⟩, ?_⟩
    intro hr; exact h hr.1

/-- A value of the wrong kind, and a number that does not fit, written and read. -/
example :
    setValueE id ⟨.None, .none⟩ .Bool (.int .i32 1) = .ok (⟨.None, .none⟩, some ⟨.Bool, .Int32⟩) ∧
    readRaises id ⟨.Int32, .int 300⟩ (.int .u8) = some ⟨.UInt8, .Int32⟩ ∧
    readRaises id ⟨.Int32, .int 200⟩ (.int .u8) = none ∧
    (⟨.Int32, .int 300⟩ : Any).Ok ∧ readable .Int32 .UInt8 = true ∧ writable .Int32 .Bool = false :=
  ⟨by decide, by decide, by decide, by simp [Any.Ok, Kind.Range], rfl, rfl⟩

end Verif.Any
