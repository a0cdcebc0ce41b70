import Verif.Any.Model

/-! Properties C50, C51, C52 and C69. -/
namespace Verif.Any

/-! ### Specification -/

/-- The numbers an integer kind can hold. -/
def Kind.Range : Kind → Int → Prop
  | .Int8, v => -128 ≤ v ∧ v ≤ 127
  | .Int16, v => -32768 ≤ v ∧ v ≤ 32767
  | .Int32, v => -2147483648 ≤ v ∧ v ≤ 2147483647
  | .Int64, v | .Duration, v | .DateTime, v =>
      -9223372036854775808 ≤ v ∧ v ≤ 9223372036854775807
  | .UInt8, v => 0 ≤ v ∧ v ≤ 255
  | .UInt16, v => 0 ≤ v ∧ v ≤ 65535
  | .UInt32, v => 0 ≤ v ∧ v ≤ 4294967295
  | .UInt64, v => 0 ≤ v ∧ v ≤ 18446744073709551615
  | _, _ => False

/-- The kind of a C++ integer type. -/
def ITy.kind : ITy → Kind
  | .u8 => .UInt8 | .u16 => .UInt16 | .u32 => .UInt32 | .u64 => .UInt64
  | .i8 => .Int8 | .i16 => .Int16 | .i32 => .Int32 | .i64 => .Int64

/-- A number an argument of that type can have. -/
abbrev ITy.Range (t : ITy) (v : Int) : Prop := t.kind.Range v

/-- An integer kind. -/
abbrev Kind.isInt (k : Kind) : Prop := k.int.isSome

/-- A well-formed value: the union member is the one of the kind, and within its range. -/
def Any.Ok (a : Any) : Prop :=
  match a.type, a.value with
  | .None, .none => True
  | .Bool, .bool _ => True
  | .Char8, .char _ => True
  | .Float32, .float _ => True
  | .Float64, .float _ => True
  | .String8, .str _ => True
  | k, .int v => k.Range v
  | _, _ => False

/-! ### Lemmas -/

theorem ITy.range_iff (t : ITy) (v : Int) : t.Range v ↔ t.lowest ≤ v ∧ v ≤ t.max := by
  cases t <;> simp [ITy.Range, ITy.kind, Kind.Range, ITy.lowest, ITy.max, ITy.signed, ITy.width]

theorem Kind.range_iff {k : Kind} {t : ITy} (h : k.int = some t) (v : Int) :
    k.Range v ↔ t.Range v := by
  cases k <;> simp [Kind.int] at h <;> subst h <;> rfl

theorem wrap_eq {t : ITy} {v : Int} (h : t.Range v) : wrap t v = v := by
  cases t <;> simp only [ITy.Range, ITy.kind, Kind.Range] at h <;>
    simp only [wrap, ITy.signed, ITy.width, if_true, Bool.false_eq_true, if_false] <;>
    first
    | (apply Int.bmod_eq_of_le <;> omega)
    | omega

theorem inRange_iff (U T : ITy) (v : Int) (h : T.Range v) : inRange U T v = true ↔ U.Range v := by
  cases U <;> cases T <;>
    simp [inRange, cmpLess, toUnsigned, ITy.Range, ITy.kind, Kind.Range, ITy.lowest, ITy.max,
      ITy.signed, ITy.width] at h ⊢ <;> omega

theorem setTable_ok (U : ITy) (k : Kind) (T : ITy) (h : k.int = some T) :
    setTable U k = .checked ∨
      (setTable U k = .direct ∧ T.lowest ≤ U.lowest ∧ U.max ≤ T.max) := by
  cases U <;> cases k <;> simp [Kind.int] at h <;> subst h <;> decide

theorem getTable_ok (T : ITy) (k : Kind) (U : ITy) (h : k.int = some U) :
    getTable T k = .checked ∨
      (getTable T k = .direct ∧ T.lowest ≤ U.lowest ∧ U.max ≤ T.max) := by
  cases T <;> cases k <;> simp [Kind.int] at h <;> subst h <;> decide

theorem conv_ok {U T : ITy} {c : Conv} {v : Int} (hv : U.Range v)
    (hc : c = .checked ∨ (c = .direct ∧ T.lowest ≤ U.lowest ∧ U.max ≤ T.max)) :
    (T.Range v → conv U (some T) v c = .ok (.int v)) ∧
    (¬ T.Range v → conv U (some T) v c = .throw) := by
  rcases hc with rfl | ⟨rfl, h1, h2⟩
  · constructor
    · intro h
      simp only [conv, convertIntegral, (inRange_iff T U v hv).mpr h, if_true, Out.map,
        wrap_eq h]
    · intro h
      have : inRange T U v = false := by
        cases hr : inRange T U v with
        | false => rfl
        | true => exact absurd ((inRange_iff T U v hv).mp hr) h
      simp [conv, convertIntegral, this, Out.map]
  · have hr : T.Range v := by
      rw [ITy.range_iff] at hv ⊢; omega
    constructor
    · intro _; simp only [conv, wrap_eq hr]
    · intro h; exact absurd hr h

/-! ### C50 -/

/-- C50. Writing a number `v` given as any C++ integer type into any integer kind: the
AnySimple then holds that kind and that number if the kind can hold it, otherwise
`InvalidAnyType` is raised. -/
theorem C50_set (narrow : Fl → Fl) (a : Any) (t : ITy) (v : Int) (k : Kind)
    (hv : t.Range v) (hk : k.isInt) :
    (k.Range v → setValue narrow a k (.int t v) = .ok (⟨k, .int v⟩, false)) ∧
    (¬ k.Range v → ∃ a', setValue narrow a k (.int t v) = .ok (a', true)) := by
  obtain ⟨T, hT⟩ := Option.isSome_iff_exists.mp hk
  obtain ⟨h1, h2⟩ := conv_ok hv (setTable_ok t k T hT)
  rw [Kind.range_iff hT]
  refine ⟨fun h => ?_, fun h => ⟨release a, ?_⟩⟩
  · simp only [setValue, newValue, hT, h1 h]
  · simp only [setValue, newValue, hT, h2 h]

/-- C50. Reading an AnySimple that holds the number `v` in any integer kind as any C++
integer type gives `v` if the type can hold it, otherwise raises `InvalidAnyType`. -/
theorem C50_get (k : Kind) (v : Int) (t : ITy) (hk : k.isInt) (hv : k.Range v) :
    (t.Range v → getInt t ⟨k, .int v⟩ = .ok v) ∧
    (¬ t.Range v → getInt t ⟨k, .int v⟩ = .throw) := by
  obtain ⟨U, hU⟩ := Option.isSome_iff_exists.mp hk
  rw [Kind.range_iff hU] at hv
  obtain ⟨h1, h2⟩ := conv_ok hv (getTable_ok t k U hU)
  refine ⟨fun h => ?_, fun h => ?_⟩
  · simp only [getInt, hU, h1 h]
  · simp only [getInt, hU, h2 h]

/-- C50. A value of a kind that is not an integer kind is never read as an integer, nor is
an integer written to `None`, `Bool`, `Char8` or `String8`. -/
theorem C50_other (narrow : Fl → Fl) (a : Any) (t : ITy) (v : Int) :
    (a.type.int = none → getInt t a = .throw) ∧
    (∀ k, k ∈ [Kind.None, .Bool, .Char8, .String8] →
      ∃ a', setValue narrow a k (.int t v) = .ok (a', true)) := by
  constructor
  · intro h; simp [getInt, h]
  · intro k hk
    refine ⟨release a, ?_⟩
    simp only [List.mem_cons, List.not_mem_nil, or_false] at hk
    rcases hk with rfl | rfl | rfl | rfl <;> cases t <;> rfl

/-- C50. `AnySimple{kind}` of an integer kind is read as 0 through every integer type; of the
other kinds, it is false, the character 0, the null string. -/
theorem C50_init (k : Kind) :
    (k.isInt → ∀ t, getInt t (ofKind k) = .ok 0) ∧
    getBool (ofKind .Bool) = .ok false ∧ getChar (ofKind .Char8) = .ok 0 ∧
    getString (ofKind .String8) = .ok none := by
  refine ⟨?_, rfl, rfl, rfl⟩
  intro hk t
  cases k <;> simp [Kind.isInt, Kind.int] at hk <;> cases t <;> decide

/-- **C50.** An integer reads as `Bool` true exactly if it is not zero, a `Bool` as itself; floating
point numbers and the empty value are refused. -/
theorem C50_bool (k : Kind) (v : Int) (b : Bool) (x : Fl) :
    (∃ c, getBool ⟨k, .int v⟩ = .ok c ∧ (c = true ↔ v ≠ 0)) ∧
    getBool ⟨.Bool, .bool b⟩ = .ok b ∧
    getBool ⟨.Float32, .float x⟩ = .throw ∧ getBool ⟨.Float64, .float x⟩ = .throw ∧
    getBool ⟨.None, .none⟩ = .throw :=
  ⟨⟨_, rfl, by simp⟩, rfl, rfl, rfl, rfl⟩

example : (ITy.i64).Range (-1) ∧ ¬ Kind.UInt64.Range (-1) ∧ Kind.DateTime.Range (-1) := by
  simp [ITy.Range, ITy.kind, Kind.Range]

/-! ### C69: integers to floating point -/

/-- The integers that a binary floating point format with `p` significant bits has. -/
def Representable (p : Nat) (v : Int) : Prop := ∃ m e : Nat, m < 2 ^ p ∧ v.natAbs = m * 2 ^ e

theorem roundBits_eq {p : Nat} {v : Int} (h : Representable p v) : roundBits p v = v := by
  obtain ⟨m, e, hm, he⟩ := h
  unfold roundBits
  simp only
  split
  · rfl
  · rename_i hn
    have hpos : v.natAbs ≠ 0 := by
      have : 0 < 2 ^ p := Nat.pow_pos (by omega)
      omega
    have hlt : v.natAbs < 2 ^ (p + e) := by
      rw [he, Nat.pow_add]; exact Nat.mul_lt_mul_of_pos_right hm (Nat.pow_pos (by omega))
    have hl1 : v.natAbs.log2 < p + e := (Nat.log2_lt hpos).mpr hlt
    have hl2 : p ≤ v.natAbs.log2 := (Nat.le_log2 hpos).mpr (by omega)
    generalize hE : v.natAbs.log2 + 1 - p = E
    have hE1 : 1 ≤ E := by omega
    have hdvd : 2 ^ E ∣ v.natAbs := by
      rw [he]
      exact Nat.dvd_trans (Nat.pow_dvd_pow 2 (by omega : E ≤ e)) (Nat.dvd_mul_left _ _)
    have hr : v.natAbs % 2 ^ E = 0 := Nat.mod_eq_zero_of_dvd hdvd
    have hh : 0 < 2 ^ (E - 1) := Nat.pow_pos (by omega)
    have hq : (if v.natAbs % 2 ^ E > 2 ^ (E - 1) ∨
        (v.natAbs % 2 ^ E = 2 ^ (E - 1) ∧ v.natAbs / 2 ^ E % 2 = 1) then v.natAbs / 2 ^ E + 1
        else v.natAbs / 2 ^ E) = v.natAbs / 2 ^ E := if_neg (by omega)
    rw [hq, Nat.div_mul_cancel hdvd]
    split <;> omega

theorem roundBits_le {p : Nat} {v : Int} (hp : 1 ≤ p) :
    Representable p (roundBits p v) ∧ (v ≠ 0 → (roundBits p v).natAbs ≤ 2 ^ (v.natAbs.log2 + 1)) := by
  unfold roundBits
  simp only
  split
  · rename_i h
    exact ⟨⟨v.natAbs, 0, h, by simp⟩, fun h0 => Nat.le_of_lt ((Nat.lt_log2_self (n := v.natAbs)))⟩
  · rename_i hn
    have hpos : v.natAbs ≠ 0 := by
      have : 0 < 2 ^ p := Nat.pow_pos (by omega)
      omega
    have hl2 : p ≤ v.natAbs.log2 := (Nat.le_log2 hpos).mpr (by omega)
    have hlt : v.natAbs < 2 ^ (v.natAbs.log2 + 1) := Nat.lt_log2_self
    generalize hE : v.natAbs.log2 + 1 - p = E
    have hE1 : v.natAbs.log2 + 1 = E + p := by omega
    have hq : v.natAbs / 2 ^ E < 2 ^ p := by
      rw [Nat.div_lt_iff_lt_mul (Nat.pow_pos (by omega)), ← Nat.pow_add, Nat.add_comm p E, ← hE1]
      exact hlt
    generalize hq' : (if v.natAbs % 2 ^ E > 2 ^ (E - 1) ∨
      (v.natAbs % 2 ^ E = 2 ^ (E - 1) ∧ v.natAbs / 2 ^ E % 2 = 1) then v.natAbs / 2 ^ E + 1
      else v.natAbs / 2 ^ E) = q'
    have hq'' : q' ≤ 2 ^ p := by
      subst hq'; split <;> omega
    have habs : ((if v < 0 then -1 else 1) * ((q' * 2 ^ E : Nat) : Int)).natAbs = q' * 2 ^ E := by
      split <;> omega
    constructor
    · unfold Representable
      rw [habs]
      rcases Nat.lt_or_ge q' (2 ^ p) with h | h
      · exact ⟨q', E, h, rfl⟩
      · refine ⟨1, p + E, Nat.one_lt_two_pow (by omega), ?_⟩
        rw [Nat.le_antisymm hq'' h, Nat.one_mul, Nat.pow_add]
    · intro _
      rw [habs, hE1, Nat.pow_add, Nat.mul_comm (2 ^ E)]
      exact Nat.mul_le_mul_right _ hq''

theorem convertFloatInt_spec {p : Nat} {U : ITy} {v : Int} (hp : 1 ≤ p)
    (hr : U.lowest ≤ roundBits p v ∧ roundBits p v ≤ U.max) :
    (Representable p v → convertFloatInt p U v = .ok v) ∧
    (¬ Representable p v → convertFloatInt p U v = .throw) := by
  unfold convertFloatInt
  simp only [hr, and_self, if_true]
  constructor
  · intro h; rw [roundBits_eq h]; simp
  · intro h
    rw [if_pos]
    intro h0
    apply h
    have e : v = roundBits p v := by omega
    rw [e]; exact (roundBits_le hp).1

/-- The significant bits of the two floating point kinds (IEEE 754 binary32, binary64). -/
def Kind.precision : Kind → Option Nat
  | .Float32 => some 24
  | .Float64 => some 53
  | _ => none

/-- Numbers whose rounding cannot leave the type: half of the positive range. -/
def ITy.Safe (t : ITy) (v : Int) : Prop :=
  if t.signed then v < 2 ^ (t.width - 2) else v < 2 ^ (t.width - 1)

theorem setFloat_table (t : ITy) (k : Kind) (p : Nat) (h : k.precision = some p) :
    setTable t k = .floatChecked p ∨ (setTable t k = .float p ∧ ∀ v, t.Range v → v.natAbs < 2 ^ p) := by
  cases k <;> simp [Kind.precision] at h <;> subst h <;> cases t <;>
    simp [setTable, setUInt8, setUInt16, setUInt32, setUInt64, setInt8, setInt16, setInt32,
      setInt64, ITy.Range, ITy.kind, Kind.Range] <;> omega

theorem safe_round {t : ITy} {v : Int} {p : Nat} (hp : p = 24 ∨ p = 53) (hv : t.Range v)
    (hs : t.Safe v) : t.lowest ≤ roundBits p v ∧ roundBits p v ≤ t.max := by
  by_cases hsmall : v.natAbs < 2 ^ p
  · have : roundBits p v = v := roundBits_eq ⟨v.natAbs, 0, hsmall, by simp⟩
    rw [this, ← ITy.range_iff]; exact hv
  have hp1 : 1 ≤ p := by omega
  have h0 : v ≠ 0 := by
    rintro rfl
    have : 0 < 2 ^ p := Nat.pow_pos (by omega)
    simp at hsmall
  have hle := (roundBits_le (p := p) (v := v) hp1).2 h0
  have hsign : (v < 0 → roundBits p v ≤ 0) ∧ (0 ≤ v → 0 ≤ roundBits p v) := by
    unfold roundBits
    simp only
    rw [if_neg hsmall]
    constructor
    · intro h; rw [if_pos h]; omega
    · intro h; rw [if_neg (by omega)]; omega
  have hb : ∀ j, v.natAbs < 2 ^ j → (roundBits p v).natAbs ≤ 2 ^ j := by
    intro j hj
    refine Nat.le_trans hle (Nat.pow_le_pow_right (by omega) ?_)
    have := (Nat.log2_lt (by omega : v.natAbs ≠ 0)).mpr hj
    omega
  have hrep : ∀ j, v.natAbs = 2 ^ j → roundBits p v = v := by
    intro j hj
    exact roundBits_eq ⟨1, j, Nat.one_lt_two_pow (by omega), by omega⟩
  have unsigned : ∀ w : Nat, 1 ≤ w → 0 ≤ v → v < 2 ^ (w - 1) →
      0 ≤ roundBits p v ∧ roundBits p v ≤ 2 ^ w - 1 := by
    intro w hw h1 h2
    have e : (2 : Int) ^ w = 2 * 2 ^ (w - 1) := by
      obtain ⟨u, rfl⟩ := Nat.exists_eq_add_of_le' hw
      rw [Nat.add_sub_cancel, Int.pow_succ, Int.mul_comm]
    have h3 := hb (w - 1) (by
      have : ((v.natAbs : Nat) : Int) < ((2 ^ (w - 1) : Nat) : Int) := by
        rw [Int.natAbs_of_nonneg h1, Int.natCast_pow]; exact h2
      exact Int.ofNat_lt.mp this)
    have h4 : ((roundBits p v).natAbs : Int) ≤ 2 ^ (w - 1) := by
      have := Int.ofNat_le.mpr h3
      rw [Int.natCast_pow] at this; exact this
    have h5 := hsign.2 h1
    have h6 : (1 : Int) ≤ 2 ^ (w - 1) := Int.pow_pos (by omega)
    refine ⟨h5, ?_⟩
    rw [e]; omega
  have signed : ∀ w : Nat, 2 ≤ w → -(2 ^ (w - 1)) ≤ v → v < 2 ^ (w - 2) →
      -(2 ^ (w - 1)) ≤ roundBits p v ∧ roundBits p v ≤ 2 ^ (w - 1) - 1 := by
    intro w hw h1 h2
    by_cases hn : 0 ≤ v
    · have := unsigned (w - 1) (by omega) hn h2
      have h6 : (1 : Int) ≤ 2 ^ (w - 1) := Int.pow_pos (by omega)
      omega
    · by_cases he : v = -(2 ^ (w - 1))
      · have h6 : (1 : Int) ≤ 2 ^ (w - 1) := Int.pow_pos (by omega)
        rw [hrep (w - 1) (by rw [he, Int.natAbs_neg, Int.natAbs_pow]; rfl)]
        omega
      · have h3 := hb (w - 1) (by
          have : ((v.natAbs : Nat) : Int) < ((2 ^ (w - 1) : Nat) : Int) := by
            rw [Int.natCast_pow]
            have : ((2 : Nat) : Int) = 2 := rfl
            rw [this]; omega
          exact Int.ofNat_lt.mp this)
        have h4 : ((roundBits p v).natAbs : Int) ≤ 2 ^ (w - 1) := by
          have := Int.ofNat_le.mpr h3
          rw [Int.natCast_pow] at this; exact this
        have h5 := hsign.1 (by omega)
        have h6 : (1 : Int) ≤ 2 ^ (w - 1) := Int.pow_pos (by omega)
        omega
  rw [ITy.range_iff] at hv
  clear hb hrep hle hsign
  cases t
  case u8 => exact unsigned 8 (by decide) hv.1 hs
  case u16 => exact unsigned 16 (by decide) hv.1 hs
  case u32 => exact unsigned 32 (by decide) hv.1 hs
  case u64 => exact unsigned 64 (by decide) hv.1 hs
  case i8 => exact signed 8 (by decide) hv.1 hs
  case i16 => exact signed 16 (by decide) hv.1 hs
  case i32 => exact signed 32 (by decide) hv.1 hs
  case i64 => exact signed 64 (by decide) hv.1 hs

/-- C69. Writing a number given as any C++ integer type into `Float32` or `Float64`: the
AnySimple then holds exactly that number if the format has it, otherwise `InvalidAnyType` is
raised. Partial: numbers in the upper half of the positive range of the type are excluded,
there the code can be undefined (`C69_fails`). -/
theorem C69_set_partial (narrow : Fl → Fl) (a : Any) (t : ITy) (v : Int) (k : Kind) (p : Nat)
    (hv : t.Range v) (hs : t.Safe v) (hk : k.precision = some p) :
    (Representable p v → setValue narrow a k (.int t v) = .ok (⟨k, .float (.fin v)⟩, false)) ∧
    (¬ Representable p v → ∃ a', setValue narrow a k (.int t v) = .ok (a', true)) := by
  have hp : p = 24 ∨ p = 53 := by
    cases k <;> simp [Kind.precision] at hk <;> omega
  rcases setFloat_table t k p hk with h | ⟨h, hlt⟩
  · obtain ⟨h1, h2⟩ := convertFloatInt_spec (by omega) (safe_round hp hv hs)
    refine ⟨fun hr => ?_, fun hr => ⟨release a, ?_⟩⟩
    · simp only [setValue, newValue, h, conv, h1 hr, Out.map]
    · simp only [setValue, newValue, h, conv, h2 hr, Out.map]
  · have hr : Representable p v := ⟨v.natAbs, 0, hlt v hv, by simp⟩
    refine ⟨fun _ => ?_, fun h' => absurd hr h'⟩
    simp only [setValue, newValue, h, conv, roundBits_eq hr]

example : (ITy.i32).Range 16777217 ∧ (ITy.i32).Safe 16777217 ∧ ¬ Representable 24 16777217 := by
  refine ⟨by simp [ITy.Range, ITy.kind, Kind.Range],
    by simp [ITy.Safe, ITy.signed, ITy.width], ?_⟩
  intro h
  have := roundBits_eq h
  revert this; decide

/-- C69 is false of the code: `AnySimple{PTK_Float32, Int32 max}` converts the rounded value
`2^31` back to `Int32`, which is undefined; likewise the largest values of the other types. -/
theorem C69_fails (narrow : Fl → Fl) (a : Any) :
    (∀ t v k, (t, v, k) ∈ [(ITy.i32, 2147483647, Kind.Float32), (.u32, 4294967295, .Float32),
        (.i64, 9223372036854775807, .Float32), (.i64, 9223372036854775807, .Float64),
        (.u64, 18446744073709551615, .Float32), (.u64, 18446744073709551615, .Float64)] →
      t.Range v ∧ setValue narrow a k (.int t v) = .ub) := by
  intro t v k h
  simp only [List.mem_cons, Prod.mk.injEq, List.not_mem_nil, or_false] at h
  rcases h with ⟨rfl, rfl, rfl⟩ | ⟨rfl, rfl, rfl⟩ | ⟨rfl, rfl, rfl⟩ | ⟨rfl, rfl, rfl⟩ |
    ⟨rfl, rfl, rfl⟩ | ⟨rfl, rfl, rfl⟩
  · exact ⟨by simp [ITy.Range, ITy.kind, Kind.Range], rfl⟩
  · exact ⟨by simp [ITy.Range, ITy.kind, Kind.Range], rfl⟩
  · exact ⟨by simp [ITy.Range, ITy.kind, Kind.Range], rfl⟩
  · exact ⟨by simp [ITy.Range, ITy.kind, Kind.Range], rfl⟩
  · exact ⟨by simp [ITy.Range, ITy.kind, Kind.Range], rfl⟩
  · exact ⟨by simp [ITy.Range, ITy.kind, Kind.Range], rfl⟩

/-- The conversion operator to `Float32` or `Float64`. -/
def getFl (narrow : Fl → Fl) (k : Kind) (a : Any) : Out Fl :=
  if k = .Float32 then getF32 narrow a else getF64 a

theorem getFloat_table (t : ITy) (k : Kind) (p : Nat) (h : k.precision = some p) :
    let c := (if k = .Float32 then getFloat32 else getFloat64) t.kind
    c = .floatChecked p ∨ (c = .float p ∧ ∀ v, t.Range v → v.natAbs < 2 ^ p) := by
  cases k <;> simp [Kind.precision] at h <;> subst h <;> cases t <;>
    simp [getFloat32, getFloat64, ITy.Range, ITy.kind, Kind.Range] <;> omega

theorem getFl_int (narrow : Fl → Fl) (t : ITy) (v : Int) (k : Kind) (p : Nat)
    (hk : k.precision = some p) : getFl narrow k ⟨t.kind, .int v⟩ =
      match conv t none v ((if k = .Float32 then getFloat32 else getFloat64) t.kind) with
      | .ok (.float x) => .ok x
      | .ub => .ub
      | _ => .throw := by
  cases k <;> simp [Kind.precision] at hk <;> cases t <;> rfl

/-- C69. Reading an integer of any type as `Float32` or `Float64` gives exactly that number if
the format has it and raises `InvalidAnyType` otherwise. Partial: as for writing, the upper half
of the positive range of the type is excluded. -/
theorem C69_get_partial (narrow : Fl → Fl) (t : ITy) (v : Int) (k : Kind) (p : Nat)
    (hv : t.Range v) (hs : t.Safe v) (hk : k.precision = some p) :
    (Representable p v → getFl narrow k ⟨t.kind, .int v⟩ = .ok (.fin v)) ∧
    (¬ Representable p v → getFl narrow k ⟨t.kind, .int v⟩ = .throw) := by
  have hp : p = 24 ∨ p = 53 := by
    cases k <;> simp [Kind.precision] at hk <;> omega
  rw [getFl_int narrow t v k p hk]
  rcases getFloat_table t k p hk with h | ⟨h, hlt⟩
  · obtain ⟨h1, h2⟩ := convertFloatInt_spec (by omega) (safe_round hp hv hs)
    refine ⟨fun hr => ?_, fun hr => ?_⟩
    · simp only [h, conv, h1 hr, Out.map]
    · simp only [h, conv, h2 hr, Out.map]
  · have hr : Representable p v := ⟨v.natAbs, 0, hlt v hv, by simp⟩
    refine ⟨fun _ => ?_, fun h' => absurd hr h'⟩
    simp only [h, conv, roundBits_eq hr]

example : (ITy.u64).Range 9007199254740993 ∧ (ITy.u64).Safe 9007199254740993 ∧
    ¬ Representable 53 9007199254740993 := by
  refine ⟨by simp [ITy.Range, ITy.kind, Kind.Range],
    by simp [ITy.Safe, ITy.signed, ITy.width], ?_⟩
  intro h
  have := roundBits_eq h
  revert this; decide

/-- C69 is false of the code also when reading. -/
theorem C69_get_fails (narrow : Fl → Fl) :
    (∀ t v k, (t, v, k) ∈ [(ITy.i32, 2147483647, Kind.Float32), (.u32, 4294967295, .Float32),
        (.i64, 9223372036854775807, .Float32), (.i64, 9223372036854775807, .Float64),
        (.u64, 18446744073709551615, .Float32), (.u64, 18446744073709551615, .Float64)] →
      t.Range v ∧ getFl narrow k ⟨t.kind, .int v⟩ = .ub) := by
  intro t v k h
  simp only [List.mem_cons, Prod.mk.injEq, List.not_mem_nil, or_false] at h
  rcases h with ⟨rfl, rfl, rfl⟩ | ⟨rfl, rfl, rfl⟩ | ⟨rfl, rfl, rfl⟩ | ⟨rfl, rfl, rfl⟩ |
    ⟨rfl, rfl, rfl⟩ | ⟨rfl, rfl, rfl⟩
  · exact ⟨by simp [ITy.Range, ITy.kind, Kind.Range], rfl⟩
  · exact ⟨by simp [ITy.Range, ITy.kind, Kind.Range], rfl⟩
  · exact ⟨by simp [ITy.Range, ITy.kind, Kind.Range], rfl⟩
  · exact ⟨by simp [ITy.Range, ITy.kind, Kind.Range], rfl⟩
  · exact ⟨by simp [ITy.Range, ITy.kind, Kind.Range], rfl⟩
  · exact ⟨by simp [ITy.Range, ITy.kind, Kind.Range], rfl⟩

/-! ### C82: doubles become floats -/

/-- The absolute distance of two numbers is at most `d`. -/
def Within (d p q : Rat) : Prop := -d ≤ p - q ∧ p - q ≤ d

theorem convertFloat64_ok {narrow : Fl → Fl} {x y : Fl} (h : convertFloat64 narrow x = .ok y) :
    y = narrow x ∧ ∀ q r, x = .fin q → y = .fin r → Within ((1 : Rat) / 4503599627370496) q r := by
  unfold convertFloat64 at h
  split at h
  · cases h
  · rename_i hd
    cases h
    refine ⟨rfl, ?_⟩
    intro q r hx hy
    rw [hx] at hd hy
    rw [hy] at hd
    simp only [distGt, decide_eq_true_eq, eps64] at hd
    unfold Within
    split at hd <;> constructor <;> grind

theorem convertFloat64_throw {narrow : Fl → Fl} {q r : Rat} (hn : narrow (.fin q) = .fin r)
    (h : ¬ Within ((1 : Rat) / 4503599627370496) q r) :
    convertFloat64 narrow (.fin q) = .throw := by
  unfold convertFloat64
  rw [hn, if_pos]
  simp only [distGt, decide_eq_true_eq, eps64]
  unfold Within at h
  split <;> grind

/-- C82. A double written to a `Float32` AnySimple, or read as a float, gives its rounding when
that differs from the double by at most 2^-52, and otherwise (also when it overflows) raises
`InvalidAnyType`. Partial: the claim is that nothing is lost. -/
theorem C82_partial (narrow : Fl → Fl) (a : Any) (q : Rat) :
    (∀ r, narrow (.fin q) = .fin r → Within ((1 : Rat) / 4503599627370496) q r →
      setValue narrow a .Float32 (.f64 (.fin q)) = .ok (⟨.Float32, .float (.fin r)⟩, false) ∧
      getF32 narrow ⟨.Float64, .float (.fin q)⟩ = .ok (.fin r)) ∧
    ((∀ r, narrow (.fin q) = .fin r → ¬ Within ((1 : Rat) / 4503599627370496) q r) →
      narrow (.fin q) ≠ .nan →
      (∃ a', setValue narrow a .Float32 (.f64 (.fin q)) = .ok (a', true)) ∧
      getF32 narrow ⟨.Float64, .float (.fin q)⟩ = .throw) := by
  constructor
  · intro r hr hw
    have : convertFloat64 narrow (.fin q) = .ok (.fin r) := by
      unfold convertFloat64
      rw [hr, if_neg]
      simp only [distGt, decide_eq_true_eq, eps64]
      unfold Within at hw
      split <;> grind
    exact ⟨by simp only [setValue, newValue, this, Out.map], by simp only [getF32, this]⟩
  · intro h hnan
    have : convertFloat64 narrow (.fin q) = .throw := by
      cases hn : narrow (.fin q) with
      | fin r => exact convertFloat64_throw hn (h r hn)
      | inf s => unfold convertFloat64; rw [hn]; rfl
      | nan => exact absurd hn hnan
    exact ⟨⟨release a, by simp only [setValue, newValue, this, Out.map]⟩, by
      simp only [getF32, this]⟩

example : ∃ narrow : Fl → Fl, ∃ q r, narrow (.fin q) = .fin r ∧ q ≠ r ∧
    Within ((1 : Rat) / 4503599627370496) q r :=
  ⟨fun _ => .fin 0, 1 / 9007199254740992, 0, rfl, by decide +kernel, by
    unfold Within; decide +kernel⟩

/-- C82. Writing a float to a `Float64` AnySimple, or reading it as a double, loses nothing. -/
theorem C82_widen (narrow : Fl → Fl) (a : Any) (x : Fl) :
    setValue narrow a .Float64 (.f32 x) = .ok (⟨.Float64, .float x⟩, false) ∧
    getF64 ⟨.Float32, .float x⟩ = .ok x := ⟨rfl, rfl⟩

/-- C82 is false of the code: the tolerance is absolute, so that 2^-200, which becomes 0 as a
float, is accepted. -/
theorem C82_fails (narrow : Fl → Fl) (a : Any)
    (hn : narrow (.fin ((1 : Rat) / 2 ^ 200)) = .fin 0) :
    setValue narrow a .Float32 (.f64 (.fin ((1 : Rat) / 2 ^ 200))) =
      .ok (⟨.Float32, .float (.fin 0)⟩, false) ∧
    getF32 narrow ⟨.Float64, .float (.fin ((1 : Rat) / 2 ^ 200))⟩ = .ok (.fin 0) := by
  exact (C82_partial narrow a _).1 0 hn (by unfold Within; decide +kernel)

/-! ### C51 -/

/-- Kinds compared exactly: integers, characters and strings. -/
def Kind.exact (k : Kind) : Prop := k.isInt ∨ k = .Char8 ∨ k = .String8

theorem getInt_int {k : Kind} {v : Int} (hk : k.isInt) (hv : k.Range v) (t : ITy) (x : Int)
    (hx : t.Range x) :
    orFalse (getInt t ⟨k, .int v⟩) (fun w => decide (Val.int x = Val.int w)) = .ok (decide (x = v)) := by
  obtain ⟨h1, h2⟩ := C50_get k v t hk hv
  by_cases h : t.Range v
  · rw [h1 h]; simp [orFalse]
  · rw [h2 h]
    have : x ≠ v := by rintro rfl; exact h hx
    simp [orFalse, this]

theorem ok_int {k : Kind} {v : Val} (h : Any.Ok ⟨k, v⟩) (hk : k.isInt) :
    ∃ n, v = .int n ∧ k.Range n := by
  cases k <;> simp [Kind.isInt, Kind.int] at hk <;> cases v <;> simp_all [Any.Ok]

/-- C51. Among integers of any kinds, characters and strings, two AnySimples are equal iff
they hold the same number, character or string. -/
theorem C51_exact_partial (narrow : Fl → Fl) (a b : Any) (ha : a.Ok) (hb : b.Ok)
    (hka : a.type.exact) (hkb : b.type.exact) :
    eq narrow a b = .ok (decide (a.value = b.value)) := by
  obtain ⟨ka, va⟩ := a
  obtain ⟨kb, vb⟩ := b
  rcases hkb with hb1 | hb1 | hb1
  · obtain ⟨m, rfl, hm⟩ := ok_int hb hb1
    rcases hka with ha1 | ha1 | ha1
    · obtain ⟨n, rfl, hn⟩ := ok_int ha ha1
      have key := fun t (hx : ITy.Range t n) => getInt_int hb1 hm t n hx
      have e : decide (Val.int n = Val.int m) = decide (n = m) := by simp
      simp only at e ⊢
      rw [e]
      cases ka <;> simp [Kind.isInt, Kind.int] at ha1 <;>
        simp only [eq] <;> exact key _ hn
    · simp only at ha1; subst ha1
      have : va ≠ .int m := by rintro rfl; simp [Any.Ok, Kind.Range] at ha
      simp only [eq, getChar]
      cases kb <;> simp [Kind.isInt, Kind.int] at hb1 <;> simp [orFalse, this]
    · simp only at ha1; subst ha1
      have : va ≠ .int m := by rintro rfl; simp [Any.Ok, Kind.Range] at ha
      simp only [eq, getString]
      cases kb <;> simp [Kind.isInt, Kind.int] at hb1 <;> simp [orFalse, this]
  · simp only at hb1; subst hb1
    obtain ⟨c, rfl⟩ : ∃ c, vb = .char c := by
      cases vb <;> simp [Any.Ok, Kind.Range] at hb
      exact ⟨_, rfl⟩
    rcases hka with ha1 | ha1 | ha1
    · obtain ⟨n, rfl, hn⟩ := ok_int ha ha1
      cases ka <;> simp [Kind.isInt, Kind.int] at ha1 <;> simp [eq, getInt, Kind.int, orFalse]
    · simp only at ha1; subst ha1
      simp [eq, getChar, orFalse]
    · simp only at ha1; subst ha1
      have : va ≠ .char c := by rintro rfl; simp [Any.Ok] at ha
      simp [eq, getString, orFalse, this]
  · simp only at hb1; subst hb1
    obtain ⟨s, rfl⟩ : ∃ s, vb = .str s := by
      cases vb <;> simp [Any.Ok, Kind.Range] at hb
      exact ⟨_, rfl⟩
    rcases hka with ha1 | ha1 | ha1
    · obtain ⟨n, rfl, hn⟩ := ok_int ha ha1
      cases ka <;> simp [Kind.isInt, Kind.int] at ha1 <;> simp [eq, getInt, Kind.int, orFalse]
    · simp only at ha1; subst ha1
      have : va ≠ .str s := by rintro rfl; simp [Any.Ok] at ha
      simp [eq, getChar, orFalse, this]
    · simp only at ha1; subst ha1
      simp [eq, getString, orFalse]

/-- C51. Hence `==` is an equivalence on them. -/
theorem C51_equivalence_partial (narrow : Fl → Fl) (a b c : Any) (ha : a.Ok) (hb : b.Ok)
    (hc : c.Ok) (hka : a.type.exact) (hkb : b.type.exact) (hkc : c.type.exact) :
    eq narrow a a = .ok true ∧
    (eq narrow a b = .ok true → eq narrow b a = .ok true) ∧
    (eq narrow a b = .ok true → eq narrow b c = .ok true → eq narrow a c = .ok true) := by
  rw [C51_exact_partial narrow a a ha ha hka hka, C51_exact_partial narrow a b ha hb hka hkb,
    C51_exact_partial narrow b a hb ha hkb hka, C51_exact_partial narrow b c hb hc hkb hkc,
    C51_exact_partial narrow a c ha hc hka hkc]
  simp only [decide_true, Out.ok.injEq, decide_eq_true_eq, true_and]
  exact ⟨fun h => h.symm, fun h1 h2 => h1.trans h2⟩

/-- C51. A copy of a value of any kind compares equal to it, except NaN and infinities. -/
theorem C51_copy_partial (narrow : Fl → Fl) (a : Any) (ha : a.Ok)
    (hn : ∀ x, a.value = .float x → ∃ q, x = .fin q) :
    eq narrow a (copyOf a) = .ok true := by
  by_cases he : a.type.exact
  · rw [copyOf, C51_exact_partial narrow a a ha ha he he]; simp
  · obtain ⟨k, v⟩ := a
    have h0 : ∀ q : Rat, distLe (.fin q) (.fin q) eps32 = true ∧
        distLe (.fin q) (.fin q) eps64 = true := by
      intro q
      simp only [distLe, Rat.sub_self]
      decide +kernel
    cases k <;> simp [Kind.exact, Kind.isInt, Kind.int] at he <;>
      cases v <;> simp [Any.Ok, Kind.Range] at ha
    · rfl
    · simp [eq, copyOf, getBool, orFalse]
    · rename_i x
      obtain ⟨q, rfl⟩ := hn x rfl
      simp [eq, copyOf, getF32, orFalse, (h0 q).1]
    · rename_i x
      obtain ⟨q, rfl⟩ := hn x rfl
      simp [eq, copyOf, getF64, orFalse, (h0 q).2]

example : Any.Ok ⟨.UInt8, .int 5⟩ ∧ Any.Ok ⟨.Duration, .int 5⟩ ∧ Any.Ok ⟨.String8, .str (some [1])⟩ := by
  simp [Any.Ok, Kind.Range]

/-- C51. A move hands the value over, and leaves an AnySimple without value: every reading of it
raises an exception. -/
theorem C51_move_partial (narrow : Fl → Fl) (a : Any) (ha : a.Ok)
    (hn : ∀ x, a.value = .float x → ∃ q, x = .fin q) :
    eq narrow a (moveAssign a).1 = .ok true ∧
    (∀ t, getInt t (moveAssign a).2 = .throw) ∧ getBool (moveAssign a).2 = .throw ∧
    getChar (moveAssign a).2 = .throw ∧ getString (moveAssign a).2 = .throw ∧
    getF32 narrow (moveAssign a).2 = .throw ∧ getF64 (moveAssign a).2 = .throw :=
  ⟨C51_copy_partial narrow a ha hn, fun _ => rfl, rfl, rfl, rfl, rfl, rfl⟩

/-- C51 fails for a value that is moved to itself: it is lost. -/
theorem C51_selfmove_fails (narrow : Fl → Fl) : ∃ a : Any, a.Ok ∧
    eq narrow a (copyOf a) = .ok true ∧ eq narrow a (selfMove a) = .ok false ∧
    getInt .i8 (selfMove a) = .throw :=
  ⟨⟨.Int8, .int 5⟩, by simp [Any.Ok, Kind.Range], rfl, rfl, rfl⟩

/-- C51. Two floating point numbers of one format are equal iff their distance is at most the distance
of 1 from the next number of the format. -/
theorem C51_float_partial (narrow : Fl → Fl) (p q : Rat) :
    (∃ b, eq narrow ⟨.Float32, .float (.fin p)⟩ ⟨.Float32, .float (.fin q)⟩ = .ok b ∧
      (b = true ↔ p - q ≤ 1 / 2 ^ 23 ∧ q - p ≤ 1 / 2 ^ 23)) ∧
    ∃ b, eq narrow ⟨.Float64, .float (.fin p)⟩ ⟨.Float64, .float (.fin q)⟩ = .ok b ∧
      (b = true ↔ p - q ≤ 1 / 2 ^ 52 ∧ q - p ≤ 1 / 2 ^ 52) := by
  have h : ∀ e : Rat, 0 ≤ e → (distLe (.fin p) (.fin q) e = true ↔ p - q ≤ e ∧ q - p ≤ e) := by
    intro e he
    simp only [distLe, decide_eq_true_eq]
    split <;> grind
  have e1 : (1 : Rat) / 2 ^ 23 = eps32 := by decide +kernel
  have e2 : (1 : Rat) / 2 ^ 52 = eps64 := by decide +kernel
  rw [e1, e2]
  exact ⟨⟨_, rfl, h eps32 (by decide +kernel)⟩, ⟨_, rfl, h eps64 (by decide +kernel)⟩⟩

/-- C51 is false of the code: `None` equals everything but not conversely; `true == 1` but
not `1 == true`; `1.0f == 1` but not `1 == 1.0f`; NaN and infinity differ from themselves;
and floating point equality is not transitive. -/
theorem C51_fails (narrow : Fl → Fl) :
    (eq narrow ⟨.None, .none⟩ ⟨.Int8, .int 5⟩ = .ok true ∧
      eq narrow ⟨.Int8, .int 5⟩ ⟨.None, .none⟩ = .ok false) ∧
    (eq narrow ⟨.Bool, .bool true⟩ ⟨.Int8, .int 1⟩ = .ok true ∧
      eq narrow ⟨.Int8, .int 1⟩ ⟨.Bool, .bool true⟩ = .ok false) ∧
    (eq narrow ⟨.Float32, .float (.fin 1)⟩ ⟨.Int8, .int 1⟩ = .ok true ∧
      eq narrow ⟨.Int8, .int 1⟩ ⟨.Float32, .float (.fin 1)⟩ = .ok false) ∧
    (eq narrow ⟨.Float64, .float .nan⟩ ⟨.Float64, .float .nan⟩ = .ok false ∧
      eq narrow ⟨.Float64, .float (.inf false)⟩ ⟨.Float64, .float (.inf false)⟩ = .ok false) ∧
    (eq narrow ⟨.Float64, .float (.fin 0)⟩ ⟨.Float64, .float (.fin eps64)⟩ = .ok true ∧
      eq narrow ⟨.Float64, .float (.fin eps64)⟩ ⟨.Float64, .float (.fin (2 * eps64))⟩ = .ok true ∧
      eq narrow ⟨.Float64, .float (.fin 0)⟩ ⟨.Float64, .float (.fin (2 * eps64))⟩ = .ok false) := by
  refine ⟨⟨rfl, rfl⟩, ⟨rfl, rfl⟩, ⟨?_, rfl⟩, ⟨rfl, rfl⟩, ⟨?_, ?_, ?_⟩⟩ <;>
    simp only [eq, getF32, getF64, orFalse, convFl, Kind.int, getFloat32, conv, distLe] <;>
    decide +kernel

/-! ### C52 -/

/-- C52. A rejected assignment to an AnySimple that does not hold a string changes nothing.
Partial: strings are lost (`C52_fails`). -/
theorem C52_partial (narrow : Fl → Fl) (a a' : Any) (k : Kind) (arg : Arg)
    (ha : a.type ≠ .String8) (h : setValue narrow a k arg = .ok (a', true)) : a' = a := by
  unfold setValue at h
  simp only [release, ha, if_false] at h
  split at h <;> simp at h
  exact h.symm

example : ∃ a', setValue id ⟨.Int8, .int 3⟩ .UInt8 (.int .i8 (-1)) = .ok (a', true) :=
  ⟨_, rfl⟩

/-- C52. In every case the kind stays, and a lost string becomes a null string. -/
theorem C52_kind (narrow : Fl → Fl) (a a' : Any) (k : Kind) (arg : Arg)
    (h : setValue narrow a k arg = .ok (a', true)) :
    a'.type = a.type ∧ (a' = a ∨ (a.type = .String8 ∧ a'.value = .str none)) := by
  unfold setValue at h
  simp only [release] at h
  split at h <;> simp at h
  subst h
  split
  · rename_i hs; exact ⟨rfl, Or.inr ⟨hs, rfl⟩⟩
  · exact ⟨rfl, Or.inl rfl⟩

/-- C52 is false of the code for strings. -/
theorem C52_fails (narrow : Fl → Fl) :
    setValue narrow ⟨.String8, .str (some [65])⟩ .Int8 (.bool true) =
      .ok (⟨.String8, .str none⟩, true) := rfl

/-! ### Well-formedness is an invariant -/

/-- Every value written is well-formed, so the hypotheses of the theorems above hold of all
AnySimples made by constructors, assignments, copies and moves. -/
theorem setValue_ok (narrow : Fl → Fl) (a : Any) (ha : a.Ok) (k : Kind) (arg : Arg)
    (harg : ∀ t v, arg = .int t v → t.Range v) (r : Any × Bool)
    (h : setValue narrow a k arg = .ok r) : r.1.Ok := by
  unfold setValue at h
  simp only at h
  split at h <;> simp at h
  · rename_i v hv
    subst h
    cases arg with
    | bool b => simp only [newValue] at hv; split at hv <;> simp at hv; subst hv; subst k; trivial
    | char b => simp only [newValue] at hv; split at hv <;> simp at hv; subst hv; subst k; trivial
    | str b => simp only [newValue] at hv; split at hv <;> simp at hv; subst hv; subst k; trivial
    | f32 x =>
      simp only [newValue] at hv
      split at hv <;> simp at hv <;> subst hv <;> trivial
    | f64 x =>
      simp only [newValue] at hv
      split at hv
      · cases hc : convertFloat64 narrow x <;> rw [hc] at hv <;> simp [Out.map] at hv
        subst hv; trivial
      · simp at hv; subst hv; trivial
      · simp at hv
    | int t n =>
      have hr := harg t n rfl
      simp only [newValue] at hv
      by_cases hk : k.isInt
      · obtain ⟨T, hT⟩ := Option.isSome_iff_exists.mp hk
        obtain ⟨h1, h2⟩ := conv_ok hr (setTable_ok t k T hT)
        rw [hT] at hv
        by_cases hT' : T.Range n
        · rw [h1 hT'] at hv; simp at hv; subst hv
          rw [← Kind.range_iff hT] at hT'
          cases k <;> simp [Kind.isInt, Kind.int] at hk <;> exact hT'
        · rw [h2 hT'] at hv; simp at hv
      · have hf : ∀ p w, conv t none n (.float p) = .ok w → ∃ x, w = .float x := by
          intro p w hw; simp [conv] at hw; exact ⟨_, hw.symm⟩
        have hg : ∀ p w, conv t none n (.floatChecked p) = .ok w → ∃ x, w = .float x := by
          intro p w hw
          simp only [conv] at hw
          cases hc : convertFloatInt p t n <;> rw [hc] at hw <;> simp [Out.map] at hw
          exact ⟨_, hw.symm⟩
        cases k <;> simp [Kind.isInt, Kind.int] at hk
        case Float32 =>
          rcases setFloat_table t .Float32 24 rfl with h | ⟨h, _⟩ <;> rw [h] at hv
          · obtain ⟨x, rfl⟩ := hg _ _ hv; trivial
          · obtain ⟨x, rfl⟩ := hf _ _ hv; trivial
        case Float64 =>
          rcases setFloat_table t .Float64 53 rfl with h | ⟨h, _⟩ <;> rw [h] at hv
          · obtain ⟨x, rfl⟩ := hg _ _ hv; trivial
          · obtain ⟨x, rfl⟩ := hf _ _ hv; trivial
        all_goals (cases t <;> simp [setTable, setUInt8, setUInt16, setUInt32, setUInt64, setInt8,
          setInt16, setInt32, setInt64, conv] at hv)
  · subst h
    unfold release
    split
    · rename_i hs
      simp only [Any.Ok, hs]
    · exact ha

theorem ofKind_ok (k : Kind) : (ofKind k).Ok := by
  cases k <;> simp [ofKind, Any.Ok, Kind.Range]

end Verif.Any
