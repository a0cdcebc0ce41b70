import Verif.Field.Floating
import Verif.Field.OpsProps
import Verif.Chrono.FloatingProps

/-!
Property C135: the operators of fields with floating point numbers.

The numbers of `float` and `double` are those of `Verif.Float.Float32` and `Float64`
(`Kind.Num`); `Cut q n` says that `n` is `q` without its fraction.
-/
namespace Verif.Field.Floating
open Verif.Any (Fl Val ITy Any)
open Verif.Float
open Verif.Chrono.Floating (Kind conv Number Cut)

/-! ### Specification -/

/-- `e` is the exact result of the operator. -/
def Exact : FOp → Rat → Rat → Rat → Prop
  | .add, v, q, e => e = v + q
  | .sub, v, q, e => e = v - q
  | .mul, v, q, e => e = v * q
  | .div, v, q, e => q ≠ 0 ∧ e = v / q

/-- No number of the type is nearer to `e`; it is infinite only when `e` is larger than all of
them. -/
def Nearest (k : Kind) (e : Rat) : Fl → Prop
  | .fin r => k.Num r ∧ ∀ s, k.Num s → Abs (e - r) ≤ Abs (e - s)
  | .inf neg => (∀ s, k.Num s → Abs s < Abs e) ∧ (neg = true ↔ e < 0)
  | .nan => False

/-- The kind of a field of the type. -/
def Ty.kind : Ty → Any.Kind
  | .int t => t.kind
  | .flt .single => .Float32
  | .flt .double => .Float64

/-! ### Lemmas -/

theorem run_exact (f : Fmt) (op : FOp) {v q e : Rat} (h : Exact op v q e) :
    op.run f (.fin v) (.fin q) = f.round e := by
  cases op with
  | add => show f.round (v + q) = _; rw [show e = v + q from h]
  | sub =>
    show f.round (v + -q) = _
    rw [show e = v - q from h, Rat.sub_eq_add_neg]
  | mul => show f.round (v * q) = _; rw [show e = v * q from h]
  | div =>
    obtain ⟨h0, h1⟩ : q ≠ 0 ∧ e = v / q := h
    show Chrono.Floating.divF f (.fin v) (.fin q) = _
    unfold Chrono.Floating.divF
    dsimp only
    rw [if_neg h0, h1]

theorem nearest_round (k : Kind) (e : Rat) : Nearest k e (k.fmt.round e) := by
  have hk := Chrono.Floating.ok k
  cases h : k.fmt.round e with
  | nan => exact absurd h (round_ne_nan _ _)
  | fin r =>
    refine ⟨(Chrono.Floating.num_has k r).2 ?_, fun s hs => ?_⟩
    · have := round_has hk e; rw [h] at this; exact this
    · exact round_nearest hk h ((Chrono.Floating.num_has k s).1 hs)
  | inf b =>
    obtain ⟨hb, hl⟩ := round_inf hk h
    refine ⟨fun s hs => ?_, by rw [hb]; simp⟩
    obtain ⟨neg, N, hN, rfl⟩ := (Chrono.Floating.num_has k s).1 hs
    show absR _ < absR e
    have hv := absR_val k.fmt neg N
    have hlt : 2 * N < (2 ^ (k.fmt.p + 1) - 1) * 2 ^ k.fmt.top := by
      obtain ⟨m, j, hm, hj, rfl⟩ := hN
      have h1 : m * 2 ^ j ≤ (2 ^ k.fmt.p - 1) * 2 ^ k.fmt.top :=
        Nat.mul_le_mul (by omega) (Nat.pow_le_pow_right (by omega) hj)
      have h2 : 2 * ((2 ^ k.fmt.p - 1) * 2 ^ k.fmt.top) = (2 * (2 ^ k.fmt.p - 1)) * 2 ^ k.fmt.top :=
        (Nat.mul_assoc _ _ _).symm
      have h3 : (2 * (2 ^ k.fmt.p - 1)) * 2 ^ k.fmt.top < (2 ^ (k.fmt.p + 1) - 1) * 2 ^ k.fmt.top := by
        refine Nat.mul_lt_mul_of_pos_right ?_ (Nat.two_pow_pos _)
        have := Nat.two_pow_pos k.fmt.p
        rw [Nat.pow_succ]; omega
      omega
    have hlt' : 2 * (N : Rat) < (((2 ^ (k.fmt.p + 1) - 1) * 2 ^ k.fmt.top : Nat) : Rat) := by
      exact_mod_cast hlt
    have hS : (0 : Rat) < ((2 ^ k.fmt.scale : Nat) : Rat) := two_pow_pos' _
    rw [← Rat.not_le]
    intro hc
    have := Rat.mul_le_mul_of_nonneg_right hc (Rat.le_of_lt hS)
    rw [hv] at this
    generalize (((2 ^ (k.fmt.p + 1) - 1) * 2 ^ k.fmt.top : Nat) : Rat) = L at *
    grind

theorem common_flt (k : Kind) (t : Ty) (h : k = .double ∨ t ≠ .flt .double) :
    commonF t (.flt k) = some k ∧ commonF (.flt k) t = some k := by
  cases k <;> cases t <;> try exact ⟨rfl, rfl⟩
  all_goals
    rename_i j
    cases j <;> first | exact ⟨rfl, rfl⟩ | simp at h

theorem back_flt (k : Kind) {x : Fl} (h : k.fmt.Has x) : back (.flt k) x = some (.float x) := by
  cases k with
  | double => rfl
  | single =>
    cases x with
    | fin r => show some (Val.float (f32.round r)) = _; rw [round_self ok32 h]
    | _ => rfl

theorem back_int (t : ITy) (q : Rat) (n : Int) :
    back (.int t) (.fin q) = some (.int n) ↔ t.Range n ∧ Cut q n := by
  rw [ITy.range_iff]
  have key : Cut q n ↔ (if q < 0 then -(-q).floor else q.floor) = n := by
    unfold Cut
    by_cases h : q < 0
    · have h0 : ¬ 0 ≤ q := Rat.not_le.2 h
      rw [if_pos h]
      simp only [h0, h, false_implies, true_implies, true_and]
      constructor
      · rintro ⟨h1, h2⟩
        have a : -n ≤ (-q).floor := Rat.le_floor_iff.2 (by push_cast; grind)
        have b : (-q).floor < -n + 1 := by
          have := Rat.floor_le (-q)
          have : (((-q).floor : Int) : Rat) < ((-n + 1 : Int) : Rat) := by push_cast; grind
          exact_mod_cast this
        omega
      · rintro rfl
        have h1 := Rat.floor_le (-q)
        have h2 := Chrono.Floating.lt_floor (-q)
        push_cast
        grind
    · have h0 : 0 ≤ q := Rat.not_lt.1 h
      rw [if_neg h]
      simp only [h0, h, false_implies, true_implies, and_true]
      constructor
      · rintro ⟨h1, h2⟩
        have a : n ≤ q.floor := Rat.le_floor_iff.2 h1
        have b : q.floor < n + 1 := by
          have := Rat.floor_le q
          have : ((q.floor : Int) : Rat) < ((n + 1 : Int) : Rat) := by push_cast; grind
          exact_mod_cast this
        omega
      · rintro rfl
        exact ⟨Rat.floor_le q, Chrono.Floating.lt_floor q⟩
  rw [key]
  unfold back
  dsimp only
  generalize (if q < 0 then -(-q).floor else q.floor) = m
  constructor
  · intro h
    split at h
    · rename_i hm; cases h; exact ⟨hm, rfl⟩
    · cases h
  · rintro ⟨h1, rfl⟩
    rw [if_pos h1]

/-! ### Fields of floating point type -/

/-- C135. A `double` field with a `double` operand, and a `float` field with a `float` operand: the new
value is the number of the type nearest to the exact result. -/
theorem C135_nearest (k : Kind) (op : FOp) (v q e : Rat) (he : Exact op v q e) :
    ∃ y, opFloat (.flt k) (.flt k) op (.float (.fin v)) (.float (.fin q)) = some (.float y) ∧
      Nearest k e y ∧ (k.Num e → y = .fin e) := by
  refine ⟨k.fmt.round e, ?_, nearest_round k e, fun h => ?_⟩
  · unfold opFloat
    have hc : commonF (.flt k) (.flt k) = some k := by cases k <;> rfl
    rw [hc]
    dsimp only [toF]
    rw [run_exact _ _ he, back_flt k (round_has (Chrono.Floating.ok k) e)]
  · exact round_self (Chrono.Floating.ok k) ((Chrono.Floating.num_has k e).1 h)

/-- C135. With an operand of an integer type that the field's type has, likewise. -/
theorem C135_integer_operand (k : Kind) (u : ITy) (op : FOp) (v e : Rat) (x : Int)
    (hx : x.natAbs ≤ 2 ^ k.bits) (he : Exact op v x e) :
    ∃ y, opFloat (.flt k) (.int u) op (.float (.fin v)) (.int x) = some (.float y) ∧
      Nearest k e y ∧ (k.Num e → y = .fin e) := by
  refine ⟨k.fmt.round e, ?_, nearest_round k e, fun h => ?_⟩
  · unfold opFloat
    rw [(common_flt k (.int u) (.inr (by simp))).2]
    dsimp only [toF]
    rw [Chrono.Floating.conv_small k (by rw [Chrono.Floating.bits_eq]; exact hx), run_exact _ _ he,
      back_flt k (round_has (Chrono.Floating.ok k) e)]
  · exact round_self (Chrono.Floating.ok k) ((Chrono.Floating.num_has k e).1 h)

/-- C135, partial. A `float` field with a `double` operand: the nearest `float`, when the exact result
is a `double`. Missing: other results, which are rounded twice (`C135_twice_fails`). -/
theorem C135_float_partial (op : FOp) (v q e : Rat) (he : Exact op v q e) (hd : Kind.double.Num e) :
    ∃ y, opFloat (.flt .single) (.flt .double) op (.float (.fin v)) (.float (.fin q)) =
      some (.float y) ∧ Nearest .single e y := by
  refine ⟨f32.round e, ?_, nearest_round .single e⟩
  show back (.flt .single) (op.run f64 (.fin v) (.fin q)) = _
  rw [run_exact _ _ he, round_self ok64 ((Chrono.Floating.num_has .double e).1 hd)]
  rfl

/-- C135, false in general: `1.0f` plus the `double` `2^-24 + 2^-60` becomes 1, the nearest `float` is
`1 + 2^-23`. -/
theorem C135_twice_fails :
    opFloat (.flt .single) (.flt .double) .add (.float (.fin 1))
      (.float (.fin (1 / 2 ^ 24 + 1 / 2 ^ 60))) = some (.float (.fin 1)) ∧
    ¬ Nearest .single (1 + (1 / 2 ^ 24 + 1 / 2 ^ 60)) (.fin 1) := by
  refine ⟨by decide +kernel, fun h => ?_⟩
  have hs : Kind.single.Num (1 + 1 / 2 ^ 23) :=
    ⟨2 ^ 23 + 1, -23, by decide, by decide, by decide, .inl (by decide +kernel)⟩
  exact absurd (h.2 _ hs) (by decide +kernel)

/-- C135, partial. `++` and `--` add and subtract one from an integer below `2^24` or `2^53`. -/
theorem C135_increment_partial (k : Kind) (v : Int) (h : v.natAbs < 2 ^ k.bits) :
    incr k .add (.float (.fin v)) = some (.float (.fin ((v + 1 : Int) : Rat))) ∧
    incr k .sub (.float (.fin v)) = some (.float (.fin ((v - 1 : Int) : Rat))) := by
  have h1 : (1 : Int).natAbs ≤ 2 ^ k.bits := by cases k <;> decide
  have hn : ∀ w : Int, w.natAbs ≤ 2 ^ k.bits → k.Num (w : Rat) := fun w hw =>
    (Chrono.Floating.num_has k _).2 (Chrono.Floating.has_int k (by rw [Chrono.Floating.bits_eq]; exact hw))
  constructor
  · obtain ⟨y, e1, -, e2⟩ := C135_integer_operand k .i32 .add (v : Rat) ((v + 1 : Int) : Rat) 1 h1
      (by show _ = _; push_cast; rfl)
    rw [e2 (hn _ (by omega))] at e1; exact e1
  · obtain ⟨y, e1, -, e2⟩ := C135_integer_operand k .i32 .sub (v : Rat) ((v - 1 : Int) : Rat) 1 h1
      (by show _ = _; push_cast; rfl)
    rw [e2 (hn _ (by omega))] at e1; exact e1

/-- C135, false in general: a counter of type `float` stops at `2^24`, one of type `double` at
`2^53`. -/
theorem C135_increment_fails :
    incr .single .add (.float (.fin (2 ^ 24))) = some (.float (.fin (2 ^ 24))) ∧
    incr .double .add (.float (.fin (2 ^ 53))) = some (.float (.fin (2 ^ 53))) := by decide +kernel

/-! ### Fields of integer type -/

/-- C135, partial. A field of an integer type with a floating point operand: when the value has at
most 53 (or 24) bits and the exact result is a number of the type of the operand, the new value is
this result without its fraction, and the operator is undefined when the field cannot have it. -/
theorem C135_integer_partial (t : ITy) (k : Kind) (op : FOp) (v : Int) (q e : Rat) (n : Int)
    (hv : v.natAbs ≤ 2 ^ k.bits) (he : Exact op v q e) (hn : k.Num e) :
    opFloat (.int t) (.flt k) op (.int v) (.float (.fin q)) = some (.int n) ↔ t.Range n ∧ Cut e n := by
  unfold opFloat
  rw [(common_flt k (.int t) (.inr (by simp))).1]
  dsimp only [toF]
  rw [Chrono.Floating.conv_small k (by rw [Chrono.Floating.bits_eq]; exact hv), run_exact _ _ he,
    round_self (Chrono.Floating.ok k) ((Chrono.Floating.num_has k e).1 hn)]
  exact back_int t e n

/-- C135. Every value of a field of at most 32 bits qualifies with a `double`, every one of at most 16
bits with a `float`. -/
theorem C135_small (t : ITy) (k : Kind) (v : Int) (hv : t.Range v)
    (hw : t.width ≤ match k with | .double => 32 | .single => 16) : v.natAbs ≤ 2 ^ k.bits := by
  cases t <;> cases k <;>
    simp [ITy.width, ITy.Range, ITy.kind, Any.Kind.Range, Kind.bits] at hw hv ⊢ <;> omega

/-- C135. Results that are not finite are undefined for a field of an integer type, and kept by the
others. -/
theorem C135_nan (t : Ty) (k : Kind) (op : FOp) (v : Val) (a : Fl)
    (hk : k = .double ∨ t ≠ .flt .double) (hv : toF k v = some a) :
    opFloat t (.flt k) op v (.float .nan) =
      match t with | .int _ => none | .flt _ => some (.float .nan) := by
  have hr : ∀ f, op.run f a .nan = .nan := by intro f; cases op <;> cases a <;> rfl
  unfold opFloat
  rw [(common_flt k t hk).1]
  dsimp only
  rw [hv]
  dsimp only [toF]
  rw [hr]
  rcases t with t | (_ | _) <;> rfl

/-- C135. Infinite operands and values of a field follow the signs; `inf - inf`, `0 * inf`, `inf / inf`
and `0 / 0` are no numbers. (The sign of a division by zero depends on the sign of the zero, which the
model does not have.) -/
theorem C135_infinite (k : Kind) (v : Rat) (m n : Bool) :
    let f := fun op x y => opFloat (.flt k) (.flt k) op (.float x) (.float y)
    let inf := fun b => some (Val.float (.inf b))
    let nan := some (Val.float .nan)
    (f .add (.fin v) (.inf n) = inf n ∧ f .sub (.fin v) (.inf n) = inf (!n) ∧
      (0 < v → f .mul (.fin v) (.inf n) = inf n) ∧ (v < 0 → f .mul (.fin v) (.inf n) = inf (!n)) ∧
      f .mul (.fin 0) (.inf n) = nan ∧ f .div (.fin v) (.inf n) = some (.float (.fin 0))) ∧
    (f .add (.inf n) (.fin v) = inf n ∧ f .sub (.inf n) (.fin v) = inf n ∧
      (0 < v → f .mul (.inf n) (.fin v) = inf n ∧ f .div (.inf n) (.fin v) = inf n) ∧
      (v < 0 → f .mul (.inf n) (.fin v) = inf (!n) ∧ f .div (.inf n) (.fin v) = inf (!n)) ∧
      f .mul (.inf n) (.fin 0) = nan) ∧
    (f .add (.inf m) (.inf n) = (if m = n then inf n else nan) ∧
      f .sub (.inf m) (.inf n) = (if m = n then nan else inf m) ∧
      f .mul (.inf m) (.inf n) = inf (m != n) ∧ f .div (.inf m) (.inf n) = nan) ∧
    (v ≠ 0 → ∃ b, f .div (.fin v) (.fin 0) = inf b) ∧ f .div (.fin 0) (.fin 0) = nan := by
  intro f inf nan
  have hf : ∀ op x y, f op x y = back (.flt k) (Chrono.Floating.Op.run k.fmt op x y) := by
    intro op x y; cases k <;> rfl
  have hi : ∀ b, back (.flt k) (.inf b) = inf b := by intro b; cases k <;> rfl
  have hn : back (.flt k) .nan = nan := by cases k <;> rfl
  have hz : back (.flt k) (.fin 0) = some (.float (.fin 0)) := by cases k <;> decide +kernel
  simp only [hf, Chrono.Floating.Op.run, Chrono.Floating.addF, Chrono.Floating.subF,
    Chrono.Floating.negF, Chrono.Floating.mulF, Chrono.Floating.divF, if_true]
  have p0 : 0 < v → ¬ v = 0 ∧ ¬ v < 0 := by grind
  have p1 : v < 0 → ¬ v = 0 := by grind
  refine ⟨⟨hi _, hi _, fun h => ?_, fun h => ?_, hn, hz⟩,
    ⟨hi _, hi _, fun h => ?_, fun h => ?_, hn⟩, ⟨?_, ?_, hi _, hn⟩, fun h => ?_, hn⟩
  · simp [p0 h, hi]
  · simp [p1 h, h, hi]
  · simp [p0 h, hi]
  · simp [p1 h, h, hi]
  · cases m <;> cases n <;> simp [hi, hn]
  · cases m <;> cases n <;> simp [hi, hn]
  · simp [h, hi, inf]

/-- C135, false in general: an `Int64` field of more than 53 bits changes with `+= 0.0`; a `UInt8`
field wraps with the integer 1 (`C107`) and is undefined with the `double` 1; adding nothing to the
maximal `UInt64` is undefined. -/
theorem C135_integer_fails :
    opFloat (.int .i64) (.flt .double) .add (.int (2 ^ 53 + 1)) (.float (.fin 0)) =
      some (.int (2 ^ 53)) ∧
    opFloat (.int .i32) (.flt .single) .mul (.int (2 ^ 24 + 1)) (.float (.fin 1)) =
      some (.int (2 ^ 24)) ∧
    opFloat (.int .u8) (.flt .double) .sub (.int 0) (.float (.fin 1)) = none ∧
    Ops.opValue .u8 .i32 .sub 0 1 = some 255 ∧
    opFloat (.int .u64) (.flt .double) .add (.int (2 ^ 64 - 1)) (.float (.fin 0)) = none := by
  decide +kernel

/-! ### Networks of fields -/

/-- C135. An operator on a field that is forced leaves all fields as they are, if its result is
defined. -/
theorem C135_forced (narrow : Fl → Fl) (f : Nat) (n : Net) (i : Nat) (t u : Ty) (op : FOp) (x r : Val)
    (hr : opFloat t u op (n i).value x = some r) (hh : (n i).held = true) :
    opAssignF narrow f n i t u op x = .ok n := by
  simp only [opAssignF, hr, assign, store]
  rw [if_pos hh]

/-- C135. An operator whose result a field of an integer type cannot have is undefined, also when the
field is forced and would keep its value. -/
theorem C135_undefined (narrow : Fl → Fl) (f : Nat) (n : Net) (i : Nat) (t : ITy) (k : Kind) (op : FOp)
    (v : Int) (q e : Rat) (hval : (n i).value = .int v) (hv : v.natAbs ≤ 2 ^ k.bits)
    (he : Exact op v q e) (hn : k.Num e) (hr : ∀ r, Cut e r → ¬ t.Range r) :
    opAssignF narrow f n i (.int t) (.flt k) op (.float (.fin q)) = .ub := by
  unfold opAssignF
  rw [hval]
  cases h : opFloat (.int t) (.flt k) op (.int v) (.float (.fin q)) with
  | none => rfl
  | some r =>
    exfalso
    have hi : ∃ w, r = .int w := by
      unfold opFloat at h
      rw [(common_flt k (.int t) (.inr (by simp))).1] at h
      dsimp only [toF] at h
      generalize op.run _ _ _ = y at h
      cases y with
      | fin q' =>
        unfold back at h
        dsimp only at h
        generalize (if q' < 0 then -(-q').floor else q'.floor) = w at h
        split at h
        · exact ⟨w, (Option.some.inj h).symm⟩
        · cases h
      | _ => cases h
    obtain ⟨w, rfl⟩ := hi
    obtain ⟨h1, h2⟩ := (C135_integer_partial t k op v q e w hv he hn).1 h
    exact hr w h2 h1

/-- A `UInt8` field of value 200 that is forced, with `+= 100.0`. -/
example (narrow : Fl → Fl) (n : Net) (h : (n 0).value = .int 200) :
    opAssignF narrow 5 n 0 (.int .u8) (.flt .double) .add (.float (.fin 100)) = .ub := by
  refine C135_undefined narrow 5 n 0 .u8 .double .add 200 100 300 h (by decide) ?_ ?_ ?_
  · show (300 : Rat) = _
    decide +kernel
  · exact (Chrono.Floating.num_has .double _).2
      (Chrono.Floating.has_int .double (v := 300) (by decide))
  · intro r hc hr
    simp [ITy.Range, ITy.kind, Any.Kind.Range] at hr
    have h1 : ((r : Int) : Rat) ≤ 255 := by
      have := Rat.intCast_le_intCast.2 (show r ≤ 255 by omega)
      exact this
    unfold Cut at hc
    grind

theorem back_ok {t : Ty} {y : Fl} {r : Val} (h : back t y = some r) : Any.Ok ⟨t.kind, r⟩ := by
  rcases t with t | k
  · cases y with
    | fin q =>
      unfold back at h
      dsimp only at h
      generalize (if q < 0 then -(-q).floor else q.floor) = m at h
      split at h
      · rename_i hm
        cases h
        have := (ITy.range_iff t _).2 hm
        cases t <;> simpa [Any.Ok, ITy.Range, ITy.kind, Ty.kind] using this
      · cases h
    | _ => cases h
  · cases k <;> (cases h; trivial)

/-- C135. In any network made by calls, an operator with result `r` gives `r` to the field and to
every field connected to it that is not forced. -/
theorem C135_assign (narrow : Fl → Fl) (f0 : Nat) (n0 n : Net) (h0 : Unconnected n0)
    (hplain : ∀ i, (n0 i).kind ≠ .String8 ∧ (n0 i).kind ≠ .None ∧ (n0 i).lits = none)
    (ops : List Field.Op) (hrun : run narrow f0 n0 ops = some n) (hac : Acyclic n) (i : Nat) (t u : Ty)
    (op : FOp) (x r : Val) (hk : (n i).kind = t.kind)
    (hr : opFloat t u op (n i).value x = some r) (hh : (n i).held = false) :
    ∃ m, Returns (fun f => opAssignF narrow f n i t u op x) m ∧ (m i).get = ⟨t.kind, r⟩ ∧
      ∀ j ∈ (n i).targets, (n i).connectable = true → (n j).held = false →
        (m j).get = ⟨t.kind, r⟩ := by
  obtain ⟨m, h1, h2, h3⟩ := C58_write_plain narrow f0 n0 n h0 hplain ops hrun hac i r hh
    (by
      rw [hk]
      have h := hr
      unfold opFloat at h
      split at h
      · cases h
      · split at h
        · exact back_ok h
        · cases h)
  rw [hk] at h2
  refine ⟨m, ?_, h2, fun j hj hc hn => (h3 j hj hc hn).trans h2⟩
  obtain ⟨F, hF⟩ := h1
  refine ⟨F, fun f hf => ?_⟩
  have := hF f hf
  simp only [opAssignF, hr]
  exact this

/-! ### The hypotheses are met -/

/-- `Float32` 0.5 times 3, `Float64` 1 / 3 (not a `double`), an `Int32` 7 times 0.5. -/
example : Exact .mul (1 / 2) 3 (3 / 2) ∧ Kind.single.Num (3 / 2) ∧ Exact .div 1 3 (1 / 3) ∧
    (∃ r, opFloat (.flt .double) (.flt .double) .div (.float (.fin 1)) (.float (.fin 3)) =
      some (.float (.fin r)) ∧ r ≠ 1 / 3) ∧
    opFloat (.int .i32) (.flt .double) .mul (.int 7) (.float (.fin (1 / 2))) = some (.int 3) ∧
    Cut (7 / 2) 3 :=
  ⟨by unfold Exact; decide +kernel, ⟨3, -1, by decide, by decide, by decide, .inl (by decide +kernel)⟩,
    ⟨by decide, by decide +kernel⟩, ⟨6004799503160661 / 18014398509481984, by decide +kernel, by decide +kernel⟩, by decide +kernel,
    by unfold Cut; decide +kernel⟩

/-- A `Float64` field connected to another: `+= 0.25`. -/
example : ∃ (n0 n : Net), Unconnected n0 ∧
    (∀ i, (n0 i).kind ≠ .String8 ∧ (n0 i).kind ≠ .None ∧ (n0 i).lits = none) ∧
    run id 9 n0 [.connect 0 1, .assign 0 (.float (.fin 1))] = some n ∧
    (n 0).kind = Ty.kind (.flt .double) ∧ (n 0).held = false ∧ (n 0).targets = [1] ∧
    opFloat (.flt .double) (.flt .double) .add (n 0).value (.float (.fin (1 / 4))) =
      some (.float (.fin (5 / 4))) ∧
    ∃ m, opAssignF id 9 n 0 (.flt .double) (.flt .double) .add (.float (.fin (1 / 4))) = .ok m ∧
      (m 1).value = .float (.fin (5 / 4)) :=
  ⟨fun _ => ⟨.Float64, 0, true, true, true, false, none, .float (.fin 0), false, []⟩, _,
    by intro i; rfl, fun _ => ⟨by simp, by simp, rfl⟩, rfl, by decide, by decide, by decide,
    by decide +kernel, _, rfl, by decide +kernel⟩

end Verif.Field.Floating
