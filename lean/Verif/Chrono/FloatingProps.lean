import Verif.Chrono.FloatingLemmas

/-!
Property C134: durations with floating point operands.

`v` is the duration in nanoseconds, `k` says whether the operand is a `float` or a `double`. The
numbers of the two formats are those of `Verif.Float.Float32` and `Float64`, given there in terms of
`± m 2^e`.
-/
namespace Verif.Chrono.Floating
open Verif.Any (Fl)
open Verif.Float
open Verif.Sched.Pacing (ltD castD i64)

/-! ### Specification -/

/-- The bits of the mantissa. -/
def Kind.bits : Kind → Nat
  | .single => 24
  | .double => 53

/-- `q` is a number of the type. -/
def Kind.Num : Kind → Rat → Prop
  | .single => Float32
  | .double => Float64

/-- `x` is a value of the type other than NaN. -/
def Number (k : Kind) : Fl → Prop
  | .fin q => k.Num q
  | .inf _ => True
  | .nan => False

/-- The duration is less than `x`. -/
def Less (v : Int) : Fl → Prop
  | .fin q => (v : Rat) < q
  | .inf neg => neg = false
  | .nan => False

/-- The duration is greater than `x`. -/
def More (v : Int) : Fl → Prop
  | .fin q => q < (v : Rat)
  | .inf neg => neg = true
  | .nan => False

/-- The duration is `x`. -/
def Same (v : Int) : Fl → Prop
  | .fin q => (v : Rat) = q
  | _ => False

/-- `n` is `q` without its fraction. -/
def Cut (q : Rat) (n : Int) : Prop :=
  (0 ≤ q → (n : Rat) ≤ q ∧ q < n + 1) ∧ (q < 0 → q ≤ n ∧ (n : Rat) - 1 < q)

/-- `n` is a duration. -/
def I64 (n : Int) : Prop := -2 ^ 63 ≤ n ∧ n < 2 ^ 63

/-- `e` is the exact result of the operation. -/
def Exact : Op → Int → Rat → Rat → Prop
  | .add, v, q, e => e = v + q
  | .sub, v, q, e => e = v - q
  | .mul, v, q, e => e = v * q
  | .div, v, q, e => q ≠ 0 ∧ e = v / q

/-- What is at stake when the duration itself is rounded: nothing when it has few bits; the duration
in a sum, the result in a product. -/
def stake (k : Kind) (op : Op) (v : Int) (e : Rat) : Rat :=
  if v.natAbs ≤ 2 ^ k.bits then 0 else
  match op with
  | .add | .sub => Abs v
  | .mul | .div => Abs e

/-! ### Lemmas -/

theorem bits_eq (k : Kind) : k.fmt.p = k.bits := by cases k <;> rfl

theorem num_has (k : Kind) (q : Rat) : k.Num q ↔ k.fmt.Has (.fin q) := by
  cases k
  · exact float32_iff q
  · exact float64_iff q

theorem absR_prod (a b : Rat) : absR (a * b) = absR a * absR b := by
  unfold absR
  by_cases ha : a < 0 <;> by_cases hb : b < 0
  · have := Rat.mul_nonneg (Rat.le_of_lt (Rat.neg_lt_neg ha)) (Rat.le_of_lt (Rat.neg_lt_neg hb))
    rw [if_pos ha, if_pos hb]
    have : 0 ≤ a * b := by grind
    rw [if_neg (Rat.not_lt.2 this)]; grind
  · have hb' := Rat.not_lt.1 hb
    have := Rat.mul_nonneg (Rat.le_of_lt (Rat.neg_lt_neg ha)) hb'
    rw [if_pos ha, if_neg hb]
    by_cases h : a * b < 0
    · rw [if_pos h]; grind
    · rw [if_neg h]; grind
  · have ha' := Rat.not_lt.1 ha
    have := Rat.mul_nonneg ha' (Rat.le_of_lt (Rat.neg_lt_neg hb))
    rw [if_neg ha, if_pos hb]
    by_cases h : a * b < 0
    · rw [if_pos h]; grind
    · rw [if_neg h]; grind
  · have := Rat.mul_nonneg (Rat.not_lt.1 ha) (Rat.not_lt.1 hb)
    rw [if_neg ha, if_neg hb, if_neg (Rat.not_lt.2 this)]

theorem stake_nonneg (k : Kind) (op : Op) (v : Int) (e : Rat) : 0 ≤ stake k op v e := by
  unfold stake
  split
  · exact Rat.le_refl
  · cases op <;> exact absR_nonneg _

theorem run_near {k : Kind} {op : Op} {v : Int} {q e r : Rat} (hr : conv k v = .fin r)
    (hd : absR ((v : Rat) - r) ≤ absR v / ((2 ^ k.fmt.p : Nat) : Rat)) (he : Exact op v q e) :
    ∃ e', op.run k.fmt (conv k v) (.fin q) = k.fmt.round e' ∧
      absR (e' - e) ≤ stake k op v e / ((2 ^ k.fmt.p : Nat) : Rat) ∧
      (v.natAbs ≤ 2 ^ k.bits → e' = e) := by
  rw [hr]
  have hP : (0 : Rat) < ((2 ^ k.fmt.p : Nat) : Rat) := two_pow_pos' _
  have small : v.natAbs ≤ 2 ^ k.bits → r = v := by
    intro h
    rw [conv_small k (by rw [bits_eq]; exact h)] at hr
    injection hr with hr; exact hr.symm
  have zero : ∀ x : Rat, absR (x - x) = 0 := by
    intro x; have : x - x = 0 := by grind
    rw [this]; decide
  have sym : ∀ a b : Rat, absR (a - b) = absR (b - a) := by intro a b; unfold absR; grind
  have fin : ∀ e' : Rat, (v.natAbs ≤ 2 ^ k.bits → e' = e) →
      (¬ v.natAbs ≤ 2 ^ k.bits → absR (e' - e) ≤ stake k op v e / ((2 ^ k.fmt.p : Nat) : Rat)) →
      absR (e' - e) ≤ stake k op v e / ((2 ^ k.fmt.p : Nat) : Rat) := by
    intro e' h1 h2
    by_cases hs : v.natAbs ≤ 2 ^ k.bits
    · rw [h1 hs, zero]; exact div_nonneg (stake_nonneg _ _ _ _) hP
    · exact h2 hs
  cases op with
  | add =>
    have he : e = v + q := he
    have h1 : v.natAbs ≤ 2 ^ k.bits → r + q = e := fun h => by rw [small h, he]
    refine ⟨r + q, rfl, fin _ h1 fun hs => ?_, h1⟩
    unfold stake; rw [if_neg hs]
    have : r + q - e = r - v := by rw [he]; grind
    rw [this, sym]; exact hd
  | sub =>
    have he : e = v - q := he
    have h1 : v.natAbs ≤ 2 ^ k.bits → r + -q = e := fun h => by rw [small h, he]; grind
    refine ⟨r + -q, rfl, fin _ h1 fun hs => ?_, h1⟩
    unfold stake; rw [if_neg hs]
    have : r + -q - e = r - v := by rw [he]; grind
    rw [this, sym]; exact hd
  | mul =>
    have he : e = v * q := he
    have h1 : v.natAbs ≤ 2 ^ k.bits → r * q = e := fun h => by rw [small h, he]
    refine ⟨r * q, rfl, fin _ h1 fun hs => ?_, h1⟩
    unfold stake; rw [if_neg hs]
    have : r * q - e = (r - v) * q := by rw [he]; grind
    rw [this, absR_prod, sym]
    have := Rat.mul_le_mul_of_nonneg_right hd (absR_nonneg q)
    refine Rat.le_trans this ?_
    refine (?_ : _ = absR e / _) ▸ Rat.le_refl
    rw [he, absR_prod]; grind
  | div =>
    obtain ⟨h0, he⟩ : q ≠ 0 ∧ e = v / q := he
    have h1 : v.natAbs ≤ 2 ^ k.bits → r / q = e := fun h => by rw [small h, he]
    refine ⟨r / q, ?_, fin _ h1 fun hs => ?_, h1⟩
    · show divF k.fmt (.fin r) (.fin q) = _
      unfold divF; dsimp only; rw [if_neg h0]
    unfold stake; rw [if_neg hs]
    have : r / q - e = (r - v) * q⁻¹ := by rw [he, Rat.div_def, Rat.div_def]; grind
    rw [this, absR_prod, sym]
    have := Rat.mul_le_mul_of_nonneg_right hd (absR_nonneg q⁻¹)
    refine Rat.le_trans this ?_
    refine (?_ : _ = absR e / _) ▸ Rat.le_refl
    rw [he, Rat.div_def (v : Rat), absR_prod]; grind

theorem tri {a b : Rat} : a < b ∨ a = b ∨ b < a := by grind

/-! ### Comparisons -/

/-- Comparisons of any duration with a number: what `<` and `>` say is so, equal ones compare equal,
exactly one of `==`, `<` and `>` holds and the others follow from them. -/
theorem C134_order (k : Kind) (v : Int) (x : Fl) (hv : I64 v) (hx : Number k x) :
    (lt k v x = true → Less v x) ∧ (gt k v x = true → More v x) ∧ (Same v x → eq k v x = true) ∧
    (lt k v x, eq k v x, gt k v x) ∈
      [(true, false, false), (false, true, false), (false, false, true)] ∧
    ne k v x = !eq k v x ∧ le k v x = (lt k v x || eq k v x) ∧ ge k v x = (gt k v x || eq k v x) := by
  obtain ⟨r, hr, -⟩ := conv_fin k hv.1 hv.2
  unfold ne le ge lt gt eq
  rw [hr]
  cases x with
  | nan => exact hx.elim
  | inf n =>
    cases n <;> simp [ltD, eqF, Less, More, Same]
  | fin q =>
    have hq := (num_has k q).1 hx
    have hr' : k.fmt.round v = .fin r := hr
    have g1 : r < q → (v : Rat) < q := by
      intro h; rw [← Rat.not_le]; intro hc
      exact Rat.not_lt.2 (round_ge (ok k) hr' hq hc) h
    have g2 : q < r → q < (v : Rat) := by
      intro h; rw [← Rat.not_le]; intro hc
      exact Rat.not_lt.2 (round_le (ok k) hr' hq hc) h
    have g3 : (v : Rat) = q → r = q := by
      intro h
      rw [h, round_self (ok k) hq] at hr'
      injection hr' with hr'; exact hr'.symm
    simp only [ltD, eqF, Less, More, Same, decide_eq_true_eq]
    refine ⟨g1, g2, g3, ?_⟩
    have i : ∀ {a : Rat}, ¬ a < a := Rat.lt_irrefl
    rcases tri (a := r) (b := q) with h | h | h
    · have h1 : ¬ r = q := by rintro rfl; exact i h
      have h2 : ¬ q < r := Rat.not_lt.2 (Rat.le_of_lt h)
      simp [h, h1, h2]
    · subst h; simp [i]
    · have h1 : ¬ r = q := by rintro rfl; exact i h
      have h2 : ¬ r < q := Rat.not_lt.2 (Rat.le_of_lt h)
      simp [h, h1, h2]

/-- A duration of at most `2^53` ns (104 days), or `2^24` ns (17 ms) with a `float`, is compared
exactly. -/
theorem C134_exact_partial (k : Kind) (v : Int) (x : Fl) (hv : v.natAbs ≤ 2 ^ k.bits) (hx : Number k x) :
    (lt k v x = true ↔ Less v x) ∧ (gt k v x = true ↔ More v x) ∧ (eq k v x = true ↔ Same v x) := by
  unfold lt gt eq
  rw [conv_small k (by rw [bits_eq]; exact hv)]
  cases x with
  | nan => exact hx.elim
  | inf n => cases n <;> simp [ltD, eqF, Less, More, Same]
  | fin q => simp [ltD, eqF, Less, More, Same]

/-- `d == 90000000000.0` and `d < 1e300` for a duration of 90 s. -/
example : (90000000000 : Int).natAbs ≤ 2 ^ Kind.double.bits ∧
    Number .double (.fin 90000000000) ∧ eq .double 90000000000 (.fin 90000000000) = true ∧
    lt .double 90000000000 (.inf false) = true ∧ gt .double 90000000000 (.fin 1) = true :=
  ⟨by decide, (num_has .double _).2 (has_int .double (v := 90000000000) (by decide)),
    by decide +kernel, by decide +kernel, by decide +kernel⟩

/-- False: that durations equal to a number are the same. Two durations of 104 days compare equal to
one `double`, two of 17 ms to one `float`, and the maximal duration to `2^63`, which is no duration. -/
theorem C134_equal_fails :
    (eq .double (2 ^ 53 + 1) (.fin (2 ^ 53)) = true ∧ eq .double (2 ^ 53) (.fin (2 ^ 53)) = true) ∧
    (eq .single (2 ^ 24 + 1) (.fin (2 ^ 24)) = true ∧ eq .single (2 ^ 24) (.fin (2 ^ 24)) = true) ∧
    eq .double (2 ^ 63 - 1) (.fin (2 ^ 63)) = true ∧ lt .double (2 ^ 63 - 1) (.fin (2 ^ 63)) = false := by
  decide +kernel

/-! ### Assignments -/

/-- `d = x` cuts off the fraction; it is undefined when the result is no duration, for a NaN and for
the infinities. -/
theorem C134_assign (n : Int) :
    (∀ q, assign (.fin q) = some n ↔ I64 n ∧ Cut q n) ∧
    assign .nan = none ∧ ∀ neg, assign (.inf neg) = none :=
  ⟨fun q => castD_iff q n, rfl, fun _ => rfl⟩

/-- 2.9 becomes 2 and -2.9 becomes -2. -/
example : assign (.fin (29 / 10)) = some 2 ∧ assign (.fin (-29 / 10)) = some (-2) ∧
    assign (.fin (2 ^ 63)) = none ∧ assign (.fin (-2 ^ 63)) = some (-2 ^ 63) := by decide +kernel

/-- When the duration has few bits and the exact result of `+=`, `-=`, `*=` or `/=` is a number of the
type, the new duration is this result without its fraction. -/
theorem C134_compound_partial (k : Kind) (op : Op) (v : Int) (q e : Rat) (n : Int)
    (hv : v.natAbs ≤ 2 ^ k.bits) (he : Exact op v q e) (hn : k.Num e) :
    compound k op v (.fin q) = some n ↔ I64 n ∧ Cut e n := by
  have hc := conv_small k (v := v) (by rw [bits_eq]; exact hv)
  have hd : absR ((v : Rat) - v) ≤ absR v / ((2 ^ k.fmt.p : Nat) : Rat) := by
    have : (v : Rat) - v = 0 := by grind
    rw [this]
    exact div_nonneg (absR_nonneg _) (two_pow_pos' _)
  obtain ⟨e', h1, -, h3⟩ := run_near hc hd he
  unfold compound
  rw [h1, h3 hv, round_self (ok k) ((num_has k e).1 hn)]
  exact castD_iff e n

/-- 90 s times 1.5 are 135 s; 7 ns divided by two are 3 ns. -/
example : compound .double .mul 90000000000 (.fin (3 / 2)) = some 135000000000 ∧
    Exact .mul 90000000000 (3 / 2) 135000000000 ∧ Kind.double.Num 135000000000 ∧
    compound .double .div 7 (.fin 2) = some 3 :=
  ⟨by decide +kernel, by unfold Exact; decide +kernel,
    (num_has .double _).2 (has_int .double (v := 135000000000) (by decide)), by decide +kernel⟩

/-- In general the new duration is near to the exact result: less than a nanosecond is cut off, the
rest is the rounding of the duration and of the result. -/
theorem C134_near (k : Kind) (op : Op) (v : Int) (q e : Rat) (hv : I64 v) (he : Exact op v q e)
    (hb : Abs e ≤ 2 ^ 61) :
    ∃ n, compound k op v (.fin q) = some n ∧
      Abs ((n : Rat) - e) < 1 + (2 * stake k op v e + Abs e) / 2 ^ k.bits + 1 / 2 ^ 149 := by
  obtain ⟨r, hr, hd⟩ := conv_fin k hv.1 hv.2
  obtain ⟨e', h1, h2, -⟩ := run_near hr hd he
  have hs := stake_nonneg k op v e
  have hbig : stake k op v e ≤ 2 ^ 63 := by
    have h63 : (2 ^ 61 : Rat) ≤ 2 ^ 63 := by decide +kernel
    have hv' : Abs (v : Rat) ≤ 2 ^ 63 := by
      have e1 : Abs (v : Rat) = ((v.natAbs : Nat) : Rat) := absR_int v
      rw [e1]
      have : v.natAbs ≤ 2 ^ 63 := by have := hv.1; have := hv.2; omega
      have : ((v.natAbs : Nat) : Rat) ≤ ((2 ^ 63 : Nat) : Rat) := by exact_mod_cast this
      exact Rat.le_trans this (by decide +kernel)
    unfold stake
    split
    · decide +kernel
    · cases op
      · exact hv'
      · exact hv'
      · exact Rat.le_trans hb h63
      · exact Rat.le_trans hb h63
  have hp : (2 ^ 24 : Rat) ≤ ((2 ^ k.fmt.p : Nat) : Rat) := by cases k <;> decide +kernel
  have hpe : (2 : Rat) ^ k.bits = ((2 ^ k.fmt.p : Nat) : Rat) := by cases k <;> decide +kernel
  have hP : (0 : Rat) < ((2 ^ k.fmt.p : Nat) : Rat) := two_pow_pos' _
  rw [hpe]
  have hb' : absR e ≤ 2 ^ 61 := hb
  show ∃ n, castD (op.run k.fmt (conv k v) (.fin q)) = some n ∧
    absR ((n : Rat) - e) < 1 + (2 * stake k op v e + absR e) / _ + 1 / 2 ^ 149
  rw [h1]
  generalize stake k op v e = a at *
  have he' : absR e' ≤ absR e + a / ((2 ^ k.fmt.p : Nat) : Rat) := by
    generalize a / ((2 ^ k.fmt.p : Nat) : Rat) = w at *
    clear hb hb' hbig
    unfold absR at *; grind
  have hq : a / ((2 ^ k.fmt.p : Nat) : Rat) ≤ 2 ^ 39 := by
    refine Rat.le_of_mul_le_mul_right ?_ hP
    have e1 : a / ((2 ^ k.fmt.p : Nat) : Rat) * ((2 ^ k.fmt.p : Nat) : Rat) = a := by grind
    rw [e1]
    refine Rat.le_trans hbig ?_
    have := Rat.mul_le_mul_of_nonneg_left hp (show (0 : Rat) ≤ 2 ^ 39 by decide +kernel)
    exact Rat.le_trans (by decide +kernel) this
  have h62 : absR e' ≤ 2 ^ 62 := by
    have : (2 ^ 61 : Rat) + 2 ^ 39 ≤ 2 ^ 62 := by decide +kernel
    generalize (2 ^ 61 : Rat) = A at *
    generalize (2 ^ 39 : Rat) = B at *
    grind
  obtain ⟨n, hn, hc⟩ := cast_round k h62
  refine ⟨n, hn, ?_⟩
  have hq2 : a / ((2 ^ k.fmt.p : Nat) : Rat) / ((2 ^ k.fmt.p : Nat) : Rat) ≤
      a / ((2 ^ k.fmt.p : Nat) : Rat) := by
    refine Rat.le_of_mul_le_mul_right ?_ hP
    have e1 : a / ((2 ^ k.fmt.p : Nat) : Rat) / ((2 ^ k.fmt.p : Nat) : Rat) *
        ((2 ^ k.fmt.p : Nat) : Rat) = a / ((2 ^ k.fmt.p : Nat) : Rat) := by grind
    rw [e1]
    have h1 : (1 : Rat) ≤ ((2 ^ k.fmt.p : Nat) : Rat) := Rat.le_trans (by decide +kernel) hp
    have := Rat.mul_le_mul_of_nonneg_left h1 (div_nonneg hs hP)
    grind
  have h3 : absR e' / ((2 ^ k.fmt.p : Nat) : Rat) ≤
      absR e / ((2 ^ k.fmt.p : Nat) : Rat) + a / ((2 ^ k.fmt.p : Nat) : Rat) := by
    refine Rat.le_trans (b := absR e / ((2 ^ k.fmt.p : Nat) : Rat) +
      a / ((2 ^ k.fmt.p : Nat) : Rat) / ((2 ^ k.fmt.p : Nat) : Rat)) ?_ ?_
    · refine Rat.le_of_mul_le_mul_right ?_ hP
      have e1 : absR e' / ((2 ^ k.fmt.p : Nat) : Rat) * ((2 ^ k.fmt.p : Nat) : Rat) = absR e' := by grind
      have e2 : (absR e / ((2 ^ k.fmt.p : Nat) : Rat) +
        a / ((2 ^ k.fmt.p : Nat) : Rat) / ((2 ^ k.fmt.p : Nat) : Rat)) * ((2 ^ k.fmt.p : Nat) : Rat) =
        absR e + a / ((2 ^ k.fmt.p : Nat) : Rat) := by grind
      rw [e1, e2]; exact he'
    · generalize a / ((2 ^ k.fmt.p : Nat) : Rat) = w at *
      generalize w / ((2 ^ k.fmt.p : Nat) : Rat) = w2 at *
      grind
  have e5 : (2 * a + absR e) / ((2 ^ k.fmt.p : Nat) : Rat) =
      2 * (a / ((2 ^ k.fmt.p : Nat) : Rat)) + absR e / ((2 ^ k.fmt.p : Nat) : Rat) := by grind
  rw [e5]
  clear e5 hq2 he' hq h62 hb hb' hbig hp hpe
  generalize absR e' / ((2 ^ k.fmt.p : Nat) : Rat) = E' at *
  generalize absR e / ((2 ^ k.fmt.p : Nat) : Rat) = E at *
  generalize a / ((2 ^ k.fmt.p : Nat) : Rat) = w at *
  generalize (1 : Rat) / 2 ^ 149 = T at *
  unfold absR at *
  grind

/-- A year times 0.1 (as a `double`): its duration has more than 53 bits, the result is near. -/
example : I64 31557600000000000 ∧ ¬ (31557600000000000 : Int).natAbs ≤ 2 ^ Kind.double.bits ∧
    Exact .mul 31557600000000000 (1 / 10) 3155760000000000 ∧ Abs (3155760000000000 : Rat) ≤ 2 ^ 61 ∧
    compound .double .mul 31557600000000000 (f64.round (1 / 10)) = some 3155760000000000 :=
  ⟨by unfold I64; decide, by decide, by unfold Exact; decide +kernel, by decide +kernel,
    by decide +kernel⟩

/-- False: that adding or subtracting nothing, and multiplying or dividing by one, leave a duration
as it is. -/
theorem C134_identity_fails :
    compound .double .add (2 ^ 53 + 1) (.fin 0) = some (2 ^ 53) ∧
    compound .double .sub (2 ^ 53 + 1) (.fin 0) = some (2 ^ 53) ∧
    compound .double .mul (2 ^ 53 + 1) (.fin 1) = some (2 ^ 53) ∧
    compound .double .div (2 ^ 53 + 1) (.fin 1) = some (2 ^ 53) ∧
    compound .single .add 1000000001 (.fin 0) = some 1000000000 := by
  decide +kernel

/-- False: that an assignment is defined when its exact result is a duration. Adding nothing to the
maximal duration is undefined: it is rounded to `2^63`. -/
theorem C134_defined_fails :
    Exact .add (2 ^ 63 - 1) 0 ((2 ^ 63 - 1 : Int) : Rat) ∧ I64 (2 ^ 63 - 1) ∧
    compound .double .add (2 ^ 63 - 1) (.fin 0) = none ∧
    compound .single .sub (2 ^ 63 - 1) (.fin 1) = none :=
  ⟨by unfold Exact; decide +kernel, by unfold I64; decide, by decide +kernel, by decide +kernel⟩

/-- Operands that are not finite: undefined, except that a division by an infinity gives zero. A
division by zero is undefined. -/
theorem C134_infinite (k : Kind) (op : Op) (v : Int) (hv : I64 v) :
    compound k op v .nan = none ∧
    (∀ neg, compound k op v (.inf neg) = if op = .div then some 0 else none) ∧
    (op = .div → compound k op v (.fin 0) = none) := by
  obtain ⟨r, hr, -⟩ := conv_fin k hv.1 hv.2
  unfold compound
  rw [hr]
  refine ⟨?_, ?_, ?_⟩
  · cases op <;> rfl
  · intro neg
    cases op
    · rfl
    · rfl
    · simp only [Op.run, mulF]
      by_cases h : r = 0 <;> simp [h, castD]
    · rw [if_pos rfl]; simp only [Op.run, divF]; decide
  · rintro rfl
    simp only [Op.run, divF, if_true]
    by_cases h : r = 0 <;> simp [h, castD]

/-! ### Chrono durations with a floating point count -/

/-- A period of `a` whole nanoseconds: a count whose nanoseconds are a number of the type is cut off
to whole nanoseconds, any other one is rounded first. -/
theorem C134_chrono_partial (k : Kind) (num den a : Nat) (x : Rat) (hden : den ≠ 0)
    (ha : num * 1000000000 = a * den) (hs : a ≤ 2 ^ k.bits) :
    (∀ n, k.Num (x * a) → (castNs k num den (.fin x) = some n ↔ I64 n ∧ Cut (x * a) n)) ∧
    (k.Num x → Abs (x * a) ≤ 2 ^ 61 → ∃ n, castNs k num den (.fin x) = some n ∧
      Abs ((n : Rat) - x * a) < 1 + Abs (x * a) / 2 ^ k.bits + 1 / 2 ^ 149) := by
  have hg : Nat.gcd (num * 1000000000) den = den := by
    rw [ha]; exact Nat.gcd_eq_right ⟨a, Nat.mul_comm _ _⟩
  have hd : 0 < den := by omega
  have e : ∀ y : Fl, castNs k num den y = castD (if a = 1 then y else mulF k.fmt y (conv k a)) := by
    intro y
    unfold castNs
    dsimp only
    rw [hg, ha, Nat.mul_div_cancel _ hd, Nat.div_self hd, if_pos rfl]
  have hc : conv k a = .fin ((a : Nat) : Rat) := by
    have := conv_small k (v := (a : Int)) (by rw [bits_eq]; simpa using hs)
    exact this
  have e2 : a ≠ 1 → castNs k num den (.fin x) = castD (k.fmt.round (x * a)) := by
    intro h1; rw [e, if_neg h1, hc]; rfl
  have e3 : a = 1 → castNs k num den (.fin x) = castD (.fin x) ∧ x * a = x := by
    rintro rfl; exact ⟨by rw [e, if_pos rfl], Rat.mul_one x⟩
  have hpe : (2 : Rat) ^ k.bits = ((2 ^ k.fmt.p : Nat) : Rat) := by cases k <;> decide +kernel
  rw [hpe]
  refine ⟨fun n hn => ?_, fun hx hb => ?_⟩
  · by_cases h1 : a = 1
    · rw [(e3 h1).1, (e3 h1).2]; exact castD_iff x n
    · rw [e2 h1, round_self (ok k) ((num_has k _).1 hn)]; exact castD_iff _ n
  · have hb' : absR (x * a) ≤ 2 ^ 62 := Rat.le_trans hb (by decide +kernel)
    have hr : castNs k num den (.fin x) = castD (k.fmt.round (x * a)) := by
      by_cases h1 : a = 1
      · rw [(e3 h1).1, (e3 h1).2, round_self (ok k) ((num_has k _).1 hx)]
      · exact e2 h1
    rw [hr]
    exact cast_round k hb'

/-- Seconds: 1.5 s are 1500000000 ns; the period is a whole number of nanoseconds. -/
example : castNs .double 1 1 (.fin (3 / 2)) = some 1500000000 ∧ 1 * 1000000000 = 1000000000 * 1 ∧
    castNs .double 1 1000000000 (.fin (3 / 2)) = some 1 ∧
    castNs .single 1 1 (.fin (1 / 2)) = some 500000000 := by decide +kernel

/-- False: that the nearest duration is taken. 1.001 s as a `double` becomes one nanosecond less, and
15 ns in seconds become 14 ns. Half a minute as a `float` is a microsecond off though the result is a
duration: the nanoseconds of a minute are no `float`. -/
theorem C134_nearest_fails :
    castNs .double 1 1 (f64.round (1001 / 1000)) = some 1000999999 ∧
    castNs .double 1 1 (f64.round (15 / 1000000000)) = some 14 ∧
    castNs .single 60 1 (.fin (1 / 2)) = some 30000001024 := by
  decide +kernel

end Verif.Chrono.Floating
