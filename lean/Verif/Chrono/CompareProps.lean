import Verif.Chrono.Compare
import Verif.Chrono.Props
import Verif.Field.OpsProps

/-! Property C109: comparisons of durations. -/
namespace Verif.Chrono.Compare
open Verif.Any (ITy wrap Kind)
open Verif.Field.Ops (common promote wrap_range)
open Verif.Any (wrap_eq)

/-! ### Specification -/

/-- The six comparisons of `v` with `r`, in the order `==`, `!=`, `<`, `>`, `<=`, `>=`. -/
def six (v : Int) (r : Operand) : List (Option Bool) :=
  [eq v r, ne v r, lt v r, gt v r, le v r, ge v r]

/-- The six comparisons with the other operand on the left. -/
def sixL (r : Operand) (v : Int) : List (Option Bool) :=
  [eqL r v, neL r v, ltL r v, gtL r v, leL r v, geL r v]

/-- The six comparisons of the numbers `a` and `b`. -/
def numbers (a b : Int) : List (Option Bool) :=
  [decide (a = b), decide (a ≠ b), decide (a < b), decide (b < a), decide (a ≤ b),
    decide (b ≤ a)].map some

/-- Nothing is defined. -/
def undefined : List (Option Bool) := List.replicate 6 none

/-! ### Lemmas -/

theorem range_i64 {v : Int} : ITy.i64.Range v ↔ I64 v := by
  simp only [ITy.Range, ITy.kind, Kind.Range, I64]; omega

theorem common_comm (u : ITy) : common u .i64 = common .i64 u := by cases u <;> rfl

theorem six_cast {n d : Nat} {c v : Int} : six v (.chrono n d c) =
    match castNs n d c with | none => undefined | some r => numbers v r := by
  unfold six ne ge
  simp only [eq, lt, gt, le]
  cases castNs n d c with
  | none => rfl
  | some r =>
    simp only [Option.map_some, numbers, List.map_cons, List.map_nil, List.cons.injEq,
      Option.some.injEq, and_true]
    refine ⟨?_, ?_, ?_, ?_, ?_⟩
    · grind
    · grind
    · trivial
    · trivial
    · simp [← decide_not, Int.not_lt]

theorem six_int {u : ITy} {v x : Int} : six v (.int u x) =
    numbers (wrap (common .i64 u) v) (wrap (common .i64 u) x) := by
  unfold six ne ge
  simp only [eq, lt, gt, le, eqB, ltB, common_comm, Option.map_some, numbers, List.map_cons,
    List.map_nil, List.cons.injEq, Option.some.injEq, and_true]
  refine ⟨?_, ?_, ?_, ?_, ?_, ?_⟩
  · grind
  · grind
  · trivial
  · trivial
  · simp [← decide_not, Int.not_lt]
  · simp [← decide_not, Int.not_lt]

theorem six_dur {v y : Int} : six v (.dur y) = six v (.int .i64 y) := rfl

theorem chk_cast {n d : Nat} {c : Int} (r : Int) : castNs n d c = some r ↔
    I64 (c * ((n * 1000000000 / Nat.gcd (n * 1000000000) d : Nat) : Int)) ∧
    r = (c * ((n * 1000000000 / Nat.gcd (n * 1000000000) d : Nat) : Int)).tdiv
      ((d / Nat.gcd (n * 1000000000) d : Nat) : Int) := by
  unfold castNs
  rw [Option.map_eq_some_iff]
  constructor
  · rintro ⟨p, hp, rfl⟩
    obtain ⟨h, rfl⟩ := (chk_iff _ _).1 hp
    exact ⟨h, rfl⟩
  · rintro ⟨h, rfl⟩
    exact ⟨_, (chk_iff _ _).2 ⟨h, rfl⟩, rfl⟩

/-! ### C109 -/

/-- C109. Whatever the operand, the six comparisons of integers and durations are the comparisons of
two numbers: exactly one of `==`, `<`, `>` is true, and the others follow. With the operand on the
left they are mirrored. -/
theorem C109_consistent (v : Int) (r : Operand) (hr : r ≠ .nan) :
    (six v r = undefined ∨ ∃ a b, six v r = numbers a b) ∧
    sixL r v = [eq v r, ne v r, gt v r, lt v r, ge v r, le v r] := by
  refine ⟨?_, rfl⟩
  cases r with
  | int u x => exact .inr ⟨_, _, six_int⟩
  | dur y => exact .inr ⟨_, _, six_dur.trans six_int⟩
  | chrono n d c =>
    rw [six_cast]
    cases castNs n d c with
    | none => exact .inl rfl
    | some r => exact .inr ⟨v, r, rfl⟩
  | nan => exact absurd rfl hr

/-- C109. Durations are compared as numbers of nanoseconds. -/
theorem C109_durations (v y : Int) (hv : I64 v) (hy : I64 y) : six v (.dur y) = numbers v y := by
  have e : common .i64 .i64 = .i64 := rfl
  rw [six_dur, six_int, e, wrap_eq (range_i64.2 hv), wrap_eq (range_i64.2 hy)]

/-- C109, partial. A duration and an integer of any type are compared as numbers, unless the type is
the unsigned one of 64 bits and the duration is negative. -/
theorem C109_integers_partial (v : Int) (u : ITy) (x : Int) (hv : I64 v) (hx : u.Range x)
    (h : u ≠ .u64 ∨ 0 ≤ v) : six v (.int u x) = numbers v x := by
  rw [six_int]
  have hv' : (common .i64 u).Range v := by
    cases u
    case u64 =>
      have := h.resolve_left (fun h => h rfl)
      show ITy.u64.Range v
      simp only [ITy.Range, ITy.kind, Kind.Range, I64] at hv ⊢
      omega
    all_goals exact range_i64.2 hv
  have hx' : (common .i64 u).Range x := by
    cases u
    case u64 => exact hx
    all_goals
      show ITy.i64.Range x
      simp only [ITy.Range, ITy.kind, Kind.Range] at hx ⊢
      omega
  rw [wrap_eq hv', wrap_eq hx']

/-- C109. A chrono duration whose period is a whole number of nanoseconds is compared exactly when
its nanoseconds are a 64-bit number, and otherwise the comparison is undefined. -/
theorem C109_chrono (v : Int) (k n d : Nat) (c : Int) (hd : 0 < d) (hk : n * 1000000000 = k * d) :
    six v (.chrono n d c) = if -2 ^ 63 ≤ c * k ∧ c * k < 2 ^ 63 then numbers v (c * k)
      else undefined := by
  have hg : Nat.gcd (n * 1000000000) d = d := by rw [hk]; exact Nat.gcd_mul_left_left _ _
  have hcast : castNs n d c = chk (c * k) := by
    unfold castNs
    rw [hg, hk, Nat.mul_div_cancel _ hd, Nat.div_self hd]
    cases chk (c * k) <;> simp
  rw [six_cast, hcast]
  split
  · rename_i h
    rw [if_neg]
    exact (chk_none _).1 h
  · rename_i r h
    obtain ⟨h1, rfl⟩ := (chk_iff _ _).1 h
    exact (if_pos h1).symm

/-- C109, partial. Whatever the period (`n / d` seconds), a comparison that is defined is exact when
the two times differ by a nanosecond or more. Missing: differences below, `C109_picoseconds_fails`. -/
theorem C109_chrono_partial (v : Int) (n d : Nat) (c : Int) (hd : 0 < d)
    (hdef : six v (.chrono n d c) ≠ undefined)
    (hfar : v * d + d ≤ c * n * 10 ^ 9 ∨ c * n * 10 ^ 9 + d ≤ v * d) :
    six v (.chrono n d c) = numbers (v * d) (c * n * 10 ^ 9) := by
  rw [six_cast] at hdef ⊢
  cases hc : castNs n d c with
  | none => rw [hc] at hdef; exact absurd rfl hdef
  | some r =>
    obtain ⟨_, hr⟩ := (chk_cast r).1 hc
    generalize hgd : Nat.gcd (n * 1000000000) d = g at hr
    have hgpos : 0 < g := by rw [← hgd]; exact Nat.gcd_pos_of_pos_right _ hd
    obtain ⟨N, hN⟩ : g ∣ n * 1000000000 := by rw [← hgd]; exact Nat.gcd_dvd_left _ _
    obtain ⟨D, hD⟩ : g ∣ d := by rw [← hgd]; exact Nat.gcd_dvd_right _ _
    rw [hN, Nat.mul_div_cancel_left _ hgpos] at hr
    rw [show d / g = D by rw [hD, Nat.mul_div_cancel_left _ hgpos]] at hr
    have hDpos : 0 < D := by
      rcases Nat.eq_zero_or_pos D with h | h
      · rw [h] at hD; omega
      · exact h
    have e1 : c * n * 10 ^ 9 = (c * N) * g := by
      have : ((n * 1000000000 : Nat) : Int) = ((g * N : Nat) : Int) := by rw [hN]
      rw [Int.natCast_mul, Int.natCast_mul] at this
      rw [Int.mul_assoc, show ((10 : Int) ^ 9) = ((1000000000 : Nat) : Int) by decide, this,
        Int.mul_comm (g : Int), ← Int.mul_assoc]
    have e2 : v * (d : Int) = (v * D) * g := by
      rw [hD, Int.natCast_mul, Int.mul_comm (g : Int), ← Int.mul_assoc]
    have e3 : (d : Int) = (D : Int) * g := by rw [hD, Int.natCast_mul, Int.mul_comm]
    have hg' : (0 : Int) < g := by omega
    have hD' : (0 : Int) < D := by omega
    have hfar' : v * D + D ≤ c * N ∨ c * N + D ≤ v * D := by
      rw [e1, e2, e3, ← Int.add_mul, ← Int.add_mul] at hfar
      exact hfar.imp (fun h => Int.le_of_mul_le_mul_right h hg')
        (fun h => Int.le_of_mul_le_mul_right h hg')
    have hlt : v < r ↔ v * D < c * N := by
      rw [hr]
      generalize c * (N : Int) = p at *
      have hb := Int.mul_tdiv_add_tmod p D
      have hm : (p.tmod D).natAbs < D := by
        rw [Int.natAbs_tmod]; exact Nat.mod_lt _ (by omega)
      have hm' : -(D : Int) < p.tmod D ∧ p.tmod D < D := by omega
      have hc' : (D : Int) * p.tdiv D = p.tdiv D * D := Int.mul_comm _ _
      constructor
      · intro h
        rcases hfar' with hf | hf
        · omega
        · exfalso
          have : (v + 1) * (D : Int) ≤ p.tdiv D * D := Int.mul_le_mul_of_nonneg_right (by omega) (by omega)
          rw [Int.add_mul] at this
          omega
      · intro h
        have hf : v * D + D ≤ p := by omega
        refine Int.lt_of_not_ge fun h' => ?_
        have : p.tdiv D * D ≤ v * (D : Int) := Int.mul_le_mul_of_nonneg_right h' (by omega)
        omega
    have hgt : r < v ↔ c * N < v * D := by
      rw [hr]
      generalize c * (N : Int) = p at *
      have hb := Int.mul_tdiv_add_tmod p D
      have hm : (p.tmod D).natAbs < D := by
        rw [Int.natAbs_tmod]; exact Nat.mod_lt _ (by omega)
      have hm' : -(D : Int) < p.tmod D ∧ p.tmod D < D := by omega
      have hc' : (D : Int) * p.tdiv D = p.tdiv D * D := Int.mul_comm _ _
      constructor
      · intro h
        rcases hfar' with hf | hf
        · exfalso
          have : (p.tdiv D + 1) * (D : Int) ≤ v * D := Int.mul_le_mul_of_nonneg_right (by omega) (by omega)
          rw [Int.add_mul] at this
          omega
        · omega
      · intro h
        have hf : p + D ≤ v * D := by omega
        refine Int.lt_of_not_ge fun h' => ?_
        have : v * (D : Int) ≤ p.tdiv D * D := Int.mul_le_mul_of_nonneg_right h' (by omega)
        omega
    have hlt' : v < r ↔ v * d < c * n * 10 ^ 9 := by
      rw [hlt, e1, e2]
      exact ⟨fun h => Int.mul_lt_mul_of_pos_right h hg', fun h => Int.lt_of_mul_lt_mul_right h (by omega)⟩
    have hgt' : r < v ↔ c * n * 10 ^ 9 < v * d := by
      rw [hgt, e1, e2]
      exact ⟨fun h => Int.mul_lt_mul_of_pos_right h hg', fun h => Int.lt_of_mul_lt_mul_right h (by omega)⟩
    generalize c * (n : Int) * 10 ^ 9 = q at *
    generalize v * (d : Int) = p at *
    have h1 : v = r ↔ p = q := by omega
    have h2 : v ≤ r ↔ p ≤ q := by omega
    have h3 : r ≤ v ↔ q ≤ p := by omega
    simp only [numbers, h1, hlt', hgt', h2, h3, ne_eq]

/-- C109. A literal is the number of nanoseconds of its unit; for the units above the nanosecond, and
numbers below `2 ^ 63`, it is undefined when that is not a 64-bit number. -/
theorem C109_literals (k : Nat) (hk : k < 2 ^ 63) :
    litNs k = k ∧ litUs k = chk (k * 10 ^ 3) ∧ litMs k = chk (k * 10 ^ 6) ∧
    litS k = chk (k * 10 ^ 9) ∧ litMn k = chk (k * (60 * 10 ^ 9)) ∧
    litH k = chk (k * (3600 * 10 ^ 9)) ∧ litD k = chk (k * (86400 * 10 ^ 9)) ∧
    litW k = chk (k * (7 * 86400 * 10 ^ 9)) := by
  have e : wrap .i64 (k : Int) = k := wrap_eq (by
    simp only [ITy.Range, ITy.kind, Kind.Range]; omega)
  have u1 : litNs 1000 = 10 ^ 3 := by decide
  have u2 : litUs 1000 = some (10 ^ 6) := by decide
  have u3 : litMs 1000 = some (10 ^ 9) := by decide
  have u4 : litS 60 = some (60 * 10 ^ 9) := by decide
  have u5 : litMn 60 = some (3600 * 10 ^ 9) := by decide
  have u6 : litH 24 = some (86400 * 10 ^ 9) := by decide
  have u7 : litD 7 = some (7 * 86400 * 10 ^ 9) := by decide
  refine ⟨e, ?_, ?_, ?_, ?_, ?_, ?_, ?_⟩
  · unfold litUs; rw [e, u1]
  · unfold litMs; rw [e, u2, Option.bind_some]
  · unfold litS; rw [e, u3, Option.bind_some]
  · unfold litMn; rw [e, u4, Option.bind_some]
  · unfold litH; rw [e, u5, Option.bind_some]
  · unfold litD; rw [e, u6, Option.bind_some]
  · unfold litW; rw [e, u7, Option.bind_some]

/-! ### What is false -/

/-- C109 fails: a duration of -1 ns is greater than the `UInt64` 1. -/
theorem C109_unsigned_fails : six (-1) (.int .u64 1) = numbers 1 0 := by decide

/-- C109 fails: a duration of 0 ns is equal to 500 ps, and not less. -/
theorem C109_picoseconds_fails : six 0 (.chrono 1 1000000000000 500) = numbers 0 0 := by decide

/-- C109 fails: the comparison with `hours::max()` is undefined. (2562048 hours are enough.) -/
theorem C109_hours_fails (v : Int) : six v (.chrono 3600 1 2562048) = undefined ∧
    six v (.chrono 3600 1 (2 ^ 63 - 1)) = undefined := by
  refine ⟨?_, ?_⟩ <;> rw [C109_chrono v 3600000000000 3600 1 _ (by decide) rfl, if_neg (by decide)]

/-- C109 fails: a duration is `<=` and `>=` what is not a number, and neither less, equal nor
greater. -/
theorem C109_nan_fails (v : Int) :
    six v .nan = [false, true, false, false, true, true].map some := rfl

/-- C109 fails: the literal `9223372036854775808_ns` is negative. -/
theorem C109_literal_fails : litNs (2 ^ 63) = -2 ^ 63 := by decide

/-! ### Cases -/

example : six 1500 (.chrono 1 1000000 2) = numbers 1500 2000 := by decide

/-- 2 ns and 700 ps: more than a nanosecond apart. -/
example : six 2 (.chrono 1 1000000000000 700) =
    numbers (2 * 1000000000000) (700 * 10 ^ 9) :=
  C109_chrono_partial 2 1 1000000000000 700 (by decide) (by decide) (.inr (by decide))

example : six (-5) (.int .u32 4294967295) = numbers (-5) 4294967295 :=
  C109_integers_partial _ _ _ (by unfold I64; omega) ((ITy.range_iff _ _).2 (by decide)) (.inl (by decide))

example : litW 2 = some 1209600000000000 := by decide

end Verif.Chrono.Compare
