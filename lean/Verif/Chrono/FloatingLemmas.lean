import Verif.Mem.FloatProps
import Verif.Chrono.Floating

/-! Lemmas for `FloatingProps.lean`: integers in the formats, the error of rounding. -/
namespace Verif.Chrono.Floating
open Verif.Any (Fl)
open Verif.Float
open Verif.Sched.Pacing (ltD castD i64)

theorem ok (k : Kind) : k.fmt.Ok := by cases k; exact ok32; exact ok64

theorem absR_le {x b : Rat} (h : absR x ≤ b) : x ≤ b ∧ -b ≤ x := by
  unfold absR at h; grind

theorem absR_of {x b : Rat} (h1 : x ≤ b) (h2 : -b ≤ x) : absR x ≤ b := by
  unfold absR; grind

theorem div_nonneg {a b : Rat} (ha : 0 ≤ a) (hb : 0 < b) : 0 ≤ a / b := by
  rw [Rat.div_def]; exact Rat.mul_nonneg ha (Rat.le_of_lt (Rat.inv_pos.2 hb))

theorem half {f : Fmt} (hf : f.Ok) {y : Rat} (hy : 0 ≤ y) :
    absR (y - f.units y) ≤ y / ((2 ^ f.p : Nat) : Rat) + 1 / 2 ∧
    (((2 ^ f.p : Nat) : Rat) ≤ y → absR (y - f.units y) ≤ y / ((2 ^ f.p : Nat) : Rat)) := by
  obtain ⟨k, z, hu, hz, hzl, hyl, hyu, hn, -⟩ := units_parts hf hy
  rw [hu]
  have hg : (0 : Rat) < ((2 ^ k : Nat) : Rat) := two_pow_pos' _
  have hp : (0 : Rat) < ((2 ^ f.p : Nat) : Rat) := two_pow_pos' _
  obtain ⟨m, hm⟩ : ∃ m : Nat, (y / ((2 ^ k : Nat) : Rat)).floor = m := by
    have : 0 ≤ (y / ((2 ^ k : Nat) : Rat)).floor := by
      rw [Rat.le_floor_iff]
      exact div_nonneg hy hg
    exact ⟨_, (Int.toNat_of_nonneg this).symm⟩
  have h1 : ((m : Nat) : Rat) ≤ y / ((2 ^ k : Nat) : Rat) := by
    have := Rat.floor_le (a := y / ((2 ^ k : Nat) : Rat))
    rw [hm] at this; exact_mod_cast this
  have h2 : y / ((2 ^ k : Nat) : Rat) < ((m : Nat) : Rat) + 1 := by
    have := Rat.lt_floor_add_one (y / ((2 ^ k : Nat) : Rat))
    rw [hm] at this; exact_mod_cast this
  have e : y / ((2 ^ k : Nat) : Rat) * ((2 ^ k : Nat) : Rat) = y := by grind
  have h1' : ((m * 2 ^ k : Nat) : Rat) ≤ y := by
    have := Rat.mul_le_mul_of_nonneg_right h1 (Rat.le_of_lt hg)
    rw [e] at this; exact_mod_cast this
  have h2' : y ≤ (((m + 1) * 2 ^ k : Nat) : Rat) := by
    have := Rat.mul_le_mul_of_nonneg_right (Rat.le_of_lt h2) (Rat.le_of_lt hg)
    rw [e] at this; exact_mod_cast this
  have a1 := hn m
  have a2 := hn (m + 1)
  have d : (((m + 1) * 2 ^ k : Nat) : Rat) = ((m * 2 ^ k : Nat) : Rat) + ((2 ^ k : Nat) : Rat) := by
    rw [Nat.add_mul, Nat.one_mul]; exact_mod_cast rfl
  have b : absR (y - (z * 2 ^ k : Nat)) ≤ ((2 ^ k : Nat) : Rat) / 2 := by
    rw [d] at h2' a2
    generalize ((m * 2 ^ k : Nat) : Rat) = M at *
    generalize ((2 ^ k : Nat) : Rat) = g at *
    generalize absR (y - ((z * 2 ^ k : Nat) : Rat)) = w at *
    unfold absR at a1 a2
    grind
  by_cases hk : k = 0
  · subst hk
    have : 0 ≤ y / ((2 ^ f.p : Nat) : Rat) := div_nonneg hy hp
    simp only [Nat.pow_zero, Nat.add_zero] at b hyu ⊢
    refine ⟨by grind, fun h => ?_⟩
    exact absurd h (Rat.not_le.2 hyu)
  · have c := hyl hk
    have : (2 : Nat) ^ (f.p - 1 + k) * 2 = 2 ^ f.p * 2 ^ k := by
      rw [← Nat.pow_succ, ← Nat.pow_add]; congr 1; have := hf.1; omega
    have c2 : ((2 ^ (f.p - 1 + k) : Nat) : Rat) * 2 = ((2 ^ f.p : Nat) : Rat) * ((2 ^ k : Nat) : Rat) := by
      exact_mod_cast this
    have : ((2 ^ k : Nat) : Rat) / 2 ≤ y / ((2 ^ f.p : Nat) : Rat) := by
      have e : y / ((2 ^ f.p : Nat) : Rat) * ((2 ^ f.p : Nat) : Rat) = y := by grind
      refine Rat.le_of_mul_le_mul_right ?_ hp
      rw [e]
      grind
    exact ⟨by grind, fun _ => by grind⟩

/-- Rounding changes a number by at most half a unit of its last place. -/
theorem round_err {f : Fmt} (hf : f.Ok) {q r : Rat} (h : f.round q = .fin r) :
    absR (q - r) ≤ absR q / ((2 ^ f.p : Nat) : Rat) + 1 / ((2 ^ (f.scale + 1) : Nat) : Rat) ∧
    (((2 ^ f.p : Nat) : Rat) ≤ absR q → absR (q - r) ≤ absR q / ((2 ^ f.p : Nat) : Rat)) := by
  have hS : (0 : Rat) < ((2 ^ f.scale : Nat) : Rat) := two_pow_pos' _
  have hP : (0 : Rat) < ((2 ^ f.p : Nat) : Rat) := two_pow_pos' _
  have hx := half hf (scaled_nonneg f q)
  rw [round_eq] at h
  split at h
  · cases h
  · injection h with h
    have hd := dist_val f q (decide (q < 0)) (f.units (absR q * ((2 ^ f.scale : Nat) : Rat)))
    rw [if_pos rfl, h] at hd
    rw [← hd] at hx
    have e2 : ((2 ^ (f.scale + 1) : Nat) : Rat) = ((2 ^ f.scale : Nat) : Rat) * 2 := by
      rw [Nat.pow_succ]; exact_mod_cast rfl
    have h1 : (1 : Nat) ≤ 2 ^ f.scale := Nat.one_le_two_pow
    have h1' : (1 : Rat) ≤ ((2 ^ f.scale : Nat) : Rat) := by exact_mod_cast h1
    rw [e2]
    have ha := absR_nonneg q
    generalize absR (q - r) = D at *
    generalize absR q = A at *
    generalize ((2 ^ f.scale : Nat) : Rat) = S at *
    generalize ((2 ^ f.p : Nat) : Rat) = P at *
    have e3 : A * S / P = A / P * S := by grind
    rw [e3] at hx
    refine ⟨?_, fun hl => ?_⟩
    · refine Rat.le_of_mul_le_mul_right ?_ hS
      have e4 : 1 / (S * 2) * S = 1 / 2 := by grind
      rw [Rat.add_mul, e4]; exact hx.1
    · refine Rat.le_of_mul_le_mul_right (hx.2 ?_) hS
      have := Rat.mul_le_mul_of_nonneg_left h1' ha
      grind

theorem round_ge {f : Fmt} (hf : f.Ok) {q r n : Rat} (hr : f.round q = .fin r) (hn : f.Has (.fin n))
    (h : n ≤ q) : n ≤ r := by
  have := round_nearest hf hr hn
  unfold absR at this; grind

theorem round_le {f : Fmt} (hf : f.Ok) {q r n : Rat} (hr : f.round q = .fin r) (hn : f.Has (.fin n))
    (h : q ≤ n) : r ≤ n := by
  have := round_nearest hf hr hn
  unfold absR at this; grind

theorem limit (k : Kind) : (2 : Rat) ^ 80 * ((2 ^ k.fmt.scale : Nat) : Rat) <
    (((2 ^ (k.fmt.p + 1) - 1) * 2 ^ k.fmt.top : Nat) : Rat) := by
  cases k <;> decide +kernel

theorem round_fin (k : Kind) {q : Rat} (h : absR q ≤ 2 ^ 70) : ∃ r, k.fmt.round q = .fin r := by
  cases e : k.fmt.round q with
  | fin r => exact ⟨r, rfl⟩
  | nan => exact absurd e (round_ne_nan _ _)
  | inf b =>
    exfalso
    have h2 := (round_inf (ok k) e).2
    have hl := limit k
    have hS : (0 : Rat) < ((2 ^ k.fmt.scale : Nat) : Rat) := two_pow_pos' _
    generalize (((2 ^ (k.fmt.p + 1) - 1) * 2 ^ k.fmt.top : Nat) : Rat) = L at *
    generalize ((2 ^ k.fmt.scale : Nat) : Rat) = S at *
    have := Rat.mul_le_mul_of_nonneg_right h (Rat.le_of_lt hS)
    grind

/-- The integers of up to `p` bits are numbers of the format. -/
theorem has_int (k : Kind) {v : Int} (h : v.natAbs ≤ 2 ^ k.fmt.p) : k.fmt.Has (.fin (v : Rat)) := by
  have key : ∀ (p : Nat) (lo hi : Int), 1 ≤ p → lo ≤ 0 → 1 ≤ hi → v.natAbs ≤ 2 ^ p →
      Num p lo hi (v : Rat) := by
    intro p lo hi hp hlo hhi h
    have sg : ∀ x : Rat, ((v.natAbs : Nat) : Rat) = x → (v : Rat) = x ∨ (v : Rat) = -x := by
      intro x hx
      rcases Int.natAbs_eq v with e | e
      · left; rw [e, ← hx]; rfl
      · right
        have := congrArg (fun z : Int => (z : Rat)) e
        rw [← hx, this, Rat.intCast_neg]; rfl
    by_cases e : v.natAbs = 2 ^ p
    · refine ⟨2 ^ (p - 1), 1, ?_, by omega, by omega, sg _ ?_⟩
      · exact Nat.pow_lt_pow_right (by omega) (by omega)
      · rw [e, show (1 : Int) = ((1 : Nat) : Int) from rfl, Rat.zpow_natCast, Rat.pow_succ,
          Rat.pow_zero, Rat.one_mul]
        have : (2 : Nat) ^ p = 2 ^ (p - 1) * 2 := by rw [← Nat.pow_succ]; congr 1; omega
        rw [this]; exact_mod_cast rfl
    · refine ⟨v.natAbs, 0, by omega, hlo, by omega, sg _ ?_⟩
      rw [show (0 : Int) = ((0 : Nat) : Int) from rfl, Rat.zpow_natCast, Rat.pow_zero, Rat.mul_one]
  cases k
  · exact (float32_iff _).1 (key 24 _ _ (by decide) (by decide) (by decide) h)
  · exact (float64_iff _).1 (key 53 _ _ (by decide) (by decide) (by decide) h)

theorem has_pow (k : Kind) (j : Nat) (h : j ≤ 63) (neg : Bool) :
    k.fmt.Has (.fin (if neg then -((2 ^ j : Nat) : Rat) else ((2 ^ j : Nat) : Rat))) := by
  have : ((1 : Nat) : Rat) * (2 : Rat) ^ (j : Int) = ((2 ^ j : Nat) : Rat) := by
    rw [Rat.zpow_natCast]; push_cast; exact Rat.one_mul _
  cases k
  · refine (float32_iff _).1 ⟨1, j, by decide, by omega, by omega, ?_⟩
    rw [this]; cases neg <;> simp
  · refine (float64_iff _).1 ⟨1, j, by decide, by omega, by omega, ?_⟩
    rw [this]; cases neg <;> simp

theorem lt_floor (q : Rat) : q < (q.floor : Rat) + 1 := by
  have := Rat.lt_floor_add_one q
  rw [Rat.intCast_add] at this; exact this

/-- The whole part. -/
theorem castD_iff (q : Rat) (n : Int) : castD (.fin q) = some n ↔
    (-2 ^ 63 ≤ n ∧ n < 2 ^ 63) ∧
      ((0 ≤ q → (n : Rat) ≤ q ∧ q < n + 1) ∧ (q < 0 → q ≤ n ∧ (n : Rat) - 1 < q)) := by
  have key : ∀ m : Int, ((0 ≤ q → (m : Rat) ≤ q ∧ q < m + 1) ∧ (q < 0 → q ≤ m ∧ (m : Rat) - 1 < q)) ↔
      (if q < 0 then -(-q).floor else q.floor) = m := by
    intro m
    by_cases h : q < 0
    · have h0 : ¬ 0 ≤ q := Rat.not_le.2 h
      rw [if_pos h]
      simp only [h0, h, false_implies, true_implies, true_and]
      constructor
      · rintro ⟨h1, h2⟩
        have : (-q).floor = -m := by
          have a : -m ≤ (-q).floor := Rat.le_floor_iff.2 (by push_cast; grind)
          have b : (-q).floor < -m + 1 := by
            have := Rat.floor_le (-q)
            have : (((-q).floor : Int) : Rat) < ((-m + 1 : Int) : Rat) := by push_cast; grind
            exact_mod_cast this
          omega
        omega
      · rintro rfl
        have h1 := Rat.floor_le (-q)
        have h2 := Rat.lt_floor_add_one (-q)
        push_cast
        grind
    · have h0 : 0 ≤ q := Rat.not_lt.1 h
      rw [if_neg h]
      simp only [h0, h, false_implies, true_implies, and_true]
      constructor
      · rintro ⟨h1, h2⟩
        have a : m ≤ q.floor := Rat.le_floor_iff.2 h1
        have b : q.floor < m + 1 := by
          have := Rat.floor_le q
          have : ((q.floor : Int) : Rat) < ((m + 1 : Int) : Rat) := by push_cast; grind
          exact_mod_cast this
        omega
      · rintro rfl
        exact ⟨Rat.floor_le q, lt_floor q⟩
  rw [key]
  unfold castD i64
  dsimp only
  generalize (if q < 0 then -(-q).floor else q.floor) = m
  constructor
  · intro h
    split at h
    · rename_i hm; cases h; exact ⟨hm, rfl⟩
    · cases h
  · rintro ⟨h1, rfl⟩
    rw [if_pos h1]

/-- A number of less than 63 bits has a whole part. -/
theorem castD_some {q : Rat} (h : absR q ≤ 2 ^ 62) : ∃ n : Int, castD (.fin q) = some n ∧
    absR ((n : Rat) - q) < 1 := by
  have e : ∃ n : Int, (if q < 0 then -(-q).floor else q.floor) = n := ⟨_, rfl⟩
  obtain ⟨n, hn⟩ := e
  obtain ⟨a, b⟩ := absR_le h
  have hb : (n : Rat) ≤ 2 ^ 62 ∧ -(2 ^ 62 : Rat) ≤ n ∧ absR ((n : Rat) - q) < 1 := by
    have := Rat.floor_le q
    have := Rat.floor_le (-q)
    have := lt_floor q
    have := lt_floor (-q)
    by_cases h0 : q < 0
    · rw [if_pos h0] at hn
      have e : (n : Rat) = -(((-q).floor : Int) : Rat) := by rw [← hn]; push_cast; rfl
      have h3 : 0 ≤ (-q).floor := Rat.le_floor_iff.2 (by push_cast; grind)
      have h3' : (0 : Rat) ≤ (((-q).floor : Int) : Rat) := by exact_mod_cast h3
      rw [e]
      generalize (((-q).floor : Int) : Rat) = z at *
      generalize (2 ^ 62 : Rat) = B at *
      unfold absR
      refine ⟨?_, ?_, ?_⟩ <;> grind
    · rw [if_neg h0] at hn
      rw [← hn]
      have h3 : 0 ≤ q.floor := Rat.le_floor_iff.2 (by push_cast; grind)
      have h3' : (0 : Rat) ≤ ((q.floor : Int) : Rat) := by exact_mod_cast h3
      generalize ((q.floor : Int) : Rat) = z at *
      generalize (2 ^ 62 : Rat) = B at *
      unfold absR
      refine ⟨?_, ?_, ?_⟩ <;> grind
  have e1 : (2 ^ 62 : Rat) = ((2 ^ 62 : Int) : Rat) := by push_cast; rfl
  have e2 : -(2 ^ 62 : Rat) = ((-2 ^ 62 : Int) : Rat) := by push_cast; rfl
  have h1 : n ≤ 2 ^ 62 := by have := hb.1; rw [e1] at this; exact_mod_cast this
  have h2 : -2 ^ 62 ≤ n := by have := hb.2.1; rw [e2] at this; exact_mod_cast this
  refine ⟨n, ?_, hb.2.2⟩
  unfold castD i64
  dsimp only
  rw [hn, if_pos (by omega)]

theorem conv_small (k : Kind) {v : Int} (h : v.natAbs ≤ 2 ^ k.fmt.p) : conv k v = .fin (v : Rat) :=
  round_self (ok k) (has_int k h)

theorem absR_int (v : Int) : absR (v : Rat) = ((v.natAbs : Nat) : Rat) := by
  unfold absR
  split
  · rename_i h
    have : v < 0 := by exact_mod_cast h
    have e : ((v.natAbs : Nat) : Int) = -v := by omega
    have : (((v.natAbs : Nat) : Int) : Rat) = ((-v : Int) : Rat) := by rw [e]
    rw [Rat.intCast_neg] at this
    exact this.symm
  · rename_i h
    have : ¬ v < 0 := by intro hh; apply h; exact_mod_cast hh
    have e : ((v.natAbs : Nat) : Int) = v := by omega
    have : (((v.natAbs : Nat) : Int) : Rat) = (v : Rat) := by rw [e]
    exact this.symm

theorem conv_fin (k : Kind) {v : Int} (h1 : -2 ^ 63 ≤ v) (h2 : v < 2 ^ 63) :
    ∃ r, conv k v = .fin r ∧ absR ((v : Rat) - r) ≤ absR v / ((2 ^ k.fmt.p : Nat) : Rat) := by
  have hv : absR (v : Rat) ≤ 2 ^ 70 := by
    rw [absR_int]
    have : v.natAbs ≤ 2 ^ 70 := by omega
    have : ((v.natAbs : Nat) : Rat) ≤ ((2 ^ 70 : Nat) : Rat) := by exact_mod_cast this
    exact Rat.le_trans this (by decide +kernel)
  obtain ⟨r, hr⟩ := round_fin k hv
  refine ⟨r, hr, ?_⟩
  by_cases hs : v.natAbs ≤ 2 ^ k.fmt.p
  · have := conv_small k hs
    unfold conv at this
    rw [hr] at this
    injection this with this
    subst this
    have e : absR ((v : Rat) - v) = 0 := by
      have : (v : Rat) - v = 0 := by grind
      rw [this]; decide
    rw [e]
    exact div_nonneg (absR_nonneg _) (two_pow_pos' _)
  · refine (round_err (ok k) hr).2 ?_
    rw [absR_int]
    have : 2 ^ k.fmt.p ≤ v.natAbs := by omega
    exact_mod_cast this

/-- Rounding to the format and cutting off the fraction. -/
theorem cast_round (k : Kind) {e : Rat} (h : absR e ≤ 2 ^ 62) : ∃ n : Int,
    castD (k.fmt.round e) = some n ∧
      absR ((n : Rat) - e) < 1 + absR e / ((2 ^ k.fmt.p : Nat) : Rat) + 1 / 2 ^ 149 := by
  have hle : absR e ≤ 2 ^ 70 := Rat.le_trans h (by decide +kernel)
  obtain ⟨r, hr⟩ := round_fin k hle
  have he := (round_err (ok k) hr).1
  obtain ⟨a, b⟩ := absR_le h
  have h62 : ((2 ^ 62 : Nat) : Rat) = 2 ^ 62 := by decide +kernel
  have r1 : r ≤ 2 ^ 62 := by
    have := has_pow k 62 (by decide) false
    simp only [Bool.false_eq_true, if_false, h62] at this
    exact round_le (ok k) hr this a
  have r2 : -(2 ^ 62) ≤ r := by
    have := has_pow k 62 (by decide) true
    simp only [if_true, h62] at this
    exact round_ge (ok k) hr this b
  obtain ⟨n, hn, hc⟩ := castD_some (absR_of r1 r2)
  refine ⟨n, by rw [hr]; exact hn, ?_⟩
  have ht : 1 / ((2 ^ (k.fmt.scale + 1) : Nat) : Rat) ≤ 1 / 2 ^ 149 := by cases k <;> decide +kernel
  generalize absR e / ((2 ^ k.fmt.p : Nat) : Rat) = A at *
  generalize 1 / ((2 ^ (k.fmt.scale + 1) : Nat) : Rat) = T at *
  generalize (1 : Rat) / 2 ^ 149 = T2 at *
  clear h hle a b r1 r2 h62
  unfold absR at *
  grind

end Verif.Chrono.Floating
