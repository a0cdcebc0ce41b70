import Verif.Mem.FloatLemmas
import Verif.Any.Props

/-!
C82 with the rounding of the hardware: what a double becomes in a `Float32` AnySimple.

`Float32` says in terms of numbers which values a float has; the rounding of `Float.narrow` is
characterised by it (`C82_rounding`), so that a reader need not trust its definition.
-/
namespace Verif.Float
open Verif.Any

/-- `q` is a finite number with at most `p` significant bits, `± m 2^e` with `emin ≤ e ≤ emax`. -/
def Num (p : Nat) (emin emax : Int) (q : Rat) : Prop :=
  ∃ (m : Nat) (e : Int), m < 2 ^ p ∧ emin ≤ e ∧ e ≤ emax ∧
    (q = (m : Rat) * (2 : Rat) ^ e ∨ q = -((m : Rat) * (2 : Rat) ^ e))

/-- The finite numbers of `Smp::Float32` (IEEE 754 binary32). -/
def Float32 : Rat → Prop := Num 24 (-149) 104

/-- The finite numbers of `Smp::Float64` (IEEE 754 binary64). -/
def Float64 : Rat → Prop := Num 53 (-1074) 971

/-- `|x|`. -/
def Abs (x : Rat) : Rat := if x < 0 then -x else x

theorem zpow_nat (k s : Nat) : (2 : Rat) ^ ((k : Int) - (s : Int)) =
    ((2 ^ k : Nat) : Rat) / ((2 ^ s : Nat) : Rat) := by
  rw [Int.sub_eq_add_neg, Rat.zpow_add (by decide), Rat.zpow_neg, ← Rat.div_def, Rat.zpow_natCast,
    Rat.zpow_natCast]
  push_cast; rfl

theorem num_iff (f : Fmt) (q : Rat) :
    Num f.p (-f.scale) (f.top - f.scale) q ↔ f.Has (.fin q) := by
  have key : ∀ m k : Nat, (m : Rat) * (2 : Rat) ^ ((k : Int) - (f.scale : Int)) =
      ((m * 2 ^ k : Nat) : Rat) / ((2 ^ f.scale : Nat) : Rat) := by
    intro m k
    rw [zpow_nat, Rat.div_def, Rat.div_def, ← Rat.mul_assoc]
    push_cast; rfl
  constructor
  · rintro ⟨m, e, hm, he1, he2, hq⟩
    obtain ⟨k, hk⟩ : ∃ k : Nat, e = (k : Int) - (f.scale : Int) := ⟨(e + f.scale).toNat, by omega⟩
    subst hk
    rw [key] at hq
    rcases hq with hq | hq
    · exact ⟨false, m * 2 ^ k, ⟨m, k, hm, by omega, rfl⟩, by rw [hq]; simp [Fmt.val, Rat.one_mul]⟩
    · exact ⟨true, m * 2 ^ k, ⟨m, k, hm, by omega, rfl⟩, by
        rw [hq]; simp only [Fmt.val, if_true]; rw [Rat.neg_mul, Rat.one_mul]⟩
  · rintro ⟨neg, N, ⟨m, k, hm, hk, rfl⟩, rfl⟩
    refine ⟨m, (k : Int) - (f.scale : Int), hm, by omega, by omega, ?_⟩
    rw [key]
    cases neg
    · left; simp [Fmt.val, Rat.one_mul]
    · right; simp only [Fmt.val, if_true]; rw [Rat.neg_mul, Rat.one_mul]

theorem float32_iff (q : Rat) : Float32 q ↔ f32.Has (.fin q) := num_iff f32 q
theorem float64_iff (q : Rat) : Float64 q ↔ f64.Has (.fin q) := num_iff f64 q

theorem limit32 : (((2 ^ (f32.p + 1) - 1) * 2 ^ f32.top : Nat) : Rat) =
    2 * ((2 ^ 128 - 2 ^ 103 : Rat) * ((2 ^ f32.scale : Nat) : Rat)) := by decide +kernel

theorem round_ne_nan (f : Fmt) (q : Rat) : f.round q ≠ .nan := by
  rw [round_eq]; split <;> simp

theorem float32_le {s : Rat} (h : Float32 s) : Abs s ≤ (2 ^ 128 - 2 ^ 104 : Rat) := by
  obtain ⟨neg, N, hN, rfl⟩ := (float32_iff s).1 h
  have hv := absR_val f32 neg N
  have : N ≤ (2 ^ 24 - 1) * 2 ^ 253 := by
    obtain ⟨m, k, hm, hk, rfl⟩ := hN
    have hm' : m ≤ 2 ^ 24 - 1 := by
      have : f32.p = 24 := rfl
      rw [this] at hm; omega
    exact Nat.mul_le_mul hm' (Nat.pow_le_pow_right (by omega) hk)
  have h2 : (N : Rat) ≤ (((2 ^ 24 - 1) * 2 ^ 253 : Nat) : Rat) := by exact_mod_cast this
  rw [show (((2 ^ 24 - 1) * 2 ^ 253 : Nat) : Rat) = (2 ^ 128 - 2 ^ 104 : Rat) * ((2 ^ f32.scale : Nat) : Rat)
    by decide +kernel, ← hv] at h2
  exact mul_le_cancel (two_pow_pos' _) h2

theorem close_eq {q r : Rat} (hq : Float64 q) (hr : Float32 r) (h2 : (2 : Rat) ≤ Abs q)
    (h : Abs (q - r) ≤ (1 : Rat) / 2 ^ 52) : q = r := by
  have hr1 : (1 : Rat) ≤ absR r := by
    have : (1 : Rat) / 2 ^ 52 ≤ 1 := by decide +kernel
    generalize (1 : Rat) / 2 ^ 52 = d at *
    unfold Abs at *; unfold absR
    grind
  obtain ⟨x, hx⟩ := Has.int ok64 ((float64_iff q).1 hq) 1023 (by decide) (by
    have := Rat.mul_le_mul_of_nonneg_right h2 (Rat.le_of_lt (two_pow_pos' f64.scale))
    refine Rat.le_trans ?_ this
    decide +kernel)
  obtain ⟨y, hy⟩ := Has.int ok32 ((float32_iff r).1 hr) 126 (by decide) (by
    have := Rat.mul_le_mul_of_nonneg_right hr1 (Rat.le_of_lt (two_pow_pos' f32.scale))
    refine Rat.le_trans ?_ this
    decide +kernel)
  rw [show ((2 ^ (f64.scale - 1023) : Nat) : Rat) = (2 ^ 51 : Rat) by decide +kernel] at hx
  rw [show ((2 ^ (f32.scale - 126) : Nat) : Rat) = (2 ^ 23 : Rat) by decide +kernel] at hy
  have hd : (q - r) * (2 ^ 51 : Rat) = ((x - y * 2 ^ 28 : Int) : Rat) := by
    rw [sub_mul', hx, show (2 ^ 51 : Rat) = 2 ^ 23 * 2 ^ 28 by decide +kernel, ← Rat.mul_assoc, hy]
    push_cast; rfl
  have hb := Rat.mul_le_mul_of_nonneg_right h (show (0 : Rat) ≤ 2 ^ 51 by decide +kernel)
  change absR (q - r) * _ ≤ _ at hb
  rw [absR_mul _ _ (by decide +kernel), hd, show (1 : Rat) / 2 ^ 52 * 2 ^ 51 = 1 / 2 by decide +kernel] at hb
  generalize x - y * 2 ^ 28 = z at *
  have hz : z = 0 := by
    have h3 : ((z : Int) : Rat) < ((1 : Int) : Rat) := by
      have : ((1 : Int) : Rat) = 1 := rfl
      rw [this]
      have : (1 : Rat) / 2 < 1 := by decide +kernel
      generalize (1 : Rat) / 2 = d at *
      unfold absR at hb; grind
    have h4 : ((-1 : Int) : Rat) < ((z : Int) : Rat) := by
      have : ((-1 : Int) : Rat) = -1 := rfl
      rw [this]
      have : (1 : Rat) / 2 < 1 := by decide +kernel
      generalize (1 : Rat) / 2 = d at *
      unfold absR at hb; grind
    have h3' : z < 1 := by exact_mod_cast h3
    have h4' : -1 < z := by exact_mod_cast h4
    omega
  rw [hz] at hd
  have h5 : q - r = 0 := Rat.le_antisymm
    (mul_le_cancel (S := 2 ^ 51) (by decide +kernel) (by rw [hd, Rat.zero_mul]; exact Rat.le_refl))
    (mul_le_cancel (S := 2 ^ 51) (by decide +kernel) (by rw [hd, Rat.zero_mul]; exact Rat.le_refl))
  grind

/-- C82. The float that a finite double becomes: a nearest one, among two nearest ones that with
an even bit pattern, an infinity of its sign beyond the middle between the largest float and
2^128. -/
theorem C82_rounding (q : Rat) :
    (∀ r, narrow (.fin q) = .fin r → Float32 r ∧ (∀ s, Float32 s → Abs (q - r) ≤ Abs (q - s)) ∧
      ∀ s, Float32 s → s ≠ r → Abs (q - s) = Abs (q - r) → f32.encode (.fin r) % 2 = 0) ∧
    ((2 ^ 128 - 2 ^ 103 : Rat) < Abs q → narrow (.fin q) = .inf (decide (q < 0))) ∧
    (Abs q < (2 ^ 128 - 2 ^ 103 : Rat) → ∃ r, narrow (.fin q) = .fin r) := by
  refine ⟨fun r hr => ⟨?_, ?_, ?_⟩, ?_, ?_⟩
  · have := round_has ok32 q
    rw [float32_iff]
    rw [show narrow (.fin q) = f32.round q from rfl] at hr
    rwa [hr] at this
  · intro s hs
    exact round_nearest ok32 hr ((float32_iff s).1 hs)
  · intro s hs hne he
    exact round_even ok32 hr ((float32_iff s).1 hs) hne he.symm
  · intro h
    refine round_over ok32 ?_
    have hm := Rat.mul_lt_mul_of_pos_right h (two_pow_pos' f32.scale)
    rw [limit32]
    change _ < 2 * (Abs q * _)
    grind
  · intro h
    cases hn : narrow (.fin q) with
    | fin r => exact ⟨r, rfl⟩
    | nan => exact absurd hn (round_ne_nan f32 q)
    | inf b =>
      exfalso
      have := (round_inf ok32 hn).2
      have hm := Rat.mul_lt_mul_of_pos_right h (two_pow_pos' f32.scale)
      rw [limit32] at this
      change _ ≤ 2 * (Abs q * _) at this
      grind

-- The hypotheses are met: 1 + 2^-30 becomes 1, 1 + 2^-24 lies in the middle of 1 and 1 + 2^-23 and
-- becomes 1, 2^128 is out of range.
example : narrow (.fin (1 + 1 / 2 ^ 30)) = .fin 1 := by decide +kernel
example : narrow (.fin (1 + 1 / 2 ^ 24)) = .fin 1 := by decide +kernel
example : narrow (.fin (1 + 3 / 2 ^ 24)) = .fin (1 + 1 / 2 ^ 22) := by decide +kernel
example : narrow (.fin (-(2 ^ 128))) = .inf true := by decide +kernel
example : narrow (.fin (1 / 2 ^ 149)) = .fin (1 / 2 ^ 149) := by decide +kernel

/-- C82. What is accepted: the double `q` is stored in a `Float32` AnySimple, or read as a float,
exactly when a float `r` with `|q - r| ≤ 2^-52` is nearest to it, and `r` is the result; the
double is refused otherwise. Partial: the claim is that nothing is lost. -/
theorem C82_nearest_partial (a : Any) (q : Rat) :
    (∃ r, Float32 r ∧ (∀ s, Float32 s → Abs (q - r) ≤ Abs (q - s)) ∧
      Abs (q - r) ≤ (1 : Rat) / 2 ^ 52 ∧
      setValue narrow a .Float32 (.f64 (.fin q)) = .ok (⟨.Float32, .float (.fin r)⟩, false) ∧
      getF32 narrow ⟨.Float64, .float (.fin q)⟩ = .ok (.fin r)) ∨
    ((∀ r, Float32 r → (1 : Rat) / 2 ^ 52 < Abs (q - r)) ∧
      (∃ a', setValue narrow a .Float32 (.f64 (.fin q)) = .ok (a', true)) ∧
      getF32 narrow ⟨.Float64, .float (.fin q)⟩ = .throw) := by
  have hR := C82_rounding q
  have hP := C82_partial narrow a q
  have eW : ∀ r, Within ((1 : Rat) / 4503599627370496) q r ↔ Abs (q - r) ≤ (1 : Rat) / 2 ^ 52 := by
    intro r
    rw [show (1 : Rat) / 2 ^ 52 = (1 : Rat) / 4503599627370496 by decide +kernel]
    unfold Within Abs
    generalize (1 : Rat) / 4503599627370496 = d
    split <;> grind
  cases hn : narrow (.fin q) with
  | nan => exact absurd hn (round_ne_nan f32 q)
  | fin r =>
    obtain ⟨h1, h2, -⟩ := hR.1 r hn
    by_cases hw : Abs (q - r) ≤ (1 : Rat) / 2 ^ 52
    · exact .inl ⟨r, h1, h2, hw, hP.1 r hn ((eW r).2 hw)⟩
    · refine .inr ⟨fun s hs => ?_, hP.2 ?_ (by rw [hn]; simp)⟩
      · rw [← Rat.not_le] at *
        exact fun h => hw (Rat.le_trans (h2 s hs) h)
      · intro r' hr' h
        rw [hn] at hr'; cases hr'
        exact hw ((eW _).1 h)
  | inf b =>
    refine .inr ⟨fun s hs => ?_, hP.2 (fun r hr => by rw [hn] at hr; cases hr) (by rw [hn]; simp)⟩
    have h1 : ¬ Abs q < (2 ^ 128 - 2 ^ 103 : Rat) := by
      intro h
      obtain ⟨r, hr⟩ := hR.2.2 h
      rw [hn] at hr; cases hr
    have h2 : Abs s ≤ (2 ^ 128 - 2 ^ 104 : Rat) := float32_le hs
    have h3 : (1 : Rat) / 2 ^ 52 + (2 ^ 128 - 2 ^ 104 : Rat) < (2 ^ 128 - 2 ^ 103 : Rat) := by decide +kernel
    generalize (1 : Rat) / 2 ^ 52 = d at *
    generalize (2 ^ 128 - 2 ^ 104 : Rat) = u at *
    generalize (2 ^ 128 - 2 ^ 103 : Rat) = v at *
    unfold Abs at *
    grind

-- Both cases occur.
example : Abs ((1 : Rat) / 2 ^ 60 - 1 / 2 ^ 60) ≤ (1 : Rat) / 2 ^ 52 ∧ Float32 (1 / 2 ^ 60) :=
  ⟨by decide +kernel, (float32_iff _).2 ⟨false, 2 ^ 89, ⟨1, 89, by decide, by decide, by decide⟩, by decide +kernel⟩⟩
example : getF32 narrow ⟨.Float64, .float (.fin (1 + 1 / 2 ^ 30))⟩ = .throw := by decide +kernel

/-- C82. A double that is a float, an infinity or NaN is stored and read unchanged. -/
theorem C82_unchanged (a : Any) (x : Fl) (h : ∀ q, x = .fin q → Float32 q) :
    setValue narrow a .Float32 (.f64 x) = .ok (⟨.Float32, .float x⟩, false) ∧
    getF32 narrow ⟨.Float64, .float x⟩ = .ok x := by
  cases x with
  | nan => exact ⟨rfl, rfl⟩
  | inf b => cases b <;> exact ⟨rfl, rfl⟩
  | fin q =>
    have hn : narrow (.fin q) = .fin q := round_self ok32 ((float32_iff q).1 (h q rfl))
    refine (C82_partial narrow a q).1 q hn ?_
    unfold Within
    rw [Rat.sub_self]
    decide +kernel

example : ∀ q, Fl.fin (3 / 4) = .fin q → Float32 q := by
  intro q h; cases h
  exact (float32_iff _).2 ⟨false, 3 * 2 ^ 147, ⟨3, 147, by decide, by decide, by decide⟩, by decide +kernel⟩

/-- C82. A double of magnitude two or more is accepted only when it is a float: nothing is lost
there. -/
theorem C82_large (a : Any) (q : Rat) (hq : Float64 q) (h2 : (2 : Rat) ≤ Abs q) :
    (Float32 q → setValue narrow a .Float32 (.f64 (.fin q)) = .ok (⟨.Float32, .float (.fin q)⟩, false) ∧
      getF32 narrow ⟨.Float64, .float (.fin q)⟩ = .ok (.fin q)) ∧
    (¬ Float32 q → (∃ a', setValue narrow a .Float32 (.f64 (.fin q)) = .ok (a', true)) ∧
      getF32 narrow ⟨.Float64, .float (.fin q)⟩ = .throw) := by
  constructor
  · intro h
    exact C82_unchanged a (.fin q) (fun q' e => by cases e; exact h)
  · intro h
    rcases C82_nearest_partial a q with ⟨r, h1, -, h3, -⟩ | ⟨-, h⟩
    · exfalso
      apply h
      have e : q = r := close_eq hq h1 h2 h3
      rw [e]; exact h1
    · exact h

example : Float64 (2 + 1 / 2 ^ 40) ∧ (2 : Rat) ≤ Abs (2 + 1 / 2 ^ 40) ∧ Float64 (-4) :=
  ⟨(float64_iff _).2 ⟨false, (2 ^ 41 + 1) * 2 ^ 1034, ⟨2 ^ 41 + 1, 1034, by decide, by decide, rfl⟩, by decide +kernel⟩,
   by decide +kernel,
   (float64_iff _).2 ⟨true, 2 ^ 1076, ⟨4, 1074, by decide, by decide, by decide +kernel⟩, by decide +kernel⟩⟩

/-- C82 is false of the code, with the rounding of the hardware: 2^-200 becomes 0 and 1 + 2^-52
becomes 1, though both are doubles and neither is a float. -/
theorem C82_lost (a : Any) :
    setValue narrow a .Float32 (.f64 (.fin (1 / 2 ^ 200))) = .ok (⟨.Float32, .float (.fin 0)⟩, false) ∧
    getF32 narrow ⟨.Float64, .float (.fin (1 + 1 / 2 ^ 52))⟩ = .ok (.fin 1) := by
  refine ⟨((C82_partial narrow a _).1 0 (by decide +kernel) (by unfold Within; decide +kernel)).1, ?_⟩
  decide +kernel

end Verif.Float
