import Verif.Chrono.Model

/-! Property C47. -/
namespace Verif.Chrono

/-- The 64-bit numbers. -/
def I64 (v : Int) : Prop := -2 ^ 63 ≤ v ∧ v < 2 ^ 63

theorem chk_iff (v w : Int) : chk v = some w ↔ I64 v ∧ w = v := by
  unfold chk I64 minI64 maxI64
  split <;> simp <;> omega

theorem chk_none (v : Int) : chk v = none ↔ ¬ I64 v := by
  unfold chk I64 minI64 maxI64
  split <;> simp <;> omega

/-- C47. The sum of a date-time and a duration is exact, and undefined exactly when it is
not a 64-bit number; likewise the difference. -/
theorem C47_exact (t d s : Int) :
    (add t d = some s ↔ I64 (t + d) ∧ s = t + d) ∧
    (sub t d = some s ↔ I64 (t - d) ∧ s = t - d) ∧
    (addAssign t d = some s ↔ I64 (t + d) ∧ s = t + d) ∧
    (subAssign t d = some s ↔ I64 (t - d) ∧ s = t - d) ∧
    (mulAssign t d = some s ↔ I64 (t * d) ∧ s = t * d) ∧
    (neg t = some s ↔ I64 (-t) ∧ s = -t) ∧
    (incr t = some s ↔ I64 (t + 1) ∧ s = t + 1) ∧
    (decr t = some s ↔ I64 (t - 1) ∧ s = t - 1) :=
  ⟨chk_iff _ _, chk_iff _ _, chk_iff _ _, chk_iff _ _, chk_iff _ _, chk_iff _ _, chk_iff _ _,
    chk_iff _ _⟩

/-- C47. `t + (u - t) = u` and `(t + d) - t = d`, `(t + d) - d = t`: for all 64-bit values
for which the inner operation is defined, the outer one is defined too and gives that. -/
theorem C47_algebra (t u d : Int) (ht : I64 t) (hu : I64 u) (hd : I64 d) :
    (∀ e, sub u t = some e → add t e = some u) ∧
    (∀ s, add t d = some s → sub s t = some d) ∧
    (∀ s, add t d = some s → sub s d = some t) ∧
    add t d = add d t := by
  refine ⟨?_, ?_, ?_, ?_⟩
  · intro e he
    obtain ⟨_, rfl⟩ := (chk_iff _ _).mp he
    exact (chk_iff _ _).mpr ⟨by rw [show t + (u - t) = u by omega]; exact hu, by omega⟩
  · intro s hs
    obtain ⟨_, rfl⟩ := (chk_iff _ _).mp hs
    exact (chk_iff _ _).mpr ⟨by rw [show t + d - t = d by omega]; exact hd, by omega⟩
  · intro s hs
    obtain ⟨_, rfl⟩ := (chk_iff _ _).mp hs
    exact (chk_iff _ _).mpr ⟨by rw [show t + d - d = t by omega]; exact ht, by omega⟩
  · unfold add; rw [Int.add_comm]

example : sub 5 7 = some (-2) ∧ add 5 7 = some 12 := by decide

/-- C47. Quotient and remainder reconstruct the value. -/
theorem C47_divMod (d k q r : Int) (hq : divAssign d k = some q)
    (hr : modAssign d k = some r) :
    d = q * k + r ∧ r.natAbs < k.natAbs ∧ (0 ≤ d → 0 ≤ r) ∧ (d ≤ 0 → r ≤ 0) := by
  unfold divAssign at hq
  unfold modAssign at hr
  by_cases hk : k = 0
  · simp [hk] at hq
  rw [if_neg hk] at hq hr
  obtain ⟨hc, rfl⟩ := (chk_iff _ _).mp hq
  rw [hq] at hr
  simp only [Option.map_some, Option.some.injEq] at hr
  subst hr
  refine ⟨?_, ?_, ?_, ?_⟩
  · rw [Int.mul_comm]; exact (Int.mul_tdiv_add_tmod d k).symm
  · rw [Int.natAbs_tmod]; exact Nat.mod_lt _ (by omega)
  · intro h; exact Int.tmod_nonneg k h
  · intro h
    have := Int.tmod_nonneg (a := -d) k (by omega)
    rw [Int.neg_tmod] at this
    omega

example : divAssign (-7) 2 = some (-3) ∧ modAssign (-7) 2 = some (-1) := by decide

/-- C47. The units: exact multiples of a nanosecond, undefined exactly when the result is
not a 64-bit number. -/
theorem C47_units (v w : Int) :
    (nanoseconds v = some w ↔ w = v) ∧
    (microseconds v = some w ↔ I64 (v * 10 ^ 3) ∧ w = v * 10 ^ 3) ∧
    (milliseconds v = some w ↔ I64 (v * 10 ^ 6) ∧ w = v * 10 ^ 6) ∧
    (seconds v = some w ↔ I64 (v * 10 ^ 9) ∧ w = v * 10 ^ 9) ∧
    (minutes v = some w ↔ I64 (v * (60 * 10 ^ 9)) ∧ w = v * (60 * 10 ^ 9)) ∧
    (hours v = some w ↔ I64 (v * (3600 * 10 ^ 9)) ∧ w = v * (3600 * 10 ^ 9)) ∧
    (days v = some w ↔ I64 (v * (86400 * 10 ^ 9)) ∧ w = v * (86400 * 10 ^ 9)) ∧
    (weeks v = some w ↔ I64 (v * (7 * 86400 * 10 ^ 9)) ∧ w = v * (7 * 86400 * 10 ^ 9)) := by
  have e1 : ∀ v, microseconds v = chk (v * 10 ^ 3) := fun _ => rfl
  have e2 : ∀ v, milliseconds v = chk (v * 10 ^ 6) := fun _ => rfl
  have e3 : ∀ v, seconds v = chk (v * 10 ^ 9) := fun _ => rfl
  have e4 : ∀ v, minutes v = chk (v * (60 * 10 ^ 9)) := fun _ => rfl
  have e5 : ∀ v, hours v = chk (v * (3600 * 10 ^ 9)) := fun _ => rfl
  have e6 : ∀ v, days v = chk (v * (86400 * 10 ^ 9)) := fun _ => rfl
  have e7 : ∀ v, weeks v = chk (v * (7 * 86400 * 10 ^ 9)) := fun _ => rfl
  refine ⟨?_, ?_, ?_, ?_, ?_, ?_, ?_, ?_⟩
  · unfold nanoseconds; rw [Option.some.injEq]; exact eq_comm
  · rw [e1]; exact chk_iff _ _
  · rw [e2]; exact chk_iff _ _
  · rw [e3]; exact chk_iff _ _
  · rw [e4]; exact chk_iff _ _
  · rw [e5]; exact chk_iff _ _
  · rw [e6]; exact chk_iff _ _
  · rw [e7]; exact chk_iff _ _

/-! The offset, from the calendar. -/

/-- Gregorian leap years. -/
def leap (y : Nat) : Bool := y % 4 = 0 && (y % 100 ≠ 0 || y % 400 = 0)

/-- Days from 1 January 1970 to 1 January of the year `1970 + n`. -/
def daysTo : Nat → Nat
  | 0 => 0
  | n + 1 => daysTo n + if leap (1970 + n) then 366 else 365

/-- C47. The offset is the time from 1970-01-01 00:00 to 2000-01-01 12:00, in nanoseconds. -/
theorem C47_offset : epochToMjd = ((daysTo 30 * 86400 + 12 * 3600 : Nat) : Int) * 10 ^ 9 := by
  decide

/-- C47. Conversion of a system time point (in nanoseconds) to a date-time subtracts the
offset, conversion back adds it; each undoes the other wherever it is defined, and each is
undefined exactly on overflow. -/
theorem C47_timePoint (n v : Int) (hn : I64 n) (hv : I64 v) :
    (fromTimePoint 1 n = some v ↔ v = n - epochToMjd) ∧
    (toTimePoint 1 v = some n ↔ n = v + epochToMjd) ∧
    (fromTimePoint 1 n = some v ↔ toTimePoint 1 v = some n) := by
  have a : fromTimePoint 1 n = some v ↔ v = n - epochToMjd := by
    unfold fromTimePoint
    rw [Int.mul_one, (chk_iff n n).mpr ⟨hn, rfl⟩, Option.bind_some, chk_iff]
    constructor
    · exact fun h => h.2
    · intro h; exact ⟨h ▸ hv, h⟩
  have b : toTimePoint 1 v = some n ↔ n = v + epochToMjd := by
    unfold toTimePoint
    simp only [Option.map_eq_some_iff, Int.tdiv_one]
    constructor
    · rintro ⟨x, hx, rfl⟩; exact ((chk_iff _ _).mp hx).2
    · intro h; exact ⟨n, (chk_iff _ _).mpr ⟨h ▸ hn, h⟩, rfl⟩
  exact ⟨a, b, by rw [a, b]; omega⟩

example : I64 1000 ∧ I64 (1000 - epochToMjd) := by
  constructor <;> (unfold I64; decide)

/-- C47. With a coarser time point (resolution `res` nanoseconds) the way through a
date-time and back is the identity. -/
theorem C47_coarse (res n v : Int) (hres : 0 < res) (h : fromTimePoint res n = some v) :
    toTimePoint res v = some n := by
  unfold fromTimePoint at h
  cases hc : chk (n * res) with
  | none => rw [hc] at h; simp at h
  | some ns =>
    rw [hc, Option.bind_some, chk_iff] at h
    obtain ⟨hns, rfl⟩ := (chk_iff _ _).mp hc
    obtain ⟨_, rfl⟩ := h
    unfold toTimePoint
    rw [show n * res - epochToMjd + epochToMjd = n * res by omega, hc]
    simp only [Option.map_some, Option.some.injEq]
    exact Int.mul_tdiv_cancel _ (by omega)

example : fromTimePoint 1000000000 5 = some (5000000000 - epochToMjd) := by decide

/-- C47 is false of the code above 2^63 - 1 - offset: such a date-time (from year 2262 on,
counted from 1970) has no time point, its conversion overflows. -/
theorem C47_fails : ∃ v, I64 v ∧ toTimePoint 1 v = none :=
  ⟨maxI64, by unfold I64; decide, by decide⟩

end Verif.Chrono
