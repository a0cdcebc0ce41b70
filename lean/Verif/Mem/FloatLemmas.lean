import Verif.Mem.Float

/-! Lemmas on the IEEE formats: the round trip through the bits, rounding to the nearest value. -/
namespace Verif.Float
open Verif.Any (Fl)

/-! ### Specification -/

/-- `N` units of the least positive value are a finite magnitude of the format. -/
def Fmt.Mag (f : Fmt) (N : Nat) : Prop := ∃ m k, m < 2 ^ f.p ∧ k ≤ f.top ∧ N = m * 2 ^ k

/-- The values of the format. -/
def Fmt.Has (f : Fmt) : Fl → Prop
  | .fin q => ∃ neg N, f.Mag N ∧ q = f.val neg N
  | _ => True

/-- A format with at least two bits in mantissa and exponent. -/
def Fmt.Ok (f : Fmt) : Prop := 2 ≤ f.p ∧ 2 ≤ f.w

theorem ok32 : f32.Ok := by unfold Fmt.Ok; decide
theorem ok64 : f64.Ok := by unfold Fmt.Ok; decide

/-! ### Units -/

theorem two_pow_pos' (n : Nat) : (0 : Rat) < ((2 ^ n : Nat) : Rat) := by
  have : 0 < 2 ^ n := Nat.two_pow_pos n
  exact_mod_cast this

theorem val_mul (f : Fmt) (neg : Bool) (N : Nat) :
    f.val neg N * ((2 ^ f.scale : Nat) : Rat) = (if neg then -1 else 1) * (N : Rat) := by
  unfold Fmt.val
  have h := two_pow_pos' f.scale
  generalize ((2 ^ f.scale : Nat) : Rat) = s at h ⊢
  generalize (N : Rat) = n
  have : s ≠ 0 := by grind
  cases neg <;> simp only [Bool.false_eq_true, if_false, if_true] <;> grind

theorem val_neg_iff (f : Fmt) (neg : Bool) (N : Nat) :
    f.val neg N < 0 ↔ neg = true ∧ N ≠ 0 := by
  have h := two_pow_pos' f.scale
  have hv := val_mul f neg N
  generalize ((2 ^ f.scale : Nat) : Rat) = s at h hv
  have hN : (0 : Rat) ≤ (N : Rat) := by exact_mod_cast Nat.zero_le N
  have hz : N = 0 ↔ (N : Rat) = 0 := by
    constructor
    · intro h; subst h; rfl
    · intro h; exact_mod_cast h
  constructor
  · intro hlt
    have hm : f.val neg N * s < 0 := by
      have := Rat.mul_lt_mul_of_pos_right hlt h
      simpa using this
    rw [hv] at hm
    cases neg
    · simp only [Bool.false_eq_true, if_false] at hm; exfalso; grind
    · refine ⟨rfl, ?_⟩
      intro h0; rw [hz] at h0; rw [h0] at hm; simp at hm
  · rintro ⟨hn, hN0⟩
    subst hn
    simp only [if_true] at hv
    have hpos : (0 : Rat) < N := by
      have : 0 < N := Nat.pos_of_ne_zero hN0
      exact_mod_cast this
    apply Classical.byContradiction
    intro hc
    have hc : 0 ≤ f.val true N := by grind
    have := Rat.mul_nonneg hc (by grind : (0:Rat) ≤ s)
    grind

/-- The magnitude of a value, in units. -/
theorem abs_val (f : Fmt) (neg : Bool) (N : Nat) :
    (if f.val neg N < 0 then -f.val neg N else f.val neg N) * ((2 ^ f.scale : Nat) : Rat) =
      (N : Rat) := by
  have hv := val_mul f neg N
  by_cases h : f.val neg N < 0
  · rw [if_pos h]
    rw [val_neg_iff] at h
    rw [h.1] at hv ⊢
    simp only [if_true] at hv
    grind
  · rw [if_neg h, hv]
    rw [val_neg_iff] at h
    cases neg
    · simp
    · have : N = 0 := by
        apply Classical.byContradiction; intro hn; exact h ⟨rfl, hn⟩
      subst this; simp

theorem floor_nat (N : Nat) : (N : Rat).floor = (N : Int) := by
  have h1 : (N : Rat).floor ≤ (N : Int) := by
    have := Rat.floor_le (N : Rat)
    exact_mod_cast this
  have h2 : (N : Int) ≤ (N : Rat).floor := Rat.le_floor_iff.2 (by exact Rat.le_refl)
  omega

/-! ### The bits -/

theorem log2_lt {N k : Nat} (h : N < 2 ^ k) (hk : 0 < k) : N.log2 < k := by
  by_cases h0 : N = 0
  · subst h0; exact hk
  · have := Nat.log2_self_le h0
    exact (Nat.pow_lt_pow_iff_right (by omega : 1 < 2)).1 (by omega)

theorem le_log2 {N k : Nat} (h : 2 ^ k ≤ N) : k ≤ N.log2 := by
  have h0 : N ≠ 0 := by have := Nat.two_pow_pos k; omega
  exact (Nat.le_log2 h0).2 h

theorem expo_le {f : Fmt} (hf : f.Ok) {N k m : Nat} (hm : m < 2 ^ f.p) (hN : N = m * 2 ^ k) :
    f.expo N ≤ k := by
  have := hf.1
  have hlt : N < 2 ^ (f.p + k) := by
    rw [hN, Nat.pow_add]; exact Nat.mul_lt_mul_of_pos_right hm (Nat.two_pow_pos k)
  have := log2_lt hlt (by omega)
  unfold Fmt.expo; omega

theorem Mag.dvd {f : Fmt} (hf : f.Ok) {N : Nat} (h : f.Mag N) : 2 ^ f.expo N ∣ N := by
  obtain ⟨m, k, hm, _, hN⟩ := h
  have := expo_le hf hm hN
  rw [hN]
  exact Nat.dvd_trans (Nat.pow_dvd_pow 2 (by rw [← hN]; exact this)) (Nat.dvd_mul_left _ _)

theorem Mag.expo_top {f : Fmt} (hf : f.Ok) {N : Nat} (h : f.Mag N) : f.expo N ≤ f.top := by
  obtain ⟨m, k, hm, hk, hN⟩ := h
  exact Nat.le_trans (expo_le hf hm hN) hk

/-- The significand of `N` units. -/
theorem sig_lt (f : Fmt) (N : Nat) : N / 2 ^ f.expo N < 2 ^ f.p := by
  rw [Nat.div_lt_iff_lt_mul (Nat.two_pow_pos _), ← Nat.pow_add]
  have h : N < 2 ^ (N.log2 + 1) := Nat.lt_log2_self
  refine Nat.lt_of_lt_of_le h (Nat.pow_le_pow_right (by omega) ?_)
  unfold Fmt.expo; omega

theorem sig_ge {f : Fmt} (hf : f.Ok) {N : Nat} (h : f.expo N ≠ 0) : 2 ^ (f.p - 1) ≤ N / 2 ^ f.expo N := by
  rw [Nat.le_div_iff_mul_le (Nat.two_pow_pos _), ← Nat.pow_add]
  have := hf.1
  have h0 : N ≠ 0 := by
    intro hc; subst hc; unfold Fmt.expo at h; have : Nat.log2 0 = 0 := rfl; omega
  refine Nat.le_trans (Nat.pow_le_pow_right (by omega) ?_) (Nat.log2_self_le h0)
  unfold Fmt.expo at *; omega

/-- Bits to magnitude: what `decode` does without the sign. -/
theorem decode_mag {f : Fmt} (hf : f.Ok) {N : Nat} (h : f.Mag N) (neg : Bool) :
    f.decode (f.signBit neg + f.magBits N) = .fin (f.val neg N) := by
  have hp := hf.1
  have hw := hf.2
  have hlt := sig_lt f N
  have htop := Mag.expo_top hf h
  have hdvd := Mag.dvd hf h
  have hge := @sig_ge f hf N
  have hNe : N / 2 ^ f.expo N * 2 ^ f.expo N = N := Nat.div_mul_cancel hdvd
  unfold Fmt.decode Fmt.magBits
  generalize hK : f.expo N = k at *
  generalize hM : N / 2 ^ k = M at *
  have e1 : 2 ^ f.p = 2 ^ (f.p - 1) * 2 := by
    rw [← Nat.pow_succ]; congr 1; omega
  have hP : 0 < 2 ^ (f.p - 1) := Nat.two_pow_pos _
  have hW : 4 ≤ 2 ^ f.w := by
    have := Nat.pow_le_pow_right (n := 2) (by omega) hw; simpa using this
  unfold Fmt.top at htop
  have es : f.signBit neg = (if neg then 1 else 0) * (2 ^ (f.p - 1) * 2 ^ f.w) := by
    unfold Fmt.signBit; rw [Nat.pow_add]; cases neg <;> simp
  rw [e1] at hlt
  rw [Nat.pow_add, es]
  clear e1 es hdvd
  generalize 2 ^ (f.p - 1) = P at *
  generalize 2 ^ f.w = W at *
  obtain ⟨b, hb, hbn⟩ : ∃ b : Nat, (if neg then 1 else 0) = b ∧ (b = 0 ∨ b = 1) :=
    ⟨_, rfl, by cases neg <;> simp⟩
  rw [hb]
  have hT : b * (P * W) + (k * P + M) = P * (b * W + k) + M := by grind
  have t1 : (b * (P * W) + (k * P + M)) % P = M % P := by rw [hT, Nat.mul_add_mod]
  have t2 : (b * (P * W) + (k * P + M)) / P = b * W + k + M / P := by
    rw [hT, Nat.mul_add_div hP]
  have t3 : (b * (P * W) + (k * P + M)) / (P * W) = b := by
    rw [← Nat.div_div_eq_div_mul, t2]
    have : M / P ≤ 1 := by
      have := (Nat.div_lt_iff_lt_mul hP).2 (by rw [Nat.mul_comm]; exact hlt); omega
    rw [Nat.add_assoc, Nat.mul_comm, Nat.mul_add_div (by omega), Nat.div_eq_of_lt (by omega)]
    rfl
  have hneg : decide (b % 2 = 1) = neg := by
    subst hb; cases neg <;> rfl
  simp only [t1, t2, t3, hneg]
  by_cases hMP : M < P
  · have hk : k = 0 := by
      apply Classical.byContradiction; intro hk; have := hge hk; omega
    subst hk
    have : (b * W + 0 + M / P) % W = 0 := by
      rw [Nat.div_eq_of_lt hMP]; simp
    rw [this, if_neg (by omega), if_pos rfl, Nat.mod_eq_of_lt hMP]
    simp at hNe; rw [hNe]
  · have d : M / P = 1 := by
      rw [Nat.div_eq_iff hP]; omega
    have m : M % P = M - P := by
      rw [Nat.mod_eq_sub_mod (by omega), Nat.mod_eq_of_lt (by omega)]
    have : (b * W + k + M / P) % W = k + 1 := by
      rw [d, Nat.add_assoc, Nat.mul_comm, Nat.mul_add_mod, Nat.mod_eq_of_lt (by omega)]
    rw [this, if_neg (by omega), if_neg (by omega), m]
    have : P + (M - P) = M := by omega
    rw [this, Nat.add_sub_cancel, hNe]

theorem decode_encode {f : Fmt} (hf : f.Ok) (x : Fl) (h : f.Has x) : f.decode (f.encode x) = x := by
  cases x with
  | nan =>
    have hp := hf.1
    have hw := hf.2
    have hW : 4 ≤ 2 ^ f.w := by
      have := Nat.pow_le_pow_right (n := 2) (by omega) hw; simpa using this
    have e2 : 2 ^ (f.p - 1) = 2 ^ (f.p - 2) * 2 := by
      rw [← Nat.pow_succ]; congr 1; omega
    have hQ : 0 < 2 ^ (f.p - 2) := Nat.two_pow_pos _
    unfold Fmt.decode Fmt.encode
    simp only
    rw [e2]
    generalize 2 ^ (f.p - 2) = Q at *
    generalize 2 ^ f.w = W at *
    have t1 : ((W - 1) * (Q * 2) + Q) % (Q * 2) = Q := by
      rw [Nat.mul_comm, Nat.mul_add_mod, Nat.mod_eq_of_lt (by omega)]
    have t2 : ((W - 1) * (Q * 2) + Q) / (Q * 2) = W - 1 := by
      rw [Nat.mul_comm, Nat.mul_add_div (by omega), Nat.div_eq_of_lt (by omega)]; rfl
    rw [t1, t2, Nat.mod_eq_of_lt (by omega), if_pos rfl, if_neg (by omega)]
  | inf neg =>
    have hp := hf.1
    have hw := hf.2
    have hW : 4 ≤ 2 ^ f.w := by
      have := Nat.pow_le_pow_right (n := 2) (by omega) hw; simpa using this
    have hP : 0 < 2 ^ (f.p - 1) := Nat.two_pow_pos _
    have es : f.signBit neg = (if neg then 1 else 0) * (2 ^ (f.p - 1) * 2 ^ f.w) := by
      unfold Fmt.signBit; rw [Nat.pow_add]; cases neg <;> simp
    rw [show f.encode (.inf neg) = f.signBit neg + (2 ^ f.w - 1) * 2 ^ (f.p - 1) from rfl, es]
    unfold Fmt.decode
    rw [Nat.pow_add]
    generalize 2 ^ (f.p - 1) = P at *
    generalize 2 ^ f.w = W at *
    obtain ⟨b, hb, hbn⟩ : ∃ b : Nat, (if neg then 1 else 0) = b ∧ (b = 0 ∨ b = 1) :=
      ⟨_, rfl, by cases neg <;> simp⟩
    rw [hb]
    have hT : b * (P * W) + (W - 1) * P = P * (b * W + (W - 1)) := by grind
    have t3 : P * (b * W + (W - 1)) / (P * W) = b := by
      rw [Nat.mul_div_mul_left _ _ hP, Nat.mul_comm, Nat.mul_add_div (by omega),
        Nat.div_eq_of_lt (by omega)]; rfl
    rw [hT]
    simp only [t3, Nat.mul_mod_right, Nat.mul_div_cancel_left _ hP]
    have : (b * W + (W - 1)) % W = W - 1 := by
      rw [Nat.mul_comm, Nat.mul_add_mod, Nat.mod_eq_of_lt (by omega)]
    rw [this, if_pos rfl, if_pos trivial]
    subst hb; cases neg <;> rfl
  | fin q =>
    obtain ⟨neg, N, hN, rfl⟩ := h
    unfold Fmt.encode
    simp only
    rw [abs_val, floor_nat]
    rw [show ((N : Int)).toNat = N from rfl, decode_mag hf hN]
    congr 1
    by_cases h0 : N = 0
    · subst h0; simp [Fmt.val, Rat.div_def, Rat.zero_mul, Rat.mul_zero]
    · have := val_neg_iff f neg N
      cases neg
      · simp [this]
      · simp [this, h0]

/-! ### Rounding -/

theorem nearestInt_le (t : Rat) (z : Int) :
    (nearestInt t : Rat) - t ≤ (if (z : Rat) ≤ t then t - z else z - t) ∧
    t - (nearestInt t : Rat) ≤ (if (z : Rat) ≤ t then t - z else z - t) := by
  have h1 := Rat.floor_le t
  have h2 := Rat.lt_floor_add_one t
  have hz : (z : Rat) ≤ (t.floor : Rat) ∨ ((t.floor + 1 : Int) : Rat) ≤ z := by
    rcases Int.lt_or_le t.floor z with h | h
    · right; exact_mod_cast h
    · left; exact_mod_cast h
  have e : ((t.floor + 1 : Int) : Rat) = (t.floor : Rat) + 1 := by push_cast; rfl
  unfold nearestInt
  by_cases hc : 2 * (t - t.floor) > 1 ∨ (2 * (t - t.floor) = 1 ∧ t.floor % 2 = 1)
  · rw [if_pos hc]
    have hc' : 1 ≤ 2 * (t - t.floor) := by
      rcases hc with h | h
      · exact Rat.le_of_lt h
      · rw [h.1]; exact Rat.le_refl
    rw [e] at h2 hz
    try rw [e]
    clear e hc
    generalize (t.floor : Rat) = a at *
    generalize (z : Rat) = b at *
    split <;> constructor <;> grind
  · rw [if_neg hc]
    have hc' : 2 * (t - t.floor) ≤ 1 := by
      rw [← Rat.not_lt]; exact fun h => hc (.inl h)
    rw [e] at h2 hz
    try rw [e]
    clear e hc
    generalize (t.floor : Rat) = a at *
    generalize (z : Rat) = b at *
    split <;> constructor <;> grind

/-- `|x|`. -/
def absR (x : Rat) : Rat := if x < 0 then -x else x

theorem nearestInt_even (t : Rat) (z : Int) (hne : z ≠ nearestInt t)
    (h : absR (t - nearestInt t) = absR (t - z)) : nearestInt t % 2 = 0 := by
  have h1 := Rat.floor_le t
  have h2 := Rat.lt_floor_add_one t
  have e : ((t.floor + 1 : Int) : Rat) = (t.floor : Rat) + 1 := by push_cast; rfl
  have e2 : ((t.floor + 2 : Int) : Rat) = (t.floor : Rat) + 2 := by push_cast; rfl
  have e3 : ((t.floor - 1 : Int) : Rat) = (t.floor : Rat) - 1 := by push_cast; rfl
  unfold nearestInt at *
  by_cases hc : 2 * (t - t.floor) > 1 ∨ (2 * (t - t.floor) = 1 ∧ t.floor % 2 = 1)
  · rw [if_pos hc] at *
    have hz : ((t.floor + 2 : Int) : Rat) ≤ z ∨ (z : Rat) ≤ (t.floor : Rat) := by
      rcases Int.lt_or_le z (t.floor + 1) with h | h
      · right; exact_mod_cast Int.le_of_lt_add_one h
      · left; have : t.floor + 2 ≤ z := by omega
        exact_mod_cast this
    rcases hc with hc | ⟨-, hc⟩
    · exfalso
      rw [e] at h h2; rw [e2] at hz
      unfold absR at h
      generalize (t.floor : Rat) = a at *
      generalize (z : Rat) = b at *
      grind
    · omega
  · rw [if_neg hc] at *
    have hz : (z : Rat) ≤ ((t.floor - 1 : Int) : Rat) ∨ ((t.floor + 1 : Int) : Rat) ≤ z := by
      rcases Int.lt_or_le z t.floor with h | h
      · left; have : z ≤ t.floor - 1 := by omega
        exact_mod_cast this
      · right; have : t.floor + 1 ≤ z := by omega
        exact_mod_cast this
    by_cases hp : t.floor % 2 = 0
    · exact hp
    · exfalso
      have hp' : t.floor % 2 = 1 := by omega
      have hc1 : ¬ 2 * (t - t.floor) > 1 := fun h => hc (.inl h)
      have hc2 : ¬ 2 * (t - t.floor) = 1 := fun h => hc (.inr ⟨h, hp'⟩)
      rw [e] at hz h2; rw [e3] at hz
      clear hc hp hp' e e2 e3 hne
      unfold absR at h
      generalize (t.floor : Rat) = a at *
      generalize (z : Rat) = b at *
      grind


theorem sub_mul' (a b c : Rat) : (a - b) * c = a * c - b * c := by
  rw [Rat.sub_eq_add_neg, Rat.add_mul, Rat.neg_mul, ← Rat.sub_eq_add_neg]

theorem absR_mul (x g : Rat) (hg : 0 < g) : absR x * g = absR (x * g) := by
  unfold absR
  by_cases h : x < 0
  · have := Rat.mul_lt_mul_of_pos_right h hg
    rw [Rat.zero_mul] at this
    rw [if_pos h, if_pos this, Rat.neg_mul]
  · have := Rat.mul_le_mul_of_nonneg_right (Rat.not_lt.1 h) (Rat.le_of_lt hg)
    rw [Rat.zero_mul] at this
    rw [if_neg h, if_neg (Rat.not_lt.2 this)]

/-- What `round` computes on a magnitude `y`, in units. -/
def Fmt.units (f : Fmt) (y : Rat) : Nat :=
  (nearestInt (y / ((2 ^ f.expo y.floor.toNat : Nat) : Rat))).toNat * 2 ^ f.expo y.floor.toNat

theorem round_eq (f : Fmt) (q : Rat) :
    f.round q = (if 2 ^ (f.p + f.top) ≤ f.units (absR q * ((2 ^ f.scale : Nat) : Rat)) then
      .inf (decide (q < 0))
      else .fin (f.val (decide (q < 0)) (f.units (absR q * ((2 ^ f.scale : Nat) : Rat))))) := rfl

/-- The significand before and after rounding. -/
theorem units_parts {f : Fmt} (hf : f.Ok) {y : Rat} (hy : 0 ≤ y) : ∃ (k z : Nat),
    f.units y = z * 2 ^ k ∧ z ≤ 2 ^ f.p ∧ (k ≠ 0 → 2 ^ (f.p - 1) ≤ z) ∧
    (k ≠ 0 → ((2 ^ (f.p - 1 + k) : Nat) : Rat) ≤ y) ∧ y < ((2 ^ (f.p + k) : Nat) : Rat) ∧
    (∀ m : Nat, absR (y - (z * 2 ^ k : Nat)) ≤ absR (y - (m * 2 ^ k : Nat))) ∧
    (∀ m : Nat, m ≠ z → absR (y - (z * 2 ^ k : Nat)) = absR (y - (m * 2 ^ k : Nat)) → z % 2 = 0) := by
  have hfl0 : 0 ≤ y.floor := Rat.le_floor_iff.2 (by exact_mod_cast hy)
  obtain ⟨n, hn⟩ : ∃ n : Nat, y.floor = n := ⟨y.floor.toNat, by omega⟩
  have h1 := Rat.floor_le y
  have h2 := Rat.lt_floor_add_one y
  unfold Fmt.units
  rw [hn] at *
  rw [show ((n : Int)).toNat = n from rfl]
  have hs := sig_lt f n
  have hg := @sig_ge f hf n
  generalize f.expo n = k at *
  have hgp := two_pow_pos' k
  have hnk : n < 2 ^ (f.p + k) := by
    rw [Nat.pow_add]; exact (Nat.div_lt_iff_lt_mul (Nat.two_pow_pos k)).1 hs
  have hyk : y < ((2 ^ (f.p + k) : Nat) : Rat) := by
    have : ((n + 1 : Int) : Rat) ≤ ((2 ^ (f.p + k) : Nat) : Rat) := by exact_mod_cast hnk
    rw [← Rat.not_le] at h2 ⊢; exact fun h => h2 (Rat.le_trans this h)
  have hyl : k ≠ 0 → ((2 ^ (f.p - 1 + k) : Nat) : Rat) ≤ y := by
    intro hk
    have := hg hk
    have : 2 ^ (f.p - 1 + k) ≤ n := by
      rw [Nat.pow_add]; exact (Nat.le_div_iff_mul_le (Nat.two_pow_pos k)).1 this
    have : ((2 ^ (f.p - 1 + k) : Nat) : Rat) ≤ ((n : Int) : Rat) := by exact_mod_cast this
    exact Rat.le_trans this h1
  have hgm : ∀ a : Nat, ((a * 2 ^ k : Nat) : Rat) = (a : Rat) * ((2 ^ k : Nat) : Rat) := by
    intro a; push_cast; rfl
  have hpk : ∀ a : Nat, ((2 ^ (a + k) : Nat) : Rat) = ((2 ^ a : Nat) : Rat) * ((2 ^ k : Nat) : Rat) := by
    intro a; rw [Nat.pow_add]; push_cast; rfl
  rw [hpk] at hyk hyl
  have hz0 : ∀ t : Rat, 0 ≤ t → 0 ≤ nearestInt t := by
    intro t ht
    have := nearestInt_le t 0
    rw [if_pos (by exact_mod_cast ht)] at this
    have : (0 : Rat) ≤ (nearestInt t : Rat) := by
      have h := this.2
      have e0 : ((0 : Int) : Rat) = 0 := rfl
      rw [e0] at h
      grind
    exact_mod_cast this
  obtain ⟨t, ht⟩ : ∃ t : Rat, t = y / ((2 ^ k : Nat) : Rat) := ⟨_, rfl⟩
  have hty : y = t * ((2 ^ k : Nat) : Rat) := by
    rw [ht, Rat.div_mul_cancel]; intro h; rw [h] at hgp; exact absurd hgp (by decide)
  rw [← ht]
  have ht0 : 0 ≤ t := by
    rw [← Rat.not_lt]; intro h
    have := Rat.mul_lt_mul_of_pos_right h hgp
    rw [← hty, Rat.zero_mul, ← Rat.not_le] at this
    exact this hy
  have htp : t < ((2 ^ f.p : Nat) : Rat) := by
    rw [← Rat.not_le]; intro h
    have := Rat.mul_le_mul_of_nonneg_right h (Rat.le_of_lt hgp)
    rw [← hty, ← Rat.not_lt] at this
    exact this hyk
  have htl : k ≠ 0 → ((2 ^ (f.p - 1) : Nat) : Rat) ≤ t := by
    intro hk
    rw [← Rat.not_lt]; intro h
    have := Rat.mul_lt_mul_of_pos_right h hgp
    rw [← hty, ← Rat.not_le] at this
    exact this (hyl hk)
  obtain ⟨z, hz⟩ : ∃ z : Nat, nearestInt t = z := ⟨_, (Int.toNat_of_nonneg (hz0 t ht0)).symm⟩
  have hnear := nearestInt_le t
  have heven := nearestInt_even t
  rw [hz] at hnear heven ⊢
  rw [show ((z : Int)).toNat = z from rfl]
  have hzz : (((z : Int)) : Rat) = (z : Rat) := by push_cast; rfl
  rw [hzz] at hnear heven
  have hN : ∀ m : Nat, absR (t - z) ≤ absR (t - m) := by
    intro m
    have := hnear m
    have e : (((m : Int)) : Rat) = (m : Rat) := by push_cast; rfl
    rw [e] at this
    unfold absR
    revert this
    split <;> split <;> grind
  refine ⟨k, z, rfl, ?_, ?_, ?_, ?_, ?_, ?_⟩
  · have := hN (2 ^ f.p)
    have : (z : Rat) ≤ ((2 ^ f.p : Nat) : Rat) := by
      unfold absR at this; grind
    exact_mod_cast this
  · intro hk
    have := hN (2 ^ (f.p - 1))
    have h3 := htl hk
    have : ((2 ^ (f.p - 1) : Nat) : Rat) ≤ (z : Rat) := by
      unfold absR at this; grind
    exact_mod_cast this
  · rw [hpk]; exact hyl
  · rw [hpk]; exact hyk
  · intro m
    have := Rat.mul_le_mul_of_nonneg_right (hN m) (Rat.le_of_lt hgp)
    rw [hgm, hgm, hty]
    rw [absR_mul _ _ hgp, absR_mul _ _ hgp, Rat.sub_eq_add_neg, Rat.sub_eq_add_neg, Rat.add_mul,
      Rat.add_mul, Rat.neg_mul, Rat.neg_mul, ← Rat.sub_eq_add_neg, ← Rat.sub_eq_add_neg] at this
    exact this
  · intro m hm h
    rw [hgm, hgm, hty, ← sub_mul', ← sub_mul', ← absR_mul _ _ hgp, ← absR_mul _ _ hgp] at h
    have e : (((m : Int)) : Rat) = (m : Rat) := by push_cast; rfl
    have h5 : absR (t - z) = absR (t - m) := by
      apply Rat.le_antisymm
      · rw [← Rat.not_lt]; intro h6
        have := Rat.mul_lt_mul_of_pos_right h6 hgp; rw [h] at this; exact absurd this Rat.lt_irrefl
      · rw [← Rat.not_lt]; intro h6
        have := Rat.mul_lt_mul_of_pos_right h6 hgp; rw [h] at this; exact absurd this Rat.lt_irrefl
    have := heven m (by exact_mod_cast hm) (by rw [e]; exact h5)
    omega

theorem units_mag {f : Fmt} (hf : f.Ok) {y : Rat} (hy : 0 ≤ y)
    (h : f.units y < 2 ^ (f.p + f.top)) : f.Mag (f.units y) := by
  obtain ⟨k, z, hu, hz, hzl, -, -, -, -⟩ := units_parts hf hy
  rw [hu] at h ⊢
  have hp : 2 ≤ f.p := hf.1
  by_cases hzp : z = 2 ^ f.p
  · subst hzp
    rw [← Nat.pow_add] at h
    have := (Nat.pow_lt_pow_iff_right (a := 2) (by omega)).1 h
    refine ⟨2 ^ (f.p - 1), k + 1, Nat.pow_lt_pow_right (by omega) (by omega), by omega, ?_⟩
    rw [← Nat.pow_add, ← Nat.pow_add]; congr 1; omega
  · refine ⟨z, k, by omega, ?_, rfl⟩
    by_cases hk : k = 0
    · omega
    · have h1 := Nat.mul_le_mul_right (2 ^ k) (hzl hk)
      rw [← Nat.pow_add] at h1
      have := (Nat.pow_lt_pow_iff_right (a := 2) (by omega)).1 (Nat.lt_of_le_of_lt h1 h)
      omega

theorem units_nearest {f : Fmt} (hf : f.Ok) {y : Rat} (hy : 0 ≤ y) {N : Nat} (h : f.Mag N) :
    absR (y - f.units y) ≤ absR (y - N) := by
  obtain ⟨k, z, hu, -, -, hyl, -, hn, -⟩ := units_parts hf hy
  rw [hu]
  obtain ⟨m, k', hm, -, rfl⟩ := h
  have hp : 2 ≤ f.p := hf.1
  by_cases hkk : k ≤ k'
  · have e : m * 2 ^ k' = (m * 2 ^ (k' - k)) * 2 ^ k := by
      rw [Nat.mul_assoc, ← Nat.pow_add]; congr 2; omega
    rw [e]; exact hn _
  · have h1 := hn (2 ^ (f.p - 1))
    have h2 := hyl (by omega)
    rw [← Nat.pow_add] at h1
    have h3 : m * 2 ^ k' ≤ 2 ^ (f.p - 1 + k) :=
      Nat.le_trans (Nat.mul_le_mul_right _ (Nat.le_of_lt hm))
        (by rw [← Nat.pow_add]; exact Nat.pow_le_pow_right (by omega) (by omega))
    have h4 : ((m * 2 ^ k' : Nat) : Rat) ≤ ((2 ^ (f.p - 1 + k) : Nat) : Rat) := by exact_mod_cast h3
    refine Rat.le_trans h1 ?_
    generalize ((m * 2 ^ k' : Nat) : Rat) = a at *
    generalize ((2 ^ (f.p - 1 + k) : Nat) : Rat) = b at *
    unfold absR
    rw [if_neg (by grind), if_neg (by grind)]
    grind

theorem expo_eq {f : Fmt} (hf : f.Ok) {z k : Nat} (hz : z < 2 ^ f.p) (hl : k ≠ 0 → 2 ^ (f.p - 1) ≤ z) :
    f.expo (z * 2 ^ k) = k := by
  have h1 := expo_le hf hz (k := k) rfl
  by_cases hk : k = 0
  · omega
  · have := Nat.mul_le_mul_right (2 ^ k) (hl hk)
    rw [← Nat.pow_add] at this
    have := le_log2 this
    unfold Fmt.expo at *
    have := hf.1
    omega

/-- Of two numbers of the format at the same distance, the one with an even bit pattern. -/
theorem units_even {f : Fmt} (hf : f.Ok) {y : Rat} (hy : 0 ≤ y) {N : Nat} (h : f.Mag N)
    (hne : N ≠ f.units y) (he : absR (y - f.units y) = absR (y - N)) : f.magBits (f.units y) % 2 = 0 := by
  obtain ⟨k, z, hu, hz, hzl, hyl, -, hn, hev⟩ := units_parts hf hy
  rw [hu] at he hne ⊢
  have hp : 2 ≤ f.p := hf.1
  have hpe : 2 ^ (f.p - 1) = 2 * 2 ^ (f.p - 2) := by
    rw [show f.p - 1 = (f.p - 2) + 1 by omega, Nat.pow_succ]; omega
  have hz2 : z % 2 = 0 := by
    obtain ⟨m, k', hm, -, rfl⟩ := h
    by_cases hkk : k ≤ k'
    · have e : m * 2 ^ k' = (m * 2 ^ (k' - k)) * 2 ^ k := by
        rw [Nat.mul_assoc, ← Nat.pow_add]; congr 2; omega
      rw [e] at he hne
      exact hev _ (fun h => hne (by rw [h])) he
    · exfalso
      have h1 := hn (2 ^ (f.p - 1))
      have h2 := hyl (by omega)
      rw [← Nat.pow_add] at h1
      have h3 : m * 2 ^ k' < 2 ^ (f.p - 1 + k) :=
        Nat.lt_of_lt_of_le (Nat.mul_lt_mul_of_pos_right hm (Nat.two_pow_pos _))
          (by rw [← Nat.pow_add]; exact Nat.pow_le_pow_right (by omega) (by omega))
      have h4 : ((m * 2 ^ k' : Nat) : Rat) < ((2 ^ (f.p - 1 + k) : Nat) : Rat) := by exact_mod_cast h3
      rw [he] at h1
      generalize ((m * 2 ^ k' : Nat) : Rat) = a at *
      generalize ((2 ^ (f.p - 1 + k) : Nat) : Rat) = b at *
      unfold absR at h1
      rw [if_neg (by grind), if_neg (by grind)] at h1
      grind
  unfold Fmt.magBits
  by_cases hzp : z = 2 ^ f.p
  · have e : z * 2 ^ k = 2 ^ (f.p - 1) * 2 ^ (k + 1) := by
      rw [hzp, ← Nat.pow_add, ← Nat.pow_add]; congr 1; omega
    rw [e, expo_eq hf (Nat.pow_lt_pow_right (by omega) (by omega)) (fun _ => Nat.le_refl _),
      Nat.mul_div_cancel _ (Nat.two_pow_pos _), hpe]
    rw [← Nat.mul_assoc, Nat.mul_comm (k + 1) 2, Nat.mul_assoc, ← Nat.mul_add]
    exact Nat.mul_mod_right 2 _
  · rw [expo_eq hf (by omega) hzl, Nat.mul_div_cancel _ (Nat.two_pow_pos _), hpe,
      ← Nat.mul_assoc, Nat.mul_comm k 2, Nat.mul_assoc]
    omega

theorem units_exact {f : Fmt} (hf : f.Ok) {N : Nat} (h : f.Mag N) : f.units N = N := by
  have := units_nearest hf (y := N) (by exact_mod_cast Nat.zero_le N) h
  have : (f.units N : Rat) = N := by
    unfold absR at this; grind
  exact_mod_cast this

theorem Mag.lt {f : Fmt} {N : Nat} (h : f.Mag N) : N < 2 ^ (f.p + f.top) := by
  obtain ⟨m, k, hm, hk, rfl⟩ := h
  rw [Nat.pow_add]
  exact Nat.lt_of_lt_of_le (Nat.mul_lt_mul_of_pos_right hm (Nat.two_pow_pos k))
    (Nat.mul_le_mul_left _ (Nat.pow_le_pow_right (by omega) hk))

theorem absR_nonneg (x : Rat) : 0 ≤ absR x := by unfold absR; grind

theorem absR_val (f : Fmt) (neg : Bool) (N : Nat) :
    absR (f.val neg N) * ((2 ^ f.scale : Nat) : Rat) = N := by
  have := abs_val f neg N
  exact this

theorem scaled_nonneg (f : Fmt) (q : Rat) : 0 ≤ absR q * ((2 ^ f.scale : Nat) : Rat) :=
  Rat.mul_nonneg (absR_nonneg q) (Rat.le_of_lt (two_pow_pos' _))

theorem val_sign (f : Fmt) (neg : Bool) (N : Nat) :
    f.val (decide (f.val neg N < 0)) N = f.val neg N := by
  by_cases h0 : N = 0
  · subst h0; simp [Fmt.val, Rat.div_def, Rat.zero_mul, Rat.mul_zero]
  · have := val_neg_iff f neg N
    cases neg
    · simp [this]
    · simp [this, h0]

/-- The rounded number is a number of the format. -/
theorem round_has {f : Fmt} (hf : f.Ok) (q : Rat) : f.Has (f.round q) := by
  rw [round_eq]
  split
  · trivial
  · exact ⟨_, _, units_mag hf (scaled_nonneg f q) (by omega), rfl⟩

/-- A number of the format is its own rounding. -/
theorem round_self {f : Fmt} (hf : f.Ok) {q : Rat} (h : f.Has (.fin q)) : f.round q = .fin q := by
  obtain ⟨neg, N, hN, rfl⟩ := h
  rw [round_eq, absR_val, units_exact hf hN, if_neg (by have := Mag.lt hN; omega), val_sign]

theorem mul_neg_iff {q S : Rat} (hp : 0 < S) : q * S < 0 ↔ q < 0 := by
  constructor
  · intro h
    rw [← Rat.not_le] at h ⊢; intro h5; apply h
    exact Rat.mul_nonneg h5 (Rat.le_of_lt hp)
  · intro h
    have := Rat.mul_lt_mul_of_pos_right h hp
    rwa [Rat.zero_mul] at this

/-- The distance to a number of the format, in units. -/
theorem dist_val (f : Fmt) (q : Rat) (neg : Bool) (N : Nat) :
    absR (q - f.val neg N) * ((2 ^ f.scale : Nat) : Rat) =
      (if neg = decide (q < 0) then absR (absR q * ((2 ^ f.scale : Nat) : Rat) - N)
       else absR q * ((2 ^ f.scale : Nat) : Rat) + N) := by
  have hp := two_pow_pos' f.scale
  have h2 := val_mul f neg N
  have hN0 : (0 : Rat) ≤ (N : Rat) := by exact_mod_cast Nat.zero_le N
  generalize (N : Rat) = n at *
  generalize f.val neg N = b at *
  generalize ((2 ^ f.scale : Nat) : Rat) = S at *
  rw [absR_mul _ _ hp, absR_mul _ _ hp, sub_mul', h2]
  have h4 := mul_neg_iff (q := q) hp
  generalize q * S = Q at *
  clear h2
  by_cases hq : q < 0
  · have := h4.2 hq
    simp only [hq, decide_true]
    unfold absR
    cases neg <;> simp only [Bool.false_eq_true, if_false, if_true] <;> grind
  · have : ¬ Q < 0 := fun h => hq (h4.1 h)
    simp only [hq, decide_false]
    unfold absR
    cases neg <;> simp only [Bool.true_eq_false, if_false, if_true] <;> grind

theorem mul_le_cancel {a b S : Rat} (hp : 0 < S) (h : a * S ≤ b * S) : a ≤ b := by
  rw [← Rat.not_lt]; intro h6
  have := Rat.mul_lt_mul_of_pos_right h6 hp
  exact Rat.not_lt.2 h this

/-- No number of the format is closer than the rounded one. -/
theorem round_nearest {f : Fmt} (hf : f.Ok) {q r s : Rat} (hr : f.round q = .fin r)
    (hs : f.Has (.fin s)) : absR (q - r) ≤ absR (q - s) := by
  obtain ⟨neg, N, hN, rfl⟩ := hs
  rw [round_eq] at hr
  split at hr
  · cases hr
  · have hn := units_nearest hf (scaled_nonneg f q) hN
    have hy := scaled_nonneg f q
    have hN0 : (0 : Rat) ≤ (N : Rat) := by exact_mod_cast Nat.zero_le N
    cases hr
    apply mul_le_cancel (two_pow_pos' f.scale)
    rw [dist_val, dist_val, if_pos rfl]
    generalize absR q * ((2 ^ f.scale : Nat) : Rat) = y at *
    split
    · exact hn
    · refine Rat.le_trans hn ?_
      unfold absR; grind

/-- When another number of the format is as close, the bit pattern of the rounded one is even. -/
theorem round_even {f : Fmt} (hf : f.Ok) {q r s : Rat} (hr : f.round q = .fin r)
    (hs : f.Has (.fin s)) (hne : s ≠ r) (heq : absR (q - r) = absR (q - s)) :
    f.encode (.fin r) % 2 = 0 := by
  obtain ⟨neg, N, hN, rfl⟩ := hs
  rw [round_eq] at hr
  split at hr
  · cases hr
  · rename_i hlt
    have hn := units_nearest hf (scaled_nonneg f q) hN
    have hmag := units_mag hf (scaled_nonneg f q) (by omega)
    have hy := scaled_nonneg f q
    have hev := units_even hf hy hN
    have hzero := units_nearest hf hy (N := 0) ⟨0, 0, Nat.two_pow_pos _, Nat.zero_le _, by simp⟩
    injection hr with hr
    have hd := congrArg (· * ((2 ^ f.scale : Nat) : Rat)) heq
    change absR (q - r) * _ = absR (q - _) * _ at hd
    rw [← hr, dist_val, dist_val, if_pos rfl] at hd
    rw [← hr] at hne ⊢
    have e0 : ((0 : Nat) : Rat) = 0 := rfl
    rw [e0] at hzero
    have hU : (0 : Rat) ≤ (f.units (absR q * ((2 ^ f.scale : Nat) : Rat)) : Rat) := by
      exact_mod_cast Nat.zero_le _
    have hN0 : (0 : Rat) ≤ (N : Rat) := by exact_mod_cast Nat.zero_le N
    have hbits : f.magBits (f.units (absR q * ((2 ^ f.scale : Nat) : Rat))) % 2 = 0 := by
      by_cases hsg : neg = decide (q < 0)
      · rw [if_pos hsg] at hd
        refine hev (fun h => hne ?_) hd
        rw [h, hsg]
      · rw [if_neg hsg] at hd
        have hz0 : (N : Rat) = 0 ∧ (absR (absR q * ((2 ^ f.scale : Nat) : Rat) -
            f.units (absR q * ((2 ^ f.scale : Nat) : Rat))) =
            absR q * ((2 ^ f.scale : Nat) : Rat)) := by
          generalize (f.units (absR q * ((2 ^ f.scale : Nat) : Rat)) : Rat) = u at *
          generalize absR q * ((2 ^ f.scale : Nat) : Rat) = y at *
          rw [hd] at hzero
          unfold absR at hzero
          rw [if_neg (by grind)] at hzero
          constructor
          · grind
          · rw [hd]; grind
        have hN' : N = 0 := by exact_mod_cast hz0.1
        refine hev (fun h => hne ?_) ?_
        · rw [← h, hN']
          simp [Fmt.val, Rat.div_def, Rat.zero_mul, Rat.mul_zero]
        · rw [hz0.2, hz0.1]
          clear hz0 hev hd hzero hn heq hne hU hmag hlt
          generalize absR q * ((2 ^ f.scale : Nat) : Rat) = y at *
          unfold absR; grind
    have hsgn : f.signBit (decide (f.val (decide (q < 0)) (f.units (absR q * ((2 ^ f.scale : Nat) : Rat))) < 0)) % 2 = 0 := by
      unfold Fmt.signBit
      split
      · have : 2 ^ (f.p - 1 + f.w) = 2 * 2 ^ (f.p - 1 + f.w - 1) := by
          have := hf.1
          rw [show f.p - 1 + f.w = (f.p - 1 + f.w - 1) + 1 by omega, Nat.pow_succ]
          simp only [Nat.add_sub_cancel]; omega
        omega
      · rfl
    have hab := abs_val f (decide (q < 0)) (f.units (absR q * ((2 ^ f.scale : Nat) : Rat)))
    unfold Fmt.encode
    simp only
    rw [hab, floor_nat, show ∀ n : Nat, ((n : Int)).toNat = n from fun _ => rfl]
    omega

/-- A number of the format of magnitude `2 ^ (j + p - 1)` units or more is a multiple of `2 ^ j`
units. -/
theorem Mag.dvd_of_le {f : Fmt} (hf : f.Ok) {N j : Nat} (h : f.Mag N) (hj : 2 ^ (j + f.p - 1) ≤ N) :
    2 ^ j ∣ N := by
  obtain ⟨m, k, hm, -, rfl⟩ := h
  have h1 : m * 2 ^ k < 2 ^ (f.p + k) := by
    rw [Nat.pow_add]; exact Nat.mul_lt_mul_of_pos_right hm (Nat.two_pow_pos _)
  have := (Nat.pow_lt_pow_iff_right (a := 2) (by omega)).1 (Nat.lt_of_le_of_lt hj h1)
  have hjk : j ≤ k := by have := hf.1; omega
  exact Nat.dvd_trans (Nat.pow_dvd_pow 2 hjk) (Nat.dvd_mul_left _ _)

theorem Has.int {f : Fmt} (hf : f.Ok) {q : Rat} (h : f.Has (.fin q)) (j : Nat) (hjs : j ≤ f.scale)
    (hj : ((2 ^ (j + f.p - 1) : Nat) : Rat) ≤ absR q * ((2 ^ f.scale : Nat) : Rat)) :
    ∃ z : Int, q * ((2 ^ (f.scale - j) : Nat) : Rat) = z := by
  obtain ⟨neg, N, hN, rfl⟩ := h
  rw [absR_val] at hj
  have hj' : 2 ^ (j + f.p - 1) ≤ N := by exact_mod_cast hj
  obtain ⟨M, hM⟩ := Mag.dvd_of_le hf hN hj'
  have hv := val_mul f neg N
  have e : ((2 ^ f.scale : Nat) : Rat) = ((2 ^ (f.scale - j) : Nat) : Rat) * ((2 ^ j : Nat) : Rat) := by
    rw [show 2 ^ f.scale = 2 ^ (f.scale - j) * 2 ^ j by rw [← Nat.pow_add]; congr 1; omega]
    push_cast; rfl
  have e2 : (N : Rat) = (M : Rat) * ((2 ^ j : Nat) : Rat) := by
    rw [hM, Nat.mul_comm]; push_cast; rfl
  have hp := two_pow_pos' j
  have hne : ((2 ^ j : Nat) : Rat) ≠ 0 := fun h => by rw [h] at hp; exact absurd hp (by decide)
  rw [e, e2, ← Rat.mul_assoc, ← Rat.mul_assoc] at hv
  have hv2 : f.val neg N * ((2 ^ (f.scale - j) : Nat) : Rat) = (if neg = true then -1 else 1) * (M : Rat) :=
    Rat.le_antisymm (mul_le_cancel hp (by rw [hv]; exact Rat.le_refl))
    (mul_le_cancel hp (by rw [hv]; exact Rat.le_refl))
  refine ⟨if neg then -M else M, ?_⟩
  rw [hv2]
  cases neg
  · simp only [Bool.false_eq_true, if_false, Rat.one_mul]; push_cast; rfl
  · simp only [if_true]; rw [Rat.neg_mul, Rat.one_mul]; push_cast; rfl

/-- A finite number is rounded to infinity only at or beyond the middle between the largest
number and the next power of two. -/
theorem round_inf {f : Fmt} (hf : f.Ok) {q : Rat} {b : Bool} (h : f.round q = .inf b) :
    b = decide (q < 0) ∧
    (((2 ^ (f.p + 1) - 1) * 2 ^ f.top : Nat) : Rat) ≤ 2 * (absR q * ((2 ^ f.scale : Nat) : Rat)) := by
  rw [round_eq] at h
  split at h
  · rename_i hu
    injection h with h
    refine ⟨h.symm, ?_⟩
    obtain ⟨k, z, he, hz, -, hyl, -, hn, -⟩ := units_parts hf (scaled_nonneg f q)
    rw [he] at hu
    generalize absR q * ((2 ^ f.scale : Nat) : Rat) = y at *
    have h2 : 2 ^ (f.p + f.top) ≤ 2 ^ (f.p + k) := by
      rw [Nat.pow_add _ f.p k]; exact Nat.le_trans hu (Nat.mul_le_mul_right _ hz)
    have hk := (Nat.pow_le_pow_iff_right (a := 2) (by omega)).1 h2
    have hp1 : 0 < 2 ^ f.p := Nat.two_pow_pos _
    have hp2 : 2 ^ (f.p + 1) = 2 * 2 ^ f.p := by rw [Nat.pow_succ]; omega
    by_cases hkt : k = f.top
    · subst hkt
      have h3 := hn (2 ^ f.p - 1)
      have h4 : ((2 ^ (f.p + f.top) : Nat) : Rat) ≤ ((z * 2 ^ f.top : Nat) : Rat) := by exact_mod_cast hu
      have h5 : (((2 ^ (f.p + 1) - 1) * 2 ^ f.top : Nat) : Rat) =
          ((2 ^ (f.p + f.top) : Nat) : Rat) + (((2 ^ f.p - 1) * 2 ^ f.top : Nat) : Rat) := by
        rw [show (2 ^ (f.p + 1) - 1) * 2 ^ f.top = 2 ^ (f.p + f.top) + (2 ^ f.p - 1) * 2 ^ f.top by
          rw [Nat.pow_add _ f.p f.top, ← Nat.add_mul]; congr 1; omega]
        push_cast; rfl
      have h6 : (((2 ^ f.p - 1) * 2 ^ f.top : Nat) : Rat) < ((2 ^ (f.p + f.top) : Nat) : Rat) := by
        have : (2 ^ f.p - 1) * 2 ^ f.top < 2 ^ (f.p + f.top) := by
          rw [Nat.pow_add]; exact Nat.mul_lt_mul_of_pos_right (by omega) (Nat.two_pow_pos _)
        exact_mod_cast this
      rw [h5]
      generalize (((2 ^ f.p - 1) * 2 ^ f.top : Nat) : Rat) = a at *
      generalize ((2 ^ (f.p + f.top) : Nat) : Rat) = c at *
      generalize ((z * 2 ^ f.top : Nat) : Rat) = d at *
      unfold absR at h3
      grind
    · have h3 := hyl (by omega)
      have h4 : (((2 ^ (f.p + 1) - 1) * 2 ^ f.top : Nat) : Rat) ≤ ((2 * 2 ^ (f.p - 1 + k) : Nat) : Rat) := by
        have : (2 ^ (f.p + 1) - 1) * 2 ^ f.top ≤ 2 * 2 ^ (f.p - 1 + k) := by
          calc _ ≤ 2 ^ (f.p + 1) * 2 ^ f.top := Nat.mul_le_mul_right _ (by omega)
            _ = 2 ^ (f.p + 1 + f.top) := (Nat.pow_add ..).symm
            _ ≤ 2 ^ (f.p - 1 + k + 1) := Nat.pow_le_pow_right (by omega) (by have := hf.1; omega)
            _ = _ := by rw [Nat.pow_succ]; omega
        exact_mod_cast this
      have h5 : ((2 * 2 ^ (f.p - 1 + k) : Nat) : Rat) = 2 * ((2 ^ (f.p - 1 + k) : Nat) : Rat) := by
        push_cast; rfl
      grind
  · cases h

/-- A finite number beyond that middle is rounded to infinity. -/
theorem round_over {f : Fmt} (hf : f.Ok) {q : Rat}
    (h : (((2 ^ (f.p + 1) - 1) * 2 ^ f.top : Nat) : Rat) < 2 * (absR q * ((2 ^ f.scale : Nat) : Rat))) :
    f.round q = .inf (decide (q < 0)) := by
  rw [round_eq, if_pos]
  obtain ⟨k, z, he, hz, hzl, -, hyu, hn, -⟩ := units_parts hf (scaled_nonneg f q)
  rw [he]
  generalize absR q * ((2 ^ f.scale : Nat) : Rat) = y at *
  have hp1 : 0 < 2 ^ f.p := Nat.two_pow_pos _
  have hp2 : 2 ^ (f.p + 1) = 2 * 2 ^ f.p := by rw [Nat.pow_succ]; omega
  have hk : f.top ≤ k := by
    have h3 : (((2 ^ (f.p + 1) - 1) * 2 ^ f.top : Nat) : Rat) < ((2 * 2 ^ (f.p + k) : Nat) : Rat) := by
      have h5 : ((2 * 2 ^ (f.p + k) : Nat) : Rat) = 2 * ((2 ^ (f.p + k) : Nat) : Rat) := by
        push_cast; rfl
      grind
    have h4 : (2 ^ (f.p + 1) - 1) * 2 ^ f.top < 2 * 2 ^ (f.p + k) := by exact_mod_cast h3
    have h5 : 2 ^ f.p * 2 ^ f.top ≤ (2 ^ (f.p + 1) - 1) * 2 ^ f.top := Nat.mul_le_mul_right _ (by omega)
    rw [← Nat.pow_add] at h5
    have h6 : 2 ^ (f.p + f.top) < 2 ^ (f.p + k + 1) := by rw [Nat.pow_succ]; omega
    have := (Nat.pow_lt_pow_iff_right (a := 2) (by omega)).1 h6
    omega
  by_cases hkt : k = f.top
  · subst hkt
    have h3 := hn (2 ^ f.p)
    rw [← Nat.pow_add] at h3
    have h7 : z = 2 ^ f.p ∨ z ≤ 2 ^ f.p - 1 := by omega
    rcases h7 with rfl | h7
    · rw [Nat.pow_add]; exact Nat.le_refl _
    · exfalso
      have h4 : ((z * 2 ^ f.top : Nat) : Rat) ≤ (((2 ^ f.p - 1) * 2 ^ f.top : Nat) : Rat) := by
        exact_mod_cast Nat.mul_le_mul_right _ h7
      have h5 : (((2 ^ (f.p + 1) - 1) * 2 ^ f.top : Nat) : Rat) =
          ((2 ^ (f.p + f.top) : Nat) : Rat) + (((2 ^ f.p - 1) * 2 ^ f.top : Nat) : Rat) := by
        rw [show (2 ^ (f.p + 1) - 1) * 2 ^ f.top = 2 ^ (f.p + f.top) + (2 ^ f.p - 1) * 2 ^ f.top by
          rw [Nat.pow_add _ f.p f.top, ← Nat.add_mul]; congr 1; omega]
        push_cast; rfl
      rw [h5] at h
      generalize (((2 ^ f.p - 1) * 2 ^ f.top : Nat) : Rat) = a at *
      generalize ((2 ^ (f.p + f.top) : Nat) : Rat) = c at *
      generalize ((z * 2 ^ f.top : Nat) : Rat) = d at *
      unfold absR at h3
      grind
  · have h1 := Nat.mul_le_mul_right (2 ^ k) (hzl (by omega))
    rw [← Nat.pow_add] at h1
    exact Nat.le_trans (Nat.pow_le_pow_right (by omega) (by have := hf.1; omega)) h1

end Verif.Float
