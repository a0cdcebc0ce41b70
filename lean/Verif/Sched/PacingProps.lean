import Verif.Sched.Pacing
import Verif.Mem.FloatProps

/-!
C129: simulation time against Zulu time.
-/
namespace Verif.Sched.Pacing
open Verif.Any (Fl)
open Verif.Float

/-! ### What the statements speak of -/

/-- The Zulu clock, read in the order of the program from `z` on, never goes back. -/
def Clock : Int → List Turn → Prop
  | _, [] => True
  | z, t :: ts => z ≤ t.z1 ∧ t.z1 ≤ t.z2 ∧ t.z2 ≤ t.change ∧ Clock t.change ts

/-- The slots are reached in ascending order, the first not before `sim`. -/
def Slots : Int → List Turn → Prop
  | _, [] => True
  | sim, t :: ts => sim ≤ t.slot ∧ Slots t.slot ts

/-- No two consecutive slots are further apart than `2^53` ns (104 days) of simulation time, and
they are less than `2^53` ns of Zulu time apart at speed `s`. -/
def Near (s : Rat) : Int → List Turn → Prop
  | _, [] => True
  | sim, t :: ts => t.slot - sim ≤ 2 ^ 53 ∧ ((t.slot - sim : Int) : Rat) < 2 ^ 53 * s ∧
      Near s t.slot ts

/-- A wait of `d > 0` nanoseconds is over no earlier than that. -/
def Waited (ts : List Turn) (ds : List Int) : Prop :=
  ∀ (k : Nat) (t : Turn) (d : Int), ts[k]? = some t → ds[k]? = some d → 0 < d → t.z2 + d ≤ t.change

/-- The simulation time is set at most `e` nanoseconds after the wait, if there is one. -/
def Prompt (e : Int) (ts : List Turn) (ds : List Int) : Prop :=
  ∀ (k : Nat) (t : Turn) (d : Int), ts[k]? = some t → ds[k]? = some d → t.change ≤ t.z2 + max d 0 + e

/-- The time lost between the two readings of the clock, in the turns `ts`. -/
def gaps (ts : List Turn) : Int := (ts.map fun t => t.z2 - t.z1).sum

/-! ### Rounding -/

theorem has_int {n : Int} (h0 : 0 ≤ n) (h : n ≤ 2 ^ 53) : f64.Has (.fin (n : Rat)) := by
  refine (float64_iff _).1 ?_
  obtain ⟨m, rfl⟩ := Int.eq_ofNat_of_zero_le h0
  by_cases e : m = 2 ^ 53
  · subst e
    exact ⟨2 ^ 52, 1, by decide, by decide, by decide, .inl (by decide +kernel)⟩
  · refine ⟨m, 0, by omega, by decide, by decide, .inl ?_⟩
    rw [Rat.zpow_zero, Rat.mul_one]; rfl

theorem has_pow {k : Nat} (h : k ≤ 63) : f64.Has (.fin ((2 ^ k : Nat) : Rat)) := by
  refine (float64_iff _).1 ⟨1, k, by decide, by omega, by omega, .inl ?_⟩
  rw [Rat.zpow_natCast]; push_cast; exact (Rat.one_mul _).symm

theorem round_ge {q r n : Rat} (hr : f64.round q = .fin r) (hn : f64.Has (.fin n)) (h : n ≤ q) :
    n ≤ r := by
  have := round_nearest ok64 hr hn
  unfold absR at this; grind

theorem round_le {q r n : Rat} (hr : f64.round q = .fin r) (hn : f64.Has (.fin n)) (h : q ≤ n) :
    r ≤ n := by
  have := round_nearest ok64 hr hn
  unfold absR at this; grind

theorem round_fin {q : Rat} {k : Nat} (hk : k ≤ 63) (h0 : 0 ≤ q) (h : q ≤ ((2 ^ k : Nat) : Rat)) :
    ∃ r, f64.round q = .fin r := by
  rw [round_eq]
  split
  · rename_i hc
    exfalso
    have hm : f64.Mag (2 ^ k * 2 ^ f64.scale) := by
      refine ⟨1, k + f64.scale, by decide, ?_, by rw [Nat.pow_add, Nat.one_mul]⟩
      have e1 : f64.scale = 1074 := by decide
      have e2 : f64.top = 2045 := by decide
      omega
    have hq : absR q = q := by unfold absR; grind
    have hn := units_nearest ok64 (scaled_nonneg f64 q) hm
    have hl := Mag.lt hm
    have hle : q * ((2 ^ f64.scale : Nat) : Rat) ≤ ((2 ^ k * 2 ^ f64.scale : Nat) : Rat) := by
      rw [Rat.natCast_mul]
      exact Rat.mul_le_mul_of_nonneg_right h (Rat.le_of_lt (two_pow_pos' _))
    rw [hq] at hn hc
    generalize f64.units (q * ((2 ^ f64.scale : Nat) : Rat)) = u at hn hc
    generalize q * ((2 ^ f64.scale : Nat) : Rat) = y at hn hle
    generalize 2 ^ k * 2 ^ f64.scale = N at hn hle hl
    have : (u : Rat) ≤ (N : Rat) := by unfold absR at hn; grind
    have : u ≤ N := by exact_mod_cast this
    omega
  · exact ⟨_, rfl⟩

theorem int_le_floor {n : Int} {r : Rat} (h : (n : Rat) ≤ r) : n ≤ r.floor := Rat.le_floor_iff.2 h

theorem toD_small {d : Int} (h0 : 0 ≤ d) (h : d ≤ 2 ^ 53) : toD d = .fin (d : Rat) :=
  round_self ok64 (has_int h0 h)

theorem castD_of {r : Rat} {m : Int} (h0 : 0 ≤ r) (hm : r ≤ (m : Rat)) (hb : m < 2 ^ 63) :
    castD (.fin r) = some r.floor := by
  have h1 : (0 : Int) ≤ r.floor := int_le_floor (by exact_mod_cast h0)
  have h2 : (r.floor : Rat) ≤ (m : Rat) := Rat.le_trans (Rat.floor_le r) hm
  have h2 : r.floor ≤ m := by exact_mod_cast h2
  unfold castD i64
  dsimp only
  rw [if_neg (Rat.not_lt.2 h0), if_pos ⟨by omega, by omega⟩]

/-- The time given to a duration: at most one nanosecond from the exact quotient. -/
theorem scaled_near {s : Rat} (hs : 0 < s) {d : Int} (h0 : 0 ≤ d) (h : d ≤ 2 ^ 53)
    (hq : (d : Rat) < 2 ^ 53 * s) :
    ∃ a, scaled (.fin s) d = some a ∧ 0 ≤ a ∧ a ≤ 2 ^ 53 ∧ (d : Rat) / s - 1 ≤ a ∧
      (a : Rat) ≤ (d : Rat) / s + 1 := by
  have hs0 : s ≠ 0 := by intro e; rw [e] at hs; exact absurd hs (by decide)
  have hd : (0 : Rat) ≤ (d : Rat) := by exact_mod_cast h0
  have hq0 : 0 ≤ (d : Rat) / s := by
    rw [Rat.div_def]; exact Rat.mul_nonneg hd (Rat.le_of_lt (Rat.inv_pos.2 hs))
  have hq1 : (d : Rat) / s < 2 ^ 53 := by
    refine Rat.not_le.1 fun hc => Rat.not_le.2 hq ?_
    have := Rat.mul_le_mul_of_nonneg_right hc (Rat.le_of_lt hs)
    rwa [Rat.div_mul_cancel hs0] at this
  unfold scaled
  rw [toD_small h0 h]
  unfold divD
  dsimp only
  rw [if_neg hs0]
  generalize (d : Rat) / s = q at *
  have e53 : ((2 ^ 53 : Nat) : Rat) = 2 ^ 53 := by decide +kernel
  obtain ⟨r, hr⟩ := round_fin (k := 53) (by decide) hq0 (by rw [e53]; exact Rat.le_of_lt hq1)
  rw [hr]
  have f0 : (0 : Int) ≤ q.floor := int_le_floor (by exact_mod_cast hq0)
  have f1 := Rat.floor_le q
  have f2 := Rat.lt_floor_add_one q
  have f3 : q.floor < 2 ^ 53 := by
    have : (q.floor : Rat) < ((2 ^ 53 : Int) : Rat) := by
      have e : ((2 ^ 53 : Int) : Rat) = 2 ^ 53 := by decide +kernel
      rw [e]; exact Std.lt_of_le_of_lt f1 hq1
    exact_mod_cast this
  have g1 : (q.floor : Rat) ≤ r := round_ge hr (has_int f0 (by omega)) f1
  have e : ((q.floor + 1 : Int) : Rat) = (q.floor : Rat) + 1 := by push_cast; rfl
  have g2 : r ≤ ((q.floor + 1 : Int) : Rat) :=
    round_le hr (has_int (by omega) (by omega)) (Rat.le_of_lt f2)
  have g0 : 0 ≤ r := by
    have : (0 : Rat) ≤ (q.floor : Rat) := by exact_mod_cast f0
    exact Rat.le_trans this g1
  have a1 : q.floor ≤ r.floor := int_le_floor g1
  have a2 : r.floor ≤ q.floor + 1 := by
    have := Rat.le_trans (Rat.floor_le r) g2
    exact_mod_cast this
  refine ⟨_, castD_of g0 g2 (by omega), by omega, by omega, ?_, ?_⟩
  · have : (q.floor : Rat) ≤ (r.floor : Rat) := by exact_mod_cast a1
    grind
  · have : (r.floor : Rat) ≤ ((q.floor + 1 : Int) : Rat) := by exact_mod_cast a2
    rw [e] at this
    grind

/-- At speed 1 the time given is the duration. -/
theorem scaled_one {d : Int} (h0 : 0 ≤ d) (h : d ≤ 2 ^ 53) : scaled (.fin 1) d = some d := by
  unfold scaled
  rw [toD_small h0 h]
  unfold divD
  dsimp only
  rw [if_neg (by decide), Rat.div_def, show (1 : Rat)⁻¹ = 1 by decide +kernel, Rat.mul_one]
  show castD (toD d) = _
  rw [toD_small h0 h, castD_of (m := d) (by exact_mod_cast h0) Rat.le_refl (by omega)]
  congr 1

/-! ### The turns -/

theorem i64_eq {z a : Int} (h : i64 z = some a) : a = z := by
  unfold i64 at h; split at h <;> simp_all

theorem turn_eq {speed : Fl} {p p' : Pace} {t : Turn} (h : turn speed p t = some p') :
    ∃ a, scaled speed (t.slot - p.sim) = some a ∧
      p' = ⟨t.z2, p.delay + (a - (t.z1 - p.start)), t.slot⟩ := by
  unfold turn at h
  simp only [Option.bind_eq_bind, Option.bind_eq_some_iff, Option.pure_def] at h
  obtain ⟨d, hd, a, ha, b, hb, c, hc, e, he, hp⟩ := h
  have := i64_eq hd; subst this
  have := i64_eq hb; subst this
  have := i64_eq hc; subst this
  have := i64_eq he; subst this
  exact ⟨a, ha, (Option.some.inj hp).symm⟩

theorem delays_cons {speed : Fl} {p : Pace} {t : Turn} {ts : List Turn} {ds : List Int}
    (h : delays speed p (t :: ts) = some ds) :
    ∃ p' ds', turn speed p t = some p' ∧ delays speed p' ts = some ds' ∧ ds = p'.delay :: ds' := by
  unfold delays at h
  simp only [Option.bind_eq_bind, Option.bind_eq_some_iff, Option.pure_def] at h
  obtain ⟨p', hp, ds', hd, e⟩ := h
  exact ⟨p', ds', hp, hd, (Option.some.inj e).symm⟩

/-- What is needed of the time given to a duration: within `c` of the exact quotient. -/
def Close (s c : Rat) : Int → List Turn → Prop
  | _, [] => True
  | sim, t :: ts => (∀ a, scaled (.fin s) (t.slot - sim) = some a →
      ((t.slot - sim : Int) : Rat) / s - c ≤ a ∧ (a : Rat) ≤ ((t.slot - sim : Int) : Rat) / s + c) ∧
      Close s c t.slot ts

theorem close_near {s : Rat} (hs : 0 < s) : ∀ {sim : Int} {ts : List Turn}, Slots sim ts →
    Near s sim ts → Close s 1 sim ts
  | _, [], _, _ => trivial
  | sim, t :: ts, hS, hN => by
    refine ⟨fun a ha => ?_, close_near hs hS.2 hN.2.2⟩
    have := hS.1
    obtain ⟨b, hb, -, -, h1, h2⟩ := scaled_near hs (d := t.slot - sim) (by omega) hN.1 hN.2.1
    rw [hb] at ha; cases ha
    exact ⟨h1, h2⟩

theorem close_one : ∀ {sim : Int} {ts : List Turn}, Slots sim ts →
    Near 1 sim ts → Close 1 0 sim ts
  | _, [], _, _ => trivial
  | sim, t :: ts, hS, hN => by
    refine ⟨fun a ha => ?_, close_one hS.2 hN.2.2⟩
    have := hS.1
    rw [scaled_one (by omega) hN.1] at ha; cases ha
    rw [Rat.div_def, show (1 : Rat)⁻¹ = 1 by decide +kernel, Rat.mul_one]
    constructor <;> grind

theorem sub_div (a b c : Int) (s : Rat) :
    ((a - c : Int) : Rat) / s = ((a - b : Int) : Rat) / s + ((b - c : Int) : Rat) / s := by
  rw [Rat.div_def, Rat.div_def, Rat.div_def, ← Rat.add_mul]
  congr 1
  push_cast
  grind

theorem lower {s c : Rat} : ∀ (ts : List Turn) (p : Pace) (ds : List Int) (z : Int),
    delays (.fin s) p ts = some ds → Clock z ts → Waited ts ds → Close s c p.sim ts →
    ∀ (k : Nat) t, ts[k]? = some t →
      ((t.slot - p.sim : Int) : Rat) / s ≤
        ((t.change - p.start - p.delay : Int) : Rat) + c * ((k + 1 : Nat) : Rat)
  | [], _, _, _, _, _, _, _, k, t, ht => by simp at ht
  | u :: ts, p, ds, z, h, hC, hW, hR, k, t, ht => by
    obtain ⟨p', ds', hp, hd, rfl⟩ := delays_cons h
    obtain ⟨a, ha, rfl⟩ := turn_eq hp
    obtain ⟨r1, -⟩ := hR.1 a ha
    obtain ⟨-, c2, c3, c4⟩ := hC
    cases k with
    | zero =>
      cases (Option.some.inj (by simpa using ht) : u = t)
      have hw := hW 0 u _ rfl rfl
      dsimp only at hw
      have : p.delay + a + p.start ≤ u.change := by omega
      have : ((p.delay + a + p.start : Int) : Rat) ≤ (u.change : Rat) := by exact_mod_cast this
      push_cast at this r1 ⊢
      grind
    | succ k =>
      have ih := lower ts _ ds' _ hd c4 (fun k t d h1 h2 => hW (k + 1) t d h1 h2) hR.2 k t
        (by simpa using ht)
      dsimp only at ih
      rw [sub_div _ u.slot]
      have : t.change - u.z2 - (p.delay + (a - (u.z1 - p.start))) ≤
        t.change - p.start - p.delay - a := by omega
      have : ((t.change - u.z2 - (p.delay + (a - (u.z1 - p.start))) : Int) : Rat) ≤
        ((t.change - p.start - p.delay - a : Int) : Rat) := by exact_mod_cast this
      generalize ((t.change - u.z2 - (p.delay + (a - (u.z1 - p.start))) : Int) : Rat) = X at *
      generalize ((t.slot - u.slot : Int) : Rat) / s = Y at *
      generalize ((u.slot - p.sim : Int) : Rat) / s = Z at *
      push_cast at this ih ⊢
      grind

theorem upper {s c : Rat} : ∀ (ts : List Turn) (p : Pace) (ds : List Int),
    delays (.fin s) p ts = some ds → Close s c p.sim ts →
    ∀ (k : Nat) t d, ts[k]? = some t → ds[k]? = some d →
      ((t.z2 + d - p.start - p.delay - gaps (ts.take (k + 1)) : Int) : Rat) ≤
      ((t.slot - p.sim : Int) : Rat) / s + c * ((k + 1 : Nat) : Rat)
  | [], _, _, _, _, k, t, d, ht, _ => by simp at ht
  | u :: ts, p, ds, h, hR, k, t, d, ht, hd => by
    obtain ⟨p', ds', hp, hds, rfl⟩ := delays_cons h
    obtain ⟨a, ha, rfl⟩ := turn_eq hp
    obtain ⟨-, r2⟩ := hR.1 a ha
    cases k with
    | zero =>
      cases (Option.some.inj (by simpa using ht) : u = t)
      cases (Option.some.inj (by simpa using hd) : _ = d)
      have e : u.z2 + (p.delay + (a - (u.z1 - p.start))) - p.start - p.delay -
          gaps ((u :: ts).take (0 + 1)) = a := by
        simp [gaps]; omega
      rw [e]
      push_cast at r2 ⊢
      grind
    | succ k =>
      have ih := upper ts _ ds' hds hR.2 k t d (by simpa using ht) (by simpa using hd)
      dsimp only at ih
      rw [sub_div _ u.slot]
      have e : t.z2 + d - p.start - p.delay - gaps ((u :: ts).take (k + 1 + 1)) =
          t.z2 + d - u.z2 - (p.delay + (a - (u.z1 - p.start))) - gaps (ts.take (k + 1)) + a := by
        simp [gaps]; omega
      rw [e]
      generalize t.z2 + d - u.z2 - (p.delay + (a - (u.z1 - p.start))) - gaps (ts.take (k + 1)) = X at *
      generalize ((t.slot - u.slot : Int) : Rat) / s = Y at *
      generalize ((u.slot - p.sim : Int) : Rat) / s = Z at *
      push_cast at r2 ih ⊢
      grind

/-! ### The claims -/

/-- **C129**, the simulation is never ahead: when the simulation time is set to that of the
`k`-th slot, Zulu time has advanced by the simulation time passed divided by the speed, up to one
nanosecond a turn. -/
theorem C129_not_ahead (s : Rat) (hs : 0 < s) (sim0 zulu0 : Int) (ts : List Turn) (ds : List Int)
    (h : delays (.fin s) (begin0 sim0 zulu0) ts = some ds) (hC : Clock zulu0 ts)
    (hS : Slots sim0 ts) (hN : Near s sim0 ts) (hW : Waited ts ds)
    (k : Nat) (t : Turn) (ht : ts[k]? = some t) :
    ((t.slot - sim0 : Int) : Rat) / s ≤ ((t.change - zulu0 : Int) : Rat) + ((k + 1 : Nat) : Rat) := by
  have := lower ts _ ds _ h hC hW (close_near hs hS hN) k t ht
  dsimp only [begin0] at this
  rw [Rat.one_mul, Int.sub_zero] at this
  exact this

/-- At speed 1 there is no rounding: simulation time never passes faster than Zulu time. -/
theorem C129_real_time (sim0 zulu0 : Int) (ts : List Turn) (ds : List Int)
    (h : delays (.fin 1) (begin0 sim0 zulu0) ts = some ds) (hC : Clock zulu0 ts)
    (hS : Slots sim0 ts) (hN : Near 1 sim0 ts) (hW : Waited ts ds)
    (k : Nat) (t : Turn) (ht : ts[k]? = some t) :
    t.slot - sim0 ≤ t.change - zulu0 := by
  have := lower ts _ ds _ h hC hW (close_one hS hN) k t ht
  dsimp only [begin0] at this
  rw [Rat.div_def, show (1 : Rat)⁻¹ = 1 by decide +kernel, Rat.mul_one, Rat.zero_mul, Rat.add_zero,
    Int.sub_zero] at this
  exact_mod_cast this

/-- **C129**, and never behind without need: the simulation time is set at once, or when Zulu time
has advanced by no more than the simulation time passed divided by the speed, up to one nanosecond
a turn and the time lost between the two readings of the clock in each turn. -/
theorem C129_catches_up (s : Rat) (hs : 0 < s) (sim0 zulu0 e : Int) (ts : List Turn) (ds : List Int)
    (h : delays (.fin s) (begin0 sim0 zulu0) ts = some ds)
    (hS : Slots sim0 ts) (hN : Near s sim0 ts) (hP : Prompt e ts ds)
    (k : Nat) (t : Turn) (ht : ts[k]? = some t) :
    t.change ≤ t.z2 + e ∨
    ((t.change - zulu0 : Int) : Rat) ≤ ((t.slot - sim0 : Int) : Rat) / s + ((k + 1 : Nat) : Rat) +
      ((gaps (ts.take (k + 1)) + e : Int) : Rat) := by
  have hlen : ∀ (ts : List Turn) (p : Pace) (ds : List Int), delays (.fin s) p ts = some ds →
      ds.length = ts.length := by
    intro ts
    induction ts with
    | nil => intro p ds h; cases h; rfl
    | cons u ts ih =>
      intro p ds h
      obtain ⟨p', ds', -, hd, rfl⟩ := delays_cons h
      simp [ih _ _ hd]
  have hk : k < ds.length := by
    rw [hlen _ _ _ h]; exact (List.getElem?_eq_some_iff.1 ht).1
  have hd : ds[k]? = some ds[k] := List.getElem?_eq_getElem hk
  have hp := hP k t _ ht hd
  have := upper ts _ ds h (close_near hs hS hN) k t _ ht hd
  dsimp only [begin0] at this
  by_cases h0 : 0 < ds[k]
  · right
    rw [Rat.one_mul, Int.sub_zero] at this
    have h1 : t.change - zulu0 ≤ t.z2 + ds[k] - zulu0 - gaps (ts.take (k + 1)) +
      (gaps (ts.take (k + 1)) + e) := by omega
    have h1 : ((t.change - zulu0 : Int) : Rat) ≤ ((t.z2 + ds[k] - zulu0 - gaps (ts.take (k + 1)) +
      (gaps (ts.take (k + 1)) + e) : Int) : Rat) := by exact_mod_cast h1
    rw [Rat.intCast_add (t.z2 + ds[k] - zulu0 - gaps (ts.take (k + 1)))] at h1
    exact Rat.le_trans h1 (Rat.add_le_add_right.2 this)
  · left; omega

/-! Two turns at double speed: the waits are of 40 and 92 nanoseconds. -/
def sample : List Turn := [⟨100, 1010, 1012, 1055⟩, ⟨300, 1060, 1061, 1154⟩]

theorem sample_delays : delays (.fin 2) (begin0 0 1000) sample = some [40, 92] := by decide +kernel

theorem sample_waits : Waited sample [40, 92] ∧ Prompt 3 sample [40, 92] := by
  have key : ∀ (k : Nat) (t : Turn) (d : Int), sample[k]? = some t → ([40, 92] : List Int)[k]? = some d →
      (t = ⟨100, 1010, 1012, 1055⟩ ∧ d = 40) ∨ (t = ⟨300, 1060, 1061, 1154⟩ ∧ d = 92) := by
    intro k t d h1 h2
    match k, h1, h2 with
    | 0, h1, h2 => cases h1; cases h2; exact .inl ⟨rfl, rfl⟩
    | 1, h1, h2 => cases h1; cases h2; exact .inr ⟨rfl, rfl⟩
    | k + 2, h1, h2 => simp at h2
  constructor
  · intro k t d h1 h2 _
    rcases key k t d h1 h2 with ⟨rfl, rfl⟩ | ⟨rfl, rfl⟩ <;> decide
  · intro k t d h1 h2
    rcases key k t d h1 h2 with ⟨rfl, rfl⟩ | ⟨rfl, rfl⟩ <;> decide

theorem sample_turns : Clock 1000 sample ∧ Slots 0 sample ∧ Near 2 0 sample := by
  refine ⟨?_, ?_, ?_⟩
  · simp [Clock, sample]
  · simp [Slots, sample]
  · refine ⟨by decide, by decide +kernel, by decide, by decide +kernel, trivial⟩

example : ((300 - 0 : Int) : Rat) / 2 ≤ ((1154 - 1000 : Int) : Rat) + ((1 + 1 : Nat) : Rat) :=
  C129_not_ahead 2 (by decide +kernel) 0 1000 sample _ sample_delays sample_turns.1 sample_turns.2.1
    sample_turns.2.2 sample_waits.1 1 ⟨300, 1060, 1061, 1154⟩ rfl

example := C129_catches_up 2 (by decide +kernel) 0 1000 3 sample _ sample_delays sample_turns.2.1
  sample_turns.2.2 sample_waits.2 1 ⟨300, 1060, 1061, 1154⟩ rfl

/-- One turn at speed 1. -/
example : (100 : Int) - 0 ≤ 1102 - 1000 :=
  C129_real_time 0 1000 [⟨100, 1010, 1012, 1102⟩] [90] (by decide +kernel) (by simp [Clock])
    (by simp [Slots]) ⟨by decide, by decide +kernel, trivial⟩
    (by
      intro k t d h1 h2 _
      match k, h1, h2 with
      | 0, h1, h2 => cases h1; cases h2; decide
      | k + 1, h1, h2 => simp at h2) 0 ⟨100, 1010, 1012, 1102⟩ rfl

/-! ### The target speed -/

theorem lit_hundredth : ∃ q, lit (1 / 100) = .fin q ∧ 1 / 100 ≤ q ∧ q ≤ 100 := by
  obtain ⟨q, hq⟩ := round_fin (q := 1 / 100) (k := 1) (by decide) (by decide +kernel) (by decide +kernel)
  refine ⟨q, hq, ?_, ?_⟩
  · have e : f64.round (1 / 100) = .fin (5764607523034235 / 2 ^ 59) := by decide +kernel
    rw [e] at hq
    cases hq
    decide +kernel
  · have := round_le hq (has_int (n := 100) (by decide) (by decide)) (by decide +kernel)
    exact_mod_cast this

theorem lit_hundred : lit 100 = .fin 100 := by
  have := round_self ok64 (has_int (n := 100) (by decide) (by decide))
  exact_mod_cast this

/-- **C129**, the speed kept is between one hundredth and one hundred, and it is the one asked for
when that lies between these bounds. Partial: a NaN is kept as it is (`C129_nan_fails`). -/
theorem C129_speed_partial (x : Fl) (hx : x ≠ .nan) :
    (∃ q, setTargetSpeed x = .fin q ∧ 1 / 100 ≤ q ∧ q ≤ 100) ∧
    (∀ q, x = .fin q → Float64 q → 1 / 100 ≤ q → q ≤ 100 → setTargetSpeed x = x) ∧
    (∀ q, x = .fin q → 100 < q → setTargetSpeed x = .fin 100) ∧
    (∀ q, x = .fin q → q < 1 / 100 → setTargetSpeed x = lit (1 / 100)) := by
  obtain ⟨h, hh, h1, h2⟩ := lit_hundredth
  unfold setTargetSpeed
  rw [hh, lit_hundred]
  refine ⟨?_, ?_, ?_, ?_⟩
  · cases x with
    | nan => exact absurd rfl hx
    | inf n =>
      cases n
      · exact ⟨100, by simp [ltD], by decide +kernel, by decide +kernel⟩
      · exact ⟨h, by simp [ltD], h1, h2⟩
    | fin q =>
      simp only [ltD, decide_eq_true_eq]
      by_cases c1 : q < h
      · exact ⟨h, by rw [if_pos c1], h1, h2⟩
      · rw [if_neg c1]
        by_cases c2 : 100 < q
        · exact ⟨100, by rw [if_pos c2], by decide +kernel, by decide +kernel⟩
        · exact ⟨q, by rw [if_neg c2], Rat.le_trans h1 (Rat.not_lt.1 c1), Rat.not_lt.1 c2⟩
  · rintro q rfl hf g1 g2
    simp only [ltD, decide_eq_true_eq]
    have hn := round_nearest ok64 (show f64.round (1 / 100) = .fin h from hh) ((float64_iff q).1 hf)
    rw [if_neg (by unfold absR at hn; grind), if_neg (Rat.not_lt.2 g2)]
  · rintro q rfl g
    simp only [ltD, decide_eq_true_eq]
    rw [if_neg (by grind), if_pos g]
  · rintro q rfl g
    simp only [ltD, decide_eq_true_eq]
    rw [if_pos (by grind)]

example : setTargetSpeed (.fin 2) = .fin 2 :=
  (C129_speed_partial (.fin 2) (by decide)).2.1 2 rfl
    ((float64_iff 2).2 (by have := has_int (n := 2) (by decide) (by decide); exact_mod_cast this))
    (by decide +kernel) (by decide +kernel)
example : setTargetSpeed (.fin 1000) = .fin 100 :=
  (C129_speed_partial (.fin 1000) (by decide)).2.2.1 1000 rfl (by decide +kernel)

/-- A NaN passes both comparisons of `SetTargetSpeed`, and the first turn of a run converts a NaN
to an integer. -/
theorem C129_nan_fails : setTargetSpeed .nan = .nan ∧ ∀ p t, turn .nan p t = none := by
  constructor
  · obtain ⟨h, hh, -, -⟩ := lit_hundredth
    unfold setTargetSpeed
    rw [hh, lit_hundred]
    rfl
  · intro p t
    cases ht : turn .nan p t with
    | none => rfl
    | some p' =>
      obtain ⟨a, ha, -⟩ := turn_eq ht
      exfalso
      unfold scaled at ha
      have : ∀ x, divD x .nan = .nan := by intro x; cases x <;> rfl
      rw [this] at ha
      cases ha

/-! ### Undefined behaviour -/

/-- A run has no undefined behaviour as long as its slots are `Near`, its Zulu times are less than
`2^62` (146 years from the epoch of Zulu time) and the run is to last less than `2^61` ns (73 years
of Zulu time). Partial: the last slot, that of the hold event, is not `Near` (`C129_end_fails`). -/
theorem C129_defined_partial (s : Rat) (hs : 0 < s) (sim0 zulu0 : Int) (ts : List Turn)
    (h0 : 0 ≤ zulu0) (hC : Clock zulu0 ts) (hS : Slots sim0 ts) (hN : Near s sim0 ts)
    (hz : ∀ t ∈ ts, t.change ≤ 2 ^ 62)
    (hl : ∀ t ∈ ts, ((t.slot - sim0 : Int) : Rat) / s + (ts.length : Rat) ≤ 2 ^ 61) :
    ∃ ds, delays (.fin s) (begin0 sim0 zulu0) ts = some ds := by
  have key : ∀ (ts : List Turn) (p : Pace) (z U : Int), 0 ≤ p.start → p.start ≤ z → Clock z ts →
      Slots p.sim ts → Near s p.sim ts → (∀ t ∈ ts, t.change ≤ 2 ^ 62) → 0 ≤ U →
      (∀ t ∈ ts, (U : Rat) + ((t.slot - p.sim : Int) : Rat) / s + (ts.length : Rat) ≤ 2 ^ 61) →
      -p.start ≤ p.delay → p.delay ≤ p.start + U →
      ∃ ds, delays (.fin s) p ts = some ds := by
    intro ts
    induction ts with
    | nil => intros; exact ⟨[], rfl⟩
    | cons u ts ih =>
      intro p z U h0 hz0 hC hS hN hz hU hl hd1 hd2
      obtain ⟨c1, c2, c3, c4⟩ := hC
      obtain ⟨s1, s2⟩ := hS
      obtain ⟨n1, n2, n3⟩ := hN
      obtain ⟨a, ha, a0, a1, a2, a3⟩ := scaled_near hs (d := u.slot - p.sim) (by omega) n1 n2
      have b1 := hz u (by simp)
      have b2 := hl u (by simp)
      have e61 : ((2 ^ 61 : Int) : Rat) = 2 ^ 61 := by decide +kernel
      have e62 : (2 : Rat) ^ 61 ≤ ((2 ^ 61 : Int) : Rat) := by rw [e61]; exact Rat.le_refl
      have hUa : U + a ≤ 2 ^ 61 := by
        have : ((U + a : Int) : Rat) ≤ ((2 ^ 61 : Int) : Rat) := by
          have hlen : (1 : Rat) ≤ (((u :: ts).length : Nat) : Rat) := by
            have : 1 ≤ (u :: ts).length := by simp
            exact_mod_cast this
          rw [e61]
          push_cast
          generalize (((u :: ts).length : Nat) : Rat) = L at *
          generalize ((u.slot - p.sim : Int) : Rat) / s = Y at *
          generalize (2 : Rat) ^ 61 = P at *
          grind
        exact_mod_cast this
      have ht : turn (.fin s) p u = some ⟨u.z2, p.delay + (a - (u.z1 - p.start)), u.slot⟩ := by
        unfold turn i64
        rw [if_pos (by omega)]
        simp only [Option.bind_eq_bind, Option.bind_some]
        rw [ha]
        simp only [Option.bind_some]
        rw [if_pos (by omega)]
        simp only [Option.bind_some]
        rw [if_pos (by omega)]
        simp only [Option.bind_some]
        rw [if_pos (by omega)]
        rfl
      obtain ⟨ds, hds⟩ := ih ⟨u.z2, p.delay + (a - (u.z1 - p.start)), u.slot⟩ u.change (U + a)
        (by dsimp only; omega) c3 c4 s2 n3 (fun t ht => hz t (by simp [ht])) (by omega)
        (by
          intro t ht
          have := hl t (by simp [ht])
          rw [sub_div _ u.slot] at this
          dsimp only
          rw [List.length_cons] at this
          generalize ((t.slot - u.slot : Int) : Rat) / s = Y at *
          generalize ((u.slot - p.sim : Int) : Rat) / s = Z at *
          generalize (2 : Rat) ^ 61 = P at *
          push_cast at this ⊢
          grind)
        (by dsimp only; omega) (by dsimp only; omega)
      refine ⟨(p.delay + (a - (u.z1 - p.start))) :: ds, ?_⟩
      rw [delays, ht]
      simp only [Option.bind_eq_bind, Option.bind_some]
      rw [hds]
      rfl
  refine key ts (begin0 sim0 zulu0) zulu0 0 h0 (Int.le_refl _) hC hS hN hz (Int.le_refl _) ?_ ?_ ?_
  · intro t ht
    have := hl t ht
    rw [show ((0 : Int) : Rat) = 0 from rfl, Rat.zero_add]
    exact this
  · show -zulu0 ≤ 0; omega
  · show 0 ≤ zulu0 + 0; omega

example : ∃ ds, delays (.fin 2) (begin0 0 1000) sample = some ds :=
  C129_defined_partial 2 (by decide +kernel) 0 1000 sample (by decide) sample_turns.1
    sample_turns.2.1 sample_turns.2.2 (by decide) (by decide +kernel)

/-- At half speed or less, a run that gets to the last slot of the table, that of the hold event at
the largest duration, has undefined behaviour: the time to wait does not fit. -/
theorem C129_end_fails (s : Rat) (hs : 0 < s) (h : s ≤ 1 / 2) (p : Pace) (t : Turn)
    (hp : 0 ≤ p.sim) (hp2 : p.sim < 2 ^ 62) (ht : t.slot = 2 ^ 63 - 1) :
    turn (.fin s) p t = none := by
  cases e : turn (.fin s) p t with
  | none => rfl
  | some p' =>
    exfalso
    obtain ⟨a, ha, -⟩ := turn_eq e
    have hs0 : s ≠ 0 := by intro e; rw [e] at hs; exact absurd hs (by decide)
    have d1 : 2 ^ 62 ≤ t.slot - p.sim := by omega
    have d2 : t.slot - p.sim ≤ 2 ^ 63 := by omega
    generalize t.slot - p.sim = d at *
    have q1 : ((2 ^ 62 : Nat) : Rat) ≤ (d : Rat) := by
      rw [show ((2 ^ 62 : Nat) : Rat) = ((2 ^ 62 : Int) : Rat) by decide +kernel]
      exact Rat.intCast_le_intCast.2 d1
    have q2 : (d : Rat) ≤ ((2 ^ 63 : Nat) : Rat) := by
      rw [show ((2 ^ 63 : Nat) : Rat) = ((2 ^ 63 : Int) : Rat) by decide +kernel]
      exact Rat.intCast_le_intCast.2 d2
    obtain ⟨x, hx⟩ := round_fin (k := 63) (q := (d : Rat)) (by decide)
      (Rat.le_trans (by decide +kernel) q1) q2
    have hx1 : ((2 ^ 62 : Nat) : Rat) ≤ x := round_ge hx (has_pow (k := 62) (by decide)) q1
    unfold scaled toD at ha
    rw [hx] at ha
    unfold divD at ha
    dsimp only at ha
    rw [if_neg hs0] at ha
    have hq : ((2 ^ 63 : Nat) : Rat) ≤ x / s := by
      refine mul_le_cancel hs ?_
      rw [Rat.div_mul_cancel hs0]
      refine Rat.le_trans (Rat.mul_le_mul_of_nonneg_left h (by decide +kernel)) ?_
      exact Rat.le_trans (by decide +kernel) hx1
    cases hr : f64.round (x / s) with
    | nan => rw [hr] at ha; cases ha
    | inf n => rw [hr] at ha; cases ha
    | fin r =>
      rw [hr] at ha
      have hr1 : ((2 ^ 63 : Nat) : Rat) ≤ r := round_ge hr (has_pow (k := 63) (by decide)) hq
      have hf : (2 ^ 63 : Int) ≤ r.floor := int_le_floor (by exact_mod_cast hr1)
      have h0 : ¬ r < 0 := Rat.not_lt.2 (Rat.le_trans (by decide +kernel) hr1)
      unfold castD i64 at ha
      dsimp only at ha
      rw [if_neg h0, if_neg (by omega)] at ha
      cases ha

example : turn (.fin (1 / 4)) (begin0 1000 5000) ⟨2 ^ 63 - 1, 5001, 5002, 5003⟩ = none :=
  C129_end_fails _ (by decide +kernel) (by decide +kernel) _ _ (by decide) (by decide) (by decide)

/-- At the speed of a new scheduler the last slot is awaited, for three years. -/
theorem C129_end_default : delays defaultSpeed (begin0 0 1000) [⟨2 ^ 63 - 1, 1000, 1000, 2000⟩] =
    some [92233720368547760] := by decide +kernel

end Verif.Sched.Pacing
