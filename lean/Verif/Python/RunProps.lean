import Verif.Python.RunLemmas

/-!
C120: what `Run` of the Python module does with the amounts it is given.
-/
namespace Verif.Python.Run
open Verif.Any (Fl)
open Verif.Float Verif.Sim

/-! ### Specification -/

/-- The duration that is meant, in nanoseconds. -/
def total (a : Amounts) : Rat :=
  a.ns + 1000 * a.us + 1000000 * a.ms + 1000000000 * a.s + 60000000000 * a.mn
    + 3600000000000 * a.h + 86400000000000 * a.d + 604800000000000 * a.w

/-- No amount is negative. -/
def NonNeg (a : Amounts) : Prop :=
  0 ≤ a.ns ∧ 0 ≤ a.us ∧ 0 ≤ a.ms ∧ 0 ≤ a.s ∧ 0 ≤ a.mn ∧ 0 ≤ a.h ∧ 0 ≤ a.d ∧ 0 ≤ a.w

/-- Every amount is a number of `Smp::Float64` (a double). -/
def Doubles (a : Amounts) : Prop :=
  Float64 a.ns ∧ Float64 a.us ∧ Float64 a.ms ∧ Float64 a.s ∧ Float64 a.mn ∧ Float64 a.h ∧
  Float64 a.d ∧ Float64 a.w

/-- Whole amounts. -/
def whole (ns us ms s mn h d w : Int) : Amounts := ⟨ns, us, ms, s, mn, h, d, w⟩

/-! ### Properties -/

theorem step_int (fz : Bool) {x y : Int} {k X Y : Nat} (hx : x.natAbs ≤ X) (hy : y.natAbs ≤ Y)
    (h : X + k * Y ≤ 2 ^ 53) : ∃ v : Int, (v : Rat) = x + k * y ∧ v.natAbs ≤ X + k * Y ∧
      add fz x k (.fin y) = .fin v := by
  have h1 : ((k : Int) * y).natAbs ≤ k * Y := by
    rw [Int.natAbs_mul, Int.natAbs_natCast]; exact Nat.mul_le_mul_left _ hy
  have h2 : (x + k * y).natAbs ≤ X + k * Y := Nat.le_trans (Int.natAbs_add_le _ _) (by omega)
  exact ⟨x + k * y, by push_cast; rfl, h2, add_int fz (by omega) (by omega)⟩

/-- **C120 (partial), exact.** Whole amounts, of any sign, that come to at most `2 ^ 53` ns (104
days) without their signs give exactly the duration meant, however the compiler contracts the
additions. Missing: larger amounts and fractions (`C120_near`, `C120_nearest_fails`). -/
theorem C120_exact_partial (fused : Nat → Bool) (ns us ms s mn h d w : Int)
    (hb : ns.natAbs + 1000 * us.natAbs + 1000000 * ms.natAbs + 1000000000 * s.natAbs
      + 60000000000 * mn.natAbs + 3600000000000 * h.natAbs + 86400000000000 * d.natAbs
      + 604800000000000 * w.natAbs ≤ 2 ^ 53) :
    ∃ n : Int, duration fused (whole ns us ms s mn h d w) = some n ∧
      (n : Rat) = total (whole ns us ms s mn h d w) := by
  generalize h_ns : ns.natAbs = n_ns at hb
  generalize h_us : us.natAbs = n_us at hb
  generalize h_ms : ms.natAbs = n_ms at hb
  generalize h_s : s.natAbs = n_s at hb
  generalize h_mn : mn.natAbs = n_mn at hb
  generalize h_h : h.natAbs = n_h at hb
  generalize h_d : d.natAbs = n_d at hb
  generalize h_w : w.natAbs = n_w at hb
  obtain ⟨D, e0, b0, a0⟩ := step_int (fused 0) (k := 7) (Nat.le_of_eq h_d) (Nat.le_of_eq h_w) (by omega)
  obtain ⟨H, e1, b1, a1⟩ := step_int (fused 1) (k := 24) (Nat.le_of_eq h_h) b0 (by omega)
  obtain ⟨MN, e2, b2, a2⟩ := step_int (fused 2) (k := 60) (Nat.le_of_eq h_mn) b1 (by omega)
  obtain ⟨S, e3, b3, a3⟩ := step_int (fused 3) (k := 60) (Nat.le_of_eq h_s) b2 (by omega)
  obtain ⟨MS, e4, b4, a4⟩ := step_int (fused 4) (k := 1000) (Nat.le_of_eq h_ms) b3 (by omega)
  obtain ⟨US, e5, b5, a5⟩ := step_int (fused 5) (k := 1000) (Nat.le_of_eq h_us) b4 (by omega)
  obtain ⟨NS, e6, b6, a6⟩ := step_int (fused 6) (k := 1000) (Nat.le_of_eq h_ns) b5 (by omega)
  refine ⟨NS, ?_, ?_⟩
  · unfold duration sum whole
    dsimp only
    rw [a0, a1, a2, a3, a4, a5, a6, asDuration_int (by omega) (by omega)]
  · unfold total whole
    dsimp only
    grind

example : ∃ n : Int, duration (fun _ => false) (whole 1 (-2) 3 4 5 6 7 8) = some n ∧
    (n : Rat) = total (whole 1 (-2) 3 4 5 6 7 8) :=
  C120_exact_partial _ _ _ _ _ _ _ _ _ (by decide)

/-- **C120, near.** Amounts that are not negative and come to at most `2 ^ 62` ns (146 years) give a
duration that differs from the one meant by less than a nanosecond and a part of `2 ^ -48` of it. -/
theorem C120_near (fused : Nat → Bool) (a : Amounts) (hn : NonNeg a) (hT : total a ≤ 2 ^ 62) :
    ∃ n : Int, duration fused a = some n ∧ 0 ≤ n ∧
      Abs ((n : Rat) - total a) ≤ 1 + (total a + 1) / 2 ^ 48 := by
  obtain ⟨h0, h1, h2, h3, h4, h5, h6, h7⟩ := hn
  have n0 : Near (.fin a.w) a.w 0 0 := ⟨a.w, rfl, h7, by grind, by grind⟩
  unfold total at hT
  have n1 := add_near (fused 0) (k := 7) h6 h7 (by decide) (by grind) (by decide +kernel) (by decide +kernel)
    (by decide +kernel) (by decide +kernel) n0
  have p1 : 0 ≤ a.d + (7 : Nat) * a.w := by grind
  have n2 := add_near (fused 1) (k := 24) h5 p1 (by decide) (by grind) (by decide +kernel) (by decide +kernel)
    (by decide +kernel) (by decide +kernel) n1
  have p2 : 0 ≤ a.h + (24 : Nat) * (a.d + (7 : Nat) * a.w) := by grind
  have n3 := add_near (fused 2) (k := 60) h4 p2 (by decide) (by grind) (by decide +kernel) (by decide +kernel)
    (by decide +kernel) (by decide +kernel) n2
  have p3 : 0 ≤ a.mn + (60 : Nat) * (a.h + (24 : Nat) * (a.d + (7 : Nat) * a.w)) := by grind
  have n4 := add_near (fused 3) (k := 60) h3 p3 (by decide) (by grind) (by decide +kernel) (by decide +kernel)
    (by decide +kernel) (by decide +kernel) n3
  have p4 : 0 ≤ a.s + (60 : Nat) * (a.mn + (60 : Nat) * (a.h + (24 : Nat) *
      (a.d + (7 : Nat) * a.w))) := by grind
  have n5 := add_near (fused 4) (k := 1000) h2 p4 (by decide) (by grind) (by decide +kernel) (by decide +kernel)
    (by decide +kernel) (by decide +kernel) n4
  have p5 : 0 ≤ a.ms + (1000 : Nat) * (a.s + (60 : Nat) * (a.mn + (60 : Nat) * (a.h + (24 : Nat) *
      (a.d + (7 : Nat) * a.w)))) := by grind
  have n6 := add_near (fused 5) (k := 1000) h1 p5 (by decide) (by grind) (by decide +kernel) (by decide +kernel)
    (by decide +kernel) (by decide +kernel) n5
  have p6 : 0 ≤ a.us + (1000 : Nat) * (a.ms + (1000 : Nat) * (a.s + (60 : Nat) * (a.mn +
      (60 : Nat) * (a.h + (24 : Nat) * (a.d + (7 : Nat) * a.w))))) := by grind
  have n7 := add_near (fused 6) (k := 1000) h0 p6 (by decide) (by grind) (by decide +kernel) (by decide +kernel)
    (by decide +kernel) (by decide +kernel) n6
  have e : a.ns + (1000 : Nat) * (a.us + (1000 : Nat) * (a.ms + (1000 : Nat) * (a.s + (60 : Nat) *
      (a.mn + (60 : Nat) * (a.h + (24 : Nat) * (a.d + (7 : Nat) * a.w)))))) = total a := by
    unfold total; push_cast; grind
  rw [e] at n7
  change total a ≤ 2 ^ 62 at hT
  obtain ⟨y, hy, y0, y1, y2⟩ := n7
  have ea : (0 + 1 / 2 ^ 51 + 1 / 2 ^ 51 + 1 / 2 ^ 51 + 1 / 2 ^ 51 + 1 / 2 ^ 51 + 1 / 2 ^ 51 + 1 / 2 ^ 51 : Rat)
      ≤ 1 / 2 ^ 48 := by decide +kernel
  have hT0 : 0 ≤ total a := by unfold total; grind
  have ea' := Rat.mul_le_mul_of_nonneg_right ea hT0
  generalize (0 + 1 / 2 ^ 51 + 1 / 2 ^ 51 + 1 / 2 ^ 51 + 1 / 2 ^ 51 + 1 / 2 ^ 51 + 1 / 2 ^ 51 +
    1 / 2 ^ 51 : Rat) * total a = A at *
  clear ea
  revert y1 y2
  generalize hb : (2 * (((1000 : Nat) : Rat) * _) + 1 / 2 ^ 190) = B
  have hB : B ≤ 1 / 2 ^ 48 := by rw [← hb]; decide +kernel
  intro y1 y2
  have f0 : (0 : Int) ≤ y.floor := Rat.le_floor_iff.2 (by exact_mod_cast y0)
  have f1 := Rat.floor_le (a := y)
  have f2 : y < (y.floor : Rat) + 1 := by
    have := Rat.lt_floor_add_one y
    exact_mod_cast this
  have f3 : y.floor < 2 ^ 63 := by
    rw [Rat.floor_lt_iff]
    have : (((2 : Int) ^ 63 : Int) : Rat) = 2 ^ 63 := by decide +kernel
    rw [this]
    grind
  have ed : asDuration (.fin y) = some y.floor := by
    have : ¬ y < 0 := by grind
    dsimp only [asDuration]
    rw [if_neg this, if_pos ⟨by omega, f3⟩]
  refine ⟨y.floor, ?_, f0, ?_⟩
  · unfold duration sum
    rw [hy]; exact ed
  · unfold Abs
    generalize ((y.floor : Int) : Rat) = F at *
    clear n0 n1 n2 n3 n4 n5 n6 p1 p2 p3 p4 p5 p6 hy e h0 h1 h2 h3 h4 h5 h6 h7 hb ed f3 f0
    generalize total a = T at *
    split <;> grind

example : ∃ n : Int, duration (fun _ => true) { s := 1 / 2, h := 100 } = some n ∧ 0 ≤ n ∧
    Abs ((n : Rat) - total { s := 1 / 2, h := 100 }) ≤
      1 + (total { s := 1 / 2, h := 100 } + 1) / 2 ^ 48 :=
  C120_near _ _ (by unfold NonNeg; decide +kernel) (by decide +kernel)

/-- A double from its parts. -/
theorem double {q : Rat} (neg : Bool) (m k : Nat) (hm : m < 2 ^ 53) (hk : k ≤ 2045)
    (h : q = f64.val neg (m * 2 ^ k)) : Float64 q :=
  (float64_iff q).2 ⟨neg, _, ⟨m, k, hm, hk, rfl⟩, h⟩

/-- **C120 fails** for the nearest nanosecond: `Run(seconds=1.001)` executes 1000999999 ns. The
double nearest to 1.001 is within a millionth of a nanosecond of it, but the conversion drops what is
behind the point. -/
theorem C120_nearest_fails : ∃ x : Rat, Float64 x ∧ Abs (1000000000 * x - 1001000000) < 1 / 1000000 ∧
    ∀ b : Bool, duration (fun _ => b) { s := x } = some 1000999999 := by
  refine ⟨4508103226997866 / 2 ^ 52, double false 4508103226997866 1022 (by decide) (by decide)
    (by decide +kernel), by decide +kernel, by decide +kernel⟩

/-- **C120 fails** for long durations: a duration of more than 292 years is converted to an integer
that it does not fit, which C++ leaves undefined. -/
theorem C120_range_fails : ∃ x : Rat, Float64 x ∧
    ∀ b : Bool, duration (fun _ => b) { w := x } = none :=
  ⟨20000, double false 20000 1074 (by decide) (by decide) (by decide +kernel), by decide +kernel⟩


/-- **C120, time.** In Standby a negative duration raises `InvalidEventTime`, whatever else is going
on, and executes nothing. -/
theorem C120_negative (fused : Nat → Bool) (a : Amounts) (last : Option Ev) (n : Int)
    (hd : duration fused a = some n) (hn : n < 0) : pyRun fused a .standby last = .invalidTime := by
  unfold pyRun
  rw [hd]
  dsimp only
  rw [if_pos rfl, if_pos hn]

example : pyRun (fun _ => false) { s := 1, mn := -1 } .standby none = .invalidTime :=
  C120_negative _ _ _ (-59000000000) (by decide +kernel) (by decide)

/-- **C120 (partial), run.** When one thread uses the simulator and no call is in progress, `Run` from
Python is `Simulator::Run` of the duration: it executes for that time in Standby and is refused,
leaving nothing behind, in every other state. Missing: several threads (`C120_dangling_fails`). -/
theorem C120_run_partial (h0 : Bool) (acts : List Act) (fused : Nat → Bool) (a : Amounts) (n : Int)
    (hd : duration fused a = some n)
    (he : ((Sys.init h0).run1 acts).stack 0 = []) :
    pyRun fused a ((Sys.init h0).run1 acts).state ((Sys.init h0).run1 acts).last =
      cppRun n ((Sys.init h0).run1 acts).state ((Sys.init h0).run1 acts).last ∧
    (((Sys.init h0).run1 acts).state = .standby → 0 ≤ n →
      pyRun fused a ((Sys.init h0).run1 acts).state ((Sys.init h0).run1 acts).last = .started n) ∧
    (((Sys.init h0).run1 acts).state ≠ .standby →
      pyRun fused a ((Sys.init h0).run1 acts).state ((Sys.init h0).run1 acts).last =
        .refused none) := by
  rw [one_last h0 acts he]
  generalize ((Sys.init h0).run1 acts).state = st
  unfold pyRun cppRun
  rw [hd]
  dsimp only
  by_cases hs : st = .standby
  · subst hs
    have g1 : Op.guard .run .standby none = true := by decide
    have g2 : Op.guard .runFor .standby none = true := by decide
    rw [if_pos rfl, g1, g2, if_pos rfl, if_pos rfl]
    refine ⟨rfl, fun _ h => if_neg (by omega), fun h => absurd rfl h⟩
  · have g2 : Op.guard .runFor st none = false := by cases st <;> first | rfl | exact absurd rfl hs
    rw [if_neg hs, g2]
    exact ⟨rfl, fun h => absurd h hs, fun _ => rfl⟩

/-- A run that is held by an entry point. -/
def held : List Act :=
  [.call .run, .go, .go, .go, .go, .tell, .exec 1, .call .hold, .go, .tell, .go, .go, .go, .go,
   .ret false, .go]

example : ((Sys.init true).run1 held).stack 0 = [] ∧ ((Sys.init true).run1 held).state = .standby ∧
    ((Sys.init true).run1 held).log ≠ [] := by decide

/-- **C120 fails** with a second thread: an entry point in Zulu time (thread 1) holds the simulation;
as soon as the state is Standby, `Run` returns to Python, and a second `Run` finds EnterStandby still
being emitted: `ISimulator::Run` refuses, and the scheduler keeps an event for an entry point that
does not exist any more. `Simulator::Run(Duration)` leaves nothing there. -/
theorem C120_dangling_fails : ∃ (h0 : Bool) (hist : List (Nat × Act)),
    ((Sys.init h0).run hist).stack 0 = [] ∧
    (∀ b : Bool, pyRun (fun _ => b) { s := 1 } ((Sys.init h0).run hist).state
      ((Sys.init h0).run hist).last = .refused (some 1000000000)) ∧
    cppRun 1000000000 ((Sys.init h0).run hist).state ((Sys.init h0).run hist).last =
      .refused none :=
  ⟨true, [(0, .call .run), (0, .go), (0, .go), (0, .go), (0, .go), (0, .tell), (0, .exec 1),
    (1, .call .hold), (1, .go), (1, .tell), (0, .ret false), (0, .go), (1, .go), (1, .go), (1, .go)],
    by decide, by decide +kernel, by decide⟩

end Verif.Python.Run
