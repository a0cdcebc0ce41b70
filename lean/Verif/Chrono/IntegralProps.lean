import Verif.Chrono.Integral
import Verif.Chrono.CompareProps

/-! Property C159: assignments of durations with integers. -/
namespace Verif.Chrono.Integral
open Verif.Any (ITy wrap Kind wrap_eq)
open Verif.Field.Ops (BinOp opValue common promote wrap_range wrap_dvd wrap_of_dvd range_unique fit
  fit_none fit_some arith C107_exact C107_modular C107_undefined C107_div_partial C107_mod_partial
  C107_shl C107_shr C107_bits tmod_between convex)
open Verif.Chrono.Compare (range_i64)

/-! ### Specification -/

/-- The operators of numbers. -/
def Number (op : BinOp) : Prop :=
  op = .add ∨ op = .sub ∨ op = .mul ∨ op = .div ∨ op = .mod

/-- What `v op x` is, for numbers: the quotient is rounded to zero, and the remainder belongs to it. -/
def exact : BinOp → Int → Int → Int
  | .add, v, x => v + x
  | .sub, v, x => v - x
  | .mul, v, x => v * x
  | .div, v, x => v.tdiv x
  | .mod, v, x => v - x * v.tdiv x
  | _, v, _ => v

/-- There is a result: the divisor is not zero, and the quotient (or the result of the other
operators) is a number of 64 bits. -/
def Defined (op : BinOp) (v x : Int) : Prop :=
  ((op = .div ∨ op = .mod) → x ≠ 0) ∧ I64 (exact (if op = .mod then .div else op) v x)

instance (v : Int) : Decidable (I64 v) := inferInstanceAs (Decidable (_ ∧ _))
instance (op : BinOp) (v x : Int) : Decidable (Defined op v x) := inferInstanceAs (Decidable (_ ∧ _))

/-- A statement whose operand is a number of its type, which is not the unsigned one of 64 bits, and
whose operator is one of numbers. -/
def Plain : Stmt → Prop
  | .assign u x => u.Range x ∧ u ≠ .u64
  | .compound op u x => u.Range x ∧ u ≠ .u64 ∧ Number op
  | _ => True

/-- What a number becomes by a statement. -/
def meaning (v : Int) : Stmt → Option Int
  | .assign _ x => some x
  | .compound op _ x => if Defined op v x then some (exact op v x) else none
  | .pre inc | .post inc => if I64 (if inc then v + 1 else v - 1) then
      some (if inc then v + 1 else v - 1) else none

/-! ### Lemmas -/

theorem common_small {u : ITy} (hu : u ≠ .u64) : common .i64 u = .i64 := by
  cases u <;> first | rfl | exact absurd rfl hu

theorem chk_range {a b : Int} (h : chk a = some b) : I64 b := by
  obtain ⟨h, rfl⟩ := (chk_iff _ _).1 h
  exact h

theorem chk_spec (w : Int) : chk w = if I64 w then some w else none := by
  by_cases h : I64 w
  · rw [if_pos h]; exact (chk_iff _ _).2 ⟨h, rfl⟩
  · rw [if_neg h]
    cases e : chk w with
    | none => rfl
    | some b => exact absurd ((chk_iff _ _).1 e).1 h

theorem common_u64 : common .i64 .u64 = .u64 := rfl

theorem range_small {u : ITy} {x : Int} (hu : u ≠ .u64) (hx : u.Range x) : I64 x := by
  cases u <;> simp only [ITy.Range, ITy.kind, Kind.Range] at hx <;>
    first | exact absurd rfl hu | (simp only [I64]; omega)

theorem range_u64 {x : Int} : ITy.u64.Range x ↔ 0 ≤ x ∧ x < 2 ^ 64 := by
  simp only [ITy.Range, ITy.kind, Kind.Range]; omega

theorem tmod_exact (v x : Int) : v.tmod x = v - x * v.tdiv x := by
  have := Int.mul_tdiv_add_tmod v x; omega

theorem wrap_u64 {v : Int} (hv : I64 v) : wrap .u64 v = if v < 0 then 2 ^ 64 + v else v := by
  simp only [wrap, ITy.signed, ITy.width, Bool.false_eq_true, if_false]
  simp only [I64] at hv
  split <;> omega

theorem wrap_i64 {y : Int} (hy : 0 ≤ y ∧ y < 2 ^ 64) :
    wrap .i64 y = if y < 2 ^ 63 then y else y - 2 ^ 64 := by
  refine wrap_of_dvd .i64 (range_i64.2 ?_) ?_
  · simp only [I64]; split <;> omega
  · show (2 ^ 64 : Int) ∣ _
    split
    · exact ⟨0, by omega⟩
    · exact ⟨1, by omega⟩

/-- The quotient of a duration by an unsigned number of 64 bits, as it is computed. -/
theorem div_u64 {v x : Int} (hv : I64 v) (hx : 0 < x ∧ x < 2 ^ 64) :
    compound .u64 .div v x = some (wrap .i64 ((if v < 0 then 2 ^ 64 + v else v) / x)) := by
  have hx' : wrap .u64 x = x := wrap_eq (range_u64.2 ⟨by omega, hx.2⟩)
  show (arith (common .i64 .u64) .div (wrap (common .i64 .u64) v) (wrap (common .i64 .u64) x)).map _ = _
  rw [common_u64, hx', wrap_u64 hv]
  generalize hn : (if v < 0 then 2 ^ 64 + v else v) = n
  have h0 : 0 ≤ n ∧ n < 2 ^ 64 := by
    simp only [I64] at hv
    subst hn; split <;> omega
  simp only [arith]
  rw [if_neg (by omega), Int.tdiv_eq_ediv_of_nonneg h0.1]
  have : fit .u64 (n / x) = some (n / x) := by
    have h1 := Int.ediv_nonneg h0.1 (Int.le_of_lt hx.1)
    have h2 := Int.ediv_le_self x h0.1
    show some (wrap .u64 _) = _
    rw [wrap_eq (range_u64.2 ⟨h1, by omega⟩)]
  rw [this]; rfl

theorem mod_u64 {v x : Int} (hv : I64 v) (hx : 0 < x ∧ x < 2 ^ 64) :
    compound .u64 .mod v x = some (wrap .i64 ((if v < 0 then 2 ^ 64 + v else v) % x)) := by
  have hx' : wrap .u64 x = x := wrap_eq (range_u64.2 ⟨by omega, hx.2⟩)
  show (arith (common .i64 .u64) .mod (wrap (common .i64 .u64) v) (wrap (common .i64 .u64) x)).map _ = _
  rw [common_u64, hx', wrap_u64 hv]
  generalize hn : (if v < 0 then 2 ^ 64 + v else v) = n
  have h0 : 0 ≤ n ∧ n < 2 ^ 64 := by
    simp only [I64] at hv
    subst hn; split <;> omega
  simp only [arith]
  rw [if_neg (by omega), Int.tmod_eq_emod_of_nonneg h0.1]
  rfl

/-! ### Operands of the other types -/

/-- C159. With an operand of any integer type but the unsigned one of 64 bits, the operators of
numbers give the exact result, or are undefined when there is none of 64 bits. -/
theorem C159_exact (u : ITy) (op : BinOp) (v x : Int) (hu : u ≠ .u64) (hop : Number op) (hv : I64 v)
    (hx : u.Range x) :
    compound u op v x = if Defined op v x then some (exact op v x) else none := by
  have hc := common_small hu
  have hx' := range_small hu hx
  have ring : ∀ o : BinOp, o.ring = true → exact o v x = o.exact v x → o ≠ .div → o ≠ .mod →
      compound u o v x = if Defined o v x then some (exact o v x) else none := by
    intro o ho he h1 h2
    have hd : Defined o v x ↔ I64 (o.exact v x) := by
      unfold Defined; rw [if_neg h2, he]
      exact ⟨fun h => h.2, fun h => ⟨fun h' => by cases h' <;> contradiction, h⟩⟩
    by_cases h : Defined o v x
    · rw [if_pos h, he]
      exact C107_exact .i64 u o ho v x (range_i64.2 hv) hx (range_i64.2 (hd.1 h))
    · rw [if_neg h]
      refine (C107_undefined .i64 u o ho v x (range_i64.2 hv) hx).2 ?_
      rw [hc]
      exact ⟨rfl, fun h' => h (hd.2 (range_i64.1 h'))⟩
  have zero : x = 0 → ∀ o : BinOp, (o = .div ∨ o = .mod) → compound u o v x = none := by
    intro h o ho
    subst h
    have h0 : wrap .i64 0 = 0 := by decide
    rcases ho with rfl | rfl
    · show (arith (common .i64 u) .div (wrap (common .i64 u) v) (wrap (common .i64 u) 0)).map _ = _
      rw [hc, h0]; rfl
    · show (arith (common .i64 u) .mod (wrap (common .i64 u) v) (wrap (common .i64 u) 0)).map _ = _
      rw [hc, h0]; rfl
  rcases hop with rfl | rfl | rfl | rfl | rfl
  · exact ring .add rfl rfl (by decide) (by decide)
  · exact ring .sub rfl rfl (by decide) (by decide)
  · exact ring .mul rfl rfl (by decide) (by decide)
  · by_cases h : Defined .div v x
    · rw [if_pos h]
      exact C107_div_partial .i64 u v x (h.1 (.inl rfl)) (by rw [hc]; exact range_i64.2 hv)
        (by rw [hc]; exact range_i64.2 hx') (range_i64.2 h.2)
    · rw [if_neg h]
      by_cases h0 : x = 0
      · exact zero h0 _ (.inl rfl)
      · have hq : ¬ I64 (v.tdiv x) := fun h' => h ⟨fun _ => h0, h'⟩
        show (arith (common .i64 u) .div (wrap (common .i64 u) v) (wrap (common .i64 u) x)).map _ = _
        rw [hc, wrap_eq (range_i64.2 hv), wrap_eq (range_i64.2 hx')]
        simp only [arith]
        rw [if_neg h0, fit_none.2 ⟨rfl, fun h' => hq (range_i64.1 h')⟩]
        rfl
  · by_cases h : Defined .mod v x
    · rw [if_pos h]
      show _ = some (v - x * v.tdiv x)
      rw [← tmod_exact]
      exact C107_mod_partial .i64 u v x (range_i64.2 hv) (h.1 (.inr rfl))
        (by rw [hc]; exact range_i64.2 hv) (by rw [hc]; exact range_i64.2 hx')
        (by rw [hc]; exact range_i64.2 h.2)
    · rw [if_neg h]
      by_cases h0 : x = 0
      · exact zero h0 _ (.inr rfl)
      · have hq : ¬ I64 (v.tdiv x) := fun h' => h ⟨fun _ => h0, h'⟩
        show (arith (common .i64 u) .mod (wrap (common .i64 u) v) (wrap (common .i64 u) x)).map _ = _
        rw [hc, wrap_eq (range_i64.2 hv), wrap_eq (range_i64.2 hx')]
        simp only [arith]
        rw [if_neg h0, fit_none.2 ⟨rfl, fun h' => hq (range_i64.1 h')⟩]
        rfl

example : ITy.u32 ≠ .u64 ∧ Number .mod ∧ I64 (-7) ∧ ITy.u32.Range 3 ∧
    compound .u32 .mod (-7) 3 = some (-1) := by
  refine ⟨by decide, by simp [Number], by simp [I64], ?_, by decide⟩
  simp [ITy.Range, ITy.kind, Kind.Range]

/-- C159. Assigning a number gives it, if it has 64 bits with sign; the others (of the unsigned type
of 64 bits) become negative. -/
theorem C159_assign (u : ITy) (x : Int) (hx : u.Range x) :
    assign x = if I64 x then x else x - 2 ^ 64 := by
  unfold assign
  split
  · exact wrap_eq (range_i64.2 ‹_›)
  · have hu : u = .u64 := Decidable.byContradiction fun h => ‹¬ I64 x› (range_small h hx)
    subst hu
    have h := range_u64.1 hx
    rw [wrap_i64 h]
    rename_i hn
    simp only [I64] at hn
    split <;> omega

/-- C159. A sequence of statements with such operands computes with the numbers themselves, up to the
first one that has no result. -/
theorem C159_program (ss : List Stmt) (hs : ∀ s ∈ ss, Plain s) (v : Int) (hv : I64 v) :
    exec v ss = ss.foldlM meaning v := by
  induction ss generalizing v with
  | nil => rfl
  | cons s ss ih =>
    have one : s.exec v = meaning v s ∧ ∀ w, s.exec v = some w → I64 w := by
      have h := hs s (by simp)
      have next : ∀ inc : Bool, (if inc then incr v else decr v) = (if I64 (if inc then v + 1 else v - 1)
          then some (if inc then v + 1 else v - 1) else none) ∧
          ∀ w, (if inc then incr v else decr v) = some w → I64 w := by
        intro inc
        cases inc
        · exact ⟨chk_spec _, fun w hw => chk_range hw⟩
        · exact ⟨chk_spec _, fun w hw => chk_range hw⟩
      cases s with
      | assign u x =>
        have hi := range_small h.2 h.1
        have e := C159_assign u x h.1
        rw [if_pos hi] at e
        refine ⟨congrArg some e, fun w hw => ?_⟩
        cases hw
        rw [e]; exact hi
      | compound op u x =>
        have e := C159_exact u op v x h.2.1 h.2.2 hv h.1
        refine ⟨e, fun w hw => ?_⟩
        exact range_i64.1 (Verif.Field.Ops.opValue_range hw)
      | pre inc => exact next inc
      | post inc =>
        have e : ((postfix_ inc v).map (·.2)) = (if inc then incr v else decr v) := by
          unfold postfix_
          cases (if inc then incr v else decr v) <;> rfl
        refine ⟨e.trans (next inc).1, fun w hw => (next inc).2 w (e.symm.trans hw)⟩
    show (s.exec v).bind _ = (meaning v s).bind fun w => ss.foldlM meaning w
    rw [← one.1]
    cases hw : s.exec v with
    | none => rfl
    | some w => exact ih (fun t ht => hs t (by simp [ht])) w (one.2 w hw)

example : exec 5 [.compound .mul .i32 (-3), .post true, .compound .div .u8 4, .assign .i8 7, .pre false]
    = some 6 ∧
    (∀ s ∈ ([.compound .mul .i32 (-3), .post true, .compound .div .u8 4, .assign .i8 7,
      .pre false] : List Stmt), Plain s) := by
  refine ⟨by decide, ?_⟩
  simp [Plain, Number, ITy.Range, ITy.kind, Kind.Range]

/-- C159. The postfix operators return the duration as it was, and change it by one nanosecond. -/
theorem C159_postfix (inc : Bool) (v a b : Int) (h : postfix_ inc v = some (a, b)) :
    a = v ∧ b = (if inc then v + 1 else v - 1) ∧ I64 b := by
  unfold postfix_ incr decr chk minI64 maxI64 at h
  cases inc <;> simp only [Bool.false_eq_true, if_true, if_false] at h ⊢ <;> split at h
  all_goals first | cases h; done | (cases h; refine ⟨rfl, rfl, ?_⟩; simp only [I64]; omega)

example : postfix_ true 41 = some (41, 42) := by decide

/-! ### Operands of the unsigned type of 64 bits -/

/-- C159. With an unsigned operand of 64 bits `+=`, `-=` and `*=` are never undefined: they give the
exact result when it has 64 bits, and otherwise another that differs by a multiple of `2 ^ 64`. -/
theorem C159_unsigned (op : BinOp) (hop : op = .add ∨ op = .sub ∨ op = .mul) (v x : Int)
    (hv : I64 v) (hx : 0 ≤ x ∧ x < 2 ^ 64) :
    ∃ y, compound .u64 op v x = some y ∧ I64 y ∧ (2 ^ 64 : Int) ∣ y - exact op v x ∧
      (I64 (exact op v x) → y = exact op v x) := by
  have hr : op.ring = true := by rcases hop with rfl | rfl | rfl <;> rfl
  have he : exact op v x = op.exact v x := by rcases hop with rfl | rfl | rfl <;> rfl
  cases h : compound .u64 op v x with
  | none =>
    exact absurd ((C107_undefined .i64 .u64 op hr v x (range_i64.2 hv) (range_u64.2 hx)).1 h).1
      (by decide)
  | some y =>
    have hm := C107_modular .i64 .u64 op hr v x y h
    refine ⟨y, rfl, range_i64.1 hm.1, he ▸ hm.2, fun hi => ?_⟩
    have := C107_exact .i64 .u64 op hr v x (range_i64.2 hv) (range_u64.2 hx) (he ▸ range_i64.2 hi)
    rw [he]
    exact Option.some.inj (h.symm.trans this)

example : compound .u64 .sub (-5) 3 = some (-8) ∧
    compound .u64 .add (2 ^ 63 - 1) 1 = some (-2 ^ 63) := by decide

/-- C159. `/=` by an unsigned number of 64 bits is exact for exactly these operands. -/
theorem C159_divides (v x : Int) (hv : I64 v) (hx : 0 < x ∧ x < 2 ^ 64) :
    compound .u64 .div v x = some (v.tdiv x) ↔ 0 ≤ v ∨ x = 1 ∨ 2 ^ 64 + v < x := by
  rw [div_u64 hv hx]
  by_cases h : 0 ≤ v
  · rw [if_neg (by omega)]
    simp only [I64] at hv
    have h1 := Int.ediv_nonneg h (Int.le_of_lt hx.1)
    have h2 := Int.ediv_le_self x h
    rw [wrap_i64 ⟨h1, by omega⟩, if_pos (by omega), Int.tdiv_eq_ediv_of_nonneg h]
    simp [h]
  · rw [if_pos (by omega)]
    simp only [I64] at hv
    have hn : 0 ≤ 2 ^ 64 + v := by omega
    have h1 := Int.ediv_nonneg hn (Int.le_of_lt hx.1)
    have h2 := Int.ediv_le_self x hn
    have hneg : v.tdiv x ≤ 0 := by
      have := Int.tdiv_nonneg (a := -v) (b := x) (by omega) (by omega)
      rw [Int.neg_tdiv] at this; omega
    rw [wrap_i64 ⟨h1, by omega⟩]
    simp only [Option.some.injEq]
    by_cases hx1 : x = 1
    · subst hx1
      simp only [Int.ediv_one, Int.tdiv_one]
      constructor
      · intro _; exact .inr (.inl trivial)
      · intro _; rw [if_neg (by omega)]; omega
    · by_cases hb : 2 ^ 64 + v < x
      · have hz : (2 ^ 64 + v) / x = 0 := Int.ediv_eq_zero_of_lt hn hb
        rw [hz]
        have : v.tdiv x = 0 := by
          have := Int.tdiv_eq_zero_of_lt (a := -v) (b := x) (by omega) (by omega)
          rw [Int.neg_tdiv] at this; omega
        rw [this, if_pos (by omega)]
        exact ⟨fun _ => .inr (.inr hb), fun _ => rfl⟩
      · have hpos : 1 ≤ (2 ^ 64 + v) / x := by
          rw [Int.le_ediv_iff_mul_le hx.1]; omega
        have hlt : (2 ^ 64 + v) / x < 2 ^ 63 := by
          refine Int.ediv_lt_of_lt_mul hx.1 ?_
          have : (2 ^ 63 : Int) * 2 ≤ 2 ^ 63 * x := Int.mul_le_mul_of_nonneg_left (by omega) (by omega)
          omega
        rw [if_pos hlt]
        constructor
        · intro e; omega
        · rintro (e | e | e)
          · exact absurd e h
          · exact absurd e hx1
          · exact absurd e hb

/-- C159 fails: a negative duration that is divided by an unsigned number of 64 bits (a `size_t`)
becomes positive. -/
theorem C159_divide_fails (v x : Int) (hv : I64 v) (hn : v < 0) (hx : 2 ≤ x) (hb : x ≤ 2 ^ 64 + v) :
    ∃ y, compound .u64 .div v x = some y ∧ 0 < y := by
  have hx' : 0 < x ∧ x < 2 ^ 64 := by omega
  rw [div_u64 hv hx', if_pos hn]
  refine ⟨_, rfl, ?_⟩
  have h0 : 0 ≤ 2 ^ 64 + v := by simp only [I64] at hv; omega
  have hpos : 1 ≤ (2 ^ 64 + v) / x := by
    rw [Int.le_ediv_iff_mul_le hx'.1]; omega
  have hlt : (2 ^ 64 + v) / x < 2 ^ 63 := by
    refine Int.ediv_lt_of_lt_mul hx'.1 ?_
    have : (2 ^ 63 : Int) * 2 ≤ 2 ^ 63 * x := Int.mul_le_mul_of_nonneg_left (by omega) (by omega)
    omega
  rw [wrap_i64 ⟨by omega, by omega⟩, if_pos hlt]
  omega

example : compound .u64 .div (-10) 2 = some 9223372036854775803 := by decide

/-- C159. `%=` by an unsigned number of 64 bits is exact for exactly these operands: for negative
durations, those that are multiples of a power of two. -/
theorem C159_remains (v x : Int) (hv : I64 v) (hx : 0 < x ∧ x < 2 ^ 64) :
    compound .u64 .mod v x = some (exact .mod v x) ↔
      0 ≤ v ∨ 2 ^ 64 + v < x ∨ (x ∣ 2 ^ 64 ∧ x ∣ v) := by
  show _ = some (v - x * v.tdiv x) ↔ _
  rw [← tmod_exact, mod_u64 hv hx]
  by_cases h : 0 ≤ v
  · rw [if_neg (by omega)]
    simp only [I64] at hv
    have h1 := Int.emod_nonneg v (b := x) (by omega)
    have h2 : v % x ≤ v := by
      have h3 := Int.mul_ediv_add_emod v x
      have h4 := Int.mul_nonneg (Int.le_of_lt hx.1) (Int.ediv_nonneg h (Int.le_of_lt hx.1))
      omega
    rw [wrap_i64 ⟨h1, by omega⟩, if_pos (by omega), Int.tmod_eq_emod_of_nonneg h]
    simp [h]
  · rw [if_pos (by omega)]
    simp only [I64] at hv
    have hn : 0 ≤ 2 ^ 64 + v := by omega
    have h1 := Int.emod_nonneg (2 ^ 64 + v) (b := x) (by omega)
    have h2 := Int.emod_lt_of_pos (2 ^ 64 + v) hx.1
    have hneg := tmod_between v x
    by_cases hb : 2 ^ 64 + v < x
    · have e : (2 ^ 64 + v) % x = 2 ^ 64 + v := Int.emod_eq_of_lt hn hb
      rw [e, wrap_i64 ⟨hn, by omega⟩, if_neg (by omega)]
      have : v.tmod x = v := by
        have := Int.tmod_eq_of_lt (a := -v) (b := x) (by omega) (by omega)
        rw [Int.neg_tmod] at this; omega
      rw [this]
      simp only [hb, true_or, or_true, iff_true, Option.some.injEq]
      omega
    · have hlt : (2 ^ 64 + v) % x < 2 ^ 63 := by
        by_cases hc : x ≤ 2 ^ 63
        · omega
        · have : (2 ^ 64 + v - x) % x = 2 ^ 64 + v - x := Int.emod_eq_of_lt (by omega) (by omega)
          rw [Int.sub_emod_right] at this
          omega
      rw [wrap_i64 ⟨h1, by omega⟩, if_pos hlt]
      simp only [Option.some.injEq]
      constructor
      · intro e
        have h0 : (2 ^ 64 + v) % x = 0 := by omega
        have h3 : v.tmod x = 0 := by omega
        have hd : x ∣ v := Int.dvd_of_tmod_eq_zero h3
        have hd' : x ∣ 2 ^ 64 + v := Int.dvd_of_emod_eq_zero h0
        refine .inr (.inr ⟨?_, hd⟩)
        have := Int.dvd_sub hd' hd
        rwa [show (2 : Int) ^ 64 + v - v = 2 ^ 64 by omega] at this
      · rintro (e | e | ⟨e, e'⟩)
        · exact absurd e h
        · exact absurd e hb
        · rw [Int.emod_eq_zero_of_dvd (Int.dvd_add e e'), Int.tmod_eq_zero_of_dvd e']

/-- C159 fails: the remainder of -7 ns by the unsigned 3 is 0, and by the unsigned 10 it is 9. -/
theorem C159_remainder_fails :
    compound .u64 .mod (-7) 3 = some 0 ∧ compound .u64 .mod (-7) 10 = some 9 := by decide

/-! ### Operands of all types -/

/-- C159. Quotient times divisor plus remainder is the duration again; with a divisor of the unsigned
type of 64 bits it is so modulo `2 ^ 64`, even where the two are wrong. -/
theorem C159_reconstructs (u : ITy) (v x q r : Int) (hv : I64 v) (hx : u.Range x)
    (hq : compound u .div v x = some q) (hr : compound u .mod v x = some r) :
    (u ≠ .u64 → q * x + r = v) ∧ (2 ^ 64 : Int) ∣ q * x + r - v := by
  by_cases hu : u = .u64
  · subst hu
    refine ⟨fun h => absurd rfl h, ?_⟩
    have hx' := range_u64.1 hx
    by_cases h0 : x = 0
    · subst h0
      have : compound .u64 .div v 0 = none := by
        show (arith (common .i64 .u64) .div (wrap (common .i64 .u64) v) (wrap (common .i64 .u64) 0)).map (wrap .i64) = _
        rw [common_u64, show wrap .u64 0 = 0 by decide]; rfl
      rw [this] at hq; cases hq
    · have hp : 0 < x ∧ x < 2 ^ 64 := by omega
      rw [div_u64 hv hp] at hq
      rw [mod_u64 hv hp] at hr
      revert hq hr
      generalize hn : (if v < 0 then 2 ^ 64 + v else v) = n
      intro hq hr
      cases hq; cases hr
      have hd : (2 ^ 64 : Int) ∣ n - v := by
        subst hn; split
        · exact ⟨1, by omega⟩
        · exact ⟨0, by omega⟩
      have h1 : (2 ^ 64 : Int) ∣ wrap .i64 (n / x) - n / x := wrap_dvd .i64 _
      have h2 : (2 ^ 64 : Int) ∣ wrap .i64 (n % x) - n % x := wrap_dvd .i64 _
      have h3 := Int.dvd_add (Int.dvd_add (Int.dvd_mul_of_dvd_left (c := x) h1) h2) hd
      have h4 := Int.mul_ediv_add_emod n x
      rw [Int.sub_mul, Int.mul_comm (n / x) x] at h3
      rwa [show wrap .i64 (n / x) * x - x * (n / x) + (wrap .i64 (n % x) - n % x) + (n - v) =
        wrap .i64 (n / x) * x + wrap .i64 (n % x) - v by omega] at h3
  · rw [C159_exact u .div v x hu (by simp [Number]) hv hx] at hq
    rw [C159_exact u .mod v x hu (by simp [Number]) hv hx] at hr
    split at hq
    · split at hr
      · cases hq; cases hr
        have e : exact .div v x * x + exact .mod v x = v := by
          show v.tdiv x * x + (v - x * v.tdiv x) = v
          rw [Int.mul_comm]; omega
        exact ⟨fun _ => e, by rw [e]; simp⟩
      · cases hr
    · cases hq

example : compound .i16 .div (-7) 3 = some (-2) ∧ compound .i16 .mod (-7) 3 = some (-1) := by decide

/-- C159. What was added is subtracted again, and conversely, whatever the type. -/
theorem C159_undo (u : ITy) (add : Bool) (v x w : Int) (hv : I64 v) (hx : u.Range x)
    (h : compound u (if add then .add else .sub) v x = some w) :
    compound u (if add then .sub else .add) w x = some v := by
  have hop : ∀ b : Bool, (if b then BinOp.add else .sub).ring = true := by decide
  have hm := C107_modular .i64 u _ (hop add) v x w h
  by_cases hu : u = .u64
  · subst hu
    obtain ⟨y, hy, hi, hd, _⟩ := C159_unsigned (if add then .sub else .add) (by cases add <;> simp) w x
      (range_i64.1 hm.1) (range_u64.1 hx)
    rw [hy]
    refine congrArg some (range_unique .i64 (range_i64.2 hi) (range_i64.2 hv) ?_)
    have hd' : (2 ^ 64 : Int) ∣ w - (if add then BinOp.add else .sub).exact v x := hm.2
    show (2 ^ 64 : Int) ∣ y - v
    have hs := Int.dvd_add hd hd'
    cases add
    · simp only [Bool.false_eq_true, if_false] at hs
      simp only [exact, BinOp.exact] at hs
      rwa [show y - (w + x) + (w - (v - x)) = y - v by omega] at hs
    · simp only [if_true] at hs
      simp only [exact, BinOp.exact] at hs
      rwa [show y - (w - x) + (w - (v + x)) = y - v by omega] at hs
  · rw [C159_exact u _ v x hu (by cases add <;> simp [Number]) hv hx] at h
    rw [C159_exact u _ w x hu (by cases add <;> simp [Number]) (range_i64.1 hm.1) hx]
    by_cases hd : Defined (if add then .add else .sub) v x
    · rw [if_pos hd] at h
      obtain rfl := Option.some.inj h
      cases add
      · simp only [Bool.false_eq_true, if_false, exact]
        rw [show v - x + x = v by omega, if_pos ⟨by simp, by
          simp only [reduceCtorEq, if_false, exact]; rwa [show v - x + x = v by omega]⟩]
      · simp only [if_true, exact]
        rw [show v + x - x = v by omega, if_pos ⟨by simp, by
          simp only [reduceCtorEq, if_false, exact]; rwa [show v + x - x = v by omega]⟩]
    · rw [if_neg hd] at h
      cases h

example : compound .u64 .add (-5) (2 ^ 64 - 1) = some (-6) ∧
    compound .u64 .sub (-6) (2 ^ 64 - 1) = some (-5) := by decide

/-- C159. `&=`, `|=` and `^=` act on each of the 64 bits of the two numbers, and are never undefined;
`^=` twice changes nothing. -/
theorem C159_bits (u : ITy) (op : BinOp) (f : Bool → Bool → Bool) (v x : Int) (hv : I64 v)
    (hop : (op = .and ∧ f = and) ∨ (op = .or ∧ f = or) ∨ (op = .xor ∧ f = xor)) :
    ∃ y, compound u op v x = some y ∧ I64 y ∧
      (∀ i < 64, (BitVec.ofInt 64 y).getLsbD i =
        f ((BitVec.ofInt 64 v).getLsbD i) ((BitVec.ofInt 64 x).getLsbD i)) ∧
      (op = .xor → compound u .xor y x = some v) := by
  have hb : op.bitwise = true := by rcases hop with ⟨rfl, _⟩ | ⟨rfl, _⟩ | ⟨rfl, _⟩ <;> rfl
  obtain ⟨y, hy, hr, he⟩ := C107_bits .i64 u op hb v x
  refine ⟨y, hy, range_i64.1 hr, ?_, ?_⟩
  · intro i hi
    have he' : BitVec.ofInt 64 y = op.bits (BitVec.ofInt 64 v) (BitVec.ofInt 64 x) := he
    rw [he']
    rcases hop with ⟨rfl, rfl⟩ | ⟨rfl, rfl⟩ | ⟨rfl, rfl⟩
    · exact BitVec.getLsbD_and
    · exact BitVec.getLsbD_or
    · exact BitVec.getLsbD_xor
  · rintro rfl
    obtain ⟨z, hz, hzr, hze⟩ := C107_bits .i64 u .xor rfl y x
    refine hz.trans (congrArg some ?_)
    have : BitVec.ofInt 64 z = BitVec.ofInt 64 v := by
      have h1 : BitVec.ofInt 64 z = BitVec.ofInt 64 y ^^^ BitVec.ofInt 64 x := hze
      have h2 : BitVec.ofInt 64 y = BitVec.ofInt 64 v ^^^ BitVec.ofInt 64 x := he
      rw [h1, h2, BitVec.xor_assoc, BitVec.xor_self, BitVec.xor_zero]
    have h3 := congrArg BitVec.toInt this
    rw [BitVec.toInt_ofInt, BitVec.toInt_ofInt] at h3
    have hz' := range_i64.1 hzr
    simp only [I64] at hv hz'
    rwa [Int.bmod_eq_of_le (by omega) (by omega), Int.bmod_eq_of_le (by omega) (by omega)] at h3

example : compound .u8 .and (-1) 255 = some 255 ∧ compound .i8 .and (-1) (-1) = some (-1) := by decide

/-- C159. `<<=`: undefined exactly for negative durations, for shifts that are negative or of 64 bits
or more, and for products from `2 ^ 64`; otherwise the product, or, from `2 ^ 63`, a negative
duration. -/
theorem C159_left (u : ITy) (v x : Int) :
    compound u .shl v x =
      if 0 ≤ v ∧ 0 ≤ x ∧ x < 64 ∧ v * 2 ^ x.toNat < 2 ^ 64 then
        some (if v * 2 ^ x.toNat < 2 ^ 63 then v * 2 ^ x.toNat else v * 2 ^ x.toNat - 2 ^ 64)
      else none := by
  have hp : promote .i64 = .i64 := rfl
  unfold compound
  simp only [opValue]
  rw [hp]
  show (if x < 0 ∨ 64 ≤ x then none else if true = true ∧ (v < 0 ∨ (2 : Int) ^ 64 ≤ v * 2 ^ x.toNat)
    then none else _) = _
  have hpos : (0 : Int) < 2 ^ x.toNat := Int.pow_pos (by omega)
  generalize hm : v * 2 ^ x.toNat = m
  by_cases h1 : x < 0 ∨ 64 ≤ x
  · rw [if_pos h1, if_neg (by omega)]
  · rw [if_neg h1]
    by_cases h2 : true = true ∧ (v < 0 ∨ (2 : Int) ^ 64 ≤ m)
    · rw [if_pos h2, if_neg (by omega)]
    · have h3 : 0 ≤ v ∧ m < 2 ^ 64 := by
        constructor <;> refine Int.not_lt.1 fun h => h2 ⟨rfl, ?_⟩ <;> omega
      have h4 : 0 ≤ m := by rw [← hm]; exact Int.mul_nonneg h3.1 (Int.le_of_lt hpos)
      rw [if_neg h2, if_pos (by omega), wrap_eq (wrap_range .i64 m), wrap_i64 ⟨h4, h3.2⟩]

example : compound .i32 .shl 3 4 = some 48 ∧ compound .i32 .shl (-1) 1 = none ∧
    compound .i32 .shl 1 63 = some (-2 ^ 63) := by decide +kernel

/-- C159. `>>=`: undefined exactly for shifts that are negative or of 64 bits or more; otherwise the
quotient by the power of two rounded down, not to zero. What was shifted to the left without overflow
comes back. -/
theorem C159_right (u : ITy) (v x : Int) (hv : I64 v) :
    (compound u .shr v x = if 0 ≤ x ∧ x < 64 then some (v / 2 ^ x.toNat) else none) ∧
    ∀ w, compound u .shl v x = some w → v * 2 ^ x.toNat < 2 ^ 63 → compound u .shr w x = some v := by
  have key : ∀ v, I64 v →
      compound u .shr v x = if 0 ≤ x ∧ x < 64 then some (v / 2 ^ x.toNat) else none := by
    intro v hv
    by_cases h : 0 ≤ x ∧ x < 64
    · rw [if_pos h]
      exact C107_shr .i64 u v x (range_i64.2 hv) h.1 h.2
    · rw [if_neg h]
      unfold compound
      simp only [opValue]
      refine if_pos ?_
      show x < 0 ∨ 64 ≤ x
      omega
  refine ⟨key v hv, fun w hw hm => ?_⟩
  have hr := range_i64.1 (Verif.Field.Ops.opValue_range hw)
  rw [C159_left u v x] at hw
  split at hw
  · rename_i h
    obtain rfl : v * 2 ^ x.toNat = w := by
      exact Option.some.inj hw
    have hpos : (0 : Int) < 2 ^ x.toNat := Int.pow_pos (by omega)
    rw [key _ hr, if_pos ⟨h.2.1, h.2.2.1⟩, Int.mul_ediv_cancel _ (by omega)]
  · cases hw

/-- C159 fails: for every negative odd duration `>>= 1` and `/= 2` differ. -/
theorem C159_shift_fails (u : ITy) (hu : u ≠ .u64) (v : Int) (hv : I64 v) (hn : v < 0) (ho : v % 2 = 1) :
    ∃ a b, compound u .shr v 1 = some a ∧ compound u .div v 2 = some b ∧ a + 1 = b := by
  have h2 : u.Range 2 := by cases u <;> simp [ITy.Range, ITy.kind, Kind.Range]
  have e : v.tdiv 2 = v / 2 + 1 := by
    have h := Int.neg_tdiv v 2
    rw [Int.tdiv_eq_ediv_of_nonneg (by omega)] at h
    omega
  refine ⟨v / 2, v.tdiv 2, ?_, ?_, e.symm⟩
  · rw [(C159_right u v 1 hv).1, if_pos (by omega)]; rfl
  · rw [C159_exact u .div v 2 hu (by simp [Number]) hv h2]
    refine if_pos ⟨fun _ => by omega, ?_⟩
    show I64 (v.tdiv 2)
    simp only [I64] at hv ⊢
    omega

example : compound .i32 .shr (-7) 1 = some (-4) ∧ compound .i32 .div (-7) 2 = some (-3) := by decide

end Verif.Chrono.Integral
