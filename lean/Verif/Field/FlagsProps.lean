import Verif.Field.Flags

/-! Property C155: operators of fields of truth values and characters. -/
namespace Verif.Field.Flags
open Verif.Any (Kind Fl Val Any ITy wrap wrap_eq)
open Verif.Field.Ops (BinOp promote common arith fit ofBits opValue)

/-! ### Specification -/

/-- The operators that have a logical counterpart. -/
def logic : BinOp → Option (Bool → Bool → Bool)
  | .and | .mul => some (· && ·)
  | .or | .add => some (· || ·)
  | .xor | .sub => some (· != ·)
  | _ => none

/-! ### Lemmas -/

theorem opValue_expr (t u : ITy) (op : BinOp) (v x : Int) :
    opValue t u op v x = (expr t u op v x).map (wrap t) := by
  cases op
  case shl =>
    unfold opValue expr
    dsimp only
    split
    · rfl
    · split <;> rfl
  case shr =>
    unfold opValue expr
    dsimp only
    split <;> rfl
  all_goals rfl

theorem bool_range (c : ITy) (b : Bool) : c.Range (ofBool b) := by
  cases c <;> cases b <;> simp [ITy.Range, ITy.kind, Kind.Range, ofBool]

theorem operand_range (t u : ITy) (ht : t.width = 8) (x : Int) (h : u.Range x) :
    (common t u).Range x := by
  cases t <;> simp [ITy.width] at ht <;> cases u <;>
    simp [common, promote, ITy.width, ITy.signed, ITy.Range, ITy.kind, Kind.Range] at h ⊢ <;> omega

theorem code_range (c : Nat) (h : c < 256) : ITy.i8.Range (ofCode c) := by
  unfold ofCode
  split <;> simp [ITy.Range, ITy.kind, Kind.Range] <;> omega

/-- Which numbers have no bits. -/
theorem ofInt_zero (c : ITy) {x : Int} (h : c.Range x) : BitVec.ofInt c.width x = 0 ↔ x = 0 := by
  constructor
  · intro e
    have h0 : c.Range 0 := bool_range c false
    refine Ops.range_unique c h h0 ?_
    have := congrArg BitVec.toNat e
    rw [BitVec.toNat_ofInt] at this
    simp only [BitVec.ofNat_eq_ofNat, BitVec.toNat_ofNat, Nat.zero_mod] at this
    rw [Int.sub_zero]
    have hp : (0 : Int) < ((2 ^ c.width : Nat) : Int) := by exact_mod_cast Nat.two_pow_pos _
    have hm := Int.emod_nonneg x (Int.ne_of_gt hp)
    have : x % ((2 ^ c.width : Nat) : Int) = 0 := by omega
    have := Int.dvd_of_emod_eq_zero this
    simpa using this
  · rintro rfl
    simp

theorem ofBits_zero (c : ITy) (b : BitVec c.width) : ofBits c b = 0 ↔ b = 0 := by
  constructor
  · intro e
    have := Ops.ofInt_ofBits c b
    rw [e] at this
    rw [← this]
    simp
  · rintro rfl
    unfold ofBits
    split <;> simp

/-- The expression of a truth value with a number. -/
theorem flag_expr (u : ITy) (op : BinOp) (hop : op ≠ .shl ∧ op ≠ .shr) (b : Bool) (x : Int)
    (hx : u.Range x) : expr .u8 u op (ofBool b) x = arith (common .u8 u) op (ofBool b) x := by
  have h1 : wrap (common .u8 u) (ofBool b) = ofBool b := wrap_eq (bool_range _ b)
  have h2 : wrap (common .u8 u) x = x := wrap_eq (operand_range .u8 u rfl x hx)
  cases op
  case shl => exact absurd rfl hop.1
  case shr => exact absurd rfl hop.2
  all_goals
    unfold expr
    dsimp only
    rw [h1, h2]

theorem fit_range {c : ITy} {r : Int} (h : c.Range r) : fit c r = some r := by
  unfold fit
  by_cases hs : c.signed = true
  · rw [if_pos hs, if_pos ((ITy.range_iff _ _).1 h)]
  · rw [if_neg hs, wrap_eq h]

/-! ### Truth values -/

/-- C155: with a truth value as operand, `&=` and `*=` are "and", `|=` and `+=` are "or", `^=` and `-=` are
"exclusive or". -/
theorem C155_logic (narrow : Fl → Fl) (f : Nat) (n : Net) (i : Nat) (op : BinOp) (g : Bool → Bool → Bool)
    (h : logic op = some g) (b c : Bool) (hv : (n i).value = .bool b) :
    opBool narrow f n i op c = assign narrow f n i (.bool (g b c)) := by
  have e : flagValue .u8 op b (ofBool c) = some (g b c) := by
    cases op <;> simp only [logic, Option.some.injEq, reduceCtorEq] at h <;> subst h <;> cases b <;>
      cases c <;> decide
  simp only [opBool, opAssign, hv, e]

/-- C155: with a number as operand, `+=`, `-=`, `*=` make the field true exactly if the result of the
operation, with false as 0 and true as 1, is not 0, when the type of the computation has that result. -/
theorem C155_number (u : ITy) (op : BinOp) (hop : op.ring = true) (b : Bool) (x : Int) (hx : u.Range x)
    (hr : (common .u8 u).Range (op.exact (ofBool b) x)) :
    flagValue u op b x = some (op.exact (ofBool b) x != 0) := by
  unfold flagValue
  rw [flag_expr u op (by cases op <;> simp [BinOp.ring] at hop <;> simp) b x hx]
  have : arith (common .u8 u) op (ofBool b) x = fit (common .u8 u) (op.exact (ofBool b) x) := by
    cases op <;> simp [BinOp.ring] at hop <;> rfl
  rw [this, fit_range hr]
  rfl

/-- C155: with a number as operand, `|=` makes the field true if it was or if the number is not 0; `*=`
exactly if both. -/
theorem C155_or (u : ITy) (b : Bool) (x : Int) (hx : u.Range x) :
    flagValue u .or b x = some (b || x != 0) ∧ flagValue u .mul b x = some (b && x != 0) := by
  constructor
  · unfold flagValue
    rw [flag_expr u .or (by simp) b x hx]
    have hc := operand_range .u8 u rfl x hx
    have hb := bool_range (common .u8 u) b
    simp only [arith, Option.map_some, Option.some.injEq]
    rw [Bool.eq_iff_iff]
    simp only [bne_iff_ne, ne_eq, ofBits_zero, Bool.or_eq_true]
    rw [show ((0 : BitVec (common .u8 u).width)) = 0#_ from rfl, BitVec.or_eq_zero_iff]
    rw [show (0#(common .u8 u).width) = 0 from rfl, ofInt_zero _ hb, ofInt_zero _ hc]
    cases b <;> simp [ofBool]
  · have hr : (common .u8 u).Range (BinOp.exact .mul (ofBool b) x) := by
      have hc := operand_range .u8 u rfl x hx
      cases b
      · simpa [BinOp.exact, ofBool] using bool_range (common .u8 u) false
      · simpa [BinOp.exact, ofBool] using hc
    rw [C155_number u .mul rfl b x hx hr]
    cases b <;> simp [BinOp.exact, ofBool]

theorem and_one {w : Nat} (hw : 0 < w) (y : BitVec w) : (1#w &&& y).toNat = y.toNat % 2 := by
  have : 1 % 2 ^ w = 1 := Nat.mod_eq_of_lt (Nat.one_lt_two_pow (by omega))
  rw [BitVec.toNat_and, BitVec.toNat_ofNat, this, Nat.and_comm, Nat.and_one_is_mod]

/-- C155 in full is false: `&=` with a number looks at its last bit only, so that a field that is true
becomes false with every even number, and `^=` with a number that is neither 0 nor 1 makes every field
true. -/
theorem C155_mask_fails (u : ITy) (b : Bool) (x : Int) (hx : u.Range x) :
    flagValue u .and b x = some (b && x % 2 != 0) ∧
    (x ≠ 0 → x ≠ 1 → flagValue u .xor b x = some true) := by
  have hc := operand_range .u8 u rfl x hx
  constructor
  · unfold flagValue
    rw [flag_expr u .and (by simp) b x hx]
    simp only [arith, Option.map_some, Option.some.injEq]
    rw [Bool.eq_iff_iff]
    simp only [bne_iff_ne, ne_eq, ofBits_zero, Bool.and_eq_true]
    cases b
    · simp [ofBool]
    · simp only [ofBool, if_true, true_and]
      have hw : 0 < (common .u8 u).width := by cases u <;> decide
      have e1 : BitVec.ofInt (common .u8 u).width 1 = 1#_ := by
        cases u <;> decide
      rw [e1, ← BitVec.toNat_inj, and_one hw, BitVec.toNat_ofInt]
      have h2 : (2 : Int) ∣ ((2 ^ (common .u8 u).width : Nat) : Int) := by
        obtain ⟨k, hk⟩ : ∃ k, (common .u8 u).width = k + 1 := ⟨_, (Nat.succ_pred_eq_of_pos hw).symm⟩
        rw [hk, Nat.pow_succ]
        exact_mod_cast Nat.dvd_mul_left 2 _
      have hp : (0 : Int) < ((2 ^ (common .u8 u).width : Nat) : Int) := by
        exact_mod_cast Nat.two_pow_pos _
      have hm := Int.emod_nonneg x (Int.ne_of_gt hp)
      have h3 : x % ((2 ^ (common .u8 u).width : Nat) : Int) % 2 = x % 2 := Int.emod_emod_of_dvd x h2
      have h4 : (0 : BitVec (common .u8 u).width).toNat = 0 := by simp
      rw [h4]
      omega
  · intro h0 h1
    unfold flagValue
    rw [flag_expr u .xor (by simp) b x hx]
    simp only [arith, Option.map_some, Option.some.injEq, bne_iff_ne, ne_eq, ofBits_zero]
    intro e
    have e2 := BitVec.xor_eq_zero_iff.1 e
    have hb := bool_range (common .u8 u) b
    have : ofBool b = x := by
      have hd := congrArg BitVec.toNat e2
      rw [BitVec.toNat_ofInt, BitVec.toNat_ofInt] at hd
      have hp : (0 : Int) < ((2 ^ (common .u8 u).width : Nat) : Int) := by
        exact_mod_cast Nat.two_pow_pos _
      have m1 := Int.emod_nonneg x (Int.ne_of_gt hp)
      have m2 := Int.emod_nonneg (ofBool b) (Int.ne_of_gt hp)
      have he : ofBool b % ((2 ^ (common .u8 u).width : Nat) : Int)
          = x % ((2 ^ (common .u8 u).width : Nat) : Int) := by omega
      refine Ops.range_unique _ hb hc ?_
      have := Int.dvd_of_emod_eq_zero (Int.emod_eq_emod_iff_emod_sub_eq_zero.1 he)
      simpa using this
    cases b
    · exact h0 this.symm
    · exact h1 this.symm

/-- C155 in full is false: `--` makes a field that is false true, in every network; `++` makes every field
true. -/
theorem C155_decrement_fails (narrow : Fl → Fl) (f : Nat) (n : Net) (i : Nat) (b : Bool)
    (hv : (n i).value = .bool b) :
    decrement narrow f n i = assign narrow f n i (.bool !b) ∧
    increment narrow f n i = assign narrow f n i (.bool true) := by
  unfold decrement increment opAssign
  rw [hv]
  cases b <;> exact ⟨rfl, rfl⟩

/-- C155: division by 0 is undefined; shifts keep a truth value, or make it false. -/
theorem C155_shift (u : ITy) (b : Bool) (x : Int) :
    (0 ≤ x → x < 32 → flagValue u .shl b x = some b ∧ flagValue u .shr b x = some (b && x == 0)) ∧
    (x < 0 ∨ 32 ≤ x → flagValue u .shl b x = none ∧ flagValue u .shr b x = none) ∧
    flagValue u .div b 0 = none ∧ flagValue u .mod b 0 = none := by
  refine ⟨fun h0 h1 => ?_, fun h => ?_, ?_, ?_⟩
  · obtain ⟨k, rfl⟩ := Int.eq_ofNat_of_zero_le h0
    have hk : k < 32 := by omega
    have fin : ∀ b : Bool, ∀ k : Fin 32, flagValue .u8 .shl b (k.val : Int) = some b ∧
        flagValue .u8 .shr b (k.val : Int) = some (b && (k.val : Int) == 0) := by decide +kernel
    exact fin b ⟨k, hk⟩
  · have hw : (promote .u8).width = 32 := rfl
    simp only [flagValue, expr, hw]
    rw [if_pos (by omega), if_pos (by omega)]
    exact ⟨rfl, rfl⟩
  · have h0 : u.Range 0 := bool_range u false
    unfold flagValue
    rw [flag_expr u .div (by simp) b 0 h0]
    simp [arith]
  · have h0 : u.Range 0 := bool_range u false
    unfold flagValue
    rw [flag_expr u .mod (by simp) b 0 h0]
    simp [arith]

/-! ### Characters -/

/-- C155: `+=`, `-=`, `*=` (and `++`, `--`) on a character give the character whose code is the result
modulo 256, with whatever integer operand; they are undefined exactly when the computation overflows a
signed type. -/
theorem C155_char (u : ITy) (op : BinOp) (hop : op.ring = true) (c : Nat) (hc : c < 256) (x : Int)
    (hx : u.Range x) :
    (∀ r, charValue u op c x = some r → r < 256 ∧ (256 : Int) ∣ (r : Int) - op.exact (c : Int) x) ∧
    (charValue u op c x = none ↔ (common .i8 u).signed = true ∧
      ¬ (common .i8 u).Range (op.exact (ofCode c) x)) := by
  constructor
  · intro r hr
    unfold charValue at hr
    cases he : expr .i8 u op (ofCode c) x with
    | none => rw [he] at hr; cases hr
    | some y =>
      rw [he] at hr
      simp only [Option.map_some, Option.some.injEq] at hr
      have ho : opValue .i8 u op (ofCode c) x = some (wrap .i8 y) := by
        rw [opValue_expr, he]; rfl
      have hm := (Ops.C107_modular .i8 u op hop (ofCode c) x _ ho).2
      have hw := Ops.wrap_dvd .i8 y
      have e8 : (2 ^ ITy.i8.width : Int) = 256 := rfl
      rw [e8] at hm hw
      have hoc : (256 : Int) ∣ ofCode c - c := by unfold ofCode; split <;> omega
      have hring : (256 : Int) ∣ op.exact (ofCode c) x - op.exact (c : Int) x :=
        Ops.ring_dvd op hop 256 _ _ _ _ hoc (by simp)
      refine ⟨by omega, ?_⟩
      have hr' : (r : Int) = y % 256 := by omega
      omega
  · rw [show (charValue u op c x = none) = (expr .i8 u op (ofCode c) x = none) by
        simp [charValue], ← Ops.C107_undefined .i8 u op hop (ofCode c) x (code_range c hc) hx,
      opValue_expr, Option.map_eq_none_iff]

/-- C155: characters are added to and subtracted from a character by their codes modulo 256. -/
theorem C155_codes (narrow : Fl → Fl) (f : Nat) (n : Net) (i c d : Nat) (hc : c < 256) (hd : d < 256)
    (hv : (n i).value = .char c) :
    opChar narrow f n i .add d = assign narrow f n i (.char ((c + d) % 256)) ∧
    opChar narrow f n i .sub d = assign narrow f n i (.char ((c + (256 - d)) % 256)) := by
  have hdr := code_range d hd
  have hcr := code_range c hc
  have bound : ∀ op : BinOp, op = .add ∨ op = .sub →
      ∃ r, charValue .i8 op c (ofCode d) = some r ∧ r < 256 ∧
        (256 : Int) ∣ (r : Int) - op.exact (c : Int) (ofCode d) := by
    intro op hop
    have hring : op.ring = true := by rcases hop with rfl | rfl <;> rfl
    obtain ⟨h1, h2⟩ := C155_char .i8 op hring c hc (ofCode d) hdr
    cases he : charValue .i8 op c (ofCode d) with
    | some r => exact ⟨r, rfl, h1 r he⟩
    | none =>
      exfalso
      refine (h2.1 he).2 ?_
      rcases hop with rfl | rfl <;>
        simp only [common, promote, ITy.width, ITy.signed, ITy.Range, ITy.kind, Kind.Range,
          BinOp.exact] at hdr hcr ⊢ <;>
        simp [Kind.Range] <;> omega
  have hod : (256 : Int) ∣ ofCode d - d := by unfold ofCode; split <;> omega
  constructor
  · obtain ⟨r, h1, h2, h3⟩ := bound .add (.inl rfl)
    simp only [BinOp.exact] at h3
    have : r = (c + d) % 256 := by omega
    simp only [opChar, opAssign, hv, h1, this]
  · obtain ⟨r, h1, h2, h3⟩ := bound .sub (.inr rfl)
    simp only [BinOp.exact] at h3
    have : r = (c + (256 - d)) % 256 := by omega
    simp only [opChar, opAssign, hv, h1, this]

/-- C155: `++` and `--` go to the next and the previous character, around at 255 and 0. -/
theorem C155_step (narrow : Fl → Fl) (f : Nat) (n : Net) (i c : Nat) (hc : c < 256)
    (hv : (n i).value = .char c) :
    increment narrow f n i = assign narrow f n i (.char ((c + 1) % 256)) ∧
    decrement narrow f n i = assign narrow f n i (.char ((c + 255) % 256)) := by
  have fin : ∀ c : Fin 256, charValue .i32 .add c.val 1 = some ((c.val + 1) % 256) ∧
      charValue .i32 .sub c.val 1 = some ((c.val + 255) % 256) := by decide +kernel
  obtain ⟨h1, h2⟩ := fin ⟨c, hc⟩
  unfold increment decrement opAssign
  rw [hv]
  dsimp only at h1 h2 ⊢
  rw [h1, h2]
  exact ⟨rfl, rfl⟩

/-- C155 in full is false: characters from 128 on are negative numbers, so that a shift to the right sets
the highest bit again, and the half of such a character is not one of half its code. -/
theorem C155_high_fails (c : Nat) (h1 : 128 ≤ c) (h2 : c < 256) :
    charValue .i32 .shr c 1 = some (c / 2 + 128) ∧
    charValue .i32 .div c 2 = some ((128 + (c + 1) / 2) % 256) := by
  have fin : ∀ c : Fin 256, 128 ≤ c.val → charValue .i32 .shr c.val 1 = some (c.val / 2 + 128) ∧
      charValue .i32 .div c.val 2 = some ((128 + (c.val + 1) / 2) % 256) := by decide +kernel
  exact fin ⟨c, h2⟩ h1

theorem small (q : Nat) (h : q < 128) : ((q : Int) % 256).toNat = q := by omega

/-- C155: for the characters below 128, `>>=`, `/=` and `%=` are those of the codes, with whatever integer
operand that is positive. -/
theorem C155_low_partial (u : ITy) (c : Nat) (hc : c < 128) (x : Int) (hx : u.Range x) (h0 : 0 < x) :
    charValue u .div c x = some (c / x.toNat) ∧ charValue u .mod c x = some (c % x.toNat) ∧
    (x < 32 → charValue u .shr c x = some (c / 2 ^ x.toNat)) := by
  obtain ⟨k, rfl⟩ := Int.eq_ofNat_of_zero_le (Int.le_of_lt h0)
  have hcode : ofCode c = c := by simp [ofCode, hc]
  have hcr : (common .i8 u).Range (c : Int) := by
    cases u <;> simp [common, promote, ITy.width, ITy.signed, ITy.Range, ITy.kind, Kind.Range] <;> omega
  have hkr : (common .i8 u).Range (k : Int) := by
    cases u <;> simp [common, promote, ITy.width, ITy.signed, ITy.Range, ITy.kind, Kind.Range] at hx ⊢ <;>
      omega
  have hq : (common .i8 u).Range ((c / k : Nat) : Int) := by
    refine Ops.convex _ hcr (.inl ⟨Int.natCast_nonneg _, ?_⟩)
    exact_mod_cast Nat.div_le_self c k
  have hd : ((c : Int).tdiv (k : Int)) = ((c / k : Nat) : Int) := by
    rw [Int.tdiv_eq_ediv_of_nonneg (by omega)]
    rfl
  have hk0 : ¬ (k : Int) = 0 := by omega
  have hlt : c / k < 128 := Nat.lt_of_le_of_lt (Nat.div_le_self c k) hc
  refine ⟨?_, ?_, fun h32 => ?_⟩
  · unfold charValue expr
    dsimp only
    rw [hcode, wrap_eq hcr, wrap_eq hkr]
    simp only [arith, if_neg hk0, hd, fit_range hq, Option.map_some, Option.some.injEq,
      Int.toNat_natCast]
    exact small _ hlt
  · unfold charValue expr
    dsimp only
    rw [hcode, wrap_eq hcr, wrap_eq hkr]
    have hm : ((c : Int).tmod (k : Int)) = ((c % k : Nat) : Int) := by
      rw [Int.tmod_eq_emod_of_nonneg (by omega)]
      rfl
    have : c % k < 128 := Nat.lt_of_le_of_lt (Nat.mod_le c k) hc
    simp only [arith, if_neg hk0, hd, fit_range hq, Option.map_some, Option.some.injEq, hm,
      Int.toNat_natCast]
    exact small _ this
  · unfold charValue expr
    dsimp only
    have hw : (promote .i8).width = 32 := rfl
    rw [hcode, hw, if_neg (by omega)]
    simp only [Option.map_some, Option.some.injEq, Int.toNat_natCast]
    have hp : ((c : Int) / (2 : Int) ^ k) = ((c / 2 ^ k : Nat) : Int) := by
      rw [Int.natCast_ediv, Int.natCast_pow]
      rfl
    rw [hp]
    have : c / 2 ^ k < 128 := Nat.lt_of_le_of_lt (Nat.div_le_self c _) hc
    exact small _ this

/-! ### Fields -/

/-- C155: in any network made by calls, an operator with a result gives it to the field and to every field
connected to it that is not forced. -/
theorem C155_assign (narrow : Fl → Fl) (f0 : Nat) (n0 n : Net) (h0 : Unconnected n0)
    (hplain : ∀ i, (n0 i).kind ≠ .String8 ∧ (n0 i).kind ≠ .None ∧ (n0 i).lits = none)
    (ops : List Op) (hrun : run narrow f0 n0 ops = some n) (hac : Acyclic n) (i : Nat) (u : ITy)
    (op : BinOp) (x : Int) (r : Val)
    (hr : (∃ b c, (n i).kind = .Bool ∧ (n i).value = .bool b ∧ flagValue u op b x = some c ∧ r = .bool c) ∨
      ∃ c d, (n i).kind = .Char8 ∧ (n i).value = .char c ∧ charValue u op c x = some d ∧ r = .char d) :
    ((n i).held = true → ∀ f, opAssign narrow f n i u op x = .ok n) ∧
    ((n i).held = false → ∃ m, Returns (fun f => opAssign narrow f n i u op x) m ∧
      (m i).get = ⟨(n i).kind, r⟩ ∧
      ∀ j ∈ (n i).targets, (n i).connectable = true → (n j).held = false →
        (m j).get = ⟨(n i).kind, r⟩) := by
  have e : ∀ f, opAssign narrow f n i u op x = assign narrow f n i r := by
    intro f
    rcases hr with ⟨b, c, _, hv, hf, rfl⟩ | ⟨b, c, _, hv, hf, rfl⟩ <;> simp only [opAssign, hv, hf]
  have ok : Any.Ok ⟨(n i).kind, r⟩ := by
    rcases hr with ⟨b, c, hk, _, _, rfl⟩ | ⟨b, c, hk, _, _, rfl⟩ <;> rw [hk] <;> trivial
  constructor
  · intro hh f
    rw [e]
    unfold assign store
    rw [if_pos hh]
  · intro hh
    obtain ⟨m, h1, h2, h3⟩ := C58_write_plain narrow f0 n0 n h0 hplain ops hrun hac i r hh ok
    refine ⟨m, ?_, h2, fun j hj hc hn => (h3 j hj hc hn).trans h2⟩
    obtain ⟨F, hF⟩ := h1
    refine ⟨F, fun f hf => ?_⟩
    have := hF f hf
    exact (e f).trans this

/-! ### Cases -/

/-- `C155_number`: true minus 1 is false, true minus 3 is true, with operands of 64 bits. -/
example : flagValue .i64 .sub true 1 = some false ∧ flagValue .i64 .sub true 3 = some true ∧
    (common .u8 .i64).Range (BinOp.exact .sub (ofBool true) 3) := by
  refine ⟨by decide, by decide, by simp [common, promote, ITy.width, ITy.signed, ITy.Range, ITy.kind,
    Kind.Range, BinOp.exact, ofBool]⟩

/-- `C155_mask_fails`: true `&= 2` is false. -/
example : flagValue .i32 .and true 2 = some false ∧ flagValue .i32 .xor false 2 = some true := by decide

/-- `C155_char`: 'a' + 1 is 'b', 'z' + 255 is 'y'. -/
example : charValue .i32 .add 97 1 = some 98 ∧ charValue .u8 .add 122 255 = some 121 := by decide

/-- `C155_high_fails`: the character 233 shifted is 244. -/
example : charValue .i32 .shr 233 1 = some 244 := by decide

/-- `C155_assign`: a flag that is connected to another one is cleared. -/
example : ∃ n, run id 9 (fun _ => { demoOut 0 with kind := .Bool, value := .bool true })
      [.connect 0 1] = some n ∧ (n 0).kind = .Bool ∧ (n 0).value = .bool true ∧ (n 0).held = false ∧
    (n 0).targets = [1] ∧ flagValue .u8 .and true (ofBool false) = some false ∧
    ∃ m, opBool id 9 n 0 .and false = .ok m ∧ (m 1).value = .bool false :=
  ⟨_, rfl, by decide, by decide, by decide, by decide, by decide, _, rfl, by decide⟩

end Verif.Field.Flags
