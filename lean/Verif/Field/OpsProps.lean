import Verif.Field.Ops

/-! Property C107: writing fields with operators, references and iterators. -/
namespace Verif.Field.Ops
open Verif.Any (Kind Fl Val Any Out ITy wrap wrap_eq)

/-! ### Specification -/

/-- The sum, the difference, the product (the other operators are not used with this function). -/
def BinOp.exact : BinOp → Int → Int → Int
  | .add, a, b => a + b
  | .sub, a, b => a - b
  | .mul, a, b => a * b
  | _, a, _ => a

/-- The ring operators. -/
def BinOp.ring : BinOp → Bool
  | .add | .sub | .mul => true
  | _ => false

/-- The operators on bits. -/
def BinOp.bits {w : Nat} : BinOp → BitVec w → BitVec w → BitVec w
  | .and, a, b => a &&& b
  | .or, a, b => a ||| b
  | .xor, a, b => a ^^^ b
  | _, a, _ => a

/-- The operators on bits. -/
def BinOp.bitwise : BinOp → Bool
  | .and | .or | .xor => true
  | _ => false

/-! ### Lemmas -/

theorem width_le (t u : ITy) : t.width ≤ (common t u).width := by
  cases t <;> cases u <;> decide

theorem wrap_dvd (c : ITy) (v : Int) : (2 ^ c.width : Int) ∣ wrap c v - v := by
  have e : ((2 ^ c.width : Nat) : Int) = 2 ^ c.width := by simp
  have h : (2 ^ c.width : Int) ∣ v % (2 ^ c.width : Int) - v := by
    have := Int.emod_add_mul_ediv v (2 ^ c.width : Int)
    exact ⟨-(v / 2 ^ c.width), by rw [Int.mul_neg]; omega⟩
  unfold wrap
  split
  · unfold Int.bmod
    rw [e]
    dsimp only
    split
    · exact h
    · have := Int.dvd_sub h (Int.dvd_refl _)
      rw [show v % 2 ^ c.width - 2 ^ c.width - v = v % 2 ^ c.width - v - 2 ^ c.width by omega]
      exact this
  · rw [e]; exact h

theorem wrap_range (c : ITy) (v : Int) : c.Range (wrap c v) := by
  cases c <;> simp only [ITy.Range, ITy.kind, Kind.Range, wrap, ITy.signed, ITy.width, if_true,
    Bool.false_eq_true, if_false, Int.bmod] <;> first | omega | (split <;> omega)

/-- Two numbers of a type that differ by a multiple of `2 ^ width` are the same. -/
theorem range_unique (t : ITy) {x r : Int} (hx : t.Range x) (hr : t.Range r)
    (h : (2 ^ t.width : Int) ∣ x - r) : x = r := by
  obtain ⟨k, hk⟩ := h
  cases t <;> simp only [ITy.Range, ITy.kind, Kind.Range, ITy.width] at hx hr hk <;> omega

theorem wrap_of_dvd (t : ITy) {x r : Int} (hr : t.Range r) (h : (2 ^ t.width : Int) ∣ x - r) :
    wrap t x = r := by
  refine range_unique t (wrap_range t x) hr ?_
  have := Int.dvd_add (wrap_dvd t x) h
  rw [show wrap t x - x + (x - r) = wrap t x - r by omega] at this
  exact this

theorem pow_dvd (t u : ITy) : (2 ^ t.width : Int) ∣ 2 ^ (common t u).width :=
  by simpa using Int.natCast_dvd_natCast.2 (Nat.pow_dvd_pow 2 (width_le t u))

theorem common_left (t u : ITy) (h : (common t u).signed = true) (v : Int) (hv : t.Range v) :
    (common t u).Range v := by
  cases t <;> cases u <;> revert h <;>
    simp [common, promote, ITy.width, ITy.signed, ITy.Range, ITy.kind, Kind.Range] at hv ⊢ <;> omega

theorem common_right (t u : ITy) (h : (common t u).signed = true) (v : Int) (hv : u.Range v) :
    (common t u).Range v := by
  cases t <;> cases u <;> revert h <;>
    simp [common, promote, ITy.width, ITy.signed, ITy.Range, ITy.kind, Kind.Range] at hv ⊢ <;> omega

theorem fit_some {c : ITy} {r x : Int} (h : fit c r = some x) : (2 ^ c.width : Int) ∣ x - r := by
  unfold fit at h
  split at h
  · split at h
    · cases h; simp
    · cases h
  · cases h; exact wrap_dvd c r

theorem fit_none {c : ITy} {r : Int} : fit c r = none ↔ c.signed = true ∧ ¬ c.Range r := by
  unfold fit
  by_cases hs : c.signed = true
  · rw [if_pos hs, ITy.range_iff]
    by_cases h : c.lowest ≤ r ∧ r ≤ c.max <;> simp [h, hs]
  · rw [if_neg hs]; simp [hs]

theorem ring_dvd (op : BinOp) (hop : op.ring = true) (m a b v x : Int) (h1 : m ∣ a - v)
    (h2 : m ∣ b - x) : m ∣ op.exact a b - op.exact v x := by
  cases op <;> simp [BinOp.ring] at hop
  · have := Int.dvd_add h1 h2
    rw [show a - v + (b - x) = a + b - (v + x) by omega] at this
    exact this
  · have := Int.dvd_sub h1 h2
    rw [show a - v - (b - x) = a - b - (v - x) by omega] at this
    exact this
  · show m ∣ a * b - v * x
    have := Int.dvd_add (Int.dvd_mul_of_dvd_left (c := b) h1) (Int.dvd_mul_of_dvd_right (b := v) h2)
    rw [Int.sub_mul, Int.mul_sub] at this
    rw [show a * b - v * b + (v * b - v * x) = a * b - v * x by omega] at this
    exact this

theorem ring_value (t u : ITy) (op : BinOp) (hop : op.ring = true) (v x : Int) :
    opValue t u op v x =
      (fit (common t u) (op.exact (wrap (common t u) v) (wrap (common t u) x))).map (wrap t) := by
  cases op <;> simp [BinOp.ring] at hop <;> rfl

/-! ### Properties of the operators -/

/-- C107. The operators `+=`, `-=`, `*=` (and `++`, `--`): if the result is a number of the type of
the field, it is the new value, whatever the integer types. -/
theorem C107_exact (t u : ITy) (op : BinOp) (hop : op.ring = true) (v x : Int) (hv : t.Range v)
    (hx : u.Range x) (hr : t.Range (op.exact v x)) : opValue t u op v x = some (op.exact v x) := by
  rw [ring_value t u op hop]
  by_cases hs : (common t u).signed = true
  · rw [wrap_eq (common_left t u hs v hv), wrap_eq (common_right t u hs x hx)]
    have hc := common_left t u hs _ hr
    have : fit (common t u) (op.exact v x) = some (op.exact v x) := by
      unfold fit
      rw [if_pos hs, if_pos ((ITy.range_iff _ _).1 hc)]
    rw [this, Option.map_some, wrap_eq hr]
  · cases hf : fit (common t u) (op.exact (wrap (common t u) v) (wrap (common t u) x)) with
    | none => exact absurd (fit_none.1 hf).1 hs
    | some y =>
      rw [Option.map_some]
      refine congrArg some (wrap_of_dvd t hr ?_)
      refine Int.dvd_trans (pow_dvd t u) ?_
      have := Int.dvd_add (fit_some hf)
        (ring_dvd op hop _ _ _ v x (wrap_dvd (common t u) v) (wrap_dvd (common t u) x))
      rw [show ∀ p q r : Int, p - q + (q - r) = p - r by intros; omega] at this
      exact this

/-- C107. Otherwise, if the operator is defined, the new value is a number of the type that differs
from the result by a multiple of `2 ^ width`. -/
theorem C107_modular (t u : ITy) (op : BinOp) (hop : op.ring = true) (v x y : Int)
    (h : opValue t u op v x = some y) :
    t.Range y ∧ (2 ^ t.width : Int) ∣ y - op.exact v x := by
  rw [ring_value t u op hop] at h
  cases hf : fit (common t u) (op.exact (wrap (common t u) v) (wrap (common t u) x)) with
  | none => rw [hf] at h; cases h
  | some z =>
    rw [hf] at h
    cases h
    refine ⟨wrap_range t z, ?_⟩
    have h1 := Int.dvd_trans (pow_dvd t u) (Int.dvd_add (fit_some hf)
      (ring_dvd op hop _ _ _ v x (wrap_dvd (common t u) v) (wrap_dvd (common t u) x)))
    have := Int.dvd_add (wrap_dvd t z) h1
    rw [show ∀ p q r s : Int, p - q + (q - r + (r - s)) = p - s by intros; omega] at this
    exact this

/-- C107. The operators `+=`, `-=`, `*=` are undefined exactly when the type of the computation is
signed and the result does not fit it. -/
theorem C107_undefined (t u : ITy) (op : BinOp) (hop : op.ring = true) (v x : Int) (hv : t.Range v)
    (hx : u.Range x) : opValue t u op v x = none ↔
      (common t u).signed = true ∧ ¬ (common t u).Range (op.exact v x) := by
  rw [ring_value t u op hop, Option.map_eq_none_iff, fit_none]
  constructor
  · rintro ⟨hs, h⟩
    rw [wrap_eq (common_left t u hs v hv), wrap_eq (common_right t u hs x hx)] at h
    exact ⟨hs, h⟩
  · rintro ⟨hs, h⟩
    rw [wrap_eq (common_left t u hs v hv), wrap_eq (common_right t u hs x hx)]
    exact ⟨hs, h⟩

theorem convex (t : ITy) {v y : Int} (hv : t.Range v) (h : (0 ≤ y ∧ y ≤ v) ∨ (v ≤ y ∧ y ≤ 0)) :
    t.Range y := by
  cases t <;> simp only [ITy.Range, ITy.kind, Kind.Range] at hv ⊢ <;> omega

theorem tmod_between (v x : Int) :
    (0 ≤ v.tmod x ∧ v.tmod x ≤ v) ∨ (v ≤ v.tmod x ∧ v.tmod x ≤ 0) := by
  have key : ∀ a : Int, 0 ≤ a → 0 ≤ a.tmod x ∧ a.tmod x ≤ a := by
    intro a ha
    refine ⟨Int.tmod_nonneg x ha, ?_⟩
    have h1 := Int.natAbs_tmod a x
    have h2 : a.natAbs % x.natAbs ≤ a.natAbs := Nat.mod_le _ _
    have h3 := Int.tmod_nonneg x ha
    omega
  by_cases h : 0 ≤ v
  · exact .inl (key v h)
  · refine .inr ?_
    have := key (-v) (by omega)
    rw [Int.neg_tmod] at this
    omega

/-- C107, partial. The operator `/=`: the quotient rounded to zero, if the type of the computation
has both operands and the type of the field has the quotient. Missing: operands that change when
converted (`C107_sign_fails`). -/
theorem C107_div_partial (t u : ITy) (v x : Int) (hx : x ≠ 0) (h1 : (common t u).Range v)
    (h2 : (common t u).Range x) (hr : t.Range (v.tdiv x)) :
    opValue t u .div v x = some (v.tdiv x) := by
  show (arith (common t u) .div (wrap (common t u) v) (wrap (common t u) x)).map (wrap t) = _
  rw [wrap_eq h1, wrap_eq h2]
  have : fit (common t u) (v.tdiv x) = some (v.tdiv x) := by
    by_cases hs : (common t u).signed = true
    · unfold fit
      rw [if_pos hs, if_pos ((ITy.range_iff _ _).1 (common_left t u hs _ hr))]
    · unfold fit
      rw [if_neg hs]
      have hn : ∀ w, (common t u).Range w → 0 ≤ w := by
        intro w hw
        revert hs hw
        cases common t u <;> simp [ITy.signed, ITy.Range, ITy.kind, Kind.Range] <;> omega
      refine congrArg some (wrap_eq (convex _ h1 (.inl ⟨Int.tdiv_nonneg (hn v h1) (hn x h2), ?_⟩)))
      rw [Int.tdiv_eq_ediv_of_nonneg (hn v h1)]
      exact Int.ediv_le_self x (hn v h1)
  simp only [arith]
  rw [if_neg hx, this, Option.map_some, wrap_eq hr]

/-- C107, partial. The operator `%=`: the remainder of that division, if the type of the computation
has both operands and the quotient. -/
theorem C107_mod_partial (t u : ITy) (v x : Int) (hv : t.Range v) (hx : x ≠ 0)
    (h1 : (common t u).Range v) (h2 : (common t u).Range x)
    (hr : (common t u).Range (v.tdiv x)) : opValue t u .mod v x = some (v.tmod x) := by
  show (arith (common t u) .mod (wrap (common t u) v) (wrap (common t u) x)).map (wrap t) = _
  rw [wrap_eq h1, wrap_eq h2]
  cases hf : fit (common t u) (v.tdiv x) with
  | none => exact absurd hr (fit_none.1 hf).2
  | some y =>
    simp only [arith]
    rw [if_neg hx, hf, Option.map_some, Option.map_some, wrap_eq (convex t hv (tmod_between v x))]

/-- C107. A division by zero is undefined, also on a field that is forced. -/
theorem C107_zero (narrow : Fl → Fl) (f : Nat) (n : Net) (i : Nat) (t u : ITy) (op : BinOp)
    (hop : op = .div ∨ op = .mod) : opAssign narrow f n i t u op 0 = .ub := by
  unfold opAssign
  have h0 : wrap (common t u) 0 = 0 := by cases t <;> cases u <;> decide
  cases (n i).value <;> try rfl
  rename_i v
  have : opValue t u op v 0 = none := by
    rcases hop with rfl | rfl
    · show (arith (common t u) .div (wrap (common t u) v) (wrap (common t u) 0)).map (wrap t) = _
      rw [h0]; rfl
    · show (arith (common t u) .mod (wrap (common t u) v) (wrap (common t u) 0)).map (wrap t) = _
      rw [h0]; rfl
  simp only [this]

theorem promote_range (t : ITy) (v : Int) (h : t.Range v) : (promote t).Range v := by
  cases t <;> simp [promote, ITy.width, ITy.Range, ITy.kind, Kind.Range] at h ⊢ <;> omega

/-- C107. The operator `<<=`: a number that is not negative is multiplied by `2 ^ x`, if the type of
the field has the product and `x` is less than the width. -/
theorem C107_shl (t u : ITy) (v x : Int) (hv : 0 ≤ v) (hx : 0 ≤ x)
    (hw : x < (promote t).width) (hr : t.Range (v * 2 ^ x.toNat)) :
    opValue t u .shl v x = some (v * 2 ^ x.toNat) := by
  have hp := promote_range t _ hr
  have hlt : ¬ (2 : Int) ^ (promote t).width ≤ v * 2 ^ x.toNat := by
    intro h
    revert h hp
    generalize v * 2 ^ x.toNat = y
    cases t <;> simp [promote, ITy.width, ITy.Range, ITy.kind, Kind.Range] <;> omega
  simp only [opValue]
  rw [if_neg (by omega), if_neg (by
    rintro ⟨_, h | h⟩
    · omega
    · exact hlt h), wrap_eq hp, wrap_eq hr]

/-- C107. The operator `>>=`: the number is divided by `2 ^ x`, rounded down. -/
theorem C107_shr (t u : ITy) (v x : Int) (hv : t.Range v) (hx : 0 ≤ x)
    (hw : x < (promote t).width) : opValue t u .shr v x = some (v / 2 ^ x.toNat) := by
  have hpos : (0 : Int) < 2 ^ x.toNat := Int.pow_pos (by omega)
  have hr : t.Range (v / 2 ^ x.toNat) := by
    by_cases h : 0 ≤ v
    · exact convex t hv (.inl ⟨Int.ediv_nonneg h (by omega), Int.ediv_le_self _ h⟩)
    · refine convex t hv (.inr ⟨?_, ?_⟩)
      · rw [Int.le_ediv_iff_mul_le hpos]
        have : v * 2 ^ x.toNat ≤ v * 1 := Int.mul_le_mul_of_nonpos_left (by omega) (by omega)
        omega
      · have := Int.ediv_lt_of_lt_mul hpos (a := v) (b := 1) (by omega)
        omega
  simp only [opValue]
  rw [if_neg (by omega), wrap_eq hr]

theorem ofInt_dvd {w : Nat} {a b : Int} (h : (2 ^ w : Int) ∣ a - b) :
    BitVec.ofInt w a = BitVec.ofInt w b := by
  apply BitVec.eq_of_toNat_eq
  simp only [BitVec.toNat_ofInt]
  have e : ((2 ^ w : Nat) : Int) = 2 ^ w := by simp
  rw [e, (Int.emod_emod_of_dvd a (Int.dvd_refl _)).symm, (Int.emod_eq_emod_iff_emod_sub_eq_zero).2
    (Int.emod_eq_zero_of_dvd h)]
  simp

theorem ofInt_setWidth {w m : Nat} (h : w ≤ m) (a : Int) :
    BitVec.ofInt w a = (BitVec.ofInt m a).setWidth w := by
  apply BitVec.eq_of_toNat_eq
  simp only [BitVec.toNat_ofInt, BitVec.toNat_setWidth]
  have hd : (2 ^ w : Int) ∣ 2 ^ m := by
    simpa using Int.natCast_dvd_natCast.2 (Nat.pow_dvd_pow 2 h)
  have e : ∀ k : Nat, ((2 ^ k : Nat) : Int) = 2 ^ k := by simp
  rw [e, e, ← Int.emod_emod_of_dvd a hd]
  have hpos : ∀ k : Nat, (0 : Int) < 2 ^ k := fun k => Int.pow_pos (by omega)
  have hz : ∀ k : Nat, (2 : Int) ^ k ≠ 0 := fun k => by have := hpos k; omega
  have h1 : 0 ≤ a % 2 ^ m := Int.emod_nonneg _ (hz m)
  have : ((a % 2 ^ m).toNat % 2 ^ w : Nat) = (a % 2 ^ m % 2 ^ w).toNat := by
    rw [Int.toNat_emod h1 (Int.le_of_lt (hpos w))]
    congr 1
  exact this.symm

theorem ofInt_ofBits (c : ITy) (b : BitVec c.width) : BitVec.ofInt c.width (ofBits c b) = b := by
  unfold ofBits
  split
  · exact BitVec.ofInt_toInt
  · simp

theorem bits_setWidth {w m : Nat} (h : w ≤ m) (op : BinOp) (a b : BitVec m) :
    (op.bits a b).setWidth w = op.bits (a.setWidth w) (b.setWidth w) := by
  cases op <;> simp only [BinOp.bits] <;> ext i hi <;> simp

theorem bits_value (t u : ITy) (op : BinOp) (hop : op.bitwise = true) (v x : Int) :
    opValue t u op v x = some (wrap t (ofBits (common t u) (op.bits
      (BitVec.ofInt _ (wrap (common t u) v)) (BitVec.ofInt _ (wrap (common t u) x))))) := by
  cases op <;> simp [BinOp.bitwise] at hop <;> rfl

/-- C107. The operators `&=`, `|=`, `^=` act on the bits of the two numbers, whatever the types. -/
theorem C107_bits (t u : ITy) (op : BinOp) (hop : op.bitwise = true) (v x : Int) :
    ∃ y, opValue t u op v x = some y ∧ t.Range y ∧
      BitVec.ofInt t.width y = op.bits (BitVec.ofInt t.width v) (BitVec.ofInt t.width x) := by
  refine ⟨_, bits_value t u op hop v x, wrap_range _ _, ?_⟩
  rw [ofInt_dvd (wrap_dvd t _), ofInt_setWidth (width_le t u), ofInt_ofBits,
    bits_setWidth (width_le t u), ← ofInt_setWidth (width_le t u), ← ofInt_setWidth (width_le t u),
    ofInt_dvd (Int.dvd_trans (pow_dvd t u) (wrap_dvd (common t u) v)),
    ofInt_dvd (Int.dvd_trans (pow_dvd t u) (wrap_dvd (common t u) x))]

/-- C107 fails: the product of two `UInt16` is computed as a signed number, and undefined although
the field would hold it modulo `2 ^ 16`. -/
theorem C107_mul_fails : opValue .u16 .u16 .mul 65535 65535 = none := by decide

/-- C107 fails: an `Int32` field of value -4, divided by the `UInt32` 2, becomes 2147483646. -/
theorem C107_sign_fails : opValue .i32 .u32 .div (-4) 2 = some 2147483646 := by decide

/-! ### The operators of fields -/

theorem opValue_range {t u : ITy} {op : BinOp} {v x r : Int} (h : opValue t u op v x = some r) :
    t.Range r := by
  have key : ∀ o : Option Int, o.map (wrap t) = some r → t.Range r := by
    intro o ho
    cases o with
    | none => cases ho
    | some y => cases ho; exact wrap_range _ _
  cases op
  case shl =>
    simp only [opValue] at h
    split at h
    · cases h
    · split at h
      · cases h
      · cases h; exact wrap_range _ _
  case shr =>
    simp only [opValue] at h
    split at h
    · cases h
    · cases h; exact wrap_range _ _
  all_goals
    simp only [opValue] at h
    exact key _ h

/-- C107. An operator on a field that is forced leaves all fields as they are, if its result is
defined. -/
theorem C107_forced (narrow : Fl → Fl) (f : Nat) (n : Net) (i : Nat) (t u : ITy) (op : BinOp)
    (v x r : Int) (hv : (n i).value = .int v) (hr : opValue t u op v x = some r)
    (hh : (n i).held = true) : opAssign narrow f n i t u op x = .ok n := by
  simp only [opAssign, hv, hr, assign, store]
  rw [if_pos hh]

/-- C107. In any network made by calls, an operator with result `r` gives `r` to the field and to
every field connected to it that is not forced. -/
theorem C107_assign (narrow : Fl → Fl) (f0 : Nat) (n0 n : Net) (h0 : Unconnected n0)
    (hplain : ∀ i, (n0 i).kind ≠ .String8 ∧ (n0 i).kind ≠ .None ∧ (n0 i).lits = none)
    (ops : List Op) (hrun : run narrow f0 n0 ops = some n) (hac : Acyclic n) (i : Nat) (t u : ITy)
    (op : BinOp) (v x r : Int) (hk : (n i).kind = t.kind) (hv : (n i).value = .int v)
    (hr : opValue t u op v x = some r) (hh : (n i).held = false) :
    ∃ m, Returns (fun f => opAssign narrow f n i t u op x) m ∧ (m i).get = ⟨t.kind, .int r⟩ ∧
      ∀ j ∈ (n i).targets, (n i).connectable = true → (n j).held = false →
        (m j).get = ⟨t.kind, .int r⟩ := by
  obtain ⟨m, h1, h2, h3⟩ := C58_write_plain narrow f0 n0 n h0 hplain ops hrun hac i (.int r) hh
    (by
      rw [hk]
      have := opValue_range hr
      cases t <;> simpa [Any.Ok, ITy.Range, ITy.kind] using this)
  rw [hk] at h2
  refine ⟨m, ?_, h2, fun j hj hc hn => (h3 j hj hc hn).trans h2⟩
  obtain ⟨F, hF⟩ := h1
  refine ⟨F, fun f hf => ?_⟩
  have := hF f hf
  simp only [opAssign, hv, hr]
  exact this

/-! ### Iterators -/

/-- How far the movements go. -/
def travel : List Move → Int
  | [] => 0
  | .inc :: ms => 1 + travel ms
  | .dec :: ms => travel ms - 1
  | .plus d :: ms => d + travel ms
  | .minus d :: ms => travel ms - d

/-- The iterator is at the element `k`, and has its index. -/
def It.At (it : It) (k : Nat) : Prop := it.pos = k ∧ it.idx = BitVec.ofNat 64 k

theorem ofInt_sub (a b : Int) : BitVec.ofInt 64 (a - b) = BitVec.ofInt 64 a - BitVec.ofInt 64 b := by
  have : BitVec.ofInt 64 (a - b) + BitVec.ofInt 64 b = BitVec.ofInt 64 a := by
    rw [← BitVec.ofInt_add, show a - b + b = a by omega]
  rw [← this, BitVec.add_sub_cancel]

theorem move_idx {size : Nat} {it it' : It} {m : Move} (h : it.move size m = some it')
    (hi : it.idx = BitVec.ofInt 64 it.pos) :
    it'.idx = BitVec.ofInt 64 it'.pos ∧ it'.pos = it.pos + travel [m] ∧ 0 ≤ it'.pos ∧
      it'.pos ≤ size := by
  unfold It.move at h
  cases m <;> dsimp only at h <;> split at h <;> cases h <;>
    rename_i hp <;> refine ⟨?_, by simp only [travel]; omega, hp.1, hp.2⟩ <;>
    simp only [hi, BitVec.ofInt_add, ofInt_sub] <;> rfl

theorem moves_idx {size : Nat} (ms : List Move) : ∀ {it it' : It},
    it.moves size ms = some it' → it.idx = BitVec.ofInt 64 it.pos → 0 ≤ it.pos → it.pos ≤ size →
    it'.idx = BitVec.ofInt 64 it'.pos ∧ it'.pos = it.pos + travel ms ∧ 0 ≤ it'.pos ∧
      it'.pos ≤ size := by
  induction ms with
  | nil => intro it it' h hi h0 h1; cases h; exact ⟨hi, by simp [travel], h0, h1⟩
  | cons m ms ih =>
    intro it it' h hi _ _
    unfold It.moves at h
    cases hm : it.move size m with
    | none => rw [hm] at h; cases h
    | some it1 =>
      rw [hm] at h
      obtain ⟨a, b, c, d⟩ := move_idx hm hi
      obtain ⟨e, f, g⟩ := ih h a c d
      refine ⟨e, ?_, g⟩
      rw [f, b]
      cases m <;> simp only [travel] <;> omega

theorem ofInt_ofNat (k : Nat) : BitVec.ofInt 64 (k : Int) = BitVec.ofNat 64 k := by
  apply BitVec.eq_of_toNat_eq
  simp only [BitVec.toNat_ofInt, BitVec.toNat_ofNat]
  omega

/-- C107. After any movements from the begin or the end, an iterator is at the element these
movements lead to, and has its index. -/
theorem C107_iterator (size : Nat) (it0 it : It) (h0 : it0 = beginIt ∨ it0 = endIt size)
    (ms : List Move) (h : it0.moves size ms = some it) :
    ∃ k : Nat, k ≤ size ∧ it.At k ∧ (k : Int) = (if it0 = beginIt then 0 else size) + travel ms := by
  have hb : it0.idx = BitVec.ofInt 64 it0.pos ∧ 0 ≤ it0.pos ∧ it0.pos ≤ size ∧
      it0.pos = if it0 = beginIt then 0 else size := by
    rcases h0 with rfl | rfl
    · exact ⟨by decide, by decide, by simp [beginIt], by simp [beginIt]⟩
    · refine ⟨(ofInt_ofNat size).symm, by simp [endIt], by simp [endIt], ?_⟩
      split
      · rename_i hh
        rw [hh]; rfl
      · rfl
  obtain ⟨a, b, c, d⟩ := moves_idx ms h hb.1 hb.2.1 hb.2.2.1
  refine ⟨it.pos.toNat, by omega, ⟨by omega, ?_⟩, ?_⟩
  · rw [a, ← ofInt_ofNat, show ((it.pos.toNat : Nat) : Int) = it.pos by omega]
  · rw [← hb.2.2.2]; omega

theorem refWrite_eq (narrow : Fl → Fl) (n : Arrs) (i k : Nat) (v : Val)
    (hc : (n i).connectable = true) : refWrite narrow n i k k v = awrite narrow n i k v := by
  unfold refWrite awrite
  split
  · rfl
  · dsimp only

/-- C107. A write through an iterator is a write of the element it is at. -/
theorem C107_write (narrow : Fl → Fl) (n : Arrs) (i k : Nat) (it : It) (v : Val)
    (hc : (n i).connectable = true) (hs : (n i).values.length < 2 ^ 64) (hit : it.At k)
    (hk : k < (n i).values.length) : it.write narrow n i v = awrite narrow n i k v := by
  obtain ⟨h1, h2⟩ := hit
  unfold It.write
  rw [if_neg (by omega), h2, show it.pos.toNat = k by omega, BitVec.toNat_ofNat,
    Nat.mod_eq_of_lt (by omega)]
  exact refWrite_eq narrow n i k v hc

/-- C107. A write through `it[d]` is a write of the element `d` further. -/
theorem C107_writeAt (narrow : Fl → Fl) (n : Arrs) (i k l : Nat) (it : It) (d : Int) (v : Val)
    (hc : (n i).connectable = true) (hs : (n i).values.length < 2 ^ 64) (hit : it.At k)
    (hl : (l : Int) = k + d) (hlt : l < (n i).values.length) :
    it.writeAt narrow n i d v = awrite narrow n i l v := by
  obtain ⟨h1, h2⟩ := hit
  unfold It.writeAt
  have e : it.idx + BitVec.ofInt 64 d = BitVec.ofNat 64 l := by
    rw [h2, ← ofInt_ofNat, ← ofInt_ofNat, ← BitVec.ofInt_add, hl]
  rw [if_neg (by omega), show (it.pos + d).toNat = l by omega, e, BitVec.toNat_ofNat,
    Nat.mod_eq_of_lt (by omega)]
  exact refWrite_eq narrow n i l v hc

theorem at_move {size k l : Nat} {it : It} {m : Move} (hit : it.At k)
    (hl : (l : Int) = k + travel [m]) (hlt : l ≤ size) :
    ∃ it', it.move size m = some it' ∧ it'.At l := by
  have hi : it.idx = BitVec.ofInt 64 it.pos := by rw [hit.1, hit.2, ofInt_ofNat]
  cases hm : it.move size m with
  | none =>
    exfalso
    unfold It.move at hm
    have h1 := hit.1
    cases m <;> simp only [travel] at hl <;> dsimp only at hm <;> split at hm <;>
      cases hm <;> omega
  | some it' =>
    obtain ⟨a, b, c, d⟩ := move_idx hm hi
    have e : it'.pos = l := by rw [b, hit.1, hl]
    exact ⟨it', rfl, e, by rw [a, e, ofInt_ofNat]⟩

/-- C107. A write through a reverse iterator is a write of the element before. -/
theorem C107_writeRev (narrow : Fl → Fl) (n : Arrs) (i k : Nat) (it : It) (v : Val)
    (hc : (n i).connectable = true) (hs : (n i).values.length < 2 ^ 64) (hit : it.At (k + 1))
    (hk : k < (n i).values.length) : it.writeRev narrow n i v = awrite narrow n i k v := by
  obtain ⟨it', h1, h2⟩ := at_move (m := .dec) (size := (n i).values.length) (l := k) hit
    (by simp only [travel]; omega) (by omega)
  unfold It.writeRev
  rw [h1]
  exact C107_write narrow n i k it' v hc hs h2 hk

/-! ### Copies -/

/-- A field and the fields connected to it, all arrays of the same kind and size. -/
structure Ready (n : Arrs) (i : Nat) : Prop where
  connectable : (n i).connectable = true
  nodup : (n i).targets.Nodup
  other : i ∉ (n i).targets
  same : ∀ t ∈ (n i).targets, (n t).kind = (n i).kind ∧
    (n t).values.length = (n i).values.length

/-- The field `i` and its targets are given the elements `f` of their own, nothing else changes. -/
def Filled (n m : Arrs) (i : Nat) (f : List Val → List Val) : Prop :=
  (∀ j, j = i ∨ j ∈ (n i).targets → m j = { n j with values := f (n j).values }) ∧
  (∀ j, j ≠ i → j ∉ (n i).targets → m j = n j)

theorem Filled.ready {n m : Arrs} {i : Nat} {f : List Val → List Val} (h : Filled n m i f)
    (hf : ∀ l, (f l).length = l.length) (hr : Ready n i) : Ready m i := by
  have hi := h.1 i (.inl rfl)
  refine ⟨by rw [hi]; exact hr.connectable, by rw [hi]; exact hr.nodup,
    by rw [hi]; exact hr.other, fun t ht => ?_⟩
  rw [hi] at ht
  rw [hi, h.1 t (.inr ht)]
  simp only [hf]
  exact hr.same t ht

theorem Filled.trans {n m l : Arrs} {i : Nat} {f g : List Val → List Val} (h : Filled n m i f)
    (h' : Filled m l i g) : Filled n l i (fun vs => g (f vs)) := by
  have hi := h.1 i (.inl rfl)
  have ht : (m i).targets = (n i).targets := by rw [hi]
  refine ⟨fun j hj => ?_, fun j hj hj' => ?_⟩
  · rw [h'.1 j (by rw [ht]; exact hj), h.1 j hj]
  · rw [h'.2 j hj (by rw [ht]; exact hj'), h.2 j hj hj']

theorem Filled.congr {n m : Arrs} {i : Nat} {f g : List Val → List Val} (h : Filled n m i f)
    (hr : Ready n i) (hfg : ∀ l, l.length = (n i).values.length → f l = g l) : Filled n m i g := by
  refine ⟨fun j hj => ?_, h.2⟩
  rw [h.1 j hj, hfg]
  rcases hj with rfl | hj
  · rfl
  · exact (hr.same j hj).2

theorem write_filled (narrow : Fl → Fl) {n : Arrs} {i k : Nat} {v : Val} (hr : Ready n i)
    (hk : k < (n i).values.length) (hv : Suits (n i) ⟨(n i).kind, v⟩) :
    ∃ m, awrite narrow n i k v = .ok m ∧ Filled n m i (fun l => l.set k v) := by
  obtain ⟨m, h1, h2, h3⟩ := C58_array_partial narrow n i k v hr.connectable hr.nodup hr.other hk hv
    hr.same
  exact ⟨m, h1, h2, h3⟩

theorem copyTo_spec (narrow : Fl → Fl) (i : Nat) (vs : List Val) : ∀ (n : Arrs) (k : Nat) (it : It),
    Ready n i → it.At k → (n i).values.length < 2 ^ 64 → k + vs.length ≤ (n i).values.length →
    (∀ v ∈ vs, Suits (n i) ⟨(n i).kind, v⟩) →
    ∃ m, copyTo narrow n i it vs = .ok m ∧
      Filled n m i (fun l => l.take k ++ vs ++ l.drop (k + vs.length)) := by
  induction vs with
  | nil =>
    intro n k it _ _ _ _ _
    exact ⟨n, rfl, fun j _ => by simp, fun _ _ _ => rfl⟩
  | cons v vs ih =>
    intro n k it hr hit hs hk hv
    simp only [List.length_cons] at hk
    obtain ⟨m, h1, h2⟩ := write_filled narrow hr (show k < _ by omega) (hv v List.mem_cons_self)
    have hi := h2.1 i (.inl rfl)
    have hlen : (m i).values.length = (n i).values.length := by rw [hi]; simp
    obtain ⟨it', h3, h4⟩ := at_move (m := .inc) (size := (n i).values.length) (l := k + 1) hit
      (by simp only [travel]; omega) (by omega)
    obtain ⟨l, h5, h6⟩ := ih m (k + 1) it' (h2.ready (by simp) hr) h4 (by omega) (by omega)
      (fun w hw => by rw [hi]; exact hv w (List.mem_cons_of_mem _ hw))
    refine ⟨l, ?_, (h2.trans h6).congr hr fun l hl => ?_⟩
    · unfold copyTo
      rw [C107_write narrow n i k it v hr.connectable hs hit (by omega), h1]
      dsimp only
      rw [h3]
      exact h5
    · exact replace_step l vs k v (by omega)

theorem copyRev_spec (narrow : Fl → Fl) (i : Nat) (vs : List Val) : ∀ (n : Arrs) (k : Nat) (it : It),
    Ready n i → it.At k → (n i).values.length < 2 ^ 64 → k ≤ (n i).values.length → vs.length ≤ k →
    (∀ v ∈ vs, Suits (n i) ⟨(n i).kind, v⟩) →
    ∃ m, copyRev narrow n i it vs = .ok m ∧
      Filled n m i (fun l => l.take (k - vs.length) ++ vs.reverse ++ l.drop k) := by
  induction vs with
  | nil =>
    intro n k it _ _ _ _ _ _
    exact ⟨n, rfl, fun j _ => by simp, fun _ _ _ => rfl⟩
  | cons v vs ih =>
    intro n k it hr hit hs hk hlt hv
    simp only [List.length_cons] at hlt
    obtain ⟨k, rfl⟩ : ∃ k', k = k' + 1 := ⟨k - 1, by omega⟩
    obtain ⟨m, h1, h2⟩ := write_filled narrow hr (show k < _ by omega) (hv v List.mem_cons_self)
    have hi := h2.1 i (.inl rfl)
    have hlen : (m i).values.length = (n i).values.length := by rw [hi]; simp
    obtain ⟨it', h3, h4⟩ := at_move (m := .dec) (size := (n i).values.length) (l := k) hit
      (by simp only [travel]; omega) (by omega)
    obtain ⟨l, h5, h6⟩ := ih m k it' (h2.ready (by simp) hr) h4 (by omega) (by omega) (by omega)
      (fun w hw => by rw [hi]; exact hv w (List.mem_cons_of_mem _ hw))
    refine ⟨l, ?_, (h2.trans h6).congr hr fun l hl => ?_⟩
    · unfold copyRev
      rw [C107_writeRev narrow n i k it v hr.connectable hs hit (by omega), h1]
      dsimp only
      rw [h3]
      exact h5
    · have e1 : (l.set k v).take (k - vs.length) = l.take (k - vs.length) := by
        rw [List.take_set_of_le (by omega)]
      have e2 : (l.set k v).drop k = v :: l.drop (k + 1) := by
        rw [set_take_drop l k v (by omega), List.append_assoc, List.drop_left' (by simp; omega)]
        rfl
      simp only [e1, e2, List.length_cons, List.reverse_cons, List.append_assoc,
        List.singleton_append, Nat.add_sub_add_right]

/-- C107, partial. A copy of as many values as the array has, to its begin: the field and all the
fields connected to it have these values. Missing: values of strings, and targets of another
kind. -/
theorem C107_copy_partial (narrow : Fl → Fl) (n : Arrs) (i : Nat) (vs : List Val) (hr : Ready n i)
    (hs : (n i).values.length < 2 ^ 64) (hl : vs.length = (n i).values.length)
    (hv : ∀ v ∈ vs, Suits (n i) ⟨(n i).kind, v⟩) :
    ∃ m, copyTo narrow n i beginIt vs = .ok m ∧ Filled n m i (fun _ => vs) := by
  obtain ⟨m, h1, h2⟩ := copyTo_spec narrow i vs n 0 beginIt hr ⟨rfl, rfl⟩ hs (by omega) hv
  refine ⟨m, h1, h2.congr hr fun l h => ?_⟩
  rw [List.drop_eq_nil_of_le (by omega)]
  simp

/-- C107, partial. A copy to `rbegin()`: the values in the other order. -/
theorem C107_copyRev_partial (narrow : Fl → Fl) (n : Arrs) (i : Nat) (vs : List Val)
    (hr : Ready n i) (hs : (n i).values.length < 2 ^ 64) (hl : vs.length = (n i).values.length)
    (hv : ∀ v ∈ vs, Suits (n i) ⟨(n i).kind, v⟩) :
    ∃ m, copyRev narrow n i (endIt (n i).values.length) vs = .ok m ∧
      Filled n m i (fun _ => vs.reverse) := by
  obtain ⟨m, h1, h2⟩ := copyRev_spec narrow i vs n (n i).values.length
    (endIt (n i).values.length) hr ⟨rfl, rfl⟩ hs (by omega) (by omega) hv
  refine ⟨m, h1, h2.congr hr fun l h => ?_⟩
  rw [List.drop_eq_nil_of_le (by omega), show (n i).values.length - vs.length = 0 by omega]
  simp

/-- C107 fails: `fill` of a connected array is not followed by the arrays connected to it. -/
theorem C107_fill_fails (narrow : Fl → Fl) : ∃ n m : Arrs, (n 0).targets = [] ∧
    aconnect narrow n 0 1 = .ok m ∧ Ready m 0 ∧
    (afill m 0 (.int 9) 0).values = [.int 9, .int 9, .int 9] ∧
    (afill m 0 (.int 9) 1).values = [.int 1, .int 2, .int 3] := by
  refine ⟨fun i => if i = 0 then demoArr .plain true else demoArr .plain false, _, rfl, rfl,
    ⟨rfl, by decide, by decide, fun t ht => ?_⟩, rfl, rfl⟩
  rcases List.mem_singleton.1 ht with rfl
  exact ⟨rfl, rfl⟩

/-! ### Examples -/

/-- The hypotheses of the theorems on values. -/
example : (common .i16 .u32).Range 7 ∧ (common .i16 .u32).Range 2 ∧ ITy.i16.Range ((7 : Int).tdiv 2) ∧
    opValue .i16 .u32 .div 7 2 = some 3 ∧ opValue .i32 .i8 .mod (-7) 2 = some (-1) ∧
    opValue .u8 .i32 .shl 3 2 = some 12 ∧ opValue .i8 .i32 .shr (-5) 1 = some (-3) ∧
    opValue .u8 .i32 .add 255 1 = some 0 ∧ opValue .i32 .i32 .add 2147483647 1 = none ∧
    opValue .i8 .i32 .add 127 1 = some (-128) ∧ opValue .i8 .u64 .xor (-1) 1 = some (-2) :=
  ⟨(ITy.range_iff _ _).2 (by decide), (ITy.range_iff _ _).2 (by decide),
    (ITy.range_iff _ _).2 (by decide), by decide⟩

/-- The hypotheses of `C107_assign` and `C107_forced`. -/
example : ∃ n, run id 9 demoNet [.connect 0 1, .connect 1 2, .assign 0 (.int 7)] = some n ∧
    (n 0).kind = ITy.i32.kind ∧ (n 0).value = .int 7 ∧ (n 0).held = false ∧ (n 0).targets = [1] ∧
    opValue .i32 .i32 .add 7 5 = some 12 ∧
    ∃ m, opAssign id 9 n 0 .i32 .i32 .add 5 = .ok m ∧ (m 2).value = .int 12 :=
  ⟨_, rfl, by decide, by decide, by decide, by decide, by decide, _, rfl, by decide⟩

/-- The hypotheses of `C107_iterator` and of the writes. -/
example : ∃ it, (endIt 3).moves 3 [.dec, .minus 2, .inc, .plus (-1), .plus 2] = some it ∧ it.At 2 :=
  ⟨_, rfl, by decide, by decide⟩

/-- The hypotheses of the copies. -/
example : ∃ n m l : Arrs, aconnect id n 0 1 = .ok m ∧ Ready m 0 ∧
    (∀ v ∈ [Val.int 7, .int 8, .int 9], Suits (m 0) ⟨(m 0).kind, v⟩) ∧
    copyRev id m 0 (endIt 3) [.int 7, .int 8, .int 9] = .ok l ∧
    (l 1).values = [.int 9, .int 8, .int 7] := by
  refine ⟨fun i => if i = 0 then demoArr .plain true else demoArr .plain false, _, _, rfl,
    ⟨rfl, by decide, by decide, fun t ht => ?_⟩, ?_, rfl, by decide⟩
  · rcases List.mem_singleton.1 ht with rfl
    exact ⟨rfl, rfl⟩
  · intro v hv
    have : ∀ x : Int, 7 ≤ x → x ≤ 9 → Suits (demoArr .plain true) ⟨.Int32, .int x⟩ := by
      intro x h1 h2
      refine ⟨rfl, by decide, by decide, ?_⟩
      simp only [Any.Ok, Verif.Any.Kind.Range]
      omega
    simp only [List.mem_cons, List.not_mem_nil, or_false] at hv
    rcases hv with rfl | rfl | rfl <;> exact this _ (by omega) (by omega)

end Verif.Field.Ops
