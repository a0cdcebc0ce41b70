import Verif.Field.FlagsFloat
import Verif.Field.FlagsProps
import Verif.Field.FloatingProps

/-!
Property C155 for operands of floating point types.
-/
namespace Verif.Field.Flags
open Verif.Any (Fl Val ITy Any)
open Verif.Float
open Verif.Chrono.Floating (Kind conv Cut)
open Verif.Field.Floating (FOp opFloat Exact)

/-! ### Lemmas -/

/-- A number of at least one unit is not rounded to 0. -/
theorem round_apart (k : Kind) (e : Rat) (h : 1 ≤ absR e * ((2 ^ k.fmt.scale : Nat) : Rat)) :
    k.fmt.round e ≠ .fin 0 := by
  intro h0
  have hS : (0 : Rat) < ((2 ^ k.fmt.scale : Nat) : Rat) := two_pow_pos' _
  have hm : k.fmt.Mag 1 :=
    ⟨1, 0, by cases k <;> decide, Nat.zero_le _, by decide⟩
  have hn := fun neg => round_nearest (Chrono.Floating.ok k) h0 (s := k.fmt.val neg 1) ⟨neg, 1, hm, rfl⟩
  have h1 := hn true
  have h2 := hn false
  have hu : ((1 : Nat) : Rat) / ((2 ^ k.fmt.scale : Nat) : Rat) * ((2 ^ k.fmt.scale : Nat) : Rat) = 1 := by
    rw [Rat.div_mul_cancel (by grind)]; rfl
  simp only [Fmt.val, if_true] at h1 h2
  generalize ((1 : Nat) : Rat) / ((2 ^ k.fmt.scale : Nat) : Rat) = u at *
  generalize ((2 ^ k.fmt.scale : Nat) : Rat) = S at *
  have hu0 : 0 < u := by
    rw [← Rat.not_le]; intro hc
    have := Rat.mul_le_mul_of_nonneg_right hc (Rat.le_of_lt hS)
    grind
  have hle : u ≤ absR e := by
    rw [← Rat.not_lt]; intro hc
    have := Rat.mul_lt_mul_of_pos_right hc hS
    grind
  unfold absR at *
  grind

theorem units_apart (k : Kind) (e : Rat) (z : Int) (h : e * ((2 ^ k.fmt.scale : Nat) : Rat) = z) (h0 : e ≠ 0) :
    k.fmt.round e ≠ .fin 0 := by
  have hS : (0 : Rat) < ((2 ^ k.fmt.scale : Nat) : Rat) := two_pow_pos' _
  refine round_apart k e ?_
  rw [absR_mul _ _ hS, h, Chrono.Floating.absR_int]
  have hz : z ≠ 0 := by
    rintro rfl
    have : e * ((2 ^ k.fmt.scale : Nat) : Rat) = 0 := h
    rcases Rat.mul_eq_zero.1 this with h1 | h1
    · exact h0 h1
    · grind
  have : ((1 : Nat) : Rat) ≤ ((z.natAbs : Nat) : Rat) := Rat.natCast_le_natCast.2 (by omega)
  exact this

theorem num_units (k : Kind) {q : Rat} (h : k.Num q) : ∃ z : Int, q * ((2 ^ k.fmt.scale : Nat) : Rat) = z := by
  obtain ⟨neg, N, -, rfl⟩ := (Chrono.Floating.num_has k q).1 h
  have hS : (0 : Rat) < ((2 ^ k.fmt.scale : Nat) : Rat) := two_pow_pos' _
  have hu : (N : Rat) / ((2 ^ k.fmt.scale : Nat) : Rat) * ((2 ^ k.fmt.scale : Nat) : Rat) = N :=
    Rat.div_mul_cancel (by grind)
  cases neg
  · refine ⟨(N : Int), ?_⟩
    simp only [Fmt.val]
    push_cast
    grind
  · refine ⟨-(N : Int), ?_⟩
    simp only [Fmt.val]
    push_cast
    grind

/-- The inverse of a number is at least one unit. -/
theorem inverse_apart (k : Kind) {q : Rat} (h : k.Num q) (h0 : q ≠ 0) :
    1 ≤ absR (1 / q) * ((2 ^ k.fmt.scale : Nat) : Rat) := by
  obtain ⟨neg, N, hN, rfl⟩ := (Chrono.Floating.num_has k q).1 h
  have hS : (0 : Rat) < ((2 ^ k.fmt.scale : Nat) : Rat) := two_pow_pos' _
  have hv := absR_val k.fmt neg N
  have hle : N ≤ 2 ^ k.fmt.scale * 2 ^ k.fmt.scale := by
    obtain ⟨m, j, hm, hj, rfl⟩ := hN
    have h1 : m * 2 ^ j ≤ 2 ^ k.fmt.p * 2 ^ k.fmt.top :=
      Nat.mul_le_mul (Nat.le_of_lt hm) (Nat.pow_le_pow_right (by omega) hj)
    rw [← Nat.pow_add] at h1 ⊢
    refine Nat.le_trans h1 (Nat.pow_le_pow_right (by omega) ?_)
    cases k <;> decide
  have hle' : (N : Rat) ≤ ((2 ^ k.fmt.scale : Nat) : Rat) * ((2 ^ k.fmt.scale : Nat) : Rat) := by
    have := Rat.natCast_le_natCast.2 hle
    rw [Rat.natCast_mul] at this
    exact this
  generalize k.fmt.val neg N = q at *
  generalize ((2 ^ k.fmt.scale : Nat) : Rat) = S at *
  have hp : absR (1 / q) * absR q = 1 := by
    rw [← Chrono.Floating.absR_prod, Rat.div_mul_cancel h0]; decide
  have hq : 0 < absR q := by unfold absR; grind
  rw [← Rat.not_lt]
  intro hc
  have h1 := Rat.mul_lt_mul_of_pos_right hc hq
  have h2 : absR q ≤ S := by
    rw [← Rat.not_lt]; intro h2
    have := Rat.mul_lt_mul_of_pos_right h2 hS
    grind
  have h3 : absR (1 / q) * S * absR q = (absR (1 / q) * absR q) * S := by
    rw [Rat.mul_assoc, Rat.mul_comm S, ← Rat.mul_assoc]
  rw [h3, hp] at h1
  grind

/-! ### Truth values -/

/-- C155: an operator with a number makes a flag true exactly when the exact result, the flag counted as 0
or 1, is not 0: however small it is, it is not lost by the rounding. -/
theorem C155_float (k : Kind) (op : FOp) (b : Bool) (q e : Rat) (hq : k.Num q)
    (he : Exact op (if b then 1 else 0) q e) : flagFloat k op b (.fin q) = true ↔ e ≠ 0 := by
  have hc : conv k (ofBool b) = .fin (if b then 1 else 0) := by
    rw [Chrono.Floating.conv_small k (by cases b <;> cases k <;> decide)]
    cases b <;> rfl
  unfold flagFloat
  rw [hc, Floating.run_exact _ _ he]
  by_cases h0 : e = 0
  · subst h0
    have : k.fmt.round 0 = .fin 0 := by cases k <;> decide +kernel
    rw [this]
    simp [truth]
  · have hne : k.fmt.round e ≠ .fin 0 := by
      obtain ⟨z, hz⟩ := num_units k hq
      have h1 : ∃ y : Int, (if b then (1 : Rat) else 0) * ((2 ^ k.fmt.scale : Nat) : Rat) = y := by
        cases b
        · exact ⟨0, by simp⟩
        · exact ⟨((2 ^ k.fmt.scale : Nat) : Int), by simp only [if_true, Rat.one_mul]; rfl⟩
      obtain ⟨y, hy⟩ := h1
      cases op with
      | add =>
        refine units_apart k e (y + z) ?_ h0
        have : e = (if b then 1 else 0) + q := he
        rw [Rat.intCast_add, this, Rat.add_mul, hy, hz]
      | sub =>
        refine units_apart k e (y - z) ?_ h0
        have : e = (if b then 1 else 0) - q := he
        rw [Rat.intCast_sub, this, Rat.sub_eq_add_neg, Rat.add_mul, Rat.neg_mul, hy, hz, Rat.sub_eq_add_neg]
      | mul =>
        have : e = (if b then 1 else 0) * q := he
        cases b with
        | false => exact absurd (this.trans (Rat.zero_mul q)) h0
        | true =>
          have : e = q := this.trans (Rat.one_mul q)
          exact units_apart k e z (by rw [this]; exact hz) h0
      | div =>
        obtain ⟨hq0, he⟩ : q ≠ 0 ∧ e = (if b then 1 else 0) / q := he
        cases b with
        | false => exact absurd (he.trans (by rw [Rat.div_def]; exact Rat.zero_mul _)) h0
        | true =>
          refine round_apart k e ?_
          rw [he]; exact inverse_apart k hq hq0
    cases hr : k.fmt.round e with
    | fin r =>
      rw [hr] at hne
      simpa [truth, h0] using hne
    | _ => simp [truth, h0]

/-- C155: an operator with a NaN makes every flag true, as do a division by 0 and adding, subtracting or
multiplying by an infinite number, even when this has no value; a division by an infinite number makes it
false. -/
theorem C155_nan_fails (k : Kind) (b neg : Bool) :
    (∀ op, flagFloat k op b .nan = true) ∧ flagFloat k .div b (.fin 0) = true ∧
    (∀ op, op ≠ .div → flagFloat k op b (.inf neg) = true) ∧ flagFloat k .div b (.inf neg) = false := by
  have hc : conv k (ofBool b) = .fin (if b then 1 else 0) := by
    rw [Chrono.Floating.conv_small k (by cases b <;> cases k <;> decide)]
    cases b <;> rfl
  refine ⟨fun op => ?_, ?_, fun op h => ?_, ?_⟩
  · unfold flagFloat; rw [hc]; cases op <;> rfl
  · unfold flagFloat; rw [hc]; cases b <;> rfl
  · unfold flagFloat; rw [hc]; cases op with
    | div => exact absurd rfl h
    | mul => cases b <;> rfl
    | _ => rfl
  · unfold flagFloat; rw [hc]; rfl

/-! ### Characters -/

/-- C155, partial. An operator with a number on a character: when the type of the operand has the exact
result, the new character is the one whose number is the result without its fraction, and the operator is
undefined when no character has it. Missing: results that are rounded first. -/
theorem C155_char_float_partial (k : Kind) (op : FOp) (c : Nat) (hc : c < 256) (q e : Rat)
    (he : Exact op (ofCode c) q e) (hn : k.Num e) :
    (∀ d, d < 256 → (charFloat k op c (.fin q) = some d ↔ Cut e (ofCode d))) ∧
    (charFloat k op c (.fin q) = none ↔ ∀ d, d < 256 → ¬ Cut e (ofCode d)) := by
  have hv : (ofCode c).natAbs ≤ 2 ^ k.bits := by
    have : (ofCode c).natAbs ≤ 2 ^ 24 := by unfold ofCode; split <;> omega
    cases k
    · exact this
    · exact Nat.le_trans this (by decide)
  have key := fun r => Floating.C135_integer_partial .i8 k op (ofCode c) q e r hv he hn
  have hcode : ∀ r : Int, ITy.i8.Range r → (r % 256).toNat < 256 ∧ ofCode (r % 256).toNat = r := by
    intro r hr
    simp [ITy.Range, ITy.kind, Any.Kind.Range] at hr
    unfold ofCode
    constructor
    · omega
    · split <;> omega
  have hback : ∀ d, d < 256 → (ofCode d % 256).toNat = d := by
    intro d hd
    unfold ofCode; split <;> omega
  have first : ∀ d, d < 256 → (charFloat k op c (.fin q) = some d ↔ Cut e (ofCode d)) := by
    intro d hd
    constructor
    · intro h
      unfold charFloat at h
      split at h
      · rename_i r hr
        obtain ⟨h1, h2⟩ := (key r).1 hr
        obtain ⟨h3, h4⟩ := hcode r h1
        cases h
        rw [h4]; exact h2
      · cases h
    · intro h
      unfold charFloat
      rw [(key (ofCode d)).2 ⟨code_range d hd, h⟩]
      dsimp only
      rw [hback d hd]
  refine ⟨first, fun h d hd hc => ?_, fun h => ?_⟩
  · rw [(first d hd).2 hc] at h; cases h
  · cases hr : charFloat k op c (.fin q) with
    | none => rfl
    | some d =>
      have hd : d < 256 := by
        unfold charFloat at hr
        split at hr
        · cases hr; omega
        · cases hr
      exact absurd ((first d hd).1 hr) (h d hd)

/-- C155: an operator with a NaN, or adding or subtracting an infinite number, is undefined for a
character. -/
theorem C155_char_nan_fails (k : Kind) (c : Nat) (neg : Bool) :
    (∀ op, charFloat k op c .nan = none) ∧ charFloat k .add c (.inf neg) = none ∧
    charFloat k .sub c (.inf neg) = none := by
  have hn : ∀ x : Fl, x = .nan ∨ (∃ b, x = .inf b) → Floating.back (.int .i8) x = none := by
    rintro x (rfl | ⟨b, rfl⟩) <;> rfl
  have hcm := (Floating.common_flt k (.int .i8) (.inr (by simp))).1
  have hrun : ∀ op x, (op.run k.fmt (conv k (ofCode c)) x = .nan ∨
      ∃ b, op.run k.fmt (conv k (ofCode c)) x = .inf b) → charFloat k op c x = none := by
    intro op x h
    unfold charFloat opFloat
    rw [hcm]
    dsimp only [Floating.toF]
    rw [hn _ h]
  have hadd : ∀ f a b, Chrono.Floating.addF f a (.inf b) = .nan ∨
      ∃ d, Chrono.Floating.addF f a (.inf b) = .inf d := by
    intro f a b
    cases a with
    | inf d =>
      by_cases h : d = b
      · exact .inr ⟨d, by simp [Chrono.Floating.addF, h]⟩
      · exact .inl (by simp [Chrono.Floating.addF, h])
    | fin q => exact .inr ⟨b, rfl⟩
    | nan => exact .inl rfl
  refine ⟨fun op => hrun _ _ (.inl ?_), hrun _ _ (hadd _ _ neg), hrun _ _ (hadd _ _ (!neg))⟩
  generalize conv k (ofCode c) = a
  cases op <;> cases a <;> rfl

/-- C155: also when the field is forced and would keep its value. -/
theorem C155_char_undefined_fails (narrow : Fl → Fl) (f : Nat) (n : Net) (i : Nat) (k : Kind) (op : FOp)
    (c : Nat) (hc : c < 256) (q e : Rat) (hv : (n i).value = .char c) (he : Exact op (ofCode c) q e)
    (hn : k.Num e) (h : e ≤ -129 ∨ 128 ≤ e) : opFlt narrow f n i k op (.fin q) = .ub := by
  have := (C155_char_float_partial k op c hc q e he hn).2.2 (by
    intro d hd hcut
    have hr : -128 ≤ ofCode d ∧ ofCode d ≤ 127 := by unfold ofCode; split <;> omega
    have h1 : ((-128 : Int) : Rat) ≤ ((ofCode d : Int) : Rat) := Rat.intCast_le_intCast.2 hr.1
    have h2 : ((ofCode d : Int) : Rat) ≤ ((127 : Int) : Rat) := Rat.intCast_le_intCast.2 hr.2
    push_cast at h1 h2
    unfold Cut at hcut
    grind)
  unfold opFlt
  rw [hv]
  dsimp only
  rw [this]

/-! ### Networks of fields -/

/-- C155: in any network made by calls, an operator with a floating point operand and a result gives it to
the field and to every field connected to it that is not forced; a forced field keeps its value. -/
theorem C155_assign_float (narrow : Fl → Fl) (f0 : Nat) (n0 n : Net) (h0 : Unconnected n0)
    (hplain : ∀ i, (n0 i).kind ≠ .String8 ∧ (n0 i).kind ≠ .None ∧ (n0 i).lits = none)
    (ops : List Op) (hrun : run narrow f0 n0 ops = some n) (hac : Acyclic n) (i : Nat) (k : Kind)
    (op : FOp) (x : Fl) (r : Val)
    (hr : (∃ b, (n i).kind = .Bool ∧ (n i).value = .bool b ∧ r = .bool (flagFloat k op b x)) ∨
      ∃ c d, (n i).kind = .Char8 ∧ (n i).value = .char c ∧ charFloat k op c x = some d ∧ r = .char d) :
    ((n i).held = true → ∀ f, opFlt narrow f n i k op x = .ok n) ∧
    ((n i).held = false → ∃ m, Returns (fun f => opFlt narrow f n i k op x) m ∧
      (m i).get = ⟨(n i).kind, r⟩ ∧
      ∀ j ∈ (n i).targets, (n i).connectable = true → (n j).held = false →
        (m j).get = ⟨(n i).kind, r⟩) := by
  have e : ∀ f, opFlt narrow f n i k op x = assign narrow f n i r := by
    intro f
    rcases hr with ⟨b, _, hv, rfl⟩ | ⟨b, c, _, hv, hf, rfl⟩
    · simp only [opFlt, hv]
    · simp only [opFlt, hv, hf]
  have ok : Any.Ok ⟨(n i).kind, r⟩ := by
    rcases hr with ⟨b, hk, _, rfl⟩ | ⟨b, c, hk, _, _, rfl⟩ <;> rw [hk] <;> trivial
  constructor
  · intro hh f
    rw [e]
    unfold assign store
    rw [if_pos hh]
  · intro hh
    obtain ⟨m, h1, h2, h3⟩ := C58_write_plain narrow f0 n0 n h0 hplain ops hrun hac i r hh ok
    refine ⟨m, ?_, h2, fun j hj hc hn => (h3 j hj hc hn).trans h2⟩
    obtain ⟨F, hF⟩ := h1
    refine ⟨F, fun f hf => ?_⟩
    have := hF f hf
    exact (e f).trans this

/-! ### Cases -/

/-- `C155_float`: true minus one is false, true minus a half and true divided by the greatest `double` are
true. -/
example : Exact .sub (if true then 1 else 0) (1 / 2) (1 / 2) ∧ Kind.double.Num (1 / 2) ∧
    flagFloat .double .sub true (.fin 1) = false ∧ flagFloat .double .sub true (.fin (1 / 2)) = true ∧
    flagFloat .double .div true (.fin ((2 ^ 53 - 1) * 2 ^ 971)) = true :=
  ⟨by unfold Exact; decide +kernel, ⟨1, -1, by decide, by decide, by decide, .inl (by decide +kernel)⟩,
    by decide +kernel, by decide +kernel, by decide +kernel⟩

/-- `C155_char_float_partial`: 'a' and one and a half is 'b'; 'a' and 100 is undefined. -/
example : charFloat .double .add 97 (.fin (3 / 2)) = some 98 ∧
    charFloat .double .add 97 (.fin 100) = none ∧ Exact .add (ofCode 97) 100 197 ∧
    Kind.double.Num 197 ∧ Cut (197 / 2) (ofCode 98) :=
  ⟨by decide +kernel, by decide +kernel, by unfold Exact; decide +kernel,
    ⟨197, 0, by decide, by decide, by decide, .inl (by decide +kernel)⟩, by unfold Cut; decide +kernel⟩

/-- `C155_assign_float`: a flag that is connected to another one becomes true. -/
example : ∃ n, run id 9 (fun _ => { demoOut 0 with kind := .Bool, value := .bool false })
      [.connect 0 1] = some n ∧ (n 0).kind = .Bool ∧ (n 0).value = .bool false ∧ (n 0).held = false ∧
    (n 0).targets = [1] ∧
    ∃ m, opFlt id 9 n 0 .double .add (.fin (1 / 4)) = .ok m ∧ (m 1).value = .bool true :=
  ⟨_, rfl, by decide, by decide, by decide, by decide, _, rfl, by decide +kernel⟩

end Verif.Field.Flags
