import Verif.Any.Model

/-!
The IEEE 754 binary formats of `Smp::Float32` and `Smp::Float64`: the value of a bit pattern,
the bit pattern of a value, and rounding to nearest, ties to even. This is what the hardware
does in the conversions of src/Smp/AnySimple.cpp:99-108 and in the reads and writes of
src/Xsmp/Publication/Field.cpp; `-0` is identified with `0` and the NaNs with one another.
-/
namespace Verif.Float
open Verif.Any (Fl)

/-- A format with `p` significant bits and `w` bits of exponent. (IEEE 754; `Smp::Float32` and
`Smp::Float64` are accessed in Publication/Field.cpp:744-799.) -/
structure Fmt where
  p : Nat
  w : Nat
  deriving DecidableEq

/-- `Smp::Float32` (`float`). (Accessed in Publication/Field.cpp:744-799.) -/
def f32 : Fmt := ⟨24, 8⟩
/-- `Smp::Float64` (`double`). (Accessed in Publication/Field.cpp:744-799.) -/
def f64 : Fmt := ⟨53, 11⟩

/-- The finite values are multiples of `2 ^ -scale` (the least positive one). (IEEE 754, for
Publication/Field.cpp:744-799.) -/
def Fmt.scale (f : Fmt) : Nat := 2 ^ (f.w - 1) + f.p - 3

/-- The largest exponent, in units of the least positive value. (IEEE 754, for
Publication/Field.cpp:744-799.) -/
def Fmt.top (f : Fmt) : Nat := 2 ^ f.w - 3

/-- `N` units of the least positive value, with a sign. (IEEE 754, for
Publication/Field.cpp:744-799.) -/
def Fmt.val (f : Fmt) (neg : Bool) (N : Nat) : Rat :=
  (if neg then -1 else 1) * ((N : Rat) / ((2 ^ f.scale : Nat) : Rat))

/-- The value of a bit pattern: mantissa, exponent, sign, from the low bits. (IEEE 754, for
Publication/Field.cpp:706-742.) -/
def Fmt.decode (f : Fmt) (bits : Nat) : Fl :=
  let mant := bits % 2 ^ (f.p - 1)
  let e := bits / 2 ^ (f.p - 1) % 2 ^ f.w
  let neg := decide (bits / 2 ^ (f.p - 1 + f.w) % 2 = 1)
  if e = 2 ^ f.w - 1 then (if mant = 0 then .inf neg else .nan)
  else if e = 0 then .fin (f.val neg mant)
  else .fin (f.val neg ((2 ^ (f.p - 1) + mant) * 2 ^ (e - 1)))

/-- The exponent (in units of the least positive value) at which `N` units are written. (IEEE 754,
for Publication/Field.cpp:744-799.) -/
def Fmt.expo (f : Fmt) (N : Nat) : Nat := N.log2 + 1 - f.p

/-- The bits of `N` units, without sign. (IEEE 754, for Publication/Field.cpp:744-799.) -/
def Fmt.magBits (f : Fmt) (N : Nat) : Nat :=
  f.expo N * 2 ^ (f.p - 1) + N / 2 ^ f.expo N

/-- The sign bit. (IEEE 754, for Publication/Field.cpp:744-799.) -/
def Fmt.signBit (f : Fmt) (neg : Bool) : Nat := if neg then 2 ^ (f.p - 1 + f.w) else 0

/-- A bit pattern of a value of the format. (IEEE 754, for Publication/Field.cpp:744-799.) -/
def Fmt.encode (f : Fmt) : Fl → Nat
  | .nan => (2 ^ f.w - 1) * 2 ^ (f.p - 1) + 2 ^ (f.p - 2)
  | .inf neg => f.signBit neg + (2 ^ f.w - 1) * 2 ^ (f.p - 1)
  | .fin q => f.signBit (decide (q < 0)) +
      f.magBits (((if q < 0 then -q else q) * ((2 ^ f.scale : Nat) : Rat)).floor.toNat)

/-- The integer nearest to a number, the even one of two. (IEEE 754, for
AnySimpleConverter.h:27-76.) -/
def nearestInt (t : Rat) : Int :=
  if 2 * (t - t.floor) > 1 ∨ (2 * (t - t.floor) = 1 ∧ t.floor % 2 = 1) then t.floor + 1 else t.floor

/-- Rounding of a rational number to the format. (IEEE 754, for AnySimpleConverter.h:27-76.) -/
def Fmt.round (f : Fmt) (q : Rat) : Fl :=
  let y := (if q < 0 then -q else q) * ((2 ^ f.scale : Nat) : Rat)
  let g := 2 ^ f.expo y.floor.toNat
  let N := (nearestInt (y / ((g : Nat) : Rat))).toNat * g
  if 2 ^ (f.p + f.top) ≤ N then .inf (decide (q < 0)) else .fin (f.val (decide (q < 0)) N)

/-- `static_cast<Float32>(Float64)`. (AnySimpleConverter.h:27-76.) -/
def narrow : Fl → Fl
  | .fin q => f32.round q
  | x => x

end Verif.Float
