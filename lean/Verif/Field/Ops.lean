import Verif.Field.ArrProps
import Verif.Field.NetProps

/-! The operators of simple fields, and the references and iterators of connectable arrays of
simple values (include/Xsmp/Field.h). -/
namespace Verif.Field.Ops
open Verif.Any (Kind Fl Val Any Out ITy wrap)

/-! ### Operators -/

/-- The operators with a value (Field.h:484-513, 848-887). -/
inductive BinOp
  | add | sub | mul | div | mod | and | or | xor | shl | shr
deriving DecidableEq

/-- Integral promotion of the C++ standard, for the operands of Field.h:484-513 (`int` has 32
bits). -/
def promote (t : ITy) : ITy := if t.width < 32 then .i32 else t

/-- The usual arithmetic conversions of the C++ standard, for the operands of Field.h:484-513. -/
def common (a b : ITy) : ITy :=
  if (promote a).signed = (promote b).signed then
    if (promote a).width < (promote b).width then promote b else promote a
  else if (promote a).signed then
    if (promote a).width ≤ (promote b).width then promote b else promote a
  else if (promote b).width ≤ (promote a).width then promote a else promote b

/-- A result as a value of the type it is computed in: overflow is undefined for signed types
(`none`), and wraps for the others (the expressions of Field.h:484-513). -/
def fit (c : ITy) (r : Int) : Option Int :=
  if c.signed then if c.lowest ≤ r ∧ r ≤ c.max then some r else none else some (wrap c r)

/-- The value of the type with the given bits (Field.h:505-513). -/
def ofBits (c : ITy) (b : BitVec c.width) : Int := if c.signed then b.toInt else b.toNat

/-- The operators on two values of the same type, shifts excepted (Field.h:490-513). -/
def arith (c : ITy) (op : BinOp) (a b : Int) : Option Int :=
  match op with
  | .add => fit c (a + b)
  | .sub => fit c (a - b)
  | .mul => fit c (a * b)
  | .div => if b = 0 then none else fit c (a.tdiv b)
  | .mod => if b = 0 then none else (fit c (a.tdiv b)).map fun _ => a.tmod b
  | .and => some (ofBits c (BitVec.ofInt _ a &&& BitVec.ofInt _ b))
  | .or => some (ofBits c (BitVec.ofInt _ a ||| BitVec.ofInt _ b))
  | .xor => some (ofBits c (BitVec.ofInt _ a ^^^ BitVec.ofInt _ b))
  | _ => none

/-- The value handed to `SetValue` by the operators `+=`, `-=`, ... (Field.h:484-513, 848-887) of a
field of type `t` with an operand of type `u`, both integer types (`Verif.Field.Floating` has those on
floating point values): the expression `_value op _i`, converted to `t`. `none` when the expression
is undefined. The operators `++` and `--` (Field.h:482-483, 846-847) are `add` and `sub` of the
`int` 1. Shifts are those of C++17. -/
def opValue (t u : ITy) (op : BinOp) (v x : Int) : Option Int :=
  match op with
  | .shl =>
    if x < 0 ∨ (promote t).width ≤ x then none
    else if (promote t).signed ∧ (v < 0 ∨ (2 : Int) ^ (promote t).width ≤ v * 2 ^ x.toNat) then none
    else some (wrap t (wrap (promote t) (v * 2 ^ x.toNat)))
  | .shr =>
    if x < 0 ∨ (promote t).width ≤ x then none else some (wrap t (v / 2 ^ x.toNat))
  | _ => (arith (common t u) op (wrap (common t u) v) (wrap (common t u) x)).map (wrap t)

/-- The operators of `SimpleField` (Field.h:482-513): the new value is computed even when the field
is forced. -/
def opAssign (narrow : Fl → Fl) (f : Nat) (n : Net) (i : Nat) (t u : ITy) (op : BinOp) (x : Int) :
    Res :=
  match (n i).value with
  | .int v => match opValue t u op v x with
    | none => .ub
    | some r => assign narrow f n i (.int r)
  | _ => .ub

/-! ### References and iterators of arrays -/

/-- `protected_reference::SetValue` (Field.h:890-894) of the reference to the element at `pos`, with
the index `idx`. -/
def refWrite (narrow : Fl → Fl) (n : Arrs) (i pos idx : Nat) (v : Val) : ARes :=
  if (n i).values.length ≤ pos then .ub
  else apush narrow (n.set i { n i with values := (n i).values.set pos v }) i idx (n i).targets

/-- `protected_iterator` (Field.h:907-978): `pos` is the element `_value` points to. -/
structure It where
  pos : Int
  idx : BitVec 64
deriving DecidableEq

/-- `begin()` (Field.h:995-1002). -/
def beginIt : It := ⟨0, 0⟩

/-- `end()` (Field.h:1005-1012). -/
def endIt (size : Nat) : It := ⟨size, BitVec.ofNat 64 size⟩

/-- The movements of an iterator (Field.h:931-971); the postfix operators move like the others. -/
inductive Move
  | inc | dec | plus (d : Int) | minus (d : Int)
deriving DecidableEq

/-- One movement (Field.h:931-971); a pointer may not leave the array. -/
def It.move (size : Nat) (it : It) (m : Move) : Option It :=
  let r : It := match m with
    | .inc => ⟨it.pos + 1, it.idx + 1⟩
    | .dec => ⟨it.pos - 1, it.idx - 1⟩
    | .plus d => ⟨it.pos + d, it.idx + BitVec.ofInt 64 d⟩
    | .minus d => ⟨it.pos - d, it.idx - BitVec.ofInt 64 d⟩
  if 0 ≤ r.pos ∧ r.pos ≤ size then some r else none

/-- Several movements. Of the model only (sequences of Field.h:931-971). -/
def It.moves (size : Nat) : It → List Move → Option It
  | it, [] => some it
  | it, m :: ms => match it.move size m with
    | some it' => It.moves size it' ms
    | none => none

/-- `*it = v` (Field.h:925-927). -/
def It.write (narrow : Fl → Fl) (n : Arrs) (i : Nat) (it : It) (v : Val) : ARes :=
  if it.pos < 0 then .ub else refWrite narrow n i it.pos.toNat it.idx.toNat v

/-- `it[d] = v` (Field.h:949-951). -/
def It.writeAt (narrow : Fl → Fl) (n : Arrs) (i : Nat) (it : It) (d : Int) (v : Val) : ARes :=
  if it.pos + d < 0 then .ub
  else refWrite narrow n i (it.pos + d).toNat (it.idx + BitVec.ofInt 64 d).toNat v

/-- `*r = v` of a reverse iterator made from `it` (Field.h:1016-1036): the element before `it`. -/
def It.writeRev (narrow : Fl → Fl) (n : Arrs) (i : Nat) (it : It) (v : Val) : ARes :=
  match it.move (n i).values.length .dec with
  | none => .ub
  | some it' => it'.write narrow n i v

/-- `std::copy` of values to an iterator of the array (Field.h:925-935). -/
def copyTo (narrow : Fl → Fl) (n : Arrs) (i : Nat) (it : It) : List Val → ARes
  | [] => .ok n
  | v :: vs => match it.write narrow n i v with
    | .ok n' => match it.move (n i).values.length .inc with
      | some it' => copyTo narrow n' i it' vs
      | none => .ub
    | r => r

/-- `std::copy` of values to a reverse iterator of the array (Field.h:1016-1036). -/
def copyRev (narrow : Fl → Fl) (n : Arrs) (i : Nat) (it : It) : List Val → ARes
  | [] => .ok n
  | v :: vs => match it.writeRev narrow n i v with
    | .ok n' => match it.move (n i).values.length .dec with
      | some it' => copyRev narrow n' i it' vs
      | none => .ub
    | r => r

/-- The elements are given other values, at once: `fill`, `swap` and the conversion to `T &`
(Field.h:988-992). Nothing is pushed. -/
def araw (n : Arrs) (i : Nat) (vs : List Val) : Arrs := n.set i { n i with values := vs }

/-- `fill` (Field.h:991). -/
def afill (n : Arrs) (i : Nat) (v : Val) : Arrs :=
  araw n i (List.replicate (n i).values.length v)

end Verif.Field.Ops
