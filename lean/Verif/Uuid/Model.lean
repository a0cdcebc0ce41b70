/-
Model of `src/Smp/Uuid.cpp` and of the UUID stream operator in
`src/Smp/StreamOperators.cpp`.

C strings are lists of characters without the terminating NUL; characters are those of the
"C" locale. The stream is in its default format (no `showbase`, no `uppercase`).
-/
namespace Verif.Uuid

/-- The characters of a text (Uuid.cpp:31-80). -/
abbrev Str := List Char

/-- `Smp::Uuid`: `Data1`, the array `Data2` of three, the array `Data3` of six. (Used in
Uuid.cpp:31-129.) -/
structure Uuid where
  d1 : BitVec 32
  a : BitVec 16
  b : BitVec 16
  c : BitVec 16
  e0 : BitVec 8
  e1 : BitVec 8
  e2 : BitVec 8
  e3 : BitVec 8
  e4 : BitVec 8
  e5 : BitVec 8
  deriving DecidableEq, Repr

/-! ### Parsing -/

/-- `isxdigit` (Uuid.cpp:27-29). -/
def isHex (c : Char) : Bool :=
  ('0' ≤ c && c ≤ '9') || ('a' ≤ c && c ≤ 'f') || ('A' ≤ c && c ≤ 'F')

/-- Value of a hexadecimal digit. (Uuid.cpp:31-80.) -/
def hexVal (c : Char) : Nat :=
  if '0' ≤ c ∧ c ≤ '9' then c.toNat - 48
  else if 'a' ≤ c ∧ c ≤ 'f' then c.toNat - 87
  else c.toNat - 55

/-- What each test of the format check looks for: a digit or a dash. (Uuid.cpp:34-52.) -/
inductive Pat
  | hex | dash
  deriving DecidableEq, Repr

/-- The sequence of the tests (Uuid.cpp:34-52). -/
def shape : List Pat :=
  List.replicate 8 .hex ++ .dash :: (List.replicate 4 .hex ++ .dash ::
    (List.replicate 4 .hex ++ .dash :: (List.replicate 4 .hex ++ .dash ::
      List.replicate 12 .hex)))

/-- The format check (Uuid.cpp:34-52): the tests are evaluated from the left and stop at
the first that fails; the last one is for the end of the string. A string that is too short
fails at its NUL, so nothing behind it is read. -/
def wellFormed : List Pat → Str → Bool
  | [], s => s.isEmpty
  | _ :: _, [] => false
  | .hex :: ps, c :: s => isHex c && wellFormed ps s
  | .dash :: ps, c :: s => (c == '-') && wellFormed ps s

/-- Digits read so far as a number. (`std::strtoul` in Uuid.cpp:31-80.) -/
def digitsVal (s : Str) : Nat := s.foldl (fun n c => 16 * n + hexVal c) 0

/-- `std::strtoul(s, nullptr, 16)`, the result before truncation to the word size, which no call
below exceeds. White space and signs do not occur here; the prefix `0x` is skipped if a digit
follows. (Uuid.cpp:31-80.) -/
def strtoul (s : Str) : Nat :=
  match s with
  | '0' :: 'x' :: c :: r => if isHex c then digitsVal ((c :: r).takeWhile isHex) else 0
  | '0' :: 'X' :: c :: r => if isHex c then digitsVal ((c :: r).takeWhile isHex) else 0
  | s => digitsVal (s.takeWhile isHex)

/-- `from(value)` (Uuid.cpp:31-80); `none` is the exception `InvalidUUID`. The null pointer
is `none`. -/
def parse (value : Option Str) : Option Uuid :=
  match value with
  | none => none
  | some v =>
    if wellFormed shape v then
      let d3 := strtoul (v.drop 24)
      some { d1 := BitVec.ofNat 32 (strtoul v)
             a := BitVec.ofNat 16 (strtoul (v.drop 9))
             b := BitVec.ofNat 16 (strtoul (v.drop 14))
             c := BitVec.ofNat 16 (strtoul (v.drop 19))
             e0 := BitVec.ofNat 8 ((d3 >>> 40) &&& 0xFF)
             e1 := BitVec.ofNat 8 ((d3 >>> 32) &&& 0xFF)
             e2 := BitVec.ofNat 8 ((d3 >>> 24) &&& 0xFF)
             e3 := BitVec.ofNat 8 ((d3 >>> 16) &&& 0xFF)
             e4 := BitVec.ofNat 8 ((d3 >>> 8) &&& 0xFF)
             e5 := BitVec.ofNat 8 (d3 &&& 0xFF) }
    else none

/-! ### Printing -/

/-- `ostream << std::hex << std::setw(w) << std::setfill('0') << n`. (Uuid.cpp:82-103,
StreamOperators.cpp:250-266.) -/
def hexOut (w n : Nat) : Str :=
  List.replicate (w - (Nat.toDigits 16 n).length) '0' ++ Nat.toDigits 16 n

/-- The stream operator (StreamOperators.cpp:250-266). -/
def print (u : Uuid) : Str :=
  hexOut 8 u.d1.toNat ++ '-' :: (hexOut 4 u.a.toNat ++ '-' :: (hexOut 4 u.b.toNat ++
    '-' :: (hexOut 4 u.c.toNat ++ '-' :: (hexOut 2 u.e0.toNat ++ hexOut 2 u.e1.toNat ++
      hexOut 2 u.e2.toNat ++ hexOut 2 u.e3.toNat ++ hexOut 2 u.e4.toNat ++
      hexOut 2 u.e5.toNat))))

/-! ### Comparison -/

/-- The words of `Data2` as a list. Of the model only (Uuid.cpp:82-111). -/
def data2 (u : Uuid) : List Nat := [u.a.toNat, u.b.toNat, u.c.toNat]
/-- The bytes of `Data3` as a list. Of the model only (Uuid.cpp:82-111). -/
def data3 (u : Uuid) : List Nat :=
  [u.e0.toNat, u.e1.toNat, u.e2.toNat, u.e3.toNat, u.e4.toNat, u.e5.toNat]

/-- `std::array::operator<`. (Uuid.cpp:82-103.) -/
def arrayLt : List Nat → List Nat → Bool
  | _, [] => false
  | [], _ :: _ => true
  | x :: xs, y :: ys => if x < y then true else if y < x then false else arrayLt xs ys

/-- `Uuid::operator<` (Uuid.cpp:82-103). -/
def lt (u v : Uuid) : Bool :=
  if u.d1.toNat < v.d1.toNat then true
  else if u.d1.toNat > v.d1.toNat then false
  else if arrayLt (data2 u) (data2 v) then true
  else if arrayLt (data2 v) (data2 u) then false
  else if arrayLt (data3 u) (data3 v) then true
  else false

/-- `Uuid::operator==` (Uuid.cpp:105-107). -/
def eq (u v : Uuid) : Bool :=
  u.d1.toNat == v.d1.toNat && data2 u == data2 v && data3 u == data3 v

/-- `Uuid::operator!=` (Uuid.cpp:109-111). -/
def ne (u v : Uuid) : Bool :=
  u.d1.toNat != v.d1.toNat || data2 u != data2 v || data3 u != data3 v

/-- `std::hash<Uuid>` (Uuid.cpp:115-129). -/
def hash (u : Uuid) : BitVec 64 :=
  let left := (u.d1.setWidth 64 <<< 32) ||| (u.a.setWidth 64 <<< 16) ||| u.b.setWidth 64
  let right := (u.c.setWidth 64 <<< 48) ||| (u.e0.setWidth 64 <<< 40) |||
    (u.e1.setWidth 64 <<< 32) ||| (u.e2.setWidth 64 <<< 24) ||| (u.e3.setWidth 64 <<< 16) |||
    (u.e4.setWidth 64 <<< 8) ||| u.e5.setWidth 64
  left ^^^ right

end Verif.Uuid
