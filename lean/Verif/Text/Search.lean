import Verif.Text.Ops

/-! The unchecked accesses of `Xsmp::String<N>` and its searches (include/Xsmp/String.h:112-125, 136-167,
182-313). -/
namespace Verif.Text.Search

/-! ### Unchecked accesses -/

/-- `s[i] = c` and `s.data()[i] = c` (String.h:119-125, 160-163). -/
def setIndex (b : Buf) (i c : Nat) : Option Buf := store b i c

/-- `s[i]` (String.h:119-125). -/
def getIndex (b : Buf) (i : Nat) : Option Nat := b[i]?

/-- The index of `front()` (String.h:144-150). -/
def frontIndex (_ : Buf) : Option Nat := some 0

/-- The index of `back()` (String.h:152-158): `size() - 1` in `size_t`, which is the greatest one for an
empty string. -/
def backIndex (b : Buf) : Option Nat := (cstr b).map fun s =>
  if s.length = 0 then 2 ^ 64 - 1 else s.length - 1

/-- `s.front()` and `s.back()` (String.h:144-158). -/
def getFront (b : Buf) : Option Nat := (frontIndex b).bind (getIndex b)

/-- See `getFront` (String.h:152-158). -/
def getBack (b : Buf) : Option Nat := (backIndex b).bind (getIndex b)

/-- `s.back() = c` (String.h:152-154). -/
def setBack (b : Buf) (c : Nat) : Option Buf := (backIndex b).bind fun i => setIndex b i c

/-! ### Searches -/

/-- The functions of `std::string_view` that String.h:188-313 call. -/
inductive Kind
  | find | rfind | firstOf | lastOf | firstNotOf | lastNotOf
deriving DecidableEq, Repr

/-- The first of the `n` indexes from `i` on with the property: a loop of the standard library
(called at String.h:190). -/
def upward (p : Nat → Bool) : Nat → Nat → Option Nat
  | _, 0 => none
  | i, n + 1 => if p i then some i else upward p (i + 1) n

/-- The last of the indexes below `k` with the property: a loop of the standard library (called at
String.h:211). -/
def downward (p : Nat → Bool) : Nat → Option Nat
  | 0 => none
  | k + 1 => if p k then some k else downward p k

/-- The character at `i` is one of `v` (the test of `find_first_of` and others, called at
String.h:232-312). -/
def oneOf (s v : Buf) (i : Nat) : Bool := match s[i]? with
  | some c => v.contains c
  | none => false

/-- See `oneOf` (String.h:272-312). -/
def noneOf (s v : Buf) (i : Nat) : Bool := match s[i]? with
  | some c => !v.contains c
  | none => false

/-- The functions of `std::string_view`, for the text `s`, as libstdc++ has them (called at
String.h:188-312); `none` is `npos`. -/
def search (k : Kind) (s v : Buf) (pos : Nat) : Option Nat :=
  match k with
  | .find => upward (fun i => v.isPrefixOf (s.drop i)) pos (s.length + 1 - v.length - pos)
  | .rfind =>
    if v.length ≤ s.length then
      downward (fun i => v.isPrefixOf (s.drop i)) (min pos (s.length - v.length) + 1)
    else none
  | .firstOf => upward (oneOf s v) pos (s.length - pos)
  | .firstNotOf => upward (noneOf s v) pos (s.length - pos)
  | .lastOf => downward (oneOf s v) (min (pos + 1) s.length)
  | .lastNotOf => downward (noneOf s v) (min (pos + 1) s.length)

/-- What is searched for: a `std::string_view`, a character, a C string in a buffer, or `n` bytes of a
buffer (String.h:188-312). -/
inductive Arg
  | view (v : Buf)
  | char (c : Nat)
  | chars (c : Buf)
  | counted (c : Buf) (n : Nat)
deriving DecidableEq, Repr

/-- The bytes that are searched for; `none` when reading them is undefined (String.h:188-312). -/
def Arg.bytes : Arg → Option Buf
  | .view v => some v
  | .char c => some [c]
  | .chars c => cstr c
  | .counted c n => if n ≤ c.length then some (c.take n) else none

/-- `find`, `rfind`, `find_first_of`, ... (String.h:188-312). -/
def find (k : Kind) (b : Buf) (a : Arg) (pos : Nat) : Option (Option Nat) :=
  (cstr b).bind fun s => a.bytes.map fun v => search k s v pos

/-- `substr` (String.h:182-186): `some none` is `std::out_of_range`. -/
def substr (b : Buf) (pos n : Nat) : Option (Option Buf) :=
  (cstr b).map fun s => if s.length < pos then none else some ((s.drop pos).take n)

end Verif.Text.Search
