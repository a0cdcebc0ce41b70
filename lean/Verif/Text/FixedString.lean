/-
Model of `include/Xsmp/String.h` (`Xsmp::String<Nm>`) and of `CopyString` in
`src/Xsmp/Helper.cpp`.

A byte is a natural number, 0 is the NUL. The buffer of `String<N>` is the list of its
bytes; those behind the terminator are whatever was there. Undefined behaviour (an access
outside the buffer) is `none`. Arguments do not overlap the buffer they are copied to, but for those of
`assignOwn` and `appendOwn`.
-/
namespace Verif.Text

/-- The array of characters of a `String<N>` (String.h:49). -/
abbrev Buf := List Nat

/-- `char_traits::length`: the bytes before the first NUL; `none` if there is no NUL in the
buffer, so that the search would leave it. (String.h:127-133.) -/
def cstr (b : Buf) : Option Buf :=
  if 0 ∈ b then some (b.takeWhile (· ≠ 0)) else none

/-- Write one byte. Of the model only (the assignments of String.h:127-180). -/
def store (b : Buf) (i : Nat) (x : Nat) : Option Buf :=
  if i < b.length then some (b.set i x) else none

/-- Write a sequence of bytes from index `i` on. (String.h:127-180.) -/
def copy (b : Buf) (i : Nat) (v : Buf) : Option Buf :=
  if v = [] then some b
  else if i + v.length ≤ b.length then some (b.take i ++ v ++ b.drop (i + v.length))
  else none

/-- `String()` (String.h:49): the terminator, and the rest of the array zero. -/
def new (N : Nat) : Buf := List.replicate (N + 1) 0

/-- `assign(std::string_view)` (String.h:320-325) and all that call it (constructors,
`operator=`, `operator>>`). -/
def assign (N : Nat) (b : Buf) (v : Buf) : Option Buf :=
  let length := min v.length N
  (copy b 0 (v.take length)).bind (store · length 0)

/-- `assign(const String<S> &)` (String.h:317-319): `S` bytes of the other buffer. -/
def assignString (N S : Nat) (b other : Buf) : Option Buf :=
  if S ≤ other.length then assign N b (other.take S) else none

/-- `append(const char *, size_t)` (String.h:338-348). The subtraction is in `size_t`; it
does not wrap when the content fits. -/
def append (N : Nat) (b : Buf) (v : Buf) : Option Buf :=
  (cstr b).bind fun s =>
    if s.length ≤ N then
      let toCopy := min v.length (N - s.length)
      (store b (s.length + toCopy) 0).bind (copy · s.length (v.take toCopy))
    else none

/-- `remove_prefix` (String.h:169-175). With a length above `size()` the source range is
reversed: undefined. -/
def removePrefix (b : Buf) (n : Nat) : Option Buf :=
  (cstr b).bind fun s =>
    if n ≤ s.length then
      (copy b 0 (s.drop n)).bind (store · (s.length - n) 0)
    else none

/-- `remove_suffix` (String.h:177-180). -/
def removeSuffix (b : Buf) (n : Nat) : Option Buf :=
  (cstr b).bind fun s => store b (if n > s.length then 0 else s.length - n) 0

/-- `clear` (String.h:315). -/
def clear (b : Buf) : Option Buf := store b 0 0

/-- `at(pos) = chr` (String.h:127-133); an index not below the size throws and changes
nothing. -/
def setAt (b : Buf) (i : Nat) (x : Nat) : Option Buf :=
  (cstr b).bind fun s => if i < s.length then store b i x else some b

/-- `s = s.substr(pos, n)`: `substr` gives a view of the string's own buffer, or throws and changes
nothing (String.h:182-186); `assign` then copies it within the buffer by `char_traits::copy`
(String.h:320-325), which is undefined if the source and the destination overlap. -/
def assignOwn (N : Nat) (b : Buf) (pos n : Nat) : Option Buf :=
  (cstr b).bind fun s =>
    if s.length < pos then some b
    else if pos < min n (s.length - pos) then none
    else assign N b ((b.drop pos).take (min n (s.length - pos)))

/-- `s += s.substr(pos, n)` (String.h:182-186, 338-348): the terminator is written before the bytes
of the own buffer are read. -/
def appendOwn (N : Nat) (b : Buf) (pos n : Nat) : Option Buf :=
  (cstr b).bind fun s =>
    if s.length < pos then some b
    else if s.length ≤ N then
      let toCopy := min (min n (s.length - pos)) (N - s.length)
      (store b (s.length + toCopy) 0).bind fun b' =>
        copy b' s.length ((b'.drop pos).take toCopy)
    else none

/-- The operations. (String.h:127-348.) -/
inductive Op
  | assign (v : Buf)
  /-- from a `String<S>` with that buffer -/
  | assignString (S : Nat) (other : Buf)
  | append (v : Buf)
  /-- `append(const String<S> &)`: its C string -/
  | appendString (other : Buf)
  | pushBack (c : Nat)
  | popBack
  | removePrefix (n : Nat)
  | removeSuffix (n : Nat)
  | clear
  | setAt (i : Nat) (c : Nat)
  /-- swap with another `String<N>` with that buffer -/
  | swap (other : Buf)
  /-- from a part of its own content -/
  | assignOwn (pos n : Nat)
  | appendOwn (pos n : Nat)

/-- One operation on a `String<N>`. (String.h:127-348.) -/
def step (N : Nat) (b : Buf) : Op → Option Buf
  | .assign v => assign N b v
  | .assignString S other => assignString N S b other
  | .append v => append N b v
  | .appendString other => (cstr other).bind (append N b)
  | .pushBack c => append N b [c]
  | .popBack => removeSuffix b 1
  | .removePrefix n => removePrefix b n
  | .removeSuffix n => removeSuffix b n
  | .clear => clear b
  | .setAt i c => setAt b i c
  | .swap other => some other
  | .assignOwn pos n => assignOwn N b pos n
  | .appendOwn pos n => appendOwn N b pos n

/-- A sequence of operations. Of the model only (sequences of the calls of String.h:127-348). -/
def run (N : Nat) (b : Buf) : List Op → Option Buf
  | [] => some b
  | o :: os => (step N b o).bind (run N · os)

/-! ### Comparison -/

/-- `char_traits<char>::compare`: bytes as `unsigned char`. (String.h:474-491.) -/
def traitsCompare : Buf → Buf → Int
  | x :: xs, y :: ys => if x < y then -1 else if y < x then 1 else traitsCompare xs ys
  | _, _ => 0

/-- The private `compare` (String.h:474-491); sizes below 2^63. -/
def compareCStr (s t : Buf) : Int :=
  let len := min s.length t.length
  let result := traitsCompare (s.take len) (t.take len)
  if result = 0 then
    let diff : Int := s.length - t.length
    if diff > 2147483647 then 2147483647
    else if diff < -2147483648 then -2147483648
    else diff
  else result

/-- `compare(const String<T> &)` (String.h:363-365). -/
def compare (b c : Buf) : Option Int :=
  (cstr b).bind fun s => (cstr c).map fun t => compareCStr s t

/-! ### CopyString -/

/-- `CopyString` (Helper.cpp:453-464): the source is `none` for a null pointer. -/
def copyString (dest : Buf) (size : Nat) : Option Buf → Option Buf
  | none => store dest 0 0
  | some src =>
    (cstr src).bind fun s =>
      let length := min size s.length
      (copy dest 0 (s.take length)).bind (store · length 0)

end Verif.Text
