import Verif.Text.FixedString

/-!
Model of the operators of `Xsmp::String` (String.h:373-471, 508-534, 538-544) and of `Xsmp::Array`
(Array.h:62-367).

A `std::string_view` is the list of its bytes; it may contain NULs.
-/
namespace Verif.Text

/-- The six relational operators. (String.h:374-471, Array.h:305-366.) -/
inductive Rel
  | eq
  | ne
  | lt
  | gt
  | le
  | ge
  deriving DecidableEq, Repr

/-- `compare(std::string_view) const` (String.h:366-368). -/
def compareView (b v : Buf) : Option Int := (cstr b).map fun s => compareCStr s v

/-- `std::string_view::compare(const char *)`, called with `c_str()` of a `String`
(String.h:381, 410, 426, 441, 466): the bytes of the shorter one, then the sizes. -/
def viewCompare (v b : Buf) : Option Int := (cstr b).map fun s =>
  if traitsCompare (v.take (min v.length s.length)) (s.take (min v.length s.length)) = 0 then
    if v.length < s.length then -1 else if s.length < v.length then 1 else 0
  else traitsCompare (v.take (min v.length s.length)) (s.take (min v.length s.length))

/-- The operators on two `String`s (String.h:374-378, 388-392, 402-406, 418-422, 434-438,
458-462). -/
def relStrings : Rel → Buf → Buf → Option Bool
  | .eq, b, c => (compare b c).map (· == 0)
  | .ne, b, c => ((compare b c).map (· == 0)).map (!·)
  | .lt, b, c => (compare b c).map fun r => decide (r < 0)
  | .gt, b, c => (compare b c).map fun r => decide (r > 0)
  | .le, b, c => (compare b c).map fun r => decide (r ≤ 0)
  | .ge, b, c => (compare b c).map fun r => decide (r ≥ 0)

/-- The operators on a view and a `String` (String.h:379-382, 393-396, 408-411, 424-427, 439-442,
464-467). -/
def relView : Rel → Buf → Buf → Option Bool
  | .eq, v, b => (viewCompare v b).map (· == 0)
  | .ne, v, b => ((viewCompare v b).map (· == 0)).map (!·)
  | .lt, v, b => (viewCompare v b).map fun r => decide (r < 0)
  | .gt, v, b => (viewCompare v b).map fun r => decide (r > 0)
  | .le, v, b => (viewCompare v b).map fun r => decide (r ≤ 0)
  | .ge, v, b => (viewCompare v b).map fun r => decide (r ≥ 0)

/-- The operators on a `String` and a view (String.h:383-386, 397-400, 413-416, 429-432, 443-446,
468-471). -/
def relStringView : Rel → Buf → Buf → Option Bool
  | .eq, b, v => (compareView b v).map (· == 0)
  | .ne, b, v => ((compareView b v).map (· == 0)).map (!·)
  | .lt, b, v => (compareView b v).map fun r => decide (r < 0)
  | .gt, b, v => (compareView b v).map fun r => decide (r > 0)
  | .le, b, v => (compareView b v).map fun r => decide (r ≤ 0)
  | .ge, b, v => (compareView b v).map fun r => decide (r ≥ 0)

/-- The operators on a C string and a `String`: `<=` has its own overload, the others convert the
C string to a view (String.h:448-451). -/
def relChars : Rel → Buf → Buf → Option Bool
  | .le, c, b => (cstr c).bind fun v => (compareView b v).map fun r => decide (r ≥ 0)
  | r, c, b => (cstr c).bind fun v => relView r v b

/-- The operators on a `String` and a C string (String.h:453-456). -/
def relStringChars : Rel → Buf → Buf → Option Bool
  | .le, b, c => (cstr c).bind fun v => (compareView b v).map fun r => decide (r ≤ 0)
  | r, b, c => (cstr c).bind fun v => relStringView r b v

/-- `std::hash<Xsmp::String<N>>` (String.h:538-544), for a hash of views. -/
def hashString (h : Buf → Nat) (b : Buf) : Option Nat := (cstr b).map h

/-- `operator+` of two `String`s (String.h:510-514): a `std::string`, by the next one. -/
def plusStrings (b c : Buf) : Option Buf := (cstr b).bind fun s => (cstr c).map fun t => s ++ t

/-- `operator+` of a view and a `String` (String.h:515-519). -/
def plusView (v b : Buf) : Option Buf := (cstr b).map fun s => v ++ s

/-- `operator+` of a `String` and a view (String.h:520-524). -/
def plusStringView (b v : Buf) : Option Buf := (cstr b).map fun s => s ++ v

/-- `operator+` of a character and a `String` (String.h:526-529). -/
def plusChar (x : Nat) (b : Buf) : Option Buf := (cstr b).map fun s => [x] ++ s

/-- `operator+` of a `String` and a character (String.h:530-533). -/
def plusStringChar (b : Buf) (x : Nat) : Option Buf := (cstr b).map fun s => s ++ [x]

/-- `String::at` (String.h:127-142), read: `none` inside is `std::out_of_range`. -/
def getAt (b : Buf) (i : Nat) : Option (Option Nat) := (cstr b).map fun s =>
  if i ≥ s.length then none else b[i]?

/-! ### Arrays -/

/-- `operator==` of arrays: `std::equal` (Array.h:305-308), for the `==` of the items. -/
def arrEq (eq : α → α → Bool) : List α → List α → Bool
  | [], _ => true
  | x :: xs, y :: ys => eq x y && arrEq eq xs ys
  | _ :: _, [] => false

/-- `operator<` of arrays: `std::lexicographical_compare` (Array.h:325-329), for the `<` of the
items. -/
def arrLt (lt : α → α → Bool) : List α → List α → Bool
  | x :: xs, y :: ys => if lt x y then true else if lt y x then false else arrLt lt xs ys
  | [], _ :: _ => true
  | _, [] => false

/-- The six operators of arrays (Array.h:305-366). -/
def relArrays (eq lt : α → α → Bool) : Rel → List α → List α → Bool
  | .eq, a, b => arrEq eq a b
  | .ne, a, b => !arrEq eq a b
  | .lt, a, b => arrLt lt a b
  | .gt, a, b => arrLt lt b a
  | .le, a, b => !arrLt lt b a
  | .ge, a, b => !arrLt lt a b

/-- `Array::at` (Array.h:220-247), read: `none` is `std::out_of_range`. The array has `N` items. -/
def arrAt (N : Nat) (a : List α) (i : Nat) : Option (Option α) :=
  if i ≥ N then some none else (a[i]?).map some

/-- Writing through `Array::at` (Array.h:220-227); the second `none` is `std::out_of_range`. -/
def arrSetAt (N : Nat) (a : List α) (i : Nat) (x : α) : Option (Option (List α)) :=
  if i ≥ N then some none else if i < a.length then some (some (a.set i x)) else none

/-- `std::fill_n(begin(), size(), value)` from the item `i` on. (Array.h:82-85.) -/
def fillFrom (x : α) : Nat → Nat → List α → Option (List α)
  | _, 0, a => some a
  | i, n + 1, a => if i < a.length then fillFrom x (i + 1) n (a.set i x) else none

/-- `Array::fill` (Array.h:82-85). -/
def fill (N : Nat) (a : List α) (x : α) : Option (List α) := fillFrom x 0 N a

/-- `std::swap_ranges` from the item `i` on. (Array.h:89-94.) -/
def swapFrom : Nat → Nat → List α → List α → Option (List α × List α)
  | _, 0, a, b => some (a, b)
  | i, n + 1, a, b => match a[i]?, b[i]? with
    | some x, some y => swapFrom (i + 1) n (a.set i y) (b.set i x)
    | _, _ => none

/-- `Array::swap` (Array.h:89-94). -/
def arrSwap (N : Nat) (a b : List α) : Option (List α × List α) := swapFrom 0 N a b

end Verif.Text
