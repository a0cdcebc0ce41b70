/-
Text helpers of the logger (`src/Xsmp/Services/XsmpLogger.cpp:54-149, 188-298`).

A string is a list of characters; a `char` is modelled by a `Char` (the code never looks
at a byte in another way than comparing it or calling `std::isspace`). Iterators are
indexes; reading through an iterator is explicit, so that a read outside of the string is
a distinct outcome (`none`) of the function.

`*s.end()` is undefined behaviour by the standard, but with the usual implementation it
reads the terminating NUL of a `std::string`. Both readings are modelled: `strict = true`
makes the read at `size()` a fault, `strict = false` makes it read NUL. A read further away
is a fault in both.
-/
namespace Verif.Log

/-- `std::isspace` in the "C" locale (used in XsmpLogger.cpp:59, 65). The locale is not
modelled. -/
def isSpace (c : Char) : Bool :=
  c == ' ' || c == '\t' || c == '\n' || c == '\r' || c == '\x0b' || c == '\x0c'

/-- `ltrim` (XsmpLogger.cpp:56-60): erase from the start to the first non space. -/
def ltrim (s : List Char) : List Char :=
  s.drop (s.findIdx (fun c => !isSpace c))

/-- `rtrim` (XsmpLogger.cpp:63-68): the reverse iterator of the last non space, its `base()`
is one past that character; everything from there is erased. -/
def rtrim (s : List Char) : List Char :=
  s.take (s.length - s.reverse.findIdx (fun c => !isSpace c))

/-- `trim` (XsmpLogger.cpp:71-74). -/
def trim (s : List Char) : List Char := rtrim (ltrim s)

/-- The `switch` of `unescape` (XsmpLogger.cpp:82-119). -/
def unescapeChar (c : Char) : Char :=
  if c = '\'' then '\'' else
  if c = '"' then '"' else
  if c = '?' then '?' else
  if c = '\\' then '\\' else
  if c = 'a' then '\x07' else
  if c = 'b' then '\x08' else
  if c = 'f' then '\x0c' else
  if c = 'n' then '\n' else
  if c = 'r' then '\r' else
  if c = 't' then '\t' else
  if c = 'v' then '\x0b' else
  c

/-- The loop of `unescape` (XsmpLogger.cpp:79-127): `it` is the index, `result` the string
built so far. `none` is a read outside of the view. -/
def unescapeLoop (s : List Char) (it : Nat) (result : List Char) : Option (List Char) :=
  if it = s.length then some result
  else
    match h : s[it]? with
    | none => none
    | some c =>
      if c = '\\' then
        if it + 1 = s.length then unescapeLoop s (it + 1) result
        else
          match s[it + 1]? with
          | none => none
          | some d => unescapeLoop s (it + 2) (result ++ [unescapeChar d])
      else unescapeLoop s (it + 1) (result ++ [c])
termination_by s.length - it
decreasing_by
  all_goals
    have := (List.getElem?_eq_some_iff.mp h).1
    omega

/-- `unescape` (XsmpLogger.cpp:75-129). -/
def unescape (s : List Char) : Option (List Char) := unescapeLoop s 0 []

/-- `std::string_view::find(delimiter, start)`: the first index at or after `start`. (Used in
XsmpLogger.cpp:136-142.) -/
def find (s : List Char) (d : Char) (start : Nat) : Option Nat :=
  if (s.drop start).findIdx (· == d) < (s.drop start).length then
    some (start + (s.drop start).findIdx (· == d))
  else none

/-- `std::string_view::substr(start, n)`: throws `std::out_of_range` (`none`) if `start > size()`.
(Used in XsmpLogger.cpp:136-142.) -/
def substr (s : List Char) (start n : Nat) : Option (List Char) :=
  if start ≤ s.length then some ((s.drop start).take n) else none

theorem find_lt {s : List Char} {d : Char} {start e : Nat} (h : find s d start = some e) :
    e < s.length ∧ start ≤ e := by
  unfold find at h
  split at h
  · rename_i hlt
    simp only [Option.some.injEq] at h
    rw [List.length_drop] at hlt
    omega
  · simp at h

/-- The loop of `split` (XsmpLogger.cpp:136-142) followed by the last token (143-147).
`stop` is the variable `end`, `none` being `npos`; `result` the vector. The result `none` is
an exception of `substr`. -/
def splitLoop (s : List Char) (d : Char) (start : Nat) (result : List (List Char)) :
    Option (List (List Char)) :=
  match h : find s d start with
  | some e => do
    let token ← substr s start (e - start)
    splitLoop s d (e + 1) (result ++ [trim token])
  | none => do
    let token ← substr s start (s.length - start)
    if (trim token).isEmpty then some result else some (result ++ [trim token])
termination_by s.length - start
decreasing_by
  have := find_lt h
  omega

/-- `split` (XsmpLogger.cpp:131-149). -/
def split (s : List Char) (d : Char) : Option (List (List Char)) := splitLoop s d 0 []

/-- Reading through an iterator of a `std::string` at index `i`, see the header. (Used in
XsmpLogger.cpp:79-127.) -/
def deref (strict : Bool) (s : List Char) (i : Nat) : Option Char :=
  if i < s.length then s[i]? else
  if i = s.length ∧ strict = false then some '\x00' else none

theorem deref_le {strict : Bool} {s : List Char} {i : Nat} {c : Char}
    (h : deref strict s i = some c) : i ≤ s.length := by
  unfold deref at h
  split at h
  · omega
  · split at h
    · omega
    · simp at h

/-- One piece written by `PatternLayout::Append`. The formatting of a time
(`DateTime::to_stream`, `Duration::to_stream`) is not modelled: a time is the piece
`time which format`, the empty format being the one which prints the number. -/
inductive Piece
  /-- a literal character -/
  | chr (c : Char)
  /-- the sender's path, XsmpLogger.cpp:217 -/
  | sender
  /-- the name of the kind, line 220 -/
  | kind
  /-- the message, line 223 -/
  | msg
  /-- one of the times `d`, `S`, `E`, `M`, lines 226-235 -/
  | time (which : Char) (format : List Char)
  deriving DecidableEq, Repr

/-- The loop of `GetFormatting` (XsmpLogger.cpp:291-294): returns the position of the closing
brace and the text before it. -/
def braceLoop (strict : Bool) (s : List Char) (it : Nat) (formatting : List Char) :
    Option (Nat × List Char) :=
  match h : deref strict s it with
  | none => none
  | some c =>
    if c = '}' then some (it, formatting)
    else braceLoop strict s (it + 1) (formatting ++ [c])
termination_by s.length + 1 - it
decreasing_by
  have := deref_le h
  omega

/-- `GetFormatting` (XsmpLogger.cpp:287-297): returns the new position of the iterator. It is
`noexcept`: an exception of `push_back` would terminate; memory is not modelled. -/
def getFormatting (strict : Bool) (s : List Char) (it : Nat) : Option (Nat × List Char) := do
  let c ← deref strict s (it + 1)
  if c = '{' then braceLoop strict s (it + 2) []
  else some (it, [])

/-- The `switch` of `PatternLayout::Append` (XsmpLogger.cpp:215-249): `it` is at the character
after the `%`. Returns the position of the iterator after the `switch` and what is written. -/
def conversion (strict : Bool) (s : List Char) (it : Nat) : Option (Nat × List Piece) := do
  let c ← deref strict s it
  if c = 'p' then some (it, [.sender]) else
  if c = 'k' then some (it, [.kind]) else
  if c = 'm' then some (it, [.msg]) else
  if c = 'd' ∨ c = 'S' ∨ c = 'E' ∨ c = 'M' then
    (getFormatting strict s it).map (fun r => (r.1, [.time c r.2]))
  else
  if c = 't' then some (it, [.chr '\t']) else
  if c = 'n' then some (it, [.chr '\n']) else
  if c = '%' then some (it, [.chr '%']) else
  some (it, [.chr '%', .chr c])

theorem braceLoop_le {strict : Bool} {s : List Char} {it : Nat} {f : List Char}
    {r : Nat × List Char} (h : braceLoop strict s it f = some r) : it ≤ r.1 := by
  fun_induction braceLoop strict s it f with
  | case1 => simp at h
  | case2 => simp only [Option.some.injEq] at h; subst h; exact Nat.le_refl _
  | case3 it f c hc hne ih => have := ih h; omega

theorem conversion_le {strict : Bool} {s : List Char} {it : Nat}
    {r : Nat × List Piece} (h : conversion strict s it = some r) : it ≤ r.1 := by
  unfold conversion at h
  cases hd : deref strict s it with
  | none => simp [hd] at h
  | some c =>
    simp only [hd, Option.bind_eq_bind, Option.bind_some] at h
    split at h
    · simp at h; subst h; exact Nat.le_refl _
    split at h
    · simp at h; subst h; exact Nat.le_refl _
    split at h
    · simp at h; subst h; exact Nat.le_refl _
    split at h
    · obtain ⟨q, hq, rfl⟩ := Option.map_eq_some_iff.mp h
      unfold getFormatting at hq
      cases hd' : deref strict s (it + 1) with
      | none => simp [hd'] at hq
      | some c' =>
        simp only [hd', Option.bind_eq_bind, Option.bind_some] at hq
        split at hq
        · have := braceLoop_le hq
          show it ≤ q.1
          omega
        · simp only [Option.some.injEq] at hq; subst hq; exact Nat.le_refl _
    · split at h
      · simp at h; subst h; exact Nat.le_refl _
      split at h
      · simp at h; subst h; exact Nat.le_refl _
      split at h
      · simp at h; subst h; exact Nat.le_refl _
      · simp at h; subst h; exact Nat.le_refl _

/-- The loop of `PatternLayout::Append` (XsmpLogger.cpp:212-256): `out` is what has been
written. `none` is a read outside of the pattern. -/
def appendLoop (strict : Bool) (s : List Char) (it : Nat) (out : List Piece) :
    Option (List Piece) :=
  if it = s.length then some out
  else
    match h : deref strict s it with
    | none => none
    | some c =>
      if c = '%' then
        match h2 : conversion strict s (it + 1) with
        | none => none
        | some r => appendLoop strict s (r.1 + 1) (out ++ r.2)
      else appendLoop strict s (it + 1) (out ++ [.chr c])
termination_by s.length + 1 - it
decreasing_by
  · have := deref_le h
    have := conversion_le h2
    omega
  · have := deref_le h
    omega

/-- `PatternLayout::Append` (XsmpLogger.cpp:199-258), on the pattern. -/
def patternAppend (strict : Bool) (pattern : List Char) : Option (List Piece) :=
  appendLoop strict pattern 0 []

/-- The default pattern, XsmpLogger.cpp:285. -/
def defaultPattern : List Char := "%d{%F %T}%t%S%t%p%t%k%t%m%n".toList

/-- `ComputePatternLayout` (XsmpLogger.cpp:263-286) on the configured value, if any. -/
def computePattern (configured : Option (List Char)) : Option (List Char) :=
  match configured with
  | some v => unescape v
  | none => some defaultPattern

end Verif.Log
