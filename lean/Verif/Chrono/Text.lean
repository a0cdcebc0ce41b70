import Verif.Chrono.Model
/-! Date-times and durations as text: src/Xsmp/DateTime.cpp:34-76 and src/Xsmp/Duration.cpp:31-71.
Printing and parsing themselves are done by the `date` library, which is not part of the code:
here it is a parameter. -/
namespace Verif.Chrono.Text

/-- What the `date` library does with numbers of nanoseconds (since 1970-01-01 00:00 for points):
`date::format`, and `date::parse` from the input that is left (`none`: it sets `failbit` and leaves
its argument as it is); a parsed value is what it assigns, with the input that is left
(DateTime.cpp:38, 43, 55, Duration.cpp:34, 50). -/
structure Lib where
  showPoint : String → Int → List Char
  readPoint : String → List Char → Option (Int × List Char)
  showSpan : String → Int → List Char
  readSpan : String → List Char → Option (Int × List Char)

/-- An input stream: what is left to be read, and `failbit` (DateTime.cpp:41, Duration.cpp:32). -/
structure Stream where
  rest : List Char
  fail : Bool

/-- `std::istringstream` of a text (DateTime.cpp:36, Duration.cpp:38). -/
def Stream.of (s : List Char) : Stream := ⟨s, false⟩

/-- `>>` of `date::parse` into a variable that holds `v` (DateTime.cpp:38, 43, Duration.cpp:34); a
stream that has failed is not read. What a failure consumes is taken to be everything. -/
def extract (rd : List Char → Option (Int × List Char)) (i : Stream) (v : Option Int) :
    Option Int × Stream :=
  if i.fail then (v, i)
  else match rd i.rest with
    | some (n, r) => (some n, ⟨r, false⟩)
    | none => (v, ⟨[], true⟩)

/-- `parse(istream, fmt)` (DateTime.cpp:41-45): the variable is a `time_point`, which starts as the
epoch. -/
def parsePoint (l : Lib) (fmt : String) (i : Stream) : Option Int × Stream :=
  extract (l.readPoint fmt) i (some 0)

/-- `DateTime(istream, fmt)` (DateTime.cpp:51-52): `none` is undefined behaviour. -/
def dateTimeFrom (l : Lib) (fmt : String) (i : Stream) : Option Int × Stream :=
  ((parsePoint l fmt i).1.bind (fromTimePoint 1), (parsePoint l fmt i).2)

/-- `DateTime(string_view, fmt)` (DateTime.cpp:35-40, 48-49). -/
def dateTimeOf (l : Lib) (fmt : String) (s : List Char) : Option Int :=
  (dateTimeFrom l fmt (.of s)).1

/-- `DateTime::format`, `to_stream` (DateTime.cpp:54-71); `none` is undefined behaviour. -/
def dateTimeText (l : Lib) (fmt : String) (v : Int) : Option (List Char) :=
  (toTimePoint 1 v).map (l.showPoint fmt)

/-- `operator<<` of a date-time (DateTime.cpp:73-76). -/
def dateTimeOut (l : Lib) (v : Int) : Option (List Char) := dateTimeText l "%F %T" v

/-- `from(istream, fmt)` and `Duration(istream, fmt)` (Duration.cpp:32-36, 46-47): the variable is a
`std::chrono::nanoseconds` without an initial value; reading it then is undefined (`none`). -/
def durationFrom (l : Lib) (fmt : String) (i : Stream) : Option Int × Stream :=
  extract (l.readSpan fmt) i none

/-- `Duration(string_view, fmt)` (Duration.cpp:37-40, 43-44). -/
def durationOf (l : Lib) (fmt : String) (s : List Char) : Option Int :=
  (durationFrom l fmt (.of s)).1

/-- `Duration::format`, `to_stream` (Duration.cpp:49-66). -/
def durationText (l : Lib) (fmt : String) (v : Int) : List Char := l.showSpan fmt v

/-- `operator<<` of a duration (Duration.cpp:68-71). -/
def durationOut (l : Lib) (v : Int) : List Char := durationText l "%T" v

end Verif.Chrono.Text
