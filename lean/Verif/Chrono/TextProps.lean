import Verif.Chrono.Text
import Verif.Chrono.Props
/-! C115: date-times and durations as text (src/Xsmp/DateTime.cpp:34-76,
src/Xsmp/Duration.cpp:31-71). -/
namespace Verif.Chrono.Text

/-- 2000-01-01 12:00 in nanoseconds since 1970-01-01 00:00: 30 years with 7 leap days and half a
day (DateTime.h:240-244). -/
def noon2000 : Int := (((30 * 365 + 7) * 24 + 12) * 3600) * 1000000000

theorem noon : epochToMjd = noon2000 := by decide

/-- In this format, the library reads back what it prints, for these values, whatever follows
(DateTime.cpp:38, 55). -/
def Lib.PointOk (l : Lib) (fmt : String) (P : Int → Prop) : Prop :=
  ∀ n, P n → ∀ r, l.readPoint fmt (l.showPoint fmt n ++ r) = some (n, r)
/-- Likewise for durations (Duration.cpp:34, 50). -/
def Lib.SpanOk (l : Lib) (fmt : String) (P : Int → Prop) : Prop :=
  ∀ n, P n → ∀ r, l.readSpan fmt (l.showSpan fmt n ++ r) = some (n, r)

instance (v : Int) : Decidable (I64 v) := inferInstanceAs (Decidable (_ ∧ _))

theorem to1 {v : Int} : toTimePoint 1 v = if I64 (v + noon2000) then some (v + noon2000)
    else none := by
  unfold toTimePoint
  rw [noon]
  split
  · next h => rw [(chk_iff _ _).mpr ⟨h, rfl⟩]; simp
  · next h => rw [(chk_none _).mpr h]; rfl

theorem from1 {n : Int} (hn : I64 n) : fromTimePoint 1 n =
    if I64 (n - noon2000) then some (n - noon2000) else none := by
  unfold fromTimePoint
  rw [noon, Int.mul_one, (chk_iff n n).mpr ⟨hn, rfl⟩]
  show chk (n - noon2000) = _
  split
  · next h => exact (chk_iff _ _).mpr ⟨h, rfl⟩
  · next h => exact (chk_none _).mpr h

/-- **C115** (round trip of date-times). If the library reads back what it prints for the 64-bit
numbers of nanoseconds since 1970, then a date-time read from its own text, from a string or from a
stream, is the same one, and the stream is good and stands behind the text. This is for the
date-times up to 2262-04-11 only: later ones cannot be printed (`C115_late_fails`). -/
theorem C115_dateTime_partial (l : Lib) (fmt : String) (P : Int → Prop) (ok : l.PointOk fmt P)
    (v : Int) (hv : I64 v) (hr : v + noon2000 < 2 ^ 63) (hp : P (v + noon2000)) :
    ∃ s, dateTimeText l fmt v = some s ∧ dateTimeOf l fmt s = some v ∧
      ∀ r, dateTimeFrom l fmt ⟨s ++ r, false⟩ = (some v, ⟨r, false⟩) := by
  have hi : I64 (v + noon2000) := ⟨by have := hv.1; unfold noon2000; omega, hr⟩
  have hf : ∀ r, dateTimeFrom l fmt ⟨l.showPoint fmt (v + noon2000) ++ r, false⟩ =
      (some v, ⟨r, false⟩) := by
    intro r
    have : v + noon2000 - noon2000 = v := by omega
    simp only [dateTimeFrom, parsePoint, extract, Bool.false_eq_true, if_false, ok _ hp r,
      Option.bind_some, from1 hi, this, if_pos hv]
  refine ⟨l.showPoint fmt (v + noon2000), by rw [dateTimeText, to1, if_pos hi]; rfl, ?_, hf⟩
  have := hf []
  rw [List.append_nil] at this
  unfold dateTimeOf Stream.of
  rw [this]

/-- **C115** (round trip of durations), for all of those that the library reads back. -/
theorem C115_duration (l : Lib) (fmt : String) (P : Int → Prop) (ok : l.SpanOk fmt P)
    (v : Int) (hp : P v) :
    durationOf l fmt (durationText l fmt v) = some v ∧
    ∀ r, durationFrom l fmt ⟨durationText l fmt v ++ r, false⟩ = (some v, ⟨r, false⟩) := by
  have hf : ∀ r, durationFrom l fmt ⟨l.showSpan fmt v ++ r, false⟩ = (some v, ⟨r, false⟩) := by
    intro r
    simp only [durationFrom, extract, Bool.false_eq_true, if_false, ok _ hp r]
  refine ⟨?_, hf⟩
  have := hf []
  rw [List.append_nil] at this
  unfold durationOf Stream.of durationText
  rw [this]

/-- **C115** (date-times read). A text that stands for `n` nanoseconds since 1970 gives the
date-time that lies `n` after 1970, which is 2000-01-01 12:00 less half a day and 30 years; the
numbers within 30 years of the first 64-bit number are undefined. -/
theorem C115_reads (l : Lib) (fmt : String) (s r : List Char) (n : Int) (hn : I64 n)
    (h : l.readPoint fmt s = some (n, r)) :
    (-2 ^ 63 + noon2000 ≤ n → dateTimeOf l fmt s = some (n - noon2000)) ∧
    (n < -2 ^ 63 + noon2000 → dateTimeOf l fmt s = none) := by
  have e : dateTimeOf l fmt s = fromTimePoint 1 n := by
    simp only [dateTimeOf, dateTimeFrom, parsePoint, extract, Stream.of, Bool.false_eq_true,
      if_false, h, Option.bind_some]
  rw [e, from1 hn]
  obtain ⟨h1, h2⟩ := hn
  constructor <;> intro hh
  · rw [if_pos ⟨by omega, by unfold noon2000; omega⟩]
  · rw [if_neg (fun (h : I64 _) => by have := h.1; omega)]

/-- **C115** (streams). When the text in a stream cannot be parsed, the stream tells it; a stream
that has failed before is left as it is. -/
theorem C115_stream (l : Lib) (fmt : String) (i : Stream) :
    ((dateTimeFrom l fmt i).2.fail = true ↔ i.fail = true ∨ l.readPoint fmt i.rest = none) ∧
    ((durationFrom l fmt i).2.fail = true ↔ i.fail = true ∨ l.readSpan fmt i.rest = none) ∧
    (i.fail = true → (dateTimeFrom l fmt i).2 = i ∧ (durationFrom l fmt i).2 = i) := by
  unfold dateTimeFrom parsePoint durationFrom extract
  refine ⟨?_, ?_, ?_⟩
  · by_cases h : i.fail = true
    · simp [h]
    · simp only [if_neg h, h, false_or, Bool.false_eq_true]
      cases hr : l.readPoint fmt i.rest <;> simp
  · by_cases h : i.fail = true
    · simp [h]
    · simp only [if_neg h, h, false_or, Bool.false_eq_true]
      cases hr : l.readSpan fmt i.rest <;> simp
  · intro h
    simp [h]

/-- **C115** (output). What `<<` prints is read by the constructors with their default format
(DateTime.h:76, 83, Duration.h:45, 47). -/
theorem C115_output_partial (l : Lib) (P Q : Int → Prop) (hl : l.PointOk "%F %T" P)
    (hl' : l.SpanOk "%T" Q) (v w : Int) (hv : I64 v) (hr : v + noon2000 < 2 ^ 63)
    (hp : P (v + noon2000)) (hq : Q w) :
    (∃ s, dateTimeOut l v = some s ∧ dateTimeOf l "%F %T" s = some v) ∧
    durationOf l "%T" (durationOut l w) = some w := by
  obtain ⟨s, h1, h2, _⟩ := C115_dateTime_partial l _ P hl v hv hr hp
  exact ⟨⟨s, h1, h2⟩, (C115_duration l _ Q hl' w hq).1⟩

/-! ### Where it fails -/

/-- **C115 fails** for a text that is not a date: with every library and format, it gives 1970-01-01
00:00, the same as a text that means this date, and nothing is raised. -/
theorem C115_notADate_fails (l : Lib) (fmt : String) (s s' r : List Char)
    (h : l.readPoint fmt s = none) (h' : l.readPoint fmt s' = some (0, r)) :
    dateTimeOf l fmt s = some (-noon2000) ∧ dateTimeOf l fmt s' = some (-noon2000) := by
  have e0 : fromTimePoint 1 0 = some (-noon2000) := by decide
  constructor
  · simp only [dateTimeOf, dateTimeFrom, parsePoint, extract, Stream.of, Bool.false_eq_true,
      if_false, h, Option.bind_some, e0]
  · simp only [dateTimeOf, dateTimeFrom, parsePoint, extract, Stream.of, Bool.false_eq_true,
      if_false, h', Option.bind_some, e0]

/-- **C115 fails** for a text that is not a duration: with every library and format, a variable
that was never set is read. -/
theorem C115_notADuration_fails (l : Lib) (fmt : String) (s : List Char)
    (h : l.readSpan fmt s = none) : durationOf l fmt s = none := by
  simp only [durationOf, durationFrom, extract, Stream.of, Bool.false_eq_true, if_false, h]

/-- **C115 fails** for date-times more than 262 years after 2000: to print them is undefined. -/
theorem C115_late_fails (l : Lib) (fmt : String) (v : Int) (h : 2 ^ 63 - noon2000 ≤ v) :
    dateTimeText l fmt v = none := by
  unfold dateTimeText
  rw [to1, if_neg (fun (h : I64 _) => by have := h.2; omega)]
  rfl

/-! ### The hypotheses are met -/

/-- A library that prints numbers in unary, followed by a dot. -/
def unary (n : Int) : List Char := List.replicate n.toNat 'i' ++ ['.']
/-- It is read back. -/
def readUnary (n : Nat) : List Char → Option (Int × List Char)
  | 'i' :: r => readUnary (n + 1) r
  | '.' :: r => some (n, r)
  | _ => none

theorem readUnary_ok (r : List Char) : ∀ (k n : Nat),
    readUnary n (List.replicate k 'i' ++ ['.'] ++ r) = some (((n + k : Nat) : Int), r)
  | 0, n => by simp [readUnary]
  | k + 1, n => by
    rw [List.replicate_succ, List.cons_append, List.cons_append, readUnary, readUnary_ok r k (n + 1)]
    congr 3; omega

/-- There are libraries that read back what they print. -/
example : Lib.PointOk ⟨fun _ => unary, fun _ => readUnary 0, fun _ => unary, fun _ => readUnary 0⟩
      "%F %T" (0 ≤ ·) ∧
    Lib.SpanOk ⟨fun _ => unary, fun _ => readUnary 0, fun _ => unary, fun _ => readUnary 0⟩
      "%T" (0 ≤ ·) := by
  constructor <;> intro n hn r <;>
    exact (readUnary_ok r n.toNat 0).trans (by simp [Int.toNat_of_nonneg hn])

/-- The date-times of the claim: 1980, 2000-01-01 12:00, and the last one. -/
example : I64 (-631152000000000000) ∧ I64 0 ∧ (8276644036854775807 : Int) + noon2000 < 2 ^ 63 ∧
    ¬ (8276644036854775808 : Int) + noon2000 < 2 ^ 63 := by
  unfold I64; decide

end Verif.Chrono.Text
