import Verif.Any.Print
import Verif.Any.Props

/-! Property C91: the text of a simple value tells its kind and its value. -/
namespace Verif.Any.Print

/-! ### Specification: how a reader understands the text -/

/-- A decimal number. -/
def readInt : Str → Int
  | '-' :: ds => -(Nat.ofDigitChars 10 ds 0 : Int)
  | ds => (Nat.ofDigitChars 10 ds 0 : Int)

/-- The kind told by the letters after a number. -/
def suffixKind (s : Str) : Option Kind :=
  if s = "i8".toList then some .Int8 else if s = "i16".toList then some .Int16
  else if s = "i32".toList then some .Int32 else if s = "i64".toList then some .Int64
  else if s = "u8".toList then some .UInt8 else if s = "u16".toList then some .UInt16
  else if s = "u32".toList then some .UInt32 else if s = "u64".toList then some .UInt64
  else none

/-- The letters of the escape sequences of C++. -/
def escape : Char → Option Nat
  | 'a' => some 7 | 'b' => some 8 | 'f' => some 12 | 'n' => some 10 | 'r' => some 13
  | 't' => some 9 | 'v' => some 11 | '\'' => some 39 | '?' => some 63 | '\\' => some 92
  | _ => none

/-- The characters that a literal may have as they are: visible, and neither the quote nor the
backslash. -/
def plainChar (c : Char) : Bool := ' ' ≤ c && c ≤ '~' && c != '\'' && c != '\\'

/-- A character between quotes: itself, an escape sequence, or an octal number, of which only the
byte counts. -/
def readChar : Str → Option Nat
  | ['\'', c, '\''] => if plainChar c then some c.toNat else none
  | '\'' :: '\\' :: r =>
    match r with
    | [x, '\''] => (escape x).or (some (Nat.ofDigitChars 8 [x] 0))
    | _ => some (Nat.ofDigitChars 8 r.dropLast 0 % 256)
  | _ => none

/-- A character literal of C++: an octal number has at most three digits. -/
def literal (s : Str) : Option Nat :=
  match s with
  | '\'' :: '\\' :: r => if r.length ≤ 4 then readChar s else none
  | _ => readChar s

/-- A value without floating point numbers, times and strings. -/
def read (s : Str) : Option Any :=
  match s with
  | 'N' :: _ => if s = "None".toList then some ⟨.None, .none⟩ else none
  | 't' :: _ => if s = "true".toList then some ⟨.Bool, .bool true⟩ else none
  | 'f' :: _ => if s = "false".toList then some ⟨.Bool, .bool false⟩ else none
  | '\'' :: _ => (readChar s).map fun c => ⟨.Char8, .char c⟩
  | _ =>
    (suffixKind (s.dropWhile fun c => c.isDigit || c == '-')).map fun k =>
      ⟨k, .int (readInt (s.takeWhile fun c => c.isDigit || c == '-'))⟩

/-- The kinds that the reader knows. -/
def Plain (a : Any) : Prop :=
  a.type ≠ .Float32 ∧ a.type ≠ .Float64 ∧ a.type ≠ .Duration ∧ a.type ≠ .DateTime ∧
  a.type ≠ .String8

/-- A well-formed value whose character is a byte. -/
def Fits (a : Any) : Prop := a.Ok ∧ ∀ c, a.value = .char c → c < 256

/-! ### Lemmas -/

theorem digits_ok (n : Nat) : ∀ c ∈ Nat.toDigits 10 n, c.isDigit = true :=
  fun _ h => Nat.isDigit_of_mem_toDigits (by decide) (by decide) h

theorem takeDrop (p : Char → Bool) (ds t : Str) (hd : ∀ c ∈ ds, p c = true)
    (ht : ∀ c, t.head? = some c → p c = false) :
    (ds ++ t).takeWhile p = ds ∧ (ds ++ t).dropWhile p = t := by
  induction ds with
  | nil =>
    cases t with
    | nil => simp
    | cons c t => simp [List.takeWhile_cons, List.dropWhile_cons, ht c rfl]
  | cons d ds ih =>
    have h1 := hd d List.mem_cons_self
    have h2 := ih fun c hc => hd c (List.mem_cons_of_mem _ hc)
    simp only [List.cons_append, List.takeWhile_cons, List.dropWhile_cons, h1, if_true]
    exact ⟨by rw [h2.1], h2.2⟩

/-- The text of a number and what it is read as. -/
structure Number (s : Str) (v : Int) : Prop where
  value : readInt s = v
  chars : ∀ c ∈ s, (c.isDigit || c == '-') = true
  some : s ≠ []

theorem number_unsigned (n : Nat) : Number (outUnsigned .dec n) n := by
  have hne : Nat.toDigits 10 n ≠ [] := Nat.toDigits_ne_nil
  have hv : Nat.ofDigitChars 10 (Nat.toDigits 10 n) 0 = n :=
    Nat.ofDigitChars_toDigits (by decide) (by decide)
  have hd := digits_ok n
  unfold outUnsigned Base.num
  generalize Nat.toDigits 10 n = ds at *
  refine ⟨?_, fun c hc => by rw [hd c hc]; rfl, hne⟩
  unfold readInt
  split
  · rename_i r
    exact absurd (hd '-' List.mem_cons_self) (by decide)
  · rw [hv]

theorem number_signed (w : Nat) (v : Int) : Number (outSigned .dec w v) v := by
  unfold outSigned
  rw [if_pos rfl]
  have hn := number_unsigned v.natAbs
  unfold outUnsigned Base.num at hn
  by_cases h : v < 0
  · rw [if_pos h]
    refine ⟨?_, ?_, by simp⟩
    · show -(Nat.ofDigitChars 10 (Nat.toDigits 10 v.natAbs) 0 : Int) = v
      rw [Nat.ofDigitChars_toDigits (by decide) (by decide)]
      omega
    · intro c hc
      rcases List.mem_cons.1 hc with rfl | hc
      · rfl
      · exact hn.chars c hc
  · rw [if_neg h]
    exact ⟨by rw [hn.value]; omega, hn.chars, hn.some⟩

theorem read_number {s : Str} {v : Int} (h : Number s v) (t : Str) (k : Kind)
    (ht : suffixKind t = some k)
    (hh : ∀ c, t.head? = some c → (c.isDigit || c == '-') = false) :
    read (s ++ t) = some ⟨k, .int v⟩ := by
  obtain ⟨c, r, rfl⟩ : ∃ c r, s = c :: r := by
    cases s with
    | nil => exact absurd rfl h.some
    | cons c r => exact ⟨c, r, rfl⟩
  have hc := h.chars c List.mem_cons_self
  obtain ⟨h1, h2⟩ := takeDrop (fun c => c.isDigit || c == '-') (c :: r) t h.chars hh
  unfold read
  split
  · rename_i heq; cases heq; exact absurd hc (by decide)
  · rename_i heq; cases heq; exact absurd hc (by decide)
  · rename_i heq; cases heq; exact absurd hc (by decide)
  · rename_i heq; cases heq; exact absurd hc (by decide)
  · rw [h1, h2, ht, h.value]; rfl

theorem read_char (e : Env) (b : Base) (c : Nat) (hc : c < 256) :
    readChar (printChar e b c).1 = some c ∧ (printChar e b c).1.head? = some '\'' := by
  have key : ∀ (s : Bool) (b : Fin 3) (c : Fin 256),
      let e : Env := ⟨s, fun _ => [], fun _ => [], fun _ => [], fun _ => []⟩
      let b := [Base.oct, .dec, .hex][b]
      readChar (printChar e b c).1 = some c.1 ∧ (printChar e b c).1.head? = some '\'' := by
    decide +kernel
  have he : printChar e b c =
      printChar ⟨e.signedChar, fun _ => [], fun _ => [], fun _ => [], fun _ => []⟩ b c := rfl
  rw [he]
  cases b
  · exact key e.signedChar 0 ⟨c, hc⟩
  · exact key e.signedChar 1 ⟨c, hc⟩
  · exact key e.signedChar 2 ⟨c, hc⟩

theorem enum_names : ∀ e ∈ enums, ∀ i < e.names.length, ∀ j < e.names.length,
    e.nameOf i = e.nameOf j → i = j := by decide +kernel

theorem enum_known : ∀ e ∈ enums, ∀ i < e.names.length,
    (e.nameOf i).take 8 ≠ (unknown e).take 8 ∧ 8 ≤ (unknown e).length := by decide +kernel

/-! ### Properties -/

/-- C91, partial. The text of a value of the kinds `None`, `Char8`, `Bool` and the integers, on a
stream in base ten, is read as that kind and that value. Missing: the other kinds, which are not
told apart (`C91_kinds_fails`); other bases (`C91_hex_fails`). -/
theorem C91_read_partial (e : Env) (a : Any) (h : Fits a) (hp : Plain a) :
    ∃ t b, print e .dec a = .ok (t, b) ∧ read t = some a := by
  obtain ⟨k, v⟩ := a
  obtain ⟨hok, hb⟩ := h
  obtain ⟨p1, p2, p3, p4, p5⟩ := hp
  simp only at p1 p2 p3 p4 p5
  have nat : ∀ {v : Int}, 0 ≤ v → Number (outUnsigned .dec v.toNat) v := by
    intro v hv
    have := number_unsigned v.toNat
    rwa [Int.toNat_of_nonneg hv] at this
  cases k <;> cases v <;> simp only [Any.Ok] at hok <;> try exact absurd rfl (by assumption)
  all_goals try (exfalso; simp [Kind.Range] at hok; done)
  case None.none => exact ⟨_, _, rfl, rfl⟩
  case Char8.char c =>
    refine ⟨(printChar e .dec c).1, (printChar e .dec c).2, rfl, ?_⟩
    obtain ⟨h1, h2⟩ := read_char e .dec c (hb c rfl)
    generalize (printChar e .dec c).1 = s at h1 h2 ⊢
    cases s with
    | nil => cases h2
    | cons x s =>
      cases h2
      show (readChar _).map _ = _
      rw [h1]; rfl
  case Bool.bool b => cases b <;> exact ⟨_, _, rfl, rfl⟩
  case Int8.int v => exact ⟨_, _, rfl, read_number (number_signed 32 v) _ _ rfl (by decide)⟩
  case Int16.int v => exact ⟨_, _, rfl, read_number (number_signed 16 v) _ _ rfl (by decide)⟩
  case Int32.int v => exact ⟨_, _, rfl, read_number (number_signed 32 v) _ _ rfl (by decide)⟩
  case Int64.int v => exact ⟨_, _, rfl, read_number (number_signed 64 v) _ _ rfl (by decide)⟩
  case UInt8.int v => exact ⟨_, _, rfl, read_number (nat hok.1) _ _ rfl (by decide)⟩
  case UInt16.int v => exact ⟨_, _, rfl, read_number (nat hok.1) _ _ rfl (by decide)⟩
  case UInt32.int v => exact ⟨_, _, rfl, read_number (nat hok.1) _ _ rfl (by decide)⟩
  case UInt64.int v => exact ⟨_, _, rfl, read_number (nat hok.1) _ _ rfl (by decide)⟩

/-- C91, partial. Two values of these kinds with the same text are the same. -/
theorem C91_distinct_partial (e : Env) (a a' : Any) (h : Fits a) (h' : Fits a') (hp : Plain a)
    (hp' : Plain a') (t : Str) (b b' : Base) (ht : print e .dec a = .ok (t, b))
    (ht' : print e .dec a' = .ok (t, b')) : a = a' := by
  obtain ⟨s, c, h1, h2⟩ := C91_read_partial e a h hp
  obtain ⟨s', c', h1', h2'⟩ := C91_read_partial e a' h' hp'
  rw [h1] at ht
  rw [h1'] at ht'
  cases ht; cases ht'
  exact Option.some.inj (h2.symm.trans h2')

/-- C91, partial. The text of a `Char8` is a character literal of C++ with that value, unless `char`
is signed and the character negative (`C91_char_fails`). -/
theorem C91_char_partial (e : Env) (b : Base) (c : Nat) (hc : c < 256)
    (hs : e.signedChar = false ∨ c < 128) : literal (printChar e b c).1 = some c := by
  have key : ∀ (s : Bool) (b : Fin 3) (c : Fin 256), (s = false ∨ c.1 < 128) →
      let e : Env := ⟨s, fun _ => [], fun _ => [], fun _ => [], fun _ => []⟩
      let b := [Base.oct, .dec, .hex][b]
      literal (printChar e b c).1 = some c.1 := by
    decide +kernel
  have he : printChar e b c =
      printChar ⟨e.signedChar, fun _ => [], fun _ => [], fun _ => [], fun _ => []⟩ b c := rfl
  rw [he]
  cases b
  · exact key e.signedChar 0 ⟨c, hc⟩ hs
  · exact key e.signedChar 1 ⟨c, hc⟩ hs
  · exact key e.signedChar 2 ⟨c, hc⟩ hs

/-- C91. Two strings with the same text are the same; the text is the string between quotes. -/
theorem C91_string (e : Env) (b : Base) (s s' : List Nat) (t : Str) (b1 b2 : Base)
    (hs : ∀ c ∈ s ++ s', c < 256)
    (h : print e b ⟨.String8, .str (some s)⟩ = .ok (t, b1))
    (h' : print e b ⟨.String8, .str (some s')⟩ = .ok (t, b2)) : s = s' := by
  have hi : ∀ l : List Nat, (∀ c ∈ l, c < 256) → (l.map Char.ofNat).map Char.toNat = l := by
    have hb : ∀ c : Fin 256, (Char.ofNat c.1).toNat = c.1 := by decide +kernel
    intro l hl
    rw [List.map_map]
    conv => rhs; rw [← List.map_id l]
    exact List.map_congr_left fun c hc => hb ⟨c, hl c hc⟩
  simp only [print, Out.ok.injEq, Prod.mk.injEq] at h h'
  have := h.1.trans h'.1.symm
  simp only [List.cons.injEq, true_and, List.append_cancel_right_eq] at this
  rw [← hi s fun c hc => hs c (List.mem_append_left _ hc), this,
    hi s' fun c hc => hs c (List.mem_append_right _ hc)]

/-- C91. A stream in base ten stays in base ten, whatever is printed. -/
theorem C91_stream (e : Env) (a : Any) (t : Str) (b : Base)
    (h : print e .dec a = .ok (t, b)) : b = .dec := by
  have hc : ∀ c, (printChar e .dec c).2 = .dec := by
    intro c
    unfold printChar
    split <;> try rfl
    split <;> rfl
  obtain ⟨k, v⟩ := a
  cases k <;> cases v
  case Char8.char c =>
    have h : Out.ok (printChar e .dec c) = .ok (t, b) := h
    injection h with h
    rw [← hc c, h]
  case String8.str s => cases s <;> cases h; rfl
  all_goals first
    | (cases h; done)
    | (cases h; rfl)

/-- C91. The text of a value of an enumeration tells the value, known or not. -/
theorem C91_enum (e : Enum) (he : e ∈ enums) (v w : EVal)
    (hv : ∀ i, v = .known i → i < e.names.length) (hw : ∀ i, w = .known i → i < e.names.length)
    (h : e.print v = e.print w) : v = w := by
  have hd := enum_names e he
  have hu := enum_known e he
  have other : ∀ i n, i < e.names.length → e.print (.known i) ≠ e.print (.other n) := by
    intro i n hi hc
    refine (hu i hi).1 ?_
    have hc : e.nameOf i = unknown e ++ (outSigned .dec 32 n ++ [')']) := hc
    rw [hc, List.take_append_of_le_length (hu i hi).2]
  cases v with
  | known i =>
    cases w with
    | known j =>
      rw [hd i (hv i rfl) j (hw j rfl) h]
    | other n => exact absurd h (other i n (hv i rfl))
  | other n =>
    cases w with
    | known i => exact absurd h.symm (other i n (hw i rfl))
    | other m =>
      have h : unknown e ++ (outSigned .dec 32 n ++ [')']) =
        unknown e ++ (outSigned .dec 32 m ++ [')']) := h
      have h := List.append_cancel_right (List.append_cancel_left h)
      rw [← (number_signed 32 n).value, h, (number_signed 32 m).value]

/-- C91. The text of a value of an enumeration is its name in the program without the prefix, and the
enumerations have no two values of the same name. -/
theorem C91_names (e : Enum) (he : e ∈ enums) :
    (e.names.map Prod.fst).Nodup ∧
    ∀ i, (h : i < e.names.length) →
      e.print (.known i) = ((e.names[i].1).toList.dropWhile (· != '_')).drop 1 := by
  have key : ∀ e ∈ enums, (e.names.map Prod.fst).Nodup ∧
      ∀ i, (h : i < e.names.length) →
        e.nameOf i = ((e.names[i].1).toList.dropWhile (· != '_')).drop 1 := by decide +kernel
  exact key e he

/-- C91. The text of another number is `Unknown`, the name of the enumeration and, in parentheses,
the number in base ten. -/
theorem C91_unknown (e : Enum) (n : Int) :
    ∃ d : Str, Number d n ∧
      e.print (.other n) = "Unknown ".toList ++ (e.name.toList ++ ('(' :: (d ++ [')']))) := by
  refine ⟨_, number_signed 32 n, ?_⟩
  show unknown e ++ _ = _
  unfold unknown
  generalize "Unknown ".toList = u
  rw [List.append_assoc, List.append_assoc, List.singleton_append]

/-! ### Cases -/

def demoEnv : Env :=
  ⟨true, fun _ => "1e+06".toList, fun _ => "1e+06".toList, fun _ => "00:00:01".toList,
    fun _ => "2000-01-01 12:00:00".toList⟩

example : Fits ⟨.Int16, .int (-300)⟩ ∧ Plain ⟨.Int16, .int (-300)⟩ ∧
    print demoEnv .dec ⟨.Int16, .int (-300)⟩ = .ok ("-300i16".toList, .dec) ∧
    Fits ⟨.Char8, .char 200⟩ ∧
    print demoEnv .dec ⟨.Char8, .char 200⟩ = .ok ("'\\37777777710'".toList, .dec) ∧
    print demoEnv .dec ⟨.Char8, .char 10⟩ = .ok ("'\\n'".toList, .dec) := by
  refine ⟨⟨by simp [Any.Ok, Kind.Range], by simp⟩, by simp [Plain], by decide +kernel,
    ⟨trivial, ?_⟩, by decide +kernel, by decide +kernel⟩
  intro c hc
  cases hc
  decide

/-- C91 fails: a duration and a string may have the same text. -/
theorem C91_kinds_fails : ∃ (a a' : Any) (t : Str), a.Ok ∧ a'.Ok ∧ a.type ≠ a'.type ∧
    print demoEnv .dec a = .ok (t, .dec) ∧ print demoEnv .dec a' = .ok (t, .dec) := by
  refine ⟨⟨.Duration, .int 1000000000⟩,
    ⟨.String8, .str (some ("00:00:01".toList.map Char.toNat))⟩, "\"00:00:01\"".toList,
    by simp [Any.Ok, Kind.Range], trivial, by decide, by decide +kernel, by decide +kernel⟩

/-- C91 fails: a negative `Char8` is printed as an octal number of eleven digits, which is no
character literal, though it can be told from the others. -/
theorem C91_char_fails : ∃ c < 256, literal (printChar demoEnv .dec c).1 = none := by
  decide +kernel

/-- The value of digits in a base: `0` to `9`, then `a` to `f`. -/
def digitsValue (base : Nat) (s : Str) : Nat :=
  s.foldl (fun n c => n * base + if c.toNat ≤ 57 then c.toNat - 48 else c.toNat - 87) 0

theorem digitsValue_toDigits (b : Nat) (h1 : 1 < b) (h2 : b ≤ 16) (n : Nat) :
    digitsValue b (Nat.toDigits b n) = n := by
  have hd : ∀ d : Fin 16, (if (Nat.digitChar d.1).toNat ≤ 57 then (Nat.digitChar d.1).toNat - 48
      else (Nat.digitChar d.1).toNat - 87) = d.1 := by decide
  induction n using Nat.strongRecOn with
  | ind n ih =>
    by_cases h : n < b
    · rw [Nat.toDigits_of_lt_base h]
      have := hd ⟨n, by omega⟩
      simpa [digitsValue] using this
    · rw [Nat.toDigits_of_base_le h1 (by omega)]
      have hlt : n / b < n := Nat.div_lt_self (by omega) h1
      have hm : n % b < b := Nat.mod_lt _ (by omega)
      have h3 := hd ⟨n % b, by omega⟩
      have h4 := ih _ hlt
      unfold digitsValue at h4 ⊢
      rw [List.foldl_append, h4]
      simp only [List.foldl_cons, List.foldl_nil]
      rw [h3]
      have := Nat.div_add_mod n b
      rw [Nat.mul_comm] at this
      exact this

/-- C91: on a stream in base eight or sixteen an integer is followed by the name of its kind as in base
ten, and the digits are those of the number in that base; those of a negative number are the ones of its
two's complement, in 32 bits for an `Int8`. -/
theorem C91_bases (e : Env) (v : Int) :
    (∀ (k : Kind) (n : Nat) (t : Str), (k, t) ∈ [(Kind.UInt8, "u8".toList), (.UInt16, "u16".toList),
        (.UInt32, "u32".toList), (.UInt64, "u64".toList)] →
      ∃ s s', print e .oct ⟨k, .int n⟩ = .ok (s ++ t, .oct) ∧ digitsValue 8 s = n ∧
        print e .hex ⟨k, .int n⟩ = .ok (s' ++ t, .hex) ∧ digitsValue 16 s' = n) ∧
    ∀ (k : Kind) (w : Nat) (t : Str), (k, w, t) ∈ [(Kind.Int8, 32, "i8".toList), (.Int16, 16, "i16".toList),
        (.Int32, 32, "i32".toList), (.Int64, 64, "i64".toList)] →
      ∃ s s', print e .oct ⟨k, .int v⟩ = .ok (s ++ t, .oct) ∧ (digitsValue 8 s : Int) = v % 2 ^ w ∧
        print e .hex ⟨k, .int v⟩ = .ok (s' ++ t, .hex) ∧ (digitsValue 16 s' : Int) = v % 2 ^ w := by
  have h8 : ∀ n : Nat, digitsValue 8 (Nat.toDigits 8 n) = n := fun n =>
    digitsValue_toDigits 8 (by decide) (by decide) n
  have h16 : ∀ n : Nat, digitsValue 16 (Nat.toDigits 16 n) = n := fun n =>
    digitsValue_toDigits 16 (by decide) (by decide) n
  constructor
  · intro k n t h
    simp only [List.mem_cons, Prod.mk.injEq, List.not_mem_nil, or_false] at h
    rcases h with ⟨rfl, rfl⟩ | ⟨rfl, rfl⟩ | ⟨rfl, rfl⟩ | ⟨rfl, rfl⟩ <;>
      exact ⟨_, _, rfl, h8 n, rfl, h16 n⟩
  · intro k w t h
    have hw : ∀ w : Nat, ((v % (2 ^ w : Nat)).toNat : Int) = v % 2 ^ w := by
      intro w
      have : (0 : Int) < (2 ^ w : Nat) := by exact_mod_cast Nat.two_pow_pos w
      rw [Int.toNat_of_nonneg (Int.emod_nonneg _ (by omega))]
      simp
    simp only [List.mem_cons, Prod.mk.injEq, List.not_mem_nil, or_false] at h
    rcases h with ⟨rfl, rfl, rfl⟩ | ⟨rfl, rfl, rfl⟩ | ⟨rfl, rfl, rfl⟩ | ⟨rfl, rfl, rfl⟩
    · exact ⟨_, _, rfl, by rw [← hw 32]; exact congrArg _ (h8 _), rfl, by rw [← hw 32]; exact congrArg _ (h16 _)⟩
    · exact ⟨_, _, rfl, by rw [← hw 16]; exact congrArg _ (h8 _), rfl, by rw [← hw 16]; exact congrArg _ (h16 _)⟩
    · exact ⟨_, _, rfl, by rw [← hw 32]; exact congrArg _ (h8 _), rfl, by rw [← hw 32]; exact congrArg _ (h16 _)⟩
    · exact ⟨_, _, rfl, by rw [← hw 64]; exact congrArg _ (h8 _), rfl, by rw [← hw 64]; exact congrArg _ (h16 _)⟩

-- the two's complement of -1 in an `Int8` and in an `Int16`
example : print demoEnv .hex ⟨.Int8, .int (-1)⟩ = .ok ("ffffffffi8".toList, .hex) ∧
    print demoEnv .oct ⟨.Int16, .int (-1)⟩ = .ok ("177777i16".toList, .oct) := by decide +kernel

/-- C91 fails on a stream in base sixteen: the text is not that of the value, and after a `Char8` that
is not printable the stream is in base ten, so that the same value has another text. -/
theorem C91_hex_fails : ∃ (a c : Any) (s t u : Str), Fits a ∧ Plain a ∧
    print demoEnv .hex a = .ok (s, .hex) ∧ read s ≠ some a ∧
    print demoEnv .hex c = .ok (t, .dec) ∧ print demoEnv .dec a = .ok (u, .dec) ∧ s ≠ u := by
  refine ⟨⟨.UInt8, .int 16⟩, ⟨.Char8, .char 0⟩, "10u8".toList, "'\\0'".toList, "16u8".toList,
    ⟨by simp [Any.Ok, Kind.Range], by simp⟩, by simp [Plain], by decide +kernel, ?_,
    by decide +kernel, by decide +kernel, by decide +kernel⟩
  decide +kernel

end Verif.Any.Print
