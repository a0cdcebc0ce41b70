import Verif.Python.Value
import Verif.Any.Props
import Verif.Mem.Float

/-!
C118: a value that Python gives to a field is the value that Python and C++ then read, or an exception.
-/
namespace Verif.Python.Value

open Verif.Any

/-! ## Lemmas -/

theorem u8_toNat_ofNat (l : List UInt8) : (l.map UInt8.toNat).map UInt8.ofNat = l := by
  induction l with
  | nil => rfl
  | cons x xs ih => rw [List.map_cons, List.map_cons, ih, UInt8.ofNat_toNat]

theorem decode_encode (s : List Char) : decode (encode s) = some s := by
  unfold decode encode
  rw [u8_toNat_ofNat]
  have : (s.flatMap String.utf8EncodeChar).toByteArray = s.utf8Encode := rfl
  rw [this, List.utf8Decode?_utf8Encode]
  rfl

theorem encodeChar_zero (c : Char) : (0 : UInt8) ∈ String.utf8EncodeChar c ↔ c = Char.ofNat 0 := by
  have hv : c.val.toNat < 0x110000 := by
    have := c.valid
    rcases this with h | h
    · omega
    · exact h.2
  constructor
  · intro h
    unfold String.utf8EncodeChar at h
    dsimp only at h
    have key : ∀ n : Nat, n < 256 → (0 : UInt8) = UInt8.ofNat n → n = 0 := by
      intro n hn e
      have := congrArg UInt8.toNat e
      simp at this
      omega
    split at h
    · have e := key c.val.toNat (by omega) (by simpa only [List.mem_singleton] using h)
      apply Char.ext
      apply UInt32.toNat_inj.mp
      rw [e]; rfl
    · split at h
      · simp only [List.mem_cons, List.not_mem_nil, or_false] at h
        rcases h with h | h <;> (have := key _ (by omega) h; omega)
      · split at h
        · simp only [List.mem_cons, List.not_mem_nil, or_false] at h
          rcases h with h | h | h <;> (have := key _ (by omega) h; omega)
        · simp only [List.mem_cons, List.not_mem_nil, or_false] at h
          rcases h with h | h | h | h <;> (have := key _ (by omega) h; omega)
  · rintro rfl; decide

theorem zero_mem_encode (s : List Char) : 0 ∈ encode s ↔ Char.ofNat 0 ∈ s := by
  unfold encode
  rw [List.mem_map]
  constructor
  · rintro ⟨b, hb, e⟩
    have : b = 0 := UInt8.toNat_inj.mp e
    subst this
    obtain ⟨c, hc, h⟩ := List.mem_flatMap.mp hb
    rw [← (encodeChar_zero c).mp h]; exact hc
  · intro h
    exact ⟨0, List.mem_flatMap.mpr ⟨_, h, (encodeChar_zero _).mpr rfl⟩, rfl⟩

theorem takeWhile_all {α : Type} (p : α → Bool) (l : List α) (h : ∀ a ∈ l, p a = true) :
    l.takeWhile p = l := by
  induction l with
  | nil => rfl
  | cons x xs ih =>
    rw [List.takeWhile_cons_of_pos (h x (by simp)), ih fun a ha => h a (by simp [ha])]

/-- The type of the cast for an integer kind. -/
def castType : Kind → ITy
  | .Int8 => .i8 | .Int16 => .i16 | .Int32 => .i32
  | .UInt8 => .u8 | .UInt16 => .u16 | .UInt32 => .u32 | .UInt64 => .u64
  | _ => .i64

theorem castType_range (k : Kind) (v : Int) (hk : k.isInt) : k.Range v ↔ (castType k).Range v := by
  cases k <;> simp [Kind.isInt, Kind.int] at hk <;> exact Iff.rfl

theorem getInt_own (k : Kind) (v : Int) (hk : k.isInt) (hv : k.Range v) :
    getInt (castType k) ⟨k, .int v⟩ = .ok v :=
  (C50_get k v _ hk hv).1 ((castType_range k v hk).mp hv)

theorem toPy_int (k : Kind) (v : Int) (hk : k.isInt) (hv : k.Range v) :
    toPy ⟨k, .int v⟩ = .ok (.int v) := by
  have := getInt_own k v hk hv
  cases k <;> simp [Kind.isInt, Kind.int] at hk <;>
    (unfold toPy toPy.int; dsimp only; dsimp only [castType] at this; rw [this])

theorem ok_int {k : Kind} {v : Val} (h : Any.Ok ⟨k, v⟩) (hk : k.isInt) :
    ∃ n, v = .int n ∧ k.Range n := by
  cases k <;> simp [Kind.isInt, Kind.int] at hk <;> cases v <;> simp [Any.Ok] at h <;>
    exact ⟨_, rfl, h⟩

theorem make_int (narrow : Fl → Fl) (t : ITy) (k : Kind) (v : Int) (ht : t.Range v) (hk : k.isInt) :
    (k.Range v → make narrow k (.int t v) = .ok ⟨k, .int v⟩) ∧
    (¬ k.Range v → make narrow k (.int t v) = .invalidAnyType) := by
  obtain ⟨T, hT⟩ := Option.isSome_iff_exists.mp hk
  obtain ⟨h1, h2⟩ := conv_ok ht (setTable_ok t k T hT)
  rw [Kind.range_iff hT]
  constructor <;> intro h <;> simp [make, newValue, hT, h1, h2, h]

theorem ofPy_intKind (narrow : Fl → Fl) (k : Kind) (hk : k.isInt) (p : Py) (hp : ∀ a, p ≠ .field a) :
    ofPy narrow p k = (castInt (castType k) p).bind fun v => make narrow k (.int (castType k) v) := by
  cases p with
  | field a => exact absurd rfl (hp a)
  | _ => cases k <;> simp [Kind.isInt, Kind.int] at hk <;> rfl

/-! ## The properties -/

/-- C118: an integer given to a field of an integer kind, a duration or a date is stored exactly and
read back as the same integer; an integer outside of the range of the kind is refused. -/
theorem C118_int (narrow : Fl → Fl) (k : Kind) (hk : k.isInt) (v : Int) :
    (k.Range v → ofPy narrow (.int v) k = .ok ⟨k, .int v⟩ ∧ toPy ⟨k, .int v⟩ = .ok (.int v)) ∧
    (¬ k.Range v → ofPy narrow (.int v) k = .castError) := by
  rw [ofPy_intKind narrow k hk _ (by intro a h; cases h)]
  have hr := ITy.range_iff (castType k) v
  rw [castType_range k v hk] at *
  constructor
  · intro h
    refine ⟨?_, toPy_int k v hk ((castType_range k v hk).mpr h)⟩
    dsimp only [castInt]
    rw [if_pos (hr.mp h)]
    exact (make_int narrow _ k v h hk).1 ((castType_range k v hk).mpr h)
  · intro h
    dsimp only [castInt]
    rw [if_neg (fun h' => h (hr.mpr h'))]
    rfl

example : ofPy id (.int (-129)) .Int8 = .castError ∧ ofPy id (.int 255) .UInt8 = .ok ⟨.UInt8, .int 255⟩ := by
  exact ⟨rfl, rfl⟩

/-- C118: a `bool` is stored and read as itself in a `Bool` field, and as 0 or 1 in an integer one. -/
theorem C118_bool (narrow : Fl → Fl) (b : Bool) :
    (ofPy narrow (.bool b) .Bool = .ok ⟨.Bool, .bool b⟩ ∧ toPy ⟨.Bool, .bool b⟩ = .ok (.bool b)) ∧
    ∀ k : Kind, k.isInt → ofPy narrow (.bool b) k = .ok ⟨k, .int (if b then 1 else 0)⟩ := by
  refine ⟨⟨rfl, rfl⟩, fun k hk => ?_⟩
  rw [ofPy_intKind narrow k hk _ (by intro a h; cases h)]
  have h : k.Range (if b then 1 else 0) := by
    cases k <;> simp [Kind.isInt, Kind.int] at hk <;> cases b <;> simp [Kind.Range]
  exact (make_int narrow _ k _ ((castType_range k _ hk).mp h) hk).1 h

example : ofPy id (.bool true) .UInt16 = .ok ⟨.UInt16, .int 1⟩ := rfl

/-- C118: a text of one character below U+0100 is stored in a `Char8` and read back; every other
text is refused. -/
theorem C118_char (narrow : Fl → Fl) (s : List Char) :
    (∀ c : Char, s = [c] → c.toNat < 256 →
      ofPy narrow (.str s) .Char8 = .ok ⟨.Char8, .char c.toNat⟩ ∧
      toPy ⟨.Char8, .char c.toNat⟩ = .ok (.str s)) ∧
    ((∀ c : Char, s = [c] → 256 ≤ c.toNat) → ofPy narrow (.str s) .Char8 = .valueError) := by
  constructor
  · rintro c rfl h
    refine ⟨?_, ?_⟩
    · show (castChar (.str [c])).bind _ = _
      dsimp only [castChar]
      rw [if_pos h]; rfl
    · show Res.ok (Py.str (latin1 c.toNat)) = _
      unfold latin1
      rw [Char.ofNat_toNat]
  · intro h
    show (castChar (.str s)).bind _ = _
    match s, h with
    | [], _ => rfl
    | [c], h =>
      have h' : ¬ c.toNat < 256 := by have := h c rfl; omega
      dsimp only [castChar]
      rw [if_neg h']; rfl
    | _ :: _ :: _, _ => rfl

example : ofPy id (.str ['é']) .Char8 = .ok ⟨.Char8, .char 233⟩ ∧
    ofPy id (.str ['a', 'b']) .Char8 = .valueError := ⟨rfl, rfl⟩

/-- C118: a text without U+0000 is stored as UTF-8 and read back as the same text. Missing: texts
with U+0000, see `C118_nul_fails`. -/
theorem C118_string_partial (narrow : Fl → Fl) (s : List Char) (h : Char.ofNat 0 ∉ s) :
    ofPy narrow (.str s) .String8 = .ok ⟨.String8, .str (some (encode s))⟩ ∧
      toPy ⟨.String8, .str (some (encode s))⟩ = .ok (.str s) := by
  constructor
  · dsimp only [ofPy, ofValue, castString, Res.bind]
    rw [takeWhile_all]
    · rfl
    · intro b hb
      have : b ≠ 0 := fun e => h ((zero_mem_encode s).mp (e ▸ hb))
      simpa using this
  · have : toPy ⟨.String8, .str (some (encode s))⟩ =
      match decode (encode s) with | some s => .ok (.str s) | none => .unicodeError := rfl
    rw [this, decode_encode]

example : Char.ofNat 0 ∉ ['o', 'k', 'é'] ∧ encode ['o', 'k', 'é'] = [111, 107, 195, 169] := by decide

/-- C118 fails: a text with U+0000 is cut there without an error; what is read is another text. -/
theorem C118_nul_fails (narrow : Fl → Fl) :
    let s := ['a', Char.ofNat 0, 'b']
    ofPy narrow (.str s) .String8 = .ok ⟨.String8, .str (some [97])⟩ ∧
      toPy ⟨.String8, .str (some [97])⟩ = .ok (.str ['a']) := by
  refine ⟨rfl, ?_⟩
  have := (C118_string_partial narrow ['a'] (by decide)).2
  exact this

/-- C118: a Python `float` is stored exactly in a `Float64` and read back. An `int` is stored exactly if
it has at most 53 significant bits. -/
theorem C118_float64 (narrow : Fl → Fl) (x : Fl) :
    (ofPy narrow (.float x) .Float64 = .ok ⟨.Float64, .float x⟩ ∧
      toPy ⟨.Float64, .float x⟩ = .ok (.float x)) ∧
    ∀ v : Int, Representable 53 v → v.natAbs < 2 ^ 1024 →
      ofPy narrow (.int v) .Float64 = .ok ⟨.Float64, .float (.fin v)⟩ := by
  refine ⟨⟨rfl, rfl⟩, fun v h hb => ?_⟩
  have e : castFloat (.int v) = .ok (.fin v) := by
    dsimp only [castFloat]
    rw [roundBits_eq h, if_pos hb]
  dsimp only [ofPy, ofValue]
  rw [e]
  rfl

example : Representable 53 (2 ^ 60) ∧ (2 ^ 60 : Int).natAbs < 2 ^ 1024 :=
  ⟨⟨1, 60, by decide, by decide⟩, by
    rw [Int.natAbs_pow]; exact Nat.pow_lt_pow_right (by decide) (by decide)⟩

/-- C118: a Python `float` that a `Float32` can hold is stored exactly and read back. Missing: other
numbers, see `C118_float32_fails`. -/
theorem C118_float32_partial (narrow : Fl → Fl) (x : Fl) (h : narrow x = x) :
    ofPy narrow (.float x) .Float32 = .ok ⟨.Float32, .float x⟩ ∧
      toPy ⟨.Float32, .float x⟩ = .ok (.float x) := by
  refine ⟨?_, rfl⟩
  show (Res.ok (Any.mk .Float32 (.float (narrow x)))) = _
  rw [h]

example : Verif.Float.narrow (.fin ((3 : Rat) / 2)) = .fin ((3 : Rat) / 2) := by decide +kernel

/-- C118 fails: a number that a `Float32` cannot hold is changed without an error: from Python 2^200
becomes infinite and 2^-200 becomes 0, and 1 + 2^-30 becomes 1, where `AnySimple` itself refuses the
first and the third. -/
theorem C118_float32_fails :
    (ofPy Verif.Float.narrow (.float (.fin (2 ^ 200))) .Float32 = .ok ⟨.Float32, .float (.inf false)⟩ ∧
      ofPy Verif.Float.narrow (.float (.fin ((1 : Rat) / 2 ^ 200))) .Float32 =
        .ok ⟨.Float32, .float (.fin 0)⟩ ∧
      ofPy Verif.Float.narrow (.float (.fin (1 + (1 : Rat) / 2 ^ 30))) .Float32 =
        .ok ⟨.Float32, .float (.fin 1)⟩) ∧
    make Verif.Float.narrow .Float32 (.f64 (.fin (2 ^ 200))) = .invalidAnyType ∧
    make Verif.Float.narrow .Float32 (.f64 (.fin (1 + (1 : Rat) / 2 ^ 30))) = .invalidAnyType := by
  have h1 : Verif.Float.narrow (.fin (2 ^ 200)) = .inf false := by decide +kernel
  have h2 : Verif.Float.narrow (.fin ((1 : Rat) / 2 ^ 200)) = .fin 0 := by decide +kernel
  have h3 : Verif.Float.narrow (.fin (1 + (1 : Rat) / 2 ^ 30)) = .fin 1 := by decide +kernel
  have set : ∀ x, ofPy Verif.Float.narrow (.float x) .Float32 =
    .ok ⟨.Float32, .float (Verif.Float.narrow x)⟩ := fun _ => rfl
  refine ⟨⟨by rw [set, h1], by rw [set, h2], by rw [set, h3]⟩, ?_, ?_⟩
  · have : convertFloat64 Verif.Float.narrow (.fin (2 ^ 200)) = .throw := by
      unfold convertFloat64; rw [h1]; rfl
    simp [make, newValue, this, Out.map]
  · have : convertFloat64 Verif.Float.narrow (.fin (1 + (1 : Rat) / 2 ^ 30)) = .throw := by
      unfold convertFloat64; rw [h3]; decide +kernel
    simp [make, newValue, this, Out.map]

/-- The union member is the one of the kind, and a text is UTF-8. -/
def Readable (a : Any) : Prop := a.Ok ∧ ∀ b, a.value = .str (some b) → (decode b).isSome

/-- C118: every value that a field can hold has a Python form: a number the same number, a character
or text the same characters, no text and no value `None`. -/
theorem C118_read (a : Any) (h : Readable a) :
    ∃ p, toPy a = .ok p ∧
      (∀ v, a.value = .int v → p = .int v) ∧ (∀ b, a.value = .bool b → p = .bool b) ∧
      (∀ x, a.value = .float x → p = .float x) ∧
      (∀ c, a.value = .char c → p = .str [Char.ofNat c]) ∧
      (∀ b s, a.value = .str (some b) → decode b = some s → p = .str s) ∧
      (a.value = .str none ∨ a.value = .none → p = .none) := by
  obtain ⟨k, v⟩ := a
  obtain ⟨hok, hs⟩ := h
  by_cases hk : k.isInt
  · obtain ⟨n, rfl, hn⟩ := ok_int hok hk
    exact ⟨_, toPy_int k n hk hn, by simp⟩
  · cases k <;> simp [Kind.isInt, Kind.int] at hk <;> cases v <;> simp [Any.Ok, Kind.Range] at hok
    · exact ⟨_, rfl, by simp⟩
    · exact ⟨.str (latin1 _), rfl, by simp [latin1]⟩
    · exact ⟨_, rfl, by simp⟩
    · exact ⟨_, rfl, by simp⟩
    · exact ⟨_, rfl, by simp⟩
    · rename_i s
      cases s with
      | none => exact ⟨_, rfl, by simp⟩
      | some b =>
        obtain ⟨s, e⟩ := Option.isSome_iff_exists.mp (hs b rfl)
        refine ⟨.str s, ?_, nofun, nofun, nofun, nofun, ?_, by simp⟩
        rotate_left
        · intro b' s' hb hd
          injection hb with hb; injection hb with hb
          rw [← hb, e] at hd; injection hd with hd; rw [hd]
        show (match decode b with | some s => Res.ok (Py.str s) | none => .unicodeError) = _
        rw [e]

example : Readable ⟨.UInt8, .int 200⟩ ∧ toPy ⟨.UInt8, .int 200⟩ = .ok (.int 200) := by
  refine ⟨⟨?_, nofun⟩, rfl⟩
  simp [Any.Ok, Kind.Range, Kind.int]

/-- C118 fails: a text that C++ put there and that is not UTF-8 cannot be read from Python. -/
theorem C118_notUtf8_fails :
    Any.Ok ⟨.String8, .str (some [0xff])⟩ ∧ toPy ⟨.String8, .str (some [0xff])⟩ = .unicodeError := by
  refine ⟨trivial, ?_⟩
  have h : decode [0xff] = none := by
    cases e : decode [0xff] with
    | none => rfl
    | some s =>
      exfalso
      have : ([0xff].map UInt8.ofNat : List UInt8).toByteArray.utf8Decode?.isSome := by
        unfold decode at e
        cases e2 : ([0xff].map UInt8.ofNat : List UInt8).toByteArray.utf8Decode? with
        | none => rw [e2] at e; cases e
        | some x => rfl
      rw [ByteArray.isSome_utf8Decode?_iff] at this
      obtain ⟨l, hl⟩ := this
      have hl : ([0xff] : List UInt8) = l.flatMap String.utf8EncodeChar := by
        have := congrArg (fun b => b.data.toList) hl
        simpa [List.utf8Encode] using this
      cases l with
      | nil => simp at hl
      | cons c cs =>
        have hv : c.val.toNat < 0x110000 := by
          rcases c.valid with h | h
          · omega
          · exact h.2
        have key : ∀ n : Nat, n < 256 → (0xff : UInt8) = UInt8.ofNat n → n = 255 := by
          intro n hn e
          have := congrArg UInt8.toNat e
          simp at this
          omega
        rw [List.flatMap_cons] at hl
        unfold String.utf8EncodeChar at hl
        dsimp only at hl
        split at hl
        · have := (List.cons.inj hl).1
          have := key _ (by omega) this
          omega
        · split at hl
          · simp at hl
          · split at hl <;> simp at hl
  show (match decode [0xff] with | some s => Res.ok (Py.str s) | none => .unicodeError) = _
  rw [h]

/-- C118: `field = otherField` between integer fields, durations and dates of any two kinds stores
the number of the other field or is refused when the kind cannot hold it. -/
theorem C118_field (narrow : Fl → Fl) (k k' : Kind) (hk : k.isInt) (hk' : k'.isInt) (v : Int)
    (hv : k'.Range v) :
    (k.Range v → ofPy narrow (.field ⟨k', .int v⟩) k = .ok ⟨k, .int v⟩) ∧
    (¬ k.Range v → ofPy narrow (.field ⟨k', .int v⟩) k = .invalidAnyType) := by
  have harg : fieldArg ⟨k', .int v⟩ = some (.int (castType k') v) := by
    have := getInt_own k' v hk' hv
    cases k' <;> simp [Kind.isInt, Kind.int] at hk' <;>
      (unfold fieldArg fieldArg.int; dsimp only [castType] at this ⊢; rw [this])
  have : ofPy narrow (.field ⟨k', .int v⟩) k = make narrow k (.int (castType k') v) := by
    unfold ofPy ofField; dsimp only; rw [harg]
  rw [this]
  exact make_int narrow _ k v ((castType_range k' v hk').mp hv) hk

example : ofPy id (.field ⟨.Int64, .int 300⟩) .UInt8 = .invalidAnyType ∧
    ofPy id (.field ⟨.Int64, .int 30⟩) .UInt8 = .ok ⟨.UInt8, .int 30⟩ := ⟨rfl, rfl⟩

/-- C118: an assignment either stores a value of the kind of the field, or raises. -/
theorem C118_kind (narrow : Fl → Fl) (a b : Any) (p : Py) (h : assign narrow a p = .ok b) :
    b.type = a.type := by
  unfold assign at h
  cases hp : ofPy narrow p a.type with
  | ok v =>
    rw [hp] at h
    dsimp only [Res.bind, store] at h
    split at h
    · injection h with h; rw [← h]; assumption
    · cases h
  | _ => rw [hp] at h; cases h

example : assign id ⟨.Int32, .int 4⟩ (.int 7) = .ok ⟨.Int32, .int 7⟩ := rfl

/-- C118: an assignment that raises does so with the exception of the conversion: what cannot be
converted is never stored. -/
theorem C118_refused (narrow : Fl → Fl) (a : Any) (p : Py) (e : Res Any) (he : ofPy narrow p a.type = e)
    (hn : ∀ v, e ≠ .ok v) : assign narrow a p = e := by
  unfold assign
  rw [he]
  cases e with
  | ok v => exact absurd rfl (hn v)
  | _ => rfl

example : assign id ⟨.UInt8, .int 4⟩ (.field ⟨.Int64, .int 300⟩) = .invalidAnyType ∧
    assign id ⟨.UInt8, .int 4⟩ (.str []) = .castError := ⟨rfl, rfl⟩

/-- C118: `component.field += n` adds `n` to an integer field, or raises when the sum is outside of
the range of its kind. -/
theorem C118_increment (narrow : Fl → Fl) (k : Kind) (hk : k.isInt) (v n : Int) (hv : k.Range v) :
    (k.Range (v + n) → increment narrow ⟨k, .int v⟩ n = .ok ⟨k, .int (v + n)⟩) ∧
    (¬ k.Range (v + n) → increment narrow ⟨k, .int v⟩ n = .castError) := by
  have hp : plus ⟨k, .int v⟩ n = .ok (.int (v + n)) := by
    unfold plus; rw [toPy_int k v hk hv]; rfl
  obtain ⟨h1, h2⟩ := C118_int narrow k hk (v + n)
  unfold increment
  rw [hp]
  constructor
  · intro h
    show (ofPy narrow _ k).bind _ = _
    rw [(h1 h).1]
    show store k _ = _
    unfold store
    rw [if_pos rfl]
  · intro h
    show (ofPy narrow _ k).bind _ = _
    rw [h2 h]; rfl

example : increment id ⟨.UInt8, .int 255⟩ 1 = .castError ∧
    increment id ⟨.UInt8, .int 254⟩ 1 = .ok ⟨.UInt8, .int 255⟩ := ⟨rfl, rfl⟩

/-- C118: a value that is no number, no truth value, no text and no field (a list, a component) is
refused by every field. -/
theorem C118_other (narrow : Fl → Fl) (k : Kind) (hk : k ≠ .None) :
    ofPy narrow .other k = .castError := by
  cases k <;> first | rfl | exact absurd rfl hk

example : ofPy id .other .Bool = .castError := rfl

/-- C118: `if field:` is the truth value of the number, except for characters and texts. -/
theorem C118_truth_partial (k : Kind) (v : Int) (hk : k.isInt) (hv : k.Range v) (b : Bool) (x : Fl) :
    (truth ⟨k, .int v⟩ = .ok (decide (v ≠ 0))) ∧ truth ⟨.Bool, .bool b⟩ = .ok b ∧
      truth ⟨.Float64, .float x⟩ = .ok (decide (x ≠ .fin 0)) := by
  refine ⟨?_, rfl, rfl⟩
  unfold truth
  rw [toPy_int k v hk hv]; rfl

example : truth ⟨.Int8, .int (-3)⟩ = .ok true := rfl

/-- C118 fails: `if field:` raises for a character, where Python takes every non-empty text as true. -/
theorem C118_truth_fails : truth ⟨.Char8, .char 65⟩ = .castError := rfl

end Verif.Python.Value
