import Verif.Any.Model

/-! The text of simple values and of the enumerations of the standard
(src/Smp/StreamOperators.cpp:33-248). -/
namespace Verif.Any.Print

/-- A text (`std::ostream`, StreamOperators.cpp:33-248). -/
abbrev Str := List Char

/-- `basefield` of a stream. Its other flags and its width are the default ones (simplification).
(StreamOperators.cpp:209-234.) -/
inductive Base
  | oct | dec | hex
deriving DecidableEq, Repr

/-- The number of digits of the base. (StreamOperators.cpp:209-234.) -/
def Base.num : Base → Nat
  | .oct => 8
  | .dec => 10
  | .hex => 16

/-- What the code leaves to the platform and to libraries: whether `char` is signed, and the texts
of floating point numbers, durations and dates (StreamOperators.cpp:235-242). -/
structure Env where
  signedChar : Bool
  float32 : Fl → Str
  float64 : Fl → Str
  duration : Int → Str
  dateTime : Int → Str

/-- `os << n` of an unsigned integer (StreamOperators.cpp:222, 226, 230, 234). -/
def outUnsigned (b : Base) (n : Nat) : Str := Nat.toDigits b.num n

/-- `os << v` of a signed integer of that width (StreamOperators.cpp:220, 224, 228, 232): other bases than ten show it modulo `2 ^ width`. -/
def outSigned (b : Base) (width : Nat) (v : Int) : Str :=
  if b = .dec then
    if v < 0 then '-' :: Nat.toDigits 10 v.natAbs else Nat.toDigits 10 v.natAbs
  else Nat.toDigits b.num (v % (2 ^ width : Nat)).toNat

/-- `static_cast<unsigned int>` of a `char`, given by its byte (StreamOperators.cpp:212). -/
def charToUInt (e : Env) (c : Nat) : Nat :=
  if e.signedChar && 128 ≤ c then c + 4294967296 - 256 else c

/-- The `Char8` case (StreamOperators.cpp:184-216); the stream is left in base ten after an octal
number. A signed `char` from 128 on is below the blank, an unsigned one above `~`. -/
def printChar (e : Env) (b : Base) (c : Nat) : Str × Base :=
  match c with
  | 39 => ("'\\''".toList, b)
  | 63 => ("'\\?'".toList, b)
  | 92 => ("'\\\\'".toList, b)
  | 7 => ("'\\a'".toList, b)
  | 8 => ("'\\b'".toList, b)
  | 12 => ("'\\f'".toList, b)
  | 10 => ("'\\n'".toList, b)
  | 13 => ("'\\r'".toList, b)
  | 9 => ("'\\t'".toList, b)
  | 11 => ("'\\v'".toList, b)
  | c =>
    if 32 ≤ c ∧ c ≤ 126 then (['\'', Char.ofNat c, '\''], b)
    else ('\'' :: '\\' :: (Nat.toDigits 8 (charToUInt e c) ++ ['\'']), .dec)

/-- The stream operator of `AnySimple` (StreamOperators.cpp:179-248): the text and the base of the
stream afterwards. A null string is undefined behaviour; a value that does not fit its kind does not
exist. -/
def print (e : Env) (b : Base) (a : Any) : Out (Str × Base) :=
  match a.type, a.value with
  | .None, _ => .ok ("None".toList, b)
  | .Char8, .char c => .ok (printChar e b c)
  | .Bool, .bool v => .ok ((if v then "true" else "false").toList, b)
  | .Int8, .int v => .ok (outSigned b 32 v ++ "i8".toList, b)
  | .UInt8, .int v => .ok (outUnsigned b v.toNat ++ "u8".toList, b)
  | .Int16, .int v => .ok (outSigned b 16 v ++ "i16".toList, b)
  | .UInt16, .int v => .ok (outUnsigned b v.toNat ++ "u16".toList, b)
  | .Int32, .int v => .ok (outSigned b 32 v ++ "i32".toList, b)
  | .UInt32, .int v => .ok (outUnsigned b v.toNat ++ "u32".toList, b)
  | .Int64, .int v => .ok (outSigned b 64 v ++ "i64".toList, b)
  | .UInt64, .int v => .ok (outUnsigned b v.toNat ++ "u64".toList, b)
  | .Float32, .float x => .ok (e.float32 x ++ "f32".toList, b)
  | .Float64, .float x => .ok (e.float64 x ++ "f64".toList, b)
  | .Duration, .int v => .ok ('"' :: (e.duration v ++ ['"']), b)
  | .DateTime, .int v => .ok ('"' :: (e.dateTime v ++ ['"']), b)
  | .String8, .str (some s) => .ok ('"' :: (s.map Char.ofNat ++ ['"']), b)
  | _, _ => .ub

/-! ### Enumerations -/

/-- An enumeration: its name, and its values with their texts, in the order of the code.
(StreamOperators.cpp:33-177.) -/
structure Enum where
  name : String
  names : List (String × String)

/-- The seven enumerations (StreamOperators.cpp:33-177). The numbers of their values are in headers
that are not part of the repository. -/
def enums : List Enum :=
  [⟨"::Smp::Publication::ParameterDirectionKind",
   [("PDK_In", "In"), ("PDK_Out", "Out"), ("PDK_InOut", "InOut"), ("PDK_Return", "Return")]⟩,
   ⟨"::Smp::Services::TimeKind",
   [("TK_SimulationTime", "SimulationTime"), ("TK_MissionTime", "MissionTime"),
    ("TK_EpochTime", "EpochTime"), ("TK_ZuluTime", "ZuluTime")]⟩,
   ⟨"::Smp::ComponentStateKind",
   [("CSK_Created", "Created"), ("CSK_Publishing", "Publishing"),
    ("CSK_Configured", "Configured"), ("CSK_Connected", "Connected"),
    ("CSK_Disconnected", "Disconnected")]⟩,
   ⟨"::Smp::SimulatorStateKind",
   [("SSK_Building", "Building"), ("SSK_Connecting", "Connecting"),
    ("SSK_Initialising", "Initialising"), ("SSK_Standby", "Standby"),
    ("SSK_Executing", "Executing"), ("SSK_Storing", "Storing"), ("SSK_Restoring", "Restoring"),
    ("SSK_Reconnecting", "Reconnecting"), ("SSK_Exiting", "Exiting"),
    ("SSK_Aborting", "Aborting")]⟩,
   ⟨"::Smp::ViewKind",
   [("VK_None", "None"), ("VK_Debug", "Debug"), ("VK_Expert", "Expert"), ("VK_All", "All")]⟩,
   ⟨"::Smp::AccessKind",
   [("AK_ReadOnly", "ReadOnly"), ("AK_ReadWrite", "ReadWrite"), ("AK_WriteOnly", "WriteOnly")]⟩,
   ⟨"::Smp::PrimitiveTypeKind",
   [("PTK_None", "None"), ("PTK_Char8", "Char8"), ("PTK_Bool", "Bool"), ("PTK_Int8", "Int8"),
    ("PTK_UInt8", "UInt8"), ("PTK_Int16", "Int16"), ("PTK_UInt16", "UInt16"),
    ("PTK_Int32", "Int32"), ("PTK_UInt32", "UInt32"), ("PTK_Int64", "Int64"),
    ("PTK_UInt64", "UInt64"), ("PTK_Float32", "Float32"), ("PTK_Float64", "Float64"),
    ("PTK_Duration", "Duration"), ("PTK_DateTime", "DateTime"), ("PTK_String8", "String8")]⟩]

/-- A value of an enumeration: one of its values, by position, or another number.
(StreamOperators.cpp:33-177.) -/
inductive EVal
  | known (i : Nat)
  | other (n : Int)
deriving DecidableEq, Repr

/-- The text before other numbers (StreamOperators.cpp:44, 62, …). -/
def unknown (e : Enum) : Str := "Unknown ".toList ++ (e.name.toList ++ ['('])

/-- The text of a value (StreamOperators.cpp:35-43, …). -/
def Enum.nameOf (e : Enum) (i : Nat) : Str := ((e.names[i]?.getD ("", "")).2).toList

/-- The stream operator of an enumeration, on a stream in base ten
(StreamOperators.cpp:33-46, 51-64, …). -/
def Enum.print (e : Enum) : EVal → Str
  | .known i => e.nameOf i
  | .other n => unknown e ++ (outSigned .dec 32 n ++ [')'])

end Verif.Any.Print
