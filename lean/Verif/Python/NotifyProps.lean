import Verif.Python.Notify
import Verif.Python.ValueProps
import Verif.Emit.Props

/-! Property C149: event sinks called from Python. -/
namespace Verif.Python.Notify
open Verif.Any (Kind Fl Any ITy Val Representable)
open Verif.Text (Buf)
open Verif.Emit (Sink Given CTy TVal Meaning meaning Suits Space Room)
open Verif.Python.Value (Py Res ofPy encode)

/-! ### Specification -/

/-- The sink has a C++ type, and it is the one of the kind it declares. -/
def Typed (s : Sink) (t : CTy) : Prop := s.ty = some t ∧ Suits t s.kind

/-- A sink without argument. -/
def Void (s : Sink) : Prop := s.ty = none ∧ s.kind = .None

/-- What a Python value stands for as an argument of a kind: numbers must be in the range (or be exact in
double precision), a character
is a text of one character of Latin-1, a text has no NUL (and is in UTF-8); a `bool` is also a number,
as in Python. Nothing is made of `None` or of other objects. -/
inductive Says (k : Kind) : Py → Meaning → Prop
  | int {v : Int} : k.isInt → k.Range v → Says k (.int v) (.number v)
  | bool {b : Bool} : k = .Bool → Says k (.bool b) (.bool b)
  | flag {b : Bool} : k.isInt → Says k (.bool b) (.number (if b then 1 else 0))
  | float {x : Fl} : k = .Float64 → Says k (.float x) (.float x)
  | real {v : Int} : k = .Float64 → Representable 53 v → v.natAbs < 2 ^ 1024 →
      Says k (.int v) (.float (.fin v))
  | char {c : Char} : k = .Char8 → c.toNat < 256 → Says k (.str [c]) (.char c.toNat)
  | text {x : List Char} : k = .String8 → Char.ofNat 0 ∉ x → Says k (.str x) (.text (encode x))

/-- The callback is called once, with what `m` stands for, as a value of its type. -/
def Gets (r : Option Given × End) (t : CTy) (m : Meaning) : Prop :=
  ∃ w, r.1 = some (some w) ∧ w.ty = t ∧ meaning w = m

/-! ### Lemmas -/

theorem notify_ok {narrow : Fl → Fl} {g : Nat → Buf} {s : Sink} {p : Py} {a : Any}
    (h : ofPy narrow p s.kind = .ok a) : notify narrow g s p = receive narrow g s a := by
  simp only [notify, h]

/-- A value that suits the type of the sink gets there. -/
theorem receive_suits (narrow : Fl → Fl) {g : Nat → Buf} (hg : Space g) (s : Sink) (t : CTy)
    (h : Typed s t) (v : TVal) (hv : v.Ok) (hs : Suits v.ty s.kind) (hr : Room v t) :
    Gets (receive narrow g s (Verif.Emit.holds s.kind v)) t (meaning v) ∧
    (receive narrow g s (Verif.Emit.holds s.kind v)).2 = if s.raises then .raised else .returns := by
  obtain ⟨w, h1, h2, h3⟩ := Verif.Emit.ofAny_suits narrow hg s.kind v hs hv t h.2 hr
  have e : Verif.Emit.notify narrow g s (Verif.Emit.holds s.kind v) = .ok (some w) := by
    simp only [Verif.Emit.notify, h.1, h1]
    rfl
  unfold receive
  rw [e]
  exact ⟨⟨w, rfl, h2, h3⟩, rfl⟩

/-- An integer gets there, to an integer type or an enumeration of the kind. -/
theorem receive_int (narrow : Fl → Fl) {g : Nat → Buf} (hg : Space g) (s : Sink) (t : CTy)
    (h : Typed s t) (hk : s.kind.isInt) (v : Int) (hv : s.kind.Range v) :
    Gets (receive narrow g s ⟨s.kind, .int v⟩) t (.number v) ∧
    (receive narrow g s ⟨s.kind, .int v⟩).2 = if s.raises then .raised else .returns := by
  obtain ⟨T, hT⟩ := Option.isSome_iff_exists.mp hk
  refine receive_suits narrow hg s t h (.int T v) ((Verif.Any.Kind.range_iff hT v).1 hv) hT ?_
  cases t with
  | buffer n =>
    have : s.kind = .String8 := h.2
    rw [this] at hT
    cases hT
  | _ => trivial

/-! ### C149 -/

/-- C149, part that holds: when the argument stands for something of the kind of the sink (`Says`), and
a character array of the sink has room for it, the callback is called with exactly that, as a value of
its type; the call ends as the callback does. -/
theorem C149_gets_partial (narrow : Fl → Fl) {g : Nat → Buf} (hg : Space g) (s : Sink) (t : CTy)
    (h : Typed s t) (p : Py) (m : Meaning) (hp : Says s.kind p m)
    (hr : ∀ n x, t = .buffer n → m = .text x → x.length ≤ n) :
    Gets (notify narrow g s p) t m ∧
    (notify narrow g s p).2 = if s.raises then .raised else .returns := by
  have plain : ∀ v : TVal, s.kind ≠ .String8 → Room v t := by
    intro v hk
    cases t with
    | buffer n => exact absurd h.2 hk
    | _ => trivial
  cases hp with
  | @int v hk hv =>
    rw [notify_ok ((Value.C118_int narrow s.kind hk v).1 hv).1]
    exact receive_int narrow hg s t h hk v hv
  | @bool b hk =>
    have e := (Value.C118_bool narrow b).1.1
    rw [← hk] at e
    rw [notify_ok e]
    exact receive_suits narrow hg s t h (.bool b) trivial hk (plain _ (by rw [hk]; simp))
  | @flag b hk =>
    rw [notify_ok ((Value.C118_bool narrow b).2 s.kind hk)]
    refine receive_int narrow hg s t h hk _ ?_
    revert hk
    cases s.kind <;> simp [Kind.isInt, Kind.int] <;> cases b <;> simp [Kind.Range]
  | @float x hk =>
    have e := (Value.C118_float64 narrow x).1.1
    rw [← hk] at e
    rw [notify_ok e]
    exact receive_suits narrow hg s t h (.f64 x) trivial hk (plain _ (by rw [hk]; simp))
  | @real v hk h1 h2 =>
    have e := (Value.C118_float64 narrow (.fin v)).2 v h1 h2
    rw [← hk] at e
    rw [notify_ok e]
    exact receive_suits narrow hg s t h (.f64 (.fin v)) trivial hk (plain _ (by rw [hk]; simp))
  | @char c hk hc =>
    have e := ((Value.C118_char narrow [c]).1 c rfl hc).1
    rw [← hk] at e
    rw [notify_ok e]
    exact receive_suits narrow hg s t h (.char c.toNat) trivial hk (plain _ (by rw [hk]; simp))
  | @text x hk hx =>
    have e := (Value.C118_string_partial narrow x hx).1
    rw [← hk] at e
    rw [notify_ok e]
    refine receive_suits narrow hg s t h (.string (some (encode x))) ?_ hk ?_
    · exact fun h0 => hx ((Value.zero_mem_encode x).1 h0)
    · cases t with
      | buffer n => exact ⟨_, rfl, hr n _ rfl rfl⟩
      | _ => trivial

/-- C149, part that holds: for a sink of an integer kind or of characters, an argument that stands for
nothing of that kind (and is not a field) is refused, and the callback is not called. Missing: the
other kinds, see below. -/
theorem C149_refused_partial (narrow : Fl → Fl) (g : Nat → Buf) (s : Sink)
    (hk : s.kind.isInt ∨ s.kind = .Char8) (p : Py) (hp : ∀ m, ¬ Says s.kind p m)
    (hf : ∀ a, p ≠ .field a) : notify narrow g s p = (none, .badArgument) := by
  rcases hk with hk | hk
  · have e := Value.ofPy_intKind narrow s.kind hk p hf
    have hc : ofPy narrow p s.kind = .castError := by
      cases p with
      | int v =>
        exact (Value.C118_int narrow s.kind hk v).2 fun hr => hp _ (.int hk hr)
      | bool b => exact absurd (.flag hk) (hp _)
      | field a => exact absurd rfl (hf a)
      | _ => rw [e]; rfl
    simp only [notify, hc]
  · cases p with
    | str x =>
      have hc : ofPy narrow (.str x) s.kind = .valueError := by
        rw [hk]
        refine (Value.C118_char narrow x).2 ?_
        rintro c rfl
        refine Nat.le_of_not_lt fun hc => hp _ (.char hk hc)
      simp only [notify, hc]
    | field a => exact absurd rfl (hf a)
    | _ =>
      simp only [notify, hk]
      rfl

/-- C149: a sink without argument, called without argument, is called. -/
theorem C149_void (narrow : Fl → Fl) (g : Nat → Buf) (s : Sink) (h : Void s) :
    notifyDefault narrow g s = (some none, if s.raises then .raised else .returns) := by
  simp only [notifyDefault, notify, h.2]
  simp [ofPy, Value.ofValue, receive, Verif.Emit.notify, h.1]

/-- C149: a field as argument. Its value is read and given to the sink; of an integer kind to another
integer kind: as the same number, or refused if it is out of range. -/
theorem C149_field (narrow : Fl → Fl) {g : Nat → Buf} (hg : Space g) (s : Sink) (t : CTy)
    (h : Typed s t) (hk : s.kind.isInt) (k : Kind) (hk' : k.isInt) (v : Int) (hv : k.Range v) :
    (s.kind.Range v → Gets (notify narrow g s (.field ⟨k, .int v⟩)) t (.number v)) ∧
    (¬ s.kind.Range v → notify narrow g s (.field ⟨k, .int v⟩) = (none, .refused)) := by
  have hr := (Value.castType_range k v hk').1 hv
  have hfa : Value.fieldArg ⟨k, .int v⟩ = some (.int (Value.castType k) v) := by
    have := Value.getInt_own k v hk' hv
    cases k <;> simp [Kind.isInt, Kind.int] at hk' <;>
      (unfold Value.fieldArg Value.fieldArg.int; dsimp only; dsimp only [Value.castType] at this ⊢
       rw [this])
  have e : ofPy narrow (.field ⟨k, .int v⟩) s.kind
      = Value.make narrow s.kind (.int (Value.castType k) v) := by
    simp only [ofPy, Value.ofField, hfa]
  obtain ⟨h1, h2⟩ := Value.make_int narrow (Value.castType k) s.kind v hr hk
  constructor
  · intro hs
    rw [notify_ok (e.trans (h1 hs))]
    exact (receive_int narrow hg s t h hk v hs).1
  · intro hs
    simp only [notify, e, h2 hs]

/-- C149: numbers given to a sink whose C++ type is an integer or an enumeration of another size than the
kind it declares: a number that the kind and the type can hold gets there, another one is refused, the
callback is not called and the caller is told. -/
theorem C149_number (narrow : Fl → Fl) (g : Nat → Buf) (s : Sink) (t : CTy) (i : ITy)
    (ht : s.ty = some t) (hi : t.num = some i) (hk : s.kind.isInt) (v : Int) :
    (s.kind.Range v → i.Range v → Gets (notify narrow g s (.int v)) t (.number v) ∧
      (notify narrow g s (.int v)).2 = if s.raises then .raised else .returns) ∧
    (s.kind.Range v → ¬ i.Range v → notify narrow g s (.int v) = (none, .refused)) ∧
    (¬ s.kind.Range v → notify narrow g s (.int v) = (none, .badArgument)) := by
  refine ⟨fun hv hr => ?_, fun hv hr => ?_, fun hv => ?_⟩
  · rw [notify_ok ((Value.C118_int narrow s.kind hk v).1 hv).1]
    obtain ⟨w, h1, h2, h3⟩ := (Verif.Emit.ofAny_num narrow g s.kind hk v hv t i hi).1 hr
    have e : Verif.Emit.notify narrow g s ⟨s.kind, .int v⟩ = .ok (some w) := by
      simp only [Verif.Emit.notify, ht, h1]
      rfl
    unfold receive
    rw [e]
    exact ⟨⟨w, rfl, h2, h3⟩, rfl⟩
  · rw [notify_ok ((Value.C118_int narrow s.kind hk v).1 hv).1]
    have e : Verif.Emit.notify narrow g s ⟨s.kind, .int v⟩ = .throw := by
      simp only [Verif.Emit.notify, ht, (Verif.Emit.ofAny_num narrow g s.kind hk v hv t i hi).2 hr]
      rfl
    unfold receive
    rw [e]
  · simp only [notify, (Value.C118_int narrow s.kind hk v).2 hv]

/-! ### What fails -/

/-- C149 in full is false: a sink without argument takes every argument that is not a field, and drops
it: the caller is not told of the mistake. (A field is refused, unless it has no value.) -/
theorem C149_ignored_fails (narrow : Fl → Fl) (g : Nat → Buf) (s : Sink) (h : Void s) (p : Py)
    (hf : ∀ a, p ≠ .field a) :
    notify narrow g s p = (some none, if s.raises then .raised else .returns) := by
  have e : ofPy narrow p s.kind = .ok ⟨.None, .none⟩ := by
    rw [h.2]
    cases p with
    | field a => exact absurd rfl (hf a)
    | _ => rfl
  simp [notify, e, receive, Verif.Emit.notify, h.1]

/-- C149 in full is false: a sink of booleans called without its argument (`sink()`) is called, with
false; and any number is a boolean. The sinks of the other types report the missing argument. -/
theorem C149_missing_fails (narrow : Fl → Fl) (g : Nat → Buf) (s : Sink) (t : CTy) (h : Typed s t) :
    (s.kind = .Bool → Gets (notifyDefault narrow g s) t (.bool false) ∧
      Gets (notify narrow g s (.int 2)) t (.bool true)) ∧
    (s.kind ≠ .Bool → notifyDefault narrow g s = (none, .badArgument)) := by
  have hb : s.kind = .Bool → t = .bool := by
    intro hk
    have := h.2
    rw [hk] at this
    cases t with
    | bool => rfl
    | int i => cases i <;> cases this
    | enum i => cases i <;> cases this
    | _ => cases this
  refine ⟨fun hk => ?_, fun hk => ?_⟩
  · have ht := hb hk
    subst ht
    have one : ∀ p b, ofPy narrow p s.kind = .ok ⟨.Bool, .bool b⟩ →
        Gets (notify narrow g s p) .bool (.bool b) := by
      intro p b e
      refine ⟨.bool b, ?_, rfl, rfl⟩
      rw [notify_ok e]
      simp only [receive, Verif.Emit.notify, h.1]
      rfl
    exact ⟨one _ _ (by rw [hk]; rfl), one _ _ (by rw [hk]; rfl)⟩
  · simp only [notifyDefault, notify]
    have hn : s.kind ≠ .None := by
      intro hn
      have := h.2
      rw [hn] at this
      cases t with
      | int i => cases i <;> cases this
      | enum i => cases i <;> cases this
      | _ => cases this
    cases hkk : s.kind <;> first | exact absurd hkk hk | exact absurd hkk hn | rfl

/-- C149 in full is false: a text with a NUL reaches a sink cut there. -/
theorem C149_nul_fails (narrow : Fl → Fl) (g : Nat → Buf) :
    Gets (notify narrow g ⟨some .string, .String8, false⟩ (.str ['a', Char.ofNat 0, 'b'])) .string
      (.text [97]) :=
  ⟨.string (some [97]), by
    rw [notify_ok (Value.C118_nul_fails narrow).1]
    rfl, rfl, rfl⟩

/-! ### Cases -/

/-- `C149_gets_partial`: an enumeration of 16 bits gets -5, and its callback raises. -/
example : Typed ⟨some (.enum .i16), .Int16, true⟩ (.enum .i16) ∧
    Says .Int16 (.int (-5)) (.number (-5)) := ⟨⟨rfl, rfl⟩, .int rfl (by simp [Kind.Range])⟩

/-- `C149_gets_partial`: a character array with room. -/
example : Typed ⟨some (.buffer 3), .String8, false⟩ (.buffer 3) ∧
    Says .String8 (.str ['a', 'b']) (.text (encode ['a', 'b'])) ∧ (encode ['a', 'b']).length ≤ 3 :=
  ⟨⟨rfl, rfl⟩, .text rfl (by decide), by decide +kernel⟩

/-- `C149_refused_partial`: out of range, a text, a missing argument. -/
example : (∀ m, ¬ Says .UInt8 (.int 256) m) ∧ (∀ m, ¬ Says .UInt8 (.str ['1']) m) ∧
    (∀ m, ¬ Says .UInt8 .none m) ∧ (∀ m, ¬ Says .Char8 (.str ['a', 'b']) m) := by
  refine ⟨fun m h => ?_, fun m h => ?_, fun m h => ?_, fun m h => ?_⟩
  · cases h with
    | int _ hr => simp [Kind.Range] at hr
    | real hk => cases hk
  · cases h with
    | char hk => cases hk
    | text hk => cases hk
  · cases h
  · cases h with
    | text hk => cases hk

/-- `C149_void`, `C149_ignored_fails`. -/
example : Void ⟨none, .None, false⟩ := ⟨rfl, rfl⟩

/-- `C149_field`: a `UInt8` given to a sink of `Int16`, an `Int32` that is too large. -/
example : Typed ⟨some (.int .i16), .Int16, false⟩ (.int .i16) ∧ Kind.Int16.isInt ∧ Kind.UInt8.Range 200 ∧
    Kind.Int16.Range 200 ∧ Kind.Int32.Range 40000 ∧ ¬ Kind.Int16.Range 40000 :=
  ⟨⟨rfl, rfl⟩, rfl, by simp [Kind.Range], by simp [Kind.Range], by simp [Kind.Range],
    by simp [Kind.Range]⟩

/-- `C149_number`: a sink of 8 bits that declares 16 bits. -/
example : CTy.num (.int .u8) = some .u8 ∧ Kind.Int16.isInt ∧ Kind.Int16.Range 300 ∧ ¬ ITy.u8.Range 300 :=
  ⟨rfl, rfl, by simp [Kind.Range], by simp [ITy.Range, ITy.kind, Kind.Range]⟩

end Verif.Python.Notify
