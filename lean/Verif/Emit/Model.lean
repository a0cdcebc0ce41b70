import Verif.Any.Model
import Verif.Text.FixedString

/-!
Model of the arguments of events: `EventSource<T>::Emit` (`include/Xsmp/EventSource.h:105-108`),
`AnySimpleConverter` (`include/Xsmp/AnySimpleConverter.h`), `AbstractEventSource::DoEmit`
(`src/Xsmp/EventSource.cpp:80-85`) and `EventSink<T>::Notify` (`include/Xsmp/EventSink.h:103-105`,
`src/Xsmp/EventSink.cpp:60-66`).

The C++ type of a source or a sink is chosen apart from the kind it declares: only the kinds are
compared by `Subscribe`. Which sinks are notified in which order, with sinks that subscribe and
unsubscribe during an emission, is in Tree/Emit.lean; here the sinks are those of `_event_sinks`, in
their order.
-/
namespace Verif.Emit
open Verif.Any (ITy Kind Fl Val Any Out Arg)
open Verif.Text (Buf cstr copyString)

/-- The C++ types for which there is an `AnySimpleConverter` (AnySimpleConverter.h:27-76). `buffer n`
is a structure with an `internalString` or a `std::array` of `n + 1` characters. -/
inductive CTy
  | bool
  | char
  | int (t : ITy)
  /-- an enumeration with that underlying type -/
  | enum (u : ITy)
  | f32
  | f64
  | string
  | buffer (n : Nat)
  deriving DecidableEq, Repr

/-- A value with its C++ type. (The argument of `Emit` and of the callbacks, EventSource.h,
EventSink.h:103-105.) -/
inductive TVal
  | bool (b : Bool)
  | char (c : Nat)
  | int (t : ITy) (v : Int)
  | enum (u : ITy) (v : Int)
  | f32 (x : Fl)
  | f64 (x : Fl)
  /-- a `String8`: the characters before the NUL, or a null pointer -/
  | string (s : Option (List Nat))
  /-- the bytes of the array -/
  | buffer (n : Nat) (b : Buf)
  deriving DecidableEq

/-- `AnySimple{kind, value}` (AnySimple.h, the constructors call `SetValue`, AnySimple.cpp:110-638)
of a new object. -/
def make (narrow : Fl → Fl) (k : Kind) (arg : Arg) : Out Any :=
  (Verif.Any.newValue narrow k arg).map fun v => ⟨k, v⟩

/-- `AnySimpleConverter<T>::convert(kind, value)` (AnySimpleConverter.h:31-34, 43-46, 58-61, 72-75).
A character array without NUL is read past its end. -/
def toAny (narrow : Fl → Fl) (k : Kind) : TVal → Out Any
  | .bool b => make narrow k (.bool b)
  | .char c => make narrow k (.char c)
  | .int t v => make narrow k (.int t v)
  | .enum u v => make narrow k (.int u v)
  | .f32 x => make narrow k (.f32 x)
  | .f64 x => make narrow k (.f64 x)
  | .string s => make narrow k (.str s)
  | .buffer _ b => match cstr b with
    | none => .ub
    | some s => make narrow k (.str (some s))

/-- `CopyString` (Helper.cpp:453-464) of a string that was read, to a new array (`g` is what is in
memory there). -/
def readBuffer (n : Nat) (g : Buf) (s : Option (List Nat)) : Out TVal :=
  match copyString g n (s.map (· ++ [0])) with
  | none => .ub
  | some b => .ok (.buffer n b)

/-- `AnySimpleConverter<T>::convert(value)` (AnySimpleConverter.h:28-30, 40-42, 52-57, 67-71). `g`
gives what is in memory where a new array is. -/
def ofAny (narrow : Fl → Fl) (g : Nat → Buf) (a : Any) : CTy → Out TVal
  | .bool => (Verif.Any.getBool a).map .bool
  | .char => (Verif.Any.getChar a).map .char
  | .int t => (Verif.Any.getInt t a).map (.int t)
  | .enum u => (Verif.Any.getInt u a).map (.enum u)
  | .f32 => (Verif.Any.getF32 narrow a).map .f32
  | .f64 => (Verif.Any.getF64 a).map .f64
  | .string => (Verif.Any.getString a).map .string
  | .buffer n => match Verif.Any.getString a with
    | .ok s => readBuffer n (g n) s
    | .throw => .throw
    | .ub => .ub

/-- An event sink: `EventSink<T>` or, with `none`, `EventSink<void>`; the kind it declares;
whether its callback raises. (EventSink.h:77-115, EventSink.cpp:46-66.) -/
structure Sink where
  ty : Option CTy
  kind : Kind
  raises : Bool

/-- What the callback gets: nothing (`EventSink<void>`) or a value. (EventSink.h:103-105,
EventSink.cpp:60-66.) -/
abbrev Given := Option TVal

/-- `Notify` up to the callback (EventSink.h:103-105, EventSink.cpp:60-66). `EventSink<void>` declares
the kind `None` (EventSink.cpp:46-48). -/
def notify (narrow : Fl → Fl) (g : Nat → Buf) (s : Sink) (a : Any) : Out Given :=
  match s.ty with
  | none => if a.type ≠ .None then .throw else .ok none
  | some t => (ofAny narrow g a t).map some

/-- `DoEmit` (EventSource.cpp:80-85): what the callbacks get, in order, and how the emission ends.
An exception leaves the loop. -/
def deliver (narrow : Fl → Fl) (g : Nat → Buf) (a : Any) : List Sink → List Given × Out Unit
  | [] => ([], .ok ())
  | s :: ss => match notify narrow g s a with
    | .ok v => if s.raises then ([v], .throw)
        else (v :: (deliver narrow g a ss).1, (deliver narrow g a ss).2)
    | .throw => ([], .throw)
    | .ub => ([], .ub)

/-- `Emit` of a source that declares the kind (EventSource.h:105-108); `none` is `EventSource<void>`
(EventSource.cpp:98-100). -/
def emit (narrow : Fl → Fl) (g : Nat → Buf) (k : Kind) (v : Given) (sinks : List Sink) :
    List Given × Out Unit :=
  match v with
  | none => deliver narrow g (Verif.Any.ofKind .None) sinks
  | some v => match toAny narrow k v with
    | .ok a => deliver narrow g a sinks
    | .throw => ([], .throw)
    | .ub => ([], .ub)

end Verif.Emit
