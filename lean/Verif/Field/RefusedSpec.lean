import Verif.Field.NetProps

/-! Specification for C144: the order in which a write gets to the connected fields, and what a
write refused on the way leaves. -/
namespace Verif.Field
open Verif.Any (Kind Fl Val Any Out ITy)

mutual

/-- `Visits n i l`: a write of field `i` gets to the fields `l`, in this order, each before the
fields connected to it. A forced field is passed over, with all that is connected to it. A field
may be met several times, through several connections. (What Field.h:516-529 and Field.cpp:359-363
are meant to do when no field refuses the value.) -/
inductive Visits (n : Net) : Nat → List Nat → Prop
  | held {i : Nat} (h : (n i).held = true) : Visits n i []
  | last {i : Nat} (h : (n i).held = false) (hc : (n i).connectable = false) : Visits n i [i]
  | push {i : Nat} {l : List Nat} (h : (n i).held = false) (hc : (n i).connectable = true)
      (hl : VisitsAll n (n i).targets l) : Visits n i (i :: l)

/-- The same for several fields one after the other (Field.cpp:360-362). -/
inductive VisitsAll (n : Net) : List Nat → List Nat → Prop
  | nil : VisitsAll n [] []
  | cons {t : Nat} {ts l ls : List Nat} (h : Visits n t l) (hs : VisitsAll n ts ls) :
      VisitsAll n (t :: ts) (l ++ ls)

end

/-- The fields of `l` that come before the first one refusing `v`; the enumeration fields refuse
what is not one of their literals. -/
def Before (n : Net) (v : Val) (l : List Nat) : List Nat := l.takeWhile fun j => (n j).accepts v

/-- `m` is `n` with `v` in exactly the fields of `l`: types, flags and connections are those of
`n` everywhere. -/
def Written (n : Net) (v : Val) (l : List Nat) (m : Net) : Prop :=
  Painted n v (fun j => j ∈ l) m

/-- The call ends with an exception, leaving `m`, whenever there is enough stack. -/
def Raises (r : Nat → Res) (m : Net) : Prop := ∃ F, ∀ f, F ≤ f → r f = .raised m

end Verif.Field
