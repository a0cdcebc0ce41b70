import Verif.Path.Model

/-! `Helper::IsAncestor` and `Helper::GetParentOfType` (`src/Xsmp/Helper.cpp:466-478`,
`include/Xsmp/Helper.h:102-128`). -/
namespace Verif.Path.Ancestor

/-- `GetParent` of a pointer that may be null (Helper.cpp:475, Helper.h:110, 123). -/
def up (T : Node) : Option Addr → Option Addr
  | none => none
  | some a => parent T a

/-- The loop of `IsAncestor` (Helper.cpp:471-477), for at most `n` turns. -/
def ancestorLoop (T : Node) (x : Addr) : Nat → Option Addr → Bool
  | _, none => false
  | 0, some _ => false
  | n + 1, some y => if y = x then true else ancestorLoop T x n (up T (some y))

/-- `IsAncestor` (Helper.cpp:466-478). The parent of an object is nearer to the root, so that the loop takes
no more turns than the address is long, and one. -/
def isAncestor (T : Node) (x y : Option Addr) : Bool :=
  match x with
  | none => false
  | some x => ancestorLoop T x ((y.getD []).length + 1) y

/-- The loop of `GetParentOfType` (Helper.h:109-114, 122-127), for at most `n` turns; `ok` is the dynamic
cast. -/
def typeLoop (T : Node) (ok : Kind → Bool) : Nat → Option Addr → Option Addr
  | _, none => none
  | 0, some _ => none
  | n + 1, some y =>
    if (kindAt T y).any ok then some y else typeLoop T ok n (up T (some y))

/-- `GetParentOfType` (Helper.h:102-128); for the turns, see `isAncestor`. -/
def getParentOfType (T : Node) (ok : Kind → Bool) (y : Option Addr) : Option Addr :=
  typeLoop T ok ((y.getD []).length + 1) y

end Verif.Path.Ancestor
