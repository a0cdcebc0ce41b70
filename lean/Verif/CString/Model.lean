/-
Model of `Xsmp::cstring` (`src/Xsmp/cstring.cpp`, `include/Xsmp/cstring.h`), the holder of the
names and descriptions of all objects.

Memory is a table of allocated blocks with their characters (numbers; the terminating zero
that `copy` writes is not part of the list). Undefined behaviour (a null pointer or a block that
is not allocated read or deleted) is `none`. Simplified: `new` does not fail.
-/
namespace Verif.CString

/-- The characters of a string (cstring.cpp:22-31). -/
abbrev Chars := List Nat

/-- The cstrings that exist, with `_value` (`none` is null), and the allocated blocks.
(cstring.h:44, cstring.cpp:22-27.) -/
structure St where
  objs : Nat → Option (Option Nat)
  heap : Nat → Option Chars
  next : Nat

/-- The cstring `i` becomes another one; of the model only (the assignments of cstring.cpp:33-68).
-/
def St.setObj (s : St) (i : Nat) (o : Option (Option Nat)) : St :=
  { s with objs := fun k => if k = i then o else s.objs k }

/-- The string at a pointer: what is before the first zero (`std::char_traits<char>::length`).
(cstring.cpp:28-30.) -/
def cut (l : Chars) : Chars := l.takeWhile (· ≠ 0)

/-- `delete[]`; null is allowed. (cstring.cpp:46, 53, 58, 64.) -/
def delete (s : St) : Option Nat → Option St
  | none => some s
  | some p => match s.heap p with
    | some _ => some { s with heap := fun q => if q = p then none else s.heap q }
    | none => none

/-- `copy(value, size)` (cstring.cpp:22-27) for the `size` characters at `value`. -/
def copy (s : St) (l : Chars) : St × Nat :=
  ({ s with heap := fun q => if q = s.next then some l else s.heap q, next := s.next + 1 }, s.next)

/-- The characters at a pointer, for `copy(value)` (cstring.cpp:28-30) and `c_str()`. -/
def deref (s : St) : Option Nat → Option Chars
  | none => none
  | some p => (s.heap p).map cut

/-- A `const char *` argument. (cstring.cpp:33-37, 52-56.) -/
inductive Src
  /-- a string of the application -/
  | extern (l : Chars)
  /-- `c_str()` of the cstring `j` -/
  | of (j : Nat)

inductive Op
  /-- `cstring(value, size)` and `cstring(string_view)` (cstring.cpp:33-40): the `size`
  characters may contain zeros -/
  | makeSized (i : Nat) (l : Chars)
  /-- `cstring(value)` (cstring.cpp:36-37) -/
  | make (i : Nat) (src : Src)
  /-- copy constructor (cstring.cpp:42) -/
  | copyMake (i j : Nat)
  /-- move constructor (cstring.cpp:60-62) -/
  | moveMake (i j : Nat)
  /-- copy assignment (cstring.cpp:44-50) -/
  | copyAssign (i j : Nat)
  /-- move assignment (cstring.cpp:63-68) -/
  | moveAssign (i j : Nat)
  /-- assignment of a `const char *` (cstring.cpp:52-56) -/
  | assign (i : Nat) (src : Src)
  /-- destructor (cstring.cpp:58) -/
  | destroy (i : Nat)

/-- The pointer a `const char *` argument is: `none` if the cstring does not exist.
(cstring.cpp:33-37, 52-56.) -/
inductive Arg
  | chars (l : Chars)
  | ptr (p : Option Nat)

/-- The pointer that an argument is (cstring.cpp:33-37, 52-56). -/
def St.arg (s : St) : Src → Option Arg
  | .extern l => some (.chars l)
  | .of j => (s.objs j).map .ptr

/-- What is read at the argument. (cstring.cpp:22-31.) -/
def readArg (s : St) : Arg → Option Chars
  | .chars l => some (cut l)
  | .ptr p => deref s p

/-- Delete the current value, then copy (cstring.cpp:46-47, 53-54). -/
def replace (s : St) (i : Nat) (old : Option Nat) (a : Arg) : Option St :=
  (delete s old).bind fun s => (readArg s a).map fun l =>
    let (s, q) := copy s l
    s.setObj i (some (some q))

/-- A constructor that copies. (cstring.cpp:33-42.) -/
def construct (s : St) (i : Nat) (a : Arg) : Option St :=
  (readArg s a).map fun l =>
    let (s, q) := copy s l
    s.setObj i (some (some q))

/-- One operation. Operations on cstrings that do not exist (or, for constructors, that exist) are
not programs and change nothing. (cstring.cpp:33-68.) -/
def step (s : St) : Op → Option St
  | .makeSized i l => match s.objs i with
    | none => let (s, q) := copy s l; some (s.setObj i (some (some q)))
    | some _ => some s
  | .make i src => match s.objs i, s.arg src with
    | none, some a => construct s i a
    | _, _ => some s
  | .copyMake i j => match s.objs i, s.objs j with
    | none, some p => construct s i (.ptr p)
    | _, _ => some s
  | .moveMake i j => match s.objs i, s.objs j with
    | none, some p => some ((s.setObj i (some p)).setObj j (some none))
    | _, _ => some s
  | .copyAssign i j => match s.objs i, s.objs j with
    | some p, some q => if i = j then some s else replace s i p (.ptr q)
    | _, _ => some s
  | .moveAssign i j => match s.objs i, s.objs j with
    | some p, some q =>
      (delete s p).map fun s => (s.setObj i (some q)).setObj j (some none)
    | _, _ => some s
  | .assign i src => match s.objs i, s.arg src with
    | some p, some a => replace s i p a
    | _, _ => some s
  | .destroy i => match s.objs i with
    | some p => (delete s p).map fun s => s.setObj i none
    | none => some s

/-- A program: operations one after the other (cstring.cpp:33-68). -/
def run (s : St) : List Op → Option St
  | [] => some s
  | o :: os => (step s o).bind (run · os)

/-- No cstring, nothing allocated. (Before cstring.cpp:33.) -/
def init : St := ⟨fun _ => none, fun _ => none, 0⟩

end Verif.CString
