import Verif.Tree.Life

/-!
Model of the life cycle operations of a component whose classes are generated one on top of the other,
with hooks that may call the life cycle operations of their own component again.

Sources: `src/Xsmp/Component.cpp:58-99`, `include/Xsmp/ComponentHelper.h:28-141`,
`src-gen/Xsmp/Services/XsmpSchedulerGen.cpp:47-82` (the same in every generated class; the class on
top of another one calls the operation of that one where this one calls that of `Xsmp::Service`).

What the hooks do is an input: the calls they make, whether they catch the exceptions of these, and
whether they raise. Hooks that call without end are not represented.
-/
namespace Verif.Tree.Hooks
open Verif.Tree

/-- Observations: the user's hook of class `l` begins, in this state; the base class has made the
change of the state (Component.cpp:70, 79, 87, 96). -/
inductive Ev where
  | ran (l : Nat) (c : LCall) (st : LState)
  | moved (c : LCall)
  deriving DecidableEq, Repr

/-- A component: its state and the observations, oldest first. Of the model only
(Component.cpp:58-99). -/
structure Comp where
  state : LState
  log : List Ev
  deriving DecidableEq, Repr

/-- The state after the operation (Component.cpp:70, 79, 87, 96). -/
def after : LCall → LState
  | .publish => .publishing
  | .configure => .configured
  | .connect => .connected
  | .disconnect => .disconnected

/-- `Component::Publish`, `Configure`, `Connect`, `Disconnect` (Component.cpp:58-99); `arg` is false
when the receiver is null. -/
def Comp.base (s : Comp) (c : LCall) (arg : Bool) : Comp × LOut :=
  if s.state ≠ c.needs then (s, .invalidState)
  else if c = .publish ∧ arg = false then (s, .nullPointer)
  else (⟨after c, s.log ++ [.moved c]⟩, .ok)

/-- The class whose hook the helper of class `i - 1` finds, if any: `&T::DoPublish` is looked up in
the class `T` and then in the classes it is derived from (ComponentHelper.h:118-141). `own l c`: class
`l` declares the hook; class 0 is derived from the library only. -/
def seen (own : Nat → LCall → Bool) (c : LCall) : Nat → Option Nat
  | 0 => none
  | i + 1 => if own i c then some i else seen own c i

/-- The hooks executed by one class for one operation: that of `Configure` is called twice
(ComponentHelper.h:28-116, 53 and 58). -/
def atLevel (own : Nat → LCall → Bool) (c : LCall) (i : Nat) : List Nat :=
  match c with
  | .configure => (seen own c (i + 1)).toList ++ (seen own c (i + 1)).toList
  | _ => (seen own c (i + 1)).toList

/-- The hooks executed by one operation of a component of class `n - 1`, in order: those of the
parent class first, for `Disconnect` last (XsmpSchedulerGen.cpp:47-82). -/
def plan (own : Nat → LCall → Bool) (n : Nat) (c : LCall) : List Nat :=
  match c with
  | .disconnect => (List.range n).reverse.flatMap (atLevel own c)
  | _ => (List.range n).flatMap (atLevel own c)

mutual
/-- What a hook calls on its own component, one after the other: the operation, its argument, whether
an exception is caught, and what the hooks do that it executes. Of the model only (inputs). -/
inductive Acts where
  | nil
  | cons (c : LCall) (arg caught : Bool) (hooks : Behs) (rest : Acts)
/-- What the hooks do that one operation executes, in order: the calls, and whether an exception is
raised at the end. Hooks behind the end of the list do nothing. Of the model only (inputs). -/
inductive Behs where
  | nil
  | cons (calls : Acts) (raises : Bool) (rest : Behs)
end

mutual
/-- The calls, one after the other, up to an exception that is not caught. (Component.cpp:58-99,
XsmpSchedulerGen.cpp:47-82.) -/
def acts (own : Nat → LCall → Bool) (n : Nat) (s : Comp) : Acts → Comp × LOut
  | .nil => (s, .ok)
  | .cons c arg caught hs rest =>
    match c with
    | .disconnect =>
      match hooks own n s .disconnect (plan own n .disconnect) hs with
      | (t, .ok) =>
        if (t.base .disconnect arg).2 = .ok ∨ caught = true then
          acts own n (t.base .disconnect arg).1 rest
        else t.base .disconnect arg
      | (t, o) => if caught then acts own n t rest else (t, o)
    | c =>
      match s.base c arg with
      | (b, .ok) =>
        match hooks own n b c (plan own n c) hs with
        | (t, .ok) => acts own n t rest
        | (t, o) => if caught then acts own n t rest else (t, o)
      | (b, o) => if caught then acts own n b rest else (b, o)
/-- The hooks of one operation, one after the other, up to an exception (ComponentHelper.h:28-116).
-/
def hooks (own : Nat → LCall → Bool) (n : Nat) (s : Comp) (c : LCall) (ls : List Nat) :
    Behs → Comp × LOut
  | .nil => (⟨s.state, s.log ++ ls.map fun l => .ran l c s.state⟩, .ok)
  | .cons calls raises rest =>
    match ls with
    | [] => (s, .ok)
    | l :: ls =>
      match acts own n ⟨s.state, s.log ++ [.ran l c s.state]⟩ calls with
      | (t, .ok) => if raises then (t, .hookRaised) else hooks own n t c ls rest
      | (t, o) => (t, o)
end

/-- A new component (Component.cpp:36-39). -/
def Comp.new : Comp := ⟨.created, []⟩

end Verif.Tree.Hooks
