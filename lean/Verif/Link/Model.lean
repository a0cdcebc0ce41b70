import Verif.Base.Assoc

/-
Model of the link registry `src/Xsmp/Services/XsmpLinkRegistry.{h,cpp}` and of the part
of `include/Xsmp/Collection.h` it uses.

Components are numbers; `Env` gives what the registry asks them: their name
(`IObject::GetName`), whether they implement `ILinkingComponent`, and what the registry
calls made by their `RemoveLinks` are. Simplifications: the locks of `ThreadSafeData`
are left out (calls are atomic); names are compared as numbers.
-/
namespace Verif.Link

/-- A component. (Its address, XsmpLinkRegistry.cpp:24-40.) -/
abbrev Comp := Nat

/-- What the registry asks components. (XsmpLinkRegistry.cpp:93-120.) -/
structure Env where
  /-- `IObject::GetName` -/
  name : Comp → Nat
  /-- `dynamic_cast<ILinkingComponent *>` succeeds -/
  linking : Comp → Bool

/-- `_links` and `_targets` (XsmpLinkRegistry.h:126-133). The count is a `UInt32`. -/
structure Reg where
  links : Assoc (Comp × Comp) Nat
  targets : Assoc Comp (List Comp)
  deriving DecidableEq, Repr

/-- The registry before the first call. (XsmpLinkRegistry.h:126-133.) -/
def init : Reg := ⟨[], []⟩

/-- `::Smp::UInt32` arithmetic. (XsmpLinkRegistry.h:126-133.) -/
def u32 (n : Int) : Nat := (n % 4294967296).toNat

/-- Results of the calls. Of the model only (what XsmpLinkRegistry.cpp:24-120 returns). -/
inductive Res
  | done
  | count (n : Nat)
  | bool (b : Bool)
  | sources (l : List Comp)
  /-- `DuplicateName` thrown by the collection -/
  | duplicateName
  deriving DecidableEq, Repr

/-- `Collection::Add` without duplicates (Collection.h:83-104): `none` is `DuplicateName`. -/
def collAdd (env : Env) (l : List Comp) (c : Comp) : Option (List Comp) :=
  if l.any (fun d => env.name d == env.name c) then none else some (l ++ [c])

/-- `Collection::Remove` (Collection.h:108-123): the first occurrence. -/
def collRemove (l : List Comp) (c : Comp) : List Comp := l.erase c

/-- The collection of a target, empty if there is none yet. (XsmpLinkRegistry.cpp:24-40.) -/
def Reg.of (r : Reg) (t : Comp) : List Comp := (r.targets.find t).getD []

/-- `AddLink` (XsmpLinkRegistry.cpp:24-40). The count is stored before the collection may
throw. -/
def addLink (env : Env) (r : Reg) (s t : Comp) : Reg × Res :=
  match r.links.find (s, t) with
  | some n => ({ r with links := r.links.set (s, t) (u32 (n + 1)) }, .done)
  | none =>
    let links := r.links.set (s, t) 1
    let targets := r.targets.tryEmplace t []
    match collAdd env ((targets.find t).getD []) s with
    | none => (⟨links, targets⟩, .duplicateName)
    | some l => (⟨links, targets.set t l⟩, .done)

/-- `GetLinkCount` (XsmpLinkRegistry.cpp:42-51). -/
def getLinkCount (r : Reg) (s t : Comp) : Nat := (r.links.find (s, t)).getD 0

/-- `RemoveLink` (XsmpLinkRegistry.cpp:53-73). -/
def removeLink (r : Reg) (s t : Comp) : Reg × Res :=
  match r.links.find (s, t) with
  | none => (r, .bool false)
  | some n =>
    let n' := u32 (n - 1)
    if n' = 0 then
      match r.targets.find t with
      | none => ({ r with links := r.links.erase (s, t) }, .bool true)
      | some l =>
        (⟨r.links.erase (s, t), r.targets.set t (collRemove l s)⟩, .bool true)
    else ({ r with links := r.links.set (s, t) n' }, .bool true)

/-- `GetLinkSources` (XsmpLinkRegistry.cpp:75-91). -/
def getLinkSources (r : Reg) (t : Comp) : Reg × Res :=
  ({ r with targets := r.targets.tryEmplace t [] }, .sources (r.of t))

/-- `CanRemove` (XsmpLinkRegistry.cpp:93-106). -/
def canRemove (env : Env) (r : Reg) (t : Comp) : Bool := (r.of t).all env.linking

/-- The loop of `RemoveLinks` (XsmpLinkRegistry.cpp:108-120) from index `i`. `begin()` and
`end()` are evaluated once, the iterators are indices into the collection
(Collection.h:69-79), dereferencing reads the element now at that index and a null
pointer, which is skipped, if there is none. `act c r` is what the call
`c->RemoveLinks(target)` does to the registry. Returns the components asked. -/
def removeLoop (env : Env) (act : Comp → Reg → Reg) (t : Comp) : Nat → Nat → Reg → Reg × List Comp
  | 0, _, r => (r, [])
  | fuel + 1, i, r =>
    match (r.of t)[i]? with
    | none => removeLoop env act t fuel (i + 1) r
    | some c =>
      if env.linking c then
        let (r', asked) := removeLoop env act t fuel (i + 1) (act c r)
        (r', c :: asked)
      else removeLoop env act t fuel (i + 1) r

/-- `RemoveLinks` (XsmpLinkRegistry.cpp:108-120). -/
def removeLinks (env : Env) (act : Comp → Reg → Reg) (r : Reg) (t : Comp) : Reg × List Comp :=
  removeLoop env act t (r.of t).length 0 r

/-- Calls that change or read the registry. (XsmpLinkRegistry.cpp:24-120.) -/
inductive Op
  | add (s t : Comp)
  | remove (s t : Comp)
  | sources (t : Comp)
  deriving DecidableEq, Repr

/-- One call (XsmpLinkRegistry.cpp:24-120). -/
def apply (env : Env) (r : Reg) : Op → Reg × Res
  | .add s t => addLink env r s t
  | .remove s t => removeLink r s t
  | .sources t => getLinkSources r t

/-- A history of calls: the registry and the results, newest first. Of the model only (sequences
of the calls of XsmpLinkRegistry.cpp:24-120). -/
def run (env : Env) : List Op → Reg × List (Op × Res)
  | [] => (init, [])
  | o :: h =>
    let (r, l) := run env h
    let (r', x) := apply env r o
    (r', (o, x) :: l)

end Verif.Link
