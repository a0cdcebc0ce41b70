import Verif.Link.Model

/-!
Model of the link registry used by several threads (`src/Xsmp/Services/XsmpLinkRegistry.cpp:24-91`).
A call is cut where it gives back its locks: `AddLink` keeps `_links` locked while it changes
`_targets`, so that it is one step; `RemoveLink` unlocks `_links` before it locks `_targets`
(lines 65-66), `GetLinkSources` unlocks `_targets` before it locks it again (lines 85-87).

Simplified: the part of a call between locking and unlocking is one step (what it accesses is
locked from its first to its last access, see `Conc/Lock.lean`). The collection `GetLinkSources`
returns is read by the caller without lock; such reads are not modelled.
-/
namespace Verif.Link

/-- Where a thread is between two locked parts of a call. -/
inductive Pc
  /-- in `RemoveLink`, before `_targets.write()` (XsmpLinkRegistry.cpp:66) -/
  | removing (s t : Comp)
  /-- in `GetLinkSources`, before `_targets.write()` (XsmpLinkRegistry.cpp:87) -/
  | creating (t : Comp)
  deriving DecidableEq, Repr

/-- The registry, the threads in the middle of a call, and the results of `AddLink` and `RemoveLink`,
newest first (XsmpLinkRegistry.h:126-133). -/
structure Sys where
  reg : Reg
  busy : Assoc Nat Pc
  results : List (Op × Res)
  deriving DecidableEq, Repr

/-- Before the first call. (XsmpLinkRegistry.h:126-133.) -/
def Sys.init : Sys := ⟨Link.init, [], []⟩

/-- What a thread does next. Of the model only (the locked parts of XsmpLinkRegistry.cpp:24-91).
-/
inductive Act
  /-- it calls the registry -/
  | call (th : Nat) (o : Op)
  /-- it goes on with its call -/
  | resume (th : Nat)
  deriving DecidableEq, Repr

/-- The first part of `RemoveLink` (XsmpLinkRegistry.cpp:55-65), and whether there is a second
one. -/
def removeFirst (r : Reg) (s t : Comp) : Reg × Res × Bool :=
  match r.links.find (s, t) with
  | none => (r, .bool false, false)
  | some n =>
    let n' := u32 (n - 1)
    if n' = 0 then ({ r with links := r.links.erase (s, t) }, .bool true, true)
    else ({ r with links := r.links.set (s, t) n' }, .bool true, false)

/-- The second part of `RemoveLink` (XsmpLinkRegistry.cpp:66-70). -/
def removeSecond (r : Reg) (s t : Comp) : Reg :=
  match r.targets.find t with
  | none => r
  | some l => { r with targets := r.targets.set t (collRemove l s) }

/-- One step of the system. A thread makes one call at a time. (XsmpLinkRegistry.cpp:24-91.) -/
def Sys.step (env : Env) (y : Sys) : Act → Sys
  | .call th o =>
    match y.busy.find th with
    | some _ => y
    | none =>
      match o with
      | .add s t =>
        let (r, x) := addLink env y.reg s t
        ⟨r, y.busy, (o, x) :: y.results⟩
      | .remove s t =>
        let (r, x, more) := removeFirst y.reg s t
        ⟨r, if more then y.busy.set th (.removing s t) else y.busy, (o, x) :: y.results⟩
      | .sources t =>
        match y.reg.targets.find t with
        | some _ => y
        | none => { y with busy := y.busy.set th (.creating t) }
  | .resume th =>
    match y.busy.find th with
    | none => y
    | some (.removing s t) => { y with reg := removeSecond y.reg s t, busy := y.busy.erase th }
    | some (.creating t) =>
      { y with reg := { y.reg with targets := y.reg.targets.tryEmplace t [] },
               busy := y.busy.erase th }

/-- An interleaving. Of the model only (interleavings of XsmpLinkRegistry.cpp:24-91). -/
def Sys.run (env : Env) (y : Sys) (as : List Act) : Sys := as.foldl (Sys.step env) y

end Verif.Link
