/-!
Model of `Container<T>::DeleteComponent` (Container.h:294-301, Container.cpp:189-198), of
`AddComponent` (Container.h:275-283, Container.cpp:181-188) and of the destructor of a container
(Container.h:227-233) when the components that are disconnected and destroyed change the container
again: `DeleteComponent` looks up an iterator of the vector, calls the component's `Disconnect` and
destructor, and then erases at that iterator.

An iterator of a `std::vector` is invalidated by `erase` at or before its position and by
`emplace_back` when the vector has to grow; using it then is undefined. So is calling a component
that has been destroyed, and destroying one that is being destroyed. An exception that leaves a
destructor ends the program.

Components have numbers; those that hooks create get increasing ones. What the hook of a component
does is any function of the state it finds. Simplified: a hook gets the components it deletes by
their name from the container (`GetComponent`, Container.h:241-248), and deletes nothing if there is
none; one container; the vector's growth is the usual doubling.
-/
namespace Verif.Tree.Reent

/-- What a hook does to the container; an exception may be caught. `add refused`: `AddComponent` of a
new component, whose name is taken if `refused` (Container.h:275-301). -/
inductive Op
  | add (refused caught : Bool)
  | del (x : Nat) (caught : Bool)
  deriving DecidableEq

/-- Is an exception of this call caught? Of the model only (inputs of Container.h:275-301). -/
def Op.caught : Op → Bool
  | .add _ k => k
  | .del _ k => k

/-- The hooks: `DoDisconnect` (called by Container.cpp:195) and the destructor (Container.cpp:197). -/
inductive Kind
  | disconnect
  | destroy
  deriving DecidableEq

/-- The container and its components: the vector with its capacity, the iterators that running calls
of `DeleteComponent` hold, innermost first (`none`: invalidated), the connected components, those
whose destructor has begun, those destroyed (oldest first), the number of the next new component
(Container.h:294-301, 469). -/
structure St where
  vec : List Nat
  cap : Nat
  its : List (Option Nat)
  conn : Nat → Bool
  dying : List Nat
  gone : List Nat
  next : Nat

/-- How a call ends. `deep`: the model's bound on nesting is reached. Of the model only
(Container.h:275-301). -/
inductive Res
  | ok
  | thrown
  | undefined
  | terminated
  | deep
  deriving DecidableEq

/-- The limits of the container after the conversion to `size_t` (Container.cpp:182-183, 190-191) and
what hooks do. -/
structure Env where
  lower : Nat
  upper : Nat
  hook : Kind → Nat → St → List Op

/-- `std::vector::erase` at position `j`: the iterators at and behind it are invalidated
(Container.h:297). -/
def St.erase (s : St) (j : Nat) : St :=
  { s with vec := s.vec.eraseIdx j,
           its := s.its.map fun i => i.bind fun k => if k < j then some k else none }

/-- `std::vector::emplace_back`: growing invalidates all iterators (Container.h:279). -/
def St.push (s : St) (x : Nat) : St :=
  if s.vec.length < s.cap then { s with vec := s.vec ++ [x] }
  else { s with vec := s.vec ++ [x], cap := max 1 (2 * s.cap), its := s.its.map fun _ => none }

/-- Does a search by name call a component that does not exist any more (Container.h:373-378)? -/
def St.dangling (s : St) : Bool := s.vec.any fun x => decide (x ∈ s.gone)

/-- `AddComponent` of a new component (Container.h:275-283, Container.cpp:181-188): `ContainerFull`,
the search for the name in the container, then the insertion. -/
def add (e : Env) (refused : Bool) (s : St) : St × Res :=
  if e.upper ≤ s.vec.length then ({ s with next := s.next + 1 }, .thrown)
  else if s.dangling then (s, .undefined)
  else if refused then ({ s with next := s.next + 1 }, .thrown)
  else ({ s.push s.next with next := s.next + 1 }, .ok)

mutual
/-- `GetComponent` by name, and `DeleteComponent` of what it gives (Container.h:241-248, 294-301,
Container.cpp:189-198). -/
def del (e : Env) : Nat → Nat → St → St × Res
  | 0, _, s => (s, .deep)
  | f + 1, c, s =>
    if s.dangling then (s, .undefined)
    else if c ∈ s.vec then
      if s.vec.length ≤ e.lower then (s, .thrown)
      else
        match disconnect e f c { s with its := some (s.vec.idxOf c) :: s.its } with
        | (s, .ok) =>
          match destroy e f c s with
          | (s, .ok) =>
            match s.its with
            | some j :: its => (({ s with its := its } : St).erase j, .ok)
            | _ => (s, .undefined)
          | r => r
        | (s, .thrown) => ({ s with its := s.its.tail }, .thrown)
        | r => r
    else (s, .ok)

/-- `Disconnect` of a connected component (Container.cpp:194-196): generated code executes the hook
before `Component::Disconnect`, which changes the state (ModelWithOperationsGen.cpp:207-215,
Component.cpp:91-99). -/
def disconnect (e : Env) : Nat → Nat → St → St × Res
  | 0, _, s => (s, .deep)
  | f + 1, c, s =>
    if s.conn c then
      match run e f (e.hook .disconnect c s) s with
      | (s, .ok) =>
        if c ∈ s.gone then (s, .undefined)
        else if s.conn c then ({ s with conn := fun x => if x = c then false else s.conn x }, .ok)
        else (s, .thrown)
      | r => r
    else (s, .ok)

/-- `delete component` (Container.cpp:197, Container.h:230). -/
def destroy (e : Env) : Nat → Nat → St → St × Res
  | 0, _, s => (s, .deep)
  | f + 1, c, s =>
    if c ∈ s.dying then (s, .undefined)
    else
      match run e f (e.hook .destroy c { s with dying := c :: s.dying })
          { s with dying := c :: s.dying } with
      | (s, .ok) => ({ s with gone := s.gone ++ [c] }, .ok)
      | (s, .thrown) => (s, .terminated)
      | r => r

/-- What a hook does, call by call (inputs of Container.h:275-301). -/
def run (e : Env) : Nat → List Op → St → St × Res
  | 0, _, s => (s, .deep)
  | _ + 1, [], s => (s, .ok)
  | f + 1, o :: os, s =>
    match (match o with
      | .add refused _ => add e refused s
      | .del x _ => del e f x s) with
    | (s, .ok) => run e f os s
    | (s, .thrown) => if o.caught then run e f os s else (s, .thrown)
    | r => r
end

/-- `~Container` (Container.h:227-233): destroys the last component and removes what is then the
last, until nothing is left. -/
def clear (e : Env) : Nat → St → St × Res
  | 0, s => (s, .deep)
  | f + 1, s =>
    match s.vec.getLast? with
    | none => (s, .ok)
    | some c =>
      match destroy e f c s with
      | (s, .ok) =>
        if s.vec = [] then (s, .undefined)
        else clear e f (s.erase (s.vec.length - 1))
      | r => r

end Verif.Tree.Reent
