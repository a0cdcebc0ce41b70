import Verif.Sim.Walk

/-!
Model of the visits of the component tree by `Publish`, `Configure`, `Connect`, `Reconnect` and
`Exit` (Simulator.cpp:85-112) when the hooks of the visited components add components to any
container and delete any component.

A range-`for` over a collection compares an index with the size the collection had at the beginning
of the loop (Collection.h:75-79, Container.cpp:59-65) and gets the component by `at(index)`, which
is null behind the last one (Container.h:256-261). The loops are made explicit by a stack of them.

Simplified: the containers of a component are those it has from its construction; `DeleteComponent`
on a connected component calls its `Disconnect` hook, whose changes are listed before the deletion
itself; the state of a component is changed by the visit only.
-/
namespace Verif.Sim.Dyn
open Verif.Tree

/-- The components and containers, by number. `place` is the container a component is in; deleted
components are `dead`. Of the model only (the pointers of Simulator.cpp:85-112, Container.h:469). -/
structure World where
  life : Nat → Life
  conts : Nat → List Nat
  items : Nat → List Nat
  place : Nat → Option Nat
  dead : Nat → Bool

/-- What a hook does to containers (Container.h:275-301). -/
inductive Edit
  | add (k d : Nat)
  | del (k d : Nat)
  deriving DecidableEq

/-- What is observed; `visited` tells that `recursive_action` has been called on the component,
`begun` that the loop over a container has begun with this size. Of the model only
(Simulator.cpp:85-112). -/
inductive Ev
  | visited (c : Nat)
  | called (c : Nat) (l : LCall)
  | begun (k n : Nat)
  | added (k d : Nat)
  deriving DecidableEq

/-- `AddComponent` and `DeleteComponent` (Container.h:275-301). A component that is in a container
already has a name that is taken, and is refused like one that is not in the container when it is
deleted. -/
def World.edit (w : World) : Edit → World × List Ev
  | .add k d =>
    if w.place d = none ∧ w.dead d = false then
      ({ w with items := fun j => if j = k then w.items k ++ [d] else w.items j,
                place := fun e => if e = d then some k else w.place e }, [.added k d])
    else (w, [])
  | .del k d =>
    if w.place d = some k then
      ({ w with items := fun j => if j = k then (w.items k).erase d else w.items j,
                place := fun e => if e = d then none else w.place e,
                dead := fun e => if e = d then true else w.dead e }, [])
    else (w, [])

/-- The loops that are running, innermost first: over the containers of the simulator (`none`) or of
a component, and over the components of a container, at `index` of `size` (Simulator.cpp:93-112). -/
inductive Frame
  | conts (owner : Option Nat) (rest : List Nat)
  | comps (k index size : Nat)
  deriving DecidableEq

/-- How a visit ends before its end. Of the model only (Simulator.cpp:85-112). -/
inductive Stop
  | raised
  | undefined
  deriving DecidableEq

/-- A visit: the calls still to be tried on the component being acted on, the loops, what has
happened (newest first). Of the model only (Simulator.cpp:85-112). -/
structure Visit where
  world : World
  acting : Option (Nat × List LCall)
  stack : List Frame
  log : List Ev
  stop : Option Stop

/-- Several changes, oldest first; what is observed is put in front of the log. Of the model only
(Container.h:275-301). -/
def World.edits (w : World) (log : List Ev) : List Edit → World × List Ev
  | [] => (w, log)
  | e :: es => (w.edit e).1.edits ((w.edit e).2 ++ log) es

/-- The component has another state. Of the model only (Component.cpp:58-99). -/
def World.setLife (w : World) (c : Nat) (l : Life) : World :=
  { w with life := fun d => if d = c then l else w.life d }

/-- Does the visit still use a deleted component? The action is in one of its hooks, or a loop over
its containers is running. (Simulator.cpp:85-112.) -/
def Visit.dangling (s : Visit) : Bool :=
  (match s.acting with
    | some (c, _) => s.world.dead c
    | none => false) ||
  s.stack.any fun
    | .conts (some c) _ => s.world.dead c
    | _ => false

/-- One step of the visit (Simulator.cpp:85-112); `ops`, the calls of the action. A hook makes the
changes `es` and raises if `raises`. -/
def Visit.step (ops : List LCall) (s : Visit) (es : List Edit) (raises : Bool) : Visit :=
  if s.stop.isSome then s
  else if s.dangling then { s with stop := some .undefined }
  else match s.acting with
    | some (c, []) =>
      { s with acting := none, stack := .conts (some c) (s.world.conts c) :: s.stack }
    | some (c, o :: os) =>
      if (s.world.life c).state = o.needs then
        { s with
          world := ((s.world.setLife c ((s.world.life c).call true raises o).1).edits
            (.called c o :: s.log) es).1,
          log := ((s.world.setLife c ((s.world.life c).call true raises o).1).edits
            (.called c o :: s.log) es).2,
          acting := some (c, os),
          stop := if ((s.world.life c).call true raises o).2 = .ok then none else some .raised }
      else { s with acting := some (c, os) }
    | none => match s.stack with
      | [] => s
      | .conts _ [] :: st => { s with stack := st }
      | .conts p (k :: ks) :: st =>
        { s with stack := .comps k 0 (s.world.items k).length :: .conts p ks :: st,
                 log := .begun k (s.world.items k).length :: s.log }
      | .comps k i n :: st =>
        if i = n then { s with stack := st }
        else match (s.world.items k)[i]? with
          | none => { s with stop := some .undefined }
          | some c =>
            { s with stack := .comps k (i + 1) n :: st, acting := some (c, ops),
                     log := .visited c :: s.log }

/-- A visit of the containers of the simulator, or of the root of `Reconnect` (Simulator.cpp:105-112,
502). -/
def Visit.start (w : World) (root : List Nat) : Visit := ⟨w, none, [.conts none root], [], none⟩

/-- Several steps. Of the model only (Simulator.cpp:85-112). -/
def Visit.run (ops : List LCall) (s : Visit) : List (List Edit × Bool) → Visit
  | [] => s
  | i :: is => (s.step ops i.1 i.2).run ops is

/-- The visit is over. Of the model only (Simulator.cpp:105-112). -/
def Visit.over (s : Visit) : Prop := s.acting = none ∧ s.stack = []

end Verif.Sim.Dyn
