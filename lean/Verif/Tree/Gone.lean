/-! What other components still hold of a component that is deleted: references, subscriptions of
event sinks, connections of fields, links of the registry (src/Xsmp/Component.cpp,
src/Xsmp/Container.cpp, src/Xsmp/Services/XsmpLinkRegistry.cpp). -/
namespace Verif.Tree.Gone

/-- A component, by its place in the tree: the parent is the list without its last element, the
simulator is `[]` (`GetParent`, Component.cpp:46). The place stands for the address too. -/
abbrev Id := List Nat

/-- An event sink or an input field of a component (EventSink.cpp:44, Helper.cpp:466-478). -/
abbrev Part := Id × Nat

/-- The pointers to others that a component holds: the vectors of its references
(Reference.h:447), the sets of its event sources (EventSource.cpp:56), the inputs its outputs are
connected to (Field.cpp:447-449; simple fields and arrays of them). -/
structure Holder where
  refs : List (List Id)
  sources : List (List Part)
  outs : List (List Part)
deriving DecidableEq

/-- The components there are, in the order they were made, with what they hold; and the pairs
target, source of the link registry (`_targets`, XsmpLinkRegistry.h:126-133; the numbers of links
are in `Verif.Link`, and no two sources of a target have the same name here). -/
structure World where
  comps : List Id
  hold : Id → Holder
  links : List (Id × Id)

/-- The component exists. Of the model only (the lifetime of Container.cpp:197). -/
def World.live (w : World) (c : Id) : Bool := w.comps.contains c

/-- Gives a component another content. Of the model only (assignments of Component.cpp:129-202). -/
def World.put (w : World) (s : Id) (h : Holder) : World :=
  { w with hold := fun c => if c = s then h else w.hold c }

/-! ### `Component::RemoveLinks` -/

/-- One turn of the loop on the inputs of an output (Component.cpp:159-163): the iterators are
indexes, and `Disconnect` removes the element (Field.cpp:450-457). `IsAncestor` is
Helper.cpp:466-478. -/
def turn (t : Id) (l : List Part) (i : Nat) : List Part :=
  match l[i]? with
  | none => l
  | some p => if t.isPrefixOf p.1 then l.erase p else l

/-- The loop (Component.cpp:159-163); its end is the size before the loop. -/
def sweep (t : Id) (l : List Part) : List Part := (List.range l.length).foldl (turn t) l

/-- What a component holds after `RemoveLinks(t)` (Component.cpp:186-202, EventSource.cpp:68-78,
Reference.h:432-444). -/
def Holder.removeLinks (t : Id) (h : Holder) : Holder where
  refs := h.refs.map fun l => l.filter (· ≠ t)
  sources := h.sources.map fun l => l.filter fun p => p.1 ≠ t
  outs := h.outs.map (sweep t)

/-- The sinks and inputs a component holds exist: their parents are read by `RemoveLinks`
(EventSource.cpp:72, Component.cpp:160). (Some of the inputs are skipped by the loop; the model takes
them as read.) -/
def Holder.readable (w : World) (h : Holder) : Bool :=
  (h.sources.all fun l => l.all fun p => w.live p.1) && h.outs.all fun l => l.all fun p => w.live p.1

/-- `s->RemoveLinks(t)` (Component.cpp:186-202); `none`: an object that does not exist any more is
used. -/
def ask (t : Id) (w : World) (s : Id) : Option World :=
  if w.live s && w.live t && (w.hold s).readable w then
    some (w.put s ((w.hold s).removeLinks t))
  else none

/-! ### Calls -/

/-- The sources of a target (XsmpLinkRegistry.cpp:75-91). -/
def World.sourcesOf (w : World) (t : Id) : List Id :=
  (w.links.filter fun p => p.1 = t).map Prod.snd

/-- The calls. -/
inductive Call
  /-- a component is created in a container, with so many references, event sources and outputs
  (Container.h:275-283) -/
  | create (c : Id) (refs sources outs : Nat)
  /-- `AddComponent` on a reference of `s` (Reference.h:231-242) -/
  | refer (s : Id) (k : Nat) (t : Id)
  /-- `Subscribe` on an event source of `s` (EventSource.cpp:46-57) -/
  | subscribe (s : Id) (k : Nat) (p : Part)
  /-- `Connect` on an output of `s` (Field.cpp:368-378) -/
  | connect (s : Id) (k : Nat) (p : Part)
  /-- `AddLink` (XsmpLinkRegistry.cpp:24-40) -/
  | addLink (s t : Id)
  /-- `RemoveLink` for all the links of `s` (XsmpLinkRegistry.cpp:53-73) -/
  | dropLinks (s : Id)
  /-- `RemoveLinks` of the registry (XsmpLinkRegistry.cpp:108-120) -/
  | removeLinks (t : Id)
  /-- `DeleteComponent` (Container.cpp:189-198) -/
  | delete (x : Id)
deriving DecidableEq

/-- One call; `none`: an object that does not exist is used. `RemoveLinks` asks the sources one
after the other; those are components of this library, whose `RemoveLinks` does not call the
registry. `DeleteComponent` destroys the component and, through the destructors of its containers,
all those below (Container.h:227-233); the vector of the container is not in this model (see
`Verif.Tree.deleteComponent`). The destructors do not tell anyone. (XsmpLinkRegistry.cpp:24-120,
Container.cpp:189-198.) -/
def call (w : World) : Call → Option World
  | .create c r s o =>
    if w.live c || !(c.dropLast == [] || w.live c.dropLast) then none
    else some { (w.put c ⟨List.replicate r [], List.replicate s [], List.replicate o []⟩) with
      comps := w.comps ++ [c] }
  | .refer s k t =>
    if w.live s && w.live t then
      some (w.put s { w.hold s with refs := (w.hold s).refs.modify k (· ++ [t]) })
    else none
  | .subscribe s k p =>
    if w.live s && w.live p.1 then
      some (w.put s { w.hold s with sources := (w.hold s).sources.modify k (· ++ [p]) })
    else none
  | .connect s k p =>
    if w.live s && w.live p.1 then
      some (w.put s { w.hold s with outs := (w.hold s).outs.modify k (· ++ [p]) })
    else none
  | .addLink s t => some (if w.links.contains (t, s) then w else { w with links := w.links ++ [(t, s)] })
  | .dropLinks s => some { w with links := w.links.filter fun p => p.2 ≠ s }
  | .removeLinks t => (w.sourcesOf t).foldlM (ask t) w
  | .delete x =>
    if w.live x then some { w with comps := w.comps.filter fun c => !x.isPrefixOf c } else none

/-- Several calls. Of the model only (sequences of the calls of XsmpLinkRegistry.cpp:24-120,
Container.cpp:189-198). -/
def calls (w : World) (cs : List Call) : Option World := cs.foldlM call w

/-- Nothing yet. Of the model only (the simulator before the first component, Simulator.cpp). -/
def World.empty : World := ⟨[], fun _ => ⟨[], [], []⟩, []⟩

end Verif.Tree.Gone
