/-! The packages: what `Initialise_X` and `Finalise_X` do with the simulators of the program
(src/xsmp_services.cpp:38-98, src-gen/xsmp_event_manager.cpp:30-86 and the other files of
src-gen, examples/project1/src-gen/xsmp_example_project1.cpp:23-85), called by
`Simulator::LoadLibrary` and by the destructor of the simulator (src/Xsmp/Simulator.cpp:117-150,
666-730) through src-gen/xsmp_event_manager.pkg.cpp:44-60. -/
namespace Verif.Sim.Packages

/-- What a package registers with a simulator: a service (src-gen/xsmp_event_manager.cpp:60-66), a
factory (xsmp_example_project1.cpp:51-64), a type (src-gen/xsmp_tests.cpp:122-140). The number
stands for what makes it unique in the simulator: the name of a service (Container.h, by
`AddComponent`), the UUID of a factory, the UUID of a type. -/
inductive Item
  | service (n : Nat)
  | factory (n : Nat)
  | type (n : Nat)
deriving DecidableEq

/-- A package: the packages it uses, which it initialises first, and what it registers itself.
`id` stands for the variable `simulators` of its file (xsmp_services.cpp:38-41). Of the packages
of the project one, xsmp_services, uses others and registers nothing itself
(xsmp_services.cpp:64-69); the others register and use none (src-gen/xsmp_logger.cpp:36-66). -/
inductive Pkg
  | mk (id : Nat) (deps : List Pkg) (items : List Item)

/-- (xsmp_services.cpp:38-41.) -/
def Pkg.id : Pkg → Nat
  | .mk i _ _ => i

/-- (xsmp_services.cpp:64-69.) -/
def Pkg.deps : Pkg → List Pkg
  | .mk _ d _ => d

/-- (xsmp_example_project1.cpp:51-64.) -/
def Pkg.items : Pkg → List Item
  | .mk _ _ i => i

/-- A simulator: what is registered with it, the packages of its `_libraries` (Simulator.h:381),
and whether its state lets services be added (Simulator.cpp:584-592). -/
structure Simr where
  items : List Item
  libs : List Pkg
  accepts : Bool

/-- The program: the sets `simulators` of the packages (xsmp_services.cpp:38-41), which last as
long as it does, and the simulators alive, by address. -/
structure World where
  sets : Nat → List Nat
  sims : Nat → Option Simr

/-- At the start (xsmp_services.cpp:40). -/
def World.start : World := { sets := fun _ => [], sims := fun _ => none }

/-- A simulator changes, is created or ends (Simulator.cpp:117). -/
def World.setSim (w : World) (a : Nat) (s : Option Simr) : World :=
  { w with sims := fun b => if b = a then s else w.sims b }

/-- `simulators.emplace(simulator)` for a simulator not in the set (xsmp_services.cpp:60). -/
def World.insert (w : World) (i a : Nat) : World :=
  { w with sets := fun j => if j = i then a :: w.sets i else w.sets j }

/-- `simulators.clear()` (xsmp_services.cpp:87). -/
def World.clear (w : World) (i : Nat) : World :=
  { w with sets := fun j => if j = i then [] else w.sets j }

/-- The simulator refuses: `AddService` raises in another state than Building, Connecting or
Standby and when there is a service of that name (Simulator.cpp:584-592), `RegisterFactory` and
the type registry when the UUID is known (Simulator.cpp:641-643). Factories of the same name and
types of the same name are not modelled here. -/
def Simr.refuses (s : Simr) : Item → Bool
  | .service n => decide (Item.service n ∈ s.items) || !s.accepts
  | .factory n => decide (Item.factory n ∈ s.items)
  | .type n => decide (Item.type n ∈ s.items)

/-- `AddService`, `RegisterFactory` or `_Register_T` on the simulator at `a`; the second component
tells that it raises (Simulator.cpp:584-613, 641-643). On a simulator that is not alive this would
be undefined; here it counts as raised. -/
def register (w : World) (a : Nat) (it : Item) : World × Bool :=
  match w.sims a with
  | none => (w, true)
  | some s =>
    if s.refuses it then (w, true)
    else (w.setSim a (some { s with items := s.items ++ [it] }), false)

/-- The registrations of a package, one after the other; an exception leaves those made before
(src-gen/xsmp_tests.cpp:122-296). -/
def registerAll (w : World) (a : Nat) : List Item → World × Bool
  | [] => (w, false)
  | it :: its =>
    if (register w a it).2 then register w a it else registerAll (register w a it).1 a its

mutual
/-- `Initialise_X(simulator, typeRegistry)` for a simulator that is not null
(xsmp_services.cpp:52-72); the second component tells that it raises, otherwise it returns true. -/
def init (w : World) (a : Nat) : Pkg → World × Bool
  | .mk i deps items =>
    if a ∈ w.sets i then (w, false)
    else if (initAll (w.insert i a) a deps).2 then initAll (w.insert i a) a deps
    else registerAll (initAll (w.insert i a) a deps).1 a items
/-- The calls of the packages used (xsmp_services.cpp:64-69): all are made, whatever they return,
unless one raises. -/
def initAll (w : World) (a : Nat) : List Pkg → World × Bool
  | [] => (w, false)
  | p :: ps => if (init w a p).2 then init w a p else initAll (init w a p).1 a ps
end

/-- `Initialise` with a pointer that may be null: false, or true, or an exception (`none`)
(xsmp_services.cpp:55-58, 71). -/
def initialise (w : World) (a : Option Nat) (p : Pkg) : World × Option Bool :=
  match a with
  | none => (w, some false)
  | some a => ((init w a p).1, if (init w a p).2 then none else some true)

mutual
/-- `Finalise_X()` (xsmp_services.cpp:82-97): it is not told which simulator ends
(src-gen/xsmp_event_manager.pkg.cpp:58-60). -/
def fin (w : World) : Pkg → World
  | .mk i deps _ => if w.sets i = [] then w else finAll (w.clear i) deps
/-- The packages used, in reverse order (xsmp_services.cpp:89-94). -/
def finAll (w : World) : List Pkg → World
  | [] => w
  | p :: ps => fin (finAll w ps) p
end

/-- `LoadLibrary` of a library that is found and has its functions (Simulator.cpp:713-729): the
library is kept when `Initialise` returns true. The second component tells that it raises. -/
def load (w : World) (a : Nat) (p : Pkg) : World × Bool :=
  if (init w a p).2 then init w a p
  else match (init w a p).1.sims a with
    | none => ((init w a p).1, true)
    | some s => ((init w a p).1.setSim a (some { s with libs := s.libs ++ [p] }), false)

/-- `Finalise` of the libraries, the last first (Simulator.cpp:127-149). -/
def finLibs (w : World) : List Pkg → World
  | [] => w
  | p :: ps => fin (finLibs w ps) p

/-- The destructor of a simulator (Simulator.cpp:117-150). -/
def destroy (w : World) (a : Nat) : World :=
  match w.sims a with
  | none => w
  | some s => (finLibs w s.libs).setSim a none

/-- What a program may do (Simulator.cpp:117-150, 584-613, 666-730). -/
inductive Op
  /-- a simulator is created at this address -/
  | create (a : Nat)
  /-- `LoadLibrary` -/
  | load (a : Nat) (p : Pkg)
  /-- the simulator is destroyed -/
  | destroy (a : Nat)
  /-- `Initialise_X(&simulator, …)`, by a program linked with the package -/
  | call (a : Nat) (p : Pkg)
  /-- the program adds a service, a factory or a type itself -/
  | add (a : Nat) (it : Item)
  /-- the state of the simulator changes -/
  | state (a : Nat) (accepts : Bool)

/-- One thing is done; the second component tells that it raised. What is done to a simulator that
is not alive, or the creation where one is, is left out (Simulator.cpp:87-150, 584-613,
666-730). -/
def step (w : World) : Op → World × Bool
  | .create a =>
    match w.sims a with
    | none => (w.setSim a (some { items := [], libs := [], accepts := true }), false)
    | some _ => (w, false)
  | .load a p => load w a p
  | .destroy a => (destroy w a, false)
  | .call a p => init w a p
  | .add a it => register w a it
  | .state a b =>
    match w.sims a with
    | none => (w, false)
    | some s => (w.setSim a (some { s with accepts := b }), false)

/-- A run of the program (Simulator.cpp:117-150, 666-730). -/
def run (w : World) : List Op → World
  | [] => w
  | o :: os => run (step w o).1 os

end Verif.Sim.Packages
