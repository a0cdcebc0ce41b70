/-! The libraries of the simulator: `Simulator::LoadLibrary` (src/Xsmp/Simulator.cpp:666-730) and
the destructor (Simulator.cpp:126-150). -/
namespace Verif.Sim.Library

/-- A library, as far as loading goes. `loads` are the libraries that its `Initialise` loads, in
order, with whether it catches the exceptions of that call; `result` is what `Initialise` returns
(`none`: it raises). `found`: `dlopen` finds the file (Simulator.cpp:674-682); `hasInit`,
`hasFinal`: it has the two functions (Simulator.cpp:684-711). `unloads` are the libraries that its `Finalise` loads (catching exceptions).
What else these functions do (registering types and factories) is not modelled, nor are libraries
that load themselves without end (Simulator.cpp:666-730). -/
inductive Lib
  | mk (id : Nat)
    (found hasInit hasFinal : Bool)
    (loads : List (Bool × Lib)) (result : Option Bool) (unloads : List Lib)

/-- Its name (Simulator.cpp:729). -/
def Lib.id : Lib → Nat
  | .mk id _ _ _ _ _ _ => id

/-- What its `Finalise` loads (Simulator.cpp:135). -/
def Lib.unloads : Lib → List Lib
  | .mk _ _ _ _ _ _ us => us

/-- What is observed: calls of `Initialise` (Simulator.cpp:713), ends of `LoadLibrary`
(Simulator.cpp:681, 698, 710, 727, 729), and calls of `Finalise` (Simulator.cpp:135). -/
inductive Ev
  | init (id : Nat)
  /-- `LoadLibrary` returns -/
  | ready (id : Nat)
  /-- `LoadLibrary` raises -/
  | refused (id : Nat)
  | fin (id : Nat)
deriving DecidableEq

/-- `_libraries` (Simulator.h:381) and what has been observed. -/
structure St where
  libs : List Lib
  trace : List Ev

/-- Something is observed (no code of its own). (Simulator.cpp:666.) -/
def St.emit (s : St) (e : Ev) : St := { s with trace := s.trace ++ [e] }

/-- What `LoadLibrary` does after the calls made by `Initialise`: an exception that leaves it goes
through, `false` raises, `true` adds the library (Simulator.cpp:714-729). -/
def ending (l : Lib) (result : Option Bool) (r : St × Bool) : St × Bool :=
  if r.2 then (r.1.emit (.refused l.id), true)
  else match result with
    | some true => ({ r.1 with libs := r.1.libs ++ [l] }.emit (.ready l.id), false)
    | some false => (r.1.emit (.refused l.id), true)
    | none => (r.1.emit (.refused l.id), true)

mutual
/-- `LoadLibrary` (Simulator.cpp:666-730); the second component tells that it raises. -/
def load (s : St) : Lib → St × Bool
  | .mk id found hasInit hasFinal loads result unloads =>
    if !found then (s.emit (.refused id), true)
    else if !hasInit then (s.emit (.refused id), true)
    else if !hasFinal then (s.emit (.refused id), true)
    else ending (.mk id found hasInit hasFinal loads result unloads) result
      (loadAll (s.emit (.init id)) loads)
/-- The calls made by an `Initialise` (Simulator.cpp:714); the second component tells that an exception leaves it. -/
def loadAll (s : St) : List (Bool × Lib) → St × Bool
  | [] => (s, false)
  | (caught, l) :: ls =>
    if (load s l).2 && !caught then ((load s l).1, true) else loadAll (load s l).1 ls
end

/-- The calls made by a `Finalise` (Simulator.cpp:135), or by the user, one after the other. -/
def loadEach (s : St) : List Lib → St
  | [] => s
  | l :: ls => loadEach (load s l).1 ls

/-- One turn of the loop of the destructor (Simulator.cpp:127-150): `Finalise` of the last
library, then `pop_back`. The name logged after `Finalise` (Simulator.cpp:137-147) is read through a
reference into the vector `_libraries` (Simulator.h:381): when the vector has grown and its storage
has moved, this is undefined (`none`). `reads` tells, for the state after `Finalise`, that there is
a logger and that the storage moved; when storage moves is up to the standard library. Not
modelled: what `Finalise` returns (only the message depends on it). Exceptions of `Finalise`, and of
the calls of `Hold` and `Exit` made first, are in `destroy`. -/
def unloadOne (reads : St → Bool) (s : St) : Option St :=
  match s.libs.getLast? with
  | none => some s
  | some l =>
    let s1 := loadEach (s.emit (.fin l.id)) l.unloads
    if reads s1 && s1.libs.length != s.libs.length then none
    else some { s1 with libs := s1.libs.dropLast }

/-- The loop (Simulator.cpp:127-150); `none` when undefined or when `fuel` turns do not suffice. -/
def unload (reads : St → Bool) : Nat → St → Option St
  | 0, s => if s.libs.isEmpty then some s else none
  | f + 1, s =>
    if s.libs.isEmpty then some s
    else match unloadOne reads s with
      | none => none
      | some s' => unload reads f s'

/-- How the destructor ends (Simulator.cpp:117-151). -/
inductive Out
  | done (s : St)
  /-- an exception leaves the destructor, which is `noexcept`: `std::terminate` -/
  | terminated (s : St)
  | undefined

/-- The loop (Simulator.cpp:127-150) when some `Finalise` raise: `raises` tells which, after the calls
they make. `undefined` also when `fuel` turns do not suffice. -/
def unloadRaising (reads : St → Bool) (raises : Lib → Bool) : Nat → St → Out
  | 0, s => if s.libs.isEmpty then .done s else .undefined
  | f + 1, s =>
    match s.libs.getLast? with
    | none => .done s
    | some l =>
      if raises l then .terminated (loadEach (s.emit (.fin l.id)) l.unloads)
      else match unloadOne reads s with
        | none => .undefined
        | some s' => unloadRaising reads raises f s'

/-- The destructor (Simulator.cpp:117-151): `first` tells that the `Hold` or `Exit` made first raises
(a hook of a component does, Simulator.cpp:118-125), before any library is finalised. -/
def destroy (reads : St → Bool) (raises : Lib → Bool) (first : Bool) (fuel : Nat) (s : St) : Out :=
  if first then .terminated s else unloadRaising reads raises fuel s

end Verif.Sim.Library
