import Verif.Sim.Packages
/-! What is meant by the claims about packages (src/xsmp_services.cpp:38-98). -/
namespace Verif.Sim.Packages

mutual
/-- What a package registers, with what the packages it uses register (xsmp_services.cpp:64-69). -/
def Pkg.all : Pkg → List Item
  | .mk _ deps items => allOf deps ++ items
/-- (xsmp_services.cpp:64-69.) -/
def allOf : List Pkg → List Item
  | [] => []
  | p :: ps => p.all ++ allOf ps
end

mutual
/-- The package and those it uses are the ones of the table: one package for an identity
(xsmp_services.cpp:38-41). -/
def Pkg.Ok (tbl : Nat → List Pkg × List Item) : Pkg → Prop
  | .mk i deps items => tbl i = (deps, items) ∧ OkAll tbl deps
/-- (xsmp_services.cpp:38-41.) -/
def OkAll (tbl : Nat → List Pkg × List Item) : List Pkg → Prop
  | [] => True
  | p :: ps => p.Ok tbl ∧ OkAll tbl ps
end

/-- No name or UUID is used twice, in one package or in two (src-gen/xsmp_logger.cpp:60-66). -/
structure Distinct (tbl : Nat → List Pkg × List Item) : Prop where
  own : ∀ i, (tbl i).2.Nodup
  apart : ∀ i j it, it ∈ (tbl i).2 → it ∈ (tbl j).2 → i = j

/-- Since the simulator at this address was created, no simulator was destroyed
(Simulator.cpp:117-150). -/
def Fresh (h : List Op) (a : Nat) : Prop :=
  ∃ h1 h2, h = h1 ++ .create a :: h2 ∧ (run .start h1).sims a = none ∧ ∀ b, .destroy b ∉ h2

/-- A program that uses the packages as the sets of simulators suppose: packages are initialised by
`LoadLibrary` only, in a state that lets services be added, and by no simulator that has seen
another one destroyed; and what it adds itself has names and UUIDs of its own
(Simulator.cpp:117-150, 666-730). -/
structure Careful (tbl : Nat → List Pkg × List Item) (h : List Op) : Prop where
  loads : ∀ h1 a p h2, h = h1 ++ .load a p :: h2 →
    p.Ok tbl ∧ Fresh h1 a ∧ ∃ s, (run .start h1).sims a = some s ∧ s.accepts = true
  calls : ∀ a p, Op.call a p ∉ h
  adds : ∀ a it, Op.add a it ∈ h → ∀ i, it ∉ (tbl i).2

end Verif.Sim.Packages
