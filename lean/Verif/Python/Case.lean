import Verif.Sim.MatchedSpec

/-! The tests of a simulator in Python: `setUp` and `tearDown` of `xsmp.unittest.TestCase`
(python/xsmp/unittest.py:21-89), and the simulators that are alive while a list of tests is
executed. The simulator is the one of `Verif/Sim/Matched.lean`. The order in which the runner calls
`setUp`, the test and `tearDown` is the one of Python's `unittest`. The file that
`generateTypeHints` writes is in `Verif/Python/Hints.lean`, and how Python owns the simulator in
`Verif/Python/Own.lean`. -/
namespace Verif.Python.Case
open Verif.Sim.Matched

/-- How Python code ends: it returns, it raises an `Exception`, or an exception of another class,
such as `SystemExit` (unittest.py:76). -/
inductive Out
  | ok | exc | base
deriving DecidableEq, Repr

/-- What one test does. -/
structure Case where
  /-- `createSimulator` (unittest.py:23-25) -/
  create : Out
  /-- the functions that `loadServices` calls, and `loadAssembly`: what they do with the simulator,
  and how they end (unittest.py:27-54) -/
  loads : List (List Op × Out)
  /-- the hooks of the components during `Connect` (unittest.py:72) -/
  conEnv : Env
  /-- an entry point of the initialisation raises (unittest.py:72) -/
  conInit : Bool
  /-- `generateTypeHints` (unittest.py:56-58) -/
  hints : Out
  /-- what the test does with the simulator -/
  body : List Op
  /-- how the test ends -/
  bodyOut : Out
  /-- the test deletes its attribute `sim` (unittest.py:85) -/
  del : Bool
  /-- the test keeps another reference to the simulator -/
  other : Bool
  /-- the hooks of the components during `Exit` (unittest.py:87) -/
  exitEnv : Env
  /-- the hooks of the components during the destructor of the simulator (unittest.py:79, 89) -/
  endEnv : Env

/-- Python code does not call the destructor of the simulator; it drops references
(unittest.py:79, 89). -/
def Op.ofPython : Op → Bool
  | .destroy _ => false
  | _ => true

/-- Python code uses the simulator (unittest.py:27-58). -/
def use (s : St) (ops : List Op) : St := run s (ops.filter Op.ofPython)

/-- The services and the assembly are loaded, until a function raises (unittest.py:66-69). -/
def load : List (List Op × Out) → St → St × Out
  | [], s => (s, .ok)
  | (ops, o) :: l, s => if o = .ok then load l (use s ops) else (use s ops, o)

/-- `self.sim.Connect()` (unittest.py:72): an exception leaves the simulator in the state where it
was raised (src/Xsmp/Simulator.cpp:204-244); a simulator that is not in Building state logs and
returns. -/
def connect (c : Case) (s : St) : St × Out :=
  let t := step s (.connect c.conEnv c.conInit)
  (t, if s.phase = .building ∧ t.phase ≠ .standby then .exc else .ok)

/-- `setUp` (unittest.py:60-82): the simulator it has made, whether the attribute `sim` refers to it,
and how it ends. The attribute is deleted when an `Exception` is raised. -/
def setUp (c : Case) : Option (St × Bool) × Out :=
  if c.create ≠ .ok then (none, c.create)
  else
    let (s, o) := load c.loads St.init
    let (s, o) := if o = .ok then connect c s else (s, o)
    let o := if o = .ok then c.hints else o
    (some (s, decide (o ≠ .exc)), o)

/-- `tearDown` (unittest.py:84-89): the simulator, whether the attribute still refers to it, and
whether `Exit` returns, raises or uses a null pointer. -/
def tearDown (c : Case) (s : St) (attr : Bool) : St × Bool × Res :=
  if attr then
    if s.phase = .standby then
      match s.exit c.exitEnv with
      | (s, .ok) => (s, false, .ok)
      | (s, r) => (s, true, r)
    else (s, false, .ok)
  else (s, false, .ok)

/-- What a test comes to. Of the model only. -/
structure Report where
  /-- the simulator that the test was given by `setUp` -/
  start : Option St
  /-- the runner reports an error or a failure -/
  failed : Bool
  /-- the simulator that is alive after the test -/
  left : Option St
  /-- the simulator that was destroyed, or that has crashed -/
  gone : Option St
deriving DecidableEq, Repr

/-- Nothing of the test refers to the simulator any more, or nothing but the test itself, `held`.
The runner drops a test when it is done, except when it `keeps` those that failed, as the result of
Python's `unittest` does. (unittest.py:79, 89; src/Xsmp/Simulator.cpp:117-151.) -/
def finish (keeps : Bool) (c : Case) (start : Option St) (s : St) (held failed : Bool) : Report :=
  if s.phase = .crashed then ⟨start, failed, none, some s⟩
  else if held && failed && keeps then ⟨start, failed, some s, none⟩
  else ⟨start, failed, none, some (step s (.destroy c.endEnv))⟩

/-- One test: `setUp`, and, if it returns, the test and `tearDown` (unittest.py:60-89). -/
def test (keeps : Bool) (c : Case) : Report :=
  match setUp c with
  | (none, _) => ⟨none, true, none, none⟩
  | (some (s, attr), o) =>
    if o ≠ .ok ∨ s.phase = .crashed then finish keeps c none s attr true
    else
      let b := use s c.body
      let (t, attr, r) := tearDown c b (attr && !c.del)
      finish keeps c (some s) t (attr || c.other) (decide (c.bodyOut ≠ .ok) || decide (r ≠ .ok))

/-- The process has ended. Of the model only. -/
def Report.crashed (r : Report) : Bool :=
  match r.gone with
  | some s => decide (s.phase = .crashed)
  | none => false

/-- The tests of a program, one after the other, each one with the simulators that are alive when it
starts (unittest.py:60-89). -/
def runAll (keeps : Bool) : List Case → List St → List (List St × Report)
  | [], _ => []
  | c :: l, alive =>
    let r := test keeps c
    (alive, r) :: if r.crashed then [] else runAll keeps l (alive ++ r.left.toList)

end Verif.Python.Case
