import Verif.Conc.Lock

/-!
Model of the calls of the time keeper (`src/Xsmp/Services/XsmpTimeKeeper.cpp:40-106`) as expressions
on its three `ThreadSafeData` members. Each call of the code is one full expression, except
`SetSimulationTime`, which reads and assigns in two of them.

Simplified: numbers do not overflow (see C20 for that); the events emitted after the assignments
are left out.
-/
namespace Verif.Conc

/-- `_simulationTime` (XsmpTimeKeeper.h:134). -/
def sim : Cell := 0
/-- `_epochStart` (XsmpTimeKeeper.h:136). -/
def epoch : Cell := 1
/-- `_missionStartTime` (XsmpTimeKeeper.h:135). -/
def mission : Cell := 2

/-- The expressions on these members (XsmpTimeKeeper.cpp:40-105). -/
inductive Call
  /-- XsmpTimeKeeper.cpp:41, 87 -/
  | getSim
  /-- XsmpTimeKeeper.cpp:45 -/
  | getMissionStart
  /-- XsmpTimeKeeper.cpp:49 -/
  | getEpoch
  /-- XsmpTimeKeeper.cpp:53-54 -/
  | getMission
  /-- XsmpTimeKeeper.cpp:62 -/
  | setEpoch (v : Int)
  /-- XsmpTimeKeeper.cpp:68 -/
  | setMissionStart (v : Int)
  /-- XsmpTimeKeeper.cpp:74-75 -/
  | setMission (v : Int)
  /-- the assignment of `SetSimulationTime`, XsmpTimeKeeper.cpp:92 -/
  | putSim (v : Int)
  /-- XsmpTimeKeeper.cpp:96-98, with the values of the stream -/
  | restore (a b c : Int)
  /-- XsmpTimeKeeper.cpp:102-104 -/
  | store
  deriving DecidableEq

/-- The locks of the expression (XsmpTimeKeeper.cpp:41-104), with operands evaluated from left to right and the right side of an
assignment before the left one. -/
def Call.locks : Call → List (Cell × Bool)
  | .getSim => [(sim, false)]
  | .getMissionStart => [(mission, false)]
  | .getEpoch => [(sim, false), (epoch, false)]
  | .getMission => [(sim, false), (epoch, false), (mission, false)]
  | .setEpoch _ => [(sim, false), (epoch, true)]
  | .setMissionStart _ => [(mission, true)]
  | .setMission _ => [(sim, false), (epoch, false), (mission, true)]
  | .putSim _ => [(sim, true)]
  | .restore .. => [(sim, true), (mission, true), (epoch, true)]
  | .store => [(sim, false), (mission, false), (epoch, false)]

/-- The assignments (XsmpTimeKeeper.cpp:62, 68, 74-75, 92, 96-98). -/
def Call.writes (m : Mem) : Call → List (Cell × Int)
  | .setEpoch v => [(epoch, m sim - v)]
  | .setMissionStart v => [(mission, v)]
  | .setMission v => [(mission, m sim - m epoch - v)]
  | .putSim v => [(sim, v)]
  | .restore a b c => [(sim, a), (mission, b), (epoch, c)]
  | _ => []

/-- The values returned or stored (XsmpTimeKeeper.cpp:41, 45, 49, 53-54, 102-104). -/
def Call.res (m : Mem) : Call → List Int
  | .getSim => [m sim]
  | .getMissionStart => [m mission]
  | .getEpoch => [m sim - m epoch]
  | .getMission => [m sim - m epoch - m mission]
  | .store => [m sim, m mission, m epoch]
  | _ => []

/-- The expression (XsmpTimeKeeper.cpp:40-105), with its locks taken in the order `l`: the order in which operands and arguments
are evaluated is not specified in C++. -/
def Call.tx (c : Call) (l : List (Cell × Bool)) : Tx := ⟨l, fun m => c.writes m, fun m => c.res m⟩

/-- `SetSimulationTime` (XsmpTimeKeeper.cpp:81-93) after `current` was read: the new value is
assigned if it is not in the past and not beyond the next event. -/
def accepts (current max v : Int) : Bool := ! (v < current || v > max)

end Verif.Conc
