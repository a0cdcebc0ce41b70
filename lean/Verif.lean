import Verif.Base.OMap
import Verif.Base.IdSet
import Verif.Sched.TimeProps
import Verif.Sched.Locks
import Verif.Sched.Post
import Verif.Sched.RunFor
import Verif.Sched.Accept
import Verif.Sched.Progress
import Verif.Sched.Called
import Verif.Event.Props
import Verif.Event.Threads
import Verif.Event.ThreadsProps
import Verif.Event.ThreadsIds
import Verif.Link.Props
import Verif.Path.Props
import Verif.Uuid.Props
import Verif.Text.Props
import Verif.Chrono.Props
import Verif.Any.Props
import Verif.Any.PrintProps
import Verif.Any.Own
import Verif.Persist.Props
import Verif.Sched.Persist
import Verif.Sched.Continue
import Verif.Tree.Props
import Verif.Tree.Emit
import Verif.Sim.Props
import Verif.Sim.Walk
import Verif.Sim.Breakpoint
import Verif.Sim.LibraryProps
import Verif.Sim.ServiceProps
import Verif.Pub.OperProps
import Verif.Pub.MarshalProps
import Verif.CString.Props
import Verif.Field.NetProps
import Verif.Field.ArrProps
import Verif.Field.TreeProps
import Verif.Field.RemoveLinksProps
import Verif.Field.PublishedProps
import Verif.Field.Persist
import Verif.Log.TextProps
import Verif.Log.QueueProps
import Verif.Log.KindsProps
import Verif.Log.ConfigProps
import Verif.Safe.Props
import Verif.Fallible.Props
import Verif.Gen.Props
import Verif.Sched.ZuluRunProps
import Verif.Sched.ZuluRunCycle
import Verif.Mem.Float
import Verif.Mem.FloatLemmas
import Verif.Mem.FloatProps
import Verif.Mem.LayoutProps
import Verif.Mem.AccessProps
import Verif.Conc.Lock
import Verif.Conc.LockLemmas
import Verif.Conc.TimeKeeper
import Verif.Conc.TimeKeeperProps
import Verif.Link.Threads
import Verif.Link.ThreadsProps
import Verif.Emit.Model
import Verif.Emit.Props
import Verif.Sim.Loop
import Verif.Sim.LoopLemmas
import Verif.Sim.LoopOne
import Verif.Sim.LoopProps
import Verif.Any.Report
import Verif.Any.ReportProps
import Verif.Pub.Report
import Verif.Pub.ReportProps
import Verif.Example.Model
import Verif.Example.Props
import Verif.Example.Run
import Verif.Text.Ops
import Verif.Text.OpsProps
import Verif.Sim.Dynamic
import Verif.Sim.DynamicInv
import Verif.Sim.DynamicProps
import Verif.Tree.Hooks
import Verif.Tree.HooksProps
import Verif.Field.Annot
import Verif.Field.AnnotProps
import Verif.Field.Ops
import Verif.Field.OpsProps
import Verif.Tree.Gone
import Verif.Tree.GoneProps
import Verif.Chrono.Compare
import Verif.Chrono.CompareProps
import Verif.Log.Threads
import Verif.Log.ThreadsProps
import Verif.Raise.Objects
import Verif.Raise.ObjectsProps
import Verif.Raise.Values
import Verif.Raise.ValuesProps
import Verif.Sim.Packages
import Verif.Sim.PackagesSpec
import Verif.Sim.PackagesLemmas
import Verif.Sim.PackagesProps
import Verif.Sim.Ending
import Verif.Sim.EndingProps
import Verif.Chrono.Text
import Verif.Chrono.TextProps
import Verif.Sim.Writer
import Verif.Sim.WriterProps
import Verif.Python.Index
import Verif.Python.IndexProps
import Verif.Python.Value
import Verif.Python.ValueProps
import Verif.Python.Call
import Verif.Python.CallProps
import Verif.Python.Run
import Verif.Python.RunLemmas
import Verif.Python.RunProps
import Verif.Python.Class
import Verif.Python.ClassLemmas
import Verif.Python.ClassProps
import Verif.Python.Attr
import Verif.Python.AttrLemmas
import Verif.Python.AttrProps
import Verif.Tree.Delete
import Verif.Tree.DeleteLemmas
import Verif.Tree.DeleteProps
import Verif.Field.PublishedPush
import Verif.Python.Hints
import Verif.Python.HintsSpec
import Verif.Python.HintsLemmas
import Verif.Python.HintsOutline
import Verif.Python.HintsDecls
import Verif.Python.HintsProps
import Verif.Pub.Predefined
import Verif.Pub.PredefinedProps
import Verif.Tree.Factory
import Verif.Tree.FactoryProps
import Verif.Raise.Flow
import Verif.Raise.FlowProps
import Verif.Raise.Life
import Verif.Raise.LifeProps
import Verif.Sched.Pacing
import Verif.Sched.PacingProps
import Verif.Python.Oper
import Verif.Python.OperLemmas
import Verif.Python.OperProps
import Verif.Event.Restoring
import Verif.Event.RestoringLemmas
import Verif.Event.RestoringProps
import Verif.Sim.Recover
import Verif.Sched.Failed
import Verif.Chrono.FloatingProps
import Verif.Field.FloatingProps
import Verif.Python.OwnProps
import Verif.Sim.Holders
import Verif.Sim.HoldersSpec
import Verif.Sim.HoldersLemmas
import Verif.Sim.HoldersProps
import Verif.Sim.Matched
import Verif.Sim.MatchedSpec
import Verif.Sim.MatchedLemmas
import Verif.Sim.MatchedLemmas2
import Verif.Sim.MatchedLemmas3
import Verif.Sim.MatchedProps
import Verif.Python.Case
import Verif.Python.CaseSpec
import Verif.Python.CaseLemmas
import Verif.Python.CaseProps
import Verif.Sched.ZuluRestore
import Verif.Sched.ZuluRestoreSpec
import Verif.Sched.ZuluRestoreLemmas
import Verif.Sched.ZuluRestoreLost
import Verif.Sched.ZuluRestoreProps
import Verif.Sched.HoldLater
import Verif.Sched.HoldLaterLemmas
import Verif.Sched.HoldLaterProps
import Verif.Sim.ThreadsSpec
import Verif.Sim.ThreadsLemmas
import Verif.Sim.ThreadsProps
import Verif.Field.RefusedSpec
import Verif.Field.RefusedLemmas
import Verif.Field.RefusedProps
import Verif.Field.EquivProps
import Verif.Python.Gil
import Verif.Python.GilProps
import Verif.Field.Racing
import Verif.Field.RacingProps
import Verif.Field.Guarded
import Verif.Field.GuardedProps
import Verif.Python.Notify
import Verif.Python.NotifyProps
import Verif.Field.ArrHistory
import Verif.Field.ArrHistoryProps
import Verif.Persist.AcceptProps
import Verif.Python.Ids
import Verif.Python.IdsProps
import Verif.Raise.Pushed
import Verif.Raise.PushedProps
import Verif.Python.Except
import Verif.Python.ExceptProps
import Verif.Field.Flags
import Verif.Field.FlagsProps
import Verif.Field.FlagsFloat
import Verif.Field.FlagsFloatProps
import Verif.Tree.EmitThreads
import Verif.Sim.Lacking
import Verif.Sim.LackingProps
import Verif.Field.Push
import Verif.Field.PushProps
import Verif.Chrono.Integral
import Verif.Chrono.IntegralProps
import Verif.Sim.Nested
import Verif.Sim.NestedProps
import Verif.Text.Search
import Verif.Text.SearchProps
import Verif.Field.Whole
import Verif.Field.WholeProps
import Verif.Sched.Average
import Verif.Sched.AverageProps
import Verif.Path.Published
import Verif.Path.PublishedProps
import Verif.Pub.Lookup
import Verif.Pub.LookupProps
import Verif.Path.Ancestor
import Verif.Path.AncestorProps
