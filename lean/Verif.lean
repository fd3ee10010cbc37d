import Verif.AMap
import Verif.Advice.Lemmas
import Verif.Advice.Model
import Verif.Advice.Props
import Verif.Advice.Spec
import Verif.Again.Lemmas
import Verif.Again.Model
import Verif.Again.Props
import Verif.Again.Spec
import Verif.Args.Lemmas
import Verif.Args.Model
import Verif.Args.Props
import Verif.Args.Spec
import Verif.Attempt.Model
import Verif.Attempt.Props
import Verif.Attempt.Spec
import Verif.Base
import Verif.Batch.Model
import Verif.Batch.Props
import Verif.Beside.Lemmas
import Verif.Beside.Model
import Verif.Beside.Props
import Verif.Beside.Spec
import Verif.Blocks.Lemmas
import Verif.Blocks.Model
import Verif.Blocks.Props
import Verif.Blocks.Spec
import Verif.Budget.Lemmas
import Verif.Budget.Model
import Verif.Budget.Props
import Verif.Budget.Spec
import Verif.Calls.BodyLemmas
import Verif.Calls.Lemmas
import Verif.Calls.Model
import Verif.Calls.PickLemmas
import Verif.Calls.Props
import Verif.Calls.Spec
import Verif.Calls.TwiceLemmas
import Verif.Capture.FullLemmas
import Verif.Capture.KeyLemmas
import Verif.Capture.Lemmas
import Verif.Capture.Model
import Verif.Capture.Props
import Verif.Capture.Spec
import Verif.Client.Lemmas
import Verif.Client.Model
import Verif.Client.Props
import Verif.Client.Spec
import Verif.Compare.Lemmas
import Verif.Compare.Model
import Verif.Compare.Props
import Verif.Compare.Spec
import Verif.Copy.Lemmas
import Verif.Copy.Model
import Verif.Copy.Props
import Verif.Copy.Spec
import Verif.Diff.Lemmas
import Verif.Diff.Match
import Verif.Diff.Model
import Verif.Diff.Props
import Verif.Diff.Spec
import Verif.Ends.Lemmas
import Verif.Ends.Model
import Verif.Ends.Props
import Verif.Ends.Spec
import Verif.Engine.Lemmas
import Verif.Engine.Model
import Verif.Engine.Props
import Verif.Engine.Spec
import Verif.Fields.Lemmas
import Verif.Fields.Model
import Verif.Fields.Props
import Verif.Fields.Spec
import Verif.Files.Lemmas
import Verif.Files.ModLemmas
import Verif.Files.Model
import Verif.Files.Props
import Verif.Files.Spec
import Verif.Flags.Lemmas
import Verif.Flags.Model
import Verif.Flags.Props
import Verif.Flags.Spec
import Verif.Funcs.ChangeLemmas
import Verif.Funcs.Lemmas
import Verif.Funcs.Model
import Verif.Funcs.MoreLemmas
import Verif.Funcs.Props
import Verif.Funcs.Spec
import Verif.Funcs.WatchLemmas
import Verif.Inject.Lemmas
import Verif.Inject.Model
import Verif.Inject.Props
import Verif.Inject.Spec
import Verif.Jumps.Lemmas
import Verif.Jumps.Model
import Verif.Jumps.Props
import Verif.Jumps.Spec
import Verif.Keys.Model
import Verif.Keys.Props
import Verif.Keys.Spec
import Verif.Leave.Lemmas
import Verif.Leave.Model
import Verif.Leave.Props
import Verif.Leave.Spec
import Verif.Lines.Lemmas
import Verif.Lines.Model
import Verif.Lines.Props
import Verif.Lines.Spec
import Verif.Locks.Lemmas
import Verif.Locks.Model
import Verif.Locks.Props
import Verif.Locks.Spec
import Verif.Look.Lemmas
import Verif.Look.Model
import Verif.Look.Props
import Verif.Look.Spec
import Verif.Modes.Lemmas
import Verif.Modes.Model
import Verif.Modes.Props
import Verif.Modes.Spec
import Verif.Module.Lemmas
import Verif.Module.Model
import Verif.Module.Props
import Verif.Module.Spec
import Verif.Module.Version
import Verif.Module.VersionLemmas
import Verif.Monitor.Lemmas
import Verif.Monitor.Lemmas2
import Verif.Monitor.Model
import Verif.Monitor.Props
import Verif.Monitor.Spec
import Verif.Mutation.Model
import Verif.Mutation.Props
import Verif.Mutation.Spec
import Verif.Nodes.Lemmas
import Verif.Nodes.Model
import Verif.Nodes.Props
import Verif.Nodes.Spec
import Verif.Order.Lemmas
import Verif.Order.Props
import Verif.Order.Spec
import Verif.Outside.Lemmas
import Verif.Outside.Props
import Verif.Outside.Spec
import Verif.Panics.CountLemmas
import Verif.Panics.Lemmas
import Verif.Panics.Model
import Verif.Panics.Props
import Verif.Panics.Spec
import Verif.Pipeline.Lemmas
import Verif.Pipeline.Lemmas2
import Verif.Pipeline.Model
import Verif.Pipeline.Props
import Verif.Pipeline.Spec
import Verif.Pkgs.Lemmas
import Verif.Pkgs.Model
import Verif.Pkgs.Props
import Verif.Pkgs.Spec
import Verif.Reach.Lemmas
import Verif.Reach.Model
import Verif.Reach.Props
import Verif.Reach.Spec
import Verif.Report.Lemmas
import Verif.Report.Model
import Verif.Report.Props
import Verif.Report.Spec
import Verif.Result.DecLemmas
import Verif.Result.EncLemmas
import Verif.Result.Model
import Verif.Result.Props
import Verif.Result.RefLemmas
import Verif.Result.Spec
import Verif.Result.TreeLemmas
import Verif.Returns.Build
import Verif.Returns.Lemmas
import Verif.Returns.Model
import Verif.Returns.Props
import Verif.Returns.Rewrite
import Verif.Returns.Spec
import Verif.Runs.Lemmas
import Verif.Runs.Model
import Verif.Runs.Props
import Verif.Runs.Spec
import Verif.Sched.Lemmas
import Verif.Sched.Model
import Verif.Sched.Props
import Verif.Sched.Spec
import Verif.Scope.Lemmas
import Verif.Scope.Model
import Verif.Scope.Props
import Verif.Scope.Spec
import Verif.Script.Lemmas
import Verif.Script.Model
import Verif.Script.Props
import Verif.Script.Spec
import Verif.Seen.Lemmas
import Verif.Seen.Model
import Verif.Seen.Props
import Verif.Seen.Spec
import Verif.Select.Lemmas
import Verif.Select.Model
import Verif.Select.Props
import Verif.Select.Spec
import Verif.Serve.Lemmas
import Verif.Serve.Model
import Verif.Serve.Props
import Verif.Serve.Spec
import Verif.Stack.Model
import Verif.Stack.Props
import Verif.Stack.Spec
import Verif.Static.Lemmas
import Verif.Static.Model
import Verif.Static.Props
import Verif.Static.Spec
import Verif.Storage.Lemmas
import Verif.Storage.Model
import Verif.Storage.Props
import Verif.Storage.Spec
import Verif.Target.Lemmas
import Verif.Target.Model
import Verif.Target.Props
import Verif.Target.Spec
import Verif.Temps.Lemmas
import Verif.Temps.Model
import Verif.Temps.Props
import Verif.Temps.Spec
import Verif.Tidy.Lemmas
import Verif.Tidy.Props
import Verif.Tidy.Spec
import Verif.Timing.Lemmas
import Verif.Timing.Props
import Verif.Timing.Spec
import Verif.Total.Lemmas
import Verif.Total.Model
import Verif.Total.Props
import Verif.Total.Spec
import Verif.Util.Lemmas
import Verif.Util.Model
import Verif.Util.Props
import Verif.Util.Spec
import Verif.Verdict.Lemmas
import Verif.Verdict.Model
import Verif.Verdict.Props
import Verif.Verdict.Spec
import Verif.Versions.Lemmas
import Verif.Versions.Model
import Verif.Versions.Props
import Verif.Versions.Spec
import Verif.Whole.Lemmas
import Verif.Whole.Model
import Verif.Whole.Props
import Verif.Whole.Spec
import Verif.Wire.FieldLemmas
import Verif.Wire.Lemmas
import Verif.Wire.Model
import Verif.Wire.Props
import Verif.Wire.Server
import Verif.Wire.Spec
import Verif.Workspace.Lemmas
import Verif.Workspace.Model
import Verif.Workspace.Props
import Verif.Workspace.Spec
import Verif.Zero.Model
import Verif.Zero.Props
import Verif.Zero.Spec
import Verif.Audit
