import Verif.Basic
import Verif.FS
import Verif.Lib.AcceptLemmas
import Verif.Lib.AttrsLemmas
import Verif.Lib.AttrsRun
import Verif.Lib.Bridge
import Verif.Lib.ChangesLemmas
import Verif.Lib.Clean
import Verif.Lib.CleanCrash
import Verif.Lib.ConfigLemmas
import Verif.Lib.Crash
import Verif.Lib.Digits
import Verif.Lib.Effect
import Verif.Lib.ExecLemmas
import Verif.Lib.FSLemmas
import Verif.Lib.FSOps
import Verif.Lib.HistoryBacked
import Verif.Lib.HistoryKinds
import Verif.Lib.HistoryLemmas
import Verif.Lib.HistoryNeat
import Verif.Lib.HistoryRun
import Verif.Lib.HistoryStep
import Verif.Lib.HostPlain
import Verif.Lib.IgnoreLemmas
import Verif.Lib.JsonLemmas
import Verif.Lib.JsonSound
import Verif.Lib.LinksLemmas
import Verif.Lib.ListVar
import Verif.Lib.MoveAct
import Verif.Lib.MoveLook
import Verif.Lib.MoveMove
import Verif.Lib.MoveOk
import Verif.Lib.MoveRun
import Verif.Lib.MoveStep
import Verif.Lib.OneDev
import Verif.Lib.OneTree
import Verif.Lib.Orders
import Verif.Lib.OverlayLemmas
import Verif.Lib.OverlayMoved
import Verif.Lib.PathLemmas
import Verif.Lib.PhaseA
import Verif.Lib.PhaseACrash
import Verif.Lib.PhaseAOk
import Verif.Lib.PhaseARun
import Verif.Lib.PhaseRM
import Verif.Lib.Phases
import Verif.Lib.Plain
import Verif.Lib.RaceLemmas
import Verif.Lib.Region
import Verif.Lib.RemovePass
import Verif.Lib.RenamePass
import Verif.Lib.SandboxLemmas
import Verif.Lib.SetBlock
import Verif.Lib.SetDev
import Verif.Lib.SetOk
import Verif.Lib.SetRun
import Verif.Lib.Source
import Verif.Lib.TextLemmas
import Verif.Lib.TogetherClean
import Verif.Lib.TogetherDone
import Verif.Lib.TogetherGone
import Verif.Lib.TogetherLemmas
import Verif.Lib.TogetherRun
import Verif.Lib.White
import Verif.Lib.Whole
import Verif.Lib.Words
import Verif.Model.Accept
import Verif.Model.Access
import Verif.Model.Actions
import Verif.Model.Attrs
import Verif.Model.Base32
import Verif.Model.Caches
import Verif.Model.Changes
import Verif.Model.Cli
import Verif.Model.Config
import Verif.Model.ConfigCmd
import Verif.Model.ConfigFile
import Verif.Model.Count
import Verif.Model.Creds
import Verif.Model.DiffText
import Verif.Model.Exec
import Verif.Model.FirstProcess
import Verif.Model.Flags
import Verif.Model.Glob
import Verif.Model.History
import Verif.Model.Ignore
import Verif.Model.Json
import Verif.Model.JsonText
import Verif.Model.Limits
import Verif.Model.Links
import Verif.Model.ListText
import Verif.Model.Lock
import Verif.Model.Logger
import Verif.Model.Main
import Verif.Model.MountLife
import Verif.Model.MountPoints
import Verif.Model.Mounts
import Verif.Model.Moves
import Verif.Model.OneTree
import Verif.Model.Output
import Verif.Model.ParentSettings
import Verif.Model.Prepare
import Verif.Model.Process
import Verif.Model.Race
import Verif.Model.RaceIn
import Verif.Model.RawList
import Verif.Model.RawNames
import Verif.Model.Rights
import Verif.Model.RmdirRec
import Verif.Model.Sandboxes
import Verif.Model.ScanIn
import Verif.Model.Select
import Verif.Model.Settings
import Verif.Model.Setup
import Verif.Model.StartName
import Verif.Model.Stop
import Verif.Model.Together
import Verif.Props.AcceptChecks
import Verif.Props.AcceptKeeps
import Verif.Props.AcceptScope
import Verif.Props.Access
import Verif.Props.Attrs
import Verif.Props.Base32
import Verif.Props.BuiltIn
import Verif.Props.Caches
import Verif.Props.Cli
import Verif.Props.CliHelp
import Verif.Props.Config
import Verif.Props.ConfigBinds
import Verif.Props.ConfigCmd
import Verif.Props.ConfigFile
import Verif.Props.ConfigFiles
import Verif.Props.Count
import Verif.Props.Creds
import Verif.Props.Decode
import Verif.Props.Delete
import Verif.Props.Diff
import Verif.Props.DiffText
import Verif.Props.During
import Verif.Props.DuringHistory
import Verif.Props.Everything
import Verif.Props.EverythingMoves
import Verif.Props.Exec
import Verif.Props.Feasible
import Verif.Props.FeasibleMoves
import Verif.Props.FindMount
import Verif.Props.FirstProcess
import Verif.Props.Flags
import Verif.Props.Fresh
import Verif.Props.History
import Verif.Props.HistoryAccept
import Verif.Props.HistoryMoves
import Verif.Props.Ignore
import Verif.Props.IgnoreBang
import Verif.Props.IgnoreLines
import Verif.Props.IgnoreMoved
import Verif.Props.IgnoreNegate
import Verif.Props.IgnoreWild
import Verif.Props.Isolation
import Verif.Props.Join
import Verif.Props.Json
import Verif.Props.JsonText
import Verif.Props.Layers
import Verif.Props.Limits
import Verif.Props.Links
import Verif.Props.List
import Verif.Props.ListText
import Verif.Props.Lock
import Verif.Props.Logger
import Verif.Props.Main
import Verif.Props.Masked
import Verif.Props.MountLife
import Verif.Props.MountOptions
import Verif.Props.MountPlaces
import Verif.Props.MountPoints
import Verif.Props.Mounted
import Verif.Props.Mounts
import Verif.Props.Moved
import Verif.Props.Names
import Verif.Props.NewLast
import Verif.Props.OneTree
import Verif.Props.Origin
import Verif.Props.Output
import Verif.Props.ParentSettings
import Verif.Props.Prepare
import Verif.Props.Process
import Verif.Props.Race
import Verif.Props.RaceBoth
import Verif.Props.RaceIn
import Verif.Props.RawList
import Verif.Props.RawNames
import Verif.Props.Reject
import Verif.Props.RejectRest
import Verif.Props.Removal
import Verif.Props.Renames
import Verif.Props.Repeat
import Verif.Props.RepeatHistory
import Verif.Props.Reported
import Verif.Props.ReportedMoved
import Verif.Props.Restart
import Verif.Props.Rights
import Verif.Props.RmdirRec
import Verif.Props.ScanIn
import Verif.Props.Secrets
import Verif.Props.Select
import Verif.Props.SelectDir
import Verif.Props.SelectScope
import Verif.Props.Settings
import Verif.Props.Setup
import Verif.Props.Start
import Verif.Props.StartName
import Verif.Props.Steps
import Verif.Props.StepsHistory
import Verif.Props.Stop
import Verif.Props.StopAll
import Verif.Props.StopNegated
import Verif.Props.Storage
import Verif.Props.Suid
import Verif.Props.Together
import Verif.Props.Undo
import Verif.Props.View
import Verif.Props.ViewMoved
import Verif.Spec.Cli
import Verif.Spec.Core
import Verif.Spec.Glob
import Verif.Spec.Host
import Verif.Spec.Ignore
import Verif.Spec.Json
import Verif.Spec.Overlay
import Verif.Spec.Together
