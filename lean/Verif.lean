import Verif.Props.Codec
import Verif.Props.Compaction
import Verif.Props.FileName
import Verif.Props.Phase
import Verif.Props.History
import Verif.Props.LinkedMap
import Verif.Props.ListFiles
import Verif.Props.Diff
import Verif.Props.Cache
import Verif.Props.ApplyItems
import Verif.Props.Remover
import Verif.Props.SetGet
import Verif.Props.Validate
import Verif.Props.Adjust
import Verif.Props.Names
import Verif.Props.Number
import Verif.Props.HashDir
import Verif.Props.Archive
import Verif.Props.ArchivePipe
import Verif.Props.Crash
import Verif.Props.Filesys
import Verif.Props.Float
import Verif.Props.SaveQueue
import Verif.Props.Versions
import Verif.Props.Source
import Verif.Props.SourceLists
import Verif.Props.Json5
import Verif.Props.Json
import Verif.Props.Export
import Verif.Props.ExportRoot
import Verif.Model.Accessor
import Verif.Spec.Accessor
import Verif.Props.Accessor
import Verif.Props.AccessorNames
import Verif.Spec.Access
import Verif.Props.AccessFns
import Verif.Props.Access
import Verif.Props.AccessSet
import Verif.Props.AccessLoaded
import Verif.Props.AccessPanic
import Verif.Model.DiffNamed
import Verif.Spec.DiffNamed
import Verif.Props.DiffNamed
import Verif.Props.DiffLoaded
import Verif.Spec.Session
import Verif.Props.Session
import Verif.Props.SessionEx
import Verif.Spec.Pipeline
import Verif.Props.Pipeline
import Verif.Props.PipelineEx
import Verif.Props.Location
import Verif.Props.LocationEx
import Verif.Props.DiffTyped
import Verif.Props.HistoryReal
import Verif.Props.HistoryRealEx
import Verif.Props.HistorySession
import Verif.Props.HistorySessionEx
import Verif.Props.SessionAny
import Verif.Props.HistoryLoose
import Verif.Props.HistoryLooseEx
import Verif.Props.HistoryCache
import Verif.Props.HistoryCacheEx
import Verif.Props.CopyOnWrite
import Verif.Props.Grammar
import Verif.Props.Shift
import Verif.Props.Removal
import Verif.Props.Shared

import Verif.Props.CrashRemoval
import Verif.Props.PhaseSize
import Verif.Props.Overlap
import Verif.Tests.LinkedMap
import Verif.Tests.Manual
import Verif.Tests.Diffs
import Verif.Tests.Export
import Verif.Tests.SimpleHistory
import Verif.Tests.Compaction
import Verif.Tests.Accessors
import Verif.Tests.Sizes
import Verif.Tests.Libraries
import Verif.Props.ExportText
import Verif.Props.ExportStable
import Verif.Props.AdjustExact
import Verif.Props.RemoveDir
import Verif.Props.LoadCost
import Verif.Props.ValidExact
import Verif.Props.Split
import Verif.Props.Convert
import Verif.Props.Written
import Verif.Props.ConvertLists
import Verif.Props.ConvertBytes
