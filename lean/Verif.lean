import Verif.Lemmas.Ast
import Verif.Lemmas.AstEval
import Verif.Lemmas.AstStr
import Verif.Lemmas.Blocked
import Verif.Lemmas.CapEdits
import Verif.Lemmas.Cells
import Verif.Lemmas.ClaimRun
import Verif.Lemmas.Claims
import Verif.Lemmas.CompCaptures
import Verif.Lemmas.CompGen
import Verif.Lemmas.CompHeap
import Verif.Lemmas.CompIdle
import Verif.Lemmas.CompNest
import Verif.Lemmas.CompSends
import Verif.Lemmas.CompStore
import Verif.Lemmas.CompSwap
import Verif.Lemmas.CompTrack
import Verif.Lemmas.Composition
import Verif.Lemmas.Counter
import Verif.Lemmas.Crash
import Verif.Lemmas.CrashIndex
import Verif.Lemmas.Dig
import Verif.Lemmas.Edit
import Verif.Lemmas.FakePad
import Verif.Lemmas.Floats
import Verif.Lemmas.Foot
import Verif.Lemmas.Grid
import Verif.Lemmas.GridClientRun
import Verif.Lemmas.GridClients
import Verif.Lemmas.GridCrash
import Verif.Lemmas.GridHist
import Verif.Lemmas.Json
import Verif.Lemmas.JsonSpec
import Verif.Lemmas.JsonStr
import Verif.Lemmas.Label
import Verif.Lemmas.Linear
import Verif.Lemmas.Listing
import Verif.Lemmas.ListingRun
import Verif.Lemmas.LockClients
import Verif.Lemmas.LockFair
import Verif.Lemmas.LockLife
import Verif.Lemmas.LockPhase
import Verif.Lemmas.LockProgress
import Verif.Lemmas.LockQuiet
import Verif.Lemmas.LockSeq
import Verif.Lemmas.LockSim
import Verif.Lemmas.LockTS
import Verif.Lemmas.MapEdit
import Verif.Lemmas.MapMerge
import Verif.Lemmas.MapTodict
import Verif.Lemmas.Meta
import Verif.Lemmas.MetaHist
import Verif.Lemmas.MetaPad
import Verif.Lemmas.MixPad
import Verif.Lemmas.Pad
import Verif.Lemmas.PadBlocks
import Verif.Lemmas.PadFail
import Verif.Lemmas.PadHist
import Verif.Lemmas.PadOwn
import Verif.Lemmas.PadShared
import Verif.Lemmas.PickleBytes
import Verif.Lemmas.PickleDepth
import Verif.Lemmas.PickleGraph
import Verif.Lemmas.PickleKeys
import Verif.Lemmas.PickleSame
import Verif.Lemmas.PickleSave
import Verif.Lemmas.PickleTorn
import Verif.Lemmas.Piped
import Verif.Lemmas.Pool
import Verif.Lemmas.PoolArgs
import Verif.Lemmas.PqMeta
import Verif.Lemmas.Private
import Verif.Lemmas.RG
import Verif.Lemmas.RGAdd
import Verif.Lemmas.RGDel
import Verif.Lemmas.RGWide
import Verif.Lemmas.RandomNest
import Verif.Lemmas.Records
import Verif.Lemmas.ResTracker
import Verif.Lemmas.Rmerge
import Verif.Lemmas.SectRun
import Verif.Lemmas.Sections
import Verif.Lemmas.Shm
import Verif.Lemmas.ShmWF
import Verif.Lemmas.Slots
import Verif.Lemmas.Smash
import Verif.Lemmas.StickyHist
import Verif.Lemmas.StickyShared
import Verif.Lemmas.Subframe
import Verif.Lemmas.TagIndex
import Verif.Lemmas.TagIndexHist
import Verif.Lemmas.TrackerHist
import Verif.Lemmas.TrackerJson
import Verif.Lemmas.TrackerPad
import Verif.Lemmas.TwoStep
import Verif.Lemmas.TwoStepIndex
import Verif.Lemmas.TwoStepLock
import Verif.Lemmas.Unnest
import Verif.Lemmas.Views
import Verif.Model.Ast
import Verif.Model.AtExit
import Verif.Model.Bytewise
import Verif.Model.Claims
import Verif.Model.Clients
import Verif.Model.Codecs
import Verif.Model.CompDyn
import Verif.Model.CompGen
import Verif.Model.CompHeap
import Verif.Model.CompHook
import Verif.Model.CompNest
import Verif.Model.CompSelf
import Verif.Model.CompTrack
import Verif.Model.CompViews
import Verif.Model.Composition
import Verif.Model.DigRaise
import Verif.Model.Dump
import Verif.Model.Dynamic
import Verif.Model.ExcReport
import Verif.Model.FakePad
import Verif.Model.Fine
import Verif.Model.Floats
import Verif.Model.Func
import Verif.Model.FuncIter
import Verif.Model.Gmap
import Verif.Model.GridClients
import Verif.Model.Index
import Verif.Model.Json
import Verif.Model.JsonMeta
import Verif.Model.Label
import Verif.Model.ListClients
import Verif.Model.LockLife
import Verif.Model.LockTS
import Verif.Model.LockTimeout
import Verif.Model.MapHeap
import Verif.Model.Memutilz
import Verif.Model.MetaPad
import Verif.Model.Mosaic
import Verif.Model.Nested
import Verif.Model.Notepad
import Verif.Model.PadClients
import Verif.Model.Pickle
import Verif.Model.Piped
import Verif.Model.Pivot
import Verif.Model.Pool
import Verif.Model.PoolArgs
import Verif.Model.PoolLife
import Verif.Model.PoolReady
import Verif.Model.PoolRecs
import Verif.Model.PqMeta
import Verif.Model.RandomNest
import Verif.Model.ResTracker
import Verif.Model.Scrape
import Verif.Model.ScrapeAst
import Verif.Model.Sections
import Verif.Model.SharedLog
import Verif.Model.Shm
import Verif.Model.Smash
import Verif.Model.Source
import Verif.Model.Structures
import Verif.Model.Subframe
import Verif.Model.Tables
import Verif.Model.Tracker
import Verif.Model.TrackerJson
import Verif.Model.TrackerPath
import Verif.Model.TwoStep
import Verif.Model.Views
import Verif.Model.Wrappers
import Verif.Props.Ast
import Verif.Props.AtExit
import Verif.Props.CapEdits
import Verif.Props.Captures
import Verif.Props.Claims
import Verif.Props.CompDyn
import Verif.Props.CompGen
import Verif.Props.CompHeap
import Verif.Props.CompHook
import Verif.Props.CompIdle
import Verif.Props.CompNest
import Verif.Props.CompRenamed
import Verif.Props.CompSelf
import Verif.Props.CompTrack
import Verif.Props.Composition
import Verif.Props.Dig
import Verif.Props.DigRaise
import Verif.Props.DowncastDf
import Verif.Props.Dump
import Verif.Props.Dynamic
import Verif.Props.Edit
import Verif.Props.EditRaise
import Verif.Props.ExcReport
import Verif.Props.FakePad
import Verif.Props.Floats
import Verif.Props.Frames
import Verif.Props.Func
import Verif.Props.FuncIter
import Verif.Props.Gmap
import Verif.Props.Grid
import Verif.Props.GridClients
import Verif.Props.GridCrash
import Verif.Props.Json
import Verif.Props.JsonMeta
import Verif.Props.Label
import Verif.Props.Linear
import Verif.Props.Listing
import Verif.Props.Lock
import Verif.Props.LockFair
import Verif.Props.LockLife
import Verif.Props.LockTimeout
import Verif.Props.LockWear
import Verif.Props.LockedAdd
import Verif.Props.MapEdit
import Verif.Props.MapMerge
import Verif.Props.MapTodict
import Verif.Props.MetaIndex
import Verif.Props.MetaPad
import Verif.Props.MixPad
import Verif.Props.Mosaic
import Verif.Props.Nesting
import Verif.Props.Notepad
import Verif.Props.PadBlocks
import Verif.Props.PadOwn
import Verif.Props.PadPickle
import Verif.Props.PadShared
import Verif.Props.Pickle
import Verif.Props.PickleKeys
import Verif.Props.Piped
import Verif.Props.Pivot
import Verif.Props.Pool
import Verif.Props.PoolArgs
import Verif.Props.PoolLife
import Verif.Props.PoolReady
import Verif.Props.PoolRecs
import Verif.Props.PqMeta
import Verif.Props.RandomNest
import Verif.Props.Records
import Verif.Props.ResTracker
import Verif.Props.Rmerge
import Verif.Props.Scrape
import Verif.Props.ScrapeAst
import Verif.Props.Sections
import Verif.Props.Sends
import Verif.Props.SharedLog
import Verif.Props.Shm
import Verif.Props.Smash
import Verif.Props.Source
import Verif.Props.StickyShared
import Verif.Props.Structures
import Verif.Props.Subframe
import Verif.Props.Tables
import Verif.Props.TagIndex
import Verif.Props.Tracker
import Verif.Props.TrackerJson
import Verif.Props.TrackerPath
import Verif.Props.TwoStep
import Verif.Props.TwoStepIndex
import Verif.Props.Unnest
import Verif.Props.Views
import Verif.Props.Wrappers
import Verif.Py.Dict
import Verif.Py.Err
import Verif.Py.Lit
import Verif.Py.PyLits
import Verif.Py.Str
import Verif.Py.Tactics
import Verif.Py.Utf8
import Verif.Py.Val
import Verif.Spec.Ast
import Verif.Spec.Claims
import Verif.Spec.CompGen
import Verif.Spec.CompHook
import Verif.Spec.CompIdle
import Verif.Spec.CompSelf
import Verif.Spec.CompTrack
import Verif.Spec.Composition
import Verif.Spec.DigRaise
import Verif.Spec.FakePad
import Verif.Spec.Floats
import Verif.Spec.Grid
import Verif.Spec.GridClients
import Verif.Spec.Index
import Verif.Spec.Json
import Verif.Spec.Label
import Verif.Spec.Linear
import Verif.Spec.ListClients
import Verif.Spec.LockFair
import Verif.Spec.LockLife
import Verif.Spec.LockWear
import Verif.Spec.MapHeap
import Verif.Spec.MapMerge
import Verif.Spec.MetaIndex
import Verif.Spec.MetaPad
import Verif.Spec.MixPad
import Verif.Spec.Nested
import Verif.Spec.Notepad
import Verif.Spec.Own
import Verif.Spec.PadBlocks
import Verif.Spec.Pickle
import Verif.Spec.PickleKeys
import Verif.Spec.Piped
import Verif.Spec.PoolArgs
import Verif.Spec.PoolLife
import Verif.Spec.PqMeta
import Verif.Spec.RandomNest
import Verif.Spec.ResTracker
import Verif.Spec.Scrape
import Verif.Spec.Sections
import Verif.Spec.Shared
import Verif.Spec.SharedLog
import Verif.Spec.Smash
import Verif.Spec.Sticky
import Verif.Spec.StickyShared
import Verif.Spec.Subframe
import Verif.Spec.Tables
import Verif.Spec.Tracker
import Verif.Spec.TrackerJson
import Verif.Spec.TwoStep
import Verif.Spec.Views
