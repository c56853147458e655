import Verif.Core.Cost
import Verif.Core.Cost2
import Verif.Core.Cost3
import Verif.Core.Cost4
import Verif.Core.Grow
import Verif.Core.Inv
import Verif.Core.KeysOnce
import Verif.Core.Sim
import Verif.Core.Sim2
import Verif.Core.Sim3
import Verif.Core.Sim4
import Verif.Core.Sim5
import Verif.Core.Sim6
import Verif.Core.Succ
import Verif.Core.Succ2
import Verif.Core.Term
import Verif.Core.Term2
import Verif.Model.Abc
import Verif.Model.AsDictThreads
import Verif.Model.Chain
import Verif.Model.Check
import Verif.Model.ClassHooks
import Verif.Model.Closured
import Verif.Model.ClosuredImport
import Verif.Model.Code
import Verif.Model.Core
import Verif.Model.CorePickler
import Verif.Model.Detect
import Verif.Model.Dict
import Verif.Model.DictView
import Verif.Model.Diff
import Verif.Model.DiffImport
import Verif.Model.Dispatch
import Verif.Model.DumpModule
import Verif.Model.FileFd
import Verif.Model.FileHandle
import Verif.Model.FileRace
import Verif.Model.FindSource
import Verif.Model.FuncAttrs
import Verif.Model.FuncGlobals
import Verif.Model.GetBlocks
import Verif.Model.GetImport
import Verif.Model.Identify
import Verif.Model.Indent
import Verif.Model.Info
import Verif.Model.IsDill
import Verif.Model.Keys
import Verif.Model.Live
import Verif.Model.LoadTypes
import Verif.Model.Locate
import Verif.Model.Locks
import Verif.Model.Logger
import Verif.Model.Markers
import Verif.Model.MatchLambda
import Verif.Model.Methods
import Verif.Model.Modules
import Verif.Model.NamedTuple
import Verif.Model.Numpy
import Verif.Model.ObjImport
import Verif.Model.OldNames
import Verif.Model.OldSets
import Verif.Model.OldTables
import Verif.Model.Outermost
import Verif.Model.Overwrite
import Verif.Model.Peek
import Verif.Model.Pickles
import Verif.Model.PyStr
import Verif.Model.Reducers
import Verif.Model.SafeOpen
import Verif.Model.Scripts
import Verif.Model.Session
import Verif.Model.SessionGraph
import Verif.Model.Settings
import Verif.Model.Shims
import Verif.Model.Snapshot
import Verif.Model.Source
import Verif.Model.Stash
import Verif.Model.Super
import Verif.Model.Swaps
import Verif.Model.Temp
import Verif.Model.TempFile
import Verif.Model.TypeDict
import Verif.Model.TypeNames
import Verif.Model.Weakref
import Verif.Model.Wire
import Verif.Model.Wrap
import Verif.Props.Abc
import Verif.Props.AsDictThreads
import Verif.Props.Chain
import Verif.Props.Check
import Verif.Props.ClassHooks
import Verif.Props.Closured
import Verif.Props.ClosuredImport
import Verif.Props.Code
import Verif.Props.Core
import Verif.Props.CoreCost
import Verif.Props.CoreEx
import Verif.Props.CoreNames
import Verif.Props.CorePickler
import Verif.Props.CoreSame
import Verif.Props.CoreSets
import Verif.Props.CoreSucc
import Verif.Props.CoreTerm
import Verif.Props.Detect
import Verif.Props.DictView
import Verif.Props.Diff
import Verif.Props.DiffExact
import Verif.Props.DiffImport
import Verif.Props.Dispatch
import Verif.Props.DumpModule
import Verif.Props.EndToEnd
import Verif.Props.Exact
import Verif.Props.FileFd
import Verif.Props.FileHandle
import Verif.Props.FileRace
import Verif.Props.FindSource
import Verif.Props.FuncAttrs
import Verif.Props.FuncGlobals
import Verif.Props.Generations
import Verif.Props.GetBlocks
import Verif.Props.GetImport
import Verif.Props.GlobalVars
import Verif.Props.GlobalVarsTerm
import Verif.Props.Identify
import Verif.Props.Indent
import Verif.Props.Info
import Verif.Props.IsDill
import Verif.Props.Keys
import Verif.Props.Live
import Verif.Props.LoadTypes
import Verif.Props.Locate
import Verif.Props.Locks
import Verif.Props.Logger
import Verif.Props.Markers
import Verif.Props.MatchLambda
import Verif.Props.Methods
import Verif.Props.Modules
import Verif.Props.NamedTuple
import Verif.Props.Numpy
import Verif.Props.ObjImport
import Verif.Props.OldNames
import Verif.Props.OldSets
import Verif.Props.OldSetsAgain
import Verif.Props.OldSetsCopy
import Verif.Props.Outermost
import Verif.Props.Overwrite
import Verif.Props.Peek
import Verif.Props.Pickles
import Verif.Props.PyStr
import Verif.Props.Reducers
import Verif.Props.SafeOpen
import Verif.Props.Scripts
import Verif.Props.Session
import Verif.Props.SessionGraph
import Verif.Props.SessionLoad
import Verif.Props.Settings
import Verif.Props.Shims
import Verif.Props.Snapshot
import Verif.Props.Source
import Verif.Props.SourceBytes
import Verif.Props.Stash
import Verif.Props.Super
import Verif.Props.Swaps
import Verif.Props.Temp
import Verif.Props.TempFile
import Verif.Props.TypeDict
import Verif.Props.TypeNames
import Verif.Props.Weakref
import Verif.Props.Wire
import Verif.Props.WireFits
import Verif.Props.WireVersions
import Verif.Props.Wrap
import Verif.Spec.Again
import Verif.Spec.Core
import Verif.Spec.CoreTerm
import Verif.Spec.Locate
import Verif.Spec.Refs
import Verif.Spec.SessionGraph
import Verif.Spec.WF
