import Verif.Dict
import Verif.DB.Backend
import Verif.DB.CacheBackend
import Verif.DB.History
import Verif.DB.CacheLemmas
import Verif.DB.CacheLemmas2
import Verif.DB.CacheLemmas3
import Verif.DB.HistoryInv
import Verif.DB.HistoryProofs
import Verif.DB.Alive
import Verif.DB.HistoryMore
import Verif.DB.Trace
import Verif.DB.HitLemmas
import Verif.DB.Example
import Verif.DB.CheckFun
import Verif.DB.NullBuild
import Verif.Props.DB
import Verif.Props.DBFunctions
import Verif.DB.NullBuild2
import Verif.Props.DBNull
import Verif.Props.DBCalls
import Verif.Props.DBDelete
import Verif.DB.SqliteBackend
import Verif.DB.SqliteStore2
import Verif.DB.SqlitePrepare
import Verif.DB.SqliteInv
import Verif.DB.SqliteHistory
import Verif.DB.SqliteTrace
import Verif.DB.SqliteHit
import Verif.DB.SqliteLinked
import Verif.DB.SqliteExample
import Verif.Props.DBSqlite
import Verif.Props.DBSqlite2
import Verif.DB.SqliteKeep
import Verif.DB.SqliteNull
import Verif.Props.DBSqliteNull
import Verif.Props.DBSqliteFun
import Verif.Props.DBNullExamples
import Verif.DB.Pickle
import Verif.Props.DBPickle
import Verif.Sched.Core
import Verif.Sched.Spec
import Verif.Sched.EvLemmas
import Verif.Sched.Inv
import Verif.Sched.Inv2
import Verif.Sched.InvStep
import Verif.Sched.Log
import Verif.Sched.Maps
import Verif.Sched.Graph
import Verif.Sched.Side
import Verif.Props.Sched
import Verif.Props.SchedExamples
import Verif.Sched.Measure
import Verif.Sched.Progress
import Verif.Sched.Fair
import Verif.Sched.Shutdown
import Verif.Sched.RoundRobin
import Verif.Props.SchedLive
import Verif.Rpc.Core
import Verif.Rpc.Inv
import Verif.Props.Rpc
import Verif.Fnmatch.Spec
import Verif.Fnmatch.Core
import Verif.Fnmatch.Proof
import Verif.Props.Fnmatch
import Verif.Posix
import Verif.Glob.Core
import Verif.Glob.Spec
import Verif.Glob.Proof
import Verif.Props.Glob
import Verif.Path.Core
import Verif.Props.Path
import Verif.Functools.Core
import Verif.Functools.Spec
import Verif.Functools.Proof
import Verif.Props.Functools
import Verif.Main.Core
import Verif.Props.Main
import Verif.Install.Core
import Verif.Props.Install
import Verif.Platform.Core
import Verif.Platform.Spec
import Verif.Props.Platform
import Verif.Props.PlatformCached
import Verif.Props.Search
import Verif.Builders.Core
import Verif.Props.Builders
import Verif.Builders.File
import Verif.Props.FileOps
import Verif.Props.CopyRegex
import Verif.Builders.Guess
import Verif.Props.Guess
import Verif.Builders.Library
import Verif.Props.Library
import Verif.Msvc.Core
import Verif.Props.Msvc
import Verif.Props.MsvcCl
import Verif.Props.Terminal
import Verif.Props.PlatformGuess
import Verif.Props.GccFactory
import Verif.Execute.Core
import Verif.Props.Execute
import Verif.Console.Core
import Verif.Props.Console
import Verif.Gcc.Core
import Verif.Props.Gcc
import Verif.Gcc.Command
import Verif.Props.GccCommand
import Verif.Props.GccLibs
import Verif.Persist.Core
import Verif.Props.Persist
import Verif.Calls.Core
import Verif.Props.Calls
import Verif.Calls.Clean
import Verif.Calls.CleanLemmas
import Verif.Calls.Incr
import Verif.Props.Clean
import Verif.Props.CleanSqlite
import Verif.Props.Shim
import Verif.Text.Core
import Verif.Props.Text
import Verif.Alias.Core
import Verif.Props.Alias
import Verif.Naming.Core
import Verif.Props.Naming
import Verif.Functools.Files
import Verif.Props.Files
import Verif.Ocaml.Core
import Verif.Props.Ocaml
import Verif.Props.OcamlBuild
import Verif.Config.Core
import Verif.Config.Names
import Verif.Props.Config
import Verif.Props.ConfigTests
import Verif.Props.ConfigNames
import Verif.Props.GccFiles
import Verif.Calls.Tools
import Verif.Props.Tools
import Verif.Props.ToolsEx
import Verif.Props.SqliteVersion
import Verif.Props.Format
import Verif.Props.Process
import Verif.Props.Command
import Verif.Props.Rel
import Verif.Props.Threads
import Verif.Props.Killed
import Verif.Props.GccLink
import Verif.Props.Temp
import Verif.Props.Source
import Verif.Props.Target
import Verif.Props.Java
import Verif.Props.Checks
import Verif.Props.Group
import Verif.Props.Remote
import Verif.Props.Reader
import Verif.Props.OcamlCommand
import Verif.Props.Small
import Verif.Props.Record
import Verif.Props.GccProject
import Verif.Props.GccProjectEx
import Verif.Props.DBEngines
import Verif.Props.Options
import Verif.Props.TextMany
import Verif.Props.Scala
import Verif.Props.BuilderChecks
import Verif.Props.ConfigResults
import Verif.Props.Versions
import Verif.Props.Found
import Verif.Props.OcamlBoth
import Verif.Props.Pickling
import Verif.Execute.Procs
import Verif.Props.Procs
import Verif.Path.Operators
import Verif.Props.Operators
import Verif.Ocaml.Rebuild
import Verif.Props.OcamlRebuild
import Verif.Msvc.Shown
import Verif.Props.MsvcShown
import Verif.Props.GccMade
import Verif.Props.ExecuteWait
import Verif.Props.TextRegex
import Verif.Props.ConfigGet
import Verif.Props.Hooks
import Verif.Props.Buildroot
import Verif.Props.PlatformNames
import Verif.Props.OcamlLex
import Verif.Props.OcamlMade
import Verif.Props.ConfigTools
import Verif.Props.MsvcLib
import Verif.Props.ConfigPrograms
import Verif.Props.ConfigTypes
import Verif.Props.Made
import Verif.Props.JavaHome
import Verif.Props.ConfigEqual
import Verif.Props.Import
import Verif.Props.Lines
