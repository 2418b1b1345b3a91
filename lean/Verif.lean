import Verif.Props.UriJoin
import Verif.Props.UriSplit
import Verif.Props.UriMisc
import Verif.Mem.Heap
import Verif.Mem.OpLemmas2
import Verif.Gen.Tree
import Verif.Props.MemLookup
import Verif.Props.MemOps
import Verif.Props.MemData
import Verif.Props.Dirs
import Verif.Props.Walk
import Verif.Props.CopyTree
import Verif.Props.Registry
import Verif.Props.RegThreads
import Verif.Props.MemLife
import Verif.Props.Lock
import Verif.Props.Zip
import Verif.Props.Local
import Verif.Props.UriStr
import Verif.Mem.Frame
import Verif.Gen.Frame
import Verif.Props.Isolation
import Verif.Gen.Tidy
import Verif.Props.Names
import Verif.Props.UriParser
import Verif.Props.Refusals
import Verif.Any.Ops
import Verif.Any.Disk
import Verif.Any.Sys
import Verif.Any.Laws
import Verif.Any.Walk
import Verif.Any.Copy
import Verif.Any.LocUri
import Verif.Any.DiskLemmas
import Verif.Any.SysLemmas
import Verif.Any.Pump
import Verif.Props.Across
import Verif.Props.UriEdges
import Verif.Props.Edges
import Verif.Props.Lines
import Verif.Any.Frail
import Verif.Any.FrailTree
import Verif.Any.FrailCopy
import Verif.Any.FrailSys
import Verif.Props.Faults
import Verif.Props.LocalRefusals
import Verif.Any.Merge
import Verif.Props.Merge
import Verif.Conc.Prog
import Verif.Conc.Fs
import Verif.Conc.Seq
import Verif.Conc.Pool
import Verif.Conc.Put
import Verif.Conc.Rely
import Verif.Conc.Safe
import Verif.Conc.Threads
import Verif.Conc.Twin
import Verif.Conc.Alone
import Verif.Conc.Isolated
import Verif.Conc.Locked
import Verif.Conc.Each
import Verif.Conc.LockedWp
import Verif.Conc.LockedEnd
import Verif.Conc.Door
import Verif.Conc.LockedAll
import Verif.Conc.Calls
import Verif.Conc.Op
import Verif.Conc.OpFit
import Verif.Conc.OpWp
import Verif.Conc.OpSeq
import Verif.Conc.Agree
import Verif.Props.Threads
import Verif.Props.Homes
import Verif.Props.LockedWork
import Verif.Props.LockedDone
import Verif.Props.Shutdown
import Verif.Mem.Dump
import Verif.Spec.DumpSpec
import Verif.Mem.DumpLemmas
import Verif.Props.Dump
import Verif.Any.Nest
import Verif.Props.Nest
import Verif.Any.Links
import Verif.Any.LocLink
import Verif.Any.LocMove
import Verif.Props.LocalLinks
import Verif.Props.LocalMove
import Verif.Any.Flow
import Verif.Any.LocFlow
import Verif.Any.LocTree
import Verif.Props.LocalTrees
import Verif.Props.UriWindows
import Verif.Any.Zys
import Verif.Any.ZipUri
import Verif.Any.ZysLemmas
import Verif.Any.ZipFlow
import Verif.Any.ZipInto
import Verif.Props.ZipTrees
import Verif.Uri.Splitext
import Verif.Props.UriExt
import Verif.Any.Plain
import Verif.Any.SameBase
import Verif.Any.Same
import Verif.Any.SameAlg
import Verif.Any.SameMove
import Verif.Props.Same
import Verif.Props.UriEq
import Verif.Spec.Through
import Verif.Any.MemFlow
import Verif.Props.MemTrees
import Verif.Props.Relative
import Verif.Any.Many
import Verif.Any.ManyLemmas
import Verif.Props.Many
import Verif.Any.Says
import Verif.Any.SaysLemmas
import Verif.Props.Says
import Verif.Reg.Plugins
import Verif.Props.Plugins
import Verif.Any.Files
import Verif.Any.FilesLemmas
import Verif.Mem.Less
import Verif.Any.Trim
import Verif.Props.Files
import Verif.Lock.Several
import Verif.Props.Several
import Verif.Props.Ordered
import Verif.Any.Steer
import Verif.Props.Steer
import Verif.Props.Sweep
import Verif.Any.Arc
import Verif.Any.ArcLemmas
import Verif.Props.Arc
import Verif.Any.Pack
import Verif.Props.Pack
import Verif.Any.Part
import Verif.Any.PartUri
import Verif.Any.PartSys
import Verif.Any.PartMem
import Verif.Any.PartLoc
import Verif.Any.Reqs
import Verif.Props.Part
import Verif.Any.ArcFlow
import Verif.Props.ArcTrees
import Verif.Zip.Open
import Verif.Props.ZipOpen
import Verif.Any.Freight
import Verif.Props.Freight
import Verif.Any.Dropped
import Verif.Props.Dropped
import Verif.Any.Exec
import Verif.Props.Exec
import Verif.Any.LinkPlain
import Verif.Any.LinkSame
import Verif.Any.LinkActs
import Verif.Any.LinkTrees
import Verif.Any.LinkAlg
import Verif.Any.LinkCopy
import Verif.Props.MoveInv
import Verif.Any.LinkMove
import Verif.Props.SameLinks
import Verif.Any.LinkMany
import Verif.Any.LinkAcross
import Verif.Props.ManyLinks
import Verif.Any.Chute
import Verif.Any.ArcInto
import Verif.Props.ArcInto
import Verif.Any.Info
import Verif.Props.Info
