import Verif.Props.Varint
import Verif.Props.Names
import Verif.Props.Delta
import Verif.Props.Copy
import Verif.Props.DeltaReader
import Verif.Props.Decomp
import Verif.Props.Writers
import Verif.Props.Index
import Verif.Props.Pack
import Verif.Props.PackStall
import Verif.Props.PackDelta
import Verif.Props.Loose
import Verif.Props.Memory
import Verif.Props.PackedDB
import Verif.Props.PackCreate
import Verif.Props.Compound
import Verif.Props.Alternates
import Verif.Props.GitStore
import Verif.Props.LockedFD
import Verif.Props.Contains
import Verif.Props.MergeDeltas
import Verif.Props.Damaged
import Verif.Props.PackDamaged
import Verif.Props.Paths
import Verif.Props.Fds
import Verif.Props.MergeReader
import Verif.Props.Messages
import Verif.Props.Values
import Verif.Props.Lazy
import Verif.Props.Text
import Verif.Props.Transfer
import Verif.Props.EntityIter
import Verif.Props.DryRun
import Verif.Props.Inflate
import Verif.Props.LargeIter
import Verif.Props.Sha1
import Verif.Props.AnyBytes
import Verif.Props.Window
import Verif.Props.Rfc
import Verif.Props.RawDelta
import Verif.Props.ChunkCheck
import Verif.Props.OneBlock
import Verif.Props.FileMemory
import Verif.Props.CrcBurst
import Verif.Props.Glob
import Verif.Props.PackGen
import Verif.Props.OutStreams
import Verif.Props.WrongSize
import Verif.Props.Live
import Verif.Props.ShortRead
import Verif.Props.MemRaw
import Verif.Props.PackDup
import Verif.Props.StoreFails
import Verif.Props.ChunkJoin
import Verif.Props.Determined
import Verif.Props.StoredBlocks
import Verif.Props.PackResume
import Verif.Props.LiveRead
import Verif.Props.Details
import Verif.Props.LargeLooseCases
import Verif.Props.Edges
import Verif.Props.LiveComplete
import Verif.Props.LiveCensus
import Verif.Props.Count
import Verif.Props.Caught
import Verif.Props.AfterClose
import Verif.Props.AnyPackIter
import Verif.Props.CreateAgain
import Verif.Props.Probes
import Verif.Props.Nest
import Verif.Props.Local
import Verif.Props.MoreDetails
import Verif.Props.Raises
import Verif.Props.Invent
import Verif.Props.GitRaises
import Verif.Props.Retry
import Verif.Props.RefreshRaises
import Verif.Props.AnyPast
import Verif.Props.AbbrevText
import Verif.Props.Requests
import Verif.Props.DeltaMemory
import Verif.Props.LargeSizes
import Verif.Props.Outside
import Verif.Props.Threads
import Verif.Props.AnyTree
import Verif.Props.GitLife
import Verif.Props.Cycles
import Verif.Props.Digits
import Verif.Props.GitThreads
import Verif.Props.SharedCursor
import Verif.Props.LazyThreads
import Verif.Props.WinLock
import Verif.Props.WinStore
import Verif.Props.OldZlib
import Verif.Props.OldZlibIter
import Verif.Props.WinCreate
import Verif.Props.Modes
import Verif.Props.EntityThreads
import Verif.Props.MemThreads
import Verif.Props.UpdateThreads
import Verif.Props.FirstPacks
