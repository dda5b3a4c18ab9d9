import Verif.Props.Varint
import Verif.Props.VarintStrict
import Verif.Props.Triplet
import Verif.Props.Merge
import Verif.Props.Union
import Verif.Props.Order
import Verif.Props.Names
import Verif.Props.Entry
import Verif.Props.Mtbl
import Verif.Props.Rrset
import Verif.Props.Index
import Verif.Props.Rdata
import Verif.Props.Timeouts
import Verif.Props.Offset
import Verif.Props.Format
import Verif.Props.Calendar
import Verif.Props.Symbols
import Verif.Props.Dupsort
import Verif.Props.Lookup
import Verif.Props.Addr
import Verif.Props.Setters
import Verif.Props.QueryFilter
import Verif.Props.Reader
import Verif.Props.Aggregate
import Verif.Props.Stats
import Verif.Props.Json
import Verif.Props.Ranges
import Verif.Props.Fileset
import Verif.Props.Unaggregated
import Verif.Props.TextForm
import Verif.Props.Arguments
import Verif.Props.ParseTime
import Verif.Props.LookupRun
import Verif.Props.Vector
import Verif.Props.Dump
import Verif.Props.Command
import Verif.Props.Program
import Verif.Props.Metadata
import Verif.Props.StatsText
import Verif.Props.QueryErrors
import Verif.Props.Lifetimes
import Verif.Props.IterShape
import Verif.Props.DumpOptions
import Verif.Props.Counters
import Verif.Props.Strings
import Verif.Props.MergeMemory
import Verif.Props.Live
import Verif.Props.LiveExact
import Verif.Props.LiveRdata
import Verif.Props.PtrHeap
import Verif.Props.Base64
import Verif.Props.Base32
import Verif.Props.SpscQueue
import Verif.Props.CStrings
import Verif.Props.HexStr
import Verif.Props.Crc32c
import Verif.Props.MyFileset
import Verif.Props.ReadBytes
import Verif.Props.Rate
import Verif.Props.Spooldir
import Verif.Props.Zonefile
import Verif.Props.Lookup3
import Verif.Props.ArgFiles
