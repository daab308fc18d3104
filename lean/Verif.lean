import Verif.Model.Prim
import Verif.Model.Types
import Verif.Model.Encoders
import Verif.Model.Statistics
import Verif.Model.Chunk
import Verif.Model.Index
import Verif.Model.Bloom
import Verif.Model.Writer
import Verif.Model.EnvStd
import Verif.Spec.Format
import Verif.Spec.Machine
import Verif.Spec.Reader
import Verif.Proofs.Prim
import Verif.Proofs.Ts2Diff
import Verif.Proofs.Page
import Verif.Proofs.Chunk
import Verif.Proofs.BMap
import Verif.Proofs.File
import Verif.Proofs.Writer
import Verif.Proofs.Index
import Verif.Proofs.Close
import Verif.Proofs.Layout
import Verif.Proofs.Read
import Verif.Proofs.ReadData
import Verif.Proofs.Machine
import Verif.Proofs.Main
import Verif.Proofs.Sparse
import Verif.Proofs.Coarse
import Verif.Proofs.Trace
import Verif.Proofs.Memory
import Verif.Proofs.Growth
import Verif.Proofs.Murmur
import Verif.Proofs.Bloom
import Verif.Proofs.Stats
import Verif.Proofs.StatsFile
import Verif.Proofs.IndexList
import Verif.Proofs.CloseOk
import Verif.Proofs.CloseAny
import Verif.Proofs.OrderFree
import Verif.Proofs.DeepIndex
import Verif.Model.Session
import Verif.Spec.Assumptions
import Verif.Spec.Murmur
import Verif.Spec.Bloom
import Verif.Spec.Stats
import Verif.Spec.Structure
import Verif.Spec.Closing
import Verif.Props.Example
import Verif.Props.ReadBack
import Verif.Props.Codec
import Verif.Props.Write
import Verif.Props.Flush
import Verif.Props.Bloom
import Verif.Props.Stats
import Verif.Props.Structure
import Verif.Props.Empty
import Verif.Props.Close
import Verif.Model.Output
import Verif.Spec.Output
import Verif.Proofs.Fault
import Verif.Proofs.Output
import Verif.Props.Faults
import Verif.Model.SchemaBuilder
import Verif.Spec.Builder
import Verif.Props.Schema
import Verif.Model.Sync
import Verif.Model.Wire
import Verif.Proofs.Wire
import Verif.Model.Thrift
import Verif.Model.CApi
import Verif.Spec.CApi
import Verif.Spec.CAbort
import Verif.Proofs.CApi
import Verif.Proofs.CSession
import Verif.Proofs.CAbort
import Verif.Spec.Sync
import Verif.Proofs.Sync
import Verif.Props.Sync
import Verif.Props.Thrift
import Verif.Props.Interface
import Verif.Props.Connect
import Verif.Props.CApi
import Verif.Props.Many
import Verif.Props.Closed
import Verif.Model.Checked
import Verif.Spec.Checked
import Verif.Proofs.Checked
import Verif.Model.CheckedWriter
import Verif.Proofs.CheckedSame
import Verif.Proofs.CheckedFits
import Verif.Proofs.CheckedRun
import Verif.Proofs.CheckedClose
import Verif.Props.Checked
import Verif.Spec.Sums
import Verif.Proofs.SoftFloat
import Verif.Props.Sums
import Verif.Proofs.Rounding
import Verif.Proofs.SumError
import Verif.Props.SumError
import Verif.Props.Kinds
import Verif.Model.Open
import Verif.Spec.Open
import Verif.Proofs.Open
import Verif.Props.Open
import Verif.Spec.Isolated
import Verif.Proofs.Local
import Verif.Props.Device
import Verif.Spec.Size
import Verif.Proofs.Size
import Verif.Proofs.Quiet
import Verif.Proofs.PageMem
import Verif.Props.Size
import Verif.Proofs.Limits
import Verif.Props.Limits
import Verif.Spec.Recover
import Verif.Proofs.Recover
import Verif.Props.Crash
import Verif.Spec.Blocks
import Verif.Props.Blocks
import Verif.Props.SyncNames
import Verif.Model.Stream
import Verif.Proofs.Stream
import Verif.Spec.Stream
import Verif.Proofs.Ports
import Verif.Proofs.Torn
import Verif.Proofs.TornClose
import Verif.Proofs.TornKeep
import Verif.Props.Stream
import Verif.Props.Torn
import Verif.Spec.Reference
import Verif.Spec.ReferenceIndex
import Verif.Proofs.Ts2DiffBlock
import Verif.Proofs.RefEncode
import Verif.Proofs.RefStats
import Verif.Proofs.RefFile
import Verif.Proofs.RefIndex
import Verif.Props.Reference
import Verif.Proofs.Smooth
import Verif.Proofs.DeepNodes
import Verif.Proofs.DeepSession
import Verif.Props.DeepIndex
import Verif.Proofs.Disk
import Verif.Props.Disk
import Verif.Props.Python
import Verif.Proofs.SparseNodes
import Verif.Props.DeviceIndex
import Verif.Spec.Orderly
import Verif.Model.Programs
import Verif.Proofs.Orderly
import Verif.Props.Orderly
import Verif.Props.Restart
import Verif.Props.Programs
import Verif.Props.PythonProgram
import Verif.Props.EndToEnd
import Verif.Props.CProgram
import Verif.Props.PyProgram
import Verif.Props.PyMemory
import Verif.Props.Query
import Verif.Props.Steady
import Verif.Props.Refuse
import Verif.Spec.Utf8
import Verif.Proofs.Utf8
import Verif.Spec.Snappy
import Verif.Proofs.Snappy
import Verif.Props.Snappy
import Verif.Spec.Lookup
import Verif.Proofs.Lookup
import Verif.Props.Lookup
import Verif.Proofs.Unfinished
import Verif.Props.Unfinished
import Verif.Model.Several
import Verif.Spec.Several
import Verif.Proofs.Several
import Verif.Props.Several
import Verif.Model.CDisk
import Verif.Proofs.CDisk
import Verif.Props.CDisk
import Verif.Model.PyDisk
import Verif.Proofs.PyDisk
import Verif.Props.PyDisk
import Verif.Model.Power
import Verif.Spec.Power
import Verif.Proofs.Power
import Verif.Props.Power
import Verif.Spec.Producers
import Verif.Proofs.Producers
import Verif.Props.Producers
import Verif.Model.Transfers
import Verif.Spec.Transfers
import Verif.Props.Transfers
import Verif.Model.Conversation
import Verif.Spec.Conversation
import Verif.Props.Conversation
import Verif.Props.Unused
import Verif.Props.Short
import Verif.Props.Silent
import Verif.Props.Until
import Verif.Props.Orders
import Verif.Tests.GoldenData
import Verif.Tests.Golden
import Verif.Props.Kept
