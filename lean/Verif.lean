import Verif.Conformance.Checks
import Verif.Conformance.ChecksSlice
import Verif.Conformance.Examples
import Verif.Conformance.Run
import Verif.Conformance.Suite0
import Verif.Conformance.Units
import Verif.Model.Alloc
import Verif.Model.AnyStream
import Verif.Model.AnyUser
import Verif.Model.Api
import Verif.Model.ArcDrop
import Verif.Model.Base
import Verif.Model.Bindings
import Verif.Model.Chunk
import Verif.Model.ChunkIter
import Verif.Model.Classifier
import Verif.Model.Common
import Verif.Model.Counters
import Verif.Model.CountersShared
import Verif.Model.DatumEq
import Verif.Model.DatumFns
import Verif.Model.Delims
import Verif.Model.Drop
import Verif.Model.Dynamic
import Verif.Model.LinkText
import Verif.Model.Live
import Verif.Model.LiveStrish
import Verif.Model.MemAlloc
import Verif.Model.MemParser
import Verif.Model.MemUnwind
import Verif.Model.MultiStrong
import Verif.Model.Panics
import Verif.Model.Parser
import Verif.Model.Premade
import Verif.Model.RcCell
import Verif.Model.RcHeap
import Verif.Model.Release
import Verif.Model.Shared
import Verif.Model.Stack
import Verif.Model.Str
import Verif.Model.Streams
import Verif.Model.Text
import Verif.Model.TextFns
import Verif.Model.Threads
import Verif.Model.TreeShapes
import Verif.Model.Unwind
import Verif.Model.WeakDrop
import Verif.Model.Wrap
import Verif.Proof.AnyUser
import Verif.Proof.AnyUserAgree
import Verif.Proof.AnyUserEnds
import Verif.Proof.AnyUserMade
import Verif.Proof.AnyUserMono
import Verif.Proof.AnyUserPanic
import Verif.Proof.Append
import Verif.Proof.ArcDepth
import Verif.Proof.ArcDrop
import Verif.Proof.ArcHeap
import Verif.Proof.ArcStep
import Verif.Proof.ArcWorld
import Verif.Proof.Balance
import Verif.Proof.Beside
import Verif.Proof.CallCount
import Verif.Proof.ChunkIter
import Verif.Proof.Chunks
import Verif.Proof.Clone
import Verif.Proof.CompareWork
import Verif.Proof.ConcatCost
import Verif.Proof.ConcatLower
import Verif.Proof.ConfSim
import Verif.Proof.Cost
import Verif.Proof.CostText
import Verif.Proof.Counters
import Verif.Proof.CountersParser
import Verif.Proof.CountersShared
import Verif.Proof.CountersStates
import Verif.Proof.CountersStrs
import Verif.Proof.CountersWithin
import Verif.Proof.Defer
import Verif.Proof.Delims
import Verif.Proof.DelimsComplete
import Verif.Proof.DelimsFail
import Verif.Proof.DelimsGram
import Verif.Proof.DelimsText
import Verif.Proof.Drop
import Verif.Proof.DropSole
import Verif.Proof.Dynamic
import Verif.Proof.DynamicComplete
import Verif.Proof.DynamicCount
import Verif.Proof.DynamicFail
import Verif.Proof.DynamicGram
import Verif.Proof.Eval
import Verif.Proof.EvalDet
import Verif.Proof.EvalFacts
import Verif.Proof.EvalRun
import Verif.Proof.FailComplete
import Verif.Proof.FailSound
import Verif.Proof.Fits
import Verif.Proof.FitsText
import Verif.Proof.Format
import Verif.Proof.GramComplete
import Verif.Proof.GramPlain
import Verif.Proof.GramSound
import Verif.Proof.GramText
import Verif.Proof.Invariant
import Verif.Proof.Leftover
import Verif.Proof.LinkParser
import Verif.Proof.LinkStreams
import Verif.Proof.LinkText
import Verif.Proof.LinkUse
import Verif.Proof.Live
import Verif.Proof.LiveStrish
import Verif.Proof.Local
import Verif.Proof.MemHeap
import Verif.Proof.MemLaws
import Verif.Proof.MemLock
import Verif.Proof.MemParser
import Verif.Proof.MemUnwind
import Verif.Proof.MemUse
import Verif.Proof.Mono
import Verif.Proof.MultiStrong
import Verif.Proof.Panics
import Verif.Proof.Provided
import Verif.Proof.RcCell
import Verif.Proof.RcDepth
import Verif.Proof.RcHeap
import Verif.Proof.RcSteady
import Verif.Proof.RcTime
import Verif.Proof.Release
import Verif.Proof.Replace
import Verif.Proof.ResultsPlain
import Verif.Proof.Sample
import Verif.Proof.Shape
import Verif.Proof.Shared
import Verif.Proof.Sim
import Verif.Proof.SimParser
import Verif.Proof.Size
import Verif.Proof.Slices
import Verif.Proof.Spacing
import Verif.Proof.Stack
import Verif.Proof.StackLower
import Verif.Proof.StreamTurns
import Verif.Proof.StreamWork
import Verif.Proof.Streams
import Verif.Proof.TextFns
import Verif.Proof.Texts
import Verif.Proof.Threads
import Verif.Proof.Track
import Verif.Proof.Transfer
import Verif.Proof.TreeShapes
import Verif.Proof.Unbound
import Verif.Proof.Unwind
import Verif.Proof.WeakDrop
import Verif.Proof.WeakSim
import Verif.Proof.Work
import Verif.Proof.Wrap
import Verif.Proof.WrapStreams
import Verif.Proof.Yields
import Verif.Props.AnyStream
import Verif.Props.AnyUser
import Verif.Props.Append
import Verif.Props.ArcDrop
import Verif.Props.Balance
import Verif.Props.Bound
import Verif.Props.CharIndex
import Verif.Props.ChunkIter
import Verif.Props.Clone
import Verif.Props.Common
import Verif.Props.CompareWork
import Verif.Props.ConcatCost
import Verif.Props.Concrete
import Verif.Props.Counters
import Verif.Props.Datums
import Verif.Props.DatumsProvided
import Verif.Props.Defer
import Verif.Props.Delims
import Verif.Props.Drop
import Verif.Props.DropAgree
import Verif.Props.DropShared
import Verif.Props.DropTime
import Verif.Props.DropUse
import Verif.Props.Dynamic
import Verif.Props.Format
import Verif.Props.Forms
import Verif.Props.Grammar
import Verif.Props.Invariant
import Verif.Props.Iteration
import Verif.Props.LinkText
import Verif.Props.Live
import Verif.Props.LiveStrish
import Verif.Props.MemSize
import Verif.Props.MemUnwind
import Verif.Props.Memory
import Verif.Props.MultiStrong
import Verif.Props.Panics
import Verif.Props.Positions
import Verif.Props.Provided
import Verif.Props.RcCell
import Verif.Props.RcDepth
import Verif.Props.RcHeap
import Verif.Props.RcSteady
import Verif.Props.RcTime
import Verif.Props.Reads
import Verif.Props.Release
import Verif.Props.Replace
import Verif.Props.Results
import Verif.Props.Shared
import Verif.Props.Size
import Verif.Props.SizeBest
import Verif.Props.Slices
import Verif.Props.Slots
import Verif.Props.Spacing
import Verif.Props.Stack
import Verif.Props.StreamWork
import Verif.Props.Streams
import Verif.Props.Texts
import Verif.Props.Threads
import Verif.Props.ThreadsUnwind
import Verif.Props.TreeShapes
import Verif.Props.Unbound
import Verif.Props.Unwind
import Verif.Props.WeakDrop
import Verif.Props.WeakSim
import Verif.Props.Work
import Verif.Props.Wrap
import Verif.Spec.Agree
import Verif.Spec.Alloc
import Verif.Spec.AnyUser
import Verif.Spec.Append
import Verif.Spec.ArcDrop
import Verif.Spec.Balance
import Verif.Spec.Bound
import Verif.Spec.Chunk
import Verif.Spec.ChunkIter
import Verif.Spec.Clone
import Verif.Spec.Common
import Verif.Spec.CompareWork
import Verif.Spec.ConcatCost
import Verif.Spec.Concrete
import Verif.Spec.Contract
import Verif.Spec.Counters
import Verif.Spec.DatumFns
import Verif.Spec.Defer
import Verif.Spec.Delims
import Verif.Spec.Depth
import Verif.Spec.Drop
import Verif.Spec.Dynamic
import Verif.Spec.Failing
import Verif.Spec.Format
import Verif.Spec.Grammar
import Verif.Spec.History
import Verif.Spec.Invariant
import Verif.Spec.LinkText
import Verif.Spec.Live
import Verif.Spec.MemParser
import Verif.Spec.MemUnwind
import Verif.Spec.MemUse
import Verif.Spec.Memory
import Verif.Spec.MultiStrong
import Verif.Spec.Occurs
import Verif.Spec.Own
import Verif.Spec.Panics
import Verif.Spec.Positions
import Verif.Spec.Provided
import Verif.Spec.RcCell
import Verif.Spec.RcHeap
import Verif.Spec.Related
import Verif.Spec.Release
import Verif.Spec.Replace
import Verif.Spec.Results
import Verif.Spec.Seq
import Verif.Spec.Shape
import Verif.Spec.Shared
import Verif.Spec.Size
import Verif.Spec.Slices
import Verif.Spec.Spacing
import Verif.Spec.StreamWork
import Verif.Spec.Text
import Verif.Spec.TextFns
import Verif.Spec.Threads
import Verif.Spec.ThreadsUnwind
import Verif.Spec.TreeShapes
import Verif.Spec.Unbound
import Verif.Spec.Unwind
import Verif.Spec.WeakDrop
import Verif.Spec.WeakSim
import Verif.Spec.Work
import Verif.Spec.Wrap
