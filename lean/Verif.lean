import Verif.Model.MultiArr
import Verif.Lemmas.Layout
import Verif.Lemmas.Reach
import Verif.Lemmas.Access
import Verif.Lemmas.Orders
import Verif.Props.Layout
import Verif.Lemmas.ViewLen
import Verif.Lemmas.View
import Verif.Lemmas.Gens
import Verif.Lemmas.Handle
import Verif.Props.Access
import Verif.Props.Relabel
import Verif.Props.Relabel2
import Verif.Props.Members
import Verif.Props.Views
import Verif.Lemmas.Compose
import Verif.Lemmas.Special
import Verif.Props.Views2
import Verif.Props.Gens
import Verif.Lemmas.Iter
import Verif.Props.Iter
import Verif.Lemmas.Mem
import Verif.Lemmas.CopyList
import Verif.SpecMem
import Verif.Lemmas.HandleMem
import Verif.Props.Copy
import Verif.Lemmas.Compare
import Verif.Props.Compare
import Verif.Lemmas.OwnMem
import Verif.Lemmas.Own
import Verif.Lemmas.Resize
import Verif.Lemmas.Ctor
import Verif.Props.Own
import Verif.Props.Resize
import Verif.SpecHist
import Verif.Lemmas.Hist
import Verif.Props.Hist
import Verif.SpecAbs
import Verif.Lemmas.Abs
import Verif.Props.Abs
import Verif.Model.Handles
import Verif.SpecHandles
import Verif.Lemmas.Handles
import Verif.Props.Handles
import Verif.Model.HandleIters
import Verif.Props.HandleIters
import Verif.Model.Const
import Verif.SpecConst
import Verif.Props.Const
import Verif.Model.Machine
import Verif.SpecMachine
import Verif.Lemmas.Machine
import Verif.Props.Machine
import Verif.Props.Duality
import Verif.Model.Steps
import Verif.SpecConc
import Verif.Lemmas.Steps
import Verif.Lemmas.Conc
import Verif.Props.Conc
import Verif.Lemmas.Keeps
import Verif.Props.Exact
import Verif.Props.Congr
import Verif.SpecFlat
import Verif.Lemmas.Flat
import Verif.Props.Flat
import Verif.SpecAlloc
import Verif.Props.Alloc
import Verif.SpecProg
import Verif.Lemmas.Prog
import Verif.Lemmas.ProgRep
import Verif.Lemmas.ProgOps
import Verif.Lemmas.ProgStep
import Verif.Props.Prog
import Verif.Model.MachineIt
import Verif.Props.MachineIt
import Verif.SpecPtr
import Verif.Props.Pointers
import Verif.Props.Assign
import Verif.SpecExchange
import Verif.Lemmas.Exchange
import Verif.Props.Exchange
import Verif.SpecOverlap
import Verif.Props.Overlap
import Verif.Props.ProgX
import Verif.Props.AssignWith
import Verif.SpecShare
import Verif.Lemmas.Share
import Verif.Lemmas.ShareOps
import Verif.Lemmas.ShareStep
import Verif.Lemmas.ShareElems
import Verif.Props.Share
import Verif.Model.MachineOps
import Verif.SpecProgM
import Verif.Lemmas.MachineOps
import Verif.Lemmas.MachineOwn
import Verif.Lemmas.MachineParts
import Verif.Lemmas.ProgM
import Verif.Props.ProgM
import Verif.SpecSeq
import Verif.Lemmas.Seq
import Verif.Props.Seq
import Verif.SpecProgXM
import Verif.Lemmas.ProgXM
import Verif.Props.ProgXM
import Verif.SpecShareX
import Verif.Lemmas.Mono
import Verif.Lemmas.ShareX
import Verif.Lemmas.ShareXStep
import Verif.Props.ShareX
import Verif.Model.Clients
import Verif.SpecPrint
import Verif.Props.Clients
import Verif.Model.MachineHandles
import Verif.SpecShareM
import Verif.Lemmas.ShareM
import Verif.Props.ShareM
import Verif.SpecShareXM
import Verif.Lemmas.ShareXM
import Verif.Props.ShareXM
import Verif.SpecWork
import Verif.Lemmas.Work
import Verif.Props.Work
import Verif.SpecParallel
import Verif.Props.Parallel
import Verif.SpecThreads
import Verif.Lemmas.Code
import Verif.Props.Threads
import Verif.SpecFork
import Verif.Lemmas.Avoid
import Verif.Lemmas.AvoidCmd
import Verif.Lemmas.Fork
import Verif.Props.Fork
import Verif.Conformance.Harness
import Verif.Conformance.Generative
import Verif.Conformance.Basics
import Verif.Conformance.Compile
import Verif.SpecCompare
import Verif.Lemmas.CompareWith
import Verif.Props.CompareWith
import Verif.SpecAssign
import Verif.Lemmas.AssignInput
import Verif.Props.AssignInput
import Verif.SpecRelease
import Verif.Lemmas.Release
import Verif.Props.Release
import Verif.SpecLog
import Verif.Lemmas.Log
import Verif.Lemmas.Lives
import Verif.Props.Log
import Verif.SpecStable
import Verif.Lemmas.Stable
import Verif.Props.Stable
import Verif.Props.Collections
import Verif.SpecContig
import Verif.Lemmas.Contig
import Verif.Props.Contig
import Verif.SpecRows
import Verif.Lemmas.Rows
import Verif.Lemmas.RowsExec
import Verif.Props.Rows
import Verif.SpecParam
import Verif.Props.Param
import Verif.Model.IntTypes
import Verif.SpecIntTypes
import Verif.Props.IntTypes
import Verif.Model.Guarded
import Verif.Lemmas.Guarded
import Verif.Props.Guarded
import Verif.Model.GenPtr
import Verif.SpecGenPtr
import Verif.Props.GenPtr
import Verif.SpecRowsX
import Verif.Lemmas.RowsX
import Verif.Props.RowsX
import Verif.Props.SeqM
import Verif.SpecHeld
import Verif.Lemmas.Held
import Verif.Lemmas.HeldM
import Verif.Props.Held
import Verif.SpecLife
import Verif.Lemmas.Life
import Verif.Props.Life
import Verif.SpecConcept
import Verif.Props.Concept
import Verif.SpecLayoutFree
import Verif.Lemmas.LayoutFree
import Verif.Props.LayoutFree
import Verif.SpecExactX
import Verif.Lemmas.ExactX
import Verif.Props.ExactX
import Verif.Model.Loops
import Verif.Lemmas.Loops
import Verif.Props.Loops
import Verif.Model.MachineLoops
import Verif.Lemmas.MachineLoops
import Verif.Props.MachineLoops
import Verif.Lemmas.MachineConvertLoop
import Verif.Props.MachineConvertLoop
import Verif.Model.Headers
import Verif.SpecHeaders
import Verif.Lemmas.Solo
import Verif.Lemmas.Headers
import Verif.Lemmas.Pads
import Verif.Lemmas.HeadersThread
import Verif.Props.Headers
import Verif.SpecStore
import Verif.Props.Store
import Verif.Props.CompareFlat
import Verif.Props.ResizeHistory
import Verif.SpecRetry
import Verif.Props.Retry
import Verif.SpecChain
import Verif.Props.Chain
