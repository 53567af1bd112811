import Verif.Props.StringMem
import Verif.Props.Format
import Verif.Props.Bitset
import Verif.Props.StringView
import Verif.Props.Pair
import Verif.Props.Traits
import Verif.Props.Abi
import Verif.Props.Algorithm
import Verif.Props.Vector
import Verif.Props.E820
import Verif.Props.Interrupt
import Verif.Props.IrqGuard
import Verif.Props.Stubs
import Verif.Props.Vesa
import Verif.Props.Paging
import Verif.Props.Boot
import Verif.Props.SmartPtr
import Verif.Props.LockRace
import Verif.Props.Atomic
import Verif.Props.Any
import Verif.Props.Function
import Verif.Props.Defer
import Verif.Props.EList
import Verif.Props.Deque
import Verif.Props.DequeRef
import Verif.Props.RbTree
import Verif.Props.PhysAlloc
import Verif.Props.PhysZone
import Verif.Props.Layout
import Verif.Props.Loader
import Verif.Props.Bss
import Verif.Props.Dispatch
import Verif.Props.Tlb
import Verif.Props.Unmap
import Verif.Props.Unreal
import Verif.Props.Double
import Verif.Props.MemReport
import Verif.Props.PhysLayout
import Verif.Props.CxxType
import Verif.Props.Invoke
import Verif.Props.BoolLock
import Verif.Props.BootLog
import Verif.Props.Value
import Verif.Props.LoadMsg
import Verif.Props.Deleter
import Verif.Props.Access
import Verif.Props.IntLog
import Verif.Props.InlineAsm
import Verif.Props.RefOrder
import Verif.Props.Apply
import Verif.Props.VectorCost
import Verif.Props.RbCost
import Verif.Props.RbCostIter
import Verif.Props.DequeCost
import Verif.Props.Reent
import Verif.Props.RbOwn
import Verif.Props.RbStack
import Verif.Props.PhysSelect
import Verif.Props.PowerOn
import Verif.Props.FontTable
import Verif.Props.Forward
import Verif.Props.FnArgs
import Verif.Props.VecAdapt
import Verif.Props.VectorRefs
import Verif.Props.PowerScreen
import Verif.Props.RbCmp
import Verif.Props.Compare
import Verif.Props.Convert
import Verif.Props.Fat
import Verif.Props.Image
import Verif.Props.Iter
import Verif.Props.Mode
import Verif.Props.Printf
import Verif.Replay.Owners
import Verif.Replay.Sequences
import Verif.Replay.Text
import Verif.Replay.Trees
import Verif.Replay.Types
