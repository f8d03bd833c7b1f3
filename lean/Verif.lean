import Verif.Props.Rational
import Verif.Props.Bitmanip
import Verif.Props.Time
import Verif.Props.Math
import Verif.Props.Random
import Verif.Props.Sort
import Verif.Props.Queue
import Verif.Props.Stack
import Verif.Props.Sequence
import Verif.Props.Collections
import Verif.Props.Dlist
import Verif.Props.Lane
import Verif.Props.Alarm
import Verif.Props.Vector
import Verif.Props.Vector2
import Verif.Props.Array
import Verif.Props.Maybe
import Verif.Props.StrHeap
import Verif.Props.StrGc
import Verif.Props.StrSearch
import Verif.Props.Semaphore
import Verif.Props.OwnerLock
import Verif.Props.Futex
import Verif.Props.HybridLock
import Verif.Props.Mcs
import Verif.Props.PthreadTime
import Verif.Props.Channel
import Verif.Props.Future
import Verif.Props.Once
import Verif.Props.Barrier
import Verif.Props.StackLF
import Verif.Props.Park
import Verif.Props.SingleSem
import Verif.Props.KFuture
import Verif.Props.Cost
import Verif.Props.PersistentMap
import Verif.Props.ScopedMap
import Verif.Props.ErasableScopedMap
import Verif.Props.FilterCombos
import Verif.Props.Eval
import Verif.Props.Mangler
import Verif.Props.TypeEnv
import Verif.Props.Alloc
import Verif.Props.Convert
import Verif.Props.RangeLoop
import Verif.Props.Monitor
import Verif.Props.MonitorOrder
import Verif.Props.WaitforAgg
import Verif.Props.Snzi
import Verif.Props.Actor
import Verif.Props.ActorCount
import Verif.Props.Select
import Verif.Props.WaitUntil
import Verif.Props.SchedLock
import Verif.Props.HeapAlloc
import Verif.Props.MultiExit
import Verif.Props.Except
import Verif.Props.SmartPtr
import Verif.Props.GenLayout
import Verif.Props.ObjLife
import Verif.Props.IdleSleep
import Verif.Props.InitCursor
import Verif.Props.OstreamInt
import Verif.Props.OstreamSep
import Verif.Props.ArithRes
import Verif.Props.IntLit
import Verif.Props.Symbols
import Verif.Props.Special
import Verif.Props.Gmp
import Verif.Props.TupleAsg
import Verif.Props.Coroutine
import Verif.Props.IoUring
import Verif.Props.PthreadTsd
import Verif.Props.RefLower
import Verif.Props.Config
import Verif.Props.Args
import Verif.Props.Preempt
import Verif.Props.Enum
import Verif.Props.StrStream
import Verif.Props.StrInput
import Verif.Props.Cofor
import Verif.Props.OldLocks
import Verif.Props.InitLength
import Verif.Props.ConstVal
import Verif.Props.CpuList
import Verif.Props.CpuMap
