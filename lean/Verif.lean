import Verif.Props.Ports
import Verif.Props.Addr
import Verif.Props.Stats
import Verif.Props.Retry
import Verif.Props.Calls
import Verif.Props.Dispatch
import Verif.Props.Wire
import Verif.Props.Shm
import Verif.Props.CopyTo
import Verif.Props.ActorLock
import Verif.Props.Caller
import Verif.Props.SerialEx
import Verif.Props.SerialHeader
import Verif.Props.Message
import Verif.Props.Pool
import Verif.Props.Life
import Verif.Props.Wait
import Verif.Props.Config
import Verif.Props.Router
import Verif.Props.Directory
import Verif.Props.Lru
import Verif.Props.Gen
import Verif.Props.Dummy
import Verif.Props.StoreWait
import Verif.Props.Collective
import Verif.Props.Recovery
import Verif.Props.Nd
import Verif.Props.Tensor
import Verif.Props.Transport
import Verif.Props.ErrSer
import Verif.Props.Forward
import Verif.Props.Create
import Verif.Props.WaitFor
import Verif.Props.Gloo
import Verif.Props.Marker
import Verif.Props.Reqs
import Verif.Props.Plan
import Verif.Props.Metric
import Verif.Props.Local
import Verif.Props.Front
import Verif.Props.Refs
import Verif.Props.Procs
import Verif.Props.Impl
import Verif.Props.Wrap
import Verif.Props.Ucx
import Verif.Props.Cycle
import Verif.Props.Conns
import Verif.Props.Closer
import Verif.Props.AioFile
import Verif.Props.Subproc
import Verif.Props.Order
import Verif.Props.Delay
import Verif.Props.Link
import Verif.Props.Linear
import Verif.Props.StoreWire
import Verif.Props.Nccl
import Verif.Props.Watch
import Verif.Props.Meet
import Verif.Props.Reach
import Verif.Props.Prof
import Verif.Props.Ids
import Verif.Props.InitPg
import Verif.Props.Gpu
import Verif.Props.Lazy
import Verif.Props.LazyMod
import Verif.Props.Raise
import Verif.Props.Netstat
import Verif.Props.Spawn
import Verif.Props.Uv
import Verif.Props.Venv
import Verif.Props.Home
import Verif.Props.Sizes
import Verif.Props.Bind
import Verif.Props.NoLock
import Verif.Props.UcxInit
import Verif.Props.AioEvent
import Verif.Props.GpuStatus
import Verif.Props.Mlx
