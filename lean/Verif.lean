import Verif.Model.Angle
import Verif.Model.Arc
import Verif.Model.Atomic
import Verif.Model.BBox
import Verif.Model.BBoxRounded
import Verif.Model.Box
import Verif.Model.Dot
import Verif.Model.Duration
import Verif.Model.EventFd
import Verif.Model.EventOs
import Verif.Model.Files
import Verif.Model.FilesWin
import Verif.Model.Finalize
import Verif.Model.Fixed
import Verif.Model.Flag
import Verif.Model.FlagMac
import Verif.Model.FlagWin
import Verif.Model.Float
import Verif.Model.FloatText
import Verif.Model.Format
import Verif.Model.Frames
import Verif.Model.Function
import Verif.Model.Growth
import Verif.Model.Handles
import Verif.Model.Hash
import Verif.Model.Heap
import Verif.Model.HeapCost
import Verif.Model.HeapWorld
import Verif.Model.Ieee
import Verif.Model.Joins
import Verif.Model.Lerp
import Verif.Model.Limits
import Verif.Model.Lock
import Verif.Model.Locks
import Verif.Model.Log
import Verif.Model.LogLine
import Verif.Model.LogTime
import Verif.Model.Map
import Verif.Model.MapCost
import Verif.Model.MapMem
import Verif.Model.MapWalk
import Verif.Model.Mat4
import Verif.Model.Math
import Verif.Model.Mem
import Verif.Model.Meta
import Verif.Model.Mpool
import Verif.Model.Nested
import Verif.Model.Net
import Verif.Model.NetWin
import Verif.Model.Opt
import Verif.Model.Own
import Verif.Model.Path
import Verif.Model.Place
import Verif.Model.Pool
import Verif.Model.PoolEvents
import Verif.Model.PoolName
import Verif.Model.PoolRace
import Verif.Model.PosError
import Verif.Model.Profile
import Verif.Model.ProfileSync
import Verif.Model.ProjRounded
import Verif.Model.Promise
import Verif.Model.Quat
import Verif.Model.Queue
import Verif.Model.Range
import Verif.Model.RangeCost
import Verif.Model.RangeOwner
import Verif.Model.Rc
import Verif.Model.Region
import Verif.Model.RegionCo
import Verif.Model.Report
import Verif.Model.Rng
import Verif.Model.Room
import Verif.Model.Rounded
import Verif.Model.Sched
import Verif.Model.SeqWalk
import Verif.Model.Settings
import Verif.Model.Simd
import Verif.Model.Slice
import Verif.Model.Spawn
import Verif.Model.Stats
import Verif.Model.Str
import Verif.Model.StrOwner
import Verif.Model.SysError
import Verif.Model.Task
import Verif.Model.Then
import Verif.Model.Thread
import Verif.Model.Typename
import Verif.Model.Variant
import Verif.Model.Vec
import Verif.Model.Vect
import Verif.Model.VectHash
import Verif.Model.View
import Verif.Model.Watcher
import Verif.Model.Word
import Verif.Model.WsaError
import Verif.Proof.Angle
import Verif.Proof.Arc
import Verif.Proof.Atomic
import Verif.Proof.BBox
import Verif.Proof.BBoxRounded
import Verif.Proof.Box
import Verif.Proof.BoxRun
import Verif.Proof.Dot
import Verif.Proof.Duration
import Verif.Proof.Euler
import Verif.Proof.EventFd
import Verif.Proof.EventOs
import Verif.Proof.Files
import Verif.Proof.FilesWin
import Verif.Proof.Finalize
import Verif.Proof.Fixed
import Verif.Proof.Flag
import Verif.Proof.FlagMac
import Verif.Proof.FlagWin
import Verif.Proof.Float
import Verif.Proof.FloatText
import Verif.Proof.Format
import Verif.Proof.FormatLen
import Verif.Proof.FormatRun
import Verif.Proof.FormatText
import Verif.Proof.FormatTy
import Verif.Proof.Frames
import Verif.Proof.FreeList
import Verif.Proof.Function
import Verif.Proof.Growth
import Verif.Proof.Handles
import Verif.Proof.Hash
import Verif.Proof.Heap
import Verif.Proof.HeapCost
import Verif.Proof.HeapRun
import Verif.Proof.HeapWorld
import Verif.Proof.Ieee
import Verif.Proof.Joins
import Verif.Proof.Lerp
import Verif.Proof.Limits
import Verif.Proof.Lock
import Verif.Proof.Locks
import Verif.Proof.Log
import Verif.Proof.LogLine
import Verif.Proof.LogTime
import Verif.Proof.Map
import Verif.Proof.MapCost
import Verif.Proof.MapMem
import Verif.Proof.MapMemRef
import Verif.Proof.MapOps
import Verif.Proof.MapRun
import Verif.Proof.MapWalk
import Verif.Proof.Mat4
import Verif.Proof.Mat4Make
import Verif.Proof.Math
import Verif.Proof.Mem
import Verif.Proof.Meta
import Verif.Proof.Mpool
import Verif.Proof.Nested
import Verif.Proof.NestedEnv
import Verif.Proof.NestedFocus
import Verif.Proof.NestedMove
import Verif.Proof.NestedObs
import Verif.Proof.NestedOps
import Verif.Proof.NestedPath
import Verif.Proof.Net
import Verif.Proof.NetWin
import Verif.Proof.Opt
import Verif.Proof.Own
import Verif.Proof.Parse
import Verif.Proof.Path
import Verif.Proof.Place
import Verif.Proof.Pool
import Verif.Proof.PoolEvents
import Verif.Proof.PoolLive
import Verif.Proof.PoolName
import Verif.Proof.PoolRace
import Verif.Proof.PoolStep
import Verif.Proof.PosError
import Verif.Proof.Pow16
import Verif.Proof.Profile
import Verif.Proof.ProfileBook
import Verif.Proof.ProfileSync
import Verif.Proof.ProfileSyncLive
import Verif.Proof.ProfileSyncRun
import Verif.Proof.ProjRounded
import Verif.Proof.Promise
import Verif.Proof.QErase
import Verif.Proof.QWorld
import Verif.Proof.Quat
import Verif.Proof.QuatDrift
import Verif.Proof.QuatRounded
import Verif.Proof.Queue
import Verif.Proof.QueueClone
import Verif.Proof.Range
import Verif.Proof.RangeCost
import Verif.Proof.RangeFree
import Verif.Proof.RangeInv
import Verif.Proof.RangeMain
import Verif.Proof.RangeOps
import Verif.Proof.RangeOwner
import Verif.Proof.RangeRun
import Verif.Proof.RangeTotals
import Verif.Proof.Rc
import Verif.Proof.RcExec
import Verif.Proof.RcHeld
import Verif.Proof.RcOps
import Verif.Proof.Region
import Verif.Proof.RegionCo
import Verif.Proof.Report
import Verif.Proof.Reserve
import Verif.Proof.Rng
import Verif.Proof.RngShare
import Verif.Proof.RngSigned
import Verif.Proof.Room
import Verif.Proof.Rounded
import Verif.Proof.Rounding
import Verif.Proof.Sched
import Verif.Proof.SeqWalk
import Verif.Proof.Settings
import Verif.Proof.Shuffle
import Verif.Proof.Slice
import Verif.Proof.Spawn
import Verif.Proof.Stack
import Verif.Proof.Stats
import Verif.Proof.Str
import Verif.Proof.StrOwner
import Verif.Proof.SysError
import Verif.Proof.Task
import Verif.Proof.Then
import Verif.Proof.Thread
import Verif.Proof.Typename
import Verif.Proof.Variant
import Verif.Proof.Vec
import Verif.Proof.VecWorld
import Verif.Proof.Vect
import Verif.Proof.VectHash
import Verif.Proof.View
import Verif.Proof.Watcher
import Verif.Proof.World
import Verif.Proof.WsaError
import Verif.Props.Angle
import Verif.Props.Arc
import Verif.Props.Atomic
import Verif.Props.BBox
import Verif.Props.BBoxRounded
import Verif.Props.Box
import Verif.Props.Dot
import Verif.Props.Duration
import Verif.Props.EventFd
import Verif.Props.EventOs
import Verif.Props.Files
import Verif.Props.FilesWin
import Verif.Props.Finalize
import Verif.Props.Fixed
import Verif.Props.Flag
import Verif.Props.FlagMac
import Verif.Props.FlagWin
import Verif.Props.Float
import Verif.Props.FloatText
import Verif.Props.Format
import Verif.Props.FormatTy
import Verif.Props.Frames
import Verif.Props.Function
import Verif.Props.Growth
import Verif.Props.Handles
import Verif.Props.Hash
import Verif.Props.Heap
import Verif.Props.HeapCost
import Verif.Props.HeapWorld
import Verif.Props.Ieee
import Verif.Props.Joins
import Verif.Props.Lerp
import Verif.Props.Limits
import Verif.Props.Lock
import Verif.Props.Locks
import Verif.Props.Log
import Verif.Props.LogLine
import Verif.Props.LogTime
import Verif.Props.Map
import Verif.Props.MapCost
import Verif.Props.MapMem
import Verif.Props.MapOrder
import Verif.Props.MapWalk
import Verif.Props.Mat4
import Verif.Props.Math
import Verif.Props.Meta
import Verif.Props.Mpool
import Verif.Props.Nested
import Verif.Props.Net
import Verif.Props.NetWin
import Verif.Props.Opt
import Verif.Props.Own
import Verif.Props.Path
import Verif.Props.Place
import Verif.Props.Pool
import Verif.Props.PoolEvents
import Verif.Props.PoolName
import Verif.Props.PoolRace
import Verif.Props.PosError
import Verif.Props.Profile
import Verif.Props.ProfileSync
import Verif.Props.ProjRounded
import Verif.Props.Promise
import Verif.Props.Quat
import Verif.Props.QuatDrift
import Verif.Props.QuatReal
import Verif.Props.QuatRounded
import Verif.Props.Queue
import Verif.Props.Range
import Verif.Props.RangeCost
import Verif.Props.RangeOwner
import Verif.Props.Rc
import Verif.Props.RcHeld
import Verif.Props.Region
import Verif.Props.RegionCo
import Verif.Props.Report
import Verif.Props.Reserve
import Verif.Props.Rng
import Verif.Props.RngShare
import Verif.Props.RngSigned
import Verif.Props.Room
import Verif.Props.Rounded
import Verif.Props.SeqWalk
import Verif.Props.Settings
import Verif.Props.Shuffle
import Verif.Props.Simd
import Verif.Props.Slice
import Verif.Props.Spawn
import Verif.Props.Stats
import Verif.Props.Str
import Verif.Props.StrOwner
import Verif.Props.SysError
import Verif.Props.Task
import Verif.Props.Then
import Verif.Props.Thread
import Verif.Props.Typename
import Verif.Props.Variant
import Verif.Props.Vec
import Verif.Props.Vect
import Verif.Props.VectHash
import Verif.Props.View
import Verif.Props.Watcher
import Verif.Props.WsaError
import Verif.Spec.Arith
import Verif.Spec.Atomic
import Verif.Spec.BBox
import Verif.Spec.BBoxItems
import Verif.Spec.BBoxRounded
import Verif.Spec.Box
import Verif.Spec.EventFd
import Verif.Spec.Files
import Verif.Spec.FilesView
import Verif.Spec.Fixed
import Verif.Spec.FlagRun
import Verif.Spec.FloatText
import Verif.Spec.Format
import Verif.Spec.FormatTy
import Verif.Spec.Frames
import Verif.Spec.FreeListRun
import Verif.Spec.Function
import Verif.Spec.Growth
import Verif.Spec.Handles
import Verif.Spec.Heap
import Verif.Spec.HeapWorld
import Verif.Spec.Ieee
import Verif.Spec.Joins
import Verif.Spec.Limits
import Verif.Spec.Lock
import Verif.Spec.Locks
import Verif.Spec.Log
import Verif.Spec.LogLine
import Verif.Spec.LogTime
import Verif.Spec.Map
import Verif.Spec.MapCost
import Verif.Spec.MapMemRun
import Verif.Spec.MapRun
import Verif.Spec.Mat4
import Verif.Spec.Mat4View
import Verif.Spec.Meta
import Verif.Spec.Mpool
import Verif.Spec.Nested
import Verif.Spec.Opt
import Verif.Spec.Path
import Verif.Spec.Place
import Verif.Spec.PoolRace
import Verif.Spec.Profile
import Verif.Spec.ProfileSync
import Verif.Spec.ProfileView
import Verif.Spec.QuatDrift
import Verif.Spec.QuatRounded
import Verif.Spec.QuatView
import Verif.Spec.Queue
import Verif.Spec.Range
import Verif.Spec.RangeCost
import Verif.Spec.RangeRun
import Verif.Spec.Rc
import Verif.Spec.RcHeld
import Verif.Spec.Region
import Verif.Spec.RegionCo
import Verif.Spec.RegionRun
import Verif.Spec.Reserve
import Verif.Spec.Rng
import Verif.Spec.RngShare
import Verif.Spec.Room
import Verif.Spec.Rounded
import Verif.Spec.Rounding
import Verif.Spec.Sched
import Verif.Spec.Seq
import Verif.Spec.SeqWalk
import Verif.Spec.Shuffle
import Verif.Spec.Slice
import Verif.Spec.Stack
import Verif.Spec.StackRun
import Verif.Spec.Stats
import Verif.Spec.Str
import Verif.Spec.Strings
import Verif.Spec.SysError
import Verif.Spec.Thread
import Verif.Spec.Typename
import Verif.Spec.Variant
import Verif.Spec.VecRep
import Verif.Spec.Vect
import Verif.Spec.View
import Verif.Spec.Watcher
