import Verif.Model.Bytes
import Verif.Model.Storage
import Verif.Spec.Storage
import Verif.Lemmas.Bytes
import Verif.Lemmas.Decimal
import Verif.Lemmas.Storage
import Verif.Lemmas.StorageSet
import Verif.Props.Storage
import Verif.Props.Storage2
import Verif.Spec.Iter
import Verif.Lemmas.StorageHist
import Verif.Props.Storage3
import Verif.Model.KeyResolver
import Verif.Lemmas.KeyResolver
import Verif.Props.KeyResolver
import Verif.Model.Cluster
import Verif.Model.NodeView
import Verif.Spec.Cluster
import Verif.Spec.NodeView
import Verif.Lemmas.ClusterMap
import Verif.Lemmas.ClusterTables
import Verif.Lemmas.ClusterGood
import Verif.Lemmas.ClusterSteps
import Verif.Lemmas.ClusterInv
import Verif.Lemmas.ClusterVersion
import Verif.Props.Cluster
import Verif.Model.Text
import Verif.Spec.Text
import Verif.Lemmas.Scan
import Verif.Lemmas.Text
import Verif.Lemmas.TextLines
import Verif.Props.Text
import Verif.Model.Connection
import Verif.Spec.Connection
import Verif.Lemmas.Connection
import Verif.Lemmas.ConnRequest
import Verif.Lemmas.ConnClean
import Verif.Props.Connection
import Verif.Model.Base64
import Verif.Lemmas.Base64
import Verif.Model.TimeUtil
import Verif.Props.Util
import Verif.Model.Binary
import Verif.Spec.Binary
import Verif.Lemmas.Binary
import Verif.Props.Binary
import Verif.Model.Routing
import Verif.Spec.Routing
import Verif.Lemmas.Routing
import Verif.Props.Routing
import Verif.Model.Replication
import Verif.Spec.Replication
import Verif.Lemmas.Replication
import Verif.Props.Replication
import Verif.Model.Rebuild
import Verif.Spec.Rebuild
import Verif.Lemmas.Rebuild
import Verif.Lemmas.RebuildMaster
import Verif.Props.Rebuild
import Verif.Model.Dump
import Verif.Spec.Dump
import Verif.Lemmas.Dump
import Verif.Props.Dump
import Verif.Model.SyncQueue
import Verif.Spec.SyncQueue
import Verif.Lemmas.SyncQueue
import Verif.Props.SyncQueue
import Verif.Model.ThreadPool
import Verif.Lemmas.ThreadPool
import Verif.Props.ThreadPool
import Verif.Model.SendOrder
import Verif.Spec.SendOrder
import Verif.Lemmas.SendOrder
import Verif.Props.SendOrder
import Verif.Model.Cast
import Verif.Model.Control
import Verif.Spec.Control
import Verif.Lemmas.Control
import Verif.Props.Control
import Verif.Model.Monitor
import Verif.Spec.Monitor
import Verif.Lemmas.Monitor
import Verif.Props.Monitor
import Verif.Model.FileCoordinator
import Verif.Spec.FileCoordinator
import Verif.Lemmas.FileCoordinator
import Verif.Props.FileCoordinator
import Verif.Model.Locks
import Verif.Spec.Locks
import Verif.Lemmas.Locks
import Verif.Props.Locks
import Verif.Model.Bwlimit
import Verif.Spec.Bwlimit
import Verif.Lemmas.Bwlimit
import Verif.Props.Bwlimit
import Verif.Model.Retry
import Verif.Props.Retry
import Verif.Model.Forward
import Verif.Lemmas.Forward
import Verif.Props.Forward
import Verif.Model.ProxyLink
import Verif.Props.ProxyLink
import Verif.Model.Get
import Verif.Lemmas.Get
import Verif.Props.Get
import Verif.Model.Engines
import Verif.Model.Keys
import Verif.Props.Engines
import Verif.Props.Keys
import Verif.Model.CrossCluster
import Verif.Props.CrossCluster
import Verif.Model.ZkLock
import Verif.Lemmas.ZkLock
import Verif.Props.ZkLock
import Verif.Model.MultiIndex
import Verif.Lemmas.MultiIndex
import Verif.Props.MultiIndex
import Verif.Model.Failover
import Verif.Spec.Failover
import Verif.Lemmas.Failover
import Verif.Lemmas.FailoverGroup
import Verif.Props.Failover
import Verif.Spec.Reigns
import Verif.Lemmas.Reigns
import Verif.Props.Reigns
import Verif.Model.Session
import Verif.Spec.Session
import Verif.Lemmas.Session
import Verif.Props.Session
import Verif.Props.SessionMore
import Verif.Model.BinSession
import Verif.Spec.BinSession
import Verif.Lemmas.BinSession
import Verif.Props.BinSession
import Verif.Props.BinStats
import Verif.Props.BinMeaning
import Verif.Model.Config
import Verif.Spec.Config
import Verif.Lemmas.Config
import Verif.Props.Config
import Verif.Model.MySql
import Verif.Spec.MySql
import Verif.Lemmas.MySql
import Verif.Props.MySql
import Verif.Props.MySqlMore
import Verif.Model.Worker
import Verif.Spec.Worker
import Verif.Props.Worker
import Verif.Model.Wire
import Verif.Spec.Wire
import Verif.Props.Wire
import Verif.Model.Slow
import Verif.Spec.Slow
import Verif.Props.Slow
import Verif.Model.IndexSession
import Verif.Spec.IndexSession
import Verif.Lemmas.IndexSession
import Verif.Props.IndexSession
import Verif.Model.Shared
import Verif.Spec.Memory
import Verif.Lemmas.Memory
import Verif.Props.Memory
import Verif.Model.Fleet
import Verif.Spec.Fleet
import Verif.Lemmas.Fleet
import Verif.Props.Fleet
import Verif.Props.Tighter
import Verif.Spec.BinMemory
import Verif.Props.BinMemory
import Verif.Model.Accept
import Verif.Props.Accept
import Verif.Model.QueueLimit
import Verif.Props.QueueLimit
import Verif.Model.Stats
import Verif.Props.Stats
import Verif.Model.DumpKey
import Verif.Props.DumpKey
import Verif.Model.Grow
import Verif.Props.Grow
import Verif.Props.ZkCode
import Verif.Props.Join
import Verif.Props.Watch
import Verif.Props.Ward
import Verif.Model.Halt
import Verif.Spec.Halt
import Verif.Lemmas.Halt
import Verif.Props.Halt
import Verif.Model.Report
import Verif.Spec.Report
import Verif.Props.Report
import Verif.Spec.Tombs
import Verif.Lemmas.Tombs
import Verif.Lemmas.TombsGroup
import Verif.Lemmas.TombsOrder
import Verif.Props.Tombs
import Verif.Spec.TombReigns
import Verif.Lemmas.TombReigns
import Verif.Props.TombReigns
import Verif.Model.Follow
import Verif.Props.Follow
import Verif.Model.IndexStart
import Verif.Props.IndexStart
import Verif.Model.Listen
import Verif.Props.Listen
import Verif.Model.Errand
import Verif.Lemmas.Errand
import Verif.Props.Errand
import Verif.Props.Errand2
import Verif.Model.Archive
import Verif.Lemmas.Archive
import Verif.Props.Archive
import Verif.Model.ArchiveIndex
import Verif.Props.ArchiveIndex
import Verif.Model.Iterate
import Verif.Spec.Iterate
import Verif.Lemmas.Iterate
import Verif.Lemmas.IterateTree
import Verif.Lemmas.IterateWalk
import Verif.Lemmas.IterateDump
import Verif.Props.Iterate
import Verif.Props.IterateMore
import Verif.Model.Socket
import Verif.Spec.Socket
import Verif.Lemmas.Socket
import Verif.Props.Socket
import Verif.Model.Senders
import Verif.Spec.Senders
import Verif.Lemmas.Senders
import Verif.Props.Senders
import Verif.Model.Realm
import Verif.Spec.Realm
import Verif.Lemmas.Realm
import Verif.Props.Realm
import Verif.Model.Client
import Verif.Spec.Client
import Verif.Props.Client
import Verif.Model.Show
import Verif.Spec.Show
import Verif.Props.Show
import Verif.Model.Uri
import Verif.Spec.Uri
import Verif.Lemmas.Uri
import Verif.Props.Uri
import Verif.Model.IndexOptions
import Verif.Props.IndexOptions
import Verif.Model.Vigil
import Verif.Props.Vigil
import Verif.Model.PidFile
import Verif.Props.PidFile
import Verif.Props.Obeyed
import Verif.Model.FdLimit
import Verif.Props.FdLimit
import Verif.Model.Logger
import Verif.Spec.Log
import Verif.Props.Logger
import Verif.Props.TightMore
