import Verif.Lib.Run
import Verif.Lib.AMap
import Verif.Model.Storage
import Verif.Spec.Storage
import Verif.Proofs.Storage
import Verif.Props.Storage
import Verif.Lib.ListExtra
import Verif.Model.Snapshot
import Verif.Spec.Snapshot
import Verif.Proofs.SnapshotSender
import Verif.Proofs.SnapshotReceiver
import Verif.Props.Snapshot
import Verif.Props.SnapshotAck
import Verif.Model.Comm
import Verif.Spec.Comm
import Verif.Proofs.Comm
import Verif.Props.Comm
import Verif.Model.Handshake
import Verif.Spec.Handshake
import Verif.Proofs.Handshake
import Verif.Props.Handshake
import Verif.Lib.Codec
import Verif.Model.Actor
import Verif.Spec.Actor
import Verif.Model.Counter
import Verif.Spec.Counter
import Verif.Proofs.Counter
import Verif.Props.Counter
import Verif.Lib.SMap
import Verif.Model.Willow
import Verif.Spec.Willow
import Verif.Proofs.Willow
import Verif.Props.Willow
import Verif.Model.TabletStore
import Verif.Spec.TabletStore
import Verif.Proofs.TabletStore
import Verif.Props.TabletStore
import Verif.Model.Driver
import Verif.Spec.Driver
import Verif.Proofs.DriverSteps
import Verif.Proofs.DriverTrace
import Verif.Proofs.DriverInv
import Verif.Proofs.DriverCalls
import Verif.Proofs.DriverReplies
import Verif.Proofs.DriverReports
import Verif.Props.DriverExample
import Verif.Props.Driver
import Verif.Spec.DriverLog
import Verif.Proofs.DriverLog
import Verif.Proofs.DriverFeed
import Verif.Proofs.DriverCluster
import Verif.Proofs.DriverOwner
import Verif.Proofs.DriverMembers
import Verif.Props.DriverLogExample
import Verif.Props.DriverLog
import Verif.Props.DriverMembers
import Verif.Model.CacheMetadata
import Verif.Spec.CacheMetadata
import Verif.Proofs.CacheMetadata
import Verif.Props.CacheMetadata
import Verif.Model.CacheData
import Verif.Spec.CacheData
import Verif.Proofs.CacheData
import Verif.Proofs.CacheDataLive
import Verif.Props.CacheData
import Verif.Model.CacheCoordinator
import Verif.Spec.CacheCoordinator
import Verif.Proofs.CacheCoordinator
import Verif.Proofs.CacheManager
import Verif.Proofs.CacheWorld
import Verif.Proofs.CacheRun
import Verif.Proofs.CacheCover
import Verif.Props.CacheCoordinator
import Verif.Model.CacheStore
import Verif.Spec.CacheStore
import Verif.Proofs.CacheStore
import Verif.Proofs.CacheActor
import Verif.Proofs.CacheCommitted
import Verif.Proofs.KvGets
import Verif.Proofs.CacheStoreRun
import Verif.Props.CacheStore
import Verif.Proofs.DriverLeaves
import Verif.Spec.DriverReady
import Verif.Proofs.DriverReady
import Verif.Model.Replica
import Verif.Spec.Replica
import Verif.Proofs.Replica
import Verif.Proofs.ReplicaStore
import Verif.Props.ReplicaExample
import Verif.Props.Replica
import Verif.Model.Service
import Verif.Spec.Service
import Verif.Proofs.Service
import Verif.Props.Service
import Verif.Spec.DriverApp
import Verif.Proofs.DriverApp
import Verif.Proofs.Apps
import Verif.Props.DriverAppExample
import Verif.Props.DriverApp
import Verif.Props.Apps
import Verif.Spec.Attack
import Verif.Proofs.Attack
import Verif.Props.Attack
import Verif.Model.Log
import Verif.Spec.Log
import Verif.Props.Log
import Verif.Spec.CacheResolve
import Verif.Proofs.CacheResolve
import Verif.Props.CacheResolve
import Verif.Spec.CacheTxn
import Verif.Proofs.CacheMetas
import Verif.Proofs.CacheGiven
import Verif.Proofs.CacheTxn
import Verif.Props.CacheTxn
import Verif.Spec.CacheSerial
import Verif.Proofs.CacheProv
import Verif.Proofs.CacheSerial
import Verif.Props.CacheSerial
import Verif.Model.BlobUri
import Verif.Spec.Blob
import Verif.Proofs.Blob
import Verif.Props.Blob
import Verif.Spec.CacheMany
import Verif.Proofs.CacheMany
import Verif.Props.CacheMany
import Verif.Props.CacheNew
import Verif.Spec.CacheCluster
import Verif.Proofs.StoreCluster
import Verif.Props.CacheCluster
import Verif.Props.CacheClusterExample
import Verif.Spec.ServiceCluster
import Verif.Proofs.ServiceCluster
import Verif.Props.ServiceCluster
import Verif.Props.ServiceClusterExample
import Verif.Props.ServiceWillow
import Verif.Spec.Transfer
import Verif.Proofs.TransferSender
import Verif.Proofs.TransferShips
import Verif.Proofs.TransferHeld
import Verif.Proofs.TransferIntact
import Verif.Proofs.TransferNetwork
import Verif.Props.TransferExample
import Verif.Props.Transfer
import Verif.Spec.Recover
import Verif.Proofs.Recover
import Verif.Props.Recover
import Verif.Spec.Survive
import Verif.Proofs.Survive
import Verif.Proofs.SurviveApps
import Verif.Props.SurviveExample
import Verif.Props.Survive
import Verif.Spec.SurviveStore
import Verif.Proofs.SurviveStore
import Verif.Props.SurviveStoreExample
import Verif.Props.SurviveStore
import Verif.Props.Answered
import Verif.Model.Attest
import Verif.Model.Sessions
import Verif.Spec.Sessions
import Verif.Proofs.Sessions
import Verif.Props.Sessions
import Verif.Spec.Rollback
import Verif.Proofs.Rollback
import Verif.Props.Rollback
import Verif.Spec.Short
import Verif.Proofs.Short
import Verif.Props.Short
import Verif.Spec.Removed
import Verif.Proofs.Removed
import Verif.Props.RemovedExample
import Verif.Props.Removed
import Verif.Spec.KvMap
import Verif.Proofs.KvCalls
import Verif.Proofs.CacheRequests
import Verif.Proofs.KvGuard
import Verif.Proofs.KvCount
import Verif.Proofs.KvMap
import Verif.Proofs.CacheOwn
import Verif.Proofs.KvOwn
import Verif.Proofs.KvOneMap
import Verif.Props.KvMap
import Verif.Props.KvLost
import Verif.Props.KvCluster
import Verif.Spec.CacheNumbers
import Verif.Proofs.CacheNumbers
import Verif.Props.CacheNumbers
import Verif.Props.KvClusterExample
import Verif.Spec.CacheMemory
import Verif.Proofs.CacheMemory
import Verif.Proofs.KvMemory
import Verif.Props.CacheMemory
import Verif.Model.Shutdown
import Verif.Spec.Shutdown
import Verif.Props.Shutdown
import Verif.Model.Clock
import Verif.Spec.Clock
import Verif.Props.Clock
import Verif.Props.Lameduck
import Verif.Spec.Report
import Verif.Props.Report
import Verif.Spec.TabletRing
import Verif.Props.TabletRing
import Verif.Props.ReportSize
import Verif.Spec.Asked
import Verif.Props.Asked
import Verif.Spec.Handed
import Verif.Props.Handed
import Verif.Spec.Traced
import Verif.Props.Traced
import Verif.Model.EventualResult
import Verif.Spec.EventualResult
import Verif.Props.EventualResult
import Verif.Props.WillowKept
