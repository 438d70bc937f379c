import Verif.Serial.Props
import Verif.Tx.Props
import Verif.Util.CacheSet
import Verif.LockingShard.Props
import Verif.LockingShard.Settle
import Verif.Coordinator.Props
import Verif.Coordinator.Batch
import Verif.Coordinator.System
import Verif.Coordinator.SystemViews
import Verif.Coordinator.Finish
import Verif.Coordinator.Through
import Verif.Sentinel.TwoPhase
import Verif.Atomizer.Snapshot
import Verif.Atomizer.ReplicasProps
import Verif.Archiver.Props
import Verif.Watchtower.Status
import Verif.Watchtower.ClientProps
import Verif.Sentinel.Atomizer
import Verif.Sentinel.Server
import Verif.Sentinel.ServerProps
import Verif.Sentinel.Client
import Verif.Atomizer.Settled
import Verif.Atomizer.Payment
import Verif.Wallet.TwoPhaseClient
import Verif.Parsec.ReplSerial
import Verif.Parsec.BrokerAnswers
import Verif.Parsec.BrokerTicket
import Verif.Parsec.CommitRuns
import Verif.Parsec.BrokerRecoveryProps
import Verif.Parsec.TicketProps
import Verif.Parsec.AgentRunner
import Verif.Parsec.AgentAgain
import Verif.Parsec.AgentAgainProps
import Verif.Parsec.Serving
import Verif.Parsec.ServingSpec
import Verif.Parsec.ServingLemmas
import Verif.Parsec.ServingProps
import Verif.Threads.Props
import Verif.Wallet.Sync
import Verif.Wallet.FilesProps
import Verif.Wallet.CliProps
import Verif.Evm.MathProps
import Verif.Config.Props
import Verif.Config.FileProps
import Verif.Config.ArgsProps
import Verif.Hex.Props
import Verif.Queue.Props
import Verif.Raft.Props
import Verif.Rpc.SystemProps
import Verif.Bech32.Props
import Verif.Evm.Signature
import Verif.Evm.HostCommit
import Verif.Evm.LogProps
import Verif.Parsec.ServerSys
import Verif.Parsec.ServerStep
import Verif.Parsec.ServerAgent
import Verif.Parsec.ServerPhase
import Verif.Parsec.ServerInv
import Verif.Parsec.ServerReach
import Verif.Parsec.ServerProps
import Verif.Parsec.ServerRuns
import Verif.Parsec.ManySys
import Verif.Parsec.ManyShard
import Verif.Parsec.ManyView
import Verif.Parsec.ManyLink
import Verif.Parsec.ManyOrder
import Verif.Parsec.ManyGave
import Verif.Parsec.ManyTold
import Verif.Parsec.ManyOut
import Verif.Parsec.ManyProps
import Verif.Parsec.ManyExamples
import Verif.Money.Spec
import Verif.Money.Books
import Verif.Money.Atomizer
import Verif.Money.Props
import Verif.Money.TwoPhaseLemmas
import Verif.Money.TwoPhaseInv
import Verif.Money.TwoPhaseProps
import Verif.Net.Model
import Verif.Net.Lemmas
import Verif.Net.Inv
import Verif.Net.Props
import Verif.Net.Inbox
import Verif.Net.InboxProps
import Verif.Net.Shutdown
import Verif.Net.ShutdownProps
import Verif.Net.Listen
import Verif.Coordinator.Threads
import Verif.Coordinator.ThreadsInv
import Verif.Coordinator.ThreadsProps
import Verif.Http.Json
import Verif.Http.Answers
import Verif.Http.Handlers
import Verif.Http.Props
import Verif.Http.Accounts
import Verif.Http.Receipts
import Verif.Http.Queries
import Verif.Http.Bloom
import Verif.Http.ClientProps
import Verif.Http.Events
import Verif.Http.EventsProps
import Verif.Catchup.Model
import Verif.Catchup.Props
import Verif.Catchup.Network
import Verif.Catchup.Recover
import Verif.Parsec.Lua
import Verif.Parsec.LuaProps
import Verif.Raft.State
import Verif.Raft.StateProps
import Verif.LockingShard.Cluster
import Verif.LockingShard.ClusterProps
import Verif.Evm.Mint
import Verif.Evm.MintProps
import Verif.Evm.BaseGas
import Verif.Crypto.Sha256
import Verif.Crypto.Sha256Spec
import Verif.Crypto.Sha256Lemmas
import Verif.Crypto.TxHash
import Verif.Crypto.Sha256Props
import Verif.Crypto.Random
import Verif.Crypto.RandomLemmas
import Verif.Crypto.RandomProps
import Verif.Coordinator.Wire
import Verif.Coordinator.WireSpec
import Verif.Coordinator.WireLemmas
import Verif.Coordinator.WireProps
import Verif.Serial.Codec
import Verif.Serial.CodecLemmas
import Verif.Serial.Catalogue
import Verif.Serial.CatalogueLemmas
import Verif.Serial.CatalogueProps
import Verif.Serial.Streams
import Verif.Serial.StreamsLemmas
import Verif.Serial.StreamsProps
import Verif.Parsec.ReplWire
import Verif.Parsec.ShardAnswers
import Verif.Parsec.ShardWound
import Verif.Parsec.ShardThrough
import Verif.Parsec.BrokerReach
import Verif.Parsec.PayContract
import Verif.Parsec.AgentTicket
import Verif.Parsec.ReplWireSpec
import Verif.Parsec.ReplWireLemmas
import Verif.Parsec.ReplWireProps
import Verif.Config.Daemons
import Verif.Config.DaemonsSpec
import Verif.Config.DaemonsLemmas
import Verif.Config.DaemonsProps
import Verif.Config.Startup
import Verif.Config.StartupSpec
import Verif.Config.StartupLemmas
import Verif.Config.StartupProps
import Verif.Http.Server
import Verif.Http.ServerSpec
import Verif.Http.ServerLemmas
import Verif.Http.ServerInv
import Verif.Http.ServerProps
import Verif.Parsec.BrokerLocksSpec
import Verif.Parsec.BrokerLocks
import Verif.Parsec.BrokerLocksProps
import Verif.Parsec.ShardOwner
import Verif.Parsec.GetRow
