import Verif.Props.Address
import Verif.Props.Admission
import Verif.Props.Announced
import Verif.Props.AnnouncedOver
import Verif.Props.AnswerSize
import Verif.Props.Answers
import Verif.Props.AtMostOnce
import Verif.Props.Attribution
import Verif.Props.BroadcastReceiver
import Verif.Props.BroadcastSend
import Verif.Props.Buckets
import Verif.Props.Builder
import Verif.Props.Channel
import Verif.Props.ChannelConc
import Verif.Props.ChannelDrop
import Verif.Props.Compression
import Verif.Props.Delivery
import Verif.Props.Destination
import Verif.Props.DhtConc
import Verif.Props.DhtJoin
import Verif.Props.DhtNode
import Verif.Props.DhtRpc
import Verif.Props.DhtTables
import Verif.Props.Discover
import Verif.Props.Dispatch
import Verif.Props.Display
import Verif.Props.Ending
import Verif.Props.EndingClock
import Verif.Props.Establish
import Verif.Props.Establish2
import Verif.Props.Exchange
import Verif.Props.FecGossip
import Verif.Props.FecMesh
import Verif.Props.FecSend
import Verif.Props.FecWaves
import Verif.Props.FindAddress
import Verif.Props.Found
import Verif.Props.Gossip
import Verif.Props.GossipFec
import Verif.Props.Handshake
import Verif.Props.Hoard
import Verif.Props.Identities
import Verif.Props.Isolation
import Verif.Props.JoinOver
import Verif.Props.Keystore
import Verif.Props.Lifecycle
import Verif.Props.Locks
import Verif.Props.LongTrip
import Verif.Props.Lookup
import Verif.Props.MatchPeers
import Verif.Props.Memory
import Verif.Props.Mesh
import Verif.Props.OverlayActive
import Verif.Props.OverlayConc
import Verif.Props.OverlayConcEnd
import Verif.Props.OverlayConcParts
import Verif.Props.OverlayFec
import Verif.Props.OverlayLog
import Verif.Props.OverlayNode
import Verif.Props.OverlayOnce
import Verif.Props.OverlayOrdinary
import Verif.Props.OverlayPeers
import Verif.Props.OverlayPeersConc
import Verif.Props.OverlayPublish
import Verif.Props.OverlayTalk
import Verif.Props.OwnBroadcast
import Verif.Props.PacketCodec
import Verif.Props.Parts
import Verif.Props.PeerTable
import Verif.Props.PeersRefs
import Verif.Props.PeersSet
import Verif.Props.Ping
import Verif.Props.Processing
import Verif.Props.Publish
import Verif.Props.QueriesCache
import Verif.Props.ReadYourWrites
import Verif.Props.ReceiveConc
import Verif.Props.ReceiveProgress
import Verif.Props.ReceiveRefine
import Verif.Props.ReceiveSession
import Verif.Props.ReinitConc
import Verif.Props.Replay
import Verif.Props.Reset
import Verif.Props.Restart
import Verif.Props.RestartNode
import Verif.Props.RldpCache
import Verif.Props.RldpConfirm
import Verif.Props.RldpExchange
import Verif.Props.RldpFinish
import Verif.Props.RldpLimit
import Verif.Props.RldpMany
import Verif.Props.RldpOwn
import Verif.Props.RldpQuery
import Verif.Props.RldpReceive
import Verif.Props.RldpSystem
import Verif.Props.RldpTime
import Verif.Props.RldpWindow
import Verif.Props.RoundTrip
import Verif.Props.Runs
import Verif.Props.Scheme
import Verif.Props.Search
import Verif.Props.SearchFind
import Verif.Props.SearchNet
import Verif.Props.Sender
import Verif.Props.Session
import Verif.Props.Signed
import Verif.Props.Socket
import Verif.Props.Stack
import Verif.Props.Storage
import Verif.Props.Takeover
import Verif.Props.Transfer
import Verif.Props.TransferApart
import Verif.Props.TransferTimeout
import Verif.Props.UpperSizes
import Verif.Props.Views
import Verif.Props.Wire
import Verif.Props.WireFormat
