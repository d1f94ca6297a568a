import Verif.Props.Bitmap
import Verif.Props.Id
import Verif.Props.IdText
import Verif.Props.Ready
import Verif.Props.Message
import Verif.Props.Receiver
import Verif.Props.Handshake
import Verif.Props.Addr
import Verif.Props.PendingPieces
import Verif.Props.PendingTimed
import Verif.Props.Downloader
import Verif.Props.Peers
import Verif.Props.TorrentManager
import Verif.Props.Connection
import Verif.Props.Bencode
import Verif.Props.Announce
import Verif.Props.Tracker
import Verif.Props.TrackerResponse
import Verif.Props.Metainfo
import Verif.Props.Fs
import Verif.Props.DirBuilder
import Verif.Props.DirBuilderFails
import Verif.Props.FileCache
import Verif.Props.RoutingTable
import Verif.Props.RoutingTimed
import Verif.Props.DhtManagerTimed
import Verif.Props.DhtManagerTimedPeers
import Verif.Props.Krpc
import Verif.Props.DhtConnection
import Verif.Props.DhtBep5
import Verif.Props.Interval
import Verif.Props.Shutdown
import Verif.Props.Fetcher
import Verif.Props.DhtManager
import Verif.Props.DhtSystem
import Verif.Props.DhtSystemLive
import Verif.Props.SwarmLive
import Verif.Props.SwarmOut
import Verif.Props.Program
import Verif.Props.ProgramPause
import Verif.Props.ProgramDeadlock
import Verif.Props.ProgramFair
import Verif.Props.ProgramFairFlow
import Verif.Props.ProgramAnswered
import Verif.Props.ProgramFairTorrent
import Verif.Props.ProgramFairTried
import Verif.Props.ProgramFairTrackers
import Verif.Props.ProgramFairExists
import Verif.Props.ProgramFairLookup
import Verif.Props.ProgramFairTable
import Verif.Props.ProgramJoins
import Verif.Props.ProgramSessions
import Verif.Props.PeersLock
import Verif.Props.ProgramSize
import Verif.Props.ProgramPeers
import Verif.Props.ProgramAnnounce
import Verif.Props.ProgramTargets
import Verif.Props.ProgramEnd
import Verif.Props.ProgramForgotten
import Verif.Props.ProgramTrackers
import Verif.Props.Storage
import Verif.Props.ProgramAnswers
import Verif.Props.Launch
import Verif.Props.Download
import Verif.Props.Gateway
import Verif.Props.Handle
import Verif.Props.Memory
import Verif.Props.Tokens
import Verif.Props.OwnNode
import Verif.Props.OpenFiles
import Verif.Props.Trouble
import Verif.Conformance.Data
import Verif.Conformance.Wire
import Verif.Conformance.Dht
import Verif.Conformance.Files
import Verif.Conformance.WarBreaker
