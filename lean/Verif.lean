import Verif.Props.Framing
import Verif.Props.Label
import Verif.Props.Deadline
import Verif.Props.Members
import Verif.Props.Broadcast
import Verif.Props.Suspicion
import Verif.Props.Transform
import Verif.Props.Addr
import Verif.Props.Messages
import Verif.Props.Stream
import Verif.Props.Membership
import Verif.Props.Effects
import Verif.Props.Probe
import Verif.Props.Relay
import Verif.Props.Blame
import Verif.Props.PushPull
import Verif.Props.Timers
import Verif.Props.Leave
import Verif.Props.Dials
import Verif.Props.Escalate
import Verif.Props.Errors
import Verif.Props.Mtu
import Verif.Props.Fair
import Verif.Props.Gossip
import Verif.Props.Cluster
import Verif.Props.Coord
import Verif.Props.Exchanges
import Verif.Props.Admission
import Verif.Props.Deadlines
import Verif.Props.Driver
import Verif.Props.Engine
import Verif.Props.EngineMail
import Verif.Props.QuicConn
import Verif.Props.Quic
import Verif.Props.QuicLife
import Verif.Props.QuicWire
import Verif.Props.QuicTime
import Verif.Props.QuicOverdue
import Verif.Props.Tls
import Verif.Props.TlsBridge
import Verif.Props.TlsSend
import Verif.Props.TlsOrder
import Verif.Props.Embassy
import Verif.Props.Waiters
import Verif.Props.Clock
import Verif.Props.Observe
import Verif.Props.Commands
import Verif.Props.Pending
import Verif.Props.Sweep
import Verif.Props.Snapshot
