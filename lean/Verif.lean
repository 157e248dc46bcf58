import Verif.Props.Frame
import Verif.Props.VersionText
import Verif.Props.Payload
import Verif.Props.EventId
import Verif.Props.Builder
import Verif.Props.Emit
import Verif.Props.Wire
import Verif.Props.Dispatch
import Verif.Props.System
import Verif.Props.Pool
import Verif.Props.Crypt
import Verif.Props.CryptEvents
import Verif.Props.CryptAttack
import Verif.Props.CryptPoll
import Verif.Props.Handshake
import Verif.Props.Server
import Verif.Props.Stack
import Verif.Props.Layers
import Verif.Props.Lossy
import Verif.Props.LossyLater
import Verif.Props.CryptBytes
import Verif.Props.Session
import Verif.Props.Progress
import Verif.Props.Fair
import Verif.Props.FairStack
import Verif.Props.FairServer
import Verif.Props.Protocol
import Verif.Props.Ids
import Verif.Props.CryptDrop
import Verif.Props.CryptErr
import Verif.Props.HandshakeErr
import Verif.Props.EmitAgain
import Verif.Props.Life
import Verif.Props.Assembly
import Verif.Props.Refine
import Verif.Props.Timed
import Verif.Props.LayerExchange
import Verif.Props.ExchangeOne
import Verif.Props.LayerPeer
import Verif.Props.LayerSession
import Verif.Props.LayerServer
import Verif.Props.ServerOne
import Verif.Props.LayerAttack
import Verif.Props.DataLock
import Verif.Props.FairLayer
import Verif.Model.LayerDrop
import Verif.Spec.LayerDrop
import Verif.Lemmas.LayerDrop
import Verif.Lemmas.LayerDropLink
import Verif.Props.LayerDrop
import Verif.Spec.Ledger
import Verif.Lemmas.Ledger
import Verif.Props.Ledger
import Verif.Model.LayerFail
import Verif.Spec.LayerFail
import Verif.Lemmas.LayerFail
import Verif.Props.LayerFail
import Verif.Lemmas.LayerDead
import Verif.Model.LayerAny
import Verif.Spec.LayerAny
import Verif.Lemmas.LayerAny
import Verif.Props.LayerAny
import Verif.Lemmas.AnyLedger
import Verif.Model.ReadFail
import Verif.Lemmas.ReadFail
import Verif.Props.ReadFail
import Verif.Lemmas.ReadSocket
import Verif.Model.SetupFail
import Verif.Spec.SetupFail
import Verif.Lemmas.SetupFail
import Verif.Props.SetupFail
import Verif.Model.LayerShutdown
import Verif.Spec.LayerShutdown
import Verif.Lemmas.LayerShutdown
import Verif.Props.LayerShutdown
import Verif.Spec.Nonces
import Verif.Lemmas.Nonces
import Verif.Props.Nonces
import Verif.Props.Wakeups
import Verif.Props.Concurrent
import Verif.Props.OneWay
import Verif.Props.Bounded
import Verif.Props.BoundedProgress
import Verif.Props.FairBounded
