import Verif.Model.Access
import Verif.Model.Api
import Verif.Model.AskRace
import Verif.Model.Broadcast
import Verif.Model.Broadcaster
import Verif.Model.Bulk
import Verif.Model.Bytes
import Verif.Model.CloseRace
import Verif.Model.Conn
import Verif.Model.Dial
import Verif.Model.Errors
import Verif.Model.Exchange
import Verif.Model.ExchangeAsk
import Verif.Model.ExchangeCast
import Verif.Model.Handler
import Verif.Model.Latch
import Verif.Model.LockCalls
import Verif.Model.Locks
import Verif.Model.Message
import Verif.Model.Net
import Verif.Model.Poll
import Verif.Model.Process
import Verif.Model.PubSub
import Verif.Model.Reconnect
import Verif.Model.Register
import Verif.Model.ServerLoop
import Verif.Model.Session
import Verif.Model.Setup
import Verif.Model.Socket
import Verif.Model.Store
import Verif.Model.Struct
import Verif.Model.Timeouts
import Verif.Model.Upgrade
import Verif.Model.WaitConnect
import Verif.Spec.Access
import Verif.Spec.Answer
import Verif.Spec.Apart
import Verif.Spec.AskFate
import Verif.Spec.Audience
import Verif.Spec.Both
import Verif.Spec.BothRule
import Verif.Spec.Brought
import Verif.Spec.Bulk
import Verif.Spec.CloseRace
import Verif.Spec.Conn
import Verif.Spec.Delivery
import Verif.Spec.Dial
import Verif.Spec.EmitBoth
import Verif.Spec.Ended
import Verif.Spec.Gate
import Verif.Spec.HexText
import Verif.Spec.Ledger
import Verif.Spec.LockCalls
import Verif.Spec.Locks
import Verif.Spec.Match
import Verif.Spec.NativeOnly
import Verif.Spec.Net
import Verif.Spec.Order
import Verif.Spec.Orphan
import Verif.Spec.Parade
import Verif.Spec.Pieces
import Verif.Spec.Places
import Verif.Spec.Receive
import Verif.Spec.Reconnect
import Verif.Spec.Rest
import Verif.Spec.Revive
import Verif.Spec.Robust
import Verif.Spec.Roster
import Verif.Spec.Sent
import Verif.Spec.ServerLoop
import Verif.Spec.Session
import Verif.Spec.Settle
import Verif.Spec.Setup
import Verif.Spec.Slice
import Verif.Spec.Socket
import Verif.Spec.Struct
import Verif.Spec.StructNs
import Verif.Spec.Tale
import Verif.Spec.Town
import Verif.Spec.Turn
import Verif.Spec.Turns
import Verif.Spec.Verdict
import Verif.Spec.WaitExact
import Verif.Spec.Wind
import Verif.Spec.Wire
import Verif.Proofs.Access
import Verif.Proofs.Agree
import Verif.Proofs.AgreeBoth
import Verif.Proofs.AgreeClient
import Verif.Proofs.AgreeMany
import Verif.Proofs.AgreeRun
import Verif.Proofs.AskFate
import Verif.Proofs.AskRace
import Verif.Proofs.Broadcaster
import Verif.Proofs.Bulk
import Verif.Proofs.Bytes
import Verif.Proofs.CloseRace
import Verif.Proofs.CloseRaceEnd
import Verif.Proofs.Codec
import Verif.Proofs.ConnAsk
import Verif.Proofs.ConnCalm
import Verif.Proofs.ConnClose
import Verif.Proofs.ConnFinish
import Verif.Proofs.ConnFrame
import Verif.Proofs.ConnGate
import Verif.Proofs.ConnHandlers
import Verif.Proofs.ConnId
import Verif.Proofs.ConnInv
import Verif.Proofs.ConnNotes
import Verif.Proofs.ConnOrder
import Verif.Proofs.ConnOuter
import Verif.Proofs.ConnPassive
import Verif.Proofs.ConnPrim
import Verif.Proofs.ConnReader
import Verif.Proofs.ConnRun
import Verif.Proofs.ConnShut
import Verif.Proofs.ConnSteady
import Verif.Proofs.ConnWhole
import Verif.Proofs.Delivery
import Verif.Proofs.Dial
import Verif.Proofs.DialResult
import Verif.Proofs.DialSource
import Verif.Proofs.EarsBoth
import Verif.Proofs.EarsRun
import Verif.Proofs.Emit
import Verif.Proofs.Ended
import Verif.Proofs.Fits
import Verif.Proofs.GateHeld
import Verif.Proofs.Handler
import Verif.Proofs.Hung
import Verif.Proofs.Ledger
import Verif.Proofs.LockCalls
import Verif.Proofs.Locks
import Verif.Proofs.Net
import Verif.Proofs.Order
import Verif.Proofs.Orphan
import Verif.Proofs.Parade
import Verif.Proofs.Receive
import Verif.Proofs.Revive
import Verif.Proofs.Robust
import Verif.Proofs.ServerLoop
import Verif.Proofs.Session
import Verif.Proofs.Settle
import Verif.Proofs.Struct
import Verif.Proofs.TalkBoth
import Verif.Proofs.Tally
import Verif.Proofs.Turn
import Verif.Proofs.Utf8
import Verif.Props.Access
import Verif.Props.Agree
import Verif.Props.AgreeBoth
import Verif.Props.AgreeMany
import Verif.Props.Answer
import Verif.Props.Apart
import Verif.Props.AskEnd
import Verif.Props.AskFate
import Verif.Props.AskMany
import Verif.Props.AskRace
import Verif.Props.Audience
import Verif.Props.Broadcast
import Verif.Props.BroadcastExact
import Verif.Props.Broadcaster
import Verif.Props.Brought
import Verif.Props.Bulk
import Verif.Props.CloseExact
import Verif.Props.CloseRace
import Verif.Props.Curtain
import Verif.Props.Delivery
import Verif.Props.Dial
import Verif.Props.Dusk
import Verif.Props.Echo
import Verif.Props.EmitBoth
import Verif.Props.EmitMany
import Verif.Props.Ended
import Verif.Props.Errors
import Verif.Props.Exchange
import Verif.Props.ExchangeAsk
import Verif.Props.ExchangeCast
import Verif.Props.Gate
import Verif.Props.GateConn
import Verif.Props.GateExact
import Verif.Props.Ghost
import Verif.Props.GoneExact
import Verif.Props.Handlers
import Verif.Props.Handshake
import Verif.Props.HandshakeExact
import Verif.Props.Headcount
import Verif.Props.JoinAny
import Verif.Props.Latch
import Verif.Props.LatchExact
import Verif.Props.LeakExact
import Verif.Props.Ledger
import Verif.Props.Lifecycle
import Verif.Props.LockCalls
import Verif.Props.Locks
import Verif.Props.Membership
import Verif.Props.MethodsExact
import Verif.Props.Namespaces
import Verif.Props.Native
import Verif.Props.NativeOnly
import Verif.Props.Net
import Verif.Props.NoDeadlock
import Verif.Props.NoDeadlockBoth
import Verif.Props.OffersExact
import Verif.Props.Order
import Verif.Props.Orphan
import Verif.Props.Parade
import Verif.Props.Pieces
import Verif.Props.Places
import Verif.Props.Poll
import Verif.Props.PollExact
import Verif.Props.PubSub
import Verif.Props.Publish
import Verif.Props.Receive
import Verif.Props.Reconnect
import Verif.Props.Register
import Verif.Props.Relay
import Verif.Props.Rest
import Verif.Props.Revive
import Verif.Props.Robust
import Verif.Props.Rooms
import Verif.Props.Roster
import Verif.Props.Route
import Verif.Props.Sent
import Verif.Props.ServerLoop
import Verif.Props.Session
import Verif.Props.Settle
import Verif.Props.SettleBoth
import Verif.Props.Setup
import Verif.Props.Shared
import Verif.Props.Slice
import Verif.Props.Socket
import Verif.Props.SocketWrite
import Verif.Props.Store
import Verif.Props.StoreCount
import Verif.Props.Struct
import Verif.Props.StructNs
import Verif.Props.Tale
import Verif.Props.Timeouts
import Verif.Props.Town
import Verif.Props.Turn
import Verif.Props.Turns
import Verif.Props.Upgrade
import Verif.Props.Verdict
import Verif.Props.WaitConnect
import Verif.Props.WaitExact
import Verif.Props.Wind
import Verif.Props.Window
import Verif.Props.Wire
import Verif.Props.WireExact
import Verif.Props.Write
import Verif.Props.WriteApi
