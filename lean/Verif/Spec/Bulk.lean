import Verif.Model.Bulk
import Verif.Model.Access
/-!
# What `LeaveAll` and `DisconnectAll` should do
-/
namespace Neffos.Spec

/-- a room was left: asked about, then OnRoomLeave, then OnRoomLeft -/
def wholeLeave (ns : Bytes) (r : Bytes) : List BulkObs := [.ask r, .leave ns r false, .left ns r false]

/-- a namespace was disconnected: asked about, then its rooms one after the other, then OnNamespaceDisconnect -/
def wholeDisconnect (exchange : Bool) (e : Bytes × List Bytes) : List BulkObs :=
  [.ask e.1] ++ e.2.flatMap (fun r => [.leave e.1 r true, .left e.1 r true]) ++ [.disconnect e.1] ++
    if exchange then [.unsubscribe e.1] else []

/-- the mutex that the call holds from its first step on -/
def callMutex (c : Nat) : BulkKind → Mx
  | .leaveAll n => .rooms n
  | .disconnectAll => .ns c

/-- what the reader of connection `c` does with the message, callbacks apart, in terms of the mutexes and variables of
C60: it looks up whether it is an answer, then, unless it is, the namespace, and then handles it -/
def handlerAcc (c : Nat) (server : Bool) : BulkMsg → List Acc
  | .answer => handleMessageAcc c server []
  | .connect _ => handleMessageAcc c server (replyConnectAcc c [] (writeAcc c .none []) [])
  | .disconnect n => handleMessageAcc c server (replyDisconnectAcc c [] (forceLeaveAcc n []) (writeAcc c .none []))
  | .room n => handleMessageAcc c server (namespaceAcc c ++ replyRoomAcc n [] [] [])
  | .event _ => handleMessageAcc c server (namespaceAcc c)
  | .refused n => handleMessageAcc c server (namespaceAcc c ++ writeAcc c (.room n) [])

/-- this step takes the mutex -/
def Acc.Takes (m : Mx) (a : Acc) : Prop := a = .lock m ∨ a = .rlock m

/-- the reader will have to wait for the call before it can deliver the answer that the call waits for -/
def Doomed (s : BulkSt) : Prop :=
  s.todo ≠ 0 ∧ (∃ m ∈ s.inbox, s.kind.blocks m = true) ∧
    ¬ (s.todo = 1 ∧ (s.box = true ∨ BulkMsg.answer ∈ s.inbox.takeWhile (fun m => !s.kind.blocks m)))

/-- nothing in the inbox takes the mutex of the call -/
def Harmless (s : BulkSt) : Prop := ∀ m ∈ s.inbox, s.kind.blocks m = false

/-- the states of a call that found `n` entries -/
inductive BulkReach (kind : BulkKind) (n : Nat) (inbox : List BulkMsg) : BulkSt → Prop
  | start : BulkReach kind n inbox (bulkStart kind n inbox)
  | step {s s' : BulkSt} {op : BulkOp} : BulkReach kind n inbox s → s.step op = some s' → BulkReach kind n inbox s'

end Neffos.Spec
