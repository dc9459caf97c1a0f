import Verif.Model.Conn
/-!
Spec: the ledger of an application that follows its callbacks.
-/
namespace Neffos.Spec

/-- What an application that only listens to its callbacks writes down: for each namespace the NSConn
it is connected with, and the rooms of each NSConn. -/
structure Ledger where
  conn : Bytes → Option Nat
  rooms : Nat → Bytes → Bool

/-- It begins with nothing. -/
def Ledger.empty : Ledger := ⟨fun _ => none, fun _ _ => false⟩

/-- How it reacts to a callback, called with an NSConn and a message, that returned `ret`:
OnNamespaceConnected and OnRoomJoined add, OnNamespaceDisconnect and OnRoomLeft remove. Only the error
that a server returns for the OnNamespaceDisconnect of a client keeps the namespace. -/
def Ledger.hear (l : Ledger) (client : Bool) (obj : Nat) (msg : Message) (ret : Option GoErr) : Ledger :=
  if msg.event = OnNamespaceConnected then
    { l with conn := fun n => if n = msg.ns then some obj else l.conn n }
  else if msg.event = OnNamespaceDisconnect then
    if client = false ∧ msg.isLocal = false ∧ ret.isSome = true then l
    else { l with conn := fun n => if n = msg.ns then none else l.conn n }
  else if msg.event = OnRoomJoined then
    { l with rooms := fun o r => if o = obj ∧ r = msg.room then true else l.rooms o r }
  else if msg.event = OnRoomLeft then
    { l with rooms := fun o r => if o = obj ∧ r = msg.room then false else l.rooms o r }
  else l

/-- Of what can be observed it hears the callbacks that it registered. -/
def Ledger.see (client : Bool) (l : Ledger) : Obs → Ledger
  | .fired obj _ msg (some _) ret => l.hear client obj msg ret
  | _ => l

/-- the ledger after these observations -/
def ledger (client : Bool) (log : List Obs) : Ledger := log.foldl (Ledger.see client) Ledger.empty

/-- A callback is registered, in each declared namespace, for each of the four events. -/
def Listens (decl : List (Bytes × List Bytes)) : Prop :=
  ∀ ns evs, mapGet decl ns = some evs →
    ∀ e, e = OnNamespaceConnected ∨ e = OnNamespaceDisconnect ∨ e = OnRoomJoined ∨ e = OnRoomLeft →
      e ∈ evs ∨ OnAnyEvent ∈ evs

/-- The peer does not emit events that have the name of one of the three notifications. -/
def Unforged (cfg : Cfg) (typ : MsgType) (b : Bytes) : Prop :=
  let e := (deserializeMessage cfg.known typ b cfg.allowNative cfg.onlyNative).event
  e ≠ OnNamespaceConnected ∧ e ≠ OnRoomJoined ∧ e ≠ OnRoomLeft

/-- the ledger says what the connection is in -/
def Ledger.Right (l : Ledger) (s : St) : Prop :=
  (∀ ns, l.conn ns = s.namespace ns) ∧ ∀ obj room, l.rooms obj room = true ↔ room ∈ s.rooms obj

end Neffos.Spec
