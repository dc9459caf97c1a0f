import Verif.Proofs.Ledger
import Verif.Props.Rooms
/-!
# C95: an application that follows its callbacks knows its memberships
-/
set_option autoImplicit false
namespace Neffos
open Spec

variable {cfg : Cfg} {id : Bytes}

/-- C95: after every history of calls, of payloads that do not carry the name of a notification, of closes and of
failures, the ledger kept from the callbacks is right, unless the connection is closed and its socket refused
something. -/
theorem c95_ledger {ops : List Op} {s : St} (hn : cfg.onlyNative = false) (hl : Listens cfg.decl)
    (hp : ∀ typ b, Op.recv typ b ∈ ops → Unforged cfg typ b) (h : runOps cfg (newConn cfg id) ops = some s)
    (hg : s.closed = false ∨ ∀ bin b, Obs.sent bin b false ∉ s.log) :
    (ledger cfg.isClient s.log).Right s := by
  rcases (inv_run hl hn .init (inv_new hn) hp h).2 with k | k
  · exact ⟨k.conn, fun obj room => k.room obj room (by simp)⟩
  · rcases hg with g | g
    · rw [k.1] at g; cases g
    · obtain ⟨_, bin, b, hm⟩ := k
      exact absurd hm (g bin b)

theorem chat_listens : Listens chatDecl := by
  intro ns evs h e _
  right
  simp only [chatDecl, mapGet] at h
  split at h
  · cases h; exact List.mem_singleton.mpr rfl
  · cases h

/-- refuses the first OnNamespaceDisconnect, on a server -/
def stayOnceCb : List Obs → Nat → Bytes → Message → List Act × Option GoErr :=
  fun l _ _ msg => ([], if msg.event = OnNamespaceDisconnect ∧ l.length < 14 then some (.text (b! "no")) else none)

/-- connect, join two rooms, a refused disconnect, leave one room, close -/
def ledgerOps : List Op :=
  joinedSrvOps ++ [.recv .text (b! "$11;chat;q;_OnRoomJoin;0;0;"), .recv .text (b! "$12;chat;;_OnNamespaceDisconnect;0;0;"),
    .recv .text leaveReq]

example : ∃ (cfg : Cfg) (id : Bytes) (s : St), cfg.onlyNative = false ∧ Listens cfg.decl ∧
    (∀ typ b, Op.recv typ b ∈ ledgerOps → Unforged cfg typ b) ∧ runOps cfg (newConn cfg id) ledgerOps = some s ∧
    s.closed = false ∧ s.namespace (b! "chat") = some 0 ∧ s.rooms 0 = [b! "q"] ∧
    (ledger cfg.isClient s.log).conn (b! "chat") = some 0 ∧ (ledger cfg.isClient s.log).rooms 0 (b! "q") = true := by
  refine ⟨serverCfg chatDecl stayOnceCb, b! "1", after (serverCfg chatDecl stayOnceCb) (b! "1") ledgerOps, by decide +kernel, chat_listens, ?_,
    after_run (by decide +kernel), by decide +kernel, by decide +kernel, by decide +kernel, by decide +kernel,
    by decide +kernel⟩
  intro typ b hm
  simp only [ledgerOps, joinedSrvOps, chatSrvOps, List.cons_append, List.nil_append, List.mem_cons, List.not_mem_nil,
    Op.recv.injEq, reduceCtorEq, false_or, or_false] at hm
  rcases hm with ⟨rfl, rfl⟩ | ⟨rfl, rfl⟩ | ⟨rfl, rfl⟩ | ⟨rfl, rfl⟩ | ⟨rfl, rfl⟩ | ⟨rfl, rfl⟩ <;>
    (unfold Unforged; decide +kernel)

/-- joined a room, then an event called `_OnRoomLeft` -/
def forgedOps : List Op := joinedSrvOps ++ [.recv .text (b! ";chat;r;_OnRoomLeft;0;0;")]

/-- Without the condition on payloads it fails: a client emits an event called `_OnRoomLeft`, and the callback of
the server runs although the client stays in the room. -/
theorem c95_forged : ∃ (s : St),
    runOps (serverCfg chatDecl noCb) (newConn (serverCfg chatDecl noCb) (b! "1"))
      forgedOps = some s ∧
    s.closed = false ∧ s.rooms 0 = [b! "r"] ∧ (ledger false s.log).rooms 0 (b! "r") = false :=
  ⟨after (serverCfg chatDecl noCb) (b! "1") forgedOps, after_run (by decide +kernel),
    by decide +kernel, by decide +kernel, by decide +kernel⟩

/-- a socket that fails for the answer to a request to connect -/
def failingCfg : Cfg :=
  { serverCfg chatDecl noCb with sock := fun _ _ b => if b = b! "$7;;;;;;" then some .eof else none }

/-- Without the condition on the socket it fails: when the answer to a request to connect cannot be written, the
connection is closed first, with OnNamespaceDisconnect, and then OnNamespaceConnected is called. -/
theorem c95_failed : ∃ (s : St), runOps failingCfg (newConn failingCfg (b! "1")) chatSrvOps = some s ∧
    s.closed = true ∧ s.namespace (b! "chat") = none ∧ (ledger false s.log).conn (b! "chat") = some 0 ∧
    (s.log.filterMap fun | .fired _ _ m _ _ => some m.event | _ => none) =
      [OnNamespaceConnect, OnNamespaceDisconnect, OnNamespaceConnected] :=
  ⟨after failingCfg (b! "1") chatSrvOps, after_run (by decide +kernel), by decide +kernel, by decide +kernel, by decide +kernel,
    by decide +kernel⟩

end Neffos
