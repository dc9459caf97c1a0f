import Verif.Model.Locks
/-! Which call is made from which callback, and the table of the calls that are safe (C44). -/
namespace Neffos.Spec

/-- on whose behalf a connection is closed -/
inductive Ctx where
  /-- by its reader or a caller of `Close` -/
  | free
  /-- by the loop of the server: `Server.Close`, `Do`, a failed write of `SyncBroadcaster` -/
  | loop
  /-- by a failed write of the default broadcaster -/
  | cast
  deriving DecidableEq

/-- the callbacks -/
inductive CbSite where
  /-- events, OnConnect, OnNamespaceConnect(ed), OnRoomJoin(ed), OnRoomLeave and OnRoomLeft of one room,
  OnNamespaceDisconnect of a disconnect -/
  | plain
  /-- the same, of payloads that came before the acknowledgement -/
  | queued
  /-- `Server.OnDisconnect` and the function of `Do` -/
  | loop
  /-- OnRoomLeave and OnRoomLeft when a namespace is disconnected -/
  | leaving
  /-- OnNamespaceDisconnect of `Close` -/
  | closing (x : Ctx)
  /-- OnRoomLeave and OnRoomLeft of `Close` -/
  | closingRooms (x : Ctx)
  deriving DecidableEq

/-- the calls that never block for ever -/
def safe : CbSite → ApiKind → Bool
  | .plain, _ => true
  | .queued, _ => true
  | .loop, k => k = .room || k = .nsp || k = .emit || k = .roomEmit || k = .cast
  | .leaving, _ => false
  | .closing _, k => k = .room || k = .emit || k = .roomEmit
  | .closingRooms _, k => k = .emit || k = .roomEmit

/-- the calls made from callbacks -/
def endUses (x : Ctx) (es : List NsEnd) : List (CbSite × ApiKind) :=
  es.flatMap (fun e => e.rooms.map (fun k => (.closingRooms x, k)) ++ e.ns.map (fun k => (.closing x, k)))

def failUses (x : Ctx) : LkApi → List (CbSite × ApiKind)
  | .emit _ (some es) => endUses x es
  | .roomEmit _ _ (some es) => endUses x es
  | _ => []

def apiUses (at_ : CbSite) (x : Ctx) (a : LkApi) : List (CbSite × ApiKind) := (at_, a.kind) :: failUses x a

def actUses (at_ : CbSite) : LkAct → List (CbSite × ApiKind)
  | .api a => apiUses at_ .free a
  | .act fn => (at_, .act) :: fn.flatMap (apiUses .loop .loop)

def uses : Gor → List (CbSite × ApiKind)
  | .plain acts => acts.flatMap (actUses .plain)
  | .queued _ acts => acts.flatMap (actUses .queued)
  | .leave _ _ ks acts => ks.map (fun k => (.leaving, k)) ++ acts.flatMap (actUses .plain)
  | .close _ es => endUses .free es
  | .publish ws => ws.flatMap (fun w => failUses .cast w.api)
  | .loopPublish ws => ws.flatMap (fun w => failUses .loop w.api)
  | .onDisconnect fn => fn.flatMap (apiUses .loop .loop)
  | .serverClose cs => cs.flatMap (fun x => endUses .loop x.2)

/-- every goroutine that is started only makes calls that `ok` allows -/
def Uses (ok : CbSite → ApiKind → Bool) (ops : List LkOp) : Prop :=
  ∀ g, .spawn g ∈ ops → ∀ u ∈ uses g, ok u.1 u.2 = true

/-- the goroutine `i` is never done, whatever happens -/
def Stuck (s : LkSt) (i : Nat) : Prop :=
  ∀ ops s', s.run ops = some s' → ∃ t, s'.thr[i]? = some t ∧ t.todo ≠ .done

end Neffos.Spec
