import Verif.Props.Namespaces
import Verif.Proofs.ConnSteady
/-!
# C20: what a connection is connected to

`s.namespace ns` is `Conn.Namespace(ns)`, the NSConn a namespace is connected with, and
`s.rooms obj` the rooms of an NSConn.
-/
set_option autoImplicit false
namespace Neffos
open Spec

variable {cfg : Cfg} {id : Bytes} {s : St}

/-- C20: a connection is connected only to declared namespaces, and with an NSConn of that
name. -/
theorem c20_declared (hr : Reach cfg id s) {ns : Bytes} {obj : Nat}
    (hn : s.namespace ns = some obj) :
    (mapGet cfg.decl ns).isSome = true ∧ s.nsName obj = ns :=
  ⟨((reach_ok hr).2 ns obj hn).1, reach_nsName hr hn⟩

/-- C20: every namespace is held once, no two namespaces share an NSConn, and every NSConn
holds each of its rooms once. -/
theorem c20_once (hr : Reach cfg id s) :
    (s.connected.map (·.1)).Nodup ∧
    (∀ n m obj, s.namespace n = some obj → s.namespace m = some obj → n = m) ∧
    ∀ obj, (s.rooms obj).Nodup :=
  ⟨reach_keys hr, reach_inj hr, reach_nodup hr⟩

/-- C20: a connection in a namespace or a room was let in by the callback: OnNamespaceConnect
or OnRoomJoin returned nil on this side. -/
theorem c20_accepted (hr : Reach cfg id s) :
    (cfg.onlyNative = false → ∀ ns obj, s.namespace ns = some obj →
      ∃ v m h, Obs.fired obj v m h none ∈ s.log ∧ m.event = OnNamespaceConnect) ∧
    (∀ obj room, room ∈ s.rooms obj →
      ∃ v m h, Obs.fired obj v m h none ∈ s.log ∧ m.event = OnRoomJoin ∧ m.room = room) :=
  reach_accepted hr

example : ∃ (cfg : Cfg) (id : Bytes) (s : St), Reach cfg id s ∧ cfg.onlyNative = false ∧
    s.namespace (b! "chat") = some 0 ∧ s.rooms 0 = [b! "r"] :=
  ⟨clientCfg chatDecl noCb, [], after _ _ joinedOps, after_reach (by decide +kernel),
    by decide +kernel, by decide +kernel, by decide +kernel⟩

/-- C20, rooms only of connected namespaces, for an open connection whose own side makes no
Connect, Disconnect or JoinRoom call. It holds for every peer. Partial: with such calls the
claim fails, see `c20_refuted`. -/
theorem c20_rooms_partial (hr : PassiveReach cfg id s) (hc : s.closed = false) {obj : Nat}
    {room : Bytes} (hm : room ∈ s.rooms obj) : s.namespace (s.nsName obj) = some obj := by
  have key : ∀ s : St, PassiveReach cfg id s →
      (∀ a ∈ s.asks, calmCont a.cont = true) ∧ (s.hung = false ∧ (s.closed = false → Tidy (fun _ _ => False) s)) := by
    intro s h
    induction h with
    | init =>
      have h0 : ∀ i : Nat, (newConn cfg id).rooms i = [] := by
        intro i
        unfold newConn
        split
        · rcases i with _ | i <;> rfl
        · rfl
      refine ⟨?_, ?_, fun _ => ⟨fun ns obj h => ?_, fun obj r h => ?_⟩⟩
      · unfold newConn; split <;> simp
      · unfold newConn; split <;> rfl
      · have hok := newConn_connOk (cfg := cfg) (id := id) ns obj h
        refine ⟨reach_nsName Reach.init h, ?_⟩
        cases hx : (newConn cfg id).objs[obj]? with
        | none => rw [hx] at hok; simp at hok
        | some o => exact (List.getElem?_eq_some_iff.mp hx).1
      · rw [h0] at h; simp at h
    | step _ hop hs ih =>
      obtain ⟨he, hh⟩ := step_exec hs
      refine ⟨calm_exec hop ih.1 he, hh, fun hc => ?_⟩
      obtain ⟨h1, h2, h3⟩ := neat_exec (P := fun _ _ => False) hop ih.1 he hc hh
      exact h3 (ih.2.2 h1)
  have := ((key s hr).2.2 hc).2 obj room hm
  simpa [linked] using this

example : ∃ (cfg : Cfg) (id : Bytes) (s : St), PassiveReach cfg id s ∧ s.closed = false ∧
    b! "r" ∈ s.rooms 0 :=
  ⟨serverCfg chatDecl noCb, b! "1", after _ _ joinedSrvOps,
    passive_of (by decide +kernel) (by decide +kernel), by decide +kernel, by decide +kernel⟩

/-- a client that joins a room and disconnects before the answer to its JoinRoom arrived -/
def orphanOps : List Op :=
  joinOps ++ [.disconnect 0 11 false, .recv .text (b! "$11;;;;;;"), .resume 2,
    .recv .text (b! "$9;;;;;;"), .resume 1]

/-- C20 fails for rooms: a client that disconnects from a namespace while a JoinRoom is
waiting ends up in the room without being connected to its namespace. -/
theorem c20_refuted : ∃ (cfg : Cfg) (s : St), Reach cfg [] s ∧ s.closed = false ∧
    b! "r" ∈ s.rooms 0 ∧ s.connected = [] :=
  ⟨clientCfg chatDecl noCb, after _ _ orphanOps, after_reach (by decide +kernel),
    by decide +kernel, by decide +kernel, by decide +kernel⟩

/-- a callback that closes its connection on OnRoomJoin -/
def closeOnJoinCb : List Obs → Nat → Bytes → Message → List Act × Option GoErr :=
  fun _ _ _ msg => if msg.event = OnRoomJoin then ([.close], none) else ([], none)

/-- C20 fails on a closing connection, too: a server-side OnRoomJoin callback that closes the
connection leaves it in the room. -/
theorem c20_close_refuted : ∃ (cfg : Cfg) (s : St), PassiveReach cfg (b! "1") s ∧
    b! "r" ∈ s.rooms 0 ∧ s.connected = [] :=
  ⟨serverCfg chatDecl closeOnJoinCb, after _ _ joinedSrvOps,
    passive_of (by decide +kernel) (by decide +kernel), by decide +kernel, by decide +kernel⟩

end Neffos
