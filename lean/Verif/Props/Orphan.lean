import Verif.Props.Membership
import Verif.Proofs.Orphan
/-!
# C128: how a room outlives its namespace

`Orphan s obj r`: the NSConn `obj` is in the room `r`, and its namespace is not connected with
it. C20 says that this does not happen; it does, and this is when.
-/
set_option autoImplicit false
namespace Neffos
open Spec

variable {cfg : Cfg} {id : Bytes} {s s' : St}

/-- C128: as long as the connection is open, a room is left without its namespace by a step
exactly if the step is the successful return of a JoinRoom that is too late, or of a Connect
or Disconnect of the same namespace with another NSConn, and the room is held after it. -/
theorem c128_step (hn : cfg.onlyNative = false) (hr : Reach cfg id s) {op : Op}
    (hs : step cfg s op = some s') (hc : s'.closed = false) {obj : Nat} {r : Bytes}
    (h0 : ¬ Orphan s obj r) :
    Orphan s' obj r ↔ r ∈ s'.rooms obj ∧
      ∃ i k, op = .resume i ∧ Answered s i k ∧ Tears s obj r k := by
  constructor
  · intro h
    exact ⟨h.1, Orphan.only hn hr hs hc h h0⟩
  · rintro ⟨hm, i, k, rfl, ha, ht⟩
    exact Orphan.conv hr hs hc ha ht hm

/-- the JoinRoom of `orphanOps` before its return: the namespace is gone -/
def lateJoinOps : List Op :=
  joinOps ++ [.disconnect 0 11 false, .recv .text (b! "$11;;;;;;"), .resume 2, .recv .text (b! "$9;;;;;;")]

example : ∃ (cfg : Cfg) (s s' : St), cfg.onlyNative = false ∧ Reach cfg [] s ∧
    step cfg s (.resume 1) = some s' ∧ s'.closed = false ∧ ¬ Orphan s 0 (b! "r") ∧ Orphan s' 0 (b! "r") :=
  ⟨clientCfg chatDecl noCb, after _ _ lateJoinOps, _, by decide +kernel, after_reach (by decide +kernel),
    after_step (by decide +kernel), by decide +kernel, fun h => absurd h.1 (by decide +kernel),
    by decide +kernel, by decide +kernel⟩

/-- two Connects of one namespace at once; a room is joined when the first has returned -/
def secondOps : List Op :=
  [.recv .text (b! "A1"), .connect (b! "chat") 7 false, .connect (b! "chat") 8 false,
    .recv .text (b! "$7;;;;;;"), .resume 0, .join 0 (b! "r") 9 false, .recv .text (b! "$9;;;;;;"), .resume 2,
    .recv .text (b! "$8;;;;;;")]

example : ∃ (cfg : Cfg) (s s' : St), cfg.onlyNative = false ∧ Reach cfg [] s ∧
    step cfg s (.resume 1) = some s' ∧ s'.closed = false ∧ ¬ Orphan s 0 (b! "r") ∧ Orphan s' 0 (b! "r") ∧
    s'.namespace (b! "chat") = some 1 :=
  ⟨clientCfg chatDecl noCb, after _ _ secondOps, _, by decide +kernel, after_reach (by decide +kernel),
    after_step (by decide +kernel), by decide +kernel, fun h => h.2 (by decide +kernel),
    ⟨by decide +kernel, by decide +kernel⟩, by decide +kernel⟩

/-- C128: so no message of the other side does it, and no callback, and no call that fails:
rooms stay in connected namespaces as long as no call of these three kinds returns. -/
theorem c128_kept (hn : cfg.onlyNative = false) (hr : Reach cfg id s) {op : Op}
    (hs : step cfg s op = some s') (hc : s'.closed = false)
    (hop : ∀ i k, op = .resume i → Answered s i k → k = .user ∨ ∃ o msg, k = .leave o msg)
    (h0 : ∀ obj r, r ∈ s.rooms obj → s.namespace (s.nsName obj) = some obj) (obj : Nat) (r : Bytes)
    (hm : r ∈ s'.rooms obj) : s'.namespace (s'.nsName obj) = some obj := by
  refine Classical.byContradiction fun hx => ?_
  obtain ⟨_, i, k, h1, h2, h3⟩ := (c128_step hn hr hs hc (fun h => h.2 (h0 obj r h.1))).mp ⟨hm, hx⟩
  rcases hop i k h1 h2 with rfl | ⟨o, msg, rfl⟩ <;> cases h3

example : ∃ (cfg : Cfg) (s s' : St), cfg.onlyNative = false ∧ Reach cfg [] s ∧
    step cfg s (.recv .text (b! ";chat;r;_OnRoomLeft;0;0;")) = some s' ∧ s'.closed = false ∧
    (∀ obj r, r ∈ s.rooms obj → s.namespace (s.nsName obj) = some obj) ∧ b! "r" ∈ s.rooms 0 :=
  ⟨clientCfg chatDecl noCb, after _ _ joinedOps, _, by decide +kernel, after_reach (by decide +kernel),
    after_step (by decide +kernel), by decide +kernel, by
      intro obj r h
      rcases obj with _ | obj
      · decide +kernel
      · have : (after (clientCfg chatDecl noCb) [] joinedOps).objs.length = 1 := by decide +kernel
        unfold St.rooms at h
        rw [List.getElem?_eq_none (by omega)] at h
        simp at h, by decide +kernel⟩

/-- C128: the return of a Disconnect leaves no room of its own NSConn, and orphans the rooms of
every other NSConn of the namespace. -/
theorem c128_disconnects {i : Nat} (hs : step cfg s (.resume i) = some s') (hc : s'.closed = false) {o : Nat}
    {msg : Message} (ha : Answered s i (.disconnect o msg)) (obj : Nat) (r : Bytes) :
    Orphan s' obj r ↔ r ∈ s.rooms obj ∧ obj ≠ o ∧ (s.nsName obj = msg.ns ∨ Orphan s obj r) := by
  obtain ⟨he, hh⟩ := step_exec hs
  obtain ⟨t, m, hal, rfl⟩ := Orphan.answered he ha
  rw [Orphan.disconnect_iff hc hh, hal.rooms, hal.nsName, hal.namespace]
  unfold Spec.Orphan
  grind

/-- As `secondOps`, but the first NSConn is disconnecting when the second Connect returns. -/
def takenOps : List Op :=
  [.recv .text (b! "A1"), .connect (b! "chat") 7 false, .connect (b! "chat") 8 false,
    .recv .text (b! "$7;;;;;;"), .resume 0, .disconnect 0 11 false, .recv .text (b! "$8;;;;;;"), .resume 1,
    .join 1 (b! "r") 9 false, .recv .text (b! "$9;;;;;;"), .resume 3, .recv .text (b! "$11;;;;;;")]

example : ∃ (cfg : Cfg) (s s' : St), Reach cfg [] s ∧
    step cfg s (.resume 2) = some s' ∧ s'.closed = false ∧ (∃ msg, Answered s 2 (.disconnect 0 msg)) ∧
    ¬ Orphan s 1 (b! "r") ∧ Orphan s' 1 (b! "r") ∧ s'.connected = [] :=
  ⟨clientCfg chatDecl noCb, after _ _ takenOps, _, after_reach (by decide +kernel),
    after_step (by decide +kernel), by decide +kernel,
    ⟨{ ns := b! "chat", event := OnNamespaceDisconnect }, Orphan.answered_of (by decide +kernel)⟩, fun h => h.2 (by decide +kernel),
    ⟨by decide +kernel, by decide +kernel⟩, by decide +kernel⟩

end Neffos
