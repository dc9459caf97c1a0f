import Verif.Proofs.ConnFinish
import Verif.Proofs.ConnRun
import Verif.Props.Wire
/-!
# C14: native messages
-/
namespace Neffos
open Spec

variable {cfg : Cfg}

/-- the message of a native payload: the whole payload is the body -/
def nativeMsg (typ : MsgType) (b : Bytes) : Message :=
  { event := OnNativeMessage, body := b, isNative := true, setBinary := typ = .binary }

theorem native_decode {known : List KnownErr} {typ : MsgType} {b : Bytes} {only : Bool}
    (hb : b ≠ []) (h : only = true ∨ semicolons b < 6) :
    deserializeMessage known typ b true only = nativeMsg typ b := by
  have hc := (c04_classification known typ b true only).2.2.1
  exact hc hb (h.imp id (fun h => ⟨rfl, h⟩))

/-- C14: a connection handles native messages only exactly when the single declared
namespace is the empty one and its single declared event is OnNativeMessage. -/
theorem c14_only (cfg : Cfg) :
    cfg.onlyNative = true ↔ cfg.decl = [([], [OnNativeMessage])] := by
  unfold Cfg.onlyNative Cfg.allowNative
  constructor
  · intro h
    simp only [Bool.and_eq_true, decide_eq_true_eq] at h
    obtain ⟨⟨h1, h2⟩, h3⟩ := h
    match hd : cfg.decl, h2 with
    | [(k, evs)], _ =>
      simp only [hd, mapGet] at h1 h3
      by_cases hk : k = []
      · simp only [hk, if_true] at h1 h3
        match evs, h3 with
        | [e], _ =>
          simp at h1
          rw [hk, h1]
        | [], h3 => simp at h3
        | _ :: _ :: _, h3 => simp at h3
      · simp [hk] at h1
  · intro h
    rw [h]
    decide

theorem reach_native_acked {id : Bytes} {s : St} (hn : cfg.onlyNative = true)
    (h : Reach cfg id s) : s.closed = false → s.acked = true := by
  refine reach_invariant (cfg := cfg) (fun s => s.closed = false → s.acked = true) ?_ ?_ h
  · intro _
    unfold newConn
    rw [if_pos hn]
  · intro s s' hf ih hc
    cases hf <;> first
      | exact ih hc
      | (simp at hc; done)
      | rfl
      | (rename_i hx; rw [show s.closed = true from hx] at hc; simp at hc)

/-- C14, native-only connections. While the connection is open and the empty namespace was
not disconnected, every non-empty payload runs the OnNativeMessage callback exactly once
with the payload as its body; nothing is sent, no membership changes, no call returns. -/
theorem c14_native_only_partial {id : Bytes} {s s' : St} {obj : Nat} {typ : MsgType} {b : Bytes}
    (hn : cfg.decl = [([], [OnNativeMessage])]) (hr : Reach cfg id s) (hb : b ≠ [])
    (hobj : s.namespace [] = some obj)
    (hs : step cfg s (.recv typ b) = some s') (hc : s'.closed = false) :
    ∃ l, s'.log = s.log ++ l ∧ s'.connected = s.connected ∧ s'.objs = s.objs ∧
      Adds cfg l [⟨obj, nativeMsg typ b, true, [] ∈ s.rooms obj⟩] [] [] [] ∧
      ∃ ret, firedOf l = [(obj, nativeMsg typ b, ret)] ∧
        ret = (cfg.cb s.log obj OnNativeMessage (nativeMsg typ b)).2 := by
  have hon : cfg.onlyNative = true := (c14_only cfg).mpr hn
  have hal : cfg.allowNative = true := by
    unfold Cfg.onlyNative at hon
    simp only [Bool.and_eq_true] at hon
    exact hon.1.1
  have hco : s.closed = false := closed_of_prims (reach_prims hr hs) hc
  obtain ⟨he, _⟩ := step_exec hs
  simp only [exec] at he
  split at he
  · cases he
    have e1 : recv cfg s typ b = (fire cfg s obj (nativeMsg typ b)).1 := by
      unfold recv handlePayload
      rw [if_neg hb, if_pos (reach_native_acked hon hr hco), hal, hon, native_decode hb (Or.inl rfl)]
      unfold handleMessage
      simp only [nativeMsg, hobj, hon, Bool.and_self, if_true, Bool.false_eq_true, if_false]
    rw [e1] at hc ⊢
    obtain ⟨l, h1, h2, h3⟩ := fire_eff hc
    have hns : s.nsName obj = [] := reach_nsName hr hobj
    have hlk : linked s obj = true := by unfold linked; rw [hns, hobj]; simp
    rw [hlk] at h3
    refine ⟨l, h1.log, h1.connected, h1.objs, h3, _, h2, ?_⟩
    unfold verdict Cfg.events
    rw [hns, hn]
    simp [mapGet, nativeMsg]
  · simp at he

/-- C14 is false without that condition: after `Disconnect` of the empty namespace, which
needs no answer and always succeeds, the next payload makes the reader dereference a nil
NSConn; no callback runs. -/
theorem c14_native_only_refuted :
    ∃ (cfg : Cfg) (s s' : St), cfg.decl = [([], [OnNativeMessage])] ∧ Reach cfg [] s ∧
      s.closed = false ∧ exec cfg s (.recv .text (b! "hello")) = some s' ∧ s'.hung = true ∧
      firedOf s'.log = firedOf s.log := by
  let cfg := clientCfg [([], [OnNativeMessage])] noCb
  refine ⟨cfg, after cfg [] [.disconnect 0 7 false], _, rfl, after_reach (by decide +kernel),
    by decide +kernel, rfl, by decide +kernel, ?_⟩
  rfl

/-- C14, connections that handle other messages too: a native payload (fewer than six
separators) runs a callback only if the empty namespace is connected, and then exactly
once with the payload as its body. -/
theorem c14_mixed {s s' : St} {typ : MsgType} {b : Bytes}
    (hn : cfg.onlyNative = false) (ha : cfg.allowNative = true) (hb : b ≠ [])
    (hsep : semicolons b < 6) (hack : s.acked = true) (hg : gateBlocks s [] = false)
    (hs : step cfg s (.recv typ b) = some s') (hc : s'.closed = false) :
    ∃ l, s'.log = s.log ++ l ∧ s'.connected = s.connected ∧ s'.objs = s.objs ∧
      retOf l = [] ∧ otherOf l = [] ∧
      (callsOf l).map (fun c => (c.obj, c.msg)) = (match s.namespace [] with
        | none => []
        | some obj => [(obj, nativeMsg typ b)]) ∧
      (s.namespace [] = none → sentOf l = []) := by
  have hd : deserializeMessage cfg.known typ b cfg.allowNative cfg.onlyNative = nativeMsg typ b := by
    rw [ha, hn]
    exact native_decode hb (Or.inr hsep)
  have hinc : Incoming cfg s typ b (nativeMsg typ b) :=
    ⟨hb, hack, hd, rfl, hn, Or.inr (Or.inl rfl), Or.inr (Or.inr rfl), Or.inr rfl⟩
  obtain ⟨rfl, _⟩ := step_recv hinc hs
  have e1 : dispatch cfg s (nativeMsg typ b) = afterGate cfg s (nativeMsg typ b) := by
    unfold dispatch
    rw [if_neg (by show OnNativeMessage ≠ OnNamespaceConnect; decide),
      if_neg (by show OnNativeMessage ≠ OnNamespaceDisconnect; decide), if_neg (by
        show ¬ gateBlocks s [] = true
        rw [hg]; simp)]
  rw [e1] at hc ⊢
  cases hobj : s.namespace [] with
  | none =>
    have h1 := afterGate_noNamespace (cfg := cfg) (s := s) (msg := nativeMsg typ b) hobj
      (by show OnNativeMessage ≠ OnNamespaceConnect; decide)
      (by show OnNativeMessage ≠ OnNamespaceDisconnect; decide)
    exact ⟨[], h1.log, h1.connected, h1.objs, rfl, rfl, rfl, fun _ => rfl⟩
  | some obj =>
    have e2 : afterGate cfg s (nativeMsg typ b) = handleEvent cfg s obj (nativeMsg typ b) := by
      unfold afterGate
      have : s.namespace (nativeMsg typ b).ns = some obj := hobj
      rw [this]
      simp only
      rw [if_neg (by show OnNativeMessage ≠ OnRoomJoin; decide),
        if_neg (by show OnNativeMessage ≠ OnRoomLeave; decide)]
    rw [e2] at hc ⊢
    cases hv : verdict cfg s obj { nativeMsg typ b with isLocal := false } with
    | none =>
      obtain ⟨l, h1, h2⟩ := handleEvent_ok hv hc
      exact ⟨l, h1.log, h1.connected, h1.objs, h2.ret, h2.other, by rw [h2.calls]; rfl, by simp⟩
    | some e =>
      by_cases hm : MayWrite cfg s (nativeMsg typ b)
      · obtain ⟨l, h1, h2⟩ := (handleEvent_err hv hc).1 hm
        exact ⟨l, h1.log, h1.connected, h1.objs, h2.ret, h2.other, by rw [h2.calls]; rfl, by simp⟩
      · obtain ⟨l, h1, h2⟩ := (handleEvent_err hv hc).2 hm
        exact ⟨l, h1.log, h1.connected, h1.objs, h2.ret, h2.other, by rw [h2.calls]; rfl, by simp⟩

/-- a native-only client that receives a payload -/
example : let cfg := clientCfg [([], [OnNativeMessage])] noCb
    ((runOps cfg (newConn cfg []) [.recv .binary (b! "a;b;c;d;e;f;g")]).map
      (fun s => (s.closed, (callsOf s.log).map (fun c => (c.obj, c.msg.body))))) =
      some (false, [(0, b! "a;b;c;d;e;f;g")]) := by
  decide +kernel

/-- a client with native and other events, connected to the empty namespace or not -/
example : let cfg := clientCfg [([], [OnNativeMessage]), (b! "chat", [OnAnyEvent])] noCb
    ((runOps cfg (newConn cfg []) [.recv .text (b! "A1"), .recv .text (b! "x")]).map
      (fun s => (s.closed, (callsOf s.log).length)) = some (false, 0)) ∧
    ((runOps cfg (newConn cfg []) [.recv .text (b! "A1"), .connect [] 7 false,
        .recv .text (b! "$7;;;;;;"), .resume 0, .recv .text (b! "x")]).map
      (fun s => (callsOf s.log).map (fun c => c.msg.body)) = some [[], [], b! "x"]) := by
  decide +kernel

end Neffos
