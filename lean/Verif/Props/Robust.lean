import Verif.Proofs.Robust
import Verif.Props.Rooms
import Verif.Props.Native
/-!
# C96: no payload brings a connection to a halt
-/
set_option autoImplicit false
namespace Neffos
open Spec

variable {cfg : Cfg} {id : Bytes}

/-- C96: whatever was sent, called, refused, closed or failed before, every payload and every call gets to its end,
if the callbacks of rooms that are left by force do not use these rooms. -/
theorem c96_robust {s : St} (hn : cfg.onlyNative = false) (hq : LeavesQuietly cfg) (hr : Reach cfg id s) (op : Op) :
    ¬ Ruins cfg s op := by
  rintro ⟨h1, h2⟩
  obtain ⟨s', hs⟩ := Option.ne_none_iff_exists'.mp h1
  have hh : s'.hung = false := by
    rw [Robust.hung_exec hn hq (reach_all hr).1.2 (reach_all hr).2 hs]
    exact reach_hung hr
  unfold step at h2
  rw [hs] at h2
  simp [hh] at h2

/-- C96, native-only connections: a payload brings the open connection to a halt exactly if its only namespace was
disconnected. -/
theorem c96_native {s : St} {typ : MsgType} {b : Bytes} (hn : cfg.onlyNative = true) (hr : Reach cfg id s)
    (ha : s.acked = true) (hi : s.rd = .idle ∧ s.todo = [] ∧ s.ackAfter = false) (hb : b ≠ []) :
    Ruins cfg s (.recv typ b) ↔ s.namespace [] = none := by
  have hal : cfg.allowNative = true := by
    unfold Cfg.onlyNative at hn
    simp only [Bool.and_eq_true] at hn
    exact hn.1.1
  have he : exec cfg s (.recv typ b) = some (handlePayload cfg s typ b) := by
    simp only [exec, recv]
    rw [if_pos hi, if_neg hb, if_pos ha]
  have hd : deserializeMessage cfg.known typ b cfg.allowNative cfg.onlyNative = nativeMsg typ b := by
    rw [hal, hn]
    exact native_decode hb (Or.inl rfl)
  have hh := reach_hung hr
  unfold Ruins step
  rw [he]
  unfold handlePayload
  rw [hd]
  unfold handleMessage
  rw [if_neg (by simp [nativeMsg]), if_pos (by simp [nativeMsg, hn])]
  cases hx : s.namespace [] with
  | none => simp
  | some obj =>
    dsimp only
    rw [hung_fire, hh]
    simp

/-- a callback that writes a lot, but not to the rooms that are being left -/
def politeCb : List Obs → Nat → Bytes → Message → List Act × Option GoErr := fun _ _ _ msg =>
  if msg.isForced then
    ((if msg.ns = b! "news" then [] else [.write { ns := b! "news", room := b! "r", event := b! "gone" }]) ++
      [.write { ns := msg.ns, event := b! "gone" }], none)
  else ([.write { ns := msg.ns, room := msg.room, event := b! "seen" }], none)

/-- the server asks to disconnect -/
def outReq : Op := .recv .text (b! "9;chat;;_OnNamespaceDisconnect;0;0;")

example : ∃ (cfg : Cfg) (s : St), cfg.onlyNative = false ∧ LeavesQuietly cfg ∧ Reach cfg [] s ∧
    s.rooms 0 = [b! "r"] ∧ exec cfg s outReq ≠ none := by
  refine ⟨clientCfg chatDecl politeCb, after (clientCfg chatDecl politeCb) [] joinedOps, by decide +kernel, ?_,
    after_reach (by decide +kernel), by decide +kernel, fun h => ?_⟩
  · intro log obj h msg hf _ a ha
    refine ⟨?_, fun _ _ _ => rfl⟩
    simp only [clientCfg, politeCb, hf, if_true] at ha
    rcases List.mem_append.mp ha with ha | ha
    · split at ha
      · simp at ha
      · rename_i hne
        simp only [List.mem_singleton] at ha
        subst ha
        exact ⟨_, rfl, fun e => absurd e.symm hne⟩
    · simp only [List.mem_singleton] at ha
      subst ha
      exact ⟨_, rfl, fun _ => rfl⟩
  · have : (exec (clientCfg chatDecl politeCb) (after (clientCfg chatDecl politeCb) [] joinedOps) outReq).isSome = true := by
      decide +kernel
    rw [h] at this
    cases this

example : ∃ (cfg : Cfg) (s : St), cfg.onlyNative = true ∧ Reach cfg [] s ∧ s.acked = true ∧
    (s.rd = .idle ∧ s.todo = [] ∧ s.ackAfter = false) ∧ s.namespace [] = none :=
  ⟨clientCfg [([], [OnNativeMessage])] noCb, after (clientCfg [([], [OnNativeMessage])] noCb) [] [.disconnect 0 7 false],
    by decide +kernel, after_reach (by decide +kernel), by decide +kernel, by decide +kernel, by decide +kernel⟩

/-! The condition on the callbacks is needed: each of the three calls that it forbids lets the server bring the
client to a halt with a request to disconnect. -/

/-- when a room is left by force, close the connection -/
def closingCb : List Obs → Nat → Bytes → Message → List Act × Option GoErr := fun _ _ _ msg =>
  if msg.isForced then ([.close], none) else ([], none)

/-- when a room is left by force, tell the room -/
def tellingCb : List Obs → Nat → Bytes → Message → List Act × Option GoErr := fun _ _ _ msg =>
  if msg.isForced then ([.write { ns := msg.ns, room := msg.room, event := b! "bye" }], none) else ([], none)

/-- when a room is left by force, tell the namespace -/
def nsTellingCb : List Obs → Nat → Bytes → Message → List Act × Option GoErr := fun _ _ _ msg =>
  if msg.isForced then ([.write { ns := msg.ns, event := b! "bye" }], none) else ([], none)

/-- the socket is gone when that is written -/
def goneCfg : Cfg :=
  { clientCfg chatDecl nsTellingCb with sock := fun _ _ b => if b = b! ";chat;;bye;0;0;" then some .eof else none }

theorem ruins_of {cfg : Cfg} {s : St} {op : Op} (h : (exec cfg s op).map (·.hung) = some true) : Ruins cfg s op := by
  unfold Ruins step
  cases he : exec cfg s op with
  | none => rw [he] at h; cases h
  | some t =>
    rw [he] at h
    simp only [Option.map_some, Option.some.injEq] at h
    simp [h]

theorem c96_needed : ∀ cfg ∈ [clientCfg chatDecl closingCb, clientCfg chatDecl tellingCb, goneCfg],
    ∃ s, Reach cfg [] s ∧ s.closed = false ∧ Ruins cfg s outReq := by
  intro cfg h
  simp only [List.mem_cons, List.not_mem_nil, or_false] at h
  rcases h with rfl | rfl | rfl
  · exact ⟨after _ [] joinedOps, after_reach (by decide +kernel), by decide +kernel, ruins_of (by decide +kernel)⟩
  · exact ⟨after _ [] joinedOps, after_reach (by decide +kernel), by decide +kernel, ruins_of (by decide +kernel)⟩
  · exact ⟨after _ [] joinedOps, after_reach (by decide +kernel), by decide +kernel, ruins_of (by decide +kernel)⟩

end Neffos
