import Verif.Props.Write
set_option autoImplicit false
/-!
# C13: what `NSConn.Ask` and `Room.Emit` send
-/
namespace Neffos
open Spec

variable {cfg : Cfg}

/-- C13 for `NSConn.Ask` with an ordinary event and a live context: on an open connection that is
connected to the namespace, the event and the body go out with a fresh token, once, as text;
when it is not connected, ErrWrite is returned at once and nothing is sent. A nil NSConn returns
ErrWrite, whatever the state. -/
theorem c13_ns_ask {id : Bytes} {s : St} (hr : Reach cfg id s) (obj : Nat) (event body : Bytes)
    (now : Int) (h1 : event ≠ b! "_OnNamespaceConnect") (h2 : event ≠ b! "_OnNamespaceDisconnect")
    (hn : cfg.onlyNative = false) (hc : s.closed = false) :
    ((s.namespace (s.nsName obj)).isSome = true → ∃ b rest,
      serializeMessage
        { ns := s.nsName obj, event := event, body := body, wait := genWait cfg.isClient now } =
          some b ∧
      (nsAsk cfg s (some obj) event body now false).log =
        s.log ++ .sent false b (cfg.sock s.log false b).isNone :: rest ∧ sentOf rest = []) ∧
    ((s.namespace (s.nsName obj)).isSome = false →
      (nsAsk cfg s (some obj) event body now false).log =
        s.log ++ [.ret .user (.answer {} (some errWrite))]) ∧
    ∀ (s' : St) (expired : Bool), nsAsk cfg s' none event body now expired =
      { s' with log := s'.log ++ [.ret .user (.answer {} (some errWrite))] } := by
  obtain ⟨b, hb, hy, hno⟩ :=
    c13_ask hr { ns := s.nsName obj, event := event, body := body } now hn hc
  have hm : MayWrite cfg s { ns := s.nsName obj, event := event, body := body } ↔
      (s.namespace (s.nsName obj)).isSome = true := by
    unfold MayWrite IsSender
    constructor
    · rintro ⟨_, _, h | h | ⟨o, ho, _⟩⟩
      · exact absurd h h1
      · exact absurd h h2
      · simp only [] at ho; rw [ho]; rfl
    · intro ho
      obtain ⟨o, ho⟩ := Option.isSome_iff_exists.mp ho
      exact ⟨hc, by simp, Or.inr (Or.inr ⟨o, ho, Or.inl rfl⟩)⟩
  refine ⟨fun h => ?_, fun h => hno (fun hx => ?_), fun _ _ => rfl⟩
  · obtain ⟨rest, k1, k2⟩ := hy (hm.mpr h)
    exact ⟨b, rest, hb, k1, k2⟩
  · rw [hm.mp hx] at h; simp at h

/-- C13 for `Room.Emit` with an ordinary event, on a working socket: exactly when the connection
is open, connected to the namespace and in the room, the namespace, the room, the event and the
body go out, once, as text. -/
theorem c13_room_emit {id : Bytes} {s : St} (hr : Reach cfg id s) (obj : Nat)
    (room event body : Bytes) (hroom : room ≠ [])
    (h1 : event ≠ b! "_OnNamespaceConnect") (h2 : event ≠ b! "_OnNamespaceDisconnect")
    (h3 : event ≠ b! "_OnRoomJoin") (h4 : event ≠ b! "_OnRoomLeft")
    (hs : ∀ l x b, cfg.sock l x b = none) :
    (s.closed = false ∧ (∃ o, s.namespace (s.nsName obj) = some o ∧ room ∈ s.rooms o) →
      sentOf (roomEmit cfg s obj room event body).1.log = sentOf s.log ++ [(false,
        (serializeMessage
          { ns := s.nsName obj, room := room, event := event, body := body }).getD [])] ∧
      (roomEmit cfg s obj room event body).2 = true) ∧
    (¬ (s.closed = false ∧ ∃ o, s.namespace (s.nsName obj) = some o ∧ room ∈ s.rooms o) →
      (roomEmit cfg s obj room event body).1.log = s.log ∧
      (roomEmit cfg s obj room event body).2 = false) := by
  obtain ⟨b, hb, hy, hn⟩ :=
    c13_write hr { ns := s.nsName obj, room := room, event := event, body := body }
  have hm : MayWrite cfg s { ns := s.nsName obj, room := room, event := event, body := body } ↔
      s.closed = false ∧ ∃ o, s.namespace (s.nsName obj) = some o ∧ room ∈ s.rooms o := by
    unfold MayWrite IsSender
    constructor
    · rintro ⟨hc, _, h | h | ⟨o, ho, h | h | h | h⟩⟩
      · exact absurd h h1
      · exact absurd h h2
      · exact absurd h hroom
      · exact absurd h h3
      · exact absurd h h4
      · exact ⟨hc, o, ho, h⟩
    · rintro ⟨hc, o, ho, h⟩
      exact ⟨hc, by simp, Or.inr (Or.inr ⟨o, ho, Or.inr (Or.inr (Or.inr h))⟩)⟩
  refine ⟨fun h => ?_, fun h => ?_⟩
  · obtain ⟨rest, k1, k2, _, k4⟩ := hy (hm.mpr h)
    refine ⟨?_, by unfold roomEmit; rw [k4, hs]; rfl⟩
    unfold roomEmit
    rw [k1, show serializeMessage { ns := s.nsName obj, room := room, event := event, body := body }
      = some b from hb]
    rw [sentOf_append]
    simp only [sentOf] at k2 ⊢
    simp [List.filterMap_cons, k2]
  · obtain ⟨k1, k2, _⟩ := hn (mt hm.mp h)
    exact ⟨k1, k2⟩

/-- a client in the room r of chat: what its Ask and its Emit into the room send, and what they
do for a room or a namespace it is not in -/
example : let s := after (clientCfg chatDecl noCb) [] (chatOps ++
      [.join 0 (b! "r") 8 false, .recv .text (b! "$8;;;;;;"), .resume 1])
    s.closed = false ∧ (s.namespace (s.nsName 0)).isSome = true ∧ b! "r" ∈ s.rooms 0 ∧
    sentOf (nsAsk (clientCfg chatDecl noCb) s (some 0) (b! "e") (b! "x") 9 false).log =
      sentOf s.log ++ [(false, b! "$9;chat;;e;0;0;x")] ∧
    sentOf (roomEmit (clientCfg chatDecl noCb) s 0 (b! "r") (b! "e") (b! "x")).1.log =
      sentOf s.log ++ [(false, b! ";chat;r;e;0;0;x")] ∧
    sentOf (roomEmit (clientCfg chatDecl noCb) s 0 (b! "q") (b! "e") (b! "x")).1.log =
      sentOf s.log := by
  decide +kernel

end Neffos
