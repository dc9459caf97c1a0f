import Verif.Proofs.Emit
import Verif.Proofs.Hung
import Verif.Spec.Settle
/-!
Helper lemmas for the end of sessions: what a step puts on the wire when callbacks do not use the connection and
the socket takes everything.
-/
set_option autoImplicit false
namespace Neffos
open Neffos.Spec

variable {cfg : Cfg}

/-- at most `n` payloads are put on the wire, all of them taken, and nothing else that matters changes -/
structure Puts (n : Nat) (s t : St) : Prop where
  closed : t.closed = s.closed
  asks : t.asks = s.asks
  rd : t.rd = s.rd
  todo : t.todo = s.todo
  ackAfter : t.ackAfter = s.ackAfter
  size : (pipe t.log).length ≤ (pipe s.log).length + n
  taken : ∀ bin b, Obs.sent bin b false ∈ t.log → Obs.sent bin b false ∈ s.log

theorem Puts.refl {n : Nat} (s : St) : Puts n s s :=
  ⟨rfl, rfl, rfl, rfl, rfl, Nat.le_add_right .., fun _ _ h => h⟩

theorem Puts.trans {n m : Nat} {s t u : St} (h : Puts n s t) (k : Puts m t u) : Puts (n + m) s u :=
  ⟨k.closed.trans h.closed, k.asks.trans h.asks, k.rd.trans h.rd, k.todo.trans h.todo, k.ackAfter.trans h.ackAfter,
    (by have := h.size; have := k.size; omega), fun bin b x => h.taken bin b (k.taken bin b x)⟩

theorem Puts.mono {n m : Nat} {s t : St} (h : Puts n s t) (hm : n ≤ m) : Puts m s t :=
  ⟨h.closed, h.asks, h.rd, h.todo, h.ackAfter, (by have := h.size; omega), h.taken⟩

theorem Puts.zero {s t : St} (h1 : t.closed = s.closed) (h2 : t.asks = s.asks) (h3 : t.rd = s.rd) (h4 : t.todo = s.todo)
    (h5 : t.ackAfter = s.ackAfter) (h6 : t.log = s.log) : Puts 0 s t :=
  ⟨h1, h2, h3, h4, h5, (by rw [h6]; simp), fun bin b x => by rw [h6] at x; exact x⟩

/-- an entry of the log that is no payload -/
theorem puts_emit (s : St) (o : Obs) (h : ∀ bin b ok, o ≠ .sent bin b ok) : Puts 0 s (s.emit o) := by
  have e : (s.emit o).log = s.log ++ [o] := rfl
  refine ⟨rfl, rfl, rfl, rfl, rfl, ?_, fun bin b x => ?_⟩
  · rw [e, pipe_append]
    cases o <;> first | (simp [pipe]; done) | exact absurd rfl (h _ _ _)
  · rw [e] at x
    rcases List.mem_append.mp x with x | x
    · exact x
    · exact absurd (List.mem_singleton.mp x).symm (h _ _ _)

theorem puts_gateDone (s : St) (ns : Bytes) : Puts 0 s (gateDone s ns) := by
  unfold gateDone
  split
  · exact .refl _
  · split
    · exact .refl _
    · exact .zero rfl rfl rfl rfl rfl rfl

theorem puts_setRooms (s : St) (o : Nat) (f : List Bytes → List Bytes) : Puts 0 s (s.setRooms o f) :=
  .zero rfl rfl rfl rfl rfl rfl

theorem puts_connected (s : St) (l : List (Bytes × Nat)) : Puts 0 s { s with connected := l } :=
  .zero rfl rfl rfl rfl rfl rfl

theorem puts_rawWrite (ht : TakesAll cfg) (s : St) (b : Bytes) (bin : Bool) : Puts 1 s (rawWrite cfg s b bin).1 := by
  rw [rawWrite_accept (ht _ _ _)]
  have e : (s.emit (.sent bin b true)).log = s.log ++ [.sent bin b true] := rfl
  refine ⟨rfl, rfl, rfl, rfl, rfl, ?_, fun bin' b' x => ?_⟩
  · rw [e, pipe_append]; simp [pipe]
  · rw [e] at x
    rcases List.mem_append.mp x with x | x
    · exact x
    · cases List.mem_singleton.mp x

theorem puts_markReady (s : St) : Puts 0 s (s.markReady cfg) := by
  rw [markReady_eq]
  exact .zero rfl rfl rfl rfl rfl rfl

theorem puts_write (ht : TakesAll cfg) (s : St) (m : Message) : Puts 1 s (write cfg s m).1 := by
  rw [write_eq]
  split
  · exact ((puts_markReady s).trans (puts_rawWrite ht _ _ _)).mono (by omega)
  · split
    · exact .refl _
    · exact (puts_markReady s).mono (by omega)

theorem puts_writeEmptyReply (ht : TakesAll cfg) (s : St) (tok : Bytes) : Puts 1 s (writeEmptyReply cfg s tok) :=
  puts_rawWrite ht _ _ _

theorem puts_fire (hs : StillCbs cfg) (s : St) (obj : Nat) (msg : Message) : Puts 0 s (fire cfg s obj msg).1 := by
  unfold fire
  dsimp only
  split
  · exact puts_emit _ _ (by simp)
  · rw [hs]
    exact puts_emit _ _ (by simp)

theorem puts_fireLocked (hs : StillCbs cfg) (s : St) (obj : Nat) (msg : Message) : Puts 0 s (fireLocked cfg s obj msg) := by
  unfold fireLocked
  dsimp only
  split
  · exact puts_emit _ _ (by simp)
  · rw [hs]
    exact puts_emit _ _ (by simp)

theorem puts_forceLeaveAll (hs : StillCbs cfg) (s : St) (obj : Nat) (l : Bool) : Puts 0 s (forceLeaveAll cfg s obj l) := by
  unfold forceLeaveAll
  generalize cfg.order s.log (s.rooms obj) = rs
  induction rs generalizing s with
  | nil => exact .refl _
  | cons r rs ih =>
    refine Puts.trans (n := 0) (m := 0) ?_ (ih _)
    unfold leaveOne
    dsimp only
    exact ((puts_fireLocked hs _ _ _).trans (puts_setRooms _ _ _)).trans (puts_fireLocked hs _ _ _)

theorem puts_notifyConnected (hs : StillCbs cfg) (s : St) (obj : Nat) (msg : Message) : Puts 0 s (notifyConnected cfg s obj msg) := by
  unfold notifyConnected
  dsimp only
  split
  · exact (puts_fire hs _ _ _).trans (puts_emit _ _ (by simp))
  · exact puts_fire hs _ _ _

theorem puts_notifyDisconnect (s : St) (ns : Bytes) : Puts 0 s (notifyDisconnect cfg s ns) := by
  unfold notifyDisconnect
  split
  · exact puts_emit _ _ (by simp)
  · exact .refl _

theorem puts_fired (hs : StillCbs cfg) {s u : St} {obj : Nat} {msg : Message} {v : Option GoErr} (h : fire cfg s obj msg = (u, v)) :
    Puts 0 s u := by
  have := puts_fire hs s obj msg
  rw [h] at this
  exact this

theorem puts_replyConnect (hs : StillCbs cfg) (ht : TakesAll cfg) (s : St) (msg : Message) : Puts 1 s (replyConnect cfg s msg) := by
  unfold replyConnect
  split
  · exact .refl _
  · split
    · exact puts_writeEmptyReply ht _ _
    · split
      · exact puts_write ht _ _
      · dsimp only
        have hn : Puts 0 s (newObj s msg.ns).1 := .zero rfl rfl rfl rfl rfl rfl
        cases hf : fire cfg (newObj s msg.ns).1 (newObj s msg.ns).2 msg with
        | mk u v =>
          have hu := hn.trans (puts_fired hs hf)
          cases v with
          | some e => exact (hu.trans (puts_write ht _ _)).mono (by omega)
          | none => exact (((hu.trans (puts_connected _ _)).trans (puts_writeEmptyReply ht _ _)).trans (puts_notifyConnected hs _ _ _)).mono (by omega)

theorem puts_replyDisconnect (hs : StillCbs cfg) (ht : TakesAll cfg) (s : St) (msg : Message) :
    Puts 1 s (replyDisconnect cfg s msg) := by
  unfold replyDisconnect
  split
  · exact .refl _
  · split
    · exact puts_writeEmptyReply ht _ _
    · rename_i obj _
      split
      · exact ((((puts_forceLeaveAll hs _ _ _).trans (puts_connected _ _)).trans (puts_writeEmptyReply ht _ _)).trans
          (puts_fire hs _ _ _)).mono (by omega)
      · cases hf : fire cfg s obj msg with
        | mk u v =>
          have hu := puts_fired hs hf
          cases v with
          | some e => exact (hu.trans (puts_write ht _ _)).mono (by omega)
          | none => exact ((((hu.trans (puts_forceLeaveAll hs _ _ _)).trans (puts_connected _ _)).trans
              (puts_notifyDisconnect _ _)).trans (puts_writeEmptyReply ht _ _)).mono (by omega)

theorem puts_replyRoomJoin (hs : StillCbs cfg) (ht : TakesAll cfg) (s : St) (obj : Nat) (msg : Message) :
    Puts 1 s (replyRoomJoin cfg s obj msg) := by
  unfold replyRoomJoin
  split
  · exact .refl _
  · split
    · exact puts_writeEmptyReply ht _ _
    · cases hf : fire cfg s obj msg with
      | mk u v =>
        have hu := puts_fired hs hf
        cases v with
        | some e => exact (hu.trans (puts_write ht _ _)).mono (by omega)
        | none => exact (((hu.trans (puts_setRooms _ _ _)).trans (puts_fire hs _ _ _)).trans
            (puts_writeEmptyReply ht _ _)).mono (by omega)

theorem puts_replyRoomLeave (hs : StillCbs cfg) (ht : TakesAll cfg) (s : St) (obj : Nat) (msg : Message) :
    Puts 1 s (replyRoomLeave cfg s obj msg) := by
  unfold replyRoomLeave
  split
  · exact .refl _
  · split
    · exact puts_writeEmptyReply ht _ _
    · split
      · exact ((((puts_fire hs _ _ _).trans (puts_setRooms _ _ _)).trans (puts_writeEmptyReply ht _ _)).trans
          (puts_fire hs _ _ _)).mono (by omega)
      · cases hf : fire cfg s obj msg with
        | mk u v =>
          have hu := puts_fired hs hf
          cases v with
          | some e => exact (hu.trans (puts_write ht _ _)).mono (by omega)
          | none => exact (((hu.trans (puts_setRooms _ _ _)).trans (puts_fire hs _ _ _)).trans
              (puts_writeEmptyReply ht _ _)).mono (by omega)

theorem puts_handleEvent (hs : StillCbs cfg) (ht : TakesAll cfg) (s : St) (obj : Nat) (msg : Message) :
    Puts 1 s (handleEvent cfg s obj msg) := by
  unfold handleEvent
  dsimp only
  cases hf : fire cfg s obj { msg with isLocal := false } with
  | mk u v =>
    have hu := puts_fired hs hf
    cases v with
    | some e => exact (hu.trans (puts_write ht _ _)).mono (by omega)
    | none => exact hu.mono (by omega)

theorem puts_afterGate (hs : StillCbs cfg) (ht : TakesAll cfg) (s : St) (msg : Message) : Puts 1 s (afterGate cfg s msg) := by
  unfold afterGate
  split
  · exact puts_write ht _ _
  · split
    · exact puts_replyRoomJoin hs ht _ _ _
    · split
      · exact puts_replyRoomLeave hs ht _ _ _
      · exact puts_handleEvent hs ht _ _ _

/-- a call that completes writes nothing -/
theorem puts_finish (hs : StillCbs cfg) (s : St) (k : Cont) (m : Message) (e : Option GoErr) : Puts 0 s (finish cfg s k m e) := by
  cases k with
  | user => exact puts_emit _ _ (by simp)
  | connect ns obj =>
    cases e with
    | some e => exact (puts_emit _ _ (by simp)).trans (puts_gateDone _ _)
    | none => exact (((puts_connected _ _).trans (puts_notifyConnected hs _ _ _)).trans (puts_emit _ _ (by simp))).trans (puts_gateDone _ _)
  | disconnect obj msg =>
    cases e with
    | some e => exact puts_emit _ _ (by simp)
    | none => exact ((((puts_forceLeaveAll hs _ _ _).trans (puts_connected _ _)).trans (puts_fire hs _ _ _)).trans
        (puts_notifyDisconnect _ _)).trans (puts_emit _ _ (by simp))
  | join obj msg =>
    cases e with
    | some e => exact puts_emit _ _ (by simp)
    | none =>
      simp only [finish]
      cases hf : fire cfg s obj msg with
      | mk u v =>
        have hu := puts_fired hs hf
        cases v with
        | some e => exact hu.trans (puts_emit _ _ (by simp))
        | none => exact ((hu.trans (puts_setRooms _ _ _)).trans (puts_fire hs _ _ _)).trans (puts_emit _ _ (by simp))
  | leave obj msg =>
    cases e with
    | some e => exact puts_emit _ _ (by simp)
    | none =>
      simp only [finish]
      cases hf : fire cfg s obj msg with
      | mk u v =>
        have hu := puts_fired hs hf
        cases v with
        | some e => exact hu.trans (puts_emit _ _ (by simp))
        | none => exact ((hu.trans (puts_setRooms _ _ _)).trans (puts_fire hs _ _ _)).trans (puts_emit _ _ (by simp))

/-- such a side writes nothing for an event -/
theorem puts_afterGate_nil (hs : StillCbs cfg) (hn : NilForEvents cfg) (s : St) (msg : Message) (hw : msg.wait = [])
    (h1 : msg.event ≠ OnNamespaceConnect) (h2 : msg.event ≠ OnNamespaceDisconnect) : Puts 0 s (afterGate cfg s msg) := by
  unfold afterGate
  split
  · rename_i hns
    rw [write_eq, if_neg]
    · split
      · exact .refl _
      · exact puts_markReady s
    · rintro ⟨_, _, x | x | ⟨obj, x, _⟩⟩
      · exact h1 x
      · exact h2 x
      · rw [show ({ msg with err := some errBadNamespace } : Message).ns = msg.ns from rfl, hns] at x; cases x
  · split
    · unfold replyRoomJoin; rw [if_pos (.inl hw)]; exact .refl _
    · split
      · unfold replyRoomLeave; rw [if_pos (.inl hw)]; exact .refl _
      · rename_i obj _ h3 h4
        unfold handleEvent
        dsimp only
        cases hf : fire cfg s obj { msg with isLocal := false } with
        | mk u v =>
          have hu := puts_fired hs hf
          cases v with
          | none => exact hu
          | some e =>
            exfalso
            unfold fire at hf
            dsimp only at hf
            split at hf
            · cases hf
            · have := hn s.log obj (by assumption) { msg with isLocal := false } hw
                (by rintro (x | x | x | x); exact h1 x; exact h2 x; exact h3 x; exact h4 x)
              have h2 := congrArg Prod.snd hf
              rw [this] at h2
              cases h2

/-! ### Steps of a session -/

/-- what matters of a step that can also move the reader or answer an Ask -/
structure Wires (n : Nat) (s t : St) : Prop where
  closed : t.closed = s.closed
  size : (pipe t.log).length ≤ (pipe s.log).length + n
  taken : ∀ bin b, Obs.sent bin b false ∈ t.log → Obs.sent bin b false ∈ s.log

theorem Puts.wires {n : Nat} {s t : St} (h : Puts n s t) : Wires n s t := ⟨h.closed, h.size, h.taken⟩

theorem wires_quiet {n : Nat} {s t : St} (h1 : t.closed = s.closed) (h2 : t.log = s.log) : Wires n s t :=
  ⟨h1, (by rw [h2]; omega), fun bin b x => by rw [h2] at x; exact x⟩

theorem wires_dispatch (hs : StillCbs cfg) (ht : TakesAll cfg) (s : St) (msg : Message) : Wires 1 s (dispatch cfg s msg) := by
  unfold dispatch
  split
  · exact (puts_replyConnect hs ht _ _).wires
  · split
    · exact (puts_replyDisconnect hs ht _ _).wires
    · split
      · exact wires_quiet rfl rfl
      · exact (puts_afterGate hs ht _ _).wires

/-- a side that reads a payload puts at most one on the wire -/
theorem wires_recv (hs : StillCbs cfg) (ht : TakesAll cfg) (hon : cfg.onlyNative = false) {s : St} (ha : s.acked = true)
    (typ : MsgType) (b : Bytes) : Wires 1 s (recv cfg s typ b) := by
  unfold recv
  split
  · exact wires_quiet rfl rfl
  · first | rw [if_pos ha] | skip
    unfold handlePayload handleMessage
    split
    · exact wires_quiet rfl rfl
    · rw [if_neg (by simp [hon])]
      split
      · split
        · exact ((puts_emit _ _ (by simp)).mono (Nat.zero_le _)).wires
        · split
          · exact ((puts_emit _ _ (by simp)).mono (Nat.zero_le _)).wires
          · split
            · unfold deliver
              split
              · exact wires_quiet rfl rfl
              · split <;> exact wires_quiet rfl rfl
            · exact wires_dispatch hs ht _ _
      · exact wires_dispatch hs ht _ _

/-- a side whose callbacks return nil for events writes nothing when it reads one -/
theorem wires_calm (hs : StillCbs cfg) (hnil : NilForEvents cfg) (hn : cfg.allowNative = false) {s : St} {p : MsgType × Bytes}
    (ha : s.acked = true) (hp : CalmP p) : Wires 0 s (recv cfg s p.1 p.2) ∧ (recv cfg s p.1 p.2).asks = s.asks := by
  have hon : cfg.onlyNative = false := by simp [Cfg.onlyNative, hn]
  obtain ⟨t, ht⟩ := hp
  obtain ⟨hw, hnat⟩ := decode_calm cfg.known p.1 t
  rw [ht]
  unfold recv handlePayload
  rw [if_neg (by simp), if_pos ha, hn, hon]
  generalize deserializeMessage cfg.known p.1 (59 :: t) false false = m at hw hnat
  unfold handleMessage
  split
  · exact ⟨wires_quiet rfl rfl, rfl⟩
  · rw [if_neg (by simp [hnat]), if_neg (by simp [Message.isWait, hw])]
    unfold dispatch
    split
    · unfold replyConnect; rw [if_pos (.inl hw)]; exact ⟨wires_quiet rfl rfl, rfl⟩
    · split
      · unfold replyDisconnect; rw [if_pos (.inl hw)]; exact ⟨wires_quiet rfl rfl, rfl⟩
      · rename_i h1 h2
        split
        · exact ⟨wires_quiet rfl rfl, rfl⟩
        · have h := puts_afterGate_nil hs hnil s m hw h1 h2
          exact ⟨h.wires, h.asks⟩

theorem count_modify {α : Type} (q : α → Bool) (f : α → α) {l : List α} {i : Nat} {a : α} (h : l[i]? = some a) :
    (l.modify i f).countP q + (q a).toNat = l.countP q + (q (f a)).toNat := by
  induction l generalizing i with
  | nil => simp at h
  | cons x l ih =>
    cases i with
    | zero =>
      simp only [List.getElem?_cons_zero, Option.some.injEq] at h
      subst h
      simp only [List.modify_zero_cons, List.countP_cons]
      cases q x <;> cases q (f x) <;> simp
    | succ i =>
      simp only [List.getElem?_cons_succ] at h
      have := ih h
      simp only [List.modify_succ_cons, List.countP_cons]
      omega

theorem count_set {α : Type} (q : α → Bool) {l : List α} {i : Nat} {a : α} (b : α) (h : l[i]? = some a) :
    (l.set i b).countP q + (q a).toNat = l.countP q + (q b).toNat := by
  induction l generalizing i with
  | nil => simp at h
  | cons x l ih =>
    cases i with
    | zero =>
      simp only [List.getElem?_cons_zero, Option.some.injEq] at h
      subst h
      simp only [List.set_cons_zero, List.countP_cons]
      cases q x <;> cases q b <;> simp
    | succ i =>
      simp only [List.getElem?_cons_succ] at h
      have := ih h
      simp only [List.set_cons_succ, List.countP_cons]
      omega

end Neffos
