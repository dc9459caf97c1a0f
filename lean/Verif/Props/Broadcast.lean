import Verif.Model.Broadcast
import Verif.Spec.HexText
import Verif.Props.Write
import Verif.Proofs.ConnId
/-!
# C37-C40 and C53: who gets a broadcast
-/
set_option autoImplicit false
namespace Neffos
open Spec

variable {cfg : Cfg}

/-! ## What a write leaves alone -/

theorem closeConn_id (s : St) : (closeConn cfg s).id = s.id := id_calm.closeConn s

theorem write_id (s : St) (m : Message) : (write cfg s m).1.id = s.id := id_calm.write s m

/-- the bytes of a message do not depend on `from` -/
theorem serialize_sender (m : Message) (x : Bytes) :
    serializeMessage { m with sender := x } = serializeMessage m := rfl

/-! ## C37 -/

/-- C37, spec: the connection is excluded by the first argument of Broadcast -/
def Excluded (cfg : Cfg) (s : St) : Except → Prop
  | .nil => False
  | .conn sid => cfg.serverConnID = sid
  | .nsConn sid => cfg.serverConnID = sid
  | .stringer x => s.id = x

/-- C37, spec: the connection is to get the message -/
def Recipient (cfg : Cfg) (s : St) (ex : Except) (m : Message) : Prop :=
  s.closed = false ∧ ¬ Excluded cfg s ex ∧ (m.to = [] ∨ m.to = s.id) ∧
    ∃ obj, s.namespace m.ns = some obj ∧ (m.room = [] ∨ m.room ∈ s.rooms obj)

/-- C37, spec: an event of the application, and a message as an application makes it -/
structure Ordinary (m : Message) : Prop where
  connect : m.event ≠ OnNamespaceConnect
  disconnect : m.event ≠ OnNamespaceDisconnect
  join : m.event ≠ OnRoomJoin
  left : m.event ≠ OnRoomLeft
  from_ : m.sender = []
  explicit : m.fromExplicit = []

theorem Ordinary.unmarked {m : Message} (hm : Ordinary m) :
    ({ m with sender := [], fromExplicit := [] } : Message) = m := by
  obtain ⟨_, _, _, _, h1, h2⟩ := hm
  cases m
  dsimp only at h1 h2
  subst h1 h2
  rfl

/-- the argument is a connection with an identity, or anything else -/
def Except.Real : Except → Prop
  | .conn sid => sid ≠ []
  | .nsConn sid => sid ≠ []
  | _ => True

theorem publish_one (s : St) (m : Message) (h1 : m.sender ≠ s.id) (h2 : m.to = [] ∨ m.to = s.id) :
    (publishMessages cfg s [m]).1 = (write cfg s m).1 := by
  simp only [publishMessages]
  rw [if_neg h1, if_neg (by rintro ⟨a, b⟩; rcases h2 with h | h <;> contradiction)]
  generalize write cfg s m = p
  obtain ⟨t, ok⟩ := p
  dsimp only
  split <;> rfl

theorem publish_skip (s : St) (m : Message) (ms : List Message)
    (h : m.sender = s.id ∨ (m.to ≠ [] ∧ m.to ≠ s.id)) :
    publishMessages cfg s (m :: ms) = (s, true) := by
  simp only [publishMessages]
  by_cases h1 : m.sender = s.id
  · rw [if_pos h1]
  · rw [if_neg h1]
    rcases h with h | h
    · contradiction
    · rw [if_pos h]

/-- C37, partial: for an application event, a registered connection with a non-empty ID is handed
the message exactly if it is a recipient, once, and nothing else is written. -/
theorem c37_recipient_partial {id0 : Bytes} {s : St} (hr : Reach cfg id0 s)
    (hsrv : cfg.isClient = false) (hid : s.id ≠ []) (ex : Except) (hex : ex.Real) (m : Message)
    (hm : Ordinary m) :
    ∃ b, serializeMessage m = some b ∧
      (Recipient cfg s ex m →
        sentOf (publishMessages cfg s (stamp ex [m])).1.log = sentOf s.log ++ [(m.setBinary, b)]) ∧
      (¬ Recipient cfg s ex m →
        (publishMessages cfg s (stamp ex [m])).1.log = s.log) := by
  -- one message with the marks `x` and `fe`
  have key : ∀ (x fe : Bytes), ∃ b, serializeMessage m = some b ∧
      ((s.closed = false ∧ x ≠ s.id ∧ ¬ (fe ≠ [] ∧ fe = cfg.serverConnID) ∧
          (m.to = [] ∨ m.to = s.id) ∧
          ∃ obj, s.namespace m.ns = some obj ∧ (m.room = [] ∨ m.room ∈ s.rooms obj)) →
        sentOf (publishMessages cfg s [{ m with sender := x, fromExplicit := fe }]).1.log =
          sentOf s.log ++ [(m.setBinary, b)]) ∧
      (¬ (s.closed = false ∧ x ≠ s.id ∧ ¬ (fe ≠ [] ∧ fe = cfg.serverConnID) ∧
          (m.to = [] ∨ m.to = s.id) ∧
          ∃ obj, s.namespace m.ns = some obj ∧ (m.room = [] ∨ m.room ∈ s.rooms obj)) →
        (publishMessages cfg s [{ m with sender := x, fromExplicit := fe }]).1.log = s.log) := by
    intro x fe
    obtain ⟨b, hb, hy, hn⟩ := c13_write hr { m with sender := x, fromExplicit := fe }
    have hbm : serializeMessage m = some b :=
      (congrArg serializeMessage hm.unmarked).symm.trans
        ((serialize_sender { m with sender := x, fromExplicit := [] } []).trans hb)
    refine ⟨b, hbm, ?_, ?_⟩
    · rintro ⟨a1, a2, a3, a4, obj, a5, a6⟩
      rw [publish_one s { m with sender := x, fromExplicit := fe } a2 a4]
      have hw : MayWrite cfg s { m with sender := x, fromExplicit := fe } := by
        refine ⟨a1, ?_, Or.inr (Or.inr ⟨obj, a5, ?_⟩)⟩
        · unfold IsSender; simpa [hsrv] using a3
        · rcases a6 with h | h
          · exact Or.inl h
          · exact Or.inr (Or.inr (Or.inr h))
      obtain ⟨rest, k1, k2, _⟩ := hy hw
      rw [k1, sentOf_append, sentOf, k2]
    · intro hnot
      by_cases a2 : x = s.id
      · rw [publish_skip s { m with sender := x, fromExplicit := fe } [] (Or.inl a2)]
      · by_cases a4 : m.to = [] ∨ m.to = s.id
        · rw [publish_one s { m with sender := x, fromExplicit := fe } a2 a4]
          apply (hn _).1
          rintro ⟨b1, b2, b3⟩
          apply hnot
          refine ⟨b1, a2, ?_, a4, ?_⟩
          · unfold IsSender at b2; simpa [hsrv] using b2
          · rcases b3 with h | h | ⟨obj, h, h'⟩
            · exact absurd h hm.connect
            · exact absurd h hm.disconnect
            · refine ⟨obj, h, ?_⟩
              rcases h' with h' | h' | h' | h'
              · exact Or.inl h'
              · exact absurd h' hm.join
              · exact absurd h' hm.left
              · exact Or.inr h'
        · rw [publish_skip s { m with sender := x, fromExplicit := fe } []
            (Or.inr ⟨fun h => a4 (Or.inl h), fun h => a4 (Or.inr h)⟩)]
  have hself := hm.unmarked
  cases ex with
  | nil =>
    obtain ⟨b, hb, h1, h2⟩ := key [] []
    rw [hself] at h1 h2
    refine ⟨b, hb, fun h => h1 ?_, fun h => h2 (fun h' => h ?_)⟩
    · obtain ⟨c1, _, c3, c4⟩ := h
      exact ⟨c1, Ne.symm hid, by simp, c3, c4⟩
    · obtain ⟨c1, _, _, c3, c4⟩ := h'
      exact ⟨c1, id, c3, c4⟩
  | conn sid =>
    obtain ⟨b, hb, h1, h2⟩ := key [] sid
    have e : stamp (.conn sid) [m] = [{ m with sender := [], fromExplicit := sid }] := by
      simp [stamp, hm.from_]
    rw [e]
    refine ⟨b, hb, fun h => h1 ?_, fun h => h2 (fun h' => h ?_)⟩
    · obtain ⟨c1, c2, c3, c4⟩ := h
      exact ⟨c1, Ne.symm hid, fun h => c2 h.2.symm, c3, c4⟩
    · obtain ⟨c1, _, c2, c3, c4⟩ := h'
      exact ⟨c1, fun h => c2 ⟨hex, h.symm⟩, c3, c4⟩
  | nsConn sid =>
    obtain ⟨b, hb, h1, h2⟩ := key [] sid
    have e : stamp (.nsConn sid) [m] = [{ m with sender := [], fromExplicit := sid }] := by
      simp [stamp, hm.from_]
    rw [e]
    refine ⟨b, hb, fun h => h1 ?_, fun h => h2 (fun h' => h ?_)⟩
    · obtain ⟨c1, c2, c3, c4⟩ := h
      exact ⟨c1, Ne.symm hid, fun h => c2 h.2.symm, c3, c4⟩
    · obtain ⟨c1, _, c2, c3, c4⟩ := h'
      exact ⟨c1, fun h => c2 ⟨hex, h.symm⟩, c3, c4⟩
  | stringer x =>
    obtain ⟨b, hb, h1, h2⟩ := key x []
    have e : stamp (.stringer x) [m] = [{ m with sender := x, fromExplicit := [] }] := by
      by_cases hx : x = []
      · subst hx; simp [stamp, hm.from_]
      · simp [stamp, hx, hm.explicit]
    rw [e]
    refine ⟨b, hb, fun h => h1 ?_, fun h => h2 (fun h' => h ?_)⟩
    · obtain ⟨c1, c2, c3, c4⟩ := h
      exact ⟨c1, fun h => c2 h.symm, by simp, c3, c4⟩
    · obtain ⟨c1, c2, _, c3, c4⟩ := h'
      exact ⟨c1, fun h => c2 h.symm, c3, c4⟩

/-- C37 fails for a connection whose ID generator gave the empty ID: it never gets a broadcast. -/
theorem c37_refuted_id (s : St) (hid : s.id = []) (m : Message) (hm : m.sender = []) (ms : List Message) :
    publishMessages cfg s (m :: ms) = (s, true) :=
  publish_skip _ _ _ (Or.inl (by rw [hm, hid]))

/-- C37 fails for the events that connect and disconnect: they reach every open connection,
connected to the namespace or not. -/
theorem c37_refuted_event {id0 : Bytes} {s : St} (hr : Reach cfg id0 s) (hc : s.closed = false)
    (hid : s.id ≠ []) (m : Message)
    (he : m.event = OnNamespaceConnect ∨ m.event = OnNamespaceDisconnect) (hf : m.sender = [])
    (hx : m.fromExplicit = []) (ht : m.to = []) :
    ∃ b, serializeMessage m = some b ∧
      sentOf (publishMessages cfg s (stamp .nil [m])).1.log = sentOf s.log ++ [(m.setBinary, b)] := by
  obtain ⟨b, hb, hy, _⟩ := c13_write hr m
  refine ⟨b, ?_, ?_⟩
  · have h1 : ({ m with fromExplicit := [] } : Message) = m := by rw [← hx]
    rw [h1] at hb; exact hb
  · show sentOf (publishMessages cfg s [m]).1.log = _
    rw [publish_one _ _ (by rw [hf]; exact Ne.symm hid) (Or.inl ht)]
    obtain ⟨rest, k1, k2, _⟩ := hy ⟨hc, by simp [IsSender, hx], by
      rcases he with h | h
      · exact Or.inl h
      · exact Or.inr (Or.inl h)⟩
    rw [k1, sentOf_append, sentOf, k2]

/-! ## C38 -/

theorem write_closed (s : St) (m : Message) (h : s.closed = true) : write cfg s m = (s, false) := by
  simp [write, canWrite, h]

theorem publish_closed (s : St) (ms : List Message) (h : s.closed = true) :
    (publishMessages cfg s ms).1 = s := by
  cases ms with
  | nil => rfl
  | cons m ms =>
    simp only [publishMessages]
    split
    · rfl
    · split
      · rfl
      · simp [write_closed s m h, h]

/-- broadcasting the messages one by one -/
def oneByOne (cfg : Cfg) (s : St) (ms : List Message) : St :=
  ms.foldl (fun s m => (publishMessages cfg s [m]).1) s

theorem oneByOne_closed (s : St) (ms : List Message) (h : s.closed = true) : oneByOne cfg s ms = s := by
  induction ms with
  | nil => rfl
  | cons m ms ih =>
    unfold oneByOne at ih ⊢
    rw [List.foldl_cons, publish_closed s [m] h, ih]

theorem publish_id (s : St) (ms : List Message) : (publishMessages cfg s ms).1.id = s.id := by
  induction ms generalizing s with
  | nil => rfl
  | cons m ms ih =>
    simp only [publishMessages]
    split
    · rfl
    · split
      · rfl
      · have := write_id (cfg := cfg) s m
        generalize write cfg s m = p at this ⊢
        obtain ⟨t, ok⟩ := p
        dsimp only at this ⊢
        split
        · exact this
        · rw [ih, this]

/-- the message is addressed to others than the connection: it sent it, or `To` is another -/
def Skips (s : St) (m : Message) : Prop := m.sender = s.id ∨ (m.to ≠ [] ∧ m.to ≠ s.id)

/-- C38, partial: if no message of the batch is skipped before one that is not, a connection ends
up exactly as if the messages had been broadcast one by one, whatever the socket does. -/
theorem c38_batch_partial (s : St) (ms sk : List Message) (h : ∀ m ∈ ms, ¬ Skips s m)
    (hsk : ∀ m ∈ sk, Skips s m) :
    (publishMessages cfg s (ms ++ sk)).1 = oneByOne cfg s (ms ++ sk) := by
  induction ms generalizing s with
  | nil =>
    rw [List.nil_append]
    cases sk with
    | nil => rfl
    | cons m sk =>
      rw [publish_skip s m sk (hsk m (by simp))]
      have : ∀ l : List Message, (∀ m ∈ l, Skips s m) → oneByOne cfg s l = s := by
        intro l
        induction l with
        | nil => intro _; rfl
        | cons a l ih =>
          intro hl
          unfold oneByOne at ih ⊢
          rw [List.foldl_cons, publish_skip s a [] (hl a (by simp))]
          exact ih (fun m hm => hl m (by simp [hm]))
      exact (this _ hsk).symm
  | cons m ms ih =>
    have h1 := h m (by simp)
    have a1 : m.sender ≠ s.id := fun e => h1 (Or.inl e)
    have a2 : ¬ (m.to ≠ [] ∧ m.to ≠ s.id) := fun e => h1 (Or.inr e)
    have a3 : m.to = [] ∨ m.to = s.id := by
      by_cases e : m.to = []
      · exact Or.inl e
      · by_cases e' : m.to = s.id
        · exact Or.inr e'
        · exact (a2 ⟨e, e'⟩).elim
    rw [List.cons_append]
    simp only [publishMessages]
    rw [if_neg a1, if_neg a2]
    have hone : oneByOne cfg s (m :: (ms ++ sk)) = oneByOne cfg (write cfg s m).1 (ms ++ sk) := by
      unfold oneByOne
      rw [List.foldl_cons, publish_one s m a1 a3]
    rw [hone]
    have hid := write_id (cfg := cfg) s m
    generalize write cfg s m = p at hid ⊢
    obtain ⟨t, ok⟩ := p
    dsimp only at hid ⊢
    by_cases hc : t.closed = true
    · rw [oneByOne_closed t _ hc]
      split
      · rfl
      · exact publish_closed t _ hc
    · rw [if_neg (by simp [hc])]
      apply ih
      · intro m' hm' hs
        apply h m' (by simp [hm'])
        unfold Skips at hs ⊢
        rwa [hid] at hs
      · intro m' hm'
        have := hsk m' hm'
        unfold Skips at this ⊢
        rwa [hid]

/-- C38 fails: a connection that skips the first message of a batch gets nothing of it, even if
a later message is for it. -/
theorem c38_refuted (s : St) (m : Message) (ms : List Message) (h : Skips s m) :
    publishMessages cfg s (m :: ms) = (s, true) := publish_skip s m ms h

/-- C38, the concrete case: two direct messages in one batch, the second for this connection. -/
theorem c38_refuted_witness :
    let cfg := serverCfg chatDecl noCb
    let s := after cfg (b! "b") chatSrvOps
    let m1 : Message := { ns := b! "chat", event := b! "e", to := b! "a" }
    let m2 : Message := { ns := b! "chat", event := b! "e", to := b! "b" }
    sentOf (publishMessages cfg s [m1, m2]).1.log = sentOf s.log ∧
    sentOf (oneByOne cfg s [m1, m2]).log = sentOf s.log ++ [(false, b! ";chat;;e;0;0;")] := by
  decide +kernel

/-! ## C39 -/

theorem hexDigit_inj : ∀ a b : Fin 16, hexDigit a.val = hexDigit b.val → a = b := by
  decide +kernel

theorem hexDigit_ne_x : ∀ a : Fin 16, hexDigit a.val ≠ 120 := by
  decide +kernel

theorem hex_ne_nil (n : Nat) : hex n ≠ [] := by
  unfold hex
  split <;> simp

theorem hex_inj (n m : Nat) (h : hex n = hex m) : n = m := by
  induction n using Nat.strongRecOn generalizing m with
  | ind n ih =>
    have dig : ∀ a b, a < 16 → b < 16 → hexDigit a = hexDigit b → a = b := by
      intro a b ha hb hd
      have := hexDigit_inj ⟨a, ha⟩ ⟨b, hb⟩ hd
      exact congrArg Fin.val this
    unfold hex at h
    split at h
    · rename_i hn
      split at h
      · rename_i hm
        exact dig n m hn hm (by simpa using h)
      · have := congrArg List.length h
        have h2 := List.length_pos_iff.mpr (hex_ne_nil (m / 16))
        rw [List.length_append] at this
        simp only [List.length_singleton] at this
        omega
    · rename_i hn
      split at h
      · have := congrArg List.length h
        have h2 := List.length_pos_iff.mpr (hex_ne_nil (n / 16))
        rw [List.length_append] at this
        simp only [List.length_singleton] at this
        omega
      · rename_i hm
        obtain ⟨h1, h2⟩ := List.append_inj' h rfl
        have e1 := ih (n / 16) (by omega) (m / 16) h1
        have e2 := dig (n % 16) (m % 16) (by omega) (by omega) (by simpa using h2)
        omega

theorem hex_no_x (n : Nat) : (120 : UInt8) ∉ hex n := by
  induction n using Nat.strongRecOn with
  | ind n ih =>
    unfold hex
    split
    · rename_i hn
      simpa using Ne.symm (hexDigit_ne_x ⟨n, hn⟩)
    · rename_i hn
      have h1 := ih (n / 16) (by omega)
      have h2 := hexDigit_ne_x ⟨n % 16, by omega⟩
      simp only [List.mem_append, List.mem_singleton, not_or]
      exact ⟨h1, Ne.symm h2⟩

/-- what follows the last occurrence of a byte is determined -/
theorem last_inj {a a' c c' : Bytes} {x : UInt8} (h : a ++ x :: c = a' ++ x :: c')
    (hc : x ∉ c) (hc' : x ∉ c') : c = c' := by
  induction a generalizing a' with
  | nil =>
    cases a' with
    | nil => simpa using h
    | cons y a' =>
      rw [List.nil_append, List.cons_append, List.cons.injEq] at h
      exfalso
      apply hc
      rw [h.2]
      simp
  | cons y a ih =>
    cases a' with
    | nil =>
      rw [List.nil_append, List.cons_append, List.cons.injEq] at h
      exfalso
      apply hc'
      rw [← h.2]
      simp
    | cons z a' =>
      rw [List.cons_append, List.cons_append, List.cons.injEq] at h
      exact ih h.2

/-- C39: the identities of two connections, of the same server or of servers with identifiers of
equal length as all uuids have, are equal only if it is the same connection of the same
server, whatever their IDs are. -/
theorem c39_identity (u u' i i' : Bytes) (p p' : Nat) (hu : u.length = u'.length)
    (h : genServerConnID u i (showPtr p) = genServerConnID u' i' (showPtr p')) : u = u' ∧ p = p' := by
  unfold genServerConnID showPtr at h
  have h := (List.append_inj' h rfl).1
  have h0 : (b! "neffos(0x" ++ u ++ b! "(" ++ i ++ [48]) ++ 120 :: hex p =
      (b! "neffos(0x" ++ u' ++ b! "(" ++ i' ++ [48]) ++ 120 :: hex p' := by
    simpa [List.append_assoc] using h
  have hp := last_inj h0 (hex_no_x p) (hex_no_x p')
  refine ⟨?_, hex_inj p p' hp⟩
  have h1 : b! "neffos(0x" ++ (u ++ (b! "(" ++ i ++ b! "0x" ++ hex p)) =
      b! "neffos(0x" ++ (u' ++ (b! "(" ++ i' ++ b! "0x" ++ hex p')) := by
    simpa [List.append_assoc] using h
  exact (List.append_inj (List.append_cancel_left h1) hu).1

theorem hexDigit_value : ∀ a : Fin 16, digitValue (hexDigit a.val) = some a.val := by
  decide +kernel

theorem hexValue_snoc (t : Bytes) (c : UInt8) (v d : Nat) (h : hexValue t = some v) (hd : digitValue c = some d) :
    hexValue (t ++ [c]) = some (16 * v + d) := by
  unfold hexValue at h ⊢
  rw [List.foldl_append, h]
  simp [hd]

/-- C39: the last part of the identity of a connection is the address of that connection, written in lower-case
hexadecimal without leading zeros. -/
theorem c39_pointer (u i : Bytes) (p : Nat) :
    ∃ t, genServerConnID u i (showPtr p) = b! "neffos(0x" ++ u ++ b! "(" ++ i ++ b! "0x" ++ t ++ b! "))" ∧
      hexValue t = some p ∧ (0 < p → t.head? ≠ some 48) := by
  refine ⟨hex p, by simp [genServerConnID, showPtr, List.append_assoc], ?_⟩
  induction p using Nat.strongRecOn with
  | ind n ih =>
    unfold hex
    split
    · rename_i hn
      refine ⟨?_, ?_⟩
      · have := hexValue_snoc [] _ 0 n rfl (hexDigit_value ⟨n, hn⟩)
        simpa using this
      · intro h0 h1
        have h2 : hexDigit n = hexDigit 0 := (show hexDigit n = 48 by simpa using h1).trans (by decide)
        have := congrArg Fin.val (hexDigit_inj ⟨n, hn⟩ ⟨0, by omega⟩ h2)
        simp at this
        omega
    · rename_i hn
      obtain ⟨h1, h2⟩ := ih (n / 16) (by omega)
      refine ⟨?_, fun _ => ?_⟩
      · rw [hexValue_snoc _ _ _ _ h1 (hexDigit_value ⟨n % 16, by omega⟩)]
        congr 1
        show 16 * (n / 16) + n % 16 = n
        omega
      · have h3 := h2 (by omega)
        have h4 := hex_ne_nil (n / 16)
        cases k : hex (n / 16) with
        | nil => exact absurd k h4
        | cons a r => rw [k] at h3; simpa using h3

/-- C39: Broadcast(c, m) or Broadcast(nsConn, m) excludes exactly the connection c, also if
others have its ID. -/
theorem c39_conn (uuid id id' : Bytes) (p p' : Nat) (s : St)
    (hc : cfg.serverConnID = genServerConnID uuid id (showPtr p)) :
    (Excluded cfg s (.conn (genServerConnID uuid id' (showPtr p'))) ↔ p = p' ∧ id = id') ∧
    (Excluded cfg s (.nsConn (genServerConnID uuid id' (showPtr p'))) ↔ p = p' ∧ id = id') ∧
    (Except.conn (genServerConnID uuid id' (showPtr p'))).Real ∧
    (Except.nsConn (genServerConnID uuid id' (showPtr p'))).Real := by
  have hne : genServerConnID uuid id' (showPtr p') ≠ [] := by simp [genServerConnID]
  have : cfg.serverConnID = genServerConnID uuid id' (showPtr p') ↔ p = p' ∧ id = id' := by
    rw [hc]
    constructor
    · intro h
      obtain ⟨_, h2⟩ := c39_identity _ _ _ _ _ _ rfl h
      subst h2
      refine ⟨rfl, ?_⟩
      unfold genServerConnID showPtr at h
      have h := (List.append_inj' h rfl).1
      have h := (List.append_inj' h rfl).1
      exact List.append_cancel_left h
    · rintro ⟨rfl, rfl⟩; rfl
  exact ⟨this, this, hne, hne⟩

theorem excludes {id0 : Bytes} {s : St} (hr : Reach cfg id0 s) (hsrv : cfg.isClient = false) (hid : s.id ≠ [])
    (ex : Except) (hex : ex.Real) (m : Message) (hm : Ordinary m) :
    (Excluded cfg s ex → (publishMessages cfg s (stamp ex [m])).1.log = s.log) ∧
    (¬ Excluded cfg s ex → sentOf (publishMessages cfg s (stamp ex [m])).1.log =
      sentOf (publishMessages cfg s (stamp .nil [m])).1.log) := by
  obtain ⟨b, hb, h1, h2⟩ := c37_recipient_partial hr hsrv hid ex hex m hm
  obtain ⟨b', hb', g1, g2⟩ := c37_recipient_partial hr hsrv hid .nil trivial m hm
  rw [hb] at hb'
  cases hb'
  refine ⟨fun h => h2 (fun h' => h'.2.1 h), fun h => ?_⟩
  by_cases hrec : Recipient cfg s .nil m
  · rw [g1 hrec, h1 ⟨hrec.1, h, hrec.2.2⟩]
  · rw [g2 hrec, h2 (fun h' => hrec ⟨h'.1, id, h'.2.2⟩)]

/-- C39, at the socket: without StackExchange, a broadcast with a Conn or NSConn writes nothing to that
connection, and to any other connection, with the same ID or not, exactly what it would write with nobody
excluded. -/
theorem c39_sent {id0 : Bytes} {s : St} (hr : Reach cfg id0 s) (hsrv : cfg.isClient = false) (hid : s.id ≠ [])
    (m : Message) (hm : Ordinary m) (uuid id id' : Bytes) (p p' : Nat)
    (hc : cfg.serverConnID = genServerConnID uuid id (showPtr p)) (ex : Except)
    (hex : ex = .conn (genServerConnID uuid id' (showPtr p')) ∨
      ex = .nsConn (genServerConnID uuid id' (showPtr p'))) :
    (p = p' ∧ id = id' → (publishMessages cfg s (stamp ex [m])).1.log = s.log) ∧
    (¬ (p = p' ∧ id = id') → sentOf (publishMessages cfg s (stamp ex [m])).1.log =
      sentOf (publishMessages cfg s (stamp .nil [m])).1.log) := by
  obtain ⟨h1, h2, h3, h4⟩ := c39_conn uuid id id' p p' s hc
  rcases hex with rfl | rfl
  · rw [← h1]; exact excludes hr hsrv hid _ h3 m hm
  · rw [← h2]; exact excludes hr hsrv hid _ h4 m hm

/-- C39, at the socket: a broadcast with Exclude(x) or a Room of a connection with ID x writes nothing to
the connections with that ID, and to any other exactly what it would write with nobody excluded. -/
theorem c39_sent_id {id0 : Bytes} {s : St} (hr : Reach cfg id0 s) (hsrv : cfg.isClient = false) (hid : s.id ≠ [])
    (m : Message) (hm : Ordinary m) (x : Bytes) :
    (s.id = x → (publishMessages cfg s (stamp (.stringer x) [m])).1.log = s.log) ∧
    (s.id ≠ x → sentOf (publishMessages cfg s (stamp (.stringer x) [m])).1.log =
      sentOf (publishMessages cfg s (stamp .nil [m])).1.log) :=
  excludes hr hsrv hid (.stringer x) trivial m hm

/-- Two connections with the ID "a"; a broadcast with one of them reaches only the other. -/
example :
    let cfg1 := { serverCfg chatDecl noCb with serverConnID := genServerConnID (b! "u") (b! "a") (showPtr 16) }
    let cfg2 := { serverCfg chatDecl noCb with serverConnID := genServerConnID (b! "u") (b! "a") (showPtr 32) }
    let m : Message := { ns := b! "chat", event := b! "e" }
    let ex := Except.nsConn (genServerConnID (b! "u") (b! "a") (showPtr 16))
    sentOf (publishMessages cfg1 (after cfg1 (b! "a") chatSrvOps) (stamp ex [m])).1.log =
      sentOf (after cfg1 (b! "a") chatSrvOps).log ∧
    sentOf (publishMessages cfg2 (after cfg2 (b! "a") chatSrvOps) (stamp ex [m])).1.log =
      sentOf (after cfg2 (b! "a") chatSrvOps).log ++ [(false, b! ";chat;;e;0;0;")] := by
  decide +kernel

/-- C39 fails when a StackExchange is used: the mark set by Exclude or a Room is not part of the
bytes published, so that it excludes nobody on any server. -/
theorem c39_exchange_refuted (m : Message) (x : Bytes) (hx : x ≠ []) :
    (stamp (.stringer x) [m]).map serializeMessage = [m].map serializeMessage := by
  simp [stamp, hx, serialize_sender]

/-! ## C40 -/

/-- C40 fails: the messages are marked in place, so that excluding one connection also excludes it
from the next broadcast of the same slice with nobody excluded. -/
theorem c40_refuted (s : St) (x : Bytes) (hx : x ≠ []) (hid : s.id = x) (m : Message) :
    publishMessages cfg s (stamp .nil (stamp (.stringer x) [m])) = (s, true) := by
  have : stamp .nil (stamp (.stringer x) [m]) = [{ m with sender := x }] := by simp [stamp, hx]
  rw [this]
  exact publish_skip s _ [] (Or.inl hid.symm)

/-- C40, the concrete case: the second broadcast would reach the connection if the slice was
fresh. -/
theorem c40_refuted_witness :
    let cfg := serverCfg chatDecl noCb
    let s := after cfg (b! "a") chatSrvOps
    let m : Message := { ns := b! "chat", event := b! "e" }
    sentOf (publishMessages cfg s (stamp .nil (stamp (.stringer (b! "a")) [m]))).1.log = sentOf s.log ∧
    sentOf (publishMessages cfg s (stamp .nil [m])).1.log = sentOf s.log ++ [(false, b! ";chat;;e;0;0;")] := by
  decide +kernel

/-- the two arguments leave the same kind of mark -/
def SameKind : Except → Except → Prop
  | .nil, _ => True
  | .conn _, .conn _ => True
  | .conn _, .nsConn _ => True
  | .nsConn _, .conn _ => True
  | .nsConn _, .nsConn _ => True
  | .stringer x, .stringer y => x ≠ [] ∧ y ≠ []
  | _, _ => False

/-- C40, partial: earlier broadcasts of the slice do not matter if they excluded nobody or left
the same kind of mark as the present one does. -/
theorem c40_partial (ex : Except) (earlier : List Except) (h : ∀ e ∈ earlier, SameKind e ex)
    (msgs : List Message) :
    stamp ex (earlier.foldl (fun ms e => stamp e ms) msgs) = stamp ex msgs := by
  induction earlier generalizing msgs with
  | nil => rfl
  | cons e earlier ih =>
    rw [List.foldl_cons, ih (fun e' h' => h e' (by simp [h']))]
    have hk := h e (by simp)
    cases e <;> cases ex <;> simp_all [stamp, SameKind]

/-! ## C53 -/

theorem getConnections_spec (conns : List (Nat × St)) (m0 : List (Bytes × Nat)) (k : Bytes) :
    mapGet (conns.foldl (fun m c => mapSet m c.2.id c.1) m0) k =
      match (conns.filter (fun c => c.2.id = k)).getLast? with
      | some c => some c.1
      | none => mapGet m0 k := by
  induction conns generalizing m0 with
  | nil => rfl
  | cons c conns ih =>
    rw [List.foldl_cons, ih, mapGet_mapSet]
    by_cases h : c.2.id = k
    · rw [List.filter_cons_of_pos (by simpa using h)]
      rw [List.getLast?_cons]
      rw [if_pos h.symm]
      cases (conns.filter (fun c => decide (c.2.id = k))).getLast? <;> rfl
    · rw [List.filter_cons_of_neg (by simpa using h)]
      rw [if_neg (Ne.symm h)]

/-- C53: GetConnections holds only registered connections, each under its own ID, and has an
entry for the ID of every registered connection, in whatever order the map is ranged over. -/
theorem c53_connections (conns : List (Nat × St)) (k : Bytes) :
    (∀ c, mapGet (getConnections conns) k = some c → ∃ s, (c, s) ∈ conns ∧ s.id = k) ∧
    ((mapGet (getConnections conns) k).isSome = true ↔ ∃ c s, (c, s) ∈ conns ∧ s.id = k) := by
  unfold getConnections
  rw [getConnections_spec]
  cases hl : (conns.filter (fun c => decide (c.2.id = k))).getLast? with
  | none =>
    rw [List.getLast?_eq_none_iff] at hl
    refine ⟨by simp [mapGet], ?_⟩
    simp only [mapGet, Option.isSome_none, Bool.false_eq_true, false_iff]
    rintro ⟨c, s, h1, h2⟩
    have : (c, s) ∈ conns.filter (fun c => decide (c.2.id = k)) := by simp [h1, h2]
    rw [hl] at this
    simp at this
  | some p =>
    have hm := List.mem_of_getLast? hl
    rw [List.mem_filter] at hm
    refine ⟨?_, ?_⟩
    · intro c hc
      simp only [Option.some.injEq] at hc
      subst hc
      exact ⟨p.2, hm.1, by simpa using hm.2⟩
    · simp only [Option.isSome_some, true_iff]
      exact ⟨p.1, p.2, hm.1, by simpa using hm.2⟩

theorem getByNamespace_spec (conns : List (Nat × St)) (ns : Bytes) :
    getConnectionsByNamespace conns ns =
      (conns.filterMap (fun c => (c.2.namespace ns).map (fun obj => (c.2.id, (c.1, obj))))).foldl
        (fun m e => mapSet m e.1 e.2) [] := by
  unfold getConnectionsByNamespace
  generalize ([] : List (Bytes × (Nat × Nat))) = m0
  induction conns generalizing m0 with
  | nil => rfl
  | cons c conns ih =>
    rw [List.foldl_cons, ih]
    cases h : c.2.namespace ns with
    | none => simp [h]
    | some obj => simp [h]

theorem foldSet_spec {α : Type} (l : List (Bytes × α)) (m0 : List (Bytes × α)) (k : Bytes) :
    mapGet (l.foldl (fun m e => mapSet m e.1 e.2) m0) k =
      match (l.filter (fun e => e.1 = k)).getLast? with
      | some e => some e.2
      | none => mapGet m0 k := by
  induction l generalizing m0 with
  | nil => rfl
  | cons c l ih =>
    rw [List.foldl_cons, ih, mapGet_mapSet]
    by_cases h : c.1 = k
    · rw [List.filter_cons_of_pos (by simpa using h), List.getLast?_cons, if_pos h.symm]
      cases (l.filter (fun e => decide (e.1 = k))).getLast? <;> rfl
    · rw [List.filter_cons_of_neg (by simpa using h), if_neg (Ne.symm h)]

/-- C53: GetConnectionsByNamespace holds only registered connections that are connected to the
namespace, each under its own ID with its NSConn of that namespace, and has an entry for the ID
of every such connection. -/
theorem c53_by_namespace (conns : List (Nat × St)) (ns k : Bytes) :
    (∀ c obj, mapGet (getConnectionsByNamespace conns ns) k = some (c, obj) →
      ∃ s, (c, s) ∈ conns ∧ s.id = k ∧ s.namespace ns = some obj) ∧
    ((mapGet (getConnectionsByNamespace conns ns) k).isSome = true ↔
      ∃ c s, (c, s) ∈ conns ∧ s.id = k ∧ (s.namespace ns).isSome = true) := by
  rw [getByNamespace_spec, foldSet_spec]
  have hmem : ∀ e : Bytes × (Nat × Nat), e ∈ (conns.filterMap (fun c =>
      (c.2.namespace ns).map (fun obj => (c.2.id, (c.1, obj))))).filter (fun e => decide (e.1 = k)) ↔
      ∃ s, (e.2.1, s) ∈ conns ∧ s.id = k ∧ s.namespace ns = some e.2.2 ∧ e.1 = k := by
    intro e
    rw [List.mem_filter, List.mem_filterMap]
    constructor
    · rintro ⟨⟨c, h1, h2⟩, h3⟩
      rw [Option.map_eq_some_iff] at h2
      obtain ⟨obj, h4, h5⟩ := h2
      subst h5
      have h3 : c.2.id = k := by simpa using h3
      exact ⟨c.2, h1, h3, h4, h3⟩
    · rintro ⟨s, h1, h2, h3, h4⟩
      refine ⟨⟨(e.2.1, s), h1, ?_⟩, by simpa using h4⟩
      rw [Option.map_eq_some_iff]
      refine ⟨e.2.2, h3, ?_⟩
      show (s.id, (e.2.1, e.2.2)) = e
      rw [h2, ← h4]
  cases hl : ((conns.filterMap (fun c =>
      (c.2.namespace ns).map (fun obj => (c.2.id, (c.1, obj))))).filter
        (fun e => decide (e.1 = k))).getLast? with
  | none =>
    rw [List.getLast?_eq_none_iff] at hl
    refine ⟨by simp [mapGet], ?_⟩
    simp only [mapGet, Option.isSome_none, Bool.false_eq_true, false_iff]
    rintro ⟨c, s, h1, h2, h3⟩
    obtain ⟨obj, h3⟩ := Option.isSome_iff_exists.mp h3
    have := (hmem (k, (c, obj))).mpr ⟨s, h1, h2, h3, rfl⟩
    rw [hl] at this
    simp at this
  | some e =>
    obtain ⟨s, h1, h2, h3, _⟩ := (hmem e).mp (List.mem_of_getLast? hl)
    refine ⟨?_, ?_⟩
    · intro c obj hc
      simp only [Option.some.injEq] at hc
      rw [hc] at h1 h3
      exact ⟨s, h1, h2, h3⟩
    · simp only [Option.isSome_some, true_iff]
      exact ⟨e.2.1, s, h1, h2, by rw [h3]; rfl⟩

/-! ## Examples -/

/-- a connected server-side connection that is a recipient -/
example : let cfg := serverCfg chatDecl noCb
    let s := after cfg (b! "a") chatSrvOps
    let m : Message := { ns := b! "chat", event := b! "e", body := b! "x", to := b! "a" }
    Reach cfg (b! "a") s ∧ s.id ≠ [] ∧ Ordinary m ∧ Recipient cfg s (.stringer (b! "b")) m ∧
      ¬ Recipient cfg s (.conn (b! "neffos(0x1)")) m := by
  refine ⟨after_reach (by decide +kernel), by decide +kernel, ⟨by decide, by decide, by decide, by decide, rfl, rfl⟩,
    ⟨by decide +kernel, fun h => absurd (show _ = b! "b" from h) (by decide +kernel), Or.inr (by decide +kernel), 0, by decide +kernel, Or.inl rfl⟩, ?_⟩
  exact fun h => h.2.1 rfl

example : let cfg := serverCfg chatDecl noCb
    let s := after cfg (b! "a") chatSrvOps
    mapGet (getConnections [(3, s), (4, after cfg (b! "b") chatSrvOps)]) (b! "a") = some 3 ∧
    mapGet (getConnectionsByNamespace [(3, s), (4, after cfg (b! "b") [])] (b! "chat")) (b! "b") = none := by
  decide +kernel

end Neffos
