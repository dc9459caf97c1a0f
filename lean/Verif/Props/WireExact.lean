import Verif.Props.Wire
/-!
# C88: which messages cross the wire unchanged, and which become the same bytes
-/
set_option autoImplicit false
namespace Neffos
open Neffos.Spec

/-- The receiver sees what the sender sent. -/
def Arrives (known : List KnownErr) (m r : Message) : Prop :=
  r.isInvalid = false ∧ r.wait = m.wait ∧ r.fromExplicit = m.fromExplicit ∧ r.fromStackExchange = false ∧
  r.ns = m.ns ∧ r.room = m.room ∧ r.event = m.event ∧ r.isNoOp = m.isNoOp ∧
  match outcome m.body m.err with
  | .body x => r.body = x ∧ r.err = none ∧ r.isError = false
  | .error t => r.body = [] ∧ r.isError = true ∧ ∃ e, r.err = some e ∧ ResolvesTo known t e

/-- What the first field of the frame can carry: a plain token, or the identity of a server's connection. -/
def GoodHead (m : Message) : Prop :=
  (m.fromExplicit = [] ∧ PlainToken m.wait) ∨
  (m.fromExplicit ≠ [] ∧ (59 : UInt8) ∉ m.fromExplicit ∧ (b! "neffos(0x") <+: m.fromExplicit)

/-- an identity that was received has no separator -/
theorem received_identity (known : List KnownErr) (typ : MsgType) (b : Bytes) (an on : Bool) :
    (59 : UInt8) ∉ (deserializeMessage known typ b an on).fromExplicit := by
  have hraw : sepByte ∉ (deserializeInput known b an on).wait := by
    unfold deserializeInput
    split
    · simp
    · split
      · simp
      · split
        · rename_i w ns room ev e n body heq
          have hfree : sepByte ∉ w := by
            by_cases hc : 6 ≤ b.count sepByte
            · obtain ⟨fs, last, h1, h2, h3, _⟩ := splitN_many sepByte 6 b hc
              rw [show validMessageSepCount = 6 + 1 from rfl, h1] at heq
              have : fs = [w, ns, room, ev, e, n] :=
                (List.append_inj (t₂ := [body]) (s₂ := [w, ns, room, ev, e, n]) heq (by simp [h2])).1
              subst this
              exact h3 _ (by simp)
            · have := splitN_few sepByte 6 b (by omega)
              rw [show validMessageSepCount = 6 + 1 from rfl] at heq
              rw [heq] at this
              simp at this; omega
          dsimp only
          split
          · split <;> exact hfree
          · exact hfree
        · split <;> simp
  rw [deserializeMessage_of_input known typ b an on _ rfl]
  generalize (deserializeInput known b an on).wait = w at hraw
  show (59 : UInt8) ∉ (decodedHead w).2.2
  unfold decodedHead
  split
  · exact hraw
  · split
    · split <;> simp
    · simp

theorem decodedHead_iff (w : Bytes) (hs : (59 : UInt8) ∉ w) : decodedHead w = (w, false, []) ↔ PlainToken w := by
  refine ⟨fun h => ⟨hs, fun hp => ?_, fun c t e => ?_⟩, decodedHead_plain⟩
  · have : isServerConnID w = true := List.isPrefixOf_iff_prefix.mpr hp
    simp only [decodedHead, this, if_true, Prod.mk.injEq] at h
    rw [h.2.2] at hp
    revert hp; decide
  · cases t with
    | nil => rfl
    | cons d t =>
      exfalso
      subst e
      unfold decodedHead at h
      split at h
      · simp at h
      · simp [waitComesFromStackExchange] at h

/-- C88: a message that is not native arrives exactly if its first field can carry its token or identity, its names
survive escaping and its error, if it has one, has a text. -/
theorem c88_arrives (known : List KnownErr) (typ : MsgType) (an : Bool) (m : Message) (b : Bytes)
    (hn : ¬(m.isNative = true ∧ m.wait = [])) (hb : serializeMessage m = some b) :
    Arrives known m (deserializeMessage known typ b an false) ↔
      GoodHead m ∧ SafeName m.ns ∧ SafeName m.room ∧ SafeName m.event ∧ outcome m.body m.err ≠ .error [] := by
  have hsome : (serializeMessage m).isSome = true := by rw [hb]; rfl
  have hor := (serializeMessage_isSome_iff m).mp hsome
  have hxw : m.fromExplicit = [] ∨ m.wait = [] := by
    rcases hor with h | h | h
    · exact absurd h hn
    · exact .inl h
    · exact .inr h
  by_cases hh : (59 : UInt8) ∉ wireHead m
  · rw [decode_encode known typ m b an hn hh hb]
    have hgood : (decodedHead (wireHead m)).1 = m.wait ∧ (decodedHead (wireHead m)).2.2 = m.fromExplicit ∧
        (decodedHead (wireHead m)).2.1 = false ↔ GoodHead m := by
      by_cases hx : m.fromExplicit = []
      · have hw : wireHead m = m.wait := by simp [wireHead, hx]
        rw [hw] at hh ⊢
        have := decodedHead_iff m.wait hh
        simp only [GoodHead, hx, true_and, ne_eq, not_true, false_and, or_false]
        rw [← this]
        constructor
        · rintro ⟨h1, h2, h3⟩
          exact Prod.ext h1 (Prod.ext h3 h2)
        · intro h; rw [h]; exact ⟨rfl, rfl, rfl⟩
      · have hw : wireHead m = m.fromExplicit := by simp [wireHead, hx]
        have hwn := hxw.resolve_left hx
        rw [hw] at hh ⊢
        simp only [GoodHead, hx, false_and, ne_eq, not_false_eq_true, true_and, false_or, hwn]
        by_cases hid : isServerConnID m.fromExplicit = true
        · simp only [decodedHead, hid, if_true, true_and, true_iff]
          exact ⟨hh, List.isPrefixOf_iff_prefix.mp hid⟩
        · have hnp : ¬ (b! "neffos(0x") <+: m.fromExplicit := fun h => hid (List.isPrefixOf_iff_prefix.mpr h)
          simp only [hnp, and_false, iff_false]
          rintro ⟨_, h2, _⟩
          apply hx
          rw [← h2]
          unfold decodedHead
          rw [if_neg hid]
          split
          · split <;> rfl
          · rfl
    unfold Arrives
    simp only [true_and, unescape_escape_iff]
    rw [← hgood]
    constructor
    · rintro ⟨h1, h2, h3, h4, h5, h6, h7⟩
      refine ⟨⟨h1, h2, h3⟩, h4, h5, h6, fun e => ?_⟩
      rw [e] at h7
      simp [wireLast, e, decodedErr] at h7
    · rintro ⟨⟨h1, h2, h3⟩, h4, h5, h6, h7⟩
      refine ⟨h1, h2, h3, h4, h5, h6, ?_⟩
      cases e : outcome m.body m.err with
      | body x => simp [wireLast, e, decodedBody, decodedErr]
      | error t =>
        have ht : t ≠ [] := fun h => h7 (h ▸ e)
        have := resolveError_spec known t
        simp [wireLast, e, decodedBody, decodedErr, ht]
        exact this
  · have hh : (59 : UInt8) ∈ wireHead m := Classical.not_not.mp hh
    constructor
    · rintro ⟨_, h1, h2, _⟩
      exfalso
      by_cases hx : m.fromExplicit = []
      · have hw : wireHead m = m.wait := by simp [wireHead, hx]
        exact c55_received_token_no_separator known typ b an false (by rw [h1, ← hw]; exact hh)
      · have hw : wireHead m = m.fromExplicit := by simp [wireHead, hx]
        exact received_identity known typ b an false (by rw [h2, ← hw]; exact hh)
    · rintro ⟨h, _⟩
      exfalso
      rcases h with ⟨h1, h2⟩ | ⟨h1, h2, _⟩
      · exact h2.1 (by simpa [wireHead, h1] using hh)
      · exact h2 (by simpa [wireHead, h1] using hh)

/-- an event with a body, a broadcast with an identity, and two messages that do not arrive: an identity with a
separator, an error without a text -/
example :
    GoodHead { wait := b! "$5", ns := b! "chat;1", event := b! "e" } ∧ SafeName (b! "chat;1") ∧
    GoodHead { fromExplicit := genServerConnID (b! "u") (b! "a") (b! "0xc0") } ∧
    ¬GoodHead { fromExplicit := genServerConnID (b! "u") (b! "a;b") (b! "0xc0") } ∧
    outcome (b! "x") (some (.text [])) = .error [] := by
  refine ⟨.inl ⟨rfl, ?_⟩, ?_, .inr ⟨by decide, by decide, by decide⟩, ?_, rfl⟩
  · refine ⟨by decide, by decide, fun c t e => ?_⟩
    simp at e
  · rw [← unescape_escape_iff]; decide +kernel
  · rintro (⟨h, _⟩ | ⟨_, h, _⟩) <;> revert h <;> decide

/-- C88: a native message arrives exactly if it is not empty and the receiver takes it for native. -/
theorem c88_native (known : List KnownErr) (typ : MsgType) (an on : Bool) (m : Message) (b : Bytes)
    (hn : m.isNative = true) (hw : m.wait = []) (hb : serializeMessage m = some b) :
    let r := deserializeMessage known typ b an on
    (r.event = OnNativeMessage ∧ r.body = m.body ∧ r.isInvalid = false) ↔
      m.body ≠ [] ∧ (on = true ∨ (an = true ∧ semicolons m.body < 6)) := by
  have hb' : b = m.body := by
    have : serializeMessage m = some m.body := by simp [serializeMessage, hn, hw]
    rw [this] at hb; cases hb; rfl
  subst hb'
  have h := c04_classification known typ m.body an on
  dsimp only at h ⊢
  obtain ⟨h1, h2, h3, _⟩ := h
  constructor
  · rintro ⟨e1, e2, e3⟩
    have hne : m.body ≠ [] := by
      intro e
      have := h1.mpr (.inl e)
      rw [e3] at this; cases this
    exact h2.mp ⟨e1, e2, hne⟩
  · rintro ⟨hne, ho⟩
    rw [h3 hne ho]
    exact ⟨rfl, rfl, rfl⟩

/-- two names that are the same once escaped -/
def SameEscaped (s t : Bytes) : Prop :=
  ∃ e, Replaced (b! ";") (b! "@%!semicolon@%!") s e ∧ Replaced (b! ";") (b! "@%!semicolon@%!") t e

theorem sameEscaped_iff (s t : Bytes) : SameEscaped s t ↔ escape s = escape t := by
  constructor
  · rintro ⟨e, h1, h2⟩
    rw [← (c02_conversions_are_replacements s e).1.mpr h1, ← (c02_conversions_are_replacements t e).1.mpr h2]
  · intro h
    exact ⟨escape s, (c02_conversions_are_replacements s _).1.mp rfl, (c02_conversions_are_replacements t _).1.mp h⟩

theorem frame_inj {w w' n n' r r' e e' x x' y y' z z' : Bytes}
    (h1 : sepByte ∉ w) (h2 : sepByte ∉ n) (h3 : sepByte ∉ r) (h4 : sepByte ∉ e) (h5 : sepByte ∉ x) (h6 : sepByte ∉ y)
    (g1 : sepByte ∉ w') (g2 : sepByte ∉ n') (g3 : sepByte ∉ r') (g4 : sepByte ∉ e') (g5 : sepByte ∉ x')
    (g6 : sepByte ∉ y')
    (h : joinBytes sepByte [w, n, r, e, x, y, z] = joinBytes sepByte [w', n', r', e', x', y', z']) :
    w = w' ∧ n = n' ∧ r = r' ∧ e = e' ∧ x = x' ∧ y = y' ∧ z = z' := by
  have cut : ∀ {a a' l l' : Bytes}, sepByte ∉ a → sepByte ∉ a' → a ++ sepByte :: l = a' ++ sepByte :: l' → a = a' ∧ l = l' := by
    intro a
    induction a with
    | nil =>
      intro a' l l' _ h2 h
      cases a' with
      | nil => simpa using h
      | cons c a' =>
        simp only [List.nil_append, List.cons_append, List.cons.injEq] at h
        exact absurd (by rw [h.1]; simp) h2
    | cons c a ih =>
      intro a' l l' h1 h2 h
      cases a' with
      | nil =>
        simp only [List.nil_append, List.cons_append, List.cons.injEq] at h
        exact absurd (by rw [h.1]; simp) h1
      | cons c' a' =>
        simp only [List.cons_append, List.cons.injEq] at h
        obtain ⟨rfl, h⟩ := h
        obtain ⟨rfl, hl⟩ := ih (fun h => h1 (List.mem_cons_of_mem _ h)) (fun h => h2 (List.mem_cons_of_mem _ h)) h
        exact ⟨rfl, hl⟩
  simp only [joinBytes] at h
  obtain ⟨e1, k1⟩ := cut h1 g1 h
  obtain ⟨e2, k2⟩ := cut h2 g2 k1
  obtain ⟨e3, k3⟩ := cut h3 g3 k2
  obtain ⟨e4, k4⟩ := cut h4 g4 k3
  obtain ⟨e5, k5⟩ := cut h5 g5 k4
  obtain ⟨e6, k6⟩ := cut h6 g6 k5
  exact ⟨e1, e2, e3, e4, e5, e6, k6⟩

/-- C88: two messages that are not native become the same bytes exactly if they differ in nothing that matters: same
first field, names that are the same once escaped, same flag, and same outcome. -/
theorem c88_same_bytes (m m' : Message) (b b' : Bytes) (hn : ¬(m.isNative = true ∧ m.wait = []))
    (hn' : ¬(m'.isNative = true ∧ m'.wait = [])) (hb : serializeMessage m = some b) (hb' : serializeMessage m' = some b')
    (hh : (59 : UInt8) ∉ m.wait ∧ (59 : UInt8) ∉ m.fromExplicit)
    (hh' : (59 : UInt8) ∉ m'.wait ∧ (59 : UInt8) ∉ m'.fromExplicit) :
    b = b' ↔ m.fromExplicit ++ m.wait = m'.fromExplicit ++ m'.wait ∧ SameEscaped m.ns m'.ns ∧
      SameEscaped m.room m'.room ∧ SameEscaped m.event m'.event ∧ m.isNoOp = m'.isNoOp ∧
      outcome m.body m.err = outcome m'.body m'.err := by
  have head : ∀ {m : Message} {b : Bytes}, ¬(m.isNative = true ∧ m.wait = []) → serializeMessage m = some b →
      wireHead m = m.fromExplicit ++ m.wait := by
    intro m b hn hb
    have hsome : (serializeMessage m).isSome = true := by rw [hb]; rfl
    rcases (serializeMessage_isSome_iff m).mp hsome with h | h | h
    · exact absurd h hn
    · simp [wireHead, h]
    · by_cases hx : m.fromExplicit = [] <;> simp [wireHead, hx, h]
  have e1 := head hn hb
  have e2 := head hn' hb'
  have hs1 : sepByte ∉ wireHead m := by rw [e1]; simpa [sepByte] using ⟨hh.2, hh.1⟩
  have hs2 : sepByte ∉ wireHead m' := by rw [e2]; simpa [sepByte] using ⟨hh'.2, hh'.1⟩
  rw [serializeMessage_frame m b hn hb, serializeMessage_frame m' b' hn' hb', serializeOutput_eq, serializeOutput_eq]
  simp only [sameEscaped_iff, ← e1, ← e2]
  have last : wireLast m.body m.err = wireLast m'.body m'.err ↔ outcome m.body m.err = outcome m'.body m'.err := by
    unfold wireLast
    cases outcome m.body m.err <;> cases outcome m'.body m'.err <;> simp
  rw [← last]
  have bb : ∀ x y : Bool, boolByte x = boolByte y → x = y := by decide
  constructor
  · intro h
    obtain ⟨h1, h2, h3, h4, h5, h6, h7⟩ := frame_inj hs1 (sep_not_mem_escape _) (sep_not_mem_escape _)
      (sep_not_mem_escape _) (boolByte_sep _) (boolByte_sep _) hs2 (sep_not_mem_escape _) (sep_not_mem_escape _)
      (sep_not_mem_escape _) (boolByte_sep _) (boolByte_sep _) h
    exact ⟨h1, h2, h3, h4, bb _ _ h6, Prod.ext h7 (bb _ _ h5)⟩
  · rintro ⟨h1, h2, h3, h4, h5, h6⟩
    rw [h1, h2, h3, h4, h5, h6]

/-- two rooms that cannot be told apart, and two bodies that can -/
example : SameEscaped (b! "@%!semicolon;") (b! ";semicolon@%!") ∧ ¬SameEscaped (b! "a") (b! "b") := by
  simp only [sameEscaped_iff]
  decide +kernel

end Neffos
