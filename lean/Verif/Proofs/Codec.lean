import Verif.Proofs.Bytes
/-! Helper lemmas: what the deserializer makes of what the serializer wrote. -/
namespace Neffos
open Spec

/-- body and error of a decoded frame, from the error flag and the last field -/
def decodedErr (known : List KnownErr) (isErr : Bool) (last : Bytes) : Option GoErr :=
  if last = [] then none else if isErr then some (resolveError known last) else none

def decodedBody (isErr : Bool) (last : Bytes) : Bytes := if isErr then [] else last

theorem deserializeInput_frame (known : List KnownErr) (hd ns room ev eb nb last : Bytes)
    (an : Bool) (h1 : sepByte ∉ hd) (h2 : sepByte ∉ ns) (h3 : sepByte ∉ room)
    (h4 : sepByte ∉ ev) (h5 : sepByte ∉ eb) (h6 : sepByte ∉ nb) :
    deserializeInput known (joinBytes sepByte [hd, ns, room, ev, eb, nb, last]) an false =
      { wait := hd, ns := ns, room := room, event := ev, isNoOp := nb = b! "1",
        body := decodedBody (eb = b! "1") last,
        err := decodedErr known (eb = b! "1") last } := by
  have hs := splitN_join sepByte [hd, ns, room, ev, eb, nb] last (by
    intro f hf; simp at hf; rcases hf with rfl | rfl | rfl | rfl | rfl | rfl <;> assumption)
  have hne : (joinBytes sepByte [hd, ns, room, ev, eb, nb, last]).length ≠ 0 := by
    simp [joinBytes]
  unfold deserializeInput
  rw [if_neg hne]
  simp only [Bool.false_eq_true, if_false]
  simp only [List.length_cons, List.length_nil, List.cons_append, List.nil_append] at hs
  rw [show validMessageSepCount = 0 + 1 + 1 + 1 + 1 + 1 + 1 + 1 from rfl, hs]
  cases last with
  | nil => simp [decodedBody, decodedErr]
  | cons c t =>
    by_cases he : eb = b! "1"
    · simp [decodedBody, decodedErr, he]
    · simp [decodedBody, decodedErr, he]

theorem boolByte_sep (b : Bool) : sepByte ∉ boolByte b := by cases b <;> decide
theorem boolByte_one (b : Bool) : (decide (boolByte b = b! "1")) = b := by cases b <;> decide

/-- the first field of the frame -/
def wireHead (m : Message) : Bytes := if m.fromExplicit = [] then m.wait else m.fromExplicit

/-- last field and error flag written for a body and a result -/
def wireLast (body : Bytes) (err : Option GoErr) : Bytes × Bool :=
  match outcome body err with
  | .body b => (b, false)
  | .error t => (t, true)

theorem serializeOutput_eq (w ns room ev body : Bytes) (err : Option GoErr) (n : Bool) :
    serializeOutput w ns room ev body err n =
      joinBytes sepByte [w, ns, room, ev, boolByte (wireLast body err).2, boolByte n,
        (wireLast body err).1] := by
  cases err with
  | none => rfl
  | some e => cases e <;> rfl

theorem serializeMessage_frame (m : Message) (b : Bytes) (hn : ¬ (m.isNative = true ∧ m.wait = []))
    (h : serializeMessage m = some b) :
    b = serializeOutput (wireHead m) (escape m.ns) (escape m.room) (escape m.event)
      m.body m.err m.isNoOp := by
  unfold serializeMessage at h
  rw [if_neg hn] at h
  unfold wireHead
  by_cases hf : m.fromExplicit = []
  · simp [hf] at h ⊢; exact h.symm
  · simp only [hf, not_false_eq_true, ne_eq, if_true, if_false] at h ⊢
    by_cases hw : m.wait = []
    · simp [hw] at h; exact h.symm
    · simp [hw] at h

theorem serializeMessage_isSome_iff (m : Message) :
    (serializeMessage m).isSome ↔ (m.isNative = true ∧ m.wait = []) ∨ m.fromExplicit = [] ∨ m.wait = [] := by
  unfold serializeMessage
  by_cases h1 : m.isNative = true ∧ m.wait = []
  · simp [h1]
  · rw [if_neg h1]
    by_cases h2 : m.fromExplicit = []
    · simp [h2]
    · by_cases h3 : m.wait = []
      · simp [h2, h3]
      · simp [h2, h3]

/-- what `DeserializeMessage` does with the first field: token, mark, identity -/
def decodedHead (hd : Bytes) : Bytes × Bool × Bytes :=
  if isServerConnID hd then ([], false, hd)
  else match hd with
    | c :: d :: e :: t =>
      if d = waitComesFromStackExchange then (stringOfByte c ++ e :: t, true, [])
      else (hd, false, [])
    | w => (w, false, [])

theorem deserializeMessage_of_input (known : List KnownErr) (typ : MsgType) (b : Bytes)
    (an on : Bool) (r : RawInput) (h : deserializeInput known b an on = r) :
    deserializeMessage known typ b an on =
      { wait := (decodedHead r.wait).1, fromStackExchange := (decodedHead r.wait).2.1,
        fromExplicit := (decodedHead r.wait).2.2,
        ns := unescape r.ns, room := unescape r.room, event := unescape r.event,
        body := r.body, err := r.err, isError := r.err.isSome, isNoOp := r.isNoOp,
        isInvalid := r.isInvalid, isNative := an && r.event = OnNativeMessage,
        setBinary := typ = .binary } := by
  unfold deserializeMessage
  rw [h]
  unfold decodedHead
  by_cases hs : isServerConnID r.wait = true
  · simp [hs]
  · simp only [hs, if_false, Bool.false_eq_true]
    rcases r.wait with _ | ⟨c, _ | ⟨d, _ | ⟨e, t⟩⟩⟩ <;> simp
    by_cases hd : d = waitComesFromStackExchange <;> simp [hd]

/-- The exact effect of sending a message that is not native. -/
theorem decode_encode (known : List KnownErr) (typ : MsgType) (m : Message) (b : Bytes)
    (an : Bool) (hn : ¬ (m.isNative = true ∧ m.wait = [])) (hh : sepByte ∉ wireHead m)
    (h : serializeMessage m = some b) :
    deserializeMessage known typ b an false =
      { wait := (decodedHead (wireHead m)).1
        fromStackExchange := (decodedHead (wireHead m)).2.1
        fromExplicit := (decodedHead (wireHead m)).2.2
        ns := unescape (escape m.ns), room := unescape (escape m.room)
        event := unescape (escape m.event)
        body := decodedBody (wireLast m.body m.err).2 (wireLast m.body m.err).1
        err := decodedErr known (wireLast m.body m.err).2 (wireLast m.body m.err).1
        isError := (decodedErr known (wireLast m.body m.err).2 (wireLast m.body m.err).1).isSome
        isNoOp := m.isNoOp
        isNative := an && escape m.event = OnNativeMessage
        setBinary := typ = .binary } := by
  rw [serializeMessage_frame m b hn h, serializeOutput_eq]
  rw [deserializeMessage_of_input _ _ _ _ _ _ (deserializeInput_frame known _ _ _ _ _ _ _ an hh
    (sep_not_mem_escape _) (sep_not_mem_escape _) (sep_not_mem_escape _) (boolByte_sep _)
    (boolByte_sep _))]
  simp only [boolByte_one]

theorem decodedHead_plain {w : Bytes} (h : PlainToken w) : decodedHead w = (w, false, []) := by
  obtain ⟨_, h2, h3⟩ := h
  have hs : isServerConnID w = false := by
    cases hc : isServerConnID w with
    | false => rfl
    | true => exact absurd (List.isPrefixOf_iff_prefix.mp hc) h2
  unfold decodedHead
  rw [hs]
  simp only [Bool.false_eq_true, if_false]
  rcases w with _ | ⟨c, _ | ⟨d, _ | ⟨e, t⟩⟩⟩ <;> simp
  intro hd
  have := h3 c (e :: t) (by rw [hd]; rfl)
  simp at this

theorem plainToken_nil : PlainToken [] :=
  ⟨by simp, by simp, by intro c t h; simp at h⟩

theorem escape_eq_native_iff (e : Bytes) (h : SafeName e) :
    escape e = OnNativeMessage ↔ e = OnNativeMessage := by
  constructor
  · intro he
    have := (unescape_escape_iff e).mpr h
    rw [he] at this
    rw [← this]; decide
  · rintro rfl; decide

theorem resolveError_spec (known : List KnownErr) (t : Bytes) :
    ResolvesTo known t (resolveError known t) := by
  have claims_iff : ∀ k : KnownErr, k.claims t = true ↔
      ((∃ r, k.resolver = some r ∧ r t = true) ∨ k.err.errorText = t) := by
    intro k
    unfold KnownErr.claims
    cases hr : k.resolver <;> simp
  have nclaims_iff : ∀ k : KnownErr, ¬ k.claims t = true ↔
      ((∀ r, k.resolver = some r → r t = false) ∧ k.err.errorText ≠ t) := by
    intro k
    unfold KnownErr.claims
    cases hr : k.resolver <;> simp
  induction known with
  | nil => right; simp [resolveError]
  | cons k ks ih =>
    unfold resolveError
    by_cases hk : k.claims t = true
    · rw [if_pos hk]
      left
      exact ⟨[], k, ks, rfl, rfl, (claims_iff k).mp hk, by simp⟩
    · rw [if_neg hk]
      have hk' := (nclaims_iff k).mp hk
      rcases ih with ⟨pre, k1, post, e, e1, hc, hp⟩ | ⟨hp, e⟩
      · left
        refine ⟨k :: pre, k1, post, by simp [e], e1, hc, ?_⟩
        intro k' hk1
        rcases List.mem_cons.mp hk1 with rfl | hk1
        · exact hk'
        · exact hp k' hk1
      · right
        refine ⟨?_, e⟩
        intro k' hk1
        rcases List.mem_cons.mp hk1 with rfl | hk1
        · exact hk'
        · exact hp k' hk1

theorem resolvesTo_unique (known : List KnownErr) (t : Bytes) (e : GoErr) :
    ResolvesTo known t e → e = resolveError known t := by
  have hclaim : ∀ k : KnownErr, ((∃ r, k.resolver = some r ∧ r t = true) ∨ k.err.errorText = t) →
      k.claims t = true := by
    intro k; unfold KnownErr.claims; cases hr : k.resolver <;> simp
  have hnclaim : ∀ k : KnownErr, ((∀ r, k.resolver = some r → r t = false) ∧ k.err.errorText ≠ t) →
      k.claims t = false := by
    intro k; unfold KnownErr.claims; cases hr : k.resolver <;> simp
  rintro (⟨pre, k, post, rfl, rfl, hc, hp⟩ | ⟨hp, rfl⟩)
  · induction pre with
    | nil => simp [resolveError, hclaim k hc]
    | cons a pre ih =>
      have := hnclaim a (hp a (by simp))
      simp only [List.cons_append, resolveError, this, Bool.false_eq_true, if_false]
      exact ih (fun k' hk' => hp k' (by simp [hk']))
  · induction known with
    | nil => rfl
    | cons a known ih =>
      have := hnclaim a (hp a (by simp))
      simp only [resolveError, this, Bool.false_eq_true, if_false]
      exact ih (fun k' hk' => hp k' (by simp [hk']))

/-! ### Tokens -/

theorem decimalNat_digit (n : Nat) : ∀ c ∈ decimalNat n, 48 ≤ c ∧ c ≤ 57 := by
  induction n using Nat.strongRecOn with
  | _ n ih =>
    have key : ∀ k : Nat, k < 10 → (48 : UInt8) ≤ 48 + k.toUInt8 ∧ 48 + k.toUInt8 ≤ 57 := by
      decide
    rw [decimalNat]
    by_cases h : n < 10
    · rw [if_pos h]; intro c hc
      simp at hc
      subst hc; exact key n h
    · rw [if_neg h]
      intro c hc
      rcases List.mem_append.mp hc with hc | hc
      · exact ih (n / 10) (by omega) c hc
      · simp at hc; subst hc; exact key _ (Nat.mod_lt _ (by omega))

theorem decimalNat_ne_nil (n : Nat) : decimalNat n ≠ [] := by
  rw [decimalNat]; split <;> simp

theorem decimalInt_byte (n : Int) : ∀ c ∈ decimalInt n, c = 45 ∨ (48 ≤ c ∧ c ≤ 57) := by
  intro c hc
  unfold decimalInt at hc
  cases n with
  | ofNat k => exact Or.inr (decimalNat_digit k c hc)
  | negSucc k =>
    rcases List.mem_cons.mp hc with h | h
    · exact Or.inl h
    · exact Or.inr (decimalNat_digit _ c h)

theorem decimalInt_ne_nil (n : Int) : decimalInt n ≠ [] := by
  unfold decimalInt
  cases n with
  | ofNat k => exact decimalNat_ne_nil k
  | negSucc k => simp

theorem genWait_byte (cl : Bool) (n : Int) :
    ∀ c ∈ genWait cl n, c = 36 ∨ c = 45 ∨ (48 ≤ c ∧ c ≤ 57) := by
  intro c hc
  unfold genWait at hc
  cases cl
  · exact Or.inr (decimalInt_byte n c hc)
  · rcases List.mem_cons.mp hc with h | h
    · exact Or.inl h
    · exact Or.inr (decimalInt_byte n c h)

theorem plainToken_of_bytes {w : Bytes}
    (h : ∀ c ∈ w, c ≠ 59 ∧ c ≠ 33 ∧ c ≠ 110) : PlainToken w := by
  refine ⟨fun hm => (h _ hm).1 rfl, ?_, ?_⟩
  · rintro ⟨t, rfl⟩
    exact (h 110 (by simp)).2.2 rfl
  · intro c t e
    exfalso
    exact (h 33 (by simp [e])).2.1 rfl

theorem plainToken_genWait (cl : Bool) (n : Int) : PlainToken (genWait cl n) := by
  apply plainToken_of_bytes
  intro c hc
  rcases genWait_byte cl n c hc with rfl | rfl | ⟨h1, h2⟩
  · decide
  · decide
  · refine ⟨?_, ?_, ?_⟩ <;> rintro rfl <;> revert h1 h2 <;> decide

/-- `FormatInt` is injective. -/
theorem decimalNat_inj : ∀ a b : Nat, decimalNat a = decimalNat b → a = b := by
  have key : ∀ x y : Nat, x < 10 → y < 10 → (48 : UInt8) + x.toUInt8 = 48 + y.toUInt8 → x = y := by
    intro x y hx hy
    revert hx hy
    have : ∀ x : Nat, x < 10 → ∀ y : Nat, y < 10 →
        (48 : UInt8) + x.toUInt8 = 48 + y.toUInt8 → x = y := by decide
    exact fun hx hy => this x hx y hy
  intro a
  induction a using Nat.strongRecOn with
  | _ a ih =>
    intro b h
    rw [decimalNat, decimalNat.eq_1 b] at h
    by_cases ha : a < 10 <;> by_cases hb : b < 10
    · simp only [ha, hb, if_true] at h
      exact key a b ha hb (by simpa using h)
    · simp only [ha, hb, if_true, if_false] at h
      have := congrArg List.length h
      have h1 : (decimalNat (b / 10)).length ≠ 0 := by
        simpa using decimalNat_ne_nil (b / 10)
      simp at this; simp at h1; exact absurd this h1
    · simp only [ha, hb, if_true, if_false] at h
      have := congrArg List.length h
      have h1 : (decimalNat (a / 10)).length ≠ 0 := by
        simpa using decimalNat_ne_nil (a / 10)
      simp at this; simp at h1; exact absurd this h1
    · simp only [ha, hb, if_false] at h
      have h2 := List.append_inj' h (by simp)
      have e1 := ih (a / 10) (by omega) (b / 10) h2.1
      have e2 := key _ _ (Nat.mod_lt a (by omega)) (Nat.mod_lt b (by omega))
        (by simpa using h2.2)
      omega

theorem decimalInt_inj (a b : Int) (h : decimalInt a = decimalInt b) : a = b := by
  have nodash : ∀ (n k : Nat), decimalNat n ≠ 45 :: decimalNat k := by
    intro n k e
    have := decimalNat_digit n 45 (by rw [e]; simp)
    revert this; decide
  cases a with
  | ofNat x => cases b with
    | ofNat y => rw [decimalNat_inj x y h]
    | negSucc y => exact absurd h (nodash _ _)
  | negSucc x => cases b with
    | ofNat y => exact absurd h.symm (nodash _ _)
    | negSucc y =>
      have := decimalNat_inj (x + 1) (y + 1) (by simpa [decimalInt] using h)
      have : x = y := by omega
      rw [this]

theorem genWait_inj (c₁ c₂ : Bool) (a b : Int) (h : genWait c₁ a = genWait c₂ b) :
    c₁ = c₂ ∧ a = b := by
  have nodollar : ∀ (n : Int) (t : Bytes), decimalInt n ≠ 36 :: t := by
    intro n t e
    have := decimalInt_byte n 36 (by rw [e]; simp)
    revert this; decide
  unfold genWait at h
  cases c₁ <;> cases c₂ <;> simp [waitComesFromClientPrefix] at h
  · exact ⟨rfl, decimalInt_inj a b h⟩
  · exact absurd h (nodollar _ _)
  · exact absurd h.symm (nodollar _ _)
  · exact ⟨rfl, decimalInt_inj a b h⟩

end Neffos
