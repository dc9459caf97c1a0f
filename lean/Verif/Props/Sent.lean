import Verif.Spec.Sent
import Verif.Props.Register
/-!
# C126: what a receiver makes of a marshaled value
-/
set_option autoImplicit false
namespace Neffos
open Neffos.Spec

/-- C126: a body is the result of `Marshal` exactly if it stands for what the value is marshaled to. -/
theorem c126_body (v : Marshalable) (b : Bytes) :
    marshal (some v) = some b ↔ ∃ r, Marshals v r ∧ Stands r b := by
  obtain ⟨own, dflt⟩ := v
  constructor
  · intro h
    cases own with
    | none =>
      refine ⟨dflt, .default rfl, ?_⟩
      cases dflt <;> (simp only [marshal, Option.some.injEq] at h; subst h; constructor)
    | some r =>
      refine ⟨r, .own rfl, ?_⟩
      cases r <;> (simp only [marshal, Option.some.injEq] at h; subst h; constructor)
  · rintro ⟨r, h, hs⟩
    cases h with
    | own h => cases h; cases hs <;> rfl
    | default h => cases h; cases hs <;> simp_all [marshal]

/-- C126: `Unmarshal` gives a result exactly if the bytes are unmarshaled with it. -/
theorem c126_result {V : Type} (u : Unmarshalable V) (b : Bytes) (r : Except GoErr V) :
    unmarshal b (some u) = some r ↔ Unmarshals u b r := by
  obtain ⟨own, dflt⟩ := u
  constructor
  · intro h
    cases own with
    | none => simp only [unmarshal, Option.some.injEq] at h; subst h; exact .default rfl
    | some f => simp only [unmarshal, Option.some.injEq] at h; subst h; exact .own rfl
  · intro h
    cases h with
    | own h => cases h; rfl
    | default h => cases h; rfl

/-- C126: end to end, for every value, every pair of marshalers and every pointer. The message that carries the value arrives without
error, and the receiver's Unmarshal gives exactly what its unmarshaler makes of the body that stands for the value. -/
theorem c126_receives (known : List KnownErr) (typ : MsgType) (an : Bool) (m : Message) {V : Type} (v : Marshalable)
    (u : Unmarshalable V) (r : Except GoErr Bytes) (x : Except GoErr V)
    (hm : Marshals v r) (hb : marshal (some v) = some m.body)
    (hnat : m.isNative = false ∨ m.wait ≠ []) (hx : m.fromExplicit = []) (he : m.err = none)
    (hw : PlainToken m.wait) (h1 : SafeName m.ns) (h2 : SafeName m.room) (h3 : SafeName m.event) :
    ∃ w, serializeMessage m = some w ∧ (deserializeMessage known typ w an false).err = none ∧
      (deserializeMessage known typ w an false).isError = false ∧
      (unmarshal (deserializeMessage known typ w an false).body (some u) = some x ↔ ∃ b, Stands r b ∧ Unmarshals u b x) := by
  obtain ⟨w, hw1, hw2⟩ := c01_round_trip known typ an m hnat hx he hw h1 h2 h3
  have hr : ∀ r', Marshals v r' → r' = r := by
    intro r' h
    cases hm with
    | own a => cases h with
      | own b => rw [a] at b; cases b; rfl
      | default b => rw [a] at b; cases b
    | default a => cases h with
      | own b => rw [a] at b; cases b
      | default b => rfl
  have hbody : Stands r m.body := by
    obtain ⟨r', h, hs⟩ := (c126_body v m.body).mp hb
    rw [← hr r' h]; exact hs
  refine ⟨w, hw1, by rw [hw2], by rw [hw2], ?_⟩
  rw [hw2]
  simp only [c126_result]
  constructor
  · exact fun h => ⟨_, hbody, h⟩
  · rintro ⟨b, hs, hu⟩
    have one : ∀ {r : Except GoErr Bytes} {b b' : Bytes}, Stands r b → Stands r b' → b = b' := by
      intro r b b' h h'
      cases h <;> (cases h'; rfl)
    have : b = m.body := one hs hbody
    rw [← this]; exact hu

/-- C126: a failure on the sender's side is told from a value exactly by its text: two values give the same body exactly if what they are
marshaled to stands as the same bytes. -/
theorem c126_same (v v' : Marshalable) :
    marshal (some v) = marshal (some v') ↔ ∃ r r' b, Marshals v r ∧ Marshals v' r' ∧ Stands r b ∧ Stands r' b := by
  constructor
  · intro h
    have hs : ∃ b, marshal (some v) = some b := by
      obtain ⟨own, d⟩ := v
      cases own with
      | none => cases d <;> exact ⟨_, rfl⟩
      | some r => cases r <;> exact ⟨_, rfl⟩
    obtain ⟨b, hb⟩ := hs
    obtain ⟨r, h1, h2⟩ := (c126_body v b).mp hb
    obtain ⟨r', h3, h4⟩ := (c126_body v' b).mp (h ▸ hb)
    exact ⟨r, r', b, h1, h3, h2, h4⟩
  · rintro ⟨r, r', b, h1, h3, h2, h4⟩
    rw [(c126_body v b).mpr ⟨r, h1, h2⟩, (c126_body v' b).mpr ⟨r', h3, h4⟩]

/-- a value that fails to be marshaled with the text `7`, read by an unmarshaler of one digit: the receiver gets 7 -/
example : marshal (some ⟨some (.error (.text (b! "7"))), .ok (b! "1")⟩) = marshal (some ⟨none, .ok (b! "7")⟩) ∧
    Marshals ⟨some (.error (.text (b! "7"))), .ok (b! "1")⟩ (.error (.text (b! "7"))) ∧
    Stands (.error (.text (b! "7"))) (b! "7") ∧
    Unmarshals (⟨none, fun b => if b = b! "7" then .ok 7 else .error (.text (b! "no digit"))⟩ : Unmarshalable Nat) (b! "7") (.ok 7) :=
  ⟨rfl, .own rfl, .text (.text (b! "7")), .default rfl⟩

/-- the hypotheses of `c126_receives` hold of an event with that value -/
example : let m : Message := { ns := b! "a;b", event := b! "ev", body := b! "7" }
    marshal (some ⟨some (.error (.text (b! "7"))), .ok (b! "1")⟩) = some m.body ∧ m.isNative = false ∧ PlainToken m.wait ∧
    SafeName m.ns ∧ SafeName m.room ∧ SafeName m.event ∧ serializeMessage m = some (b! ";a@%!semicolon@%!b;;ev;0;0;7") :=
  ⟨rfl, rfl, ⟨by simp, by intro h; simp at h, by intro c t h; simp at h⟩, (unescape_escape_iff (b! "a;b")).mp (by decide +kernel),
    (unescape_escape_iff []).mp (by decide +kernel), (unescape_escape_iff (b! "ev")).mp (by decide +kernel), by decide +kernel⟩

end Neffos
