import Verif.Props.PubSub
import Verif.Props.ExchangeAsk
set_option autoImplicit false
/-!
# C50, C75: what `Publish` and `Ask` of the exchanges give to the broker
-/
namespace Neffos

namespace Publish

theorem all (channel : Message → Option Bytes) (fails : Nat → Bool) : ∀ (ms : List Message) (n : Nat),
    (psPublish channel fails n ms = none ↔ ∃ (i : Nat) (m : Message), ms[i]? = some m ∧ channel m = none ∧
      ∀ j, j < i → fails (n + j) = false) ∧
    ∀ l ok, psPublish channel fails n ms = some (l, ok) →
      (∃ k, l = (ms.take k).filterMap (fun m => (channel m).map (fun ch => (ch, m))) ∧ k ≤ ms.length ∧
        l.length = k ∧ (∀ j, j < k → fails (n + j) = false) ∧
        (ok = true → k = ms.length) ∧ (ok = false → k < ms.length ∧ fails (n + k) = true))
  | [], n => by
    refine ⟨by simp [psPublish], fun l ok h => ?_⟩
    simp only [psPublish, Option.some.injEq, Prod.mk.injEq] at h
    obtain ⟨rfl, rfl⟩ := h
    exact ⟨0, by simp⟩
  | m :: ms, n => by
    obtain ⟨i1, i2⟩ := all channel fails ms (n + 1)
    have sh : ∀ j, n + 1 + j = n + (j + 1) := fun j => by omega
    cases hc : channel m with
    | none =>
      simp only [psPublish, hc, true_iff]
      exact ⟨⟨0, m, rfl, hc, by simp⟩, by simp⟩
    | some ch =>
      cases hf : fails n with
      | true =>
        simp only [psPublish, hc, hf, if_true]
        refine ⟨⟨by simp, ?_⟩, ?_⟩
        · rintro ⟨i, m', h1, h2, h3⟩
          cases i with
          | zero => simp only [List.getElem?_cons_zero, Option.some.injEq] at h1; subst h1; simp [hc] at h2
          | succ i => have := h3 0 (by omega); simp [hf] at this
        · intro l ok h
          simp only [Option.some.injEq, Prod.mk.injEq] at h
          obtain ⟨rfl, rfl⟩ := h
          exact ⟨0, by simp [hf]⟩
      | false =>
        simp only [psPublish, hc, hf, Bool.false_eq_true, if_false, Option.map_eq_none_iff]
        refine ⟨?_, ?_⟩
        · rw [i1]
          constructor
          · rintro ⟨i, m', h1, h2, h3⟩
            refine ⟨i + 1, m', by simpa using h1, h2, fun j hj => ?_⟩
            cases j with
            | zero => simpa using hf
            | succ j => rw [← sh]; exact h3 j (by omega)
          · rintro ⟨i, m', h1, h2, h3⟩
            cases i with
            | zero => simp only [List.getElem?_cons_zero, Option.some.injEq] at h1; subst h1; simp [hc] at h2
            | succ i => exact ⟨i, m', by simpa using h1, h2, fun j hj => by rw [sh]; exact h3 _ (by omega)⟩
        · intro l ok h
          cases hr : psPublish channel fails (n + 1) ms with
          | none => simp [hr] at h
          | some r =>
            obtain ⟨l', ok'⟩ := r
            simp only [hr, Option.map_some, Option.some.injEq, Prod.mk.injEq] at h
            obtain ⟨rfl, rfl⟩ := h
            obtain ⟨k, k1, k2, k3, k4, k5, k6⟩ := i2 l' ok' hr
            refine ⟨k + 1, ?_, by simp; omega, by simp [k3], fun j hj => ?_, fun h => by simp [k5 h], fun h => ?_⟩
            · simp [hc, ← k1]
            · cases j with
              | zero => simpa using hf
              | succ j => rw [← sh]; exact k4 j (by omega)
            · obtain ⟨a, b⟩ := k6 h
              exact ⟨by simp; omega, by rw [← sh]; exact b⟩

end Publish

/-- C50: `Publish` of an exchange. It panics exactly when a message before the first one that the
broker does not take has no channel, or that one itself has none. Otherwise it publishes, in
order and each on its channel, the messages before the first that the broker does not take, and
reports success exactly when it takes all. -/
theorem c50_publish (channel : Message → Option Bytes) (fails : Nat → Bool) (ms : List Message) :
    (psPublish channel fails 0 ms = none ↔ ∃ (i : Nat) (m : Message), ms[i]? = some m ∧ channel m = none ∧
      ∀ j, j < i → fails j = false) ∧
    ∀ l ok, psPublish channel fails 0 ms = some (l, ok) →
      ∃ k, k ≤ ms.length ∧ l.map (·.2) = ms.take k ∧ (∀ p ∈ l, channel p.2 = some p.1) ∧
        (∀ j, j < k → fails j = false) ∧ (ok = true → k = ms.length) ∧
        (ok = false → k < ms.length ∧ fails k = true) := by
  obtain ⟨h1, h2⟩ := Publish.all channel fails ms 0
  refine ⟨by simpa using h1, fun l ok h => ?_⟩
  obtain ⟨k, k1, k2, k3, k4, k5, k6⟩ := h2 l ok h
  refine ⟨k, k2, ?_, ?_, by simpa using k4, k5, by simpa using k6⟩
  · have key : ∀ (xs : List Message),
        (xs.filterMap (fun m => (channel m).map (fun ch => (ch, m)))).length = xs.length →
        (xs.filterMap (fun m => (channel m).map (fun ch => (ch, m)))).map (·.2) = xs := by
      intro xs
      induction xs with
      | nil => simp
      | cons x xs ih =>
        intro hl
        cases hx : channel x with
        | none =>
          have := List.length_filterMap_le (fun m => (channel m).map (fun ch => (ch, m))) xs
          simp only [List.filterMap_cons, hx, Option.map_none, List.length_cons] at hl
          omega
        | some ch =>
          simp only [List.filterMap_cons, hx, Option.map_some, List.length_cons, List.map_cons] at hl ⊢
          rw [ih (by omega)]
    rw [k1]
    apply key
    rw [← k1, k3, List.length_take]
    omega
  · intro p hp
    rw [k1, List.mem_filterMap] at hp
    obtain ⟨m, _, hm⟩ := hp
    cases hc : channel m with
    | none => simp [hc] at hm
    | some ch => simp only [hc, Option.map_some, Option.some.injEq] at hm; subst hm; exact hc

/-- three messages of which the broker does not take the last; and one with a room but no
namespace -/
example : let ch := fun m : Message => redisChannel (b! "p") m.ns m.room m.to
    (psPublish ch (fun i => i == 2) 0
      [{ ns := b! "a" }, { ns := b! "a", to := b! "7" }, { ns := b! "b" }, { room := b! "r" }]).map
        (fun r => (r.1.map (·.1), r.2)) = some ([b! "p.a.", b! "p.7."], false) ∧
    (psPublish ch (fun _ => false) 0 [{ ns := b! "a" }, { room := b! "r" }]).isNone = true := by
  decide +kernel

/-- C75: the request of `Server.Ask` is the message with the token of a clock reading, of which the
exchange changes the first byte only: 33, the code of an exclamation mark, is added to it. A reading of
one digit gives no token. -/
theorem c75_request (msg : Message) (now : Int) :
    { exchangeRequest msg now with wait := msg.wait } = msg ∧
    (∀ d e t, decimalInt now = d :: e :: t → d < 95 → (exchangeRequest msg now).wait = (d + 33) :: e :: t) ∧
    ((decimalInt now).length ≤ 1 → (exchangeRequest msg now).wait = []) := by
  refine ⟨rfl, fun d e t h hd => ?_, fun h => ?_⟩
  · simp only [exchangeRequest, genWait, h, Bool.false_eq_true, if_false, genWaitStackExchange]
    have : d + waitComesFromStackExchange < 128 := by
      have h1 : d.toNat < 95 := hd
      show (d + 33).toNat < 128
      rw [UInt8.toNat_add]
      show (d.toNat + 33) % 256 < 128
      omega
    simp only [stringOfByte, if_pos this]
    rfl
  · simp only [exchangeRequest, genWait, Bool.false_eq_true, if_false]
    match hd : decimalInt now, h with
    | [], _ => rfl
    | [c], _ => rfl

example : (exchangeRequest { ns := b! "chat", body := b! "x" } 1700).wait = b! "R700" ∧
    decimalInt 1700 = 49 :: 55 :: b! "00" ∧ (exchangeRequest {} 7).wait = [] := by
  decide +kernel

end Neffos
