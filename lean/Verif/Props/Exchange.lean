import Verif.Model.Exchange
/-!
# C49: combined StackExchanges
-/
set_option autoImplicit false
namespace Neffos

/-- the exchanges combined in one, in registration order -/
def Exch.leaves : Exch → List Nat
  | .base i => [i]
  | .wrap p c => p.leaves ++ c.leaves

/-- the exchanges a server uses -/
def exLeaves : Option Exch → List Nat
  | none => []
  | some x => x.leaves

/-- C49: after any calls of UseStackExchange the server uses exactly the non-nil exchanges
whose Init succeeded, in the order of the calls. -/
theorem c49_use (o : ExOracle) (s : Option Exch) (calls : List (Option Nat)) :
    exLeaves (calls.foldl (fun s c => (useStackExchange o s c).1) s) =
      exLeaves s ++ (calls.filterMap id).filter (fun i => (o.init i).isNone) := by
  induction calls generalizing s with
  | nil => simp
  | cons c calls ih =>
    rw [List.foldl_cons, ih]
    cases c with
    | none => simp [useStackExchange]
    | some i =>
      unfold useStackExchange
      cases hi : o.init i with
      | some e => simp [hi]
      | none => cases s <;> simp [hi, exLeaves, Exch.leaves]

/-- C49: UseStackExchange fails exactly with the error of Init, and changes nothing then. -/
theorem c49_use_error (o : ExOracle) (s : Option Exch) (c : Option Nat) (e : GoErr) :
    (useStackExchange o s c).2 = some e ↔ ∃ i, c = some i ∧ o.init i = some e := by
  cases c with
  | none => simp [useStackExchange]
  | some i =>
    unfold useStackExchange
    cases hi : o.init i with
    | some e' => simp [hi]
    | none => cases s <;> simp [hi]

theorem leaves_ne_nil (x : Exch) : x.leaves ≠ [] := by
  induction x with
  | base i => simp [Exch.leaves]
  | wrap p c ihp _ => simp [Exch.leaves, ihp]

/-- C49: every exchange gets OnDisconnect once, in registration order. -/
theorem c49_disconnect (x : Exch) (c : Nat) (l : ExLog) :
    x.onDisconnect c l = l ++ x.leaves.map (fun i => (i, .onDisconnect c)) := by
  induction x generalizing l with
  | base i => simp [Exch.onDisconnect, Exch.leaves]
  | wrap p q ihp ihq => simp [Exch.onDisconnect, Exch.leaves, ihp, ihq]

/-- C49: every exchange gets Subscribe once, in registration order. -/
theorem c49_subscribe (x : Exch) (c : Nat) (ns : Bytes) (l : ExLog) :
    x.subscribe c ns l = l ++ x.leaves.map (fun i => (i, .subscribe c ns)) := by
  induction x generalizing l with
  | base i => simp [Exch.subscribe, Exch.leaves]
  | wrap p q ihp ihq => simp [Exch.subscribe, Exch.leaves, ihp, ihq]

/-- C49: every exchange gets Unsubscribe once, in registration order. -/
theorem c49_unsubscribe (x : Exch) (c : Nat) (ns : Bytes) (l : ExLog) :
    x.unsubscribe c ns l = l ++ x.leaves.map (fun i => (i, .unsubscribe c ns)) := by
  induction x generalizing l with
  | base i => simp [Exch.unsubscribe, Exch.leaves]
  | wrap p q ihp ihq => simp [Exch.unsubscribe, Exch.leaves, ihp, ihq]

/-- the log after the exchanges `is` were called with `call` -/
def calledAll (l : ExLog) (is : List Nat) (call : ExCall) : ExLog :=
  l ++ is.map (fun i => (i, call))

/-- C49: every exchange gets Publish once, in registration order, whatever the others return,
and the result is true exactly if all of them returned true. -/
theorem c49_publish (o : ExOracle) (x : Exch) (msgs : List Message) (l : ExLog) :
    (x.publish o msgs l).2 = calledAll l x.leaves (.publish msgs) ∧
    ((x.publish o msgs l).1 = true ↔
      ∀ (k : Nat) (i : Nat), x.leaves[k]? = some i →
        o.publish (calledAll l (x.leaves.take k) (.publish msgs)) i = true) := by
  induction x generalizing l with
  | base i =>
    refine ⟨rfl, ?_⟩
    simp only [Exch.publish, Exch.leaves]
    constructor
    · intro h k j hk
      cases k with
      | zero =>
        simp only [List.getElem?_cons_zero, Option.some.injEq] at hk
        subst hk
        simpa [calledAll] using h
      | succ k => simp at hk
    · intro h
      simpa [calledAll] using h 0 i rfl
  | wrap p q ihp ihq =>
    obtain ⟨hp1, hp2⟩ := ihp l
    obtain ⟨hq1, hq2⟩ := ihq (p.publish o msgs l).2
    rw [hp1] at hq1 hq2
    simp only [Exch.publish, Exch.leaves]
    refine ⟨?_, ?_⟩
    · rw [hp1, hq1]
      simp [calledAll]
    · rw [Bool.and_eq_true, hp2, hp1, hq2]
      constructor
      · rintro ⟨h1, h2⟩ k i hk
        rcases Nat.lt_or_ge k p.leaves.length with hl | hl
        · rw [List.getElem?_append_left hl] at hk
          rw [List.take_append_of_le_length (Nat.le_of_lt hl)]
          exact h1 k i hk
        · rw [List.getElem?_append_right hl] at hk
          have := h2 _ i hk
          rw [List.take_append, List.take_of_length_le hl]
          simpa [calledAll] using this
      · intro h
        refine ⟨fun k i hk => ?_, fun k i hk => ?_⟩
        · have hl : k < p.leaves.length := by
            rcases Nat.lt_or_ge k p.leaves.length with h | h
            · exact h
            · rw [List.getElem?_eq_none h] at hk; cases hk
          have := h k i (by rw [List.getElem?_append_left hl]; exact hk)
          rwa [List.take_append_of_le_length (Nat.le_of_lt hl)] at this
        · have := h (p.leaves.length + k) i (by
            rw [List.getElem?_append_right (Nat.le_add_right _ _)]
            simpa using hk)
          rw [List.take_append, List.take_of_length_le (Nat.le_add_right _ _)] at this
          simpa [calledAll] using this

/-- an exchange after `k` others: what is returned to `call` when the exchanges are tried in
order as long as `go` says so -/
def Tried {β : Type} (l : ExLog) (is : List Nat) (call : ExCall) (ret : ExLog → Nat → β)
    (go : β → Prop) (r : β) (l' : ExLog) : Prop :=
  ∃ (k : Nat) (i : Nat), is[k]? = some i ∧ l' = calledAll l (is.take (k + 1)) call ∧
    (∀ (j : Nat) (m : Nat), j < k → is[j]? = some m → go (ret (calledAll l (is.take j) call) m)) ∧
    r = ret (calledAll l (is.take k) call) i ∧ (go r → k + 1 = is.length)

theorem tried_base {β : Type} (l : ExLog) (i : Nat) (call : ExCall) (ret : ExLog → Nat → β)
    (go : β → Prop) : Tried l [i] call ret go (ret l i) (l ++ [(i, call)]) := by
  refine ⟨0, i, rfl, by simp [calledAll], fun j m h => by omega, by simp [calledAll], fun _ => rfl⟩

theorem tried_left {β : Type} {l : ExLog} {is js : List Nat} {call : ExCall}
    {ret : ExLog → Nat → β} {go : β → Prop} {r : β} {l' : ExLog}
    (h : Tried l is call ret go r l') (hr : ¬ go r) : Tried l (is ++ js) call ret go r l' := by
  obtain ⟨k, i, h1, h2, h3, h4, h5⟩ := h
  have hk : k < is.length := by
    rcases Nat.lt_or_ge k is.length with h | h
    · exact h
    · rw [List.getElem?_eq_none h] at h1; cases h1
  refine ⟨k, i, by rw [List.getElem?_append_left hk]; exact h1, ?_, ?_, ?_, fun h => (hr h).elim⟩
  · rw [List.take_append_of_le_length hk]; exact h2
  · intro j m hj hm
    rw [List.getElem?_append_left (by omega)] at hm
    rw [List.take_append_of_le_length (by omega)]
    exact h3 j m hj hm
  · rw [List.take_append_of_le_length (by omega)]; exact h4

theorem tried_right {β : Type} {l : ExLog} {is js : List Nat} {call : ExCall}
    {ret : ExLog → Nat → β} {go : β → Prop} {r r' : β} {l' l'' : ExLog}
    (h : Tried l is call ret go r l') (hr : go r) (h' : Tried l' js call ret go r' l'') :
    Tried l (is ++ js) call ret go r' l'' := by
  obtain ⟨k, i, h1, h2, h3, h4, h5⟩ := h
  have hk := h5 hr
  rw [hk, List.take_length] at h2
  obtain ⟨k', i', a1, a2, a3, a4, a5⟩ := h'
  have cat : ∀ n, calledAll l' (js.take n) call = calledAll l ((is ++ js).take (is.length + n)) call := by
    intro n
    rw [List.take_append, List.take_of_length_le (Nat.le_add_right _ _), h2]
    simp [calledAll]
  refine ⟨is.length + k', i', ?_, ?_, ?_, ?_, ?_⟩
  · rw [List.getElem?_append_right (Nat.le_add_right _ _)]; simpa using a1
  · rw [a2, cat]; rfl
  · intro j m hj hm
    rcases Nat.lt_or_ge j is.length with hl | hl
    · rw [List.getElem?_append_left hl] at hm
      rw [List.take_append_of_le_length (Nat.le_of_lt hl)]
      rcases Nat.lt_or_ge j k with hjk | hjk
      · exact h3 j m hjk hm
      · have : j = k := by omega
        subst this
        rw [h1] at hm
        cases hm
        rw [← h4]; exact hr
    · rw [List.getElem?_append_right hl] at hm
      have := a3 (j - is.length) m (by omega) hm
      rw [cat] at this
      rwa [Nat.add_sub_cancel' hl] at this
  · rw [a4, cat]
  · intro h
    have := a5 h
    rw [List.length_append]
    omega

/-- C49: OnConnect goes through the exchanges in registration order, stops at the first error
and returns it; it is nil exactly if all of them were called and returned nil. -/
theorem c49_connect (o : ExOracle) (x : Exch) (c : Nat) (l : ExLog) :
    Tried l x.leaves (.onConnect c) o.onConnect (fun r => r = none)
      (x.onConnect o c l).1 (x.onConnect o c l).2 := by
  induction x generalizing l with
  | base i => exact tried_base ..
  | wrap p q ihp ihq =>
    have hp := ihp l
    simp only [Exch.onConnect, Exch.leaves]
    cases hx : p.onConnect o c l with
    | mk e l1 =>
      rw [hx] at hp
      cases e with
      | some e => exact tried_left hp (by simp)
      | none => exact tried_right hp rfl (ihq l1)

/-- C49: NotifyAsk goes through the exchanges in registration order until one returns nil, and
returns the error of the last one otherwise. -/
theorem c49_notify (o : ExOracle) (x : Exch) (msg : Message) (token : Bytes) (l : ExLog) :
    Tried l x.leaves (.notifyAsk msg token) o.notifyAsk (fun r => r ≠ none)
      (x.notifyAsk o msg token l).1 (x.notifyAsk o msg token l).2 := by
  induction x generalizing l with
  | base i => exact tried_base ..
  | wrap p q ihp ihq =>
    have hp := ihp l
    simp only [Exch.notifyAsk, Exch.leaves]
    cases hx : p.notifyAsk o msg token l with
    | mk e l1 =>
      rw [hx] at hp
      cases e with
      | none => exact tried_left hp (by simp)
      | some e => exact tried_right hp (by simp) (ihq l1)

/-- C49, partial: if every exchange that fails an Ask returns the message it was given along
with the error, Ask goes through the exchanges in registration order, each time with the same
request, until one succeeds. -/
theorem c49_ask_partial (o : ExOracle) (x : Exch) (msg : Message) (token : Bytes) (l : ExLog)
    (keep : ∀ l i m, (o.ask l i m).2 ≠ none → (o.ask l i m).1 = m) :
    Tried l x.leaves (.ask msg token) (fun l i => o.ask l i msg) (fun r => r.2 ≠ none)
      (x.ask o token msg l).1 (x.ask o token msg l).2 := by
  have same : ∀ (x : Exch) (l : ExLog), (x.ask o token msg l).1.2 ≠ none →
      (x.ask o token msg l).1.1 = msg := by
    intro x
    induction x with
    | base i => exact fun l h => keep l i msg h
    | wrap p q ihp ihq =>
      intro l h
      simp only [Exch.ask] at h ⊢
      have hp := ihp l
      generalize p.ask o token msg l = t at h hp ⊢
      obtain ⟨⟨m1, e⟩, l1⟩ := t
      cases e with
      | none => simp at h
      | some e =>
        have : m1 = msg := hp (by simp)
        subst this
        exact ihq l1 h
  induction x generalizing l with
  | base i => exact tried_base l i (.ask msg token) (fun l i => o.ask l i msg) _
  | wrap p q ihp ihq =>
    have hp := ihp l
    have hs := same p l
    simp only [Exch.ask, Exch.leaves]
    generalize p.ask o token msg l = t at hp hs ⊢
    obtain ⟨⟨m1, e⟩, l1⟩ := t
    cases e with
    | none => exact tried_left hp (by simp)
    | some e =>
      have : m1 = msg := hs (by simp)
      subst this
      exact tried_right hp (by simp) (ihq l1)

/-- C49 fails for Ask: an exchange that returns the empty message with its error, as both
shipped ones do (redis.go, nats.go), makes the next one ask with the empty message instead of
the request. -/
theorem c49_ask_refuted (o : ExOracle) (i j : Nat) (msg : Message) (token : Bytes) (e : GoErr)
    (h : o.ask [] i msg = ({}, some e)) :
    ((Exch.wrap (.base i) (.base j)).ask o token msg []).2 =
      [(i, .ask msg token), (j, .ask {} token)] := by
  simp [Exch.ask, h]

/-! ## Examples -/

def exOracle : ExOracle where
  init i := if i = 1 then some (.text (b! "no")) else none
  onConnect _ i := if i = 2 then some (.text (b! "no")) else none
  publish _ i := i ≠ 2
  ask _ i m := if i = 3 then (m, none) else (m, some errWrite)
  notifyAsk _ i := if i = 3 then none else some errWrite

def exServer : Option Exch :=
  [some 0, none, some 1, some 2, some 3].foldl (fun s c => (useStackExchange exOracle s c).1) none

example : exServer = some (.wrap (.wrap (.base 0) (.base 2)) (.base 3)) := rfl
example : exLeaves exServer = [0, 2, 3] := rfl
example : ((Exch.wrap (.wrap (.base 0) (.base 2)) (.base 3)).onConnect exOracle 7 []).1 =
    some (.text (b! "no")) := rfl
example : ((Exch.wrap (.wrap (.base 0) (.base 2)) (.base 3)).publish exOracle [] []).1 = false := rfl
example : ((Exch.wrap (.wrap (.base 0) (.base 2)) (.base 3)).ask exOracle [] {} []).1.2 = none := rfl
example : ∀ l i m, (exOracle.ask l i m).2 ≠ none → (exOracle.ask l i m).1 = m := by
  intro l i m
  simp only [exOracle]
  split <;> simp
example : ({ exOracle with ask := fun _ _ _ => ({}, some errWrite) } : ExOracle).ask [] 0
    { ns := b! "chat" } = ({}, some errWrite) := rfl

end Neffos
