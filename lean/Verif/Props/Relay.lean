import Verif.Props.Exchange
import Verif.Props.ExchangeAsk
/-!
# C113: an Ask through several exchanges
-/
set_option autoImplicit false
namespace Neffos

namespace Spec

/-- The exchanges `is` are asked one after the other: the first with `m`, each further one with the message that the
one before it returned with its error. It ends with the first that returns no error, or with the last. `r` is what
the last one asked returned, `asked` who was asked with which message. -/
inductive Relayed (o : ExOracle) (token : Bytes) :
    ExLog → List Nat → Message → Message × Option GoErr → List (Nat × Message) → Prop
  | last (l : ExLog) (i : Nat) (m : Message) : Relayed o token l [i] m (o.ask l i m) [(i, m)]
  | ok (l : ExLog) (i : Nat) (is : List Nat) (m : Message) (h : (o.ask l i m).2 = none) :
      Relayed o token l (i :: is) m (o.ask l i m) [(i, m)]
  | next (l : ExLog) (i : Nat) (is : List Nat) (m : Message) (r : Message × Option GoErr)
      (asked : List (Nat × Message)) (h : (o.ask l i m).2 ≠ none)
      (t : Relayed o token (l ++ [(i, .ask m token)]) is (o.ask l i m).1 r asked) :
      Relayed o token l (i :: is) m r ((i, m) :: asked)

end Spec
open Neffos.Spec

namespace Relay

variable {o : ExOracle} {token : Bytes}

/-- the log with the calls -/
def logged (token : Bytes) (l : ExLog) (asked : List (Nat × Message)) : ExLog :=
  l ++ asked.map (fun x => (x.1, ExCall.ask x.2 token))

theorem append_ok {l : ExLog} {is js : List Nat} {m : Message} {r : Message × Option GoErr}
    {asked : List (Nat × Message)} (h : Relayed o token l is m r asked) (hr : r.2 = none) :
    Relayed o token l (is ++ js) m r asked := by
  induction h with
  | last l i m => exact .ok l i _ m hr
  | ok l i is m h => exact .ok l i _ m h
  | next l i is m r asked h t ih => exact .next l i _ m r asked h (ih hr)

theorem append_next {l : ExLog} {is js : List Nat} {m : Message} {r r' : Message × Option GoErr}
    {asked asked' : List (Nat × Message)} (h : Relayed o token l is m r asked) (hr : r.2 ≠ none)
    (h' : Relayed o token (logged token l asked) js r.1 r' asked') :
    Relayed o token l (is ++ js) m r' (asked ++ asked') := by
  induction h with
  | last l i m => exact .next l i _ m r' asked' hr h'
  | ok l i is m h => exact absurd h hr
  | next l i is m r asked h t ih =>
    exact .next l i _ m r' _ h (ih hr (by simpa [logged] using h'))

/-- everyone asked after the first is asked with what a failing exchange returned -/
theorem later {l : ExLog} {is : List Nat} {m : Message} {r : Message × Option GoErr} {asked : List (Nat × Message)}
    (h : Relayed o token l is m r asked) :
    ∃ i rest, asked = (i, m) :: rest ∧ is.head? = some i ∧
      ∀ x ∈ rest, ∃ l' i' m', (o.ask l' i' m').2 ≠ none ∧ (o.ask l' i' m').1 = x.2 := by
  induction h with
  | last l i m => exact ⟨i, [], rfl, rfl, by simp⟩
  | ok l i is m h => exact ⟨i, [], rfl, rfl, by simp⟩
  | next l i is m r asked h t ih =>
    obtain ⟨i', rest, h1, _, h3⟩ := ih
    refine ⟨i, asked, rfl, rfl, fun x hx => ?_⟩
    rw [h1] at hx
    rcases List.mem_cons.mp hx with e | hx
    · subst e; exact ⟨l, i, m, h, rfl⟩
    · exact h3 x hx

end Relay
open Relay

/-- C113: the combined Ask asks the exchanges in registration order until one succeeds, the first with the request,
every further one with the message that the exchange before it returned with its error; it returns what the last one
asked returned. -/
theorem c113_ask (o : ExOracle) (x : Exch) (msg : Message) (token : Bytes) (l : ExLog) :
    ∃ asked, Relayed o token l x.leaves msg (x.ask o token msg l).1 asked ∧
      (x.ask o token msg l).2 = l ++ asked.map (fun a => (a.1, ExCall.ask a.2 token)) := by
  induction x generalizing l msg with
  | base i => exact ⟨[(i, msg)], .last l i msg, rfl⟩
  | wrap p q ihp ihq =>
    obtain ⟨asked, h1, h2⟩ := ihp msg l
    simp only [Exch.ask, Exch.leaves]
    generalize p.ask o token msg l = t at h1 h2 ⊢
    obtain ⟨⟨m1, e⟩, l1⟩ := t
    cases e with
    | none => exact ⟨asked, append_ok h1 rfl, h2⟩
    | some e =>
      simp only at h2
      subst h2
      obtain ⟨asked', k1, k2⟩ := ihq m1 (l ++ asked.map (fun a => (a.1, ExCall.ask a.2 token)))
      refine ⟨asked ++ asked', append_next h1 (by simp) k1, ?_⟩
      simpa using k2

/-- C113: what a redis or nats exchange returns with an error is the empty message, or an answer that was published
for the token and is an error. -/
theorem c113_failed (known : List KnownErr) (env : ShipEnv) (token : Bytes) (msg m : Message) (e : GoErr)
    (ps : List (Bytes × Bytes)) (h : shipAsk known env token msg = some (some (m, some e), ps)) :
    m = {} ∨ ∃ p, ExEv.published token p ∈ env.evs ∧ m = deserializeMessage known .text p false false ∧ m.err = some e := by
  have key : ∀ (evs : List ExEv) (a : ExAsk), a.token = token →
      (∀ m e, a.result = some (m, some e) → m = {}) →
      ∀ m e, (exAskRun known a evs).result = some (m, some e) →
      m = {} ∨ ∃ p, ExEv.published token p ∈ evs ∧ m = deserializeMessage known .text p false false ∧ m.err = some e := by
    intro evs
    induction evs with
    | nil => intro a _ h2 m e h; exact .inl (h2 m e h)
    | cons x evs ih =>
      intro a h1 h2 m e h
      have h : (exAskRun known (exAskStep known a x) evs).result = some (m, some e) := h
      cases hr : a.result with
      | some r =>
        have hs : (exAskStep known a x).result = a.result := by cases x <;> simp [exAskStep, hr]
        rw [exAskRun_ended known evs _ (by rw [hs, hr]; simp), hs] at h
        exact .inl (h2 m e h)
      | none =>
        have hrest : (∃ p, ExEv.published token p ∈ evs ∧ m = deserializeMessage known .text p false false ∧ m.err = some e) →
            ∃ p, ExEv.published token p ∈ x :: evs ∧ m = deserializeMessage known .text p false false ∧ m.err = some e :=
          fun ⟨p, hp⟩ => ⟨p, List.mem_cons_of_mem _ hp.1, hp.2⟩
        cases x with
        | subscribed =>
          exact (ih { a with live := true } h1 (by simp [hr]) m e h).imp id hrest
        | ctxDone e' =>
          refine (ih (exAskStep known a (.ctxDone e')) (by simp [exAskStep, hr, h1]) ?_ m e h).imp id hrest
          intro m e h
          simp [exAskStep, hr] at h
          exact h.1.symm
        | published ch p =>
          by_cases hc : a.live = true ∧ ch = a.token ∧ a.result.isNone = true
          · have hres : (exAskStep known a (.published ch p)).result =
                some (deserializeMessage known .text p false false, (deserializeMessage known .text p false false).err) := by
              simp [exAskStep, hc]
            rw [exAskRun_ended known evs _ (by rw [hres]; simp), hres] at h
            simp only [Option.some.injEq, Prod.mk.injEq] at h
            obtain ⟨rfl, he⟩ := h
            refine .inr ⟨p, ?_, rfl, he⟩
            rw [hc.2.1, h1]
            simp
          · have hs : exAskStep known a (.published ch p) = a := by rw [exAskStep, if_neg hc]
            rw [hs] at h
            exact (ih a h1 h2 m e h).imp id hrest
  unfold shipAsk at h
  cases hs : exAskStart env.redis env.channel msg token env.subErr env.pubOk with
  | none => simp [hs] at h
  | some x =>
    simp only [hs, Option.map_some, Option.some.injEq, Prod.mk.injEq] at h
    have hx : x.1.token = token ∧ ∀ m e, x.1.result = some (m, some e) → m = {} := by
      unfold exAskStart at hs
      split at hs
      · cases hs; exact ⟨rfl, fun m e h => by simp at h; exact h.1.symm⟩
      · split at hs
        · split at hs
          · cases hs; exact ⟨rfl, fun m e h => by simp at h⟩
          · cases hs; exact ⟨rfl, fun m e h => by simp at h; exact h.1.symm⟩
        · cases hs
    exact key env.evs x.1 hx.1 hx.2 m e h.1

/-- what a combined exchange of redis and nats exchanges returns: `o` says what each Ask returns, and that is what such
an exchange can return in some surroundings -/
def Shipped (known : List KnownErr) (token : Bytes) (o : ExOracle) : Prop :=
  ∀ l i m, ∃ env ps, shipAsk known env token m = some (some (o.ask l i m), ps) ∧
    ∀ p, ExEv.published token p ∈ env.evs → (deserializeMessage known .text p false false).wait = []

/-- C113: with redis and nats exchanges, where the answers published for a token carry none themselves (`NotifyAsk`
takes it off, C75), only the first exchange is asked with the token in the message. Whoever is asked after it is asked
with the empty message or with an answer that is an error. -/
theorem c113_shipped (known : List KnownErr) (token : Bytes) (o : ExOracle) (ho : Shipped known token o) (x : Exch)
    (msg : Message) (l : ExLog) :
    ∃ i rest, (x.ask o token msg l).2 = l ++ (i, ExCall.ask msg token) :: rest ∧
      ∀ c ∈ rest, ∃ i' m, c = (i', ExCall.ask m token) ∧ m.wait = [] ∧ (m = {} ∨ m.err ≠ none) := by
  obtain ⟨asked, h1, h2⟩ := c113_ask o x msg token l
  obtain ⟨i, rest, e, _, h3⟩ := later h1
  subst e
  refine ⟨i, rest.map (fun a : Nat × Message => (a.1, ExCall.ask a.2 token)), h2, fun c hc => ?_⟩
  obtain ⟨a, ha, rfl⟩ := List.mem_map.mp hc
  obtain ⟨l', i', m', k1, k2⟩ := h3 a ha
  refine ⟨a.1, a.2, rfl, ?_⟩
  obtain ⟨env, ps, s1, s2⟩ := ho l' i' m'
  rcases hr : o.ask l' i' m' with ⟨m1, e1⟩
  rw [hr] at k1 k2 s1
  cases e1 with
  | none => exact absurd rfl k1
  | some e1 =>
    simp only at k2
    subst k2
    rcases c113_failed known env token m' a.2 e1 ps s1 with e | ⟨p, p1, p2, p3⟩
    · rw [e]; exact ⟨rfl, .inl rfl⟩
    · exact ⟨by rw [p2]; exact s2 p p1, .inr (by rw [p3]; simp)⟩

/-- C113: what is published for the empty message is a message without token, names and event, on the channel of the
namespace with the empty name. -/
theorem c113_empty (known : List KnownErr) (pre token : Bytes) (env : ShipEnv) (r : Option (Message × Option GoErr))
    (ps : List (Bytes × Bytes)) (h : shipAsk known env token {} = some (r, ps)) (hs : env.subErr = none) (hp : env.pubOk = true) :
    (env.channel = (fun m => redisChannel pre m.ns m.room m.to) → ps = [(pre ++ b! "..", b! ";;;;0;0;")]) ∧
    (env.channel = (fun m => natsSubject pre m.ns m.room m.to) → ps = [(pre ++ b! ".", b! ";;;;0;0;")]) := by
  have hser : serializeMessage {} = some (b! ";;;;0;0;") := by decide +kernel
  constructor <;> intro hc <;>
    simp [shipAsk, exAskStart, hs, hp, hc, redisChannel, natsSubject, hser] at h <;> rw [← h.2]

/-- two redis exchanges and one more; the context of the first Ask ends, so the second publishes the empty message;
it gets an answer that is an error, and the third is asked with that -/
def relayEnv : Nat → ShipEnv := fun i =>
  { redis := true, channel := fun m => redisChannel (b! "neffos") m.ns m.room m.to, subErr := none, pubOk := true
    evs := if i = 0 then [.ctxDone errWrite] else [.published (b! "R700") (b! ";chat;;q;1;0;no")] }

def relayAsk (i : Nat) (m : Message) : Message × Option GoErr :=
  (((shipAsk [] (relayEnv i) (b! "R700") m).bind (·.1)).getD ({}, some errWrite))

example : ((Exch.wrap (.wrap (.base 0) (.base 1)) (.base 2)).ask { exOracle with ask := fun _ i m => relayAsk i m }
    (b! "R700") { ns := b! "chat", event := b! "q", wait := b! "R700" } []).2.map (fun c =>
      match c.2 with
      | .ask m _ => (c.1, m.ns, m.wait, m.err)
      | _ => (c.1, [], [], none)) =
    [(0, b! "chat", b! "R700", none), (1, [], [], none), (2, b! "chat", [], some (.text (b! "no")))] := by
  decide +kernel

/-- the hypothesis of `c113_shipped` -/
example : Shipped [] (b! "R700") { exOracle with ask := fun _ i m => relayAsk i m } := by
  intro l i m
  have hfail : ∃ env ps, shipAsk [] env (b! "R700") m = some (some ({}, some errWrite), ps) ∧
      ∀ p, ExEv.published (b! "R700") p ∈ env.evs → (deserializeMessage [] .text p false false).wait = [] :=
    ⟨{ relayEnv 0 with subErr := some errWrite, evs := [] }, [], rfl, by simp⟩
  show ∃ env ps, shipAsk [] env (b! "R700") m = some (some (relayAsk i m), ps) ∧ _
  unfold relayAsk
  rcases h : shipAsk [] (relayEnv i) (b! "R700") m with _ | ⟨_ | r, ps⟩
  · exact hfail
  · exact hfail
  · refine ⟨relayEnv i, ps, by simpa using h, fun p hp => ?_⟩
    by_cases e : i = 0
    · simp [relayEnv, e] at hp
    · simp [relayEnv, e] at hp
      subst hp
      decide +kernel

example : (shipAsk [] (relayEnv 1) (b! "R700") {}).map (fun x => (x.1.map (fun y => y.2), x.2)) =
    some (some (some (.text (b! "no"))), [(b! "neffos..", b! ";;;;0;0;")]) := by
  decide +kernel

end Neffos
