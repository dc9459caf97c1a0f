import Verif.Model.ExchangeAsk
import Verif.Props.AskEnd
/-!
# C75: an Ask through an exchange
-/
set_option autoImplicit false
namespace Neffos
open Neffos.Spec

variable {cc sc : Cfg} {idc ids : Bytes} {c c' d d' : St} {req : Message}

namespace Spec

/-- what ends an Ask for the token, when the broker knows the subscription or not -/
inductive Ends (token : Bytes) (live : Bool) : ExEv → Prop
  | answer (p : Bytes) : live = true → Ends token live (.published token p)
  | ctx (e : GoErr) : Ends token live (.ctxDone e)

/-- the broker knows the subscription -/
def Knows (live : Bool) (evs : List ExEv) : Prop := live = true ∨ ExEv.subscribed ∈ evs

/-- what an Ask returns for what ended it -/
def endResult (known : List KnownErr) : ExEv → Option (Message × Option GoErr)
  | .published _ p =>
    some (deserializeMessage known .text p false false, (deserializeMessage known .text p false false).err)
  | .ctxDone e => some ({}, some e)
  | .subscribed => none

/-- `ev` is the first of the events that ends the Ask -/
def FirstEnd (token : Bytes) (live : Bool) (evs : List ExEv) (ev : ExEv) : Prop :=
  ∃ pre post l, evs = pre ++ ev :: post ∧ (l = true ↔ Knows live pre) ∧ Ends token l ev ∧
    ∀ (p q : List ExEv) (x : ExEv) (k : Bool), pre = p ++ x :: q → (k = true ↔ Knows live p) → ¬ Ends token k x

end Spec

theorem exAskRun_ended (known : List KnownErr) (evs : List ExEv) (a : ExAsk) (h : a.result ≠ none) :
    (exAskRun known a evs).result = a.result := by
  induction evs generalizing a with
  | nil => rfl
  | cons x evs ih =>
    have hs : (exAskStep known a x).result = a.result := by
      cases hr : a.result with
      | none => exact absurd hr h
      | some r => cases x <;> simp [exAskStep, hr]
    show (exAskRun known (exAskStep known a x) evs).result = _
    rw [ih _ (by rw [hs]; exact h), hs]

/-- C75: an Ask that was published returns what the first event that ends it says: the first message
that the broker gets for its token while it knows the subscription, or the end of the context,
whichever comes first; without such an event it goes on. -/
theorem c75_first (known : List KnownErr) (evs : List ExEv) (token : Bytes) (live : Bool) :
    (∀ ev, FirstEnd token live evs ev →
        (exAskRun known ⟨token, live, none⟩ evs).result = endResult known ev) ∧
      ((¬ ∃ ev, FirstEnd token live evs ev) → (exAskRun known ⟨token, live, none⟩ evs).result = none) := by
  induction evs generalizing live with
  | nil =>
    refine ⟨?_, fun _ => rfl⟩
    rintro ev ⟨pre, post, l, he, _⟩
    cases pre <;> simp at he
  | cons x evs ih =>
    have hk0 : (live = true ↔ Knows live []) := by simp [Knows]
    by_cases hx : Ends token live x
    · refine ⟨?_, fun hn => absurd ⟨x, [], evs, live, rfl, hk0, hx, by simp⟩ hn⟩
      rintro ev ⟨pre, post, l, he, hl, hend, hno⟩
      cases pre with
      | cons y pre =>
        simp at he
        refine absurd (he.1 ▸ hx) (hno [] pre y live rfl hk0)
      | nil =>
        simp at he
        obtain ⟨rfl, rfl⟩ := he
        show (exAskRun known (exAskStep known _ x) evs).result = _
        cases hx with
        | answer p hl => rw [exAskRun_ended] <;> simp [exAskStep, hl, endResult]
        | ctx e => rw [exAskRun_ended] <;> simp [exAskStep, endResult]
    · obtain ⟨l', hst, hl'⟩ : ∃ l', exAskStep known ⟨token, live, none⟩ x = ⟨token, l', none⟩ ∧
          (l' = true ↔ Knows live [x]) := by
        cases x with
        | subscribed => exact ⟨true, rfl, by simp [Knows]⟩
        | ctxDone e => exact absurd (.ctx e) hx
        | published ch p =>
          refine ⟨live, ?_, by simp [Knows]⟩
          simp only [exAskStep]
          rw [if_neg]
          rintro ⟨h1, h2, _⟩
          have h1' : live = true := h1
          have h2' : ch = token := h2
          subst h2'
          exact hx (.answer p h1')
      have hkn : ∀ l : List ExEv, Knows live (x :: l) ↔ Knows l' l := by
        intro l
        simp only [Knows, List.mem_cons] at hl' ⊢
        rw [hl']
        simp [or_assoc]
      show (∀ ev, _ → (exAskRun known (exAskStep known _ x) evs).result = _) ∧
        (_ → (exAskRun known (exAskStep known _ x) evs).result = _)
      rw [hst]
      obtain ⟨i1, i2⟩ := ih l'
      have hto : ∀ ev, FirstEnd token live (x :: evs) ev → FirstEnd token l' evs ev := by
        rintro ev ⟨pre, post, l, he, hl, hend, hno⟩
        cases pre with
        | nil =>
          simp at he
          have : l = live := by
            exact Bool.eq_iff_iff.mpr (hl.trans hk0.symm)
          exact absurd (he.1 ▸ this ▸ hend) hx
        | cons y pre =>
          simp at he
          obtain ⟨rfl, he⟩ := he
          refine ⟨pre, post, l, he, by rw [hl, hkn], hend, ?_⟩
          intro p q z k hp hk
          exact hno (x :: p) q z k (by rw [hp]; rfl) (by rw [hk, hkn])
      have hfrom : ∀ ev, FirstEnd token l' evs ev → FirstEnd token live (x :: evs) ev := by
        rintro ev ⟨pre, post, l, he, hl, hend, hno⟩
        refine ⟨x :: pre, post, l, by rw [he]; rfl, by rw [hl, hkn], hend, ?_⟩
        intro p q z k hp hk
        cases p with
        | nil =>
          simp at hp
          have : k = live := by
            exact Bool.eq_iff_iff.mpr (hk.trans hk0.symm)
          rw [← hp.1, this]
          exact hx
        | cons y p =>
          simp at hp
          obtain ⟨rfl, hp⟩ := hp
          exact hno p q z k hp (by rw [hk, hkn])
      exact ⟨fun ev h => i1 ev (hto ev h), fun h => i2 (fun ⟨ev, he⟩ => h ⟨ev, hfrom ev he⟩)⟩

/-- C75: the start. Without an error the request is published once, on the channel of its target and as the
message with the token; otherwise nothing is published and the Ask returns the error, `ErrWrite` if the
broker does not take it. -/
theorem c75_start (redis : Bool) (channel : Message → Option Bytes) (m : Message) (subErr : Option GoErr)
    (pubOk : Bool) (a : ExAsk) (ps : List (Bytes × Bytes))
    (h : exAskStart redis channel m m.wait subErr pubOk = some (a, ps)) :
    a.token = m.wait ∧
      (∀ e, subErr = some e → a.result = some ({}, some e) ∧ ps = []) ∧
      (subErr = none → pubOk = false → a.result = some ({}, some errWrite) ∧ ps = []) ∧
      (subErr = none → pubOk = true → a.result = none ∧ a.live = redis ∧
        ∃ ch p, channel m = some ch ∧ serializeMessage m = some p ∧ ps = [(ch, p)]) := by
  unfold exAskStart at h
  cases subErr with
  | some e => simp at h; obtain ⟨rfl, rfl⟩ := h; simp
  | none =>
    cases hc : channel m with
    | none => simp [hc] at h
    | some ch =>
      cases hp : serializeMessage m with
      | none => simp [hc, hp] at h
      | some p =>
        simp only [hc, hp] at h
        cases pubOk with
        | true => simp at h; obtain ⟨rfl, rfl⟩ := h; simp
        | false => simp at h; obtain ⟨rfl, rfl⟩ := h; simp

/-- C75, the way back: what a server connection publishes for a message that it read, if that is
not a native one, is decoded by the Ask to the same names, event and body, or to an error that the
text of the error stands for. Missing: native messages; and that the server connection recognises
the answers. -/
theorem c75_notify_partial (known : List KnownErr) {m : Message} (hdec : Decoded sc m) (hw : m.wait ≠ [])
    (hn : m.isNative = false) :
    ∃ p, notifyPayload m = some p ∧
      let r := deserializeMessage known .text p false false
      r.wait = [] ∧ r.ns = m.ns ∧ r.room = m.room ∧ r.event = m.event ∧ r.isInvalid = false ∧
      (m.err = none → r.body = m.body ∧ r.err = none) ∧
      (∀ e, m.err = some e → (∀ b, e ≠ .reply b) → e.errorText ≠ [] →
        r.body = [] ∧ ∃ e', r.err = some e' ∧ ResolvesTo known e.errorText e') := by
  have hx := hdec.noExplicit hw
  obtain ⟨t, p, hp⟩ := hdec
  obtain ⟨s1, s2, s3⟩ := c02_received_names_safe sc.known t p sc.allowNative sc.onlyNative
  rw [hp] at s1 s2 s3
  have hcl : m.clearWait.1 = { m with wait := [] } :=
    (c07_clearWait m).2.1 ((c07_clearWait m).1.mpr ⟨hw, hx⟩)
  obtain ⟨b, hb, h1, h2, h3, h4, _, h6, _, _, h9, h10⟩ :=
    c01_round_trip_result known .text false { m with wait := [] } (.inl hn) hx plainToken_nil s1 s2 s3
  refine ⟨b, by rw [notifyPayload, hcl]; exact hb, h1, h2, h3, h4, h6, ?_, ?_⟩
  · intro he
    have := h9 m.body (by simp [he, outcome])
    exact ⟨this.1, this.2.1⟩
  · intro e he hr ht
    have ho : outcome m.body m.err = .error e.errorText := by
      rw [he]
      cases e <;> first | rfl | exact absurd rfl (hr _)
    have := h10 _ ho ht
    exact ⟨this.1, this.2.2⟩

/-- C75, with a mark: a payload whose token has the mark inserted is handed to the exchange, and
that is all; what is published for it ends the Ask with its names and body. Missing: no connection
writes such a payload. -/
theorem c75_marked_partial {typ : MsgType} {b : Bytes} {r : Message} (known : List KnownErr) (h : Answering sc d typ b r)
    (hx : FromExchange sc r) (hn : r.isNative = false) (he : r.err = none) (hs : step sc d (.recv typ b) = some d') :
    d' = { d with log := d.log ++ [.notifyAsk r] } ∧
      ∃ p, notifyPayload r = some p ∧ ∃ a x, (exAskStep known ⟨r.wait, true, none⟩ (.published r.wait p)).result = some (a, x) ∧
        x = none ∧ a.ns = r.ns ∧ a.room = r.room ∧ a.event = r.event ∧ a.body = r.body := by
  refine ⟨c61_exchange h hx hs, ?_⟩
  have hw : r.wait ≠ [] := by
    obtain ⟨x, t, h1, _⟩ := h.token
    rw [h1]; simp
  obtain ⟨p, h1, _, h2, h3, h4, _, h5, _⟩ := c75_notify_partial known (sc := sc) (m := r) ⟨typ, b, h.decodes⟩ hw hn
  refine ⟨p, h1, _, _, by simp [exAskStep], (h5 he).2, h2, h3, h4, (h5 he).1⟩

/-- C75 is false: no answer of a client is recognised. A client that handles the request answers with
one payload that says what its callback returned. Whichever server connection reads it, if nothing
there waits under this token: the answer is not handed to the exchange but handled as a new event, by
the server's own callback, and the Ask is not ended. If that callback returns an error or a Reply, it is
sent to the client under the same token. -/
theorem c75_unrecognised_refuted {obj : Nat} {e : GoErr} {now : Int} (hr : Reach cc idc c)
    (hs : Handled cc c req c') (hev : NotRequest req.event)
    (hw : req.wait = genWaitStackExchange (genWait false now)) (hlong : req.wait ≠ [])
    (hn : c.namespace req.ns = some obj) (hroom : req.room = [] ∨ req.room ∈ c.rooms obj)
    (hv : verdict cc c obj { req with isLocal := false } = some e) (hc : c'.closed = false) :
    ∃ l q, c'.log = c.log ++ l ∧
      Adds cc l [⟨obj, { req with isLocal := false }, true, req.room ∈ c.rooms obj⟩]
        [(req.setBinary, q)] [] [] ∧
      ∀ (sc : Cfg) (ids : Bytes) (d d' : St) (typ : MsgType) (obj' : Nat), Reach sc ids d → sc.onlyNative = false →
        d.acked = true → req.wait ∉ d.srvWaiting → mapGet d.waiting req.wait = none →
        gateBlocks d req.ns = false → d.namespace req.ns = some obj' →
        (req.room = [] ∨ req.room ∈ d.rooms obj') → q ≠ [] →
        step sc d (.recv typ q) = some d' → d'.closed = false →
        ∃ r k ws, Says sc.known req e r ∧ d'.log = d.log ++ k ∧
          Adds sc k [⟨obj', { r with isLocal := false }, true, r.room ∈ d.rooms obj'⟩] ws [] [] ∧
          (verdict sc d obj' { r with isLocal := false } = none → ws = []) ∧
          ∀ e', verdict sc d obj' { r with isLocal := false } = some e' →
            ∃ q', ws = [(r.setBinary, q')] ∧ ∀ known t an, Says known r e' (deserializeMessage known t q' an false) := by
  have htok : PlainToken req.wait := by rw [hw]; exact (c01_generated_tokens_plain false now).2
  obtain ⟨l, q, h1, h2, h3⟩ := c63_answered hr hs hev htok hlong hn hroom hv hc
  refine ⟨l, q, h1, h2, ?_⟩
  intro sc ids d d' typ obj' hrd hon hack hsrv hwt hgate hn' hroom' hq hst hcl
  have hsay := h3 sc.known typ sc.allowNative
  generalize hg : deserializeMessage sc.known typ q sc.allowNative false = r at hsay
  have hin : Incoming sc d typ q r := by
    refine ⟨hq, hack, by rw [hon]; exact hg, hsay.valid, hon, .inr (.inl hsay.plain), .inr (.inl ?_), .inl ?_⟩
    · rw [hsay.wait]; exact hsrv
    · rw [hsay.wait]; exact hwt
  have hH : Handled sc d r d' := .recv typ q hin (by rw [hsay.ns]; exact hgate) hst
  have hev' : NotRequest r.event := by rw [hsay.event]; exact hev
  have hnr : d.namespace r.ns = some obj' := by rw [hsay.ns]; exact hn'
  cases hve : verdict sc d obj' { r with isLocal := false } with
  | none =>
    obtain ⟨k, k1, k2⟩ := c63_unanswered hrd hH hev' hnr hve hcl
    exact ⟨r, k, [], hsay, k1, k2, fun _ => rfl, fun e' he => by rw [hve] at he; cases he⟩
  | some e' =>
    obtain ⟨k, q', k1, k2, k3⟩ := c63_answered hrd hH hev' (by rw [hsay.wait]; exact htok)
      (by rw [hsay.wait]; exact hlong) hnr (by rw [hsay.room]; exact hroom') hve hcl
    refine ⟨r, k, _, hsay, k1, k2, (fun he => by rw [hve] at he; cases he), ?_⟩
    intro e'' he
    rw [hve] at he
    cases he
    exact ⟨q', rfl, k3⟩

/-- C75 is false for native messages even with the mark: what is published is the body alone, and
the Ask returns an empty message without an error. -/
theorem c75_native_refuted (known : List KnownErr) :
    ∃ m : Message, m = deserializeMessage known .text (b! "7!8;;;_OnNativeMessage;0;0;hi") true false ∧
      m.fromStackExchange = true ∧ m.wait = b! "78" ∧ m.body = b! "hi" ∧
      notifyPayload m = some (b! "hi") ∧
      let r := deserializeMessage known .text (b! "hi") false false
      r.isInvalid = true ∧ r.body = [] ∧ r.err = none := by
  exact ⟨_, rfl, rfl, rfl, rfl, rfl, rfl, rfl, rfl⟩

/-- C75 is false with nats also because the Ask does not wait for its subscription: an answer that
the broker gets before it is lost, and the Ask ends with its context. -/
theorem c75_early_refuted (known : List KnownErr) (token p : Bytes) (e : GoErr) :
    (exAskRun known ⟨token, false, none⟩ [.published token p, .subscribed, .ctxDone e]).result =
      some ({}, some e) := rfl

/-- callbacks that answer `q` with `yes` -/
def yesCb : List Obs → Nat → Bytes → Message → List Act × Option GoErr :=
  fun _ _ _ m => ([], if m.event = b! "q" then some (.reply (b! "yes")) else none)

/-- the hypotheses of `c75_unrecognised_refuted`: the exchange writes a request of `Server.Ask` to the
connection, the client handles it and answers `yes`; the server connection does not tell its exchange but
runs its own callback with `yes` and answers it, and so does the client in turn -/
example : let cc := clientCfg chatDecl yesCb
    let sc := { serverCfg chatDecl yesCb with usesExchange := true }
    let c := after cc (b! "1") chatOps
    let d := after sc (b! "1") chatSrvOps
    let m := exchangeRequest { ns := b! "chat", event := b! "q", body := b! "?" } 1700
    let p := (serializeMessage m).getD []
    let d1 := (psDeliver sc d p).1
    let c1 := (runOps cc c [.recv .text p]).getD {}
    let q := b! "R700;chat;;q;0;0;yes"
    let d2 := (runOps sc d1 [.recv .text q]).getD {}
    m.wait = b! "R700" ∧ (psDeliver sc d p).2 = true ∧
      sentOf (d1.log.drop d.log.length) = [(false, p)] ∧
      (runOps cc c [.recv .text p]).isSome = true ∧ c1.closed = false ∧
      (callsOf (c1.log.drop c.log.length)).map (·.msg.body) = [b! "?"] ∧
      sentOf (c1.log.drop c.log.length) = [(false, q)] ∧
      (runOps sc d1 [.recv .text q]).isSome = true ∧ d2.closed = false ∧
      (d2.log.drop d1.log.length).any (fun o => match o with | .notifyAsk _ => true | _ => false) = false ∧
      (callsOf (d2.log.drop d1.log.length)).map (·.msg.body) = [b! "yes"] ∧
      sentOf (d2.log.drop d1.log.length) = [(false, q)] := by
  decide +kernel

/-- the hypotheses of `c75_marked_partial`: the same answer with the mark inserted ends the Ask -/
example : let sc := { serverCfg chatDecl yesCb with usesExchange := true }
    let d := after sc (b! "1") chatSrvOps
    let b := b! "R!700;chat;;q;0;0;yes"
    let r := deserializeMessage sc.known .text b sc.allowNative sc.onlyNative
    (runOps sc d [.recv .text b]).isSome = true ∧ r.fromStackExchange = true ∧ r.wait = b! "R700" ∧
      notifyPayload r = some (b! ";chat;;q;0;0;yes") ∧
      ((exAskRun [] ⟨b! "R700", false, none⟩ [.published (b! "other") (b! "x"), .subscribed,
        .published (b! "R700") (b! ";chat;;q;0;0;yes"), .ctxDone errWrite]).result).map (fun x => (x.1.body, x.2)) =
          some (b! "yes", none) := by
  decide +kernel

/-- `c75_start`: a request to the namespace over redis -/
example : (exAskStart true (fun m => redisChannel (b! "neffos") m.ns m.room m.to)
    (exchangeRequest { ns := b! "chat", event := b! "q" } 1700)
    (exchangeRequest { ns := b! "chat", event := b! "q" } 1700).wait none true).map (·.2) =
      some [(b! "neffos.chat.", b! "R700;chat;;q;0;0;")] := by
  decide +kernel

end Neffos
