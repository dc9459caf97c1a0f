import Verif.Props.AgreeMany
/-!
# C79: what becomes of a plain Ask while any number of calls are in flight
-/
set_option autoImplicit false
namespace Neffos
open Neffos.Spec

variable {cc sc : Cfg} {id : Bytes} {ops : List SessOp} {s s' : Sess}

/-- C79: whatever else is in flight, when an Ask of the client returns an answer, then this Ask was made, the
server called a callback for exactly this message, and the answer says what that callback returned. -/
theorem c79_answer {i : Nat} {a : AskRec} (hcons : Consistent cc sc) (hnc : cc.allowNative = false)
    (hns : sc.allowNative = false) (hcl : cc.isClient = true) (hsc : sc.isClient = false)
    (h : ManyRun cc sc id ops s) (ha : s.c.asks[i]? = some a) (hu : a.cont = .user)
    (hst : sstep cc sc s (.client (.resume i)) = some s')
    (hc : s'.c.closed = false) (hd : s'.d.closed = false) :
    ∃ r w e, a.box = some r ∧ s'.c.log = s.c.log ++ [.ret .user (.answer r r.err)] ∧ s'.d = s.d ∧
      AskedFor ops a.tok w ∧ AskTold s.d w a.tok e ∧ Says cc.known { w with wait := a.tok } e r := by
  have hinv := many_inv hcons hnc hns hcl hsc h
  simp only [sstep, Op.reads, Bool.false_eq_true, if_false] at hst
  obtain ⟨t, ht, rfl⟩ := Option.map_eq_some_iff.mp hst
  have hc0 := closed_of_prims (reach_prims hinv.rc ht) hc
  rcases hinv.phase with x | x | ⟨hf, x⟩ | ⟨A, B, X, x⟩
  · rw [hc0] at x; cases x
  · rw [show s.d.closed = false from hd] at x; cases x
  · rw [hf.asks] at ha; simp at ha
  · obtain ⟨_, a', m, ha', hb, _, hinfo⟩ := many_resume hcons hinv.rc x ht hc
    rw [ha] at ha'
    cases ha'
    obtain ⟨k1, w, e, k2, k3, k4⟩ := hinfo hu
    exact ⟨m, w, e, hb, k1, rfl, k2, k3, k4⟩

/-- C79: an Ask that has its answer can return at once, whatever else is in flight. -/
theorem c79_ready {i : Nat} {a : AskRec} (hcons : Consistent cc sc) (hnc : cc.allowNative = false)
    (hns : sc.allowNative = false) (hcl : cc.isClient = true) (hsc : sc.isClient = false)
    (h : ManyRun cc sc id ops s) (ha : s.c.asks[i]? = some a) (hu : a.cont = .user) (hdone : a.done = false)
    (hb : a.box ≠ none) : ∃ s', sstep cc sc s (.client (.resume i)) = some s' := by
  have hinv := many_inv hcons hnc hns hcl hsc h
  obtain ⟨r, hr⟩ : ∃ r, a.box = some r := by
    cases hx : a.box with
    | none => exact absurd hx hb
    | some r => exact ⟨r, rfl⟩
  have hst : step cc s.c (.resume i) = some (finish cc (resumed s.c i a) .user r r.err) := by
    refine step_of_exec ?_ ?_
    · simp only [exec]
      unfold resume
      rw [ha]
      dsimp only
      rw [hdone, hr]
      simp [hu, resumed]
    · show (resumed _ _ _).hung = false
      rw [show (resumed s.c i a).hung = s.c.hung by
        unfold resumed forget endAsk takeAnswer; (repeat' split) <;> rfl]
      exact reach_hung hinv.rc
  refine ⟨{ s with c := finish cc (resumed s.c i a) .user r r.err }, ?_⟩
  simp only [sstep, Op.reads, Bool.false_eq_true, if_false, hst, Option.map_some]

/-- C79: and when all that was sent has been read, an Ask that still waits without an answer waits for a
reason: the server read it when it was not connected to its namespace, or it called the callback and the callback
returned nil, or it is not in the room of the message, or its socket did not take the answer. -/
theorem c79_waiting {i : Nat} {a : AskRec} (hcons : Consistent cc sc) (hnc : cc.allowNative = false)
    (hns : sc.allowNative = false) (hcl : cc.isClient = true) (hsc : sc.isClient = false)
    (h : ManyRun cc sc id ops s) (hc : s.c.closed = false) (hd : s.d.closed = false)
    (hup : (pipe s.c.log).length ≤ s.up) (hdown : (pipe s.d.log).length ≤ s.down)
    (ha : s.c.asks[i]? = some a) (hu : a.cont = .user) (hdone : a.done = false) (hb : a.box = none) :
    ∃ w, AskedFor ops a.tok w ∧ (Away cc sc id ops a.tok w ∨ Silence s.d w a.tok) := by
  have hinv := many_inv hcons hnc hns hcl hsc h
  rcases hinv.phase with x | x | ⟨hf, x⟩ | ⟨A, B, X, x⟩
  · rw [hc] at x; cases x
  · rw [hd] at x; cases x
  · rw [hf.asks] at ha; simp at ha
  · obtain ⟨p, hp, hpi⟩ := x.cover i a ha hdone
    have hA : A = [] := by
      have := x.up
      rw [List.drop_of_length_le hup] at this
      cases this; rfl
    have hB : B = [] := by
      have := x.down
      rw [List.drop_of_length_le hdown] at this
      cases this; rfl
    subst hA hB
    simp only [calls, List.map_nil, List.nil_append, List.mem_map] at hp
    obtain ⟨z, hz, rfl⟩ := hp
    have hat := x.atX z hz
    unfold AskIs at hat
    rw [hpi, ha] at hat
    have hae := Option.some.inj hat
    have htok : a.tok = z.1.tok := by rw [hae]
    have hbox : z.2.2 = none := by rw [← hb, hae]
    have hreq : z.1.req = none := by
      cases hq : z.1.req with
      | none => rfl
      | some q =>
        have hab := ((x.ready z.1 (by simp only [calls, List.map_nil, List.nil_append]; exact List.mem_map_of_mem hz)).req q hq).2.2.1
        rw [show z.1.k = .user by rw [← hu, hae]] at hab
        cases hab
    obtain ⟨w, k1, k2⟩ := (x.lost z hz hbox).1 hreq
    rw [htok]
    exact ⟨w, k1, k2⟩

/-- C79: the reader means to answer a message for a namespace that is not connected with
`ErrBadNamespace`, but its own write gate refuses that answer: nothing is written, whatever the message. -/
theorem c79_badnamespace_refuted {d d' : St} {req : Message} (hr : Reach sc id d) (hs : Handled sc d req d')
    (h1 : req.event ≠ OnNamespaceConnect) (h2 : req.event ≠ OnNamespaceDisconnect) (hn : d.namespace req.ns = none) :
    d'.log = d.log := by
  obtain ⟨rfl, _⟩ := handled hr hs h1 h2
  unfold afterGate
  rw [show ({ d with rd := .idle } : St).namespace req.ns = none from hn]
  dsimp only
  have hmay : ¬ MayWrite sc { d with rd := .idle } { req with err := some errBadNamespace } := by
    rintro ⟨_, _, k | k | ⟨obj, k, _⟩⟩
    · exact h1 k
    · exact h2 k
    · rw [show ({ d with rd := .idle } : St).namespace ({ req with err := some errBadNamespace } : Message).ns = none from hn] at k
      cases k
  have := (write_maynot hmay).log
  simpa using this

/-! ## Concrete sessions -/

/-- asked at a time: `hi`, which is replied to, and `ho`, which is not; a Disconnect of `chat` and then
one more `hi` -/
def askSess : List SessOp :=
  dialOps ++ [.client (.connect (b! "chat") 7 false), .up, .down, .client (.resume 0),
    .client (.ask { ns := b! "chat", event := b! "hi", body := b! "x" } 8 false),
    .client (.ask { ns := b! "chat", event := b! "ho" } 9 false),
    .client (.disconnect 0 10 false), .client (.ask { ns := b! "chat", event := b! "hi" } 11 false),
    .up, .up, .up, .up, .down, .down]

abbrev asking : Sess := manyRan busyCli busySrv (b! "u1") askSess

/-- C79: the hypotheses hold; the first Ask has its answer, which is the reply; the Ask of `ho` waits, the
callback returned nil; so does the last one, which the server read after the Disconnect -/
example : Consistent busyCli busySrv ∧ busyCli.allowNative = false ∧ busySrv.allowNative = false ∧
    busyCli.isClient = true ∧ busySrv.isClient = false ∧
    ManyRun busyCli busySrv (b! "u1") askSess asking ∧ asking.c.closed = false ∧ asking.d.closed = false ∧
    (pipe asking.c.log).length ≤ asking.up ∧ (pipe asking.d.log).length ≤ asking.down ∧
    (asking.c.asks.map fun a => (decide (a.cont = .user), a.done, a.box.map (·.body))) =
      [(false, true, none), (true, false, some (b! "yo")), (true, false, none), (false, false, some []), (true, false, none)] ∧
    sstep busyCli busySrv asking (.client (.resume 1)) = some (busyThen asking 1) ∧
    (busyThen asking 1).c.closed = false ∧ (busyThen asking 1).d.closed = false ∧
    asking.d.namespace (b! "chat") = none ∧
    (callsOf asking.d.log).map (fun c => (c.msg.event, c.msg.body)) =
      [(OnNamespaceConnect, []), (OnNamespaceConnected, []), (b! "hi", b! "x"), (b! "ho", []), (OnNamespaceDisconnect, [])] :=
  ⟨busy_consistent, by decide +kernel, by decide +kernel, by decide +kernel, by decide +kernel,
    manyRan_run (by decide +kernel), by decide +kernel, by decide +kernel, by decide +kernel, by decide +kernel,
    by decide +kernel, stepped_eq (by decide +kernel), by decide +kernel, by decide +kernel, by decide +kernel, by decide +kernel⟩

/-- the client leaves a room and asks `hi` for that room before its Leave has returned -/
def leftSess : List SessOp :=
  dialOps ++ [.client (.connect (b! "chat") 7 false), .up, .down, .client (.resume 0),
    .client (.join 0 (b! "r") 8 false), .up, .down, .client (.resume 1),
    .client (.leave 0 (b! "r") 9 false), .client (.ask { ns := b! "chat", room := b! "r", event := b! "hi" } 10 false),
    .up, .up, .down]

abbrev leaving : Sess := manyRan busyCli busySrv (b! "u1") leftSess

/-- C79: the callback replied, but the server has left the room; all has been read and the Ask waits -/
example : ManyRun busyCli busySrv (b! "u1") leftSess leaving ∧ leaving.c.closed = false ∧ leaving.d.closed = false ∧
    (pipe leaving.c.log).length ≤ leaving.up ∧ (pipe leaving.d.log).length ≤ leaving.down ∧
    (leaving.c.asks.drop 3).map (fun a => (decide (a.cont = .user), a.done, a.box.map (·.body))) = [(true, false, none)] ∧
    (callsOf leaving.d.log).map (fun c => (c.msg.event, c.msg.room, c.inRoom)) =
      [(OnNamespaceConnect, [], false), (OnNamespaceConnected, [], false), (OnRoomJoin, b! "r", false),
        (OnRoomJoined, b! "r", true), (OnRoomLeave, b! "r", true), (OnRoomLeft, b! "r", false), (b! "hi", b! "r", false)] :=
  ⟨manyRan_run (by decide +kernel), by decide +kernel, by decide +kernel, by decide +kernel, by decide +kernel,
    by decide +kernel, by decide +kernel⟩

/-- C79: an Ask for a namespace that the server declares but is not connected to -/
example : Reach busySrv (b! "u1") (after busySrv (b! "u1") [.ready none, .recv .text (b! "M")]) ∧
    Handled busySrv (after busySrv (b! "u1") [.ready none, .recv .text (b! "M")]) { wait := b! "$1", ns := b! "chat", event := b! "hi" }
      (after busySrv (b! "u1") [.ready none, .recv .text (b! "M"), .recv .text (b! "$1;chat;;hi;0;0;")]) ∧
    (after busySrv (b! "u1") [.ready none, .recv .text (b! "M")]).namespace (b! "chat") = none :=
  ⟨after_reach (by decide +kernel), handled_of (ops := [.ready none, .recv .text (b! "M")]) (by decide +kernel) (by decide +kernel) (by decide +kernel),
    by decide +kernel⟩

end Neffos
