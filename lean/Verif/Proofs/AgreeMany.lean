import Verif.Proofs.Fits
import Verif.Props.AskEnd
/-!
Helper lemmas for the agreement of the two sides: sessions with several calls in flight.
-/
set_option autoImplicit false
namespace Neffos
open Neffos.Spec

variable {cfg cc sc : Cfg} {id : Bytes} {known : List KnownErr}

/-! ### Payloads on their way -/

/-- payloads without a token, and those of these items, in their order, in between -/
inductive Weave {α : Type} (R : α → MsgType × Bytes → Prop) : List (MsgType × Bytes) → List α → Prop
  | nil : Weave R [] []
  | calm {x : MsgType × Bytes} {l : List (MsgType × Bytes)} {A : List α} : CalmP x → Weave R l A → Weave R (x :: l) A
  | item {a : α} {x : MsgType × Bytes} {l : List (MsgType × Bytes)} {A : List α} : R a x → ¬ CalmP x →
      Weave R l A → Weave R (x :: l) (a :: A)

variable {α : Type} {R : α → MsgType × Bytes → Prop}

theorem Weave.append {l l' : List (MsgType × Bytes)} {A A' : List α} (h : Weave R l A) (k : Weave R l' A') :
    Weave R (l ++ l') (A ++ A') := by
  induction h with
  | nil => exact k
  | calm hx _ ih => exact .calm hx ih
  | item hx hn _ ih => exact .item hx hn ih

theorem weave_calms {l : List (MsgType × Bytes)} (h : Calms l) : Weave R l [] := by
  induction l with
  | nil => exact .nil
  | cons x l ih => exact .calm (h x (List.mem_cons_self ..)) (ih fun y hy => h y (List.mem_cons_of_mem _ hy))

theorem Weave.calms {l l' : List (MsgType × Bytes)} {A : List α} (h : Weave R l A) (k : Calms l') :
    Weave R (l ++ l') A := by simpa using h.append (weave_calms k)

theorem Weave.one {l l1 l2 : List (MsgType × Bytes)} {A : List α} {a : α} {x : MsgType × Bytes} (h : Weave R l A)
    (h1 : Calms l1) (h2 : Calms l2) (hx : R a x) (hn : ¬ CalmP x) : Weave R (l ++ (l1 ++ x :: l2)) (A ++ [a]) :=
  h.append ((weave_calms h1).append (.item hx hn (weave_calms h2)))

theorem Weave.tail {x : MsgType × Bytes} {l : List (MsgType × Bytes)} {A : List α} (h : Weave R (x :: l) A)
    (hx : CalmP x) : Weave R l A := by
  cases h with
  | calm _ h => exact h
  | item _ hn _ => exact absurd hx hn

theorem Weave.head {x : MsgType × Bytes} {l : List (MsgType × Bytes)} {A : List α} (h : Weave R (x :: l) A)
    (hx : ¬ CalmP x) : ∃ a A', A = a :: A' ∧ R a x ∧ Weave R l A' := by
  cases h with
  | calm hc _ => exact absurd hc hx
  | item hr _ h => exact ⟨_, _, rfl, hr, h⟩

/-! ### What requests touch -/

/-- the namespaces that the request may change -/
def Req.onNs (n : Bytes) : Req → Prop
  | .connect ns => n = ns
  | .disconnect ns => n = ns
  | .join _ _ => False
  | .leave _ _ => False

/-- the rooms that the request may change -/
def Req.onRoom (n r : Bytes) : Req → Prop
  | .connect ns => n = ns
  | .disconnect ns => n = ns
  | .join ns room => n = ns ∧ r = room
  | .leave ns room => n = ns ∧ r = room

theorem Req.ns_off {q : Req} {acc : Bool} {P : Bytes → Prop} {n : Bytes} (h : ¬ q.onNs n) : q.ns acc P n ↔ P n := by
  cases q <;> simp only [Req.onNs] at h <;> simp [Req.ns, h]

theorem Req.room_off {q : Req} {acc : Bool} {P : Bytes → Bytes → Prop} {n r : Bytes} (h : ¬ q.onRoom n r) :
    q.room acc P n r ↔ P n r := by
  cases q <;> simp only [Req.onRoom, not_and] at h <;> simp [Req.room]
  · intro _ _; exact h
  · intro _ h1 h2; exact absurd h2 (h h1)
  · intro _ _ h1; exact h h1

theorem Req.ns_congr {q : Req} {acc : Bool} {P P' : Bytes → Prop} {n : Bytes} (h : P n ↔ P' n) :
    q.ns acc P n ↔ q.ns acc P' n := by
  cases q <;> simp [Req.ns, h]

theorem Req.room_congr {q : Req} {acc : Bool} {P P' : Bytes → Bytes → Prop} {n r : Bytes} (h : P n r ↔ P' n r) :
    q.room acc P n r ↔ q.room acc P' n r := by
  cases q <;> simp [Req.room, h]

theorem Spec.Clash.symm {x y : Bytes × Option Bytes} (h : Clash x y) : Clash y x := by
  obtain ⟨h1, h2 | h2 | h2⟩ := h
  · exact ⟨h1.symm, .inr (.inl h2)⟩
  · exact ⟨h1.symm, .inl h2⟩
  · exact ⟨h1.symm, .inr (.inr h2.symm)⟩

theorem clash_ns {q q' : Req} {n : Bytes} (h : q.onNs n) (k : q'.onNs n) : Clash q.about q'.about := by
  cases q <;> simp only [Req.onNs] at h <;> cases q' <;> simp only [Req.onNs] at k <;>
    exact ⟨h.symm.trans k, .inl rfl⟩

theorem clash_room {q q' : Req} {n r : Bytes} (h : q.onRoom n r) (k : q'.onRoom n r) : Clash q.about q'.about := by
  cases q <;> simp only [Req.onRoom] at h <;> cases q' <;> simp only [Req.onRoom] at k <;>
    first
    | exact ⟨h.symm.trans k, .inl rfl⟩
    | exact ⟨h.symm.trans k.1, .inl rfl⟩
    | exact ⟨h.1.symm.trans k, .inr (.inl rfl)⟩
    | exact ⟨h.1.symm.trans k.1, .inr (.inr (congrArg some (h.2.symm.trans k.2)))⟩

/-- where the request is at work, `t` is where `s` gets with it accepted or not -/
def MovesHere (q : Req) (acc : Bool) (s t : St) : Prop :=
  (∀ n, q.onNs n → (InNs t n ↔ q.ns acc (InNs s) n)) ∧
    ∀ n r, q.onRoom n r → (InRoom t n r ↔ q.room acc (InRoom s) n r)

/-! ### Calls in flight -/

/-- a call in flight: its place among the Asks, what it is for, its token, the request that it made
(a plain Ask makes none) and the payload that it sent -/
structure Pend where
  i : Nat
  k : Cont
  tok : Bytes
  req : Option Req
  load : MsgType × Bytes

/-- requests at work on the server's side before the client's call completes -/
structure Differ (sc : Cfg) (c d : St) (Z : List (Pend × Option GoErr)) : Prop where
  done : ∀ z ∈ Z, ∀ q, z.1.req = some q → MovesHere q z.2.isNone c d ∧ ∀ e, z.2 = some e → q.No sc d e
  ns : ∀ n, (∀ z ∈ Z, ∀ q, z.1.req = some q → ¬ q.onNs n) → (InNs c n ↔ InNs d n)
  room : ∀ n r, (∀ z ∈ Z, ∀ q, z.1.req = some q → ¬ q.onRoom n r) → (InRoom c n r ↔ InRoom d n r)

theorem Differ.congr {c d c' d' : St} {Z : List (Pend × Option GoErr)} {l : List Obs} (h : Differ sc c d Z)
    (hc : Agree c c') (hd : Agree d d') (hl : d'.log = d.log ++ l) : Differ sc c' d' Z := by
  refine ⟨fun z hz q hq => ?_, fun n hn => ?_, fun n r hn => ?_⟩
  · obtain ⟨⟨h1, h2⟩, h3⟩ := h.done z hz q hq
    exact ⟨⟨fun n hn => (hd.1 n).symm.trans ((h1 n hn).trans (Req.ns_congr (hc.1 n))),
      fun n r hn => (hd.2 n r).symm.trans ((h2 n r hn).trans (Req.room_congr (hc.2 n r)))⟩,
      fun e he => (h3 e he).grows hl⟩
  · exact (hc.1 n).symm.trans ((h.ns n hn).trans (hd.1 n))
  · exact (hc.2 n r).symm.trans ((h.room n r hn).trans (hd.2 n r))

theorem Differ.mem {c d : St} {Z Z' : List (Pend × Option GoErr)} (h : Differ sc c d Z) (hz : ∀ z, z ∈ Z' ↔ z ∈ Z) :
    Differ sc c d Z' :=
  ⟨fun z k => h.done z ((hz z).mp k), fun n k => h.ns n fun z x => k z ((hz z).mpr x),
    fun n r k => h.room n r fun z x => k z ((hz z).mpr x)⟩

/-- a plain Ask changes nothing -/
theorem Differ.plain {c d : St} {Z : List (Pend × Option GoErr)} {p : Pend} {r : Option GoErr} (hp : p.req = none) :
    Differ sc c d ((p, r) :: Z) ↔ Differ sc c d Z := by
  constructor
  · intro h
    refine ⟨fun z hz => h.done z (List.mem_cons_of_mem _ hz), fun n hn => h.ns n fun z hz => ?_,
      fun n r hn => h.room n r fun z hz => ?_⟩
    all_goals
      rcases List.mem_cons.mp hz with rfl | hz
      · intro q hq; rw [hp] at hq; cases hq
      · exact hn z hz
  · intro h
    refine ⟨fun z hz => ?_, fun n hn => h.ns n fun z hz => hn z (List.mem_cons_of_mem _ hz),
      fun n r hn => h.room n r fun z hz => hn z (List.mem_cons_of_mem _ hz)⟩
    rcases List.mem_cons.mp hz with rfl | hz
    · intro q hq; rw [hp] at hq; cases hq
    · exact h.done z hz

/-- the server handles one more request -/
theorem Differ.add {c d d' : St} {Z : List (Pend × Option GoErr)} {p : Pend} {r : Option GoErr} {q : Req}
    {l : List Obs} (h : Differ sc c d Z) (hp : p.req = some q) (hm : Moves q r.isNone d d') (hl : d'.log = d.log ++ l)
    (hno : ∀ e, r = some e → q.No sc d' e)
    (hz : ∀ z ∈ Z, ∀ q', z.1.req = some q' → ¬ Clash q.about q'.about) : Differ sc c d' ((p, r) :: Z) := by
  refine ⟨fun z hz' q' hq => ?_, fun n hn => ?_, fun n r' hn => ?_⟩
  · rcases List.mem_cons.mp hz' with rfl | hz'
    · rw [hp] at hq
      cases hq
      refine ⟨⟨fun n hn => ?_, fun n r' hn => ?_⟩, hno⟩
      · refine (hm.1 n).trans (Req.ns_congr (h.ns n fun z k q' e x => ?_).symm)
        exact hz z k q' e (clash_ns hn x)
      · refine (hm.2 n r').trans (Req.room_congr (h.room n r' fun z k q' e x => ?_).symm)
        exact hz z k q' e (clash_room hn x)
    · obtain ⟨⟨h1, h2⟩, h3⟩ := h.done z hz' q' hq
      have hnc := hz z hz' q' hq
      refine ⟨⟨fun n hn => ?_, fun n r' hn => ?_⟩, fun e he => (h3 e he).grows hl⟩
      · exact ((hm.1 n).trans (Req.ns_off fun x => hnc (clash_ns x hn))).trans (h1 n hn)
      · exact ((hm.2 n r').trans (Req.room_off fun x => hnc (clash_room x hn))).trans (h2 n r' hn)
  · have h1 := h.ns n fun z k => hn z (List.mem_cons_of_mem _ k)
    exact h1.trans ((hm.1 n).trans (Req.ns_off (hn _ (List.mem_cons_self ..) q hp))).symm
  · have h1 := h.room n r' fun z k => hn z (List.mem_cons_of_mem _ k)
    exact h1.trans ((hm.2 n r').trans (Req.room_off (hn _ (List.mem_cons_self ..) q hp))).symm

/-- the client's call completes -/
theorem Differ.remove {c d t : St} {Z : List (Pend × Option GoErr)} {p : Pend} {r : Option GoErr} {q : Req}
    (h : Differ sc c d ((p, r) :: Z)) (hp : p.req = some q) (hm : Moves q r.isNone c t)
    (hz : ∀ z ∈ Z, ∀ q', z.1.req = some q' → ¬ Clash q.about q'.about) : Differ sc t d Z := by
  obtain ⟨⟨hd1, hd2⟩, _⟩ := h.done _ (List.mem_cons_self ..) q hp
  refine ⟨fun z hz' q' hq => ?_, fun n hn => ?_, fun n r' hn => ?_⟩
  · obtain ⟨⟨h1, h2⟩, h3⟩ := h.done z (List.mem_cons_of_mem _ hz') q' hq
    have hnc := hz z hz' q' hq
    refine ⟨⟨fun n hn => ?_, fun n r' hn => ?_⟩, h3⟩
    · exact (h1 n hn).trans (Req.ns_congr ((hm.1 n).trans (Req.ns_off fun x => hnc (clash_ns x hn))).symm)
    · exact (h2 n r' hn).trans (Req.room_congr ((hm.2 n r').trans (Req.room_off fun x => hnc (clash_room x hn))).symm)
  · by_cases hx : q.onNs n
    · exact (hm.1 n).trans (hd1 n hx).symm
    · refine ((hm.1 n).trans (Req.ns_off hx)).trans (h.ns n fun z k q' e => ?_)
      rcases List.mem_cons.mp k with rfl | k
      · rw [hp] at e; cases e; exact hx
      · exact hn z k q' e
  · by_cases hx : q.onRoom n r'
    · exact (hm.2 n r').trans (hd2 n r' hx).symm
    · refine ((hm.2 n r').trans (Req.room_off hx)).trans (h.room n r' fun z k q' e => ?_)
      rcases List.mem_cons.mp k with rfl | k
      · rw [hp] at e; cases e; exact hx
      · exact hn z k q' e

/-- what is known of the past of a session: the plain Asks that were made with a token, and those
that the server read when it was not connected to their namespace -/
structure Past where
  asked : Bytes → Message → Prop
  away : Bytes → Message → Prop

/-- what is known about a call in flight -/
structure Ready (P : Past) (c : St) (p : Pend) : Prop where
  waiting : mapGet c.waiting p.tok = some p.i
  tok : CliTok p.tok
  req : ∀ q, p.req = some q → q.Safe ∧ Waits q p.k c ∧ about p.k = some q.about ∧
    p.load = (.text, wireOf (q.msg p.tok))
  ask : p.req = none → p.k = .user ∧ ∃ m, P.asked p.tok m ∧ AskMsg m ∧
    p.load = (if m.setBinary then .binary else .text, wireOf { m with wait := p.tok })

/-- its Ask -/
def AskIs (c : St) (p : Pend) (box : Option Message) : Prop :=
  c.asks[p.i]? = some ⟨p.tok, p.k, .table, box, false⟩

/-- two calls that do not disturb each other -/
def Apart (p p' : Pend) : Prop :=
  p.tok ≠ p'.tok ∧ ∀ q q', p.req = some q → p'.req = some q' → ¬ Clash q.about q'.about

theorem Apart.symm {p p' : Pend} (h : Apart p p') : Apart p' p :=
  ⟨h.1.symm, fun q q' h1 h2 x => h.2 q' q h2 h1 x.symm⟩

/-- a payload that a call with this token gets -/
structure Names (known : List KnownErr) (tok : Bytes) (x : MsgType × Bytes) : Prop where
  nonempty : x.2 ≠ []
  wait : (deserializeMessage known x.1 x.2 false false).wait = tok
  valid : (deserializeMessage known x.1 x.2 false false).isInvalid = false

theorem Names.notCalm {tok : Bytes} {x : MsgType × Bytes} (h : Names known tok x) (ht : CliTok tok) : ¬ CalmP x := by
  rintro ⟨t, e⟩
  have hw := h.wait
  rw [e, (decode_calm known x.1 t).1] at hw
  obtain ⟨t', e'⟩ := ht.2
  rw [e'] at hw
  cases hw

/-- the message answers this call, with this outcome of its request -/
def Outcome (P : Past) (known : List KnownErr) (d : St) (p : Pend) (r : Option GoErr) (m : Message) : Prop :=
  (∀ q, p.req = some q → Carries known r m.err) ∧
    (p.req = none → ∃ w e, P.asked p.tok w ∧ AskTold d w p.tok e ∧ Says known { w with wait := p.tok } e m)

/-- the payload answers this call, with this outcome of its request -/
def Replies (P : Past) (known : List KnownErr) (d : St) (z : Pend × Option GoErr) (x : MsgType × Bytes) : Prop :=
  Names known z.1.tok x ∧ Outcome P known d z.1 z.2 (deserializeMessage known x.1 x.2 false false)

/-- the socket did not take the answer to this request -/
def Dropped (d : St) (tok : Bytes) : Prop :=
  ∃ bin b, Obs.sent bin b false ∈ d.log ∧ ∀ known, Names known tok (if bin then .binary else .text, b)

/-- why the server does not answer this call -/
def Unheard (P : Past) (d : St) (p : Pend) : Prop :=
  (p.req = none → ∃ w, P.asked p.tok w ∧ (P.away p.tok w ∨ Silence d w p.tok)) ∧ (p.req ≠ none → Dropped d p.tok)

theorem told_grows {d d' : St} {l : List Obs} {m : Message} {tok : Bytes} {e : GoErr} (h : AskTold d m tok e)
    (hl : d'.log = d.log ++ l) : AskTold d' m tok e := by
  obtain ⟨obj, v, M, k, h1, h2⟩ := h
  exact ⟨obj, v, M, k, by rw [hl]; exact List.mem_append_left _ h1, h2⟩

theorem silence_grows {d d' : St} {l : List Obs} {m : Message} {tok : Bytes} (h : Silence d m tok)
    (hl : d'.log = d.log ++ l) : Silence d' m tok := by
  have up : ∀ {o : Obs}, o ∈ d.log → o ∈ d'.log := fun h => by rw [hl]; exact List.mem_append_left _ h
  cases h with
  | nil obj v M h h1 h2 => exact .nil obj v M h (up h1) h2
  | room obj v M h e h1 h2 h3 h4 => exact .room obj v M h e (up h1) h2 h3 h4
  | socket obj v M h e b h1 h2 h3 h4 => exact .socket obj v M h e b (up h1) h2 h3 (up h4)

variable {P : Past}

theorem Outcome.grows {d d' : St} {l : List Obs} {p : Pend} {r : Option GoErr} {m : Message}
    (h : Outcome P known d p r m) (hl : d'.log = d.log ++ l) : Outcome P known d' p r m :=
  ⟨h.1, fun hp => let ⟨w, e, h1, h2, h3⟩ := h.2 hp; ⟨w, e, h1, told_grows h2 hl, h3⟩⟩

theorem Unheard.grows {d d' : St} {l : List Obs} {p : Pend}
    (h : Unheard P d p) (hl : d'.log = d.log ++ l) : Unheard P d' p :=
  ⟨fun hp => let ⟨w, h1, h2⟩ := h.1 hp; ⟨w, h1, h2.imp id fun h2 => silence_grows h2 hl⟩,
    fun hp => let ⟨bin, b, h1, h2⟩ := h.2 hp; ⟨bin, b, by rw [hl]; exact List.mem_append_left _ h1, h2⟩⟩

theorem Weave.imp {S : α → MsgType × Bytes → Prop} {l : List (MsgType × Bytes)} {A : List α} (h : Weave R l A)
    (k : ∀ a x, R a x → S a x) : Weave S l A := by
  induction h with
  | nil => exact .nil
  | calm hx _ ih => exact .calm hx ih
  | item hx hn _ ih => exact .item (k _ _ hx) hn ih

theorem Weave.grows {d d' : St} {l : List Obs} {pd : List (MsgType × Bytes)} {B : List (Pend × Option GoErr)}
    (h : Weave (Replies P known d) pd B) (hl : d'.log = d.log ++ l) : Weave (Replies P known d') pd B :=
  h.imp fun _ _ k => ⟨k.1, k.2.grows hl⟩

/-- all calls in flight: not yet read by the server, answered by it, or no longer on the way -/
def calls (A : List Pend) (B : List (Pend × Option GoErr)) (X : List (Pend × Option GoErr × Option Message)) : List Pend :=
  A ++ (B.map (·.1) ++ X.map (·.1))

/-- those that the server has handled -/
def handledBy (B : List (Pend × Option GoErr)) (X : List (Pend × Option GoErr × Option Message)) :
    List (Pend × Option GoErr) := B ++ X.map fun x => (x.1, x.2.1)

theorem calls_of_handled {A : List Pend} {B : List (Pend × Option GoErr)}
    {X : List (Pend × Option GoErr × Option Message)} {z : Pend × Option GoErr} (h : z ∈ handledBy B X) :
    z.1 ∈ calls A B X := by
  simp only [handledBy, List.mem_append, List.mem_map] at h
  simp only [calls, List.mem_append, List.mem_map]
  rcases h with h | ⟨x, h, rfl⟩
  · exact .inr (.inl ⟨z, h, rfl⟩)
  · exact .inr (.inr ⟨x, h, rfl⟩)

/-! ### Which namespaces the payloads to the client are about -/

/-- those that are no longer on the way -/
def sideOf (X : List (Pend × Option GoErr × Option Message)) : List (Pend × Option GoErr) := X.map fun x => (x.1, x.2.1)

/-- those of them that have their answer -/
def boxedOf (X : List (Pend × Option GoErr × Option Message)) : List (Pend × Option GoErr) :=
  sideOf (X.filter fun x => x.2.2.isSome)

/-- the client is in the namespace when the Connects of `Z` and the Disconnects of `W` have completed -/
def After (c : St) (Z W : List (Pend × Option GoErr)) (n : Bytes) : Prop :=
  (∃ z ∈ Z, z.1.req = some (.connect n) ∧ z.2 = none) ∨
    (InNs c n ∧ ∀ z ∈ W, z.1.req = some (.disconnect n) → z.2 ≠ none)

theorem After.mono {c c' : St} {Z Z' W W' : List (Pend × Option GoErr)} {n : Bytes} (h : After c Z W n)
    (hc : InNs c n → InNs c' n) (hz : ∀ z ∈ Z, z ∈ Z') (hw : ∀ z ∈ W', z ∈ W) : After c' Z' W' n :=
  h.imp (fun ⟨z, h1, h2⟩ => ⟨z, hz z h1, h2⟩) fun ⟨h1, h2⟩ => ⟨hc h1, fun z k => h2 z (hw z k)⟩

/-- payloads and answers: each payload without a token is about a namespace that the condition allows
for the answers before it -/
inductive Seen (known : List KnownErr) (F : List (Pend × Option GoErr) → Bytes → Prop) :
    List (Pend × Option GoErr) → List (MsgType × Bytes) → List (Pend × Option GoErr) → Prop
  | nil {Y : List (Pend × Option GoErr)} : Seen known F Y [] []
  | calm {Y : List (Pend × Option GoErr)} {x : MsgType × Bytes} {l : List (MsgType × Bytes)}
      {B : List (Pend × Option GoErr)} : CalmP x → (∀ n, Talks known x n → F Y n) → Seen known F Y l B →
      Seen known F Y (x :: l) B
  | item {Y : List (Pend × Option GoErr)} {b : Pend × Option GoErr} {x : MsgType × Bytes} {l : List (MsgType × Bytes)}
      {B : List (Pend × Option GoErr)} : ¬ CalmP x → Seen known F (b :: Y) l B → Seen known F Y (x :: l) (b :: B)

variable {F G : List (Pend × Option GoErr) → Bytes → Prop} {Y : List (Pend × Option GoErr)}

theorem Seen.imp {l : List (MsgType × Bytes)} {B : List (Pend × Option GoErr)} (h : Seen known F Y l B)
    (k : ∀ Y' n, (∀ y ∈ Y', y ∈ Y ∨ y ∈ B) → F Y' n → G Y' n) : Seen known G Y l B := by
  induction h with
  | nil => exact .nil
  | calm hx ht _ ih => exact .calm hx (fun n hn => k _ n (fun y hy => .inl hy) (ht n hn)) (ih k)
  | item hx _ ih =>
    refine .item hx (ih fun Y' n hy => k Y' n fun y h => ?_)
    rcases hy y h with h | h
    · rcases List.mem_cons.mp h with rfl | h
      · exact .inr (List.mem_cons_self ..)
      · exact .inl h
    · exact .inr (List.mem_cons_of_mem _ h)

theorem Seen.shift {l : List (MsgType × Bytes)} {B W : List (Pend × Option GoErr)} (h : Seen known F (Y ++ W) l B) :
    Seen known (fun Y => F (Y ++ W)) Y l B := by
  generalize hV : Y ++ W = V at h
  induction h generalizing Y with
  | nil => exact .nil
  | calm hx ht _ ih => exact .calm hx (fun n hn => by rw [hV]; exact ht n hn) (ih hV)
  | item hx _ ih => exact .item hx (ih (by rw [← hV]; rfl))

theorem seen_calms {l : List (MsgType × Bytes)} (h : Calms l) (hf : Fits known (F Y) l) : Seen known F Y l [] := by
  induction l with
  | nil => exact .nil
  | cons x l ih =>
    exact .calm (h x (List.mem_cons_self ..)) (hf x (List.mem_cons_self ..) (h x (List.mem_cons_self ..)))
      (ih (fun y hy => h y (List.mem_cons_of_mem _ hy)) fun y hy => hf y (List.mem_cons_of_mem _ hy))

theorem Seen.append {l l' : List (MsgType × Bytes)} {B B' : List (Pend × Option GoErr)} (h : Seen known F Y l B)
    (k : Seen known F (B.reverse ++ Y) l' B') : Seen known F Y (l ++ l') (B ++ B') := by
  induction h with
  | nil => exact k
  | calm hx ht _ ih => exact .calm hx ht (ih k)
  | item hx _ ih => exact .item hx (ih (by simpa using k))

theorem Seen.calms {l l' : List (MsgType × Bytes)} {B : List (Pend × Option GoErr)} (h : Seen known F Y l B)
    (h1 : Calms l') (h2 : Fits known (F (B.reverse ++ Y)) l') : Seen known F Y (l ++ l') B := by
  simpa using h.append (seen_calms h1 h2)

/-- the payloads to the client, and the one that its reader holds -/
structure Talk (known : List KnownErr) (c d : St) (pd : List (MsgType × Bytes)) (B : List (Pend × Option GoErr))
    (X : List (Pend × Option GoErr × Option Message)) : Prop where
  cli : SafeNs c
  srv : SafeNs d
  seen : Seen known (fun Y => After c (Y ++ sideOf X) (Y ++ boxedOf X)) [] pd B
  held : ∀ M, c.rd = .gate M → After c (sideOf X) (boxedOf X) M.ns ∧
    ((gateOf c M.ns).done = false ∨ (gateOf c M.ns).count = 0)

theorem differ_after {c d : St} {Z W : List (Pend × Option GoErr)} {n : Bytes} (h : Differ sc c d Z)
    (hw : ∀ z ∈ W, z ∈ Z) (hn : InNs d n) : After c Z W n := by
  by_cases hx : ∃ z ∈ Z, z.1.req = some (.connect n) ∧ z.2 = none
  · exact .inl hx
  · refine .inr ⟨?_, fun z hz hq he => ?_⟩
    · by_cases hy : ∀ z ∈ Z, ∀ q, z.1.req = some q → ¬ q.onNs n
      · exact (h.ns n hy).mpr hn
      · refine Classical.byContradiction fun hno => hy fun z hz q hq hon => hno ?_
        have hm := ((h.done z hz q hq).1.1 n hon).mp hn
        cases q with
        | connect ns =>
          cases hon
          rcases hm with hm | hm
          · exact hm
          · exact absurd ⟨z, hz, hq, by simpa using hm.1⟩ hx
        | disconnect ns => exact hm.1
        | join => exact hon.elim
        | leave => exact hon.elim
    · have hm := ((h.done z (hw z hz) _ hq).1.1 n rfl).mp hn
      exact hm.2 ⟨by rw [he]; rfl, rfl⟩

theorem boxed_side {X : List (Pend × Option GoErr × Option Message)} {z : Pend × Option GoErr} (h : z ∈ boxedOf X) :
    z ∈ sideOf X := by
  simp only [boxedOf, sideOf, List.mem_map, List.mem_filter] at h ⊢
  obtain ⟨x, ⟨h1, _⟩, h2⟩ := h
  exact ⟨x, h1, h2⟩

theorem handled_after {c d : St} {B : List (Pend × Option GoErr)} {X : List (Pend × Option GoErr × Option Message)}
    (h : Differ sc c d (handledBy B X)) {n : Bytes} (hn : InNs d n) :
    After c (B.reverse ++ [] ++ sideOf X) (B.reverse ++ [] ++ boxedOf X) n := by
  refine (differ_after (W := B ++ boxedOf X) h (fun z hz => ?_) hn).mono (fun h => h) (fun z hz => ?_) fun z hz => ?_
  · simp only [handledBy, List.mem_append] at hz ⊢
    exact hz.imp (fun h => h) boxed_side
  · simp only [handledBy, List.mem_append, List.mem_reverse, List.not_mem_nil, or_false] at hz ⊢
    exact hz
  · simp only [List.mem_append, List.mem_reverse, List.not_mem_nil, or_false] at hz ⊢
    exact hz

variable {tc td tc' td' : St} {tpd : List (MsgType × Bytes)} {tB : List (Pend × Option GoErr)}
  {tX : List (Pend × Option GoErr × Option Message)}

theorem Talk.keeps {l : List Obs} (h : Talk known tc td tpd tB tX) (hdf : Differ sc tc td (handledBy tB tX))
    (k : Keeps known td td') (hl : td'.log = td.log ++ l) (hc : CalmLog l) :
    Talk known tc td' (tpd ++ pipe l) tB tX := by
  refine ⟨h.cli, k.safe h.srv, h.seen.calms hc ?_, h.held⟩
  obtain ⟨l', hl', hf⟩ := k.log
  rw [hl'] at hl
  rw [← List.append_cancel_left hl]
  exact hf.imp fun n hn => handled_after hdf hn

theorem Talk.client (h : Talk known tc td tpd tB tX) (hns : ∀ n, InNs tc n ↔ InNs tc' n)
    (hg : ∀ M, tc'.rd = .gate M → After tc (sideOf tX) (boxedOf tX) M.ns ∧
      ((gateOf tc' M.ns).done = false ∨ (gateOf tc' M.ns).count = 0)) : Talk known tc' td tpd tB tX :=
  ⟨fun n hn => h.cli n ((hns n).mpr hn), h.srv,
    h.seen.imp fun Y n _ k => k.mono (hns n).mp (fun _ h => h) fun _ h => h,
    fun M hM => ⟨(hg M hM).1.mono (hns M.ns).mp (fun _ h => h) fun _ h => h, (hg M hM).2⟩⟩

theorem Talk.tail {x : MsgType × Bytes} (h : Talk known tc td (x :: tpd) tB tX) (hx : CalmP x) :
    Talk known tc td tpd tB tX ∧ ∀ n, Talks known x n → After tc (sideOf tX) (boxedOf tX) n := by
  have hs := h.seen
  cases hs with
  | calm _ ht hs => exact ⟨⟨h.cli, h.srv, hs, h.held⟩, ht⟩
  | item hn _ => exact absurd hx hn

theorem Talk.boxed {x : MsgType × Bytes} {b : Pend × Option GoErr} {m : Message}
    (h : Talk known tc td (x :: tpd) (b :: tB) tX) (hx : ¬ CalmP x) (hrd : tc.rd = .idle)
    (hns : ∀ n, InNs tc n ↔ InNs tc' n) (hrd' : tc'.rd = tc.rd) : Talk known tc' td tpd tB ((b.1, b.2, some m) :: tX) := by
  refine ⟨fun n hn => h.cli n ((hns n).mpr hn), h.srv, ?_, fun M hM => by rw [hrd', hrd] at hM; cases hM⟩
  have hs := h.seen
  cases hs with
  | calm hc _ _ => exact absurd hc hx
  | item _ hs =>
    refine (Seen.shift (Y := []) (W := [b]) hs).imp fun Y' n _ k => k.mono (hns n).mp (fun z hz => ?_) fun z hz => ?_
    · simp only [sideOf, List.map_cons, List.mem_append, List.mem_cons, List.not_mem_nil, or_false] at hz ⊢
      rcases hz with (h | h) | h
      · exact .inl h
      · exact .inr (.inl h)
      · exact .inr (.inr h)
    · simp only [boxedOf, sideOf, List.filter_cons, Option.isSome_some, if_true, List.map_cons, List.mem_append,
        List.mem_cons, List.not_mem_nil, or_false] at hz ⊢
      rcases hz with h | h | h
      · exact .inl (.inl h)
      · exact .inl (.inr h)
      · exact .inr h

theorem Talk.answered {a : Pend × Option GoErr} {x : MsgType × Bytes} {l1 l2 : List (MsgType × Bytes)}
    (h : Talk known tc td tpd tB tX) (hdf : Differ sc tc td (handledBy tB tX))
    (hdf' : Differ sc tc td' (a :: handledBy tB tX)) (hs : SafeNs td') (h1 : Calms l1) (h2 : Calms l2)
    (f1 : Fits known (InNs td) l1) (f2 : Fits known (InNs td') l2) (hx : ¬ CalmP x) :
    Talk known tc td' (tpd ++ (l1 ++ x :: l2)) (tB ++ [a]) tX := by
  refine ⟨h.cli, hs, ?_, h.held⟩
  refine h.seen.append (B' := [a]) (Seen.append (B := []) (B' := [a]) (seen_calms h1 (f1.imp fun n hn => handled_after hdf hn))
    (.item hx (seen_calms h2 ?_)))
  refine f2.imp fun n hn => (differ_after (W := a :: (tB ++ boxedOf tX)) hdf' (fun z hz => ?_) hn).mono (fun h => h)
    (fun z hz => ?_) fun z hz => ?_
  · simp only [handledBy, List.mem_append, List.mem_cons] at hz ⊢
    exact hz.imp (fun h => h) fun h => h.imp (fun h => h) boxed_side
  · simp only [handledBy, List.mem_append, List.mem_cons, List.mem_reverse, List.reverse_nil, List.nil_append,
      List.not_mem_nil, or_false] at hz ⊢
    rcases hz with h | h | h
    · exact .inl (.inl h)
    · exact .inl (.inr h)
    · exact .inr h
  · simp only [List.mem_append, List.mem_cons, List.mem_reverse, List.reverse_nil, List.nil_append,
      List.not_mem_nil, or_false] at hz ⊢
    rcases hz with (h | h) | h
    · exact .inl h
    · exact .inr (.inl h)
    · exact .inr (.inr h)

theorem Talk.unanswered {a : Pend × Option GoErr} {l : List (MsgType × Bytes)}
    (h : Talk known tc td tpd tB tX) (hdf : Differ sc tc td (handledBy tB tX))
    (hdf' : Differ sc tc td' (a :: handledBy tB tX)) (hs : SafeNs td') (h1 : Calms l)
    (f1 : Fits known (fun n => InNs td n ∨ InNs td' n) l) :
    Talk known tc td' (tpd ++ l) tB ((a.1, a.2, none) :: tX) := by
  have hside : ∀ {Z : List (Pend × Option GoErr)}, ∀ z ∈ Z ++ sideOf tX, z ∈ Z ++ sideOf ((a.1, a.2, none) :: tX) := by
    intro Z z hz
    simp only [sideOf, List.map_cons, List.mem_append, List.mem_cons] at hz ⊢
    exact hz.imp (fun h => h) .inr
  have hbox : boxedOf ((a.1, a.2, none) :: tX) = boxedOf tX := by simp [boxedOf]
  refine ⟨h.cli, hs, ?_, fun M hM => ?_⟩
  · rw [hbox]
    refine (h.seen.imp fun Y n _ k => k.mono (fun h => h) hside fun _ h => h).calms h1 (f1.imp fun n hn => ?_)
    rcases hn with hn | hn
    · exact (handled_after hdf hn).mono (fun h => h) hside fun _ h => h
    · refine (differ_after (W := tB ++ boxedOf tX) hdf' (fun z hz => ?_) hn).mono (fun h => h) (fun z hz => ?_) fun z hz => ?_
      · simp only [handledBy, List.mem_append, List.mem_cons] at hz ⊢
        exact .inr (hz.imp (fun h => h) boxed_side)
      · simp only [handledBy, sideOf, List.map_cons, List.mem_append, List.mem_cons, List.mem_reverse,
          List.not_mem_nil, or_false] at hz ⊢
        rcases hz with h | h | h
        · exact .inr (.inl h)
        · exact .inl h
        · exact .inr (.inr h)
      · simp only [List.mem_append, List.mem_reverse, List.not_mem_nil, or_false] at hz ⊢
        exact hz
  · rw [hbox]
    exact ⟨(h.held M hM).1.mono (fun h => h) (hside (Z := [])) fun _ h => h, (h.held M hM).2⟩

/-- a call with its answer completes -/
theorem Talk.resumed {x : Pend × Option GoErr × Option Message} {X1 X2 : List (Pend × Option GoErr × Option Message)}
    (h : Talk known tc td tpd tB (X1 ++ x :: X2)) (hx : x.2.2 ≠ none) (hs : SafeNs tc')
    (hns : ∀ n, (x.1.req = some (.connect n) → x.2.1 = none → InNs tc' n) ∧
      (InNs tc n → ¬ (x.1.req = some (.disconnect n) ∧ x.2.1 = none) → InNs tc' n))
    (hap : ∀ z, z ∈ handledBy tB (X1 ++ X2) → ∀ n, x.1.req = some (.connect n) → z.1.req ≠ some (.disconnect n))
    (hg : ∀ M, tc'.rd = .gate M → tc.rd = .gate M ∧
      ((gateOf tc' M.ns).done = false ∨ (gateOf tc' M.ns).count = 0)) : Talk known tc' td tpd tB (X1 ++ X2) := by
  have key : ∀ {Y : List (Pend × Option GoErr)} {n : Bytes}, (∀ y ∈ Y, y ∈ tB) →
      After tc (Y ++ sideOf (X1 ++ x :: X2)) (Y ++ boxedOf (X1 ++ x :: X2)) n →
      After tc' (Y ++ sideOf (X1 ++ X2)) (Y ++ boxedOf (X1 ++ X2)) n := by
    intro Y n hY k
    have hbx : (x.1, x.2.1) ∈ Y ++ boxedOf (X1 ++ x :: X2) := by
      simp only [boxedOf, sideOf, List.mem_append, List.mem_map, List.mem_filter]
      exact .inr ⟨x, ⟨.inr (List.mem_cons_self ..), by
        cases hb : x.2.2 with
        | none => exact absurd hb hx
        | some m => rfl⟩, rfl⟩
    have hsub : ∀ z ∈ Y ++ boxedOf (X1 ++ X2), z ∈ Y ++ boxedOf (X1 ++ x :: X2) := by
      intro z hz
      simp only [boxedOf, sideOf, List.mem_append, List.mem_map, List.mem_filter, List.mem_cons] at hz ⊢
      rcases hz with h | ⟨y, ⟨h1 | h1, h2⟩, h3⟩
      · exact .inl h
      · exact .inr ⟨y, ⟨.inl h1, h2⟩, h3⟩
      · exact .inr ⟨y, ⟨.inr (.inr h1), h2⟩, h3⟩
    have hin : ∀ z ∈ Y ++ boxedOf (X1 ++ X2), z ∈ handledBy tB (X1 ++ X2) := by
      intro z hz
      rcases List.mem_append.mp hz with hz | hz
      · exact List.mem_append_left _ (hY z hz)
      · exact List.mem_append_right _ (boxed_side hz)
    rcases k with ⟨z, hz, h1, h2⟩ | ⟨h1, h2⟩
    · simp only [sideOf, List.map_append, List.map_cons, List.mem_append, List.mem_cons] at hz
      rcases hz with hz | hz | hz | hz
      · exact .inl ⟨z, List.mem_append_left _ hz, h1, h2⟩
      · exact .inl ⟨z, List.mem_append_right _ (by simp only [sideOf, List.map_append, List.mem_append]; exact .inl hz), h1, h2⟩
      · subst hz
        exact .inr ⟨(hns n).1 h1 h2, fun w hw hq => absurd hq (hap w (hin w hw) n h1)⟩
      · exact .inl ⟨z, List.mem_append_right _ (by simp only [sideOf, List.map_append, List.mem_append]; exact .inr hz), h1, h2⟩
    · exact .inr ⟨(hns n).2 h1 fun ⟨e1, e2⟩ => h2 _ hbx e1 e2, fun w hw => h2 w (hsub w hw)⟩
  refine ⟨hs, h.srv, h.seen.imp fun Y n hY k => key (fun y hy => (hY y hy).elim (fun h => by cases h) fun h => h) k, fun M hM => ?_⟩
  obtain ⟨h1, h2⟩ := hg M hM
  exact ⟨by simpa using key (Y := []) (fun y hy => by cases hy) (by simpa using (h.held M h1).1), h2⟩

/-- where a session with several calls in flight is -/
structure Many (P : Past) (sc : Cfg) (known : List KnownErr) (c d : St) (pu pd : List (MsgType × Bytes)) (A : List Pend)
    (B : List (Pend × Option GoErr)) (X : List (Pend × Option GoErr × Option Message)) : Prop where
  cli : CliOk c
  srv : SrvOk d
  ready : ∀ p ∈ calls A B X, Ready P c p
  atA : ∀ p ∈ A, AskIs c p none
  atB : ∀ z ∈ B, AskIs c z.1 none
  atX : ∀ x ∈ X, AskIs c x.1 x.2.2
  cover : ∀ (j : Nat) a, c.asks[j]? = some a → a.done = false → ∃ p ∈ calls A B X, p.i = j
  apart : (calls A B X).Pairwise Apart
  up : Weave (fun p x => x = p.load) pu A
  down : Weave (Replies P known d) pd B
  boxed : ∀ x ∈ X, ∀ m, x.2.2 = some m → Outcome P known d x.1 x.2.1 m
  lost : ∀ x ∈ X, x.2.2 = none → Unheard P d x.1
  differ : Differ sc c d (handledBy B X)
  talk : Talk known c d pd B X

variable {c d c' d' : St} {pu pd : List (MsgType × Bytes)} {A : List Pend} {B : List (Pend × Option GoErr)}
  {X : List (Pend × Option GoErr × Option Message)}

theorem Many.calms_srv {l : List Obs} (h : Many P sc known c d pu pd A B X) (hs : Same d l d') (hl : CalmLog l)
    (hk : Keeps known d d') : Many P sc known c d' pu (pd ++ pipe l) A B X :=
  ⟨h.cli, h.srv.same hs, h.ready, h.atA, h.atB, h.atX, h.cover, h.apart, h.up, (h.down.grows hs.log).calms hl,
    fun x hx m hm => (h.boxed x hx m hm).grows hs.log, fun x hx hm => (h.lost x hx hm).grows hs.log,
    h.differ.congr (agree_refl c) hs.agree hs.log, h.talk.keeps h.differ hk hs.log hl⟩

theorem CKept.ready {l : List Obs} {p : Pend} (hk : CKept c l c') (h : Ready P c p) : Ready P c' p :=
  ⟨by rw [hk.waiting]; exact h.waiting, h.tok, fun q hq =>
    let ⟨h1, h2, h3⟩ := h.req q hq
    ⟨h1, hk.waits h2, h3⟩, h.ask⟩

theorem Many.calms_cli {l : List Obs} (h : Many P sc known c d pu pd A B X) (hs : CKept c l c') (hl : CalmLog l)
    (hg : ∀ M, c'.rd = .gate M → After c (sideOf X) (boxedOf X) M.ns ∧
      ((gateOf c' M.ns).done = false ∨ (gateOf c' M.ns).count = 0)) : Many P sc known c' d (pu ++ pipe l) pd A B X :=
  ⟨hs.ok h.cli, h.srv, fun p hp => hs.ready (h.ready p hp), fun p hp => by unfold AskIs; rw [hs.asks]; exact h.atA p hp,
    fun p hp => by unfold AskIs; rw [hs.asks]; exact h.atB p hp,
    fun p hp => by unfold AskIs; rw [hs.asks]; exact h.atX p hp, by rw [hs.asks]; exact h.cover, h.apart,
    h.up.calms hl, h.down, h.boxed, h.lost, h.differ.congr (l := []) hs.agree (agree_refl d) (by simp),
    h.talk.client (fun n => hs.agree.1 n) hg⟩

/-! ### The server reads a plain Ask -/

/-- a message with a token and safe names reaches the other side with them -/
theorem names_wire (known : List KnownErr) {m : Message} (ty : MsgType) (ht : CliTok m.wait) (h1 : SafeName m.ns)
    (h2 : SafeName m.room) (h3 : SafeName m.event) :
    Names known m.wait (ty, wireOf m) ∧
      (deserializeMessage known ty (wireOf m) false false).ns = m.ns ∧
      (deserializeMessage known ty (wireOf m) false false).room = m.room ∧
      (deserializeMessage known ty (wireOf m) false false).event = m.event := by
  have hw : m.wait ≠ [] := by obtain ⟨t, e⟩ := ht.2; rw [e]; simp
  obtain ⟨b, hb, g1, g2, g3, g4, _, g5, _⟩ := c01_round_trip_result known ty false { m with fromExplicit := [] } (.inr hw) rfl ht.1 h1 h2 h3
  rw [serialize_wireOf] at hb
  cases hb
  exact ⟨⟨wire_ne hw, g1, g5⟩, g2, g3, g4⟩

/-- what the other side decodes when this is asked -/
theorem heard_wire (known : List KnownErr) {m : Message} {tok : Bytes} (ht : CliTok tok) (hm : AskMsg m) :
    Heard m tok (deserializeMessage known (if m.setBinary then .binary else .text) (wireOf { m with wait := tok }) false false) := by
  obtain ⟨n, n1, n2, n3⟩ := names_wire known (m := { m with wait := tok }) (if m.setBinary then .binary else .text) ht hm.1 hm.2.1 hm.2.2.1
  refine ⟨n.wait, n1, n2, n3, fun he => ?_⟩
  have hw : tok ≠ [] := by obtain ⟨t, e⟩ := ht.2; rw [e]; simp
  obtain ⟨b, hb, hx⟩ := c01_round_trip known (if m.setBinary then .binary else .text) false
    { m with wait := tok, fromExplicit := [] } (.inr hw) rfl he ht.1 hm.1 hm.2.1 hm.2.2.1
  have hs := serialize_wireOf { m with wait := tok }
  have heq : b = wireOf { m with wait := tok } := Option.some.inj (hb.symm.trans hs)
  rw [← heq, hx]
  cases m.setBinary <;> rfl

/-- the callback that ran is in the log -/
theorem fire_logged {s : St} {obj : Nat} {msg : Message} :
    ∃ h l, (fire cfg s obj msg).1.log = s.log ++ .fired obj (s.view obj msg) msg h (fire cfg s obj msg).2 :: l ∧
      (h = none → (fire cfg s obj msg).2 = none) := by
  unfold fire
  dsimp only
  split
  · exact ⟨none, [], by simp [St.emit], fun _ => rfl⟩
  · rename_i hd hp
    dsimp only
    have : ∀ (acts : List Act) (u : St), ∃ l, (acts.foldl (runAct cfg) u).log = u.log ++ l := by
      intro acts
      induction acts with
      | nil => intro u; exact ⟨[], by simp⟩
      | cons a acts ih =>
        intro u
        obtain ⟨l1, h1⟩ := runAct_log (cfg := cfg) u a
        obtain ⟨l2, h2⟩ := ih (runAct cfg u a)
        exact ⟨l1 ++ l2, by rw [List.foldl_cons, h2, h1, List.append_assoc]⟩
    obtain ⟨l, hl⟩ := this (cfg.cb s.log obj hd msg).1 (s.emit (.fired obj (s.view obj msg) msg (some hd) (cfg.cb s.log obj hd msg).2))
    exact ⟨some hd, l, by rw [hl]; simp [St.emit], fun h => by cases h⟩

/-- the server handles an Ask: its membership stays and it writes at most one answer -/
theorem srv_ask {m : Message} {tok : Bytes} {d d' : St} (hcb : CbCalm sc)
    (hn : sc.allowNative = false) (hs : sc.isClient = false) (hm : AskMsg m) (ht : CliTok tok) (hd : SrvOk d)
    (h : step sc d (.recv (if m.setBinary then .binary else .text) (wireOf { m with wait := tok })) = some d')
    (hc : d'.closed = false) :
    ∃ l, Same d l d' ∧ ((CalmLog l ∧ (¬ InNs d m.ns ∨ Silence d' m tok)) ∨ ∃ l1 x l2, pipe l = l1 ++ x :: l2 ∧ Calms l1 ∧
      Calms l2 ∧ ∃ e, AskTold d' m tok e ∧ ∀ known, Names known tok x ∧
        Says known { m with wait := tok } e (deserializeMessage known x.1 x.2 false false)) := by
  have hon : sc.onlyNative = false := by simp [Cfg.onlyNative, hn]
  have hheard := heard_wire sc.known ht hm
  obtain ⟨⟨n1, n2, n3⟩, n4, n5, n6⟩ := names_wire sc.known (m := { m with wait := tok })
    (if m.setBinary then .binary else .text) ht hm.1 hm.2.1 hm.2.2.1
  obtain ⟨hm1, hm2, hm3, hm4⟩ := hm
  dsimp only at n1 n2 n3 n4 n5 n6
  generalize hM : deserializeMessage sc.known (if m.setBinary then .binary else .text)
    (wireOf { m with wait := tok }) false false = M at n2 n3 n4 n5 n6 hheard
  have hiw : M.isWait sc.isClient = false := by
    unfold Message.isWait
    obtain ⟨t, e⟩ := ht.2
    rw [n2, e, hs]
    simp [waitIsConfirmationPrefix, waitComesFromClientPrefix]
  have hdec : deserializeMessage sc.known (if m.setBinary then .binary else .text)
    (wireOf { m with wait := tok }) sc.allowNative sc.onlyNative = M := by rw [hn, hon]; exact hM
  have hi : Incoming sc d (if m.setBinary then .binary else .text) (wireOf { m with wait := tok }) M :=
    ⟨n1, hd.acked, hdec, n3, hon, .inr (.inr (.inr hiw)), .inr (.inr hiw), .inr hiw⟩
  have hwn : M.wait ≠ [] := by obtain ⟨t, e⟩ := ht.2; rw [n2, e]; simp
  have hex : M.fromExplicit = [] := hi.noExplicit hwn
  obtain ⟨h0, _⟩ := step_recv hi h
  have hgb : gateBlocks d M.ns = false := by
    unfold gateBlocks; rw [hd.gates]; rfl
  rw [← n6] at hm4
  rw [dispatch_gate hgb (fun x => hm4 (.inl x)) (fun x => hm4 (.inr (.inl x)))] at h0
  subst h0
  unfold afterGate at hc ⊢
  split at hc
  · rename_i hno
    have hmay : ¬ MayWrite sc d { M with err := some errBadNamespace } := by
      rintro ⟨_, _, h1 | h1 | ⟨obj, h1, _⟩⟩
      · exact hm4 (.inl h1)
      · exact hm4 (.inr (.inl h1))
      · rw [show d.namespace ({ M with err := some errBadNamespace } : Message).ns = none from hno] at h1
        cases h1
    exact ⟨[], write_maynot hmay, .inl ⟨.nil, .inl (by unfold InNs; rw [← n4, hno]; simp)⟩⟩
  · rw [if_neg (fun x => hm4 (.inr (.inr (.inl x)))), if_neg (fun x => hm4 (.inr (.inr (.inr x))))] at hc ⊢
    unfold handleEvent at hc ⊢
    dsimp only at hc ⊢
    rename_i obj hobj
    have hfire := calm_fire hcb (s := d) (obj := obj) (msg := { M with isLocal := false })
    have hlogged := fire_logged (cfg := sc) (s := d) (obj := obj) (msg := { M with isLocal := false })
    have hheard' : Heard m tok { M with isLocal := false } :=
      ⟨hheard.wait, hheard.ns, hheard.room, hheard.event, fun he => by rw [hheard.whole he]⟩
    revert hc hfire hlogged
    generalize fire sc d obj { M with isLocal := false } = p
    obtain ⟨t, r⟩ := p
    intro hc hfire hlogged
    obtain ⟨hd', l0, hl0, hl1⟩ := hlogged
    dsimp only at hl0 hl1
    cases r with
    | none =>
      obtain ⟨l, k1, k2⟩ := hfire hc
      have hin : Obs.fired obj (d.view obj { M with isLocal := false }) { M with isLocal := false } hd' none ∈ t.log := by
        rw [hl0]; simp
      exact ⟨l, k1, .inl ⟨k2, .inr (.nil obj _ _ hd' hin hheard')⟩⟩
    | some e =>
      dsimp only at hc hfire hl0 ⊢
      obtain ⟨hh, rfl⟩ : ∃ hh, hd' = some hh := by
        cases hd' with
        | none => cases hl1 rfl
        | some hh => exact ⟨hh, rfl⟩
      have ho : t.closed = false := closed_of_prims (prims_write t _) hc
      obtain ⟨l, k1, k2⟩ := hfire ho
      have hin : ∀ {s : St} {l : List Obs}, Same t l s →
          Obs.fired obj (d.view obj { M with isLocal := false }) { M with isLocal := false } (some hh) (some e) ∈ s.log :=
        fun hsame => by rw [hsame.log, hl0]; simp
      by_cases hmay : MayWrite sc t { M with isLocal := false, err := some e }
      · have hw := write_open hc
        have hsame : Same t _ (write sc t { M with isLocal := false, err := some e }).1 := ⟨_, hw⟩
        rw [writeLog, if_pos hmay] at hsame
        refine ⟨_, k1.trans hsame, ?_⟩
        have hin' := hin hsame
        have hlog := hsame.log
        dsimp only at hlog ⊢
        generalize hA : wireOf { M with isLocal := false, err := some e } = wire at hlog ⊢
        cases hsock : (sc.sock t.log M.setBinary wire).isNone with
        | false =>
          rw [hsock] at hlog
          refine .inl ⟨k2.append (by intro p hp; simp [pipe] at hp), .inr (.socket obj _ _ hh e wire hin' hheard' ?_ ?_)⟩
          · rw [← hA, ← serialize_wireOf]
            exact congrArg serializeMessage (by rw [← hex])
          · rw [hlog]; simp
        | true =>
          refine .inr ⟨pipe l, (if M.setBinary then .binary else .text, wire), [],
            by rw [pipe_append]; rfl, k2, .nil, e, ⟨obj, _, _, hh, hin', hheard'⟩, fun known => ?_⟩
          rw [← hA]
          have hns := names_wire known (m := { M with isLocal := false, err := some e })
            (if M.setBinary then .binary else .text) (by show CliTok M.wait; rw [n2]; exact ht) (by rw [← n4] at hm1; exact hm1)
            (by rw [← n5] at hm2; exact hm2) (by rw [← n6] at hm3; exact hm3)
          have hsay := says_wire (e := e) ⟨_, _, hdec⟩ (by rw [n2]; exact ht.1) hwn known (if M.setBinary then .binary else .text) false false
          refine ⟨by rw [← n2]; exact hns.1, ⟨hsay.wait.trans n2, hsay.ns.trans n4, hsay.room.trans n5, hsay.event.trans n6,
            hsay.valid, hsay.plain, hsay.reply, hsay.noBody, hsay.error, hsay.empty⟩⟩
      · have hsame := write_maynot hmay
        refine ⟨l ++ [], k1.trans hsame, .inl ⟨k2.append .nil, .inr (.room obj _ _ hh e (hin hsame) hheard' ?_ ?_)⟩⟩
        all_goals
          have hroom : ¬ (M.room = [] ∨ M.room ∈ d.rooms obj) := fun hr => hmay ⟨ho, fun h => h.1 hex, .inr (.inr
            ⟨obj, by rw [k1.namespace]; exact hobj, hr.imp id fun hr => .inr (.inr (by rw [k1.rooms]; exact hr))⟩)⟩
        · intro e; exact hroom (.inl (n5.trans e))
        · simp only [St.view, decide_eq_false_iff_not]
          exact fun hr => hroom (.inr hr)

/-! ### The server reads -/

theorem there_here {q : Req} {k : Cont} {c d : St} (h : Waits q k c) (ha : InNs c q.about.1 ↔ InNs d q.about.1) :
    q.There d := by
  cases q with
  | connect ns =>
    obtain ⟨obj, _, h1, _⟩ := h
    simp only [InNs, Req.about, h1, ne_eq, not_true_eq_false, false_iff, Decidable.not_not] at ha
    exact ha
  | disconnect ns => obtain ⟨obj, msg, _, _, h1⟩ := h; exact ha.mp (by simp [InNs, Req.about, h1])
  | join ns room => obtain ⟨obj, msg, _, _, _, h1⟩ := h; exact ha.mp (by simp [InNs, Req.about, h1])
  | leave ns room => obtain ⟨obj, msg, _, _, _, h1⟩ := h; exact ha.mp (by simp [InNs, Req.about, h1])

theorem clash_of_ns {q q' : Req} (h : q'.onNs q.about.1) : Clash q.about q'.about := by
  cases q' <;> simp only [Req.onNs] at h
  all_goals exact ⟨h, .inr (.inl rfl)⟩

theorem calls_answered {a : Pend} {r : Option GoErr} {A : List Pend} {B : List (Pend × Option GoErr)}
    {X : List (Pend × Option GoErr × Option Message)} : (calls A (B ++ [(a, r)]) X).Perm (calls (a :: A) B X) := by
  simp only [calls, List.map_append, List.map_cons, List.map_nil, List.append_assoc, List.cons_append, List.nil_append]
  rw [← List.append_assoc]
  refine (List.perm_middle (l₁ := A ++ B.map (·.1)) (l₂ := X.map (·.1)) (a := a)).trans ?_
  simp

theorem calls_lost {a : Pend} {r : Option GoErr} {box : Option Message} {A : List Pend} {B : List (Pend × Option GoErr)}
    {X : List (Pend × Option GoErr × Option Message)} : (calls A B ((a, r, box) :: X)).Perm (calls (a :: A) B X) := by
  simp only [calls, List.map_cons, List.cons_append]
  rw [← List.append_assoc]
  refine (List.perm_middle (l₁ := A ++ B.map (·.1)) (l₂ := X.map (·.1)) (a := a)).trans ?_
  simp

theorem calls_boxed {a : Pend} {r : Option GoErr} {box : Option Message} {A : List Pend} {B : List (Pend × Option GoErr)}
    {X : List (Pend × Option GoErr × Option Message)} : (calls A B ((a, r, box) :: X)).Perm (calls A ((a, r) :: B) X) := by
  refine calls_lost.trans ?_
  simp only [calls, List.map_cons, List.cons_append]
  exact (List.perm_middle (l₁ := A) (l₂ := B.map (·.1) ++ X.map (·.1)) (a := a)).symm

theorem Many.apart_head {a : Pend} (h : Many P sc known c d pu pd (a :: A) B X) : ∀ p ∈ calls A B X, Apart a p := by
  have := h.apart
  simp only [calls, List.cons_append, List.pairwise_cons] at this
  exact this.1

/-- what is left of `Many` when the server has handled a call and the answer is on its way -/
theorem Many.answered {a : Pend} {r : Option GoErr} {rest : List (MsgType × Bytes)} {x : MsgType × Bytes}
    {l1 l2 : List (MsgType × Bytes)} (h : Many P sc known c d pu pd (a :: A) B X) (hup : Weave (fun p x => x = p.load) rest A)
    {l : List Obs} (hl : d'.log = d.log ++ l)
    (hd : SrvOk d') (hdf : Differ sc c d' ((a, r) :: handledBy B X)) (h1 : Calms l1) (h2 : Calms l2)
    (hx : Replies P known d' (a, r) x) (hs : SafeNs d') (f1 : Fits known (InNs d) l1) (f2 : Fits known (InNs d') l2) :
    Many P sc known c d' rest (pd ++ (l1 ++ x :: l2)) A (B ++ [(a, r)]) X := by
  have hp := calls_answered (a := a) (r := r) (A := A) (B := B) (X := X)
  refine ⟨h.cli, hd, fun p hp' => h.ready p (hp.mem_iff.mp hp'), fun p hp' => h.atA p (List.mem_cons_of_mem _ hp'), ?_, h.atX, ?_,
    ((hp.pairwise_iff fun h => h.symm).mpr h.apart), hup, (h.down.grows hl).one h1 h2 hx
      (hx.1.notCalm (h.ready a (List.mem_append_left _ (List.mem_cons_self ..))).tok),
    fun x hx m hm => (h.boxed x hx m hm).grows hl, fun x hx hm => (h.lost x hx hm).grows hl, hdf.mem ?_,
    h.talk.answered h.differ hdf hs h1 h2 f1 f2
      (hx.1.notCalm (h.ready a (List.mem_append_left _ (List.mem_cons_self ..))).tok)⟩
  · intro z hz
    rcases List.mem_append.mp hz with hz | hz
    · exact h.atB z hz
    · rw [List.mem_singleton.mp hz]; exact h.atA a (List.mem_cons_self ..)
  · intro j b hj hb
    obtain ⟨p, h1, h2⟩ := h.cover j b hj hb
    exact ⟨p, hp.mem_iff.mpr h1, h2⟩
  · intro z
    simp only [handledBy, List.mem_append, List.mem_cons, List.not_mem_nil, or_false]
    constructor
    · rintro ((h | h) | h)
      · exact .inr (.inl h)
      · exact .inl h
      · exact .inr (.inr h)
    · rintro (h | h | h)
      · exact .inl (.inr h)
      · exact .inl (.inl h)
      · exact .inr h

theorem Many.unanswered {a : Pend} {r : Option GoErr} {rest l : List (MsgType × Bytes)} {l' : List Obs}
    (h : Many P sc known c d pu pd (a :: A) B X) (hup : Weave (fun p x => x = p.load) rest A)
    (hl' : d'.log = d.log ++ l')
    (hd : SrvOk d') (hdf : Differ sc c d' ((a, r) :: handledBy B X)) (hl : Calms l) (hx : Unheard P d' a)
    (hs : SafeNs d') (f1 : Fits known (fun n => InNs d n ∨ InNs d' n) l) :
    Many P sc known c d' rest (pd ++ l) A B ((a, r, none) :: X) := by
  have hp := calls_lost (a := a) (r := r) (box := none) (A := A) (B := B) (X := X)
  refine ⟨h.cli, hd, fun p hp' => h.ready p (hp.mem_iff.mp hp'), fun p hp' => h.atA p (List.mem_cons_of_mem _ hp'), h.atB, ?_, ?_,
    ((hp.pairwise_iff fun h => h.symm).mpr h.apart), hup, (h.down.grows hl').calms hl, ?_, ?_, hdf.mem ?_,
    h.talk.unanswered h.differ hdf hs hl f1⟩
  · intro z hz
    rcases List.mem_cons.mp hz with rfl | hz
    · exact h.atA a (List.mem_cons_self ..)
    · exact h.atX z hz
  · intro j b hj hb
    obtain ⟨p, h1, h2⟩ := h.cover j b hj hb
    exact ⟨p, hp.mem_iff.mpr h1, h2⟩
  · intro z hz m h1
    rcases List.mem_cons.mp hz with rfl | hz
    · cases h1
    · exact (h.boxed z hz m h1).grows hl'
  · intro z hz h1
    rcases List.mem_cons.mp hz with rfl | hz
    · exact hx
    · exact (h.lost z hz h1).grows hl'
  · intro z
    simp only [handledBy, List.mem_append, List.mem_cons, List.map_cons]
    constructor
    · rintro (h | h | h)
      · exact .inr (.inl h)
      · exact .inl h
      · exact .inr (.inr h)
    · rintro (h | h | h)
      · exact .inr (.inl h)
      · exact .inl h
      · exact .inr (.inr h)

theorem one_split {la lb la' lb' : List Obs} {bin bin' ok ok' : Bool} {b b' : Bytes} (h1 : SentCalm la) (h2 : SentCalm lb)
    (hb : ¬ CalmP (.text, b')) (h : la ++ .sent bin b ok :: lb = la' ++ .sent bin' b' ok' :: lb') : la' = la ∧ lb' = lb := by
  have hno : ∀ {l : List Obs}, SentCalm l → Obs.sent bin' b' ok' ∉ l := by
    intro l hl hm
    refine hb (hl (bin', b') ?_)
    clear hl h
    induction l with
    | nil => cases hm
    | cons o l ih =>
      rcases List.mem_cons.mp hm with rfl | hm
      · exact List.mem_cons_self ..
      · have := ih hm
        cases o <;> first | exact this | exact List.mem_cons_of_mem _ this
  rcases List.append_eq_append_iff.mp h with ⟨m, e1, e2⟩ | ⟨m, e1, e2⟩
  · cases m with
    | nil =>
      simp only [List.nil_append, List.cons.injEq] at e2
      exact ⟨by simpa using e1, e2.2.symm⟩
    | cons o m =>
      simp only [List.cons_append, List.cons.injEq] at e2
      exact absurd (by rw [e2.2]; simp) (hno h2)
  · cases m with
    | nil =>
      simp only [List.nil_append, List.cons.injEq] at e2
      exact ⟨by simpa using e1.symm, e2.2⟩
    | cons o m =>
      simp only [List.cons_append, List.cons.injEq] at e2
      exact absurd (by rw [e1, ← e2.1]; simp) (hno h1)

theorem many_up {p : MsgType × Bytes} {rest : List (MsgType × Bytes)} (hcons : Consistent cc sc)
    (hn : sc.allowNative = false) (hsc : sc.isClient = false) (hr : Reach sc id d)
    (h : Many P sc known c d (p :: rest) pd A B X) (hs : step sc d (.recv p.1 p.2) = some d') (hc : d'.closed = false)
    (haway : ∀ tok m, p = (if m.setBinary then .binary else .text, wireOf { m with wait := tok }) → ¬ InNs d m.ns → P.away tok m) :
    ∃ l A' B' X', d'.log = d.log ++ l ∧ Many P sc known c d' rest (pd ++ pipe l) A' B' X' := by
  have hcb : CbCalm sc := hcons.server
  by_cases hp : CalmP p
  · obtain ⟨l, k1, k2⟩ := calm_recv_srv hcb hn hp h.srv hs hc
    have h' : Many P sc known c d rest pd A B X :=
      ⟨h.cli, h.srv, h.ready, h.atA, h.atB, h.atX, h.cover, h.apart, h.up.tail hp, h.down, h.boxed, h.lost, h.differ, h.talk⟩
    obtain ⟨t, ht⟩ := hp
    obtain ⟨hw, hnat⟩ := decode_calm sc.known p.1 t
    rw [← ht] at hw hnat
    exact ⟨l, A, B, X, k1.log, h'.calms_srv k1 k2
      (srv_keeps hcb hn hsc h.talk.srv h.srv (.inl hw) (by rw [ht]; simp) hnat hs hc)⟩
  · obtain ⟨a, A', rfl, ha, hup⟩ := h.up.head hp
    have hra := h.ready a (List.mem_append_left _ (List.mem_cons_self ..))
    have hap := h.apart_head
    rw [ha] at hs
    cases hq : a.req with
    | none =>
      obtain ⟨_, m, hasked, hm, hload⟩ := hra.ask hq
      rw [hload] at hs
      obtain ⟨l, k1, k2⟩ := srv_ask hcb hn hsc hm hra.tok h.srv hs hc
      have hkeep : Keeps known d d' := by
        obtain ⟨n1, _, _, n4⟩ := names_wire sc.known (m := { m with wait := a.tok })
          (if m.setBinary then .binary else .text) hra.tok hm.1 hm.2.1 hm.2.2.1
        exact srv_keeps (p := (if m.setBinary then .binary else .text, wireOf { m with wait := a.tok })) hcb hn hsc
          h.talk.srv h.srv (.inr ⟨by rw [n1.wait]; exact hra.tok, by rw [n4]; exact hm.2.2.2⟩) n1.nonempty
          (by simp [deserializeMessage]) hs hc
      have hfit : Fits known (InNs d) (pipe l) := by
        obtain ⟨l', hl', hf⟩ := hkeep.log
        rw [k1.log] at hl'
        rw [List.append_cancel_left hl']
        exact hf
      have hdf : Differ sc c d' ((a, none) :: handledBy B X) :=
        (Differ.plain hq).mpr (h.differ.congr (agree_refl c) k1.agree k1.log)
      rcases k2 with ⟨k2, k3⟩ | ⟨l1, x, l2, k2, k3, k4, e, k5, k6⟩
      · refine ⟨l, A', B, (a, none, none) :: X, k1.log, h.unanswered hup k1.log (h.srv.same k1) hdf k2
          ⟨fun _ => ⟨m, hasked, ?_⟩, fun x => absurd hq x⟩ (hkeep.safe h.talk.srv) (hfit.imp fun n hn => .inl hn)⟩
        exact k3.imp (haway _ _ (ha.trans hload)) fun h => h
      · refine ⟨l, A', B ++ [(a, none)], X, k1.log, ?_⟩
        rw [k2]
        exact h.answered hup k1.log (h.srv.same k1) hdf k3 k4 ⟨(k6 known).1, fun q e => (by rw [hq] at e; cases e),
          fun _ => ⟨m, e, hasked, k5, (k6 known).2⟩⟩ (hkeep.safe h.talk.srv)
          (hfit.sub fun x hx => by rw [k2]; exact List.mem_append_left _ hx)
          (by rw [inNs_conn hkeep.conn]
              exact hfit.sub fun x hx => by rw [k2]; exact List.mem_append_right _ (List.mem_cons_of_mem _ hx))
    | some q =>
      obtain ⟨hsafe, hwaits, _, hload⟩ := hra.req q hq
      rw [hload] at hs
      have hnc : ∀ z ∈ handledBy B X, ∀ q', z.1.req = some q' → ¬ Clash q.about q'.about :=
        fun z hz q' hq' => (hap z.1 (calls_of_handled hz)).2 q q' hq hq'
      have hth : q.There d := there_here hwaits
        (h.differ.ns _ fun z hz q' hq' hon => hnc z hz q' hq' (clash_of_ns hon))
      obtain ⟨k1, r, l, k2, k3, k4, la, bin, b, ok, lb, k5, k6, k7, k8⟩ :=
        srv_answer hcons hn hsc hr hsafe hra.tok h.srv hth hs hc
      have hdf := h.differ.add hq k3 k2 k4 hnc
      have hnames : ∀ known, Names known a.tok (if bin then .binary else .text, b) :=
        fun known => ⟨(k8 known).nonempty, (k8 known).wait, (k8 known).valid⟩
      obtain ⟨f1, f2⟩ : Fits known (InNs d) (pipe la) ∧ Fits known (InNs d') (pipe lb) := by
        obtain ⟨l', hl', la', bin', b', ok', lb', e1, e2, e3, e4⟩ := srv_around (known := known) hcb hn hsc h.talk.srv hsafe hra.tok h.srv hth hs hc
        rw [k2] at hl'
        have hl' := List.append_cancel_left hl'
        rw [k5, e1] at hl'
        obtain ⟨rfl, rfl⟩ := one_split k6 k7 (e2 .text) hl'
        exact ⟨e3, e4⟩
      have hsd : SafeNs d' := by
        intro n hn
        have hm := (k3.1 n).mp hn
        cases q with
        | connect ns =>
          rcases hm with hm | ⟨_, rfl⟩
          · exact h.talk.srv n hm
          · exact hsafe
        | disconnect ns => exact h.talk.srv n hm.1
        | join => exact h.talk.srv n hm
        | leave => exact h.talk.srv n hm
      cases ok with
      | false =>
        refine ⟨l, A', B, (a, r, none) :: X, k2, h.unanswered hup k2 k1 hdf (by rw [k5, pipe_append]; exact Calms.append k6.log k7.log)
          ⟨fun e => (by rw [hq] at e; cases e), fun _ => ⟨bin, b, ?_, hnames⟩⟩ hsd ?_⟩
        · rw [k2, k5]; simp
        · rw [k5, pipe_append]
          exact (f1.imp fun n hn => .inl hn).append (f2.imp fun n hn => .inr hn)
      | true =>
        refine ⟨l, A', B ++ [(a, r)], X, k2, ?_⟩
        rw [k5, pipe_append]
        exact h.answered hup k2 k1 hdf k6.log k7.log ⟨hnames known, fun _ _ => (k8 known).err,
          fun e => by rw [hq] at e; cases e⟩ hsd f1 f2

/-! ### The client reads -/

/-- the reader of the client begins to wait at the gate only with a message of a namespace that is being connected -/
theorem calm_recv_held (h : CbCalm cfg) (hn : cfg.allowNative = false) {c c' : St} {p : MsgType × Bytes}
    (hp : CalmP p) (ha : c.acked = true) (hs : step cfg c (.recv p.1 p.2) = some c') (hc : c'.closed = false) :
    ∃ l, CKept c l c' ∧ CalmLog l ∧ ∀ M, c'.rd = .gate M → Talks cfg.known p M.ns ∧ (gateOf c' M.ns).done = false := by
  obtain ⟨he, _⟩ := step_exec hs
  simp only [exec] at he
  split at he
  · rename_i hx
    cases he
    rcases calm_recv h hn hp ha hc with ⟨l, k1, k2⟩ | ⟨m, hm, hg, e, hdec, h1, h2⟩
    · exact ⟨l, k1.ckept, k2, fun M hM => by rw [k1.kept.rd, hx.1] at hM; cases hM⟩
    · rw [e]
      refine ⟨[], ckept_gate hm, .nil, fun M hM => ?_⟩
      cases hM
      rw [hdec] at h1 h2
      refine ⟨⟨by rw [← hdec], h1, h2⟩, ?_⟩
      rw [gateBlocks_eq] at hg
      simp only [Bool.and_eq_true, Bool.not_eq_true'] at hg
      exact hg.1
  · cases he

theorem recv_box {i : Nat} {k : Cont} {tok : Bytes} {p : MsgType × Bytes}
    (hcl : cc.isClient = true) (hn : cc.allowNative = false) (hok : CliOk c) (ht : CliTok tok)
    (hat : c.asks[i]? = some ⟨tok, k, .table, none, false⟩) (hw : mapGet c.waiting tok = some i)
    (hp : Names cc.known tok p) (hs : step cc c (.recv p.1 p.2) = some c') :
    c' = { c with asks := c.asks.set i ⟨tok, k, .table, some (deserializeMessage cc.known p.1 p.2 false false), false⟩ } := by
  have hon : cc.onlyNative = false := by simp [Cfg.onlyNative, hn]
  obtain ⟨he, _⟩ := step_exec hs
  simp only [exec] at he
  split at he
  · cases he
    have hwait := hp.wait
    have hvalid := hp.valid
    unfold recv handlePayload
    rw [if_neg hp.nonempty, if_pos hok.acked, hn, hon]
    generalize deserializeMessage cc.known p.1 p.2 false false = m at hwait hvalid ⊢
    have hiw : m.isWait cc.isClient = true := by
      unfold Message.isWait
      obtain ⟨t, e⟩ := ht.2
      rw [hwait, e, hcl]
      rfl
    unfold handleMessage
    rw [hvalid, hiw, hon, hcl, hwait, hw]
    simp [deliver, hat]
  · cases he

theorem askIs_ne {p p' : Pend} {box box' : Option Message} (h : AskIs c p box) (h' : AskIs c p' box')
    (ha : Apart p p') : p'.i ≠ p.i := by
  intro e
  unfold AskIs at h h'
  rw [e, h] at h'
  simp only [Option.some.injEq, AskRec.mk.injEq] at h'
  exact ha.1 h'.1

theorem many_down {p : MsgType × Bytes} {rest : List (MsgType × Bytes)} (hcons : Consistent cc sc)
    (hn : cc.allowNative = false) (hcl : cc.isClient = true)
    (h : Many P sc cc.known c d pu (p :: rest) A B X) (hs : step cc c (.recv p.1 p.2) = some c') (hc : c'.closed = false) :
    ∃ l A' B' X', c'.log = c.log ++ l ∧ Many P sc cc.known c' d (pu ++ pipe l) rest A' B' X' := by
  have hcb : CbCalm cc := hcons.client
  by_cases hp : CalmP p
  · obtain ⟨l, k1, k2, k3⟩ := calm_recv_held hcb hn hp h.cli.acked hs hc
    obtain ⟨t1, t2⟩ := h.talk.tail hp
    have h' : Many P sc cc.known c d pu rest A B X :=
      ⟨h.cli, h.srv, h.ready, h.atA, h.atB, h.atX, h.cover, h.apart, h.up, h.down.tail hp, h.boxed, h.lost, h.differ, t1⟩
    exact ⟨l, A, B, X, k1.log, h'.calms_cli k1 k2 fun M hM => ⟨t2 _ (k3 M hM).1, .inl (k3 M hM).2⟩⟩
  · obtain ⟨⟨a, r⟩, B', rfl, ha, hdown⟩ := h.down.head hp
    have hperm := calls_boxed (a := a) (r := r) (box := some (deserializeMessage cc.known p.1 p.2 false false))
      (A := A) (B := B') (X := X)
    have hmem : a ∈ calls A ((a, r) :: B') X := hperm.mem_iff.mp (calls_lost.mem_iff.mpr (List.mem_append_left _ (List.mem_cons_self ..)))
    have hra := h.ready a hmem
    have hat := h.atB _ (List.mem_cons_self ..)
    have hap : ∀ z ∈ calls A B' X, Apart a z := by
      have := ((hperm.symm.trans calls_lost).pairwise_iff fun h => h.symm).mp h.apart
      simp only [calls, List.cons_append, List.pairwise_cons] at this
      exact this.1
    have e := recv_box hcl hn h.cli hra.tok hat hra.waiting ha.1 hs
    have hlt : a.i < c.asks.length := (List.getElem?_eq_some_iff.mp hat).1
    have hidle : c.rd = .idle := by
      obtain ⟨he, _⟩ := step_exec hs
      simp only [exec] at he
      split at he
      · rename_i hx; exact hx.1
      · cases he
    subst e
    have keep : ∀ {z : Pend} {box : Option Message}, z ∈ calls A B' X → AskIs c z box →
        AskIs { c with asks := c.asks.set a.i ⟨a.tok, a.k, .table, some (deserializeMessage cc.known p.1 p.2 false false), false⟩ } z box := by
      intro z box hz hz'
      have := askIs_ne hat hz' (hap z hz)
      unfold AskIs
      simp only [List.getElem?_set, if_neg (Ne.symm this)]
      exact hz'
    refine ⟨[], A, B', (a, r, some (deserializeMessage cc.known p.1 p.2 false false)) :: X, by simp, ?_⟩
    simp only [pipe, List.append_nil]
    refine ⟨⟨h.cli.acked, h.cli.log, h.cli.rd, h.cli.todo, h.cli.ackAfter⟩, h.srv, fun z hz => ?_, ?_, ?_, ?_, ?_,
      (hperm.pairwise_iff fun h => h.symm).mpr h.apart, h.up, hdown, ?_, ?_, ?_,
      h.talk.boxed (m := deserializeMessage cc.known p.1 p.2 false false) hp hidle (fun n => Iff.rfl) rfl⟩
    · have hrz := h.ready z (hperm.mem_iff.mp hz)
      exact ⟨hrz.waiting, hrz.tok, fun q hq => by
        obtain ⟨h1, h2, h3⟩ := hrz.req q hq
        exact ⟨h1, by cases q <;> exact h2, h3⟩, hrz.ask⟩
    · intro z hz
      exact keep (List.mem_append_left _ hz) (h.atA z hz)
    · intro z hz
      exact keep (List.mem_append_right _ (List.mem_append_left _ (List.mem_map_of_mem hz))) (h.atB z (List.mem_cons_of_mem _ hz))
    · intro z hz
      rcases List.mem_cons.mp hz with rfl | hz
      · unfold AskIs; simp [hlt]
      · exact keep (List.mem_append_right _ (List.mem_append_right _ (List.mem_map_of_mem hz))) (h.atX z hz)
    · intro j b hj hb
      by_cases e : a.i = j
      · exact ⟨a, hperm.mem_iff.mpr hmem, e⟩
      · simp only [List.getElem?_set, if_neg e] at hj
        obtain ⟨z, h1, h2⟩ := h.cover j b hj hb
        exact ⟨z, hperm.mem_iff.mpr h1, h2⟩
    · intro z hz m h1
      rcases List.mem_cons.mp hz with rfl | hz
      · simp only [Option.some.injEq] at h1
        rw [← h1]
        exact ha.2
      · exact h.boxed z hz m h1
    · intro z hz h1
      rcases List.mem_cons.mp hz with rfl | hz
      · cases h1
      · exact h.lost z hz h1
    · refine Differ.congr (l := []) (c := c) (d := d) (Z := handledBy B' ((a, r, some (deserializeMessage cc.known p.1 p.2 false false)) :: X)) (h.differ.mem ?_) (agree_of (fun _ => rfl) fun _ _ _ => rfl) (agree_refl d) (by simp)
      intro z
      simp only [handledBy, List.mem_append, List.mem_cons, List.map_cons]
      constructor
      · rintro (h | h | h)
        · exact .inl (.inr h)
        · exact .inl (.inl h)
        · exact .inr h
      · rintro ((h | h) | h)
        · exact .inr (.inl h)
        · exact .inl h
        · exact .inr (.inr h)

/-! ### The client calls -/

theorem Kept.cliOk {l : List Obs} (k : Kept c l c') (h : CliOk c) : CliOk c' :=
  ⟨by rw [k.acked]; exact h.acked, by rw [k.log]; simp [h.log], by rw [k.rd]; exact h.rd,
    by rw [k.todo]; exact h.todo, by rw [k.ackAfter]; exact h.ackAfter⟩

theorem Many.askOf {p : Pend} (h : Many P sc known c d pu pd A B X) (hp : p ∈ calls A B X) :
    ∃ box, AskIs c p box := by
  simp only [calls, List.mem_append, List.mem_map] at hp
  rcases hp with hp | ⟨z, hp, rfl⟩ | ⟨z, hp, rfl⟩
  · exact ⟨_, h.atA p hp⟩
  · exact ⟨_, h.atB z hp⟩
  · exact ⟨_, h.atX z hp⟩

/-- none of the calls in flight has this token -/
def FreshTok (c : St) (tok : Bytes) : Prop := ∀ a ∈ c.asks, a.done = false → a.tok ≠ tok

theorem Many.fresh {p : Pend} {tok : Bytes} (h : Many P sc known c d pu pd A B X) (hf : FreshTok c tok)
    (hp : p ∈ calls A B X) : p.tok ≠ tok := by
  obtain ⟨box, hb⟩ := h.askOf hp
  exact hf _ (List.mem_of_getElem? hb) rfl

theorem Ready.kept {l : List Obs} {p : Pend} {t : St} (h : Ready P c p) (k : Kept c l t)
    (hw : mapGet t.waiting p.tok = mapGet c.waiting p.tok) : Ready P t p :=
  ⟨by rw [hw]; exact h.waiting, h.tok, fun q hq =>
    let ⟨h1, h2, h3⟩ := h.req q hq
    ⟨h1, h2.kept k, h3⟩, h.ask⟩

theorem Many.notSent {t : St} {tok : Bytes} (h : Many P sc known c d pu pd A B X) (hf : FreshTok c tok)
    (hrd : c.rd = .idle) (hcall : NotSent c tok t) : ∃ l, t.log = c.log ++ l ∧ Many P sc known t d (pu ++ pipe l) pd A B X := by
  obtain ⟨l, k1, k2, k3⟩ := hcall
  refine ⟨l, k1.log, k1.cliOk h.cli, h.srv, fun p hp => (h.ready p hp).kept k1 (k3.waiting _ (h.fresh hf hp)),
    fun p hp => k3.here _ _ (h.atA p hp), fun p hp => k3.here _ _ (h.atB p hp), fun p hp => k3.here _ _ (h.atX p hp),
    fun j a hj ha => ?_, h.apart, h.up.calms k2, h.down, h.boxed, h.lost,
    h.differ.congr (l := []) k1.agree (agree_refl d) (by simp),
    h.talk.client (fun n => k1.agree.1 n) fun M hM => by rw [k1.rd, hrd] at hM; cases hM⟩
  rcases k3.back j a hj with x | x
  · exact h.cover j a x ha
  · rw [x] at ha; cases ha

theorem Many.sent {t : St} {p : Pend} (h : Many P sc known c d pu pd A B X) (hf : FreshTok c p.tok)
    (hrd : c.rd = .idle) (hi : p.i = c.asks.length) (hcall : Sent c p.k p.tok p.load t) (hnc : ¬ CalmP p.load)
    (hr : ∀ l, Kept c l t → mapGet t.waiting p.tok = some p.i → Ready P t p)
    (hcl : ∀ p' ∈ calls A B X, ∀ q q', p.req = some q → p'.req = some q' → ¬ Clash q.about q'.about) :
    ∃ l, t.log = c.log ++ l ∧ Many P sc known t d (pu ++ pipe l) pd (A ++ [p]) B X := by
  obtain ⟨l, l1, k1, k2, k3, k4, k5, k6⟩ := hcall
  have here : ∀ {j : Nat} {a : AskRec}, c.asks[j]? = some a → t.asks[j]? = some a := by
    intro j a ha
    have hlt : j < c.asks.length := (List.getElem?_eq_some_iff.mp ha).1
    rw [k4, List.getElem?_append_left hlt, ha]
  have hperm : (calls (A ++ [p]) B X).Perm (p :: calls A B X) := by
    simp only [calls, List.append_assoc, List.cons_append, List.nil_append]
    exact List.perm_middle
  refine ⟨l, k1.log, k1.cliOk h.cli, h.srv, fun z hz => ?_, fun z hz => ?_, fun z hz => here (h.atB z hz),
    fun z hz => here (h.atX z hz), fun j a hj ha => ?_, (hperm.pairwise_iff fun h => h.symm).mpr ?_, ?_, h.down, h.boxed, h.lost,
    h.differ.congr (l := []) k1.agree (agree_refl d) (by simp),
    h.talk.client (fun n => k1.agree.1 n) fun M hM => by rw [k1.rd, hrd] at hM; cases hM⟩
  · rcases List.mem_cons.mp (hperm.mem_iff.mp hz) with rfl | hz
    · exact hr l k1 (by rw [k5, hi])
    · exact (h.ready z hz).kept k1 (k6 _ (h.fresh hf hz))
  · rcases List.mem_append.mp hz with hz | hz
    · exact here (h.atA z hz)
    · rw [List.mem_singleton.mp hz]
      unfold AskIs
      rw [k4, hi]
      simp
  · rw [k4, List.getElem?_append] at hj
    split at hj
    · obtain ⟨z, h1, h2⟩ := h.cover j a hj ha
      exact ⟨z, hperm.mem_iff.mpr (List.mem_cons_of_mem _ h1), h2⟩
    · rename_i hlt
      refine ⟨p, hperm.mem_iff.mpr (List.mem_cons_self ..), ?_⟩
      have : j - c.asks.length = 0 := by
        cases hx : j - c.asks.length with
        | zero => rfl
        | succ n => rw [hx] at hj; simp at hj
      omega
  · rw [List.pairwise_cons]
    exact ⟨fun z hz => ⟨(h.fresh hf hz).symm, hcl z hz⟩, h.apart⟩
  · rw [k2]
    exact h.up.one (l2 := []) k3 .nil rfl hnc

theorem many_called {t : St} {tok : Bytes} {x : Bytes × Option Bytes} (h : Many P sc known c d pu pd A B X)
    (hf : FreshTok c tok) (hrd : c.rd = .idle) (hu : Unclaimed c x) (htok : CliTok tok)
    (hcall : Called x tok c t) :
    ∃ l A', t.log = c.log ++ l ∧ Many P sc known t d (pu ++ pipe l) pd A' B X := by
  rcases hcall with hcall | ⟨q, k, rfl, hab, hsafe, hw, hcall⟩
  · obtain ⟨l, h1, h2⟩ := h.notSent hf hrd hcall
    exact ⟨l, A, h1, h2⟩
  · obtain ⟨l, h1, h2⟩ := h.sent (p := ⟨c.asks.length, k, tok, some q, (.text, wireOf (q.msg tok))⟩) hf hrd rfl hcall
      (wire_notCalm (by rw [(req_fields q tok).1]; exact htok))
      (fun l hk hwt => ⟨hwt, htok, fun q' e => by cases e; exact ⟨hsafe, hw.kept hk, hab, rfl⟩, fun e => by cases e⟩)
      (fun p' hp' q1 q' e e' => by
        cases e
        obtain ⟨box, hb⟩ := h.askOf hp'
        obtain ⟨_, _, h3, _⟩ := (h.ready p' hp').req q' e'
        exact hu _ (List.mem_of_getElem? hb) rfl _ h3)
    exact ⟨l, _, h1, h2⟩

theorem many_ask {t : St} {m : Message} {now : Int} {ex : Bool} (hcl : cc.isClient = true) (hon : cc.onlyNative = false)
    (h : Many P sc known c d pu pd A B X)
    (hf : FreshTok c (genWait true now)) (hrd : c.rd = .idle) (hm : AskMsg m) (hP : P.asked (genWait true now) m)
    (hs : step cc c (.ask m now ex) = some t) (hc : t.closed = false) :
    ∃ l A', t.log = c.log ++ l ∧ Many P sc known t d (pu ++ pipe l) pd A' B X := by
  obtain ⟨he, _⟩ := step_exec hs
  simp only [exec] at he
  cases he
  rcases startAsk_cli hon hrd hc with hcall | hcall
  · rw [hcl] at hcall
    obtain ⟨l, h1, h2⟩ := h.notSent hf hrd hcall
    exact ⟨l, A, h1, h2⟩
  · rw [hcl] at hcall
    obtain ⟨l, h1, h2⟩ := h.sent (p := ⟨c.asks.length, .user, genWait true now, none,
        (if m.setBinary then .binary else .text, wireOf { m with wait := genWait true now })⟩) hf hrd rfl hcall
      (wire_notCalm (cliTok_genWait now))
      (fun l hk hwt => ⟨hwt, cliTok_genWait now, fun q' e => (by cases e), fun _ => ⟨rfl, m, hP, hm, rfl⟩⟩)
      (fun p' hp' q1 q' e e' => by cases e)
    exact ⟨l, _, h1, h2⟩

/-! ### A call completes -/

theorem mid_finish {R : St → St → Prop} (q : Mid R) (hg : ∀ s ns, R s (gateDone s ns)) (s : St) (k : Cont) (m : Message)
    (e : Option GoErr) : R s (finish cfg s k m e) := by
  have c := q.toCalm
  cases k with
  | user => exact c.emit _ _
  | connect ns obj =>
    cases e with
    | some e => exact c.trans (c.emit _ _) (hg _ _)
    | none =>
      refine c.trans ?_ (hg _ _)
      refine c.trans ?_ (c.emit _ _)
      exact c.trans (q.nsAdd s ns obj) (q.notifyConnected _ _ _)
  | disconnect obj msg =>
    cases e with
    | some e => exact c.emit _ _
    | none =>
      refine c.trans ?_ (c.emit _ _)
      refine c.trans ?_ (c.notifyDisconnect _ _)
      refine c.trans ?_ (c.fire _ _ _)
      exact c.trans (c.forceLeaveAll s obj true) (c.nsDel _ _)
  | join obj msg =>
    cases e with
    | some e => exact c.emit _ _
    | none =>
      simp only [finish]
      have h1 : R s (fire cfg s obj msg).1 := c.fire _ _ _
      rcases hf : fire cfg s obj msg with ⟨u, v⟩
      rw [hf] at h1
      cases v with
      | some e => exact c.trans h1 (c.emit _ _)
      | none =>
        refine c.trans ?_ (c.emit _ _)
        refine c.trans ?_ (c.fire _ _ _)
        exact c.trans h1 (q.addRoom _ _ _)
  | leave obj msg =>
    cases e with
    | some e => exact c.emit _ _
    | none =>
      simp only [finish]
      have h1 : R s (fire cfg s obj msg).1 := c.fire _ _ _
      rcases hf : fire cfg s obj msg with ⟨u, v⟩
      rw [hf] at h1
      cases v with
      | some e => exact c.trans h1 (c.emit _ _)
      | none =>
        refine c.trans ?_ (c.emit _ _)
        refine c.trans ?_ (c.fire _ _ _)
        exact c.trans h1 (c.del _ _ _)

/-- while it is open a connection keeps the table of its Asks -/
def OpenW (s t : St) : Prop := (s.closed = true → t.closed = true) ∧ (t.closed = false → t.waiting = s.waiting)

theorem openW_mid : Mid OpenW where
  refl _ := ⟨id, fun _ => rfl⟩
  trans {a b c} h k := ⟨fun x => k.1 (h.1 x), fun x => (k.2 x).trans (h.2 (by
    cases hb : b.closed with
    | false => rfl
    | true => rw [k.1 hb] at x; cases x))⟩
  emit _ _ := ⟨id, fun _ => rfl⟩
  ready _ _ := ⟨id, fun _ => rfl⟩
  hang _ := ⟨id, fun _ => rfl⟩
  del _ _ _ := ⟨id, fun _ => rfl⟩
  nsDel _ _ := ⟨id, fun _ => rfl⟩
  closed _ := ⟨fun _ => rfl, fun _ => rfl⟩
  waiting s h := ⟨id, fun x => by rw [h] at x; cases x⟩
  unack _ _ := ⟨id, fun _ => rfl⟩
  newObj _ _ := ⟨id, fun _ => rfl⟩
  addRoom _ _ _ := ⟨id, fun _ => rfl⟩
  nsAdd _ _ _ := ⟨id, fun _ => rfl⟩

theorem openW_finish (s : St) (k : Cont) (m : Message) (e : Option GoErr) : OpenW s (finish cfg s k m e) :=
  mid_finish openW_mid (fun s ns => ⟨fun x => by rw [(gateDone_fields s ns).2.2.2.1]; exact x,
    fun _ => gateDone_waiting s ns⟩) s k m e

theorem waits_congr {q : Req} {k : Cont} {t : St} (h : Waits q k c) (hn : t.namespace q.about.1 = c.namespace q.about.1)
    (hr : ∀ obj, k = .connect q.about.1 obj → c.rooms obj = [] → t.rooms obj = []) : Waits q k t := by
  cases q with
  | connect ns => obtain ⟨obj, h1, h2, h3⟩ := h; exact ⟨obj, h1, by rw [← h2]; exact hn, hr obj h1 h3⟩
  | disconnect ns => obtain ⟨obj, msg, h1, h2, h3⟩ := h; exact ⟨obj, msg, h1, h2, by rw [← h3]; exact hn⟩
  | join ns room => obtain ⟨obj, msg, h1, h2, h3, h4⟩ := h; exact ⟨obj, msg, h1, h2, h3, by rw [← h4]; exact hn⟩
  | leave ns room => obtain ⟨obj, msg, h1, h2, h3, h4⟩ := h; exact ⟨obj, msg, h1, h2, h3, by rw [← h4]; exact hn⟩

/-- a call that completes leaves to the others what they rely on -/
theorem answer_frame {t : St} {q q' : Req} {k' : Cont} {i : Nat} {a a' : AskRec} {m : Message}
    (hr : Reach cc id c) (ha : c.asks[i]? = some a)
    (hw : Waits q a.cont c) (hb : a.box = some m) (ha' : a' ∈ c.asks) (hk' : a'.cont = k') (hw' : Waits q' k' c)
    (hcl : ¬ Clash q.about q'.about) (h : step cc c (.resume i) = some t) (hc : t.closed = false) : Waits q' k' t := by
  have hne : q.about.2 = none → q'.about.1 ≠ q.about.1 := fun e x => hcl ⟨x.symm, .inl e⟩
  cases q with
  | connect ns =>
    obtain ⟨obj, hk, hnone, hrm⟩ := hw
    obtain ⟨k1, k2, _⟩ := c15_answer hr ha hk hb h hc
    exact waits_congr hw' (by rw [k1, if_neg (fun x => hne rfl x.1)]) (fun obj _ x => by rw [k2]; exact x)
  | disconnect ns =>
    obtain ⟨obj, msg, hk, rfl, hobj⟩ := hw
    obtain ⟨k1, k2, _⟩ := c19_answer hr ha hk hb h hc
    exact waits_congr hw' (by rw [k1, if_neg (fun x => hne rfl x.1)]) (fun obj _ x => by
      rw [k2]; split
      · rfl
      · exact x)
  | join ns room =>
    obtain ⟨obj, msg, hk, rfl, hev, hobj⟩ := hw
    obtain ⟨k1, k2, _⟩ := c17_answer hr ha hk hb h hc
    refine waits_congr hw' (by unfold St.namespace; rw [k1]) (fun obj' e x => ?_)
    rw [List.eq_nil_iff_forall_not_mem]
    intro r hr'
    rcases (k2 _ _).mp hr' with y | ⟨rfl, rfl, _⟩
    · rw [x] at y; cases y
    · have h1 := ((reach_ok hr).2 ns obj' hobj).2
      have h2 := (reach_ok hr).1 a' ha'
      rw [hk', e] at h2
      have h3 : c.objs[obj']?.map (·.ns) = some q'.about.1 := h2.2.1
      rw [h1] at h3
      refine hcl ⟨Option.some.inj h3, .inr (.inl ?_)⟩
      cases q' with
      | connect ns => rfl
      | disconnect ns => rfl
      | join ns room => obtain ⟨_, _, y, _⟩ := hw'; rw [e] at y; cases y
      | leave ns room => obtain ⟨_, _, y, _⟩ := hw'; rw [e] at y; cases y
  | leave ns room =>
    obtain ⟨obj, msg, hk, rfl, hev, hobj⟩ := hw
    obtain ⟨k1, k2, _⟩ := c18_answer ha hk hb h hc
    refine waits_congr hw' (by unfold St.namespace; rw [k1]) (fun obj' e x => ?_)
    rw [List.eq_nil_iff_forall_not_mem]
    intro r hr'
    have y := ((k2 _ _).mp hr').1
    rw [x] at y
    cases y

theorem finish_gate (s : St) (k : Cont) (m : Message) (e : Option GoErr) (n : Bytes) (h : ∀ obj, k ≠ .connect n obj) :
    gateOf (finish cfg s k m e) n = gateOf s n := by
  have same : ∀ {t : St}, t.gates = s.gates → gateOf t n = gateOf s n := fun h => by unfold gateOf; rw [h]
  have other : ∀ {t : St} {n' : Bytes}, n ≠ n' → t.gates = s.gates → gateOf (gateDone t n') n = gateOf s n := by
    intro t n' hn ht
    unfold gateDone
    split
    · exact same ht
    · split
      · exact same ht
      · unfold gateOf
        simp only [mapGet_mapSet, if_neg hn, ht]
  cases k with
  | user => exact same rfl
  | connect ns obj =>
    have hn : n ≠ ns := fun x => h obj (by rw [x])
    cases e with
    | some e => exact other hn rfl
    | none => exact other hn (rdSame_mid.notifyConnected (cfg := cfg) { s with connected := mapSet s.connected ns obj } obj _).gates
  | disconnect obj msg =>
    cases e with
    | some e => exact same rfl
    | none =>
      refine same ?_
      refine (rdSame_mid.toCalm.notifyDisconnect (cfg := cfg) _ _).gates.trans ?_
      refine (rdSame_mid.toCalm.fire (cfg := cfg) _ _ _).gates.trans ?_
      exact (rdSame_mid.toCalm.forceLeaveAll (cfg := cfg) s obj true).gates
  | join obj msg =>
    cases e with
    | some e => exact same rfl
    | none =>
      simp only [finish]
      have h1 : RdSame s (fire cfg s obj msg).1 := rdSame_mid.toCalm.fire _ _ _
      rcases hf : fire cfg s obj msg with ⟨u, v⟩
      rw [hf] at h1
      cases v with
      | some e => exact same h1.gates
      | none => exact same ((rdSame_mid.toCalm.fire (cfg := cfg) _ _ _).gates.trans h1.gates)
  | leave obj msg =>
    cases e with
    | some e => exact same rfl
    | none =>
      simp only [finish]
      have h1 : RdSame s (fire cfg s obj msg).1 := rdSame_mid.toCalm.fire _ _ _
      rcases hf : fire cfg s obj msg with ⟨u, v⟩
      rw [hf] at h1
      cases v with
      | some e => exact same h1.gates
      | none => exact same ((rdSame_mid.toCalm.fire (cfg := cfg) _ _ _).gates.trans h1.gates)

theorem finish_gate_done (s : St) (n : Bytes) (obj : Nat) (m : Message) (e : Option GoErr) :
    ((gateOf s n).done = true → gateOf (finish cfg s (.connect n obj) m e) n = gateOf s n) ∧
      ((gateOf s n).done = false → (gateOf (finish cfg s (.connect n obj) m e) n).count = (gateOf s n).count - 1) := by
  have key : ∀ {t : St}, t.gates = s.gates → ((gateOf s n).done = true → gateOf (gateDone t n) n = gateOf s n) ∧
      ((gateOf s n).done = false → (gateOf (gateDone t n) n).count = (gateOf s n).count - 1) := by
    intro t ht
    have hs : gateOf s n = gateOf t n := by unfold gateOf; rw [ht]
    rw [hs]
    unfold gateDone
    cases hg : mapGet t.gates n with
    | none =>
      dsimp only
      unfold gateOf
      rw [hg]
      simp
    | some g =>
      have h0 : gateOf t n = g := by unfold gateOf; rw [hg]; rfl
      dsimp only
      rw [h0]
      cases hd : g.done with
      | true => simp [h0]
      | false =>
        refine ⟨fun x => (by cases x), fun _ => ?_⟩
        unfold gateOf
        simp [mapGet_mapSet]
  cases e with
  | some e => exact key rfl
  | none => exact key (rdSame_mid.notifyConnected (cfg := cfg) { s with connected := mapSet s.connected n obj } obj _).gates

theorem pend_one {s : St} {i : Nat} {a : AskRec} {n : Bytes} (ha : s.asks[i]? = some a) (hp : pendOf n a = true)
    (h : ∀ (j : Nat) b, s.asks[j]? = some b → j ≠ i → ¬ pendOf n b = true) : pend s n = 1 := by
  unfold pend
  obtain ⟨hlt, rfl⟩ := List.getElem?_eq_some_iff.mp ha
  have he : s.asks = s.asks.take i ++ s.asks[i] :: s.asks.drop (i + 1) := by
    rw [← List.drop_eq_getElem_cons hlt, List.take_append_drop]
  rw [he, List.countP_append, List.countP_cons, if_pos hp]
  have h1 : (s.asks.take i).countP (pendOf n) = 0 := by
    rw [List.countP_eq_zero]
    intro b hb
    obtain ⟨j, hj⟩ := List.getElem?_of_mem hb
    rw [List.getElem?_take] at hj
    split at hj
    · exact h j b hj (by omega)
    · cases hj
  have h2 : (s.asks.drop (i + 1)).countP (pendOf n) = 0 := by
    rw [List.countP_eq_zero]
    intro b hb
    obtain ⟨j, hj⟩ := List.getElem?_of_mem hb
    rw [List.getElem?_drop] at hj
    exact h _ b hj (by omega)
  omega

theorem many_resume {t : St} {i : Nat} (hcons : Consistent cc sc)
    (hr : Reach cc id c) (h : Many P sc known c d pu pd A B X) (hs : step cc c (.resume i) = some t) (hc : t.closed = false) :
    (∃ l X', t.log = c.log ++ l ∧ Many P sc known t d (pu ++ pipe l) pd A B X' ∧
      ∃ x, x.1.i = i ∧ X.Perm (x :: X') ∧ ∀ p ∈ calls A B X', Apart x.1 p) ∧
      ∃ a m, c.asks[i]? = some a ∧ a.box = some m ∧ (a.cont ≠ .user → ∃ q r, Waits q a.cont c ∧ MovesHere q r.isNone c d ∧
        Carries known r m.err ∧ (∀ e, r = some e → q.No sc d e) ∧ (∀ n, q.onNs n → (InNs t n ↔ InNs d n)) ∧
        ∀ n r, q.onRoom n r → (InRoom t n r ↔ InRoom d n r)) ∧
      (a.cont = .user → t.log = c.log ++ [.ret .user (.answer m m.err)] ∧
        ∃ w e, P.asked a.tok w ∧ AskTold d w a.tok e ∧ Says known { w with wait := a.tok } e m) := by
  obtain ⟨a, ha, hdone, m, hb⟩ : ∃ a, c.asks[i]? = some a ∧ a.done = false ∧ ∃ m, a.box = some m := by
    obtain ⟨he, _⟩ := step_exec hs
    simp only [exec, resume] at he
    split at he
    · cases he
    · rename_i a ha
      split at he
      · cases he
      · split at he
        · cases he
        · rename_i hd _ m hb
          exact ⟨a, ha, by simpa using hd, m, hb⟩
  obtain ⟨p, hp, hpi⟩ := h.cover i a ha hdone
  subst hpi
  have hno : ∀ {z : Pend}, z.i = p.i → AskIs c z none → False := by
    intro z e hz
    unfold AskIs at hz
    rw [e, ha] at hz
    cases hz
    cases hb
  obtain ⟨x, hx, rfl⟩ : ∃ x ∈ X, x.1 = p := by
    simp only [calls, List.mem_append, List.mem_map] at hp
    rcases hp with hp | ⟨z, hp, rfl⟩ | ⟨z, hp, rfl⟩
    · exact (hno rfl (h.atA p hp)).elim
    · exact (hno rfl (h.atB z hp)).elim
    · exact ⟨z, hp, rfl⟩
  have hat := h.atX x hx
  have hae : a = ⟨x.1.tok, x.1.k, .table, x.2.2, false⟩ := by
    unfold AskIs at hat
    rw [ha] at hat
    exact Option.some.inj hat
  have hbox : x.2.2 = some m := by rw [hae] at hb; exact hb
  rw [hbox] at hae
  subst hae
  obtain ⟨X1, X2, rfl⟩ := List.append_of_mem hx
  have hpX : (X1 ++ x :: X2).Perm (x :: (X1 ++ X2)) := List.perm_middle
  have hperm : (calls A B (X1 ++ x :: X2)).Perm (x.1 :: calls A B (X1 ++ X2)) := by
    refine List.Perm.trans ?_ ((calls_lost (a := x.1) (r := x.2.1) (box := x.2.2) (A := A) (B := B) (X := X1 ++ X2)).trans ?_)
    · unfold calls
      exact ((hpX.map _).append_left _).append_left _
    · exact .refl _
  have hpw := (hperm.pairwise_iff fun h => h.symm).mp h.apart
  rw [List.pairwise_cons] at hpw
  obtain ⟨hap, hpw⟩ := hpw
  have hrx := h.ready _ (hperm.mem_iff.mpr (List.mem_cons_self ..))
  have hmemH : ∀ z, z ∈ handledBy B (X1 ++ x :: X2) ↔ z ∈ (x.1, x.2.1) :: handledBy B (X1 ++ X2) := by
    intro z
    simp only [handledBy, List.map_append, List.map_cons, List.mem_append, List.mem_cons]
    constructor
    · rintro (h | h | h | h)
      · exact .inr (.inl h)
      · exact .inr (.inr (.inl h))
      · exact .inl h
      · exact .inr (.inr (.inr h))
    · rintro (h | h | h | h)
      · exact .inr (.inr (.inl h))
      · exact .inl h
      · exact .inr (.inl h)
      · exact .inr (.inr (.inr h))
  obtain ⟨e, _⟩ := step_resume ha rfl hs
  have hra := rdAsk_finish (cfg := cc) (resumed c x.1.i ⟨x.1.tok, x.1.k, .table, some m, false⟩) x.1.k m m.err
  have hwt := openW_finish (cfg := cc) (resumed c x.1.i ⟨x.1.tok, x.1.k, .table, some m, false⟩) x.1.k m m.err
  dsimp only at e
  rw [← e] at hra hwt
  have htake : takeAnswer c x.1.i ⟨x.1.tok, x.1.k, .table, some m, false⟩ =
      { c with asks := c.asks.set x.1.i ⟨x.1.tok, x.1.k, .table, none, false⟩ } := by
    unfold takeAnswer
    rcases h.cli.rd with x | ⟨m, _, x⟩ <;> rw [x]
  have hres : resumed c x.1.i ⟨x.1.tok, x.1.k, .table, some m, false⟩ =
      { c with asks := (c.asks.set x.1.i ⟨x.1.tok, x.1.k, .table, none, false⟩).modify x.1.i (fun a => { a with done := true }),
               waiting := mapDel c.waiting x.1.tok } := by
    unfold resumed forget endAsk
    rw [htake]
    simp
  have hwait := hwt.2 hc
  rw [hres] at hra hwait
  have hack : t.acked = true := by
    rcases step_acked hr hs (.inl h.cli.acked) with x | x
    · exact x
    · rw [x] at hc; cases hc
  have hother : ∀ (j : Nat), j ≠ x.1.i → t.asks[j]? = c.asks[j]? := by
    intro j hj
    rw [hra.asks]
    simp only [List.getElem?_modify, List.getElem?_set]
    simp [show ¬ x.1.i = j from fun e => hj e.symm]
  have hkeep : ∀ {z : Pend} {box : Option Message}, z ∈ calls A B (X1 ++ X2) → AskIs c z box → AskIs t z box := by
    intro z box hz hz'
    unfold AskIs
    rw [hother _ (askIs_ne hat hz' (hap z hz))]
    exact hz'
  have hheld : ∀ M, t.rd = .gate M → c.rd = .gate M ∧ ((gateOf t M.ns).done = false ∨ (gateOf t M.ns).count = 0) := by
    intro M hM
    have hM' : c.rd = .gate M := by rw [hra.rd] at hM; exact hM
    refine ⟨hM', ?_⟩
    have hold := (h.talk.held M hM').2
    have hg0 : gateOf (resumed c x.1.i ⟨x.1.tok, x.1.k, .table, some m, false⟩) M.ns = gateOf c M.ns := by rw [hres]; rfl
    by_cases hk : ∃ obj, x.1.k = .connect M.ns obj
    · obtain ⟨obj, hk⟩ := hk
      have hfin := finish_gate_done (cfg := cc) (resumed c x.1.i ⟨x.1.tok, x.1.k, .table, some m, false⟩) M.ns obj m m.err
      rw [← hk, ← e, hg0] at hfin
      cases hd : (gateOf c M.ns).done with
      | true =>
        rw [hfin.1 hd]
        exact hold
      | false =>
        right
        rw [hfin.2 hd]
        have hone : pend c M.ns = 1 := by
          refine pend_one ha (by simp [pendOf, hk]) fun j b hj hne hb => ?_
          simp only [pendOf, Bool.and_eq_true, Bool.not_eq_true'] at hb
          obtain ⟨p, h1, h2⟩ := h.cover j b hj hb.1
          subst h2
          rcases List.mem_cons.mp (hperm.mem_iff.mp h1) with rfl | h1'
          · exact hne rfl
          · obtain ⟨box, hbx⟩ := h.askOf h1
            unfold AskIs at hbx
            rw [hj] at hbx
            cases hbx
            have hb2 := hb.2
            dsimp only at hb2
            cases hpk : p.k with
            | connect n obj' =>
              rw [hpk] at hb2
              simp only [decide_eq_true_eq] at hb2
              subst hb2
              have hreq : ∀ {z : Pend} {o : Nat}, Ready P c z → z.k = .connect M.ns o → z.req = some (.connect M.ns) := by
                intro z o hz hzk
                cases hzq : z.req with
                | none => rw [(hz.ask hzq).1] at hzk; cases hzk
                | some q =>
                  obtain ⟨_, hw, _⟩ := hz.req q hzq
                  rw [hzk] at hw
                  cases q with
                  | connect ns => obtain ⟨_, y, _⟩ := hw; cases y; rfl
                  | disconnect ns => obtain ⟨_, _, y, _⟩ := hw; cases y
                  | join ns room => obtain ⟨_, _, y, _⟩ := hw; cases y
                  | leave ns room => obtain ⟨_, _, y, _⟩ := hw; cases y
              exact (hap p h1').2 _ _ (hreq hrx hk) (hreq (h.ready p h1) hpk) ⟨rfl, .inl rfl⟩
            | _ => rw [hpk] at hb2; cases hb2
        have := (reach_gateOk hr M.ns).2.1 hd
        dsimp only at this
        omega
    · rw [e, finish_gate _ _ _ _ _ fun obj hx => hk ⟨obj, hx⟩, hg0]
      exact hold
  have main : ∀ l, t.log = c.log ++ l → CalmLog l → Differ sc t d (handledBy B (X1 ++ X2)) →
      (∀ n, (x.1.req = some (.connect n) → x.2.1 = none → InNs t n) ∧
        (InNs c n → ¬ (x.1.req = some (.disconnect n) ∧ x.2.1 = none) → InNs t n)) → SafeNs t →
      (∀ p ∈ calls A B (X1 ++ X2), ∀ q', p.req = some q' → Waits q' p.k t) →
      Many P sc known t d (pu ++ pipe l) pd A B (X1 ++ X2) := by
    intro l hl hcalm hdf hnst hsafe hwaits
    have hin : ∀ {z : Pend × Option GoErr × Option Message}, z ∈ X1 ++ X2 → z ∈ X1 ++ x :: X2 := fun {z} hz => by
      rcases List.mem_append.mp hz with hz | hz
      · exact List.mem_append_left _ hz
      · exact List.mem_append_right _ (List.mem_cons_of_mem _ hz)
    refine ⟨⟨hack, by rw [hl]; simp [h.cli.log], by rw [hra.rd]; exact h.cli.rd, by rw [hra.todo]; exact h.cli.todo,
        by rw [hra.ackAfter]; exact h.cli.ackAfter⟩, h.srv, fun p hp => ?_, fun p hp => ?_, fun p hp => ?_, fun p hp => ?_,
        fun j b hj hb => ?_, hpw, h.up.calms hcalm, h.down, fun z hz => h.boxed z (hin hz), fun z hz => h.lost z (hin hz), hdf,
        h.talk.resumed (by rw [hbox]; simp) hsafe hnst
          (fun z hz n hq hz' => (hap z.1 (calls_of_handled hz)).2 _ _ hq hz' ⟨rfl, .inl rfl⟩) hheld⟩
    · have hp0 := h.ready p (hperm.mem_iff.mpr (List.mem_cons_of_mem _ hp))
      refine ⟨?_, hp0.tok, fun q hq => ⟨(hp0.req q hq).1, hwaits p hp q hq, (hp0.req q hq).2.2⟩, hp0.ask⟩
      rw [hwait]
      simp only [mapGet_mapDel]
      rw [if_neg (hap p hp).1.symm]
      exact hp0.waiting
    · exact hkeep (List.mem_append_left _ hp) (h.atA p hp)
    · exact hkeep (List.mem_append_right _ (List.mem_append_left _ (List.mem_map_of_mem hp))) (h.atB p hp)
    · exact hkeep (List.mem_append_right _ (List.mem_append_right _ (List.mem_map_of_mem hp))) (h.atX p (hin hp))
    · by_cases e : j = x.1.i
      · subst e
        have hlt : x.1.i < c.asks.length := (List.getElem?_eq_some_iff.mp ha).1
        rw [hra.asks] at hj
        simp [List.getElem?_modify, hlt] at hj
        rw [← hj] at hb
        cases hb
      · rw [hother j e] at hj
        obtain ⟨z, h1, h2⟩ := h.cover j b hj hb
        rcases List.mem_cons.mp (hperm.mem_iff.mp h1) with rfl | h1
        · exact absurd h2.symm e
        · exact ⟨z, h1, h2⟩
  have hZ : Differ sc c d ((x.1, x.2.1) :: handledBy B (X1 ++ X2)) := h.differ.mem fun z => (hmemH z).symm
  cases hq : x.1.req with
  | none =>
    obtain ⟨hu, _⟩ := hrx.ask hq
    have et : t = (resumed c x.1.i ⟨x.1.tok, x.1.k, .table, some m, false⟩).emit (.ret .user (.answer m m.err)) := by
      rw [e, hu]
      rfl
    have hns : ∀ n, t.namespace n = c.namespace n := fun n => by
      rw [et, hres]; rfl
    have hrooms : ∀ j, t.rooms j = c.rooms j := fun j => by
      rw [et, hres]; rfl
    have hlog : t.log = c.log ++ [.ret .user (.answer m m.err)] := by
      rw [et, hres]; rfl
    refine ⟨⟨_, X1 ++ X2, hlog, main _ hlog (calm_ret _ _) ?_
      (fun n => ⟨fun y => (by rw [hq] at y; cases y), fun y _ => by unfold InNs at y ⊢; rw [hns]; exact y⟩)
      (fun n y => h.talk.cli n (by unfold InNs at y ⊢; rw [hns] at y; exact y)) ?_, x, rfl, hpX, hap⟩, _, m, ha, rfl, fun hne => absurd hu hne,
      fun _ => ⟨hlog, (h.boxed x hx m hbox).2 hq⟩⟩
    · exact ((Differ.plain hq).mp hZ).congr (l := []) (agree_of hns fun _ j _ => hrooms j) (agree_refl d) (by simp)
    · intro p hp q' hq'
      have hp0 := (h.ready p (hperm.mem_iff.mpr (List.mem_cons_of_mem _ hp))).req q' hq'
      exact waits_congr hp0.2.1 (hns _) (fun obj _ h => by rw [hrooms]; exact h)
  | some q =>
    obtain ⟨hsq, hw, _⟩ := hrx.req q hq
    obtain ⟨k1, l, k2, k3⟩ := cli_answer hcons hr ha rfl hw rfl hs hc
    have hcar := (h.boxed x hx m hbox).1 q hq
    rw [← carries_isNone hcar] at k1
    have hnc : ∀ z ∈ handledBy B (X1 ++ X2), ∀ q', z.1.req = some q' → ¬ Clash q.about q'.about :=
        fun z hz q' hq' => (hap z.1 (calls_of_handled hz)).2 q q' hq hq'
    refine ⟨⟨l, X1 ++ X2, k2, main l k2 k3 (hZ.remove hq k1 hnc) (fun n => ⟨fun y z => ?_, fun y z => ?_⟩) (fun n y => ?_) ?_, x, rfl, hpX, hap⟩, _, m, ha, rfl, fun _ => ?_, fun hk => ?_⟩
    · rw [hq] at y
      cases y
      exact (k1.1 n).mpr (.inr ⟨by rw [z]; rfl, rfl⟩)
    · refine (k1.1 n).mpr ?_
      cases q with
      | connect ns => exact .inl y
      | disconnect ns =>
        refine ⟨y, fun ⟨e1, e2⟩ => z ⟨by rw [hq, e2], ?_⟩⟩
        cases hx : x.2.1 with
        | none => rfl
        | some e => rw [hx] at e1; cases e1
      | join ns room => exact y
      | leave ns room => exact y
    · have hm := (k1.1 n).mp y
      cases q with
      | connect ns =>
        rcases hm with hm | ⟨_, rfl⟩
        · exact h.talk.cli n hm
        · exact hsq
      | disconnect ns => exact h.talk.cli n hm.1
      | join ns room => exact h.talk.cli n hm
      | leave ns room => exact h.talk.cli n hm
    · intro p hp q' hq'
      obtain ⟨box, hbx⟩ := h.askOf (hperm.mem_iff.mpr (List.mem_cons_of_mem _ hp))
      have hp0 := (h.ready p (hperm.mem_iff.mpr (List.mem_cons_of_mem _ hp))).req q' hq'
      exact answer_frame hr ha hw rfl (List.mem_of_getElem? hbx) rfl hp0.2.1 ((hap p hp).2 q q' hq hq') hs hc
    · obtain ⟨h1, h2⟩ := hZ.done _ (List.mem_cons_self ..) q hq
      have hdf := hZ.remove hq k1 hnc
      exact ⟨q, x.2.1, hw, h1, hcar, h2,
        fun n hn => hdf.ns n fun z hz q' hq' x => hnc z hz q' hq' (clash_ns hn x),
        fun n r hn => hdf.room n r fun z hz q' hq' x => hnc z hz q' hq' (clash_room hn x)⟩
    · have hab := (hrx.req q hq).2.2.1
      rw [show x.1.k = .user from hk] at hab
      cases hab

/-! ### Steps of one side on its own -/

/-- the server does something on its own -/
theorem many_srv {op : Op} {s : Sess} (ho : OneRequest s (.server op)) (h : Many P sc known c d pu pd A B X)
    (hs : step sc d op = some d') (hc : d'.closed = false) :
    ∃ l, d'.log = d.log ++ l ∧ Many P sc known c d' pu (pd ++ pipe l) A B X := by
  have hexit : ∀ s : St, (readerExit sc s).closed = true := fun s => closeConn_closed s
  obtain ⟨he, _⟩ := step_exec hs
  cases op with
  | write m =>
    simp only [exec] at he
    cases he
    obtain ⟨l, k1, k2⟩ := app_write ho hc
    exact ⟨l, k1.log, h.calms_srv k1 k2 (keeps_write h.talk.srv (app_framed ho) hc)⟩
  | ready e =>
    simp only [exec] at he
    cases he
    have k1 : Same d [] (d.signalReady e) := by
      unfold St.signalReady
      split
      · exact .refl _
      · exact ⟨_, by simp; rfl⟩
    exact ⟨[], k1.log, h.calms_srv k1 .nil (.same k1 .nil)⟩
  | close =>
    simp only [exec] at he
    cases he
    rw [closeConn_closed] at hc
    cases hc
  | readErr e =>
    simp only [exec] at he
    split at he
    · cases he
      rw [hexit] at hc
      cases hc
    · cases he
  | wake => simp [exec, wakeReader, h.srv.rd] at he
  | recv => exact ho.elim
  | contReader => exact ho.elim
  | connect => exact ho.elim
  | disconnect => exact ho.elim
  | join => exact ho.elim
  | leave => exact ho.elim
  | ask => exact ho.elim
  | resume => exact ho.elim
  | cancel => exact ho.elim
  | steal => exact ho.elim
  | stealErr => exact ho.elim
  | sendAck => exact ho.elim
  | srvAsk => exact ho.elim
  | srvUnask => exact ho.elim

theorem many_wake {t : St} (hcb : CbCalm cc) (h : Many P sc known c d pu pd A B X) (hs : step cc c .wake = some t)
    (hc : t.closed = false) : ∃ l, t.log = c.log ++ l ∧ Many P sc known t d (pu ++ pipe l) pd A B X := by
  obtain ⟨he, _⟩ := step_exec hs
  simp only [exec, wakeReader] at he
  have hok := h.cli
  rcases hok.rd with x | ⟨m, hm, x⟩
  · rw [x] at he; cases he
  · simp only [x] at he
    split at he
    · have hrd := rd_afterGate (cfg := cc) { c with rd := .idle } m
      have h1 : (afterGate cc { c with rd := .idle } m).rd = .idle := hrd.rd
      have h2 : (afterGate cc { c with rd := .idle } m).todo = [] := hrd.todo.trans hok.todo
      have h3 : (afterGate cc { c with rd := .idle } m).ackAfter = false := hrd.ackAfter.trans hok.ackAfter
      rw [if_pos h1, h2] at he
      simp only [drain, h3, Bool.false_eq_true, if_false, Option.some.injEq] at he
      have he : t = afterGate cc { c with rd := .idle } m := by
        rw [← he]
        generalize afterGate cc { c with rd := .idle } m = u at h2 h3
        cases u
        simp only at h2 h3
        subst h2 h3
        rfl
      subst he
      obtain ⟨l, k1, k2⟩ := calm_afterGate hcb hm.1 hm.2 hc
      have hk : CKept c l (afterGate cc { c with rd := .idle } m) :=
        ⟨fun n => k1.ckept.ns n, fun n => k1.ckept.rooms n, .inr (.inl h1), k1.ckept.todo, k1.ckept.ackAfter,
          k1.ckept.acked, k1.ckept.log, k1.ckept.asks, k1.ckept.waiting⟩
      exact ⟨l, hk.log, h.calms_cli hk k2 fun M hM => by rw [h1] at hM; cases hM⟩
    · cases he

/-- the client does something on its own -/
theorem many_cli {t : St} {op : Op} {s : Sess} (hcons : Consistent cc sc)
    (hn : cc.allowNative = false) (hcl : cc.isClient = true) (hr : Reach cc id s.c)
    (ho : ManyRequests s (.client op)) (h : Many P sc known s.c d pu pd A B X) (hs : step cc s.c op = some t)
    (hc : t.closed = false) (hP : ∀ m now ex, op = .ask m now ex → P.asked (genWait true now) m) : ∃ l A' B' X', t.log = s.c.log ++ l ∧ Many P sc known t d (pu ++ pipe l) pd A' B' X' := by
  have hcb : CbCalm cc := hcons.client
  have hon : cc.onlyNative = false := by simp [Cfg.onlyNative, hn]
  have hexit : ∀ s : St, (readerExit cc s).closed = true := fun s => closeConn_closed s
  cases op with
  | sendAck => exact absurd ho h.cli.log
  | write m =>
    obtain ⟨ho1, ho2⟩ : s.c.ready = some none ∧ AppMsg m := ho
    obtain ⟨he, _⟩ := step_exec hs
    simp only [exec] at he
    cases he
    obtain ⟨l, k1, k2⟩ := app_write ho2 hc
    refine ⟨l, A, B, X, k1.log, h.calms_cli k1.ckept k2 fun M hM => ?_⟩
    rw [k1.kept.rd] at hM
    obtain ⟨r, e⟩ := k1
    rw [show gateOf (write cc s.c m).1 M.ns = gateOf s.c M.ns by rw [e]; rfl]
    exact h.talk.held M hM
  | connect ns now ex =>
    obtain ⟨ho1, ho2, ho3⟩ : MayAsk s.c now ∧ Unclaimed s.c (ns, none) ∧ SafeName ns := ho
    obtain ⟨l, A', h1, h2⟩ := many_called h ho1.2.2 ho1.2.1 ho2 (cliTok_genWait _) (cli_connect hcl hon hcb ho1.2.1 ho3 hs hc)
    exact ⟨l, A', B, X, h1, h2⟩
  | disconnect obj now ex =>
    obtain ⟨ho1, ho2, ho3⟩ : MayAsk s.c now ∧ Unclaimed s.c (s.c.nsName obj, none) ∧ SafeName (s.c.nsName obj) := ho
    obtain ⟨l, A', h1, h2⟩ := many_called h ho1.2.2 ho1.2.1 ho2 (cliTok_genWait _) (cli_disconnect hcl hon ho1.2.1 ho3 hs hc)
    exact ⟨l, A', B, X, h1, h2⟩
  | join obj room now ex =>
    obtain ⟨ho1, ho2, ho3, ho4, ho5⟩ : MayAsk s.c now ∧ Unclaimed s.c (s.c.nsName obj, some room) ∧ linked s.c obj = true ∧
      SafeName (s.c.nsName obj) ∧ SafeName room := ho
    obtain ⟨l, A', h1, h2⟩ := many_called h ho1.2.2 ho1.2.1 ho2 (cliTok_genWait _) (cli_join hcl hon ho1.2.1 ho3 ho4 ho5 hs hc)
    exact ⟨l, A', B, X, h1, h2⟩
  | leave obj room now ex =>
    obtain ⟨ho1, ho2, ho3, ho4, ho5⟩ : MayAsk s.c now ∧ Unclaimed s.c (s.c.nsName obj, some room) ∧ linked s.c obj = true ∧
      SafeName (s.c.nsName obj) ∧ SafeName room := ho
    obtain ⟨l, A', h1, h2⟩ := many_called h ho1.2.2 ho1.2.1 ho2 (cliTok_genWait _) (cli_leave hcl hon ho1.2.1 ho3 ho4 ho5 hs hc)
    exact ⟨l, A', B, X, h1, h2⟩
  | ask m now ex =>
    obtain ⟨ho1, ho2⟩ : MayAsk s.c now ∧ AskMsg m := ho
    obtain ⟨l, A', h1, h2⟩ := many_ask hcl hon h ho1.2.2 ho1.2.1 ho2 (hP m now ex rfl) hs hc
    exact ⟨l, A', B, X, h1, h2⟩
  | resume i =>
    obtain ⟨⟨l, X', h1, h2, _⟩, _⟩ := many_resume hcons hr h hs hc
    exact ⟨l, A, B, X', h1, h2⟩
  | close =>
    obtain ⟨he, _⟩ := step_exec hs
    simp only [exec] at he
    cases he
    rw [closeConn_closed] at hc
    cases hc
  | readErr e =>
    obtain ⟨he, _⟩ := step_exec hs
    simp only [exec] at he
    split at he
    · cases he
      rw [hexit] at hc
      cases hc
    · cases he
  | wake =>
    obtain ⟨l, h1, h2⟩ := many_wake hcb h hs hc
    exact ⟨l, A, B, X, h1, h2⟩
  | recv => exact ho.elim
  | contReader => exact ho.elim
  | cancel => exact ho.elim
  | steal => exact ho.elim
  | stealErr => exact ho.elim
  | ready => exact ho.elim
  | srvAsk => exact ho.elim
  | srvUnask => exact ho.elim

/-! ### Before the handshake has ended -/

/-- the server has not been connected to a namespace -/
def Early (known : List KnownErr) (d : St) (pd : List (MsgType × Bytes)) : Prop :=
  d.connected = [] ∧ Fits known (fun _ => False) pd

theorem no_ns {d : St} (h : d.connected = []) (n : Bytes) : ¬ InNs d n := by
  simp [InNs, St.namespace, h, mapGet]

theorem Early.keeps {l : List Obs} (h : Early known d pd) (k : Keeps known d d') (hl : d'.log = d.log ++ l) :
    Early known d' (pd ++ pipe l) := by
  obtain ⟨l', h1, h2⟩ := k.log
  rw [hl] at h1
  rw [List.append_cancel_left h1]
  exact ⟨k.conn.trans h.1, h.2.append (h2.imp fun n hn => no_ns h.1 n hn)⟩

theorem Early.ack {l : List Obs} {x : Bytes} (h : Early known d pd) (hc : d'.connected = [])
    (hl : d'.log = d.log ++ l) (hk : d'.log = d.log ++ [.sent false (65 :: x) true]) : Early known d' (pd ++ pipe l) := by
  rw [hl] at hk
  rw [List.append_cancel_left hk]
  refine ⟨hc, h.2.append fun y hy hcalm => ?_⟩
  simp only [pipe, List.mem_singleton] at hy
  subst hy
  obtain ⟨t, e⟩ := hcalm
  cases e

/-- the handshake on the server -/
theorem early_up {p : MsgType × Bytes} {rest : List (MsgType × Bytes)} {l : List Obs} (hr : Reach sc id d) (hf : CliFresh c)
    (h : Phase sc known c d (p :: rest) pd) (he : Early known d pd) (hs : step sc d (.recv p.1 p.2) = some d')
    (hc : d'.closed = false) (hl : d'.log = d.log ++ l) : Early known d' (pd ++ pipe l) := by
  have hna : ¬ c.acked = true := by simp [hf.acked]
  cases h with
  | greet h1 h2 h3 h4 h5 =>
    rcases h4 with ⟨_, h4⟩ | ⟨h4, h6⟩
    · cases h4
    · cases h6
      have hr2 := closed_of_prims (reach_prims hr hs) hc
      obtain ⟨hx, _⟩ := step_exec hs
      simp only [exec] at hx
      split at hx
      · cases hx
        rw [recv_ack_M hr2 h2.acked] at hc hl ⊢
        cases hrd : d.ready with
        | none =>
          rw [hrd] at hl
          exact he.keeps (.of rfl rfl) hl
        | some r =>
          rw [hrd] at hc hl
          obtain ⟨_, _, k3, k4⟩ := ackReady_phase h2 hc
          exact he.ack k3 hl k4
      · cases hx
  | held h1 h2 h3 h4 h5 => cases h5
  | acked x l1 l2 h1 h2 h3 h4 h5 => cases h5
  | idle h1 h2 => exact absurd h1.acked hna
  | asked q i k tok l1 l2 h1 h2 => exact absurd h1.acked hna
  | answered q i k tok acc p l1 l2 h1 h2 => exact absurd h1.acked hna
  | boxed q i k tok m r h1 h2 => exact absurd h1.acked hna
  | lost i k tok h1 h2 => exact absurd h1.acked hna

theorem early_srv {op : Op} {s : Sess} {l : List Obs} (ho : OneRequest s (.server op)) (hf : CliFresh c)
    (h : Phase sc known c d pu pd) (he : Early known d pd) (hs : step sc d op = some d') (hc : d'.closed = false)
    (hl : d'.log = d.log ++ l) : Early known d' (pd ++ pipe l) := by
  have hna : ¬ c.acked = true := by simp [hf.acked]
  have hsafe : SafeNs d := fun n hn => absurd hn (no_ns he.1 n)
  have hexit : ∀ s : St, (readerExit sc s).closed = true := fun s => closeConn_closed s
  obtain ⟨hx, _⟩ := step_exec hs
  cases op with
  | write m =>
    simp only [exec] at hx
    cases hx
    exact he.keeps (keeps_write hsafe (app_framed ho) hc) hl
  | ready e =>
    simp only [exec] at hx
    cases hx
    refine he.keeps ?_ hl
    unfold St.signalReady
    split <;> exact .of rfl rfl
  | close =>
    simp only [exec] at hx
    cases hx
    rw [closeConn_closed] at hc
    cases hc
  | readErr e =>
    simp only [exec] at hx
    split at hx
    · cases hx
      rw [hexit] at hc
      cases hc
    · cases hx
  | wake =>
    cases h with
    | greet h1 h2 h3 => simp [exec, wakeReader, h3] at hx
    | held h1 h2 h3 h4 h5 h6 =>
      simp only [exec, wakeReader, h3] at hx
      cases hrd : d.ready with
      | none => rw [hrd] at hx; cases hx
      | some r =>
        rw [hrd] at hx
        cases hx
        obtain ⟨_, _, k3, k4⟩ := ackReady_phase h2 hc
        exact he.ack k3 hl k4
    | acked x l1 l2 h1 h2 => simp [exec, wakeReader, h2.rd] at hx
    | idle h1 h2 => exact absurd h1.acked hna
    | asked q i k tok l1 l2 h1 h2 => exact absurd h1.acked hna
    | answered q i k tok acc p l1 l2 h1 h2 => exact absurd h1.acked hna
    | boxed q i k tok m r h1 h2 => exact absurd h1.acked hna
    | lost i k tok h1 h2 => exact absurd h1.acked hna
  | recv => exact ho.elim
  | contReader => exact ho.elim
  | connect => exact ho.elim
  | disconnect => exact ho.elim
  | join => exact ho.elim
  | leave => exact ho.elim
  | ask => exact ho.elim
  | resume => exact ho.elim
  | cancel => exact ho.elim
  | steal => exact ho.elim
  | stealErr => exact ho.elim
  | sendAck => exact ho.elim
  | srvAsk => exact ho.elim
  | srvUnask => exact ho.elim

theorem Early.tail {p : MsgType × Bytes} {rest : List (MsgType × Bytes)} (h : Early known d (p :: rest)) : Early known d rest :=
  ⟨h.1, h.2.sub fun x hx => List.mem_cons_of_mem _ hx⟩

/-- where a session is -/
def MPhase (P : Past) (sc : Cfg) (known : List KnownErr) (c d : St) (pu pd : List (MsgType × Bytes)) : Prop :=
  (CliFresh c ∧ Phase sc known c d pu pd ∧ Early known d pd) ∨ ∃ A B X, Many P sc known c d pu pd A B X

theorem fresh_down {p : MsgType × Bytes} {rest : List (MsgType × Bytes)} (hf : CliFresh c)
    (h : Phase sc cc.known c d pu (p :: rest)) (hea : Early cc.known d (p :: rest))
    (hs : step cc c (.recv p.1 p.2) = some c') : c'.log = c.log ∧ MPhase P sc cc.known c' d pu rest := by
  have hna : ¬ c.acked = true := by simp [hf.acked]
  cases h with
  | greet h1 h2 h3 h4 h5 =>
    obtain ⟨k1, k2⟩ := calm_recv_fresh (h5 p (List.mem_cons_self ..)) h1 hs
    exact ⟨k2, .inl ⟨k1, .greet k1 h2 h3 (by rw [k2]; exact h4) fun x hx => h5 x (List.mem_cons_of_mem _ hx), hea.tail⟩⟩
  | held h1 h2 h3 h4 h5 h6 =>
    obtain ⟨k1, k2⟩ := calm_recv_fresh (h6 p (List.mem_cons_self ..)) h1 hs
    exact ⟨k2, .inl ⟨k1, .held k1 h2 h3 (by rw [k2]; exact h4) h5 fun x hx => h6 x (List.mem_cons_of_mem _ hx), hea.tail⟩⟩
  | acked x l1 l2 h1 h2 h3 h4 h5 h6 h7 h8 =>
    cases l1 with
    | cons y l1 =>
      simp only [List.cons_append, List.cons.injEq] at h6
      obtain ⟨rfl, rfl⟩ := h6
      obtain ⟨k1, k2⟩ := calm_recv_fresh (h7 p (List.mem_cons_self ..)) h1 hs
      exact ⟨k2, .inl ⟨k1, .acked x l1 l2 k1 h2 h3 (by rw [k2]; exact h4) h5 rfl
        (fun x hx => h7 x (List.mem_cons_of_mem _ hx)) h8, hea.tail⟩⟩
    | nil =>
      simp only [List.nil_append, List.cons.injEq] at h6
      obtain ⟨rfl, rfl⟩ := h6
      obtain ⟨k1, k2, k3, k4, k5⟩ := recv_acked h1 h4 hs
      have hag := agree_empty k2 h3
      refine ⟨k4, .inr ⟨[], [], [], k1, h2, ?_, ?_, ?_, ?_, ?_, .nil, by rw [h5]; exact .nil, weave_calms h8, ?_, ?_, ?_, ?_⟩⟩
      · intro p hp; cases hp
      · intro p hp; cases hp
      · intro p hp; cases hp
      · intro p hp; cases hp
      · intro j a hj; rw [k3] at hj; simp at hj
      · intro p hp; cases hp
      · intro p hp; cases hp
      · exact ⟨fun z hz => (by cases hz), fun n _ => hag.1 n, fun n r _ => hag.2 n r⟩
      · exact ⟨fun n hn => absurd hn (no_ns k2 n), fun n hn => absurd hn (no_ns hea.1 n),
          seen_calms h8 (hea.tail.2.imp fun n hn => hn.elim), fun M hM => by rw [k5] at hM; cases hM⟩
  | idle h1 h2 => exact absurd h1.acked hna
  | asked q i k tok l1 l2 h1 h2 => exact absurd h1.acked hna
  | answered q i k tok acc p l1 l2 h1 h2 => exact absurd h1.acked hna
  | boxed q i k tok m r h1 h2 => exact absurd h1.acked hna
  | lost i k tok h1 h2 => exact absurd h1.acked hna

/-- until Dial has returned, the rules for several calls are those for one -/
theorem fresh_rules {s : Sess} {op : Op} (hf : CliFresh s.c) (ho : ManyRequests s (.client op)) :
    OneRequest s (.client op) := by
  have hno : ∀ {now : Int}, ¬ MayAsk s.c now := fun h => by
    have := h.1
    rw [hf.ready] at this
    cases this
  cases op with
  | connect ns now ex => exact absurd ho.1 hno
  | disconnect obj now ex => exact absurd ho.1 hno
  | join obj room now ex => exact absurd ho.1 hno
  | leave obj room now ex => exact absurd ho.1 hno
  | ask m now ex => exact absurd ho.1 hno
  | _ => exact ho

theorem fresh_stays {s : Sess} {t : St} {op : Op} (hon : cc.onlyNative = false) (hf : CliFresh s.c)
    (ho : OneRequest s (.client op)) (hs : step cc s.c op = some t) (hc : t.closed = false) : t.acked = false := by
  have hexit : ∀ s : St, (readerExit cc s).closed = true := fun s => closeConn_closed s
  have hno : s.c.ready ≠ some none := by rw [hf.ready]; simp
  obtain ⟨he, _⟩ := step_exec hs
  cases op with
  | sendAck =>
    simp only [exec, hon, Bool.false_eq_true, if_false] at he
    have ht : t = (rawWrite cc s.c (b! "M") false).1 := by
      rcases hw : rawWrite cc s.c (b! "M") false with ⟨u, v⟩
      rw [hw] at he
      cases v with
      | true => cases he; rfl
      | false => cases he; rw [closeConn_closed] at hc; cases hc
    subst ht
    rw [rawWrite_open hc]
    exact hf.acked
  | write m => exact absurd ho.1 hno
  | connect ns now ex => exact absurd ho.1.1 hno
  | disconnect obj now ex => exact absurd ho.1.1 hno
  | join obj room now ex => exact absurd ho.1.1 hno
  | leave obj room now ex => exact absurd ho.1.1 hno
  | resume i => simp [exec, resume, hf.asks] at he
  | wake => simp [exec, wakeReader, hf.rd] at he
  | close =>
    simp only [exec] at he
    cases he
    rw [closeConn_closed] at hc
    cases hc
  | readErr e =>
    simp only [exec] at he
    split at he
    · cases he
      rw [hexit] at hc
      cases hc
    · cases he
  | ask => exact ho.elim
  | recv => exact ho.elim
  | contReader => exact ho.elim
  | cancel => exact ho.elim
  | steal => exact ho.elim
  | stealErr => exact ho.elim
  | ready => exact ho.elim
  | srvAsk => exact ho.elim
  | srvUnask => exact ho.elim

theorem Phase.fresh (h : Phase sc known c d pu pd) (ha : c.acked = false) : CliFresh c :=
  Classical.byContradiction fun x => by
    have := (h.cliOk x).acked
    rw [ha] at this
    cases this

/-! ### Sessions -/

/-- the past of a session -/
def pastOf (cc sc : Cfg) (id : Bytes) (ops : List SessOp) : Past := ⟨AskedFor ops, Away cc sc id ops⟩

theorem Many.weaken {P' : Past} (h : Many P sc known c d pu pd A B X) (h1 : ∀ t m, P.asked t m → P'.asked t m)
    (h2 : ∀ t m, P.away t m → P'.away t m) : Many P' sc known c d pu pd A B X := by
  have hout : ∀ {p : Pend} {r : Option GoErr} {m : Message}, Outcome P known d p r m → Outcome P' known d p r m :=
    fun k => ⟨k.1, fun hp => let ⟨w, e, k1, k2⟩ := k.2 hp; ⟨w, e, h1 _ _ k1, k2⟩⟩
  refine ⟨h.cli, h.srv, fun p hp => ?_, h.atA, h.atB, h.atX, h.cover, h.apart, h.up,
    h.down.imp fun _ _ k => ⟨k.1, hout k.2⟩, fun x hx m hm => hout (h.boxed x hx m hm), fun x hx hm => ⟨fun hp => ?_, (h.lost x hx hm).2⟩,
    h.differ, h.talk⟩
  · obtain ⟨k1, k2, k3, k4⟩ := h.ready p hp
    exact ⟨k1, k2, k3, fun hq => let ⟨k5, m, k6, k7⟩ := k4 hq; ⟨k5, m, h1 _ _ k6, k7⟩⟩
  · obtain ⟨w, k1, k2⟩ := (h.lost x hx hm).1 hp
    exact ⟨w, h1 _ _ k1, k2.imp (h2 _ _) fun k => k⟩

theorem MPhase.weaken {ops : List SessOp} {op : SessOp} (h : MPhase (pastOf cc sc id ops) sc known c d pu pd) :
    MPhase (pastOf cc sc id (ops ++ [op])) sc known c d pu pd := by
  refine h.imp (fun h => h) fun ⟨A, B, X, h⟩ => ⟨A, B, X, h.weaken ?_ ?_⟩
  · rintro t m ⟨now, ex, h1, h2⟩
    exact ⟨now, ex, h1, List.mem_append_left _ h2⟩
  · rintro t m ⟨b, s, w, h1, h2⟩
    exact ⟨b, s, w, h1.trans (List.prefix_append ..), h2⟩

structure ManyInv (cc sc : Cfg) (id : Bytes) (ops : List SessOp) (s : Sess) : Prop where
  rc : Reach cc [] s.c
  rd : Reach sc id s.d
  up : s.up ≤ (pipe s.c.log).length
  down : s.down ≤ (pipe s.d.log).length
  phase : s.c.closed = true ∨ s.d.closed = true ∨
    MPhase (pastOf cc sc id ops) sc cc.known s.c s.d ((pipe s.c.log).drop s.up) ((pipe s.d.log).drop s.down)

theorem many_inv {ops : List SessOp} {s : Sess} (hcons : Consistent cc sc) (hnc : cc.allowNative = false)
    (hns : sc.allowNative = false) (hcl : cc.isClient = true) (hsc : sc.isClient = false)
    (h : ManyRun cc sc id ops s) : ManyInv cc sc id ops s := by
  have honc : cc.onlyNative = false := by simp [Cfg.onlyNative, hnc]
  have hons : sc.onlyNative = false := by simp [Cfg.onlyNative, hns]
  induction h with
  | init =>
    refine ⟨.init, .init, Nat.zero_le _, Nat.zero_le _, .inr (.inr (.inl ?_))⟩
    simp only [newSess, newConn_eq honc, newConn_eq hons]
    exact ⟨⟨rfl, rfl, rfl, rfl, rfl, rfl, rfl⟩,
      .greet ⟨rfl, rfl, rfl, rfl, rfl, rfl, rfl⟩ ⟨rfl, rfl, rfl, rfl, rfl, rfl, rfl⟩ rfl (.inl ⟨rfl, rfl⟩) .nil, rfl, .nil⟩
  | @step ops s s' op hrun ho hstep ih =>
    have drop_app : ∀ {a b : List (MsgType × Bytes)} {n : Nat}, n ≤ a.length → (a ++ b).drop n = a.drop n ++ b :=
      fun {a b n} hn => by rw [List.drop_append, Nat.sub_eq_zero_of_le hn]; rfl
    have hph : _ ∨ _ ∨ MPhase (pastOf cc sc id (ops ++ [op])) _ _ _ _ _ _ :=
      ih.phase.imp (fun h => h) fun h => h.imp (fun h => h) MPhase.weaken
    cases op with
    | client op =>
      simp only [sstep] at hstep
      split at hstep
      · cases hstep
      · obtain ⟨t, ht, rfl⟩ := Option.map_eq_some_iff.mp hstep
        obtain ⟨l, hl⟩ := log_grows ih.rc ht
        refine ⟨.step ih.rc ht, ih.rd, ?_, ih.down, ?_⟩
        · simp only [hl, pipe_append, List.length_append]; exact Nat.le_trans ih.up (Nat.le_add_right ..)
        · cases hc : t.closed with
          | true => exact .inl rfl
          | false =>
            have hc0 := closed_of_prims (reach_prims ih.rc ht) hc
            rcases hph with x | x | ⟨hf, x, hea⟩ | ⟨A, B, X, x⟩
            · rw [hc0] at x; cases x
            · exact .inr (.inl x)
            · have ho' := fresh_rules hf ho
              obtain ⟨l', hl', hp⟩ := phase_cli hcons hnc hcl ih.rc ho' x ht hc
              refine .inr (.inr (.inl ?_))
              simp only [hl', pipe_append, drop_app ih.up]
              exact ⟨hp.fresh (fresh_stays honc hf ho' ht hc), hp, hea⟩
            · obtain ⟨l', A', B', X', hl', hp⟩ := many_cli hcons hnc hcl ih.rc ho x ht hc
                (fun m now ex e => ⟨now, ex, rfl, by rw [e]; simp⟩)
              refine .inr (.inr (.inr ⟨A', B', X', ?_⟩))
              simp only [hl', pipe_append, drop_app ih.up]
              exact hp
    | server op =>
      have ho' : OneRequest s (.server op) := ho
      simp only [sstep] at hstep
      split at hstep
      · cases hstep
      · obtain ⟨t, ht, rfl⟩ := Option.map_eq_some_iff.mp hstep
        obtain ⟨l, hl⟩ := log_grows ih.rd ht
        refine ⟨ih.rc, .step ih.rd ht, ih.up, ?_, ?_⟩
        · simp only [hl, pipe_append, List.length_append]; exact Nat.le_trans ih.down (Nat.le_add_right ..)
        · cases hc : t.closed with
          | true => exact .inr (.inl rfl)
          | false =>
            have hc0 := closed_of_prims (reach_prims ih.rd ht) hc
            rcases hph with x | x | ⟨hf, x, hea⟩ | ⟨A, B, X, x⟩
            · exact .inl x
            · rw [hc0] at x; cases x
            · obtain ⟨l', hl', hp⟩ := phase_srv ho' x ht hc
              refine .inr (.inr (.inl ⟨hf, ?_⟩))
              have := early_srv ho' hf x hea ht hc hl'
              simp only [hl', pipe_append, drop_app ih.down]
              exact ⟨hp, this⟩
            · obtain ⟨l', hl', hp⟩ := many_srv ho' x ht hc
              refine .inr (.inr (.inr ⟨A, B, X, ?_⟩))
              simp only [hl', pipe_append, drop_app ih.down]
              exact hp
    | up =>
      simp only [sstep] at hstep
      split at hstep
      · cases hstep
      · rename_i ty b hb
        obtain ⟨t, ht, rfl⟩ := Option.map_eq_some_iff.mp hstep
        obtain ⟨l, hl⟩ := log_grows ih.rd ht
        have hlt : s.up < (pipe s.c.log).length := (List.getElem?_eq_some_iff.mp hb).1
        refine ⟨ih.rc, .step ih.rd ht, hlt, ?_, ?_⟩
        · simp only [hl, pipe_append, List.length_append]; exact Nat.le_trans ih.down (Nat.le_add_right ..)
        · cases hc : t.closed with
          | true => exact .inr (.inl rfl)
          | false =>
            have hc0 := closed_of_prims (reach_prims ih.rd ht) hc
            rcases hph with x | x | ⟨hf, x, hea⟩ | ⟨A, B, X, x⟩
            · exact .inl x
            · rw [hc0] at x; cases x
            · rw [List.drop_eq_getElem_cons hlt, (List.getElem?_eq_some_iff.mp hb).2] at x
              obtain ⟨l', hl', hp⟩ := phase_up hcons hns hsc ih.rd x ht hc
              refine .inr (.inr (.inl ⟨hf, ?_⟩))
              have := early_up ih.rd hf x hea ht hc hl'
              simp only [hl', pipe_append, drop_app ih.down]
              exact ⟨hp, this⟩
            · rw [List.drop_eq_getElem_cons hlt, (List.getElem?_eq_some_iff.mp hb).2] at x
              obtain ⟨l', A', B', X', hl', hp⟩ := many_up hcons hns hsc ih.rd x ht hc
                (fun tok m e hno => ⟨ops, s, _, List.prefix_refl _, hrun, serialize_wireOf { m with wait := tok }, by rw [hb, e], hno⟩)
              refine .inr (.inr (.inr ⟨A', B', X', ?_⟩))
              simp only [hl', pipe_append, drop_app ih.down]
              exact hp
    | down =>
      simp only [sstep] at hstep
      split at hstep
      · cases hstep
      · rename_i ty b hb
        obtain ⟨t, ht, rfl⟩ := Option.map_eq_some_iff.mp hstep
        obtain ⟨l, hl⟩ := log_grows ih.rc ht
        have hlt : s.down < (pipe s.d.log).length := (List.getElem?_eq_some_iff.mp hb).1
        refine ⟨.step ih.rc ht, ih.rd, ?_, hlt, ?_⟩
        · simp only [hl, pipe_append, List.length_append]; exact Nat.le_trans ih.up (Nat.le_add_right ..)
        · cases hc : t.closed with
          | true => exact .inl rfl
          | false =>
            have hc0 := closed_of_prims (reach_prims ih.rc ht) hc
            rcases hph with x | x | ⟨hf, x, hea⟩ | ⟨A, B, X, x⟩
            · rw [hc0] at x; cases x
            · exact .inr (.inl x)
            · rw [List.drop_eq_getElem_cons hlt, (List.getElem?_eq_some_iff.mp hb).2] at x hea
              obtain ⟨hl', hp⟩ := fresh_down hf x hea ht
              refine .inr (.inr ?_)
              simp only [hl']
              exact hp
            · rw [List.drop_eq_getElem_cons hlt, (List.getElem?_eq_some_iff.mp hb).2] at x
              obtain ⟨l', A', B', X', hl', hp⟩ := many_down hcons hnc hcl x ht hc
              refine .inr (.inr (.inr ⟨A', B', X', ?_⟩))
              simp only [hl', pipe_append, drop_app ih.up]
              exact hp
    | upAsk i => exact (show False from ho).elim
    | downAsk i => exact (show False from ho).elim

theorem onNs_about {q : Req} {n : Bytes} (h : q.onNs n) : q.about = (n, none) := by
  cases q <;> simp only [Req.onNs] at h <;> rw [h] <;> rfl

theorem onRoom_clash {q : Req} {n r : Bytes} (h : q.onRoom n r) : Clash (n, some r) q.about := by
  cases q <;> simp only [Req.onRoom] at h
  · exact ⟨h, .inr (.inl rfl)⟩
  · exact ⟨h, .inr (.inl rfl)⟩
  · exact ⟨h.1, .inr (.inr (congrArg some h.2))⟩
  · exact ⟨h.1, .inr (.inr (congrArg some h.2))⟩

theorem Many.agree_ns {n : Bytes} (h : Many P sc known c d pu pd A B X)
    (hn : ∀ a ∈ c.asks, a.done = false → about a.cont ≠ some (n, none)) : InNs c n ↔ InNs d n := by
  refine h.differ.ns n fun z hz q hq hon => ?_
  have hp := calls_of_handled (A := A) hz
  obtain ⟨box, hb⟩ := h.askOf hp
  refine hn _ (List.mem_of_getElem? hb) rfl ?_
  rw [((h.ready _ hp).req q hq).2.2.1, onNs_about hon]

theorem Many.agree_room {n r : Bytes} (h : Many P sc known c d pu pd A B X)
    (hn : Unclaimed c (n, some r)) : InRoom c n r ↔ InRoom d n r := by
  refine h.differ.room n r fun z hz q hq hon => ?_
  have hp := calls_of_handled (A := A) hz
  obtain ⟨box, hb⟩ := h.askOf hp
  exact hn _ (List.mem_of_getElem? hb) rfl _ ((h.ready _ hp).req q hq).2.2.1 (onRoom_clash hon)

end Neffos
