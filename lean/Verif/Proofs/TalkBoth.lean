import Verif.Proofs.GateHeld
import Verif.Proofs.Settle
import Verif.Props.NoDeadlock
import Verif.Spec.BothRule
/-!
Helper lemmas for the absence of deadlocks when both sides call: what the payloads on the way to a side find
there when they are read.
-/
set_option autoImplicit false
namespace Neffos
open Neffos.Spec

variable {cfg x y cc sc : Cfg} {id : Bytes} {known : List KnownErr} {s s' t : St} {n : Bytes}
  {cl : Bool} {A : List Pend} {B : List (Pend × Option GoErr)} {X Y : List (Pend × Option GoErr × Option Message)}
  {po pi l : List (MsgType × Bytes)} {O I : List Cargo}

/-- the message of a payload, as this side reads it -/
abbrev decP (x : Cfg) (p : MsgType × Bytes) : Message := deserializeMessage x.known p.1 p.2 false false

/-- this call was accepted: the answer has been read, or is among these payloads -/
def Yes (x : Cfg) (a : AskRec) (l : List (MsgType × Bytes)) : Prop :=
  (∃ m, a.box = some m ∧ m.err = none) ∨ ∃ p ∈ l, (decP x p).wait = a.tok ∧ (decP x p).err = none

/-- a request of the other side to disconnect this namespace -/
def Bye (x : Cfg) (n : Bytes) (p : MsgType × Bytes) : Prop :=
  (decP x p).ns = n ∧ (decP x p).event = OnNamespaceDisconnect ∧ SideTok (!x.isClient) (decP x p).wait

/-- a Connect of this side to this namespace was accepted -/
def Opens (x : Cfg) (s : St) (l : List (MsgType × Bytes)) (n : Bytes) : Prop :=
  ∃ a ∈ s.asks, a.done = false ∧ (∃ obj, a.cont = .connect n obj) ∧ Yes x a l

/-- this side is connected to this namespace, and nothing here ends it -/
structure Abides (x : Cfg) (s : St) (l : List (MsgType × Bytes)) (n : Bytes) : Prop where
  inNs : InNs s n
  own : ∀ a ∈ s.asks, a.done = false → ∀ obj msg, a.cont = .disconnect obj msg → msg.ns = n → ¬ Yes x a l
  bye : ∀ p ∈ l, ¬ Bye x n p

/-- when these payloads have been read, this side is connected to this namespace or about to be -/
def Lasts (x : Cfg) (s : St) (l : List (MsgType × Bytes)) (n : Bytes) : Prop := Opens x s l n ∨ Abides x s l n

/-- every event on the way to this side finds its namespace -/
def Audible (x : Cfg) (s : St) (pi : List (MsgType × Bytes)) : Prop :=
  ∀ l1 m l2, pi = l1 ++ m :: l2 → CalmP m → ∀ n, Talks x.known m n → Lasts x s l1 n

/-- and so does the one that its reader holds back -/
structure Ears (x : Cfg) (s : St) (pi : List (MsgType × Bytes)) : Prop where
  safe : SafeNs s
  hear : Audible x s pi
  gate : ∀ M, s.rd = .gate M → Lasts x s [] M.ns ∧ M.event ≠ OnNamespaceConnect ∧ M.event ≠ OnNamespaceDisconnect

/-! ### Payloads -/

theorem Weave.find {α : Type} {R : α → MsgType × Bytes → Prop} {l : List (MsgType × Bytes)} {A : List α} (h : Weave R l A)
    {p : MsgType × Bytes} (hp : p ∈ l) : CalmP p ∨ ∃ a ∈ A, R a p := by
  induction h with
  | nil => cases hp
  | calm hx _ ih =>
    rcases List.mem_cons.mp hp with rfl | hp
    · exact .inl hx
    · exact ih hp
  | item hr _ _ ih =>
    rcases List.mem_cons.mp hp with rfl | hp
    · exact .inr ⟨_, List.mem_cons_self .., hr⟩
    · exact (ih hp).imp id fun ⟨a, h1, h2⟩ => ⟨a, List.mem_cons_of_mem _ h1, h2⟩

theorem Weave.load {α : Type} {R : α → MsgType × Bytes → Prop} {l : List (MsgType × Bytes)} {A : List α} (h : Weave R l A)
    {a : α} (ha : a ∈ A) : ∃ p ∈ l, R a p := by
  induction h with
  | nil => cases ha
  | calm _ _ ih => obtain ⟨p, h1, h2⟩ := ih ha; exact ⟨p, List.mem_cons_of_mem _ h1, h2⟩
  | item hr _ _ ih =>
    rcases List.mem_cons.mp ha with rfl | ha
    · exact ⟨_, List.mem_cons_self .., hr⟩
    · obtain ⟨p, h1, h2⟩ := ih ha; exact ⟨p, List.mem_cons_of_mem _ h1, h2⟩

theorem mem_reqsOf {I : List Cargo} {a : Pend} : Cargo.req a ∈ I ↔ a ∈ reqsOf I := by
  induction I with
  | nil => simp [reqsOf]
  | cons it I ih => cases it <;> simp [reqsOf, ih]

theorem mem_repsOf {I : List Cargo} {a : Pend} {r : Option GoErr} : Cargo.rep a r ∈ I ↔ (a, r) ∈ repsOf I := by
  induction I with
  | nil => simp [repsOf]
  | cons it I ih => cases it <;> simp [repsOf, ih]

theorem calm_wait {p : MsgType × Bytes} (h : CalmP p) : (decP x p).wait = [] := by
  obtain ⟨t, e⟩ := h
  show (deserializeMessage x.known p.1 p.2 false false).wait = []
  rw [e, (decode_calm x.known p.1 t).1]

/-- what a payload with a token is -/
theorem Both.kind (hxy : y.isClient = !x.isClient) (h : Both x y s t po pi O I X Y) {p : MsgType × Bytes} (hp : p ∈ pi) :
    CalmP p ∨ (∃ a ∈ reqsOf I, ∃ q, a.req = some q ∧ q.Safe ∧ p = (.text, wireOf (q.msg a.tok)) ∧ decP x p = q.msg a.tok ∧
      SideTok (!x.isClient) a.tok) ∨
      ∃ z ∈ repsOf I, Reply x.known z.1.tok z.2 p ∧ SideTok x.isClient z.1.tok := by
  rcases h.inn.find hp with k | ⟨it, hit, k⟩
  · exact .inl k
  · refine .inr ?_
    cases it with
    | req a =>
      have ha := mem_reqsOf.mp hit
      obtain ⟨_, htok, q, hq, hsafe, _, _, hload⟩ := h.yours.ready a (List.mem_append_left _ ha)
      have e : p = a.load := k
      rw [hload] at e
      refine .inl ⟨a, ha, q, hq, hsafe, e, ?_, by rw [← hxy]; exact htok⟩
      rw [e]
      exact req_decodes x.known hsafe htok.is
    | rep a r =>
      have ha := mem_repsOf.mp hit
      refine .inr ⟨(a, r), ha, k, (h.mine.ready a ?_).tok⟩
      exact List.mem_append_right _ (List.mem_append_left _ (List.mem_map_of_mem ha))

/-- a payload with a token of this side answers a call of it -/
theorem Both.reply_of (hxy : y.isClient = !x.isClient) (h : Both x y s t po pi O I X Y) {p : MsgType × Bytes} (hp : p ∈ pi)
    {tok : Bytes} (ht : SideTok x.isClient tok) (hw : (decP x p).wait = tok) :
    ∃ z ∈ repsOf I, z.1.tok = tok ∧ Reply x.known tok z.2 p := by
  subst hw
  rcases h.kind hxy hp with k | ⟨a, _, q, _, _, _, k, kt⟩ | ⟨z, hz, k, _⟩
  · exact absurd (calm_wait k) ht.is.2
  · rw [k, (req_fields q a.tok).1] at ht
    exact (ht.ne kt).elim
  · have e := k.wait
    refine ⟨z, hz, e.symm, ?_⟩
    have e' : z.1.tok = (decP x p).wait := e.symm
    rw [← e']
    exact k

/-- a payload with a token of the other side is a request of it -/
theorem Both.bye_of (hxy : y.isClient = !x.isClient) (h : Both x y s t po pi O I X Y) {p : MsgType × Bytes} (hp : p ∈ pi)
    (hb : Bye x n p) : ∃ a ∈ reqsOf I, a.req = some (.disconnect n) := by
  obtain ⟨h1, h2, h3⟩ := hb
  rcases h.kind hxy hp with k | ⟨a, ha, q, hq, _, _, k, _⟩ | ⟨z, _, k, kt⟩
  · exact absurd (calm_wait k) h3.is.2
  · refine ⟨a, ha, ?_⟩
    rw [k] at h1 h2
    rw [hq]
    cases q with
    | disconnect ns => rw [show ns = n from h1]
    | connect ns => exact absurd h2 (show ¬ OnNamespaceConnect = OnNamespaceDisconnect by decide +kernel)
    | join ns r => exact absurd h2 (show ¬ OnRoomJoin = OnNamespaceDisconnect by decide +kernel)
    | leave ns r => exact absurd h2 (show ¬ OnRoomLeave = OnNamespaceDisconnect by decide +kernel)
  · rw [show (decP x p).wait = z.1.tok from k.wait] at h3
    exact (kt.ne h3).elim

/-! ### Calls -/

theorem Flying.disconnect {p : Pend} {obj : Nat} {msg : Message} (h : Flying cl s p) (hk : p.k = .disconnect obj msg) :
    p.req = some (.disconnect msg.ns) := by
  obtain ⟨q, h1, _, h2, _⟩ := h.req
  rw [hk] at h2
  rw [h1]
  cases q with
  | connect ns => obtain ⟨_, k, _⟩ := h2; cases k
  | disconnect ns => obtain ⟨_, _, k, e, _⟩ := h2; cases k; rw [e]
  | join ns r => obtain ⟨_, _, k, _⟩ := h2; cases k
  | leave ns r => obtain ⟨_, _, k, _⟩ := h2; cases k

/-- the call of an Ask in flight -/
theorem Half.pendOf {a : AskRec} (h : Half cl known s A B X) (ha : a ∈ s.asks) (hd : a.done = false) :
    ∃ p ∈ calls A B X, AskIs s p a.box ∧ a = ⟨p.tok, p.k, .table, a.box, false⟩ := by
  obtain ⟨j, hj⟩ := List.getElem?_of_mem ha
  obtain ⟨p, hp, rfl⟩ := h.cover j a hj hd
  obtain ⟨box, hb⟩ := h.askOf hp
  have hb' := hb
  unfold AskIs at hb'
  rw [hj] at hb'
  have e := Option.some.inj hb'
  have e1 : a.box = box := by rw [e]
  rw [e1]
  exact ⟨p, hp, hb, e⟩

theorem Half.uniq {p p' : Pend} {q q' : Req} (h : Half cl known s A B X) (hp : p ∈ calls A B X) (hp' : p' ∈ calls A B X)
    (hq : p.req = some q) (hq' : p'.req = some q') (hn : q.onNs n) (hn' : q'.onNs n) : p = p' := by
  rcases apart_or h.apart hp hp' with e | e
  · exact e
  · exact absurd (clash_ns hn hn') (e.2 q q' hq hq')

/-- a call whose acceptance is known here was accepted by the other side -/
theorem Both.yes_handled (hxy : y.isClient = !x.isClient) (h : Both x y s t po pi O I X Y) {p : Pend} {a : AskRec}
    (hp : p ∈ calls (reqsOf O) (repsOf I) X) (ha : AskIs s p a.box) (hae : a = ⟨p.tok, p.k, .table, a.box, false⟩)
    (hl : ∀ p ∈ l, p ∈ pi) (hy : Yes x a l) : (p, none) ∈ handledBy (repsOf I) X := by
  have htok : a.tok = p.tok := by rw [hae]
  rcases hy with ⟨m, hb, he⟩ | ⟨p', hp', hw, he⟩
  · rw [hb] at ha
    have hno : AskIs s p none → False := by
      intro k
      unfold AskIs at k ha
      rw [ha] at k
      cases k
    simp only [calls, List.mem_append, List.mem_map] at hp
    rcases hp with hp | ⟨z, hp, rfl⟩ | ⟨z, hp, rfl⟩
    · exact (hno (h.mine.atA p hp)).elim
    · exact (hno (h.mine.atB z hp)).elim
    · have hx := h.mine.atX z hp
      have ez : z.2.2 = some m := by
        unfold AskIs at hx ha
        rw [ha] at hx
        exact (congrArg AskRec.box (Option.some.inj hx)).symm
      have hc := carries_isNone (h.mine.boxed z hp m ez)
      rw [he] at hc
      have hr : z.2.1 = none := Option.isNone_iff_eq_none.mp hc
      refine List.mem_append_right _ (List.mem_map.mpr ⟨z, hp, ?_⟩)
      rw [hr]
  · obtain ⟨z, hz, hzt, hr⟩ := h.reply_of hxy (hl p' hp') (h.mine.ready p hp).tok (hw.trans htok)
    have hzc : z.1 ∈ calls (reqsOf O) (repsOf I) X :=
      List.mem_append_right _ (List.mem_append_left _ (List.mem_map_of_mem hz))
    have e : z.1 = p := (apart_or h.mine.apart hzc hp).resolve_right fun k => k.1 hzt
    have hc := carries_isNone hr.err
    have he' : (deserializeMessage x.known p'.1 p'.2 false false).err = none := he
    rw [he'] at hc
    have hr' : z.2 = none := Option.isNone_iff_eq_none.mp hc
    have : z = (p, none) := by rw [← e, ← hr']
    rw [← this]
    exact List.mem_append_left _ hz

/-- the acceptance of a call is known here or on the way, if no answer got lost -/
theorem Both.handled_yes (h : Both x y s t po pi O I X Y) (hno : ∀ bin b, Obs.sent bin b false ∉ t.log) {p : Pend}
    (hp : (p, none) ∈ handledBy (repsOf I) X) :
    ∃ a ∈ s.asks, a.done = false ∧ a.cont = p.k ∧ Yes x a pi := by
  rcases List.mem_append.mp hp with hp | hp
  · have hat := h.mine.atB _ hp
    obtain ⟨p', hp', hr⟩ := h.inn.load (mem_repsOf.mpr hp)
    refine ⟨_, List.mem_of_getElem? hat, rfl, rfl, .inr ⟨p', hp', hr.wait, ?_⟩⟩
    exact hr.err
  · obtain ⟨z, hz, e⟩ := List.mem_map.mp hp
    have e1 : z.1 = p := congrArg Prod.fst e
    have e2 : z.2.1 = none := congrArg Prod.snd e
    have hat := h.mine.atX z hz
    rw [e1] at hat
    refine ⟨_, List.mem_of_getElem? hat, rfl, rfl, .inl ?_⟩
    cases hb : z.2.2 with
    | none =>
      obtain ⟨bin, b, k, _⟩ := h.lostS z hz hb
      exact absurd k (hno bin b)
    | some m =>
      have := h.mine.boxed z hz m hb
      rw [e2] at this
      exact ⟨m, rfl, this⟩

/-! ### A new event -/

/-- an event that the other side emits now, in a namespace that it is connected to and not leaving, finds its namespace -/
theorem lasts_new (hxy : y.isClient = !x.isClient) (h : Both x y s t po pi O I X Y)
    (hno : ∀ bin b, Obs.sent bin b false ∉ t.log) (hin : InNs t n) (hl : ¬ Leaving t n) : Lasts x s pi n := by
  have notT : ∀ w ∈ calls (reqsOf I) (repsOf O) Y, ∀ q, w.req = some q → ¬ q.onNs n := by
    intro w hw q hq hon
    obtain ⟨_, _, q', hq', _, hwait, _⟩ := h.yours.ready w hw
    rw [hq] at hq'
    cases hq'
    cases q with
    | connect ns =>
      obtain ⟨_, _, k, _⟩ := hwait
      rw [← show n = ns from hon] at k
      exact hin k
    | disconnect ns =>
      obtain ⟨obj, msg, hk, hm, _⟩ := hwait
      obtain ⟨box, hb⟩ := h.yours.askOf hw
      exact hl ⟨_, List.mem_of_getElem? hb, rfl, obj, msg, hk, hm.trans (show n = ns from hon).symm⟩
    | join ns r => exact hon
    | leave ns r => exact hon
  have noBye : ∀ p ∈ pi, ¬ Bye x n p := by
    intro p hp hb
    obtain ⟨a, ha, hq⟩ := h.bye_of hxy hp hb
    exact notT a (List.mem_append_left _ ha) _ hq rfl
  by_cases hz : ∃ z ∈ handledBy (repsOf I) X, ∃ q, z.1.req = some q ∧ q.onNs n
  · obtain ⟨z, hz, q, hq, hon⟩ := hz
    have hzc := calls_of_handled (A := reqsOf O) hz
    obtain ⟨⟨hmove, _⟩, _⟩ := h.differ.mine z hz q hq
    have hm := (hmove n hon).mp hin
    obtain ⟨_, _, q', hq', _, hwait, _⟩ := h.mine.ready _ hzc
    rw [hq] at hq'
    cases hq'
    cases q with
    | connect ns =>
      cases (show n = ns from hon)
      obtain ⟨obj, hk, hnone, _⟩ := hwait
      rcases hm with hm | ⟨hm, _⟩
      · exact absurd hnone hm
      · have e : z = (z.1, none) := by rw [← Option.isNone_iff_eq_none.mp hm]
        rw [e] at hz
        obtain ⟨a, h1, h2, h3, h4⟩ := h.handled_yes hno hz
        exact .inl ⟨a, h1, h2, ⟨obj, h3.trans hk⟩, h4⟩
    | disconnect ns =>
      cases (show n = ns from hon)
      obtain ⟨hm, hacc⟩ := hm
      refine .inr ⟨hm, fun a ha hd obj msg hk hmn hy => ?_, noBye⟩
      obtain ⟨p, hp, hat, hae⟩ := h.mine.pendOf ha hd
      have hk' : p.k = .disconnect obj msg := by rw [hae] at hk; exact hk
      have hpq := (h.mine.ready p hp).disconnect hk'
      have e := h.mine.uniq (n := n) hp hzc hpq hq hmn.symm rfl
      have hh := h.yes_handled hxy hp hat hae (fun _ k => k) hy
      obtain ⟨⟨hmove', _⟩, _⟩ := h.differ.mine _ hh _ hpq
      have := (hmove' n hmn.symm).mp hin
      exact this.2 ⟨rfl, hmn.symm⟩
    | join ns r => exact hon.elim
    | leave ns r => exact hon.elim
  · have hs : InNs s n := (h.differ.ns n (fun z hz' q hq k => hz ⟨z, hz', q, hq, k⟩)
      fun w hw q hq => notT w.1 (calls_of_handled hw) q hq).mpr hin
    refine .inr ⟨hs, fun a ha hd obj msg hk hmn hy => ?_, noBye⟩
    obtain ⟨p, hp, hat, hae⟩ := h.mine.pendOf ha hd
    have hk' : p.k = .disconnect obj msg := by rw [hae] at hk; exact hk
    have hpq := (h.mine.ready p hp).disconnect hk'
    exact hz ⟨_, h.yes_handled hxy hp hat hae (fun _ k => k) hy, _, hpq, hmn.symm⟩

/-! ### How the payloads change -/

theorem Audible.append {l : List (MsgType × Bytes)} (h : Audible x s pi)
    (hl : ∀ l1 m l2, l = l1 ++ m :: l2 → CalmP m → ∀ n, Talks x.known m n → Lasts x s (pi ++ l1) n) : Audible x s (pi ++ l) := by
  intro l1 m l2 e hm n hn
  rcases List.append_eq_append_iff.mp e with ⟨k, h1, h2⟩ | ⟨k, h1, h2⟩
  · rw [h1]; exact hl k m l2 h2 hm n hn
  · cases k with
    | nil =>
      have := hl [] m l2 (by simpa using h2.symm) hm n hn
      simp only [List.append_nil] at this h1
      rw [← h1]; exact this
    | cons b k =>
      simp only [List.cons_append, List.cons.injEq] at h2
      obtain ⟨rfl, _⟩ := h2
      exact h l1 m k h1 hm n hn

/-- payloads that are no events change nothing -/
theorem Audible.loud {l : List (MsgType × Bytes)} (h : Audible x s pi) (hl : ∀ p ∈ l, ¬ CalmP p) : Audible x s (pi ++ l) :=
  h.append fun l1 m l2 e hm => absurd hm (hl m (by rw [e]; simp))

theorem Ears.loud {l : List (MsgType × Bytes)} (h : Ears x s pi) (hl : ∀ p ∈ l, ¬ CalmP p) : Ears x s (pi ++ l) :=
  ⟨h.safe, h.hear.loud hl, h.gate⟩

theorem Ears.one {m : MsgType × Bytes} (h : Ears x s pi) (hm : ∀ n, Talks x.known m n → Lasts x s pi n) : Ears x s (pi ++ [m]) := by
  refine ⟨h.safe, h.hear.append fun l1 m' l2 e _ n hn => ?_, h.gate⟩
  cases l1 with
  | nil =>
    simp only [List.nil_append, List.cons.injEq] at e
    obtain ⟨rfl, _⟩ := e
    rw [List.append_nil]
    exact hm n hn
  | cons b l1 => simp at e

/-! ### How a side changes -/

/-- the calls of this side, as far as these payloads answer them, are as before -/
structure AskFrame (x : Cfg) (s s' : St) (l l' : List (MsgType × Bytes)) (n : Bytes) : Prop where
  opens : Opens x s l n → Lasts x s' l' n
  own : ∀ a ∈ s'.asks, a.done = false → ∀ obj msg, a.cont = .disconnect obj msg → msg.ns = n → Yes x a l' →
    ∃ b ∈ s.asks, b.done = false ∧ b.cont = a.cont ∧ Yes x b l

theorem Lasts.move {l l' : List (MsgType × Bytes)} (h : Lasts x s l n) (hf : AskFrame x s s' l l' n)
    (hn : Abides x s l n → InNs s' n) (hl : ∀ p ∈ l', p ∈ l) : Lasts x s' l' n := by
  rcases h with h | h
  · exact hf.opens h
  · refine .inr ⟨hn h, fun a ha hd obj msg hk hm hy => ?_, fun p hp => h.bye p (hl p hp)⟩
    obtain ⟨b, h1, h2, h3, h4⟩ := hf.own a ha hd obj msg hk hm hy
    exact h.own b h1 h2 obj msg (h3.trans hk) hm h4

theorem AskFrame.same (h : s'.asks = s.asks) (n : Bytes) (l : List (MsgType × Bytes)) : AskFrame x s s' l l n :=
  ⟨fun ⟨a, h1, h2, h3, h4⟩ => .inl ⟨a, by rw [h]; exact h1, h2, h3, h4⟩,
    fun a ha hd _ _ _ _ hy => ⟨a, by rw [← h]; exact ha, hd, rfl, hy⟩⟩

theorem Lasts.same {l : List (MsgType × Bytes)} (h : Lasts x s l n) (ha : s'.asks = s.asks) (hn : InNs s n → InNs s' n) : Lasts x s' l n :=
  h.move (.same ha n l) (fun k => hn k.inNs) fun _ k => k

theorem Audible.same (h : Audible x s pi) (ha : s'.asks = s.asks) (hn : ∀ n, InNs s n → InNs s' n) : Audible x s' pi :=
  fun l1 m l2 e hm n hk => (h l1 m l2 e hm n hk).same ha (hn n)

theorem Ears.same (h : Ears x s pi) (ha : s'.asks = s.asks) (hn : ∀ n, InNs s' n ↔ InNs s n) (hr : s'.rd = s.rd ∨ s'.rd = .idle) :
    Ears x s' pi := by
  refine ⟨fun n k => h.safe n ((hn n).mp k), h.hear.same ha fun n => (hn n).mpr, fun M hM => ?_⟩
  rcases hr with hr | hr
  · rw [hr] at hM
    exact ⟨(h.gate M hM).1.same ha (hn _).mpr, (h.gate M hM).2⟩
  · rw [hr] at hM; cases hM

/-- a payload that does not answer any call is read -/
theorem yes_skip {p : MsgType × Bytes} {l : List (MsgType × Bytes)} {a : AskRec} (h : (decP x p).wait ≠ a.tok) :
    Yes x a (p :: l) ↔ Yes x a l := by
  unfold Yes
  constructor
  · rintro (k | ⟨p', hp', k⟩)
    · exact .inl k
    · rcases List.mem_cons.mp hp' with rfl | hp'
      · exact absurd k.1 h
      · exact .inr ⟨p', hp', k⟩
  · rintro (k | ⟨p', hp', k⟩)
    · exact .inl k
    · exact .inr ⟨p', List.mem_cons_of_mem _ hp', k⟩

theorem AskFrame.skip {p : MsgType × Bytes} {l : List (MsgType × Bytes)} (h : s'.asks = s.asks)
    (hp : ∀ a ∈ s.asks, a.done = false → (decP x p).wait ≠ a.tok) (n : Bytes) : AskFrame x s s' (p :: l) l n :=
  ⟨fun ⟨a, h1, h2, h3, h4⟩ => .inl ⟨a, by rw [h]; exact h1, h2, h3, (yes_skip (hp a h1 h2)).mp h4⟩,
    fun a ha hd _ _ _ _ hy => ⟨a, by rw [← h]; exact ha, hd, rfl, (yes_skip (hp a (by rw [← h]; exact ha) hd)).mpr hy⟩⟩

theorem Audible.read {p : MsgType × Bytes} (h : Audible x s (p :: pi))
    (hk : ∀ l n, Lasts x s (p :: l) n → Lasts x s' l n) : Audible x s' pi :=
  fun l1 m l2 e hm n hn => hk l1 n (h (p :: l1) m l2 (by rw [e]; rfl) hm n hn)

end Neffos
