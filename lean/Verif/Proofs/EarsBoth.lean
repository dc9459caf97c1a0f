import Verif.Proofs.TalkBoth
/-!
Helper lemmas for the absence of deadlocks when both sides call: the steps of a side, and what the payloads
on the way find after them.
-/
set_option autoImplicit false
namespace Neffos
open Neffos.Spec

variable {cfg x y cc sc : Cfg} {id : Bytes} {known : List KnownErr} {s s' t : St} {n : Bytes}
  {cl : Bool} {A : List Pend} {B : List (Pend × Option GoErr)} {X Y : List (Pend × Option GoErr × Option Message)}
  {po pi l : List (MsgType × Bytes)} {O I : List Cargo}

/-- a socket that takes everything -/
theorem reach_taken (ht : TakesAll x) (hon : x.onlyNative = false) (hr : Reach x id s) (hc : s.closed = false) :
    ∀ bin b, Obs.sent bin b false ∉ s.log := by
  revert hc
  refine reach_macro (cfg := x) (fun s => s.closed = false → ∀ bin b, Obs.sent bin b false ∉ s.log) ?_ ?_ hr
  · intro _ bin b
    simp [newConn_eq hon]
  · intro s s' hp ih
    have emit : ∀ o, (∀ bin b, o ≠ Obs.sent bin b false) → s.closed = false →
        ∀ bin b, Obs.sent bin b false ∉ (s.emit o).log := by
      intro o ho hc bin b hx
      rcases List.mem_append.mp (show Obs.sent bin b false ∈ s.log ++ [o] from hx) with k | k
      · exact ih hc bin b k
      · exact ho bin b (List.mem_singleton.mp k).symm
    cases hp with
    | note o h => exact emit _ (by rintro bin b rfl; cases h)
    | fired obj msg h ret h1 h2 => exact emit _ (by simp)
    | sentMsg msg b ok h1 h2 h3 h4 h5 => rw [ht] at h5; subst h5; exact emit _ (by simp)
    | sentReply w ok h => rw [ht] at h; subst h; exact emit _ (by simp)
    | sentAck b ok h h' => rw [ht] at h'; subst h'; exact emit _ (by simp)
    | close h => intro hc; rw [closeConn_closed] at hc; cases hc
    | _ => exact ih

theorem still_calm (h : StillCbs x) : CbCalm x := by
  intro log obj e msg m hm
  rw [h] at hm
  cases hm

/-- a step that puts nothing on the wire -/
theorem Wires.nothing {l : List Obs} (h : Wires 0 s s') (hl : s'.log = s.log ++ l) : pipe l = [] := by
  have := h.size
  rw [hl, pipe_append, List.length_append] at this
  exact List.eq_nil_of_length_eq_zero (by omega)

/-! ### A side emits -/

theorem wire_about {m : Message} {ty : MsgType} (hsafe : SafeNs s) (hf : Framed m) (hm : MayWrite x s m)
    (hn : Talks known (ty, wireOf m) n) : n = m.ns ∧ InNs s n := by
  obtain ⟨h1, h2, h3⟩ := hn
  dsimp only at h1 h2 h3
  have hd := decode_encode known ty { m with fromExplicit := [] } (wireOf m) false
    (fun h => by rw [show m.isNative = false from hf.2] at h; cases h.1) (by simp only [wireHead, if_true]; exact hf.1) (serialize_wireOf m)
  rw [hd] at h1 h2 h3
  dsimp only at h1 h2 h3
  obtain ⟨_, _, k | k | ⟨obj, k, _⟩⟩ := hm
  · exact absurd (by rw [k]; decide +kernel) h2
  · exact absurd (by rw [k]; decide +kernel) h3
  · have hin : InNs s m.ns := by unfold InNs; rw [k]; simp
    rw [(unescape_escape_iff _).mpr (hsafe _ hin)] at h1
    rw [← h1]
    exact ⟨rfl, hin⟩

/-- what a side writes when it emits -/
theorem write_loads {m : Message} (hm : AppMsg m) (hsafe : SafeNs s) (hs : step x s (.write m) = some s') (hc : s'.closed = false) :
    ∃ l, Same s l s' ∧ (pipe l = [] ∨ ∃ p, pipe l = [p] ∧ ∀ known n, Talks known p n → n = m.ns ∧ InNs s n) := by
  obtain ⟨he, _⟩ := step_exec hs
  simp only [exec] at he
  cases he
  refine ⟨_, ⟨_, write_open hc⟩, ?_⟩
  unfold writeLog
  split
  · rename_i hmay
    cases hx : (x.sock s.log m.setBinary (wireOf m)).isNone with
    | false => exact .inl (by simp [pipe])
    | true =>
      exact .inr ⟨_, by simp [pipe]; rfl, fun known n hn => wire_about hsafe (app_framed hm) hmay hn⟩
  · exact .inl rfl

theorem ears_write {m : Message} (hxy : y.isClient = !x.isClient) (hm : AppMsg m) (hrule : ¬ Leaving s m.ns)
    (hno : ∀ bin b, Obs.sent bin b false ∉ s.log) (h : Both x y s t po pi O I X Y) (hes : Ears x s pi) (het : Ears y t po)
    (hs : step x s (.write m) = some s') (hc : s'.closed = false) :
    ∃ l, s'.log = s.log ++ l ∧ Ears x s' pi ∧ Ears y t (po ++ pipe l) := by
  obtain ⟨l, k1, k2⟩ := write_loads hm hes.safe hs hc
  refine ⟨l, k1.log, hes.same k1.asks (fun n => by unfold InNs; rw [k1.kept.ns]) (.inl k1.kept.rd), ?_⟩
  rcases k2 with k2 | ⟨p, k2, k3⟩
  · rw [k2, List.append_nil]; exact het
  · rw [k2]
    refine het.one fun n hn => ?_
    obtain ⟨rfl, hin⟩ := k3 _ _ hn
    exact lasts_new (by rw [hxy]; simp) h.symm hno hin hrule

/-! ### A side calls -/

theorem startAsk_wires (ht : TakesAll x) {k : Cont} {msg : Message} {now : Int} {ex : Bool} (hcb : StillCbs x) (hrd : s.rd = .idle) :
    Wires 0 s (startAsk x s k msg now ex) ∨
      (Wires 1 s (startAsk x s k msg now ex) ∧ ∃ a, (startAsk x s k msg now ex).asks[s.asks.length]? = some a ∧ a.done = false) := by
  unfold startAsk
  split
  · exact .inl (puts_finish hcb _ _ _ _).wires
  · split
    · exact .inl (puts_finish hcb _ _ _ _).wires
    · split
      · exact .inl (puts_finish hcb _ _ _ _).wires
      · dsimp only
        have hT1 : newAsk s (genWait x.isClient now) k =
            { s with waiting := mapSet s.waiting (genWait x.isClient now) s.asks.length,
                     asks := s.asks ++ [⟨genWait x.isClient now, k, .table, none, false⟩] } := by
          unfold newAsk insideHandler; rw [hrd]; simp
        generalize newAsk s (genWait x.isClient now) k = T at hT1
        have hT : Wires 0 s T := by subst hT1; exact wires_quiet rfl rfl
        have hTa : T.asks = s.asks ++ [⟨genWait x.isClient now, k, .table, none, false⟩] := by subst hT1; rfl
        have hTc : T.closed = s.closed := hT.closed
        have hw := puts_write ht T { msg with wait := genWait x.isClient now }
        have hok : (write x T { msg with wait := genWait x.isClient now }).2 = false →
            Wires 0 T (write x T { msg with wait := genWait x.isClient now }).1 := by
          intro hf
          rw [write_eq] at hf ⊢
          split
          · rename_i hm
            rw [if_pos hm, rawWrite_accept (ht _ _ _)] at hf
            cases hf
          · split
            · exact (Puts.refl _).wires
            · exact (puts_markReady T).wires
        revert hw hok
        generalize write x T { msg with wait := genWait x.isClient now } = p
        obtain ⟨u, ok⟩ := p
        intro hw hok
        cases ok with
        | true =>
          refine .inr ⟨⟨hw.closed.trans hTc, ?_, fun bin b k => hT.taken _ _ (hw.taken _ _ k)⟩, ⟨genWait x.isClient now, k, .table, none, false⟩, ?_, rfl⟩
          · have := hw.size
            have := hT.size
            dsimp only at *
            omega
          · show u.asks[s.asks.length]? = _
            rw [show u.asks = T.asks from hw.asks, hTa]
            simp
        | false =>
          have h0 := hok rfl
          have hf := puts_finish hcb (endAsk u s.asks.length) k {} (some errWrite)
          refine .inl ⟨?_, ?_, fun bin b k => ?_⟩
          · exact hf.closed.trans ((show u.closed = T.closed from h0.closed).trans hTc)
          · have h1 := hf.size
            have h2 : (pipe u.log).length ≤ (pipe T.log).length + 0 := h0.size
            have h3 := hT.size
            have h4 : (endAsk u s.asks.length).log = u.log := rfl
            rw [h4] at h1
            dsimp only
            omega
          · exact hT.taken _ _ (h0.taken _ _ (hf.taken _ _ k))

/-- what a call puts on the wire: nothing, or one payload and then it waits -/
def CallWires (s s' : St) : Prop :=
  Wires 0 s s' ∨ (Wires 1 s s' ∧ ∃ a, s'.asks[s.asks.length]? = some a ∧ a.done = false)

theorem Puts.callWires {u : St} (h : Puts 0 s s') (hk : CallWires s' u) : CallWires s u := by
  have hsz := h.size
  rcases hk with k | ⟨k, a, k2, k3⟩
  · exact .inl ⟨k.closed.trans h.closed, by have := k.size; omega, fun bin b e => h.taken _ _ (k.taken _ _ e)⟩
  · exact .inr ⟨⟨k.closed.trans h.closed, by have := k.size; omega, fun bin b e => h.taken _ _ (k.taken _ _ e)⟩, a,
      by rw [← h.asks]; exact k2, k3⟩

theorem callWires_connect (hst : StillSide x) {ns : Bytes} {now : Int} {ex : Bool} (hrd : s.rd = .idle)
    (hs : step x s (.connect ns now ex) = some s') : CallWires s s' := by
  obtain ⟨he, _⟩ := step_exec hs
  simp only [exec] at he
  cases he
  unfold connect
  dsimp only
  have hm := puts_markReady (cfg := x) s
  split
  · exact .inl hm.wires
  · have hg : Puts 0 s (gateStart (s.markReady x) ns) := hm.trans (Puts.zero (t := gateStart (s.markReady x) ns) rfl rfl rfl rfl rfl rfl)
    revert hg
    generalize gateStart (s.markReady x) ns = g
    intro hg
    split
    · exact .inl (hg.trans ((puts_emit _ _ (by simp)).trans (puts_gateDone _ _))).wires
    · split
      · exact .inl (hg.trans ((puts_emit _ _ (by simp)).trans (puts_gateDone _ _))).wires
      · have hn : Puts 0 g (newObj g ns).1 := .zero rfl rfl rfl rfl rfl rfl
        have hf := puts_fire hst.cbs (newObj g ns).1 (newObj g ns).2 { ns := ns, event := OnNamespaceConnect, isLocal := true }
        revert hf
        generalize fire x (newObj g ns).1 (newObj g ns).2 { ns := ns, event := OnNamespaceConnect, isLocal := true } = p
        obtain ⟨u, r⟩ := p
        intro hf
        have hu : Puts 0 s u := (hg.trans hn).trans hf
        cases r with
        | some e => exact .inl (hu.trans ((puts_emit _ _ (by simp)).trans (puts_gateDone _ _))).wires
        | none => exact hu.callWires (startAsk_wires hst.takes hst.cbs (hu.rd.trans hrd))

theorem callWires_disconnect (hst : StillSide x) {obj : Nat} {now : Int} {ex : Bool} (hrd : s.rd = .idle)
    (hs : step x s (.disconnect obj now ex) = some s') : CallWires s s' := by
  obtain ⟨he, _⟩ := step_exec hs
  simp only [exec] at he
  split at he
  · cases he
    unfold disconnect
    dsimp only
    split
    · exact .inl (puts_emit _ _ (by simp)).wires
    · exact startAsk_wires hst.takes hst.cbs hrd
  · cases he

theorem callWires_join (hst : StillSide x) {obj : Nat} {room : Bytes} {now : Int} {ex : Bool} (hrd : s.rd = .idle)
    (hs : step x s (.join obj room now ex) = some s') : CallWires s s' := by
  obtain ⟨he, _⟩ := step_exec hs
  simp only [exec] at he
  split at he
  · cases he
    unfold joinRoom
    dsimp only
    split
    · exact .inl (puts_emit _ _ (by simp)).wires
    · exact startAsk_wires hst.takes hst.cbs hrd
  · cases he

theorem callWires_leave (hst : StillSide x) {obj : Nat} {room : Bytes} {now : Int} {ex : Bool} (hrd : s.rd = .idle)
    (hs : step x s (.leave obj room now ex) = some s') : CallWires s s' := by
  obtain ⟨he, _⟩ := step_exec hs
  simp only [exec] at he
  split at he
  · cases he
    unfold leaveRoom
    dsimp only
    split
    · exact startAsk_wires hst.takes hst.cbs hrd
    · exact .inl (puts_emit _ _ (by simp)).wires
  · cases he

theorem ears_called {tok : Bytes} {z : Bytes × Option Bytes} (hxy : y.isClient = !x.isClient) (h : Both x y s t po pi O I X Y)
    (hes : Ears x s pi) (het : Ears y t po) (hrd : s.rd = .idle) (hf : FreshTok s tok) (htok : SideTok x.isClient tok)
    (hcall : Called z tok s s') (hw : CallWires s s') :
    ∃ l, s'.log = s.log ++ l ∧ Ears x s' pi ∧ Ears y t (po ++ pipe l) := by
  have key : ∀ {l : List Obs}, Kept s l s' → (∀ a ∈ s.asks, a ∈ s'.asks) →
      (∀ a ∈ s'.asks, a.done = false → a ∈ s.asks ∨ (a.box = none ∧ a.tok = tok)) → Ears x s' pi := by
    intro l k1 k2 k3
    have hns : ∀ n, InNs s' n ↔ InNs s n := fun n => by unfold InNs; rw [k1.ns]
    refine ⟨fun n k => hes.safe n ((hns n).mp k), fun l1 m l2 e hm n hn => ?_, fun M hM => ?_⟩
    · refine (hes.hear l1 m l2 e hm n hn).move ⟨fun ⟨a, h1, h2, h3, h4⟩ => .inl ⟨a, k2 a h1, h2, h3, h4⟩, ?_⟩
        (fun k => (hns n).mpr k.inNs) fun _ k => k
      intro a ha hd _ _ _ _ hy
      rcases k3 a ha hd with k | ⟨k4, k5⟩
      · exact ⟨a, k, hd, rfl, hy⟩
      · exfalso
        rcases hy with ⟨m', e', _⟩ | ⟨p, hp, hw', _⟩
        · rw [k4] at e'; cases e'
        · rw [k5] at hw'
          obtain ⟨w, hw1, hw2, _⟩ := h.reply_of hxy (p := p) (by rw [e]; exact List.mem_append_left _ hp) htok hw'
          exact h.mine.fresh hf (List.mem_append_right _ (List.mem_append_left _ (List.mem_map_of_mem hw1))) hw2
    · rw [k1.rd, hrd] at hM; cases hM
  rcases hcall with ⟨l, k1, _, k3⟩ | ⟨q, k, rfl, hab, hsafe, hwt, l, l1, k1, k2, k3, k4, k5, k6⟩
  · refine ⟨l, k1.log, key k1 (fun a ha => ?_) (fun a ha hd => ?_), ?_⟩
    · obtain ⟨j, hj⟩ := List.getElem?_of_mem ha
      exact List.mem_of_getElem? (k3.here j a hj)
    · obtain ⟨j, hj⟩ := List.getElem?_of_mem ha
      rcases k3.back j a hj with e | e
      · exact .inl (List.mem_of_getElem? e)
      · rw [e] at hd; cases hd
    · have hw0 : Wires 0 s s' := by
        rcases hw with hw | ⟨_, a, ha, hd⟩
        · exact hw
        · rcases k3.back _ a ha with e | e
          · rw [List.getElem?_eq_none (Nat.le_refl _)] at e; cases e
          · rw [e] at hd; cases hd
      rw [hw0.nothing k1.log, List.append_nil]
      exact het
  · refine ⟨l, k1.log, key k1 (fun a ha => by rw [k4]; exact List.mem_append_left _ ha) (fun a ha hd => ?_), ?_⟩
    · rw [k4] at ha
      rcases List.mem_append.mp ha with ha | ha
      · exact .inl ha
      · rw [List.mem_singleton.mp ha]; exact .inr ⟨rfl, rfl⟩
    · have hsz : (pipe s'.log).length ≤ (pipe s.log).length + 1 := by
        rcases hw with hw | ⟨hw, _⟩
        · have := hw.size; omega
        · exact hw.size
      rw [k1.log, pipe_append, k2, List.length_append, List.length_append] at hsz
      have hl1 : l1 = [] := List.eq_nil_of_length_eq_zero (by simp only [List.length_singleton] at hsz; omega)
      rw [k2, hl1]
      refine het.loud fun p hp => ?_
      rw [List.mem_singleton.mp hp]
      refine htok.notCalm (known := []) ?_
      dsimp only
      rw [req_decodes [] hsafe htok.is]
      exact (req_fields q tok).1

/-! ### A call returns -/

/-- the Asks after a call has returned -/
theorem resume_asks {i : Nat} {a : AskRec} {m : Message} (hok : SideOk s) (ha : s.asks[i]? = some a) (hb : a.box = some m)
    (hm : a.mode = .table) (hs : step x s (.resume i) = some s') :
    (∀ j, j ≠ i → s'.asks[j]? = s.asks[j]?) ∧ s'.asks[i]? = some { a with box := none, done := true } ∧ s'.rd = s.rd ∧
      s'.asks = (s.asks.set i { a with box := none }).modify i (fun b => { b with done := true }) := by
  obtain ⟨e, _⟩ := step_resume ha hb hs
  have hra := rdAsk_finish (cfg := x) (resumed s i a) a.cont m m.err
  rw [← e] at hra
  have htake : takeAnswer s i a = { s with asks := s.asks.set i { a with box := none } } := by
    unfold takeAnswer
    rw [hm]
    rcases hok.rd with k | ⟨m, _, k⟩ <;> rw [k]
  have hres : resumed s i a = { s with
      asks := (s.asks.set i { a with box := none }).modify i (fun a => { a with done := true })
      waiting := mapDel s.waiting a.tok } := by
    unfold resumed forget endAsk
    rw [htake]
    simp [hm]
  have hlt : i < s.asks.length := (List.getElem?_eq_some_iff.mp ha).1
  rw [hres] at hra
  refine ⟨fun j hj => ?_, ?_, hra.rd, hra.asks⟩
  · rw [hra.asks]
    simp only [List.getElem?_modify, List.getElem?_set]
    simp [show ¬ i = j from fun e => hj e.symm]
  · rw [hra.asks]
    simp [hlt]

theorem wires_resume {i : Nat} {a : AskRec} {m : Message} (hcb : StillCbs x) (ha : s.asks[i]? = some a) (hb : a.box = some m)
    (hs : step x s (.resume i) = some s') : Wires 0 s s' := by
  obtain ⟨e, _⟩ := step_resume ha hb hs
  have hp := puts_finish hcb (resumed s i a) a.cont m m.err
  rw [← e] at hp
  obtain ⟨_, _, r1, r2, _⟩ := resumed_fields s i a
  exact ⟨hp.closed.trans r2, by have := hp.size; rw [r1] at this; exact this, fun bin b k => by have := hp.taken bin b k; rw [r1] at this; exact this⟩

theorem ears_resume {i : Nat} (hxy : y.isClient = !x.isClient) (hst : StillSide x) (hcons : BothConsistent x y) (hr : Reach x id s)
    (h : Both x y s t po pi O I X Y) (hes : Ears x s pi) (het : Ears y t po)
    (hs : step x s (.resume i) = some s') (hc : s'.closed = false) :
    ∃ l, s'.log = s.log ++ l ∧ Ears x s' pi ∧ Ears y t (po ++ pipe l) := by
  obtain ⟨X1, z, X2, m, rfl, rfl, hbox, ha, hperm, hok, _⟩ := half_resume h.okS h.mine hs hc hr
  have hzm := hperm.mem_iff.mpr (List.mem_cons_self ..)
  obtain ⟨_, _, q, hq, hsafe, hw, _, _⟩ := h.mine.ready _ hzm
  obtain ⟨k1, l, k2, _⟩ := side_answer hcons.1.client hcons.1.accepts hr ha rfl hw rfl hs hc
  obtain ⟨a1, a2, a3, _⟩ := resume_asks h.okS ha rfl rfl hs
  have hback : ∀ a ∈ s'.asks, a.done = false → a ∈ s.asks := by
    intro a ha' hd
    obtain ⟨j, hj⟩ := List.getElem?_of_mem ha'
    by_cases e : j = z.1.i
    · rw [e, a2] at hj; cases hj; cases hd
    · rw [a1 j e] at hj; exact List.mem_of_getElem? hj
  have hlast : ∀ {l n}, (∀ p ∈ l, p ∈ pi) → Lasts x s l n → Lasts x s' l n := by
    intro l n hl hL
    refine hL.move ⟨fun ⟨a, h1, h2, ⟨obj, h3⟩, h4⟩ => ?_, fun a ha' hd _ _ _ _ hy => ⟨a, hback a ha' hd, hd, rfl, hy⟩⟩
      (fun hA => ?_) fun _ k => k
    · obtain ⟨j, hj⟩ := List.getElem?_of_mem h1
      by_cases e : j = z.1.i
      · subst e
        rw [ha] at hj
        cases hj
        have hzq := (h.mine.ready _ hzm).connect (n := n) h3
        rw [hq] at hzq
        cases hzq
        have herr : m.err = none := by
          rcases h4 with ⟨m', e', k⟩ | ⟨p, hp, hwt, _⟩
          · cases e'; exact k
          · exfalso
            obtain ⟨w, hw1, hw2, _⟩ := h.reply_of hxy (hl p hp) (h.mine.ready _ hzm).tok hwt
            have hwc : w.1 ∈ calls (reqsOf O) (repsOf I) (X1 ++ z :: X2) :=
              List.mem_append_right _ (List.mem_append_left _ (List.mem_map_of_mem hw1))
            have e := (apart_or h.mine.apart hwc hzm).resolve_right fun k => k.1 hw2
            have := h.mine.atB w hw1
            unfold AskIs at this
            rw [e, ha] at this
            cases this
        refine .inr ⟨(k1.1 n).mpr (.inr ⟨by rw [herr]; rfl, rfl⟩), fun a ha' hd obj' msg hk hmn hy => ?_, fun p hp hb => ?_⟩
        · obtain ⟨p', hp', _, hae⟩ := h.mine.pendOf (hback a ha' hd) hd
          have hpq := (h.mine.ready p' hp').disconnect (obj := obj') (msg := msg) (by rw [hae] at hk; exact hk)
          have e := h.mine.uniq (n := n) hp' hzm hpq hq hmn.symm rfl
          rw [e, hq] at hpq
          cases hpq
        · obtain ⟨b, hb1, hb2⟩ := h.bye_of hxy (hl p hp) hb
          exact h.cross _ hzm b (List.mem_append_left _ hb1) _ _ hq hb2 (clash_ns (n := n) rfl rfl)
      · rw [← a1 j e] at hj
        exact .inl ⟨a, List.mem_of_getElem? hj, h2, ⟨obj, h3⟩, h4⟩
    · rw [k1.1 n]
      cases q with
      | connect ns => exact .inl hA.inNs
      | join ns r => exact hA.inNs
      | leave ns r => exact hA.inNs
      | disconnect ns =>
        refine ⟨hA.inNs, fun ⟨he, hn⟩ => ?_⟩
        obtain ⟨obj, msg, hk, hmn, _⟩ := hw
        refine hA.own _ (List.mem_of_getElem? ha) rfl obj msg hk (hmn.trans hn.symm) (.inl ⟨m, rfl, ?_⟩)
        exact Option.isNone_iff_eq_none.mp he
  refine ⟨l, k2, ⟨fun n hn => ?_, fun l1 p l2 e hp n hn => hlast (fun p' hp' => by rw [e]; exact List.mem_append_left _ hp') (hes.hear l1 p l2 e hp n hn),
    fun M hM => ?_⟩, ?_⟩
  · have hn' := (k1.1 n).mp hn
    cases q with
    | connect ns =>
      rcases hn' with k | ⟨_, rfl⟩
      · exact hes.safe n k
      · exact hsafe
    | disconnect ns => exact hes.safe n hn'.1
    | join ns r => exact hes.safe n hn'
    | leave ns r => exact hes.safe n hn'
  · rw [a3] at hM
    exact ⟨hlast (fun _ k => by cases k) (hes.gate M hM).1, (hes.gate M hM).2⟩
  · rw [(wires_resume hst.cbs ha rfl hs).nothing k2, List.append_nil]
    exact het

/-! ### A side reads -/

theorem Half.toks (h : Half cl known s A B X) : ∀ a ∈ s.asks, a.done = false → SideTok cl a.tok := by
  intro a ha hd
  obtain ⟨p, hp, _, hae⟩ := h.pendOf ha hd
  rw [hae]
  exact (h.ready p hp).tok

theorem ears_calm {p : MsgType × Bytes} {rest : List (MsgType × Bytes)} (hst : StillSide x) (hn : x.allowNative = false)
    (hp : CalmP p) (h : Both x y s t po (p :: rest) O I X Y) (hes : Ears x s (p :: rest)) (het : Ears y t po)
    (hs : step x s (.recv p.1 p.2) = some s') (hc : s'.closed = false) :
    ∃ l, s'.log = s.log ++ l ∧ Ears x s' rest ∧ Ears y t (po ++ pipe l) := by
  obtain ⟨hidle, he⟩ := recv_idle hs
  obtain ⟨hw, hask⟩ := wires_calm hst.cbs hst.nil hn h.okS.acked hp
  rw [← he] at hw hask
  have key : ∃ l, CKept s l s' ∧ ∀ M, s'.rd = .gate M → M = decP x p ∧ M.event ≠ OnNamespaceConnect ∧ M.event ≠ OnNamespaceDisconnect := by
    rw [he] at hc ⊢
    rcases calm_recv (still_calm hst.cbs) hn hp h.okS.acked hc with ⟨l, k1, _⟩ | ⟨m, hm, hg, e, hdec, h1, h2⟩
    · exact ⟨l, k1.ckept, fun M hM => by rw [k1.kept.rd, hidle] at hM; cases hM⟩
    · rw [e]
      refine ⟨[], ckept_gate hm, fun M hM => ?_⟩
      cases hM
      exact ⟨hdec, h1, h2⟩
  obtain ⟨l, k1, k2⟩ := key
  have hns : ∀ n, InNs s' n ↔ InNs s n := fun n => by unfold InNs; rw [k1.ns]
  have hskip : ∀ a ∈ s.asks, a.done = false → (decP x p).wait ≠ a.tok := by
    intro a ha hd e
    rw [calm_wait hp] at e
    exact (h.mine.toks a ha hd).is.2 e.symm
  refine ⟨l, k1.log, ⟨fun n k => hes.safe n ((hns n).mp k), hes.hear.read fun l n hL => ?_, fun M hM => ?_⟩, ?_⟩
  · exact hL.move (.skip hask hskip n) (fun k => (hns n).mpr k.inNs) fun _ k => List.mem_cons_of_mem _ k
  · obtain ⟨e, h1, h2⟩ := k2 M hM
    refine ⟨?_, h1, h2⟩
    rw [e] at h1 h2 ⊢
    exact (hes.hear [] p rest rfl hp _ ⟨rfl, h1, h2⟩).same hask (hns _).mpr
  · rw [hw.nothing k1.log, List.append_nil]
    exact het

/-- a request of the other side, when it is read -/
theorem both_handles {a : Pend} {rest : List (MsgType × Bytes)} {I : List Cargo} (hcons : BothConsistent x y) (hn : x.allowNative = false)
    (hxy : y.isClient = !x.isClient) (hr : Reach x id s) (h : Both x y s t po (a.load :: rest) O (.req a :: I) X Y)
    (hs : step x s (.recv a.load.1 a.load.2) = some s') (hc : s'.closed = false) :
    ∃ q, q.Safe ∧ decP x a.load = q.msg a.tok ∧ SideTok (!x.isClient) a.tok ∧ RdSame s s' ∧
      ∃ r l, s'.log = s.log ++ l ∧ Moves q r.isNone s s' ∧
      ∃ la bin b ok lb, l = la ++ .sent bin b ok :: lb ∧ ∀ known, Reply known a.tok r (if bin then .binary else .text, b) := by
  have hyours : Half y.isClient y.known t (a :: reqsOf I) (repsOf O) Y := h.yours
  have hmem : a ∈ calls (a :: reqsOf I) (repsOf O) Y := List.mem_append_left _ (List.mem_cons_self ..)
  obtain ⟨_, htok, q, hq, hsafe, hwaits, _, hload⟩ := hyours.ready a hmem
  rw [hload] at hs
  rw [hxy] at htok
  have hap : ∀ z ∈ calls (reqsOf I) (repsOf O) Y, Apart a z := by
    have := hyours.apart
    simp only [calls, List.cons_append, List.pairwise_cons] at this
    exact this.1
  have hnc : ∀ p ∈ calls (reqsOf O) (repsOf I) X, ∀ q', p.req = some q' → ¬ Clash q.about q'.about :=
    fun p hp q' e k => h.cross p hp a hmem q' q e hq k.symm
  have hncZ : ∀ z ∈ handledBy (repsOf I) X, ∀ q', z.1.req = some q' → ¬ Clash q.about q'.about :=
    fun z hz q' hq' => hnc z.1 (calls_of_handled hz) q' hq'
  have hncW : ∀ z ∈ handledBy (repsOf O) Y, ∀ q', z.1.req = some q' → ¬ Clash q.about q'.about :=
    fun z hz q' hq' => (hap z.1 (calls_of_handled hz)).2 q q' hq hq'
  have hth : q.There s := there_here hwaits (h.differ.ns _
    (fun z hz q' hq' hon => hncZ z hz q' hq' (clash_of_ns hon))
    (fun z hz q' hq' hon => hncW z hz q' hq' (clash_of_ns hon))).symm
  have hi := side_incoming (q := q) hn hsafe htok h.mine.keys h.okS.acked
  have hgb : gateBlocks s (q.msg a.tok).ns = false := by
    rw [msg_ns]
    exact half_gate hr h.mine hnc
  obtain ⟨_, kr, r, l, k2, k3, _, la, bin, b, ok, lb, k5, _, _, k8⟩ := side_handles hcons.1.client
    (fun log obj h e he => hcons.2.refuses _ _ _ _ _ (req_fields q a.tok).2.2.2.2.2.2 he) hr hsafe htok.is hi hgb hth hs hc
  refine ⟨q, hsafe, ?_, htok, kr, r, l, k2, k3, la, bin, b, ok, lb, k5, k8⟩
  rw [hload]
  exact req_decodes x.known hsafe htok.is

theorem ears_request {a : Pend} {rest : List (MsgType × Bytes)} {I : List Cargo} (hst : StillSide x) (hcons : BothConsistent x y) (hn : x.allowNative = false)
    (hxy : y.isClient = !x.isClient) (hr : Reach x id s) (h : Both x y s t po (a.load :: rest) O (.req a :: I) X Y)
    (hes : Ears x s (a.load :: rest)) (het : Ears y t po)
    (hs : step x s (.recv a.load.1 a.load.2) = some s') (hc : s'.closed = false) :
    ∃ l, s'.log = s.log ++ l ∧ Ears x s' rest ∧ Ears y t (po ++ pipe l) ∧
      ∃ p r, pipe l = [p] ∧ s'.asks = s.asks ∧ s'.rd = s.rd ∧ SideTok (!x.isClient) a.tok ∧ Reply y.known a.tok r p ∧
        (decP x a.load).wait = a.tok := by
  have hon : x.onlyNative = false := by simp [Cfg.onlyNative, hn]
  obtain ⟨q, hsafe, hdec, htok, kr, r, l, k2, k3, la, bin, b, ok, lb, k5, k8⟩ := both_handles hcons hn hxy hr h hs hc
  obtain ⟨hidle, he⟩ := recv_idle hs
  have hw := wires_recv hst.cbs hst.takes hon h.okS.acked a.load.1 a.load.2
  rw [← he] at hw
  have hno := reach_taken hst.takes hon (.step hr hs) hc
  have hwait : (decP x a.load).wait = a.tok := by rw [hdec]; exact (req_fields q a.tok).1
  have hpipe : pipe l = [(if bin then .binary else .text, b)] := by
    have hok : ok = true := by
      cases ok with
      | true => rfl
      | false => exact absurd (by rw [k2, k5]; simp) (hno bin b)
    subst hok
    have hsz := hw.size
    have e : pipe l = pipe la ++ (if bin then .binary else .text, b) :: pipe lb := by
      rw [k5, pipe_append]; rfl
    rw [k2, pipe_append, List.length_append, e, List.length_append, List.length_cons] at hsz
    rw [e, List.eq_nil_of_length_eq_zero (l := pipe la) (by omega), List.eq_nil_of_length_eq_zero (l := pipe lb) (by omega)]
    rfl
  have hskip : ∀ b ∈ s.asks, b.done = false → (decP x a.load).wait ≠ b.tok := by
    intro b hb hd e
    rw [hwait] at e
    rw [e] at htok
    exact (h.mine.toks b hb hd).ne htok
  refine ⟨l, k2, ⟨fun n hn' => ?_, hes.hear.read fun l n hL => ?_, fun M hM => by rw [kr.rd, hidle] at hM; cases hM⟩, ?_, _, r, hpipe,
    kr.asks, kr.rd, htok, k8 y.known, hwait⟩
  · have hn'' := (k3.1 n).mp hn'
    cases q with
    | connect ns =>
      rcases hn'' with k | ⟨_, rfl⟩
      · exact hes.safe n k
      · exact hsafe
    | disconnect ns => exact hes.safe n hn''.1
    | join ns r => exact hes.safe n hn''
    | leave ns r => exact hes.safe n hn''
  · refine hL.move (.skip kr.asks hskip n) (fun hA => ?_) fun _ k => List.mem_cons_of_mem _ k
    rw [k3.1 n]
    cases q with
    | connect ns => exact .inl hA.inNs
    | join ns r => exact hA.inNs
    | leave ns r => exact hA.inNs
    | disconnect ns =>
      refine ⟨hA.inNs, fun ⟨_, hn'⟩ => ?_⟩
      refine hA.bye a.load (List.mem_cons_self ..) ⟨?_, ?_, by rw [hwait]; exact htok⟩
      · rw [hdec]; exact hn'.symm
      · rw [hdec]; rfl
  · rw [hpipe]
    refine het.loud fun p hp => ?_
    rw [List.mem_singleton.mp hp]
    exact htok.notCalm (known := []) (k8 []).wait

/-- a side that reads the answer to a call of its own -/
theorem answer_state {a : Pend} {r : Option GoErr} {p : MsgType × Bytes} {rest : List (MsgType × Bytes)} {I : List Cargo}
    (hn : x.allowNative = false) (hsw : x.isClient = true ∨ s.srvWaiting = [])
    (h : Both x y s t po (p :: rest) O (.rep a r :: I) X Y) (hp : Reply x.known a.tok r p)
    (hs : step x s (.recv p.1 p.2) = some s') :
    AskIs s a none ∧ s' = { s with asks := s.asks.set a.i ⟨a.tok, a.k, .table, some (decP x p), false⟩ } := by
  have hmine : Half x.isClient x.known s (reqsOf O) ((a, r) :: repsOf I) X := h.mine
  have hperm := calls_boxed (a := a) (r := r) (box := some (deserializeMessage x.known p.1 p.2 false false))
    (A := reqsOf O) (B := repsOf I) (X := X)
  have hmem : a ∈ calls (reqsOf O) ((a, r) :: repsOf I) X :=
    hperm.mem_iff.mp (calls_lost.mem_iff.mpr (List.mem_append_left _ (List.mem_cons_self ..)))
  have fly := hmine.ready a hmem
  have hat := hmine.atB _ (List.mem_cons_self ..)
  have hon : x.onlyNative = false := by simp [Cfg.onlyNative, hn]
  refine ⟨hat, ?_⟩
  rw [(recv_idle hs).2]
  have hwait := hp.wait
  have hvalid := hp.valid
  have hplain := hp.plain
  unfold decP recv handlePayload
  rw [if_neg hp.nonempty, if_pos h.okS.acked, hn, hon]
  generalize deserializeMessage x.known p.1 p.2 false false = m at hwait hvalid hplain ⊢
  have hiw : m.isWait x.isClient = true := SideTok.own (by rw [hwait]; exact fly.tok)
  unfold AskIs at hat
  dsimp only at hat
  unfold handleMessage
  rw [hvalid, hiw, hon, hplain, hwait, fly.waiting]
  rcases hsw with hsw | hsw
  · simp [deliver, hat, hsw]
  · simp [deliver, hat, hsw]

theorem ears_answer {a : Pend} {r : Option GoErr} {p : MsgType × Bytes} {rest : List (MsgType × Bytes)} {I : List Cargo}
    (hn : x.allowNative = false) (hsw : x.isClient = true ∨ s.srvWaiting = [])
    (h : Both x y s t po (p :: rest) O (.rep a r :: I) X Y) (hp : Reply x.known a.tok r p)
    (hes : Ears x s (p :: rest)) (hs : step x s (.recv p.1 p.2) = some s') : s'.log = s.log ∧ Ears x s' rest := by
  obtain ⟨hat, e⟩ := answer_state hn hsw h hp hs
  have hidle := (recv_idle hs).1
  have hlt : a.i < s.asks.length := (List.getElem?_eq_some_iff.mp hat).1
  have hmemA : a ∈ calls (reqsOf O) (repsOf (.rep a r :: I)) X :=
    List.mem_append_right _ (List.mem_append_left _ (List.mem_map_of_mem (f := Prod.fst) (show (a, r) ∈ repsOf (.rep a r :: I) from List.mem_cons_self ..)))
  have hw : (decP x p).wait = a.tok := hp.wait
  have hother : ∀ (j : Nat) (b : AskRec), s.asks[j]? = some b → b.done = false → j ≠ a.i → (decP x p).wait ≠ b.tok := by
    intro j b hj hd hne he
    obtain ⟨p', hp', hpi⟩ := h.mine.cover j b hj hd
    obtain ⟨box, hbx⟩ := h.mine.askOf hp'
    have e' : p' = a := by
      refine (apart_or h.mine.apart hp' hmemA).resolve_right fun k => k.1 ?_
      unfold AskIs at hbx
      rw [hpi, hj] at hbx
      cases hbx
      exact he.symm.trans hw
    exact hne (by rw [← hpi, e'])
  have hget : ∀ j, s'.asks[j]? = if a.i = j then some ⟨a.tok, a.k, .table, some (decP x p), false⟩ else s.asks[j]? := by
    intro j
    rw [e]
    dsimp only
    rw [List.getElem?_set]
    split
    · rename_i ej
      subst ej
      simp
    · rfl
  have hns : ∀ n, InNs s' n ↔ InNs s n := fun n => by rw [e]; exact Iff.rfl
  refine ⟨by rw [e], ⟨fun n k => hes.safe n ((hns n).mp k), hes.hear.read fun l n hL => ?_, fun M hM => by rw [e] at hM; rw [hidle] at hM; cases hM⟩⟩
  have yesA : ∀ l, Yes x ⟨a.tok, a.k, .table, none, false⟩ (p :: l) ↔ Yes x ⟨a.tok, a.k, .table, some (decP x p), false⟩ l ∨
      ∃ p' ∈ l, (decP x p').wait = a.tok ∧ (decP x p').err = none := by
    intro l
    constructor
    · rintro (⟨m, k, _⟩ | ⟨p', hp', k⟩)
      · cases k
      · rcases List.mem_cons.mp hp' with rfl | hp'
        · exact .inl (.inl ⟨_, rfl, k.2⟩)
        · exact .inr ⟨p', hp', k⟩
    · rintro ((⟨m, k, k2⟩ | ⟨p', hp', k⟩) | ⟨p', hp', k⟩)
      · cases k; exact .inr ⟨p, List.mem_cons_self .., hw, k2⟩
      · exact .inr ⟨p', List.mem_cons_of_mem _ hp', k⟩
      · exact .inr ⟨p', List.mem_cons_of_mem _ hp', k⟩
  refine hL.move ⟨fun ⟨b, h1, h2, h3, h4⟩ => ?_, fun b hb hd _ _ _ _ hy => ?_⟩ (fun k => (hns n).mpr k.inNs) fun _ k => List.mem_cons_of_mem _ k
  · obtain ⟨j, hj⟩ := List.getElem?_of_mem h1
    by_cases ej : a.i = j
    · subst ej
      unfold AskIs at hat
      rw [hat] at hj
      cases hj
      refine .inl ⟨⟨a.tok, a.k, .table, some (decP x p), false⟩, List.mem_of_getElem? (i := a.i) (by rw [hget, if_pos rfl]), rfl, h3, ?_⟩
      rcases (yesA l).mp h4 with k | k
      · exact k
      · exact .inr k
    · refine .inl ⟨b, List.mem_of_getElem? (i := j) (by rw [hget, if_neg ej]; exact hj), h2, h3, ?_⟩
      exact (yes_skip (hother j b hj h2 (fun e => ej e.symm))).mp h4
  · obtain ⟨j, hj⟩ := List.getElem?_of_mem hb
    rw [hget] at hj
    split at hj
    · cases hj
      exact ⟨_, List.mem_of_getElem? hat, rfl, rfl, (yesA l).mpr (.inl hy)⟩
    · rename_i ej
      exact ⟨b, List.mem_of_getElem? hj, hd, rfl, (yes_skip (hother j b hj hd (fun e => ej e.symm))).mpr hy⟩

/-- a side reads what the other has sent -/
theorem ears_recv {p : MsgType × Bytes} {rest : List (MsgType × Bytes)} (hst : StillSide x) (hcons : BothConsistent x y) (hn : x.allowNative = false)
    (hxy : y.isClient = !x.isClient) (hsw : x.isClient = true ∨ s.srvWaiting = []) (hr : Reach x id s)
    (h : Both x y s t po (p :: rest) O I X Y) (hes : Ears x s (p :: rest)) (het : Ears y t po)
    (hs : step x s (.recv p.1 p.2) = some s') (hc : s'.closed = false) :
    ∃ l, s'.log = s.log ++ l ∧ Ears x s' rest ∧ Ears y t (po ++ pipe l) := by
  by_cases hp : CalmP p
  · exact ears_calm hst hn hp h hes het hs hc
  · obtain ⟨it, I', rfl, hit, hin⟩ := h.inn.head hp
    cases it with
    | req a =>
      cases (show p = a.load from hit)
      obtain ⟨l, h1, h2, h3, _⟩ := ears_request hst hcons hn hxy hr h hes het hs hc
      exact ⟨l, h1, h2, h3⟩
    | rep a r =>
      obtain ⟨h1, h2⟩ := ears_answer hn hsw h hit hes hs
      exact ⟨[], by rw [h1]; simp, h2, by simpa [pipe] using het⟩

/-! ### A reader goes on -/

theorem wake_state (hst : StillSide x) (hok : SideOk s) (hes : Ears x s pi) (hs : step x s .wake = some s') :
    ∃ M, s.rd = .gate M ∧ Puts 0 { s with rd := .idle } s' := by
  obtain ⟨he, _⟩ := step_exec hs
  simp only [exec, wakeReader] at he
  rcases hok.rd with e | ⟨m, hm, e⟩
  · rw [e] at he; cases he
  · obtain ⟨_, h1, h2⟩ := hes.gate m e
    refine ⟨m, e, ?_⟩
    simp only [e] at he
    split at he
    · have hp := puts_afterGate_nil hst.cbs hst.nil { s with rd := .idle } m hm.1 h1 h2
      have k1 : (afterGate x { s with rd := .idle } m).rd = .idle := hp.rd
      have k2 : (afterGate x { s with rd := .idle } m).todo = [] := hp.todo.trans hok.todo
      have k3 : (afterGate x { s with rd := .idle } m).ackAfter = false := hp.ackAfter.trans hok.ackAfter
      rw [if_pos k1, k2, drain_nil _ k2 k3] at he
      cases he
      exact hp
    · cases he

theorem ears_wake (hst : StillSide x) (h : Both x y s t po pi O I X Y) (hes : Ears x s pi) (het : Ears y t po)
    (hs : step x s .wake = some s') (hc : s'.closed = false) :
    ∃ l, s'.log = s.log ++ l ∧ Ears x s' pi ∧ Ears y t (po ++ pipe l) := by
  obtain ⟨l, hl, hb⟩ := both_wake (still_calm hst.cbs) h hs hc
  obtain ⟨M, hM, hp⟩ := wake_state hst h.okS hes hs
  have hns : ∀ n, s'.namespace n = s.namespace n := by
    obtain ⟨he, _⟩ := step_exec hs
    simp only [exec, wakeReader, hM] at he
    split at he
    · rcases h.okS.rd with e | ⟨m, hm, e⟩
      · rw [e] at hM; cases hM
      · rw [hM] at e
        cases e
        obtain ⟨_, h1, h2⟩ := hes.gate M hM
        have hp := puts_afterGate_nil hst.cbs hst.nil { s with rd := .idle } M hm.1 h1 h2
        have k1 : (afterGate x { s with rd := .idle } M).rd = .idle := hp.rd
        have k2 : (afterGate x { s with rd := .idle } M).todo = [] := hp.todo.trans h.okS.todo
        have k3 : (afterGate x { s with rd := .idle } M).ackAfter = false := hp.ackAfter.trans h.okS.ackAfter
        rw [if_pos k1, k2, drain_nil _ k2 k3] at he
        cases he
        obtain ⟨_, k, _⟩ := calm_afterGate (still_calm hst.cbs) hm.1 hm.2 hc
        exact fun n => k.ckept.ns n
    · cases he
  have hw : Wires 0 s s' := ⟨hp.closed, hp.size, hp.taken⟩
  refine ⟨l, hl, hes.same hp.asks (fun n => by unfold InNs; rw [hns]) (.inr hp.rd), ?_⟩
  rw [hw.nothing hl, List.append_nil]
  exact het

/-! ### The steps of one side -/

/-- what the rule adds: nothing is emitted in a namespace that this side is leaving -/
def Ruled (s : St) : Op → Prop
  | .write m => ¬ Leaving s m.ns
  | _ => True

theorem ears_step {op : Op} (hst : StillSide x) (hcons : BothConsistent x y) (hn : x.allowNative = false) (hxy : y.isClient = !x.isClient)
    (hr : Reach x id s) (ho : SideRequests x.isClient s t op) (hru : Ruled s op) (h : Both x y s t po pi O I X Y)
    (hes : Ears x s pi) (het : Ears y t po) (hs : step x s op = some s') (hc : s'.closed = false) :
    ∃ l, s'.log = s.log ++ l ∧ Ears x s' pi ∧ Ears y t (po ++ pipe l) := by
  have hcb : CbCalm x := (still_calm hst.cbs)
  have hon : x.onlyNative = false := by simp [Cfg.onlyNative, hn]
  have hc0 := closed_of_prims (reach_prims hr hs) hc
  cases op with
  | write m => exact ears_write hxy ho hru (reach_taken hst.takes hon hr hc0) h hes het hs hc
  | ready e =>
    obtain ⟨he, _⟩ := step_exec hs
    simp only [exec] at he
    cases he
    have k1 : Same s [] (s.signalReady e) := by
      unfold St.signalReady
      split
      · exact .refl _
      · exact ⟨_, by simp; rfl⟩
    refine ⟨[], k1.log, hes.same k1.asks (fun n => by unfold InNs; rw [k1.kept.ns]) (.inl k1.kept.rd), by simpa [pipe] using het⟩
  | connect ns now ex =>
    obtain ⟨⟨o1, o2, o3, o4⟩, ⟨o5, o6⟩, o7⟩ := ho
    exact ears_called hxy h hes het o3 o4 (sideTok_genWait _ _) (side_connect (.inr ⟨o1, o2⟩) hon hcb o3 o7 hs hc) (callWires_connect hst o3 hs)
  | disconnect obj now ex =>
    obtain ⟨⟨o1, o2, o3, o4⟩, ⟨o5, o6⟩, o7⟩ := ho
    exact ears_called hxy h hes het o3 o4 (sideTok_genWait _ _) (side_disconnect hon o3 o7 hs hc) (callWires_disconnect hst o3 hs)
  | join obj room now ex =>
    obtain ⟨⟨o1, o2, o3, o4⟩, ⟨o5, o6⟩, o7, o8, o9⟩ := ho
    exact ears_called hxy h hes het o3 o4 (sideTok_genWait _ _) (side_join hon o3 o7 o8 o9 hs hc) (callWires_join hst o3 hs)
  | leave obj room now ex =>
    obtain ⟨⟨o1, o2, o3, o4⟩, ⟨o5, o6⟩, o7, o8, o9⟩ := ho
    exact ears_called hxy h hes het o3 o4 (sideTok_genWait _ _) (side_leave hon o3 o7 o8 o9 hs hc) (callWires_leave hst o3 hs)
  | resume i => exact ears_resume hxy hst hcons hr h hes het hs hc
  | close =>
    obtain ⟨he, _⟩ := step_exec hs
    simp only [exec] at he
    cases he
    rw [closeConn_closed] at hc
    cases hc
  | readErr e =>
    obtain ⟨he, _⟩ := step_exec hs
    simp only [exec] at he
    split at he
    · cases he
      have : (readerExit x (s.signalReady (some e))).closed = true := closeConn_closed _
      rw [this] at hc
      cases hc
    · cases he
  | wake => exact ears_wake hst h hes het hs hc
  | ask => exact ho.elim
  | sendAck => exact ho.elim
  | recv => exact ho.elim
  | contReader => exact ho.elim
  | cancel => exact ho.elim
  | steal => exact ho.elim
  | stealErr => exact ho.elim
  | srvAsk => exact ho.elim
  | srvUnask => exact ho.elim

end Neffos
