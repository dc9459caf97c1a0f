import Verif.Proofs.AgreeMany
import Verif.Props.GateConn
/-!
Helper lemmas for events that are emitted while calls are in flight.
-/
set_option autoImplicit false
namespace Neffos
open Neffos.Spec

variable {cfg cc sc : Cfg} {id : Bytes} {known : List KnownErr}

/-! ### Events on the wire -/

/-- what the other side decodes when this is emitted -/
theorem emit_wire (known : List KnownErr) {m : Message} (hp : AppMsg m) (hm : AskMsg m) :
    Heard m [] (deserializeMessage known (if m.setBinary then .binary else .text) (wireOf m) false false) ∧
      (deserializeMessage known (if m.setBinary then .binary else .text) (wireOf m) false false).isInvalid = false := by
  have htok : PlainToken [] := ⟨by simp, by decide, fun c t h => by cases h⟩
  have hs := serialize_wireOf m
  obtain ⟨b, hb, g1, g2, g3, g4, _, g5, _⟩ := c01_round_trip_result known (if m.setBinary then .binary else .text) false
    { m with fromExplicit := [] } (.inl hp.2) rfl (by rw [hp.1]; exact htok) hm.1 hm.2.1 hm.2.2.1
  have heq : b = wireOf m := Option.some.inj (hb.symm.trans hs)
  subst heq
  refine ⟨⟨g1.trans hp.1, g2, g3, g4, fun he => ?_⟩, g5⟩
  obtain ⟨b, hb', hx'⟩ := c01_round_trip known (if m.setBinary then .binary else .text) false
    { m with fromExplicit := [] } (.inl hp.2) rfl he (by rw [hp.1]; exact htok) hm.1 hm.2.1 hm.2.2.1
  have heq : b = wireOf m := Option.some.inj (hb'.symm.trans hb)
  subst heq
  rw [hx']
  simp only [hp.1]
  cases m.setBinary <;> rfl

/-- the reader of a connection gets an event -/
theorem emit_incoming {s : St} {m : Message} (hn : cfg.allowNative = false) (ha : s.acked = true) (hp : AppMsg m)
    (hm : AskMsg m) :
    Incoming cfg s (if m.setBinary then .binary else .text) (wireOf m)
      (deserializeMessage cfg.known (if m.setBinary then .binary else .text) (wireOf m) false false) := by
  have hon : cfg.onlyNative = false := by simp [Cfg.onlyNative, hn]
  obtain ⟨h1, h2⟩ := emit_wire cfg.known hp hm
  have hne : wireOf m ≠ [] := by
    obtain ⟨t, ht⟩ := wire_calm hp.1 hp.2
    rw [ht]; simp
  have hiw : (deserializeMessage cfg.known (if m.setBinary then .binary else .text) (wireOf m) false false).isWait cfg.isClient = false := by
    unfold Message.isWait
    rw [h1.wait]
  exact ⟨hne, ha, by rw [hn, hon], h2, hon, .inr (.inr (.inr hiw)), .inr (.inr hiw), .inr hiw⟩

/-- an event that is handled makes one callback run -/
theorem handled_runs {s s' : St} {m M : Message} (hr : Reach cfg id s) (hs : Handled cfg s M s') (hh : Heard m [] M)
    (hm : AskMsg m) (hn : InNs s m.ns) (hc : s'.closed = false) : Runs s s' m := by
  have hev : ¬ isRequest M.event := by rw [hh.event]; exact hm.2.2.2
  obtain ⟨rfl, _, _⟩ := handled hr hs (fun x => hev (.inl x)) (fun x => hev (.inr (.inl x)))
  obtain ⟨obj, hobj⟩ : ∃ obj, s.namespace m.ns = some obj := by
    cases hx : s.namespace m.ns with
    | none => exact absurd hx hn
    | some obj => exact ⟨obj, rfl⟩
  have hobj' : ({ s with rd := .idle } : St).namespace M.ns = some obj := by rw [hh.ns]; exact hobj
  have hlk : linked ({ s with rd := .idle } : St) obj = true := reach_linked hr hobj
  refine ⟨obj, { M with isLocal := false }, hobj, ⟨hh.wait, hh.ns, hh.room, hh.event, fun he => by rw [hh.whole he]⟩, ?_⟩
  unfold afterGate at hc ⊢
  rw [hobj'] at hc ⊢
  dsimp only at hc ⊢
  rw [if_neg (fun x => hev (.inr (.inr (.inl x)))), if_neg (fun x => hev (.inr (.inr (.inr x))))] at hc ⊢
  unfold handleEvent at hc ⊢
  dsimp only at hc ⊢
  have hfire := @fire_any cfg { s with rd := .idle } obj { M with isLocal := false }
  revert hc hfire
  generalize fire cfg { s with rd := .idle } obj { M with isLocal := false } = p
  obtain ⟨t, r⟩ := p
  intro hc hfire
  have hcall : t.closed = false → callsOf t.log = callsOf s.log ++
      [⟨obj, { M with isLocal := false }, true, decide (m.room ∈ s.rooms obj)⟩] := by
    intro ht
    obtain ⟨l, h1, h2⟩ := hfire ht
    rw [h1.log, callsOf_append, h2.calls, hlk]
    simp only [hh.room]
    rfl
  cases r with
  | none => exact hcall hc
  | some e =>
    dsimp only at hc ⊢
    obtain ⟨h1, l, h2, h3⟩ := calls_write (cfg := cfg) _ _ hc
    rw [h2, callsOf_append, h3, List.append_nil]
    exact hcall h1

/-- an event for a namespace that is not connected is dropped -/
theorem handled_dropped {s s' : St} {m M : Message} (hr : Reach cfg id s) (hs : Handled cfg s M s') (hh : Heard m [] M)
    (hm : AskMsg m) (hn : ¬ InNs s m.ns) : callsOf s'.log = callsOf s.log := by
  have hev : ¬ isRequest M.event := by rw [hh.event]; exact hm.2.2.2
  have hobj : s.namespace M.ns = none := by
    rw [hh.ns]; exact Classical.byContradiction fun x => hn x
  rw [(c17_not_connected hr hs (fun x => hev (.inl x)) (fun x => hev (.inr (.inl x))) hobj).2.2.1]

/-! ### Sessions from a point on -/

theorem manyRun_det {ops : List SessOp} {s s' : Sess} (h : ManyRun cc sc id ops s) (h' : ManyRun cc sc id ops s') :
    s = s' := by
  induction h generalizing s' with
  | init =>
    generalize hx : ([] : List SessOp) = x at h'
    cases h' with
    | init => rfl
    | step => simp at hx
  | @step ops s t op h1 _ h3 ih =>
    generalize hx : ops ++ [op] = x at h'
    cases h' with
    | init => simp at hx
    | step k1 _ k3 =>
      obtain ⟨e1, e2⟩ := List.append_inj' hx rfl
      cases e2
      subst e1
      rw [ih k1, k3] at h3
      exact (Option.some.inj h3).symm

theorem manyRun_induct {pre ops : List SessOp} {s : Sess} {M : Sess → Prop} (h : ManyRun cc sc id ops s)
    (hpre : pre <+: ops) (base : ∀ s, ManyRun cc sc id pre s → M s)
    (next : ∀ {ops s s' op}, ManyRun cc sc id ops s → ManyRequests s op → sstep cc sc s op = some s' → M s → M s') : M s := by
  induction h with
  | init => rw [List.prefix_nil.mp hpre] at base; exact base _ .init
  | @step ops s t op h1 h2 h3 ih =>
    rcases List.prefix_concat_iff.mp hpre with e | e
    · subst e; exact base _ (.step h1 h2 h3)
    · exact next h1 h2 h3 (ih e)

/-- both sides of a step of the session -/
theorem sides {ops : List SessOp} {s s' : Sess} {op : SessOp} (hinv : ManyInv cc sc id ops s) (ho : ManyRequests s op)
    (h : sstep cc sc s op = some s') :
    (s'.c.closed = false → s.c.closed = false) ∧ (s'.d.closed = false → s.d.closed = false) ∧
      (∃ l, s'.c.log = s.c.log ++ l) ∧ (∃ l, s'.d.log = s.d.log ++ l) ∧
      (s.c.acked = true → s'.c.closed = false → s'.c.acked = true) ∧ s.up ≤ s'.up ∧ s.down ≤ s'.down := by
  have hcl : ∀ {op : Op} {t : St}, step cc s.c op = some t → (t.closed = false → s.c.closed = false) ∧
      (∃ l, t.log = s.c.log ++ l) ∧ (s.c.acked = true → t.closed = false → t.acked = true) := fun hs =>
    ⟨closed_of_prims (reach_prims hinv.rc hs), log_grows hinv.rc hs, fun ha hc =>
      (step_acked hinv.rc hs (.inl ha)).elim (fun h => h) fun x => by rw [hc] at x; cases x⟩
  have hdl : ∀ {op : Op} {t : St}, step sc s.d op = some t → (t.closed = false → s.d.closed = false) ∧
      (∃ l, t.log = s.d.log ++ l) := fun hs => ⟨closed_of_prims (reach_prims hinv.rd hs), log_grows hinv.rd hs⟩
  cases op with
  | client op =>
    simp only [sstep] at h
    split at h
    · cases h
    · obtain ⟨t, ht, rfl⟩ := Option.map_eq_some_iff.mp h
      obtain ⟨k1, k2, k3⟩ := hcl ht
      exact ⟨k1, fun x => x, k2, ⟨[], by simp⟩, k3, Nat.le_refl _, Nat.le_refl _⟩
  | server op =>
    simp only [sstep] at h
    split at h
    · cases h
    · obtain ⟨t, ht, rfl⟩ := Option.map_eq_some_iff.mp h
      obtain ⟨k1, k2⟩ := hdl ht
      exact ⟨fun x => x, k1, ⟨[], by simp⟩, k2, fun x _ => x, Nat.le_refl _, Nat.le_refl _⟩
  | up =>
    simp only [sstep] at h
    split at h
    · cases h
    · obtain ⟨t, ht, rfl⟩ := Option.map_eq_some_iff.mp h
      obtain ⟨k1, k2⟩ := hdl ht
      exact ⟨fun x => x, k1, ⟨[], by simp⟩, k2, fun x _ => x, Nat.le_succ _, Nat.le_refl _⟩
  | down =>
    simp only [sstep] at h
    split at h
    · cases h
    · obtain ⟨t, ht, rfl⟩ := Option.map_eq_some_iff.mp h
      obtain ⟨k1, k2, k3⟩ := hcl ht
      exact ⟨k1, fun x => x, k2, ⟨[], by simp⟩, k3, Nat.le_refl _, Nat.le_succ _⟩
  | upAsk i => exact (show False from ho).elim
  | downAsk i => exact (show False from ho).elim

theorem run_back {pre ops : List SessOp} {s : Sess} (hcons : Consistent cc sc) (hnc : cc.allowNative = false)
    (hns : sc.allowNative = false) (hcl : cc.isClient = true) (hsc : sc.isClient = false) (h : ManyRun cc sc id ops s)
    (hpre : pre <+: ops) : ∃ s1, ManyRun cc sc id pre s1 ∧ (s.c.closed = false → s1.c.closed = false) ∧
      (s.d.closed = false → s1.d.closed = false) := by
  refine manyRun_induct (M := fun s => ∃ s1, ManyRun cc sc id pre s1 ∧ (s.c.closed = false → s1.c.closed = false) ∧
    (s.d.closed = false → s1.d.closed = false)) h hpre (fun s hs => ⟨s, hs, fun x => x, fun x => x⟩) ?_
  rintro ops s s' op h1 h2 h3 ⟨s1, k1, k2, k3⟩
  obtain ⟨j1, j2, _⟩ := sides (many_inv hcons hnc hns hcl hsc h1) h2 h3
  exact ⟨s1, k1, fun x => k2 (j1 x), fun x => k3 (j2 x)⟩

/-- the write gate let it pass and the socket took it -/
theorem write_took {s : St} {m : Message} (hc : (write cfg s m).1.closed = false)
    (hl : (pipe (write cfg s m).1.log).length = (pipe s.log).length + 1) :
    MayWrite cfg s m ∧ pipe (write cfg s m).1.log = pipe s.log ++ [(if m.setBinary then .binary else .text, wireOf m)] := by
  rw [write_open hc] at hl ⊢
  simp only [pipe_append, List.length_append] at hl ⊢
  unfold writeLog at hl ⊢
  by_cases hm : MayWrite cfg s m
  · rw [if_pos hm] at hl ⊢
    refine ⟨hm, ?_⟩
    cases hx : (cfg.sock s.log m.setBinary (wireOf m)).isNone with
    | true => simp [pipe]
    | false => rw [hx] at hl; simp [pipe] at hl
  · rw [if_neg hm] at hl
    simp [pipe] at hl

/-! ### Sessions in which one side stands still -/

/-- the client stands still after a point: the server only reads what it had sent by then -/
theorem freeze_client {pre ops : List SessOp} {s s1 : Sess} (hcons : Consistent cc sc) (hnc : cc.allowNative = false)
    (hns : sc.allowNative = false) (hcl : cc.isClient = true) (hsc : sc.isClient = false) (h : ManyRun cc sc id ops s)
    (hpre : pre <+: ops) (h1 : ManyRun cc sc id pre s1) :
    (∃ l, s.c.log = s1.c.log ++ l) ∧ (s.up ≤ (pipe s1.c.log).length →
      ∃ ops', ManyRun cc sc id ops' { c := s1.c, d := s.d, up := s.up, down := s1.down }) := by
  refine manyRun_induct (M := fun s => (∃ l, s.c.log = s1.c.log ++ l) ∧ (s.up ≤ (pipe s1.c.log).length →
      ∃ ops', ManyRun cc sc id ops' { c := s1.c, d := s.d, up := s.up, down := s1.down })) h hpre ?_ ?_
  · intro s hs
    cases manyRun_det h1 hs
    exact ⟨⟨[], by simp⟩, fun _ => ⟨_, h1⟩⟩
  · rintro ops s s' op k1 k2 k3 ⟨⟨l, hl⟩, ih⟩
    obtain ⟨_, _, ⟨l', hl'⟩, _, _, hup, _⟩ := sides (many_inv hcons hnc hns hcl hsc k1) k2 k3
    refine ⟨⟨l ++ l', by rw [hl', hl, List.append_assoc]⟩, fun hle => ?_⟩
    obtain ⟨ops', ih⟩ := ih (Nat.le_trans hup hle)
    cases op with
    | client op =>
      simp only [sstep] at k3
      split at k3
      · cases k3
      · obtain ⟨t, _, rfl⟩ := Option.map_eq_some_iff.mp k3
        exact ⟨ops', ih⟩
    | down =>
      simp only [sstep] at k3
      split at k3
      · cases k3
      · obtain ⟨t, _, rfl⟩ := Option.map_eq_some_iff.mp k3
        exact ⟨ops', ih⟩
    | server op =>
      simp only [sstep] at k3
      split at k3
      · cases k3
      · rename_i hnr
        obtain ⟨t, ht, rfl⟩ := Option.map_eq_some_iff.mp k3
        refine ⟨ops' ++ [.server op], ih.step ?_ (by simp only [sstep, if_neg hnr, ht]; rfl)⟩
        cases op <;> exact k2
    | up =>
      simp only [sstep] at k3
      split at k3
      · cases k3
      · rename_i ty b hb
        obtain ⟨t, ht, rfl⟩ := Option.map_eq_some_iff.mp k3
        rw [hl, pipe_append, List.getElem?_append_left hle] at hb
        exact ⟨ops' ++ [.up], .step ih (show ManyRequests _ .up from trivial) (by simp only [sstep, hb, ht]; rfl)⟩
    | upAsk i => exact (show False from k2).elim
    | downAsk i => exact (show False from k2).elim

/-- the server stands still after a point: the client only reads what it had sent by then -/
theorem freeze_server {pre ops : List SessOp} {s s1 : Sess} (hcons : Consistent cc sc) (hnc : cc.allowNative = false)
    (hns : sc.allowNative = false) (hcl : cc.isClient = true) (hsc : sc.isClient = false) (h : ManyRun cc sc id ops s)
    (hpre : pre <+: ops) (h1 : ManyRun cc sc id pre s1) :
    (∃ l, s.d.log = s1.d.log ++ l) ∧ (s.down ≤ (pipe s1.d.log).length →
      ∃ ops', ManyRun cc sc id ops' { c := s.c, d := s1.d, up := s1.up, down := s.down }) := by
  refine manyRun_induct (M := fun s => (∃ l, s.d.log = s1.d.log ++ l) ∧ (s.down ≤ (pipe s1.d.log).length →
      ∃ ops', ManyRun cc sc id ops' { c := s.c, d := s1.d, up := s1.up, down := s.down })) h hpre ?_ ?_
  · intro s hs
    cases manyRun_det h1 hs
    exact ⟨⟨[], by simp⟩, fun _ => ⟨_, h1⟩⟩
  · rintro ops s s' op k1 k2 k3 ⟨⟨l, hl⟩, ih⟩
    obtain ⟨_, _, _, ⟨l', hl'⟩, _, _, hdown⟩ := sides (many_inv hcons hnc hns hcl hsc k1) k2 k3
    refine ⟨⟨l ++ l', by rw [hl', hl, List.append_assoc]⟩, fun hle => ?_⟩
    obtain ⟨ops', ih⟩ := ih (Nat.le_trans hdown hle)
    cases op with
    | server op =>
      simp only [sstep] at k3
      split at k3
      · cases k3
      · obtain ⟨t, _, rfl⟩ := Option.map_eq_some_iff.mp k3
        exact ⟨ops', ih⟩
    | up =>
      simp only [sstep] at k3
      split at k3
      · cases k3
      · obtain ⟨t, _, rfl⟩ := Option.map_eq_some_iff.mp k3
        exact ⟨ops', ih⟩
    | client op =>
      simp only [sstep] at k3
      split at k3
      · cases k3
      · rename_i hnr
        obtain ⟨t, ht, rfl⟩ := Option.map_eq_some_iff.mp k3
        refine ⟨ops' ++ [.client op], ih.step ?_ (by simp only [sstep, if_neg hnr, ht]; rfl)⟩
        cases op <;> exact k2
    | down =>
      simp only [sstep] at k3
      split at k3
      · cases k3
      · rename_i ty b hb
        obtain ⟨t, ht, rfl⟩ := Option.map_eq_some_iff.mp k3
        rw [hl, pipe_append, List.getElem?_append_left hle] at hb
        exact ⟨ops' ++ [.down], .step ih (show ManyRequests _ .down from trivial) (by simp only [sstep, hb, ht]; rfl)⟩
    | upAsk i => exact (show False from k2).elim
    | downAsk i => exact (show False from k2).elim

/-! ### Calls about a namespace -/

theorem Many.about_ns {P : Past} {c d : St} {pu pd : List (MsgType × Bytes)} {A : List Pend} {B : List (Pend × Option GoErr)}
    {X : List (Pend × Option GoErr × Option Message)} {n : Bytes} {a : AskRec} (h : Many P sc known c d pu pd A B X)
    (ha : a ∈ c.asks) (hd : a.done = false) (hk : about a.cont = some (n, none)) :
    (InNs c n ∧ ∃ obj msg, a.cont = .disconnect obj msg ∧ msg.ns = n) ∨ (¬ InNs c n ∧ ∃ obj, a.cont = .connect n obj) := by
  obtain ⟨j, hj⟩ := List.getElem?_of_mem ha
  obtain ⟨p, hp, rfl⟩ := h.cover j a hj hd
  obtain ⟨box, hb⟩ := h.askOf hp
  have hka : a.cont = p.k := by
    unfold AskIs at hb
    rw [hj] at hb
    cases hb
    rfl
  have hra := h.ready p hp
  rw [hka] at hk ⊢
  cases hq : p.req with
  | none => rw [(hra.ask hq).1] at hk; cases hk
  | some q =>
    obtain ⟨_, hw, hab, _⟩ := hra.req q hq
    rw [hk] at hab
    cases q with
    | connect ns =>
      obtain ⟨obj, h1, h2, _⟩ := hw
      cases hab
      exact .inr ⟨fun x => x h2, obj, h1⟩
    | disconnect ns =>
      obtain ⟨obj, msg, h1, h2, h3⟩ := hw
      cases hab
      exact .inl ⟨(by unfold InNs; rw [h3]; simp), obj, msg, h1, h2⟩
    | join ns room => cases hab
    | leave ns room => cases hab

theorem fresh_many {P : Past} {c d : St} {pu pd : List (MsgType × Bytes)} {n : Bytes} (h : MPhase P sc known c d pu pd)
    (hn : InNs c n ∨ InNs d n) : ∃ A B X, Many P sc known c d pu pd A B X := by
  rcases h with ⟨hf, x, _⟩ | x
  · have hag := phase_agree x (fun a ha => by rw [hf.asks] at ha; cases ha)
    have : InNs c n := hn.elim (fun h => h) (hag.1 n).mpr
    unfold InNs St.namespace at this
    rw [hf.connected] at this
    exact absurd rfl this
  · exact x

/-! ### The message that a reader holds back -/

/-- the reader of the client starts to hold a message back only when it reads one -/
theorem cli_rd {t : St} {op : Op} {s : Sess} {P : Past} {d : St} {pu pd : List (MsgType × Bytes)} {A : List Pend}
    {B : List (Pend × Option GoErr)} {X : List (Pend × Option GoErr × Option Message)} (hcons : Consistent cc sc)
    (hn : cc.allowNative = false) (hcl : cc.isClient = true)
    (ho : ManyRequests s (.client op)) (h : Many P sc known s.c d pu pd A B X) (hs : step cc s.c op = some t)
    (hc : t.closed = false) : t.rd = s.c.rd ∨ t.rd = .idle := by
  have hcb : CbCalm cc := hcons.client
  have hon : cc.onlyNative = false := by simp [Cfg.onlyNative, hn]
  have hexit : ∀ s : St, (readerExit cc s).closed = true := fun s => closeConn_closed s
  have called : ∀ {x tok}, Called x tok s.c t → t.rd = s.c.rd ∨ t.rd = .idle := by
    rintro x tok (⟨l, k, _⟩ | ⟨q, k, _, _, _, _, l, l1, k', _⟩)
    · exact .inl k.rd
    · exact .inl k'.rd
  cases op with
  | sendAck => exact absurd ho h.cli.log
  | write m =>
    obtain ⟨ho1, ho2⟩ : s.c.ready = some none ∧ AppMsg m := ho
    obtain ⟨he, _⟩ := step_exec hs
    simp only [exec] at he
    cases he
    obtain ⟨l, ⟨r, e⟩, _⟩ := app_write ho2 hc
    exact .inl (by rw [e])
  | connect ns now ex =>
    obtain ⟨ho1, ho2, ho3⟩ : MayAsk s.c now ∧ Unclaimed s.c (ns, none) ∧ SafeName ns := ho
    exact called (cli_connect hcl hon hcb ho1.2.1 ho3 hs hc)
  | disconnect obj now ex =>
    obtain ⟨ho1, ho2, ho3⟩ : MayAsk s.c now ∧ Unclaimed s.c (s.c.nsName obj, none) ∧ SafeName (s.c.nsName obj) := ho
    exact called (cli_disconnect hcl hon ho1.2.1 ho3 hs hc)
  | join obj room now ex =>
    obtain ⟨ho1, ho2, ho3, ho4, ho5⟩ : MayAsk s.c now ∧ Unclaimed s.c (s.c.nsName obj, some room) ∧ linked s.c obj = true ∧
      SafeName (s.c.nsName obj) ∧ SafeName room := ho
    exact called (cli_join hcl hon ho1.2.1 ho3 ho4 ho5 hs hc)
  | leave obj room now ex =>
    obtain ⟨ho1, ho2, ho3, ho4, ho5⟩ : MayAsk s.c now ∧ Unclaimed s.c (s.c.nsName obj, some room) ∧ linked s.c obj = true ∧
      SafeName (s.c.nsName obj) ∧ SafeName room := ho
    exact called (cli_leave hcl hon ho1.2.1 ho3 ho4 ho5 hs hc)
  | ask m now ex =>
    obtain ⟨ho1, ho2⟩ : MayAsk s.c now ∧ AskMsg m := ho
    obtain ⟨he, _⟩ := step_exec hs
    simp only [exec] at he
    cases he
    rcases startAsk_cli hon ho1.2.1 hc with ⟨l, k, _⟩ | ⟨l, l1, k, _⟩
    · exact .inl k.rd
    · exact .inl k.rd
  | resume i =>
    obtain ⟨a, ha, m, hb⟩ : ∃ a, s.c.asks[i]? = some a ∧ ∃ m, a.box = some m := by
      obtain ⟨he, _⟩ := step_exec hs
      simp only [exec, resume] at he
      split at he
      · cases he
      · rename_i a ha
        split at he
        · cases he
        · split at he
          · cases he
          · rename_i _ m hb
            exact ⟨a, ha, m, hb⟩
    obtain ⟨e, _⟩ := step_resume ha hb hs
    have hra := (rdAsk_finish (cfg := cc) (resumed s.c i a) a.cont m m.err).rd
    rw [← e] at hra
    left
    rw [hra]
    unfold resumed forget endAsk takeAnswer
    rcases h.cli.rd with x | ⟨m, _, x⟩ <;> rw [x] <;> dsimp only <;> split <;> simp [x]
  | close =>
    obtain ⟨he, _⟩ := step_exec hs
    simp only [exec] at he
    cases he
    rw [closeConn_closed] at hc
    cases hc
  | readErr e =>
    obtain ⟨he, _⟩ := step_exec hs
    simp only [exec] at he
    split at he
    · cases he
      rw [hexit] at hc
      cases hc
    · cases he
  | wake =>
    obtain ⟨he, _⟩ := step_exec hs
    simp only [exec, wakeReader] at he
    rcases h.cli.rd with x | ⟨m, hm, x⟩
    · rw [x] at he; cases he
    · simp only [x] at he
      split at he
      · have hrd := rd_afterGate (cfg := cc) { s.c with rd := .idle } m
        have h1 : (afterGate cc { s.c with rd := .idle } m).rd = .idle := hrd.rd
        have h2 : (afterGate cc { s.c with rd := .idle } m).todo = [] := hrd.todo.trans h.cli.todo
        have h3 : (afterGate cc { s.c with rd := .idle } m).ackAfter = false := hrd.ackAfter.trans h.cli.ackAfter
        rw [if_pos h1, h2, drain_nil _ h2 h3] at he
        cases he
        exact .inr h1
      · cases he
  | recv => exact ho.elim
  | contReader => exact ho.elim
  | cancel => exact ho.elim
  | steal => exact ho.elim
  | stealErr => exact ho.elim
  | ready => exact ho.elim
  | srvAsk => exact ho.elim
  | srvUnask => exact ho.elim

/-- what the reader of the client holds back is the last payload that it read -/
theorem held_last {ops : List SessOp} {s : Sess} (hcons : Consistent cc sc) (hnc : cc.allowNative = false)
    (hns : sc.allowNative = false) (hcl : cc.isClient = true) (hsc : sc.isClient = false) (h : ManyRun cc sc id ops s) :
    s.c.closed = false → s.d.closed = false → ∀ M, s.c.rd = .gate M → ∃ k x, s.down = k + 1 ∧
      (pipe s.d.log)[k]? = some x ∧ M = deserializeMessage cc.known x.1 x.2 false false ∧ M.event ≠ OnNamespaceConnect ∧
      M.event ≠ OnNamespaceDisconnect := by
  have honc : cc.onlyNative = false := by simp [Cfg.onlyNative, hnc]
  induction h with
  | init =>
    intro _ _ M hM
    simp only [newSess, newConn_eq honc] at hM
    cases hM
  | @step ops s s' op hrun ho hstep ih =>
    intro hc hd M hM
    have hinv := many_inv hcons hnc hns hcl hsc hrun
    obtain ⟨j1, j2, _, ⟨l, hl⟩, _⟩ := sides hinv ho hstep
    have ih := ih (j1 hc) (j2 hd)
    have back : s.c.rd = .gate M → s'.down = s.down → ∃ k x, s'.down = k + 1 ∧
        (pipe s'.d.log)[k]? = some x ∧ M = deserializeMessage cc.known x.1 x.2 false false ∧ M.event ≠ OnNamespaceConnect ∧
          M.event ≠ OnNamespaceDisconnect := by
      intro hM hdn
      obtain ⟨k, x, h1, h2, h3⟩ := ih M hM
      refine ⟨k, x, hdn.trans h1, ?_, h3⟩
      rw [hl, pipe_append, List.getElem?_append_left (List.getElem?_eq_some_iff.mp h2).1]
      exact h2
    have hph : MPhase (pastOf cc sc id ops) sc cc.known s.c s.d ((pipe s.c.log).drop s.up) ((pipe s.d.log).drop s.down) := by
      rcases hinv.phase with x | x | x
      · rw [j1 hc] at x; cases x
      · rw [j2 hd] at x; cases x
      · exact x
    cases op with
    | client op =>
      simp only [sstep] at hstep
      split at hstep
      · cases hstep
      · obtain ⟨t, ht, rfl⟩ := Option.map_eq_some_iff.mp hstep
        rcases hph with ⟨hf, x, hea⟩ | ⟨A, B, X, x⟩
        · have ho' := fresh_rules hf ho
          obtain ⟨l', hl', hp⟩ := phase_cli hcons hnc hcl hinv.rc ho' x ht hc
          have := (hp.fresh (fresh_stays honc hf ho' ht hc)).rd
          rw [show t.rd = _ from hM] at this
          cases this
        · rcases cli_rd hcons hnc hcl ho x ht hc with y | y
          · exact back (y.symm.trans hM) rfl
          · rw [show t.rd = _ from hM] at y; cases y
    | server op =>
      simp only [sstep] at hstep
      split at hstep
      · cases hstep
      · obtain ⟨t, ht, rfl⟩ := Option.map_eq_some_iff.mp hstep
        exact back hM rfl
    | up =>
      simp only [sstep] at hstep
      split at hstep
      · cases hstep
      · obtain ⟨t, ht, rfl⟩ := Option.map_eq_some_iff.mp hstep
        exact back hM rfl
    | down =>
      simp only [sstep] at hstep
      split at hstep
      · cases hstep
      · rename_i ty b hb
        obtain ⟨t, ht, rfl⟩ := Option.map_eq_some_iff.mp hstep
        refine ⟨s.down, (ty, b), rfl, hb, ?_⟩
        have hlt : s.down < (pipe s.d.log).length := (List.getElem?_eq_some_iff.mp hb).1
        rw [List.drop_eq_getElem_cons hlt, (List.getElem?_eq_some_iff.mp hb).2] at hph
        obtain ⟨he, _⟩ := step_exec ht
        simp only [exec] at he
        split at he
        · rename_i hidle
          rcases hph with ⟨hf, x, hea⟩ | ⟨A, B, X, x⟩
          · obtain ⟨_, y⟩ := fresh_down (P := pastOf cc sc id ops) hf x hea ht
            cases he
            exfalso
            have hrd : ∀ u : St, u = recv cc s.c ty b → u.rd ≠ .gate M := by
              rintro u rfl
              unfold recv handleACK
              split
              · rw [hf.rd]; simp
              · rw [if_neg (by simp [hf.acked])]
                split
                · rw [hf.rd]; simp
                · split
                  · rw [hf.ready]; simp
                  · split
                    · rw [(rd_signalReady _ _).rd]; dsimp only; rw [hf.rd]; simp
                    · split
                      · simp [readerExit]
                      · split <;> (dsimp only; rw [hf.rd]; simp)
            exact hrd _ rfl hM
          · by_cases hp : CalmP (ty, b)
            · cases he
              rcases calm_recv hcons.client hnc hp x.cli.acked hc with ⟨l, ⟨r, e⟩, _⟩ | ⟨m, _, _, e, hm, hm2⟩
              · dsimp only at hM
                rw [e] at hM
                rw [show s.c.rd = _ from hM] at hidle
                cases hidle.1
              · dsimp only at hM
                rw [e] at hM
                cases hM
                exact ⟨hm, hm2⟩
            · obtain ⟨⟨a, r⟩, B', rfl, ha, _⟩ := x.down.head hp
              have hra := x.ready a (by simp [calls])
              have e := recv_box hcl hnc x.cli hra.tok (x.atB _ (List.mem_cons_self ..)) hra.waiting ha.1 ht
              subst e
              rw [show s.c.rd = _ from hM] at hidle
              cases hidle.1
        · cases he
    | upAsk i => exact (show False from ho).elim
    | downAsk i => exact (show False from ho).elim

end Neffos
