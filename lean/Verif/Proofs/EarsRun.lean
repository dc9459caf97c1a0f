import Verif.Proofs.EarsBoth
/-!
Helper lemmas for the absence of deadlocks when both sides call: whole sessions.
-/
set_option autoImplicit false
namespace Neffos
open Neffos.Spec

variable {cfg x y cc sc : Cfg} {id : Bytes} {known : List KnownErr} {s s' t : St} {n : Bytes}
  {cl : Bool} {A : List Pend} {B : List (Pend × Option GoErr)} {X Y : List (Pend × Option GoErr × Option Message)}
  {po pi l pu pd : List (MsgType × Bytes)} {O I : List Cargo}

/-- no event among these payloads -/
def NoEvents (x : Cfg) (pi : List (MsgType × Bytes)) : Prop := ∀ p ∈ pi, CalmP p → ∀ n, ¬ Talks x.known p n

theorem inNs_empty (h : s.connected = []) : ¬ InNs s n := by
  intro k
  exact k (by unfold St.namespace; rw [h]; rfl)

theorem ears_fresh (h : s.connected = []) (hr : ∀ M, s.rd ≠ .gate M) (hp : NoEvents x pi) : Ears x s pi :=
  ⟨fun _ k => absurd k (inNs_empty h), fun l1 m l2 e hm n hn => absurd hn (hp m (by rw [e]; simp) hm n), fun M hM => absurd hM (hr M)⟩

theorem Ears.noEvents (h : Ears x s pi) (hc : s.connected = []) (ha : s.asks = []) : NoEvents x pi := by
  intro p hp hm n hn
  obtain ⟨l1, l2, e⟩ := List.append_of_mem hp
  rcases h.hear l1 p l2 e hm n hn with ⟨a, k, _⟩ | k
  · rw [ha] at k; cases k
  · exact inNs_empty hc k.inNs

theorem CliFresh.ears {c : St} (h : CliFresh c) (hp : NoEvents x pi) : Ears x c pi :=
  ears_fresh h.connected (fun M e => by rw [h.rd] at e; cases e) hp

theorem NoEvents.append {pj : List (MsgType × Bytes)} (h1 : NoEvents x pi) (h2 : NoEvents x pj) : NoEvents x (pi ++ pj) := by
  intro p hp
  rcases List.mem_append.mp hp with hp | hp
  · exact h1 p hp
  · exact h2 p hp

theorem NoEvents.nil : NoEvents x [] := by
  intro p hp
  cases hp

theorem noEvents_other {b : UInt8} {r : Bytes} (hb : b ≠ 59) : NoEvents x [(.text, b :: r)] := by
  intro p hp hm
  rw [List.mem_singleton.mp hp] at hm
  obtain ⟨t, e⟩ := hm
  exact absurd (List.cons.inj e).1 hb

theorem ackReady_ears {d : St} {r : Option GoErr} (hd : SrvFresh d) (hc : (ackReady sc d r).closed = false) : Ears sc (ackReady sc d r) [] := by
  obtain ⟨_, h1, h2, _⟩ := ackReady_phase hd hc
  exact ears_fresh h2 (fun M e => by rw [h1.rd] at e; cases e) .nil

theorem ears_cli {u : Sess} {op : Op} (hst : StillSide cc) (hcons : BothConsistent cc sc) (hn : cc.allowNative = false)
    (hcl : cc.isClient = true) (hsc : sc.isClient = false) (hr : Reach cc id u.c) (ho : RuledRequests u (.client op))
    (h : BPhase cc sc u.c u.d pu pd) (hec : Ears cc u.c pd) (hed : Ears sc u.d pu)
    (hs : step cc u.c op = some t) (hc : t.closed = false) :
    ∃ l, t.log = u.c.log ++ l ∧ Ears cc t pd ∧ Ears sc u.d (pu ++ pipe l) := by
  have fresh : CliFresh u.c → ∃ l, t.log = u.c.log ++ l ∧ Ears cc t pd ∧ Ears sc u.d (pu ++ pipe l) := by
    intro hf
    obtain ⟨_, k2, k3⟩ := cli_fresh hn ho.1 hf hs hc
    refine ⟨_, k3, k2.ears (hec.noEvents hf.connected hf.asks), hed.loud fun p hp hm => ?_⟩
    rw [List.mem_singleton.mp hp] at hm
    obtain ⟨r, e⟩ := hm
    cases e
  cases h with
  | greet h1 => exact fresh h1
  | held h1 => exact fresh h1
  | acked b l1 l2 O I X Y h1 => exact fresh h1
  | live O I X Y h1 h2 =>
    have hne : op ≠ .sendAck := by
      rintro rfl
      exact absurd ho.1 h1
    refine ears_step hst hcons hn (by rw [hcl, hsc]; rfl) hr (cli_side hcl ho.1 hne) ?_ h2 hec hed hs hc
    cases op with
    | write m => exact ho.2
    | _ => trivial

theorem ears_srv {u : Sess} {op : Op} (hst : StillSide sc) (hcons : BothConsistent cc sc) (hn : sc.allowNative = false)
    (hcl : cc.isClient = true) (hsc : sc.isClient = false) (hr : Reach sc id u.d) (ho : RuledRequests u (.server op))
    (h : BPhase cc sc u.c u.d pu pd) (hec : Ears cc u.c pd) (hed : Ears sc u.d pu)
    (hs : step sc u.d op = some t) (hc : t.closed = false) :
    ∃ l, t.log = u.d.log ++ l ∧ Ears sc t pu ∧ Ears cc u.c (pd ++ pipe l) := by
  have hru : Ruled u.d op := by
    cases op with
    | write m => exact ho.2
    | _ => trivial
  have fresh : CliFresh u.c → SrvFresh u.d → ∀ {l}, Same u.d l t → (l = [] ∨ ∃ m, op = .write m) →
      Ears sc t pu ∧ Ears cc u.c (pd ++ pipe l) := by
    intro hf hfd l k1 k2
    refine ⟨hed.same k1.asks (fun n => by unfold InNs; rw [k1.kept.ns]) (.inl k1.kept.rd), ?_⟩
    rcases k2 with rfl | ⟨m, rfl⟩
    · simpa [pipe] using hec
    · obtain ⟨l', k3, k4⟩ := write_loads ho.1 hed.safe hs hc
      have e : l' = l := List.append_cancel_left (k3.log.symm.trans k1.log)
      subst e
      refine hf.ears ((hec.noEvents hf.connected hf.asks).append fun p hp _ n hn => ?_)
      rcases k4 with k4 | ⟨p', k4, k5⟩
      · rw [k4] at hp; cases hp
      · rw [k4] at hp
        rw [List.mem_singleton.mp hp] at hn
        exact inNs_empty hfd.connected (k5 _ _ hn).2
  cases h with
  | greet h1 h2 h3 h4 h5 h6 =>
    rcases srv_fresh hsc ho.1 h2 h3 (.inl h4) hs hc with ⟨_, k, _⟩ | ⟨l, k1, _, k2⟩
    · rw [h4] at k; cases k
    · exact ⟨l, k1.log, fresh h1 h2 k1 k2⟩
  | held h1 h2 h3 h4 h5 h6 h7 =>
    rcases srv_fresh hsc ho.1 h2 h3 (.inr h4) hs hc with ⟨_, _, r, rfl⟩ | ⟨l, k1, _, k2⟩
    · obtain ⟨_, _, _, k4⟩ := ackReady_phase h2 hc
      subst h6
      exact ⟨_, k4, ackReady_ears h2 hc, h1.ears ((hec.noEvents h1.connected h1.asks).append (noEvents_other (by decide)))⟩
    · exact ⟨l, k1.log, fresh h1 h2 k1 k2⟩
  | acked b l1 l2 O I X Y h1 h2 h3 h4 h5 h6 =>
    have hsil := hec.noEvents h1.connected h1.asks
    have hec' : Ears cc { u.c with acked := true } l2 := by
      refine ears_fresh h1.connected (fun M e => ?_) fun p hp => hsil p (by rw [h4]; simp [hp])
      rw [show ({ u.c with acked := true } : St).rd = u.c.rd from rfl, h1.rd] at e
      cases e
    rw [h3] at hed ⊢
    obtain ⟨l, k1, k2, k3⟩ := ears_step hst hcons.symm hn (t := { u.c with acked := true }) (by rw [hcl, hsc]; rfl) hr
      (srv_side hsc ho.1 h6.okT.acked) hru h6.symm hed hec' hs hc
    refine ⟨l, k1, k2, h1.ears (hsil.append fun p hp => ?_)⟩
    exact k3.noEvents h1.connected h1.asks p (List.mem_append_right _ hp)
  | live O I X Y h1 h2 =>
    exact ears_step hst hcons.symm hn (by rw [hcl, hsc]; rfl) hr (srv_side hsc ho.1 h2.okT.acked) hru h2.symm hed hec hs hc

theorem ears_up {c d : St} {p : MsgType × Bytes} {rest : List (MsgType × Bytes)} (hst : StillSide sc) (hcons : BothConsistent cc sc)
    (hn : sc.allowNative = false) (hcl : cc.isClient = true) (hsc : sc.isClient = false) (hsw : d.srvWaiting = [])
    (hr : Reach sc id d) (h : BPhase cc sc c d (p :: rest) pd) (hec : Ears cc c pd) (hed : Ears sc d (p :: rest))
    (hs : step sc d (.recv p.1 p.2) = some t) (hc : t.closed = false) :
    ∃ l, t.log = d.log ++ l ∧ Ears sc t rest ∧ Ears cc c (pd ++ pipe l) := by
  cases h with
  | greet h1 h2 h3 h4 h5 h6 =>
    rcases h5 with ⟨_, h5⟩ | ⟨h5, h7⟩
    · cases h5
    · cases h7
      have hr2 := closed_of_prims (reach_prims hr hs) hc
      have e := (recv_idle hs).2
      rw [recv_ack_M hr2 h2.acked] at e
      cases hrd : d.ready with
      | none =>
        rw [hrd] at e
        refine ⟨[], by rw [e]; simp, ?_, by simpa [pipe] using hec⟩
        rw [e]
        exact ears_fresh h2.connected (fun M k => by cases k) .nil
      | some r =>
        rw [hrd] at e
        dsimp only at e
        subst e
        obtain ⟨_, _, _, k4⟩ := ackReady_phase h2 hc
        exact ⟨_, k4, ackReady_ears h2 hc, h1.ears ((hec.noEvents h1.connected h1.asks).append (noEvents_other (by decide)))⟩
  | held h1 h2 h3 h4 h5 h6 => cases h6
  | acked b l1 l2 O I X Y h1 h2 h3 => cases h3
  | live O I X Y h1 h2 =>
    exact ears_recv hst hcons.symm hn (by rw [hcl, hsc]; rfl) (.inr hsw) hr h2.symm hed hec hs hc

theorem ears_down {c d : St} {p : MsgType × Bytes} {rest : List (MsgType × Bytes)} (hst : StillSide cc) (hcons : BothConsistent cc sc)
    (hn : cc.allowNative = false) (hcl : cc.isClient = true) (hsc : sc.isClient = false)
    (hr : Reach cc id c) (h : BPhase cc sc c d pu (p :: rest)) (hec : Ears cc c (p :: rest)) (hed : Ears sc d pu)
    (hs : step cc c (.recv p.1 p.2) = some t) (hc : t.closed = false) :
    ∃ l, t.log = c.log ++ l ∧ Ears cc t rest ∧ Ears sc d (pu ++ pipe l) := by
  have fresh : CliFresh c → CalmP p → ∃ l, t.log = c.log ++ l ∧ Ears cc t rest ∧ Ears sc d (pu ++ pipe l) := by
    intro hf hp
    obtain ⟨k1, k2⟩ := calm_recv_fresh hp hf hs
    refine ⟨[], by rw [k2]; simp, k1.ears fun z hz => ?_, by simpa [pipe] using hed⟩
    exact hec.noEvents hf.connected hf.asks z (List.mem_cons_of_mem _ hz)
  cases h with
  | greet h1 h2 h3 h4 h5 h6 => exact fresh h1 (h6 p (List.mem_cons_self ..))
  | held h1 h2 h3 h4 h5 h6 h7 => exact fresh h1 (h7 p (List.mem_cons_self ..))
  | acked b l1 l2 O I X Y h1 h2 h3 h4 h5 h6 =>
    cases l1 with
    | cons y l1 =>
      simp only [List.cons_append, List.cons.injEq] at h4
      obtain ⟨rfl, rfl⟩ := h4
      exact fresh h1 (h5 p (List.mem_cons_self ..))
    | nil =>
      simp only [List.nil_append, List.cons.injEq] at h4
      obtain ⟨rfl, rfl⟩ := h4
      have k := recv_acked_kept h1 hs
      have hsil := hec.noEvents h1.connected h1.asks
      have hrd : t.rd = .idle := by
        rw [(recv_idle hs).2]
        unfold recv handleACK
        rw [if_neg (by simp), if_neg (by simp [h1.acked])]
        simp only [show ((65 : UInt8) = 77) = False by decide, if_false, if_true, St.signalReady, h1.ready]
        exact h1.rd
      refine ⟨[], by rw [k.log], ⟨fun n hn' => ?_, fun l1 m l2 e hm n hn' => ?_, fun M hM => by rw [hrd] at hM; cases hM⟩, by simpa [pipe] using hed⟩
      · unfold InNs at hn'
        rw [k.ns] at hn'
        exact absurd hn' (inNs_empty (s := { c with acked := true }) h1.connected)
      · exact absurd hn' (hsil m (by rw [e]; simp) hm n)
  | live O I X Y h1 h2 =>
    exact ears_recv hst hcons hn (by rw [hcl, hsc]; rfl) (.inl hcl) hr h2 hec hed hs hc

theorem ruled_both {ops : List SessOp} {s : Sess} (h : RuledRun cc sc id ops s) : BothRun cc sc id ops s := by
  induction h with
  | init => exact .init
  | step _ ho hs ih => exact .step ih ho.1 hs

theorem ears_inv {ops : List SessOp} {s : Sess} (hcons : BothConsistent cc sc) (hnc : cc.allowNative = false)
    (hns : sc.allowNative = false) (hcl : cc.isClient = true) (hsc : sc.isClient = false) (hstc : StillSide cc) (hsts : StillSide sc)
    (h : RuledRun cc sc id ops s) : s.c.closed = true ∨ s.d.closed = true ∨
      (Ears cc s.c ((pipe s.d.log).drop s.down) ∧ Ears sc s.d ((pipe s.c.log).drop s.up)) := by
  have honc : cc.onlyNative = false := by simp [Cfg.onlyNative, hnc]
  have hons : sc.onlyNative = false := by simp [Cfg.onlyNative, hns]
  induction h with
  | init =>
    refine .inr (.inr ?_)
    simp only [newSess, newConn_eq honc, newConn_eq hons]
    exact ⟨ears_fresh rfl (fun M e => by cases e) .nil, ears_fresh rfl (fun M e => by cases e) .nil⟩
  | @step ops s s' op hrun ho hstep ih =>
    have hinv := both_inv hcons hnc hns hcl hsc (ruled_both hrun)
    have drop_app : ∀ {a b : List (MsgType × Bytes)} {n : Nat}, n ≤ a.length → (a ++ b).drop n = a.drop n ++ b :=
      fun {a b n} hn => by rw [List.drop_append, Nat.sub_eq_zero_of_le hn]; rfl
    cases op with
    | client op =>
      simp only [sstep] at hstep
      split at hstep
      · cases hstep
      · obtain ⟨t, ht, rfl⟩ := Option.map_eq_some_iff.mp hstep
        cases hc : t.closed with
        | true => exact .inl rfl
        | false =>
          have hc0 := closed_of_prims (reach_prims hinv.rc ht) hc
          rcases ih with k | k | ⟨k1, k2⟩
          · rw [hc0] at k; cases k
          · exact .inr (.inl k)
          · rcases hinv.phase with x | x | x
            · rw [hc0] at x; cases x
            · exact .inr (.inl x)
            · obtain ⟨l, hl, hp⟩ := ears_cli hstc hcons hnc hcl hsc hinv.rc ho x k1 k2 ht hc
              refine .inr (.inr ?_)
              simp only [hl, pipe_append, drop_app hinv.up]
              exact hp
    | server op =>
      simp only [sstep] at hstep
      split at hstep
      · cases hstep
      · obtain ⟨t, ht, rfl⟩ := Option.map_eq_some_iff.mp hstep
        cases hc : t.closed with
        | true => exact .inr (.inl rfl)
        | false =>
          have hc0 := closed_of_prims (reach_prims hinv.rd ht) hc
          rcases ih with k | k | ⟨k1, k2⟩
          · exact .inl k
          · rw [hc0] at k; cases k
          · rcases hinv.phase with x | x | x
            · exact .inl x
            · rw [hc0] at x; cases x
            · obtain ⟨l, hl, hp⟩ := ears_srv hsts hcons hns hcl hsc hinv.rd ho x k1 k2 ht hc
              refine .inr (.inr ?_)
              simp only [hl, pipe_append, drop_app hinv.down]
              exact hp.symm
    | up =>
      simp only [sstep] at hstep
      split at hstep
      · cases hstep
      · rename_i ty b hb
        obtain ⟨t, ht, rfl⟩ := Option.map_eq_some_iff.mp hstep
        have hlt : s.up < (pipe s.c.log).length := (List.getElem?_eq_some_iff.mp hb).1
        cases hc : t.closed with
        | true => exact .inr (.inl rfl)
        | false =>
          have hc0 := closed_of_prims (reach_prims hinv.rd ht) hc
          rcases ih with k | k | ⟨k1, k2⟩
          · exact .inl k
          · rw [hc0] at k; cases k
          · rcases hinv.phase with x | x | x
            · exact .inl x
            · rw [hc0] at x; cases x
            · rw [List.drop_eq_getElem_cons hlt, (List.getElem?_eq_some_iff.mp hb).2] at x k2
              obtain ⟨l, hl, hp⟩ := ears_up hsts hcons hns hcl hsc hinv.srv hinv.rd x k1 k2 ht hc
              refine .inr (.inr ?_)
              simp only [hl, pipe_append, drop_app hinv.down]
              exact hp.symm
    | down =>
      simp only [sstep] at hstep
      split at hstep
      · cases hstep
      · rename_i ty b hb
        obtain ⟨t, ht, rfl⟩ := Option.map_eq_some_iff.mp hstep
        have hlt : s.down < (pipe s.d.log).length := (List.getElem?_eq_some_iff.mp hb).1
        cases hc : t.closed with
        | true => exact .inl rfl
        | false =>
          have hc0 := closed_of_prims (reach_prims hinv.rc ht) hc
          rcases ih with k | k | ⟨k1, k2⟩
          · rw [hc0] at k; cases k
          · exact .inr (.inl k)
          · rcases hinv.phase with x | x | x
            · rw [hc0] at x; cases x
            · exact .inr (.inl x)
            · rw [List.drop_eq_getElem_cons hlt, (List.getElem?_eq_some_iff.mp hb).2] at x k1
              obtain ⟨l, hl, hp⟩ := ears_down hstc hcons hnc hcl hsc hinv.rc x k1 k2 ht hc
              refine .inr (.inr ?_)
              simp only [hl, pipe_append, drop_app hinv.up]
              exact hp
    | upAsk i => exact (show False from ho.1).elim
    | downAsk i => exact (show False from ho.1).elim

/-! ### What is left to do -/

theorem cost_calm {p : MsgType × Bytes} (h : (decP x p).wait = []) : cost x p = 2 := by
  unfold cost
  rw [show (deserializeMessage x.known p.1 p.2 false false).wait = [] from h]

theorem cost_own {p : MsgType × Bytes} (h : SideTok x.isClient (decP x p).wait) : cost x p = 2 := by
  unfold cost
  revert h
  show SideTok x.isClient (deserializeMessage x.known p.1 p.2 false false).wait → _
  generalize (deserializeMessage x.known p.1 p.2 false false).wait = w
  intro h
  cases w with
  | nil => rfl
  | cons c w =>
    have e : (c = 36) = (x.isClient = true) := propext ⟨fun e => h.side.mpr ⟨w, by rw [e]⟩, fun e => by
      obtain ⟨t, ht⟩ := h.side.mp e; exact (List.cons.inj ht).1⟩
    exact if_pos e

theorem cost_other {p : MsgType × Bytes} (h : SideTok (!x.isClient) (decP x p).wait) : cost x p = 4 := by
  unfold cost
  revert h
  show SideTok (!x.isClient) (deserializeMessage x.known p.1 p.2 false false).wait → _
  generalize (deserializeMessage x.known p.1 p.2 false false).wait = w
  intro h
  cases w with
  | nil => exact absurd rfl h.is.2
  | cons c w =>
    refine if_neg fun e => ?_
    have k : c = 36 ↔ (!x.isClient) = true := ⟨fun e => h.side.mpr ⟨w, by rw [e]⟩, fun e => by
      obtain ⟨t, ht⟩ := h.side.mp e; exact (List.cons.inj ht).1⟩
    have k' : c = 36 ↔ x.isClient = true := iff_of_eq e
    cases hx : x.isClient <;> rw [hx] at k k' <;> simp at k k' <;> first | exact absurd k' k | exact absurd k k'

theorem owed_idle (h : s.rd = .idle) : owed s = s.asks.countP (fun a => !a.done) := by
  unfold owed; rw [if_pos h]; omega

/-- a side that reads has less to do than before -/
theorem recv_owed {p : MsgType × Bytes} {rest : List (MsgType × Bytes)} (hst : StillSide x) (hcons : BothConsistent x y) (hn : x.allowNative = false)
    (hxy : y.isClient = !x.isClient) (hsw : x.isClient = true ∨ s.srvWaiting = []) (hr : Reach x id s) (hcl : s.closed = false)
    (h : Both x y s t po (p :: rest) O I X Y) (hes : Ears x s (p :: rest)) (het : Ears y t po)
    (hs : step x s (.recv p.1 p.2) = some s') :
    s'.closed = false ∧ ∃ l, s'.log = s.log ++ l ∧ ((pipe l).map (cost y)).sum + owed s' + 1 ≤ cost x p + owed s := by
  have hon : x.onlyNative = false := by simp [Cfg.onlyNative, hn]
  obtain ⟨hidle, he⟩ := recv_idle hs
  have hw := wires_recv hst.cbs hst.takes hon h.okS.acked p.1 p.2
  rw [← he] at hw
  have hc : s'.closed = false := hw.closed.trans hcl
  refine ⟨hc, ?_⟩
  obtain ⟨l0, hl0⟩ := log_grows hr hs
  by_cases hp : CalmP p
  · obtain ⟨hw, hask⟩ := wires_calm hst.cbs hst.nil hn h.okS.acked hp
    rw [← he] at hw hask
    refine ⟨l0, hl0, ?_⟩
    rw [hw.nothing hl0, cost_calm (calm_wait hp), owed_idle hidle]
    unfold owed
    rw [hask]
    simp only [List.map_nil, List.sum_nil]
    split <;> omega
  · obtain ⟨it, I', rfl, hit, hin⟩ := h.inn.head hp
    cases it with
    | req a =>
      cases (show p = a.load from hit)
      obtain ⟨l, h1, _, _, p', r, h4, h5, h6, h7, h8, h9⟩ := ears_request hst hcons hn hxy hr h hes het hs hc
      refine ⟨l, h1, ?_⟩
      rw [h4]
      have e1 : cost x a.load = 4 := cost_other (by rw [h9]; exact h7)
      have e2 : cost y p' = 2 := cost_own (by rw [show (decP y p').wait = a.tok from h8.wait, hxy]; exact h7)
      have e3 : owed s' = owed s := by unfold owed; rw [h5, h6]
      simp only [List.map_cons, List.map_nil, List.sum_cons, List.sum_nil, e1, e2, e3]
      omega
    | rep a r =>
      obtain ⟨hat, e⟩ := answer_state hn hsw h hit hs
      refine ⟨[], by rw [e]; simp, ?_⟩
      have hmem : (a, r) ∈ repsOf (.rep a r :: I') := List.mem_cons_self ..
      have htok := (h.mine.ready a (List.mem_append_right _ (List.mem_append_left _ (List.mem_map_of_mem (f := Prod.fst) hmem)))).tok
      have hrep : Reply x.known a.tok r p := hit
      have e1 : cost x p = 2 := cost_own (by rw [show (decP x p).wait = a.tok from hrep.wait]; exact htok)
      have e2 : owed s' = owed s := by
        have := count_set (fun a : AskRec => !a.done) ⟨a.tok, a.k, .table, some (decP x p), false⟩ hat
        simp only [Bool.not_false, Bool.toNat_true] at this
        rw [e]
        unfold owed
        dsimp only
        omega
      rw [e1, e2]
      simp only [pipe, List.map_nil, List.sum_nil]
      omega

/-- and so has one whose reader goes on -/
theorem wake_owed (hst : StillSide x) (hcl : s.closed = false) (hr : Reach x id s) (hok : SideOk s) (hes : Ears x s pi)
    (hs : step x s .wake = some s') :
    s'.closed = false ∧ ∃ l, s'.log = s.log ++ l ∧ pipe l = [] ∧ owed s' + 1 ≤ owed s := by
  obtain ⟨M, hM, hp⟩ := wake_state hst hok hes hs
  obtain ⟨l, hl⟩ := log_grows hr hs
  refine ⟨hp.closed.trans hcl, l, hl, Wires.nothing ⟨hp.closed, hp.size, hp.taken⟩ hl, ?_⟩
  have hrd : s'.rd = .idle := hp.rd
  have ha : s'.asks = s.asks := hp.asks
  unfold owed
  rw [hM, hrd, ha]
  simp

/-- and one of whose calls returns -/
theorem resume_owed {i : Nat} (hst : StillSide x) (hcl : s.closed = false) (hr : Reach x id s) (h : Half cl known s A B X) (hok : SideOk s)
    (hs : step x s (.resume i) = some s') :
    s'.closed = false ∧ ∃ l, s'.log = s.log ++ l ∧ pipe l = [] ∧ owed s' + 1 ≤ owed s := by
  obtain ⟨a, ha, hd, m, hb⟩ : ∃ a, s.asks[i]? = some a ∧ a.done = false ∧ ∃ m, a.box = some m := by
    obtain ⟨he, _⟩ := step_exec hs
    simp only [exec, resume] at he
    split at he
    · cases he
    · rename_i a ha
      split at he
      · cases he
      · rename_i hd
        split at he
        · cases he
        · rename_i m hb
          exact ⟨a, ha, by simpa using hd, m, hb⟩
  have hm : a.mode = .table := by
    obtain ⟨p, _, _, e⟩ := h.pendOf (List.mem_of_getElem? ha) hd
    rw [e]
  have hw := wires_resume hst.cbs ha hb hs
  obtain ⟨_, _, hrd, hasks⟩ := resume_asks hok ha hb hm hs
  obtain ⟨l, hl⟩ := log_grows hr hs
  refine ⟨hw.closed.trans hcl, l, hl, hw.nothing hl, ?_⟩
  have hlt : i < s.asks.length := (List.getElem?_eq_some_iff.mp ha).1
  have c1 := count_set (fun a : AskRec => !a.done) { a with box := none } ha
  have c2 := count_modify (fun a : AskRec => !a.done) (fun a => { a with done := true })
    (l := s.asks.set i { a with box := none }) (i := i) (a := { a with box := none }) (by simp [hlt])
  have hq : (!a.done) = true := by rw [hd]; rfl
  simp only [hq, Bool.not_true, Bool.toNat_true, Bool.toNat_false] at c1 c2
  unfold owed
  rw [hrd, hasks]
  omega

/-! ### No event is held back for an answer -/

theorem Both.notHeld (h : Both x y s t po pi O I X Y) (hes : Ears x s pi) : ¬ HeldBack s := by
  rintro ⟨M, i, obj, a, h1, h2, h3, h4, h5, h6⟩
  obtain ⟨p, hp, hat, hae⟩ := h.mine.pendOf (List.mem_of_getElem? h2) h3
  have fly := h.mine.ready p hp
  have hpk : p.k = .connect M.ns obj := by rw [hae] at h5; exact h5
  have hq := fly.connect hpk
  rcases (hes.gate M h1).1 with ⟨a', k1, k2, ⟨obj', k3⟩, k4⟩ | k
  · obtain ⟨p', hp', hat', hae'⟩ := h.mine.pendOf k1 k2
    have hq' := (h.mine.ready p' hp').connect (n := M.ns) (obj := obj') (by rw [hae'] at k3; exact k3)
    have e := h.mine.uniq (n := M.ns) hp hp' hq hq' rfl rfl
    subst e
    rcases k4 with ⟨m, e, _⟩ | ⟨q, hq, _⟩
    · unfold AskIs at hat hat'
      rw [hat, h6, e] at hat'
      cases hat'
    · cases hq
  · obtain ⟨_, _, q, e, _, hw, _⟩ := fly
    rw [hq] at e
    cases e
    obtain ⟨_, _, k', _⟩ := hw
    exact k.inNs k'

end Neffos
