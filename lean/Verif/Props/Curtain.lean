import Verif.Props.CloseExact
import Verif.Props.Lifecycle
import Verif.Props.Rest
/-!
# C134: Server.Close, as the clients of the server know it
-/
set_option autoImplicit false
namespace Neffos
open Spec

variable {cfg : NetCfg} {s s' t : Net} {ops : List NetOp} {c k : Nat}

namespace Curtain

theorem loop_run (hok : NetOk cfg s) (h : s.run cfg ops = some s') : ∃ lops, s.loop.run cfg.loop lops = some s'.loop := by
  induction ops generalizing s with
  | nil => cases h; exact ⟨[], rfl⟩
  | cons op ops ih =>
    simp only [Net.run] at h
    split at h
    · rename_i t ht
      have hn := net_step hok ht
      obtain ⟨a, ha⟩ := hn.loop
      obtain ⟨b, hb⟩ := ih hn.ok h
      exact ⟨a ++ b, by rw [lrun_append ha]; exact hb⟩
    · cases h

/-- a closed connection stays closed for the loop -/
theorem cl_stays {lc : LCfg} {l l' : LSt} {lops : List LOp} (hr : LReach lc l) (h : l.run lc lops = some l')
    (hc : (l.conn c).cl ≠ .open) : (l'.conn c).cl ≠ .open :=
  lrun_placed (P := fun t => (t.conn c).cl ≠ .open) (fun _ _ _ hr h hx => cnext_closed (cnext_of (lreach_placed hr) hx c) h) hr hc h

theorem made_open {l : LSt} (hm : l.made c = true) (lc : LCfg) : (((l.step lc (.close c)).getD l).conn c).cl ≠ .open := by
  unfold LSt.made at hm
  cases hx : l.conns[c]? with
  | none => rw [hx] at hm; cases hm
  | some x =>
    rw [hx] at hm
    have hu : ¬ (x.up = .check ∨ x.up = .refused) := by
      rintro (h | h) <;> simp [h] at hm
    by_cases ho : x.cl = .open
    · simp only [LSt.step, hx, if_neg hu, if_pos ho, Option.getD_some]
      rw [conn_setC hx, if_pos rfl]; simp
    · simp only [LSt.step, hx, if_neg hu, if_neg ho, Option.getD_none]
      rw [conn_of hx]; exact ho

/-- the loop knows that a connection is closed -/
theorem told (hr : NetReach cfg s) : ∀ c, (s.sess c).d.closed = true → (s.loop.conn c).cl ≠ .open := by
  obtain ⟨ops, h⟩ := hr
  have gen : ∀ {ops : List NetOp} {s : Net}, NetOk cfg s → (∀ c, (s.sess c).d.closed = true → (s.loop.conn c).cl ≠ .open) →
      ∀ {s' : Net}, s.run cfg ops = some s' → ∀ c, (s'.sess c).d.closed = true → (s'.loop.conn c).cl ≠ .open := by
    intro ops
    induction ops with
    | nil => intro s _ hI s' h; cases h; exact hI
    | cons op ops ih =>
      intro s hok hI s' h
      simp only [Net.run] at h
      split at h
      rotate_left
      · cases h
      rename_i u hu
      have hn := net_step hok hu
      refine ih hn.ok (fun c hc => ?_) h
      obtain ⟨lops, hl⟩ := hn.loop
      by_cases hold : (s.sess c).d.closed = true
      · exact cl_stays hok.loop hl (hI c hold)
      cases op with
      | sess d o =>
        simp only [Net.step] at hu
        split at hu
        · rename_i hm
          obtain ⟨x, hx, rfl⟩ := Option.map_eq_some_iff.mp hu
          by_cases e : c = d
          · subst e
            have hxc : x.d.closed = true := by simpa [Net.put] using hc
            simp only [Net.put, hxc, if_true]
            exact made_open hm cfg.loop
          · have : (Net.put cfg s d x).sess c = s.sess c := by simp [Net.put, e]
            rw [this] at hc; exact absurd hc hold
        · cases hu
      | loop o =>
        obtain ⟨_, h'⟩ := Parade.loop_step hu
        split at h'
        · cases h'
        · rename_i l hls
          split at h'
          · cases h'; exact absurd hc hold
          · rename_i d j htouch
            cases h'
            by_cases e : c = d
            · subst e
              have hcast : ∃ rest, s.loop.loop = .cast j (c :: rest) ∧ o = .loop := by
                unfold LSt.touch at htouch
                split at htouch
                · split at htouch
                  · rename_i q; cases htouch; exact ⟨_, q, rfl⟩
                  · split at htouch
                    · split at htouch <;> cases htouch
                    · cases htouch
                  · cases htouch
                · cases htouch
              obtain ⟨rest, hrest, rfl⟩ := hcast
              have hm := Rest.rest_made hok.loop hrest (List.mem_cons_self ..)
              have hml : l.made c = true := by
                simp only [LSt.step, LSt.loopStep, hrest] at hls
                cases hls
                exact hm
              simp only [Net.put, if_true] at hc
              simp only [Net.put, hc, if_true]
              exact made_open hml cfg.loop
            · have hq : ∀ y, (Net.put cfg { s with loop := l } d y).sess c = s.sess c := fun y => by simp [Net.put, e]
              rw [hq] at hc; exact absurd hc hold
          · rename_i d htouch
            cases h'
            by_cases e : c = d
            · subst e
              have hcl : (l.conn c).cl ≠ .open := by
                unfold LSt.touch at htouch
                split at htouch
                · split at htouch
                  · cases htouch
                  · rename_i k d' rest hlo
                    split at htouch
                    · rename_i x y hx hy
                      split at htouch
                      · rename_i hk
                        cases htouch
                        simp only [LSt.step, LSt.loopStep, hlo, hx, hy, hk, and_self, if_true] at hls
                        cases hls
                        rw [conn_set' (y := { y with cl := .firing true }) hy rfl, if_pos rfl]; simp
                      · cases htouch
                    · cases htouch
                  · cases htouch
                · cases htouch
              have hlr : LReach cfg.loop l := lreach_run (ops := [o]) hok.loop (run_one hls)
              simp only [Net.put]
              split
              · cases he : l.step cfg.loop (.close c) with
                | none => exact hcl
                | some l' => exact cl_stays hlr (run_one he) hcl
              · exact hcl
            · have hq : ∀ y, (Net.put cfg { s with loop := l } d y).sess c = s.sess c := fun y => by simp [Net.put, e]
              rw [hq] at hc; exact absurd hc hold
  refine gen net_init (fun c hc => ?_) h
  simp only [newNet, newSess, newConn] at hc
  split at hc <;> cases hc

/-- what a closed connection may still put into the socket: answers without content and the bytes of the handshake -/
def Hush (b : Bytes) : Prop := (∃ w, b = genEmptyReplyToWait w) ∨ b = b! "M" ∨ (∃ t, b = 65 :: t) ∨ ∃ t, b = 72 :: t

def Quiet (x y : Sess) : Prop :=
  y.d.closed = true ∧ ∃ l, y.d.log = x.d.log ++ l ∧ ∀ binary b ok, Obs.sent binary b ok ∈ l → binary = false ∧ Hush b

theorem quiet_refl {x : Sess} (h : x.d.closed = true) : Quiet x x := ⟨h, [], by simp, by simp⟩

theorem quiet_trans {x y z : Sess} (h1 : Quiet x y) (h2 : Quiet y z) : Quiet x z := by
  obtain ⟨_, l1, e1, q1⟩ := h1
  obtain ⟨c2, l2, e2, q2⟩ := h2
  refine ⟨c2, l1 ++ l2, by rw [e2, e1, List.append_assoc], fun bi b ok hm => ?_⟩
  rcases List.mem_append.mp hm with h | h
  · exact q1 bi b ok h
  · exact q2 bi b ok h

theorem quiet_sstep {cc sc : Cfg} {id : Bytes} {x y : Sess} {o : SessOp} (hr : Reach sc id x.d) (hc : x.d.closed = true)
    (h : sstep cc sc x o = some y) : Quiet x y := by
  have own : ∀ {op : Op} {u : St} {z : Sess}, step sc x.d op = some u → z.d = u → Quiet x z := by
    rintro op u z hs rfl
    exact c23_silent_partial hr hc hs
  cases o <;> simp only [sstep] at h <;> split at h <;> try (cases h; done)
  all_goals
    obtain ⟨u, hu, rfl⟩ := Option.map_eq_some_iff.mp h
    first
      | exact own hu rfl
      | exact quiet_refl hc

theorem quiet_srun {cc sc : Cfg} {idc id : Bytes} {x y : Sess} {os : List SessOp} (h0 : Reach cc idc x.c) (hr : Reach sc id x.d)
    (hc : x.d.closed = true) (h : srun cc sc x os = some y) : Quiet x y := by
  induction os generalizing x with
  | nil => cases h; exact quiet_refl hc
  | cons o os ih =>
    simp only [srun] at h
    split at h
    · rename_i z hz
      have hq := quiet_sstep hr hc hz
      obtain ⟨r1, r2, _⟩ := sstep_reach h0 hr hz
      exact quiet_trans hq (ih r1 r2 hq.1 h)
    · cases h

theorem quiet_run (hok : NetOk cfg s) (hc : (s.sess c).d.closed = true) (h : s.run cfg ops = some s') :
    Quiet (s.sess c) (s'.sess c) := by
  induction ops generalizing s with
  | nil => cases h; exact quiet_refl hc
  | cons op ops ih =>
    simp only [Net.run] at h
    split at h
    · rename_i u hu
      have hn := net_step hok hu
      obtain ⟨os, ho, _⟩ := hn.sess c
      have hq := quiet_srun (hok.c c) (hok.d c) hc ho
      exact quiet_trans hq (ih hn.ok hq.1 h)
    · cases h

theorem spared_step {lc : LCfg} {l l' : LSt} {op : LOp} (hr : LReach lc l) (hx : LNext lc l op l') (hn : ¬Survive.Reached l c) :
    ¬Survive.Reached l' c := by
  have h1 : l.flag = true := by
    cases e : l.flag
    · exact absurd (.inl e) hn
    · rfl
  have h2 : l.loop ≠ .boot := fun e => hn (.inr (.inl e))
  have h3 : ¬Survive.Asked l := fun e => hn (.inr (.inr (.inl e)))
  have h4 : ¬Survive.Doomed l c := fun e => hn (.inr (.inr (.inr e)))
  obtain ⟨h5, h6⟩ := flag_step hx ⟨h1, h2⟩
  rintro (h | h | h | h)
  · rw [h5] at h; cases h
  · exact h6 h
  · exact h3 (Survive.asked_step hx h1 h)
  · exact h4 (Survive.doomed_step hr hx h3 h)

end Curtain

/-- C134: the server-side connection of a client is closed exactly if the loop knows it, at every moment. -/
theorem c134_tie (hr : NetReach cfg s) (c : Nat) : (s.sess c).d.closed = true ↔ (s.loop.conn c).cl ≠ .open := by
  refine ⟨Curtain.told hr c, fun h => ?_⟩
  cases e : (s.sess c).d.closed
  · exact absurd ((netReach_ok hr).tie c e) h
  · rfl

/-- C134: when `Server.Close` has returned, the connections of all clients that were registered when it got to send its
action are closed, whatever the clients did meanwhile. From then on none of these clients is sent anything but
answers without content and what belongs to the handshake. -/
theorem c134_closed {x y : LCall} {later : List NetOp} (hr : NetReach cfg s) (hk : s.loop.calls[k]? = some x) (hc : x.kind = .close)
    (hp : x.pc = .send) (hg : c ∈ s.loop.regs) (h : s.run cfg ops = some s') (hk' : s'.loop.calls[k]? = some y) (hret : y.pc = .ret)
    (hl : s'.run cfg later = some t) :
    (s'.sess c).d.closed = true ∧ (t.sess c).d.closed = true ∧
      ∃ l, (t.sess c).d.log = (s'.sess c).d.log ++ l ∧ ∀ binary b ok, Obs.sent binary b ok ∈ l → binary = false ∧ Curtain.Hush b := by
  have hok := netReach_ok hr
  have hok' := net_run_ok hok h
  obtain ⟨lops, hlo⟩ := Curtain.loop_run hok h
  have hcl := c100_registered hok.loop hk hc hp hg hlo hk' hret
  have hd : (s'.sess c).d.closed = true := by
    cases e : (s'.sess c).d.closed
    · exact absurd (hok'.tie c e) hcl
    · rfl
  exact ⟨hd, Curtain.quiet_run hok' hd hl⟩

/-- C134: once the server is closed, no call of `Server.Close` is waiting and the loop has not the connection before it, the server
closes the connection no more, whatever it and its clients do. -/
theorem c134_spared (hr : NetReach cfg s) (hf : s.loop.flag = true) (hb : s.loop.loop ≠ .boot) (ha : ¬Survive.Asked s.loop)
    (hd : ¬Survive.Doomed s.loop c) (h : s.run cfg ops = some s') (o : LOp) : s'.loop.touch o ≠ some (.shut c) := by
  have hn : ¬Survive.Reached s.loop c := by
    rintro (h | h | h | h)
    · rw [hf] at h; cases h
    · exact hb h
    · exact ha h
    · exact hd h
  obtain ⟨lops, hlo⟩ := Curtain.loop_run (netReach_ok hr) h
  have hn' : ¬Survive.Reached s'.loop c :=
    lrun_placed (P := fun t => ¬Survive.Reached t c) (fun _ _ _ hr h hx => Curtain.spared_step hr hx h) (netReach_ok hr).loop hn hlo
  intro ht
  apply hn'
  unfold LSt.touch at ht
  split at ht
  · split at ht
    · cases ht
    · rename_i k d rest hlo
      split at ht
      · rename_i x y hx hy
        split at ht
        · rename_i hk
          cases ht
          exact .inr (.inr (.inr ⟨k, x, hx, hk.1, .inl ⟨_, hlo, List.mem_cons_self ..⟩⟩))
        · cases ht
      · cases ht
    · cases ht
  · cases ht

/-! ## A server with two clients -/

/-- The first client is in `chat`. The second is past the check of `Upgrade` when `Server.Close` is called. -/
def curtainOps : List NetOp :=
  [.loop .loop, .loop .upgrade, .loop (.up 0), .loop (.up 0), .loop .recvConnect, .loop .loop] ++
  ([.client .sendAck, .server (.ready none), .up, .down,
    .client (.connect (b! "chat") 7 false), .up, .down, .client (.resume 0)].map (NetOp.sess 0)) ++
  [.loop .upgrade, .loop (.up 1), .loop (.call .close), .loop (.caller 0)]

/-- `Server.Close` is served and returns -/
def curtainFalls : List NetOp := [.loop (.recvCall 0 [0]), .loop .loop, .loop .loop, .loop .loop, .loop .loop]

/-- the second client gets in, joins `chat` and emits -/
def curtainAfter : List NetOp :=
  [.loop (.up 1), .loop .recvConnect, .loop .loop] ++
  ([.client .sendAck, .server (.ready none), .up, .down,
    .client (.connect (b! "chat") 7 false), .up, .down, .client (.resume 0),
    .client (.write { ns := b! "chat", event := b! "hi", body := b! "still here" }), .up].map (NetOp.sess 1))

abbrev curtainAt (ops : List NetOp) : Net := ((newNet paradeCfg).run paradeCfg ops).getD (newNet paradeCfg)

theorem curtain_runs {a b : List NetOp} (h : ((newNet paradeCfg).run paradeCfg (a ++ b)).isSome = true)
    (ha : ((newNet paradeCfg).run paradeCfg a).isSome = true) :
    NetReach paradeCfg (curtainAt a) ∧ (curtainAt a).run paradeCfg b = some (curtainAt (a ++ b)) := by
  have app : ∀ {a b : List NetOp} {s t : Net}, s.run paradeCfg a = some t → s.run paradeCfg (a ++ b) = t.run paradeCfg b := by
    intro a b
    induction a with
    | nil => intro s t h; cases h; rfl
    | cons o a ih =>
      intro s t h
      simp only [Net.run, List.cons_append] at h ⊢
      split at h
      · exact ih h
      · cases h
  unfold curtainAt
  cases e : (newNet paradeCfg).run paradeCfg a with
  | none => rw [e] at ha; cases ha
  | some u =>
    refine ⟨⟨a, by simpa using e⟩, ?_⟩
    rw [app e] at h ⊢
    cases e' : u.run paradeCfg b with
    | none => rw [e'] at h; cases h
    | some v => simpa using e'

/-- C134: the client that comes past the check in time is served by a server that was closed: `Server.Close` has returned, the
first client's connection is closed and its namespace left, and the second client is registered, in the namespace, and its events
reach the server's callback. -/
theorem c134_survivor : ∃ s t u, NetReach paradeCfg s ∧ s.run paradeCfg curtainFalls = some t ∧ t.run paradeCfg curtainAfter = some u ∧
    s.loop.regs = [0] ∧ s.loop.calls = [{ kind := .close, pc := .send }] ∧ (s.sess 0).d.namespace (b! "chat") ≠ none ∧
    t.loop.calls = [{ kind := .close, pc := .ret }] ∧ (t.sess 0).d.closed = true ∧ (t.sess 0).d.namespace (b! "chat") = none ∧
    t.loop.flag = true ∧ t.loop.loop = .sel ∧ 1 ∈ u.loop.regs ∧ (u.sess 1).d.closed = false ∧
    (u.sess 1).d.namespace (b! "chat") ≠ none ∧ (heard (u.sess 1).d.log).map (·.body) = [b! "still here"] ∧
    ∀ ops v o, u.run paradeCfg ops = some v → v.loop.touch o ≠ some (.shut 1) := by
  obtain ⟨r1, q1⟩ := curtain_runs (a := curtainOps) (b := curtainFalls) (by decide +kernel) (by decide +kernel)
  obtain ⟨r2, q2⟩ := curtain_runs (a := curtainOps ++ curtainFalls) (b := curtainAfter) (by decide +kernel) (by decide +kernel)
  obtain ⟨r3, _⟩ := curtain_runs (a := curtainOps ++ curtainFalls ++ curtainAfter) (b := []) (by decide +kernel) (by decide +kernel)
  refine ⟨_, _, _, r1, q1, q2, by decide +kernel, by decide +kernel, by decide +kernel, by decide +kernel, by decide +kernel,
    by decide +kernel, by decide +kernel, by decide +kernel, by decide +kernel, by decide +kernel, by decide +kernel,
    by decide +kernel, fun ops v o h => c134_spared r3 (by decide +kernel) (by decide +kernel) ?_ ?_ h o⟩
  · have e : (curtainAt (curtainOps ++ curtainFalls ++ curtainAfter)).loop.calls = [{ kind := .close, pc := .ret }] := by decide +kernel
    rintro ⟨k, x, hk, _, hp⟩
    rw [e] at hk
    have := List.mem_of_getElem? hk
    simp only [List.mem_singleton] at this
    subst this; cases hp
  · have e : (curtainAt (curtainOps ++ curtainFalls ++ curtainAfter)).loop.loop = .sel := by decide +kernel
    rintro ⟨k, x, _, _, ⟨r, h, _⟩ | ⟨d, r, h, _⟩⟩ <;> rw [e] at h <;> cases h

/-- the premises of `c134_closed`, and both cases of `c134_tie` in one state -/
example : ∃ s t u, NetReach paradeCfg s ∧ s.loop.calls[0]? = some { kind := .close, pc := .send } ∧ 0 ∈ s.loop.regs ∧
    s.run paradeCfg curtainFalls = some t ∧ t.loop.calls[0]? = some { kind := .close, pc := .ret } ∧
    t.run paradeCfg curtainAfter = some u ∧ NetReach paradeCfg u ∧
    (u.loop.conn 0).cl ≠ .open ∧ (u.sess 0).d.closed = true ∧ (u.loop.conn 1).cl = .open ∧ (u.sess 1).d.closed = false := by
  obtain ⟨r1, q1⟩ := curtain_runs (a := curtainOps) (b := curtainFalls) (by decide +kernel) (by decide +kernel)
  obtain ⟨r2, q2⟩ := curtain_runs (a := curtainOps ++ curtainFalls) (b := curtainAfter) (by decide +kernel) (by decide +kernel)
  obtain ⟨r3, _⟩ := curtain_runs (a := curtainOps ++ curtainFalls ++ curtainAfter) (b := []) (by decide +kernel) (by decide +kernel)
  exact ⟨_, _, _, r1, by decide +kernel, by decide +kernel, q1, by decide +kernel, q2, r3, by decide +kernel, by decide +kernel,
    by decide +kernel, by decide +kernel⟩

end Neffos
