import Verif.Spec.Rest
import Verif.Props.Parade
/-!
# C130: a server comes to rest with all its clients
-/
set_option autoImplicit false
namespace Neffos
open Spec

variable {cfg : NetCfg} {s s' : Net} {ops more : List NetOp} {U U' : Nat → List Message}
  {D D' : Nat → List (Option Nat × Message)}

namespace Rest

theorem cost_le (r : Cfg) (p : MsgType × Bytes) : cost r p ≤ 4 := by
  unfold cost
  split
  · omega
  · split <;> omega

/-- a Write to a socket that takes everything -/
theorem write_adds {sc : Cfg} (ht : TakesAll sc) (d : St) (m : Message) :
    (write sc d m).1.asks = d.asks ∧ (write sc d m).1.rd = d.rd ∧ (write sc d m).1.closed = d.closed ∧
      ∃ l, pipe (write sc d m).1.log = pipe d.log ++ l ∧ l.length ≤ 1 := by
  have e := markReady_eq (cfg := sc) d
  rw [write_eq]
  split
  · have hr : rawWrite sc (d.markReady sc) (wireOf m) m.setBinary = ((d.markReady sc).emit (.sent m.setBinary (wireOf m) true), true) := by
      have := ht (d.markReady sc).log m.setBinary (wireOf m)
      simp [rawWrite, this]
    rw [hr, e]
    refine ⟨rfl, rfl, rfl, pipe [.sent m.setBinary (wireOf m) true], ?_, by simp [pipe]⟩
    simp only [St.emit]
    rw [pipe_append]
  · split
    · exact ⟨rfl, rfl, rfl, [], by simp, by simp⟩
    · rw [e]; exact ⟨rfl, rfl, rfl, [], by simp, by simp⟩

theorem publish_work {cc sc : Cfg} (ht : TakesAll sc) (x : Sess) (m : Message) :
    (publishMessages sc x.d [m]).1.closed = x.d.closed ∧
      workBoth cc sc { x with d := (publishMessages sc x.d [m]).1 } ≤ workBoth cc sc x + 4 := by
  rcases Audience.publish_one (sc := sc) x.d m with e | e
  · rw [e]; exact ⟨rfl, by show workBoth cc sc x ≤ _; omega⟩
  · rw [e]
    obtain ⟨h1, h2, h3, l, h4, h5⟩ := write_adds ht x.d m
    refine ⟨h3, ?_⟩
    have ho : owed (write sc x.d m).1 = owed x.d := by simp only [owed, h1, h2]
    have hsum : (((pipe x.d.log ++ l).drop x.down).map (cost cc)).sum ≤ (((pipe x.d.log).drop x.down).map (cost cc)).sum + 4 := by
      rw [List.drop_append, List.map_append, List.sum_append]
      have : ((l.drop (x.down - (pipe x.d.log).length)).map (cost cc)).sum ≤ 4 := by
        have hl : (l.drop (x.down - (pipe x.d.log).length)).length ≤ 1 := by rw [List.length_drop]; omega
        generalize l.drop (x.down - (pipe x.d.log).length) = q at hl
        match q, hl with
        | [], _ => simp
        | [p], _ => simpa using cost_le cc p
      omega
    simp only [workBoth, ho, h4]
    omega

theorem sum_update {f g : Nat → Nat} {c : Nat} (hne : ∀ i, i ≠ c → g i = f i) :
    ∀ n, ((List.range n).map g).sum + (if c < n then f c else 0) = ((List.range n).map f).sum + (if c < n then g c else 0) := by
  intro n
  induction n with
  | zero => simp
  | succ n ih =>
    rw [List.range_succ, List.map_append, List.map_append, List.sum_append, List.sum_append]
    simp only [List.map_cons, List.map_nil, List.sum_cons, List.sum_nil, Nat.add_zero]
    by_cases e : n = c
    · subst e
      simp only [Nat.lt_irrefl, if_false, Nat.add_zero] at ih
      simp only [Nat.lt_succ_self, if_true]
      omega
    · rw [hne n e]
      by_cases h : c < n
      · rw [if_pos h, if_pos h] at ih
        rw [if_pos (Nat.lt_succ_of_lt h), if_pos (Nat.lt_succ_of_lt h)]
        omega
      · rw [if_neg h, if_neg h] at ih
        rw [if_neg (by omega), if_neg (by omega)]
        omega

theorem made_lt {l : LSt} {c : Nat} (h : l.made c = true) : c < l.conns.length := by
  unfold LSt.made at h
  split at h
  · rename_i e; exact (List.getElem?_eq_some_iff.mp e).1
  · cases h

theorem close_none {lc : LCfg} {l : LSt} {c : Nat} (h : l.made c = false) : l.step lc (.close c) = none := by
  unfold LSt.made at h
  simp only [LSt.step]
  split
  · rfl
  · rename_i x e
    rw [e] at h
    cases hu : x.up <;> simp_all

theorem ruled (hp : Parade cfg) (h : ParadeRun cfg ops s U D) (c : Nat) :
    ∃ os, RuledRun (cfg.cc c) (cfg.sc c) (cfg.id c) os (s.sess c) := by
  obtain ⟨os, hr⟩ := Parade.session hp h c
  exact ⟨os, Order.event_ruled hr⟩

/-- a settling step leaves less to do -/
theorem less {op : NetOp} (hp : Parade cfg) (h : ParadeRun cfg ops s U D) (hq : Serving s) (hop : SettlingNet op)
    (hs : s.step cfg op = some s') : Serving s' ∧ workNet cfg s' + 1 ≤ workNet cfg s := by
  cases op with
  | sess c o =>
    simp only [Net.step] at hs
    split at hs
    · rename_i hmade
      obtain ⟨x, hx, rfl⟩ := Option.map_eq_some_iff.mp hs
      obtain ⟨os, hr⟩ := ruled hp h c
      obtain ⟨k1, k2⟩ := settleBoth_step (hp.town.callbacks c) (hp.town.client c).1 (hp.town.server c).1 (hp.town.client c).2
        (hp.town.server c).2 (hp.still c).1 (hp.still c).2 hr (hq.sess c hmade) hop hx
      have hput : s.put cfg c x = { loop := s.loop, sess := fun i => if i = c then x else s.sess i } := by
        simp [Net.put, k1.srv]
      rw [hput]
      refine ⟨⟨hq.loop, hq.calls, fun i hi => ?_⟩, ?_⟩
      · simp only
        split
        · exact k1
        · exact hq.sess i hi
      · have := sum_update (c := c) (f := fun i => workBoth (cfg.cc i) (cfg.sc i) (s.sess i))
          (g := fun i => workBoth (cfg.cc i) (cfg.sc i) (if i = c then x else s.sess i)) (fun i hi => by simp [hi]) s.loop.conns.length
        simp only [if_pos (made_lt hmade), if_true] at this
        simp only [workNet]
        omega
    · cases hs
  | loop o =>
    obtain ⟨_, h'⟩ := Parade.loop_step hs
    have hr := (Parade.ok h).loop
    split at h'
    · cases h'
    · rename_i l hl
      have hx := lnext_of_step hl
      cases o with
      | loop =>
        rcases hq.loop with e | ⟨k, rest, e⟩
        · simp [LSt.step, LSt.loopStep, e] at hl
        · cases rest with
          | nil =>
            simp only [LSt.step, LSt.loopStep, e] at hl
            cases hl
            simp only [LSt.touch, e] at h'
            cases h'
            refine ⟨⟨.inl rfl, hq.calls, hq.sess⟩, ?_⟩
            simp only [workNet, castWork, waiting, e]
            simp
            omega
          | cons c rest =>
            simp only [LSt.step, LSt.loopStep, e] at hl
            cases hl
            simp only [LSt.touch, e] at h'
            cases h'
            obtain ⟨m, hm, _⟩ := hp.single k
            obtain ⟨hcl, hw⟩ := publish_work (cc := cfg.cc c) (hp.still c).2.takes (s.sess c) m
            rw [hm]
            have hput : Net.put cfg { s with loop := { s.loop with log := s.loop.log ++ [.offered c k], loop := .cast k rest } } c
                { s.sess c with d := (publishMessages (cfg.sc c) (s.sess c).d [m]).1 } =
                { loop := { s.loop with log := s.loop.log ++ [.offered c k], loop := .cast k rest },
                  sess := fun i => if i = c then { s.sess c with d := (publishMessages (cfg.sc c) (s.sess c).d [m]).1 } else s.sess i } := by
              simp only [Net.put, hcl]
              split
              · rename_i hc
                rw [close_none]; · rfl
                show s.loop.made c = false
                cases hmd : s.loop.made c with
                | false => rfl
                | true => rw [(hq.sess c hmd).srv] at hc; cases hc
              · rfl
            rw [hput]
            refine ⟨⟨.inr ⟨k, rest, rfl⟩, hq.calls, fun i hi => ?_⟩, ?_⟩
            · simp only
              split
              · rename_i ei
                subst ei
                have := hq.sess i hi
                exact ⟨this.dial, this.cli, hcl.trans this.srv⟩
              · exact hq.sess i hi
            · have := sum_update (c := c) (f := fun i => workBoth (cfg.cc i) (cfg.sc i) (s.sess i))
                (g := fun i => workBoth (cfg.cc i) (cfg.sc i)
                  (if i = c then { s.sess c with d := (publishMessages (cfg.sc c) (s.sess c).d [m]).1 } else s.sess i))
                (fun i hi => by simp [hi]) s.loop.conns.length
              simp only [if_true] at this
              simp only [workNet, castWork, waiting, e, List.length_cons]
              split at this <;> omega
      | recvCall k order =>
        simp only [LSt.touch] at h'
        cases h'
        cases hx with
        | recvCast hsel hk hpc ho hkind =>
          rename_i x
          refine ⟨⟨.inr ⟨k, order, rfl⟩, fun y hy => ?_, hq.sess⟩, ?_⟩
          · rcases List.mem_or_eq_of_mem_set hy with hy | rfl
            · exact hq.calls y hy
            · exact hkind
          · have hlt := (List.getElem?_eq_some_iff.mp hk).1
            have hg : s.loop.calls[k] = x := (List.getElem?_eq_some_iff.mp hk).2
            have hw : waiting { s.loop.setK k { x with pc := .ret } with loop := .cast k order, log := s.loop.log ++ [.served k] } + 1 =
                waiting s.loop := by
              simp only [waiting, LSt.setK]
              rw [List.countP_set hlt, hg]
              have hpos : 0 < s.loop.calls.countP fun x => decide (x.pc = .send) :=
                List.countP_pos_iff.mpr ⟨x, List.mem_of_getElem? hk, by simp [hpc]⟩
              simp [hpc]
              omega
            have hlen : order.length = s.loop.regs.length := ho.length_eq
            simp only [workNet, castWork]
            rw [← hw, hsel, Nat.add_mul, Nat.one_mul]
            simp only [LSt.setK, hlen]
            omega
        | recvAct hsel hk hpc ho hkind =>
          exact absurd (hq.calls _ (List.mem_of_getElem? hk)) hkind
      | _ => exact absurd hop id

/-- a call of Broadcast waits or was served -/
theorem called {lc : LCfg} {l : LSt} (hr : LReach lc l) : ∀ (k : Nat) (x : LCall), l.calls[k]? = some x → x.kind = .cast →
    x.pc = .send ∨ k ∈ servedCalls l.log := by
  refine lreach_ind (P := fun l => ∀ (k : Nat) (x : LCall), l.calls[k]? = some x → x.kind = .cast →
    x.pc = .send ∨ k ∈ servedCalls l.log) (by simp) ?_ hr
  intro s op s' ih hx
  have keep : s'.calls = s.calls → (∃ l, s'.log = s.log ++ l) → ∀ (k : Nat) (x : LCall), s'.calls[k]? = some x → x.kind = .cast →
      x.pc = .send ∨ k ∈ servedCalls s'.log := by
    rintro e1 ⟨l, e2⟩ k x hk hx
    rw [e1] at hk
    rw [e2, Parade.served_append]
    exact (ih k x hk hx).imp_right fun h => List.mem_append_left _ h
  have set : ∀ {k : Nat} {x y : LCall} (hk : s.calls[k]? = some x) (he : s'.calls = s.calls.set k y) (hl : ∃ l, s'.log = s.log ++ l)
      (hy : y.kind = .cast → y.pc = .send ∨ k ∈ servedCalls s'.log), ∀ (j : Nat) (z : LCall), s'.calls[j]? = some z → z.kind = .cast →
      z.pc = .send ∨ j ∈ servedCalls s'.log := by
    rintro k x y hk he ⟨l, hl⟩ hy j z hj hz
    rw [he] at hj
    by_cases e : k = j
    · subst e
      rw [List.getElem?_set_self (List.getElem?_eq_some_iff.mp hk).1] at hj
      cases hj; exact hy hz
    · rw [List.getElem?_set_ne e] at hj
      rw [hl, Parade.served_append]
      exact (ih j z hj hz).imp_right fun h => List.mem_append_left _ h
  cases hx
  case call kd =>
    intro k x hk hx
    simp only at hk
    by_cases hlt : k < s.calls.length
    · rw [List.getElem?_append_left hlt] at hk
      exact ih k x hk hx
    · rw [List.getElem?_append_right (by omega)] at hk
      rw [List.getElem?_singleton] at hk
      split at hk
      · cases hk
        simp only at hx
        subst hx
        exact .inl rfl
      · cases hk
  case recvCast k x order hl hk hp ho hkind =>
    exact set hk rfl ⟨_, rfl⟩ fun _ => .inr (by simp [LSt.setK, Parade.served_append, servedCalls])
  case recvAct k x order hl hk hp ho hkind => exact set hk rfl ⟨_, rfl⟩ fun hy => absurd hy hkind
  case casFail k x hk hp hf => exact set hk rfl ⟨[], by simp [LSt.setK]⟩ fun hy => (ih k x hk hy).imp (fun e => by rw [hp] at e; cases e) id
  case casWin k x hk hp hf => exact set hk rfl ⟨[], by simp [LSt.setK]⟩ fun _ => .inl rfl
  case done k x hl hk hp => exact set hk rfl ⟨[], by simp [LSt.setK]⟩ fun hy => (ih k x hk hy).imp (fun e => by rw [hp] at e; cases e) id
  all_goals first
    | exact keep rfl ⟨_, rfl⟩
    | exact keep rfl ⟨[], by simp [LSt.setC]⟩

theorem before {op : NetOp} (h : ParadeRun cfg (ops ++ [op]) s' U' D') :
    ∃ s U D, ParadeRun cfg ops s U D ∧ s.step cfg op = some s' := by
  generalize e : ops ++ [op] = l at h
  cases h with
  | init => simp at e
  | @step ops1 s1 _ op1 U1 D1 h1 _ _ hs =>
    obtain ⟨e1, e2⟩ := List.append_inj' e rfl
    cases e1; cases e2
    exact ⟨s1, U1, D1, h1, hs⟩

theorem same (h : ParadeRun cfg ops s U D) (h' : ParadeRun cfg ops s' U' D') : s' = s := by
  have := Town.nrun (Parade.town h)
  rw [Town.nrun (Parade.town h')] at this
  exact Option.some.inj this

end Rest

/-- C130: while the applications do nothing, a server and its clients can take only a bounded number of steps: there are at
most `workNet cfg s` of them, and each leaves less to do. -/
theorem c130_bound (hp : Parade cfg) (h : ParadeRun cfg ops s U D) (hq : Serving s)
    (h' : ParadeRun cfg (ops ++ more) s' U' D') (hm : ∀ op ∈ more, SettlingNet op) :
    Serving s' ∧ more.length + workNet cfg s' ≤ workNet cfg s := by
  induction hn : more.length generalizing more s' U' D' with
  | zero =>
    have : more = [] := List.length_eq_zero_iff.mp hn
    subst this
    rw [List.append_nil] at h'
    rw [Rest.same h h']
    exact ⟨hq, by omega⟩
  | succ n ih =>
    rcases List.eq_nil_or_concat more with e | ⟨pre, op, e⟩
    · subst e; simp at hn
    · rw [List.concat_eq_append] at e
      subst e
      rw [← List.append_assoc] at h'
      obtain ⟨t, U1, D1, h1, h2⟩ := Rest.before h'
      obtain ⟨k1, k2⟩ := ih h1 (fun o ho => hm o (List.mem_append_left _ ho)) (by simpa using hn)
      obtain ⟨j1, j2⟩ := Rest.less hp h1 k1 (hm op (by simp)) h2
      exact ⟨j1, by omega⟩

/-- C130: when they cannot go on, the loop has served every call of Broadcast, every call of both sides of every session has
returned, and every client and connection has heard all that was put into its socket. -/
theorem c130_rest (hp : Parade cfg) (h : ParadeRun cfg ops s U D) (hq : Serving s)
    (hend : ∀ op, SettlingNet op → s.step cfg op = none) :
    s.loop.loop = .sel ∧ (∀ k, k < s.loop.calls.length → k ∈ servedCalls s.loop.log) ∧
    ∀ c, s.loop.made c = true →
      heard (s.sess c).c.log = (D c).map (fun x => arrives x.2) ∧ heard (s.sess c).d.log = (U c).map arrives ∧
      (∀ a ∈ (s.sess c).c.asks, a.done = true) ∧ ∀ a ∈ (s.sess c).d.asks, a.done = true := by
  have hsel : s.loop.loop = .sel := by
    rcases hq.loop with e | ⟨k, rest, e⟩
    · exact e
    · have := hend (.loop .loop) trivial
      cases rest <;> simp [Net.step, LSt.step, LSt.loopStep, LSt.touch, e] at this
  refine ⟨hsel, fun k hlt => ?_, fun c hc => ?_⟩
  · refine (Rest.called (Parade.ok h).loop k _ (List.getElem?_eq_getElem hlt) (hq.calls _ (List.getElem_mem hlt))).resolve_left fun hpc => ?_
    have hk := List.getElem?_eq_getElem hlt
    revert hk hpc
    generalize s.loop.calls[k] = x
    intro hpc hk
    have := hend (.loop (.recvCall k s.loop.regs)) trivial
    have hkind := hq.calls x (List.mem_of_getElem? hk)
    have hperm : s.loop.regs.isPerm s.loop.regs = true := List.isPerm_iff.mpr (List.Perm.refl _)
    simp [Net.step, LSt.step, LSt.recvStep, LSt.touch, hsel, hk, hpc, hkind, hperm] at this
  · have hst : ∀ o, SettlingBoth o → sstep (cfg.cc c) (cfg.sc c) (s.sess c) o = none := by
      intro o ho
      have := hend (.sess c o) ho
      simpa [Net.step, hc] using this
    have hr : Standstill (cfg.cc c) (cfg.sc c) (s.sess c) :=
      ⟨hst _ trivial, hst _ trivial, hst _ trivial, hst _ trivial, fun i => hst _ trivial, fun i => hst _ trivial⟩
    obtain ⟨k1, k2⟩ := c129_rest hp h (hq.sess c hc) hr
    obtain ⟨os, hrun⟩ := Rest.ruled hp h c
    have := c93_rest (hp.town.callbacks c) (hp.town.client c).1 (hp.town.server c).1 (hp.town.client c).2 (hp.town.server c).2
      (hp.still c).1 (hp.still c).2 hrun (hq.sess c hc) hr
    exact ⟨k1, k2, this.2.2.2.2⟩

namespace Rest

theorem event_rule {o : SessOp} (h : SettlingBoth o) (x : Sess) : EventRequests x o := by
  refine ⟨settlingBoth_rule h x, ?_⟩
  cases o with
  | client op => cases op <;> first | exact h.elim | trivial
  | server op => cases op <;> first | exact h.elim | trivial
  | _ => trivial

theorem rest_made {lc : LCfg} {l : LSt} (hr : LReach lc l) {c k : Nat} {rest : List Nat} (e : l.loop = .cast k rest) (hc : c ∈ rest) :
    l.made c = true := by
  have := rest_sent (lreach_placed hr) (d := c) (by rw [e]; exact hc)
  unfold LSt.made
  unfold LSt.conn at this
  cases hx : l.conns[c]? with
  | none => rw [hx] at this; cases this
  | some x => rw [hx] at this; simp_all

theorem stands {c : Nat} (hc : s.loop.made c = true) (hno : ∀ c o, SettlingBoth o → s.step cfg (.sess c o) = none) :
    Standstill (cfg.cc c) (cfg.sc c) (s.sess c) := by
  have hst : ∀ o, SettlingBoth o → sstep (cfg.cc c) (cfg.sc c) (s.sess c) o = none := by
    intro o ho
    have := hno c o ho
    simpa [Net.step, hc] using this
  exact ⟨hst _ trivial, hst _ trivial, hst _ trivial, hst _ trivial, fun i => hst _ trivial, fun i => hst _ trivial⟩

/-- there is a settling step within the rules, unless there is none at all -/
theorem goes_on (hp : Parade cfg) (h : ParadeRun cfg ops s U D) (hq : Serving s) {op : NetOp} (hop : SettlingNet op)
    (hs : s.step cfg op ≠ none) :
    ∃ op s' U' D', SettlingNet op ∧ s.step cfg op = some s' ∧ ParadeRun cfg (ops ++ [op]) s' U' D' := by
  by_cases hA : ∃ c o, SettlingBoth o ∧ s.step cfg (.sess c o) ≠ none
  · obtain ⟨c, o, ho, hx⟩ := hA
    obtain ⟨t, ht⟩ := Option.ne_none_iff_exists'.mp hx
    refine ⟨.sess c o, t, _, _, ho, ht, h.step ?_ (by intro c k hk; cases hk) ht⟩
    intro c' o' e
    cases e
    exact event_rule ho _
  · have hno : ∀ c o, SettlingBoth o → s.step cfg (.sess c o) = none := by
      intro c o ho
      exact Classical.byContradiction fun hx => hA ⟨c, o, ho, hx⟩
    cases op with
    | sess c o => exact absurd (hno c o hop) hs
    | loop o =>
      obtain ⟨t, ht⟩ := Option.ne_none_iff_exists'.mp hs
      refine ⟨.loop o, t, _, _, hop, ht, h.step (by intro c o' e; cases e) ?_ ht⟩
      intro c k hk m hm hx
      have hc : s.loop.made c = true := by
        simp only [castFor] at hk
        split at hk
        · rename_i d k' htouch
          split at hk
          · rename_i e
            subst e
            cases o with
            | loop =>
              rcases hq.loop with e | ⟨k2, rest, e⟩
              · simp [LSt.touch, e] at htouch
              · cases rest with
                | nil => simp [LSt.touch, e] at htouch
                | cons a rest =>
                  simp only [LSt.touch, e] at htouch
                  cases htouch
                  exact rest_made (Parade.ok h).loop e (by simp)
            | _ => cases htouch
          · cases hk
        · cases hk
      obtain ⟨os, hrun⟩ := ruled hp h c
      have := c93_rest (hp.town.callbacks c) (hp.town.client c).1 (hp.town.server c).1 (hp.town.client c).2 (hp.town.server c).2
        (hp.still c).1 (hp.still c).2 hrun (hq.sess c hc) (stands hc hno)
      obtain ⟨a, ha, hd, _⟩ := hx
      rw [this.2.2.2.2.2 a ha] at hd
      cases hd

end Rest

/-- C130: a server can always come to rest with all its clients, without a broadcast to a namespace for a connection that is
leaving it. -/
theorem c130_settles (hp : Parade cfg) (h : ParadeRun cfg ops s U D) (hq : Serving s) :
    ∃ more s' U' D', ParadeRun cfg (ops ++ more) s' U' D' ∧ (∀ op ∈ more, SettlingNet op) ∧ more.length ≤ workNet cfg s ∧
      ∀ op, SettlingNet op → s'.step cfg op = none := by
  induction hn : workNet cfg s using Nat.strongRecOn generalizing ops s U D with
  | _ n ih =>
    by_cases hend : ∀ op, SettlingNet op → s.step cfg op = none
    · exact ⟨[], s, U, D, by simpa using h, by simp, by simp, hend⟩
    · obtain ⟨op, hx⟩ := Classical.not_forall.mp hend
      obtain ⟨hop, hx⟩ := Classical.not_imp.mp hx
      obtain ⟨op, t, U1, D1, h1, h2, h3⟩ := Rest.goes_on hp h hq hop hx
      obtain ⟨k1, k2⟩ := Rest.less hp h hq h1 h2
      obtain ⟨more, s', U', D', j1, j2, j3, j4⟩ := ih (workNet cfg t) (by omega) h3 k1 rfl
      refine ⟨op :: more, s', U', D', by simpa using j1, ?_, by simp only [List.length_cons]; omega, j4⟩
      intro o ho
      rcases List.mem_cons.mp ho with rfl | ho
      · exact h1
      · exact j2 o ho

/-- C130: where nothing is left to do, they cannot go on. -/
theorem c130_nothing (hp : Parade cfg) (h : ParadeRun cfg ops s U D) (hq : Serving s) (h0 : workNet cfg s = 0) (op : NetOp)
    (hop : SettlingNet op) : s.step cfg op = none := by
  cases hs : s.step cfg op with
  | none => rfl
  | some t =>
    have := (Rest.less hp h hq hop hs).2
    omega

/-! ## An example -/

/-- two broadcasts wait, the second client is leaving `chat` and the first reads nothing -/
def restOps : List NetOp :=
  paradeOps.take 30 ++ [.sess 0 (.server (.write { ns := b! "chat", event := b! "hi", body := b! "own" })),
    .loop (.recvCall 2 [1, 0]), .loop .loop, .sess 1 (.client (.disconnect 0 11 false))]

/-- and how it ends -/
def restEnd : List NetOp :=
  [.sess 1 .up, .loop .loop, .sess 1 .down, .loop .loop, .sess 1 .down, .sess 1 (.client (.resume 1)), .loop (.recvCall 0 [0, 1]), .loop .loop,
    .loop .loop, .loop .loop, .sess 0 .down, .loop (.recvCall 1 [1, 0]), .loop .loop, .loop .loop, .loop .loop,
    .sess 0 .down, .sess 0 .down, .sess 0 .down]

abbrev restAt (os : List NetOp) : Net × (Nat → List Message) × (Nat → List (Option Nat × Message)) :=
  (paradeChecked paradeCfg (newNet paradeCfg) (fun _ => []) (fun _ => []) os).getD (newNet paradeCfg, fun _ => [], fun _ => [])

theorem restAt_run {os : List NetOp} (h : (paradeChecked paradeCfg (newNet paradeCfg) (fun _ => []) (fun _ => []) os).isSome = true) :
    ParadeRun paradeCfg os (restAt os).1 (restAt os).2.1 (restAt os).2.2 := by
  unfold restAt
  cases hy : paradeChecked paradeCfg (newNet paradeCfg) (fun _ => []) (fun _ => []) os with
  | none => rw [hy] at h; cases h
  | some r => simpa using paradeChecked_from .init hy

theorem rest_ops : ParadeRun paradeCfg restOps (restAt restOps).1 (restAt restOps).2.1 (restAt restOps).2.2 := restAt_run (by decide +kernel)

theorem rest_serving : Serving (restAt restOps).1 := by
  have hx : (restAt restOps).1.loop.loop = .cast 2 [0] ∧ (∀ x ∈ (restAt restOps).1.loop.calls, x.kind = .cast) ∧
      (restAt restOps).1.loop.conns.length = 2 ∧
      ∀ c ∈ [0, 1], ((restAt restOps).1.sess c).c.ready = some none ∧ ((restAt restOps).1.sess c).c.closed = false ∧
        ((restAt restOps).1.sess c).d.closed = false := by decide +kernel
  refine ⟨.inr ⟨_, _, hx.1⟩, hx.2.1, fun c hc => ?_⟩
  have hlt := Rest.made_lt hc
  rw [hx.2.2.1] at hlt
  have := hx.2.2.2 c (by simp; omega)
  exact ⟨this.1, this.2.1, this.2.2⟩

theorem rest_end : ParadeRun paradeCfg (restOps ++ restEnd) (restAt (restOps ++ restEnd)).1 (restAt (restOps ++ restEnd)).2.1
    (restAt (restOps ++ restEnd)).2.2 := restAt_run (by decide +kernel)

theorem rest_settling : ∀ op ∈ restEnd, SettlingNet op := by
  intro op hop
  simp only [restEnd, List.mem_cons, List.not_mem_nil, or_false] at hop
  rcases hop with rfl | rfl | rfl | rfl | rfl | rfl | rfl | rfl | rfl | rfl | rfl | rfl | rfl | rfl | rfl | rfl | rfl | rfl <;> trivial

/-- C130, the premises, and what comes of it: the 18 steps are within the bound of 39, and then they cannot go on -/
example : Parade paradeCfg ∧ ParadeRun paradeCfg restOps (restAt restOps).1 (restAt restOps).2.1 (restAt restOps).2.2 ∧
    Serving (restAt restOps).1 ∧
    ParadeRun paradeCfg (restOps ++ restEnd) (restAt (restOps ++ restEnd)).1 (restAt (restOps ++ restEnd)).2.1 (restAt (restOps ++ restEnd)).2.2 ∧
    (∀ op ∈ restEnd, SettlingNet op) ∧ workNet paradeCfg (restAt restOps).1 = 39 ∧ restEnd.length = 18 ∧
    (∀ op, SettlingNet op → (restAt (restOps ++ restEnd)).1.step paradeCfg op = none) ∧
    ((restAt (restOps ++ restEnd)).2.2 0).map (·.1) = [none, some 2, some 0, some 1] ∧
    (heard ((restAt (restOps ++ restEnd)).1.sess 0).c.log).map (·.body) = [b! "own", [2], [0], [1]] :=
  ⟨parade_meets, rest_ops, rest_serving, rest_end, rest_settling, by decide +kernel, by decide +kernel,
    c130_nothing parade_meets rest_end (c130_bound parade_meets rest_ops rest_serving rest_end rest_settling).1 (by decide +kernel),
    by decide +kernel⟩

end Neffos
