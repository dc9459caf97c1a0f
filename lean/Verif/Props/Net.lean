import Verif.Props.Agree
import Verif.Proofs.Net
/-!
# C94: what is broadcast is heard by the clients, in one order
-/
set_option autoImplicit false
namespace Neffos
open Spec

variable {cfg : NetCfg} {s s' : Net} {want : Bytes → Bytes → Bool}

/-! ## What a batch puts into the socket -/

theorem saidIn_append (a b : List Message) : saidIn want (a ++ b) = saidIn want a ++ saidIn want b := by
  simp [saidIn]

theorem takeWhile_beforeNotFor (id : Bytes) (ms : List Message) :
    ms.takeWhile (fun m => !ForOthers id m) = beforeNotFor id ms := by
  induction ms with
  | nil => rfl
  | cons m ms ih =>
    have e : ForOthers id m = true ↔ NotFor id m := by simp [ForOthers, NotFor]
    by_cases h : NotFor id m
    · simp [beforeNotFor, h, e.mpr h]
    · have h' : ForOthers id m = false := by
        cases hf : ForOthers id m with
        | false => rfl
        | true => exact absurd (e.mp hf) h
      simp only [List.takeWhile_cons, h', Bool.not_false, if_true, beforeNotFor, if_neg h, ih]

theorem dueTo_eq (id sid : Bytes) (ms : List Message) :
    dueTo want id sid ms = (beforeNotFor id ms).filter fun m => want m.ns m.room && !ByItself sid m := by
  rw [dueTo, takeWhile_beforeNotFor]

theorem writes_grow {c : Cfg} {id : Bytes} {d : St} (ms : List Message) (hr : Reach c id d) :
    ∃ l, (ms.foldl (fun s m => (write c s m).1) d).log = d.log ++ l := by
  induction ms generalizing d with
  | nil => exact ⟨[], by simp⟩
  | cons m ms ih =>
    have hs := step_write hr m
    obtain ⟨l, h⟩ := log_grows hr hs
    obtain ⟨l', h'⟩ := ih (.step hr hs)
    exact ⟨l ++ l', by rw [List.foldl_cons, h', h, List.append_assoc]⟩

theorem writes_said {c : Cfg} {c' : Cfg} {id : Bytes} {d : St} (ms : List Message) (hr : Reach c id d) (hsv : c.isClient = false)
    (hon : c'.onlyNative = false) (hord : ∀ m ∈ ms, PlainEvent m)
    (hmem : ∀ m ∈ ms, want m.ns m.room = true → InNs d m.ns ∧ (m.room = [] ∨ InRoom d m.ns m.room))
    (ho : (ms.foldl (fun s m => (write c s m).1) d).closed = false)
    (htk : ∀ bin b, Obs.sent bin b false ∉ (ms.foldl (fun s m => (write c s m).1) d).log) :
    saidIn want ((pipe (ms.foldl (fun s m => (write c s m).1) d).log).filterMap (carried c')) =
      saidIn want ((pipe d.log).filterMap (carried c')) ++
        (ms.filter fun m => want m.ns m.room && !ByItself c.serverConnID m).map said := by
  induction ms generalizing d with
  | nil => simp
  | cons m ms ih =>
    rw [List.foldl_cons] at ho htk ⊢
    have hs := step_write hr m
    have hr' : Reach c id (write c d m).1 := .step hr hs
    have how : (write c d m).1.closed = false := by
      cases e : (write c d m).1.closed with
      | false => rfl
      | true => rw [writes_closed _ _ e, e] at ho; cases ho
    have hod := closed_of_prims (reach_prims hr hs) how
    obtain ⟨b, _, hy, hn⟩ := c13_write hr m
    have hsame : (write c d m).1.connected = d.connected ∧ (write c d m).1.objs = d.objs := by
      by_cases hm : MayWrite c d m
      · obtain ⟨_, _, _, h, _⟩ := hy hm; exact (h how).2
      · obtain ⟨_, _, h1, h2, _⟩ := hn hm; exact ⟨h1, h2⟩
    have hns : ∀ ns, (write c d m).1.namespace ns = d.namespace ns := fun ns => by
      simp only [St.namespace, hsame.1]
    have hrooms : ∀ obj, (write c d m).1.rooms obj = d.rooms obj := fun obj => by simp only [St.rooms, hsame.2]
    have hmem' : ∀ m' ∈ ms, want m'.ns m'.room = true →
        InNs (write c d m).1 m'.ns ∧ (m'.room = [] ∨ InRoom (write c d m).1 m'.ns m'.room) := by
      intro m' hm' hw
      have := hmem m' (List.mem_cons_of_mem _ hm') hw
      simpa only [InNs, InRoom, hns, hrooms] using this
    rw [ih hr' (fun m' h => hord m' (List.mem_cons_of_mem _ h)) hmem' ho htk]
    have o := hord m (List.mem_cons_self ..)
    have hsent := c62_emitted hr o.app o.err o.ns o.room o.event o.life
    have hsend : IsSender c d m ↔ ByItself c.serverConnID m = true := by
      simp [IsSender, ByItself, hsv]
    by_cases hm : MayWrite c d m
    · obtain ⟨rest, e1, _, _, e4⟩ := hy hm
      have hok : (write c d m).2 = true := by
        rw [e4]
        cases hk : (c.sock d.log m.setBinary b).isNone with
        | true => rfl
        | false =>
          obtain ⟨l, hl⟩ := writes_grow ms hr'
          refine absurd ?_ (htk m.setBinary b)
          rw [hl, e1, hk]
          simp
      obtain ⟨p, hp, hcar⟩ := hsent.1 hok
      obtain ⟨r, hr1, hr2, hr3, hr4, hr5, _, hr6⟩ := hcar c' hon
      have hby : ByItself c.serverConnID m = false := by
        cases e : ByItself c.serverConnID m with
        | false => rfl
        | true => exact absurd (hsend.mpr e) hm.2.1
      rw [hp, List.filterMap_append, saidIn_append]
      have hone : saidIn want ([p].filterMap (carried c')) =
          ([m].filter fun m => want m.ns m.room && !ByItself c.serverConnID m).map said := by
        rw [List.filterMap_cons, hr1]
        simp only [saidIn, List.filterMap_nil]
        have e1 : said r = said m := by simp [said, hr2.1, hr3, hr4, hr5, hr6]
        cases hw : want m.ns m.room <;>
          simp [hr2.1, hr2.2, hr3, hw, hby, e1]
      rw [hone, List.append_assoc, ← List.map_append, ← List.filter_append]
      rfl
    · have hno : (want m.ns m.room && !ByItself c.serverConnID m) = false := by
        cases hw : want m.ns m.room with
        | false => rfl
        | true =>
          cases hb : ByItself c.serverConnID m with
          | true => rfl
          | false =>
            refine absurd ⟨hod, (fun h => by rw [hsend.mp h] at hb; cases hb), .inr (.inr ?_)⟩ hm
            obtain ⟨h1, h2⟩ := hmem m (List.mem_cons_self ..) hw
            obtain ⟨obj, ho⟩ := Option.ne_none_iff_exists'.mp h1
            refine ⟨obj, ho, ?_⟩
            rcases h2 with h2 | ⟨obj', h3, h4⟩
            · exact .inl h2
            · rw [ho] at h3; cases h3; exact .inr (.inr (.inr h4))
      rw [hsent.2 ((hn hm).2.1), List.filter_cons_of_neg (by rw [hno]; simp)]

/-! ## Along a run -/

theorem net_run_append {a b : List NetOp} {t : Net} (h : s.run cfg a = some t) : s.run cfg (a ++ b) = t.run cfg b := by
  induction a generalizing s with
  | nil => cases h; rfl
  | cons o a ih =>
    simp only [Net.run, List.cons_append] at h ⊢
    split at h
    · exact ih h
    · cases h

theorem net_run_loop {ops : List NetOp} (hok : NetOk cfg s) (h : s.run cfg ops = some s') :
    ∃ lops, s.loop.run cfg.loop lops = some s'.loop := by
  induction ops generalizing s with
  | nil => cases h; exact ⟨[], rfl⟩
  | cons op ops ih =>
    simp only [Net.run] at h
    split at h
    · rename_i t ht
      have hn := net_step hok ht
      obtain ⟨l1, h1⟩ := hn.loop
      obtain ⟨l2, h2⟩ := ih hn.ok h
      exact ⟨l1 ++ l2, by rw [lrun_append h1]; exact h2⟩
    · cases h

theorem isCast_run {cfg : LCfg} {l l' : LSt} {ops : List LOp} {k : Nat} (hk : l.calls[k]? ≠ none) (h : l.run cfg ops = some l') :
    isCast l' k = isCast l k := by
  obtain ⟨x, hx⟩ := Option.ne_none_iff_exists'.mp hk
  obtain ⟨y, hy, e⟩ := lrun_ind (P := fun t => ∃ y, t.calls[k]? = some y ∧ y.kind = x.kind)
    (fun t op t' ⟨y, hy, e⟩ hn => by
      obtain ⟨z, hz, e', _⟩ := call_next hn hy
      exact ⟨z, hz, e'.trans e⟩) ⟨x, hx, rfl⟩ h
  simp only [isCast, hx, hy, e]

theorem staysIn_append {cc sc : Cfg} {ns : Bytes} {x y : Sess} {a b : List SessOp} (h : srun cc sc x a = some y)
    (ha : ClientStaysIn cc sc ns x a) (hb : ClientStaysIn cc sc ns y b) : ClientStaysIn cc sc ns x (a ++ b) := by
  intro pre op post t he hop ht
  rcases List.append_eq_append_iff.mp he with ⟨a', e1, e2⟩ | ⟨c', e1, e2⟩
  · subst e1
    rw [srun_append h] at ht
    exact hb a' op post t e2 hop ht
  · cases c' with
    | nil =>
      simp only [List.append_nil] at e1
      subst e1
      rw [h] at ht; cases ht
      exact hb [] op post y (by simpa using e2.symm) hop rfl
    | cons o c' =>
      simp only [List.cons_append, List.cons.injEq] at e2
      obtain ⟨rfl, _⟩ := e2
      exact ha pre op c' t e1 hop ht

/-- the session of one connection in a run of the server -/
theorem net_run_sess {ops : List NetOp} (c : Nat) (hok : NetOk cfg s) (h : s.run cfg ops = some s') :
    ∃ os, srun (cfg.cc c) (cfg.sc c) (s.sess c) os = some (s'.sess c) ∧
      (∀ i, SessOp.downAsk i ∈ os → NetOp.sess c (.downAsk i) ∈ ops) ∧
      ∀ ns, (∀ pre op post t, ops = pre ++ .sess c op :: post → op = .down ∨ op = .client .wake →
        s.run cfg pre = some t → InNs (t.sess c).c ns) → ClientStaysIn (cfg.cc c) (cfg.sc c) ns (s.sess c) os := by
  induction ops generalizing s with
  | nil =>
    cases h
    refine ⟨[], rfl, by simp, fun ns _ pre op post t he => ?_⟩
    simp at he
  | cons op ops ih =>
    simp only [Net.run] at h
    split at h
    · rename_i u hu
      have hn := net_step hok hu
      obtain ⟨os1, a1, a2⟩ := hn.sess c
      obtain ⟨os2, b1, b2, b3⟩ := ih hn.ok h
      refine ⟨os1 ++ os2, by rw [srun_append a1]; exact b1, fun i hi => ?_, fun ns hst => ?_⟩
      · rcases List.mem_append.mp hi with hi | hi
        · rcases a2 with ⟨o, rfl, rfl⟩ | a2
          · simp only [List.mem_singleton] at hi
            subst hi
            exact List.mem_cons_self ..
          · obtain ⟨p, hp⟩ := a2 _ hi; cases hp
        · exact List.mem_cons_of_mem _ (b2 i hi)
      · refine staysIn_append a1 ?_ (b3 ns fun pre o post t he ho ht => ?_)
        · intro pre o post t he ho ht
          rcases a2 with ⟨o', rfl, rfl⟩ | a2
          · cases pre with
            | nil =>
              simp only [List.nil_append, List.cons.injEq] at he
              obtain ⟨rfl, _⟩ := he
              cases ht
              exact hst [] o' ops s rfl ho rfl
            | cons x pre => simp at he
          · obtain ⟨p, hp⟩ := a2 o (by rw [he]; simp)
            rcases ho with ho | ho <;> rw [ho] at hp <;> cases hp
        · refine hst (op :: pre) o post t (by rw [he]; rfl) ho ?_
          simp only [Net.run, hu]; exact ht
    · cases h

theorem srun_acked {cc sc : Cfg} {idc ids : Bytes} {x y : Sess} {os : List SessOp} (hc : Reach cc idc x.c) (hd : Reach sc ids x.d)
    (h : srun cc sc x os = some y) (ha : x.d.acked = true) (ho : y.d.closed = false) : y.d.acked = true ∧ y.d.id = x.d.id := by
  have one : ∀ {u v : St} {op : Op}, Reach sc ids u → step sc u op = some v → u.acked = true → v.closed = false →
      v.acked = true ∧ v.id = u.id := by
    intro u v op hr hs ha ho
    refine ⟨(step_acked hr hs (.inl ha)).elim (fun h => h) (fun e => by rw [ho] at e; cases e), ?_⟩
    simp only [step] at hs
    split at hs
    · rename_i w hw
      split at hs
      · cases hs
      · cases hs
        rcases idSame_exec hw with h | ⟨h, _⟩
        · exact h
        · rw [ha] at h; cases h
    · cases hs
  induction os generalizing x with
  | nil => cases h; exact ⟨ha, rfl⟩
  | cons o os ih =>
    simp only [srun] at h
    split at h
    · rename_i t ht
      obtain ⟨h1, h2, _⟩ := sstep_reach hc hd ht
      have hot := (srun_reach h1 h2 h).2.2 ho
      have := ih h1 h2 h
      have key : t.d.acked = true ∧ t.d.id = x.d.id := by
        cases o with
        | client op =>
          simp only [sstep] at ht
          split at ht
          · cases ht
          · obtain ⟨w, _, rfl⟩ := Option.map_eq_some_iff.mp ht; exact ⟨ha, rfl⟩
        | server op =>
          simp only [sstep] at ht
          split at ht
          · cases ht
          · obtain ⟨w, hw, rfl⟩ := Option.map_eq_some_iff.mp ht; exact one hd hw ha hot
        | up =>
          simp only [sstep] at ht
          split at ht
          · cases ht
          · obtain ⟨w, hw, rfl⟩ := Option.map_eq_some_iff.mp ht; exact one hd hw ha hot
        | down =>
          simp only [sstep] at ht
          split at ht
          · cases ht
          · obtain ⟨w, _, rfl⟩ := Option.map_eq_some_iff.mp ht; exact ⟨ha, rfl⟩
        | upAsk i =>
          simp only [sstep] at ht
          split at ht
          · cases ht
          · obtain ⟨w, hw, rfl⟩ := Option.map_eq_some_iff.mp ht; exact one hd hw ha hot
        | downAsk i =>
          simp only [sstep] at ht
          split at ht
          · cases ht
          · obtain ⟨w, _, rfl⟩ := Option.map_eq_some_iff.mp ht; exact ⟨ha, rfl⟩
      obtain ⟨k1, k2⟩ := this key.1
      exact ⟨k1, k2.trans key.2⟩
    · cases h

theorem srun_log {cc sc : Cfg} {idc ids : Bytes} {x y : Sess} {os : List SessOp} (hc : Reach cc idc x.c) (hd : Reach sc ids x.d)
    (h : srun cc sc x os = some y) : ∃ l, y.d.log = x.d.log ++ l := by
  induction os generalizing x with
  | nil => cases h; exact ⟨[], by simp⟩
  | cons o os ih =>
    simp only [srun] at h
    split at h
    · rename_i t ht
      obtain ⟨h1, h2, _⟩ := sstep_reach hc hd ht
      obtain ⟨l, hl⟩ := ih h1 h2 h
      have key : ∃ l, t.d.log = x.d.log ++ l := by
        cases o with
        | client op =>
          simp only [sstep] at ht
          split at ht
          · cases ht
          · obtain ⟨w, _, rfl⟩ := Option.map_eq_some_iff.mp ht; exact ⟨[], by simp⟩
        | server op =>
          simp only [sstep] at ht
          split at ht
          · cases ht
          · obtain ⟨w, hw, rfl⟩ := Option.map_eq_some_iff.mp ht; exact log_grows hd hw
        | up =>
          simp only [sstep] at ht
          split at ht
          · cases ht
          · obtain ⟨w, hw, rfl⟩ := Option.map_eq_some_iff.mp ht; exact log_grows hd hw
        | down =>
          simp only [sstep] at ht
          split at ht
          · cases ht
          · obtain ⟨w, _, rfl⟩ := Option.map_eq_some_iff.mp ht; exact ⟨[], by simp⟩
        | upAsk i =>
          simp only [sstep] at ht
          split at ht
          · cases ht
          · obtain ⟨w, hw, rfl⟩ := Option.map_eq_some_iff.mp ht; exact log_grows hd hw
        | downAsk i =>
          simp only [sstep] at ht
          split at ht
          · cases ht
          · obtain ⟨w, _, rfl⟩ := Option.map_eq_some_iff.mp ht; exact ⟨[], by simp⟩
      obtain ⟨l', hl'⟩ := key
      exact ⟨l' ++ l, by rw [hl, hl', List.append_assoc]⟩
    · cases h

/-- what a run puts into the socket of a connection contains the batches published to it -/
theorem net_run_said {c : Nat} {ops : List NetOp} (hok : NetOk cfg s) (h : s.run cfg ops = some s') (hsv : (cfg.sc c).isClient = false)
    (hon : (cfg.cc c).onlyNative = false) (hord : ∀ k, ∀ m ∈ cfg.batch k, PlainEvent m) (ha : (s.sess c).d.acked = true)
    (ho : (s'.sess c).d.closed = false) (htk : ∀ bin b, Obs.sent bin b false ∉ (s'.sess c).d.log)
    (hmem : ∀ pre op post t k, ops = pre ++ .loop op :: post → s.run cfg pre = some t →
      t.loop.touch op = some (.publish c k) → ∀ m ∈ cfg.batch k, want m.ns m.room = true →
        InNs (t.sess c).d m.ns ∧ (m.room = [] ∨ InRoom (t.sess c).d m.ns m.room)) :
    ∃ log new, s'.loop.log = s.loop.log ++ log ∧
      saidIn want ((pipe (s'.sess c).d.log).filterMap (carried (cfg.cc c))) =
        saidIn want ((pipe (s.sess c).d.log).filterMap (carried (cfg.cc c))) ++ new ∧
      (((offered c log).filter (isCast s'.loop)).flatMap fun k =>
        (dueTo want (s.sess c).d.id (cfg.sc c).serverConnID (cfg.batch k)).map said).Sublist new ∧
      (OnlyCasts cfg want c s ops → new = ((offered c log).filter (isCast s'.loop)).flatMap fun k =>
        (dueTo want (s.sess c).d.id (cfg.sc c).serverConnID (cfg.batch k)).map said) := by
  induction ops generalizing s with
  | nil => cases h; exact ⟨[], [], by simp, by simp, by simp [offered], fun _ => by simp [offered]⟩
  | cons op ops ih =>
    simp only [Net.run] at h
    split at h
    · rename_i u hu
      have hn := net_step hok hu
      obtain ⟨os1, a1, a2⟩ := hn.sess c
      obtain ⟨os2, b1, _, _⟩ := net_run_sess c hn.ok h
      have hou := (srun_reach (hn.ok.c c) (hn.ok.d c) b1).2.2 ho
      obtain ⟨ha', hid⟩ := srun_acked (hok.c c) (hok.d c) a1 ha hou
      obtain ⟨l0, hl0⟩ := srun_log (hn.ok.c c) (hn.ok.d c) b1
      have htu : ∀ bin b, Obs.sent bin b false ∉ (u.sess c).d.log := fun bin b hm =>
        htk bin b (by rw [hl0]; exact List.mem_append_left _ hm)
      obtain ⟨log2, new2, c1, c2, c3, c4⟩ := ih hn.ok h ha' fun pre o post t k he ht => hmem (op :: pre) o post t k
        (by rw [he]; rfl) (by simp only [Net.run, hu]; exact ht)
      rw [hid] at c3 c4
      obtain ⟨log1, d1, d2⟩ := hn.log
      obtain ⟨lops, hlops⟩ := net_run_loop hn.ok h
      have honly : OnlyCasts cfg want c s (op :: ops) → OnlyCasts cfg want c u ops := by
        intro hc pre o post t t' he ht ht' hno
        exact hc (op :: pre) o post t t' (by rw [he]; rfl) (by simp only [Net.run, hu]; exact ht) ht' hno
      -- the first step
      have first : ∃ new1, saidIn want ((pipe (u.sess c).d.log).filterMap (carried (cfg.cc c))) =
          saidIn want ((pipe (s.sess c).d.log).filterMap (carried (cfg.cc c))) ++ new1 ∧
          (((offered c log1).filter (isCast s'.loop)).flatMap fun k =>
            (dueTo want (s.sess c).d.id (cfg.sc c).serverConnID (cfg.batch k)).map said).Sublist new1 ∧
          (OnlyCasts cfg want c s (op :: ops) → new1 = ((offered c log1).filter (isCast s'.loop)).flatMap fun k =>
            (dueTo want (s.sess c).d.id (cfg.sc c).serverConnID (cfg.batch k)).map said) := by
        by_cases hp : ∃ k o, op = .loop o ∧ s.loop.touch o = some (.publish c k)
        · obtain ⟨k, o, rfl, ht⟩ := hp
          have hl1 : log1 = [.offered c k] := by
            rcases d2 with ⟨c', k', ⟨o', e, ht'⟩, e'⟩ | ⟨h, _⟩
            · cases e; rw [ht] at ht'; cases ht'; exact e'
            · exact absurd ⟨o, rfl, ht⟩ (h c k)
          have hcall : isCast u.loop k = true := by
            have hle : s.loop.touch o = some (.publish c k) → ∃ rest, o = .loop ∧ s.loop.loop = .cast k (c :: rest) := by
              intro ht
              cases o <;> simp only [LSt.touch] at ht <;> try cases ht
              split at ht
              · cases ht; exact ⟨_, rfl, ‹_›⟩
              · split at ht
                · split at ht <;> cases ht
                · cases ht
              · cases ht
            obtain ⟨rest, rfl, hloop⟩ := hle ht
            obtain ⟨lo1, hlo1⟩ := hn.loop
            have hk : s.loop.calls[k]? ≠ none := fun e => ((lreach_called hok.loop).absent k e).1 (by rw [hloop]; rfl)
            obtain ⟨x, hx⟩ := Option.ne_none_iff_exists'.mp hk
            have hkind := (((lreach_called hok.loop).each k x hx).cast _ hloop).1
            rw [isCast_run hk hlo1]
            simp [isCast, hx, hkind]
          have hcs : isCast s'.loop k = true := by
            have hk : u.loop.calls[k]? ≠ none := by
              intro e; simp [isCast, e] at hcall
            rw [isCast_run hk hlops]; exact hcall
          have hsess : u.sess c = { s.sess c with d := (publishMessages (cfg.sc c) (s.sess c).d (cfg.batch k)).1 } := by
            cases o <;> simp only [LSt.touch] at ht <;> try cases ht
            simp only [Net.step] at hu
            split at hu
            · cases hu
            · rw [show s.loop.touch .loop = some (.publish c k) by simpa only [LSt.touch] using ht] at hu
              cases hu
              simp [Net.put]
          rw [hl1]
          have hoff : (offered c [.offered c k]).filter (isCast s'.loop) = [k] := by simp [offered, hcs]
          rw [hoff]
          simp only [List.flatMap_cons, List.flatMap_nil, List.append_nil]
          rw [hsess] at hou htu
          dsimp only at hou htu
          rw [c77_handed] at hou htu
          have := writes_said (want := want) (c' := cfg.cc c) _ (hok.d c) hsv hon
            (fun m hm => hord k m ?_) (fun m hm hw => hmem [] o ops s k rfl rfl ht m ?_ hw) hou htu
          · refine ⟨_, ?_, List.Sublist.refl _, fun _ => rfl⟩
            rw [hsess]
            dsimp only
            rw [c77_handed, this, dueTo_eq]
          all_goals
            rw [← takeWhile_beforeNotFor] at hm
            exact (List.takeWhile_sublist _).subset hm
        · have hl1 : (offered c log1).filter (isCast s'.loop) = [] := by
            rcases d2 with ⟨c', k', ⟨o', e, ht'⟩, e'⟩ | ⟨_, h⟩
            · rw [e']
              have hne : c' ≠ c := by
                rintro rfl; exact hp ⟨k', o', e, ht'⟩
              simp [offered, hne]
            · rw [List.filter_eq_nil_iff]
              intro k hk
              have hm := offered_mem hk
              have hk' : u.loop.calls[k]? ≠ none := offered_called (hn.ok.loop) (by rw [d1]; exact List.mem_append_right _ hm)
              rw [isCast_run hk' hlops, h c k hm]
              simp
          rw [hl1]
          obtain ⟨l1, hl1'⟩ := srun_log (hok.c c) (hok.d c) a1
          refine ⟨saidIn want ((pipe l1).filterMap (carried (cfg.cc c))), ?_, by simp, fun hc => ?_⟩
          · rw [hl1', pipe_append, List.filterMap_append, saidIn_append]
          · have := hc [] op ops s u rfl rfl hu (fun o k e ht => hp ⟨k, o, e, ht⟩)
            rw [hl1', pipe_append, List.filterMap_append, saidIn_append] at this
            simpa using this
      obtain ⟨new1, e1, e2, e3⟩ := first
      refine ⟨log1 ++ log2, new1 ++ new2, by rw [c1, d1, List.append_assoc], by rw [c2, e1, List.append_assoc], ?_, fun hc => ?_⟩
      · simp only [offered, List.filterMap_append, List.filter_append, List.flatMap_append] at e2 c3 ⊢
        exact e2.append c3
      · rw [e3 hc, c4 (honly hc)]
        simp only [offered, List.filterMap_append, List.filter_append, List.flatMap_append]
    · cases h

/-! ## What a connection that stays is offered -/

theorem due_stays {c : Nat} (a b : List LEv) (hreg : registered c a = true) (hno : .drop c ∉ b) :
    due c (a ++ b) = due c a ++ servedIn b := by
  induction b generalizing a with
  | nil => simp [servedIn]
  | cons e b ih =>
    have hne : e ≠ .drop c := fun h => hno (by rw [h]; exact List.mem_cons_self ..)
    have hreg' : registered c (a ++ [e]) = true := by
      rw [registered_snoc]
      split
      · rfl
      · exact hreg
    rw [show a ++ e :: b = a ++ [e] ++ b by simp, ih _ hreg' (fun h => hno (List.mem_cons_of_mem _ h)), due_snoc]
    cases e <;> simp [servedIn, hreg]

/-- the loop offers the connection exactly what it received, in the same order -/
theorem offers_stay {c : Nat} {ops : List NetOp} {log : List LEv} (hok : NetOk cfg s) (hx : s.run cfg ops = some s')
    (hk : c ∈ s.loop.regs) (ho : (s'.sess c).d.closed = false) (hl : s.loop.loop = .sel) (hl' : s'.loop.loop = .sel)
    (hlog : s'.loop.log = s.loop.log ++ log) : offered c log = servedIn log := by
  have hok' := net_run_ok hok hx
  have hno : .drop c ∉ s'.loop.log := by
    intro hd
    have h1 := drop_reg hok'.loop (List.count_pos_iff.mpr hd)
    have h2 := served_told hok'.loop h1.2.2.2
    rw [hok'.tie c ho] at h2; cases h2
  have h1 := (c43_offered hok.loop c).2.2 hl
  have h2 := (c43_offered hok'.loop c).2.2 hl'
  rw [hlog, due_stays _ _ ((lreach_due hok.loop c).reg.mpr hk) (fun h => hno (by rw [hlog]; exact List.mem_append_right _ h)), ← h1] at h2
  have h3 : offered c (s.loop.log ++ log) = offered c s.loop.log ++ offered c log := by simp [offered]
  rw [h3] at h2
  exact List.append_cancel_left h2

/-! ## What the client hears -/

/-- a sublist that lacks nothing of what any of its members is about is everything -/
theorem sublist_whole {a b : List Message} (h : a.Sublist b)
    (hw : ∀ x ∈ b, a.filter (Plain x.ns ·) = b.filter (Plain x.ns ·)) (hp : ∀ x ∈ b, x.wait = []) : a = b := by
  induction h with
  | slnil => rfl
  | @cons a b x h _ =>
    have hx := hw x (List.mem_cons_self ..)
    rw [List.filter_cons_of_pos (by simp [Plain, hp x (List.mem_cons_self ..)])] at hx
    have h1 := (h.filter (fun m => decide (Plain x.ns m))).length_le
    rw [hx, List.length_cons] at h1
    omega
  | @cons_cons a b x h ih =>
    have : a = b := by
      refine ih (fun y hy => ?_) (fun y hy => hp y (List.mem_cons_of_mem _ hy))
      have := hw y (List.mem_cons_of_mem _ hy)
      simp only [List.filter_cons] at this
      split at this
      · simpa using this
      · exact this
    rw [this]

/-- what a client hears in places where it stays is what is sent to it there -/
theorem net_heard {c : Nat} {ops : List NetOp} (hok : NetOk cfg s) (hx : s.run cfg ops = some s')
    (hat : Attends cfg want c s ops s') (hon : (cfg.cc c).onlyNative = false) :
    ∃ new l, heard (s'.sess c).c.log = heard (s.sess c).c.log ++ new ∧ (s'.sess c).d.log = (s.sess c).d.log ++ l ∧
      saidIn want new = saidIn want ((pipe l).filterMap (carried (cfg.cc c))) := by
  obtain ⟨os, h1, h2, h3⟩ := net_run_sess c hok hx
  obtain ⟨l, hl⟩ := srun_log (hok.c c) (hok.d c) h1
  have hseg : ((pipe (s'.sess c).d.log).take (s'.sess c).down).drop (s.sess c).down = pipe l := by
    rw [hat.emptyTo.2, List.take_length, hat.emptyFrom.2, hl, pipe_append]
    simp
  have hno : ∀ i, SessOp.downAsk i ∉ os := fun i hi => hat.noAsk i (h2 i hi)
  obtain ⟨new, e1, e2⟩ := c62_client (hok.c c) (hok.d c) hat.works h1 hat.openC
  rw [hseg, ArriveInOrder, hat.emptyTo.1, hat.emptyFrom.1] at e2
  simp only [List.append_nil, List.nil_append] at e2
  have hall : ∀ ns room, want ns room = true → new.filter (Plain ns ·) = ((pipe l).filterMap (carried (cfg.cc c))).filter (Plain ns ·) := by
    intro ns room hw
    obtain ⟨new', f1, f2⟩ := c62_client_exact (ns := ns) (hok.c c) (hok.d c) hat.works h1 hat.openC hon hno
      (h3 ns fun pre op post t he ho ht => hat.hears pre op post t he ho ht ns room hw)
    rw [e1] at f1
    have := List.append_cancel_left f1
    subst this
    rw [hseg, ArriveAll, hat.emptyTo.1, hat.emptyFrom.1] at f2
    simpa using f2
  refine ⟨new, l, e1, hl, ?_⟩
  generalize (pipe l).filterMap (carried (cfg.cc c)) = K at e2 hall
  unfold saidIn
  congr 1
  refine sublist_whole (e2.filter _) (fun x hx => ?_) (fun x hx => ?_)
  · have hw := (List.mem_filter.mp hx).2
    simp only [Bool.and_eq_true, decide_eq_true_eq] at hw
    have := hall x.ns x.room hw.1
    rw [List.filter_filter, List.filter_filter]
    have comm : ∀ L : List Message, L.filter (fun a => decide (Plain x.ns a) && (want a.ns a.room && decide (a.wait = []))) =
        (L.filter (Plain x.ns ·)).filter fun a => want a.ns a.room && decide (a.wait = []) := by
      intro L
      rw [List.filter_filter]
      congr 1
      funext a
      exact Bool.and_comm _ _
    rw [comm, comm, this]
  · have hw := (List.mem_filter.mp hx).2
    simp only [Bool.and_eq_true, decide_eq_true_eq] at hw
    exact hw.2

/-- C94: a client that stays hears, of what is said in its places, all broadcasts that the loop received meanwhile
and that are for it, each once and in the order in which the loop received them, which is the same for every client;
and nothing else there if the server sends it nothing else there. -/
theorem c94_heard {c : Nat} {ops : List NetOp} (hr : NetReach cfg s) (hx : s.run cfg ops = some s')
    (hat : Attends cfg want c s ops s') (hsv : (cfg.sc c).isClient = false) (hon : (cfg.cc c).onlyNative = false)
    (hord : ∀ k, ∀ m ∈ cfg.batch k, PlainEvent m) (hl : s.loop.loop = .sel) (hl' : s'.loop.loop = .sel) :
    ∃ log new, s'.loop.log = s.loop.log ++ log ∧ heard (s'.sess c).c.log = heard (s.sess c).c.log ++ new ∧
      ((castsIn s'.loop log).flatMap fun k =>
        (dueTo want (s.sess c).d.id (cfg.sc c).serverConnID (cfg.batch k)).map said).Sublist (saidIn want new) ∧
      (OnlyCasts cfg want c s ops → saidIn want new = (castsIn s'.loop log).flatMap fun k =>
        (dueTo want (s.sess c).d.id (cfg.sc c).serverConnID (cfg.batch k)).map said) := by
  have hok := netReach_ok hr
  obtain ⟨new, l, h1, h2, h3⟩ := net_heard hok hx hat hon
  obtain ⟨log, new', e1, e2, e3, e4⟩ := net_run_said (want := want) hok hx hsv hon hord hat.acked hat.openD hat.took hat.member
  rw [h2, pipe_append, List.filterMap_append, saidIn_append] at e2
  have e5 := List.append_cancel_left e2
  have e6 := offers_stay hok hx hat.known hat.openD hl hl' e1
  rw [e6] at e3 e4
  refine ⟨log, new, e1, h1, by rw [h3, e5]; exact e3, fun hc => by rw [h3, e5]; exact e4 hc⟩

/-- C94: so two clients that both stay, and to whom the server says nothing else there, hear the same in the same
order, if none of the messages is for one of them only. -/
theorem c94_same {c c' : Nat} {ops : List NetOp} (hr : NetReach cfg s) (hx : s.run cfg ops = some s')
    (hat : Attends cfg want c s ops s') (hat' : Attends cfg want c' s ops s')
    (hsv : (cfg.sc c).isClient = false ∧ (cfg.sc c').isClient = false)
    (hon : (cfg.cc c).onlyNative = false ∧ (cfg.cc c').onlyNative = false)
    (hord : ∀ k, ∀ m ∈ cfg.batch k, PlainEvent m)
    (hall : ∀ k, ∀ m ∈ cfg.batch k,
      (ForOthers (s.sess c).d.id m = false ∧ ByItself (cfg.sc c).serverConnID m = false) ∧
        ForOthers (s.sess c').d.id m = false ∧ ByItself (cfg.sc c').serverConnID m = false)
    (honly : OnlyCasts cfg want c s ops ∧ OnlyCasts cfg want c' s ops)
    (hl : s.loop.loop = .sel) (hl' : s'.loop.loop = .sel) :
    ∃ log new new', s'.loop.log = s.loop.log ++ log ∧ heard (s'.sess c).c.log = heard (s.sess c).c.log ++ new ∧
      heard (s'.sess c').c.log = heard (s.sess c').c.log ++ new' ∧
      saidIn want new = ((castsIn s'.loop log).flatMap fun k => ((cfg.batch k).filter fun m => want m.ns m.room).map said) ∧
      saidIn want new' = saidIn want new := by
  have whole : ∀ {id sid : Bytes} {ms : List Message}, (∀ m ∈ ms, ForOthers id m = false ∧ ByItself sid m = false) →
      dueTo want id sid ms = ms.filter fun m => want m.ns m.room := by
    intro id sid ms h
    have e : ms.takeWhile (fun m => !ForOthers id m) = ms := by
      induction ms with
      | nil => rfl
      | cons m ms ih =>
        rw [List.takeWhile_cons, (h m (List.mem_cons_self ..)).1]
        simp only [Bool.not_false, if_true]
        rw [ih fun m hm => h m (List.mem_cons_of_mem _ hm)]
    rw [dueTo, e]
    refine List.filter_congr fun m hm => ?_
    rw [(h m hm).2]; simp
  obtain ⟨log, new, h1, h2, _, h4⟩ := c94_heard hr hx hat hsv.1 hon.1 hord hl hl'
  obtain ⟨log', new', e1, e2, _, e4⟩ := c94_heard hr hx hat' hsv.2 hon.2 hord hl hl'
  have : log' = log := by rw [h1] at e1; exact (List.append_cancel_left e1).symm
  subst this
  have f1 := h4 honly.1
  have f2 := e4 honly.2
  refine ⟨log', new, new', h1, h2, e2, ?_, ?_⟩
  · rw [f1]
    congr 1; funext k
    rw [whole fun m hm => (hall k m hm).1]
  · rw [f1, f2]
    congr 1; funext k
    rw [whole fun m hm => (hall k m hm).1, whole fun m hm => (hall k m hm).2]

/-! ## A concrete case -/

/-- the condition holds at each of the steps -/
def along (cfg : NetCfg) (p : Net → NetOp → Bool) (s : Net) : List NetOp → Bool
  | [] => true
  | op :: ops => p s op && (match s.step cfg op with
    | some t => along cfg p t ops
    | none => true)

theorem along_at {p : Net → NetOp → Bool} {ops : List NetOp} (h : along cfg p s ops = true) :
    ∀ pre op post t, ops = pre ++ op :: post → s.run cfg pre = some t → p t op = true := by
  intro pre
  induction pre generalizing s ops with
  | nil =>
    intro op post t he ht
    cases ht
    subst he
    simp only [List.nil_append, along, Bool.and_eq_true] at h
    exact h.1
  | cons o pre ih =>
    intro op post t he ht
    subst he
    simp only [List.cons_append, along, Bool.and_eq_true] at h
    simp only [Net.run] at ht
    split at ht
    · rename_i u hu
      rw [hu] at h
      exact ih h.2 op post t rfl ht
    · cases ht

def netAfter (cfg : NetCfg) (ops : List NetOp) : Net := ((newNet cfg).run cfg ops).getD (newNet cfg)

/-- a server with two clients and the event that each call of `Broadcast` gives to all -/
def townCfg : NetCfg where
  loop := {}
  cc := fun _ => clientCfg chatDecl noCb
  sc := fun c => { serverCfg chatDecl noCb with serverConnID := b! "neffos(" ++ showPtr c ++ b! ")" }
  id := fun c => b! "u" ++ showPtr c
  batch := fun k => [{ ns := b! "chat", event := b! "news", body := showPtr k }]

/-- both clients dial and connect to `chat` -/
def townOps : List NetOp :=
  [.loop .loop, .loop .upgrade, .loop (.up 0), .loop (.up 0), .loop .recvConnect, .loop .loop,
    .loop .upgrade, .loop (.up 1), .loop (.up 1), .loop .recvConnect, .loop .loop] ++
  [0, 1].flatMap fun c => [.client .sendAck, .server (.ready none), .up, .down,
    .client (.connect (b! "chat") 7 false), .up, .down, .client (.resume 0)].map (NetOp.sess c)

/-- Three broadcasts, of which the loop receives the last before the second; the first is published to the second client first,
and the clients read at other times. -/
def newsOps : List NetOp :=
  [.loop (.call .cast), .loop (.recvCall 0 [1, 0]), .loop .loop, .sess 1 .down, .loop .loop, .loop .loop,
    .loop (.call .cast), .loop (.call .cast), .loop (.recvCall 2 [0, 1]), .loop .loop, .loop .loop, .loop .loop,
    .sess 0 .down, .loop (.recvCall 1 [0, 1]), .loop .loop, .loop .loop, .loop .loop,
    .sess 1 .down, .sess 0 .down, .sess 0 .down, .sess 1 .down]

def inChat (ns _ : Bytes) : Bool := ns = b! "chat"

theorem inChat_iff {ns room : Bytes} (h : inChat ns room = true) : ns = b! "chat" := by
  simpa [inChat] using h

theorem town_batch (k : Nat) : townCfg.batch k = [{ ns := b! "chat", event := b! "news", body := showPtr k }] := rfl

/-- what has to hold at each step for client `c` to be there -/
def stays (c : Nat) (s : Net) : NetOp → Bool
  | .sess c' .down => c' ≠ c || (s.sess c).c.namespace (b! "chat") ≠ none
  | .sess c' (.client .wake) => c' ≠ c || (s.sess c).c.namespace (b! "chat") ≠ none
  | .loop _ => (s.sess c).d.namespace (b! "chat") ≠ none
  | _ => true

/-- the step sends client `c` nothing in `chat`, or publishes to it -/
def onlyCasts (c : Nat) (s : Net) (op : NetOp) : Bool :=
  (match op with
    | .loop o => (match s.loop.touch o with
      | some (.publish c' _) => c' = c
      | _ => false)
    | _ => false) ||
  (match s.step townCfg op with
    | some t => saidIn inChat ((pipe (t.sess c).d.log).filterMap (carried (townCfg.cc c))) =
        saidIn inChat ((pipe (s.sess c).d.log).filterMap (carried (townCfg.cc c)))
    | none => true)

def allSent (l : List Obs) : Bool := l.all fun o => match o with
  | .sent _ _ ok => ok
  | _ => true

theorem allSent_iff {l : List Obs} (h : allSent l = true) : ∀ bin b, Obs.sent bin b false ∉ l := by
  intro bin b hm
  have := List.all_eq_true.mp h _ hm
  simp at this

theorem attends_of {c : Nat} {ops : List NetOp} (h1 : along townCfg (stays c) s ops = true)
    (h2 : (s.sess c).c.acked = true ∧ (s.sess c).c.todo = [] ∧ (s.sess c).c.ackAfter = false ∧ (s.sess c).c.rd = .idle)
    (h3 : (s.sess c).d.acked = true ∧ (s.sess c).down = (pipe (s.sess c).d.log).length ∧ c ∈ s.loop.regs)
    (h4 : (s'.sess c).c.rd = .idle ∧ (s'.sess c).down = (pipe (s'.sess c).d.log).length ∧ (s'.sess c).c.closed = false ∧
      (s'.sess c).d.closed = false)
    (h5 : allSent (s'.sess c).d.log = true) (h6 : ∀ i, NetOp.sess c (.downAsk i) ∉ ops) : Attends townCfg inChat c s ops s' where
  works := ⟨h2.1, h2.2.1, h2.2.2.1, by rw [h2.2.2.2]; simp⟩
  acked := h3.1
  emptyFrom := ⟨by simp [held, h2.2.2.2], h3.2.1⟩
  known := h3.2.2
  emptyTo := ⟨by simp [held, h4.1], h4.2.1⟩
  openC := h4.2.2.1
  openD := h4.2.2.2
  took := allSent_iff h5
  noAsk := h6
  hears := by
    intro pre op post t he ho ht ns room hw
    have := along_at h1 pre _ post t he ht
    rw [inChat_iff hw]
    rcases ho with rfl | rfl <;> simpa [stays, InNs] using this
  member := by
    intro pre op post t k he ht _ m hm hw
    have := along_at h1 pre _ post t he ht
    rw [town_batch] at hm
    simp only [List.mem_singleton] at hm
    subst hm
    exact ⟨by simpa [stays, InNs] using this, .inl rfl⟩

theorem onlyCasts_of {c : Nat} {ops : List NetOp} (h : along townCfg (onlyCasts c) s ops = true) : OnlyCasts townCfg inChat c s ops := by
  intro pre op post t t' he ht ht' hno
  have := along_at h pre op post t he ht
  unfold onlyCasts at this
  rw [ht'] at this
  simp only [Bool.or_eq_true, decide_eq_true_eq] at this
  rcases this with h | h
  · exfalso
    split at h
    · rename_i o
      split at h
      · rename_i c' k' htc
        simp only [decide_eq_true_eq] at h
        subst h
        exact hno o k' rfl htc
      · cases h
    · cases h
  · exact h

abbrev town : Net := netAfter townCfg townOps
abbrev news : Net := netAfter townCfg (townOps ++ newsOps)

theorem town_run : (newNet townCfg).run townCfg townOps = some town := by
  have h : ((newNet townCfg).run townCfg townOps).isSome = true := by decide +kernel
  obtain ⟨t, ht⟩ := Option.isSome_iff_exists.mp h
  rw [town, netAfter, ht]; rfl

theorem news_run : town.run townCfg newsOps = some news := by
  have h : ((newNet townCfg).run townCfg (townOps ++ newsOps)).isSome = true := by decide +kernel
  obtain ⟨t, ht⟩ := Option.isSome_iff_exists.mp h
  rw [← net_run_append town_run, news, netAfter, ht]; rfl

/-- C94, the premises of both theorems: both clients hear the three broadcasts, the last before the second -/
example : NetReach townCfg town ∧ town.run townCfg newsOps = some news ∧
    Attends townCfg inChat 0 town newsOps news ∧ Attends townCfg inChat 1 town newsOps news ∧
    OnlyCasts townCfg inChat 0 town newsOps ∧ OnlyCasts townCfg inChat 1 town newsOps ∧
    (∀ k, ∀ m ∈ townCfg.batch k, PlainEvent m) ∧
    (∀ k, ∀ m ∈ townCfg.batch k,
      (ForOthers (town.sess 0).d.id m = false ∧ ByItself (townCfg.sc 0).serverConnID m = false) ∧
        ForOthers (town.sess 1).d.id m = false ∧ ByItself (townCfg.sc 1).serverConnID m = false) ∧
    town.loop.loop = .sel ∧ news.loop.loop = .sel ∧
    (heard (news.sess 0).c.log).map (·.body) = [b! "0x0", b! "0x2", b! "0x1"] ∧
    (heard (news.sess 1).c.log).map (·.body) = [b! "0x0", b! "0x2", b! "0x1"] ∧
    castsIn news.loop (news.loop.log.drop town.loop.log.length) = [0, 2, 1] := by
  refine ⟨⟨townOps, town_run⟩, news_run, ?_, ?_, onlyCasts_of (by decide +kernel), onlyCasts_of (by decide +kernel), ?_, ?_, ?_⟩
  · exact attends_of (by decide +kernel) (by decide +kernel) (by decide +kernel) (by decide +kernel) (by decide +kernel)
      (by simp [newsOps])
  · exact attends_of (by decide +kernel) (by decide +kernel) (by decide +kernel) (by decide +kernel) (by decide +kernel)
      (by simp [newsOps])
  · intro k m hm
    rw [town_batch] at hm
    simp only [List.mem_singleton] at hm
    subst hm
    exact ⟨⟨rfl, rfl⟩, rfl, oneOk_safe (b := b! "chat") (by decide +kernel), oneOk_safe (b := []) (by decide +kernel),
      oneOk_safe (b := b! "news") (by decide +kernel), show ¬ Life (b! "news") by decide +kernel⟩
  · intro k m hm
    rw [town_batch] at hm
    simp only [List.mem_singleton] at hm
    subst hm
    have h0 : (town.sess 0).d.id ≠ [] := by decide +kernel
    have h1 : (town.sess 1).d.id ≠ [] := by decide +kernel
    simp [ForOthers, ByItself, Ne.symm h0, Ne.symm h1]
  · decide +kernel

end Neffos
