import Verif.Spec.Town
import Verif.Props.Audience
import Verif.Proofs.Net
/-!
# C125: who hears a broadcast among all the clients of a server
-/
set_option autoImplicit false
namespace Neffos
open Spec

variable {cfg : NetCfg} {s s' : Net} {ops : List NetOp}

namespace Town

theorem before_mem {x : Bytes} {m : Message} : ∀ {ms : List Message}, m ∈ beforeNotFor x ms → m ∈ ms := by
  intro ms
  induction ms with
  | nil => exact id
  | cons y ms ih =>
    simp only [beforeNotFor]
    split
    · simp
    · intro h
      rcases List.mem_cons.mp h with rfl | h
      · simp
      · exact List.mem_cons_of_mem _ (ih h)

/-- what a step does to the session of a connection -/
theorem sess_step {op : NetOp} (hok : NetOk cfg s) (h : s.step cfg op = some s') (c : Nat) :
    ∃ os, srun (cfg.cc c) (cfg.sc c) (s.sess c) os = some (s'.sess c) ∧
      ((∃ o, op = .sess c o ∧ os = [o]) ∨
        ∀ o ∈ os, (∃ k, ∃ m ∈ cfg.batch k, o = .server (.write m)) ∨ o = .server .close) := by
  have putc : ∀ {t : Net} {d : Nat} {x : Sess}, (t.put cfg d x).sess c = if c = d then x else t.sess c := fun {_ _ _} => rfl
  cases op with
  | sess d o =>
    simp only [Net.step] at h
    split at h
    · obtain ⟨x, hx, rfl⟩ := Option.map_eq_some_iff.mp h
      rw [putc]
      by_cases e : c = d
      · subst e
        exact ⟨[o], by simp only [srun, hx, if_pos], .inl ⟨o, rfl, rfl⟩⟩
      · exact ⟨[], by rw [if_neg e]; rfl, .inr (by simp)⟩
    · cases h
  | loop o =>
    have h' : (match s.loop.step cfg.loop o with
      | none => none
      | some l =>
        match s.loop.touch o with
        | none => some { s with loop := l }
        | some (.publish c k) =>
          some (Net.put cfg { s with loop := l } c
            { s.sess c with d := (publishMessages (cfg.sc c) (s.sess c).d (cfg.batch k)).1 })
        | some (.shut c) =>
          some (Net.put cfg { s with loop := l } c { s.sess c with d := closeConn (cfg.sc c) (s.sess c).d })) = some s' := by
      cases o <;> first | exact h | simp [Net.step] at h
    clear h
    split at h'
    · cases h'
    · split at h'
      · cases h'; exact ⟨[], rfl, .inr (by simp)⟩
      · rename_i d k _
        cases h'
        rw [putc]
        by_cases e : c = d
        · subst e
          have hs := writes_srun (cc := cfg.cc c) (beforeNotFor (s.sess c).d.id (cfg.batch k)) (hok.d c)
          rw [← c77_handed] at hs
          refine ⟨_, by rw [hs, if_pos rfl], .inr fun o ho => .inl ?_⟩
          obtain ⟨m, hm, rfl⟩ := List.mem_map.mp ho
          exact ⟨k, m, before_mem hm, rfl⟩
        · exact ⟨[], by rw [if_neg e]; rfl, .inr (by simp)⟩
      · rename_i d _
        cases h'
        rw [putc]
        by_cases e : c = d
        · subst e
          refine ⟨[.server .close], ?_, .inr (by simp)⟩
          simp only [srun, sstep, Op.reads, Bool.false_eq_true, if_false, step_close (hok.d c), Option.map_some, if_pos]
        · exact ⟨[], by rw [if_neg e]; rfl, .inr (by simp)⟩

theorem both_srun {cc sc : Cfg} {id : Bytes} {os : List SessOp} : ∀ {pre : List SessOp} {x y : Sess}, BothRun cc sc id pre x →
    (∀ o ∈ os, ∀ z, BothRequests z o) → srun cc sc x os = some y → BothRun cc sc id (pre ++ os) y := by
  induction os with
  | nil => intro pre x y h _ hr; cases hr; rw [List.append_nil]; exact h
  | cons o os ih =>
    intro pre x y h ho hr
    simp only [srun] at hr
    split at hr
    · have := ih (.step h (ho o (by simp) _) ‹_›) (fun o' h' => ho o' (List.mem_cons_of_mem _ h')) hr
      simpa using this
    · cases hr

theorem ok (h : TownRun cfg ops s) : NetOk cfg s := by
  induction h with
  | init => exact net_init
  | step _ _ hs ih => exact (net_step ih hs).ok

/-- every session is a run of its own -/
theorem session (ht : Town cfg) (h : TownRun cfg ops s) (c : Nat) :
    ∃ os, BothRun (cfg.cc c) (cfg.sc c) (cfg.id c) os (s.sess c) := by
  induction h with
  | init => exact ⟨[], .init⟩
  | step h hq hs ih =>
    obtain ⟨pre, hpre⟩ := ih
    obtain ⟨os, h1, h2⟩ := sess_step (ok h) hs c
    rcases h2 with ⟨o, h2, rfl⟩ | h2
    · refine ⟨_, .step hpre (hq c o h2) ?_⟩
      simp only [srun] at h1
      split at h1
      · cases h1; assumption
      · cases h1
    · refine ⟨_, both_srun hpre (fun o ho z => ?_) h1⟩
      rcases h2 o ho with ⟨k, m, hm, rfl⟩ | rfl
      · exact ht.batches k m hm
      · trivial

/-- while the loop is at a broadcast only its own steps move it -/
theorem cast_stays {l l' : LSt} {o : LOp} {k : Nat} {rest : List Nat} (hl : l.loop = .cast k rest) (ho : o ≠ .loop)
    (h : l.step cfg.loop o = some l') : l'.loop = .cast k rest := by
  cases o with
  | loop => exact absurd rfl ho
  | upgrade => cases h; exact hl
  | call k' => cases h; exact hl
  | recvConnect => simp [LSt.step, hl] at h
  | recvDisc c => simp [LSt.step, hl] at h
  | recvCall c o => simp [LSt.step, hl] at h
  | up c =>
    simp only [LSt.step, LSt.upStep] at h
    split at h
    · cases h
    · split at h
      · cases h; exact hl
      · split at h <;> cases h; exact hl
      · cases h
  | unwait c e =>
    simp only [LSt.step] at h
    split at h
    · cases h
    · split at h <;> cases h; exact hl
  | close c =>
    simp only [LSt.step] at h
    split at h
    · cases h
    · split at h
      · cases h
      · split at h <;> cases h; exact hl
  | closer c =>
    simp only [LSt.step] at h
    split at h
    · cases h
    · split at h <;> cases h; exact hl
  | caller k' =>
    simp only [LSt.step, LSt.callerStep] at h
    split at h
    · cases h
    · split at h
      · split at h <;> cases h <;> exact hl
      · cases h

theorem put_loop {t : Net} {c k : Nat} {x : Sess} {rest : List Nat} (hl : t.loop.loop = .cast k rest) :
    (t.put cfg c x).loop.loop = .cast k rest := by
  simp only [Net.put]
  split
  · cases he : t.loop.step cfg.loop (.close c) with
    | none => exact hl
    | some l => exact cast_stays (o := .close c) hl (by simp) he
  · exact hl

/-- a step while the loop is at a broadcast: it publishes to the next connection, or the loop stays there -/
theorem cast_step {op : NetOp} {k d : Nat} {rest : List Nat} (hl : s.loop.loop = .cast k (d :: rest)) (h : s.step cfg op = some s') :
    (op = .loop .loop ∧ s'.loop.loop = .cast k rest ∧
      s'.sess = fun i => if i = d then { s.sess d with d := (publishMessages (cfg.sc d) (s.sess d).d (cfg.batch k)).1 } else s.sess i) ∨
    s'.loop.loop = .cast k (d :: rest) := by
  cases op with
  | sess c o =>
    simp only [Net.step] at h
    split at h
    · obtain ⟨x, hx, rfl⟩ := Option.map_eq_some_iff.mp h
      exact .inr (put_loop hl)
    · cases h
  | loop o =>
    by_cases ho : o = .loop
    · subst ho
      simp only [Net.step, LSt.step, LSt.loopStep, LSt.touch, hl] at h
      cases h
      exact .inl ⟨rfl, put_loop rfl, rfl⟩
    · have htouch : s.loop.touch o = none := by cases o <;> first | rfl | exact absurd rfl ho
      refine .inr ?_
      have h' : (s.loop.step cfg.loop o).map (fun l => ({ s with loop := l } : Net)) = some s' := by
        cases o <;> simp only [Net.step, htouch] at h <;> first | (cases h; done) | skip
        all_goals
          split at h
          · cases h
          · rename_i e; rw [e]; exact h
      obtain ⟨l, h1, rfl⟩ := Option.map_eq_some_iff.mp h'
      exact cast_stays hl ho h1

/-- by the time the loop has done with a broadcast it has published it to every connection it was to visit -/
theorem visited {os : List NetOp} {k c : Nat} : ∀ {s : Net} {rest : List Nat}, s.loop.loop = .cast k rest → c ∈ rest →
    s.run cfg os = some s' → s'.loop.loop = .sel →
    ∃ pre post t t', os = pre ++ .loop .loop :: post ∧ s.run cfg pre = some t ∧ t.step cfg (.loop .loop) = some t' ∧
      t.loop.touch .loop = some (.publish c k) ∧
      t'.sess = fun i => if i = c then { t.sess c with d := (publishMessages (cfg.sc c) (t.sess c).d (cfg.batch k)).1 } else t.sess i := by
  induction os with
  | nil => intro s rest hl _ hr he; cases hr; rw [hl] at he; cases he
  | cons op os ih =>
    intro s rest hl hc hr he
    cases rest with
    | nil => cases hc
    | cons d rest =>
      simp only [Net.run] at hr
      split at hr
      · rename_i s1 h1
        have more : ∀ {rest'}, s1.loop.loop = .cast k rest' → c ∈ rest' → ∃ pre post t t', op :: os = pre ++ .loop .loop :: post ∧
            s.run cfg pre = some t ∧ t.step cfg (.loop .loop) = some t' ∧ t.loop.touch .loop = some (.publish c k) ∧
            t'.sess = fun i => if i = c then { t.sess c with d := (publishMessages (cfg.sc c) (t.sess c).d (cfg.batch k)).1 } else t.sess i := by
          intro rest' k1 k2
          obtain ⟨pre, post, t, t', q1, q2, q3, q4, q5⟩ := ih k1 k2 hr he
          exact ⟨op :: pre, post, t, t', by rw [q1]; rfl, by simp only [Net.run, h1]; exact q2, q3, q4, q5⟩
        rcases cast_step hl h1 with ⟨rfl, g2, g3⟩ | g
        · by_cases e : c = d
          · subst e
            exact ⟨[], os, s, s1, rfl, rfl, h1, by simp only [LSt.touch, hl], g3⟩
          · exact more g2 ((List.mem_cons.mp hc).resolve_left e)
        · exact more g hc
      · cases hr

theorem nrun_append {a b : List NetOp} : ∀ {s t : Net}, s.run cfg a = some t → s.run cfg (a ++ b) = t.run cfg b := by
  induction a with
  | nil => intro s t h; cases h; rfl
  | cons o a ih =>
    intro s t h
    simp only [Net.run, List.cons_append] at h ⊢
    split at h
    · exact ih h
    · cases h

theorem nrun (h : TownRun cfg ops s) : (newNet cfg).run cfg ops = some s := by
  induction h with
  | init => rfl
  | step _ _ hs ih => rw [nrun_append ih]; simp only [Net.run, hs]

/-- a run that keeps to the rule does so up to every state on the way -/
theorem upTo {b : List NetOp} {t : Net} : ∀ {l : List NetOp} {s' : Net}, TownRun cfg l s' → ∀ {a : List NetOp}, l = a ++ b →
    (newNet cfg).run cfg a = some t → TownRun cfg a t := by
  have aux : ∀ {l : List NetOp} {s' : Net}, TownRun cfg l s' → ∀ a, a <+: l → ∃ t, TownRun cfg a t := by
    intro l s' h
    induction h with
    | init => intro a ha; rw [List.prefix_nil.mp ha]; exact ⟨_, .init⟩
    | @step ops s s' op h hq hs ih =>
      intro a ha
      rcases List.prefix_concat_iff.mp ha with rfl | ha
      · exact ⟨_, .step h hq hs⟩
      · exact ih a ha
  intro l s' h a e hr
  obtain ⟨t', ht'⟩ := aux h a ⟨b, e.symm⟩
  have := nrun ht'
  rw [hr] at this
  cases this
  exact ht'

end Town

/-- C125: every client of a server agrees with it about the namespaces and rooms that no call of their session in flight is
about, whatever the other clients do and whatever is broadcast. -/
theorem c125_agree (ht : Town cfg) (h : TownRun cfg ops s) {c : Nat} (ho : BothOpen (s.sess c)) (m : Message)
    (hf : PlaceFree (s.sess c) m) : IsIn (s.sess c).c m ↔ IsIn (s.sess c).d m := by
  obtain ⟨os, hr⟩ := Town.session ht h c
  exact Audience.isIn_iff (ht.callbacks c) (ht.client c).1 (ht.server c).1 (ht.client c).2 (ht.server c).2 hr ho.1 ho.2 hf

/-- C125: a broadcast of one event that the loop receives is offered to every registered connection before the loop goes
on. When it is, it is written to the connection exactly if the client is in its namespace and room by its own records of
that moment and the broadcast neither leaves it out nor is addressed to another; nothing happens to the others then. -/
theorem c125_everyone (ht : Town cfg) (h : TownRun cfg ops s) {k : Nat} {order : List Nat} {s1 : Net} {more : List NetOp}
    (h1 : s.step cfg (.loop (.recvCall k order)) = some s1) (h2 : s1.run cfg more = some s')
    (hq : TownRun cfg (ops ++ .loop (.recvCall k order) :: more) s') (hk : isCast s.loop k = true)
    (hend : s'.loop.loop = .sel) {ex : Except} (hex : ex.Real) {m : Message} (hm : Ordinary m) (hb : cfg.batch k = stamp ex [m])
    {c : Nat} (hc : c ∈ s.loop.regs) :
    ∃ pre post t t', more = pre ++ .loop .loop :: post ∧ s1.run cfg pre = some t ∧ t.step cfg (.loop .loop) = some t' ∧
      (∀ i, i ≠ c → t'.sess i = t.sess i) ∧ (t'.sess c).c = (t.sess c).c ∧
      (BothOpen (t.sess c) → (t.sess c).d.id ≠ [] → PlaceFree (t.sess c) m → ∃ b, serializeMessage m = some b ∧
        (ForClient (cfg.sc c) (t.sess c) ex m →
          sentOf (t'.sess c).d.log = sentOf (t.sess c).d.log ++ [(m.setBinary, b)]) ∧
        (¬ ForClient (cfg.sc c) (t.sess c) ex m → (t'.sess c).d.log = (t.sess c).d.log)) := by
  obtain ⟨hl, hco⟩ : s1.loop.loop = .cast k order ∧ c ∈ order := by
    simp only [Net.step, LSt.touch] at h1
    cases hs : s.loop.step cfg.loop (.recvCall k order) with
    | none => rw [hs] at h1; cases h1
    | some l =>
      rw [hs] at h1
      cases h1
      simp only [LSt.step, LSt.recvStep] at hs
      split at hs
      · split at hs
        · cases hs
        · rename_i x hx
          have hkind : x.kind = .cast := by simpa [isCast, hx] using hk
          split at hs
          · rename_i hp
            rw [hkind] at hs
            cases hs
            exact ⟨rfl, (List.isPerm_iff.mp hp.2).mem_iff.mpr hc⟩
          · cases hs
      · cases hs
  obtain ⟨pre, post, t, t', rfl, g2, g3, _, g5⟩ := Town.visited hl hco h2 hend
  refine ⟨pre, post, t, t', rfl, g2, g3, fun i hi => by rw [g5]; exact if_neg hi, by rw [g5]; simp, ?_⟩
  intro hopen hid hf
  have htown : TownRun cfg (ops ++ .loop (.recvCall k order) :: pre) t := by
    refine Town.upTo hq (b := .loop .loop :: post) (by simp) ?_
    rw [Town.nrun_append (Town.nrun h)]
    simp only [Net.run, h1]
    exact g2
  obtain ⟨os, hr⟩ := Town.session ht htown c
  obtain ⟨b, q1, q2, q3⟩ := c123_written (ht.callbacks c) (ht.client c).1 (ht.server c).1 (ht.client c).2 (ht.server c).2 hr
    hopen.1 hopen.2 hid ex hex m hm hf
  rw [g5, hb]
  simp only [if_pos]
  exact ⟨b, q1, q2, q3⟩

/-- C125: when the loop comes to the connection of a client that has read everything before and whose reader is free, the
client hears the event next, once and with everything it says, if the broadcast is for it by its own records; otherwise it
has nothing to read. -/
theorem c125_hears (ht : Town cfg) (h : TownRun cfg ops s) {k c : Nat} (htouch : s.loop.touch .loop = some (.publish c k))
    (hs : s.step cfg (.loop .loop) = some s') {ex : Except} (hex : ex.Real) {m : Message} (hm : Ordinary m) (hp : PlainEvent m)
    (hb : cfg.batch k = stamp ex [m]) (ho : BothOpen (s.sess c)) (hid : (s.sess c).d.id ≠ []) (hf : PlaceFree (s.sess c) m)
    (hw : Working (s.sess c).c) (hrd : (s.sess c).c.rd = .idle) (hall : (s.sess c).down = (pipe (s.sess c).d.log).length)
    (htook : ∀ bin b, Obs.sent bin b false ∉ (s'.sess c).d.log) :
    (ForClient (cfg.sc c) (s.sess c) ex m → ∀ u, s'.step cfg (.sess c .down) = some u →
      ∃ r, heard (u.sess c).c.log = heard (s.sess c).c.log ++ [r] ∧ said r = said m ∧ (u.sess c).c.rd = .idle) ∧
    (¬ ForClient (cfg.sc c) (s.sess c) ex m → s'.step cfg (.sess c .down) = none) := by
  obtain ⟨rest, hl⟩ : ∃ rest, s.loop.loop = .cast k (c :: rest) := by
    simp only [LSt.touch] at htouch
    split at htouch
    · rename_i e; cases htouch; exact ⟨_, e⟩
    · split at htouch
      · split at htouch <;> cases htouch
      · cases htouch
    · cases htouch
  have hsess : s'.sess c = { s.sess c with d := (publishMessages (cfg.sc c) (s.sess c).d (stamp ex [m])).1 } := by
    rcases Town.cast_step hl hs with ⟨_, _, g⟩ | g
    · rw [g, hb]; simp
    · simp only [Net.step, LSt.step, LSt.loopStep, LSt.touch, hl] at hs
      cases hs
      simp [Net.put, hb]
  obtain ⟨os, hr⟩ := Town.session ht h c
  obtain ⟨q1, q2⟩ := c123_heard (ht.callbacks c) (ht.client c).1 (ht.server c).1 (ht.client c).2 (ht.server c).2 hr ho.1 ho.2 hid
    ex hex m hm hp hf hw hrd hall hsess htook
  constructor
  · intro hfor u hu
    simp only [Net.step] at hu
    split at hu
    · obtain ⟨x, hx, rfl⟩ := Option.map_eq_some_iff.mp hu
      have e : (s'.put cfg c x).sess c = x := if_pos rfl
      rw [e]
      exact (q1 hfor).2 x hx
    · cases hu
  · intro hn
    simp only [Net.step, q2 hn, Option.map_none, ite_self]

def townOk (s : Net) : NetOp → Bool
  | .sess c o => bothOk (s.sess c) o
  | _ => true

/-- run the steps, checking the rules -/
def townChecked (cfg : NetCfg) (s : Net) : List NetOp → Option Net
  | [] => some s
  | op :: ops =>
    if townOk s op then
      match s.step cfg op with
      | some s' => townChecked cfg s' ops
      | none => none
    else none

theorem townChecked_from {pre os : List NetOp} (h : TownRun cfg pre s) (hr : townChecked cfg s os = some s') :
    TownRun cfg (pre ++ os) s' ∧ s.run cfg os = some s' := by
  induction os generalizing pre s with
  | nil => simp only [townChecked] at hr; cases hr; exact ⟨by simpa using h, rfl⟩
  | cons op os ih =>
    simp only [townChecked] at hr
    split at hr
    · rename_i hok
      cases ho : s.step cfg op with
      | none => rw [ho] at hr; cases hr
      | some s1 =>
        rw [ho] at hr
        obtain ⟨k1, k2⟩ := ih (h.step (by rintro c o rfl; exact bothOk_rules hok) ho) hr
        exact ⟨by simpa using k1, by simp only [Net.run, ho]; exact k2⟩
    · cases hr

/-- everything that is broadcast goes to the room `q` of `chat` -/
def squareCfg : NetCfg where
  loop := {}
  cc := fun _ => pickyCli
  sc := fun c => { pickySrv with serverConnID := b! "neffos(" ++ showPtr c ++ b! ")" }
  id := fun c => b! "u" ++ showPtr c
  batch := fun _ => stamp .nil [toRoom (b! "q")]

/-- two clients are in `chat`, the first also in `q`; each has a call in flight -/
def squareOps : List NetOp :=
  [.loop .loop, .loop .upgrade, .loop (.up 0), .loop (.up 0), .loop .recvConnect, .loop .loop,
    .loop .upgrade, .loop (.up 1), .loop (.up 1), .loop .recvConnect, .loop .loop] ++
  ([0, 1].flatMap fun c => [.client .sendAck, .server (.ready none), .up, .down,
    .client (.connect (b! "chat") 7 false), .up, .down, .client (.resume 0)].map (NetOp.sess c)) ++
  [.client (.join 0 (b! "q") 9 false), .up, .down, .client (.resume 1), .client (.connect (b! "quiz") 10 false)].map (NetOp.sess 0) ++
  [.sess 1 (.server (.connect (b! "game") 8 false)), .loop (.call .cast)]

/-- the broadcast; the second client gets its request in the middle of it -/
def squareCast : List NetOp := [.loop .loop, .sess 1 .down, .loop .loop, .loop .loop, .sess 0 .down]

def squareRan (os : List NetOp) : Net := (townChecked squareCfg (newNet squareCfg) os).getD (newNet squareCfg)

abbrev square : Net := squareRan squareOps
abbrev squareServed : Net := squareRan (squareOps ++ [.loop (.recvCall 0 [1, 0])])
abbrev squareEnd : Net := squareRan (squareOps ++ .loop (.recvCall 0 [1, 0]) :: squareCast)

theorem square_run {os : List NetOp} (h : (townChecked squareCfg (newNet squareCfg) os).isSome = true) :
    TownRun squareCfg os (squareRan os) := by
  unfold squareRan
  cases hx : townChecked squareCfg (newNet squareCfg) os with
  | none => rw [hx] at h; cases h
  | some t => exact (townChecked_from .init hx).1

/-- C125, the premises, and what comes of it: the first client hears the event, the second does not -/
example : Town squareCfg ∧ TownRun squareCfg squareOps square ∧
    square.step squareCfg (.loop (.recvCall 0 [1, 0])) = some squareServed ∧
    squareServed.run squareCfg squareCast = some squareEnd ∧
    TownRun squareCfg (squareOps ++ .loop (.recvCall 0 [1, 0]) :: squareCast) squareEnd ∧
    isCast square.loop 0 = true ∧ squareEnd.loop.loop = .sel ∧ square.loop.regs = [1, 0] ∧
    (heard (squareEnd.sess 0).c.log).map (·.body) = [b! "x"] ∧ (heard (squareEnd.sess 1).c.log).map (·.body) = [] ∧
    (squareEnd.sess 1).down = (pipe (squareEnd.sess 1).d.log).length ∧
    ([0, 1].map fun c => ((squareServed.sess c).c.asks ++ (squareServed.sess c).d.asks).countP fun a => !a.done) = [1, 1] := by
  have r0 : TownRun squareCfg squareOps square := square_run (by decide +kernel)
  have r1 : TownRun squareCfg (squareOps ++ [.loop (.recvCall 0 [1, 0])]) squareServed := square_run (by decide +kernel)
  have r2 : TownRun squareCfg (squareOps ++ .loop (.recvCall 0 [1, 0]) :: squareCast) squareEnd := square_run (by decide +kernel)
  have q0 := Town.nrun r0
  have q1 := Town.nrun r1
  have q2 := Town.nrun r2
  rw [show squareOps ++ .loop (.recvCall 0 [1, 0]) :: squareCast = (squareOps ++ [.loop (.recvCall 0 [1, 0])]) ++ squareCast by simp,
    Town.nrun_append q1] at q2
  rw [Town.nrun_append q0] at q1
  refine ⟨⟨fun c => ⟨⟨picky_consistent.1.client, picky_consistent.1.server, picky_consistent.1.refuses, picky_consistent.1.accepts⟩,
    ⟨picky_consistent.2.client, picky_consistent.2.server, picky_consistent.2.refuses, picky_consistent.2.accepts⟩⟩,
    fun c => ⟨rfl, rfl⟩, fun c => ⟨rfl, rfl⟩, ?_⟩, r0, ?_, q2, r2, ?_⟩
  · intro k m hm
    simp only [squareCfg, stamp, List.mem_singleton] at hm
    subst hm; exact ⟨rfl, rfl⟩
  · simp only [Net.run] at q1
    split at q1
    · cases q1; assumption
    · cases q1
  · decide +kernel

/-- no call in flight is about this namespace or a room of it -/
def elsewhere (x : Sess) (ns : Bytes) : Bool :=
  (x.c.asks ++ x.d.asks).all fun a => a.done || (match about a.cont with | some y => decide (ns ≠ y.1) | none => true)

theorem placeFree_of {x : Sess} {m : Message} (h : elsewhere x m.ns = true) : PlaceFree x m := by
  have k : ∀ a ∈ x.c.asks ++ x.d.asks, a.done = false → ∀ y, about a.cont = some y → m.ns ≠ y.1 := by
    intro a ha hd y hy
    have := List.all_eq_true.mp h a ha
    simpa [hd, hy] using this
  unfold PlaceFree
  split
  · intro a ha hd e
    exact k a ha hd _ e rfl
  · exact ⟨fun a ha h1 y hy h2 => k a (List.mem_append_left _ ha) h1 y hy h2.1,
      fun a ha h1 y hy h2 => k a (List.mem_append_right _ ha) h1 y hy h2.1⟩

/-- the premises about each client when the broadcast has begun: the event is for the first and not for the second -/
example : (∀ c ∈ [0, 1], BothOpen (squareServed.sess c) ∧ (squareServed.sess c).d.id ≠ [] ∧
      PlaceFree (squareServed.sess c) (toRoom (b! "q"))) ∧
    IsIn (squareServed.sess 0).c (toRoom (b! "q")) ∧ ¬ IsIn (squareServed.sess 1).c (toRoom (b! "q")) := by
  have h : ∀ c ∈ [0, 1], (squareServed.sess c).c.closed = false ∧ (squareServed.sess c).d.closed = false ∧
      (squareServed.sess c).d.id ≠ [] ∧ elsewhere (squareServed.sess c) (b! "chat") = true := by decide +kernel
  refine ⟨fun c hc => ⟨⟨(h c hc).1, (h c hc).2.1⟩, (h c hc).2.2.1, placeFree_of (h c hc).2.2.2⟩, ⟨?_, .inr ⟨0, ?_⟩⟩, ?_⟩
  · show (squareServed.sess 0).c.namespace (b! "chat") ≠ none
    decide +kernel
  · show (squareServed.sess 0).c.namespace (b! "chat") = some 0 ∧ b! "q" ∈ (squareServed.sess 0).c.rooms 0
    decide +kernel
  · rintro ⟨_, h1 | ⟨obj, h1, h2⟩⟩
    · revert h1; decide
    · have e : (squareServed.sess 1).c.namespace (b! "chat") = some 0 := by decide +kernel
      have h1 : (squareServed.sess 1).c.namespace (b! "chat") = some obj := h1
      rw [e] at h1
      cases h1
      revert h2
      show ¬ (b! "q" ∈ (squareServed.sess 1).c.rooms 0)
      decide +kernel

/-- the premises of `c125_hears` when the loop comes to the first client -/
example : let s := squareRan (squareOps ++ [.loop (.recvCall 0 [1, 0]), .loop .loop, .sess 1 .down])
    s.loop.touch .loop = some (.publish 0 0) ∧ (s.sess 0).c.rd = .idle ∧ (s.sess 0).down = (pipe (s.sess 0).d.log).length ∧
    (s.sess 0).c.acked = true ∧ (s.sess 0).c.todo = [] ∧ (s.sess 0).c.ackAfter = false ∧
    ((s.step squareCfg (.loop .loop)).map fun t => (t.sess 0).d.log.all fun o => match o with | .sent _ _ ok => ok | _ => true) =
      some true := by decide +kernel

end Neffos
