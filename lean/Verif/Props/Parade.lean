import Verif.Proofs.Parade
/-!
# C129: all clients of a server hear its broadcasts in one order

`D c` is what has been put into the socket to the client `c`: the events that its connection emitted and the broadcasts that
were for it, each with the number of its call of Broadcast. `U c` is what the client emitted.
-/
set_option autoImplicit false
namespace Neffos
open Spec

variable {cfg : NetCfg} {s : Net} {ops : List NetOp} {U : Nat → List Message} {D : Nat → List (Option Nat × Message)}

namespace Parade

theorem once {lc : LCfg} {l : LSt} (hr : LReach lc l) : (servedCalls l.log).Nodup := by
  have : (servedCalls l.log).Nodup ∧ ∀ k ∈ servedCalls l.log, ∃ x, l.calls[k]? = some x ∧ x.pc ≠ .send ∧ x.pc ≠ .cas := by
    refine lreach_ind (P := fun l => (servedCalls l.log).Nodup ∧ ∀ k ∈ servedCalls l.log, ∃ x, l.calls[k]? = some x ∧
      x.pc ≠ .send ∧ x.pc ≠ .cas) ⟨List.nodup_nil, by simp [servedCalls]⟩ ?_ hr
    intro s op s' ih hx
    have keep : servedCalls s'.log = servedCalls s.log → (∀ (k : Nat) (x : LCall), s.calls[k]? = some x → x.pc ≠ .send → x.pc ≠ .cas →
        ∃ y : LCall, s'.calls[k]? = some y ∧ y.pc ≠ .send ∧ y.pc ≠ .cas) → (servedCalls s'.log).Nodup ∧
        ∀ k ∈ servedCalls s'.log, ∃ x : LCall, s'.calls[k]? = some x ∧ x.pc ≠ .send ∧ x.pc ≠ .cas := by
      intro e1 e2
      rw [e1]
      refine ⟨ih.1, fun k hk => ?_⟩
      obtain ⟨x, h1, h2, h3⟩ := ih.2 k hk
      exact e2 k x h1 h2 h3
    have set : ∀ {k : Nat} {x y : LCall}, s.calls[k]? = some x → (x.pc = .cas ∨ x.pc = .wait ∧ y.pc = .ret) →
        ∀ (j : Nat) (z : LCall), s.calls[j]? = some z → z.pc ≠ .send → z.pc ≠ .cas →
        ∃ w : LCall, (s.calls.set k y)[j]? = some w ∧ w.pc ≠ .send ∧ w.pc ≠ .cas := by
      intro k x y hk hp j z hj h1 h2
      have hlt := (List.getElem?_eq_some_iff.mp hk).1
      by_cases e : k = j
      · subst e
        rw [hk] at hj; cases hj
        rcases hp with hp | ⟨_, hp⟩
        · exact absurd hp h2
        · exact ⟨y, by rw [List.getElem?_set_self hlt], by simp [hp], by simp [hp]⟩
      · exact ⟨z, by rw [List.getElem?_set_ne e]; exact hj, h1, h2⟩
    have add : ∀ {k : Nat} {x y : LCall}, s.calls[k]? = some x → x.pc = .send → y.pc ≠ .send → y.pc ≠ .cas →
        (servedCalls s.log ++ [k]).Nodup ∧
        ∀ j ∈ servedCalls s.log ++ [k], ∃ w : LCall, (s.calls.set k y)[j]? = some w ∧ w.pc ≠ .send ∧ w.pc ≠ .cas := by
      intro k x y hk hp h1 h2
      have hlt := (List.getElem?_eq_some_iff.mp hk).1
      have hn : k ∉ servedCalls s.log := fun hm => by
        obtain ⟨x', e, h, _⟩ := ih.2 k hm
        rw [hk] at e; cases e; exact h hp
      refine ⟨List.nodup_append.mpr ⟨ih.1, by simp, by
        intro a ha b hb e
        simp only [List.mem_singleton] at hb
        subst hb; exact hn (e ▸ ha)⟩, fun j hj => ?_⟩
      by_cases e : k = j
      · subst e; exact ⟨y, by rw [List.getElem?_set_self hlt], h1, h2⟩
      · obtain ⟨z, q1, q2, q3⟩ := ih.2 j (by simpa [Ne.symm e] using hj)
        exact ⟨z, by rw [List.getElem?_set_ne e]; exact q1, q2, q3⟩
    cases hx
    case call k =>
      refine keep rfl fun j x hj h1 h2 => ⟨x, ?_, h1, h2⟩
      simp only
      rw [List.getElem?_append_left (List.getElem?_eq_some_iff.mp hj).1]; exact hj
    case recvCast k x order hl hk hp ho hkind =>
      have := add (y := { x with pc := .ret }) hk hp (by simp) (by simp)
      simp only [LSt.setK, served_append]
      exact this
    case recvAct k x order hl hk hp ho hkind =>
      have := add (y := { x with pc := if x.kind.sync then .wait else .ret }) hk hp (by simp only; split <;> simp) (by simp only; split <;> simp)
      simp only [LSt.setK, served_append]
      exact this
    all_goals first
      | exact keep rfl fun j x hj h1 h2 => ⟨x, hj, h1, h2⟩
      | exact keep (by simp [served_append, servedCalls]) fun j x hj h1 h2 => ⟨x, hj, h1, h2⟩
      | exact keep rfl (set ‹_› (.inl ‹_›))
      | exact keep rfl (set ‹_› (.inr ⟨‹_›, rfl⟩))
  exact this.1

theorem town (h : ParadeRun cfg ops s U D) : TownRun cfg ops s := by
  induction h with
  | init => exact .init
  | step _ hq _ hs ih => exact .step ih (fun c o e => (hq c o e).1.1) hs

end Parade

/-- C129: everything put into the socket to a client arrives, in this order and once: what the client has heard, what its
reader holds back and what is on the way make up exactly the events of its connection and the broadcasts that were for it. -/
theorem c129_down (hp : Parade cfg) (h : ParadeRun cfg ops s U D) {c : Nat} (ho : BothOpen (s.sess c)) :
    AllThere (cfg.cc c) (s.sess c).c ((pipe (s.sess c).d.log).drop (s.sess c).down) ((D c).map (·.2)) := by
  obtain ⟨os, hr⟩ := Parade.session hp h c
  exact c107_down (hp.town.callbacks c) (hp.town.client c).1 (hp.town.server c).1 (hp.town.client c).2 (hp.town.server c).2
    (hp.still c).1 (hp.still c).2 hr ho.1 ho.2

/-- C129: and so does everything that the client emits. -/
theorem c129_up (hp : Parade cfg) (h : ParadeRun cfg ops s U D) {c : Nat} (ho : BothOpen (s.sess c)) :
    AllThere (cfg.sc c) (s.sess c).d ((pipe (s.sess c).c.log).drop (s.sess c).up) (U c) := by
  obtain ⟨os, hr⟩ := Parade.session hp h c
  exact c107_up (hp.town.callbacks c) (hp.town.client c).1 (hp.town.server c).1 (hp.town.client c).2 (hp.town.server c).2
    (hp.still c).1 (hp.still c).2 hr ho.1 ho.2

/-- C129: the broadcasts that a client was given are some of those that the loop has served, in the order in which it served
them; it serves each call once. So all clients are given the broadcasts in the same order, each at most once. -/
theorem c129_order (hp : Parade cfg) (h : ParadeRun cfg ops s U D) (c : Nat) :
    ((D c).filterMap (·.1)).Sublist (servedCalls s.loop.log) ∧ (servedCalls s.loop.log).Nodup :=
  ⟨(Parade.order hp h c).sub, Parade.once (Parade.ok h).loop⟩

/-- C129: what carries the number of a broadcast is the message of that broadcast. -/
theorem c129_message (h : ParadeRun cfg ops s U D) (c : Nat) {k : Nat} {m : Message} (hm : (some k, m) ∈ D c) : m ∈ cfg.batch k := by
  induction h with
  | init => cases hm
  | @step ops s s' op U D _ _ _ _ ih =>
    rcases List.mem_append.mp hm with hm | hm
    · exact ih hm
    · cases op with
      | sess d o =>
        simp only [givenTo] at hm
        split at hm <;> simp at hm
      | loop o =>
        simp only [givenTo] at hm
        split at hm
        · split at hm
          · obtain ⟨m', h1, h2⟩ := List.mem_map.mp hm
            cases h2; exact h1
          · cases hm
        · cases hm

/-- C129: when the loop comes to a connection with a broadcast of an event, its client is given it exactly if it is for the
client by the client's own records of that moment. -/
theorem c129_given (hp : Parade cfg) (h : ParadeRun cfg ops s U D) {op : NetOp} {s' : Net} (hs : s.step cfg op = some s')
    {c k : Nat} (hk : castFor s c op = some k) {ex : Except} (hex : ex.Real) {m : Message} (hm : Ordinary m)
    (hb : cfg.batch k = stamp ex [m]) (ho : BothOpen (s.sess c)) (hid : (s.sess c).d.id ≠ []) (hf : PlaceFree (s.sess c) m) :
    (ForClient (cfg.sc c) (s.sess c) ex m → givenTo cfg s s' c op = (stamp ex [m]).map fun x => (some k, x)) ∧
    (¬ ForClient (cfg.sc c) (s.sess c) ex m → givenTo cfg s s' c op = []) := by
  obtain ⟨os, hrun⟩ := Town.session hp.town (Parade.town h) c
  have hi := both_inv (hp.town.callbacks c) (hp.town.client c).1 (hp.town.server c).1 (hp.town.client c).2 (hp.town.server c).2 hrun
  obtain ⟨b, _, h1, h2⟩ := c123_written (hp.town.callbacks c) (hp.town.client c).1 (hp.town.server c).1 (hp.town.client c).2
    (hp.town.server c).2 hrun ho.1 ho.2 hid ex hex m hm hf
  cases op with
  | sess d o => cases hk
  | loop o =>
    have hx : s'.sess c = { s.sess c with d := (publishMessages (cfg.sc c) (s.sess c).d (cfg.batch k)).1 } := by
      obtain ⟨_, h'⟩ := Parade.loop_step hs
      have hk' := hk
      simp only [castFor] at hk'
      split at hk'
      · rename_i d k' ht
        split at hk'
        · cases hk'
          rename_i e
          subst e
          rw [ht] at h'
          split at h'
          · cases h'
          · cases h'
            show (if d = d then _ else _) = _
            rw [if_pos rfl]
        · cases hk'
      · cases hk'
    rw [hb] at hx
    simp only [givenTo, hk, hx, hb]
    constructor
    · intro hfor
      have h1 := h1 hfor
      obtain ⟨m', hst, e1, e2, e3, e4, e5, e6, e7, e8, e9⟩ := Audience.stamp_one ex m
      rw [hst] at h1 ⊢
      have hpub : (publishMessages (cfg.sc c) (s.sess c).d [m']).1 = (write (cfg.sc c) (s.sess c).d m').1 := by
        rcases Audience.publish_one (sc := cfg.sc c) (s.sess c).d m' with e | e
        · rw [e] at h1; simp at h1
        · exact e
      rw [hpub] at h1 ⊢
      obtain ⟨m0, q1, q2⟩ := hp.single k
      rw [hb, hst] at q1
      cases q1
      have hem := c62_emitted hi.rd (m := m') q2.app q2.err q2.ns q2.room q2.event q2.life
      have hok : (write (cfg.sc c) (s.sess c).d m').2 = true := by
        obtain ⟨b', _, hy, hn⟩ := c13_write hi.rd m'
        by_cases hmw : MayWrite (cfg.sc c) (s.sess c).d m'
        · obtain ⟨rest, k1, _, _, k4⟩ := hy hmw
          rw [k4, (hp.still c).2.takes]; rfl
        · rw [(hn hmw).1] at h1; simp at h1
      obtain ⟨p, hpipe, _⟩ := hem.1 hok
      rw [if_pos (by rw [hpipe]; simp)]
    · intro hfor
      rw [h2 hfor, if_neg (Nat.lt_irrefl _)]

/-- C129: two broadcasts that two clients both heard, they heard in the same order. -/
theorem c129_agree (hp : Parade cfg) (h : ParadeRun cfg ops s U D) (c d : Nat) {a b : Nat}
    (hc : [a, b].Sublist ((D c).filterMap (·.1))) (hd : [b, a].Sublist ((D d).filterMap (·.1))) : False := by
  obtain ⟨h1, hn⟩ := c129_order hp h c
  have q1 := hc.trans h1
  have q2 := hd.trans (c129_order hp h d).1
  revert q1 q2 hn
  generalize servedCalls s.loop.log = l
  intro hn q1 q2
  induction l with
  | nil => cases q1
  | cons x l ih =>
    obtain ⟨hx, hn'⟩ := List.nodup_cons.mp hn
    cases q1 with
    | cons _ q1 =>
      cases q2 with
      | cons _ q2 => exact ih hn' q1 q2
      | cons_cons _ q2 => exact hx (q1.subset (by simp))
    | cons_cons _ q1 =>
      cases q2 with
      | cons _ q2 => exact hx (q2.subset (by simp))
      | cons_cons _ q2 => exact hx (q1.subset (by simp))

/-- C129: when nothing moves any more in a session, its client has heard all of it. -/
theorem c129_rest (hp : Parade cfg) (h : ParadeRun cfg ops s U D) {c : Nat} (ho : Open (s.sess c))
    (hr : Standstill (cfg.cc c) (cfg.sc c) (s.sess c)) :
    heard (s.sess c).c.log = (D c).map (fun x => arrives x.2) ∧ heard (s.sess c).d.log = (U c).map arrives := by
  obtain ⟨os, hs⟩ := Parade.session hp h c
  have := c107_rest (hp.town.callbacks c) (hp.town.client c).1 (hp.town.server c).1 (hp.town.client c).2 (hp.town.server c).2
    (hp.still c).1 (hp.still c).2 hs ho hr
  refine ⟨?_, this.1⟩
  rw [this.2, List.map_map]
  rfl

/-! ## An example -/

/-- the rules of `ParadeRun`, checked -/
def paradeOk (cfg : NetCfg) (s : Net) : NetOp → Bool
  | .sess c o => bothOk (s.sess c) o && ruledOk (s.sess c) o && eventOk (s.sess c) o
  | .loop o =>
    match s.loop.touch o with
    | some (.publish c k) => (cfg.batch k).all fun m => !leavingB (s.sess c).d m.ns
    | _ => true

/-- run the steps, checking the rules -/
def paradeChecked (cfg : NetCfg) (s : Net) (U : Nat → List Message) (D : Nat → List (Option Nat × Message)) :
    List NetOp → Option (Net × (Nat → List Message) × (Nat → List (Option Nat × Message)))
  | [] => some (s, U, D)
  | op :: ops =>
    if paradeOk cfg s op then
      match s.step cfg op with
      | some s' => paradeChecked cfg s' (fun c => U c ++ takenFrom s s' c op) (fun c => D c ++ givenTo cfg s s' c op) ops
      | none => none
    else none

theorem paradeChecked_from {pre os : List NetOp} {r : Net × (Nat → List Message) × (Nat → List (Option Nat × Message))}
    (h : ParadeRun cfg pre s U D) (hr : paradeChecked cfg s U D os = some r) : ParadeRun cfg (pre ++ os) r.1 r.2.1 r.2.2 := by
  induction os generalizing pre s U D with
  | nil => simp only [paradeChecked] at hr; cases hr; simpa using h
  | cons op os ih =>
    simp only [paradeChecked] at hr
    split at hr
    · rename_i hok
      cases ho : s.step cfg op with
      | none => rw [ho] at hr; cases hr
      | some s1 =>
        rw [ho] at hr
        have h1 : ∀ c o, op = .sess c o → EventRequests (s.sess c) o := by
          rintro c o rfl
          simp only [paradeOk, Bool.and_eq_true] at hok
          refine ⟨ruledOk_rules hok.1.1 hok.1.2, ?_⟩
          have h2 := hok.2
          split
          · exact plainB_plain h2
          · exact plainB_plain h2
          · exact askedB_none (by simpa [eventOk] using h2)
          · exact askedB_none (by simpa [eventOk] using h2)
          · trivial
        have h2 : ∀ c k, castFor s c op = some k → ∀ m ∈ cfg.batch k, ¬ Leaving (s.sess c).d m.ns := by
          intro c k hk m hm hx
          cases op with
          | sess d o => cases hk
          | loop o =>
            simp only [castFor] at hk
            simp only [paradeOk] at hok
            split at hk
            · rename_i d k' ht
              split at hk
              · cases hk
                rename_i e
                subst e
                rw [ht] at hok
                have := List.all_eq_true.mp hok m hm
                rw [leavingB_iff.mpr hx] at this
                cases this
              · cases hk
            · cases hk
        simpa using ih (h.step h1 h2 ho) hr
    · cases hr

/-- every broadcast goes to `chat`; its body is its number -/
def paradeCfg : NetCfg where
  loop := {}
  cc := fun _ => pickyCli
  sc := fun c => { pickySrv with serverConnID := b! "neffos(" ++ showPtr c ++ b! ")" }
  id := fun c => b! "u" ++ showPtr c
  batch := fun k => [{ ns := b! "chat", event := b! "hi", body := [k.toUInt8] }]

theorem parade_meets : Parade paradeCfg := by
  refine ⟨⟨fun c => ⟨⟨picky_consistent.1.client, picky_consistent.1.server, picky_consistent.1.refuses, picky_consistent.1.accepts⟩,
    ⟨picky_consistent.2.client, picky_consistent.2.server, picky_consistent.2.refuses, picky_consistent.2.accepts⟩⟩,
    fun c => ⟨rfl, rfl⟩, fun c => ⟨rfl, rfl⟩, ?_⟩, fun c => ⟨picky_still.1, ?_⟩, ?_⟩
  · intro k m hm
    simp only [paradeCfg, List.mem_singleton] at hm
    subst hm; exact ⟨rfl, rfl⟩
  · exact ⟨picky_still.2.cbs, picky_still.2.nil, picky_still.2.takes⟩
  · exact fun k => ⟨_, rfl, plainB_plain (by rfl)⟩

/-- Two clients are in `chat`; three calls of Broadcast, served in another order than they were made; the connection of the
first emits in between, the second reads late and leaves the namespace before the last. -/
def paradeOps : List NetOp :=
  squareOps.take 11 ++
  ([0, 1].flatMap fun c => [.client .sendAck, .server (.ready none), .up, .down,
    .client (.connect (b! "chat") 7 false), .up, .down, .client (.resume 0)].map (NetOp.sess c)) ++
  [.loop (.call .cast), .loop (.call .cast), .loop (.call .cast),
    .loop (.recvCall 2 [1, 0]), .loop .loop, .loop .loop, .loop .loop, .sess 0 .down,
    .sess 0 (.server (.write { ns := b! "chat", event := b! "hi", body := b! "own" })),
    .loop (.recvCall 0 [0, 1]), .loop .loop, .loop .loop, .loop .loop, .sess 0 .down, .sess 1 .down,
    .sess 1 (.client (.disconnect 0 11 false)), .sess 1 .up, .sess 1 .down, .sess 1 .down, .sess 1 (.client (.resume 1)),
    .loop (.recvCall 1 [1, 0]), .loop .loop, .loop .loop, .loop .loop, .sess 0 .down, .sess 0 .down]

abbrev paradeRan : Net × (Nat → List Message) × (Nat → List (Option Nat × Message)) :=
  (paradeChecked paradeCfg (newNet paradeCfg) (fun _ => []) (fun _ => []) paradeOps).getD (newNet paradeCfg, fun _ => [], fun _ => [])

/-- C129, the premises, and what comes of it: the first client hears the broadcasts 2, 0, 1 with the event of its connection
after the first, the second client hears 2 and 0 -/
example : Parade paradeCfg ∧ ParadeRun paradeCfg paradeOps paradeRan.1 paradeRan.2.1 paradeRan.2.2 ∧
    (∀ c ∈ [0, 1], (paradeRan.1.sess c).c.closed = false ∧ (paradeRan.1.sess c).d.closed = false) ∧
    servedCalls paradeRan.1.loop.log = [2, 0, 1] ∧
    (paradeRan.2.2 0).map (·.1) = [some 2, none, some 0, some 1] ∧ (paradeRan.2.2 1).map (·.1) = [some 2, some 0] ∧
    (heard (paradeRan.1.sess 0).c.log).map (·.body) = [[2], b! "own", [0], [1]] ∧
    (heard (paradeRan.1.sess 1).c.log).map (·.body) = [[2], [0]] := by
  refine ⟨parade_meets, ?_, by decide +kernel⟩
  · have hx : (paradeChecked paradeCfg (newNet paradeCfg) (fun _ => []) (fun _ => []) paradeOps).isSome = true := by decide +kernel
    unfold paradeRan
    cases hy : paradeChecked paradeCfg (newNet paradeCfg) (fun _ => []) (fun _ => []) paradeOps with
    | none => rw [hy] at hx; cases hx
    | some r => simpa using paradeChecked_from .init hy

/-- the run before the loop comes to the second connection with the first and with the last broadcast -/
abbrev paradeAt (n : Nat) : Net :=
  ((paradeChecked paradeCfg (newNet paradeCfg) (fun _ => []) (fun _ => []) (paradeOps.take n)).getD
    (newNet paradeCfg, fun _ => [], fun _ => [])).1

/-- the premises of `c129_given` in both cases: the first broadcast is for the second client, the last is not -/
example : (∀ n k, n = 31 ∧ k = 2 ∨ n = 48 ∧ k = 1 →
      (paradeChecked paradeCfg (newNet paradeCfg) (fun _ => []) (fun _ => []) (paradeOps.take n)).isSome = true ∧
      ((paradeAt n).step paradeCfg (.loop .loop)).isSome = true ∧ castFor (paradeAt n) 1 (.loop .loop) = some k ∧
      BothOpen ((paradeAt n).sess 1) ∧ ((paradeAt n).sess 1).d.id ≠ [] ∧
      ∃ m, Ordinary m ∧ paradeCfg.batch k = stamp .nil [m] ∧ PlaceFree ((paradeAt n).sess 1) m ∧
        (ForClient (paradeCfg.sc 1) ((paradeAt n).sess 1) .nil m ↔ n = 31)) := by
  have hev : (b! "hi") ≠ OnNamespaceConnect ∧ (b! "hi") ≠ OnNamespaceDisconnect ∧ (b! "hi") ≠ OnRoomJoin ∧ (b! "hi") ≠ OnRoomLeft := by
    decide
  have h : ∀ x ∈ [(31, 2), (48, 1)],
      (paradeChecked paradeCfg (newNet paradeCfg) (fun _ => []) (fun _ => []) (paradeOps.take x.1)).isSome = true ∧
      ((paradeAt x.1).step paradeCfg (.loop .loop)).isSome = true ∧ castFor (paradeAt x.1) 1 (.loop .loop) = some x.2 ∧
      ((paradeAt x.1).sess 1).c.closed = false ∧ ((paradeAt x.1).sess 1).d.closed = false ∧ ((paradeAt x.1).sess 1).d.id ≠ [] ∧
      elsewhere ((paradeAt x.1).sess 1) (b! "chat") = true ∧
      (((paradeAt x.1).sess 1).c.namespace (b! "chat") ≠ none ↔ x.1 = 31) := by decide +kernel
  intro n k hn
  have hx := h (n, k) (by rcases hn with ⟨rfl, rfl⟩ | ⟨rfl, rfl⟩ <;> simp)
  obtain ⟨h1, h2, h3, h4, h5, h6, h7, h8⟩ := hx
  refine ⟨h1, h2, h3, ⟨h4, h5⟩, h6, _, ⟨hev.1, hev.2.1, hev.2.2.1, hev.2.2.2, rfl, rfl⟩, rfl, placeFree_of h7, ?_⟩
  exact ⟨fun q => h8.mp q.place.1, fun q => ⟨⟨h8.mpr q, .inl rfl⟩, by simp [LeftOut], .inl rfl⟩⟩

end Neffos
