import Verif.Props.Broadcast
/-!
# C77: exactly what a broadcast hands to a connection

C37 to C40 say what applications may expect and where that fails. Here is the exact rule, for all
messages, arguments and histories of a slice, from which these failures follow.
-/
set_option autoImplicit false
namespace Neffos
open Spec

variable {cfg : Cfg}

namespace Spec

/-- the mark by ID that a broadcast with this argument leaves on the messages -/
def senderMark : Except → Option Bytes
  | .stringer x => if x = [] then none else some x
  | _ => none

/-- the mark by connection that it leaves -/
def explicitMark : Except → Option Bytes
  | .nil => none
  | .conn sid => some sid
  | .nsConn sid => some sid
  | .stringer x => if x = [] then some [] else none

/-- a message after broadcasts of its slice with these arguments: of each kind the last mark counts -/
def marked (exs : List Except) (m : Message) : Message :=
  { m with
    sender := (exs.filterMap senderMark).getLast?.getD m.sender
    fromExplicit := (exs.filterMap explicitMark).getLast?.getD m.fromExplicit }

/-- the message is for others than the connection with this ID: it has its ID as the sender, or is addressed to another -/
def NotFor (id : Bytes) (m : Message) : Prop := m.sender = id ∨ (m.to ≠ [] ∧ m.to ≠ id)

instance (id : Bytes) (m : Message) : Decidable (NotFor id m) := inferInstanceAs (Decidable (_ ∨ _))

/-- what is before the first message that is for others -/
def beforeNotFor (id : Bytes) : List Message → List Message
  | [] => []
  | m :: ms => if NotFor id m then [] else m :: beforeNotFor id ms

end Spec

theorem stamp_one (ex : Except) (msgs : List Message) : stamp ex msgs = msgs.map (marked [ex]) := by
  cases ex with
  | nil => exact (List.map_id msgs).symm
  | conn sid => simp [stamp, marked, senderMark, explicitMark]
  | nsConn sid => simp [stamp, marked, senderMark, explicitMark]
  | stringer x =>
    by_cases hx : x = []
    · simp [stamp, marked, senderMark, explicitMark, hx]
    · simp [stamp, marked, senderMark, explicitMark, hx]

theorem marked_append (a b : List Except) (m : Message) : marked (a ++ b) m = marked b (marked a m) := by
  simp only [marked, List.filterMap_append, List.getLast?_append]
  cases (List.filterMap senderMark b).getLast? <;> cases (List.filterMap explicitMark b).getLast? <;> simp

/-- C77: broadcasting a slice any number of times leaves on each message, of each of the two kinds
of marks, the last one, and changes nothing else. -/
theorem c77_marks (exs : List Except) (msgs : List Message) :
    exs.foldl (fun ms e => stamp e ms) msgs = msgs.map (marked exs) := by
  induction exs generalizing msgs with
  | nil => exact (List.map_id msgs).symm
  | cons e exs ih =>
    rw [List.foldl_cons, ih, stamp_one, List.map_map]
    apply List.map_congr_left
    intro m _
    rw [show e :: exs = [e] ++ exs from rfl, marked_append]
    rfl

theorem writes_closed (s : St) (ms : List Message) (h : s.closed = true) :
    ms.foldl (fun s m => (write cfg s m).1) s = s := by
  induction ms with
  | nil => rfl
  | cons m ms ih => rw [List.foldl_cons, write_closed s m h]; exact ih

/-- C77: of a batch a connection is handed exactly the messages before the first one that is for
others, each by one `Write`, in order, whatever the socket does. -/
theorem c77_handed (s : St) (ms : List Message) :
    (publishMessages cfg s ms).1 = (beforeNotFor s.id ms).foldl (fun s m => (write cfg s m).1) s := by
  induction ms generalizing s with
  | nil => rfl
  | cons m ms ih =>
    simp only [beforeNotFor]
    by_cases h : NotFor s.id m
    · rw [if_pos h]
      rw [publish_skip s m ms h]
      rfl
    · rw [if_neg h, List.foldl_cons]
      simp only [publishMessages]
      rw [if_neg (fun e => h (Or.inl e)), if_neg (fun e => h (Or.inr e))]
      have hid := write_id (cfg := cfg) s m
      generalize write cfg s m = p at hid ⊢
      obtain ⟨t, ok⟩ := p
      dsimp only at hid ⊢
      split
      · rename_i hc
        simp only [Bool.and_eq_true] at hc
        rw [writes_closed t _ hc.2]
      · rw [ih, hid]

/-- one write, seen from the wire -/
theorem write_sent (s : St) (m : Message) (hk : (s.connected.map (·.1)).Nodup)
    (hinj : ∀ (n n' : Bytes) (obj : Nat), s.namespace n = some obj → s.namespace n' = some obj → n = n') :
    (MayWrite cfg s m → sentOf (write cfg s m).1.log = sentOf s.log ++ [(m.setBinary, wireOf m)]) ∧
    (¬ MayWrite cfg s m → sentOf (write cfg s m).1.log = sentOf s.log) := by
  constructor
  · intro hm
    by_cases hc : (write cfg s m).1.closed = false
    · rw [write_open hc]
      simp only [writeLog, if_pos hm, sentOf_append]
      rfl
    · rw [write_eq, if_pos hm] at hc ⊢
      have e := markReady_eq (cfg := cfg) s
      have hl : (s.markReady cfg).log = s.log := by rw [e]
      have hcc : (s.markReady cfg).closed = s.closed := by rw [e]
      unfold rawWrite at hc ⊢
      dsimp only at hc ⊢
      split
      · simp [St.emit, hl, sentOf_append, sentOf]
      · split
        · obtain ⟨rest, h1, h2⟩ := closeConn_sent (cfg := cfg)
            ((s.markReady cfg).emit (.sent m.setBinary (wireOf m) (cfg.sock (s.markReady cfg).log m.setBinary (wireOf m)).isNone))
            (by simp only [St.emit]; rw [hcc]; exact hm.1)
            (by simp only [St.emit]; rw [e]; exact hk)
            (by
              intro n n' obj a1 a2
              unfold St.namespace at a1 a2
              simp only [St.emit] at a1 a2
              rw [e] at a1 a2
              exact hinj n n' obj a1 a2)
          rw [h1]
          simp [St.emit, hl, sentOf_append, sentOf, h2]
        · simp [St.emit, hl, sentOf_append, sentOf]
  · intro hm
    rw [(write_maynot hm).log]
    simp

/-- the write gate does not depend on what else happened -/
theorem mayWrite_of {s t : St} (h1 : t.closed = s.closed) (h2 : t.id = s.id) (h3 : t.connected = s.connected)
    (h4 : t.objs = s.objs) (m : Message) : MayWrite cfg t m ↔ MayWrite cfg s m := by
  simp only [MayWrite, IsSender, St.namespace, St.rooms, h1, h2, h3, h4]

open Classical in
/-- C77: of these it writes exactly the ones that the write gate (C13) lets through, in order, each
once; if a failing socket closes the connection meanwhile, the first of them up to then. -/
theorem c77_sent {id0 : Bytes} {s : St} (hr : Reach cfg id0 s) (ms : List Message) :
    ∃ l, l <+: ((beforeNotFor s.id ms).filter (fun m => decide (MayWrite cfg s m))).map (fun m => (m.setBinary, wireOf m)) ∧
      sentOf (publishMessages cfg s ms).1.log = sentOf s.log ++ l ∧
      ((publishMessages cfg s ms).1.closed = false →
        l = ((beforeNotFor s.id ms).filter (fun m => decide (MayWrite cfg s m))).map (fun m => (m.setBinary, wireOf m))) := by
  rw [c77_handed]
  generalize beforeNotFor s.id ms = ms'
  have hk := reach_keys hr
  have hinj := reach_inj hr
  clear hr
  induction ms' generalizing s with
  | nil => exact ⟨[], by simp, by simp, by simp⟩
  | cons m ms' ih =>
    rw [List.foldl_cons]
    obtain ⟨w1, w2⟩ := write_sent (cfg := cfg) s m hk hinj
    by_cases hc : (write cfg s m).1.closed = false
    · have ho := write_open hc
      have e1 : (write cfg s m).1.connected = s.connected := by rw [ho]
      have e2 : (write cfg s m).1.objs = s.objs := by rw [ho]
      have e3 : (write cfg s m).1.closed = s.closed := by rw [ho]
      have e4 : (write cfg s m).1.id = s.id := by rw [ho]
      have hmay := fun x => mayWrite_of (cfg := cfg) e3 e4 e1 e2 x
      obtain ⟨l, h1, h2, h3⟩ := ih (s := (write cfg s m).1) (by rw [e1]; exact hk)
        (by
          intro n n' obj a1 a2
          unfold St.namespace at a1 a2
          rw [e1] at a1 a2
          exact hinj n n' obj a1 a2)
      have hf : ms'.filter (fun x => decide (MayWrite cfg (write cfg s m).1 x)) = ms'.filter (fun x => decide (MayWrite cfg s x)) := by
        apply List.filter_congr
        intro x _
        rw [decide_eq_decide]
        exact hmay x
      rw [hf] at h1 h3
      by_cases hm : MayWrite cfg s m
      · rw [List.filter_cons_of_pos (by simpa using hm), List.map_cons]
        refine ⟨_ :: l, List.cons_prefix_cons.mpr ⟨rfl, h1⟩, ?_, fun h => by rw [h3 h]⟩
        rw [h2, w1 hm, List.append_assoc]
        rfl
      · rw [List.filter_cons_of_neg (by simpa using hm)]
        exact ⟨l, h1, by rw [h2, w2 hm], h3⟩
    · have hc : (write cfg s m).1.closed = true := by simpa using hc
      rw [writes_closed _ _ hc]
      by_cases hm : MayWrite cfg s m
      · rw [List.filter_cons_of_pos (by simpa using hm), List.map_cons]
        refine ⟨[(m.setBinary, wireOf m)], List.cons_prefix_cons.mpr ⟨rfl, List.nil_prefix⟩, w1 hm, fun h => ?_⟩
        rw [hc] at h; simp at h
      · refine ⟨[], List.nil_prefix, by rw [w2 hm]; simp, fun h => ?_⟩
        rw [hc] at h; simp at h

open Classical in
/-- C77, the whole rule for a connection that stays open: what one more broadcast of a slice writes to it. -/
theorem c77_exact {id0 : Bytes} {s : St} (hr : Reach cfg id0 s) (exs : List Except) (ms : List Message)
    (ho : (publishMessages cfg s (exs.foldl (fun ms e => stamp e ms) ms)).1.closed = false) :
    sentOf (publishMessages cfg s (exs.foldl (fun ms e => stamp e ms) ms)).1.log = sentOf s.log ++
      ((beforeNotFor s.id (ms.map (marked exs))).filter (fun m => decide (MayWrite cfg s m))).map
        (fun m => (m.setBinary, wireOf m)) := by
  obtain ⟨l, _, h2, h3⟩ := c77_sent hr (exs.foldl (fun ms e => stamp e ms) ms)
  rw [h2, h3 ho, c77_marks]

/-- a batch of three of which the connection gets the first only, since the second is for another -/
example :
    let cfg := serverCfg chatDecl noCb
    let s := after cfg (b! "b") chatSrvOps
    let m : Bytes → Message := fun to => { ns := b! "chat", event := b! "e", to := to }
    beforeNotFor s.id ([m [], m (b! "a"), m (b! "b")].map (marked [.stringer (b! "x"), .nil])) =
        [{ m [] with sender := b! "x" }] ∧
      (publishMessages cfg s [m [], m (b! "a"), m (b! "b")]).1.closed = false ∧
      sentOf (publishMessages cfg s [m [], m (b! "a"), m (b! "b")]).1.log = sentOf s.log ++ [(false, b! ";chat;;e;0;0;")] := by
  decide +kernel

end Neffos
