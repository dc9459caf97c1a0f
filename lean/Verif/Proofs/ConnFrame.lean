import Verif.Proofs.ConnPrim
import Verif.Spec.Conn
/-!
Helper: what a callback and a write change as long as they do not close the connection.
-/
namespace Neffos
open Spec

variable {cfg : Cfg}

/-! ### Projections of logs -/

@[simp] theorem firedOf_append (a b : List Obs) : firedOf (a ++ b) = firedOf a ++ firedOf b := by
  induction a with
  | nil => rfl
  | cons o a ih => cases o <;> simp [firedOf, ih]

@[simp] theorem sentOf_append (a b : List Obs) : sentOf (a ++ b) = sentOf a ++ sentOf b := by
  induction a with
  | nil => rfl
  | cons o a ih => cases o <;> simp [sentOf, ih]

@[simp] theorem retOf_append (a b : List Obs) : retOf (a ++ b) = retOf a ++ retOf b := by
  induction a with
  | nil => rfl
  | cons o a ih => cases o <;> simp [retOf, ih]

@[simp] theorem otherOf_append (a b : List Obs) : otherOf (a ++ b) = otherOf a ++ otherOf b := by
  induction a with
  | nil => rfl
  | cons o a ih => cases o <;> simp [otherOf, ih]

/-- only writes -/
def AllSent (l : List Obs) : Prop := ∀ o ∈ l, ∃ binary b ok, o = Obs.sent binary b ok

theorem AllSent.nil : AllSent [] := by intro o h; simp at h

theorem AllSent.append {a b : List Obs} (ha : AllSent a) (hb : AllSent b) : AllSent (a ++ b) := by
  intro o h
  rcases List.mem_append.mp h with h | h
  · exact ha o h
  · exact hb o h

theorem AllSent.one (binary : Bool) (b : Bytes) (ok : Bool) : AllSent [.sent binary b ok] := by
  intro o h; simp at h; exact ⟨binary, b, ok, h⟩

theorem AllSent.tail {o : Obs} {l : List Obs} (h : AllSent (o :: l)) : AllSent l :=
  fun x hx => h x (List.mem_cons_of_mem _ hx)

theorem AllSent.projections {l : List Obs} (h : AllSent l) :
    firedOf l = [] ∧ retOf l = [] ∧ otherOf l = [] := by
  induction l with
  | nil => exact ⟨rfl, rfl, rfl⟩
  | cons o l ih =>
    obtain ⟨b, p, ok, rfl⟩ := h o List.mem_cons_self
    exact ih h.tail

theorem AllSent.calls {l : List Obs} (h : AllSent l) : callsOf l = [] := by
  induction l with
  | nil => rfl
  | cons o l ih =>
    obtain ⟨b, p, ok, rfl⟩ := h o List.mem_cons_self
    exact ih h.tail

@[simp] theorem callsOf_append (a b : List Obs) : callsOf (a ++ b) = callsOf a ++ callsOf b := by
  induction a with
  | nil => rfl
  | cons o a ih => cases o <;> simp [callsOf, ih]

theorem view_eq (s : St) (obj : Nat) (msg : Message) :
    s.view obj msg = ⟨s.nsName obj, linked s obj, msg.room ∈ s.rooms obj⟩ := rfl

/-! ### Writing -/

theorem isSender_iff (s : St) (msg : Message) :
    s.is cfg msg.fromExplicit = true ↔ IsSender cfg s msg := by
  unfold St.is IsSender
  by_cases h : msg.fromExplicit = []
  · simp [h]
  · rw [if_neg h]
    by_cases hc : cfg.isClient = true
    · simp [hc, h, eq_comm]
    · simp [hc, h, eq_comm]

theorem membershipAllows_iff (s : St) (msg : Message) :
    membershipAllows s msg = true ↔
      (msg.event = OnNamespaceConnect ∨ msg.event = OnNamespaceDisconnect ∨
      ∃ obj, s.namespace msg.ns = some obj ∧
        (msg.room = [] ∨ msg.event = OnRoomJoin ∨ msg.event = OnRoomLeft ∨
          msg.room ∈ s.rooms obj)) := by
  unfold membershipAllows
  by_cases h : (msg.isConnect || msg.isDisconnect) = true
  · rw [if_pos h]
    simp only [Bool.or_eq_true, Message.isConnect, Message.isDisconnect, decide_eq_true_eq] at h
    rcases h with h | h <;> simp [h]
  · rw [if_neg h]
    simp only [Bool.or_eq_true, Message.isConnect, Message.isDisconnect, decide_eq_true_eq,
      not_or] at h
    cases hn : s.namespace msg.ns with
    | none => simp [h.1, h.2]
    | some obj =>
      simp only [Message.isRoomJoin, Message.isRoomLeft, decide_eq_false_iff_not]
      by_cases hr : msg.room ≠ [] ∧ ¬ msg.event = OnRoomJoin ∧ ¬ msg.event = OnRoomLeft
      · rw [if_pos hr]
        simp [h.1, h.2, hr.1, hr.2.1, hr.2.2]
      · rw [if_neg hr]
        simp only [true_iff]
        refine Or.inr (Or.inr ⟨obj, rfl, ?_⟩)
        by_cases h1 : msg.room = []
        · exact Or.inl h1
        · by_cases h2 : msg.event = OnRoomJoin
          · exact Or.inr (Or.inl h2)
          · by_cases h3 : msg.event = OnRoomLeft
            · exact Or.inr (Or.inr (Or.inl h3))
            · exact absurd ⟨h1, h2, h3⟩ hr

theorem mayWrite_iff (s : St) (msg : Message) :
    MayWrite cfg s msg ↔
      (s.closed = false ∧ (membershipAllows s msg && !(s.is cfg msg.fromExplicit)) = true) := by
  unfold MayWrite
  rw [Bool.and_eq_true, membershipAllows_iff, Bool.not_eq_true', ← isSender_iff,
    Bool.not_eq_true]
  constructor
  · rintro ⟨a, b, c⟩; exact ⟨a, c, b⟩
  · rintro ⟨a, c, b⟩; exact ⟨a, b, c⟩

@[simp] theorem signalReady_log (s : St) (e : Option GoErr) : (s.signalReady e).log = s.log := by
  unfold St.signalReady; split <;> rfl

theorem markReady_eq (s : St) : s.markReady cfg = { s with ready := (s.markReady cfg).ready } := by
  unfold St.markReady
  split
  · rfl
  · unfold St.signalReady; split <;> rfl

theorem membershipAllows_markReady (s : St) (msg : Message) :
    membershipAllows (s.markReady cfg) msg = membershipAllows s msg := by
  rw [markReady_eq]; rfl

/-- the serialization of a message that is written -/
def wireOf (msg : Message) : Bytes :=
  (serializeMessage { msg with fromExplicit := [] }).getD []

theorem serialize_wireOf (msg : Message) :
    serializeMessage { msg with fromExplicit := [] } = some (wireOf msg) := by
  unfold wireOf
  have : (serializeMessage { msg with fromExplicit := [] }).isSome := by
    unfold serializeMessage
    split
    · rfl
    · simp
  obtain ⟨b, hb⟩ := Option.isSome_iff_exists.mp this
  rw [hb]; rfl

open Classical in
theorem write_eq (s : St) (msg : Message) :
    write cfg s msg =
      if MayWrite cfg s msg then rawWrite cfg (s.markReady cfg) (wireOf msg) msg.setBinary
      else if s.closed = true then (s, false) else (s.markReady cfg, false) := by
  unfold write canWrite
  by_cases hc : s.closed = true
  · have : ¬ MayWrite cfg s msg := fun h => by rw [h.1] at hc; simp at hc
    simp [hc, this]
  · rw [if_neg hc, if_neg hc]
    rw [membershipAllows_markReady]
    have hc' : s.closed = false := by simpa using hc
    by_cases hm : (membershipAllows s msg && !(s.is cfg msg.fromExplicit)) = true
    · have : MayWrite cfg s msg := (mayWrite_iff s msg).mpr ⟨hc', hm⟩
      rw [if_pos this]
      simp only [hm, if_true, serialize_wireOf]
    · have : ¬ MayWrite cfg s msg := fun h => hm ((mayWrite_iff s msg).mp h).2
      rw [if_neg this]
      simp only [hm]
      simp

theorem closeEnd_closed (s : St) : (closeEnd cfg s).closed = s.closed := by
  unfold closeEnd; split <;> rfl

theorem closeConn_closed (s : St) : (closeConn cfg s).closed = true := by
  unfold closeConn
  split
  · assumption
  · split
    · rw [closeEnd_closed]
    · rw [closeEnd_closed]
      exact (Fines.grows (fines_closeAll (cfg := cfg) { s with closed := true } rfl)).closed rfl

/-- a raw write that leaves the connection open -/
theorem rawWrite_open {s : St} {b : Bytes} {binary : Bool}
    (h : (rawWrite cfg s b binary).1.closed = false) :
    rawWrite cfg s b binary =
      ({ s with log := s.log ++ [.sent binary b (cfg.sock s.log binary b).isNone] },
        (cfg.sock s.log binary b).isNone) := by
  unfold rawWrite at h ⊢
  dsimp only at h ⊢
  split
  · rename_i he; simp [St.emit, he]
  · rename_i he
    rw [if_neg he] at h
    split
    · rename_i hc
      rw [if_pos hc] at h
      rw [closeConn_closed] at h
      simp at h
    · simp [St.emit, he]

open Classical in
/-- what a write adds to the history if it does not close the connection -/
noncomputable def writeLog (cfg : Cfg) (s : St) (msg : Message) : List Obs :=
  if MayWrite cfg s msg then
    [.sent msg.setBinary (wireOf msg) (cfg.sock s.log msg.setBinary (wireOf msg)).isNone]
  else []

theorem writeLog_sent (s : St) (msg : Message) : AllSent (writeLog cfg s msg) := by
  unfold writeLog
  split
  · exact AllSent.one _ _ _
  · exact AllSent.nil

theorem write_open {s : St} {msg : Message} (h : (write cfg s msg).1.closed = false) :
    (write cfg s msg).1 =
      { s with ready := (s.markReady cfg).ready, log := s.log ++ writeLog cfg s msg } := by
  rw [write_eq] at h ⊢
  unfold writeLog
  split
  · rename_i hm
    rw [if_pos hm] at h
    rw [rawWrite_open h, markReady_eq]
  · rename_i hm
    rw [if_neg hm] at h
    split
    · rename_i hc; rw [if_pos hc] at h; simp [hc] at h
    · conv => lhs; rw [markReady_eq]
      simp

/-- equal up to readiness and history -/
def Same (s : St) (l : List Obs) (s' : St) : Prop :=
  ∃ r, s' = { s with ready := r, log := s.log ++ l }

theorem Same.refl (s : St) : Same s [] s := ⟨s.ready, by simp⟩

theorem Same.trans {a b c : St} {l m : List Obs} (h1 : Same a l b) (h2 : Same b m c) :
    Same a (l ++ m) c := by
  obtain ⟨r, rfl⟩ := h1
  obtain ⟨q, rfl⟩ := h2
  exact ⟨q, by simp⟩

theorem Same.emit (s : St) (o : Obs) : Same s [o] (s.emit o) := ⟨s.ready, rfl⟩

theorem closed_of_prims {s s' : St} (h : Prims cfg s s') (hc : s'.closed = false) :
    s.closed = false := by
  cases h' : s.closed with
  | false => rfl
  | true => rw [(Prims.grows h).closed h'] at hc; simp at hc

theorem hung_of_prims {s s' : St} (h : Prims cfg s s') (hc : s'.hung = false) :
    s.hung = false := by
  cases h' : s.hung with
  | false => rfl
  | true => rw [(Prims.grows h).hung h'] at hc; simp at hc

/-- all these were written by the given calls of a callback -/
def SentBy (acts : List Act) (l : List Obs) : Prop :=
  ∀ x ∈ sentOf l, ∃ m, Act.write m ∈ acts ∧ x = (m.setBinary, wireOf m)

theorem SentBy.nil (acts : List Act) : SentBy acts [] := by intro x h; simp [sentOf] at h

theorem SentBy.append {a : Act} {acts : List Act} {l1 l2 : List Obs} (h1 : SentBy [a] l1)
    (h2 : SentBy acts l2) : SentBy (a :: acts) (l1 ++ l2) := by
  intro x hx
  rw [sentOf_append] at hx
  rcases List.mem_append.mp hx with hx | hx
  · obtain ⟨m, h, e⟩ := h1 x hx
    exact ⟨m, by simp at h; simp [h], e⟩
  · obtain ⟨m, h, e⟩ := h2 x hx
    exact ⟨m, List.mem_cons_of_mem _ h, e⟩

theorem SentBy.wrote {log : List Obs} {obj : Nat} {handler : Bytes} {msg : Message} {l : List Obs}
    (h : SentBy (cfg.cb log obj handler msg).1 l) : ∀ x ∈ sentOf l, CbWrote cfg x := by
  intro x hx
  obtain ⟨m, h1, rfl⟩ := h x hx
  exact ⟨log, obj, handler, msg, m, h1, rfl, serialize_wireOf m⟩

theorem runAct_open {s : St} {a : Act} (h : (runAct cfg s a).closed = false) :
    ∃ l, (AllSent l ∧ SentBy [a] l) ∧ Same s l (runAct cfg s a) := by
  cases a with
  | write m =>
    refine ⟨writeLog cfg s m, ⟨writeLog_sent s m, ?_⟩, _, write_open h⟩
    unfold writeLog
    split
    · intro x hx
      simp only [sentOf, List.mem_singleton] at hx
      exact ⟨m, by simp, hx⟩
    · exact SentBy.nil _
  | close =>
    simp only [runAct] at h
    rw [closeConn_closed] at h; simp at h

theorem runActs_open {acts : List Act} {s : St}
    (h : (acts.foldl (runAct cfg) s).closed = false) :
    ∃ l, (AllSent l ∧ SentBy acts l) ∧ Same s l (acts.foldl (runAct cfg) s) := by
  induction acts generalizing s with
  | nil => exact ⟨[], ⟨AllSent.nil, SentBy.nil _⟩, Same.refl s⟩
  | cons a acts ih =>
    simp only [List.foldl_cons] at h ⊢
    have hp := prims_foldl (cfg := cfg) (runAct cfg) acts (fun s x => prims_runAct s x) (runAct cfg s a)
    obtain ⟨l1, h1, e1⟩ := runAct_open (closed_of_prims hp h)
    obtain ⟨l2, h2, e2⟩ := ih h
    exact ⟨l1 ++ l2, ⟨h1.1.append h2.1, h1.2.append h2.2⟩, e1.trans e2⟩

theorem fire_snd (s : St) (obj : Nat) (msg : Message) :
    (fire cfg s obj msg).2 = verdict cfg s obj msg := by
  unfold fire verdict pick
  dsimp only
  by_cases h1 : msg.event ∈ cfg.events (s.nsName obj)
  · simp [h1]
  · by_cases h2 : OnAnyEvent ∈ cfg.events (s.nsName obj)
    · simp [h1, h2]
    · simp [h1, h2]

theorem Same.self {s : St} {l : List Obs} (h : Same s l s) : l = [] := by
  obtain ⟨r, e⟩ := h
  have := congrArg St.log e
  simpa using this

theorem fire_open {s : St} {obj : Nat} {msg : Message}
    (h : (fire cfg s obj msg).1.closed = false) :
    ∃ l, AllSent l ∧ (∀ x ∈ sentOf l, CbWrote cfg x) ∧ Same s
      (.fired obj (s.view obj msg) msg (pick (cfg.events (s.nsName obj)) msg.event)
        (verdict cfg s obj msg) :: l) (fire cfg s obj msg).1 := by
  have hv := fire_snd (cfg := cfg) s obj msg
  unfold fire at h hv ⊢
  dsimp only at h hv ⊢
  cases hp : pick (cfg.events (s.nsName obj)) msg.event with
  | none =>
    rw [hp] at h hv
    dsimp only at h hv ⊢
    refine ⟨[], AllSent.nil, fun x hx => by simp [sentOf] at hx, ?_⟩
    rw [← hv]
    exact Same.emit s _
  | some e =>
    rw [hp] at h hv
    dsimp only at h hv ⊢
    obtain ⟨l, hl, he⟩ := runActs_open h
    refine ⟨l, hl.1, hl.2.wrote, ?_⟩
    · rw [← hv]
      exact (Same.emit s _).trans he

theorem runActLocked_open {s : St} {obj : Nat} {a : Act}
    (h : (runActLocked cfg obj s a).closed = false) (hh : (runActLocked cfg obj s a).hung = false) :
    ∃ l, (AllSent l ∧ SentBy [a] l) ∧ Same s l (runActLocked cfg obj s a) := by
  unfold runActLocked at h hh ⊢
  split at hh
  · simp at hh
  · rename_i hn
    rw [if_neg hn] at h ⊢
    exact runAct_open h

theorem runActsLocked_open {acts : List Act} {s : St} {obj : Nat}
    (h : (acts.foldl (runActLocked cfg obj) s).closed = false)
    (hh : (acts.foldl (runActLocked cfg obj) s).hung = false) :
    ∃ l, (AllSent l ∧ SentBy acts l) ∧ Same s l (acts.foldl (runActLocked cfg obj) s) := by
  induction acts generalizing s with
  | nil => exact ⟨[], ⟨AllSent.nil, SentBy.nil _⟩, Same.refl s⟩
  | cons a acts ih =>
    simp only [List.foldl_cons] at h hh ⊢
    have hp := prims_foldl (cfg := cfg) (runActLocked cfg obj) acts
      (fun s x => prims_runActLocked obj s x) (runActLocked cfg obj s a)
    obtain ⟨l1, h1, e1⟩ := runActLocked_open (closed_of_prims hp h) (hung_of_prims hp hh)
    obtain ⟨l2, h2, e2⟩ := ih h hh
    exact ⟨l1 ++ l2, ⟨h1.1.append h2.1, h1.2.append h2.2⟩, e1.trans e2⟩

theorem fireLocked_open {s : St} {obj : Nat} {msg : Message}
    (h : (fireLocked cfg s obj msg).closed = false) (hh : (fireLocked cfg s obj msg).hung = false) :
    ∃ l, AllSent l ∧ (∀ x ∈ sentOf l, CbWrote cfg x) ∧ Same s
      (.fired obj (s.view obj msg) msg (pick (cfg.events (s.nsName obj)) msg.event)
        (verdict cfg s obj msg) :: l) (fireLocked cfg s obj msg) := by
  have hv := fire_snd (cfg := cfg) s obj msg
  unfold fire at hv
  unfold fireLocked at h hh ⊢
  dsimp only at h hh hv ⊢
  cases hp : pick (cfg.events (s.nsName obj)) msg.event with
  | none =>
    rw [hp] at h hh hv
    dsimp only at h hh hv ⊢
    refine ⟨[], AllSent.nil, fun x hx => by simp [sentOf] at hx, ?_⟩
    rw [← hv]
    exact Same.emit s _
  | some e =>
    rw [hp] at h hh hv
    dsimp only at h hh hv ⊢
    obtain ⟨l, hl, he⟩ := runActsLocked_open h hh
    refine ⟨l, hl.1, hl.2.wrote, ?_⟩
    · rw [← hv]
      exact (Same.emit s _).trans he

end Neffos
