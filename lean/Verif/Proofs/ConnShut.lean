import Verif.Proofs.ConnId
/-!
Helper: a connection that is closed.
-/
namespace Neffos
open Spec

variable {cfg : Cfg} {id : Bytes}

/-- the payloads that are not messages of an event: empty replies and the handshake -/
def notEvent (b : Bytes) : Prop :=
  (∃ w, b = genEmptyReplyToWait w) ∨ b = b! "M" ∨ (∃ t, b = 65 :: t) ∨ ∃ t, b = 72 :: t

theorem fines_closed {s s' : St} (h : Fines cfg s s') (hc : s.closed = true) :
    s'.closed = true ∧ ∃ l, s'.log = s.log ++ l ∧
      ∀ binary b ok, Obs.sent binary b ok ∈ l → binary = false ∧ notEvent b := by
  induction h with
  | refl => exact ⟨hc, [], by simp, by simp⟩
  | tail _ hf ih =>
    rename_i t u _
    obtain ⟨h1, l, h2, h3⟩ := ih
    have keep : ∀ v : St, v.closed = t.closed → v.log = t.log → (v.closed = true ∧ ∃ l, v.log = s.log ++ l ∧
        ∀ binary b ok, Obs.sent binary b ok ∈ l → binary = false ∧ notEvent b) :=
      fun v e1 e2 => ⟨e1.trans h1, l, e2.trans h2, h3⟩
    have one : ∀ o : Obs, (∀ binary b ok, o = Obs.sent binary b ok → binary = false ∧ notEvent b) →
        ((t.emit o).closed = true ∧ ∃ l, (t.emit o).log = s.log ++ l ∧
        ∀ binary b ok, Obs.sent binary b ok ∈ l → binary = false ∧ notEvent b) := by
      intro o ho
      refine ⟨h1, l ++ [o], by simp [St.emit, h2], fun binary b ok hm => ?_⟩
      rcases List.mem_append.mp hm with hm | hm
      · exact h3 _ _ _ hm
      · exact ho _ _ _ (List.mem_singleton.mp hm).symm
    cases hf with
    | note o ho =>
      refine one o fun binary b ok e => ?_
      subst e; simp [Obs.isNote] at ho
    | fired obj msg h ret _ _ => exact one _ (fun _ _ _ e => by cases e)
    | sentMsg msg b ok hcl _ _ _ _ => rw [h1] at hcl; simp at hcl
    | sentReply w ok _ => exact one _ fun _ _ _ e => by cases e; exact ⟨rfl, .inl ⟨_, rfl⟩⟩
    | sentAck b ok hb _ =>
      refine one _ fun _ _ _ e => ?_
      cases e
      refine ⟨rfl, .inr ?_⟩
      rcases hb with h | h | ⟨t, h⟩
      · exact .inl h
      · exact .inr (.inl ⟨_, h⟩)
      · exact .inr (.inr ⟨_, h⟩)
    | closeObs o _ ho =>
      refine one o fun binary b ok e => ?_
      subst e; simp [Obs.isCloseObs] at ho
    | setClosed hx => rw [h1] at hx; simp at hx
    | _ => exact keep _ rfl rfl

theorem write_shut {s : St} (hc : s.closed = true) (msg : Message) : write cfg s msg = (s, false) := by
  unfold write canWrite; simp [hc]

theorem closeConn_shut {s : St} (hc : s.closed = true) : closeConn cfg s = s := by
  unfold closeConn; simp [hc]

theorem runActs_shut (acts : List Act) {s : St} (hc : s.closed = true) :
    acts.foldl (runAct cfg) s = s := by
  induction acts with
  | nil => rfl
  | cons a acts ih =>
    simp only [List.foldl_cons]
    have : runAct cfg s a = s := by
      cases a with
      | write m => simp [runAct, write_shut hc]
      | close => exact closeConn_shut hc
    rw [this]; exact ih

theorem fire_shut {s : St} (hc : s.closed = true) (obj : Nat) (msg : Message) :
    fire cfg s obj msg = (s.emit (.fired obj (s.view obj msg) msg
      (pick (cfg.events (s.nsName obj)) msg.event) (verdict cfg s obj msg)), verdict cfg s obj msg) := by
  have hv := fire_snd (cfg := cfg) s obj msg
  unfold fire at hv ⊢
  dsimp only at hv ⊢
  split
  · rename_i h; rw [h] at hv ⊢; simp only at hv; rw [← hv]
  · rename_i h hp
    rw [hp] at hv; simp only at hv
    rw [runActs_shut _ (by exact hc), hv, hp]

/-- nobody works on the connection any more -/
structure Over (cfg : Cfg) (s : St) : Prop where
  closed : s.closed = true
  reader : s.rd = .dead
  asks : ∀ a ∈ s.asks, a.done = true
  notNative : cfg.onlyNative = false

/-- membership stays -/
structure Stays (s t : St) : Prop where
  connected : t.connected = s.connected
  rooms : ∀ i, t.rooms i = s.rooms i
  closed : t.closed = s.closed
  rd : t.rd = s.rd
  asks : (∀ a ∈ s.asks, a.done = true) → ∀ a ∈ t.asks, a.done = true

theorem Stays.refl (s : St) : Stays s s := ⟨rfl, fun _ => rfl, rfl, rfl, fun h => h⟩

theorem Stays.trans {a b c : St} (h : Stays a b) (k : Stays b c) : Stays a c :=
  ⟨k.connected.trans h.connected, fun i => (k.rooms i).trans (h.rooms i), k.closed.trans h.closed,
    k.rd.trans h.rd, fun x => k.asks (h.asks x)⟩

theorem stays_objs {s t : St} (h1 : t.connected = s.connected) (h2 : t.objs = s.objs)
    (h3 : t.closed = s.closed) (h4 : t.rd = s.rd) (h5 : t.asks = s.asks) : Stays s t :=
  ⟨h1, fun i => rooms_congr h2 i, h3, h4, fun h => h5 ▸ h⟩

theorem stays_emit (s : St) (o : Obs) : Stays s (s.emit o) := stays_objs rfl rfl rfl rfl rfl

theorem stays_fire {s : St} (hc : s.closed = true) (obj : Nat) (msg : Message) :
    Stays s (fire cfg s obj msg).1 := by
  rw [fire_shut hc]; exact stays_emit _ _

theorem stays_gateDone (s : St) (ns : Bytes) : Stays s (gateDone s ns) := by
  unfold gateDone
  split
  · exact .refl s
  · split
    · exact .refl s
    · exact stays_objs rfl rfl rfl rfl rfl

theorem stays_signalReady (s : St) (e : Option GoErr) : Stays s (s.signalReady e) := by
  unfold St.signalReady; split
  · exact .refl s
  · exact stays_objs rfl rfl rfl rfl rfl

theorem stays_finish_err (s : St) (k : Cont) (m : Message) (e : GoErr) :
    Stays s (finish cfg s k m (some e)) := by
  cases k with
  | connect ns obj => exact (stays_emit _ _).trans (stays_gateDone _ _)
  | _ => exact stays_emit _ _

theorem stays_startAsk {s : St} (hc : s.closed = true) (hn : cfg.onlyNative = false) (k : Cont)
    (msg : Message) (now : Int) (ex : Bool) : Stays s (startAsk cfg s k msg now ex) := by
  unfold startAsk
  rw [if_neg (by simp [hn]), if_pos hc]
  exact stays_finish_err _ _ _ _

theorem stays_steal {s s' : St} {i : Nat} {m : Message} (h : steal s i m = some s') : Stays s s' := by
  unfold steal at h
  split at h
  · simp at h
  · rename_i a ha
    split at h
    · cases h
      refine ⟨rfl, fun _ => rfl, rfl, rfl, fun hd b hb => ?_⟩
      rcases List.mem_or_eq_of_mem_set hb with hb | rfl
      · exact hd b hb
      · exact hd a (List.mem_of_getElem? ha)
    · simp at h

theorem stays_step {s s' : St} {op : Op} (ho : Over cfg s) (h : step cfg s op = some s') :
    Stays s s' := by
  have hc := ho.closed
  have hn := ho.notNative
  have he := (step_exec h).1
  cases op with
  | recv typ b => simp [exec, ho.reader] at he
  | readErr e => simp [exec, ho.reader] at he
  | wake => simp [exec, wakeReader, ho.reader] at he
  | contReader => simp [exec, contReader, ho.reader] at he
  | connect ns now ex =>
    cases he
    unfold connect
    dsimp only
    have hm : Stays s (s.markReady cfg) := by
      unfold St.markReady; split
      · exact .refl s
      · exact stays_signalReady _ _
    revert hm
    generalize s.markReady cfg = s0
    intro hm
    split
    · exact hm
    · have hg : Stays s (gateStart s0 ns) :=
        hm.trans (by unfold gateStart; exact stays_objs rfl rfl rfl rfl rfl)
      revert hg
      generalize gateStart s0 ns = s1
      intro hg
      split
      · exact (hg.trans (stays_emit _ _)).trans (stays_gateDone _ _)
      · split
        · exact (hg.trans (stays_emit _ _)).trans (stays_gateDone _ _)
        · simp only [newObj]
          have h0 : Stays s1 { s1 with objs := s1.objs ++ [⟨ns, []⟩] } := by
            refine ⟨rfl, fun i => ?_, rfl, rfl, fun h => h⟩
            unfold St.rooms
            simp only
            rcases Nat.lt_trichotomy i s1.objs.length with h | h | h
            · rw [List.getElem?_append_left h]
            · subst h; simp
            · have h1 : s1.objs[i]? = none := by simp; omega
              have h2 : (s1.objs ++ [(⟨ns, []⟩ : NSObj)])[i]? = none := by simp; omega
              rw [h1, h2]
          have h1 := hg.trans h0
          have hc1 : ({ s1 with objs := s1.objs ++ [⟨ns, []⟩] } : St).closed = true :=
            h1.closed.trans hc
          have hf := stays_fire (cfg := cfg) hc1 s1.objs.length
            { ns := ns, event := OnNamespaceConnect, isLocal := true }
          split
          · rename_i t e hfe
            rw [hfe] at hf
            exact ((h1.trans hf).trans (stays_emit _ _)).trans (stays_gateDone _ _)
          · rename_i t hfe
            rw [hfe] at hf
            exact (h1.trans hf).trans (stays_startAsk (hf.closed.trans hc1) hn _ _ _ _)
  | disconnect obj now ex =>
    simp only [exec] at he
    split at he
    · cases he
      unfold disconnect
      dsimp only
      split
      · exact stays_emit _ _
      · exact stays_startAsk hc hn _ _ _ _
    · simp at he
  | join obj room now ex =>
    simp only [exec] at he
    split at he
    · cases he
      unfold joinRoom
      dsimp only
      split
      · exact stays_emit _ _
      · exact stays_startAsk hc hn _ _ _ _
    · simp at he
  | leave obj room now ex =>
    simp only [exec] at he
    split at he
    · cases he
      unfold leaveRoom
      dsimp only
      split
      · exact stays_startAsk hc hn _ _ _ _
      · exact stays_emit _ _
    · simp at he
  | ask msg now ex => cases he; exact stays_startAsk hc hn _ _ _ _
  | write msg => cases he; rw [write_shut hc]; exact .refl s
  | resume i =>
    simp only [exec, resume] at he
    split at he
    · simp at he
    · rename_i a ha
      rw [if_pos (ho.asks a (List.mem_of_getElem? ha))] at he
      simp at he
  | cancel i e =>
    simp only [exec, cancel] at he
    split at he
    · simp at he
    · rename_i a ha
      rw [if_pos (ho.asks a (List.mem_of_getElem? ha))] at he
      simp at he
  | close => cases he; rw [closeConn_shut hc]; exact .refl s
  | steal i typ b => exact stays_steal he
  | stealErr i e => exact stays_steal he
  | ready e => cases he; exact stays_signalReady _ _
  | sendAck =>
    simp only [exec] at he
    rw [if_neg (by simp [hn])] at he
    have hw : Stays s (rawWrite cfg s (b! "M") false).1 := by
      unfold rawWrite
      dsimp only
      split
      · exact stays_emit _ _
      · split
        · have := stays_emit s (.sent false (b! "M") (cfg.sock s.log false (b! "M")).isNone)
          rw [closeConn_shut (s := s.emit _) hc]; exact this
        · exact stays_emit _ _
    revert he hw
    generalize rawWrite cfg s (b! "M") false = p
    obtain ⟨t, ok⟩ := p
    intro he hw
    cases ok with
    | true => cases he; exact hw
    | false => cases he; dsimp only at hw; rw [closeConn_shut (hw.closed.trans hc)]; exact hw
  | srvAsk tok => cases he; exact stays_objs rfl rfl rfl rfl rfl
  | srvUnask tok => cases he; exact stays_objs rfl rfl rfl rfl rfl

theorem Over.step {s s' : St} {op : Op} (ho : Over cfg s) (h : step cfg s op = some s') :
    Over cfg s' :=
  have hs := stays_step ho h
  ⟨hs.closed.trans ho.closed, hs.rd.trans ho.reader, hs.asks ho.asks, ho.notNative⟩

theorem reach_hung {s : St} (h : Reach cfg id s) : s.hung = false := by
  cases h with
  | init => unfold newConn; split <;> rfl
  | step _ hs => exact (step_exec hs).2

/-! ### Whose callbacks run -/

/-- all callbacks of the change belong to this NSConn -/
def Calls (obj : Nat) (s t : St) : Prop :=
  t.closed = false → s.closed = false ∧ ∃ l, t.log = s.log ++ l ∧ ∀ c ∈ callsOf l, c.obj = obj

theorem calls_write (s : St) (msg : Message) : (write cfg s msg).1.closed = false →
    s.closed = false ∧ ∃ l, (write cfg s msg).1.log = s.log ++ l ∧ callsOf l = [] := by
  intro h
  have e := write_open h
  refine ⟨closed_of_prims (prims_write (cfg := cfg) s msg) h, writeLog cfg s msg, by rw [e], ?_⟩
  exact (writeLog_sent s msg).calls

theorem Calls.trans {obj : Nat} {a b c : St} (h : Calls obj a b) (k : Calls obj b c) :
    Calls obj a c := by
  intro hc
  obtain ⟨k1, l, k2, k3⟩ := k hc
  obtain ⟨h1, m, h2, h3⟩ := h k1
  refine ⟨h1, m ++ l, by rw [k2, h2]; simp, fun c hm => ?_⟩
  rw [callsOf_append] at hm
  rcases List.mem_append.mp hm with hm | hm
  · exact h3 c hm
  · exact k3 c hm

theorem calls_write' (obj : Nat) (s : St) (msg : Message) : Calls obj s (write cfg s msg).1 := by
  intro h
  obtain ⟨h1, l, h2, h3⟩ := calls_write s msg h
  exact ⟨h1, l, h2, by simp [h3]⟩

theorem calls_fire (obj : Nat) (s : St) (msg : Message) : Calls obj s (fire cfg s obj msg).1 := by
  intro h
  obtain ⟨l, h1, h2⟩ := fire_any h
  exact ⟨closed_of_prims (prims_fire (cfg := cfg) s obj msg) h, l, h1.log, by simp [h2.calls]⟩

theorem calls_fire' {obj : Nat} {s t : St} {msg : Message} {r : Option GoErr}
    (h : fire cfg s obj msg = (t, r)) : Calls obj s t := by
  have := calls_fire (cfg := cfg) obj s msg
  rw [h] at this; exact this

theorem calls_empty (obj : Nat) (s : St) (w : Bytes) : Calls obj s (writeEmptyReply cfg s w) := by
  intro h
  obtain ⟨ok, h1⟩ := writeEmptyReply_open h
  exact ⟨h1.closed ▸ h, _, h1.log, by simp [callsOf]⟩

theorem calls_same {obj : Nat} {s t : St} (h1 : t.closed = s.closed) (h2 : t.log = s.log) :
    Calls obj s t := fun h => ⟨h1 ▸ h, [], by simp [h2], by simp [callsOf]⟩

theorem calls_afterGate {s : St} {obj : Nat} {msg : Message} (hn : s.namespace msg.ns = some obj)
    (hc : (afterGate cfg s msg).closed = false) :
    s.closed = false ∧ ∃ l, (afterGate cfg s msg).log = s.log ++ l ∧
      ∀ c ∈ callsOf l, c.obj = obj ∧ (msg.event = OnRoomLeave → msg.room ∈ s.rooms obj) := by
  have wrap : ∀ {t : St}, Calls obj s t → t.closed = false →
      (msg.event = OnRoomLeave → msg.room ∈ s.rooms obj) →
      s.closed = false ∧ ∃ l, t.log = s.log ++ l ∧
      ∀ c ∈ callsOf l, c.obj = obj ∧ (msg.event = OnRoomLeave → msg.room ∈ s.rooms obj) := by
    intro t h hc hx
    obtain ⟨h1, l, h2, h3⟩ := h hc
    exact ⟨h1, l, h2, fun c hm => ⟨h3 c hm, hx⟩⟩
  unfold afterGate at hc ⊢
  rw [hn] at hc ⊢
  dsimp only at hc ⊢
  split
  · rename_i hj
    rw [if_pos hj] at hc
    refine wrap ?_ hc (fun h => absurd (hj.symm.trans h) (by decide))
    unfold replyRoomJoin
    split
    · exact calls_same rfl rfl
    · split
      · exact calls_empty _ _ _
      · split
        · rename_i t e he
          exact (calls_fire' he).trans (calls_write' _ _ _)
        · rename_i t he
          have h2 : Calls obj t (t.setRooms obj (addRoom msg.room)) := calls_same rfl rfl
          exact (((calls_fire' he).trans h2).trans (calls_fire _ _ _)).trans (calls_empty _ _ _)
  · rename_i hj
    rw [if_neg hj] at hc
    split
    · rename_i hl
      rw [if_pos hl] at hc
      by_cases hm : msg.room ∈ s.rooms obj
      · refine wrap ?_ hc (fun _ => hm)
        unfold replyRoomLeave
        split
        · exact calls_same rfl rfl
        · split
          · dsimp only
            have h2 : ∀ t : St, Calls obj t (t.setRooms obj (delRoom msg.room)) :=
              fun t => calls_same rfl rfl
            exact (((calls_fire _ _ _).trans (h2 _)).trans (calls_empty _ _ _)).trans
              (calls_fire _ _ _)
          · split
            · rename_i t e he
              exact (calls_fire' he).trans (calls_write' _ _ _)
            · rename_i t he
              have h2 : Calls obj t (t.setRooms obj (delRoom msg.room)) := calls_same rfl rfl
              exact (((calls_fire' he).trans h2).trans (calls_fire _ _ _)).trans (calls_empty _ _ _)
      · unfold replyRoomLeave at hc ⊢
        split
        · rename_i hw
          rw [if_pos hw] at hc
          exact ⟨hc, [], by simp, by simp [callsOf]⟩
        · rename_i hw
          rw [if_neg hw, if_pos hm] at hc
          obtain ⟨ok, h1⟩ := writeEmptyReply_open hc
          exact ⟨h1.closed ▸ hc, _, h1.log, by simp [callsOf]⟩
    · rename_i hl
      rw [if_neg hl] at hc
      refine wrap ?_ hc (fun h => absurd h hl)
      unfold handleEvent
      dsimp only
      split
      · rename_i t e he
        exact (calls_fire' he).trans (calls_write' _ _ _)
      · rename_i t he
        exact calls_fire' he

end Neffos
