import Verif.Proofs.AgreeRun
/-!
Helper lemmas for the absence of deadlocks: what the server writes is about namespaces that it is
connected to.
-/
set_option autoImplicit false
namespace Neffos
open Neffos.Spec

variable {cfg cc sc : Cfg} {id : Bytes} {known : List KnownErr}

/-- the payload is about this namespace, and neither connects nor disconnects it -/
def Talks (known : List KnownErr) (x : MsgType × Bytes) (n : Bytes) : Prop :=
  (deserializeMessage known x.1 x.2 false false).ns = n ∧
    (deserializeMessage known x.1 x.2 false false).event ≠ OnNamespaceConnect ∧
    (deserializeMessage known x.1 x.2 false false).event ≠ OnNamespaceDisconnect

/-- the payloads without a token are about such namespaces -/
def Fits (known : List KnownErr) (N : Bytes → Prop) (l : List (MsgType × Bytes)) : Prop :=
  ∀ x ∈ l, CalmP x → ∀ n, Talks known x n → N n

theorem Fits.nil {N : Bytes → Prop} : Fits known N [] := fun _ hx => by cases hx

theorem Fits.append {N : Bytes → Prop} {a b : List (MsgType × Bytes)} (ha : Fits known N a) (hb : Fits known N b) :
    Fits known N (a ++ b) := fun x hx => (List.mem_append.mp hx).elim (ha x) (hb x)

theorem Fits.imp {N N' : Bytes → Prop} {a : List (MsgType × Bytes)} (ha : Fits known N a) (h : ∀ n, N n → N' n) :
    Fits known N' a := fun x hx hc n hn => h n (ha x hx hc n hn)

theorem Fits.sub {N : Bytes → Prop} {a b : List (MsgType × Bytes)} (ha : Fits known N a) (h : ∀ x ∈ b, x ∈ a) :
    Fits known N b := fun x hx => ha x (h x hx)

/-- the names of the namespaces survive the wire -/
def SafeNs (s : St) : Prop := ∀ n, InNs s n → SafeName n

/-- the namespaces stay, and what is written is about them -/
structure Keeps (known : List KnownErr) (s t : St) : Prop where
  conn : t.connected = s.connected
  log : ∃ l, t.log = s.log ++ l ∧ Fits known (InNs s) (pipe l)

theorem inNs_conn {s t : St} (h : t.connected = s.connected) : InNs t = InNs s := by
  funext n
  unfold InNs St.namespace
  rw [h]

theorem Keeps.refl (s : St) : Keeps known s s := ⟨rfl, [], by simp, .nil⟩

theorem Keeps.trans {s t u : St} (h : Keeps known s t) (k : Keeps known t u) : Keeps known s u := by
  obtain ⟨l1, h1, h2⟩ := h.log
  obtain ⟨l2, k1, k2⟩ := k.log
  refine ⟨k.conn.trans h.conn, l1 ++ l2, by rw [k1, h1, List.append_assoc], ?_⟩
  rw [pipe_append]
  rw [inNs_conn h.conn] at k2
  exact h2.append k2

theorem Keeps.safe {s t : St} (h : Keeps known s t) (hs : SafeNs s) : SafeNs t := by
  unfold SafeNs
  rw [inNs_conn h.conn]
  exact hs

theorem Keeps.of {s t : St} (h1 : t.connected = s.connected) (h2 : t.log = s.log) : Keeps known s t :=
  ⟨h1, [], by simp [h2], .nil⟩

theorem Keeps.emit (s : St) {o : Obs} (h : pipe [o] = []) : Keeps known s (s.emit o) :=
  ⟨rfl, [o], rfl, by rw [h]; exact .nil⟩

theorem Keeps.same {s t : St} {l : List Obs} (h : Same s l t) (hl : Fits known (InNs s) (pipe l)) : Keeps known s t :=
  ⟨h.connected, l, h.log, hl⟩

/-- a message whose token can be told from the rest of the frame -/
def Framed (m : Message) : Prop := sepByte ∉ m.wait ∧ m.isNative = false

theorem app_framed {m : Message} (h : AppMsg m) : Framed m := ⟨by rw [h.1]; simp, h.2⟩

/-- a message that passes the write gate is about a connected namespace -/
theorem wire_talks {s : St} {m : Message} {ty : MsgType} (hsafe : SafeNs s) (hf : Framed m) (hm : MayWrite cfg s m)
    {n : Bytes} (hn : Talks known (ty, wireOf m) n) : InNs s n := by
  obtain ⟨h1, h2, h3⟩ := hn
  dsimp only at h1 h2 h3
  have hd := decode_encode known ty { m with fromExplicit := [] } (wireOf m) false
    (fun h => by rw [show m.isNative = false from hf.2] at h; cases h.1) (by simp only [wireHead, if_true]; exact hf.1) (serialize_wireOf m)
  rw [hd] at h1 h2 h3
  dsimp only at h1 h2 h3
  obtain ⟨_, _, k | k | ⟨obj, k, _⟩⟩ := hm
  · exact absurd (by rw [k]; decide +kernel) h2
  · exact absurd (by rw [k]; decide +kernel) h3
  · have hin : InNs s m.ns := by unfold InNs; rw [k]; simp
    rw [(unescape_escape_iff _).mpr (hsafe _ hin)] at h1
    rw [← h1]
    exact hin

theorem keeps_write {s : St} {m : Message} (hsafe : SafeNs s) (hf : Framed m)
    (h : (write cfg s m).1.closed = false) : Keeps known s (write cfg s m).1 := by
  refine .same ⟨_, write_open h⟩ ?_
  unfold writeLog
  split
  · rename_i hm
    intro x hx _ n hn
    cases hs : (cfg.sock s.log m.setBinary (wireOf m)).isNone with
    | false => rw [hs] at hx; simp [pipe] at hx
    | true =>
      rw [hs] at hx
      simp only [pipe, List.mem_singleton] at hx
      rw [hx] at hn
      exact wire_talks hsafe hf hm hn
  · exact .nil

theorem keeps_runAct {s : St} {a : Act} (hsafe : SafeNs s) (ha : ∀ m, a = .write m → AppMsg m)
    (h : (runAct cfg s a).closed = false) : Keeps known s (runAct cfg s a) := by
  cases a with
  | write m => exact keeps_write hsafe (app_framed (ha m rfl)) h
  | close => simp only [runAct] at h; rw [closeConn_closed] at h; cases h

theorem keeps_runActs {acts : List Act} {s : St} (hsafe : SafeNs s) (ha : ∀ m, Act.write m ∈ acts → AppMsg m)
    (h : (acts.foldl (runAct cfg) s).closed = false) : Keeps known s (acts.foldl (runAct cfg) s) := by
  induction acts generalizing s with
  | nil => exact .refl s
  | cons a acts ih =>
    simp only [List.foldl_cons] at h ⊢
    have hp := prims_foldl (cfg := cfg) (runAct cfg) acts (fun s x => prims_runAct s x) (runAct cfg s a)
    have k := keeps_runAct (known := known) hsafe (fun m e => ha m (by rw [e]; simp)) (closed_of_prims hp h)
    exact k.trans (ih (k.safe hsafe) (fun m hm => ha m (List.mem_cons_of_mem _ hm)) h)

theorem keeps_fire {s : St} {obj : Nat} {msg : Message} (hcb : CbCalm cfg) (hsafe : SafeNs s)
    (h : (fire cfg s obj msg).1.closed = false) : Keeps known s (fire cfg s obj msg).1 := by
  unfold fire at h ⊢
  dsimp only at h ⊢
  split at h
  · exact .emit s rfl
  · rename_i e _
    dsimp only at h ⊢
    have k : Keeps known s (s.emit (.fired obj (s.view obj msg) msg (some e) (cfg.cb s.log obj e msg).2)) := .emit s rfl
    exact k.trans (keeps_runActs (k.safe hsafe) (fun m hm => hcb _ _ _ _ m hm) h)

theorem keeps_runActLocked {s : St} {a : Act} {obj : Nat} (hsafe : SafeNs s) (ha : ∀ m, a = .write m → AppMsg m)
    (h : (runActLocked cfg obj s a).closed = false) (hh : (runActLocked cfg obj s a).hung = false) :
    Keeps known s (runActLocked cfg obj s a) := by
  unfold runActLocked at h hh ⊢
  split at hh
  · simp at hh
  · rename_i hn
    rw [if_neg hn] at h ⊢
    exact keeps_runAct hsafe ha h

theorem keeps_runActsLocked {acts : List Act} {s : St} {obj : Nat} (hsafe : SafeNs s)
    (ha : ∀ m, Act.write m ∈ acts → AppMsg m)
    (h : (acts.foldl (runActLocked cfg obj) s).closed = false)
    (hh : (acts.foldl (runActLocked cfg obj) s).hung = false) :
    Keeps known s (acts.foldl (runActLocked cfg obj) s) := by
  induction acts generalizing s with
  | nil => exact .refl s
  | cons a acts ih =>
    simp only [List.foldl_cons] at h hh ⊢
    have hp := prims_foldl (cfg := cfg) (runActLocked cfg obj) acts
      (fun s x => prims_runActLocked obj s x) (runActLocked cfg obj s a)
    have k := keeps_runActLocked (known := known) hsafe (fun m e => ha m (by rw [e]; simp)) (closed_of_prims hp h)
      (hung_of_prims hp hh)
    exact k.trans (ih (k.safe hsafe) (fun m hm => ha m (List.mem_cons_of_mem _ hm)) h hh)

theorem keeps_fireLocked {s : St} {obj : Nat} {msg : Message} (hcb : CbCalm cfg) (hsafe : SafeNs s)
    (h : (fireLocked cfg s obj msg).closed = false) (hh : (fireLocked cfg s obj msg).hung = false) :
    Keeps known s (fireLocked cfg s obj msg) := by
  unfold fireLocked at h hh ⊢
  dsimp only at h hh ⊢
  split at h
  · exact .emit s rfl
  · rename_i e he
    rw [he] at hh
    dsimp only at h hh ⊢
    have k : Keeps known s (s.emit (.fired obj (s.view obj msg) msg (some e) (cfg.cb s.log obj e msg).2)) := .emit s rfl
    exact k.trans (keeps_runActsLocked (k.safe hsafe) (fun m hm => hcb _ _ _ _ m hm) h hh)

theorem keeps_leaveOne {s : St} {obj : Nat} {il : Bool} {room : Bytes} (hcb : CbCalm cfg) (hsafe : SafeNs s)
    (h : (leaveOne cfg obj il s room).closed = false) (hh : (leaveOne cfg obj il s room).hung = false) :
    Keeps known s (leaveOne cfg obj il s room) := by
  unfold leaveOne at h hh ⊢
  dsimp only at h hh ⊢
  have hp := prims_fireLocked (cfg := cfg)
    ((fireLocked cfg s obj (forcedLeaveMsg (s.nsName obj) room OnRoomLeave il)).setRooms obj (delRoom room)) obj
    (forcedLeaveMsg (s.nsName obj) room OnRoomLeft il)
  have h1 := closed_of_prims hp h
  have h2 := hung_of_prims hp hh
  have k1 := keeps_fireLocked (known := known) hcb hsafe (show (fireLocked cfg s obj (forcedLeaveMsg (s.nsName obj) room OnRoomLeave il)).closed = false from h1) h2
  have k2 : Keeps known s ((fireLocked cfg s obj (forcedLeaveMsg (s.nsName obj) room OnRoomLeave il)).setRooms obj (delRoom room)) :=
    k1.trans (.of rfl rfl)
  exact k2.trans (keeps_fireLocked hcb (k2.safe hsafe) h hh)

theorem keeps_leaveAll {rooms : List Bytes} {s : St} {obj : Nat} {il : Bool} (hcb : CbCalm cfg) (hsafe : SafeNs s)
    (h : (rooms.foldl (leaveOne cfg obj il) s).closed = false) (hh : (rooms.foldl (leaveOne cfg obj il) s).hung = false) :
    Keeps known s (rooms.foldl (leaveOne cfg obj il) s) := by
  induction rooms generalizing s with
  | nil => exact .refl s
  | cons r rooms ih =>
    simp only [List.foldl_cons] at h hh ⊢
    have hp := prims_foldl (cfg := cfg) (leaveOne cfg obj il) rooms
      (fun s x => prims_leaveOne obj il s x) (leaveOne cfg obj il s r)
    have k := keeps_leaveOne (known := known) hcb hsafe (closed_of_prims hp h) (hung_of_prims hp hh)
    exact k.trans (ih (k.safe hsafe) h hh)

/-! ### The server answers a request -/

/-- one answer, and around it payloads about the namespaces before and after the step -/
structure Around (known : List KnownErr) (s t : St) (l : List Obs) : Prop where
  out : ∃ la bin b ok lb, l = la ++ .sent bin b ok :: lb ∧ (∀ ty, ¬ CalmP (ty, b)) ∧ Fits known (InNs s) (pipe la) ∧
    Fits known (InNs t) (pipe lb)

theorem Keeps.answer {s t u : St} {bin ok : Bool} {b : Bytes} (k : Keeps known s t)
    (hb : ∀ ty : MsgType, ¬ CalmP (ty, b)) (hu : u.log = t.log ++ [.sent bin b ok]) :
    ∃ l, u.log = s.log ++ l ∧ Around known s u l := by
  obtain ⟨l, h1, h2⟩ := k.log
  exact ⟨l ++ [.sent bin b ok], by rw [hu, h1, List.append_assoc], ⟨l, bin, b, ok, [], rfl, hb, h2, .nil⟩⟩

theorem wire_head {m : Message} {t : Bytes} (h : m.wait = 36 :: t) : ∃ t', wireOf m = 36 :: t' := by
  have hs := serialize_wireOf m
  simp [serializeMessage, h, serializeOutput] at hs
  obtain ⟨x, hx⟩ := joinBytes_head (36 :: t) _
  rw [← hx] at hs
  exact ⟨_, hs.symm⟩

theorem wire_notCalm {m : Message} {ty : MsgType} (h : CliTok m.wait) : ¬ CalmP (ty, wireOf m) := by
  rintro ⟨t, e⟩
  obtain ⟨t', e'⟩ := h.2
  obtain ⟨t'', e''⟩ := wire_head e'
  rw [show wireOf m = 59 :: t from e] at e''
  cases e''

theorem empty_notCalm {tok : Bytes} (ht : CliTok tok) (ty : MsgType) : ¬ CalmP (ty, genEmptyReplyToWait tok) := by
  rintro ⟨t, e⟩
  obtain ⟨t', rfl⟩ := ht.2
  simp [genEmptyReplyToWait] at e

theorem emptyReply_log {s : St} {tok : Bytes} (h : (writeEmptyReply cfg s tok).closed = false) :
    (writeEmptyReply cfg s tok).connected = s.connected ∧
      ∃ ok, (writeEmptyReply cfg s tok).log = s.log ++ [.sent false (genEmptyReplyToWait tok) ok] := by
  unfold writeEmptyReply at h ⊢
  rw [rawWrite_open h]
  exact ⟨rfl, _, rfl⟩

theorem refused_log {s : St} {m : Message} (hm : MayWrite cfg s m) (h : (write cfg s m).1.closed = false) :
    ∃ ok, (write cfg s m).1.log = s.log ++ [.sent m.setBinary (wireOf m) ok] := by
  rw [write_open h, writeLog, if_pos hm]
  exact ⟨_, rfl⟩

/-- the answer of a server that refuses -/
theorem Keeps.refuse {s t : St} {m : Message} (k : Keeps known s t) (hm : MayWrite cfg t m) (ht : CliTok m.wait)
    (h : (write cfg t m).1.closed = false) :
    ∃ l, (write cfg t m).1.log = s.log ++ l ∧ Around known s (write cfg t m).1 l := by
  obtain ⟨ok, hl⟩ := refused_log hm h
  exact k.answer (fun ty => wire_notCalm ht) hl

theorem Keeps.accept {s t : St} {tok : Bytes} (k : Keeps known s t) (ht : CliTok tok)
    (h : (writeEmptyReply cfg t tok).closed = false) :
    ∃ l, (writeEmptyReply cfg t tok).log = s.log ++ l ∧ Around known s (writeEmptyReply cfg t tok) l := by
  obtain ⟨_, ok, hl⟩ := emptyReply_log h
  exact k.answer (fun ty => empty_notCalm ht ty) hl

theorem around_connect {s : St} {msg : Message} (hcb : CbCalm cfg) (hsafe : SafeNs s) (hns : SafeName msg.ns)
    (ht : CliTok msg.wait) (hw : Wanted msg) (hex : msg.fromExplicit = []) (hev : msg.event = OnNamespaceConnect)
    (hnone : s.namespace msg.ns = none) (hc : (replyConnect cfg s msg).closed = false) :
    ∃ l, (replyConnect cfg s msg).log = s.log ++ l ∧ Around known s (replyConnect cfg s msg) l := by
  have may : ∀ {t : St} {e : GoErr}, (write cfg t { msg with err := some e }).1.closed = false →
      MayWrite cfg t { msg with err := some e } := fun {t e} h =>
    ⟨closed_of_prims (prims_write t _) h, fun h => h.1 hex, .inl hev⟩
  unfold replyConnect at hc ⊢
  rw [if_neg (by rintro (x | x); exact hw.1 x; rw [hw.2] at x; cases x), hnone] at hc ⊢
  dsimp only at hc ⊢
  split at hc
  · exact (Keeps.refl s).refuse (may hc) ht hc
  · have k0 : Keeps known s (newObj s msg.ns).1 := .of rfl rfl
    have kf := keeps_fire (known := known) (obj := (newObj s msg.ns).2) (msg := msg) hcb (k0.safe hsafe)
    revert hc kf
    generalize fire cfg (newObj s msg.ns).1 (newObj s msg.ns).2 msg = p
    obtain ⟨u, v⟩ := p
    intro hc kf
    cases v with
    | some e =>
      dsimp only at hc kf ⊢
      exact (k0.trans (kf (closed_of_prims (prims_write u _) hc))).refuse (may hc) ht hc
    | none =>
      dsimp only at hc kf ⊢
      generalize hT : ({ u with connected := mapSet u.connected msg.ns (newObj s msg.ns).2 } : St) = T at hc ⊢
      have hpn := prims_notifyConnected (cfg := cfg) (writeEmptyReply cfg T msg.wait) (newObj s msg.ns).2 msg
      have h1 := closed_of_prims hpn hc
      have h2 := closed_of_prims (prims_writeEmptyReply T msg.wait) h1
      have hu : u.closed = false := by rw [← hT] at h2; exact h2
      have k1 := k0.trans (kf hu)
      obtain ⟨hconn, ok, hlog⟩ := emptyReply_log h1
      have hsafeT : SafeNs T := by
        intro n hn
        by_cases e : n = msg.ns
        · rw [e]; exact hns
        · refine k1.safe hsafe n ?_
          unfold InNs St.namespace at hn ⊢
          rw [← hT] at hn
          simp only [mapGet_mapSet, if_neg e] at hn
          exact hn
      have k2 : Keeps known (writeEmptyReply cfg T msg.wait) (notifyConnected cfg (writeEmptyReply cfg T msg.wait) (newObj s msg.ns).2 msg) := by
        have hs2 : SafeNs (writeEmptyReply cfg T msg.wait) := by unfold SafeNs; rw [inNs_conn hconn]; exact hsafeT
        unfold notifyConnected at hc ⊢
        dsimp only at hc ⊢
        split at hc
        · rename_i hx
          rw [if_pos hx]
          exact (keeps_fire hcb hs2 hc).trans (.emit _ rfl)
        · rename_i hx
          rw [if_neg hx]
          exact keeps_fire hcb hs2 hc
      obtain ⟨la, ha, hla⟩ := k1.log
      obtain ⟨lb, hb, hlb⟩ := k2.log
      refine ⟨la ++ .sent false (genEmptyReplyToWait msg.wait) ok :: lb, ?_, ⟨la, _, _, ok, lb, rfl, empty_notCalm ht, hla, ?_⟩⟩
      · rw [hb, hlog, ← hT]
        show (u.log ++ _) ++ _ = _
        rw [ha]; simp
      · rw [inNs_conn k2.conn]
        exact hlb

theorem around_disconnect {s : St} {msg : Message} (hcb : CbCalm cfg) (hsc : cfg.isClient = false) (hsafe : SafeNs s)
    (ht : CliTok msg.wait) (hw : Wanted msg) (hex : msg.fromExplicit = []) (hev : msg.event = OnNamespaceDisconnect)
    (hin : InNs s msg.ns) (hc : (replyDisconnect cfg s msg).closed = false) (hh : (replyDisconnect cfg s msg).hung = false) :
    ∃ l, (replyDisconnect cfg s msg).log = s.log ++ l ∧ Around known s (replyDisconnect cfg s msg) l := by
  have may : ∀ {t : St} {e : GoErr}, (write cfg t { msg with err := some e }).1.closed = false →
      MayWrite cfg t { msg with err := some e } := fun {t e} h =>
    ⟨closed_of_prims (prims_write t _) h, fun h => h.1 hex, .inr (.inl hev)⟩
  obtain ⟨obj, hobj⟩ := Option.ne_none_iff_exists'.mp hin
  unfold replyDisconnect at hc hh ⊢
  rw [if_neg (by rintro (x | x); exact hw.1 x; rw [hw.2] at x; cases x), hobj] at hc hh ⊢
  simp only [hsc, Bool.false_eq_true, if_false] at hc hh ⊢
  have kf := keeps_fire (known := known) (s := s) (obj := obj) (msg := msg) hcb hsafe
  revert hc hh kf
  generalize fire cfg s obj msg = p
  obtain ⟨u, v⟩ := p
  intro hc hh kf
  cases v with
  | some e =>
    dsimp only at hc kf ⊢
    exact (kf (closed_of_prims (prims_write u _) hc)).refuse (may hc) ht hc
  | none =>
    dsimp only at hc hh kf ⊢
    generalize hT : ({ forceLeaveAll cfg u obj false with connected := mapDel (forceLeaveAll cfg u obj false).connected msg.ns } : St) = T at hc hh ⊢
    have h1 := closed_of_prims (prims_writeEmptyReply (notifyDisconnect cfg T msg.ns) msg.wait) hc
    have g1 := hung_of_prims (prims_writeEmptyReply (notifyDisconnect cfg T msg.ns) msg.wait) hh
    have h2 := closed_of_prims (prims_notifyDisconnect T msg.ns) h1
    have g2 := hung_of_prims (prims_notifyDisconnect T msg.ns) g1
    have h3 : (forceLeaveAll cfg u obj false).closed = false := by rw [← hT] at h2; exact h2
    have g3 : (forceLeaveAll cfg u obj false).hung = false := by rw [← hT] at g2; exact g2
    have k1 := kf (closed_of_prims (prims_forceLeaveAll u obj false) h3)
    have k2 := k1.trans (keeps_leaveAll (known := known) hcb (k1.safe hsafe) h3 g3)
    obtain ⟨la, ha, hla⟩ := k2.log
    obtain ⟨_, ok, hlog⟩ := emptyReply_log hc
    obtain ⟨l', hl', hp'⟩ : ∃ l', (notifyDisconnect cfg T msg.ns).log = T.log ++ l' ∧ pipe l' = [] := by
      unfold notifyDisconnect
      split
      · exact ⟨[_], rfl, rfl⟩
      · exact ⟨[], by simp, rfl⟩
    refine ⟨(la ++ l') ++ .sent false (genEmptyReplyToWait msg.wait) ok :: [], ?_, ⟨la ++ l', _, _, ok, [], rfl, empty_notCalm ht, ?_, .nil⟩⟩
    · rw [hlog, hl', ← hT]
      show ((forceLeaveAll cfg u obj false).log ++ _) ++ _ = _
      unfold forceLeaveAll
      rw [ha]; simp
    · rw [pipe_append, hp', List.append_nil]
      exact hla

theorem around_roomJoin {s : St} {obj : Nat} {msg : Message} (hcb : CbCalm cfg) (hsafe : SafeNs s)
    (ht : CliTok msg.wait) (hw : Wanted msg) (hex : msg.fromExplicit = []) (hev : msg.event = OnRoomJoin)
    (hobj : s.namespace msg.ns = some obj) (hc : (replyRoomJoin cfg s obj msg).closed = false) :
    ∃ l, (replyRoomJoin cfg s obj msg).log = s.log ++ l ∧ Around known s (replyRoomJoin cfg s obj msg) l := by
  unfold replyRoomJoin at hc ⊢
  rw [if_neg (by rintro (x | x); exact hw.1 x; rw [hw.2] at x; cases x)] at hc ⊢
  split at hc
  · rename_i hx
    rw [if_pos hx]
    exact (Keeps.refl s).accept ht hc
  · rename_i hx
    rw [if_neg hx]
    have kf := keeps_fire (known := known) (s := s) (obj := obj) (msg := msg) hcb hsafe
    revert hc kf
    generalize fire cfg s obj msg = p
    obtain ⟨u, v⟩ := p
    intro hc kf
    cases v with
    | some e =>
      dsimp only at hc kf ⊢
      have ho := closed_of_prims (prims_write u _) hc
      have k := kf ho
      exact k.refuse ⟨ho, fun h => h.1 hex, .inr (.inr ⟨obj, by
        show u.namespace msg.ns = _
        unfold St.namespace; rw [k.conn]; exact hobj, .inr (.inl hev)⟩)⟩ ht hc
    | none =>
      dsimp only at hc kf ⊢
      have h1 := closed_of_prims (prims_writeEmptyReply _ msg.wait) hc
      have h2 : (u.setRooms obj (addRoom msg.room)).closed = false := closed_of_prims (prims_fire _ _ _) h1
      have k1 := kf h2
      have k2 : Keeps known s (u.setRooms obj (addRoom msg.room)) := k1.trans (.of rfl rfl)
      exact (k2.trans (keeps_fire hcb (k2.safe hsafe) h1)).accept ht hc

theorem around_roomLeave {s : St} {obj : Nat} {msg : Message} (hcb : CbCalm cfg) (hsc : cfg.isClient = false)
    (hsafe : SafeNs s) (ht : CliTok msg.wait) (hw : Wanted msg) (hex : msg.fromExplicit = [])
    (hobj : s.namespace msg.ns = some obj) (hc : (replyRoomLeave cfg s obj msg).closed = false) :
    ∃ l, (replyRoomLeave cfg s obj msg).log = s.log ++ l ∧ Around known s (replyRoomLeave cfg s obj msg) l := by
  unfold replyRoomLeave at hc ⊢
  rw [if_neg (by rintro (x | x); exact hw.1 x; rw [hw.2] at x; cases x)] at hc ⊢
  split at hc
  · rename_i hx
    rw [if_pos hx]
    exact (Keeps.refl s).accept ht hc
  · rename_i hx
    rw [if_neg hx]
    simp only [hsc, Bool.false_eq_true, if_false] at hc ⊢
    have kf := keeps_fire (known := known) (s := s) (obj := obj) (msg := msg) hcb hsafe
    have kr := calm_fire hcb (s := s) (obj := obj) (msg := msg)
    revert hc kf kr
    generalize fire cfg s obj msg = p
    obtain ⟨u, v⟩ := p
    intro hc kf kr
    cases v with
    | some e =>
      dsimp only at hc kf kr ⊢
      have ho := closed_of_prims (prims_write u _) hc
      have k := kf ho
      obtain ⟨l, hsame, _⟩ := kr ho
      exact k.refuse ⟨ho, fun h => h.1 hex, .inr (.inr ⟨obj, by
        show u.namespace msg.ns = _
        unfold St.namespace; rw [k.conn]; exact hobj, .inr (.inr (.inr (by
          show msg.room ∈ u.rooms obj
          rw [hsame.rooms]; simpa using hx)))⟩)⟩ ht hc
    | none =>
      dsimp only at hc kf ⊢
      have h1 := closed_of_prims (prims_writeEmptyReply _ msg.wait) hc
      have h2 : (u.setRooms obj (delRoom msg.room)).closed = false := closed_of_prims (prims_fire _ _ _) h1
      have k1 := kf h2
      have k2 : Keeps known s (u.setRooms obj (delRoom msg.room)) := k1.trans (.of rfl rfl)
      exact (k2.trans (keeps_fire hcb (k2.safe hsafe) h1)).accept ht hc

/-- how the server handles a request: one answer, and around it payloads about its namespaces -/
theorem srv_around {q : Req} {tok : Bytes} {d d' : St} (hcb : CbCalm sc)
    (hn : sc.allowNative = false) (hs : sc.isClient = false) (hsafe : SafeNs d)
    (hq : q.Safe) (ht : CliTok tok) (hd : SrvOk d) (hth : q.There d)
    (h : step sc d (.recv .text (wireOf (q.msg tok))) = some d') (hc : d'.closed = false) :
    ∃ l, d'.log = d.log ++ l ∧ Around known d d' l := by
  have hi := req_incoming hn hs hq ht hd
  obtain ⟨f1, f2, f3, f4, f5, f6, f7⟩ := req_fields q tok
  have hw : Wanted (q.msg tok) := ⟨by rw [f1]; obtain ⟨t, rfl⟩ := ht.2; simp, f5⟩
  have ht' : CliTok (q.msg tok).wait := by rw [f1]; exact ht
  have hgb : gateBlocks d (q.msg tok).ns = false := by
    unfold gateBlocks; rw [hd.gates]; rfl
  obtain ⟨h0, hh⟩ := step_recv hi h
  subst h0
  cases q with
  | connect ns =>
    have e : dispatch sc d (Req.msg tok (.connect ns)) = replyConnect sc d (Req.msg tok (.connect ns)) := by
      unfold dispatch; exact if_pos rfl
    rw [e] at hc ⊢
    exact around_connect hcb hsafe hq ht' hw f3 rfl hth hc
  | disconnect ns =>
    have e : dispatch sc d (Req.msg tok (.disconnect ns)) = replyDisconnect sc d (Req.msg tok (.disconnect ns)) := by
      unfold dispatch; exact (if_neg (show ¬ OnNamespaceDisconnect = OnNamespaceConnect by decide +kernel)).trans (if_pos rfl)
    rw [e] at hc hh ⊢
    exact around_disconnect hcb hs hsafe ht' hw f3 rfl hth hc hh
  | join ns room =>
    obtain ⟨obj, hobj⟩ := Option.ne_none_iff_exists'.mp hth
    have e : dispatch sc d (Req.msg tok (.join ns room)) = replyRoomJoin sc d obj (Req.msg tok (.join ns room)) := by
      rw [dispatch_gate hgb (show ¬ OnRoomJoin = OnNamespaceConnect by decide +kernel) (show ¬ OnRoomJoin = OnNamespaceDisconnect by decide +kernel)]
      unfold afterGate
      rw [show d.namespace (Req.msg tok (.join ns room)).ns = some obj from hobj]
      exact if_pos rfl
    rw [e] at hc ⊢
    exact around_roomJoin hcb hsafe ht' hw f3 rfl hobj hc
  | leave ns room =>
    obtain ⟨obj, hobj⟩ := Option.ne_none_iff_exists'.mp hth
    have e : dispatch sc d (Req.msg tok (.leave ns room)) = replyRoomLeave sc d obj (Req.msg tok (.leave ns room)) := by
      rw [dispatch_gate hgb (show ¬ OnRoomLeave = OnNamespaceConnect by decide +kernel) (show ¬ OnRoomLeave = OnNamespaceDisconnect by decide +kernel)]
      unfold afterGate
      rw [show d.namespace (Req.msg tok (.leave ns room)).ns = some obj from hobj]
      exact (if_neg (show ¬ OnRoomLeave = OnRoomJoin by decide +kernel)).trans (if_pos rfl)
    rw [e] at hc ⊢
    exact around_roomLeave hcb hs hsafe ht' hw f3 hobj hc

/-! ### The server handles an event or a plain Ask -/

theorem keeps_afterGate {s : St} {msg : Message} (hcb : CbCalm cfg) (hsafe : SafeNs s) (hf : Framed msg)
    (hev : msg.wait = [] ∨ ¬ isRequest msg.event) (hc : (afterGate cfg s msg).closed = false) :
    Keeps known s (afterGate cfg s msg) := by
  unfold afterGate at hc ⊢
  split at hc
  · exact keeps_write hsafe hf hc
  · split at hc
    · rename_i he
      rw [if_pos he]
      rcases hev with hw | hno
      · simp only [replyRoomJoin, hw, true_or, if_true]
        exact .refl s
      · exact absurd (.inr (.inr (.inl he))) hno
    · rename_i he
      rw [if_neg he]
      split at hc
      · rename_i he2
        rw [if_pos he2]
        rcases hev with hw | hno
        · simp only [replyRoomLeave, hw, true_or, if_true]
          exact .refl s
        · exact absurd (.inr (.inr (.inr he2))) hno
      · rename_i he2
        rw [if_neg he2]
        unfold handleEvent at hc ⊢
        dsimp only at hc ⊢
        rename_i obj _
        have kf := keeps_fire (known := known) (s := s) (obj := obj) (msg := { msg with isLocal := false }) hcb hsafe
        revert hc kf
        generalize fire cfg s obj { msg with isLocal := false } = p
        obtain ⟨u, v⟩ := p
        intro hc kf
        cases v with
        | none => exact kf hc
        | some e =>
          dsimp only at hc kf ⊢
          have k := kf (closed_of_prims (prims_write u _) hc)
          exact k.trans (keeps_write (k.safe hsafe) hf hc)

/-- what the server writes while it reads a payload that is no request -/
theorem srv_keeps {p : MsgType × Bytes} {d d' : St} (hcb : CbCalm sc) (hn : sc.allowNative = false) (hs : sc.isClient = false)
    (hsafe : SafeNs d) (hd : SrvOk d)
    (hp : (deserializeMessage sc.known p.1 p.2 false false).wait = [] ∨
      CliTok (deserializeMessage sc.known p.1 p.2 false false).wait ∧
        ¬ isRequest (deserializeMessage sc.known p.1 p.2 false false).event)
    (hne : p.2 ≠ []) (hnat : (deserializeMessage sc.known p.1 p.2 false false).isNative = false)
    (h : step sc d (.recv p.1 p.2) = some d') (hc : d'.closed = false) : Keeps known d d' := by
  have hon : sc.onlyNative = false := by simp [Cfg.onlyNative, hn]
  obtain ⟨he, _⟩ := step_exec h
  simp only [exec] at he
  split at he
  · cases he
    unfold recv handlePayload at hc ⊢
    rw [if_neg hne, if_pos hd.acked, hn, hon] at hc ⊢
    generalize deserializeMessage sc.known p.1 p.2 false false = msg at hc hp hnat ⊢
    have hiw : msg.isWait sc.isClient = false := by
      rcases hp with hw | ⟨hw, _⟩
      · exact isWait_nil hw _
      · obtain ⟨t, e⟩ := hw.2
        unfold Message.isWait
        rw [e, hs]
        simp [waitIsConfirmationPrefix, waitComesFromClientPrefix]
    have hf : Framed msg := by
      refine ⟨?_, hnat⟩
      rcases hp with hw | ⟨hw, _⟩
      · rw [hw]; simp
      · exact hw.1.1
    unfold handleMessage at hc ⊢
    split
    · exact .refl d
    · rename_i hinv
      rw [if_neg hinv] at hc
      rw [if_neg (by simp [hon]), hiw] at hc ⊢
      simp only [Bool.false_eq_true, if_false] at hc ⊢
      unfold dispatch at hc ⊢
      split
      · rename_i h1
        rcases hp with hw | ⟨_, hno⟩
        · simp only [replyConnect, hw, true_or, if_true]
          exact .refl d
        · exact absurd (.inl h1) hno
      · rename_i h1
        rw [if_neg h1] at hc
        split
        · rename_i h2
          rcases hp with hw | ⟨_, hno⟩
          · simp only [replyDisconnect, hw, true_or, if_true]
            exact .refl d
          · exact absurd (.inr (.inl h2)) hno
        · rename_i h2
          rw [if_neg h2] at hc
          split
          · exact .of rfl rfl
          · rename_i h3
            rw [if_neg h3] at hc
            exact keeps_afterGate hcb hsafe hf (hp.imp (fun h => h) fun h => h.2) hc
  · cases he

end Neffos
