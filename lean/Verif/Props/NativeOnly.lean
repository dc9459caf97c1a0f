import Verif.Spec.NativeOnly
import Verif.Props.Native
import Verif.Props.Handshake
import Verif.Proofs.ConnClose
import Verif.Proofs.Hung
import Verif.Proofs.ConnHandlers
/-!
# C117: a connection that handles native messages only, from its start until it is closed
-/
set_option autoImplicit false
namespace Neffos
open Neffos.Spec

namespace NativeOnly
variable {cfg : Cfg}

theorem ran_append (a b : List Obs) : ran (a ++ b) = ran a ++ ran b := by
  induction a with
  | nil => rfl
  | cons o a ih =>
    cases o with
    | fired obj v m h r => cases h <;> simp [ran, ih]
    | _ => simp [ran, ih]

theorem ran_sent {l : List Obs} (h : AllSent l) : ran l = [] := by
  induction l with
  | nil => rfl
  | cons o l ih =>
    obtain ⟨a, b, c, rfl⟩ := h o List.mem_cons_self
    exact ih (fun o ho => h o (List.mem_cons_of_mem _ ho))

/-- what holds in every open state -/
structure NInv (s : St) : Prop where
  rd : s.rd = .idle
  todo : s.todo = []
  aa : s.ackAfter = false
  acked : s.acked = true
  asks : s.asks = []
  hung : s.hung = false
  names : ∀ i, s.nsName i = []
  keys : ∀ ns, ns ≠ [] → s.namespace ns = none

/-- equal up to the map of namespaces, rooms, gates, readiness and history -/
structure Fr (s : St) (l : List Obs) (t : St) : Prop where
  rd : t.rd = s.rd
  todo : t.todo = s.todo
  aa : t.ackAfter = s.ackAfter
  acked : t.acked = s.acked
  asks : t.asks = s.asks
  hung : t.hung = s.hung
  log : t.log = s.log ++ l
  names : (∀ i, s.nsName i = []) → ∀ i, t.nsName i = []

theorem Fr.trans {a b c : St} {l m : List Obs} (h : Fr a l b) (k : Fr b m c) : Fr a (l ++ m) c :=
  ⟨k.rd.trans h.rd, k.todo.trans h.todo, k.aa.trans h.aa, k.acked.trans h.acked, k.asks.trans h.asks,
    k.hung.trans h.hung, by rw [k.log, h.log, List.append_assoc], fun hn => k.names (h.names hn)⟩

theorem Fr.refl (s : St) : Fr s [] s := ⟨rfl, rfl, rfl, rfl, rfl, rfl, by simp, id⟩

theorem Fr.emit (s : St) (o : Obs) : Fr s [o] (s.emit o) := ⟨rfl, rfl, rfl, rfl, rfl, rfl, rfl, id⟩

theorem Fr.same {s t : St} {l : List Obs} (k : Same s l t) : Fr s l t := by
  obtain ⟨r, rfl⟩ := k
  exact ⟨rfl, rfl, rfl, rfl, rfl, rfl, rfl, id⟩

theorem Fr.gates (s : St) (g : List (Bytes × Gate)) : Fr s [] { s with gates := g } :=
  ⟨rfl, rfl, rfl, rfl, rfl, rfl, by simp, id⟩

theorem Fr.conn (s : St) (c : List (Bytes × Nat)) : Fr s [] { s with connected := c } :=
  ⟨rfl, rfl, rfl, rfl, rfl, rfl, by simp, id⟩

theorem Fr.setRooms (s : St) (obj : Nat) (f : List Bytes → List Bytes) : Fr s [] (s.setRooms obj f) :=
  ⟨rfl, rfl, rfl, rfl, rfl, rfl, by simp [St.setRooms], fun hn i => by rw [nsName_setRooms]; exact hn i⟩

theorem Fr.obj (s : St) : Fr s [] { s with objs := s.objs ++ [⟨[], []⟩] } := by
  refine ⟨rfl, rfl, rfl, rfl, rfl, rfl, by simp, fun hn i => ?_⟩
  have := hn i
  unfold St.nsName at this ⊢
  dsimp only
  rw [List.getElem?_append]
  by_cases hl : i < s.objs.length
  · rw [if_pos hl]; exact this
  · rw [if_neg hl]
    cases i - s.objs.length <;> simp

theorem Fr.gateDone (s : St) (ns : Bytes) : Fr s [] (gateDone s ns) := by
  unfold Neffos.gateDone
  split
  · exact .refl s
  · split
    · exact .refl s
    · exact .gates s _

theorem gateDone_connected (s : St) (ns : Bytes) : (Neffos.gateDone s ns).connected = s.connected := by
  unfold Neffos.gateDone
  split
  · rfl
  · split <;> rfl

theorem Fr.inv {s t : St} {l : List Obs} (h : Fr s l t) (hi : NInv s) (hk : ∀ ns, ns ≠ [] → t.namespace ns = none) :
    NInv t :=
  ⟨h.rd.trans hi.rd, h.todo.trans hi.todo, h.aa.trans hi.aa, h.acked.trans hi.acked, h.asks.trans hi.asks,
    h.hung.trans hi.hung, h.names hi.names, hk⟩

/-- no callback ran, nothing was sent -/
structure Mute (l : List Obs) : Prop where
  ran : Spec.ran l = []
  sent : sentOf l = []

theorem Mute.append {a b : List Obs} (h : Mute a) (k : Mute b) : Mute (a ++ b) :=
  ⟨by rw [ran_append, h.ran, k.ran]; rfl, by rw [sentOf_append, h.sent, k.sent]; rfl⟩

theorem Mute.nil : Mute [] := ⟨rfl, rfl⟩

theorem pick_none (hd : cfg.decl = [([], [OnNativeMessage])]) {s : St} (hn : ∀ i, s.nsName i = []) (obj : Nat)
    {event : Bytes} (he : event ≠ OnNativeMessage) : pick (cfg.events (s.nsName obj)) event = none := by
  rw [hn]
  unfold Cfg.events pick
  rw [hd]
  have : ¬ OnAnyEvent = OnNativeMessage := by decide
  simp [mapGet, he, this]

/-- `fireEvent` for another event runs no callback -/
theorem fire_none (hd : cfg.decl = [([], [OnNativeMessage])]) {s : St} (hn : ∀ i, s.nsName i = []) (obj : Nat)
    {msg : Message} (he : msg.event ≠ OnNativeMessage) : ∃ v, fire cfg s obj msg = (s.emit (.fired obj v msg none none), none) := by
  refine ⟨s.view obj msg, ?_⟩
  unfold fire
  simp only [pick_none hd hn obj he]

theorem fireLocked_none (hd : cfg.decl = [([], [OnNativeMessage])]) {s : St} (hn : ∀ i, s.nsName i = []) (obj : Nat)
    {msg : Message} (he : msg.event ≠ OnNativeMessage) : ∃ v, fireLocked cfg s obj msg = s.emit (.fired obj v msg none none) := by
  refine ⟨s.view obj msg, ?_⟩
  unfold fireLocked
  simp only [pick_none hd hn obj he]

/-- forced leaves run no callback -/
theorem leaveAll (hd : cfg.decl = [([], [OnNativeMessage])]) {s : St} (hn : ∀ i, s.nsName i = []) (obj : Nat) (il : Bool) :
    ∃ l, Fr s l (forceLeaveAll cfg s obj il) ∧ (forceLeaveAll cfg s obj il).connected = s.connected ∧ Mute l ∧ retOf l = [] := by
  unfold forceLeaveAll
  generalize cfg.order s.log (s.rooms obj) = rs
  induction rs generalizing s with
  | nil => exact ⟨[], .refl s, rfl, .nil, rfl⟩
  | cons room rs ih =>
    simp only [List.foldl_cons]
    obtain ⟨v, e1⟩ := fireLocked_none hd hn obj (msg := forcedLeaveMsg (s.nsName obj) room OnRoomLeave il)
      (by show OnRoomLeave ≠ OnNativeMessage; decide)
    have f1 := (Fr.emit s (.fired obj v (forcedLeaveMsg (s.nsName obj) room OnRoomLeave il) none none)).trans
      (Fr.setRooms _ obj (delRoom room))
    obtain ⟨w, e2⟩ := fireLocked_none hd (f1.names hn) obj (msg := forcedLeaveMsg (s.nsName obj) room OnRoomLeft il)
      (by show OnRoomLeft ≠ OnNativeMessage; decide)
    have f2 := f1.trans (Fr.emit _ (.fired obj w (forcedLeaveMsg (s.nsName obj) room OnRoomLeft il) none none))
    have e : leaveOne cfg obj il s room = ((s.emit (.fired obj v (forcedLeaveMsg (s.nsName obj) room OnRoomLeave il) none none)).setRooms
        obj (delRoom room)).emit (.fired obj w (forcedLeaveMsg (s.nsName obj) room OnRoomLeft il) none none) := by
      unfold leaveOne
      dsimp only
      rw [e1, e2]
    rw [e]
    obtain ⟨l, f3, c3, m3, r3⟩ := ih (f2.names hn)
    exact ⟨_, f2.trans f3, c3, .append ⟨rfl, rfl⟩ m3, by rw [retOf_append, r3]; rfl⟩

/-- what one operation does to an open connection that stays open -/
structure Does (s s' : St) (op : Op) : Prop where
  inv : NInv s'
  log : ∃ l, s'.log = s.log ++ l ∧
    ran l = ((readIn [op]).filter (·.2 ≠ [])).map (fun p => (OnNativeMessage, nativeMsg p.1 p.2)) ∧
    NativeReturns s s' op ((retOf l).map (·.2)) ∧
    (maySend op = false → sentOf l = [])
  on : (s'.namespace []).isSome = nativeOn [op] (s.namespace []).isSome

theorem startAsk_native (hon : cfg.onlyNative = true) (s : St) (k : Cont) (msg : Message) (now : Int) (ex : Bool) :
    startAsk cfg s k msg now ex = finish cfg s k {} none := by
  unfold startAsk; rw [if_pos hon]

/-- the notification of the exchange -/
theorem notify_frame (s : St) (b : Bool) (o : Obs) (h1 : ran [o] = []) (h2 : sentOf [o] = []) (h3 : retOf [o] = []) :
    ∃ l, Fr s l (if b = true then s.emit o else s) ∧ (if b = true then s.emit o else s).connected = s.connected ∧
      Mute l ∧ retOf l = [] := by
  cases b
  · exact ⟨[], .refl s, rfl, .nil, rfl⟩
  · exact ⟨[o], .emit s o, rfl, ⟨h1, h2⟩, h3⟩

/-- `connect` on a native-only connection -/
theorem does_connect (hd : cfg.decl = [([], [OnNativeMessage])]) (hon : cfg.onlyNative = true) {s s' : St} (hi : NInv s)
    {ns : Bytes} {now : Int} {ex : Bool} (h : connect cfg s ns now ex = s') : Does s s' (.connect ns now ex) := by
  unfold connect at h
  dsimp only at h
  have f0 : Fr s [] (gateStart (s.markReady cfg) ns) := by
    have h1 : Fr s [] (s.markReady cfg) := .same ⟨(s.markReady cfg).ready, by
      have := markReady_eq (cfg := cfg) s
      rw [List.append_nil]; exact this⟩
    exact h1.trans (.gates _ _)
  have c0 : (gateStart (s.markReady cfg) ns).connected = s.connected := by
    show (s.markReady cfg).connected = _
    rw [markReady_eq]
  have o0 : (gateStart (s.markReady cfg) ns).objs = s.objs := by
    show (s.markReady cfg).objs = _
    rw [markReady_eq]
  have a0 : (s.markReady cfg).acked = true := f0.acked.trans hi.acked
  rw [if_neg (by simp [a0])] at h
  generalize gateStart (s.markReady cfg) ns = t at h f0 c0 o0
  have n0 : ∀ n, t.namespace n = s.namespace n := fun n => by unfold St.namespace; rw [c0]
  rw [n0] at h
  by_cases hns : ns = []
  · subst hns
    cases ho : s.namespace [] with
    | some obj =>
      rw [ho] at h
      dsimp only at h
      have f1 := (f0.trans (Fr.emit t (.ret (.connect [] obj) (.nsConn obj)))).trans (Fr.gateDone _ [])
      have c1 : (gateDone (t.emit (.ret (.connect [] obj) (.nsConn obj))) []).connected = s.connected := by
        rw [gateDone_connected]; exact c0
      rw [h] at f1 c1
      have n1 : ∀ n, s'.namespace n = s.namespace n := fun n => by unfold St.namespace; rw [c1]
      refine ⟨f1.inv hi (fun n hn => (n1 n).trans (hi.keys n hn)), ⟨_, f1.log, rfl, ?_, fun _ => rfl⟩, ?_⟩
      · simp only [NativeReturns, if_true]
        exact ⟨obj, (n1 []).trans ho, rfl, Or.inl ho⟩
      · rw [n1, ho]; rfl
    | none =>
      rw [ho] at h
      rw [hd] at h
      simp only [mapGet, if_true, newObj] at h
      have f1 := f0.trans (Fr.obj t)
      obtain ⟨v, e1⟩ := fire_none hd (f1.names hi.names) t.objs.length (msg := { ns := [], event := OnNamespaceConnect, isLocal := true })
        (by show OnNamespaceConnect ≠ OnNativeMessage; decide)
      rw [e1] at h
      dsimp only at h
      rw [startAsk_native hon] at h
      have f2 := f1.trans (Fr.emit _ (.fired t.objs.length v { ns := [], event := OnNamespaceConnect, isLocal := true } none none))
      have c2 : (St.emit { t with objs := t.objs ++ [⟨[], []⟩] } (.fired t.objs.length v { ns := [], event := OnNamespaceConnect, isLocal := true } none none)).connected = s.connected := c0
      generalize St.emit { t with objs := t.objs ++ [⟨[], []⟩] } (.fired t.objs.length v { ns := [], event := OnNamespaceConnect, isLocal := true } none none) = u at h f2 c2
      unfold finish notifyConnected at h
      dsimp only at h
      have f3 := f2.trans (Fr.conn u (mapSet u.connected [] t.objs.length))
      obtain ⟨w, e2⟩ := fire_none hd (f3.names hi.names) t.objs.length (msg := { ns := [], event := OnNamespaceConnected, isLocal := true })
        (by show OnNamespaceConnected ≠ OnNativeMessage; decide)
      rw [e2] at h
      have f4 := f3.trans (Fr.emit _ (.fired t.objs.length w { ns := [], event := OnNamespaceConnected, isLocal := true } none none))
      have c4 : (St.emit { u with connected := mapSet u.connected [] t.objs.length } (.fired t.objs.length w { ns := [], event := OnNamespaceConnected, isLocal := true } none none)).connected =
        mapSet s.connected [] s.objs.length := by rw [← o0, ← c2]; rfl
      generalize St.emit { u with connected := mapSet u.connected [] t.objs.length } (.fired t.objs.length w { ns := [], event := OnNamespaceConnected, isLocal := true } none none) = x at h f4 c4
      dsimp only at h
      obtain ⟨l5, f5, c5, m5, r5⟩ := notify_frame x (!cfg.isClient && cfg.usesExchange) (.subscribe (x.nsName t.objs.length)) rfl rfl rfl
      generalize (if (!cfg.isClient && cfg.usesExchange) = true then x.emit (.subscribe (x.nsName t.objs.length)) else x) = y at h f5 c5
      have f6 := ((f4.trans f5).trans (Fr.emit y (.ret (.connect [] t.objs.length) (.nsConn t.objs.length)))).trans (Fr.gateDone _ [])
      have c6 : (gateDone (y.emit (.ret (.connect [] t.objs.length) (.nsConn t.objs.length))) []).connected = mapSet s.connected [] s.objs.length := by
        rw [gateDone_connected]; exact c5.trans c4
      rw [h] at f6 c6
      have n6 : s'.namespace [] = some s.objs.length := by unfold St.namespace; rw [c6, mapGet_mapSet]; simp
      refine ⟨f6.inv hi (fun n hn => ?_), ⟨_, f6.log, ?_, ?_, fun _ => ?_⟩, ?_⟩
      · unfold St.namespace
        rw [c6, mapGet_mapSet, if_neg hn]
        exact hi.keys n hn
      · simp only [List.append_assoc, List.nil_append, List.append_nil, ran_append, m5.ran]
        rfl
      · simp only [NativeReturns, if_true]
        refine ⟨_, n6, ?_, Or.inr ⟨ho, rfl⟩⟩
        simp only [List.append_assoc, List.nil_append, List.append_nil, retOf_append, r5]
        rw [o0]; rfl
      · simp only [List.append_assoc, List.nil_append, List.append_nil, sentOf_append, m5.sent]
        rfl
      · rw [n6, ho]; rfl
  · have hk := hi.keys ns hns
    rw [hk] at h
    have hdn : mapGet cfg.decl ns = none := by rw [hd]; simp [mapGet, Ne.symm hns]
    rw [hdn] at h
    dsimp only at h
    have f1 := (f0.trans (Fr.emit t (.ret (.connect ns t.objs.length) (.err errBadNamespace)))).trans (Fr.gateDone _ ns)
    have c1 : (gateDone (t.emit (.ret (.connect ns t.objs.length) (.err errBadNamespace))) ns).connected = s.connected := by
      rw [gateDone_connected]; exact c0
    rw [h] at f1 c1
    have n1 : ∀ n, s'.namespace n = s.namespace n := fun n => by unfold St.namespace; rw [c1]
    refine ⟨f1.inv hi (fun n hn => (n1 n).trans (hi.keys n hn)), ⟨_, f1.log, rfl, ?_, fun _ => rfl⟩, ?_⟩
    · simp only [NativeReturns, if_neg hns]
      rfl
    · rw [n1]
      cases ns with
      | nil => exact absurd rfl hns
      | cons a t => simp [nativeOn]

/-- `Disconnect` on a native-only connection -/
theorem does_disconnect (hd : cfg.decl = [([], [OnNativeMessage])]) (hon : cfg.onlyNative = true) {s s' : St} (hi : NInv s)
    {obj : Nat} {now : Int} {ex : Bool} (h : disconnect cfg s obj now ex = s') : Does s s' (.disconnect obj now ex) := by
  unfold disconnect at h
  dsimp only at h
  rw [hi.names obj] at h
  cases ho : s.namespace [] with
  | none =>
    rw [ho] at h
    dsimp only at h
    subst h
    refine ⟨(Fr.emit s _).inv hi hi.keys, ⟨_, (Fr.emit s _).log, rfl, ?_, fun _ => rfl⟩, ?_⟩
    · simp only [NativeReturns, ho, if_true]; rfl
    · show (s.namespace []).isSome = _
      rw [ho]; rfl
  | some o =>
    rw [ho] at h
    dsimp only at h
    rw [startAsk_native hon] at h
    unfold finish notifyDisconnect at h
    dsimp only at h
    obtain ⟨l1, f1, c1, m1, r1⟩ := leaveAll hd hi.names o true
    generalize forceLeaveAll cfg s o true = t at h f1 c1
    have f2 := f1.trans (Fr.conn t (mapDel t.connected []))
    have c2 : ({ t with connected := mapDel t.connected [] } : St).connected = mapDel s.connected [] := by
      rw [← c1]
    generalize ({ t with connected := mapDel t.connected [] } : St) = u at h f2 c2
    obtain ⟨v, e1⟩ := fire_none hd (f2.names hi.names) o
      (msg := { ns := [], event := OnNamespaceDisconnect, isLocal := true }) (by show OnNamespaceDisconnect ≠ OnNativeMessage; decide)
    rw [e1] at h
    dsimp only at h
    have f3 := f2.trans (Fr.emit u (.fired o v { ns := [], event := OnNamespaceDisconnect, isLocal := true } none none))
    have c3 : (u.emit (.fired o v { ns := [], event := OnNamespaceDisconnect, isLocal := true } none none)).connected = mapDel s.connected [] := c2
    generalize u.emit (.fired o v { ns := [], event := OnNamespaceDisconnect, isLocal := true } none none) = x at h f3 c3
    obtain ⟨l5, f5, c5, m5, r5⟩ := notify_frame x (!cfg.isClient && cfg.usesExchange) (.unsubscribe []) rfl rfl rfl
    generalize (if (!cfg.isClient && cfg.usesExchange) = true then x.emit (.unsubscribe []) else x) = y at h f5 c5
    have f6 := (f3.trans f5).trans (Fr.emit y (.ret (.disconnect o { ns := [], event := OnNamespaceDisconnect }) .ok))
    have c6 : s'.connected = mapDel s.connected [] := by rw [← h]; exact c5.trans c3
    rw [h] at f6
    have n6 : s'.namespace [] = none := by unfold St.namespace; rw [c6, mapGet_mapDel]; simp
    refine ⟨f6.inv hi (fun n hn => ?_), ⟨_, f6.log, ?_, ?_, fun _ => ?_⟩, ?_⟩
    · unfold St.namespace
      rw [c6, mapGet_mapDel, if_neg hn]
      exact hi.keys n hn
    · simp only [List.append_assoc, List.nil_append, ran_append, m1.ran, m5.ran]
      rfl
    · simp only [NativeReturns, ho, List.append_assoc, List.nil_append, retOf_append, r1, r5]
      rfl
    · simp only [List.append_assoc, List.nil_append, sentOf_append, m1.sent, m5.sent]
      rfl
    · rw [n6]; rfl

theorem rooms_emit (s : St) (o : Obs) (i : Nat) : (s.emit o).rooms i = s.rooms i := rfl

/-- `JoinRoom` on a native-only connection -/
theorem does_join (hd : cfg.decl = [([], [OnNativeMessage])]) (hon : cfg.onlyNative = true) {s s' : St} (hi : NInv s)
    {obj : Nat} {room : Bytes} {now : Int} {ex : Bool} (hl : obj < s.objs.length)
    (h : joinRoom cfg s obj room now ex = s') : Does s s' (.join obj room now ex) := by
  unfold joinRoom at h
  dsimp only at h
  rw [hi.names obj] at h
  by_cases hr : room ∈ s.rooms obj
  · rw [if_pos hr] at h
    subst h
    exact ⟨(Fr.emit s _).inv hi hi.keys, ⟨_, (Fr.emit s _).log, rfl, ⟨rfl, hr⟩, fun _ => rfl⟩, rfl⟩
  · rw [if_neg hr, startAsk_native hon] at h
    unfold finish at h
    dsimp only at h
    obtain ⟨v, e1⟩ := fire_none hd hi.names obj (msg := { ns := [], room := room, event := OnRoomJoin, isLocal := true })
      (by show OnRoomJoin ≠ OnNativeMessage; decide)
    rw [e1] at h
    dsimp only at h
    have f2 := (Fr.emit s (.fired obj v { ns := [], room := room, event := OnRoomJoin, isLocal := true } none none)).trans
      (Fr.setRooms _ obj (addRoom room))
    obtain ⟨w, e2⟩ := fire_none hd (f2.names hi.names) obj (msg := { ns := [], room := room, event := OnRoomJoined, isLocal := true })
      (by show OnRoomJoined ≠ OnNativeMessage; decide)
    rw [e2] at h
    have f3 := (f2.trans (Fr.emit _ (.fired obj w { ns := [], room := room, event := OnRoomJoined, isLocal := true } none none))).trans
      (Fr.emit _ (.ret (.join obj { ns := [], room := room, event := OnRoomJoin, isLocal := true }) (.room obj room)))
    have c : s'.connected = s.connected := by rw [← h]; rfl
    have ro : room ∈ s'.rooms obj := by
      rw [← h]
      show room ∈ ((s.emit _).setRooms obj (addRoom room)).rooms obj
      unfold St.rooms St.setRooms St.emit
      simp only [List.getElem?_modify]
      rw [List.getElem?_eq_getElem hl]
      simp [addRoom]
      split <;> simp_all
    dsimp only at h
    rw [h] at f3
    have n1 : ∀ n, s'.namespace n = s.namespace n := fun n => by unfold St.namespace; rw [c]
    exact ⟨f3.inv hi (fun n hn => (n1 n).trans (hi.keys n hn)), ⟨_, f3.log, rfl, ⟨rfl, ro⟩, fun _ => rfl⟩, by rw [n1]; rfl⟩

/-- `Leave` on a native-only connection -/
theorem does_leave (hd : cfg.decl = [([], [OnNativeMessage])]) (hon : cfg.onlyNative = true) {s s' : St} (hi : NInv s)
    {obj : Nat} {room : Bytes} {now : Int} {ex : Bool}
    (h : leaveRoom cfg s obj room now ex = s') : Does s s' (.leave obj room now ex) := by
  unfold leaveRoom at h
  dsimp only at h
  rw [hi.names obj] at h
  by_cases hr : room ∈ s.rooms obj
  · rw [if_pos hr, startAsk_native hon] at h
    unfold finish at h
    dsimp only at h
    obtain ⟨v, e1⟩ := fire_none hd hi.names obj (msg := { ns := [], room := room, event := OnRoomLeave })
      (by show OnRoomLeave ≠ OnNativeMessage; decide)
    rw [e1] at h
    dsimp only at h
    have f2 := (Fr.emit s (.fired obj v { ns := [], room := room, event := OnRoomLeave } none none)).trans
      (Fr.setRooms _ obj (delRoom room))
    obtain ⟨w, e2⟩ := fire_none hd (f2.names hi.names) obj (msg := { ns := [], room := room, event := OnRoomLeft })
      (by show OnRoomLeft ≠ OnNativeMessage; decide)
    rw [e2] at h
    have f3 := (f2.trans (Fr.emit _ (.fired obj w { ns := [], room := room, event := OnRoomLeft } none none))).trans
      (Fr.emit _ (.ret (.leave obj { ns := [], room := room, event := OnRoomLeave }) .ok))
    have c : s'.connected = s.connected := by rw [← h]; rfl
    have ro : room ∉ s'.rooms obj := by
      rw [← h]
      show room ∉ ((s.emit _).setRooms obj (delRoom room)).rooms obj
      rw [rooms_setRooms _ _ _ _ rfl, if_pos rfl]
      simp [delRoom]
    dsimp only at h
    rw [h] at f3
    have n1 : ∀ n, s'.namespace n = s.namespace n := fun n => by unfold St.namespace; rw [c]
    exact ⟨f3.inv hi (fun n hn => (n1 n).trans (hi.keys n hn)), ⟨_, f3.log, rfl, ⟨by rw [if_pos hr]; rfl, ro⟩, fun _ => rfl⟩,
      by rw [n1]; rfl⟩
  · rw [if_neg hr] at h
    subst h
    exact ⟨(Fr.emit s _).inv hi hi.keys, ⟨_, (Fr.emit s _).log, rfl, ⟨by rw [if_neg hr]; rfl, hr⟩, fun _ => rfl⟩, rfl⟩

theorem does_idle {s s' : St} {op : Op} {l : List Obs} (hi : NInv s) (f : Fr s l s') (hc : s'.connected = s.connected)
    (hr : readIn [op] = []) (hl : AllSent l) (ht : NativeReturns s s' op []) (hs : maySend op = false → l = [])
    (ho : ∀ b, nativeOn [op] b = b) : Does s s' op := by
  have n1 : ∀ n, s'.namespace n = s.namespace n := fun n => by unfold St.namespace; rw [hc]
  refine ⟨f.inv hi (fun n hn => (n1 n).trans (hi.keys n hn)), ⟨l, f.log, by rw [hr, ran_sent hl]; rfl, ?_, fun hm => by rw [hs hm]; rfl⟩, ?_⟩
  · rw [hl.projections.2.1]; exact ht
  · rw [n1, ho]

/-- every operation that leaves the connection open -/
theorem does (hd : cfg.decl = [([], [OnNativeMessage])]) {s s' : St} {op : Op} (hi : NInv s)
    (hs : step cfg s op = some s') (hc : s'.closed = false) : Does s s' op := by
  have hon : cfg.onlyNative = true := (c14_only cfg).mpr hd
  have hal : cfg.allowNative = true := by
    unfold Cfg.onlyNative at hon
    simp only [Bool.and_eq_true] at hon
    exact hon.1.1
  obtain ⟨he, hh⟩ := step_exec hs
  cases op with
  | recv typ b =>
    simp only [exec] at he
    rw [if_pos ⟨hi.rd, hi.todo, hi.aa⟩] at he
    cases he
    by_cases hb : b = []
    · have e : recv cfg s typ b = s := by unfold recv; rw [if_pos hb]
      rw [e]
      refine ⟨hi, ⟨[], by simp, ?_, rfl, fun _ => rfl⟩, rfl⟩
      simp [readIn, hb, ran]
    · have e1 : recv cfg s typ b = (match s.namespace [] with
          | none => { s with hung := true }
          | some obj => (fire cfg s obj (nativeMsg typ b)).1) := by
        unfold recv handlePayload
        rw [if_neg hb, if_pos hi.acked, hal, hon, native_decode hb (Or.inl rfl)]
        unfold handleMessage
        simp only [nativeMsg, hon, Bool.and_self, if_true, Bool.false_eq_true, if_false]
        rfl
      rw [e1] at hc hh ⊢
      cases ho : s.namespace [] with
      | none => rw [ho] at hh; simp at hh
      | some obj =>
        rw [ho] at hc
        dsimp only at hc ⊢
        obtain ⟨l, hl, _, h1⟩ := fire_open hc
        have f := Fr.same h1
        have c : (fire cfg s obj (nativeMsg typ b)).1.connected = s.connected := h1.connected
        have n1 : ∀ n, (fire cfg s obj (nativeMsg typ b)).1.namespace n = s.namespace n := fun n => by unfold St.namespace; rw [c]
        refine ⟨f.inv hi (fun n hn => (n1 n).trans (hi.keys n hn)), ⟨_, f.log, ?_, ?_, fun hm => by cases hm⟩, ?_⟩
        · have hp : pick (cfg.events (s.nsName obj)) (nativeMsg typ b).event = some OnNativeMessage := by
            rw [hi.names]
            unfold Cfg.events pick
            rw [hd]
            simp [mapGet, nativeMsg]
          rw [hp]
          simp [readIn, hb, ran, ran_sent hl]
        · simp [NativeReturns, retOf, hl.projections.2.1]
        · rw [n1, ho]; rfl
  | readErr e =>
    simp only [exec] at he
    rw [if_pos ⟨hi.rd, hi.todo, hi.aa⟩] at he
    cases he
    have : (readerExit cfg (s.signalReady (some e))).closed = true := closeConn_closed _
    rw [this] at hc; cases hc
  | wake => simp [exec, wakeReader, hi.rd] at he
  | contReader => simp [exec, contReader, hi.rd, hi.todo, hi.aa] at he
  | connect ns now ex => exact does_connect hd hon hi (by simpa [exec] using he)
  | disconnect obj now ex =>
    simp only [exec] at he
    split at he
    · cases he; exact does_disconnect hd hon hi rfl
    · cases he
  | join obj room now ex =>
    simp only [exec] at he
    split at he
    · cases he; exact does_join hd hon hi ‹_› rfl
    · cases he
  | leave obj room now ex =>
    simp only [exec] at he
    split at he
    · cases he; exact does_leave hd hon hi rfl
    · cases he
  | ask msg now ex =>
    simp only [exec] at he
    cases he
    rw [startAsk_native hon]
    exact ⟨(Fr.emit s _).inv hi hi.keys, ⟨_, (Fr.emit s _).log, rfl, rfl, fun _ => rfl⟩, rfl⟩
  | write msg =>
    simp only [exec] at he
    cases he
    have h1 : Same s _ (write cfg s msg).1 := ⟨_, write_open hc⟩
    exact does_idle hi (.same h1) h1.connected rfl (writeLog_sent s msg) rfl (fun h => by cases h) (fun _ => rfl)
  | resume i => simp [exec, resume, hi.asks] at he
  | cancel i e => simp [exec, cancel, hi.asks] at he
  | close =>
    simp only [exec] at he
    cases he
    rw [closeConn_closed] at hc; cases hc
  | steal i typ b => simp [exec, steal, hi.asks] at he
  | stealErr i e => simp [exec, steal, hi.asks] at he
  | ready err =>
    simp only [exec] at he
    cases he
    have h1 : Same s [] (s.signalReady err) := by
      unfold St.signalReady
      split
      · exact .refl s
      · exact ⟨some err, by simp⟩
    exact does_idle hi (.same h1) h1.connected rfl .nil rfl (fun _ => rfl) (fun _ => rfl)
  | sendAck =>
    simp only [exec, hon, if_true] at he
    cases he
    exact does_idle hi (.refl s) rfl rfl .nil rfl (fun _ => rfl) (fun _ => rfl)
  | srvAsk tok =>
    simp only [exec] at he
    cases he
    exact does_idle hi ⟨rfl, rfl, rfl, rfl, rfl, rfl, by simp, id⟩ rfl rfl .nil rfl (fun _ => rfl) (fun _ => rfl)
  | srvUnask tok =>
    simp only [exec] at he
    cases he
    exact does_idle hi ⟨rfl, rfl, rfl, rfl, rfl, rfl, by simp, id⟩ rfl rfl .nil rfl (fun _ => rfl) (fun _ => rfl)

theorem init_inv (hd : cfg.decl = [([], [OnNativeMessage])]) (id : Bytes) : NInv (newConn cfg id) := by
  unfold newConn
  rw [if_pos ((c14_only cfg).mpr hd)]
  refine ⟨rfl, rfl, rfl, rfl, rfl, rfl, fun i => ?_, fun ns hn => ?_⟩
  · unfold St.nsName
    cases i <;> simp
  · simp [St.namespace, mapGet, Ne.symm hn]

theorem readIn_cons (op : Op) (ops : List Op) : readIn (op :: ops) = readIn [op] ++ readIn ops := by
  cases op <;> rfl

theorem nativeOn_cons (op : Op) (ops : List Op) (b : Bool) : nativeOn (op :: ops) b = nativeOn ops (nativeOn [op] b) := by
  cases op <;> rfl

/-- a whole run -/
theorem runs (hd : cfg.decl = [([], [OnNativeMessage])]) {id : Bytes} {ops : List Op} {s s' : St} (hr : Reach cfg id s) (hi : NInv s)
    (h : runOps cfg s ops = some s') (hc : s'.closed = false) :
    NInv s' ∧ ran s'.log = ran s.log ++ ((readIn ops).filter (·.2 ≠ [])).map (fun p => (OnNativeMessage, nativeMsg p.1 p.2)) ∧
      (s'.namespace []).isSome = nativeOn ops (s.namespace []).isSome := by
  induction ops generalizing s with
  | nil =>
    simp only [runOps, Option.some.injEq] at h
    subst h
    exact ⟨hi, by simp [readIn], rfl⟩
  | cons op ops ih =>
    have ht : ∃ t, step cfg s op = some t ∧ runOps cfg t ops = some s' := by
      simp only [runOps] at h
      split at h
      · exact ⟨_, ‹_›, h⟩
      · cases h
    obtain ⟨t, hst, hrt⟩ := ht
    have htc : t.closed = false := by
      cases hx : t.closed with
      | false => rfl
      | true => rw [run_closed (.step hr hst) hrt hx] at hc; cases hc
    obtain ⟨i1, ⟨l, hl, hran, _, _⟩, on1⟩ := does hd hi hst htc
    obtain ⟨i2, hran2, on2⟩ := ih (.step hr hst) i1 hrt
    refine ⟨i2, ?_, ?_⟩
    · rw [hran2, hl, ran_append, hran, readIn_cons op ops, List.filter_append, List.map_append, List.append_assoc]
    · rw [on2, on1, nativeOn_cons op ops]

end NativeOnly

open NativeOnly
variable {cfg : Cfg} {id : Bytes}

/-- C117: as long as a native-only connection is open, the callbacks that have run are exactly one OnNativeMessage for
each non-empty payload that its reader has read, in this order, with the payload as the body. No other callback runs,
whatever is called. The empty namespace is connected unless the last Disconnect has no Connect after it. -/
theorem c117_ran {ops : List Op} {s : St} (hd : cfg.decl = [([], [OnNativeMessage])])
    (h : runOps cfg (newConn cfg id) ops = some s) (hc : s.closed = false) :
    ran s.log = ((readIn ops).filter (·.2 ≠ [])).map (fun p => (OnNativeMessage, nativeMsg p.1 p.2)) ∧
    (s.namespace []).isSome = nativeOn ops true := by
  obtain ⟨_, h1, h2⟩ := runs hd .init (init_inv hd id) h hc
  rw [h1, h2]
  have e : newConn cfg id = { id := id, objs := [⟨[], []⟩], connected := [([], 0)], acked := true, ready := some none } := by
    unfold newConn; rw [if_pos ((c14_only cfg).mpr hd)]
  rw [e]
  exact ⟨rfl, rfl⟩

/-- C117: the reader of an open native-only connection can always read. It survives a non-empty payload exactly if the
empty namespace is connected; otherwise it panics. -/
theorem c117_panics {ops : List Op} {s : St} (hd : cfg.decl = [([], [OnNativeMessage])])
    (h : runOps cfg (newConn cfg id) ops = some s) (hc : s.closed = false) (typ : MsgType) {b : Bytes} (hb : b ≠ []) :
    ∃ s', exec cfg s (.recv typ b) = some s' ∧ s'.hung = !(nativeOn ops true) := by
  have hon : cfg.onlyNative = true := (c14_only cfg).mpr hd
  have hal : cfg.allowNative = true := by
    unfold Cfg.onlyNative at hon
    simp only [Bool.and_eq_true] at hon
    exact hon.1.1
  obtain ⟨hi, _, _⟩ := runs hd .init (init_inv hd id) h hc
  have hn := (c117_ran hd h hc).2
  refine ⟨recv cfg s typ b, by simp only [exec]; rw [if_pos ⟨hi.rd, hi.todo, hi.aa⟩], ?_⟩
  unfold recv handlePayload
  rw [if_neg hb, if_pos hi.acked, hal, hon, native_decode hb (Or.inl rfl)]
  unfold handleMessage
  simp only [nativeMsg, hon, Bool.and_self, if_true, Bool.false_eq_true, if_false]
  cases ho : s.namespace [] with
  | none => rw [ho] at hn; rw [← hn]; rfl
  | some obj =>
    rw [ho] at hn
    rw [← hn]
    dsimp only
    rw [hung_fire, hi.hung]
    rfl

/-- C117: no call on an open native-only connection waits for the other side. Connect, Disconnect, JoinRoom, Leave and Ask return
at once, with what `NativeReturns` says, and send nothing. No Ask is ever waiting. -/
theorem c117_calls {ops : List Op} {s s' : St} {op : Op} (hd : cfg.decl = [([], [OnNativeMessage])])
    (h : runOps cfg (newConn cfg id) ops = some s) (hs : step cfg s op = some s') (hc : s'.closed = false) :
    s'.asks = [] ∧ ∃ l, s'.log = s.log ++ l ∧ NativeReturns s s' op ((retOf l).map (·.2)) ∧
      (maySend op = false → sentOf l = []) := by
  have hr := runOps_reach (.init (cfg := cfg) (id := id)) h
  have hco : s.closed = false := closed_of_prims (reach_prims hr hs) hc
  obtain ⟨hi, _, _⟩ := runs hd .init (init_inv hd id) h hco
  obtain ⟨i1, ⟨l, hl, _, hret, hsent⟩, _⟩ := does hd hi hs hc
  exact ⟨i1.asks, l, hl, hret, hsent⟩

/-- a native-only connection with a room, a failing and a succeeding Connect; its namespace is left and connected again -/
example : let cfg := serverCfg [([], [OnNativeMessage])] noCb
    let ops : List Op := [.recv .text (b! "one"), .join 0 (b! "r") 1 false, .recv .binary [], .connect (b! "x") 2 false,
      .recv .binary (b! "a;b;c;d;e;f;g"), .ask {} 3 false, .disconnect 0 4 false, .connect [] 5 false, .recv .text (b! "two")]
    (runOps cfg (newConn cfg (b! "1")) ops).map (fun s => (s.closed, (ran s.log).map (fun p => (p.1, p.2.body)))) =
      some (false, [(OnNativeMessage, b! "one"), (OnNativeMessage, b! "a;b;c;d;e;f;g"), (OnNativeMessage, b! "two")]) ∧
    (runOps cfg (newConn cfg (b! "1")) ops).map (fun s => (retOf s.log).map (·.2)) =
      some [.room 0 (b! "r"), .err errBadNamespace, .answer {} none, .ok, .nsConn 1] ∧
    nativeOn ops true = true ∧ nativeOn (ops.take 7) true = false ∧
    (runOps cfg (newConn cfg (b! "1")) (ops.take 7 ++ [.recv .text (b! "lost")])).isNone = true := by
  decide +kernel

end Neffos
