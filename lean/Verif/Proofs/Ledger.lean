import Verif.Spec.Ledger
import Verif.Proofs.ConnWhole
import Verif.Proofs.ConnOuter
import Verif.Proofs.ConnReader
import Verif.Proofs.ConnAsk
import Verif.Props.Handshake
/-!
Helper for C95: the ledger kept from callbacks follows the membership.
-/
set_option autoImplicit false
namespace Neffos
open Spec

variable {cfg : Cfg} {id : Bytes} {s t : St}

/-! ## The ledger and one observation -/

theorem ledger_snoc (c : Bool) (l : List Obs) (o : Obs) : ledger c (l ++ [o]) = (ledger c l).see c o := by
  simp [ledger, List.foldl_append]

/-- the four events that change the ledger -/
def Counts (e : Bytes) : Prop :=
  e = OnNamespaceConnected ∨ e = OnNamespaceDisconnect ∨ e = OnRoomJoined ∨ e = OnRoomLeft

theorem hear_else (l : Ledger) (c : Bool) (obj : Nat) (msg : Message) (ret : Option GoErr) (h : ¬ Counts msg.event) :
    l.hear c obj msg ret = l := by
  unfold Counts at h
  unfold Ledger.hear
  rw [if_neg (fun e => h (.inl e)), if_neg (fun e => h (.inr (.inl e))), if_neg (fun e => h (.inr (.inr (.inl e)))),
    if_neg (fun e => h (.inr (.inr (.inr e))))]

/-! ## The invariant, with a namespace that may be ahead or behind -/

/-- how the ledger's entry of a namespace relates to the membership -/
abbrev Rel := Bytes → Option Nat → Option Nat → Prop

/-- when both are removed nothing is wrong -/
def Mild (x : Rel) : Prop := ∀ ns a b, x ns a b → x ns none none

/-- they are the same -/
def even : Rel := fun _ a b => a = b

/-- the namespace `n` is already removed from the ledger -/
def ahead (n : Bytes) : Rel := fun ns a b => if ns = n then a = none else a = b

/-- the namespace `n` is already removed from the connection -/
def behind (n : Bytes) : Rel := fun ns a b => if ns = n then b = none else a = b

theorem mild_even : Mild even := fun _ _ _ _ => rfl
theorem mild_ahead (n : Bytes) : Mild (ahead n) := by
  intro ns a b _; unfold ahead; split <;> rfl
theorem mild_behind (n : Bytes) : Mild (behind n) := by
  intro ns a b _; unfold behind; split <;> rfl

/-- the NSConn exists and is of this namespace -/
abbrev IsNs (s : St) (obj : Nat) (ns : Bytes) : Prop := s.objs[obj]?.map (·.ns) = some ns

/-- a room of an NSConn that is removed from the connection while the ledger may still have it -/
abbrev Late := Option (Nat × Bytes)

structure Near (cfg : Cfg) (x : Rel) (y : Late) (s : St) : Prop where
  conn : ∀ ns, x ns ((ledger cfg.isClient s.log).conn ns) (s.namespace ns)
  room : ∀ o r, y ≠ some (o, r) → ((ledger cfg.isClient s.log).rooms o r = true ↔ r ∈ s.rooms o)
  late : ∀ o r, y = some (o, r) → r ∉ s.rooms o
  names : ∀ ns o, s.namespace ns = some o → IsNs s o ns
  decl : ∀ i n, IsNs s i n → (mapGet cfg.decl n).isSome = true

variable {x : Rel} {y : Late}

/-- only the log, the NSConns and the connected namespaces matter -/
theorem Near.same (h : Near cfg x y s) (h1 : t.log = s.log) (h2 : t.connected = s.connected) (h3 : t.objs = s.objs) :
    Near cfg x y t := by
  refine ⟨?_, ?_, ?_, ?_, ?_⟩
  · unfold St.namespace; rw [h1, h2]; exact h.conn
  · unfold St.rooms; rw [h1, h3]; exact h.room
  · unfold St.rooms; rw [h3]; exact h.late
  · unfold St.namespace IsNs; rw [h2, h3]; exact h.names
  · unfold IsNs; rw [h3]; exact h.decl

theorem nsName_of {s : St} {obj : Nat} {ns : Bytes} (h : IsNs s obj ns) : s.nsName obj = ns := by
  unfold IsNs at h
  unfold St.nsName
  cases k : s.objs[obj]? with
  | none => rw [k] at h; cases h
  | some o => rw [k] at h; cases h; rfl

/-- an observation that is no callback -/
theorem Near.emit (h : Near cfg x y s) (o : Obs) (ho : ∀ obj v m h r, o ≠ .fired obj v m h r) : Near cfg x y (s.emit o) := by
  have e : ledger cfg.isClient (s.emit o).log = ledger cfg.isClient s.log := by
    show ledger _ (s.log ++ [o]) = _
    rw [ledger_snoc]
    cases o with
    | fired obj v m h r => exact absurd rfl (ho _ _ _ _ _)
    | _ => rfl
  refine ⟨?_, ?_, h.late, h.names, h.decl⟩
  · rw [e]; exact h.conn
  · rw [e]; exact h.room

/-- a callback that does not count -/
theorem Near.fired (h : Near cfg x y s) (obj : Nat) (v : View) (msg : Message) (hnd : Option Bytes)
    (ret : Option GoErr) (hc : ¬ Counts msg.event) : Near cfg x y (s.emit (.fired obj v msg hnd ret)) := by
  have e : ledger cfg.isClient (s.emit (.fired obj v msg hnd ret)).log = ledger cfg.isClient s.log := by
    show ledger _ (s.log ++ [_]) = _
    rw [ledger_snoc]
    cases hnd with
    | none => rfl
    | some _ => exact hear_else _ _ _ _ _ hc
  refine ⟨?_, ?_, h.late, h.names, h.decl⟩
  · rw [e]; exact h.conn
  · rw [e]; exact h.room

/-- a callback is registered for what counts -/
theorem Near.heard (hl : Listens cfg.decl) (h : Near cfg x y s) {obj : Nat} {ns e : Bytes} (ho : IsNs s obj ns)
    (he : Counts e) : ∃ hnd, pick (cfg.events (s.nsName obj)) e = some hnd := by
  rw [nsName_of ho]
  obtain ⟨evs, hd⟩ := Option.isSome_iff_exists.mp (h.decl _ _ ho)
  unfold Cfg.events pick
  rw [hd]
  simp only [Option.getD_some]
  rcases hl _ _ hd e he with k | k
  · rw [if_pos k]; exact ⟨_, rfl⟩
  · simp only [k, if_true]
    split <;> exact ⟨_, rfl⟩

theorem rooms_set (s : St) (obj o : Nat) (f : List Bytes → List Bytes) (ho : obj < s.objs.length) :
    (s.setRooms obj f).rooms o = if o = obj then f (s.rooms o) else s.rooms o := by
  unfold St.rooms St.setRooms
  simp only [List.getElem?_modify]
  by_cases k : o = obj
  · subst k
    simp [ho]
  · rw [if_neg k]
    cases s.objs[o]? with
    | none => rfl
    | some w => simp [Ne.symm k]

theorem isNs_lt {s : St} {obj : Nat} {ns : Bytes} (h : IsNs s obj ns) : obj < s.objs.length := by
  unfold IsNs at h
  cases k : s.objs[obj]? with
  | none => rw [k] at h; cases h
  | some o => exact (List.getElem?_eq_some_iff.mp k).1

theorem isNs_set {s : St} {obj o : Nat} {f : List Bytes → List Bytes} {ns : Bytes} :
    IsNs (s.setRooms obj f) o ns ↔ IsNs s o ns := by
  unfold IsNs
  rw [setRooms_names]

/-- OnRoomJoined right after the room was added -/
theorem Near.joined (h : Near cfg x none s) {obj : Nat} {ns : Bytes} (ho : IsNs s obj ns) (v : View) (msg : Message)
    (hnd : Bytes) (ret : Option GoErr) (he : msg.event = OnRoomJoined) :
    Near cfg x none ((s.setRooms obj (addRoom msg.room)).emit (.fired obj v msg (some hnd) ret)) := by
  have e : ledger cfg.isClient ((s.setRooms obj (addRoom msg.room)).emit (.fired obj v msg (some hnd) ret)).log =
      { ledger cfg.isClient s.log with
        rooms := fun o r => if o = obj ∧ r = msg.room then true else (ledger cfg.isClient s.log).rooms o r } := by
    show ledger _ (s.log ++ [_]) = _
    rw [ledger_snoc]
    show Ledger.hear _ _ _ _ _ = _
    unfold Ledger.hear
    rw [he, if_neg (by decide), if_neg (by decide), if_pos rfl]
  refine ⟨?_, ?_, fun _ _ k => (by cases k), ?_, ?_⟩
  · rw [e]; exact h.conn
  · intro o r hy
    rw [e]
    have k : ((s.setRooms obj (addRoom msg.room)).emit (.fired obj v msg (some hnd) ret)).rooms o =
        (s.setRooms obj (addRoom msg.room)).rooms o := rfl
    rw [k, rooms_set _ _ _ _ (isNs_lt ho)]
    dsimp only
    by_cases ko : o = obj
    · subst ko
      rw [if_pos rfl]
      have : ∀ r, r ∈ addRoom msg.room (s.rooms o) ↔ r = msg.room ∨ r ∈ s.rooms o := by
        intro r
        unfold addRoom
        split
        · rename_i hm
          exact ⟨.inr, fun k => k.elim (fun k => k ▸ hm) (fun h => h)⟩
        · exact List.mem_cons
      rw [this]
      by_cases kr : r = msg.room
      · simp [kr]
      · simp [kr, h.room o r hy]
    · simp [ko, h.room o r hy]
  · intro n o hn
    exact isNs_set.mpr (h.names n o hn)
  · intro i n hi
    exact h.decl i n (isNs_set.mp hi)

/-- OnRoomLeft right after the room was removed -/
theorem Near.left (h : Near cfg x y s) {obj : Nat} {ns : Bytes} (ho : IsNs s obj ns) (v : View) (msg : Message)
    (hnd : Bytes) (ret : Option GoErr) (he : msg.event = OnRoomLeft) :
    Near cfg x y ((s.setRooms obj (delRoom msg.room)).emit (.fired obj v msg (some hnd) ret)) := by
  have e : ledger cfg.isClient ((s.setRooms obj (delRoom msg.room)).emit (.fired obj v msg (some hnd) ret)).log =
      { ledger cfg.isClient s.log with
        rooms := fun o r => if o = obj ∧ r = msg.room then false else (ledger cfg.isClient s.log).rooms o r } := by
    show ledger _ (s.log ++ [_]) = _
    rw [ledger_snoc]
    show Ledger.hear _ _ _ _ _ = _
    unfold Ledger.hear
    rw [he, if_neg (by decide), if_neg (by decide), if_neg (by decide), if_pos rfl]
  have sub : ∀ o r, r ∈ (s.setRooms obj (delRoom msg.room)).rooms o → r ∈ s.rooms o := by
    intro o r
    rw [rooms_set _ _ _ _ (isNs_lt ho)]
    split
    · exact fun k => (List.mem_filter.mp k).1
    · exact fun h => h
  refine ⟨?_, ?_, fun o r k m => h.late o r k (sub o r m), ?_, ?_⟩
  · rw [e]; exact h.conn
  · intro o r hy
    rw [e]
    have k : ((s.setRooms obj (delRoom msg.room)).emit (.fired obj v msg (some hnd) ret)).rooms o =
        (s.setRooms obj (delRoom msg.room)).rooms o := rfl
    rw [k, rooms_set _ _ _ _ (isNs_lt ho)]
    dsimp only
    by_cases ko : o = obj
    · subst ko
      rw [if_pos rfl]
      have : ∀ r, r ∈ delRoom msg.room (s.rooms o) ↔ r ≠ msg.room ∧ r ∈ s.rooms o := by
        intro r
        unfold delRoom
        rw [List.mem_filter]
        simp [and_comm]
      rw [this]
      by_cases kr : r = msg.room
      · simp [kr]
      · simp [kr, h.room o r hy]
    · simp [ko, h.room o r hy]
  · intro n o hn
    exact isNs_set.mpr (h.names n o hn)
  · intro i n hi
    exact h.decl i n (isNs_set.mp hi)

/-! ## Closing -/

theorem mapGet_del (m : List (Bytes × Nat)) (k n : Bytes) : mapGet (mapDel m k) n = if n = k then none else mapGet m n := by
  induction m with
  | nil => simp [mapDel, mapGet]
  | cons p m ih =>
    obtain ⟨a, v⟩ := p
    unfold mapDel at ih ⊢
    by_cases ha : a = k
    · subst ha
      rw [List.filter_cons_of_neg (by simp)]
      rw [ih]
      by_cases hn : n = a
      · simp [hn]
      · simp [mapGet, hn, Ne.symm hn]
    · rw [List.filter_cons_of_pos (by simp [ha])]
      simp only [mapGet]
      by_cases hn : a = n
      · subst hn; simp [ha]
      · rw [if_neg hn, if_neg hn]; exact ih

theorem mapGet_set (m : List (Bytes × Nat)) (k n : Bytes) (v : Nat) :
    mapGet (mapSet m k v) n = if n = k then some v else mapGet m n := by
  unfold mapSet
  simp only [mapGet]
  by_cases h : k = n
  · subst h; simp
  · rw [if_neg h, mapGet_del, if_neg (Ne.symm h), if_neg (Ne.symm h)]

/-- a callback on a closed connection: what counts is what is logged -/
theorem near_fireClosed {obj : Nat} {msg : Message}
    (h : ∀ hnd ret, pick (cfg.events (s.nsName obj)) msg.event = some hnd →
      Near cfg x y (s.emit (.fired obj (s.view obj msg) msg (some hnd) ret)))
    (hp : ∃ hnd, pick (cfg.events (s.nsName obj)) msg.event = some hnd) : Near cfg x y (fireClosed cfg s obj msg) := by
  unfold fireClosed
  dsimp only
  obtain ⟨hnd, hp⟩ := hp
  rw [hp]
  exact h _ _ hp

theorem near_fireClosed_else (h : Near cfg x y s) {obj : Nat} {msg : Message} (hc : ¬ Counts msg.event) :
    Near cfg x y (fireClosed cfg s obj msg) := by
  unfold fireClosed
  dsimp only
  split <;> exact h.fired _ _ _ _ _ hc

theorem not_counts_leave : ¬ Counts OnRoomLeave := by unfold Counts; decide
theorem not_counts_join : ¬ Counts OnRoomJoin := by unfold Counts; decide
theorem not_counts_connect : ¬ Counts OnNamespaceConnect := by unfold Counts; decide

theorem fireClosed_objs (s : St) (obj : Nat) (msg : Message) : (fireClosed cfg s obj msg).objs = s.objs := by
  unfold fireClosed
  dsimp only
  split <;> rfl

theorem near_leaveOneClosed (hl : Listens cfg.decl) (h : Near cfg x y s) {obj : Nat} {ns : Bytes} (ho : IsNs s obj ns)
    (il : Bool) (room : Bytes) :
    Near cfg x y (leaveOneClosed cfg obj il s room) ∧ IsNs (leaveOneClosed cfg obj il s room) obj ns := by
  have h1 : Near cfg x y (fireClosed cfg s obj (forcedLeaveMsg (s.nsName obj) room OnRoomLeave il)) :=
    near_fireClosed_else h not_counts_leave
  have o1 : IsNs (fireClosed cfg s obj (forcedLeaveMsg (s.nsName obj) room OnRoomLeave il)) obj ns := by
    unfold IsNs; rw [fireClosed_objs]; exact ho
  unfold leaveOneClosed
  dsimp only
  generalize fireClosed cfg s obj (forcedLeaveMsg (s.nsName obj) room OnRoomLeave il) = u at h1 o1
  refine ⟨near_fireClosed ?_ ?_, ?_⟩
  · intro hnd ret _
    exact h1.left o1 _ (forcedLeaveMsg (s.nsName obj) room OnRoomLeft il) _ _ rfl
  · have o2 : IsNs (u.setRooms obj (delRoom room)) obj ns := isNs_set.mpr o1
    have : pick (cfg.events ((u.setRooms obj (delRoom room)).nsName obj)) OnRoomLeft =
        pick (cfg.events (u.nsName obj)) OnRoomLeft := by rw [nsName_of o2, nsName_of o1]
    show ∃ hnd, pick _ OnRoomLeft = some hnd
    rw [this]
    exact h1.heard hl o1 (.inr (.inr (.inr rfl)))
  · unfold IsNs
    rw [fireClosed_objs]
    exact isNs_set.mpr o1

theorem near_forceLeaveClosed (hl : Listens cfg.decl) (h : Near cfg x y s) {obj : Nat} {ns : Bytes} (ho : IsNs s obj ns)
    (il : Bool) : Near cfg x y (forceLeaveClosed cfg s obj il) ∧ IsNs (forceLeaveClosed cfg s obj il) obj ns := by
  unfold forceLeaveClosed
  generalize cfg.order s.log (s.rooms obj) = rs
  induction rs generalizing s with
  | nil => exact ⟨h, ho⟩
  | cons r rs ih =>
    obtain ⟨h1, o1⟩ := near_leaveOneClosed hl h ho il r
    exact ih h1 o1

/-- OnNamespaceDisconnect that removes, together with the removal -/
theorem Near.gone (hx : Mild x) (h : Near cfg x y s) (obj : Nat) (v : View) (msg : Message) (hnd : Bytes)
    (ret : Option GoErr) (he : msg.event = OnNamespaceDisconnect)
    (hk : ¬ (cfg.isClient = false ∧ msg.isLocal = false ∧ ret.isSome = true)) :
    Near cfg x y { s.emit (.fired obj v msg (some hnd) ret) with connected := mapDel s.connected msg.ns } := by
  have e : ledger cfg.isClient (s.log ++ [.fired obj v msg (some hnd) ret]) =
      { ledger cfg.isClient s.log with
        conn := fun n => if n = msg.ns then none else (ledger cfg.isClient s.log).conn n } := by
    rw [ledger_snoc]
    show Ledger.hear _ _ _ _ _ = _
    unfold Ledger.hear
    rw [he, if_neg (by decide), if_pos rfl, if_neg hk]
  refine ⟨?_, ?_, h.late, ?_, h.decl⟩
  · intro n
    show x n ((ledger cfg.isClient (s.log ++ [_])).conn n) (mapGet (mapDel s.connected msg.ns) n)
    rw [e, mapGet_del]
    dsimp only
    split
    · exact hx _ _ _ (h.conn n)
    · exact h.conn n
  · intro o r hy
    show (ledger cfg.isClient (s.log ++ [_])).rooms o r = true ↔ _
    rw [e]
    exact h.room o r hy
  · intro n o hn
    have hn' : mapGet (mapDel s.connected msg.ns) n = some o := hn
    rw [mapGet_del] at hn'
    split at hn'
    · cases hn'
    · exact h.names n o hn'

theorem near_closeOne (hl : Listens cfg.decl) (hx : Mild x) (h : Near cfg x y s) (ns : Bytes) :
    Near cfg x y (closeOne cfg s ns) := by
  unfold closeOne
  split
  · exact h
  · rename_i obj hns
    obtain ⟨h1, o1⟩ := near_forceLeaveClosed hl h (h.names _ _ hns) true
    dsimp only
    generalize forceLeaveClosed cfg s obj true = u at h1 o1
    rw [nsName_of o1]
    unfold fireClosed
    dsimp only
    obtain ⟨hnd, hp⟩ := h1.heard hl o1 (.inr (.inl rfl) : Counts OnNamespaceDisconnect)
    have hp' : pick (cfg.events (u.nsName obj)) (forcedDisconnectMsg ns).event = some hnd := hp
    rw [hp']
    exact h1.gone hx obj _ (forcedDisconnectMsg ns) hnd _ rfl (by simp [forcedDisconnectMsg])

theorem near_closeEnd (h : Near cfg x y s) : Near cfg x y (closeEnd cfg s) := by
  have h0 : Near cfg x y { s with acked := false } := h.same rfl rfl rfl
  unfold closeEnd
  split
  · exact (h0.emit _ (by simp)).emit _ (by simp)
  · exact ((h0.emit _ (by simp)).emit _ (by simp)).emit _ (by simp)

theorem near_closeConn (hl : Listens cfg.decl) (hx : Mild x) (h : Near cfg x y s) : Near cfg x y (closeConn cfg s) := by
  have h0 : Near cfg x y { s with closed := true } := h.same rfl rfl rfl
  unfold closeConn
  split
  · exact h
  · split
    · exact near_closeEnd h0
    · refine near_closeEnd ?_
      unfold closeAll
      generalize cfg.order ({ s with closed := true } : St).log _ = nss
      generalize ({ s with closed := true } : St) = u at h0
      suffices k : Near cfg x y (nss.foldl (closeOne cfg) u) from k.same rfl rfl rfl
      induction nss generalizing u with
      | nil => exact h0
      | cons n nss ih => exact ih _ (near_closeOne hl hx h0 n)

/-! ## Writing -/

theorem near_rawWrite (hl : Listens cfg.decl) (hx : Mild x) (h : Near cfg x y s) (b : Bytes) (bin : Bool) :
    Near cfg x y (rawWrite cfg s b bin).1 := by
  unfold rawWrite
  dsimp only
  have h1 := h.emit (.sent bin b (cfg.sock s.log bin b).isNone) (by simp)
  split
  · exact h1
  · split
    · exact near_closeConn hl hx h1
    · exact h1

theorem near_signalReady (h : Near cfg x y s) (e : Option GoErr) : Near cfg x y (s.signalReady e) := by
  unfold St.signalReady
  split
  · exact h
  · exact h.same rfl rfl rfl

theorem near_markReady (h : Near cfg x y s) : Near cfg x y (s.markReady cfg) := by
  unfold St.markReady
  split
  · exact h
  · exact near_signalReady h _

theorem near_write (hl : Listens cfg.decl) (hx : Mild x) (h : Near cfg x y s) (msg : Message) :
    Near cfg x y (write cfg s msg).1 := by
  have h1 : Near cfg x y (canWrite cfg s msg).1 := by
    unfold canWrite
    split
    · exact h
    · exact near_markReady h
  unfold write
  generalize canWrite cfg s msg = p at h1
  obtain ⟨u, ok⟩ := p
  dsimp only at h1 ⊢
  split
  · split
    · exact near_rawWrite hl hx h1 _ _
    · exact h1.same rfl rfl rfl
  · exact h1

theorem near_reply (hl : Listens cfg.decl) (hx : Mild x) (h : Near cfg x y s) (w : Bytes) :
    Near cfg x y (writeEmptyReply cfg s w) := near_rawWrite hl hx h _ _

theorem near_runAct (hl : Listens cfg.decl) (hx : Mild x) (h : Near cfg x y s) (a : Act) : Near cfg x y (runAct cfg s a) := by
  cases a with
  | write m => exact near_write hl hx h m
  | close => exact near_closeConn hl hx h

theorem near_acts (hl : Listens cfg.decl) (hx : Mild x) (h : Near cfg x y s) (acts : List Act) :
    Near cfg x y (acts.foldl (runAct cfg) s) := by
  induction acts generalizing s with
  | nil => exact h
  | cons a acts ih => exact ih (near_runAct hl hx h a)

/-- a callback, told what is logged -/
theorem near_fire (hl : Listens cfg.decl) (hx : Mild x) {obj : Nat} {msg : Message} {r : Option GoErr}
    (hf : fire cfg s obj msg = (t, r))
    (h : ∀ hnd, Near cfg x y (s.emit (.fired obj (s.view obj msg) msg (some hnd) r)))
    (hp : ∃ hnd, pick (cfg.events (s.nsName obj)) msg.event = some hnd) : Near cfg x y t := by
  unfold fire at hf
  dsimp only at hf
  obtain ⟨hnd, hp⟩ := hp
  rw [hp] at hf
  dsimp only at hf
  cases hf
  exact near_acts hl hx (h hnd) _

/-- a callback that does not count -/
theorem near_fire_else (hl : Listens cfg.decl) (hx : Mild x) {obj : Nat} {msg : Message} {r : Option GoErr}
    (hf : fire cfg s obj msg = (t, r)) (hc : ¬ Counts msg.event) (h : Near cfg x y s) : Near cfg x y t := by
  unfold fire at hf
  dsimp only at hf
  split at hf
  · cases hf; exact h.fired _ _ _ _ _ hc
  · cases hf; exact near_acts hl hx (h.fired _ _ _ _ _ hc) _

/-! ## What stays of the NSConns -/

/-- the NSConns stay what they are -/
def NamesStay (s t : St) : Prop := ∀ o n, IsNs s o n → IsNs t o n

theorem names_calm : Calm NamesStay where
  refl _ _ _ h := h
  trans h k o n x := k o n (h o n x)
  emit _ _ _ _ h := h
  ready _ _ _ _ h := h
  hang _ _ _ h := h
  del _ _ _ _ _ h := isNs_set.mpr h
  nsDel _ _ _ _ h := h
  closed _ _ _ h := h
  waiting _ _ _ _ h := h
  unack _ _ _ _ h := h

/-! ## Leaving all rooms -/

theorem near_locked (hl : Listens cfg.decl) (hx : Mild x) (h : Near cfg x y s) (obj : Nat) (acts : List Act) :
    Near cfg x y (acts.foldl (runActLocked cfg obj) s) := by
  induction acts generalizing s with
  | nil => exact h
  | cons a acts ih =>
    refine ih ?_
    unfold runActLocked
    split
    · exact (near_runAct hl hx h a).same rfl rfl rfl
    · exact near_runAct hl hx h a

theorem near_leaveOne (hl : Listens cfg.decl) (hx : Mild x) (h : Near cfg x y s) {obj : Nat} {ns : Bytes}
    (ho : IsNs s obj ns) (il : Bool) (room : Bytes) :
    Near cfg x y (leaveOne cfg obj il s room) ∧ IsNs (leaveOne cfg obj il s room) obj ns := by
  have o1 := names_calm.fireLocked (cfg := cfg) s obj (forcedLeaveMsg (s.nsName obj) room OnRoomLeave il) obj ns ho
  have h1 : Near cfg x y (fireLocked cfg s obj (forcedLeaveMsg (s.nsName obj) room OnRoomLeave il)) := by
    unfold fireLocked
    dsimp only
    split
    · exact h.fired _ _ _ _ _ not_counts_leave
    · exact near_locked hl hx (h.fired _ _ _ _ _ not_counts_leave) _ _
  unfold leaveOne
  dsimp only
  generalize fireLocked cfg s obj (forcedLeaveMsg (s.nsName obj) room OnRoomLeave il) = u at h1 o1
  have o2 : IsNs (u.setRooms obj (delRoom room)) obj ns := isNs_set.mpr o1
  refine ⟨?_, names_calm.fireLocked _ _ _ _ _ o2⟩
  obtain ⟨hnd, hp⟩ := h1.heard hl o1 (.inr (.inr (.inr rfl)) : Counts OnRoomLeft)
  rw [nsName_of o1] at hp
  unfold fireLocked
  dsimp only
  rw [nsName_of o2]
  have hp' : pick (cfg.events ns) (forcedLeaveMsg (s.nsName obj) room OnRoomLeft il).event = some hnd := hp
  rw [hp']
  exact near_locked hl hx (h1.left o1 _ (forcedLeaveMsg (s.nsName obj) room OnRoomLeft il) _ _ rfl) _ _

theorem near_forceLeaveAll (hl : Listens cfg.decl) (hx : Mild x) (h : Near cfg x y s) {obj : Nat} {ns : Bytes}
    (ho : IsNs s obj ns) (il : Bool) :
    Near cfg x y (forceLeaveAll cfg s obj il) ∧ IsNs (forceLeaveAll cfg s obj il) obj ns := by
  unfold forceLeaveAll
  generalize cfg.order s.log (s.rooms obj) = rs
  induction rs generalizing s with
  | nil => exact ⟨h, ho⟩
  | cons r rs ih =>
    obtain ⟨h1, o1⟩ := near_leaveOne hl hx h ho il r
    exact ih h1 o1

/-! ## A connection whose acceptance could not be written -/

/-- closed, and the socket refused something -/
def Spoiled (s : St) : Prop := s.closed = true ∧ ∃ bin b, Obs.sent bin b false ∈ s.log

def SpoilStays (s t : St) : Prop := Spoiled s → Spoiled t

theorem spoil_whole : Whole SpoilStays where
  refl _ h := h
  trans h k x := k (h x)
  emit _ _ h := ⟨h.1, by obtain ⟨_, bin, b, hm⟩ := h; exact ⟨bin, b, List.mem_append_left _ hm⟩⟩
  ready _ _ h := h
  hang _ h := h
  del _ _ _ h := h
  nsDel _ _ h := h
  closed _ h := ⟨rfl, h.2⟩
  waiting _ _ h := h
  unack _ _ h := h
  newObj _ _ h := h
  addRoom _ _ _ h := h
  nsAdd _ _ _ h := h
  rd _ _ _ h := h
  todo _ _ _ h := h
  asks _ _ h := h
  wait _ _ h := h
  gates _ _ h := h
  srv _ _ h := h

/-! ## Answering -/

theorem Near.newObj (h : Near cfg x y s) {ns : Bytes} (hd : (mapGet cfg.decl ns).isSome = true) :
    Near cfg x y { s with objs := s.objs ++ [⟨ns, []⟩] } ∧
      IsNs { s with objs := s.objs ++ [⟨ns, []⟩] } s.objs.length ns := by
  have grow : ∀ o n, IsNs s o n → IsNs { s with objs := s.objs ++ [⟨ns, []⟩] } o n := by
    intro o n k
    have hlt := isNs_lt k
    unfold IsNs at k ⊢
    rw [List.getElem?_append_left hlt]
    exact k
  have same : ∀ o, St.rooms { s with objs := s.objs ++ [⟨ns, []⟩] } o = s.rooms o := by
    intro o
    unfold St.rooms
    by_cases hlt : o < s.objs.length
    · rw [List.getElem?_append_left hlt]
    · rw [List.getElem?_append_right (by omega), List.getElem?_eq_none (Nat.le_of_not_lt hlt)]
      by_cases h0 : o - s.objs.length = 0
      · simp [h0]
      · rw [List.getElem?_eq_none (by simp; omega)]
  refine ⟨⟨h.conn, ?_, fun o r k => (by rw [same]; exact h.late o r k), fun n o k => grow o n (h.names n o k), ?_⟩, by simp [IsNs]⟩
  · intro o r hy
    rw [same]
    exact h.room o r hy
  · intro i n k
    by_cases hlt : i < s.objs.length
    · refine h.decl i n ?_
      unfold IsNs at k ⊢
      rw [List.getElem?_append_left hlt] at k
      exact k
    · unfold IsNs at k
      rw [List.getElem?_append_right (by omega)] at k
      by_cases h0 : i - s.objs.length = 0
      · rw [h0] at k
        cases k
        exact hd
      · rw [List.getElem?_eq_none (by simp; omega)] at k
        cases k

/-- OnNamespaceConnected after the namespace was added; in between only the log may have grown by something that
is no callback -/
theorem Near.connected (h : Near cfg even none s) {obj : Nat} {ns : Bytes} (ho : IsNs s obj ns) (v : View) (msg : Message)
    (hnd : Bytes) (ret : Option GoErr) (he : msg.event = OnNamespaceConnected) (hm : msg.ns = ns) :
    Near cfg even none ({ s with connected := mapSet s.connected ns obj }.emit (.fired obj v msg (some hnd) ret)) := by
  have e : ledger cfg.isClient (s.log ++ [.fired obj v msg (some hnd) ret]) =
      { ledger cfg.isClient s.log with
        conn := fun n => if n = msg.ns then some obj else (ledger cfg.isClient s.log).conn n } := by
    rw [ledger_snoc]
    show Ledger.hear _ _ _ _ _ = _
    unfold Ledger.hear
    rw [if_pos he]
  refine ⟨?_, ?_, h.late, ?_, h.decl⟩
  · intro n
    show even n ((ledger cfg.isClient (s.log ++ [_])).conn n) (mapGet (mapSet s.connected ns obj) n)
    rw [e, mapGet_set, hm]
    dsimp only
    unfold even
    split
    · rfl
    · exact h.conn n
  · intro o r hy
    show (ledger cfg.isClient (s.log ++ [_])).rooms o r = true ↔ _
    rw [e]
    exact h.room o r hy
  · intro n o hn
    have hn' : mapGet (mapSet s.connected ns obj) n = some o := hn
    rw [mapGet_set] at hn'
    split at hn'
    · rename_i k
      cases hn'
      subst k
      exact ho
    · exact h.names n o hn'

/-- `notifyNamespaceConnected` right after the namespace was added -/
theorem near_notifyConnected (hl : Listens cfg.decl) (h : Near cfg even none s) {obj : Nat} {ns : Bytes} (ho : IsNs s obj ns)
    (msg : Message) (hm : msg.ns = ns) :
    Near cfg even none (notifyConnected cfg { s with connected := mapSet s.connected ns obj } obj msg) := by
  have k : Near cfg even none (fire cfg { s with connected := mapSet s.connected ns obj } obj
      { msg with event := OnNamespaceConnected }).1 := by
    refine near_fire hl mild_even rfl ?_ ?_
    · intro hnd
      exact h.connected ho _ _ _ _ rfl hm
    · exact h.heard hl ho (.inl rfl)
  unfold notifyConnected
  dsimp only
  split
  · exact k.emit _ (by simp)
  · exact k

theorem near_notifyDisconnect (h : Near cfg x y s) (ns : Bytes) : Near cfg x y (notifyDisconnect cfg s ns) := by
  unfold notifyDisconnect
  split
  · exact h.emit _ (by simp)
  · exact h

/-- even, or spoiled -/
def Tallied (cfg : Cfg) (s : St) : Prop := Near cfg even none s ∨ Spoiled s

theorem kept_replyConnect (hl : Listens cfg.decl) (h : Near cfg even none s) (msg : Message)
    (he : msg.event = OnNamespaceConnect) : Tallied cfg (replyConnect cfg s msg) := by
  unfold replyConnect
  split
  · exact .inl h
  · split
    · exact .inl (near_reply hl mild_even h _)
    · split
      · exact .inl (near_write hl mild_even h _)
      · rename_i evs hd
        have hd' : (mapGet cfg.decl msg.ns).isSome = true := by rw [hd]; rfl
        obtain ⟨h1, o1⟩ := h.newObj (ns := msg.ns) hd'
        simp only [newObj]
        split
        · rename_i u e hf
          exact .inl (near_write hl mild_even
            (near_fire_else hl mild_even hf (by rw [he]; exact not_counts_connect) h1) _)
        · rename_i u hf
          have h2 := near_fire_else hl mild_even hf (by rw [he]; exact not_counts_connect) h1
          have o2 : IsNs u s.objs.length msg.ns := names_calm.fire' hf _ _ o1
          -- the empty reply
          have emit' : ∀ ok, Near cfg even none (notifyConnected cfg
              ({ u with connected := mapSet u.connected msg.ns s.objs.length }.emit
                (.sent false (genEmptyReplyToWait msg.wait) ok)) s.objs.length msg) := by
            intro ok
            exact near_notifyConnected hl (h2.emit (.sent false (genEmptyReplyToWait msg.wait) ok) (by simp))
              (s := u.emit _) o2 msg rfl
          unfold writeEmptyReply rawWrite
          dsimp only
          split
          · exact .inl (emit' _)
          · rename_i hok
            split
            · have hok' : (cfg.sock u.log false (genEmptyReplyToWait msg.wait)).isNone = false := by
                cases k : (cfg.sock u.log false (genEmptyReplyToWait msg.wait)).isNone with
                | false => rfl
                | true => exact absurd k hok
              refine .inr ?_
              refine spoil_whole.toCalm.notifyConnected _ _ _ ?_
              refine ⟨closeConn_closed _, false, genEmptyReplyToWait msg.wait, ?_⟩
              have : ∀ w : St, Obs.sent false (genEmptyReplyToWait msg.wait) false ∈ w.log →
                  Obs.sent false (genEmptyReplyToWait msg.wait) false ∈ (closeConn cfg w).log := by
                intro w hw
                exact (Calm.closeConn (cfg := cfg) (R := fun a b => Obs.sent false (genEmptyReplyToWait msg.wait) false ∈ a.log →
                    Obs.sent false (genEmptyReplyToWait msg.wait) false ∈ b.log)
                  ⟨fun _ h => h, fun h k x => k (h x), fun _ _ h => List.mem_append_left _ h, fun _ _ h => h,
                    fun _ h => h, fun _ _ _ h => h, fun _ _ h => h, fun _ h => h, fun _ _ h => h, fun _ _ h => h⟩ w) hw
              refine this _ ?_
              show _ ∈ u.log ++ [_]
              rw [hok']
              simp
            · exact .inl (emit' _)

theorem near_replyDisconnect (hl : Listens cfg.decl) (h : Near cfg even none s) (msg : Message)
    (he : msg.event = OnNamespaceDisconnect) (hloc : msg.isLocal = false) :
    Near cfg even none (replyDisconnect cfg s msg) := by
  unfold replyDisconnect
  split
  · exact h
  · split
    · exact near_reply hl mild_even h _
    · rename_i obj hns
      have o0 := h.names _ _ hns
      split
      · rename_i hcl
        obtain ⟨h1, o1⟩ := near_forceLeaveAll hl mild_even h o0 false
        dsimp only
        generalize forceLeaveAll cfg s obj false = u at h1 o1
        have h2 : Near cfg (behind msg.ns) none { u with connected := mapDel u.connected msg.ns } := by
          refine ⟨?_, h1.room, h1.late, ?_, h1.decl⟩
          · intro n
            show behind msg.ns n _ (mapGet (mapDel u.connected msg.ns) n)
            rw [mapGet_del]
            unfold behind
            split
            · rfl
            · exact h1.conn n
          · intro n o hn
            have hn' : mapGet (mapDel u.connected msg.ns) n = some o := hn
            rw [mapGet_del] at hn'
            split at hn'
            · cases hn'
            · exact h1.names n o hn'
        have h3 := near_reply hl (mild_behind _) h2 msg.wait
        have o3 : IsNs (writeEmptyReply cfg { u with connected := mapDel u.connected msg.ns } msg.wait) obj msg.ns :=
          names_calm.writeEmptyReply _ _ _ _ o1
        generalize writeEmptyReply cfg { u with connected := mapDel u.connected msg.ns } msg.wait = w at h3 o3
        generalize hf : fire cfg w obj msg = p
        obtain ⟨q, ret⟩ := p
        refine near_fire hl mild_even hf ?_ ?_
        · intro hnd
          have e : ledger cfg.isClient (w.log ++ [.fired obj (w.view obj msg) msg (some hnd) ret]) =
              { ledger cfg.isClient w.log with
                conn := fun n => if n = msg.ns then none else (ledger cfg.isClient w.log).conn n } := by
            rw [ledger_snoc]
            show Ledger.hear _ _ _ _ _ = _
            unfold Ledger.hear
            rw [he, if_neg (by decide), if_pos rfl, if_neg (by simp [hcl])]
          refine ⟨?_, ?_, h3.late, h3.names, h3.decl⟩
          · intro n
            show even n ((ledger cfg.isClient (w.log ++ [_])).conn n) (w.namespace n)
            rw [e]
            have := h3.conn n
            unfold behind at this
            unfold even
            dsimp only
            split
            · rename_i k
              rw [if_pos k] at this
              exact this.symm
            · rename_i k
              rw [if_neg k] at this
              exact this
          · intro o r hy
            show (ledger cfg.isClient (w.log ++ [_])).rooms o r = true ↔ _
            rw [e]
            exact h3.room o r hy
        · rw [he]; exact h3.heard hl o3 (.inr (.inl rfl))
      · rename_i hcl
        have hcl' : cfg.isClient = false := by simpa using hcl
        have hp := h.heard hl o0 (.inr (.inl rfl) : Counts OnNamespaceDisconnect)
        rw [← he] at hp
        split
        · rename_i u e hf
          refine near_write hl mild_even (near_fire hl mild_even hf ?_ hp) _
          intro hnd
          have k : ledger cfg.isClient (s.log ++ [.fired obj (s.view obj msg) msg (some hnd) (some e)]) =
              ledger cfg.isClient s.log := by
            rw [ledger_snoc]
            show Ledger.hear _ _ _ _ _ = _
            unfold Ledger.hear
            rw [he, if_neg (by decide), if_pos rfl, if_pos ⟨hcl', hloc, rfl⟩]
          refine ⟨?_, ?_, h.late, h.names, h.decl⟩
          · intro n
            show even n ((ledger cfg.isClient (s.log ++ [_])).conn n) (s.namespace n)
            rw [k]; exact h.conn n
          · intro o r hy
            show (ledger cfg.isClient (s.log ++ [_])).rooms o r = true ↔ _
            rw [k]; exact h.room o r hy
        · rename_i u hf
          have h1 : Near cfg (ahead msg.ns) none u := by
            refine near_fire hl (mild_ahead _) hf ?_ hp
            intro hnd
            have k : ledger cfg.isClient (s.log ++ [.fired obj (s.view obj msg) msg (some hnd) none]) =
                { ledger cfg.isClient s.log with
                  conn := fun n => if n = msg.ns then none else (ledger cfg.isClient s.log).conn n } := by
              rw [ledger_snoc]
              show Ledger.hear _ _ _ _ _ = _
              unfold Ledger.hear
              rw [he, if_neg (by decide), if_pos rfl, if_neg (by simp)]
            refine ⟨?_, ?_, h.late, h.names, h.decl⟩
            · intro n
              show ahead msg.ns n ((ledger cfg.isClient (s.log ++ [_])).conn n) (s.namespace n)
              rw [k]
              unfold ahead
              dsimp only
              split
              · rfl
              · exact h.conn n
            · intro o r hy
              show (ledger cfg.isClient (s.log ++ [_])).rooms o r = true ↔ _
              rw [k]; exact h.room o r hy
          have o1 : IsNs u obj msg.ns := names_calm.fire' hf _ _ o0
          obtain ⟨h2, o2⟩ := near_forceLeaveAll hl (mild_ahead _) h1 o1 false
          refine near_reply hl mild_even (near_notifyDisconnect ?_ _) _
          generalize forceLeaveAll cfg u obj false = w at h2
          refine ⟨?_, h2.room, h2.late, ?_, h2.decl⟩
          · intro n
            show even n _ (mapGet (mapDel w.connected msg.ns) n)
            rw [mapGet_del]
            have := h2.conn n
            unfold ahead at this
            unfold even
            split
            · rename_i k; rw [if_pos k] at this; exact this
            · rename_i k; rw [if_neg k] at this; exact this
          · intro n o hn
            have hn' : mapGet (mapDel w.connected msg.ns) n = some o := hn
            rw [mapGet_del] at hn'
            split at hn'
            · cases hn'
            · exact h2.names n o hn'

/-- OnRoomJoined of a call or a request -/
theorem near_addRoom (hl : Listens cfg.decl) (h : Near cfg even none s) {obj : Nat} {ns : Bytes} (ho : IsNs s obj ns)
    (msg : Message) (he : msg.event = OnRoomJoined) :
    Near cfg even none (fire cfg (s.setRooms obj (addRoom msg.room)) obj msg).1 := by
  refine near_fire hl mild_even rfl (fun hnd => h.joined ho _ _ _ _ he) ?_
  rw [nsName_of (isNs_set.mpr ho), he, ← nsName_of ho]
  exact h.heard hl ho (.inr (.inr (.inl rfl)))

/-- OnRoomLeft of a call or a request -/
theorem near_delRoom (hl : Listens cfg.decl) (h : Near cfg even none s) {obj : Nat} {ns : Bytes} (ho : IsNs s obj ns)
    (msg : Message) (he : msg.event = OnRoomLeft) :
    Near cfg even none (fire cfg (s.setRooms obj (delRoom msg.room)) obj msg).1 := by
  refine near_fire hl mild_even rfl (fun hnd => h.left ho _ _ _ _ he) ?_
  rw [nsName_of (isNs_set.mpr ho), he, ← nsName_of ho]
  exact h.heard hl ho (.inr (.inr (.inr rfl)))

theorem near_replyRoomJoin (hl : Listens cfg.decl) (h : Near cfg even none s) {obj : Nat} {ns : Bytes} (ho : IsNs s obj ns)
    (msg : Message) (he : msg.event = OnRoomJoin) : Near cfg even none (replyRoomJoin cfg s obj msg) := by
  unfold replyRoomJoin
  split
  · exact h
  · split
    · exact near_reply hl mild_even h _
    · split
      · rename_i u e hf
        exact near_write hl mild_even (near_fire_else hl mild_even hf (by rw [he]; exact not_counts_join) h) _
      · rename_i u hf
        exact near_reply hl mild_even (near_addRoom hl (near_fire_else hl mild_even hf
          (by rw [he]; exact not_counts_join) h) (names_calm.fire' hf _ _ ho) { msg with event := OnRoomJoined } rfl) _

theorem near_replyRoomLeave (hl : Listens cfg.decl) (h : Near cfg even none s) {obj : Nat} {ns : Bytes} (ho : IsNs s obj ns)
    (msg : Message) (he : msg.event = OnRoomLeave) : Near cfg even none (replyRoomLeave cfg s obj msg) := by
  have nc : ¬ Counts msg.event := by rw [he]; exact not_counts_leave
  unfold replyRoomLeave
  split
  · exact h
  · split
    · exact near_reply hl mild_even h _
    · split
      · -- the client's callback comes after the empty reply, the room being removed before it
        have h1 := near_fire_else (t := (fire cfg s obj msg).1) hl mild_even rfl nc h
        have o1 : IsNs (fire cfg s obj msg).1 obj ns := names_calm.fire _ _ _ _ _ ho
        dsimp only
        generalize (fire cfg s obj msg).1 = u at h1 o1
        have h2 : Near cfg even (some (obj, msg.room)) (u.setRooms obj (delRoom msg.room)) := by
          refine ⟨h1.conn, ?_, ?_, fun n o k => isNs_set.mpr (h1.names n o k), fun i n k => h1.decl i n (isNs_set.mp k)⟩
          · intro o r hy
            show (ledger cfg.isClient u.log).rooms o r = true ↔ _
            rw [h1.room o r (by simp), rooms_set _ _ _ _ (isNs_lt o1)]
            split
            · rename_i k
              subst k
              have : r ≠ msg.room := fun k => hy (by rw [k])
              simp [delRoom, this]
            · exact Iff.rfl
          · intro o r hy
            cases hy
            rw [rooms_set _ _ _ _ (isNs_lt o1), if_pos rfl]
            simp [delRoom]
        have h3 := near_reply hl mild_even h2 msg.wait
        have o3 : IsNs (writeEmptyReply cfg (u.setRooms obj (delRoom msg.room)) msg.wait) obj ns :=
          names_calm.writeEmptyReply _ _ _ _ (isNs_set.mpr o1)
        generalize writeEmptyReply cfg (u.setRooms obj (delRoom msg.room)) msg.wait = w at h3 o3
        generalize hf : fire cfg w obj { msg with event := OnRoomLeft } = p
        obtain ⟨q, ret⟩ := p
        refine near_fire hl mild_even hf ?_ (h3.heard hl o3 (.inr (.inr (.inr rfl))))
        intro hnd
        generalize w.view obj { msg with event := OnRoomLeft } = v
        have e : ledger cfg.isClient (w.log ++ [.fired obj v { msg with event := OnRoomLeft } (some hnd) ret]) =
            { ledger cfg.isClient w.log with
              rooms := fun o r => if o = obj ∧ r = msg.room then false else (ledger cfg.isClient w.log).rooms o r } := by
          rw [ledger_snoc]
          show Ledger.hear _ _ _ _ _ = _
          unfold Ledger.hear
          dsimp only
          rw [if_neg (by decide), if_neg (by decide), if_neg (by decide), if_pos rfl]
        refine ⟨?_, ?_, fun _ _ k => (by cases k), h3.names, h3.decl⟩
        · intro n
          show even n ((ledger cfg.isClient (w.log ++ [_])).conn n) (w.namespace n)
          rw [e]
          exact h3.conn n
        · intro o r _
          show (ledger cfg.isClient (w.log ++ [_])).rooms o r = true ↔ r ∈ w.rooms o
          rw [e]
          dsimp only
          split
          · rename_i k
            obtain ⟨rfl, rfl⟩ := k
            simp [h3.late _ _ rfl]
          · rename_i k
            exact h3.room o r (fun j => k (by cases j; exact ⟨rfl, rfl⟩))
      · split
        · rename_i u e hf
          exact near_write hl mild_even (near_fire_else hl mild_even hf nc h) _
        · rename_i u hf
          exact near_reply hl mild_even (near_delRoom hl (near_fire_else hl mild_even hf nc h)
            (names_calm.fire' hf _ _ ho) { msg with event := OnRoomLeft } rfl) _

/-! ## The reader -/

/-- a message that has none of the three names -/
def PlainName (m : Message) : Prop :=
  m.event ≠ OnNamespaceConnected ∧ m.event ≠ OnRoomJoined ∧ m.event ≠ OnRoomLeft

theorem near_handleEvent (hl : Listens cfg.decl) (h : Near cfg even none s) (obj : Nat) (msg : Message)
    (hp : PlainName msg) (hd : msg.event ≠ OnNamespaceDisconnect) : Near cfg even none (handleEvent cfg s obj msg) := by
  have nc : ¬ Counts ({ msg with isLocal := false } : Message).event := by
    rintro (k | k | k | k)
    · exact hp.1 k
    · exact hd k
    · exact hp.2.1 k
    · exact hp.2.2 k
  unfold handleEvent
  dsimp only
  split
  · rename_i u e hf
    exact near_write hl mild_even (near_fire_else hl mild_even hf nc h) _
  · rename_i u hf
    exact near_fire_else hl mild_even hf nc h

theorem near_afterGate (hl : Listens cfg.decl) (h : Near cfg even none s) (msg : Message) (hp : PlainName msg)
    (hd : msg.event ≠ OnNamespaceDisconnect) : Near cfg even none (afterGate cfg s msg) := by
  unfold afterGate
  split
  · exact near_write hl mild_even h _
  · rename_i obj hns
    split
    · rename_i he; exact near_replyRoomJoin hl h (h.names _ _ hns) msg he
    · split
      · rename_i he; exact near_replyRoomLeave hl h (h.names _ _ hns) msg he
      · exact near_handleEvent hl h obj msg hp hd

theorem kept_dispatch (hl : Listens cfg.decl) (h : Near cfg even none s) (msg : Message) (hp : PlainName msg)
    (hloc : msg.isLocal = false) : Tallied cfg (dispatch cfg s msg) := by
  unfold dispatch
  split
  · rename_i he; exact kept_replyConnect hl h msg he
  · split
    · rename_i he; exact .inl (near_replyDisconnect hl h msg he hloc)
    · rename_i hd
      split
      · exact .inl (h.same rfl rfl rfl)
      · exact .inl (near_afterGate hl h msg hp hd)

theorem near_deliver (h : Near cfg even none s) (i : Nat) (msg : Message) : Near cfg even none (deliver s i msg) := by
  unfold deliver
  split
  · exact h
  · split <;> exact h.same rfl rfl rfl

theorem kept_handlePayload (hl : Listens cfg.decl) (hn : cfg.onlyNative = false) (h : Near cfg even none s)
    (typ : MsgType) (b : Bytes) (hp : Unforged cfg typ b) : Tallied cfg (handlePayload cfg s typ b) := by
  unfold handlePayload
  have hp' : PlainName (deserializeMessage cfg.known typ b cfg.allowNative cfg.onlyNative) := hp
  have hloc : (deserializeMessage cfg.known typ b cfg.allowNative cfg.onlyNative).isLocal = false := rfl
  generalize deserializeMessage cfg.known typ b cfg.allowNative cfg.onlyNative = msg at hp' hloc
  unfold handleMessage
  split
  · exact .inl h
  · rw [hn, Bool.and_false, if_neg (by simp)]
    split
    · split
      · exact .inl (h.emit _ (by simp))
      · split
        · exact .inl (h.emit _ (by simp))
        · split
          · exact .inl (near_deliver h _ _)
          · exact kept_dispatch hl h msg hp' hloc
    · exact kept_dispatch hl h msg hp' hloc

/-! ## Everything that waits to be handled is unforged -/

structure Clean (cfg : Cfg) (s : St) : Prop where
  text : ∀ b ∈ s.queueText, Unforged cfg .text b
  binary : ∀ b ∈ s.queueBinary, Unforged cfg .binary b
  todo : ∀ p ∈ s.todo, Unforged cfg p.1 p.2
  gate : ∀ m, s.rd = .gate m → PlainName m ∧ m.event ≠ OnNamespaceDisconnect

/-- the queues stay -/
def QueueStay (s t : St) : Prop := t.queueText = s.queueText ∧ t.queueBinary = s.queueBinary

theorem queues_whole : Whole QueueStay where
  refl _ := ⟨rfl, rfl⟩
  trans h k := ⟨k.1.trans h.1, k.2.trans h.2⟩
  emit _ _ := ⟨rfl, rfl⟩
  ready _ _ := ⟨rfl, rfl⟩
  hang _ := ⟨rfl, rfl⟩
  del _ _ _ := ⟨rfl, rfl⟩
  nsDel _ _ := ⟨rfl, rfl⟩
  closed _ := ⟨rfl, rfl⟩
  waiting _ _ := ⟨rfl, rfl⟩
  unack _ _ := ⟨rfl, rfl⟩
  newObj _ _ := ⟨rfl, rfl⟩
  addRoom _ _ _ := ⟨rfl, rfl⟩
  nsAdd _ _ _ := ⟨rfl, rfl⟩
  rd _ _ _ := ⟨rfl, rfl⟩
  todo _ _ _ := ⟨rfl, rfl⟩
  asks _ _ := ⟨rfl, rfl⟩
  wait _ _ := ⟨rfl, rfl⟩
  gates _ _ := ⟨rfl, rfl⟩
  srv _ _ := ⟨rfl, rfl⟩

/-- the reader and its list stay -/
def TodoStay (s t : St) : Prop := QueueStay s t ∧ t.rd = s.rd ∧ t.todo = s.todo

theorem todo_outer : Outer (fun _ => True) TodoStay where
  refl _ := ⟨⟨rfl, rfl⟩, rfl, rfl⟩
  trans h k := ⟨⟨k.1.1.trans h.1.1, k.1.2.trans h.1.2⟩, k.2.1.trans h.2.1, k.2.2.trans h.2.2⟩
  emit _ _ := ⟨⟨rfl, rfl⟩, rfl, rfl⟩
  ready _ _ := ⟨⟨rfl, rfl⟩, rfl, rfl⟩
  hang _ := ⟨⟨rfl, rfl⟩, rfl, rfl⟩
  del _ _ _ := ⟨⟨rfl, rfl⟩, rfl, rfl⟩
  nsDel _ _ := ⟨⟨rfl, rfl⟩, rfl, rfl⟩
  closed _ := ⟨⟨rfl, rfl⟩, rfl, rfl⟩
  waiting _ _ := ⟨⟨rfl, rfl⟩, rfl, rfl⟩
  unack _ _ := ⟨⟨rfl, rfl⟩, rfl, rfl⟩
  newObj _ _ := ⟨⟨rfl, rfl⟩, rfl, rfl⟩
  addRoom _ _ _ := ⟨⟨rfl, rfl⟩, rfl, rfl⟩
  nsAdd _ _ _ := ⟨⟨rfl, rfl⟩, rfl, rfl⟩
  wait _ _ := ⟨⟨rfl, rfl⟩, rfl, rfl⟩
  gates _ _ := ⟨⟨rfl, rfl⟩, rfl, rfl⟩
  newAsk _ _ := ⟨⟨rfl, rfl⟩, rfl, rfl⟩
  endAsk _ _ _ := ⟨⟨rfl, rfl⟩, rfl, rfl⟩

theorem Clean.stay (h : Clean cfg s) (k : TodoStay s t) : Clean cfg t := by
  obtain ⟨⟨k1, k2⟩, k3, k4⟩ := k
  exact ⟨by rw [k1]; exact h.text, by rw [k2]; exact h.binary, by rw [k4]; exact h.todo, by rw [k3]; exact h.gate⟩

theorem clean_handlePayload (h : Clean cfg s) (typ : MsgType) (b : Bytes) (hp : Unforged cfg typ b) :
    Clean cfg (handlePayload cfg s typ b) := by
  have hq : QueueStay s (handlePayload cfg s typ b) := queues_whole.handleMessage _ _
  refine ⟨by rw [hq.1]; exact h.text, by rw [hq.2]; exact h.binary, ?_, ?_⟩
  · rw [(rd_handlePayload (cfg := cfg) s typ b).1]; exact h.todo
  · unfold handlePayload
    have hp' : PlainName (deserializeMessage cfg.known typ b cfg.allowNative cfg.onlyNative) := hp
    generalize deserializeMessage cfg.known typ b cfg.allowNative cfg.onlyNative = msg at hp'
    have same : ∀ {u : St}, RdSame s u → ∀ m, u.rd = .gate m → PlainName m ∧ m.event ≠ OnNamespaceDisconnect :=
      fun k m hm => h.gate m (k.rd ▸ hm)
    have hd : ∀ m, (dispatch cfg s msg).rd = .gate m → PlainName m ∧ m.event ≠ OnNamespaceDisconnect := by
      unfold dispatch
      split
      · exact same (rd_replyConnect _ _)
      · split
        · exact same (rd_replyDisconnect _ _)
        · rename_i hne
          split
          · intro m hm; cases hm; exact ⟨hp', hne⟩
          · exact same (rd_afterGate _ _)
    unfold handleMessage
    split
    · exact h.gate
    · split
      · split
        · exact h.gate
        · exact same (rd_fire _ _ _)
      · split
        · split
          · exact same (rd_emit _ _)
          · split
            · exact same (rd_emit _ _)
            · split
              · unfold deliver
                split
                · exact h.gate
                · split
                  · exact h.gate
                  · intro m hm; cases hm
              · exact hd
        · exact hd

/-! ## The invariant of all operations -/

/-- clean, and even or spoiled -/
def Inv (cfg : Cfg) (s : St) : Prop := Clean cfg s ∧ Tallied cfg s

theorem Tallied.same (h : Tallied cfg s) (h1 : t.log = s.log) (h2 : t.connected = s.connected) (h3 : t.objs = s.objs)
    (h4 : t.closed = s.closed) : Tallied cfg t := by
  rcases h with h | h
  · exact .inl (h.same h1 h2 h3)
  · exact .inr ⟨h4.trans h.1, by rw [h1]; exact h.2⟩

theorem inv_handlePayload (hl : Listens cfg.decl) (hn : cfg.onlyNative = false) (h : Inv cfg s)
    (typ : MsgType) (b : Bytes) (hp : Unforged cfg typ b) : Inv cfg (handlePayload cfg s typ b) := by
  refine ⟨clean_handlePayload h.1 typ b hp, ?_⟩
  rcases h.2 with k | k
  · exact kept_handlePayload hl hn k typ b hp
  · exact .inr (spoil_whole.handleMessage _ _ k)

theorem kept_closeConn (hl : Listens cfg.decl) (h : Tallied cfg s) : Tallied cfg (closeConn cfg s) := by
  rcases h with k | k
  · exact .inl (near_closeConn hl mild_even k)
  · exact .inr (spoil_whole.toCalm.closeConn _ k)

theorem kept_rawWrite (hl : Listens cfg.decl) (h : Tallied cfg s) (b : Bytes) (bin : Bool) :
    Tallied cfg (rawWrite cfg s b bin).1 := by
  rcases h with k | k
  · exact .inl (near_rawWrite hl mild_even k b bin)
  · exact .inr (spoil_whole.toCalm.rawWrite _ _ _ k)

theorem inv_readerExit (hl : Listens cfg.decl) (h : Inv cfg s) : Inv cfg (readerExit cfg s) := by
  have k := todo_outer.toCalm.closeConn (cfg := cfg) s
  refine ⟨?_, ?_⟩
  · have c := h.1.stay k
    exact ⟨c.text, c.binary, c.todo, fun m hm => by cases hm⟩
  · exact (kept_closeConn hl h.2).same rfl rfl rfl rfl

theorem inv_finishAck (hl : Listens cfg.decl) (h : Inv cfg s) : Inv cfg (finishAck cfg s) := by
  have h0 : Inv cfg { s with ackAfter := false } :=
    ⟨⟨h.1.text, h.1.binary, h.1.todo, h.1.gate⟩, h.2.same rfl rfl rfl rfl⟩
  unfold finishAck
  have h1 : Inv cfg (rawWrite cfg { s with ackAfter := false } (65 :: s.id) false).1 :=
    ⟨h0.1.stay (todo_outer.toCalm.rawWrite _ _ _), kept_rawWrite hl h0.2 _ _⟩
  dsimp only
  generalize rawWrite cfg { s with ackAfter := false } (65 :: s.id) false = p at h1
  obtain ⟨u, ok⟩ := p
  dsimp only at h1 ⊢
  split
  · exact h1
  · exact inv_readerExit hl h1

theorem inv_drain (hl : Listens cfg.decl) (hn : cfg.onlyNative = false) (q : List (MsgType × Bytes)) {s : St}
    (h : Inv cfg s) (hq : ∀ p ∈ q, Unforged cfg p.1 p.2) : Inv cfg (drain cfg s q) := by
  induction q generalizing s with
  | nil =>
    have h0 : Inv cfg { s with todo := [] } :=
      ⟨⟨h.1.text, h.1.binary, fun p hp => (by cases hp), h.1.gate⟩, h.2.same rfl rfl rfl rfl⟩
    unfold drain
    dsimp only
    split
    · exact inv_finishAck hl h0
    · exact h0
  | cons p q ih =>
    obtain ⟨typ, b⟩ := p
    have h0 : Inv cfg { s with rd := .idle } :=
      ⟨⟨h.1.text, h.1.binary, h.1.todo, fun m hm => by cases hm⟩, h.2.same rfl rfl rfl rfl⟩
    have h1 := inv_handlePayload hl hn h0 typ b (hq _ (List.mem_cons_self ..))
    have hq' : ∀ p ∈ q, Unforged cfg p.1 p.2 := fun p hp => hq p (List.mem_cons_of_mem _ hp)
    unfold drain
    dsimp only
    split
    · exact ih h1 hq'
    · exact ⟨⟨h1.1.text, h1.1.binary, hq', h1.1.gate⟩, h1.2.same rfl rfl rfl rfl⟩

theorem inv_ackReady (hl : Listens cfg.decl) (hn : cfg.onlyNative = false) (h : Inv cfg s) (e : Option GoErr) :
    Inv cfg (ackReady cfg s e) := by
  unfold ackReady
  cases e with
  | some e =>
    exact inv_readerExit hl ⟨h.1.stay (todo_outer.toCalm.rawWrite _ _ _), kept_rawWrite hl h.2 _ _⟩
  | none =>
    dsimp only
    refine inv_drain hl hn _ ⟨⟨fun b hb => (by cases hb), fun b hb => (by cases hb), h.1.todo, fun m hm => (by cases hm)⟩,
      h.2.same rfl rfl rfl rfl⟩ ?_
    have ht : ∀ p ∈ s.queueText.map (MsgType.text, ·), Unforged cfg p.1 p.2 := by
      intro p hp
      obtain ⟨b, hb, rfl⟩ := List.mem_map.mp hp
      exact h.1.text b hb
    have hb : ∀ p ∈ s.queueBinary.map (MsgType.binary, ·), Unforged cfg p.1 p.2 := by
      intro p hp
      obtain ⟨b, hb, rfl⟩ := List.mem_map.mp hp
      exact h.1.binary b hb
    intro p hp
    split at hp
    · exact (List.mem_append.mp hp).elim (ht p) (hb p)
    · exact (List.mem_append.mp hp).elim (hb p) (ht p)

theorem inv_signalReady (h : Inv cfg s) (e : Option GoErr) : Inv cfg (s.signalReady e) := by
  unfold St.signalReady
  split
  · exact h
  · exact ⟨⟨h.1.text, h.1.binary, h.1.todo, h.1.gate⟩, h.2.same rfl rfl rfl rfl⟩

theorem inv_recv (hl : Listens cfg.decl) (hn : cfg.onlyNative = false) (h : Inv cfg s) (typ : MsgType) (b : Bytes)
    (hp : Unforged cfg typ b) : Inv cfg (recv cfg s typ b) := by
  unfold recv
  split
  · exact h
  · split
    · exact inv_handlePayload hl hn h typ b hp
    · unfold handleACK
      split
      · exact h
      · split
        · split
          · exact ⟨⟨h.1.text, h.1.binary, h.1.todo, fun m hm => by cases hm⟩, h.2.same rfl rfl rfl rfl⟩
          · exact inv_ackReady hl hn h _
        · split
          · rename_i rest _ _ _
            have h0 : Inv cfg { s with id := rest, acked := true } :=
              ⟨⟨h.1.text, h.1.binary, h.1.todo, h.1.gate⟩, h.2.same rfl rfl rfl rfl⟩
            exact inv_signalReady h0 _
          · split
            · exact inv_readerExit hl (inv_signalReady h _)
            · split
              · refine ⟨⟨?_, h.1.binary, h.1.todo, h.1.gate⟩, h.2.same rfl rfl rfl rfl⟩
                intro b' hb'
                rcases List.mem_append.mp hb' with k | k
                · exact h.1.text _ k
                · rw [List.mem_singleton.mp k]; exact hp
              · refine ⟨⟨h.1.text, ?_, h.1.todo, h.1.gate⟩, h.2.same rfl rfl rfl rfl⟩
                intro b' hb'
                rcases List.mem_append.mp hb' with k | k
                · exact h.1.binary _ k
                · rw [List.mem_singleton.mp k]; exact hp

theorem inv_wake (hl : Listens cfg.decl) (hn : cfg.onlyNative = false) (h : Inv cfg s)
    (hw : wakeReader cfg s = some t) : Inv cfg t := by
  unfold wakeReader at hw
  split at hw
  · rename_i msg hrd
    split at hw
    · obtain ⟨hp, hd⟩ := h.1.gate msg hrd
      have h0 : Inv cfg { s with rd := .idle } :=
        ⟨⟨h.1.text, h.1.binary, h.1.todo, fun m hm => by cases hm⟩, h.2.same rfl rfl rfl rfl⟩
      have h1 : Inv cfg (afterGate cfg { s with rd := .idle } msg) := by
        have hr := rd_afterGate (cfg := cfg) { s with rd := .idle } msg
        have hq := queues_whole.afterGate (cfg := cfg) { s with rd := .idle } msg
        refine ⟨h0.1.stay ⟨hq, hr.rd, hr.todo⟩, ?_⟩
        rcases h0.2 with k | k
        · exact .inl (near_afterGate hl k msg hp hd)
        · exact .inr (spoil_whole.afterGate _ _ k)
      dsimp only at hw
      split at hw
      · cases hw; exact inv_drain hl hn _ h1 h1.1.todo
      · cases hw; exact h1
    · cases hw
  · split at hw
    · cases hw
    · cases hw; exact inv_ackReady hl hn h _
  · cases hw

/-! ## Calls -/

theorem near_gateDone (h : Near cfg even none s) (ns : Bytes) : Near cfg even none (gateDone s ns) := by
  unfold gateDone
  split
  · exact h
  · split
    · exact h
    · exact h.same rfl rfl rfl

theorem near_finish (hl : Listens cfg.decl) (h : Near cfg even none s) (k : Cont) (hk : ContOk cfg s k) (m : Message)
    (err : Option GoErr) : Near cfg even none (finish cfg s k m err) := by
  cases k with
  | connect ns obj =>
    cases err with
    | some e => exact near_gateDone (h.emit _ (by simp)) _
    | none => exact near_gateDone ((near_notifyConnected hl h hk.2.1 _ rfl).emit _ (by simp)) _
  | disconnect obj msg =>
    cases err with
    | some e => exact h.emit _ (by simp)
    | none =>
      obtain ⟨ho, he⟩ := hk
      obtain ⟨h1, o1⟩ := near_forceLeaveAll hl mild_even h ho true
      unfold finish
      dsimp only
      generalize forceLeaveAll cfg s obj true = u at h1 o1
      refine (near_notifyDisconnect ?_ _).emit _ (by simp)
      generalize hf : fire cfg { u with connected := mapDel u.connected msg.ns } obj { msg with isLocal := true } = p
      obtain ⟨q, ret⟩ := p
      refine near_fire hl mild_even hf ?_ ?_
      · intro hnd
        exact (h1.gone mild_even obj _ { msg with isLocal := true } hnd ret he (by simp)).same rfl rfl rfl
      · show ∃ hnd, pick (cfg.events (u.nsName obj)) msg.event = some hnd
        rw [he]
        exact h1.heard hl o1 (.inr (.inl rfl))
  | join obj msg =>
    obtain ⟨ho, he, _⟩ := hk
    cases err with
    | some e => exact h.emit _ (by simp)
    | none =>
      unfold finish
      dsimp only
      have nc : ¬ Counts msg.event := by rw [he]; exact not_counts_join
      split
      · rename_i u e hf; exact (near_fire_else hl mild_even hf nc h).emit _ (by simp)
      · rename_i u hf
        exact (near_addRoom hl (near_fire_else hl mild_even hf nc h) (names_calm.fire' hf _ _ ho)
          { msg with event := OnRoomJoined } rfl).emit _ (by simp)
  | leave obj msg =>
    obtain ⟨ho, he, _⟩ := hk
    cases err with
    | some e => exact h.emit _ (by simp)
    | none =>
      unfold finish
      dsimp only
      have nc : ¬ Counts msg.event := by rw [he]; exact not_counts_leave
      split
      · rename_i u e hf; exact (near_fire_else hl mild_even hf nc h).emit _ (by simp)
      · rename_i u hf
        exact (near_delRoom hl (near_fire_else hl mild_even hf nc h) (names_calm.fire' hf _ _ ho)
          { msg with event := OnRoomLeft } rfl).emit _ (by simp)
  | user => exact h.emit _ (by simp)

/-- what a call refers to stays -/
def ContStay (cfg : Cfg) (s t : St) : Prop := ∀ k, ContOk cfg s k → ContOk cfg t k

theorem contStay_of (h1 : NamesStay s t) (h2 : s.log <+: t.log) : ContStay cfg s t := by
  intro k hk
  cases k with
  | connect ns obj => exact ⟨hk.1, h1 _ _ hk.2.1, hk.2.2.mono h2⟩
  | disconnect obj msg => exact ⟨h1 _ _ hk.1, hk.2⟩
  | join obj msg => exact ⟨h1 _ _ hk.1, hk.2⟩
  | leave obj msg => exact ⟨h1 _ _ hk.1, hk.2⟩
  | user => trivial

theorem cont_calm : Calm (ContStay cfg) where
  refl _ _ h := h
  trans h k c x := k c (h c x)
  emit _ _ := contStay_of (fun _ _ h => h) (List.prefix_append _ _)
  ready _ _ := contStay_of (fun _ _ h => h) List.prefix_rfl
  hang _ := contStay_of (fun _ _ h => h) List.prefix_rfl
  del _ _ _ := contStay_of (fun _ _ h => isNs_set.mpr h) List.prefix_rfl
  nsDel _ _ := contStay_of (fun _ _ h => h) List.prefix_rfl
  closed _ := contStay_of (fun _ _ h => h) List.prefix_rfl
  waiting _ _ := contStay_of (fun _ _ h => h) List.prefix_rfl
  unack _ _ := contStay_of (fun _ _ h => h) List.prefix_rfl

theorem near_startAsk (hl : Listens cfg.decl) (hn : cfg.onlyNative = false) (h : Near cfg even none s) (k : Cont)
    (hk : ContOk cfg s k) (msg : Message) (now : Int) (ex : Bool) :
    Near cfg even none (startAsk cfg s k msg now ex) := by
  unfold startAsk
  rw [if_neg (by simp [hn])]
  split
  · exact near_finish hl h k hk _ _
  · split
    · exact near_finish hl h k hk _ _
    · dsimp only
      have h1 : Near cfg even none (newAsk s (genWait cfg.isClient now) k) := by
        unfold newAsk; split <;> exact h.same rfl rfl rfl
      have k1 : ContOk cfg (newAsk s (genWait cfg.isClient now) k) k := by
        refine contStay_of (s := s) ?_ ?_ k hk
        · unfold newAsk; split <;> exact fun _ _ h => h
        · unfold newAsk; split <;> exact List.prefix_rfl
      split
      · rename_i u hw
        have := near_write hl mild_even h1 { msg with wait := genWait cfg.isClient now }
        rw [hw] at this
        exact this
      · rename_i u hw
        have h2 := near_write hl mild_even h1 { msg with wait := genWait cfg.isClient now }
        have k2 := cont_calm.write (cfg := cfg) (newAsk s (genWait cfg.isClient now) k)
          { msg with wait := genWait cfg.isClient now } k k1
        rw [hw] at h2 k2
        have h3 : Near cfg even none (endAsk u s.asks.length) := h2.same rfl rfl rfl
        have k3 : ContOk cfg (endAsk u s.asks.length) k :=
          contStay_of (s := u) (fun _ _ h => h) List.prefix_rfl k k2
        exact near_finish hl h3 k k3 _ _

theorem near_connect (hl : Listens cfg.decl) (hn : cfg.onlyNative = false) (h : Near cfg even none s) (ns : Bytes)
    (now : Int) (ex : Bool) : Near cfg even none (connect cfg s ns now ex) := by
  have h0 := near_markReady h
  unfold connect
  dsimp only
  generalize s.markReady cfg = u at h0
  split
  · exact h0
  · have h1 : Near cfg even none (gateStart u ns) := h0.same rfl rfl rfl
    generalize gateStart u ns = w at h1
    split
    · exact near_gateDone (h1.emit _ (by simp)) _
    · split
      · exact near_gateDone (h1.emit _ (by simp)) _
      · rename_i evs hd
        obtain ⟨h2, o2⟩ := h1.newObj (ns := ns) (by rw [hd]; rfl)
        simp only [newObj]
        split
        · rename_i q e hf
          exact near_gateDone ((near_fire_else hl mild_even hf not_counts_connect h2).emit _ (by simp)) _
        · rename_i q hf
          refine near_startAsk hl hn (near_fire_else hl mild_even hf not_counts_connect h2) _ ?_ _ _ _
          refine ⟨by rw [hd]; rfl, names_calm.fire' hf _ _ o2, ?_⟩
          -- the callback accepted
          unfold fire at hf
          dsimp only at hf
          have grow : ∀ (acts : List Act) (v : St), v.log <+: (acts.foldl (runAct cfg) v).log := by
            intro acts
            induction acts with
            | nil => intro v; exact List.prefix_rfl
            | cons a acts ih =>
              intro v
              refine List.IsPrefix.trans ?_ (ih _)
              exact (Calm.runAct (cfg := cfg) (R := fun a b : St => a.log <+: b.log)
                ⟨fun _ => List.prefix_rfl, fun h k => h.trans k, fun _ _ => List.prefix_append _ _,
                  fun _ _ => List.prefix_rfl, fun _ => List.prefix_rfl, fun _ _ _ => List.prefix_rfl,
                  fun _ _ => List.prefix_rfl, fun _ => List.prefix_rfl, fun _ _ => List.prefix_rfl,
                  fun _ _ => List.prefix_rfl⟩ v a)
          split at hf
          · cases hf
            exact ⟨_, _, _, List.mem_append_right _ (List.mem_singleton.mpr rfl), rfl⟩
          · rename_i hnd hp
            simp only [Prod.mk.injEq] at hf
            obtain ⟨hf1, hf2⟩ := hf
            rw [← hf1]
            rw [hf2]
            exact ⟨_, _, _, (grow _ _).subset (List.mem_append_right _ (List.mem_singleton.mpr rfl)), rfl⟩

/-- the forget, end and take of an answer concern only Asks -/
theorem taken_same (s : St) (i : Nat) (a : AskRec) :
    let u := forget (endAsk (takeAnswer s i a) i) a
    u.log = s.log ∧ u.connected = s.connected ∧ u.objs = s.objs ∧ u.closed = s.closed ∧ QueueStay s u ∧
      u.todo = s.todo ∧ ∀ m, u.rd = .gate m → s.rd = .gate m := by
  have t : (takeAnswer s i a).log = s.log ∧ (takeAnswer s i a).connected = s.connected ∧
      (takeAnswer s i a).objs = s.objs ∧ (takeAnswer s i a).closed = s.closed ∧ QueueStay s (takeAnswer s i a) ∧
      (takeAnswer s i a).todo = s.todo ∧ ∀ m, (takeAnswer s i a).rd = .gate m → s.rd = .gate m := by
    unfold takeAnswer
    split
    · rename_i j m' hrd
      split
      · exact ⟨rfl, rfl, rfl, rfl, ⟨rfl, rfl⟩, rfl, fun m hm => by cases hm⟩
      · exact ⟨rfl, rfl, rfl, rfl, ⟨rfl, rfl⟩, rfl, fun m hm => hm⟩
    · exact ⟨rfl, rfl, rfl, rfl, ⟨rfl, rfl⟩, rfl, fun m hm => hm⟩
  unfold forget endAsk
  dsimp only
  split <;> exact t

theorem inv_step {op : Op} {s' : St} (hl : Listens cfg.decl) (hn : cfg.onlyNative = false) (hr : Reach cfg id s)
    (h : Inv cfg s) (hp : ∀ typ b, op = .recv typ b → Unforged cfg typ b) (hs : step cfg s op = some s') :
    Inv cfg s' := by
  have he := (step_exec hs).1
  have hasks := (reach_ok hr).1
  have q := todo_outer
  -- an operation that leaves the reader alone
  have by' : ∀ {u : St}, TodoStay s u → (Near cfg even none s → Near cfg even none u) → SpoilStays s u → Inv cfg u :=
    fun a b c => ⟨h.1.stay a, h.2.elim (fun k => .inl (b k)) (fun k => .inr (c k))⟩
  cases op with
  | recv typ b =>
    simp only [exec] at he
    split at he
    · cases he; exact inv_recv hl hn h typ b (hp _ _ rfl)
    · cases he
  | readErr e =>
    simp only [exec] at he
    split at he
    · cases he; exact inv_readerExit hl (inv_signalReady h _)
    · cases he
  | wake => exact inv_wake hl hn h he
  | contReader =>
    simp only [exec, contReader] at he
    split at he
    · cases he; exact inv_drain hl hn _ h h.1.todo
    · cases he
  | connect ns now ex =>
    simp only [exec] at he; cases he
    exact by' (q.connect _ _ _ _ trivial) (fun k => near_connect hl hn k _ _ _) (spoil_whole.connect' _ _ _ _)
  | disconnect obj now ex =>
    simp only [exec] at he
    split at he
    · cases he
      unfold disconnect
      dsimp only
      split
      · exact by' (q.emit _ _) (fun k => k.emit _ (by simp)) (spoil_whole.emit _ _)
      · rename_i obj' hns
        refine by' (q.startAsk _ _ _ _ _ trivial) (fun k => near_startAsk hl hn k _ ?_ _ _ _) (spoil_whole.startAsk' _ _ _ _ _)
        exact ⟨k.names _ _ hns, rfl⟩
    · cases he
  | join obj room now ex =>
    simp only [exec] at he
    split at he
    · rename_i ho
      cases he
      unfold joinRoom
      dsimp only
      split
      · exact by' (q.emit _ _) (fun k => k.emit _ (by simp)) (spoil_whole.emit _ _)
      · refine by' (q.startAsk _ _ _ _ _ trivial) (fun k => near_startAsk hl hn k _ ?_ _ _ _) (spoil_whole.startAsk' _ _ _ _ _)
        refine ⟨?_, rfl, rfl⟩
        unfold St.nsName
        rw [List.getElem?_eq_getElem ho]
        rfl
    · cases he
  | leave obj room now ex =>
    simp only [exec] at he
    split at he
    · rename_i ho
      cases he
      unfold leaveRoom
      dsimp only
      split
      · refine by' (q.startAsk _ _ _ _ _ trivial) (fun k => near_startAsk hl hn k _ ?_ _ _ _) (spoil_whole.startAsk' _ _ _ _ _)
        refine ⟨?_, rfl, rfl⟩
        unfold St.nsName
        rw [List.getElem?_eq_getElem ho]
        rfl
      · exact by' (q.emit _ _) (fun k => k.emit _ (by simp)) (spoil_whole.emit _ _)
    · cases he
  | ask msg now ex =>
    simp only [exec] at he; cases he
    exact by' (q.startAsk _ _ _ _ _ trivial) (fun k => near_startAsk hl hn k .user trivial _ _ _) (spoil_whole.startAsk' _ _ _ _ _)
  | write m =>
    simp only [exec] at he; cases he
    exact by' (q.toCalm.write _ _) (fun k => near_write hl mild_even k _) (spoil_whole.toCalm.write _ _)
  | resume i =>
    simp only [exec, resume] at he
    split at he
    · cases he
    · rename_i a ha
      split at he
      · cases he
      · split at he
        · cases he
        · rename_i m hm
          cases he
          obtain ⟨t1, t2, t3, t4, t5, t6, t7⟩ := taken_same s i a
          have hk : ContOk cfg s a.cont := hasks a (List.mem_of_getElem? ha)
          generalize forget (endAsk (takeAnswer s i a) i) a = u at t1 t2 t3 t4 t5 t6 t7
          have hu : Inv cfg u := ⟨⟨by rw [t5.1]; exact h.1.text, by rw [t5.2]; exact h.1.binary, by rw [t6]; exact h.1.todo,
            fun m hm => h.1.gate m (t7 m hm)⟩, h.2.same t1 t2 t3 t4⟩
          have hk' : ContOk cfg u a.cont := contStay_of (s := s) (fun o n x => (by unfold IsNs; rw [t3]; exact x))
            (by rw [t1]; exact List.prefix_rfl) _ hk
          refine ⟨hu.1.stay (q.finish _ _ _ _), ?_⟩
          exact hu.2.elim (fun k => .inl (near_finish hl k _ hk' _ _)) (fun k => .inr (spoil_whole.finish' _ _ _ _ k))
  | cancel i e =>
    simp only [exec, cancel] at he
    split at he
    · cases he
    · rename_i a ha
      split at he
      · cases he
      · cases he
        have hk : ContOk cfg s a.cont := hasks a (List.mem_of_getElem? ha)
        have hk' : ContOk cfg (endAsk s i) a.cont := contStay_of (s := s) (fun _ _ h => h) List.prefix_rfl _ hk
        refine by' (q.trans (q.endAsk _ _ trivial) (q.finish _ _ _ _)) (fun k => ?_) (fun k => ?_)
        · have k' : Near cfg even none (endAsk s i) := k.same rfl rfl rfl
          exact near_finish hl k' _ hk' _ _
        · exact spoil_whole.finish' _ _ _ _ k
  | close =>
    simp only [exec] at he; cases he
    exact by' (q.toCalm.closeConn _) (fun k => near_closeConn hl mild_even k) (spoil_whole.toCalm.closeConn _)
  | steal i typ b =>
    simp only [exec, steal] at he
    split at he
    · cases he
    · split at he
      · cases he; exact ⟨⟨h.1.text, h.1.binary, h.1.todo, h.1.gate⟩, h.2.same rfl rfl rfl rfl⟩
      · cases he
  | stealErr i e =>
    simp only [exec, steal] at he
    split at he
    · cases he
    · split at he
      · cases he; exact ⟨⟨h.1.text, h.1.binary, h.1.todo, h.1.gate⟩, h.2.same rfl rfl rfl rfl⟩
      · cases he
  | ready e =>
    simp only [exec] at he; cases he
    exact inv_signalReady h e
  | sendAck =>
    simp only [exec] at he
    split at he
    · cases he; exact h
    · have h1 : Inv cfg (rawWrite cfg s (b! "M") false).1 :=
        ⟨h.1.stay (q.toCalm.rawWrite _ _ _), kept_rawWrite hl h.2 _ _⟩
      generalize rawWrite cfg s (b! "M") false = p at he h1
      obtain ⟨u, ok⟩ := p
      cases ok with
      | true => cases he; exact h1
      | false => cases he; exact ⟨h1.1.stay (q.toCalm.closeConn _), kept_closeConn hl h1.2⟩
  | srvAsk tok =>
    simp only [exec] at he; cases he
    exact ⟨⟨h.1.text, h.1.binary, h.1.todo, h.1.gate⟩, h.2.same rfl rfl rfl rfl⟩
  | srvUnask tok =>
    simp only [exec] at he; cases he
    exact ⟨⟨h.1.text, h.1.binary, h.1.todo, h.1.gate⟩, h.2.same rfl rfl rfl rfl⟩

theorem inv_run {ops : List Op} {s' : St} (hl : Listens cfg.decl) (hn : cfg.onlyNative = false) (hr : Reach cfg id s)
    (h : Inv cfg s) (hp : ∀ typ b, Op.recv typ b ∈ ops → Unforged cfg typ b) (hs : runOps cfg s ops = some s') :
    Inv cfg s' := by
  induction ops generalizing s with
  | nil => cases hs; exact h
  | cons op ops ih =>
    simp only [runOps] at hs
    split at hs
    · rename_i u hu
      refine ih (.step hr hu) (inv_step hl hn hr h ?_ hu) (fun typ b k => hp typ b (List.mem_cons_of_mem _ k)) hs
      rintro typ b rfl
      exact hp typ b (List.mem_cons_self ..)
    · cases hs

theorem inv_new (hn : cfg.onlyNative = false) : Inv cfg (newConn cfg id) := by
  unfold newConn
  rw [hn]
  refine ⟨⟨fun b h => (by cases h), fun b h => (by cases h), fun b h => (by cases h), fun m h => (by cases h)⟩, .inl ?_⟩
  refine ⟨fun _ => rfl, ?_, fun _ _ k => (by cases k), ?_, ?_⟩
  · intro o r _
    simp [ledger, Ledger.empty, St.rooms]
  · intro n o k; cases k
  · intro i n k; simp [IsNs] at k

end Neffos
