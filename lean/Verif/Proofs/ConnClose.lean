import Verif.Proofs.ConnFrame
/-!
Helper: the exact effects of `Close`.
-/
namespace Neffos
open Spec

variable {cfg : Cfg}

theorem rooms_setRooms (s : St) (obj : Nat) (f : List Bytes → List Bytes) (i : Nat)
    (hf : f [] = []) :
    (s.setRooms obj f).rooms i = if i = obj then f (s.rooms i) else s.rooms i := by
  unfold St.setRooms St.rooms
  simp only [List.getElem?_modify]
  by_cases h : obj = i
  · subst h
    simp only [if_true]
    cases hh : s.objs[obj]? with
    | none => simp [hf]
    | some o => simp
  · rw [if_neg (Ne.symm h)]
    cases hh : s.objs[i]? <;> simp [h]

theorem nsName_setRooms (s : St) (obj : Nat) (f : List Bytes → List Bytes) (i : Nat) :
    (s.setRooms obj f).nsName i = s.nsName i := by
  have := setRooms_names s obj f i
  unfold St.nsName
  cases h1 : (s.setRooms obj f).objs[i]? <;> cases h2 : s.objs[i]? <;> simp_all

/-- a change that only concerns the rooms of NSConns and the history -/
structure Quiet (s : St) (l : List Obs) (s' : St) : Prop where
  frame : s' = { s with objs := s'.objs, log := s.log ++ l }
  names : ∀ i, s'.nsName i = s.nsName i
  len : s'.objs.length = s.objs.length

theorem Quiet.refl (s : St) : Quiet s [] s := ⟨by simp, fun _ => rfl, rfl⟩

theorem Quiet.trans {a b c : St} {l m : List Obs} (h1 : Quiet a l b) (h2 : Quiet b m c) :
    Quiet a (l ++ m) c := by
  refine ⟨?_, fun i => (h2.names i).trans (h1.names i), h2.len.trans h1.len⟩
  have e2 := h2.frame
  rw [h1.frame] at e2
  rw [e2]
  simp

theorem Quiet.log {s s' : St} {l : List Obs} (h : Quiet s l s') : s'.log = s.log ++ l := by
  rw [h.frame]

theorem Quiet.linked {s s' : St} {l : List Obs} (h : Quiet s l s') (obj : Nat) :
    linked s' obj = linked s obj := by
  have hc : s'.connected = s.connected := by rw [h.frame]
  unfold Neffos.Spec.linked St.namespace
  rw [h.names, hc]

theorem fireClosed_quiet (s : St) (obj : Nat) (msg : Message) :
    ∃ h ret, Quiet s [.fired obj (s.view obj msg) msg h ret] (fireClosed cfg s obj msg) ∧
      (fireClosed cfg s obj msg).objs = s.objs := by
  unfold fireClosed
  dsimp only
  split
  · exact ⟨none, none, ⟨rfl, fun _ => rfl, rfl⟩, rfl⟩
  · rename_i h _
    exact ⟨some h, _, ⟨rfl, fun _ => rfl, rfl⟩, rfl⟩

theorem leaveOneClosed_quiet (obj : Nat) (il : Bool) (s : St) (room : Bytes) :
    ∃ h h' ret ret', Quiet s
      [.fired obj ⟨s.nsName obj, linked s obj, room ∈ s.rooms obj⟩
         (forcedLeaveMsg (s.nsName obj) room OnRoomLeave il) h ret,
       .fired obj ⟨s.nsName obj, linked s obj, false⟩
         (forcedLeaveMsg (s.nsName obj) room OnRoomLeft il) h' ret']
      (leaveOneClosed cfg obj il s room) ∧
      ∀ i, (leaveOneClosed cfg obj il s room).rooms i =
        if i = obj then delRoom room (s.rooms i) else s.rooms i := by
  unfold leaveOneClosed
  dsimp only
  obtain ⟨h, ret, q1, o1⟩ := fireClosed_quiet (cfg := cfg) s obj
    (forcedLeaveMsg (s.nsName obj) room OnRoomLeave il)
  generalize fireClosed cfg s obj (forcedLeaveMsg (s.nsName obj) room OnRoomLeave il) = t at q1 o1 ⊢
  have q2 : Quiet t [] (t.setRooms obj (delRoom room)) :=
    ⟨by simp [St.setRooms], fun i => nsName_setRooms t obj _ i, by simp [St.setRooms]⟩
  obtain ⟨h', ret', q3, o3⟩ := fireClosed_quiet (cfg := cfg) (t.setRooms obj (delRoom room)) obj
    (forcedLeaveMsg (s.nsName obj) room OnRoomLeft il)
  have hv : (t.setRooms obj (delRoom room)).view obj
      (forcedLeaveMsg (s.nsName obj) room OnRoomLeft il) =
      ⟨s.nsName obj, linked s obj, false⟩ := by
    rw [view_eq, (q1.trans q2).linked, (q1.trans q2).names,
      rooms_setRooms _ _ _ _ (by simp [delRoom])]
    simp [delRoom, forcedLeaveMsg]
  rw [hv] at q3
  refine ⟨h, h', ret, ret', (q1.trans q2).trans q3, ?_⟩
  intro i
  have hr : ∀ u v : St, u.objs = v.objs → ∀ j, u.rooms j = v.rooms j := by
    intro u v e j; unfold St.rooms; rw [e]
  rw [hr _ _ o3, rooms_setRooms _ _ _ _ (by simp [delRoom]), hr _ _ o1]

@[simp] theorem closingOf_append (a b : List Obs) :
    closingOf (a ++ b) = closingOf a ++ closingOf b := by
  induction a with
  | nil => rfl
  | cons o a ih => cases o <;> simp [closingOf, ih]

/-- the callbacks of a forced leave of these rooms -/
def leaveCalls (obj : Nat) (ns : Bytes) (il c : Bool) (rooms : List Bytes) : List Call :=
  rooms.flatMap (roomLeft obj ns il c)

/-- only callbacks -/
def AllFired (l : List Obs) : Prop := sentOf l = [] ∧ retOf l = [] ∧ otherOf l = []

theorem AllFired.closing {l : List Obs} (h : AllFired l) : closingOf l = [] := by
  induction l with
  | nil => rfl
  | cons o l ih =>
    obtain ⟨h1, h2, h3⟩ := h
    cases o <;> simp_all [sentOf, retOf, otherOf, closingOf, AllFired]

theorem AllFired.append {a b : List Obs} (ha : AllFired a) (hb : AllFired b) :
    AllFired (a ++ b) := by
  obtain ⟨a1, a2, a3⟩ := ha
  obtain ⟨b1, b2, b3⟩ := hb
  exact ⟨by simp [a1, b1], by simp [a2, b2], by simp [a3, b3]⟩

theorem leaveFold_quiet (obj : Nat) (il : Bool) (rs : List Bytes) (s : St) :
    ∃ l, Quiet s l (rs.foldl (leaveOneClosed cfg obj il) s) ∧
      (rs.Nodup → (∀ r ∈ rs, r ∈ s.rooms obj) →
        callsOf l = leaveCalls obj (s.nsName obj) il (linked s obj) rs) ∧ AllFired l ∧
      ∀ i, (rs.foldl (leaveOneClosed cfg obj il) s).rooms i =
        if i = obj then (s.rooms i).filter (fun r => r ∉ rs) else s.rooms i := by
  induction rs generalizing s with
  | nil =>
    refine ⟨[], Quiet.refl s, fun _ _ => rfl, ⟨rfl, rfl, rfl⟩, ?_⟩
    intro i
    have : (s.rooms i).filter (fun _ => true) = s.rooms i := List.filter_eq_self.mpr (fun _ _ => rfl)
    simp [this]
  | cons r rs ih =>
    obtain ⟨h, h', ret, ret', q, hr⟩ := leaveOneClosed_quiet (cfg := cfg) obj il s r
    obtain ⟨l, q2, hc, ha, hr2⟩ := ih (leaveOneClosed cfg obj il s r)
    refine ⟨_, q.trans q2, ?_, ?_, ?_⟩
    · intro hnd hsub
      obtain ⟨n1, n2⟩ := List.nodup_cons.mp hnd
      rw [q.names, q.linked] at hc
      rw [callsOf_append, hc n2 (by
        intro x hx
        rw [hr, if_pos rfl]
        simp only [delRoom, List.mem_filter, decide_eq_true_eq]
        exact ⟨hsub x (List.mem_cons_of_mem _ hx), by rintro rfl; exact n1 hx⟩)]
      simp only [callsOf, leaveCalls, List.flatMap_cons, roomLeft, hsub r List.mem_cons_self,
        decide_true]
      rfl
    · exact AllFired.append ⟨rfl, rfl, rfl⟩ ha
    · intro i
      simp only [List.foldl_cons]
      rw [hr2, hr]
      by_cases hi : i = obj
      · simp only [hi, if_true, delRoom, List.filter_filter]
        apply List.filter_congr
        intro x _
        by_cases h1 : x = r <;> by_cases h2 : x ∈ rs <;> simp [h1, h2]
      · simp [hi]

theorem forceLeaveClosed_quiet (s : St) (obj : Nat) (il : Bool) :
    ∃ l rs, rs.Perm (s.rooms obj) ∧ Quiet s l (forceLeaveClosed cfg s obj il) ∧
      ((s.rooms obj).Nodup → callsOf l = leaveCalls obj (s.nsName obj) il (linked s obj) rs) ∧
      AllFired l ∧
      ∀ i, (forceLeaveClosed cfg s obj il).rooms i = if i = obj then [] else s.rooms i := by
  have hp := cfg.order_perm s.log (s.rooms obj)
  obtain ⟨l, q, hc, ha, hr⟩ := leaveFold_quiet (cfg := cfg) obj il (cfg.order s.log (s.rooms obj)) s
  refine ⟨l, _, hp, q, fun hnd => hc (hp.nodup_iff.mpr hnd) (fun r h => hp.mem_iff.mp h), ha, ?_⟩
  intro i
  unfold forceLeaveClosed
  rw [hr]
  by_cases hi : i = obj
  · subst hi
    simp only [if_true, List.filter_eq_nil_iff]
    intro x hx
    simp [hp.mem_iff, hx]
  · simp [hi]

/-- closing one connected namespace -/
theorem closeOne_some {s : St} {ns : Bytes} {obj : Nat} (h : s.namespace ns = some obj) :
    ∃ l rs, rs.Perm (s.rooms obj) ∧
      (closeOne cfg s ns).log = s.log ++ l ∧
      ((s.rooms obj).Nodup → s.nsName obj = ns → callsOf l = namespaceClosed obj ns rs) ∧
      AllFired l ∧
      closeOne cfg s ns = { s with objs := (closeOne cfg s ns).objs, log := s.log ++ l,
                                   connected := mapDel s.connected ns } ∧
      (∀ i : Nat, (closeOne cfg s ns).nsName i = s.nsName i) ∧
      (closeOne cfg s ns).objs.length = s.objs.length ∧
      ∀ i, (closeOne cfg s ns).rooms i = if i = obj then [] else s.rooms i := by
  unfold closeOne
  rw [h]
  dsimp only
  obtain ⟨l, rs, hp, q, hc, ha, hr⟩ := forceLeaveClosed_quiet (cfg := cfg) s obj true
  generalize forceLeaveClosed cfg s obj true = t at q hr ⊢
  obtain ⟨hd, ret, q2, o2⟩ := fireClosed_quiet (cfg := cfg) t obj (forcedDisconnectMsg (t.nsName obj))
  have hn := q.names obj
  have hv : t.view obj (forcedDisconnectMsg (s.nsName obj)) =
      ⟨s.nsName obj, linked s obj, false⟩ := by
    rw [view_eq, q.linked, hn, hr]
    simp
  rw [hn] at q2 o2 ⊢
  rw [hv] at q2
  generalize fireClosed cfg t obj (forcedDisconnectMsg (s.nsName obj)) = u at q2 o2 ⊢
  have q3 := q.trans q2
  refine ⟨_, rs, hp, q3.log, ?_, AllFired.append ha ⟨rfl, rfl, rfl⟩, ?_, ?_, ?_, ?_⟩
  · intro hnd hns
    have hlk : linked s obj = true := by unfold linked; rw [hns, h]; simp
    rw [hlk] at hc ⊢
    simp only [callsOf_append, hc hnd]
    rw [hns]
    rfl
  · have e := q3.frame
    rw [show u.connected = s.connected by rw [e]]
    conv => lhs; rw [e]
  · exact fun i => q3.names i
  · exact q3.len
  · intro i
    have : u.rooms i = t.rooms i := by unfold St.rooms; rw [o2]
    have e : ({ u with connected := mapDel u.connected ns } : St).rooms i = u.rooms i := rfl
    rw [e, this, hr]

theorem mapDel_keys {α : Type} (m : List (Bytes × α)) (k : Bytes) :
    (mapDel m k).map (·.1) = (m.map (·.1)).filter (· ≠ k) := by
  unfold mapDel
  rw [List.filter_map]
  rfl

theorem mapGet_of_mem {α : Type} {m : List (Bytes × α)} {p : Bytes × α}
    (h : (m.map (·.1)).Nodup) (hm : p ∈ m) : mapGet m p.1 = some p.2 := by
  induction m with
  | nil => simp at hm
  | cons q m ih =>
    rw [List.map_cons, List.nodup_cons] at h
    unfold mapGet
    rcases List.mem_cons.mp hm with rfl | hm
    · simp
    · have : q.1 ≠ p.1 := fun e => h.1 (e ▸ List.mem_map_of_mem hm)
      simp only [this]
      exact ih h.2 hm

theorem mapGet_isSome_iff {α : Type} (m : List (Bytes × α)) (k : Bytes) :
    (mapGet m k).isSome ↔ k ∈ m.map (·.1) := by
  induction m with
  | nil => simp [mapGet]
  | cons p m ih =>
    obtain ⟨k', v⟩ := p
    by_cases h : k' = k
    · simp [mapGet, h]
    · simp only [mapGet, if_neg h, ih, List.map_cons, List.mem_cons]
      simp [Ne.symm h]

theorem flatMap_congr_mem {α β : Type} {l : List α} {f g : α → List β}
    (h : ∀ a ∈ l, f a = g a) : l.flatMap f = l.flatMap g := by
  induction l with
  | nil => rfl
  | cons a l ih =>
    simp only [List.flatMap_cons, h a List.mem_cons_self,
      ih (fun b hb => h b (List.mem_cons_of_mem _ hb))]

/-- The loop over the connected namespaces. -/
theorem closeFold (nss : List Bytes) (s : St) (hn : nss.Nodup)
    (hsub : ∀ ns ∈ nss, (s.namespace ns).isSome)
    (hinj : ∀ (n m : Bytes) (obj : Nat), s.namespace n = some obj → s.namespace m = some obj → n = m) :
    ∃ (l : List Obs) (rs : Bytes → List Bytes),
      (∀ ns obj, ns ∈ nss → s.namespace ns = some obj → (rs ns).Perm (s.rooms obj)) ∧
      ((∀ i, (s.rooms i).Nodup) → (∀ ns obj, s.namespace ns = some obj → s.nsName obj = ns) →
        callsOf l = nss.flatMap (fun ns =>
          match s.namespace ns with
          | some obj => namespaceClosed obj ns (rs ns)
          | none => [])) ∧
      AllFired l ∧
      nss.foldl (closeOne cfg) s = { s with
          objs := (nss.foldl (closeOne cfg) s).objs
          log := s.log ++ l
          connected := s.connected.filter (fun p => p.1 ∉ nss) } ∧
      (∀ i, (nss.foldl (closeOne cfg) s).nsName i = s.nsName i) ∧
      (nss.foldl (closeOne cfg) s).objs.length = s.objs.length ∧
      ∀ i, (nss.foldl (closeOne cfg) s).rooms i =
        if ∃ ns ∈ nss, s.namespace ns = some i then [] else s.rooms i := by
  induction nss generalizing s with
  | nil =>
    have hft : s.connected.filter (fun _ => true) = s.connected :=
      List.filter_eq_self.mpr (fun _ _ => rfl)
    refine ⟨[], fun _ => [], by simp, fun _ _ => rfl, ⟨rfl, rfl, rfl⟩, by simp [hft], fun _ => rfl, rfl, ?_⟩
    intro i; simp
  | cons ns nss ih =>
    obtain ⟨obj, ho⟩ := Option.isSome_iff_exists.mp (hsub ns List.mem_cons_self)
    obtain ⟨l1, r1, hp1, _, hc1, ha1, hf1, hn1, hl1, hr1⟩ := closeOne_some (cfg := cfg) ho
    have hnd := List.nodup_cons.mp hn
    have hget : ∀ m, (closeOne cfg s ns).namespace m = if m = ns then none else s.namespace m := by
      intro m
      rw [hf1]
      exact mapGet_mapDel s.connected ns m
    obtain ⟨l2, r2, hp2, hc2, ha2, hf2, hn2, hl2, hr2⟩ := ih (closeOne cfg s ns) hnd.2
      (by
        intro m hm
        rw [hget, if_neg (by rintro rfl; exact hnd.1 hm)]
        exact hsub m (List.mem_cons_of_mem _ hm))
      (by
        intro n m o h1 h2
        rw [hget] at h1 h2
        split at h1
        · simp at h1
        · split at h2
          · simp at h2
          · exact hinj n m o h1 h2)
    refine ⟨l1 ++ l2, fun m => if m = ns then r1 else r2 m, ?_, ?_, ha1.append ha2, ?_, ?_, ?_, ?_⟩
    · intro m o hm hmo
      dsimp only
      by_cases he : m = ns
      · subst he
        rw [if_pos rfl]
        rw [ho] at hmo; cases hmo
        exact hp1
      · rw [if_neg he]
        have hm' : m ∈ nss := by simpa [he] using hm
        have := hp2 m o hm' (by rw [hget, if_neg he]; exact hmo)
        rw [hr1] at this
        rw [if_neg] at this
        · exact this
        · rintro rfl
          exact he (hinj m ns _ hmo ho)
    · intro hrn hname
      have hc2' := hc2
        (by
          intro i
          rw [hr1]
          split
          · exact List.nodup_nil
          · exact hrn i)
        (by
          intro m o hm
          rw [hn1]
          rw [hget] at hm
          split at hm
          · simp at hm
          · exact hname m o hm)
      simp only [callsOf_append, hc1 (hrn obj) (hname ns obj ho), hc2', List.flatMap_cons, ho, if_true]
      congr 1
      apply flatMap_congr_mem
      intro m hm
      have he : m ≠ ns := by rintro rfl; exact hnd.1 hm
      rw [hget, if_neg he, if_neg he]
    · simp only [List.foldl_cons]
      rw [hf2]
      rw [hf1]
      simp only [mapDel, List.filter_filter, List.append_assoc]
      congr 1
      apply List.filter_congr
      intro p _
      by_cases h1 : p.1 = ns <;> by_cases h2 : p.1 ∈ nss <;> simp [h1, h2]
    · intro i; simp only [List.foldl_cons]; rw [hn2, hn1]
    · simp only [List.foldl_cons]; rw [hl2, hl1]
    · intro i
      simp only [List.foldl_cons]
      rw [hr2, hr1]
      by_cases hi : i = obj
      · subst hi
        have hx : ∃ m ∈ ns :: nss, s.namespace m = some i := ⟨ns, List.mem_cons_self, ho⟩
        rw [if_pos hx, if_pos rfl]
        simp
      · rw [if_neg hi]
        congr 1
        apply propext
        constructor
        · rintro ⟨m, hm, he⟩
          rw [hget] at he
          split at he
          · simp at he
          · exact ⟨m, List.mem_cons_of_mem _ hm, he⟩
        · rintro ⟨m, hm, he⟩
          rcases List.mem_cons.mp hm with rfl | hm'
          · rw [ho] at he; cases he; exact absurd rfl hi
          · refine ⟨m, hm', ?_⟩
            rw [hget, if_neg (by rintro rfl; exact hnd.1 hm')]; exact he

/-- the observations at the end of `Close` -/
def closeNotes (cfg : Cfg) : List Obs :=
  if cfg.isClient = true then [.closeCh, .netClosed] else [.notifyServer, .closeCh, .netClosed]

theorem closeEnd_eq (s : St) :
    closeEnd cfg s = { s with acked := false, log := s.log ++ closeNotes cfg } := by
  unfold closeEnd closeNotes
  split <;> simp [St.emit]

/-- `Close` of an open connection. -/
theorem closeConn_open {s : St} (hc : s.closed = false) (hn : cfg.onlyNative = false)
    (hk : (s.connected.map (·.1)).Nodup)
    (hinj : ∀ (n m : Bytes) (obj : Nat), s.namespace n = some obj → s.namespace m = some obj → n = m) :
    ∃ (l : List Obs) (nss : List Bytes) (rs : Bytes → List Bytes),
      nss.Perm (s.connected.map (·.1)) ∧
      (∀ ns obj, s.namespace ns = some obj → (rs ns).Perm (s.rooms obj)) ∧
      ((∀ i, (s.rooms i).Nodup) → (∀ ns obj, s.namespace ns = some obj → s.nsName obj = ns) →
        callsOf l = nss.flatMap (fun ns =>
          match s.namespace ns with
          | some obj => namespaceClosed obj ns (rs ns)
          | none => [])) ∧
      AllFired l ∧
      closeConn cfg s = { s with
          closed := true
          acked := false
          waiting := []
          objs := (closeConn cfg s).objs
          log := s.log ++ l ++ closeNotes cfg
          connected := [] } ∧
      (∀ i, (closeConn cfg s).nsName i = s.nsName i) ∧
      (closeConn cfg s).objs.length = s.objs.length ∧
      (∀ ns i, s.namespace ns = some i → (closeConn cfg s).rooms i = []) ∧
      ∀ i, (∀ ns, s.namespace ns ≠ some i) → (closeConn cfg s).rooms i = s.rooms i := by
  have hp := cfg.order_perm s.log (s.connected.map (·.1))
  have hmem : ∀ ns, ns ∈ cfg.order s.log (s.connected.map (·.1)) ↔ (s.namespace ns).isSome := by
    intro ns
    rw [hp.mem_iff]
    exact (mapGet_isSome_iff s.connected ns).symm
  obtain ⟨l, rs, h1, h2, h3, h4, h5, h6, h7⟩ := closeFold (cfg := cfg)
    (cfg.order s.log (s.connected.map (·.1))) { s with closed := true }
    (hp.nodup_iff.mpr hk) (fun ns h => (hmem ns).mp h) hinj
  have e : closeConn cfg s = closeEnd cfg (closeAll cfg { s with closed := true }) := by
    unfold closeConn; simp [hc, hn]
  have ec : closeAll cfg { s with closed := true } =
      { (cfg.order s.log (s.connected.map (·.1))).foldl (closeOne cfg) { s with closed := true } with
        waiting := [] } := rfl
  have hcon : s.connected.filter (fun p => p.1 ∉ cfg.order s.log (s.connected.map (·.1))) = [] := by
    rw [List.filter_eq_nil_iff]
    intro p hpm
    simp only [decide_not, Bool.not_eq_true', decide_eq_false_iff_not]
    rw [hp.mem_iff]
    exact fun hx => hx (List.mem_map_of_mem hpm)
  have eobjs : (closeConn cfg s).objs =
      ((cfg.order s.log (s.connected.map (·.1))).foldl (closeOne cfg) { s with closed := true }).objs := by
    rw [e, closeEnd_eq, ec]
  have hroom : ∀ i, (closeConn cfg s).rooms i =
      ((cfg.order s.log (s.connected.map (·.1))).foldl (closeOne cfg) { s with closed := true }).rooms i := by
    intro i
    unfold St.rooms
    rw [eobjs]
  refine ⟨l, _, rs, hp, ?_, h2, h3, ?_, ?_, ?_, ?_, ?_⟩
  · intro ns obj h
    exact h1 ns obj ((hmem ns).mpr (by rw [h]; rfl)) h
  · rw [eobjs, e, closeEnd_eq, ec, h4]
    simp only [hcon]
  · intro i
    have := h5 i
    unfold St.nsName at this ⊢
    rw [eobjs]; exact this
  · rw [eobjs]; exact h6
  · intro ns i h
    rw [hroom, h7, if_pos ⟨ns, (hmem ns).mpr (by rw [h]; rfl), h⟩]
  · intro i h
    rw [hroom, h7, if_neg]
    · rfl
    rintro ⟨ns, _, h'⟩
    exact h ns h'

/-- `Close` of an open connection that handles only native messages. -/
theorem closeConn_native {s : St} (hc : s.closed = false) (hn : cfg.onlyNative = true) :
    closeConn cfg s = { s with closed := true, acked := false, log := s.log ++ closeNotes cfg } := by
  unfold closeConn
  simp [hc, hn, closeEnd_eq]

end Neffos
