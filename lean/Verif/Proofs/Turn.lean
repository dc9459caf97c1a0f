import Verif.Proofs.ConnFinish
import Verif.Spec.Turn
set_option autoImplicit false
/-!
Helper: in which order the handlers and the completions of calls do what they do, while the
connection stays open.
-/
namespace Neffos.Turn
open Neffos Spec

variable {cfg : Cfg}

theorem _root_.Neffos.Spec.Goes.append {a b : List Obs} {es fs : List Ev} (ha : Goes cfg a es)
    (hb : Goes cfg b fs) : Goes cfg (a ++ b) (es ++ fs) := by
  induction ha with
  | nil => exact hb
  | call h _ ih =>
    rw [List.cons_append, List.append_assoc]
    exact .call h ih
  | wire _ ih => exact .wire ih
  | ret _ ih => exact .ret ih
  | note h _ ih => exact .note h ih

theorem _root_.Neffos.Spec.Goes.sent1 (binary : Bool) (b : Bytes) (ok : Bool) :
    Goes cfg [.sent binary b ok] [.wire binary b] := .wire .nil

theorem _root_.Neffos.Spec.Goes.ret1 (k : Cont) (r : Result) :
    Goes cfg [.ret k r] [.ret k r] := .ret .nil

theorem goes_fired {s : St} {obj : Nat} {msg : Message} {h : Option Bytes} {r : Option GoErr}
    {l : List Obs} (hl : AllSent l) (hq : ∀ x ∈ sentOf l, CbWrote cfg x) :
    Goes cfg (.fired obj (s.view obj msg) msg h r :: l)
      [.call ⟨obj, msg, linked s obj, msg.room ∈ s.rooms obj⟩] := by
  have key : ∀ o ∈ l, ∃ binary b ok, o = .sent binary b ok ∧ CbWrote cfg (binary, b) := by
    intro o ho
    obtain ⟨binary, b, ok, rfl⟩ := hl o ho
    refine ⟨binary, b, ok, rfl, hq _ ?_⟩
    clear hl hq
    induction l with
    | nil => simp at ho
    | cons p l ih =>
      rcases List.mem_cons.mp ho with rfl | h'
      · simp [sentOf]
      · have := ih h'
        cases p <;> simp [sentOf, this]
  have := Goes.call (obj := obj) (v := s.view obj msg) (msg := msg) (h := h) (r := r) key
    (Goes.nil (cfg := cfg))
  simpa [view_eq] using this

theorem fire_any {s : St} {obj : Nat} {msg : Message}
    (h : (fire cfg s obj msg).1.closed = false) :
    ∃ l, Same s l (fire cfg s obj msg).1 ∧
      Goes cfg l [.call ⟨obj, msg, linked s obj, msg.room ∈ s.rooms obj⟩] := by
  obtain ⟨l, hl, hq, hs⟩ := fire_open h
  exact ⟨_, hs, goes_fired hl hq⟩

theorem discNotes_goes (ns : Bytes) : Goes cfg (discNotes cfg ns) (notes (discNotes cfg ns)) := by
  unfold discNotes
  split
  · exact .note rfl .nil
  · exact .nil

theorem replyRoomJoin_refused {s : St} {obj : Nat} {msg : Message} {e : GoErr} (hw : Wanted msg)
    (hr : msg.room ∉ s.rooms obj) (hv : verdict cfg s obj msg = some e)
    (hf : msg.fromExplicit = []) (hn : s.namespace msg.ns = some obj)
    (hev : msg.event = OnRoomJoin)
    (h : (replyRoomJoin cfg s obj msg).closed = false) :
    ∃ l, Same s l (replyRoomJoin cfg s obj msg) ∧
      Goes cfg l ([.call ⟨obj, msg, linked s obj, false⟩] ++ [.wire msg.setBinary (wireOf { msg with err := some e })]) := by
  unfold replyRoomJoin at h ⊢
  rw [if_neg hw.not_skip, if_neg hr] at h ⊢
  have hfs := fire_snd (cfg := cfg) s obj msg
  rw [hv] at hfs
  split at h
  · rename_i t e' he
    rw [he] at hfs
    cases hfs
    have hc := closed_of_prims (prims_write (cfg := cfg) t { msg with err := some e }) h
    have hfe := fire_any (cfg := cfg) (s := s) (obj := obj) (msg := msg) (by rw [he]; exact hc)
    rw [he] at hfe
    obtain ⟨l, hs, ha⟩ := hfe
    dsimp only at hs
    have hm : MayWrite cfg t { msg with err := some e } :=
      mayWrite_reply (obj := obj) hc hf (by rw [hs.namespace]; exact hn) (Or.inr (Or.inl hev))
    obtain ⟨ok, hs2⟩ := write_may hm h
    exact ⟨_, hs.trans hs2, by simpa [hr] using ha.append (Goes.sent1 _ _ _)⟩
  · rename_i t he
    rw [he] at hfs
    cases hfs

theorem replyRoomJoin_accepted {s : St} {obj : Nat} {msg : Message} (hw : Wanted msg)
    (hr : msg.room ∉ s.rooms obj) (hv : verdict cfg s obj msg = none) (ho : obj < s.objs.length)
    (h : (replyRoomJoin cfg s obj msg).closed = false) :
    ∃ l, Same (s.setRooms obj (addRoom msg.room)) l (replyRoomJoin cfg s obj msg) ∧
      Goes cfg l ([.call ⟨obj, msg, linked s obj, false⟩,
          .call ⟨obj, { msg with event := OnRoomJoined }, linked s obj, true⟩] ++ [.wire false (genEmptyReplyToWait msg.wait)]) := by
  unfold replyRoomJoin at h ⊢
  rw [if_neg hw.not_skip, if_neg hr] at h ⊢
  have hfs := fire_snd (cfg := cfg) s obj msg
  rw [hv] at hfs
  split at h
  · rename_i t e' he
    rw [he] at hfs
    cases hfs
  · rename_i t he
    dsimp only at h ⊢
    have hc3 := closed_of_prims (prims_writeEmptyReply (cfg := cfg) _ msg.wait) h
    have hc2 := closed_of_prims (prims_fire (cfg := cfg) _ _ _) hc3
    have hfe := fire_any (cfg := cfg) (s := s) (obj := obj) (msg := msg) (by rw [he]; exact hc2)
    rw [he] at hfe
    obtain ⟨l, hs, ha⟩ := hfe
    dsimp only at hs
    obtain ⟨l', hs', ha'⟩ := fire_any (cfg := cfg) hc3
    obtain ⟨ok, hs2⟩ := writeEmptyReply_open h
    refine ⟨_, ((hs.setRooms obj (addRoom msg.room)).trans hs').trans hs2, ?_⟩
    rw [linked_setRooms, hs.linked] at ha'
    have hin : msg.room ∈ (t.setRooms obj (addRoom msg.room)).rooms obj :=
      (rooms_addRoom t obj msg.room (by rw [hs.objs]; exact ho) obj msg.room).mpr (Or.inr ⟨rfl, rfl⟩)
    simpa [hr, hin] using (ha.append ha').append (Goes.sent1 _ _ _)

theorem replyRoomLeave_client {s : St} {obj : Nat} {msg : Message} (hw : Wanted msg)
    (hr : msg.room ∈ s.rooms obj) (hcl : cfg.isClient = true)
    (h : (replyRoomLeave cfg s obj msg).closed = false) :
    ∃ l, Same (s.setRooms obj (delRoom msg.room)) l (replyRoomLeave cfg s obj msg) ∧
      Goes cfg l ([.call ⟨obj, msg, linked s obj, true⟩, .wire false (genEmptyReplyToWait msg.wait),
          .call ⟨obj, { msg with event := OnRoomLeft }, linked s obj, false⟩]) := by
  unfold replyRoomLeave at h ⊢
  rw [if_neg hw.not_skip, if_neg (not_not_intro hr), if_pos hcl] at h ⊢
  dsimp only at h ⊢
  have hc3 := closed_of_prims (prims_fire (cfg := cfg) _ _ _) h
  have hc2 := closed_of_prims (prims_writeEmptyReply (cfg := cfg) _ _) hc3
  have hc1 : (fire cfg s obj msg).1.closed = false := hc2
  obtain ⟨l, hs, ha⟩ := fire_any (cfg := cfg) hc1
  obtain ⟨ok, hs2⟩ := writeEmptyReply_open hc3
  obtain ⟨l', hs', ha'⟩ := fire_any (cfg := cfg) h
  refine ⟨_, ((hs.setRooms obj (delRoom msg.room)).trans hs2).trans hs', ?_⟩
  rw [hs2.linked, linked_setRooms, hs.linked, hs2.rooms,
    rooms_setRooms _ _ _ _ (by simp [delRoom])] at ha'
  simpa [hr, delRoom] using (ha.append (Goes.sent1 _ _ _)).append ha'

theorem replyRoomLeave_refused {s : St} {obj : Nat} {msg : Message} {e : GoErr} (hw : Wanted msg)
    (hr : msg.room ∈ s.rooms obj) (hcl : cfg.isClient = false)
    (hv : verdict cfg s obj msg = some e)
    (hf : msg.fromExplicit = []) (hn : s.namespace msg.ns = some obj)
    (h : (replyRoomLeave cfg s obj msg).closed = false) :
    ∃ l, Same s l (replyRoomLeave cfg s obj msg) ∧
      Goes cfg l ([.call ⟨obj, msg, linked s obj, true⟩] ++ [.wire msg.setBinary (wireOf { msg with err := some e })]) := by
  unfold replyRoomLeave at h ⊢
  rw [if_neg hw.not_skip, if_neg (not_not_intro hr), if_neg (by simp [hcl])] at h ⊢
  have hfs := fire_snd (cfg := cfg) s obj msg
  rw [hv] at hfs
  split at h
  · rename_i t e' he
    rw [he] at hfs
    cases hfs
    have hc := closed_of_prims (prims_write (cfg := cfg) t { msg with err := some e }) h
    have hfe := fire_any (cfg := cfg) (s := s) (obj := obj) (msg := msg) (by rw [he]; exact hc)
    rw [he] at hfe
    obtain ⟨l, hs, ha⟩ := hfe
    dsimp only at hs
    have hm : MayWrite cfg t { msg with err := some e } :=
      mayWrite_reply (obj := obj) hc hf (by rw [hs.namespace]; exact hn)
        (Or.inr (Or.inr (Or.inr (by rw [hs.rooms]; exact hr))))
    obtain ⟨ok, hs2⟩ := write_may hm h
    exact ⟨_, hs.trans hs2, by simpa [hr] using ha.append (Goes.sent1 _ _ _)⟩
  · rename_i t he
    rw [he] at hfs
    cases hfs

theorem replyRoomLeave_accepted {s : St} {obj : Nat} {msg : Message} (hw : Wanted msg)
    (hr : msg.room ∈ s.rooms obj) (hcl : cfg.isClient = false)
    (hv : verdict cfg s obj msg = none)
    (h : (replyRoomLeave cfg s obj msg).closed = false) :
    ∃ l, Same (s.setRooms obj (delRoom msg.room)) l (replyRoomLeave cfg s obj msg) ∧
      Goes cfg l ([.call ⟨obj, msg, linked s obj, true⟩,
          .call ⟨obj, { msg with event := OnRoomLeft }, linked s obj, false⟩] ++ [.wire false (genEmptyReplyToWait msg.wait)]) := by
  unfold replyRoomLeave at h ⊢
  rw [if_neg hw.not_skip, if_neg (not_not_intro hr), if_neg (by simp [hcl])] at h ⊢
  have hfs := fire_snd (cfg := cfg) s obj msg
  rw [hv] at hfs
  split at h
  · rename_i t e' he
    rw [he] at hfs
    cases hfs
  · rename_i t he
    dsimp only at h ⊢
    have hc3 := closed_of_prims (prims_writeEmptyReply (cfg := cfg) _ msg.wait) h
    have hc2 := closed_of_prims (prims_fire (cfg := cfg) _ _ _) hc3
    have hfe := fire_any (cfg := cfg) (s := s) (obj := obj) (msg := msg) (by rw [he]; exact hc2)
    rw [he] at hfe
    obtain ⟨l, hs, ha⟩ := hfe
    dsimp only at hs
    obtain ⟨l', hs', ha'⟩ := fire_any (cfg := cfg) hc3
    obtain ⟨ok, hs2⟩ := writeEmptyReply_open h
    refine ⟨_, ((hs.setRooms obj (delRoom msg.room)).trans hs').trans hs2, ?_⟩
    rw [linked_setRooms, hs.linked, rooms_setRooms _ _ _ _ (by simp [delRoom])] at ha'
    simpa [hr, delRoom] using (ha.append ha').append (Goes.sent1 _ _ _)

theorem fireLocked_any {s : St} {obj : Nat} {msg : Message}
    (h : (fireLocked cfg s obj msg).closed = false) (hh : (fireLocked cfg s obj msg).hung = false) :
    ∃ l, Same s l (fireLocked cfg s obj msg) ∧ Goes cfg l ([.call ⟨obj, msg, linked s obj, msg.room ∈ s.rooms obj⟩]) := by
  obtain ⟨l, hl, hq, hs⟩ := fireLocked_open h hh
  exact ⟨_, hs, goes_fired hl hq⟩

theorem leaveOne_open {obj : Nat} {il : Bool} {s : St} {room : Bytes}
    (h : (leaveOne cfg obj il s room).closed = false)
    (hh : (leaveOne cfg obj il s room).hung = false) :
    ∃ l, SameR s l (leaveOne cfg obj il s room) ∧
      Goes cfg l ([.call ⟨obj, forcedLeaveMsg (s.nsName obj) room OnRoomLeave il, linked s obj,
          room ∈ s.rooms obj⟩,
        .call ⟨obj, forcedLeaveMsg (s.nsName obj) room OnRoomLeft il, linked s obj, false⟩]) ∧
      ∀ i, (leaveOne cfg obj il s room).rooms i =
        if i = obj then delRoom room (s.rooms i) else s.rooms i := by
  unfold leaveOne at h hh ⊢
  dsimp only at h hh ⊢
  have hp := prims_fireLocked (cfg := cfg) ((fireLocked cfg s obj
    (forcedLeaveMsg (s.nsName obj) room OnRoomLeave il)).setRooms obj (delRoom room)) obj
    (forcedLeaveMsg (s.nsName obj) room OnRoomLeft il)
  have hc1 := closed_of_prims hp h
  have hh1 := hung_of_prims hp hh
  obtain ⟨l, hs, ha⟩ := fireLocked_any (cfg := cfg) (s := s) (obj := obj)
    (msg := forcedLeaveMsg (s.nsName obj) room OnRoomLeave il) hc1 hh1
  obtain ⟨l', hs', ha'⟩ := fireLocked_any h hh
  refine ⟨_, (hs.toR.trans (SameR.setRooms _ obj (delRoom room))).trans hs'.toR, ?_, ?_⟩
  · rw [linked_setRooms, hs.linked, rooms_setRooms _ _ _ _ (by simp [delRoom])] at ha'
    have hf : decide ((forcedLeaveMsg (s.nsName obj) room OnRoomLeft il).room ∈
        if obj = obj then delRoom room ((fireLocked cfg s obj
          (forcedLeaveMsg (s.nsName obj) room OnRoomLeave il)).rooms obj) else
          (fireLocked cfg s obj
          (forcedLeaveMsg (s.nsName obj) room OnRoomLeave il)).rooms obj) = false := by
      simp [forcedLeaveMsg, delRoom]
    rw [hf] at ha'
    rw [List.append_nil]
    exact ha.append ha'
  · intro i
    rw [hs'.rooms, rooms_setRooms _ _ _ _ (by simp [delRoom]), hs.rooms]

theorem leaveFold_open {obj : Nat} {il : Bool} {rs : List Bytes} {s : St}
    (hnd : rs.Nodup) (hsub : ∀ r ∈ rs, r ∈ s.rooms obj)
    (h : (rs.foldl (leaveOne cfg obj il) s).closed = false)
    (hh : (rs.foldl (leaveOne cfg obj il) s).hung = false) :
    ∃ l, SameR s l (rs.foldl (leaveOne cfg obj il) s) ∧
      Goes cfg l (calls (rs.flatMap (roomLeft obj (s.nsName obj) il (linked s obj)))) ∧
      ∀ i, (rs.foldl (leaveOne cfg obj il) s).rooms i =
        if i = obj then (s.rooms i).filter (fun r => r ∉ rs) else s.rooms i := by
  induction rs generalizing s with
  | nil =>
    refine ⟨[], (Same.refl s).toR, Goes.nil, ?_⟩
    intro i
    have : (s.rooms i).filter (fun _ => true) = s.rooms i := List.filter_eq_self.mpr (fun _ _ => rfl)
    simp [this]
  | cons r rs ih =>
    simp only [List.foldl_cons] at h hh ⊢
    have hp := prims_foldl (cfg := cfg) (leaveOne cfg obj il) rs
      (fun s x => prims_leaveOne obj il s x) (leaveOne cfg obj il s r)
    obtain ⟨l, hs, h1, h4⟩ := leaveOne_open (closed_of_prims hp h) (hung_of_prims hp hh)
    obtain ⟨n1, n2⟩ := List.nodup_cons.mp hnd
    obtain ⟨l', hs', h1', h4'⟩ := ih n2 (by
      intro x hx
      rw [h4, if_pos rfl]
      simp only [delRoom, List.mem_filter, decide_eq_true_eq]
      exact ⟨hsub x (List.mem_cons_of_mem _ hx), by rintro rfl; exact n1 hx⟩) h hh
    refine ⟨_, hs.trans hs', ?_, ?_⟩
    · rw [hs.2, hs.linked] at h1'
      have := h1.append h1'
      simpa [calls, roomLeft, forcedLeaveMsg, hsub r List.mem_cons_self] using this
    · intro i
      rw [h4', h4]
      by_cases hi : i = obj
      · simp only [hi, if_true, delRoom, List.filter_filter]
        apply List.filter_congr
        intro x _
        by_cases e1 : x = r <;> by_cases e2 : x ∈ rs <;> simp [e1, e2]
      · simp [hi]

theorem forceLeaveAll_open {s : St} {obj : Nat} {il : Bool} (hnd : (s.rooms obj).Nodup)
    (h : (forceLeaveAll cfg s obj il).closed = false)
    (hh : (forceLeaveAll cfg s obj il).hung = false) :
    ∃ (l : List Obs) (rs : List Bytes), rs.Perm (s.rooms obj) ∧ SameR s l (forceLeaveAll cfg s obj il) ∧
      Goes cfg l (calls (rs.flatMap (roomLeft obj (s.nsName obj) il (linked s obj)))) ∧
      ∀ i, (forceLeaveAll cfg s obj il).rooms i = if i = obj then [] else s.rooms i := by
  have hp := cfg.order_perm s.log (s.rooms obj)
  unfold forceLeaveAll at h hh ⊢
  obtain ⟨l, hs, h1, h4⟩ := leaveFold_open (hp.nodup_iff.mpr hnd) (fun r h => hp.mem_iff.mp h) h hh
  refine ⟨l, _, hp, hs, h1, ?_⟩
  intro i
  rw [h4]
  by_cases hi : i = obj
  · subst hi
    simp only [if_true, List.filter_eq_nil_iff]
    intro x hx
    simp [hp.mem_iff, hx]
  · simp [hi]

theorem replyDisconnect_refused {s : St} {obj : Nat} {msg : Message} {e : GoErr} (hw : Wanted msg)
    (hn : s.namespace msg.ns = some obj) (hcl : cfg.isClient = false)
    (hv : verdict cfg s obj msg = some e) (hf : msg.fromExplicit = [])
    (hev : msg.event = OnNamespaceDisconnect)
    (h : (replyDisconnect cfg s msg).closed = false) :
    ∃ l, Same s l (replyDisconnect cfg s msg) ∧
      Goes cfg l ([.call ⟨obj, msg, linked s obj, msg.room ∈ s.rooms obj⟩] ++ [.wire msg.setBinary (wireOf { msg with err := some e })]) := by
  · have hfs := fire_snd (cfg := cfg) s obj msg
    rw [hv] at hfs
    unfold replyDisconnect at h ⊢
    rw [if_neg hw.not_skip, hn] at h ⊢
    dsimp only at h ⊢
    rw [if_neg (by simp [hcl])] at h ⊢
    split at h
    · rename_i t e' he
      rw [he] at hfs
      cases hfs
      have hc := closed_of_prims (prims_write (cfg := cfg) t { msg with err := some e }) h
      have hfe := fire_any (cfg := cfg) (s := s) (obj := obj) (msg := msg) (by rw [he]; exact hc)
      rw [he] at hfe
      obtain ⟨l, hs, ha⟩ := hfe
      dsimp only at hs
      have hm : MayWrite cfg t { msg with err := some e } :=
        ⟨hc, fun h => h.1 hf, Or.inr (Or.inl hev)⟩
      obtain ⟨ok, hs2⟩ := write_may hm h
      exact ⟨_, hs.trans hs2, ha.append (Goes.sent1 _ _ _)⟩
    · rename_i t he
      rw [he] at hfs
      cases hfs

/-- forced leave of all rooms and removal of the namespace -/
theorem forceLeave_remove {s : St} {obj : Nat} {il : Bool} {ns : Bytes}
    (hnd : (s.rooms obj).Nodup) (h : (forceLeaveAll cfg s obj il).closed = false)
    (hh : (forceLeaveAll cfg s obj il).hung = false) :
    ∃ (l : List Obs) (rs : List Bytes) (o : List NSObj), rs.Perm (s.rooms obj) ∧
      Fr s l o (mapDel s.connected ns) { forceLeaveAll cfg s obj il with
        connected := mapDel (forceLeaveAll cfg s obj il).connected ns } ∧
      Goes cfg l (calls (rs.flatMap (roomLeft obj (s.nsName obj) il (linked s obj)))) ∧
      (∀ i, ({ s with objs := o } : St).rooms i = if i = obj then [] else s.rooms i) ∧
      (∀ i, ({ s with objs := o } : St).nsName i = s.nsName i) := by
  obtain ⟨l, rs, h1, h2, h3, h6⟩ := forceLeaveAll_open hnd h hh
  refine ⟨l, rs, (forceLeaveAll cfg s obj il).objs, h1, ?_, h3, ?_, ?_⟩
  · rw [h2.connected]
    obtain ⟨⟨r, o, e⟩, _⟩ := h2
    exact ⟨r, by rw [e]⟩
  · exact fun i => h6 i
  · exact fun i => h2.2 i

theorem replyDisconnect_client {s : St} {obj : Nat} {msg : Message} (hw : Wanted msg)
    (hn : s.namespace msg.ns = some obj) (hcl : cfg.isClient = true)
    (hnm : s.nsName obj = msg.ns) (hnd : (s.rooms obj).Nodup)
    (h : (replyDisconnect cfg s msg).closed = false)
    (hh : (replyDisconnect cfg s msg).hung = false) :
    ∃ (l : List Obs) (rs : List Bytes) (o : List NSObj), rs.Perm (s.rooms obj) ∧
      Fr s l o (mapDel s.connected msg.ns) (replyDisconnect cfg s msg) ∧
      Goes cfg l (calls (rs.flatMap (roomLeft obj msg.ns false true)) ++
        [.wire false (genEmptyReplyToWait msg.wait), .call ⟨obj, msg, false, false⟩]) ∧
      (∀ i, ({ s with objs := o } : St).rooms i = if i = obj then [] else s.rooms i) := by
  unfold replyDisconnect at h hh ⊢
  rw [if_neg hw.not_skip, hn] at h hh ⊢
  dsimp only at h hh ⊢
  rw [if_pos hcl] at h hh ⊢
  have hp1 := prims_fire (cfg := cfg) (writeEmptyReply cfg { forceLeaveAll cfg s obj false with
        connected := mapDel (forceLeaveAll cfg s obj false).connected msg.ns } msg.wait) obj msg
  have hc1 := closed_of_prims hp1 h
  have hh1 := hung_of_prims hp1 hh
  have hp2 := prims_writeEmptyReply (cfg := cfg) { forceLeaveAll cfg s obj false with
        connected := mapDel (forceLeaveAll cfg s obj false).connected msg.ns } msg.wait
  have hc2 := closed_of_prims hp2 hc1
  have hh2 := hung_of_prims hp2 hh1
  obtain ⟨l, rs, o, h1, h2, h3, h6, h7⟩ :=
    forceLeave_remove (cfg := cfg) (ns := msg.ns) (s := s) (obj := obj) (il := false) hnd hc2 hh2
  obtain ⟨ok, hs2⟩ := writeEmptyReply_open hc1
  obtain ⟨l', hs', ha'⟩ := fire_any (cfg := cfg) h
  refine ⟨_, rs, o, h1, (h2.same hs2).same hs', ?_, h6⟩
  have hlk : linked s obj = true := by unfold linked; rw [hnm, hn]; simp
  obtain ⟨e1, e2, _⟩ := h2.rooms_eq
  rw [hs2.linked, hs2.rooms] at ha'
  have hl2 : linked { forceLeaveAll cfg s obj false with
      connected := mapDel (forceLeaveAll cfg s obj false).connected msg.ns } obj = false := by
    unfold linked St.namespace
    have hnn : ({ forceLeaveAll cfg s obj false with
      connected := mapDel (forceLeaveAll cfg s obj false).connected msg.ns } : St).nsName obj =
        msg.ns := by
      rw [← hnm, ← h7 obj]
      unfold St.nsName
      rw [e1]
    rw [hnn, mapGet_mapDel]
    simp
  have hr2 : ({ forceLeaveAll cfg s obj false with
      connected := mapDel (forceLeaveAll cfg s obj false).connected msg.ns } : St).rooms obj =
        [] := by
    have := h6 obj
    rw [if_pos rfl] at this
    rw [← this]
    unfold St.rooms
    rw [e1]
  rw [hl2, hr2] at ha'
  rw [hlk, hnm] at h3
  simpa using (h3.append (Goes.sent1 false (genEmptyReplyToWait msg.wait) ok)).append ha'

theorem replyDisconnect_accepted {s : St} {obj : Nat} {msg : Message} (hw : Wanted msg)
    (hn : s.namespace msg.ns = some obj) (hcl : cfg.isClient = false)
    (hv : verdict cfg s obj msg = none)
    (hnm : s.nsName obj = msg.ns) (hnd : (s.rooms obj).Nodup)
    (h : (replyDisconnect cfg s msg).closed = false)
    (hh : (replyDisconnect cfg s msg).hung = false) :
    ∃ (l : List Obs) (rs : List Bytes) (o : List NSObj), rs.Perm (s.rooms obj) ∧
      Fr s l o (mapDel s.connected msg.ns) (replyDisconnect cfg s msg) ∧
      Goes cfg l (calls (⟨obj, msg, true, msg.room ∈ s.rooms obj⟩ ::
          rs.flatMap (roomLeft obj msg.ns false true)) ++
        notes (discNotes cfg msg.ns) ++ [.wire false (genEmptyReplyToWait msg.wait)]) ∧
      (∀ i, ({ s with objs := o } : St).rooms i = if i = obj then [] else s.rooms i) := by
  have hfs := fire_snd (cfg := cfg) s obj msg
  rw [hv] at hfs
  unfold replyDisconnect at h hh ⊢
  rw [if_neg hw.not_skip, hn] at h hh ⊢
  dsimp only at h hh ⊢
  rw [if_neg (by simp [hcl])] at h hh ⊢
  split at h
  · rename_i t e' he
    rw [he] at hfs
    cases hfs
  · rename_i t he
    simp only [he] at hh ⊢
    have hp1 := prims_writeEmptyReply (cfg := cfg) (notifyDisconnect cfg { forceLeaveAll cfg t obj false with
        connected := mapDel (forceLeaveAll cfg t obj false).connected msg.ns } msg.ns) msg.wait
    have hc1 := closed_of_prims hp1 h
    have hh1 := hung_of_prims hp1 hh
    have hp2 := prims_notifyDisconnect (cfg := cfg) { forceLeaveAll cfg t obj false with
        connected := mapDel (forceLeaveAll cfg t obj false).connected msg.ns } msg.ns
    have hc2 := closed_of_prims hp2 hc1
    have hh2 := hung_of_prims hp2 hh1
    have hp3 := prims_forceLeaveAll (cfg := cfg) t obj false
    have hc3 := closed_of_prims hp3 hc2
    have hfe := fire_any (cfg := cfg) (s := s) (obj := obj) (msg := msg) (by rw [he]; exact hc3)
    rw [he] at hfe
    obtain ⟨l, hs, ha⟩ := hfe
    dsimp only at hs
    obtain ⟨l', rs, o, h1, h2, h3, h6, _⟩ :=
      forceLeave_remove (cfg := cfg) (ns := msg.ns) (s := t) (obj := obj) (il := false)
        (by rw [hs.rooms]; exact hnd) hc2 hh2
    obtain ⟨ok, hs2⟩ := writeEmptyReply_open h
    have hnd := notifyDisconnect_same (cfg := cfg) { forceLeaveAll cfg t obj false with
        connected := mapDel (forceLeaveAll cfg t obj false).connected msg.ns } msg.ns
    have hfr := (h2.same hnd).same hs2
    rw [hs.rooms] at h1
    have hlk : linked s obj = true := by unfold linked; rw [hnm, hn]; simp
    rw [hs.nsName, hs.linked, hlk, hnm] at h3
    rw [hlk] at ha
    have hc0 : t.connected = s.connected := hs.connected
    rw [hc0] at hfr
    refine ⟨_, rs, o, h1, hs.then_fr hfr, ?_, ?_⟩
    · simpa [calls] using ha.append ((h3.append (discNotes_goes (cfg := cfg) msg.ns)).append
        (Goes.sent1 false (genEmptyReplyToWait msg.wait) ok))
    · intro i
      have := h6 i
      rw [hs.rooms] at this
      exact this

theorem notifyConnected_open {s : St} {obj : Nat} {msg : Message}
    (h : (notifyConnected cfg s obj msg).closed = false) :
    ∃ l, Same s l (notifyConnected cfg s obj msg) ∧
      Goes cfg l ([.call ⟨obj, { msg with event := OnNamespaceConnected }, linked s obj,
          msg.room ∈ s.rooms obj⟩] ++ notes (connNotes cfg (s.nsName obj))) := by
  unfold notifyConnected at h ⊢
  dsimp only at h ⊢
  have hc : (fire cfg s obj { msg with event := OnNamespaceConnected }).1.closed = false := by
    split at h <;> exact h
  obtain ⟨l, hs, ha⟩ := fire_any hc
  have hn := hs.nsName obj
  unfold connNotes
  split
  · refine ⟨l ++ [.subscribe (s.nsName obj)], ?_, ?_⟩
    · rw [hn]
      exact hs.trans (Same.emit _ _)
    · exact ha.append (b := [.subscribe (s.nsName obj)]) (.note rfl .nil)
  · exact ⟨l, hs, ha⟩

theorem replyConnect_refused {s : St} {msg : Message} {e : GoErr} {evs : List Bytes}
    (hw : Wanted msg) (hn : s.namespace msg.ns = none) (hd : mapGet cfg.decl msg.ns = some evs)
    (hev : msg.event = OnNamespaceConnect) (hf : msg.fromExplicit = [])
    (hv : verdict cfg (withObj s msg.ns) s.objs.length msg = some e)
    (h : (replyConnect cfg s msg).closed = false) :
    ∃ l, Same (withObj s msg.ns) l (replyConnect cfg s msg) ∧
      Goes cfg l ([.call ⟨s.objs.length, msg, false, false⟩] ++ [.wire msg.setBinary (wireOf { msg with err := some e })]) := by
  have hfs := fire_snd (cfg := cfg) (withObj s msg.ns) s.objs.length msg
  rw [hv] at hfs
  unfold replyConnect at h ⊢
  rw [if_neg hw.not_skip, hn] at h ⊢
  dsimp only at h ⊢
  rw [hd] at h ⊢
  simp only [newObj] at h ⊢
  change (match fire cfg (withObj s msg.ns) s.objs.length msg with
    | (s, some e) => (write cfg s { msg with err := some e }).1
    | (s, none) => _ : St).closed = false at h
  change ∃ l, Same (withObj s msg.ns) l (match fire cfg (withObj s msg.ns) s.objs.length msg with
    | (s, some e) => (write cfg s { msg with err := some e }).1
    | (s, none) => _ : St) ∧ _
  split at h
  · rename_i t e' he
    rw [he] at hfs
    cases hfs
    have hc := closed_of_prims (prims_write (cfg := cfg) t { msg with err := some e }) h
    have hfe := fire_any (cfg := cfg) (s := withObj s msg.ns) (obj := s.objs.length) (msg := msg)
      (by rw [he]; exact hc)
    rw [he] at hfe
    obtain ⟨l, hs, ha⟩ := hfe
    dsimp only at hs
    rw [linked_withObj hn, rooms_withObj] at ha
    have hm : MayWrite cfg t { msg with err := some e } :=
      ⟨hc, fun h => h.1 hf, Or.inl hev⟩
    obtain ⟨ok, hs2⟩ := write_may hm h
    exact ⟨_, hs.trans hs2, by simpa using ha.append (Goes.sent1 _ _ _)⟩
  · rename_i t he
    rw [he] at hfs
    cases hfs

theorem replyConnect_accepted {s : St} {msg : Message} {evs : List Bytes}
    (hw : Wanted msg) (hn : s.namespace msg.ns = none) (hd : mapGet cfg.decl msg.ns = some evs)
    (hv : verdict cfg (withObj s msg.ns) s.objs.length msg = none)
    (h : (replyConnect cfg s msg).closed = false) :
    ∃ l, Fr s l (s.objs ++ [⟨msg.ns, []⟩]) (mapSet s.connected msg.ns s.objs.length)
        (replyConnect cfg s msg) ∧
      Goes cfg l ([.call ⟨s.objs.length, msg, false, false⟩, .wire false (genEmptyReplyToWait msg.wait),
          .call ⟨s.objs.length, { msg with event := OnNamespaceConnected }, true, false⟩] ++ notes (connNotes cfg msg.ns)) := by
  have hfs := fire_snd (cfg := cfg) (withObj s msg.ns) s.objs.length msg
  rw [hv] at hfs
  unfold replyConnect at h ⊢
  rw [if_neg hw.not_skip, hn] at h ⊢
  dsimp only at h ⊢
  rw [hd] at h ⊢
  simp only [newObj] at h ⊢
  change (match fire cfg (withObj s msg.ns) s.objs.length msg with
    | (s, some e) => _
    | (s, none) => _ : St).closed = false at h
  change ∃ l, Fr s l _ _ (match fire cfg (withObj s msg.ns) s.objs.length msg with
    | (s, some e) => _
    | (s, none) => _ : St) ∧ _
  split at h
  · rename_i t e' he
    rw [he] at hfs
    cases hfs
  · rename_i t he
    have hc1 := closed_of_prims (prims_notifyConnected (cfg := cfg) _ _ _) h
    have hc2 := closed_of_prims (prims_writeEmptyReply (cfg := cfg) _ _) hc1
    have hfe := fire_any (cfg := cfg) (s := withObj s msg.ns) (obj := s.objs.length) (msg := msg)
      (by rw [he]; exact hc2)
    rw [he] at hfe
    obtain ⟨l, hs, ha⟩ := hfe
    dsimp only at hs
    obtain ⟨ok, hs2⟩ := writeEmptyReply_open hc1
    obtain ⟨l', hs', ha'⟩ := notifyConnected_open h
    have hfr : Fr s l (s.objs ++ [⟨msg.ns, []⟩]) (mapSet s.connected msg.ns s.objs.length)
        { t with connected := mapSet t.connected msg.ns s.objs.length } := by
      obtain ⟨q, rfl⟩ := hs
      exact ⟨q, rfl⟩
    have hnn : (writeEmptyReply cfg { t with connected := mapSet t.connected msg.ns s.objs.length }
        msg.wait).nsName s.objs.length = msg.ns := by
      rw [hs2.nsName]
      have : t.nsName s.objs.length = msg.ns := by
        rw [hs.nsName]; simp [withObj, St.nsName]
      exact this
    rw [hnn] at ha'
    have hlk : linked (writeEmptyReply cfg
        { t with connected := mapSet t.connected msg.ns s.objs.length } msg.wait)
        s.objs.length = true := by
      have hnn' := hnn
      rw [hs2.nsName] at hnn'
      rw [hs2.linked]
      unfold linked St.namespace
      rw [hnn', mapGet_mapSet]
      simp
    have hrm : (writeEmptyReply cfg
        { t with connected := mapSet t.connected msg.ns s.objs.length } msg.wait).rooms
        s.objs.length = [] := by
      rw [hs2.rooms]
      have : t.rooms s.objs.length = [] := by rw [hs.rooms, rooms_withObj]
      exact this
    rw [hlk, hrm] at ha'
    rw [linked_withObj hn, rooms_withObj] at ha
    exact ⟨_, (hfr.same hs2).same hs', by
      simpa using (ha.append (Goes.sent1 false (genEmptyReplyToWait msg.wait) ok)).append ha'⟩

theorem finish_connect_ok {s : St} {ns : Bytes} {obj : Nat} {m : Message}
    (hnm : s.nsName obj = ns)
    (h : (finish cfg s (.connect ns obj) m none).closed = false) :
    ∃ l, (finish cfg s (.connect ns obj) m none).objs = s.objs ∧
      (finish cfg s (.connect ns obj) m none).connected = mapSet s.connected ns obj ∧
      (finish cfg s (.connect ns obj) m none).log = s.log ++ l ∧
      Goes cfg l ([.call ⟨obj, { ns := ns, event := OnNamespaceConnected, isLocal := true }, true,
          [] ∈ s.rooms obj⟩] ++ notes (connNotes cfg ns) ++
        [.ret (.connect ns obj) (.nsConn obj)]) := by
  simp only [finish] at h ⊢
  obtain ⟨g1, g2, g3, g4, _⟩ := gateDone_fields
    ((notifyConnected cfg { s with connected := mapSet s.connected ns obj } obj
      { ns := ns, event := OnNamespaceConnect, isLocal := true }).emit
      (.ret (.connect ns obj) (.nsConn obj))) ns
  rw [g4] at h
  obtain ⟨l, hs, ha⟩ := notifyConnected_open (cfg := cfg)
    (s := { s with connected := mapSet s.connected ns obj }) (obj := obj)
    (msg := { ns := ns, event := OnNamespaceConnect, isLocal := true }) h
  refine ⟨l ++ [.ret (.connect ns obj) (.nsConn obj)], ?_, ?_, ?_, ?_⟩
  · rw [g1]; exact hs.objs
  · rw [g2]; exact hs.connected
  · rw [g3]
    simp only [St.emit, hs.log, List.append_assoc]
  · have hlk : linked { s with connected := mapSet s.connected ns obj } obj = true := by
      unfold linked St.namespace
      have : ({ s with connected := mapSet s.connected ns obj } : St).nsName obj = ns := hnm
      rw [this, mapGet_mapSet]
      simp
    have hn2 : ({ s with connected := mapSet s.connected ns obj } : St).nsName obj = ns := hnm
    rw [hlk, hn2] at ha
    have := ha.append (Goes.ret1 (.connect ns obj) (.nsConn obj))
    simp only [List.append_nil, List.nil_append] at this
    exact this

theorem finish_disconnect_ok {s : St} {obj : Nat} {msg m : Message}
    (hnm : s.nsName obj = msg.ns) (hnd : (s.rooms obj).Nodup)
    (h : (finish cfg s (.disconnect obj msg) m none).closed = false)
    (hh : (finish cfg s (.disconnect obj msg) m none).hung = false) :
    ∃ (l : List Obs) (rs : List Bytes), rs.Perm (s.rooms obj) ∧
      (finish cfg s (.disconnect obj msg) m none).connected = mapDel s.connected msg.ns ∧
      (finish cfg s (.disconnect obj msg) m none).log = s.log ++ l ∧
      (∀ i, (finish cfg s (.disconnect obj msg) m none).rooms i =
        if i = obj then [] else s.rooms i) ∧
      Goes cfg l (calls (rs.flatMap (roomLeft obj msg.ns true (linked s obj)) ++
        [⟨obj, { msg with isLocal := true }, false, false⟩]) ++ notes (discNotes cfg msg.ns) ++
        [.ret (.disconnect obj msg) .ok]) := by
  simp only [finish] at h hh ⊢
  have hp1 := prims_notifyDisconnect (cfg := cfg) (fire cfg { forceLeaveAll cfg s obj true with
      connected := mapDel (forceLeaveAll cfg s obj true).connected msg.ns } obj
      { msg with isLocal := true }).1 msg.ns
  have hc1 := closed_of_prims hp1 h
  have hh1 := hung_of_prims hp1 hh
  have hp2 := prims_fire (cfg := cfg) { forceLeaveAll cfg s obj true with
      connected := mapDel (forceLeaveAll cfg s obj true).connected msg.ns } obj
      { msg with isLocal := true }
  have hc2 := closed_of_prims hp2 hc1
  have hh2 := hung_of_prims hp2 hh1
  obtain ⟨l, rs, o, h1, h2, h3, h6, h7⟩ :=
    forceLeave_remove (cfg := cfg) (ns := msg.ns) (s := s) (obj := obj) (il := true) hnd hc2 hh2
  obtain ⟨l', hs', ha'⟩ := fire_any (cfg := cfg) hc1
  have hnds := notifyDisconnect_same (cfg := cfg) (fire cfg { forceLeaveAll cfg s obj true with
      connected := mapDel (forceLeaveAll cfg s obj true).connected msg.ns } obj
      { msg with isLocal := true }).1 msg.ns
  have hfr := ((h2.same hs').same hnds).same (Same.emit _ (.ret (.disconnect obj msg) .ok))
  obtain ⟨e1, e2, e3⟩ := hfr.rooms_eq
  refine ⟨_, rs, h1, e2, e3, ?_, ?_⟩
  · intro i
    have := h6 i
    rw [← this]
    unfold St.rooms
    rw [e1]
  · obtain ⟨f1, f2, _⟩ := h2.rooms_eq
    have hl2 : linked { forceLeaveAll cfg s obj true with
        connected := mapDel (forceLeaveAll cfg s obj true).connected msg.ns } obj = false := by
      unfold linked St.namespace
      have hnn : ({ forceLeaveAll cfg s obj true with
        connected := mapDel (forceLeaveAll cfg s obj true).connected msg.ns } : St).nsName obj =
          msg.ns := by
        rw [← hnm, ← h7 obj]
        unfold St.nsName
        rw [f1]
      rw [hnn, mapGet_mapDel]
      simp
    have hr2 : ({ forceLeaveAll cfg s obj true with
        connected := mapDel (forceLeaveAll cfg s obj true).connected msg.ns } : St).rooms obj =
          [] := by
      have := h6 obj
      rw [if_pos rfl] at this
      rw [← this]
      unfold St.rooms
      rw [f1]
    rw [hl2, hr2] at ha'
    rw [hnm] at h3
    simpa [calls] using ((h3.append ha').append (discNotes_goes (cfg := cfg) msg.ns)).append
      (Goes.ret1 (.disconnect obj msg) .ok)

theorem finish_join_veto {s : St} {obj : Nat} {msg m : Message} {e : GoErr}
    (hv : verdict cfg s obj msg = some e)
    (h : (finish cfg s (.join obj msg) m none).closed = false) :
    ∃ l, Same s l (finish cfg s (.join obj msg) m none) ∧
      Goes cfg l ([.call ⟨obj, msg, linked s obj, msg.room ∈ s.rooms obj⟩] ++ [.ret (.join obj msg) (.err e)]) := by
  have hfs := fire_snd (cfg := cfg) s obj msg
  rw [hv] at hfs
  simp only [finish] at h ⊢
  split at h
  · rename_i t e' he
    rw [he] at hfs
    cases hfs
    have hfe := fire_any (cfg := cfg) (s := s) (obj := obj) (msg := msg) (by rw [he]; exact h)
    rw [he] at hfe
    obtain ⟨l, hs, ha⟩ := hfe
    exact ⟨_, hs.trans (Same.emit _ _), ha.append (Goes.ret1 _ _)⟩
  · rename_i t he
    rw [he] at hfs
    cases hfs

theorem finish_join_ok {s : St} {obj : Nat} {msg m : Message} (ho : obj < s.objs.length)
    (hv : verdict cfg s obj msg = none)
    (h : (finish cfg s (.join obj msg) m none).closed = false) :
    ∃ l, Same (s.setRooms obj (addRoom msg.room)) l (finish cfg s (.join obj msg) m none) ∧
      Goes cfg l ([.call ⟨obj, msg, linked s obj, msg.room ∈ s.rooms obj⟩,
          .call ⟨obj, { msg with event := OnRoomJoined }, linked s obj, true⟩] ++ [.ret (.join obj msg) (.room obj msg.room)]) := by
  have hfs := fire_snd (cfg := cfg) s obj msg
  rw [hv] at hfs
  simp only [finish] at h ⊢
  split at h
  · rename_i t e' he
    rw [he] at hfs
    cases hfs
  · rename_i t he
    have hc2 : (t.setRooms obj (addRoom msg.room)).closed = false :=
      closed_of_prims (s := t.setRooms obj (addRoom msg.room))
        (s' := (fire cfg (t.setRooms obj (addRoom msg.room)) obj { msg with event := OnRoomJoined }).1)
        (prims_fire (cfg := cfg) (t.setRooms obj (addRoom msg.room)) obj
        { msg with event := OnRoomJoined }) h
    have hfe := fire_any (cfg := cfg) (s := s) (obj := obj) (msg := msg) (by rw [he]; exact hc2)
    rw [he] at hfe
    obtain ⟨l, hs, ha⟩ := hfe
    dsimp only at hs
    obtain ⟨l', hs', ha'⟩ := fire_any (cfg := cfg)
      (s := t.setRooms obj (addRoom msg.room)) (obj := obj)
      (msg := { msg with event := OnRoomJoined }) h
    refine ⟨_, ((hs.setRooms obj (addRoom msg.room)).trans hs').trans (Same.emit _ _), ?_⟩
    rw [linked_setRooms, hs.linked] at ha'
    have hin : msg.room ∈ (t.setRooms obj (addRoom msg.room)).rooms obj :=
      (rooms_addRoom t obj msg.room (by rw [hs.objs]; exact ho) obj msg.room).mpr (Or.inr ⟨rfl, rfl⟩)
    simpa [hin] using (ha.append ha').append (Goes.ret1 (.join obj msg) (.room obj msg.room))

theorem finish_leave_veto {s : St} {obj : Nat} {msg m : Message} {e : GoErr}
    (hv : verdict cfg s obj msg = some e)
    (h : (finish cfg s (.leave obj msg) m none).closed = false) :
    ∃ l, Same s l (finish cfg s (.leave obj msg) m none) ∧
      Goes cfg l ([.call ⟨obj, msg, linked s obj, msg.room ∈ s.rooms obj⟩] ++ [.ret (.leave obj msg) (.err e)]) := by
  have hfs := fire_snd (cfg := cfg) s obj msg
  rw [hv] at hfs
  simp only [finish] at h ⊢
  split at h
  · rename_i t e' he
    rw [he] at hfs
    cases hfs
    have hfe := fire_any (cfg := cfg) (s := s) (obj := obj) (msg := msg) (by rw [he]; exact h)
    rw [he] at hfe
    obtain ⟨l, hs, ha⟩ := hfe
    exact ⟨_, hs.trans (Same.emit _ _), ha.append (Goes.ret1 _ _)⟩
  · rename_i t he
    rw [he] at hfs
    cases hfs

theorem finish_leave_ok {s : St} {obj : Nat} {msg m : Message}
    (hv : verdict cfg s obj msg = none)
    (h : (finish cfg s (.leave obj msg) m none).closed = false) :
    ∃ l, Same (s.setRooms obj (delRoom msg.room)) l (finish cfg s (.leave obj msg) m none) ∧
      Goes cfg l ([.call ⟨obj, msg, linked s obj, msg.room ∈ s.rooms obj⟩,
          .call ⟨obj, { msg with event := OnRoomLeft }, linked s obj, false⟩] ++ [.ret (.leave obj msg) .ok]) := by
  have hfs := fire_snd (cfg := cfg) s obj msg
  rw [hv] at hfs
  simp only [finish] at h ⊢
  split at h
  · rename_i t e' he
    rw [he] at hfs
    cases hfs
  · rename_i t he
    have hc2 : (t.setRooms obj (delRoom msg.room)).closed = false :=
      closed_of_prims (s := t.setRooms obj (delRoom msg.room))
        (s' := (fire cfg (t.setRooms obj (delRoom msg.room)) obj { msg with event := OnRoomLeft }).1)
        (prims_fire (cfg := cfg) (t.setRooms obj (delRoom msg.room)) obj
        { msg with event := OnRoomLeft }) h
    have hfe := fire_any (cfg := cfg) (s := s) (obj := obj) (msg := msg) (by rw [he]; exact hc2)
    rw [he] at hfe
    obtain ⟨l, hs, ha⟩ := hfe
    dsimp only at hs
    obtain ⟨l', hs', ha'⟩ := fire_any (cfg := cfg)
      (s := t.setRooms obj (delRoom msg.room)) (obj := obj)
      (msg := { msg with event := OnRoomLeft }) h
    refine ⟨_, ((hs.setRooms obj (delRoom msg.room)).trans hs').trans (Same.emit _ _), ?_⟩
    rw [linked_setRooms, hs.linked, rooms_setRooms _ _ _ _ (by simp [delRoom])] at ha'
    simpa [delRoom] using (ha.append ha').append (Goes.ret1 (.leave obj msg) .ok)

theorem handleEvent_ok {s : St} {obj : Nat} {msg : Message}
    (hv : verdict cfg s obj { msg with isLocal := false } = none)
    (h : (handleEvent cfg s obj msg).closed = false) :
    ∃ l, Same s l (handleEvent cfg s obj msg) ∧
      Goes cfg l ([.call ⟨obj, { msg with isLocal := false }, linked s obj, msg.room ∈ s.rooms obj⟩]) := by
  have hfs := fire_snd (cfg := cfg) s obj { msg with isLocal := false }
  rw [hv] at hfs
  simp only [handleEvent] at h ⊢
  split at h
  · rename_i t e' he
    rw [he] at hfs
    cases hfs
  · rename_i t he
    have hfe := fire_any (cfg := cfg) (s := s) (obj := obj) (msg := { msg with isLocal := false })
      (by rw [he]; exact h)
    rw [he] at hfe
    exact hfe

theorem handleEvent_err {s : St} {obj : Nat} {msg : Message} {e : GoErr}
    (hv : verdict cfg s obj { msg with isLocal := false } = some e)
    (h : (handleEvent cfg s obj msg).closed = false) :
    (MayWrite cfg s msg → ∃ l, Same s l (handleEvent cfg s obj msg) ∧
      Goes cfg l ([.call ⟨obj, { msg with isLocal := false }, linked s obj, msg.room ∈ s.rooms obj⟩] ++ [.wire msg.setBinary (wireOf { msg with isLocal := false, err := some e })])) ∧
    (¬ MayWrite cfg s msg → ∃ l, Same s l (handleEvent cfg s obj msg) ∧
      Goes cfg l ([.call ⟨obj, { msg with isLocal := false }, linked s obj, msg.room ∈ s.rooms obj⟩])) := by
  have hfs := fire_snd (cfg := cfg) s obj { msg with isLocal := false }
  rw [hv] at hfs
  simp only [handleEvent] at h ⊢
  split at h
  · rename_i t e' he
    rw [he] at hfs
    cases hfs
    have hc := closed_of_prims (prims_write (cfg := cfg) t
      { msg with isLocal := false, err := some e }) h
    have hfe := fire_any (cfg := cfg) (s := s) (obj := obj) (msg := { msg with isLocal := false })
      (by rw [he]; exact hc)
    rw [he] at hfe
    obtain ⟨l, hs, ha⟩ := hfe
    dsimp only at hs
    have hm : MayWrite cfg t { msg with isLocal := false, err := some e } ↔ MayWrite cfg s msg := by
      unfold MayWrite IsSender
      simp only [hs.closed, hs.id, hs.namespace, hs.rooms]
    constructor
    · intro hx
      obtain ⟨ok, hs2⟩ := write_may (hm.mpr hx) h
      exact ⟨_, hs.trans hs2, ha.append (Goes.sent1 _ _ _)⟩
    · intro hx
      have hs2 := write_maynot (mt hm.mp hx)
      exact ⟨_, hs.trans hs2, ha.append Goes.nil⟩
  · rename_i t he
    rw [he] at hfs
    cases hfs

end Neffos.Turn
