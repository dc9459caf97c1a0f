import Verif.Proofs.ConnInv
/-!
Helper: the exact effects of the request handlers while the connection stays open.
-/
namespace Neffos
open Spec

variable {cfg : Cfg}

theorem Same.log {s s' : St} {l : List Obs} (h : Same s l s') : s'.log = s.log ++ l := by
  obtain ⟨r, rfl⟩ := h; rfl

theorem Same.closed {s s' : St} {l : List Obs} (h : Same s l s') : s'.closed = s.closed := by
  obtain ⟨r, rfl⟩ := h; rfl

theorem Same.connected {s s' : St} {l : List Obs} (h : Same s l s') :
    s'.connected = s.connected := by
  obtain ⟨r, rfl⟩ := h; rfl

theorem Same.objs {s s' : St} {l : List Obs} (h : Same s l s') : s'.objs = s.objs := by
  obtain ⟨r, rfl⟩ := h; rfl

theorem Same.id {s s' : St} {l : List Obs} (h : Same s l s') : s'.id = s.id := by
  obtain ⟨r, rfl⟩ := h; rfl

theorem Same.namespace {s s' : St} {l : List Obs} (h : Same s l s') (ns : Bytes) :
    s'.namespace ns = s.namespace ns := by
  obtain ⟨r, rfl⟩ := h; rfl

theorem Same.rooms {s s' : St} {l : List Obs} (h : Same s l s') (i : Nat) :
    s'.rooms i = s.rooms i := by
  obtain ⟨r, rfl⟩ := h; rfl

theorem Same.nsName {s s' : St} {l : List Obs} (h : Same s l s') (i : Nat) :
    s'.nsName i = s.nsName i := by
  obtain ⟨r, rfl⟩ := h; rfl

theorem Same.linked {s s' : St} {l : List Obs} (h : Same s l s') (obj : Nat) :
    linked s' obj = linked s obj := by
  obtain ⟨r, rfl⟩ := h; rfl

theorem linked_setRooms (s : St) (obj : Nat) (f : List Bytes → List Bytes) (i : Nat) :
    linked (s.setRooms obj f) i = linked s i := by
  unfold Neffos.Spec.linked
  rw [nsName_setRooms]
  rfl

theorem Same.setRooms {s s' : St} {l : List Obs} (h : Same s l s') (obj : Nat)
    (f : List Bytes → List Bytes) : Same (s.setRooms obj f) l (s'.setRooms obj f) := by
  obtain ⟨r, rfl⟩ := h; exact ⟨r, rfl⟩

theorem Same.setConnected {s s' : St} {l : List Obs} (h : Same s l s')
    (f : List (Bytes × Nat) → List (Bytes × Nat)) :
    Same { s with connected := f s.connected } l { s' with connected := f s'.connected } := by
  obtain ⟨r, rfl⟩ := h; exact ⟨r, rfl⟩

/-- the writes of a history and nothing else; then this write -/
theorem sentOf_one (binary : Bool) (b : Bytes) (ok : Bool) :
    sentOf [.sent binary b ok] = [(binary, b)] := rfl

theorem writeEmptyReply_open {s : St} {w : Bytes}
    (h : (writeEmptyReply cfg s w).closed = false) :
    ∃ ok, Same s [.sent false (genEmptyReplyToWait w) ok] (writeEmptyReply cfg s w) := by
  unfold writeEmptyReply at h ⊢
  rw [rawWrite_open h]
  exact ⟨_, s.ready, rfl⟩

theorem write_may {s : St} {msg : Message} (hm : MayWrite cfg s msg)
    (h : (write cfg s msg).1.closed = false) :
    ∃ ok, Same s [.sent msg.setBinary (wireOf msg) ok] (write cfg s msg).1 := by
  have e := write_open h
  unfold writeLog at e
  rw [if_pos hm] at e
  exact ⟨_, _, e⟩

theorem write_maynot {s : St} {msg : Message} (hm : ¬ MayWrite cfg s msg) :
    Same s [] (write cfg s msg).1 := by
  rw [write_eq, if_neg hm]
  split
  · exact Same.refl s
  · exact ⟨(s.markReady cfg).ready, by conv => lhs; rw [markReady_eq]
                                       simp⟩

/-- a callback, with the projections of what it adds to the history -/
theorem fire_eff {s : St} {obj : Nat} {msg : Message}
    (h : (fire cfg s obj msg).1.closed = false) :
    ∃ l, Same s l (fire cfg s obj msg).1 ∧
      firedOf l = [(obj, msg, verdict cfg s obj msg)] ∧ Adds cfg l [⟨obj, msg, linked s obj, msg.room ∈ s.rooms obj⟩] [] [] [] := by
  obtain ⟨l, hl, hq, hs⟩ := fire_open h
  obtain ⟨h1, h2, h3⟩ := hl.projections
  exact ⟨_, hs, by simp [firedOf, h1], by simp [callsOf, hl.calls, view_eq], ⟨[], _, rfl, by simpa [sentOf] using hq⟩,
    by simp [retOf, h2], by simp [otherOf, h3]⟩

/-- the same without saying what the callback returned -/
theorem fire_any {s : St} {obj : Nat} {msg : Message}
    (h : (fire cfg s obj msg).1.closed = false) :
    ∃ l, Same s l (fire cfg s obj msg).1 ∧ Adds cfg l [⟨obj, msg, linked s obj, msg.room ∈ s.rooms obj⟩] [] [] [] := by
  obtain ⟨l, h1, _, h3⟩ := fire_eff h
  exact ⟨l, h1, h3⟩

theorem Spec.Adds.nil : Adds cfg [] [] [] [] [] := ⟨rfl, ⟨[], [], rfl, by simp⟩, rfl, rfl⟩

/-- all that was written was written by callbacks -/
theorem Spec.Adds.wrote {l : List Obs} {cs : List Call} {rs : List (Cont × Result)} {os : List Obs}
    (h : Adds cfg l cs [] rs os) : ∀ x ∈ sentOf l, CbWrote cfg x := by
  obtain ⟨pre, post, e, hx⟩ := h.sent
  rw [e]
  simpa using hx

/-- callbacks that write nothing -/
theorem Spec.Adds.silent {l : List Obs} {cs : List Call} {ws : List (Bool × Bytes)}
    {rs : List (Cont × Result)} {os : List Obs} (h : Adds cfg l cs ws rs os) (hq : Silent cfg) :
    sentOf l = ws := by
  obtain ⟨pre, post, e, hx⟩ := h.sent
  have : ∀ x, ¬ CbWrote cfg x := by
    rintro x ⟨log, obj, hd, msg, m, h1, _⟩
    rw [hq] at h1; simp at h1
  have hp : pre ++ post = [] := List.eq_nil_iff_forall_not_mem.mpr (fun x h => this x (hx x h))
  simp at hp
  rw [e, hp.1, hp.2]; simp

theorem Spec.Adds.left {a b : List Obs} {cs ds : List Call} {ws : List (Bool × Bytes)}
    {rs qs : List (Cont × Result)} {os ps : List Obs} (ha : Adds cfg a cs ws rs os)
    (hb : Adds cfg b ds [] qs ps) : Adds cfg (a ++ b) (cs ++ ds) ws (rs ++ qs) (os ++ ps) := by
  obtain ⟨pre, post, e, hx⟩ := ha.sent
  refine ⟨by simp [ha.calls, hb.calls], ⟨pre, post ++ sentOf b, by simp [e], fun x h => ?_⟩,
    by simp [ha.ret, hb.ret],
    by simp [ha.other, hb.other]⟩
  rw [← List.append_assoc] at h
  rcases List.mem_append.mp h with h | h
  · exact hx x h
  · exact hb.wrote x h

theorem Spec.Adds.right {a b : List Obs} {cs ds : List Call} {ws : List (Bool × Bytes)}
    {rs qs : List (Cont × Result)} {os ps : List Obs} (ha : Adds cfg a cs [] rs os)
    (hb : Adds cfg b ds ws qs ps) : Adds cfg (a ++ b) (cs ++ ds) ws (rs ++ qs) (os ++ ps) := by
  obtain ⟨pre, post, e, hx⟩ := hb.sent
  refine ⟨by simp [ha.calls, hb.calls], ⟨sentOf a ++ pre, post, by simp [e], fun x h => ?_⟩,
    by simp [ha.ret, hb.ret],
    by simp [ha.other, hb.other]⟩
  rw [List.append_assoc] at h
  rcases List.mem_append.mp h with h | h
  · exact ha.wrote x h
  · exact hx x h

theorem Spec.Adds.sent1 (binary : Bool) (b : Bytes) (ok : Bool) :
    Adds cfg [.sent binary b ok] [] [(binary, b)] [] [] :=
  ⟨rfl, ⟨[], [], rfl, by simp⟩, rfl, rfl⟩

theorem Spec.Adds.ret1 (k : Cont) (r : Result) : Adds cfg [.ret k r] [] [] [(k, r)] [] :=
  ⟨rfl, ⟨[], [], rfl, by simp⟩, rfl, rfl⟩

theorem Spec.Incoming.noExplicit {s : St} {typ : MsgType} {b : Bytes} {msg : Message}
    (h : Incoming cfg s typ b msg) (hw : msg.wait ≠ []) : msg.fromExplicit = [] := by
  have hd := h.decodes
  rw [← hd] at hw ⊢
  unfold deserializeMessage at hw ⊢
  dsimp only at hw ⊢
  split
  · rename_i he
    rw [if_pos he] at hw
    simp at hw
  · rfl

theorem mayWrite_reply {s : St} {msg : Message} {obj : Nat} (hc : s.closed = false)
    (hf : msg.fromExplicit = []) (hn : s.namespace msg.ns = some obj)
    (hr : msg.room = [] ∨ msg.event = OnRoomJoin ∨ msg.event = OnRoomLeft ∨ msg.room ∈ s.rooms obj) :
    MayWrite cfg s msg :=
  ⟨hc, fun h => h.1 hf, Or.inr (Or.inr ⟨obj, hn, hr⟩)⟩

theorem Spec.Wanted.not_skip {msg : Message} (hw : Wanted msg) :
    ¬ (msg.wait = [] ∨ msg.isNoOp = true) := by
  rintro (h | h)
  · exact hw.1 h
  · rw [hw.2] at h; simp at h

/-! ### Joining -/

theorem replyRoomJoin_joined {s : St} {obj : Nat} {msg : Message} (hw : Wanted msg)
    (hr : msg.room ∈ s.rooms obj) (h : (replyRoomJoin cfg s obj msg).closed = false) :
    ∃ l, Same s l (replyRoomJoin cfg s obj msg) ∧
      Adds cfg l [] [(false, genEmptyReplyToWait msg.wait)] [] [] := by
  unfold replyRoomJoin at h ⊢
  rw [if_neg hw.not_skip, if_pos hr] at h ⊢
  obtain ⟨ok, hs⟩ := writeEmptyReply_open h
  exact ⟨_, hs, Adds.sent1 _ _ _⟩

theorem replyRoomJoin_refused {s : St} {obj : Nat} {msg : Message} {e : GoErr} (hw : Wanted msg)
    (hr : msg.room ∉ s.rooms obj) (hv : verdict cfg s obj msg = some e)
    (hf : msg.fromExplicit = []) (hn : s.namespace msg.ns = some obj)
    (hev : msg.event = OnRoomJoin)
    (h : (replyRoomJoin cfg s obj msg).closed = false) :
    ∃ l, Same s l (replyRoomJoin cfg s obj msg) ∧
      Adds cfg l [⟨obj, msg, linked s obj, false⟩] [(msg.setBinary, wireOf { msg with err := some e })] [] [] := by
  unfold replyRoomJoin at h ⊢
  rw [if_neg hw.not_skip, if_neg hr] at h ⊢
  have hfs := fire_snd (cfg := cfg) s obj msg
  rw [hv] at hfs
  split at h
  · rename_i t e' he
    rw [he] at hfs
    cases hfs
    have hc := closed_of_prims (prims_write (cfg := cfg) t { msg with err := some e }) h
    have hfe := fire_eff (cfg := cfg) (s := s) (obj := obj) (msg := msg) (by rw [he]; exact hc)
    rw [he, hv] at hfe
    obtain ⟨l, hs, _, ha⟩ := hfe
    dsimp only at hs
    have hm : MayWrite cfg t { msg with err := some e } :=
      mayWrite_reply (obj := obj) hc hf (by rw [hs.namespace]; exact hn) (Or.inr (Or.inl hev))
    obtain ⟨ok, hs2⟩ := write_may hm h
    exact ⟨_, hs.trans hs2, by simpa [hr] using ha.right (Adds.sent1 _ _ _)⟩
  · rename_i t he
    rw [he] at hfs
    cases hfs

theorem rooms_addRoom (s : St) (obj : Nat) (room : Bytes) (ho : obj < s.objs.length) (i : Nat)
    (r : Bytes) : r ∈ (s.setRooms obj (addRoom room)).rooms i ↔
      r ∈ s.rooms i ∨ (i = obj ∧ r = room) := by
  unfold St.setRooms St.rooms
  simp only [List.getElem?_modify]
  by_cases h : obj = i
  · subst h
    have he : s.objs[obj]? = some s.objs[obj] := List.getElem?_eq_getElem ho
    simp only [he, if_true, Option.map_eq_map, Option.map_some, addRoom]
    by_cases hm : room ∈ s.objs[obj].rooms
    · rw [if_pos hm]
      constructor
      · exact fun h => Or.inl h
      · rintro (h | ⟨_, rfl⟩)
        · exact h
        · exact hm
    · rw [if_neg hm]
      simp only [List.mem_cons]
      constructor
      · rintro (h | h)
        · exact Or.inr ⟨trivial, h⟩
        · exact Or.inl h
      · rintro (h | ⟨_, h⟩)
        · exact Or.inr h
        · exact Or.inl h
  · have h' : ¬ i = obj := fun e => h e.symm
    cases s.objs[i]? <;> simp [h, h']

theorem replyRoomJoin_accepted {s : St} {obj : Nat} {msg : Message} (hw : Wanted msg)
    (hr : msg.room ∉ s.rooms obj) (hv : verdict cfg s obj msg = none) (ho : obj < s.objs.length)
    (h : (replyRoomJoin cfg s obj msg).closed = false) :
    ∃ l, Same (s.setRooms obj (addRoom msg.room)) l (replyRoomJoin cfg s obj msg) ∧
      Adds cfg l [⟨obj, msg, linked s obj, false⟩,
          ⟨obj, { msg with event := OnRoomJoined }, linked s obj, true⟩]
        [(false, genEmptyReplyToWait msg.wait)] [] [] := by
  unfold replyRoomJoin at h ⊢
  rw [if_neg hw.not_skip, if_neg hr] at h ⊢
  have hfs := fire_snd (cfg := cfg) s obj msg
  rw [hv] at hfs
  split at h
  · rename_i t e' he
    rw [he] at hfs
    cases hfs
  · rename_i t he
    dsimp only at h ⊢
    have hc3 := closed_of_prims (prims_writeEmptyReply (cfg := cfg) _ msg.wait) h
    have hc2 := closed_of_prims (prims_fire (cfg := cfg) _ _ _) hc3
    have hfe := fire_eff (cfg := cfg) (s := s) (obj := obj) (msg := msg) (by rw [he]; exact hc2)
    rw [he, hv] at hfe
    obtain ⟨l, hs, _, ha⟩ := hfe
    dsimp only at hs
    obtain ⟨l', hs', ha'⟩ := fire_any (cfg := cfg) hc3
    obtain ⟨ok, hs2⟩ := writeEmptyReply_open h
    refine ⟨_, ((hs.setRooms obj (addRoom msg.room)).trans hs').trans hs2, ?_⟩
    rw [linked_setRooms, hs.linked] at ha'
    have hin : msg.room ∈ (t.setRooms obj (addRoom msg.room)).rooms obj :=
      (rooms_addRoom t obj msg.room (by rw [hs.objs]; exact ho) obj msg.room).mpr (Or.inr ⟨rfl, rfl⟩)
    simpa [hr, hin] using (ha.right ha').right (Adds.sent1 _ _ _)

/-! ### Leaving -/

theorem replyRoomLeave_notJoined {s : St} {obj : Nat} {msg : Message} (hw : Wanted msg)
    (hr : msg.room ∉ s.rooms obj) (h : (replyRoomLeave cfg s obj msg).closed = false) :
    ∃ l, Same s l (replyRoomLeave cfg s obj msg) ∧
      Adds cfg l [] [(false, genEmptyReplyToWait msg.wait)] [] [] := by
  unfold replyRoomLeave at h ⊢
  rw [if_neg hw.not_skip, if_pos hr] at h ⊢
  obtain ⟨ok, hs⟩ := writeEmptyReply_open h
  exact ⟨_, hs, Adds.sent1 _ _ _⟩

theorem replyRoomLeave_client {s : St} {obj : Nat} {msg : Message} (hw : Wanted msg)
    (hr : msg.room ∈ s.rooms obj) (hcl : cfg.isClient = true)
    (h : (replyRoomLeave cfg s obj msg).closed = false) :
    ∃ l, Same (s.setRooms obj (delRoom msg.room)) l (replyRoomLeave cfg s obj msg) ∧
      Adds cfg l [⟨obj, msg, linked s obj, true⟩,
          ⟨obj, { msg with event := OnRoomLeft }, linked s obj, false⟩]
        [(false, genEmptyReplyToWait msg.wait)] [] [] := by
  unfold replyRoomLeave at h ⊢
  rw [if_neg hw.not_skip, if_neg (not_not_intro hr), if_pos hcl] at h ⊢
  dsimp only at h ⊢
  have hc3 := closed_of_prims (prims_fire (cfg := cfg) _ _ _) h
  have hc2 := closed_of_prims (prims_writeEmptyReply (cfg := cfg) _ _) hc3
  have hc1 : (fire cfg s obj msg).1.closed = false := hc2
  obtain ⟨l, hs, ha⟩ := fire_any (cfg := cfg) hc1
  obtain ⟨ok, hs2⟩ := writeEmptyReply_open hc3
  obtain ⟨l', hs', ha'⟩ := fire_any (cfg := cfg) h
  refine ⟨_, ((hs.setRooms obj (delRoom msg.room)).trans hs2).trans hs', ?_⟩
  rw [hs2.linked, linked_setRooms, hs.linked, hs2.rooms,
    rooms_setRooms _ _ _ _ (by simp [delRoom])] at ha'
  simpa [hr, delRoom] using (ha.right (Adds.sent1 _ _ _)).left ha'

theorem replyRoomLeave_refused {s : St} {obj : Nat} {msg : Message} {e : GoErr} (hw : Wanted msg)
    (hr : msg.room ∈ s.rooms obj) (hcl : cfg.isClient = false)
    (hv : verdict cfg s obj msg = some e)
    (hf : msg.fromExplicit = []) (hn : s.namespace msg.ns = some obj)
    (h : (replyRoomLeave cfg s obj msg).closed = false) :
    ∃ l, Same s l (replyRoomLeave cfg s obj msg) ∧
      Adds cfg l [⟨obj, msg, linked s obj, true⟩] [(msg.setBinary, wireOf { msg with err := some e })] [] [] := by
  unfold replyRoomLeave at h ⊢
  rw [if_neg hw.not_skip, if_neg (not_not_intro hr), if_neg (by simp [hcl])] at h ⊢
  have hfs := fire_snd (cfg := cfg) s obj msg
  rw [hv] at hfs
  split at h
  · rename_i t e' he
    rw [he] at hfs
    cases hfs
    have hc := closed_of_prims (prims_write (cfg := cfg) t { msg with err := some e }) h
    have hfe := fire_eff (cfg := cfg) (s := s) (obj := obj) (msg := msg) (by rw [he]; exact hc)
    rw [he, hv] at hfe
    obtain ⟨l, hs, _, ha⟩ := hfe
    dsimp only at hs
    have hm : MayWrite cfg t { msg with err := some e } :=
      mayWrite_reply (obj := obj) hc hf (by rw [hs.namespace]; exact hn)
        (Or.inr (Or.inr (Or.inr (by rw [hs.rooms]; exact hr))))
    obtain ⟨ok, hs2⟩ := write_may hm h
    exact ⟨_, hs.trans hs2, by simpa [hr] using ha.right (Adds.sent1 _ _ _)⟩
  · rename_i t he
    rw [he] at hfs
    cases hfs

theorem replyRoomLeave_accepted {s : St} {obj : Nat} {msg : Message} (hw : Wanted msg)
    (hr : msg.room ∈ s.rooms obj) (hcl : cfg.isClient = false)
    (hv : verdict cfg s obj msg = none)
    (h : (replyRoomLeave cfg s obj msg).closed = false) :
    ∃ l, Same (s.setRooms obj (delRoom msg.room)) l (replyRoomLeave cfg s obj msg) ∧
      Adds cfg l [⟨obj, msg, linked s obj, true⟩,
          ⟨obj, { msg with event := OnRoomLeft }, linked s obj, false⟩]
        [(false, genEmptyReplyToWait msg.wait)] [] [] := by
  unfold replyRoomLeave at h ⊢
  rw [if_neg hw.not_skip, if_neg (not_not_intro hr), if_neg (by simp [hcl])] at h ⊢
  have hfs := fire_snd (cfg := cfg) s obj msg
  rw [hv] at hfs
  split at h
  · rename_i t e' he
    rw [he] at hfs
    cases hfs
  · rename_i t he
    dsimp only at h ⊢
    have hc3 := closed_of_prims (prims_writeEmptyReply (cfg := cfg) _ msg.wait) h
    have hc2 := closed_of_prims (prims_fire (cfg := cfg) _ _ _) hc3
    have hfe := fire_eff (cfg := cfg) (s := s) (obj := obj) (msg := msg) (by rw [he]; exact hc2)
    rw [he, hv] at hfe
    obtain ⟨l, hs, _, ha⟩ := hfe
    dsimp only at hs
    obtain ⟨l', hs', ha'⟩ := fire_any (cfg := cfg) hc3
    obtain ⟨ok, hs2⟩ := writeEmptyReply_open h
    refine ⟨_, ((hs.setRooms obj (delRoom msg.room)).trans hs').trans hs2, ?_⟩
    rw [linked_setRooms, hs.linked, rooms_setRooms _ _ _ _ (by simp [delRoom])] at ha'
    simpa [hr, delRoom] using (ha.right ha').right (Adds.sent1 _ _ _)

/-! ### Forced leave -/

/-- equal up to readiness, history and the rooms of NSConns -/
def SameR (s : St) (l : List Obs) (s' : St) : Prop :=
  (∃ r o, s' = { s with ready := r, log := s.log ++ l, objs := o }) ∧
  ∀ i, s'.nsName i = s.nsName i

theorem SameR.trans {a b c : St} {l m : List Obs} (h1 : SameR a l b) (h2 : SameR b m c) :
    SameR a (l ++ m) c := by
  obtain ⟨⟨r, o, rfl⟩, n1⟩ := h1
  obtain ⟨⟨q, p, rfl⟩, n2⟩ := h2
  exact ⟨⟨q, p, by simp⟩, fun i => (n2 i).trans (n1 i)⟩

theorem Same.toR {s s' : St} {l : List Obs} (h : Same s l s') : SameR s l s' := by
  obtain ⟨r, rfl⟩ := h
  exact ⟨⟨r, s.objs, rfl⟩, fun _ => rfl⟩

theorem SameR.setRooms (s : St) (obj : Nat) (f : List Bytes → List Bytes) :
    SameR s [] (s.setRooms obj f) :=
  ⟨⟨s.ready, _, by simp [St.setRooms]; rfl⟩, fun i => nsName_setRooms s obj f i⟩

theorem SameR.connected {s s' : St} {l : List Obs} (h : SameR s l s') :
    s'.connected = s.connected := by
  obtain ⟨⟨r, o, rfl⟩, _⟩ := h; rfl

theorem SameR.log {s s' : St} {l : List Obs} (h : SameR s l s') :
    s'.log = s.log ++ l := by
  obtain ⟨⟨r, o, rfl⟩, _⟩ := h; rfl

theorem SameR.closed {s s' : St} {l : List Obs} (h : SameR s l s') :
    s'.closed = s.closed := by
  obtain ⟨⟨r, o, rfl⟩, _⟩ := h; rfl

theorem SameR.linked {s s' : St} {l : List Obs} (h : SameR s l s') (obj : Nat) :
    linked s' obj = linked s obj := by
  unfold Neffos.Spec.linked St.namespace
  rw [h.2, h.connected]

theorem fireLocked_any {s : St} {obj : Nat} {msg : Message}
    (h : (fireLocked cfg s obj msg).closed = false) (hh : (fireLocked cfg s obj msg).hung = false) :
    ∃ l, Same s l (fireLocked cfg s obj msg) ∧ Adds cfg l [⟨obj, msg, linked s obj, msg.room ∈ s.rooms obj⟩] [] [] [] := by
  obtain ⟨l, hl, hq, hs⟩ := fireLocked_open h hh
  obtain ⟨h1, h2, h3⟩ := hl.projections
  exact ⟨_, hs, by simp [callsOf, hl.calls, view_eq], ⟨[], _, rfl, by simpa [sentOf] using hq⟩,
    by simp [retOf, h2], by simp [otherOf, h3]⟩

theorem leaveOne_open {obj : Nat} {il : Bool} {s : St} {room : Bytes}
    (h : (leaveOne cfg obj il s room).closed = false)
    (hh : (leaveOne cfg obj il s room).hung = false) :
    ∃ l, SameR s l (leaveOne cfg obj il s room) ∧
      Adds cfg l [⟨obj, forcedLeaveMsg (s.nsName obj) room OnRoomLeave il, linked s obj,
          room ∈ s.rooms obj⟩,
        ⟨obj, forcedLeaveMsg (s.nsName obj) room OnRoomLeft il, linked s obj, false⟩] [] [] [] ∧
      ∀ i, (leaveOne cfg obj il s room).rooms i =
        if i = obj then delRoom room (s.rooms i) else s.rooms i := by
  unfold leaveOne at h hh ⊢
  dsimp only at h hh ⊢
  have hp := prims_fireLocked (cfg := cfg) ((fireLocked cfg s obj
    (forcedLeaveMsg (s.nsName obj) room OnRoomLeave il)).setRooms obj (delRoom room)) obj
    (forcedLeaveMsg (s.nsName obj) room OnRoomLeft il)
  have hc1 := closed_of_prims hp h
  have hh1 := hung_of_prims hp hh
  obtain ⟨l, hs, ha⟩ := fireLocked_any (cfg := cfg) (s := s) (obj := obj)
    (msg := forcedLeaveMsg (s.nsName obj) room OnRoomLeave il) hc1 hh1
  obtain ⟨l', hs', ha'⟩ := fireLocked_any h hh
  refine ⟨_, (hs.toR.trans (SameR.setRooms _ obj (delRoom room))).trans hs'.toR, ?_, ?_⟩
  · rw [linked_setRooms, hs.linked, rooms_setRooms _ _ _ _ (by simp [delRoom])] at ha'
    have hf : decide ((forcedLeaveMsg (s.nsName obj) room OnRoomLeft il).room ∈
        if obj = obj then delRoom room ((fireLocked cfg s obj
          (forcedLeaveMsg (s.nsName obj) room OnRoomLeave il)).rooms obj) else
          (fireLocked cfg s obj
          (forcedLeaveMsg (s.nsName obj) room OnRoomLeave il)).rooms obj) = false := by
      simp [forcedLeaveMsg, delRoom]
    rw [hf] at ha'
    rw [List.append_nil]
    exact ha.right ha'
  · intro i
    rw [hs'.rooms, rooms_setRooms _ _ _ _ (by simp [delRoom]), hs.rooms]

theorem leaveFold_open {obj : Nat} {il : Bool} {rs : List Bytes} {s : St}
    (hnd : rs.Nodup) (hsub : ∀ r ∈ rs, r ∈ s.rooms obj)
    (h : (rs.foldl (leaveOne cfg obj il) s).closed = false)
    (hh : (rs.foldl (leaveOne cfg obj il) s).hung = false) :
    ∃ l, SameR s l (rs.foldl (leaveOne cfg obj il) s) ∧
      Adds cfg l (rs.flatMap (roomLeft obj (s.nsName obj) il (linked s obj))) [] [] [] ∧
      ∀ i, (rs.foldl (leaveOne cfg obj il) s).rooms i =
        if i = obj then (s.rooms i).filter (fun r => r ∉ rs) else s.rooms i := by
  induction rs generalizing s with
  | nil =>
    refine ⟨[], (Same.refl s).toR, Adds.nil, ?_⟩
    intro i
    have : (s.rooms i).filter (fun _ => true) = s.rooms i := List.filter_eq_self.mpr (fun _ _ => rfl)
    simp [this]
  | cons r rs ih =>
    simp only [List.foldl_cons] at h hh ⊢
    have hp := prims_foldl (cfg := cfg) (leaveOne cfg obj il) rs
      (fun s x => prims_leaveOne obj il s x) (leaveOne cfg obj il s r)
    obtain ⟨l, hs, h1, h4⟩ := leaveOne_open (closed_of_prims hp h) (hung_of_prims hp hh)
    obtain ⟨n1, n2⟩ := List.nodup_cons.mp hnd
    obtain ⟨l', hs', h1', h4'⟩ := ih n2 (by
      intro x hx
      rw [h4, if_pos rfl]
      simp only [delRoom, List.mem_filter, decide_eq_true_eq]
      exact ⟨hsub x (List.mem_cons_of_mem _ hx), by rintro rfl; exact n1 hx⟩) h hh
    refine ⟨_, hs.trans hs', ?_, ?_⟩
    · rw [hs.2, hs.linked] at h1'
      have := h1.right h1'
      simpa [roomLeft, forcedLeaveMsg, hsub r List.mem_cons_self] using this
    · intro i
      rw [h4', h4]
      by_cases hi : i = obj
      · simp only [hi, if_true, delRoom, List.filter_filter]
        apply List.filter_congr
        intro x _
        by_cases e1 : x = r <;> by_cases e2 : x ∈ rs <;> simp [e1, e2]
      · simp [hi]

theorem forceLeaveAll_open {s : St} {obj : Nat} {il : Bool} (hnd : (s.rooms obj).Nodup)
    (h : (forceLeaveAll cfg s obj il).closed = false)
    (hh : (forceLeaveAll cfg s obj il).hung = false) :
    ∃ (l : List Obs) (rs : List Bytes), rs.Perm (s.rooms obj) ∧ SameR s l (forceLeaveAll cfg s obj il) ∧
      Adds cfg l (rs.flatMap (roomLeft obj (s.nsName obj) il (linked s obj))) [] [] [] ∧
      ∀ i, (forceLeaveAll cfg s obj il).rooms i = if i = obj then [] else s.rooms i := by
  have hp := cfg.order_perm s.log (s.rooms obj)
  unfold forceLeaveAll at h hh ⊢
  obtain ⟨l, hs, h1, h4⟩ := leaveFold_open (hp.nodup_iff.mpr hnd) (fun r h => hp.mem_iff.mp h) h hh
  refine ⟨l, _, hp, hs, h1, ?_⟩
  intro i
  rw [h4]
  by_cases hi : i = obj
  · subst hi
    simp only [if_true, List.filter_eq_nil_iff]
    intro x hx
    simp [hp.mem_iff, hx]
  · simp [hi]

/-! ### Disconnecting -/

/-- the state after a change of readiness, history, NSConns and connected namespaces -/
def Fr (s : St) (l : List Obs) (o : List NSObj) (c : List (Bytes × Nat)) (s' : St) : Prop :=
  ∃ r, s' = { s with ready := r, log := s.log ++ l, objs := o, connected := c }

theorem Fr.same {s t u : St} {l m : List Obs} {o : List NSObj} {c : List (Bytes × Nat)}
    (h : Fr s l o c t) (h2 : Same t m u) : Fr s (l ++ m) o c u := by
  obtain ⟨r, rfl⟩ := h
  obtain ⟨q, rfl⟩ := h2
  exact ⟨q, by simp⟩

theorem Same.fr {s t : St} {l : List Obs} (h : Same s l t) : Fr s l s.objs s.connected t := by
  obtain ⟨r, rfl⟩ := h
  exact ⟨r, rfl⟩

theorem Fr.rooms_eq {s t : St} {l : List Obs} {o : List NSObj} {c : List (Bytes × Nat)}
    (h : Fr s l o c t) : t.objs = o ∧ t.connected = c ∧ t.log = s.log ++ l := by
  obtain ⟨r, rfl⟩ := h; exact ⟨rfl, rfl, rfl⟩

theorem Same.then_fr {s t u : St} {l m : List Obs} {o : List NSObj} {c : List (Bytes × Nat)}
    (h : Same s l t) (h2 : Fr t m o c u) : Fr s (l ++ m) o c u := by
  obtain ⟨r, rfl⟩ := h
  obtain ⟨q, rfl⟩ := h2
  exact ⟨q, by simp⟩

theorem discNotes_proj (ns : Bytes) : firedOf (discNotes cfg ns) = [] ∧
    sentOf (discNotes cfg ns) = [] ∧ retOf (discNotes cfg ns) = [] ∧
    otherOf (discNotes cfg ns) = discNotes cfg ns := by
  unfold discNotes
  split <;> exact ⟨rfl, rfl, rfl, rfl⟩

theorem discNotes_adds (ns : Bytes) : Adds cfg (discNotes cfg ns) [] [] [] (discNotes cfg ns) := by
  obtain ⟨h1, h2, h3, h4⟩ := discNotes_proj (cfg := cfg) ns
  refine ⟨?_, ⟨[], [], by simp [h2]⟩, h3, h4⟩
  unfold discNotes
  split <;> rfl

theorem notifyDisconnect_same (s : St) (ns : Bytes) :
    Same s (discNotes cfg ns) (notifyDisconnect cfg s ns) := by
  unfold notifyDisconnect discNotes
  split
  · exact Same.emit s _
  · exact Same.refl s

theorem replyDisconnect_notConnected {s : St} {msg : Message} (hw : Wanted msg)
    (hn : s.namespace msg.ns = none) (h : (replyDisconnect cfg s msg).closed = false) :
    ∃ l, Same s l (replyDisconnect cfg s msg) ∧
      Adds cfg l [] [(false, genEmptyReplyToWait msg.wait)] [] [] := by
  unfold replyDisconnect at h ⊢
  rw [if_neg hw.not_skip, hn] at h ⊢
  dsimp only at h ⊢
  obtain ⟨ok, hs⟩ := writeEmptyReply_open h
  exact ⟨_, hs, Adds.sent1 _ _ _⟩

theorem replyDisconnect_refused {s : St} {obj : Nat} {msg : Message} {e : GoErr} (hw : Wanted msg)
    (hn : s.namespace msg.ns = some obj) (hcl : cfg.isClient = false)
    (hv : verdict cfg s obj msg = some e) (hf : msg.fromExplicit = [])
    (hev : msg.event = OnNamespaceDisconnect)
    (h : (replyDisconnect cfg s msg).closed = false) :
    ∃ l, Same s l (replyDisconnect cfg s msg) ∧
      Adds cfg l [⟨obj, msg, linked s obj, msg.room ∈ s.rooms obj⟩] [(msg.setBinary, wireOf { msg with err := some e })] [] [] := by
  · have hfs := fire_snd (cfg := cfg) s obj msg
    rw [hv] at hfs
    unfold replyDisconnect at h ⊢
    rw [if_neg hw.not_skip, hn] at h ⊢
    dsimp only at h ⊢
    rw [if_neg (by simp [hcl])] at h ⊢
    split at h
    · rename_i t e' he
      rw [he] at hfs
      cases hfs
      have hc := closed_of_prims (prims_write (cfg := cfg) t { msg with err := some e }) h
      have hfe := fire_eff (cfg := cfg) (s := s) (obj := obj) (msg := msg) (by rw [he]; exact hc)
      rw [he, hv] at hfe
      obtain ⟨l, hs, _, ha⟩ := hfe
      dsimp only at hs
      have hm : MayWrite cfg t { msg with err := some e } :=
        ⟨hc, fun h => h.1 hf, Or.inr (Or.inl hev)⟩
      obtain ⟨ok, hs2⟩ := write_may hm h
      exact ⟨_, hs.trans hs2, ha.right (Adds.sent1 _ _ _)⟩
    · rename_i t he
      rw [he] at hfs
      cases hfs

/-- forced leave of all rooms and removal of the namespace -/
theorem forceLeave_remove {s : St} {obj : Nat} {il : Bool} {ns : Bytes}
    (hnd : (s.rooms obj).Nodup) (h : (forceLeaveAll cfg s obj il).closed = false)
    (hh : (forceLeaveAll cfg s obj il).hung = false) :
    ∃ (l : List Obs) (rs : List Bytes) (o : List NSObj), rs.Perm (s.rooms obj) ∧
      Fr s l o (mapDel s.connected ns) { forceLeaveAll cfg s obj il with
        connected := mapDel (forceLeaveAll cfg s obj il).connected ns } ∧
      Adds cfg l (rs.flatMap (roomLeft obj (s.nsName obj) il (linked s obj))) [] [] [] ∧
      (∀ i, ({ s with objs := o } : St).rooms i = if i = obj then [] else s.rooms i) ∧
      (∀ i, ({ s with objs := o } : St).nsName i = s.nsName i) := by
  obtain ⟨l, rs, h1, h2, h3, h6⟩ := forceLeaveAll_open hnd h hh
  refine ⟨l, rs, (forceLeaveAll cfg s obj il).objs, h1, ?_, h3, ?_, ?_⟩
  · rw [h2.connected]
    obtain ⟨⟨r, o, e⟩, _⟩ := h2
    exact ⟨r, by rw [e]⟩
  · exact fun i => h6 i
  · exact fun i => h2.2 i

theorem replyDisconnect_client {s : St} {obj : Nat} {msg : Message} (hw : Wanted msg)
    (hn : s.namespace msg.ns = some obj) (hcl : cfg.isClient = true)
    (hnm : s.nsName obj = msg.ns) (hnd : (s.rooms obj).Nodup)
    (h : (replyDisconnect cfg s msg).closed = false)
    (hh : (replyDisconnect cfg s msg).hung = false) :
    ∃ (l : List Obs) (rs : List Bytes) (o : List NSObj), rs.Perm (s.rooms obj) ∧
      Fr s l o (mapDel s.connected msg.ns) (replyDisconnect cfg s msg) ∧
      Adds cfg l (rs.flatMap (roomLeft obj msg.ns false true) ++ [⟨obj, msg, false, false⟩])
        [(false, genEmptyReplyToWait msg.wait)] [] [] ∧
      (∀ i, ({ s with objs := o } : St).rooms i = if i = obj then [] else s.rooms i) := by
  unfold replyDisconnect at h hh ⊢
  rw [if_neg hw.not_skip, hn] at h hh ⊢
  dsimp only at h hh ⊢
  rw [if_pos hcl] at h hh ⊢
  have hp1 := prims_fire (cfg := cfg) (writeEmptyReply cfg { forceLeaveAll cfg s obj false with
        connected := mapDel (forceLeaveAll cfg s obj false).connected msg.ns } msg.wait) obj msg
  have hc1 := closed_of_prims hp1 h
  have hh1 := hung_of_prims hp1 hh
  have hp2 := prims_writeEmptyReply (cfg := cfg) { forceLeaveAll cfg s obj false with
        connected := mapDel (forceLeaveAll cfg s obj false).connected msg.ns } msg.wait
  have hc2 := closed_of_prims hp2 hc1
  have hh2 := hung_of_prims hp2 hh1
  obtain ⟨l, rs, o, h1, h2, h3, h6, h7⟩ :=
    forceLeave_remove (cfg := cfg) (ns := msg.ns) (s := s) (obj := obj) (il := false) hnd hc2 hh2
  obtain ⟨ok, hs2⟩ := writeEmptyReply_open hc1
  obtain ⟨l', hs', ha'⟩ := fire_any (cfg := cfg) h
  refine ⟨_, rs, o, h1, (h2.same hs2).same hs', ?_, h6⟩
  have hlk : linked s obj = true := by unfold linked; rw [hnm, hn]; simp
  obtain ⟨e1, e2, _⟩ := h2.rooms_eq
  rw [hs2.linked, hs2.rooms] at ha'
  have hl2 : linked { forceLeaveAll cfg s obj false with
      connected := mapDel (forceLeaveAll cfg s obj false).connected msg.ns } obj = false := by
    unfold linked St.namespace
    have hnn : ({ forceLeaveAll cfg s obj false with
      connected := mapDel (forceLeaveAll cfg s obj false).connected msg.ns } : St).nsName obj =
        msg.ns := by
      rw [← hnm, ← h7 obj]
      unfold St.nsName
      rw [e1]
    rw [hnn, mapGet_mapDel]
    simp
  have hr2 : ({ forceLeaveAll cfg s obj false with
      connected := mapDel (forceLeaveAll cfg s obj false).connected msg.ns } : St).rooms obj =
        [] := by
    have := h6 obj
    rw [if_pos rfl] at this
    rw [← this]
    unfold St.rooms
    rw [e1]
  rw [hl2, hr2] at ha'
  rw [hlk, hnm] at h3
  simpa using (h3.right (Adds.sent1 false (genEmptyReplyToWait msg.wait) ok)).left ha'

theorem replyDisconnect_accepted {s : St} {obj : Nat} {msg : Message} (hw : Wanted msg)
    (hn : s.namespace msg.ns = some obj) (hcl : cfg.isClient = false)
    (hv : verdict cfg s obj msg = none)
    (hnm : s.nsName obj = msg.ns) (hnd : (s.rooms obj).Nodup)
    (h : (replyDisconnect cfg s msg).closed = false)
    (hh : (replyDisconnect cfg s msg).hung = false) :
    ∃ (l : List Obs) (rs : List Bytes) (o : List NSObj), rs.Perm (s.rooms obj) ∧
      Fr s l o (mapDel s.connected msg.ns) (replyDisconnect cfg s msg) ∧
      Adds cfg l (⟨obj, msg, true, msg.room ∈ s.rooms obj⟩ ::
          rs.flatMap (roomLeft obj msg.ns false true))
        [(false, genEmptyReplyToWait msg.wait)] [] (discNotes cfg msg.ns) ∧
      (∀ i, ({ s with objs := o } : St).rooms i = if i = obj then [] else s.rooms i) := by
  have hfs := fire_snd (cfg := cfg) s obj msg
  rw [hv] at hfs
  unfold replyDisconnect at h hh ⊢
  rw [if_neg hw.not_skip, hn] at h hh ⊢
  dsimp only at h hh ⊢
  rw [if_neg (by simp [hcl])] at h hh ⊢
  split at h
  · rename_i t e' he
    rw [he] at hfs
    cases hfs
  · rename_i t he
    simp only [he] at hh ⊢
    have hp1 := prims_writeEmptyReply (cfg := cfg) (notifyDisconnect cfg { forceLeaveAll cfg t obj false with
        connected := mapDel (forceLeaveAll cfg t obj false).connected msg.ns } msg.ns) msg.wait
    have hc1 := closed_of_prims hp1 h
    have hh1 := hung_of_prims hp1 hh
    have hp2 := prims_notifyDisconnect (cfg := cfg) { forceLeaveAll cfg t obj false with
        connected := mapDel (forceLeaveAll cfg t obj false).connected msg.ns } msg.ns
    have hc2 := closed_of_prims hp2 hc1
    have hh2 := hung_of_prims hp2 hh1
    have hp3 := prims_forceLeaveAll (cfg := cfg) t obj false
    have hc3 := closed_of_prims hp3 hc2
    have hfe := fire_eff (cfg := cfg) (s := s) (obj := obj) (msg := msg) (by rw [he]; exact hc3)
    rw [he, hv] at hfe
    obtain ⟨l, hs, _, ha⟩ := hfe
    dsimp only at hs
    obtain ⟨l', rs, o, h1, h2, h3, h6, _⟩ :=
      forceLeave_remove (cfg := cfg) (ns := msg.ns) (s := t) (obj := obj) (il := false)
        (by rw [hs.rooms]; exact hnd) hc2 hh2
    obtain ⟨ok, hs2⟩ := writeEmptyReply_open h
    have hnd := notifyDisconnect_same (cfg := cfg) { forceLeaveAll cfg t obj false with
        connected := mapDel (forceLeaveAll cfg t obj false).connected msg.ns } msg.ns
    have hfr := (h2.same hnd).same hs2
    rw [hs.rooms] at h1
    have hlk : linked s obj = true := by unfold linked; rw [hnm, hn]; simp
    rw [hs.nsName, hs.linked, hlk, hnm] at h3
    rw [hlk] at ha
    have hc0 : t.connected = s.connected := hs.connected
    rw [hc0] at hfr
    refine ⟨_, rs, o, h1, hs.then_fr hfr, ?_, ?_⟩
    · simpa using ha.right ((h3.right (discNotes_adds (cfg := cfg) msg.ns)).right
        (Adds.sent1 false (genEmptyReplyToWait msg.wait) ok))
    · intro i
      have := h6 i
      rw [hs.rooms] at this
      exact this

/-! ### Connecting -/

theorem connNotes_proj (ns : Bytes) : firedOf (connNotes cfg ns) = [] ∧
    sentOf (connNotes cfg ns) = [] ∧ retOf (connNotes cfg ns) = [] ∧
    otherOf (connNotes cfg ns) = connNotes cfg ns := by
  unfold connNotes
  split <;> exact ⟨rfl, rfl, rfl, rfl⟩

theorem notifyConnected_open {s : St} {obj : Nat} {msg : Message}
    (h : (notifyConnected cfg s obj msg).closed = false) :
    ∃ l, Same s l (notifyConnected cfg s obj msg) ∧
      Adds cfg l [⟨obj, { msg with event := OnNamespaceConnected }, linked s obj,
          msg.room ∈ s.rooms obj⟩] [] []
        (connNotes cfg (s.nsName obj)) := by
  unfold notifyConnected at h ⊢
  dsimp only at h ⊢
  have hc : (fire cfg s obj { msg with event := OnNamespaceConnected }).1.closed = false := by
    split at h <;> exact h
  obtain ⟨l, hs, ha⟩ := fire_any hc
  have hn := hs.nsName obj
  unfold connNotes
  split
  · refine ⟨l ++ [.subscribe (s.nsName obj)], ?_, ?_⟩
    · rw [hn]
      exact hs.trans (Same.emit _ _)
    · exact ha.right (b := [.subscribe (s.nsName obj)]) ⟨rfl, ⟨[], [], rfl, by simp⟩, rfl, rfl⟩
  · exact ⟨l, hs, ha⟩

theorem replyConnect_connected {s : St} {msg : Message} {obj : Nat} (hw : Wanted msg)
    (hn : s.namespace msg.ns = some obj) (h : (replyConnect cfg s msg).closed = false) :
    ∃ l, Same s l (replyConnect cfg s msg) ∧
      Adds cfg l [] [(false, genEmptyReplyToWait msg.wait)] [] [] := by
  unfold replyConnect at h ⊢
  rw [if_neg hw.not_skip, hn] at h ⊢
  dsimp only at h ⊢
  obtain ⟨ok, hs⟩ := writeEmptyReply_open h
  exact ⟨_, hs, Adds.sent1 _ _ _⟩

theorem replyConnect_undeclared {s : St} {msg : Message} (hw : Wanted msg)
    (hn : s.namespace msg.ns = none) (hd : mapGet cfg.decl msg.ns = none)
    (hev : msg.event = OnNamespaceConnect) (hf : msg.fromExplicit = [])
    (h : (replyConnect cfg s msg).closed = false) :
    ∃ l, Same s l (replyConnect cfg s msg) ∧
      Adds cfg l [] [(msg.setBinary, wireOf { msg with err := some errBadNamespace })] [] [] := by
  unfold replyConnect at h ⊢
  rw [if_neg hw.not_skip, hn] at h ⊢
  dsimp only at h ⊢
  rw [hd] at h ⊢
  dsimp only at h ⊢
  have hc := closed_of_prims (prims_write (cfg := cfg) s _) h
  have hm : MayWrite cfg s { msg with err := some errBadNamespace } :=
    ⟨hc, fun h => h.1 hf, Or.inl hev⟩
  obtain ⟨ok, hs⟩ := write_may hm h
  exact ⟨_, hs, Adds.sent1 _ _ _⟩

/-- the state with a new NSConn -/
def withObj (s : St) (ns : Bytes) : St := { s with objs := s.objs ++ [⟨ns, []⟩] }

theorem linked_withObj {s : St} {ns : Bytes} (h : s.namespace ns = none) :
    linked (withObj s ns) s.objs.length = false := by
  have hn : (withObj s ns).nsName s.objs.length = ns := by simp [withObj, St.nsName]
  have hs : (withObj s ns).namespace ns = none := h
  unfold linked
  rw [hn, hs]
  simp

theorem rooms_withObj (s : St) (ns : Bytes) : (withObj s ns).rooms s.objs.length = [] := by
  simp [withObj, St.rooms]

theorem replyConnect_refused {s : St} {msg : Message} {e : GoErr} {evs : List Bytes}
    (hw : Wanted msg) (hn : s.namespace msg.ns = none) (hd : mapGet cfg.decl msg.ns = some evs)
    (hev : msg.event = OnNamespaceConnect) (hf : msg.fromExplicit = [])
    (hv : verdict cfg (withObj s msg.ns) s.objs.length msg = some e)
    (h : (replyConnect cfg s msg).closed = false) :
    ∃ l, Same (withObj s msg.ns) l (replyConnect cfg s msg) ∧
      Adds cfg l [⟨s.objs.length, msg, false, false⟩]
        [(msg.setBinary, wireOf { msg with err := some e })] [] [] := by
  have hfs := fire_snd (cfg := cfg) (withObj s msg.ns) s.objs.length msg
  rw [hv] at hfs
  unfold replyConnect at h ⊢
  rw [if_neg hw.not_skip, hn] at h ⊢
  dsimp only at h ⊢
  rw [hd] at h ⊢
  simp only [newObj] at h ⊢
  change (match fire cfg (withObj s msg.ns) s.objs.length msg with
    | (s, some e) => (write cfg s { msg with err := some e }).1
    | (s, none) => _ : St).closed = false at h
  change ∃ l, Same (withObj s msg.ns) l (match fire cfg (withObj s msg.ns) s.objs.length msg with
    | (s, some e) => (write cfg s { msg with err := some e }).1
    | (s, none) => _ : St) ∧ _
  split at h
  · rename_i t e' he
    rw [he] at hfs
    cases hfs
    have hc := closed_of_prims (prims_write (cfg := cfg) t { msg with err := some e }) h
    have hfe := fire_eff (cfg := cfg) (s := withObj s msg.ns) (obj := s.objs.length) (msg := msg)
      (by rw [he]; exact hc)
    rw [he, hv] at hfe
    obtain ⟨l, hs, _, ha⟩ := hfe
    dsimp only at hs
    rw [linked_withObj hn, rooms_withObj] at ha
    have hm : MayWrite cfg t { msg with err := some e } :=
      ⟨hc, fun h => h.1 hf, Or.inl hev⟩
    obtain ⟨ok, hs2⟩ := write_may hm h
    exact ⟨_, hs.trans hs2, by simpa using ha.right (Adds.sent1 _ _ _)⟩
  · rename_i t he
    rw [he] at hfs
    cases hfs

theorem replyConnect_accepted {s : St} {msg : Message} {evs : List Bytes}
    (hw : Wanted msg) (hn : s.namespace msg.ns = none) (hd : mapGet cfg.decl msg.ns = some evs)
    (hv : verdict cfg (withObj s msg.ns) s.objs.length msg = none)
    (h : (replyConnect cfg s msg).closed = false) :
    ∃ l, Fr s l (s.objs ++ [⟨msg.ns, []⟩]) (mapSet s.connected msg.ns s.objs.length)
        (replyConnect cfg s msg) ∧
      Adds cfg l [⟨s.objs.length, msg, false, false⟩,
          ⟨s.objs.length, { msg with event := OnNamespaceConnected }, true, false⟩]
        [(false, genEmptyReplyToWait msg.wait)] [] (connNotes cfg msg.ns) := by
  have hfs := fire_snd (cfg := cfg) (withObj s msg.ns) s.objs.length msg
  rw [hv] at hfs
  unfold replyConnect at h ⊢
  rw [if_neg hw.not_skip, hn] at h ⊢
  dsimp only at h ⊢
  rw [hd] at h ⊢
  simp only [newObj] at h ⊢
  change (match fire cfg (withObj s msg.ns) s.objs.length msg with
    | (s, some e) => _
    | (s, none) => _ : St).closed = false at h
  change ∃ l, Fr s l _ _ (match fire cfg (withObj s msg.ns) s.objs.length msg with
    | (s, some e) => _
    | (s, none) => _ : St) ∧ _
  split at h
  · rename_i t e' he
    rw [he] at hfs
    cases hfs
  · rename_i t he
    have hc1 := closed_of_prims (prims_notifyConnected (cfg := cfg) _ _ _) h
    have hc2 := closed_of_prims (prims_writeEmptyReply (cfg := cfg) _ _) hc1
    have hfe := fire_eff (cfg := cfg) (s := withObj s msg.ns) (obj := s.objs.length) (msg := msg)
      (by rw [he]; exact hc2)
    rw [he, hv] at hfe
    obtain ⟨l, hs, _, ha⟩ := hfe
    dsimp only at hs
    obtain ⟨ok, hs2⟩ := writeEmptyReply_open hc1
    obtain ⟨l', hs', ha'⟩ := notifyConnected_open h
    have hfr : Fr s l (s.objs ++ [⟨msg.ns, []⟩]) (mapSet s.connected msg.ns s.objs.length)
        { t with connected := mapSet t.connected msg.ns s.objs.length } := by
      obtain ⟨q, rfl⟩ := hs
      exact ⟨q, rfl⟩
    have hnn : (writeEmptyReply cfg { t with connected := mapSet t.connected msg.ns s.objs.length }
        msg.wait).nsName s.objs.length = msg.ns := by
      rw [hs2.nsName]
      have : t.nsName s.objs.length = msg.ns := by
        rw [hs.nsName]; simp [withObj, St.nsName]
      exact this
    rw [hnn] at ha'
    have hlk : linked (writeEmptyReply cfg
        { t with connected := mapSet t.connected msg.ns s.objs.length } msg.wait)
        s.objs.length = true := by
      have hnn' := hnn
      rw [hs2.nsName] at hnn'
      rw [hs2.linked]
      unfold linked St.namespace
      rw [hnn', mapGet_mapSet]
      simp
    have hrm : (writeEmptyReply cfg
        { t with connected := mapSet t.connected msg.ns s.objs.length } msg.wait).rooms
        s.objs.length = [] := by
      rw [hs2.rooms]
      have : t.rooms s.objs.length = [] := by rw [hs.rooms, rooms_withObj]
      exact this
    rw [hlk, hrm] at ha'
    rw [linked_withObj hn, rooms_withObj] at ha
    exact ⟨_, (hfr.same hs2).same hs', by
      simpa using (ha.right (Adds.sent1 false (genEmptyReplyToWait msg.wait) ok)).left ha'⟩

end Neffos
