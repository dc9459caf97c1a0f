import Verif.Proofs.ConnReader
/-!
Helper: the exact effects of the first part of a call, up to the point where its Ask waits.
-/
namespace Neffos
open Spec

variable {cfg : Cfg}

theorem newAsk_fields (s : St) (tok : Bytes) (k : Cont) :
    (newAsk s tok k).objs = s.objs ∧ (newAsk s tok k).connected = s.connected ∧
    (newAsk s tok k).log = s.log ∧ (newAsk s tok k).closed = s.closed ∧
    (newAsk s tok k).id = s.id ∧ (newAsk s tok k).rd = s.rd ∧ (newAsk s tok k).gates = s.gates := by
  unfold newAsk
  split <;> exact ⟨rfl, rfl, rfl, rfl, rfl, rfl, rfl⟩

theorem mayWrite_congr {s t : St} {msg msg' : Message} (h1 : t.closed = s.closed) (h2 : t.id = s.id)
    (h3 : t.connected = s.connected) (h4 : t.objs = s.objs) (h5 : msg'.fromExplicit = msg.fromExplicit)
    (h6 : msg'.event = msg.event) (h7 : msg'.ns = msg.ns) (h8 : msg'.room = msg.room) :
    MayWrite cfg t msg' ↔ MayWrite cfg s msg := by
  unfold MayWrite IsSender St.namespace
  simp only [rooms_congr h4, h1, h2, h3, h5, h6, h7, h8]

theorem write_may_ok {s : St} {msg : Message} (hm : MayWrite cfg s msg)
    (h : (write cfg s msg).1.closed = false) :
    Same s [.sent msg.setBinary (wireOf msg) (write cfg s msg).2] (write cfg s msg).1 := by
  have e := write_eq (cfg := cfg) s msg
  rw [if_pos hm] at e
  rw [e] at h ⊢
  have e2 := rawWrite_open h
  rw [e2]
  refine ⟨(s.markReady cfg).ready, ?_⟩
  conv => lhs; rw [markReady_eq]
  have hl : (s.markReady cfg).log = s.log := by rw [markReady_eq]
  simp [hl]

/-- what a call has done when its Ask was written, or not -/
def askLog (k : Cont) (binary : Bool) (b : Bytes) (ok : Bool) : List Obs :=
  .sent binary b ok :: (if ok = true then [] else [.ret k (.err errWrite)])

theorem startAsk_open {s : St} {k : Cont} {msg : Message} {now : Int} (hn : cfg.onlyNative = false)
    (hk : k ≠ .user) (hc : s.closed = false)
    (h : (startAsk cfg s k msg now false).closed = false) :
    (startAsk cfg s k msg now false).objs = s.objs ∧
    (startAsk cfg s k msg now false).connected = s.connected ∧
    (MayWrite cfg s msg → ∃ ok, (startAsk cfg s k msg now false).log = s.log ++
      askLog k msg.setBinary (wireOf { msg with wait := genWait cfg.isClient now }) ok) ∧
    (¬ MayWrite cfg s msg → (startAsk cfg s k msg now false).log =
      s.log ++ [.ret k (.err errWrite)]) := by
  unfold startAsk at h ⊢
  rw [if_neg (by simp [hn]), if_neg (by simp [hc]), if_neg (by simp)] at h ⊢
  dsimp only at h ⊢
  generalize hT : newAsk s (genWait cfg.isClient now) k = T at h ⊢
  obtain ⟨n1, n2, n3, n4, n5, _, _⟩ := newAsk_fields s (genWait cfg.isClient now) k
  rw [hT] at n1 n2 n3 n4 n5
  generalize hM : ({ msg with wait := genWait cfg.isClient now } : Message) = M at h ⊢
  have hm : MayWrite cfg T M ↔ MayWrite cfg s msg := by
    subst hM
    exact mayWrite_congr n4 n5 n2 n1 rfl rfl rfl rfl
  have hbin : M.setBinary = msg.setBinary := by subst hM; rfl
  have hmay := write_may_ok (cfg := cfg) (s := T) (msg := M)
  have hmaynot := write_maynot (cfg := cfg) (s := T) (msg := M)
  have hno : ¬ MayWrite cfg T M → (write cfg T M).2 = false := by
    intro hx
    rw [write_eq, if_neg hx]
    split <;> rfl
  revert h hmay hmaynot hno
  generalize write cfg T M = p
  obtain ⟨t, ok⟩ := p
  intro h hmay hmaynot hno
  dsimp only at hmay hmaynot hno
  cases ok with
  | true =>
    dsimp only at h ⊢
    have hx : MayWrite cfg T M := by
      by_cases hx : MayWrite cfg T M
      · exact hx
      · have := hno hx; simp at this
    have hs := hmay hx h
    refine ⟨hs.objs.trans n1, hs.connected.trans n2, fun _ => ⟨true, ?_⟩, fun hy => absurd (hm.mp hx) hy⟩
    rw [hs.log, n3, hbin]; rfl
  | false =>
    dsimp only at h ⊢
    have e1 := finish_err (cfg := cfg) (endAsk t s.asks.length) k {} errWrite hk
    rw [e1.2.2.2] at h
    have h : t.closed = false := h
    by_cases hx : MayWrite cfg T M
    · have hs := hmay hx h
      refine ⟨?_, ?_, fun _ => ⟨false, ?_⟩, fun hy => absurd (hm.mp hx) hy⟩
      · rw [e1.1]; exact hs.objs.trans n1
      · rw [e1.2.1]; exact hs.connected.trans n2
      · rw [e1.2.2.1]
        show t.log ++ _ = _
        rw [hs.log, n3, hbin]
        simp [askLog]
    · have hs := hmaynot hx
      refine ⟨?_, ?_, fun hy => absurd (hm.mpr hy) hx, fun _ => ?_⟩
      · rw [e1.1]; exact hs.objs.trans n1
      · rw [e1.2.1]; exact hs.connected.trans n2
      · rw [e1.2.2.1]
        show t.log ++ _ = _
        rw [hs.log, n3]
        simp

theorem startAsk_closed {s : St} {k : Cont} {msg : Message} {now : Int} {ex : Bool}
    (hn : cfg.onlyNative = false) (hk : k ≠ .user) (hc : s.closed = true) :
    (startAsk cfg s k msg now ex).objs = s.objs ∧
    (startAsk cfg s k msg now ex).connected = s.connected ∧
    (startAsk cfg s k msg now ex).log = s.log ++ [.ret k (.err errClosedAsk)] := by
  unfold startAsk
  rw [if_neg (by simp [hn]), if_pos hc]
  obtain ⟨h1, h2, h3, _⟩ := finish_err (cfg := cfg) s k msg errClosedAsk hk
  exact ⟨h1, h2, h3⟩

variable {id : Bytes} {s s' : St}

/-- an Ask leaves an open connection only if it started on one -/
theorem startAsk_was_open {s : St} {k : Cont} {msg : Message} {now : Int} {ex : Bool}
    (hn : cfg.onlyNative = false) (h : (startAsk cfg s k msg now ex).closed = false) :
    s.closed = false := by
  cases hx : s.closed with
  | false => rfl
  | true =>
    unfold startAsk at h
    rw [if_neg (by simp [hn]), if_pos hx] at h
    have : ∀ t : St, ∀ ns, (gateDone t ns).closed = t.closed := fun t ns =>
      (gateDone_fields t ns).2.2.2.1
    cases k <;> simp [finish, this, St.emit, hx] at h

theorem startAsk_eff {s : St} {k : Cont} {msg : Message} {now : Int} (hn : cfg.onlyNative = false)
    (hk : k ≠ .user) (h : (startAsk cfg s k msg now false).closed = false) :
    (startAsk cfg s k msg now false).connected = s.connected ∧
    (startAsk cfg s k msg now false).objs = s.objs ∧
    ∃ l, (startAsk cfg s k msg now false).log = s.log ++ l ∧
      (MayWrite cfg s msg → ∃ rs, (rs = [] ∨ rs = [(k, .err errWrite)]) ∧
        Adds cfg l [] [(msg.setBinary, wireOf { msg with wait := genWait cfg.isClient now })] rs []) ∧
      (¬ MayWrite cfg s msg → l = [.ret k (.err errWrite)]) := by
  obtain ⟨h1, h2, h3, h4⟩ := startAsk_open hn hk (startAsk_was_open hn h) h
  by_cases hm : MayWrite cfg s msg
  · obtain ⟨ok, hl⟩ := h3 hm
    refine ⟨h2, h1, _, hl, fun _ => ?_, fun h => absurd hm h⟩
    cases ok with
    | true => exact ⟨[], Or.inl rfl, Adds.sent1 _ _ _⟩
    | false =>
      exact ⟨_, Or.inr rfl, by
        simpa [askLog] using (Adds.sent1 (cfg := cfg) msg.setBinary
          (wireOf { msg with wait := genWait cfg.isClient now }) false).left
          (Adds.ret1 k (.err errWrite))⟩
  · exact ⟨h2, h1, _, h4 hm, fun h => absurd h hm, fun _ => rfl⟩

theorem rooms_delRoom (s : St) (obj : Nat) (room : Bytes) (i : Nat) (r : Bytes) :
    r ∈ (s.setRooms obj (delRoom room)).rooms i ↔ r ∈ s.rooms i ∧ ¬ (i = obj ∧ r = room) := by
  unfold St.setRooms St.rooms
  simp only [List.getElem?_modify]
  by_cases h : obj = i
  · subst h
    cases he : s.objs[obj]? with
    | none => simp
    | some o => simp [delRoom]
  · have h' : ¬ i = obj := fun e => h e.symm
    simp [h, h']

theorem reach_linked (hr : Reach cfg id s) {ns : Bytes} {obj : Nat}
    (hn : s.namespace ns = some obj) : linked s obj = true := by
  unfold linked; rw [reach_nsName hr hn, hn]; simp

theorem reach_range (hr : Reach cfg id s) {ns : Bytes} {obj : Nat}
    (hn : s.namespace ns = some obj) : obj < s.objs.length := by
  have h := ((reach_ok hr).2 ns obj hn).2
  cases hx : s.objs[obj]? with
  | none => rw [hx] at h; simp at h
  | some o => exact (List.getElem?_eq_some_iff.mp hx).1

theorem afterGate_join {t : St} {msg : Message} {obj : Nat} (hev : msg.event = OnRoomJoin)
    (hn : t.namespace msg.ns = some obj) : afterGate cfg t msg = replyRoomJoin cfg t obj msg := by
  unfold afterGate; rw [hn]; dsimp only; rw [if_pos hev]

theorem afterGate_leave {t : St} {msg : Message} {obj : Nat} (hev : msg.event = OnRoomLeave)
    (hn : t.namespace msg.ns = some obj) : afterGate cfg t msg = replyRoomLeave cfg t obj msg := by
  unfold afterGate; rw [hn]; dsimp only
  rw [if_neg (by rw [hev]; decide), if_pos hev]

end Neffos
