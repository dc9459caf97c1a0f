import Verif.Proofs.Access
set_option autoImplicit false
/-!
# C60: which shared variables can be accessed without synchronisation
-/
namespace Neffos
open Spec

def memRun (s : MemSt) : List Nat → Option MemSt
  | [] => some s
  | i :: l => (s.go i).bind (memRun · l)

theorem memRun_reach {u : UnguardedUses} {s s' : MemSt} {l : List Nat} (hs : MemReach u s) (h : memRun s l = some s') :
    MemReach u s' := by
  induction l generalizing s with
  | nil => cases h; exact hs
  | cons i l ih =>
    simp only [memRun, Option.bind_eq_some_iff] at h
    obtain ⟨s1, h1, h2⟩ := h
    exact ih (hs.go h1) h2

theorem memReach_two {u : UnguardedUses} {p q : List Acc} (hp : Code u p) (hq : Code u q) :
    MemReach u ⟨[⟨p, []⟩, ⟨q, []⟩]⟩ := (MemReach.init.spawn hp).spawn hq

/-- C60: two goroutines never write the same shared variable at the same time. -/
theorem c60_one_writer {u : UnguardedUses} {s : MemSt} {v : Vr} {i j : Nat} (hs : MemReach u s) (hij : i ≠ j)
    (hi : WritesVar s i v) : ¬ WritesVar s j v :=
  fun hj => (race_bare (memInv_reach hs) hij hi (Or.inl hj)).1 hj

/-- C60: a goroutine that is about to write a variable holds its mutex, and nobody else holds it in any way. -/
theorem c60_locked {u : UnguardedUses} {s : MemSt} {v : Vr} {i j : Nat} {t t' : MemThr} {p : List Acc} {b : Bool}
    (hs : MemReach u s) (hi : s.thr[i]? = some t) (ht : t.todo = .store v :: p) (hj : s.thr[j]? = some t')
    (hij : i ≠ j) : (guard v, true) ∈ t.held ∧ (guard v, b) ∉ t'.held := by
  have h := memInv_reach hs
  have hg := h.guarded i t hi
  rw [ht] at hg
  exact ⟨hg.1, fun hb => hij (h.excl i j t t' _ b hi hj hg.1 hb)⟩

/-- C60, LeaveAll: while a Close deletes a namespace, the request of a LeaveAll reads the namespaces. -/
theorem c60_leaveAll {u : UnguardedUses} (hu : u.leaveAll = true) (c : Nat) : Racy u (.ns c) := by
  have h0 : MemReach u ⟨[⟨closeAcc c [([], [])], []⟩, ⟨leaveAllAcc c 0 [([], [], [])], []⟩]⟩ :=
    memReach_two (Code.close c (fun x hx => by simp_all [Code.nil]) (fun x hx => by simp_all [Code.nil]))
      (Code.leaveAll c 0 (fun x hx => by simp_all [Code.nil]) (fun x hx => by simp_all [Code.nil])
        (fun x hx => by simp_all [Code.nil]) hu)
  refine ⟨_, memRun_reach (l := [0, 0, 1, 1, 1, 1, 1, 1]) h0
    (by simp [memRun, MemSt.go, closeAcc, leaveAllAcc, askAcc, wrAcc, MemThr.has]; rfl), 0, 1, by decide,
    ⟨_, _, rfl, rfl⟩, Or.inr ⟨_, _, rfl, rfl⟩⟩

/-- C60, GetConnections: while the loop of the server adds a connection, GetConnections reads the connections. -/
theorem c60_getConnections {u : UnguardedUses} (hu : u.getConnections = true) : Racy u .conns := by
  have h0 : MemReach u ⟨[⟨loopConnAcc [], []⟩, ⟨getConnectionsAcc [], []⟩]⟩ :=
    memReach_two (Code.loopConn Code.nil) (Code.getConnections (fun x hx => by simp at hx) hu)
  refine ⟨_, memRun_reach (l := [0, 0, 1]) h0
    (by simp [memRun, MemSt.go, loopConnAcc, getConnectionsAcc, MemThr.has]; rfl), 0, 1, by decide,
    ⟨_, _, rfl, rfl⟩, Or.inr ⟨_, _, rfl, rfl⟩⟩

/-- C60, broadcasts: a connection that was woken reads the messages while the next Broadcast replaces them. -/
theorem c60_waitMessages {u : UnguardedUses} (hu : u.waitMessages = true) : Racy u .batch := by
  have h0 : MemReach u ⟨[⟨broadcastAcc, []⟩, ⟨waitMessagesAcc [], []⟩]⟩ :=
    memReach_two Code.broadcast (Code.waitMessages Code.nil hu)
  refine ⟨_, memRun_reach (l := [1, 1, 0]) h0
    (by simp [memRun, MemSt.go, broadcastAcc, wrAcc, waitMessagesAcc, MemThr.has]; rfl), 0, 1, by decide,
    ⟨_, _, rfl, rfl⟩, Or.inr ⟨_, _, rfl, rfl⟩⟩

/-- C60: the variables two goroutines can race for are exactly these: the namespaces of a connection if the program
calls LeaveAll, the connections of the server if it calls GetConnections, the messages of the broadcaster if
connections wait for them. -/
theorem c60_exact (u : UnguardedUses) (v : Vr) :
    Racy u v ↔ (∃ c, v = .ns c ∧ u.leaveAll = true) ∨ (v = .conns ∧ u.getConnections = true) ∨
      (v = .batch ∧ u.waitMessages = true) := by
  constructor
  · rintro ⟨s, hs, i, j, hij, hw, ha⟩
    have h := (race_bare (memInv_reach hs) hij hw ha).2
    cases v <;> simp_all [Bare]
  · rintro (⟨c, rfl, h⟩ | ⟨rfl, h⟩ | ⟨rfl, h⟩)
    · exact c60_leaveAll h c
    · exact c60_getConnections h
    · exact c60_waitMessages h

/-- C60: a program without the three has no data race. -/
theorem c60_free {s : MemSt} (hs : MemReach ⟨false, false, false⟩ s) (v : Vr) : ¬ Race s v := by
  intro h
  have := (c60_exact ⟨false, false, false⟩ v).1 ⟨s, hs, h⟩
  simp at this

/-- a program without the three in which one goroutine is about to write the rooms of an NSConn that another one
waits to read -/
example : ∃ s, MemReach ⟨false, false, false⟩ s ∧ WritesVar s 0 (.rooms 1) ∧ s.go 1 = none ∧ s.thr.length = 2 :=
  ⟨_, memRun_reach (l := [0, 0, 0, 0])
    (memReach_two (u := ⟨false, false, false⟩) (Code.askRoom 1 Code.nil Code.nil Code.nil) (Code.room 1))
    (by simp [memRun, MemSt.go, askRoomAcc, rdAcc, wrAcc, MemThr.has]; rfl), ⟨_, _, rfl, rfl⟩,
    (by decide +kernel), rfl⟩

end Neffos
