import Verif.Proofs.Locks
/-!
# Calls of the API from callbacks (C44)

All schedules of any number of goroutines of the package, over any number of connections and namespaces.
-/
set_option autoImplicit false
namespace Neffos
open Spec

/-- If callbacks only make the calls of the table `safe`, nothing ever blocks for ever: from every state that any
schedule reaches, any run without new goroutines comes to an end, and when nobody can go on everybody is done. -/
theorem c44_safe_partial {s : LkSt} {ops : List LkOp} (hu : Uses safe ops) (hs : LkSt.run {} ops = some s) :
    (∃ n : Nat, ∀ (is : List Nat) (s' : LkSt), s.run (is.map .go) = some s' → is.length ≤ n) ∧
    ∀ (is : List Nat) (s' : LkSt), s.run (is.map .go) = some s' → (∀ i, s'.go i = none) →
      ∀ t ∈ s'.thr, t.todo = .done := by
  have hi := run_inv (s := {}) ⟨by simp, by simp⟩ hu hs
  refine ⟨⟨s.work, fun is s' h => by have := run_short hi h; omega⟩, fun is s' h hno t ht => ?_⟩
  have hi' : s'.Inv := run_inv hi (fun g hg => by simp at hg) h
  obtain ⟨j, hj⟩ := List.getElem?_of_mem ht
  exact all_done hi' hno hj

/-! How each of the other calls gets stuck: the goroutines, which of them take how many steps one after the other, and
who is stuck at the end. -/

/-- somebody who waits for the namespaces of the connection with the broadcaster locked -/
def castWaits : Gor := .publish [{ c := 0 }]
/-- and with the loop of the server -/
def loopWaits : Gor := .plain [.act [.nsp 0]]

def endKnot (g : Gor) (n : Nat) : ApiKind → List Gor × List (Nat × Nat) × List Nat
  | .cast => ([g, castWaits], [(1, 3), (0, n)], [0, 1])
  | .sync => ([g, loopWaits], [(1, 2), (0, n)], [0, 1])
  | .act => ([g, loopWaits], [(1, 2), (0, n)], [0, 1])
  | _ => ([g], [(0, n)], [0])

def endSelf (g : Gor) (n : Nat) : List Gor × List (Nat × Nat) × List Nat := ([g], [(0, n)], [0])

/-- on behalf of `x` the connection 0 is closed, with these callbacks; and how many steps it is to the callbacks -/
def closeGor (e : NsEnd) : Ctx → Gor × Nat
  | .free => (.close 0 [e], 5)
  | .loop => (.serverClose [(0, [e])], 7)
  | .cast => (.publish [{ c := 0, fail := some [e] }], 10)

def closeKnot (g : Gor) (n : Nat) : Ctx → ApiKind → List Gor × List (Nat × Nat) × List Nat
  | .loop, .sync => endSelf g n
  | .loop, .act => endSelf g n
  | .cast, .cast => endSelf g n
  | _, k => endKnot g n k

def theKnot : CbSite → ApiKind → List Gor × List (Nat × Nat) × List Nat
  | .loop, .sync => endSelf (.onDisconnect [.sync]) 2
  | .loop, .act => endSelf (.onDisconnect [.act]) 2
  | .leaving, .room => endSelf (.leave 0 0 [.room] []) 4
  | .leaving, .nsp => ([.leave 0 0 [.nsp] [], .close 0 [{ n := 0 }]], [(0, 4), (1, 3)], [0, 1])
  | .leaving, .emit => ([.leave 0 0 [.emit] [], .close 0 [{ n := 0 }]], [(0, 5), (1, 3)], [0, 1])
  | .leaving, .roomEmit => ([.leave 0 0 [.roomEmit] [], .close 0 [{ n := 0 }]], [(0, 5), (1, 3)], [0, 1])
  | .leaving, .cast => ([.leave 0 0 [.cast] [], .publish [{ c := 0, room := some 0 }]], [(0, 4), (1, 5)], [0, 1])
  | .leaving, .sync => ([.leave 0 0 [.sync] [], .plain [.act [.room 0 0]]], [(0, 4), (1, 2)], [0, 1])
  | .leaving, .act => ([.leave 0 0 [.act] [], .plain [.act [.room 0 0]]], [(0, 4), (1, 2)], [0, 1])
  | .closingRooms x, k => closeKnot (closeGor { n := 0, rooms := [k] } x).1 (closeGor { n := 0, rooms := [k] } x).2 x k
  | .closing x, k => closeKnot (closeGor { n := 0, ns := [k] } x).1 ((closeGor { n := 0, ns := [k] } x).2 + 1) x k
  | _, _ => ([], [], [])

def theOps (at_ : CbSite) (k : ApiKind) : List LkOp :=
  (theKnot at_ k).1.map .spawn ++ (theKnot at_ k).2.1.flatMap (fun x => List.replicate x.2 (.go x.1))

theorem the_knot (at_ : CbSite) (k : ApiKind) (h : safe at_ k = false) :
    (match LkSt.run {} (theOps at_ k) with
      | none => false
      | some s => s.knot (theKnot at_ k).2.2) = true ∧ 0 ∈ (theKnot at_ k).2.2 ∧
    ∀ g ∈ (theKnot at_ k).1, ∀ u ∈ uses g, (safe u.1 u.2 || decide (u.1 = at_ ∧ u.2 = k)) = true := by
  rcases at_ with _ | _ | _ | _ | x | x
  rotate_right 2
  · cases x <;> cases k <;> first | (exact absurd h (by decide)) | decide +kernel
  · cases x <;> cases k <;> first | (exact absurd h (by decide)) | decide +kernel
  all_goals cases k <;> first | (exact absurd h (by decide)) | decide +kernel

/-- A call of a callback blocks for ever in some schedule, in which all other callbacks make safe calls only, exactly if
it is not in the table. -/
theorem c44_table_partial (at_ : CbSite) (k : ApiKind) : safe at_ k = false ↔
    ∃ (ops : List LkOp) (s : LkSt) (i : Nat), Uses (fun a b => safe a b || decide (a = at_ ∧ b = k)) ops ∧
      LkSt.run {} ops = some s ∧ Stuck s i := by
  constructor
  · intro h
    obtain ⟨h1, h2, h3⟩ := the_knot at_ k h
    split at h1
    · cases h1
    · rename_i s hs
      refine ⟨theOps at_ k, s, 0, fun g hg u hx => ?_, hs, knot_stuck (knot_of h1) h2⟩
      refine h3 g ?_ u hx
      rcases List.mem_append.mp hg with hg | hg
      · obtain ⟨g', hg', e⟩ := List.mem_map.mp hg
        cases e; exact hg'
      · obtain ⟨x, _, hx⟩ := List.mem_flatMap.mp hg
        have := List.eq_of_mem_replicate hx
        cases this
  · rintro ⟨ops, s, i, hu, hs, hst⟩
    cases hk : safe at_ k with
    | false => rfl
    | true =>
      have hu' : Uses safe ops := by
        intro g hg u hx
        have := hu g hg u hx
        simp only [Bool.or_eq_true, decide_eq_true_eq] at this
        rcases this with h | ⟨h1, h2⟩
        · exact h
        · rw [h1, h2]; exact hk
      have hi := run_inv (s := {}) ⟨by simp, by simp⟩ hu' hs
      obtain ⟨is, s', h1, h2⟩ := run_end _ (Nat.le_refl _) hi
      obtain ⟨t, ht, hd⟩ := hst _ _ h1
      exact absurd (h2 i t ht) hd

/-- The claim of C44 is false: for every callback that runs with a lock held there is a call that blocks for ever. One
that needs no second goroutine: OnRoomLeft of a connection that is closed calls `Rooms`. -/
theorem c44_refuted : ∃ (ops : List LkOp) (s : LkSt), LkSt.run {} ops = some s ∧ Stuck s 0 ∧ s.thr.length = 1 ∧
    ops.head? = some (.spawn (.close 0 [{ n := 0, rooms := [.room] }])) := by
  have h := (the_knot (.closingRooms .free) .room rfl).1
  split at h
  · cases h
  · rename_i s hs
    refine ⟨_, s, hs, knot_stuck (knot_of h) (by decide), ?_, rfl⟩
    have e : ((LkSt.run {} (theOps (.closingRooms .free) .room)).getD {}).thr.length = 1 := by decide +kernel
    rw [hs] at e
    exact e

/-- A client that went away while a message is broadcast to it: the write fails, `Close` runs with the broadcaster
locked, and an OnNamespaceDisconnect that broadcasts blocks for ever; from then on so does every `Broadcast`. -/
theorem c44_refuted_broadcast : ∃ (ops : List LkOp) (s : LkSt), LkSt.run {} ops = some s ∧ Stuck s 0 ∧
    ops.head? = some (.spawn (.publish [{ c := 0, fail := some [{ n := 0, ns := [.cast] }] }])) ∧
    s.thr.length = 1 ∧ ∀ t ∈ s.thr, t.holds .bmu = true := by
  have h := (the_knot (.closing .cast) .cast rfl).1
  split at h
  · cases h
  · rename_i s hs
    have e1 : ((LkSt.run {} (theOps (.closing .cast) .cast)).getD {}).thr.length = 1 := by decide +kernel
    have e2 : ∀ t ∈ ((LkSt.run {} (theOps (.closing .cast) .cast)).getD {}).thr, t.holds .bmu = true := by decide +kernel
    rw [hs] at e1 e2
    exact ⟨_, s, hs, knot_stuck (knot_of h) (by decide), rfl, e1, e2⟩

/-- goroutines that make every call that is safe, at every place -/
example : ∃ (gs : List Gor) (s : LkSt), Uses safe (gs.map .spawn) ∧ LkSt.run {} (gs.map .spawn) = some s ∧
    (∀ (at_ : CbSite) (k : ApiKind), safe at_ k = true → at_ ≠ .queued → (at_, k) ∈ gs.flatMap uses) ∧ s.thr.length = 5 := by
  let e : NsEnd := { n := 1, rooms := [.emit, .roomEmit], ns := [.room, .emit, .roomEmit] }
  let gs : List Gor := [.plain [.api (.room 0 0), .api (.nsp 0), .api (.emit 0 none), .api (.roomEmit 0 0 (some [e])),
      .api .cast, .api .sync, .act []], .publish [{ c := 1, fail := some [e] }], .serverClose [(0, [e]), (1, [e])],
    .onDisconnect [.room 0 0, .nsp 1, .emit 2 none, .roomEmit 2 1 none, .cast], .close 3 [e, { n := 2 }]]
  refine ⟨gs, ⟨gs.map (fun g => { todo := g.prog }), []⟩, ?_, by decide +kernel, ?_, rfl⟩
  · intro g hg
    have hg' : g ∈ gs := by
      obtain ⟨g', h, e⟩ := List.mem_map.mp hg
      cases e; exact h
    revert g
    have : ∀ g ∈ gs, ∀ u ∈ uses g, safe u.1 u.2 = true := by decide +kernel
    exact fun g _ h => this g h
  · intro at_ k h hq
    rcases at_ with _ | _ | _ | _ | x | x
    rotate_right 2
    · cases x <;> cases k <;> first | (exact absurd h (by decide)) | decide +kernel
    · cases x <;> cases k <;> first | (exact absurd h (by decide)) | decide +kernel
    all_goals cases k <;> first | (exact absurd h (by decide)) | (exact absurd rfl hq) | decide +kernel

end Neffos
