import Verif.Proofs.LockCalls
/-!
# Calls of the API about any connection from callbacks (C116)

All schedules of any number of goroutines of the package, over any number of connections and namespaces, with writes that
fail and close their connection at any depth.
-/
set_option autoImplicit false
namespace Neffos
open Spec

/-- If callbacks only make the calls of the table `safeX`, nothing ever blocks for ever: from every state that any
schedule reaches, any run without new goroutines comes to an end, and when nobody can go on everybody is done. -/
theorem c116_safe {s : LkSt} {ops : List XOp} (hu : UsesX safeX ops) (hs : LkSt.runX {} ops = some s) :
    (∃ n : Nat, ∀ (is : List Nat) (s' : LkSt), s.runX (is.map .go) = some s' → is.length ≤ n) ∧
    ∀ (is : List Nat) (s' : LkSt), s.runX (is.map .go) = some s' → (∀ i, s'.go i = none) →
      ∀ t ∈ s'.thr, t.todo = .done := by
  have hi := LockCalls.run_inv (s := {}) ⟨by simp, by simp, by simp⟩ hu hs
  refine ⟨⟨s.work, fun is s' h => by have := LockCalls.run_short hi h; omega⟩, fun is s' h hno t ht => ?_⟩
  have hi' : LockCalls.Inv s' := LockCalls.run_inv hi (fun g hg => by simp at hg) h
  obtain ⟨j, hj⟩ := List.getElem?_of_mem ht
  exact LockCalls.all_done hi' hno hj

namespace LockCalls

/-! How each of the other calls gets stuck: the goroutines, which of them take how many steps one after the other, and
who is stuck at the end. The callback is of namespace 0 of connection 0. -/

def aim : About → Nat × Nat
  | .own => (0, 0)
  | .sibling => (0, 1)
  | .other => (1, 0)

def just (k : ApiKind) (t : Nat × Nat) : CbCalls := .call k t.1 t.2 false .done .done

/-- on behalf of `x` the connection 0 is closed, with these callbacks; and how many steps it is to the callbacks -/
def closes (rooms ns : CbCalls) : Ctx → GorX × Nat
  | .free => (.close 0 (.ns 0 rooms ns .done), 5)
  | .loop => (.serverClose [(0, .ns 0 rooms ns .done)], 7)
  | .cast => (.publish [{ c := 0, fails := true, es := .ns 0 rooms ns .done }], 10)

/-- somebody who waits for the namespaces of the connection with the broadcaster locked -/
def castBlocks : GorX := .publish [{ c := 0 }]
/-- and with the loop of the server -/
def loopBlocks : GorX := .plain [{ loop := true, cs := just .nsp (0, 0) }]
/-- connection 1 is closed, OnRoomLeft writes to connection 0 -/
def partner (k : ApiKind) : GorX := .close 1 (.ns 0 (just k (0, 0)) .done .done)

def closing (g : GorX) (n : Nat) : Ctx → ApiKind → About → List GorX × List (Nat × Nat) × List Nat
  | .loop, .sync, _ => ([g], [(0, n)], [0])
  | .loop, .act, _ => ([g], [(0, n)], [0])
  | .cast, .cast, _ => ([g], [(0, n)], [0])
  | _, .cast, _ => ([g, castBlocks], [(1, 3), (0, n)], [0, 1])
  | _, .sync, _ => ([g, loopBlocks], [(1, 2), (0, n)], [0, 1])
  | _, .act, _ => ([g, loopBlocks], [(1, 2), (0, n)], [0, 1])
  | _, _, .other => ([g, partner .emit], [(1, 6), (0, n)], [0, 1])
  | _, _, _ => ([g], [(0, n)], [0])

def knots : CbSite → ApiKind → About → List GorX × List (Nat × Nat) × List Nat
  | .loop, k, a => ([.onDisconnect (just k (aim a))], [(0, 2)], [0])
  | .leaving, .cast, a => ([.leave 0 0 (just .cast (aim a)) [], .publish [{ c := 0, room := some 0 }]], [(0, 4), (1, 5)], [0, 1])
  | .leaving, .sync, a =>
    ([.leave 0 0 (just .sync (aim a)) [], .plain [{ loop := true, cs := just .room (0, 0) }]], [(0, 4), (1, 2)], [0, 1])
  | .leaving, .act, a =>
    ([.leave 0 0 (just .act (aim a)) [], .plain [{ loop := true, cs := just .room (0, 0) }]], [(0, 4), (1, 2)], [0, 1])
  | .leaving, .room, .own => ([.leave 0 0 (just .room (0, 0)) []], [(0, 4)], [0])
  | .leaving, .room, .sibling =>
    ([.leave 0 0 (just .room (0, 1)) [], .leave 0 1 (just .room (0, 0)) []], [(0, 4), (1, 4)], [0, 1])
  | .leaving, k, .other =>
    ([.leave 0 0 (just k (1, 0)) [], partner .roomEmit],
      [(0, if k = .emit ∨ k = .roomEmit then 5 else 4), (1, 8)], [0, 1])
  | .leaving, k, a =>
    ([.leave 0 0 (just k (aim a)) [], .close 0 (.ns 0 .done .done .done)],
      [(0, if k = .emit ∨ k = .roomEmit then 5 else 4), (1, 3)], [0, 1])
  | .closingRooms x, k, a => closing (closes (just k (aim a)) .done x).1 (closes (just k (aim a)) .done x).2 x k a
  | .closing x, k, a => closing (closes .done (just k (aim a)) x).1 ((closes .done (just k (aim a)) x).2 + 1) x k a
  | _, _, _ => ([], [], [])

def opsOf (at_ : CbSite) (k : ApiKind) (a : About) : List XOp :=
  (knots at_ k a).1.map .spawn ++ (knots at_ k a).2.1.flatMap (fun x => List.replicate x.2 (.go x.1))

theorem the_knot (at_ : CbSite) (k : ApiKind) (a : About) (ha : at_ = .loop → a = .other) (h : safeX at_ k a = false) :
    (match LkSt.runX {} (opsOf at_ k a) with
      | none => false
      | some s => s.knot (knots at_ k a).2.2) = true ∧ 0 ∈ (knots at_ k a).2.2 ∧
    ∀ g ∈ (knots at_ k a).1, ∀ u ∈ usesX g, (safeX u.1 u.2.1 u.2.2 || decide (u.1 = at_ ∧ u.2.1 = k ∧ u.2.2 = a)) = true := by
  rcases at_ with _ | _ | _ | _ | x | x
  rotate_right 2
  · cases x <;> cases k <;> cases a <;> first | (exact absurd h (by decide)) | decide +kernel
  · cases x <;> cases k <;> cases a <;> first | (exact absurd h (by decide)) | decide +kernel
  · cases k <;> cases a <;> exact absurd h (by decide)
  · cases k <;> cases a <;> exact absurd h (by decide)
  · cases ha rfl; cases k <;> first | (exact absurd h (by decide)) | decide +kernel
  · cases k <;> cases a <;> first | (exact absurd h (by decide)) | decide +kernel

end LockCalls

/-- A call of a callback about a namespace blocks for ever in some schedule, in which all other callbacks make safe calls
only, exactly if it is not in the table. (Callbacks that are not of a connection have no connection of their own: for them
every connection is another one.) -/
theorem c116_table (at_ : CbSite) (k : ApiKind) (a : About) (ha : at_ = .loop → a = .other) : safeX at_ k a = false ↔
    ∃ (ops : List XOp) (s : LkSt) (i : Nat),
      UsesX (fun x y z => safeX x y z || decide (x = at_ ∧ y = k ∧ z = a)) ops ∧ LkSt.runX {} ops = some s ∧ StuckX s i := by
  constructor
  · intro h
    obtain ⟨h1, h2, h3⟩ := LockCalls.the_knot at_ k a ha h
    split at h1
    · cases h1
    · rename_i s hs
      refine ⟨LockCalls.opsOf at_ k a, s, 0, fun g hg u hx => ?_, hs, LockCalls.knot_stuck (knot_of h1) h2⟩
      refine h3 g ?_ u hx
      rcases List.mem_append.mp hg with hg | hg
      · obtain ⟨g', hg', e⟩ := List.mem_map.mp hg
        cases e; exact hg'
      · obtain ⟨x, _, hx⟩ := List.mem_flatMap.mp hg
        have := List.eq_of_mem_replicate hx
        cases this
  · rintro ⟨ops, s, i, hu, hs, hst⟩
    cases hk : safeX at_ k a with
    | false => rfl
    | true =>
      have hu' : UsesX safeX ops := by
        intro g hg u hx
        have := hu g hg u hx
        simp only [Bool.or_eq_true, decide_eq_true_eq] at this
        rcases this with h | ⟨h1, h2, h3⟩
        · exact h
        · rw [h1, h2, h3]; exact hk
      have hi := LockCalls.run_inv (s := {}) ⟨by simp, by simp, by simp⟩ hu' hs
      obtain ⟨is, s', h1, h2⟩ := LockCalls.run_end _ (Nat.le_refl _) hi
      obtain ⟨t, ht, hd⟩ := hst _ _ h1
      exact absurd (h2 i t ht) hd

/-- Two connections that are closed at the same time and look each other's namespaces up in OnNamespaceDisconnect never
finish. -/
theorem c116_pair : ∃ (ops : List XOp) (s : LkSt), LkSt.runX {} ops = some s ∧ StuckX s 0 ∧ StuckX s 1 ∧
    ops.take 2 = [.spawn (.close 0 (.ns 0 .done (LockCalls.just .nsp (1, 0)) .done)),
      .spawn (.close 1 (.ns 0 .done (LockCalls.just .nsp (0, 0)) .done))] := by
  let ops : List XOp := [.spawn (.close 0 (.ns 0 .done (LockCalls.just .nsp (1, 0)) .done)),
      .spawn (.close 1 (.ns 0 .done (LockCalls.just .nsp (0, 0)) .done))] ++ List.replicate 6 (.go 0) ++ List.replicate 6 (.go 1)
  have h : (match LkSt.runX {} ops with
      | none => false
      | some s => s.knot [0, 1]) = true := by decide +kernel
  split at h
  · cases h
  · rename_i s hs
    exact ⟨ops, s, hs, LockCalls.knot_stuck (knot_of h) (by simp), LockCalls.knot_stuck (knot_of h) (by simp), rfl⟩

/-- goroutines that meet the hypothesis of `c116_safe`: connections 0 and 1 are closed at the same time and each writes to
the other from OnRoomLeft and OnNamespaceDisconnect, one of the writes fails and closes connection 2, which writes to both
and asks for its rooms; the server is closed and a message is broadcast meanwhile -/
example : ∃ (gs : List GorX) (s : LkSt), UsesX safeX (gs.map .spawn) ∧ LkSt.runX {} (gs.map .spawn) = some s ∧
    gs.length = 5 ∧ 10 ≤ (gs.flatMap usesX).length := by
  let w (d : Nat) (r : CbCalls) : CbCalls := .call .emit d 0 false .done (.call .roomEmit d 1 false .done r)
  let e2 : NsEnds := .ns 0 (w 0 (w 1 (LockCalls.just .room (2, 1)))) (w 0 (LockCalls.just .room (2, 0))) .done
  let gs : List GorX := [.close 0 (.ns 0 (w 1 .done) (.call .emit 2 0 true e2 .done) .done),
    .close 1 (.ns 0 (w 0 .done) (w 0 .done) .done), .serverClose [(0, .ns 2 (w 2 .done) .done .done), (2, .ns 1 .done (w 0 .done) .done)],
    .publish [{ c := 2, room := some 0, fails := true, es := e2 }], .leave 1 0 .done [{ loop := true, cs := w 1 .done }]]
  refine ⟨gs, ⟨gs.map (fun g => { todo := g.prog }), []⟩, ?_, rfl, rfl, by decide +kernel⟩
  intro g hg
  have hg' : g ∈ gs := by
    obtain ⟨g', h, e⟩ := List.mem_map.mp hg
    cases e; exact h
  revert g
  have : ∀ g ∈ gs, ∀ u ∈ usesX g, safeX u.1 u.2.1 u.2.2 = true := by decide +kernel
  exact fun g _ h => this g h

/-- C116: whatever the callbacks call, a goroutine that has one of the locks for writing is the only one that has it; so
the namespaces of a connection and the rooms of a namespace are never looked at while they are changed. -/
theorem c116_alone {s : LkSt} {ops : List XOp} (hs : LkSt.runX {} ops = some s) {i j : Nat} {t u : Thr} {r : Res} {w : Bool}
    (hi : s.thr[i]? = some t) (hj : s.thr[j]? = some u) (ht : (r, true) ∈ t.held) (hu : (r, w) ∈ u.held) : i = j :=
  LockCalls.run_excl ops (fun i j t u r w h => by simp at h) hs i j t u r w hi hj ht hu

/-- one goroutine runs the callbacks of `Close` with the rooms locked for writing, two others want to read them -/
example : ∃ (ops : List XOp) (s : LkSt), LkSt.runX {} ops = some s ∧ s.thr.length = 3 ∧
    (∃ t, s.thr[0]? = some t ∧ (Res.rooms 0 0, true) ∈ t.held) ∧ s.go 1 = none ∧ s.go 2 = none := by
  refine ⟨[.spawn (.close 0 (.ns 0 (LockCalls.just .emit (1, 0)) .done .done)), .spawn (.plain [{ cs := LockCalls.just .room (0, 0) }]),
    .spawn (.plain [{ cs := LockCalls.just .room (0, 0) }])] ++ List.replicate 5 (.go 0), _, rfl, ?_⟩
  decide +kernel

end Neffos
