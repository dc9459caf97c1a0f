import Verif.Proofs.ConnClose
/-!
Helper: invariants of all reachable states of a connection.
-/
namespace Neffos
open Spec

variable {cfg : Cfg} {id : Bytes} {s : St}

theorem mapDel_nodup {α : Type} {m : List (Bytes × α)} (k : Bytes) (h : (m.map (·.1)).Nodup) :
    ((mapDel m k).map (·.1)).Nodup := by
  rw [mapDel_keys]; exact h.filter _

theorem mapSet_nodup {α : Type} {m : List (Bytes × α)} (k : Bytes) (v : α)
    (h : (m.map (·.1)).Nodup) : ((mapSet m k v).map (·.1)).Nodup := by
  unfold mapSet
  rw [List.map_cons, List.nodup_cons]
  refine ⟨?_, mapDel_nodup k h⟩
  rw [mapDel_keys]; simp

/-- each namespace once -/
theorem reach_keys (h : Reach cfg id s) : (s.connected.map (·.1)).Nodup := by
  refine reach_invariant (fun s => (s.connected.map (·.1)).Nodup) ?_ ?_ h
  · unfold newConn; split <;> simp
  · intro s s' hf hs
    cases hf with
    | nsAdd ns obj _ _ _ => exact mapSet_nodup ns obj hs
    | nsDel ns => exact mapDel_nodup ns hs
    | _ => exact hs

/-- each room once -/
theorem reach_rooms (h : Reach cfg id s) : ∀ o ∈ s.objs, o.rooms.Nodup := by
  refine reach_invariant (fun s => ∀ o ∈ s.objs, o.rooms.Nodup) ?_ ?_ h
  · unfold newConn; split <;> simp
  · intro s s' hf hs
    have mod : ∀ (obj : Nat) (f : List Bytes → List Bytes), (∀ l, l.Nodup → (f l).Nodup) →
        ∀ o ∈ (s.setRooms obj f).objs, o.rooms.Nodup := by
      intro obj f hf o ho
      obtain ⟨i, hi⟩ := List.mem_iff_getElem?.mp ho
      unfold St.setRooms at hi
      simp only [List.getElem?_modify] at hi
      cases hj : s.objs[i]? with
      | none => rw [hj] at hi; simp at hi
      | some x =>
        rw [hj] at hi
        have hx := hs x (List.mem_of_getElem? hj)
        by_cases e : obj = i
        · simp [e] at hi; subst hi; exact hf _ hx
        · simp [e] at hi; subst hi; exact hx
    cases hf with
    | newObj ns =>
      intro o ho
      rcases List.mem_append.mp ho with ho | ho
      · exact hs o ho
      · simp at ho; subst ho; simp
    | addRoom obj room _ =>
      refine mod obj _ ?_
      intro l hl
      unfold addRoom
      split
      · exact hl
      · rename_i hr; exact List.nodup_cons.mpr ⟨hr, hl⟩
    | delRoom obj room => exact mod obj _ (fun l hl => hl.filter _)
    | _ => exact hs

/-- an NSConn belongs to one namespace -/
theorem reach_inj (h : Reach cfg id s) (n m : Bytes) (obj : Nat) (h1 : s.namespace n = some obj)
    (h2 : s.namespace m = some obj) : n = m := by
  have hok := (reach_ok h).2
  have a := (hok n obj h1).2
  have b := (hok m obj h2).2
  rw [a] at b
  exact Option.some.inj b

theorem reach_nsName (h : Reach cfg id s) {ns : Bytes} {obj : Nat}
    (h1 : s.namespace ns = some obj) : s.nsName obj = ns := by
  have a := ((reach_ok h).2 ns obj h1).2
  unfold St.nsName
  cases hh : s.objs[obj]? with
  | none => rw [hh] at a; simp at a
  | some o => rw [hh] at a; simpa using a

theorem closeConn_log_notes (s : St) (hc : s.closed = false)
    (hk : (s.connected.map (·.1)).Nodup)
    (hinj : ∀ (n m : Bytes) (obj : Nat), s.namespace n = some obj → s.namespace m = some obj → n = m) :
    ∃ l, (closeConn cfg s).log = s.log ++ l ++ closeNotes cfg ∧ AllFired l := by
  cases hn : cfg.onlyNative with
  | true => exact ⟨[], by rw [closeConn_native hc hn]; simp, rfl, rfl, rfl⟩
  | false =>
    obtain ⟨l, nss, rs, h1, h2, h3, h4, h5, _⟩ := closeConn_open hc hn hk hinj
    exact ⟨l, by rw [h5], h4⟩

theorem connOk_inj {s : St} (hok : ConnOk cfg s) (n m : Bytes) (obj : Nat)
    (h1 : s.namespace n = some obj) (h2 : s.namespace m = some obj) : n = m := by
  have a := (hok n obj h1).2
  have b := (hok m obj h2).2
  rw [a] at b
  exact Option.some.inj b

theorem closingOf_notes : closingOf (closeNotes cfg) = closeNotes cfg := by
  unfold closeNotes; split <;> rfl

theorem newConn_connOk : ConnOk cfg (newConn cfg id) :=
  (reach_ok (Reach.init (cfg := cfg) (id := id))).2

theorem newConn_keys : ((newConn cfg id).connected.map (·.1)).Nodup :=
  reach_keys (Reach.init (cfg := cfg) (id := id))

theorem Fines.keys {s s' : St} (h : Fines cfg s s') (hs : (s.connected.map (·.1)).Nodup) :
    (s'.connected.map (·.1)).Nodup := by
  induction h with
  | refl => exact hs
  | tail _ hf ih =>
    cases hf with
    | nsAdd ns obj _ _ _ => exact mapSet_nodup ns obj ih
    | nsDel ns => exact mapDel_nodup ns ih
    | _ => exact ih

/-- The closing observations are made exactly once, when the connection is closed. -/
theorem reach_closing (h : Reach cfg id s) :
    closingOf s.log = if s.closed = true then closeNotes cfg else [] := by
  refine (reach_macro (fun s => (ConnOk cfg s ∧ (s.connected.map (·.1)).Nodup) ∧
    closingOf s.log = if s.closed = true then closeNotes cfg else []) ?_ ?_ h).2
  · refine ⟨⟨newConn_connOk, newConn_keys⟩, ?_⟩
    unfold newConn; split <;> rfl
  · rintro s s' hp ⟨⟨hok, hk⟩, hs⟩
    refine ⟨⟨Fines.connOk hp.fines hok, Fines.keys hp.fines hk⟩, ?_⟩
    have same : ∀ t : St, t.closed = s.closed → closingOf t.log = closingOf s.log →
        closingOf t.log = if t.closed = true then closeNotes cfg else [] := by
      intro t h1 h2; rw [h1, h2]; exact hs
    cases hp with
    | note o ho =>
      refine same _ rfl ?_
      cases o <;> simp_all [St.emit, closingOf, Obs.isNote]
    | fired obj msg h ret _ _ => exact same _ rfl (by simp [St.emit, closingOf])
    | sentMsg msg b ok _ _ _ _ _ => exact same _ rfl (by simp [St.emit, closingOf])
    | sentReply w ok _ => exact same _ rfl (by simp [St.emit, closingOf])
    | sentAck b ok _ _ => exact same _ rfl (by simp [St.emit, closingOf])
    | close hc =>
      obtain ⟨l, hl, hf⟩ := closeConn_log_notes (cfg := cfg) s hc hk (connOk_inj hok)
      rw [closeConn_closed, hl, if_pos rfl]
      simp only [closingOf_append, hs, hc, hf.closing, closingOf_notes]
      simp
    | _ => exact same _ rfl rfl

/-- Membership is accepted by the local callbacks. -/
theorem reach_accepted (h : Reach cfg id s) :
    (cfg.onlyNative = false → ∀ ns obj, s.namespace ns = some obj → NsAccepted s.log obj) ∧
    (∀ obj room, room ∈ s.rooms obj → RoomAccepted s.log obj room) := by
  refine reach_invariant (fun s =>
    (cfg.onlyNative = false → ∀ ns obj, s.namespace ns = some obj → NsAccepted s.log obj) ∧
    (∀ obj room, room ∈ s.rooms obj → RoomAccepted s.log obj room)) ?_ ?_ h
  · unfold newConn
    constructor
    · intro hn ns obj hm
      rw [if_neg (by simp [hn])] at hm
      simp [St.namespace, mapGet] at hm
    · intro obj room hr
      split at hr
      · unfold St.rooms at hr
        simp only at hr
        cases obj <;> simp at hr
      · simp [St.rooms] at hr
  · intro s s' hf hs
    have hg := (Fine.grows hf).log
    have same : ∀ t : St, t.connected = s.connected → (∀ i, t.rooms i = s.rooms i) →
        s.log <+: t.log →
        (cfg.onlyNative = false → ∀ ns obj, t.namespace ns = some obj → NsAccepted t.log obj) ∧
        (∀ obj room, room ∈ t.rooms obj → RoomAccepted t.log obj room) := by
      intro t h1 h2 h3
      constructor
      · intro hn ns obj hm
        unfold St.namespace at hm
        rw [h1] at hm
        exact (hs.1 hn ns obj hm).mono h3
      · intro obj room hr
        rw [h2] at hr
        exact (hs.2 obj room hr).mono h3
    cases hf with
    | newObj ns =>
      refine same _ rfl ?_ hg
      intro i
      unfold St.rooms
      simp only
      by_cases hi : i < s.objs.length
      · rw [List.getElem?_append_left hi]
      · rw [List.getElem?_append_right (by omega), List.getElem?_eq_none (by omega : s.objs.length ≤ i)]
        cases hj : i - s.objs.length <;> simp
    | addRoom obj room hacc =>
      refine ⟨hs.1, ?_⟩
      intro i r hr
      by_cases hi : i = obj ∧ r = room
      · obtain ⟨rfl, rfl⟩ := hi; exact hacc
      · refine hs.2 i r ?_
        unfold St.setRooms St.rooms at hr
        unfold St.rooms
        simp only [List.getElem?_modify] at hr
        cases hj : s.objs[i]? with
        | none => rw [hj] at hr; simp at hr
        | some o =>
          rw [hj] at hr
          by_cases e : obj = i
          · subst e
            simp only [Option.map_eq_map, Option.map_some, if_true] at hr
            unfold addRoom at hr
            split at hr
            · exact hr
            · rcases List.mem_cons.mp hr with rfl | hr
              · exact absurd ⟨rfl, rfl⟩ hi
              · exact hr
          · simpa [e] using hr
    | delRoom obj room =>
      refine ⟨hs.1, ?_⟩
      intro i r hr
      rw [rooms_setRooms _ _ _ _ (by simp [delRoom])] at hr
      split at hr
      · exact hs.2 i r ((List.mem_filter.mp hr).1)
      · exact hs.2 i r hr
    | nsAdd ns obj hd hn hacc =>
      refine ⟨?_, hs.2⟩
      intro hno ns' obj' hm
      simp only [St.namespace, mapGet_mapSet] at hm
      split at hm
      · cases hm; exact hacc
      · exact hs.1 hno ns' obj' hm
    | nsDel ns =>
      refine ⟨?_, hs.2⟩
      intro hno ns' obj' hm
      simp only [St.namespace, mapGet_mapDel] at hm
      split at hm
      · simp at hm
      · exact hs.1 hno ns' obj' hm
    | note o _ => exact same _ rfl (fun _ => rfl) hg
    | fired obj msg h ret _ _ => exact same _ rfl (fun _ => rfl) hg
    | sentMsg msg b ok _ _ _ _ _ => exact same _ rfl (fun _ => rfl) hg
    | sentReply w ok _ => exact same _ rfl (fun _ => rfl) hg
    | sentAck b ok _ _ => exact same _ rfl (fun _ => rfl) hg
    | closeObs o _ _ => exact same _ rfl (fun _ => rfl) hg
    | _ => exact hs

end Neffos
