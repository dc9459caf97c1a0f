import Verif.Model.Timeouts
import Verif.Props.Socket
import Verif.Props.Handlers
/-!
# C115: the timeouts of connections
-/
set_option autoImplicit false
namespace Neffos

namespace Spec

/-- The calls made so far, with the numbers given out: how many structs, servers and connections they made. -/
def isStruct : TimeOp → Bool
  | .newStruct => true
  | _ => false
def isServer : TimeOp → Bool
  | .newServer _ => true
  | _ => false
def isConn : TimeOp → Bool
  | .upgrade _ => true
  | .dial _ => true
  | _ => false

/-- the timeouts set last for struct `k` by these calls, zero if there are none -/
def setLast (k : Nat) (before : List TimeOp) : Int × Int :=
  match before.reverse.findSome? (fun op =>
    match op with
    | .setTimeouts k' r w => if k' = k then some (r, w) else none
    | _ => none) with
  | some t => t
  | none => (0, 0)

/-- the timeouts that a handler has after these calls -/
def handlerTimeouts (before : List TimeOp) : HRef → Int × Int
  | .withTimeout r w => (r, w)
  | .struct k => setLast k before
  | _ => (0, 0)

/-- the call that makes number `n` of its kind -/
def MadeBy (kind : TimeOp → Bool) (ops : List TimeOp) (n : Nat) (before : List TimeOp) (op : TimeOp) : Prop :=
  ∃ after, ops = before ++ op :: after ∧ kind op = true ∧ before.countP kind = n

end Spec
open Neffos.Spec

namespace Times

theorem run_append {s t : TimeSt} {a : List TimeOp} (h : s.run a = some t) (b : List TimeOp) :
    s.run (a ++ b) = t.run b := by
  induction a generalizing s with
  | nil => cases h; rfl
  | cons op a ih =>
    simp only [TimeSt.run, List.cons_append] at h ⊢
    cases hs : s.step op with
    | none => simp [hs] at h
    | some u => simp only [hs, Option.bind_some] at h ⊢; exact ih h

theorem run_split {s t : TimeSt} {a b : List TimeOp} (h : s.run (a ++ b) = some t) :
    ∃ u, s.run a = some u ∧ u.run b = some t := by
  induction a generalizing s with
  | nil => exact ⟨s, rfl, h⟩
  | cons op a ih =>
    simp only [TimeSt.run, List.cons_append] at h ⊢
    cases hs : s.step op with
    | none => simp [hs] at h
    | some u => simp only [hs, Option.bind_some] at h ⊢; exact ih h

theorem setLast_snoc (k : Nat) (ops : List TimeOp) (op : TimeOp) :
    setLast k (ops ++ [op]) = match op with
      | .setTimeouts k' r w => if k' = k then (r, w) else setLast k ops
      | _ => setLast k ops := by
  simp only [setLast, List.reverse_append, List.reverse_cons, List.reverse_nil, List.nil_append, List.cons_append,
    List.findSome?_cons]
  cases op with
  | setTimeouts k' r w =>
    by_cases h : k' = k <;> simp [h]
  | _ => rfl

/-- no call sets the timeouts of a struct that does not exist yet -/
structure Kept (ops : List TimeOp) (s : TimeSt) : Prop where
  structs : ∀ k t, s.structs[k]? = some t → t = setLast k ops
  fresh : ∀ k, s.structs.length ≤ k → setLast k ops = (0, 0)
  nStructs : s.structs.length = ops.countP isStruct
  nServers : s.servers.length = ops.countP isServer
  nConns : s.conns.length = ops.countP isConn

theorem kept_step {ops : List TimeOp} {s s' : TimeSt} {op : TimeOp} (h : Kept ops s) (hs : s.step op = some s') :
    Kept (ops ++ [op]) s' := by
  cases op with
  | newStruct =>
    cases hs
    refine ⟨fun k t hk => ?_, fun k hk => ?_, by simp [h.nStructs, isStruct], by simp [h.nServers, isServer],
      by simp [h.nConns, isConn]⟩
    · rw [setLast_snoc]
      rw [List.getElem?_append] at hk
      split at hk
      · exact h.structs k t hk
      · rename_i hlt
        rw [List.getElem?_singleton] at hk
        split at hk
        · cases hk; exact (h.fresh k (by omega)).symm
        · cases hk
    · rw [setLast_snoc]
      exact h.fresh k (by simp at hk; omega)
  | setTimeouts k' r w =>
    simp only [TimeSt.step] at hs
    split at hs
    · rename_i hlt
      cases hs
      refine ⟨fun k t hk => ?_, fun k hk => ?_, by simp [h.nStructs, isStruct], by simp [h.nServers, isServer],
        by simp [h.nConns, isConn]⟩
      · rw [setLast_snoc]
        simp only [List.getElem?_set] at hk
        split at hk
        · rename_i e
          subst e
          cases hk
          simp
        · rename_i e
          simp only [e, if_false]
          exact h.structs k t hk
      · rw [setLast_snoc]
        simp only [List.length_set] at hk
        have : k' ≠ k := by omega
        simp only [this, if_false]
        exact h.fresh k hk
    · cases hs
  | newServer hd =>
    simp only [TimeSt.step, Option.map_eq_some_iff] at hs
    obtain ⟨t, _, rfl⟩ := hs
    exact ⟨fun k t hk => by rw [setLast_snoc]; exact h.structs k t hk, fun k hk => by rw [setLast_snoc]; exact h.fresh k hk,
      by simp [h.nStructs, isStruct], by simp [h.nServers, isServer], by simp [h.nConns, isConn]⟩
  | upgrade i =>
    simp only [TimeSt.step, Option.map_eq_some_iff] at hs
    obtain ⟨t, _, rfl⟩ := hs
    exact ⟨fun k t hk => by rw [setLast_snoc]; exact h.structs k t hk, fun k hk => by rw [setLast_snoc]; exact h.fresh k hk,
      by simp [h.nStructs, isStruct], by simp [h.nServers, isServer], by simp [h.nConns, isConn]⟩
  | dial hd =>
    simp only [TimeSt.step, Option.map_eq_some_iff] at hs
    obtain ⟨t, _, rfl⟩ := hs
    exact ⟨fun k t hk => by rw [setLast_snoc]; exact h.structs k t hk, fun k hk => by rw [setLast_snoc]; exact h.fresh k hk,
      by simp [h.nStructs, isStruct], by simp [h.nServers, isServer], by simp [h.nConns, isConn]⟩

theorem kept_run {pre ops : List TimeOp} {s s' : TimeSt} (h : Kept pre s) (hr : s.run ops = some s') :
    Kept (pre ++ ops) s' := by
  induction ops generalizing s pre with
  | nil => cases hr; simpa using h
  | cons op ops ih =>
    simp only [TimeSt.run] at hr
    cases hs : s.step op with
    | none => simp [hs] at hr
    | some u =>
      simp only [hs, Option.bind_some] at hr
      have := ih (kept_step h hs) hr
      simpa using this

theorem kept_all {ops : List TimeOp} {s : TimeSt} (h : TimeSt.run {} ops = some s) : Kept ops s := by
  have h0 : Kept [] {} := ⟨by simp, fun _ _ => rfl, rfl, rfl, rfl⟩
  simpa using kept_run h0 h

/-- what was made stays as it is -/
theorem grows_step {s s' : TimeSt} {op : TimeOp} (hs : s.step op = some s') :
    s.servers <+: s'.servers ∧ s.conns <+: s'.conns := by
  cases op with
  | newStruct => cases hs; exact ⟨List.prefix_rfl, List.prefix_rfl⟩
  | setTimeouts k r w =>
    simp only [TimeSt.step] at hs
    split at hs <;> cases hs
    exact ⟨List.prefix_rfl, List.prefix_rfl⟩
  | newServer hd =>
    simp only [TimeSt.step, Option.map_eq_some_iff] at hs
    obtain ⟨t, _, rfl⟩ := hs
    exact ⟨List.prefix_append _ _, List.prefix_rfl⟩
  | upgrade i =>
    simp only [TimeSt.step, Option.map_eq_some_iff] at hs
    obtain ⟨t, _, rfl⟩ := hs
    exact ⟨List.prefix_rfl, List.prefix_append _ _⟩
  | dial hd =>
    simp only [TimeSt.step, Option.map_eq_some_iff] at hs
    obtain ⟨t, _, rfl⟩ := hs
    exact ⟨List.prefix_rfl, List.prefix_append _ _⟩

theorem grows {ops : List TimeOp} {s s' : TimeSt} (h : s.run ops = some s') :
    s.servers <+: s'.servers ∧ s.conns <+: s'.conns := by
  induction ops generalizing s with
  | nil => cases h; exact ⟨List.prefix_rfl, List.prefix_rfl⟩
  | cons op ops ih =>
    simp only [TimeSt.run] at h
    cases hs : s.step op with
    | none => simp [hs] at h
    | some u =>
      simp only [hs, Option.bind_some] at h
      exact ⟨(grows_step hs).1.trans (ih h).1, (grows_step hs).2.trans (ih h).2⟩

theorem prefix_get {α : Type} {l l' : List α} {n : Nat} {x : α} (h : l <+: l') (hx : l[n]? = some x) : l'[n]? = some x := by
  obtain ⟨t, rfl⟩ := h
  rw [List.getElem?_append_left (by
    rcases Nat.lt_or_ge n l.length with h | h
    · exact h
    · rw [List.getElem?_eq_none h] at hx; cases hx)]
  exact hx

theorem timeouts_eq {ops : List TimeOp} {s : TimeSt} (h : Kept ops s) {hd : HRef} {t : Int × Int}
    (ht : s.timeouts hd = some t) : t = handlerTimeouts ops hd := by
  cases hd with
  | withTimeout r w => cases ht; rfl
  | struct k => exact h.structs k t ht
  | plain => cases ht; rfl
  | joined hs => cases ht; rfl

end Times
open Times

variable {ops : List TimeOp} {s : TimeSt}

/-- C115: a server has, for good, the timeouts that its handler had when it was made. -/
theorem c115_server (hr : TimeSt.run {} ops = some s) {i : Nat} {before : List TimeOp} {h : HRef}
    (hm : MadeBy isServer ops i before (.newServer h)) : s.servers[i]? = some (handlerTimeouts before h) := by
  obtain ⟨after, rfl, _, hn⟩ := hm
  obtain ⟨u, h1, h2⟩ := run_split hr
  have hk := kept_all h1
  simp only [TimeSt.run] at h2
  cases hs : u.step (.newServer h) with
  | none => simp [hs] at h2
  | some v =>
    simp only [hs, Option.bind_some] at h2
    refine prefix_get (grows h2).1 ?_
    simp only [TimeSt.step, Option.map_eq_some_iff] at hs
    obtain ⟨t, ht, rfl⟩ := hs
    rw [timeouts_eq hk ht]
    simp [← hn, ← hk.nServers]

/-- C115: a connection of a server has, for good, the timeouts that the server's handler had when the server was
made, whatever was set between then and the Upgrade, or later. -/
theorem c115_upgrade (hr : TimeSt.run {} ops = some s) {j i : Nat} {before before' : List TimeOp} {h : HRef}
    (hm : MadeBy isConn ops j before (.upgrade i)) (hm' : MadeBy isServer ops i before' (.newServer h)) :
    s.conns[j]? = some (handlerTimeouts before' h) := by
  have hsrv := c115_server hr hm'
  obtain ⟨after, rfl, _, hn⟩ := hm
  obtain ⟨u, h1, h2⟩ := run_split hr
  have hk := kept_all h1
  have hg := (grows h2).1
  simp only [TimeSt.run] at h2
  cases hs : u.step (.upgrade i) with
  | none => simp [hs] at h2
  | some v =>
    simp only [hs, Option.bind_some] at h2
    refine prefix_get (grows h2).2 ?_
    simp only [TimeSt.step, Option.map_eq_some_iff] at hs
    obtain ⟨t, ht, rfl⟩ := hs
    have := prefix_get hg ht
    rw [hsrv] at this
    cases this
    simp [← hn, ← hk.nConns]

/-- C115: a connection of a client has, for good, the timeouts that the handler had at the Dial; without handler none. -/
theorem c115_dial (hr : TimeSt.run {} ops = some s) {j : Nat} {before : List TimeOp} {h : Option HRef}
    (hm : MadeBy isConn ops j before (.dial h)) :
    s.conns[j]? = some (match h with | some h => handlerTimeouts before h | none => (0, 0)) := by
  obtain ⟨after, rfl, _, hn⟩ := hm
  obtain ⟨u, h1, h2⟩ := run_split hr
  have hk := kept_all h1
  simp only [TimeSt.run] at h2
  cases hs : u.step (.dial h) with
  | none => simp [hs] at h2
  | some v =>
    simp only [hs, Option.bind_some] at h2
    refine prefix_get (grows h2).2 ?_
    simp only [TimeSt.step, Option.map_eq_some_iff] at hs
    obtain ⟨t, ht, rfl⟩ := hs
    rw [timeouts_eq hk ht]
    cases h with
    | none => simp [← hn, ← hk.nConns, handlerTimeouts]
    | some h => simp [← hn, ← hk.nConns]

/-- C115: that is the timeouts of `getTimeouts` for every kind of handler; for joined ones there are none. -/
theorem c115_kinds {α : Type} (rg : Ranges) (heap : Heap α) (hs : List Handlers) (rs : List HRef) (r w : Int) (m : NsMap)
    (e : Option Nat) (s : TimeSt) :
    s.timeouts (.withTimeout r w) = some (getTimeouts (.withTimeout r w m e)) ∧
    s.timeouts (.joined rs) = some (getTimeouts (joinHandlers rg heap hs).2) ∧
    s.timeouts .plain = some (getTimeouts (.namespaces m)) ∧ s.timeouts .plain = some (getTimeouts (.events e)) := by
  refine ⟨rfl, ?_, rfl, rfl⟩
  rw [c56_refuted]
  rfl

namespace Times

theorem gobwas_some {t : Nat} (ht : 0 < t) (items : List Item) (now : Nat) (dl : Option Nat) :
    ∃ r s', gobwasRead t now dl items = some (r, s') ∧ ∀ x, r = .ok x → s'.rest.length < items.length := by
  induction items generalizing now dl with
  | nil => exact ⟨_, _, by simp [gobwasRead, setDeadline, ht]; exact ⟨rfl, rfl⟩, fun x hx => by cases hx⟩
  | cons i items ih =>
    have step : ∀ now' dl', ∃ r s', gobwasRead t now' dl' items = some (r, s') ∧
        ∀ x, r = .ok x → s'.rest.length < (i :: items).length := by
      intro now' dl'
      obtain ⟨r, s', h1, h2⟩ := ih now' dl'
      exact ⟨r, s', h1, fun x hx => by have := h2 x hx; simp; omega⟩
    simp only [gobwasRead]
    split
    · exact ⟨_, _, rfl, fun x hx => by cases hx⟩
    · split
      · exact ⟨_, _, rfl, fun x hx => by cases hx⟩
      · split
        · exact ⟨_, _, rfl, fun x hx => by cases hx⟩
        · split
          · split
            · exact ⟨_, _, rfl, fun x hx => by cases hx⟩
            · exact step _ _
          · split
            · split
              · exact ⟨_, _, rfl, fun x hx => by cases hx⟩
              · exact step _ _
            · split
              · exact ⟨_, _, rfl, fun x hx => by cases hx⟩
              · exact ⟨_, _, rfl, fun x hx => by simp⟩

theorem gorilla_some {d : Nat} (items : List Item) (now : Nat) :
    ∃ r s', gorillaMsg (some d) now items = some (r, s') ∧ ∀ x, r = .ok x → s'.rest.length < items.length := by
  induction items generalizing now with
  | nil => exact ⟨_, _, rfl, fun x hx => by cases hx⟩
  | cons i items ih =>
    have step : ∀ now', ∃ r s', gorillaMsg (some d) now' items = some (r, s') ∧
        ∀ x, r = .ok x → s'.rest.length < (i :: items).length := by
      intro now'
      obtain ⟨r, s', h1, h2⟩ := ih now'
      exact ⟨r, s', h1, fun x hx => by have := h2 x hx; simp; omega⟩
    simp only [gorillaMsg]
    split
    · exact ⟨_, _, rfl, fun x hx => by cases hx⟩
    · split
      · exact ⟨_, _, rfl, fun x hx => by simp⟩
      · exact step _
      · exact step _
      · exact ⟨_, _, rfl, fun x hx => by cases hx⟩
      · exact ⟨_, _, rfl, fun x hx => by cases hx⟩

theorem read_some (lib : SocketLib) {t : Nat} (ht : 0 < t) (s : SockRd) :
    ∃ r s', readData lib t s = some (r, s') ∧ ∀ x, r = .ok x → s'.rest.length < s.rest.length := by
  cases lib with
  | gobwas => exact gobwas_some ht s.rest s.now s.deadline
  | gorilla =>
    simp only [readData, gorillaRead, setDeadline, if_pos ht]
    exact gorilla_some s.rest s.now

theorem loop_ends (lib : SocketLib) {t : Nat} (ht : 0 < t) (pauses : List Nat) (s : SockRd)
    (hp : s.rest.length < pauses.length) : ∃ e, .error e ∈ readLoop lib t pauses s := by
  induction pauses generalizing s with
  | nil => simp at hp
  | cons p pauses ih =>
    obtain ⟨r, s', h1, h2⟩ := read_some lib ht s
    simp only [readLoop, h1]
    cases r with
    | error e => exact ⟨e, by simp⟩
    | ok x =>
      have hlt := h2 x rfl
      obtain ⟨e, he⟩ := ih { s' with now := s'.now + p } (by simp at hp ⊢; omega)
      exact ⟨e, by simp [he]⟩

end Times

/-- C115: the reader of a connection whose peer sends any finite number of readable frames and then nothing gives up
in the end exactly if the read timeout is positive; without one it waits for ever. -/
theorem c115_gives_up (lib : SocketLib) (read : Int) (items : List Item) (pauses : List Nat) (now : Nat)
    (ha : ∀ i ∈ items, Frame.Alive i.frame) (hr : ∀ i ∈ items, Frame.Readable lib i.frame)
    (hp : items.length < pauses.length) :
    (∃ e, .error e ∈ connReads lib read pauses now items) ↔ 0 < read := by
  constructor
  · rintro ⟨e, he⟩
    rcases Int.lt_or_le 0 read with h | h
    · exact h
    · have h0 : read.toNat = 0 := by omega
      rw [connReads, h0, c67_fifo_partial lib items pauses now ha hr] at he
      obtain ⟨x, _, hx⟩ := List.mem_map.mp he
      simp [delivered] at hx
  · intro h
    exact Times.loop_ends lib (by omega) pauses _ hp

/-- C115: so a connection made with joined handlers never gives up a peer that has gone silent, whatever timeouts
these handlers have. -/
theorem c115_joined (hr : TimeSt.run {} ops = some s) {j i : Nat} {before before' : List TimeOp} {hs : List HRef}
    (hm : MadeBy isConn ops j before (.upgrade i)) (hm' : MadeBy isServer ops i before' (.newServer (.joined hs)))
    (lib : SocketLib) (items : List Item) (pauses : List Nat) (now : Nat) (ha : ∀ i ∈ items, Frame.Alive i.frame)
    (hd : ∀ i ∈ items, Frame.Readable lib i.frame) (hp : items.length < pauses.length) :
    ∃ t, s.conns[j]? = some t ∧ ∀ e, .error e ∉ connReads lib t.1 pauses now items := by
  refine ⟨(0, 0), c115_upgrade hr hm hm', fun e he => ?_⟩
  have := (c115_gives_up lib 0 items pauses now ha hd hp).mp ⟨e, he⟩
  omega

/-- a struct whose timeouts are set before and after `New`, and a Dial with it later -/
def timeRun : List TimeOp :=
  [.newStruct, .setTimeouts 0 5 6, .newServer (.struct 0), .setTimeouts 0 7 8, .upgrade 0, .dial (some (.struct 0)),
   .newServer (.joined [.withTimeout 1 2, .struct 0]), .upgrade 1, .dial none]

example : (TimeSt.run {} timeRun).map (·.conns) = some [(5, 6), (7, 8), (0, 0), (0, 0)] := by decide +kernel

example : MadeBy isConn timeRun 0 (timeRun.take 4) (.upgrade 0) ∧
    MadeBy isServer timeRun 0 (timeRun.take 2) (.newServer (.struct 0)) ∧
    MadeBy isConn timeRun 2 (timeRun.take 7) (.upgrade 1) ∧
    MadeBy isServer timeRun 1 (timeRun.take 6) (.newServer (.joined [.withTimeout 1 2, .struct 0])) :=
  ⟨⟨timeRun.drop 5, rfl, rfl, rfl⟩, ⟨timeRun.drop 3, rfl, rfl, rfl⟩, ⟨timeRun.drop 8, rfl, rfl, rfl⟩,
   ⟨timeRun.drop 7, rfl, rfl, rfl⟩⟩

/-- one message and silence: given up after 5, kept without timeout -/
example : connReads .gobwas 5 [0, 0, 0] 0 [⟨3, .data true [1]⟩] = [.ok ([1], .binary), .error errIOTimeout] ∧
    connReads .gobwas 0 [0, 0, 0] 0 [⟨3, .data true [1]⟩] = [.ok ([1], .binary)] := by
  constructor <;> rfl

end Neffos
