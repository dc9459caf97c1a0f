import Verif.Proofs.Ended
import Verif.Props.Lifecycle
/-!
# C127: exactly what a closed connection can still connect and join
-/
set_option autoImplicit false
namespace Neffos
open Neffos.Spec

variable {cfg : Cfg} {id : Bytes} {s s' : St}

/-- C127: on a closed connection, a step that connects a namespace or joins a room is one of the reader, or the return of a Connect or
JoinRoom of just that, whose answer without an error is in its channel. -/
theorem c127_step {op : Op} (hc : s.closed = true) (hn : cfg.onlyNative = false) (hs : step cfg s op = some s')
    (h1 : ¬ ReaderOp op) :
    (∀ ns obj, s'.namespace ns = some obj → s.namespace ns = some obj ∨
      ∃ i a m, op = .resume i ∧ s.asks[i]? = some a ∧ a.done = false ∧ a.box = some m ∧ m.err = none ∧ a.cont = .connect ns obj) ∧
    ∀ obj room, room ∈ s'.rooms obj → room ∈ s.rooms obj ∨
      ∃ i a m msg, op = .resume i ∧ s.asks[i]? = some a ∧ a.done = false ∧ a.box = some m ∧ m.err = none ∧
        a.cont = .join obj msg ∧ msg.room = room := by
  rcases Ended.who hc hn hs with h | ⟨i, a, m, h2, h3, h4, h5, h6, h7, h8⟩ | h
  · exact absurd h h1
  · refine ⟨fun ns obj h => (h7 ns obj h).imp_right fun e => ⟨i, a, m, h2, h3, h4, h5, h6, e⟩, fun obj room h => ?_⟩
    rcases h8 obj room h with h | ⟨msg, e, e'⟩
    · exact .inl h
    · exact .inr ⟨i, a, m, msg, h2, h3, h4, h5, h6, e, e'⟩
  · exact ⟨fun ns obj x => .inl (h.1 ns obj x), fun obj room x => .inl (h.2 obj room x)⟩

/-- C127: once the reader has ended, a namespace can ever be connected again exactly if it is, or a Connect of it waits that may still
succeed. -/
theorem c127_connects (hr : Reach cfg id s) (hc : s.closed = true) (hd : s.rd = .dead) (hn : cfg.onlyNative = false)
    (ns : Bytes) (obj : Nat) :
    (∃ t, Later cfg s t ∧ t.namespace ns = some obj) ↔
      s.namespace ns = some obj ∨ ∃ a ∈ s.asks, MaySucceed a ∧ a.cont = .connect ns obj := by
  constructor
  · rintro ⟨t, ht, h⟩
    exact (Ended.after_later hc hd hn ht).ns ns obj h
  · rintro (h | ⟨a, hm, ha, hk⟩)
    · exact ⟨s, .now, h⟩
    · obtain ⟨i, hi⟩ := List.mem_iff_getElem?.mp hm
      obtain ⟨t, b, m, h1, h2, h3, _, h5, h6, h7, h8, h9, h10⟩ := Ended.gets hn (reach_hung hr) hc hd hi ha
      obtain ⟨u, hu, hns⟩ := Ended.connects (cfg := cfg) h5 h2 h3 h6 h7 h9 h10 (h8.trans hk)
      exact ⟨u, .step h1 hu, hns⟩

/-- C127: once the reader has ended, a room can ever be joined again only if it is, or a JoinRoom of it waits that may still succeed. -/
theorem c127_joins (hc : s.closed = true) (hd : s.rd = .dead) (hn : cfg.onlyNative = false)
    {t : St} (ht : Later cfg s t) {obj : Nat} {room : Bytes} (h : room ∈ t.rooms obj) :
    room ∈ s.rooms obj ∨ ∃ a ∈ s.asks, MaySucceed a ∧ ∃ msg, a.cont = .join obj msg ∧ msg.room = room :=
  (Ended.after_later hc hd hn ht).rooms obj room h

/-- C127: and if the callbacks return no error, exactly then. -/
theorem c127_joins_iff (hr : Reach cfg id s) (hc : s.closed = true) (hd : s.rd = .dead) (hn : cfg.onlyNative = false)
    (hcb : ∀ log obj ev msg, (cfg.cb log obj ev msg).2 = none) (obj : Nat) (room : Bytes) :
    (∃ t, Later cfg s t ∧ room ∈ t.rooms obj) ↔
      room ∈ s.rooms obj ∨ ∃ a ∈ s.asks, MaySucceed a ∧ ∃ msg, a.cont = .join obj msg ∧ msg.room = room := by
  constructor
  · rintro ⟨t, ht, h⟩
    exact c127_joins hc hd hn ht h
  · rintro (h | ⟨a, hm, ha, msg, hk, rfl⟩)
    · exact ⟨s, .now, h⟩
    · obtain ⟨i, hi⟩ := List.mem_iff_getElem?.mp hm
      have hok := (reach_ok hr).1 a hm
      rw [hk] at hok
      have ho : obj < s.objs.length := by
        have := hok.1
        cases hg : s.objs[obj]? with
        | none => rw [hg] at this; cases this
        | some x => exact (List.getElem?_eq_some_iff.mp hg).1
      obtain ⟨t, b, m, h1, h2, h3, h4, h5, h6, h7, h8, h9, h10⟩ := Ended.gets hn (reach_hung hr) hc hd hi ha
      obtain ⟨u, hu, hin⟩ := Ended.joins (cfg := cfg) h5 h2 h3 h6 h7 h9 h10 (h8.trans hk) (by rw [h4]; exact ho)
        (fun t => by unfold verdict; split <;> (try split) <;> first | exact hcb _ _ _ _ | rfl)
      exact ⟨u, .step h1 hu, hin⟩

/-- C127: the calls that may still succeed become fewer: none begins after Close. -/
theorem c127_calls (hc : s.closed = true) (hd : s.rd = .dead) (hn : cfg.onlyNative = false) {t : St} (ht : Later cfg s t) :
    t.closed = true ∧ t.rd = .dead ∧ ∀ a' ∈ t.asks, MaySucceed a' → ∃ a ∈ s.asks, MaySucceed a ∧ a.cont = a'.cont :=
  have h := Ended.after_later hc hd hn ht
  ⟨h.closed, h.rd, h.asks⟩

/-- a client whose Connect got its answer, then its reader failed: the namespace is connected when the Connect returns -/
example : ∃ (cfg : Cfg) (s : St), Reach cfg [] s ∧ s.closed = true ∧ s.rd = .dead ∧ cfg.onlyNative = false ∧
    s.connected = [] ∧ ∃ t, Later cfg s t ∧ t.namespace (b! "chat") = some 0 :=
  ⟨clientCfg chatDecl noCb, after _ _ (chatOps.take 3 ++ [.readErr .eof]), after_reach (by decide +kernel),
    by decide +kernel, by decide +kernel, by decide +kernel, by decide +kernel, _,
    .step .now (after_step (op := .resume 0) (by decide +kernel)), by decide +kernel⟩

/-- a client whose JoinRoom got its answer, then its reader failed: the room is joined when the JoinRoom returns, in a namespace that is
not connected -/
example : ∃ (cfg : Cfg) (s : St), Reach cfg [] s ∧ s.closed = true ∧ s.rd = .dead ∧ cfg.onlyNative = false ∧
    (∀ log obj ev msg, (cfg.cb log obj ev msg).2 = none) ∧ s.rooms 0 = [] ∧
    (∃ a ∈ s.asks, MaySucceed a ∧ ∃ msg, a.cont = .join 0 msg ∧ msg.room = b! "r") ∧
    ∃ t, Later cfg s t ∧ t.rooms 0 = [b! "r"] ∧ t.connected = [] :=
  ⟨clientCfg chatDecl noCb, after _ _ (joinAnsOps ++ [.readErr .eof]), after_reach (by decide +kernel),
    by decide +kernel, by decide +kernel, by decide +kernel, fun _ _ _ _ => rfl, by decide +kernel,
    ⟨⟨b! "$9", .join 0 { ns := b! "chat", room := b! "r", event := OnRoomJoin, isLocal := true }, .table, some { wait := b! "$9" }, false⟩,
      by decide +kernel, ⟨rfl, .inr ⟨_, rfl, rfl⟩⟩, _, rfl, rfl⟩, _,
    .step .now (after_step (op := .resume 1) (by decide +kernel)), by decide +kernel, by decide +kernel⟩

end Neffos
