import Verif.Spec.Roster
import Verif.Props.Rest
/-!
# C131: what a server says about who is connected and who is in a namespace, against the records of the clients
-/
set_option autoImplicit false
namespace Neffos
open Spec

variable {cfg : NetCfg} {s : Net} {ops : List NetOp} {order : List Nat}

namespace Roster

theorem mem (ho : order.Perm s.loop.regs) {c : Nat} {x : St} : (c, x) ∈ roster s order ↔ c ∈ s.loop.regs ∧ x = (s.sess c).d := by
  unfold roster
  rw [List.mem_map]
  constructor
  · rintro ⟨d, h1, h2⟩
    cases h2
    exact ⟨ho.mem_iff.mp h1, rfl⟩
  · rintro ⟨h1, rfl⟩
    exact ⟨c, ho.mem_iff.mpr h1, rfl⟩

end Roster

/-- C131: GetConnections has every registered connection under its ID, in whatever order the map is ranged over, and nothing
else. -/
theorem c131_connections (ho : order.Perm s.loop.regs) :
    (∀ c ∈ s.loop.regs, OwnId s c → mapGet (getConnections (roster s order)) (s.sess c).d.id = some c) ∧
    ∀ k c, mapGet (getConnections (roster s order)) k = some c → c ∈ s.loop.regs ∧ (s.sess c).d.id = k := by
  have only : ∀ k c, mapGet (getConnections (roster s order)) k = some c → c ∈ s.loop.regs ∧ (s.sess c).d.id = k := by
    intro k c h
    obtain ⟨x, h1, h2⟩ := (c53_connections (roster s order) k).1 c h
    obtain ⟨q1, rfl⟩ := (Roster.mem ho).mp h1
    exact ⟨q1, h2⟩
  refine ⟨fun c hc hid => ?_, only⟩
  have := (c53_connections (roster s order) (s.sess c).d.id).2.mpr ⟨c, _, (Roster.mem ho).mpr ⟨hc, rfl⟩, rfl⟩
  obtain ⟨d, hd⟩ := Option.isSome_iff_exists.mp this
  obtain ⟨h1, h2⟩ := only _ _ hd
  rw [hd, hid d h1 h2]

/-- C131: GetConnectionsByNamespace has a registered connection under its ID, with its NSConn of the namespace, exactly if its
client is in the namespace by the client's own records, while no call in flight is about this namespace. -/
theorem c131_by_namespace (ht : Town cfg) (h : TownRun cfg ops s) (ho : order.Perm s.loop.regs) {c : Nat} (hc : c ∈ s.loop.regs)
    (hid : OwnId s c) (hop : BothOpen (s.sess c)) {ns : Bytes} (hf : NsFree (s.sess c) ns) :
    (InNs (s.sess c).c ns → ∃ obj, (s.sess c).d.namespace ns = some obj ∧
      mapGet (getConnectionsByNamespace (roster s order) ns) (s.sess c).d.id = some (c, obj)) ∧
    (¬ InNs (s.sess c).c ns → mapGet (getConnectionsByNamespace (roster s order) ns) (s.sess c).d.id = none) := by
  obtain ⟨os, hr⟩ := Town.session ht h c
  have hag := c89_namespaces (ht.callbacks c) (ht.client c).1 (ht.server c).1 (ht.client c).2 (ht.server c).2 hr hop.1 hop.2
    (n := ns) (fun a ha => hf a (List.mem_append_left _ ha)) (fun a ha => hf a (List.mem_append_right _ ha))
  have h53 := c53_by_namespace (roster s order) ns (s.sess c).d.id
  have only : ∀ d obj, mapGet (getConnectionsByNamespace (roster s order) ns) (s.sess c).d.id = some (d, obj) →
      d = c ∧ (s.sess c).d.namespace ns = some obj := by
    intro d obj hd
    obtain ⟨x, h1, h2, h3⟩ := h53.1 d obj hd
    obtain ⟨q1, rfl⟩ := (Roster.mem ho).mp h1
    have := hid d q1 h2
    subst this
    exact ⟨rfl, h3⟩
  constructor
  · intro hin
    have hin := hag.mp hin
    unfold InNs at hin
    have := h53.2.mpr ⟨c, _, (Roster.mem ho).mpr ⟨hc, rfl⟩, rfl, by
      cases hx : (s.sess c).d.namespace ns with
      | none => exact absurd hx hin
      | some _ => rfl⟩
    obtain ⟨⟨d, obj⟩, hd⟩ := Option.isSome_iff_exists.mp this
    obtain ⟨rfl, h2⟩ := only d obj hd
    exact ⟨obj, h2, hd⟩
  · intro hout
    cases hx : mapGet (getConnectionsByNamespace (roster s order) ns) (s.sess c).d.id with
    | none => rfl
    | some e =>
      obtain ⟨d, obj⟩ := e
      refine absurd (hag.mpr ?_) hout
      unfold InNs
      rw [(only d obj hx).2]
      simp

/-- C131: it lists no connection that is not registered, and none under an ID that is not its own. -/
theorem c131_only (ho : order.Perm s.loop.regs) {ns k : Bytes} {c obj : Nat}
    (h : mapGet (getConnectionsByNamespace (roster s order) ns) k = some (c, obj)) :
    c ∈ s.loop.regs ∧ (s.sess c).d.id = k ∧ (s.sess c).d.namespace ns = some obj := by
  obtain ⟨x, h1, h2, h3⟩ := (c53_by_namespace (roster s order) ns k).1 c obj h
  obtain ⟨q1, rfl⟩ := (Roster.mem ho).mp h1
  exact ⟨q1, h2, h3⟩

/-- C131: when a server has come to rest with its clients, this holds for all of them and for every namespace, and each client
has the same rooms as its connection. -/
theorem c131_rest {U : Nat → List Message} {D : Nat → List (Option Nat × Message)} (hp : Parade cfg)
    (h : ParadeRun cfg ops s U D) (hq : Serving s) (hend : ∀ op, SettlingNet op → s.step cfg op = none)
    (ho : order.Perm s.loop.regs) {c : Nat} (hc : c ∈ s.loop.regs) (hid : OwnId s c) :
    (∀ ns, (mapGet (getConnectionsByNamespace (roster s order) ns) (s.sess c).d.id).isSome = true ↔ InNs (s.sess c).c ns) ∧
    ∀ ns room, InRoom (s.sess c).c ns room ↔ InRoom (s.sess c).d ns room := by
  have hmade : s.loop.made c = true := by
    have hpl := lreach_placed (Parade.ok h).loop c
    have hreg : 0 < s.loop.regs.count c := List.count_pos_iff.mpr hc
    have := hpl.sent
    have h2 := hpl.reg
    have hup : (s.loop.conn c).up = .sent := by
      by_cases e : (s.loop.conn c).up = .sent
      · exact e
      · simp [b01, e] at this
        omega
    unfold LSt.made
    unfold LSt.conn at hup
    cases hx : s.loop.conns[c]? with
    | none => rw [hx] at hup; cases hup
    | some x => rw [hx] at hup; simp_all
  obtain ⟨_, _, hr⟩ := c130_rest hp h hq hend
  obtain ⟨_, _, r1, r2⟩ := hr c hmade
  have hop := hq.sess c hmade
  have hf : ∀ ns, NsFree (s.sess c) ns := by
    intro ns a ha hd
    rcases List.mem_append.mp ha with ha | ha
    · rw [r1 a ha] at hd; cases hd
    · rw [r2 a ha] at hd; cases hd
  refine ⟨fun ns => ?_, fun ns room => ?_⟩
  · obtain ⟨k1, k2⟩ := c131_by_namespace hp.town (Parade.town h) ho hc hid ⟨hop.cli, hop.srv⟩ (hf ns)
    constructor
    · intro hx
      refine Classical.byContradiction fun hn => ?_
      rw [k2 hn] at hx; cases hx
    · intro hx
      obtain ⟨obj, _, e⟩ := k1 hx
      rw [e]; rfl
  · obtain ⟨os, hb⟩ := Town.session hp.town (Parade.town h) c
    exact (c89_agree (hp.town.callbacks c) (hp.town.client c).1 (hp.town.server c).1 (hp.town.client c).2 (hp.town.server c).2 hb
      hop.cli hop.srv r1 r2).2 ns room

/-! ## An example -/

/-- C131, the premises for the run of C125 in which calls are in flight: both clients are in `chat`, only the first has joined
`q`; and what GetConnectionsByNamespace says -/
example : (∀ c ∈ squareServed.loop.regs, OwnId squareServed c ∧ BothOpen (squareServed.sess c) ∧ NsFree (squareServed.sess c) (b! "chat")) ∧
    squareServed.loop.regs = [1, 0] ∧
    (∀ c ∈ [0, 1], (mapGet (getConnectionsByNamespace (roster squareServed [0, 1]) (b! "chat")) (squareServed.sess c).d.id).map (·.1) = some c ∧
      mapGet (getConnectionsByNamespace (roster squareServed [0, 1]) (b! "lobby")) (squareServed.sess c).d.id = none ∧
      mapGet (getConnections (roster squareServed [0, 1])) (squareServed.sess c).d.id = some c) := by
  have h : squareServed.loop.regs = [1, 0] ∧ (∀ c ∈ [1, 0], (squareServed.sess c).c.closed = false ∧ (squareServed.sess c).d.closed = false ∧
      elsewhere (squareServed.sess c) (b! "chat") = true ∧
      ∀ d ∈ [1, 0], (squareServed.sess d).d.id = (squareServed.sess c).d.id → d = c) := by decide +kernel
  refine ⟨fun c hc => ?_, h.1, by decide +kernel⟩
  rw [h.1] at hc
  obtain ⟨h1, h2, h3, h4⟩ := h.2 c hc
  refine ⟨?_, ⟨h1, h2⟩, ?_⟩
  · unfold OwnId
    rw [h.1]; exact h4
  · have := placeFree_of (m := { ns := b! "chat" }) h3
    exact this

/-- the premises of `c131_rest`: the end of the run of C130; the first client is in `chat`, the second has left it -/
example : Parade paradeCfg ∧ (∃ U D, ParadeRun paradeCfg (restOps ++ restEnd) (restAt (restOps ++ restEnd)).1 U D) ∧
    Serving (restAt (restOps ++ restEnd)).1 ∧ (∀ op, SettlingNet op → (restAt (restOps ++ restEnd)).1.step paradeCfg op = none) ∧
    (restAt (restOps ++ restEnd)).1.loop.regs = [1, 0] ∧ (∀ c ∈ [1, 0], OwnId (restAt (restOps ++ restEnd)).1 c) ∧
    (((restAt (restOps ++ restEnd)).1.sess 0).c.namespace (b! "chat")).isSome = true ∧
    (((restAt (restOps ++ restEnd)).1.sess 1).c.namespace (b! "chat")).isSome = false := by
  have hq := (c130_bound parade_meets rest_ops rest_serving rest_end rest_settling).1
  have h : (restAt (restOps ++ restEnd)).1.loop.regs = [1, 0] ∧ ∀ c ∈ [1, 0], ∀ d ∈ [1, 0],
      ((restAt (restOps ++ restEnd)).1.sess d).d.id = ((restAt (restOps ++ restEnd)).1.sess c).d.id → d = c := by decide +kernel
  refine ⟨parade_meets, ⟨_, _, rest_end⟩, hq, c130_nothing parade_meets rest_end hq (by decide +kernel), h.1, fun c hc => ?_, by decide +kernel⟩
  unfold OwnId
  rw [h.1]; exact h.2 c hc

end Neffos
