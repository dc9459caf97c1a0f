import Verif.Spec.Slice
import Verif.Props.Broadcast
/-!
# C109: what a connection is sent of a slice that is broadcast again and again
-/
set_option autoImplicit false
namespace Neffos
open Spec

variable {cfg : Cfg}

namespace Slice

/-- C13's write, from what it needs to know about the state -/
theorem write_sent {s : St} (hk : (s.connected.map (·.1)).Nodup)
    (hinj : ∀ (n m : Bytes) (obj : Nat), s.namespace n = some obj → s.namespace m = some obj → n = m) (msg : Message) :
    (MayWrite cfg s msg →
        ∃ rest, (write cfg s msg).1.log = s.log ++ .sent msg.setBinary (wireOf msg) (cfg.sock s.log msg.setBinary (wireOf msg)).isNone :: rest ∧
          sentOf rest = [] ∧
          ((write cfg s msg).1.closed = false →
            (write cfg s msg).1.connected = s.connected ∧ (write cfg s msg).1.objs = s.objs)) ∧
      (¬ MayWrite cfg s msg →
        (write cfg s msg).1.log = s.log ∧ (write cfg s msg).1.connected = s.connected ∧
        (write cfg s msg).1.objs = s.objs ∧ (write cfg s msg).1.closed = s.closed) := by
  refine ⟨fun hm => ?_, fun hm => ?_⟩
  · have hc := hm.1
    rw [write_eq, if_pos hm]
    have e := markReady_eq (cfg := cfg) s
    have hl : (s.markReady cfg).log = s.log := by rw [e]
    have hcc : (s.markReady cfg).closed = s.closed := by rw [e]
    unfold rawWrite
    dsimp only
    rw [hl]
    split
    · rename_i h
      refine ⟨[], by simp [St.emit, hl], rfl, fun _ => ⟨?_, ?_⟩⟩
      · simp only [St.emit]; rw [e]
      · simp only [St.emit]; rw [e]
    · rename_i h
      split
      · obtain ⟨rest, h1, h2⟩ := closeConn_sent (cfg := cfg)
          ((s.markReady cfg).emit (.sent msg.setBinary (wireOf msg)
            (cfg.sock s.log msg.setBinary (wireOf msg)).isNone))
          (by simp only [St.emit]; rw [hcc]; exact hc)
          (by simp only [St.emit]; rw [e]; exact hk)
          (by
            intro n m obj a1 a2
            unfold St.namespace at a1 a2
            simp only [St.emit] at a1 a2
            rw [e] at a1 a2
            exact hinj n m obj a1 a2)
        refine ⟨rest, by rw [h1]; simp [St.emit, hl], h2, ?_⟩
        intro hx
        rw [closeConn_closed] at hx
        simp at hx
      · refine ⟨[], by simp [St.emit, hl], rfl, fun _ => ⟨?_, ?_⟩⟩
        · simp only [St.emit]; rw [e]
        · simp only [St.emit]; rw [e]
  · have h1 := write_maynot hm
    exact ⟨by rw [h1.log]; simp, h1.connected, h1.objs, h1.closed⟩

/-- the marks of a message after a sequence of Broadcast calls -/
theorem stamps (uses : List Except) (msgs : List Message) :
    uses.foldl (fun ms e => stamp e ms) msgs =
      msgs.map (fun m => { m with sender := lastName m uses, fromExplicit := lastConn m uses }) := by
  induction uses generalizing msgs with
  | nil => simp [lastName, lastConn]
  | cons e uses ih =>
    rw [List.foldl_cons, ih]
    cases e with
    | nil => rfl
    | conn sid =>
      simp only [stamp, List.map_map]
      apply List.map_congr_left
      intro m _
      simp only [Function.comp, lastName, lastConn, List.filterMap_cons, List.getLastD_cons]
    | nsConn sid =>
      simp only [stamp, List.map_map]
      apply List.map_congr_left
      intro m _
      simp only [Function.comp, lastName, lastConn, List.filterMap_cons, List.getLastD_cons]
    | stringer x =>
      simp only [stamp, List.map_map]
      apply List.map_congr_left
      intro m _
      by_cases hx : x = []
      · simp only [Function.comp, lastName, lastConn, List.filterMap_cons, hx, ne_eq, not_true_eq_false, if_false, if_true,
          List.getLastD_cons]
      · simp only [Function.comp, lastName, lastConn, List.filterMap_cons, hx, ne_eq, not_false_eq_true, if_false, if_true,
          List.getLastD_cons]

/-- nothing that decides changes while the connection is open -/
structure Unmoved (s t : St) : Prop where
  id : t.id = s.id
  connected : t.connected = s.connected
  objs : t.objs = s.objs
  closed : t.closed = s.closed

theorem mayWrite_iff {s t : St} {uses : List Except} {m : Message} (hsrv : cfg.isClient = false) (h : Unmoved s t) :
    MayWrite cfg t { m with sender := lastName m uses, fromExplicit := lastConn m uses } ↔ Passes cfg s uses m := by
  unfold MayWrite Passes IsSender St.namespace St.rooms
  rw [h.closed, h.connected, h.objs]
  simp [hsrv]

end Slice

open Slice Classical in
/-- C109: the connection is handed the messages of its batch, in order, each once; all of them if it is still
open afterwards, and else a beginning of them. -/
theorem c109_sent {id0 : Bytes} {s : St} (hr : Reach cfg id0 s) (hsrv : cfg.isClient = false) (uses : List Except)
    (msgs : List Message) :
    ∃ k, sentOf (publishMessages cfg s (uses.foldl (fun ms e => stamp e ms) msgs)).1.log =
        sentOf s.log ++ (batchFor cfg s uses msgs).take k ∧
      ((publishMessages cfg s (uses.foldl (fun ms e => stamp e ms) msgs)).1.closed = false →
        (batchFor cfg s uses msgs).length ≤ k) := by
  rw [stamps]
  have hk := reach_keys hr
  have hinj := fun n m obj => reach_inj hr n m obj
  clear hr
  have main : ∀ t, Unmoved s t → ∃ k, sentOf (publishMessages cfg t (msgs.map (fun m =>
      { m with sender := lastName m uses, fromExplicit := lastConn m uses }))).1.log =
        sentOf t.log ++ (batchFor cfg s uses msgs).take k ∧
      ((publishMessages cfg t (msgs.map (fun m =>
          { m with sender := lastName m uses, fromExplicit := lastConn m uses }))).1.closed = false →
        (batchFor cfg s uses msgs).length ≤ k) := by
    induction msgs with
    | nil => intro t _; exact ⟨0, by simp [publishMessages], by simp [batchFor]⟩
    | cons m msgs ih =>
      intro t ht
      rw [List.map_cons]
      by_cases hl : LeavesAt s uses m
      · rw [publish_skip t _ _ (by simpa [LeavesAt, ht.id] using hl)]
        exact ⟨0, by simp, by simp [batchFor, hl]⟩
      · have hl1 : lastName m uses ≠ t.id := fun h => hl (.inl (h.trans ht.id))
        have hl2 : ¬ (m.to ≠ [] ∧ m.to ≠ t.id) := fun h => hl (.inr (ht.id ▸ h))
        simp only [publishMessages]
        rw [if_neg hl1, if_neg hl2]
        have hw := write_sent (cfg := cfg) (s := t) (by rw [ht.connected]; exact hk)
          (by unfold St.namespace; rw [ht.connected]; exact hinj)
          { m with sender := lastName m uses, fromExplicit := lastConn m uses }
        have hid := write_id (cfg := cfg) t { m with sender := lastName m uses, fromExplicit := lastConn m uses }
        rw [Slice.mayWrite_iff hsrv ht] at hw
        by_cases hp : Passes cfg s uses m
        · have hb : batchFor cfg s uses (m :: msgs) =
              (m.setBinary, wireOf m) :: batchFor cfg s uses msgs := by
            have : serializeMessage { m with fromExplicit := [], sender := [] } = some (wireOf m) := serialize_wireOf m
            simp [batchFor, hl, hp, this]
          rw [hb]
          obtain ⟨rest, h1, h2, h3⟩ := hw.1 hp
          generalize write cfg t { m with sender := lastName m uses, fromExplicit := lastConn m uses } = p at h1 h3 hid
          obtain ⟨u, ok⟩ := p
          dsimp only at h1 h3 hid ⊢
          have hs : sentOf u.log = sentOf t.log ++ [(m.setBinary, wireOf m)] := by
            rw [h1, sentOf_append]
            simp only [sentOf, h2]
            rfl
          cases hc : u.closed with
          | true =>
            refine ⟨1, ?_, ?_⟩
            · cases ok
              · simp [hs]
              · simp only [Bool.not_true, Bool.false_and, Bool.false_eq_true, if_false]
                rw [publish_closed u _ hc]
                simp [hs]
            · cases ok
              · simp [hc]
              · simp only [Bool.not_true, Bool.false_and, Bool.false_eq_true, if_false]
                rw [publish_closed u _ hc, hc]
                exact nofun
          | false =>
            obtain ⟨h4, h5⟩ := h3 hc
            obtain ⟨k, g1, g2⟩ := ih u ⟨hid.trans ht.id, h4.trans ht.connected, h5.trans ht.objs, by
              rw [hc]; exact hp.1.symm⟩
            refine ⟨k + 1, ?_, ?_⟩
            · simp [g1, hs]
            · simpa using g2
        · have hb : batchFor cfg s uses (m :: msgs) = batchFor cfg s uses msgs := by
            simp [batchFor, hl, hp]
          rw [hb]
          obtain ⟨h1, h2, h3, h4⟩ := hw.2 hp
          generalize write cfg t { m with sender := lastName m uses, fromExplicit := lastConn m uses } = p at h1 h2 h3 h4 hid
          obtain ⟨u, ok⟩ := p
          dsimp only at h1 h2 h3 h4 hid ⊢
          have hu : Unmoved s u := ⟨hid.trans ht.id, h2.trans ht.connected, h3.trans ht.objs, h4.trans ht.closed⟩
          cases hc : u.closed with
          | true =>
            cases ok
            · refine ⟨0, by simp [h1], by simp [hc]⟩
            · simp only [Bool.not_true, Bool.false_and, Bool.false_eq_true, if_false]
              rw [← h1]
              exact ih u hu
          | false =>
            simp only [Bool.and_false, Bool.false_eq_true, if_false]
            rw [← h1]
            exact ih u hu
  exact main s ⟨rfl, rfl, rfl, rfl⟩

/-- the argument names somebody by an ID -/
def NamesId (e : Except) : Prop := ∃ x, x ≠ [] ∧ e = .stringer x

/-- the argument writes the mark of a connection -/
def SetsConn : Except → Prop
  | .conn _ => True
  | .nsConn _ => True
  | .stringer x => x = []
  | .nil => False

namespace Slice

theorem lastName_snoc (m : Message) (uses : List Except) (e : Except) :
    (∀ x, x ≠ [] → e = .stringer x → lastName m (uses ++ [e]) = x) ∧
    (¬ NamesId e → lastName m (uses ++ [e]) = lastName m uses) := by
  constructor
  · rintro x hx rfl
    simp [lastName, hx]
  · intro h
    cases e with
    | nil => simp [lastName]
    | conn _ => simp [lastName]
    | nsConn _ => simp [lastName]
    | stringer x =>
      have : x = [] := Classical.byContradiction fun hx => h ⟨x, hx, rfl⟩
      simp [lastName, this]

theorem lastConn_snoc (m m' : Message) (uses : List Except) (e : Except) :
    (SetsConn e → lastConn m (uses ++ [e]) = lastConn m' [e]) ∧
    (¬ SetsConn e → lastConn m (uses ++ [e]) = lastConn m uses) := by
  cases e with
  | nil => simp [SetsConn, lastConn]
  | conn _ => simp [SetsConn, lastConn]
  | nsConn _ => simp [SetsConn, lastConn]
  | stringer x => by_cases hx : x = [] <;> simp [SetsConn, lastConn, hx]

theorem snoc_cases (uses : List Except) : uses = [] ∨ ∃ u e, uses = u ++ [e] := by
  rcases uses.eq_nil_or_concat with h | ⟨u, e, h⟩
  · exact .inl h
  · exact .inr ⟨u, e, by rw [h, List.concat_eq_append]⟩

end Slice

open Slice in
/-- C109: who an unmarked message is withheld from by ID: those with the ID that was named last, in this call or
any earlier one. -/
theorem c109_name (m : Message) (hm : m.sender = []) (uses : List Except) (x : Bytes) (hx : x ≠ []) :
    lastName m uses = x ↔ ∃ u v, uses = u ++ .stringer x :: v ∧ ∀ e ∈ v, ¬ NamesId e := by
  induction h : uses.length generalizing uses with
  | zero =>
    rw [List.length_eq_zero_iff] at h
    subst h
    simp [lastName, hm, Ne.symm hx]
  | succ n ih =>
    rcases snoc_cases uses with rfl | ⟨u, e, rfl⟩
    · cases h
    · have hn : u.length = n := by simpa using h
      by_cases he : NamesId e
      · obtain ⟨y, hy, rfl⟩ := he
        rw [(lastName_snoc m u _).1 y hy rfl]
        constructor
        · rintro rfl
          exact ⟨u, [], rfl, by simp⟩
        · rintro ⟨u', v, h1, h2⟩
          rcases snoc_cases v with rfl | ⟨v', e, rfl⟩
          · have := (List.append_inj' h1 rfl).2
            simpa using this
          · have : u ++ [Except.stringer y] = (u' ++ .stringer x :: v') ++ [e] := by simpa using h1
            have := (List.append_inj' this rfl).2
            simp only [List.cons.injEq, and_true] at this
            exact absurd ⟨y, hy, this.symm⟩ (h2 e (by simp))
      · rw [(lastName_snoc m u e).2 he, ih u hn]
        constructor
        · rintro ⟨u', v, rfl, h2⟩
          refine ⟨u', v ++ [e], by simp, fun e' h' => ?_⟩
          rcases List.mem_append.mp h' with h' | h'
          · exact h2 e' h'
          · rw [List.mem_singleton.mp h']; exact he
        · rintro ⟨u', v, h1, h2⟩
          rcases snoc_cases v with rfl | ⟨v', e', rfl⟩
          · have := (List.append_inj' h1 rfl).2
            simp only [List.cons.injEq, and_true] at this
            exact absurd ⟨x, hx, this⟩ he
          · have : u ++ [e] = (u' ++ .stringer x :: v') ++ [e'] := by simpa using h1
            exact ⟨u', v', (List.append_inj' this rfl).1, fun e hm => h2 e (by simp [hm])⟩

open Slice in
/-- C109: and which connection it is withheld from as such: the one that was named last by a Conn or NSConn, unless a
later argument with an empty `String()` took it back. -/
theorem c109_conn (m : Message) (hm : m.fromExplicit = []) (uses : List Except) (sid : Bytes) (hx : sid ≠ []) :
    lastConn m uses = sid ↔
      ∃ u e v, uses = u ++ e :: v ∧ (e = .conn sid ∨ e = .nsConn sid) ∧ ∀ e ∈ v, ¬ SetsConn e := by
  have one : ∀ e, SetsConn e → (lastConn m [e] = sid ↔ e = .conn sid ∨ e = .nsConn sid) := by
    intro e he
    cases e with
    | nil => exact he.elim
    | conn _ => simp [lastConn]
    | nsConn _ => simp [lastConn]
    | stringer x =>
      have : x = [] := he
      simp [lastConn, this, Ne.symm hx]
  induction h : uses.length generalizing uses with
  | zero =>
    rw [List.length_eq_zero_iff] at h
    subst h
    simp [lastConn, hm, Ne.symm hx]
  | succ n ih =>
    rcases snoc_cases uses with rfl | ⟨u, e, rfl⟩
    · cases h
    · have hn : u.length = n := by simpa using h
      by_cases he : SetsConn e
      · rw [(lastConn_snoc m m u e).1 he, one e he]
        constructor
        · intro h
          exact ⟨u, e, [], rfl, h, by simp⟩
        · rintro ⟨u', e', v, h1, h3, h2⟩
          rcases snoc_cases v with rfl | ⟨v', e'', rfl⟩
          · have := (List.append_inj' h1 rfl).2
            simp only [List.cons.injEq, and_true] at this
            rwa [this]
          · have : u ++ [e] = (u' ++ e' :: v') ++ [e''] := by simpa using h1
            have := (List.append_inj' this rfl).2
            simp only [List.cons.injEq, and_true] at this
            exact absurd (this ▸ he) (h2 e'' (by simp))
      · rw [(lastConn_snoc m m u e).2 he]
        refine Iff.trans (ih u hn) ?_
        constructor
        · rintro ⟨u', e', v, rfl, h3, h2⟩
          refine ⟨u', e', v ++ [e], by simp, h3, fun e' h' => ?_⟩
          rcases List.mem_append.mp h' with h' | h'
          · exact h2 e' h'
          · rw [List.mem_singleton.mp h']; exact he
        · rintro ⟨u', e', v, h1, h3, h2⟩
          rcases snoc_cases v with rfl | ⟨v', e'', rfl⟩
          · have := (List.append_inj' h1 rfl).2
            simp only [List.cons.injEq, and_true] at this
            subst this
            rcases h3 with rfl | rfl <;> exact absurd trivial he
          · have : u ++ [e] = (u' ++ e' :: v') ++ [e''] := by simpa using h1
            exact ⟨u', e', v', (List.append_inj' this rfl).1, h3, fun e hm => h2 e (by simp [hm])⟩

/-- A slice of two messages, broadcast with Exclude("a"), then with nobody: "a" is sent nothing of it, "b" both. -/
example :
    let cfg := serverCfg chatDecl noCb
    let ms : List Message := [{ ns := b! "chat", event := b! "e" }, { ns := b! "chat", event := b! "f" }]
    let uses : List Except := [.stringer (b! "a"), .nil]
    sentOf (publishMessages cfg (after cfg (b! "a") chatSrvOps) (uses.foldl (fun ms e => stamp e ms) ms)).1.log =
      sentOf (after cfg (b! "a") chatSrvOps).log ∧
    sentOf (publishMessages cfg (after cfg (b! "b") chatSrvOps) (uses.foldl (fun ms e => stamp e ms) ms)).1.log =
      sentOf (after cfg (b! "b") chatSrvOps).log ++ [(false, b! ";chat;;e;0;0;"), (false, b! ";chat;;f;0;0;")] := by
  decide +kernel

/-- The state of the example is one that `c109_sent` is about. -/
example : Reach (serverCfg chatDecl noCb) (b! "b") (after (serverCfg chatDecl noCb) (b! "b") chatSrvOps) ∧
    (serverCfg chatDecl noCb).isClient = false := ⟨after_reach (by decide +kernel), rfl⟩

end Neffos
