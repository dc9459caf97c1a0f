import Verif.Spec.Ended
import Verif.Proofs.ConnShut
import Verif.Proofs.ConnHandlers
import Verif.Props.Wire
/-!
Helper: what the steps of a closed connection can connect and join.
-/
set_option autoImplicit false
namespace Neffos.Ended
open Neffos.Spec

variable {cfg : Cfg}

/-- nothing is connected or joined -/
structure Less (s t : St) : Prop where
  ns : ∀ n o, t.namespace n = some o → s.namespace n = some o
  rooms : ∀ o r, r ∈ t.rooms o → r ∈ s.rooms o
  closed : s.closed = true → t.closed = true
  rd : t.rd = s.rd
  asks : t.asks = s.asks

theorem Less.refl (s : St) : Less s s := ⟨fun _ _ h => h, fun _ _ h => h, fun h => h, rfl, rfl⟩

theorem Less.trans {a b c : St} (h : Less a b) (k : Less b c) : Less a c :=
  ⟨fun n o x => h.ns n o (k.ns n o x), fun o r x => h.rooms o r (k.rooms o r x), fun x => k.closed (h.closed x),
    k.rd.trans h.rd, k.asks.trans h.asks⟩

theorem less_of {s t : St} (h1 : t.connected = s.connected) (h2 : t.objs = s.objs) (h3 : t.closed = s.closed)
    (h4 : t.rd = s.rd) (h5 : t.asks = s.asks) : Less s t :=
  ⟨fun n o x => by unfold St.namespace at x ⊢; rw [← h1]; exact x, fun o r x => by rw [← rooms_congr h2 o]; exact x,
    fun x => h3.trans x, h4, h5⟩

theorem calm : Calm Less where
  refl := Less.refl
  trans := Less.trans
  emit _ _ := less_of rfl rfl rfl rfl rfl
  ready _ _ := less_of rfl rfl rfl rfl rfl
  hang _ := less_of rfl rfl rfl rfl rfl
  del s obj room := by
    refine ⟨fun _ _ h => h, fun o r h => ?_, fun h => h, rfl, rfl⟩
    rw [rooms_setRooms _ _ _ _ rfl] at h
    split at h
    · rename_i e; exact (List.mem_filter.mp h).1
    · exact h
  nsDel s ns := by
    refine ⟨fun n o h => ?_, fun _ _ h => h, fun h => h, rfl, rfl⟩
    unfold St.namespace at h ⊢
    dsimp only at h
    rw [mapGet_mapDel] at h
    split at h
    · cases h
    · exact h
  closed _ := ⟨fun _ _ h => h, fun _ _ h => h, fun _ => rfl, rfl, rfl⟩
  waiting _ _ := less_of rfl rfl rfl rfl rfl
  unack _ _ := less_of rfl rfl rfl rfl rfl

theorem less_gateDone (s : St) (ns : Bytes) : Less s (gateDone s ns) := by
  unfold gateDone
  split
  · exact .refl s
  · split
    · exact .refl s
    · exact less_of rfl rfl rfl rfl rfl

theorem less_signalReady (s : St) (e : Option GoErr) : Less s (s.signalReady e) := by
  unfold St.signalReady; split
  · exact .refl s
  · exact less_of rfl rfl rfl rfl rfl

theorem less_finish_err (s : St) (k : Cont) (m : Message) (e : GoErr) : Less s (finish cfg s k m (some e)) := by
  cases k with
  | connect ns obj => exact (calm.emit _ _).trans (less_gateDone _ _)
  | _ => exact calm.emit _ _

theorem less_startAsk {s : St} (hc : s.closed = true) (hn : cfg.onlyNative = false) (k : Cont)
    (msg : Message) (now : Int) (ex : Bool) : Less s (startAsk cfg s k msg now ex) := by
  unfold startAsk
  rw [if_neg (by simp [hn]), if_pos hc]
  exact less_finish_err _ _ _ _

/-- every Ask that may succeed could before -/
def Asks (s t : St) : Prop := ∀ a' ∈ t.asks, MaySucceed a' → ∃ a ∈ s.asks, MaySucceed a ∧ a.cont = a'.cont

theorem Less.may {s t : St} (h : Less s t) : Asks s t := fun a' hm ha => ⟨a', h.asks ▸ hm, ha, rfl⟩

/-- what all steps but some keep -/
structure Kept (s t : St) : Prop where
  ns : ∀ n o, t.namespace n = some o → s.namespace n = some o
  rooms : ∀ o r, r ∈ t.rooms o → r ∈ s.rooms o
  closed : t.closed = true
  rd : t.rd = s.rd
  asks : Asks s t

theorem Less.kept {s t : St} (h : Less s t) (hc : s.closed = true) : Kept s t :=
  ⟨h.ns, h.rooms, h.closed hc, h.rd, h.may⟩

theorem asks_set {s : St} {i : Nat} {a b : AskRec} (ha : s.asks[i]? = some a) (hb : MaySucceed b → MaySucceed a)
    (hk : a.cont = b.cont) : ∀ a' ∈ s.asks.set i b, MaySucceed a' → ∃ a ∈ s.asks, MaySucceed a ∧ a.cont = a'.cont := by
  intro a' hm h
  rcases List.mem_or_eq_of_mem_set hm with hm | rfl
  · exact ⟨a', hm, h, rfl⟩
  · exact ⟨a, List.mem_of_getElem? ha, hb h, hk⟩

theorem kept_steal {s s' : St} {i : Nat} {m : Message} (hc : s.closed = true) (h : steal s i m = some s') : Kept s s' := by
  unfold steal at h
  split at h
  · cases h
  · rename_i a ha
    split at h
    · rename_i hm
      cases h
      exact ⟨fun _ _ h => h, fun _ _ h => h, hc, rfl, asks_set ha (fun h => ⟨h.1, .inl hm⟩) rfl⟩
    · cases h

theorem asks_end (s : St) (i : Nat) : Asks s (endAsk s i) := by
  intro a' hm h
  unfold endAsk at hm
  dsimp only at hm
  obtain ⟨j, hj⟩ := List.mem_iff_getElem?.mp hm
  rw [List.getElem?_modify] at hj
  cases hg : s.asks[j]? with
  | none => rw [hg] at hj; simp at hj
  | some a =>
    rw [hg] at hj
    simp only [Option.map_eq_map, Option.map_some, Option.some.injEq] at hj
    split at hj
    · subst hj; exact absurd h.1 (by simp)
    · subst hj; exact ⟨a, List.mem_of_getElem? hg, h, rfl⟩

theorem Asks.trans {a b c : St} (h : Asks a b) (k : Asks b c) : Asks a c := by
  intro x hm hx
  obtain ⟨y, hy, h1, h2⟩ := k x hm hx
  obtain ⟨z, hz, h3, h4⟩ := h y hy h1
  exact ⟨z, hz, h3, h4.trans h2⟩

/-- All operations but the reader's and the return of an Ask keep what there is. -/
theorem kept_other {s s' : St} {op : Op} (hc : s.closed = true) (hn : cfg.onlyNative = false)
    (h1 : ¬ ReaderOp op) (h2 : ∀ e, op ≠ .readErr e) (h3 : ∀ i, op ≠ .resume i)
    (h : step cfg s op = some s') : Kept s s' := by
  have he := (step_exec h).1
  cases op with
  | recv typ b => exact absurd trivial h1
  | readErr e => exact absurd rfl (h2 e)
  | wake => exact absurd trivial h1
  | contReader => exact absurd trivial h1
  | resume i => exact absurd rfl (h3 i)
  | connect ns now ex =>
    cases he
    refine Less.kept ?_ hc
    unfold connect
    dsimp only
    have hm : Less s (s.markReady cfg) := calm.markReady s
    revert hm
    generalize s.markReady cfg = s0
    intro hm
    split
    · exact hm
    · have hg : Less s (gateStart s0 ns) := hm.trans (by unfold gateStart; exact less_of rfl rfl rfl rfl rfl)
      revert hg
      generalize gateStart s0 ns = s1
      intro hg
      split
      · exact (hg.trans (calm.emit _ _)).trans (less_gateDone _ _)
      · split
        · exact (hg.trans (calm.emit _ _)).trans (less_gateDone _ _)
        · simp only [newObj]
          have h0 : Less s1 { s1 with objs := s1.objs ++ [⟨ns, []⟩] } := by
            refine ⟨fun _ _ h => h, fun i r hr => ?_, fun h => h, rfl, rfl⟩
            unfold St.rooms at hr ⊢
            simp only at hr
            rcases Nat.lt_trichotomy i s1.objs.length with h | h | h
            · rw [List.getElem?_append_left h] at hr; exact hr
            · subst h; simp at hr
            · have h2 : (s1.objs ++ [(⟨ns, []⟩ : NSObj)])[i]? = none := by simp; omega
              rw [h2] at hr; simp at hr
          have h1 := hg.trans h0
          have hf : Less _ (fire cfg { s1 with objs := s1.objs ++ [⟨ns, []⟩] } s1.objs.length
            { ns := ns, event := OnNamespaceConnect, isLocal := true }).1 := calm.fire _ _ _
          split
          · rename_i t e hfe
            rw [hfe] at hf
            exact ((h1.trans hf).trans (calm.emit _ _)).trans (less_gateDone _ _)
          · rename_i t hfe
            rw [hfe] at hf
            exact (h1.trans hf).trans (less_startAsk ((h1.trans hf).closed hc) hn _ _ _ _)
  | disconnect obj now ex =>
    simp only [exec] at he
    split at he
    · cases he
      refine Less.kept ?_ hc
      unfold disconnect
      dsimp only
      split
      · exact calm.emit _ _
      · exact less_startAsk hc hn _ _ _ _
    · cases he
  | join obj room now ex =>
    simp only [exec] at he
    split at he
    · cases he
      refine Less.kept ?_ hc
      unfold joinRoom
      dsimp only
      split
      · exact calm.emit _ _
      · exact less_startAsk hc hn _ _ _ _
    · cases he
  | leave obj room now ex =>
    simp only [exec] at he
    split at he
    · cases he
      refine Less.kept ?_ hc
      unfold leaveRoom
      dsimp only
      split
      · exact less_startAsk hc hn _ _ _ _
      · exact calm.emit _ _
    · cases he
  | ask msg now ex => cases he; exact (less_startAsk hc hn _ _ _ _).kept hc
  | write msg => cases he; exact (calm.write _ _).kept hc
  | cancel i e =>
    simp only [exec, cancel] at he
    split at he
    · cases he
    · split at he
      · cases he
      · cases he
        rename_i a ha _
        have hl := less_finish_err (cfg := cfg) (endAsk s i) a.cont {} errWrite
        exact ⟨fun n o h => hl.ns n o h, fun o r h => hl.rooms o r h, hl.closed hc, hl.rd, (asks_end s i).trans hl.may⟩
  | close => cases he; exact (calm.closeConn _).kept hc
  | steal i typ b => exact kept_steal hc he
  | stealErr i e => exact kept_steal hc he
  | ready e => cases he; exact (less_signalReady _ _).kept hc
  | sendAck =>
    simp only [exec] at he
    rw [if_neg (by simp [hn])] at he
    have hw : Less s (rawWrite cfg s (b! "M") false).1 := calm.rawWrite _ _ _
    revert he hw
    generalize rawWrite cfg s (b! "M") false = p
    obtain ⟨t, ok⟩ := p
    intro he hw
    cases ok with
    | true => cases he; exact hw.kept hc
    | false => cases he; exact (hw.trans (calm.closeConn _)).kept hc
  | srvAsk tok => cases he; exact Less.kept (less_of rfl rfl rfl rfl rfl) hc
  | srvUnask tok => cases he; exact Less.kept (less_of rfl rfl rfl rfl rfl) hc

/-- what an Ask that returns without error may connect and join -/
structure Grown (k : Cont) (s t : St) : Prop where
  ns : ∀ n o, t.namespace n = some o → s.namespace n = some o ∨ k = .connect n o
  rooms : ∀ o r, r ∈ t.rooms o → r ∈ s.rooms o ∨ ∃ msg, k = .join o msg ∧ msg.room = r
  closed : s.closed = true → t.closed = true
  rd : t.rd = s.rd
  asks : t.asks = s.asks

theorem Less.grown {s t : St} (h : Less s t) (k : Cont) : Grown k s t :=
  ⟨fun n o x => .inl (h.ns n o x), fun o r x => .inl (h.rooms o r x), h.closed, h.rd, h.asks⟩

theorem Grown.less {k : Cont} {s t u : St} (h : Grown k s t) (l : Less t u) : Grown k s u :=
  ⟨fun n o x => h.ns n o (l.ns n o x), fun o r x => h.rooms o r (l.rooms o r x), fun x => l.closed (h.closed x),
    l.rd.trans h.rd, l.asks.trans h.asks⟩

theorem Grown.after {k : Cont} {s t u : St} (l : Less s t) (h : Grown k t u) : Grown k s u :=
  ⟨fun n o x => (h.ns n o x).imp (l.ns n o) id, fun o r x => (h.rooms o r x).imp (l.rooms o r) id,
    fun x => h.closed (l.closed x), h.rd.trans l.rd, h.asks.trans l.asks⟩

theorem grown_finish (s : St) (k : Cont) (m : Message) : Grown k s (finish cfg s k m none) := by
  cases k with
  | connect ns obj =>
    unfold finish
    dsimp only
    have h0 : Grown (.connect ns obj) s { s with connected := mapSet s.connected ns obj } := by
      refine ⟨fun n o h => ?_, fun _ _ h => .inl h, fun h => h, rfl, rfl⟩
      unfold St.namespace at h ⊢
      dsimp only at h
      rw [mapGet_mapSet] at h
      split at h
      · rename_i e; cases h; subst e; exact .inr rfl
      · exact .inl h
    exact h0.less (((calm.notifyConnected _ _ _).trans (calm.emit _ _)).trans (less_gateDone _ _))
  | disconnect obj msg =>
    unfold finish
    exact (((((calm.forceLeaveAll _ _ _).trans (calm.nsDel _ _)).trans (calm.fire _ _ _)).trans
      (calm.notifyDisconnect _ _)).trans (calm.emit _ _)).grown _
  | join obj msg =>
    unfold finish
    dsimp only
    split
    · rename_i t e he
      exact ((calm.fire' he).trans (calm.emit _ _)).grown _
    · rename_i t he
      have h0 : Grown (.join obj msg) t (t.setRooms obj (addRoom msg.room)) := by
        refine ⟨fun _ _ h => .inl h, fun o r h => ?_, fun h => h, rfl, rfl⟩
        have hs : r ∈ t.rooms o ∨ (o = obj ∧ r = msg.room) := by
          unfold St.setRooms St.rooms at h
          unfold St.rooms
          simp only [List.getElem?_modify] at h
          cases hg : t.objs[o]? with
          | none => rw [hg] at h; simp at h
          | some x =>
            rw [hg] at h
            by_cases e : obj = o
            · subst e
              simp only [if_pos, Option.map_some, Option.map_eq_map] at h
              unfold addRoom at h
              split at h
              · exact .inl h
              · rcases List.mem_cons.mp h with h | h
                · exact .inr ⟨rfl, h⟩
                · exact .inl h
            · simp only [if_neg e, Option.map_eq_map, Option.map_some] at h; exact .inl h
        rcases hs with hs | ⟨rfl, rfl⟩
        · exact .inl hs
        · exact .inr ⟨msg, rfl, rfl⟩
      exact (Grown.after (calm.fire' he) h0).less ((calm.fire _ _ _).trans (calm.emit _ _))
  | leave obj msg =>
    unfold finish
    dsimp only
    split
    · rename_i t e he
      exact ((calm.fire' he).trans (calm.emit _ _)).grown _
    · rename_i t he
      exact ((((calm.fire' he).trans (calm.del _ _ _)).trans (calm.fire _ _ _)).trans (calm.emit _ _)).grown _
  | user => exact (calm.emit _ _ : Less s _).grown _

/-- the Ask that returns -/
theorem resumed {s s' : St} {i : Nat} (hs : step cfg s (.resume i) = some s') :
    ∃ a m, s.asks[i]? = some a ∧ a.done = false ∧ a.box = some m ∧
      s' = finish cfg (forget (endAsk (takeAnswer s i a) i) a) a.cont m m.err := by
  have he := (step_exec hs).1
  simp only [exec, resume] at he
  split at he
  · cases he
  · rename_i a ha
    split at he
    · cases he
    · rename_i hd
      split at he
      · cases he
      · rename_i m hm
        cases he
        exact ⟨a, m, ha, by simpa using hd, hm, rfl⟩

theorem keeps_taken {s : St} {i : Nat} {a : AskRec} (hc : s.closed = true) (hd : s.rd = .dead) (ha : s.asks[i]? = some a) :
    Kept s (forget (endAsk (takeAnswer s i a) i) a) := by
  have h1 : Kept s (takeAnswer s i a) := by
    unfold takeAnswer
    rw [hd]
    refine ⟨fun _ _ h => h, fun _ _ h => h, hc, hd.symm, asks_set ha (fun h => ?_) rfl⟩
    exact ⟨h.1, h.2.elim .inl (by rintro ⟨m, hm, _⟩; cases hm)⟩
  have h2 := asks_end (takeAnswer s i a) i
  have h3 : Less (endAsk (takeAnswer s i a) i) (forget (endAsk (takeAnswer s i a) i) a) := by
    unfold forget
    split
    · exact less_of rfl rfl rfl rfl rfl
    · exact .refl _
  exact ⟨fun n o h => h1.ns n o (h3.ns n o h), fun o r h => h1.rooms o r (h3.rooms o r h), h3.closed h1.closed,
    h3.rd.trans h1.rd, h1.asks.trans (h2.trans h3.may)⟩

/-- what steps can connect and join, by what waits before -/
structure After (s t : St) : Prop where
  ns : ∀ n o, t.namespace n = some o → s.namespace n = some o ∨ ∃ a ∈ s.asks, MaySucceed a ∧ a.cont = .connect n o
  rooms : ∀ o r, r ∈ t.rooms o → r ∈ s.rooms o ∨ ∃ a ∈ s.asks, MaySucceed a ∧ ∃ msg, a.cont = .join o msg ∧ msg.room = r
  closed : t.closed = true
  rd : t.rd = .dead
  asks : Asks s t

theorem Kept.after {s t : St} (h : Kept s t) (hd : s.rd = .dead) : After s t :=
  ⟨fun n o x => .inl (h.ns n o x), fun o r x => .inl (h.rooms o r x), h.closed, h.rd.trans hd, h.asks⟩

theorem After.trans {a b c : St} (h : After a b) (k : After b c) : After a c := by
  refine ⟨fun n o x => ?_, fun o r x => ?_, k.closed, k.rd, h.asks.trans k.asks⟩
  · rcases k.ns n o x with x | ⟨y, hy, h1, h2⟩
    · exact h.ns n o x
    · obtain ⟨z, hz, h3, h4⟩ := h.asks y hy h1
      exact .inr ⟨z, hz, h3, h4.trans h2⟩
  · rcases k.rooms o r x with x | ⟨y, hy, h1, msg, h2, h5⟩
    · exact h.rooms o r x
    · obtain ⟨z, hz, h3, h4⟩ := h.asks y hy h1
      exact .inr ⟨z, hz, h3, msg, h4.trans h2, h5⟩

theorem after_step {s s' : St} {op : Op} (hc : s.closed = true) (hd : s.rd = .dead) (hn : cfg.onlyNative = false)
    (hs : step cfg s op = some s') : After s s' := by
  have he := (step_exec hs).1
  by_cases h1 : ReaderOp op
  · cases op with
    | recv typ b => simp [exec, hd] at he
    | wake => simp [exec, wakeReader, hd] at he
    | contReader => simp [exec, contReader, hd] at he
    | _ => cases h1
  by_cases h2 : ∃ e, op = .readErr e
  · obtain ⟨e, rfl⟩ := h2
    simp [exec, hd] at he
  by_cases h3 : ∃ i, op = .resume i
  · obtain ⟨i, rfl⟩ := h3
    obtain ⟨a, m, ha, hdn, hb, rfl⟩ := resumed hs
    have hk := keeps_taken hc hd ha
    cases hme : m.err with
    | some e =>
      have hl := less_finish_err (cfg := cfg) (forget (endAsk (takeAnswer s i a) i) a) a.cont m e
      exact Kept.after ⟨fun n o h => hk.ns n o (hl.ns n o h), fun o r h => hk.rooms o r (hl.rooms o r h), hl.closed hk.closed,
        hl.rd.trans hk.rd, hk.asks.trans hl.may⟩ hd
    | none =>
      have hg := grown_finish (cfg := cfg) (forget (endAsk (takeAnswer s i a) i) a) a.cont m
      have hmay : MaySucceed a := ⟨hdn, .inr ⟨m, hb, hme⟩⟩
      refine ⟨fun n o h => ?_, fun o r h => ?_, hg.closed hk.closed, (hg.rd.trans hk.rd).trans hd, ?_⟩
      · exact (hg.ns n o h).imp (hk.ns n o) fun e => ⟨a, List.mem_of_getElem? ha, hmay, e⟩
      · exact (hg.rooms o r h).imp (hk.rooms o r) fun e => ⟨a, List.mem_of_getElem? ha, hmay, e⟩
      · intro x hm hx
        rw [hg.asks] at hm
        exact hk.asks x hm hx
  · exact (kept_other hc hn h1 (fun e x => h2 ⟨e, x⟩) (fun i x => h3 ⟨i, x⟩) hs).after hd

theorem after_later {s t : St} (hc : s.closed = true) (hd : s.rd = .dead) (hn : cfg.onlyNative = false)
    (h : Later cfg s t) : After s t := by
  induction h with
  | now => exact ((Less.refl s).kept hc).after hd
  | step _ hs ih => exact ih.trans (after_step ih.closed ih.rd hn hs)

/-- a read answer can be made of some payload -/
theorem goodPayload (known : List KnownErr) (an : Bool) : ∃ b, (deserializeMessage known .text b an false).err = none := by
  let m : Message := { ns := b! "ns", event := b! "ev" }
  obtain ⟨w, _, h2⟩ := c01_round_trip known .text an m (.inl rfl) rfl rfl
    ⟨by simp [m], by intro h; simp [m] at h, by intro c t h; simp [m] at h⟩
    ((unescape_escape_iff (b! "ns")).mp (by decide +kernel)) ((unescape_escape_iff []).mp (by decide +kernel))
    ((unescape_escape_iff (b! "ev")).mp (by decide +kernel))
  exact ⟨w, by rw [h2]⟩

/-- An Ask that may succeed can get to have its answer in its channel. -/
theorem gets {s : St} {i : Nat} {a : AskRec} (hn : cfg.onlyNative = false) (hh : s.hung = false) (hc : s.closed = true)
    (hd : s.rd = .dead) (ha : s.asks[i]? = some a) (hm : MaySucceed a) :
    ∃ t b m, Later cfg s t ∧ t.closed = true ∧ t.rd = .dead ∧ t.objs = s.objs ∧ t.hung = false ∧ t.asks[i]? = some b ∧
      b.done = false ∧ b.cont = a.cont ∧ b.box = some m ∧ m.err = none := by
  rcases hm with ⟨h1, h2 | ⟨m, h2, h3⟩⟩
  · obtain ⟨b, hb⟩ := goodPayload cfg.known cfg.allowNative
    rw [← hn] at hb
    refine ⟨_, { a with mode := .read, box := some (deserializeMessage cfg.known .text b cfg.allowNative cfg.onlyNative) }, _, .step .now (?_ : step cfg s (.steal i .text b) = some
      { s with asks := s.asks.set i { a with mode := .read, box := some (deserializeMessage cfg.known .text b cfg.allowNative cfg.onlyNative) } }),
      hc, hd, rfl, hh, ?_, h1, rfl, rfl, hb⟩
    · simp [step, exec, steal, ha, h2, hh]
    · have hlt : i < s.asks.length := (List.getElem?_eq_some_iff.mp ha).1
      simp [hlt]
  · exact ⟨s, a, m, .now, hc, hd, rfl, hh, ha, h1, rfl, h2, h3⟩

/-- neither hangs nor connects or joins -/
structure Same (s t : St) : Prop where
  ns : ∀ n, t.namespace n = s.namespace n
  rooms : ∀ o, t.rooms o = s.rooms o
  hung : t.hung = s.hung

theorem same_emit (s : St) (o : Obs) : Same s (s.emit o) := ⟨fun _ => rfl, fun _ => rfl, rfl⟩

theorem Same.trans {a b c : St} (h : Same a b) (k : Same b c) : Same a c :=
  ⟨fun n => (k.ns n).trans (h.ns n), fun o => (k.rooms o).trans (h.rooms o), k.hung.trans h.hung⟩

theorem same_fire {s : St} (hc : s.closed = true) (obj : Nat) (msg : Message) : Same s (fire cfg s obj msg).1 := by
  rw [fire_shut hc]; exact same_emit _ _

theorem same_gateDone (s : St) (ns : Bytes) : Same s (gateDone s ns) := by
  unfold gateDone
  split
  · exact ⟨fun _ => rfl, fun _ => rfl, rfl⟩
  · split
    · exact ⟨fun _ => rfl, fun _ => rfl, rfl⟩
    · exact ⟨fun _ => rfl, fun _ => rfl, rfl⟩

theorem same_notify {s : St} (hc : s.closed = true) (obj : Nat) (msg : Message) : Same s (notifyConnected cfg s obj msg) := by
  unfold notifyConnected
  dsimp only
  split
  · exact (same_fire hc _ _).trans (same_emit _ _)
  · exact same_fire hc _ _

theorem taken_hung (s : St) (i : Nat) (a : AskRec) :
    (forget (endAsk (takeAnswer s i a) i) a).hung = s.hung ∧ (forget (endAsk (takeAnswer s i a) i) a).objs = s.objs := by
  unfold forget endAsk takeAnswer
  split <;> split <;> first | exact ⟨rfl, rfl⟩ | (split <;> exact ⟨rfl, rfl⟩)

theorem connects {s : St} {i : Nat} {a : AskRec} {m : Message} {ns : Bytes} {obj : Nat} (hh : s.hung = false) (hc : s.closed = true)
    (hd : s.rd = .dead) (ha : s.asks[i]? = some a) (hdn : a.done = false) (hb : a.box = some m) (he : m.err = none)
    (hk : a.cont = .connect ns obj) :
    ∃ t, step cfg s (.resume i) = some t ∧ t.namespace ns = some obj := by
  have hk' := keeps_taken hc hd ha
  have hu := (taken_hung s i a).1
  have hr : resume cfg s i = some (finish cfg (forget (endAsk (takeAnswer s i a) i) a) a.cont m m.err) := by
    simp [resume, ha, hdn, hb]
  revert hk' hu hr
  generalize forget (endAsk (takeAnswer s i a) i) a = s1
  intro hk' hu hr
  rw [hk, he] at hr
  have h2 := same_notify (cfg := cfg) (s := { s1 with connected := mapSet s1.connected ns obj }) hk'.closed obj
    { ns := ns, event := OnNamespaceConnect, isLocal := true }
  have h3 := (h2.trans (same_emit _ (.ret (.connect ns obj) (.nsConn obj)))).trans (same_gateDone _ ns)
  refine ⟨finish cfg s1 (.connect ns obj) m none, ?_, ?_⟩
  · simp only [step, exec, hr]
    rw [if_neg]
    have : (finish cfg s1 (.connect ns obj) m none).hung = s1.hung := h3.hung
    rw [this, hu, hh]; simp
  · refine (h3.ns ns).trans ?_
    simp [St.namespace, mapGet_mapSet]

theorem joins {s : St} {i : Nat} {a : AskRec} {m : Message} {obj : Nat} {msg : Message} (hh : s.hung = false) (hc : s.closed = true)
    (hd : s.rd = .dead) (ha : s.asks[i]? = some a) (hdn : a.done = false) (hb : a.box = some m) (he : m.err = none)
    (hk : a.cont = .join obj msg) (ho : obj < s.objs.length) (hv : ∀ t : St, verdict cfg t obj msg = none) :
    ∃ t, step cfg s (.resume i) = some t ∧ msg.room ∈ t.rooms obj := by
  have hk' := keeps_taken hc hd ha
  have hu := taken_hung s i a
  have hr : resume cfg s i = some (finish cfg (forget (endAsk (takeAnswer s i a) i) a) a.cont m m.err) := by
    simp [resume, ha, hdn, hb]
  revert hk' hu hr
  generalize forget (endAsk (takeAnswer s i a) i) a = s1
  intro hk' hu hr
  rw [hk, he] at hr
  have hf := fire_shut (cfg := cfg) hk'.closed obj msg
  rw [hv s1] at hf
  have hfin : finish cfg s1 (.join obj msg) m none =
      ((fire cfg ((s1.emit (.fired obj (s1.view obj msg) msg (pick (cfg.events (s1.nsName obj)) msg.event) none)).setRooms obj (addRoom msg.room))
        obj { msg with event := OnRoomJoined }).1.emit (.ret (.join obj msg) (.room obj msg.room))) := by
    simp only [finish, hf]
  have hs := (same_fire (cfg := cfg)
    (s := (s1.emit (.fired obj (s1.view obj msg) msg (pick (cfg.events (s1.nsName obj)) msg.event) none)).setRooms obj (addRoom msg.room))
    hk'.closed obj { msg with event := OnRoomJoined }).trans (same_emit _ (.ret (.join obj msg) (.room obj msg.room)))
  rw [← hfin] at hs
  refine ⟨finish cfg s1 (.join obj msg) m none, ?_, ?_⟩
  · simp only [step, exec, hr]
    rw [if_neg]
    rw [hs.hung]
    have : s1.hung = false := by rw [hu.1, hh]
    simpa [St.setRooms, St.emit] using this
  · rw [hs.rooms, rooms_addRoom _ _ _ (by simpa [St.emit, hu.2] using ho)]
    exact .inr ⟨rfl, rfl⟩

theorem taken_same (s : St) (i : Nat) (a : AskRec) :
    (forget (endAsk (takeAnswer s i a) i) a).connected = s.connected ∧
    (forget (endAsk (takeAnswer s i a) i) a).objs = s.objs := by
  unfold forget endAsk takeAnswer
  split <;> split <;> first | exact ⟨rfl, rfl⟩ | (split <;> exact ⟨rfl, rfl⟩)

/-- the step that connects or joins on a closed connection -/
theorem who {s s' : St} {op : Op} (hc : s.closed = true) (hn : cfg.onlyNative = false)
    (hs : step cfg s op = some s') :
    ReaderOp op ∨
    (∃ i a m, op = .resume i ∧ s.asks[i]? = some a ∧ a.done = false ∧ a.box = some m ∧ m.err = none ∧
      (∀ n o, s'.namespace n = some o → s.namespace n = some o ∨ a.cont = .connect n o) ∧
      ∀ o r, r ∈ s'.rooms o → r ∈ s.rooms o ∨ ∃ msg, a.cont = .join o msg ∧ msg.room = r) ∨
    ((∀ n o, s'.namespace n = some o → s.namespace n = some o) ∧ ∀ o r, r ∈ s'.rooms o → r ∈ s.rooms o) := by
  by_cases h1 : ReaderOp op
  · exact .inl h1
  refine .inr ?_
  by_cases h2 : ∃ e, op = .readErr e
  · obtain ⟨e, rfl⟩ := h2
    have he := (step_exec hs).1
    simp only [exec] at he
    split at he
    · cases he
      have hl : Less s (closeConn cfg (s.signalReady (some e))) := (less_signalReady _ _).trans (calm.closeConn _)
      exact .inr ⟨hl.ns, hl.rooms⟩
    · cases he
  by_cases h3 : ∃ i, op = .resume i
  · obtain ⟨i, rfl⟩ := h3
    obtain ⟨a, m, ha, hdn, hb, rfl⟩ := resumed hs
    have ht := taken_same s i a
    have hns : ∀ n, (forget (endAsk (takeAnswer s i a) i) a).namespace n = s.namespace n := fun n => by
      unfold St.namespace; rw [ht.1]
    have hrs : ∀ o, (forget (endAsk (takeAnswer s i a) i) a).rooms o = s.rooms o := fun o => rooms_congr ht.2 o
    cases hme : m.err with
    | some e =>
      have hl := less_finish_err (cfg := cfg) (forget (endAsk (takeAnswer s i a) i) a) a.cont m e
      exact .inr ⟨fun n o h => by rw [← hns]; exact hl.ns n o h, fun o r h => by rw [← hrs]; exact hl.rooms o r h⟩
    | none =>
      have hg := grown_finish (cfg := cfg) (forget (endAsk (takeAnswer s i a) i) a) a.cont m
      exact .inl ⟨i, a, m, rfl, ha, hdn, hb, hme, fun n o h => by rw [← hns]; exact hg.ns n o h,
        fun o r h => by rw [← hrs]; exact hg.rooms o r h⟩
  · have hk := kept_other hc hn h1 (fun e x => h2 ⟨e, x⟩) (fun i x => h3 ⟨i, x⟩) hs
    exact .inr ⟨hk.ns, hk.rooms⟩

end Neffos.Ended
