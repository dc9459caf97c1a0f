import Verif.Spec.Tale
import Verif.Props.ServerLoop
/-!
# C139: the story of a connection at the loop of a server
-/
set_option autoImplicit false
namespace Neffos
open Spec

variable {cfg : LCfg} {s s' : LSt} {c : Nat}

namespace Tale

theorem story_append (c : Nat) (l m : List LEv) : story c (l ++ m) = story c l ++ story c m := List.filter_append ..

theorem count_story {e : LEv} (he : LEv.about e = some c) (l : List LEv) : (story c l).count e = l.count e := by
  unfold story
  rw [List.count_filter (by simpa using he)]

/-- how often each event is in a story -/
structure Cts (l : List LEv) (r d i o x : Nat) (c : Nat) : Prop where
  r : l.count (.reg c) = r
  d : l.count (.drop c) = d
  i : l.count (.ignored c) = i
  o : l.count (.onDisc c) = o
  x : l.count (.exchDisc c) = x

theorem map_cts (c : Nat) (ks : List Nat) : Cts (ks.map (.offered c)) 0 0 0 0 0 c := by
  constructor <;> (apply List.count_eq_zero.mpr; simp)

theorem reg {l : List LEv} (h : Tale c l) (h0 : l.count (.reg c) = 0) : Tale c (l ++ [.reg c]) := by
  cases h with
  | unborn => exact .here []
  | lost => exact .ghost []
  | ghost ks => simp at h0
  | here ks => simp at h0
  | gone ks h => simp at h0

theorem offer {l : List LEv} (k : Nat) (h : Tale c l) (h0 : 0 < l.count (.reg c)) (h1 : l.count (.drop c) = 0) :
    Tale c (l ++ [.offered c k]) := by
  cases h with
  | unborn => simp at h0
  | lost => simp at h0
  | ghost ks => simpa using Spec.Tale.ghost (c := c) (ks ++ [k])
  | here ks => simpa using Spec.Tale.here (c := c) (ks ++ [k])
  | gone ks h => simp at h1

theorem drop {l : List LEv} (h : Tale c l) (h0 : 0 < l.count (.reg c)) (h1 : l.count (.drop c) = 0) (h2 : l.count (.ignored c) = 0) :
    Tale c (l ++ [.drop c]) := by
  cases h with
  | unborn => simp at h0
  | lost => simp at h0
  | ghost ks => simp at h2
  | here ks => exact .gone ks (List.nil_sublist _)
  | gone ks h => simp at h1

theorem ignored {l : List LEv} (h : Tale c l) (h0 : l.count (.reg c) = 0) (h2 : l.count (.ignored c) = 0) :
    Tale c (l ++ [.ignored c]) := by
  cases h with
  | unborn => exact .lost
  | lost => simp at h2
  | ghost ks => simp at h0
  | here ks => simp at h0
  | gone ks h => simp at h0

theorem subs {l : List LEv} (h : l.Sublist [.onDisc c, .exchDisc c]) :
    l = [] ∨ l = [.onDisc c] ∨ l = [.exchDisc c] ∨ l = [.onDisc c, .exchDisc c] := by
  cases h with
  | cons _ h =>
    cases h with
    | cons _ h => cases h; simp
    | cons_cons _ h => cases h; simp
  | cons_cons _ h =>
    cases h with
    | cons _ h => cases h; simp
    | cons_cons _ h => cases h; simp

theorem onDisc {l : List LEv} (h : Tale c l) (h0 : 0 < l.count (.drop c)) (h1 : l.count (.onDisc c) = 0)
    (h2 : l.count (.exchDisc c) = 0) : Tale c (l ++ [.onDisc c]) := by
  have hm : ∀ ks : List Nat, (ks.map (LEv.offered c)).count (.drop c) = 0 := fun ks => (map_cts c ks).d
  cases h with
  | unborn => simp at h0
  | lost => simp at h0
  | ghost ks => simp [hm] at h0
  | here ks => simp [hm] at h0
  | gone ks h =>
    rcases subs h with rfl | rfl | rfl | rfl
    · simpa using Spec.Tale.gone (c := c) ks (told := [.onDisc c]) (by simp)
    · simp at h1
    · simp at h2
    · simp at h2

theorem exchDisc {l : List LEv} (h : Tale c l) (h0 : 0 < l.count (.drop c)) (h2 : l.count (.exchDisc c) = 0) :
    Tale c (l ++ [.exchDisc c]) := by
  have hm : ∀ ks : List Nat, (ks.map (LEv.offered c)).count (.drop c) = 0 := fun ks => (map_cts c ks).d
  cases h with
  | unborn => simp at h0
  | lost => simp at h0
  | ghost ks => simp [hm] at h0
  | here ks => simp [hm] at h0
  | gone ks h =>
    rcases subs h with rfl | rfl | rfl | rfl
    · simpa using Spec.Tale.gone (c := c) ks (told := [.exchDisc c]) (by simp)
    · simpa using Spec.Tale.gone (c := c) ks (told := [.onDisc c, .exchDisc c]) (by simp)
    · simp at h2
    · simp at h2

/-- an event that is about another connection, or about none -/
theorem other {e : LEv} {l : List LEv} (he : LEv.about e ≠ some c) (h : Tale c (story c l)) : Tale c (story c (l ++ [e])) := by
  rw [story_append]
  simpa [story, he] using h

theorem same {e : LEv} {l : List LEv} (he : LEv.about e = some c) (h : Tale c (story c l ++ [e])) : Tale c (story c (l ++ [e])) := by
  rw [story_append]
  simpa [story, he] using h

theorem offer_step {k d : Nat} (hp : s.Placed) (hd : d ∈ s.loop.rest) (h : Tale c (story c s.log)) :
    Tale c (story c (s.log ++ [.offered d k])) := by
  by_cases e : d = c
  · subst e
    have h1 := (hp d).rest; have h2 := (hp d).reg; have h3 := (hp d).sent
    have h4 := List.count_pos_iff.mpr hd
    have h5 := b01_le ((s.conn d).up = .sent)
    refine same rfl (offer k h ?_ ?_) <;> rw [count_story rfl] <;> omega
  · exact other (by simpa [LEv.about] using e) h

theorem step {op : LOp} (hr : LReach cfg s) (h : Tale c (story c s.log)) (hx : LNext cfg s op s') : Tale c (story c s'.log) := by
  have hp := lreach_placed hr
  cases hx
  case recvConnect d hl hb =>
    by_cases e : d = c
    · subst e
      have h3 := (hp d).sent
      have h5 := b01_le ((s.conn d).up = .sent)
      rw [b01_pos hb] at h3
      refine same rfl (reg h ?_); rw [count_story rfl]; omega
    · exact other (by simpa [LEv.about] using e) h
  case recvDrop d x hl hd hs hg =>
    by_cases e : d = c
    · subst e
      have h2 := (hp d).reg; have h3 := (hp d).disc
      have h4 := List.count_pos_iff.mpr hg
      rw [conn_of hd, b01_neg (by rw [hs]; simp)] at h3
      refine same rfl (drop h ?_ ?_ ?_) <;> rw [count_story rfl] <;> omega
    · exact other (by simpa [LEv.about] using e) h
  case recvIgnore d x hl hd hs hg =>
    by_cases e : d = c
    · subst e
      have h2 := (hp d).reg; have h3 := (hp d).disc
      have h4 := List.count_eq_zero.mpr hg
      rw [conn_of hd, b01_neg (by rw [hs]; simp)] at h3
      refine same rfl (ignored h ?_ ?_) <;> rw [count_story rfl] <;> omega
    · exact other (by simpa [LEv.about] using e) h
  case fireYes d x hl hd _ _ =>
    by_cases e : d = c
    · subst e
      have h2 := (hp d).onDisc; have h3 := (hp d).exch; have h4 := (hp d).disc
      have h5 := b01_le ((s.conn d).disc = .served)
      rw [b01_pos (.inr hl)] at h2
      rw [b01_pos (.inr (.inl hl))] at h3
      refine same rfl (onDisc h ?_ ?_ ?_) <;> rw [count_story rfl] <;> omega
    · exact other (by simpa [LEv.about] using e) h
  case exchYes d hl he =>
    by_cases e : d = c
    · subst e
      have h3 := (hp d).exch; have h4 := (hp d).disc
      have h5 := b01_le ((s.conn d).disc = .served)
      rw [b01_pos (.inr (.inr hl))] at h3
      refine same rfl (exchDisc h ?_ ?_) <;> rw [count_story rfl] <;> omega
    · exact other (by simpa [LEv.about] using e) h
  case castCons hl => exact offer_step hp (by rw [hl]; simp [LoopPc.rest]) h
  case actShut hl _ _ _ _ => exact offer_step hp (by rw [hl]; simp [LoopPc.rest]) h
  case actCons hl _ _ _ => exact offer_step hp (by rw [hl]; simp [LoopPc.rest]) h
  case recvCast => exact other (by simp [LEv.about]) h
  case recvAct => exact other (by simp [LEv.about]) h
  all_goals exact h

theorem offered_story (c : Nat) (l : List LEv) : offered c (story c l) = offered c l := by
  induction l with
  | nil => rfl
  | cons e l ih =>
    unfold offered story at ih ⊢
    by_cases h : LEv.about e = some c
    · rw [List.filter_cons_of_pos (by simpa using h), List.filterMap_cons, List.filterMap_cons, ih]
    · rw [List.filter_cons_of_neg (by simpa using h), ih, List.filterMap_cons]
      cases e <;> simp_all [LEv.about]

theorem cut {α : Type} {a b x t : List α} {d : α} (h : a ++ b = x ++ d :: t) (ha : d ∈ a) (hx : d ∉ x) : b.Sublist t := by
  rcases List.append_eq_append_iff.mp h with ⟨u, h1, _⟩ | ⟨u, h1, h2⟩
  · exact absurd (by rw [h1]; exact List.mem_append_left _ ha) hx
  · cases u with
    | nil => rw [List.append_nil] at h1; exact absurd (h1 ▸ ha) hx
    | cons v u =>
      rw [List.cons_append] at h2
      injection h2 with _ h2
      rw [h2]
      exact List.sublist_append_right ..

theorem after {a b : List LEv} (h : Tale c (a ++ b)) (ha : .drop c ∈ a) : b.Sublist [.onDisc c, .exchDisc c] := by
  have hm : LEv.drop c ∈ a ++ b := List.mem_append_left _ ha
  generalize e : a ++ b = l at h hm
  cases h with
  | unborn => simp at hm
  | lost => simp at hm
  | ghost ks => simp at hm
  | here ks => simp at hm
  | gone ks h => exact (cut e ha (by simp)).trans h

end Tale

/-- C139: the loop has to do with a connection in one of five ways, in this order and no other, and brings it no call twice. -/
theorem c139_story (hr : LReach cfg s) (c : Nat) : Tale c (story c s.log) ∧ (offered c s.log).Nodup := by
  obtain ⟨ops, hx⟩ := hr
  refine ⟨lrun_placed (P := fun t => Tale c (story c t.log)) (fun _ _ _ hr h hx => Tale.step hr h hx) ⟨[], rfl⟩ .unborn hx, ?_⟩
  obtain ⟨h1, h2, _⟩ := c43_offered ⟨ops, hx⟩ c
  rw [h1] at h2
  exact (List.nodup_append.mp h2).1

/-- C139: once a connection is removed, the loop has nothing to do with it any more but to tell of its disconnection, however the
server and all connections go on. -/
theorem c139_over {ops : List LOp} (hr : LReach cfg s) (hd : .drop c ∈ s.log) (hx : s.run cfg ops = some s') :
    ∃ l, story c s'.log = story c s.log ++ l ∧ l.Sublist [.onDisc c, .exchDisc c] ∧ offered c s'.log = offered c s.log := by
  obtain ⟨m, hm⟩ := log_run hx
  have hs : story c s'.log = story c s.log ++ story c m := by rw [hm, Tale.story_append]
  have hsub := Tale.after (c := c) (hs ▸ (c139_story (lreach_run hr hx) c).1) (by simpa [story, LEv.about] using hd)
  refine ⟨story c m, hs, hsub, ?_⟩
  have h0 : offered c m = [] := by
    rw [← Tale.offered_story]
    rcases Tale.subs hsub with e | e | e | e <;> rw [e] <;> rfl
  rw [hm]
  unfold offered at h0 ⊢
  rw [List.filterMap_append, h0, List.append_nil]

/-! ## Every one of these stories happens -/

namespace Tale

theorem next {op : LOp} (hr : LReach cfg s) (h : s.step cfg op = some s') : LReach cfg s' :=
  lreach_run (ops := [op]) hr (by simp [LSt.run, h])

/-- connection `c` is past the check of `Upgrade` and `n` broadcasts wait -/
theorem prep (cfg : LCfg) (c n : Nat) : ∃ s, LReach cfg s ∧ s.log = [] ∧ s.loop = .sel ∧ s.buf = none ∧ s.regs = [] ∧
    s.conns[c]? = some { up := .send } ∧ ∀ k < n, s.calls[k]? = some { kind := .cast, pc := .send } := by
  have h1 : ∀ m, ∃ s, LReach cfg s ∧ s.log = [] ∧ s.loop = .sel ∧ s.buf = none ∧ s.regs = [] ∧ s.flag = false ∧ s.calls = [] ∧
      s.conns = List.replicate m {} := by
    intro m
    induction m with
    | zero => exact ⟨_, next (op := .loop) ⟨[], rfl⟩ rfl, rfl, rfl, rfl, rfl, rfl, rfl, rfl⟩
    | succ m ih =>
      obtain ⟨s, hr, h1, h2, h3, h4, h5, h6, h7⟩ := ih
      refine ⟨_, next (op := .upgrade) hr rfl, h1, h2, h3, h4, h5, h6, ?_⟩
      show s.conns ++ [({} : LConn)] = _
      rw [h7, List.replicate_succ']
  obtain ⟨s, hr, h1, h2, h3, h4, h5, h6, h7⟩ := h1 (c + 1)
  have hc : s.conns[c]? = some {} := by rw [h7]; simp
  have hl : c < s.conns.length := by rw [h7]; simp
  have hu : s.step cfg (.up c) = some (s.setC c { up := .send }) := by
    simp only [LSt.step, LSt.upStep, hc, h5]; rfl
  have h8 : ∀ n, ∃ t, LReach cfg t ∧ t.log = [] ∧ t.loop = .sel ∧ t.buf = none ∧ t.regs = [] ∧
      t.conns[c]? = some { up := .send } ∧ t.calls = List.replicate n { kind := .cast, pc := .send } := by
    intro n
    induction n with
    | zero => exact ⟨_, next hr hu, h1, h2, h3, h4, by simp [hl], h6⟩
    | succ n ih =>
      obtain ⟨t, hr, g1, g2, g3, g4, g5, g6⟩ := ih
      refine ⟨_, next (op := .call .cast) hr rfl, g1, g2, g3, g4, g5, ?_⟩
      show t.calls ++ [_] = _
      rw [g6, List.replicate_succ']; rfl
  obtain ⟨t, hr, g1, g2, g3, g4, g5, g6⟩ := h8 n
  exact ⟨t, hr, g1, g2, g3, g4, g5, fun k hk => by rw [g6]; simp [hk]⟩

theorem enter {x : LConn} (hr : LReach cfg s) (hl : s.loop = .sel) (hb : s.buf = none) (hg : s.regs = [])
    (hc : s.conns[c]? = some x) (hu : x.up = .send) : ∃ t, LReach cfg t ∧ t.loop = .sel ∧ t.regs = [c] ∧
      t.conns[c]? = some { x with up := .sent } ∧ t.calls = s.calls ∧ story c t.log = story c s.log ++ [.reg c] := by
  have hlt : c < s.conns.length := (List.getElem?_eq_some_iff.mp hc).1
  have h1 : s.step cfg (.up c) = some { s.setC c { x with up := .sent } with buf := some c } := by
    simp only [LSt.step, LSt.upStep, hc, hu, hb]
  have h2 := next hr h1
  have h3 := next (op := .recvConnect) h2 (by simp only [LSt.step, setC_loop, hl, if_pos, LSt.recvStep]; rfl)
  have h4 := next (op := .loop) h3 rfl
  refine ⟨_, h4, rfl, by simp [hg], by simp [hlt], rfl, ?_⟩
  simp [story_append, story, LEv.about]

theorem leave {x : LConn} (hr : LReach cfg s) (hc : s.conns[c]? = some x) (hu : x.up = .send ∨ x.up = .sent) (ho : x.cl = .open) :
    ∃ t, LReach cfg t ∧ t.loop = s.loop ∧ t.regs = s.regs ∧ t.buf = s.buf ∧ t.calls = s.calls ∧ t.log = s.log ∧
      t.conns[c]? = some { x with cl := .told, disc := .sending } := by
  have hlt : c < s.conns.length := (List.getElem?_eq_some_iff.mp hc).1
  have h1 : s.step cfg (.close c) = some (s.setC c { x with cl := .firing false }) := by
    simp only [LSt.step, hc, ho, if_pos]
    rw [if_neg (by rcases hu with h | h <;> simp [h])]
  have h2 := next hr h1
  have h3 : (s.setC c { x with cl := .firing false }).step cfg (.closer c) =
      some ((s.setC c { x with cl := .firing false }).setC c { x with cl := .told, disc := .sending }) := by
    simp [LSt.step, hlt]
  exact ⟨_, next h2 h3, rfl, rfl, rfl, rfl, rfl, by simp [hlt]⟩

theorem offers {ks : List Nat} (hr : LReach cfg s) (hl : s.loop = .sel) (hg : s.regs = [c])
    (hk : ∀ k ∈ ks, s.calls[k]? = some { kind := .cast, pc := .send }) (hn : ks.Nodup) :
    ∃ t, LReach cfg t ∧ t.loop = .sel ∧ t.regs = [c] ∧ t.conns = s.conns ∧
      story c t.log = story c s.log ++ ks.map (.offered c) := by
  induction ks generalizing s with
  | nil => exact ⟨s, hr, hl, hg, rfl, by simp⟩
  | cons k ks ih =>
    have h0 := hk k (List.mem_cons_self ..)
    have h1 : s.step cfg (.recvCall k [c]) = some { s.setK k { kind := .cast, pc := .ret } with
        loop := .cast k [c], log := s.log ++ [.served k] } := by
      have hp : [c].isPerm [c] = true := List.isPerm_iff.mpr (List.Perm.refl _)
      simp [LSt.step, hl, LSt.recvStep, h0, hg, hp]
    have h2 := next hr h1
    have h3 := next (op := .loop) h2 rfl
    have h4 := next (op := .loop) h3 rfl
    obtain ⟨t, r, g1, g2, g3, g4⟩ := ih h4 rfl hg (fun j hj => by
      have hne : k ≠ j := fun e => (List.nodup_cons.mp hn).1 (e ▸ hj)
      simp only [setK_calls]
      rw [List.getElem?_set_ne hne]
      exact hk j (List.mem_cons_of_mem _ hj)) (List.nodup_cons.mp hn).2
    refine ⟨t, r, g1, g2, g3, ?_⟩
    rw [g4]
    simp [story_append, story, LEv.about]

theorem bound (ks : List Nat) : ∃ n, ∀ k ∈ ks, k < n := by
  induction ks with
  | nil => exact ⟨0, by simp⟩
  | cons k ks ih =>
    obtain ⟨n, h⟩ := ih
    refine ⟨n + k + 1, fun j hj => ?_⟩
    rcases List.mem_cons.mp hj with e | e
    · omega
    · have := h j e; omega

theorem offered_map (c : Nat) (ks : List Nat) : offered c (ks.map (.offered c)) = ks := by
  induction ks with
  | nil => rfl
  | cons k ks ih => unfold offered at ih ⊢; simp [ih]

/-- a connection that comes and is offered these calls -/
theorem comes (cfg : LCfg) (c : Nat) {ks : List Nat} (hn : ks.Nodup) : ∃ t, LReach cfg t ∧ t.loop = .sel ∧ t.regs = [c] ∧
    t.conns[c]? = some { up := .sent } ∧ story c t.log = .reg c :: ks.map (.offered c) := by
  obtain ⟨n, hb⟩ := bound ks
  obtain ⟨s, hr, h1, h2, h3, h4, h5, h6⟩ := prep cfg c n
  obtain ⟨t, r, g1, g2, g3, g4, g5⟩ := enter hr h2 h3 h4 h5 rfl
  obtain ⟨u, q, e1, e2, e3, e4⟩ := offers (ks := ks) r g1 g2 (fun k hk => by rw [g4]; exact h6 k (hb k hk)) hn
  refine ⟨u, q, e1, e2, by rw [e3, g3], ?_⟩
  rw [e4, g5, h1]
  rfl

/-- and is removed -/
theorem goes (cfg : LCfg) (c : Nat) {ks : List Nat} (hn : ks.Nodup) : ∃ t, LReach cfg t ∧ t.loop = .fire c ∧
    (t.conns[c]?).isSome = true ∧ story c t.log = .reg c :: ks.map (.offered c) ++ [.drop c] := by
  obtain ⟨s, hr, h1, h2, h3, h4⟩ := comes cfg c hn
  obtain ⟨t, r, g1, g2, g3, g4, g5, g6⟩ := leave hr h3 (.inr rfl) rfl
  have hlt : c < t.conns.length := (List.getElem?_eq_some_iff.mp g6).1
  have h5 : t.step cfg (.recvDisc c) = some { t.setC c { up := .sent, cl := .told, disc := .served } with
      regs := t.regs.erase c, loop := .dec c, log := t.log ++ [.drop c] } := by
    simp [LSt.step, g1, h1, LSt.recvStep, g6, g2, h2]
  have h6 := next r h5
  have h7 := next (op := .loop) h6 rfl
  refine ⟨_, h7, rfl, by simp [hlt], ?_⟩
  simp only [story_append, g5, h4]
  simp [story, LEv.about]

end Tale

/-- C139: each of these stories is that of a connection of some server. -/
theorem c139_each {l : List LEv} (h : Tale c l) (hn : (offered c l).Nodup) : ∃ cfg s, LReach cfg s ∧ story c s.log = l := by
  cases h with
  | unborn => exact ⟨{}, {}, ⟨[], rfl⟩, rfl⟩
  | lost =>
    obtain ⟨s, hr, h1, h2, h3, h4, h5, h6⟩ := Tale.prep {} c 0
    obtain ⟨t, r, g1, g2, g3, g4, g5, g6⟩ := Tale.leave hr h5 (.inl rfl) rfl
    refine ⟨{}, _, Tale.next (op := .recvDisc c) r (by simp [LSt.step, g1, h2, LSt.recvStep, g6, g2, h4]; rfl), ?_⟩
    simp [g5, h1, story, LEv.about]
  | ghost ks =>
    have hn' : ks.Nodup := by
      have e : offered c (.ignored c :: .reg c :: ks.map (.offered c)) = offered c (ks.map (.offered c)) := rfl
      rwa [e, Tale.offered_map] at hn
    obtain ⟨n, hb⟩ := Tale.bound ks
    obtain ⟨s, hr, h1, h2, h3, h4, h5, h6⟩ := Tale.prep {} c n
    obtain ⟨t, r, g1, g2, g3, g4, g5, g6⟩ := Tale.leave hr h5 (.inl rfl) rfl
    have hlt : c < t.conns.length := (List.getElem?_eq_some_iff.mp g6).1
    have h7 : t.step {} (.recvDisc c) = some { t.setC c { up := .send, cl := .told, disc := .served } with
        log := t.log ++ [.ignored c] } := by
      simp [LSt.step, g1, h2, LSt.recvStep, g6, g2, h4]
    obtain ⟨u, q, e1, e2, e3, e4, e5⟩ := Tale.enter (c := c) (x := { up := .send, cl := .told, disc := .served })
      (Tale.next r h7) (by simp [g1, h2]) (by simp [g3, h3]) (by simp [g2, h4]) (by simp [hlt]) rfl
    obtain ⟨v, p, f1, f2, f3, f4⟩ := Tale.offers (ks := ks) q e1 e2 (fun k hk => by
      rw [e4]; show t.calls[k]? = _; rw [g4]; exact h6 k (hb k hk)) hn'
    refine ⟨{}, v, p, ?_⟩
    rw [f4, e5]
    simp [g5, h1, story, LEv.about]
  | here ks =>
    have hn' : ks.Nodup := by
      have e : offered c (.reg c :: ks.map (.offered c)) = offered c (ks.map (.offered c)) := rfl
      rwa [e, Tale.offered_map] at hn
    obtain ⟨t, r, _, _, _, h⟩ := Tale.comes {} c hn'
    exact ⟨{}, t, r, h⟩
  | @gone ks told ht =>
    have hn' : ks.Nodup := by
      have e : offered c (.reg c :: ks.map (.offered c) ++ .drop c :: told) =
          offered c (ks.map (.offered c)) ++ offered c (.drop c :: told) := by
        unfold offered; rw [← List.filterMap_append]; rfl
      rw [e, Tale.offered_map] at hn
      exact (List.nodup_append.mp hn).1
    rcases Tale.subs ht with rfl | rfl | rfl | rfl
    · obtain ⟨t, r, _, _, h⟩ := Tale.goes {} c hn'
      exact ⟨{}, t, r, h⟩
    · obtain ⟨t, r, hl, hc, h⟩ := Tale.goes { always := true } c hn'
      obtain ⟨x, hx⟩ := Option.isSome_iff_exists.mp hc
      refine ⟨_, _, Tale.next (op := .loop) r (by simp only [LSt.step, LSt.loopStep, hl, hx]; rfl), ?_⟩
      simp only [Tale.story_append, h]
      simp [story, LEv.about]
    · obtain ⟨t, r, hl, hc, h⟩ := Tale.goes { onDisc := false, exch := true } c hn'
      obtain ⟨x, hx⟩ := Option.isSome_iff_exists.mp hc
      have r2 := Tale.next (op := .loop) r (by simp only [LSt.step, LSt.loopStep, hl, hx]; rfl)
      refine ⟨_, _, Tale.next (op := .loop) r2 rfl, ?_⟩
      simp only [if_pos, Tale.story_append, h]
      simp [story, LEv.about]
    · obtain ⟨t, r, hl, hc, h⟩ := Tale.goes { always := true, exch := true } c hn'
      obtain ⟨x, hx⟩ := Option.isSome_iff_exists.mp hc
      have r2 := Tale.next (op := .loop) r (by simp only [LSt.step, LSt.loopStep, hl, hx]; rfl)
      refine ⟨_, _, Tale.next (op := .loop) r2 rfl, ?_⟩
      simp only [if_pos, Tale.story_append, h]
      simp [story, LEv.about]

/-! ## Two connections -/

/-- the first is removed and OnDisconnect told, the second was closed too early and is offered the last broadcast for ever -/
def taleOps : List LOp :=
  [.loop, .upgrade, .up 0, .up 0, .recvConnect, .loop, .unwait 0 false, .upgrade, .up 1, .close 1, .closer 1, .recvDisc 1, .up 1,
    .recvConnect, .loop, .call .cast, .recvCall 0 [1, 0], .loop, .loop, .loop, .close 0, .closer 0, .recvDisc 0, .loop, .loop, .loop,
    .call .cast, .recvCall 1 [1], .loop, .loop]

example : ∃ s, LReach {} s ∧ story 0 s.log = [.reg 0, .offered 0 0, .drop 0, .onDisc 0] ∧
    story 1 s.log = [.ignored 1, .reg 1, .offered 1 0, .offered 1 1] ∧ story 2 s.log = [] :=
  ⟨lafter {} taleOps, lafter_reach (by decide +kernel), by decide +kernel, by decide +kernel, by decide +kernel⟩

example : LReach {} (lafter {} (taleOps.take 23)) ∧ .drop 0 ∈ (lafter {} (taleOps.take 23)).log ∧
    (lafter {} (taleOps.take 23)).run {} (taleOps.drop 23) = some (lafter {} taleOps) :=
  ⟨lafter_reach (by decide +kernel), by decide +kernel, by decide +kernel⟩

end Neffos
