import Verif.Proofs.Revive
import Verif.Props.GateConn
/-!
# C108: which calls can still return, and which readers go on
-/
set_option autoImplicit false
namespace Neffos
open Spec Revive

variable {cfg : Cfg} {id : Bytes} {s : St}

namespace Revive

theorem gateOf_get {ns : Bytes} {g : Gate} (h : mapGet s.gates ns = some g) : gateOf s ns = g := by
  unfold gateOf; rw [h]; rfl

theorem canOpen_iff {ns : Bytes} : CanOpen s ns ↔ ¬ GateLost ns s := by
  unfold CanOpen GateLost
  cases hg : mapGet s.gates ns with
  | none => simp [gateOf, hg]
  | some g =>
    rw [gateOf_get hg]
    simp only [Option.some.injEq, forall_eq']
    cases g.done <;> simp <;> omega

/-- a reader at a lost gate stays there -/
theorem lostGate_step {s' : St} {msg : Message} {op : Op} (hr : Reach cfg id s) (hg : s.rd = .gate msg)
    (hl : GateLost msg.ns s) (he : exec cfg s op = some s') : op ≠ .wake ∧ s'.rd = .gate msg ∧ GateLost msg.ns s' := by
  have hop := (Blocked.lost (tok := []) msg hg hl).still hr he
  have hx : ∀ k m, s.rd = .send k m → op ≠ .resume k := fun _ _ e => by rw [hg] at e; exact nomatch e
  have hh : HoldAsk (s.asks.length + 1) s s' := (holdAsk_others cfg.isClient _).exec hop (by omega) (fun k a hk _ => by
    have := (List.getElem?_eq_some_iff.mp hk).1; omega) hx he
  exact ⟨(fun e => by subst e; exact (nomatch hop)), hh.rd.trans hg,
    (gateStays_others cfg.isClient msg.ns).exec hop trivial (fun _ _ _ _ => trivial) hx he hl⟩

theorem lostGate_run {s' : St} {msg : Message} {ops : List Op} (hr : Reach cfg id s) (hg : s.rd = .gate msg)
    (hl : GateLost msg.ns s) (hs : runOps cfg s ops = some s') : .wake ∉ ops := by
  induction ops generalizing s with
  | nil => simp
  | cons op ops ih =>
    simp only [runOps] at hs
    split at hs
    · rename_i t ht
      obtain ⟨h1, h2, h3⟩ := lostGate_step hr hg hl (step_exec ht).1
      intro hm
      rcases List.mem_cons.mp hm with hm | hm
      · exact h1 hm.symm
      · exact ih (Reach.step hr ht) h2 h3 hs hm
    · cases hs

/-- the Connects on their way are counted -/
theorem one_pending {ns : Bytes} (hr : Reach cfg id s) (hd : (gateOf s ns).done = false) (h1 : (gateOf s ns).count = 1) :
    ∃ (j obj : Nat) (b : AskRec), s.asks[j]? = some b ∧ b.done = false ∧ b.cont = .connect ns obj := by
  have h := (reach_gateOk hr ns).2.1 hd
  dsimp only at h
  exact pend_pos.1 (by omega)

theorem countP_one {α : Type} {p : α → Bool} {l : List α} (h : l.countP p = 1) {i j : Nat} {a b : α} (hi : l[i]? = some a)
    (hj : l[j]? = some b) (ha : p a = true) (hb : p b = true) : i = j := by
  induction l generalizing i j with
  | nil => cases hi
  | cons x l ih =>
    rw [List.countP_cons] at h
    cases i with
    | zero =>
      cases j with
      | zero => rfl
      | succ j =>
        simp only [List.getElem?_cons_zero, Option.some.injEq] at hi
        subst hi
        simp only [List.getElem?_cons_succ] at hj
        have := List.countP_pos_iff.mpr ⟨b, List.mem_of_getElem? hj, hb⟩
        rw [if_pos ha] at h
        omega
    | succ i =>
      simp only [List.getElem?_cons_succ] at hi
      have hp := List.countP_pos_iff.mpr ⟨a, List.mem_of_getElem? hi, ha⟩
      cases j with
      | zero =>
        simp only [List.getElem?_cons_zero, Option.some.injEq] at hj
        subst hj
        rw [if_pos hb] at h
        omega
      | succ j =>
        simp only [List.getElem?_cons_succ] at hj
        rw [ih (by split at h <;> omega) hi hj]

/-- and there is only one if the counter says so -/
theorem one_only {ns : Bytes} (hr : Reach cfg id s) (hd : (gateOf s ns).done = false) (h1 : (gateOf s ns).count = 1)
    {j k o o' : Nat} {b c : AskRec} (hj : s.asks[j]? = some b) (hbd : b.done = false) (hbk : b.cont = .connect ns o)
    (hk : s.asks[k]? = some c) (hcd : c.done = false) (hck : c.cont = .connect ns o') : j = k := by
  have h := (reach_gateOk hr ns).2.1 hd
  dsimp only at h
  exact countP_one (p := pendOf ns) (l := s.asks) (by unfold pend at h; omega) hj hk (by unfold pendOf; simp [hbd, hbk])
    (by unfold pendOf; simp [hcd, hck])

theorem run_snoc {s t : St} {ops : List Op} {op : Op} {s' : St} (h : runOps cfg s ops = some t) (hs : step cfg t op = some s') :
    runOps cfg s (ops ++ [op]) = some s' := by
  rw [runOps_append, h]
  simp [runOps, hs]

theorem run_app {s t u : St} {ops ops' : List Op} (h : runOps cfg s ops = some t) (h' : runOps cfg t ops' = some u) :
    runOps cfg s (ops ++ ops') = some u := by
  rw [runOps_append, h]; exact h'

theorem noCancel_app {ops ops' : List Op} (h : NoCancel ops) (h' : NoCancel ops') : NoCancel (ops ++ ops') :=
  fun i e x => (List.mem_append.mp x).elim (h i e) (h' i e)

/-- the Connect that holds the reader returns after these steps -/
theorem frees {msg : Message} {j obj : Nat} {b : AskRec} (hn : cfg.onlyNative = false) (hq : LeavesQuietly cfg)
    (hr : Reach cfg id s) (hg : s.rd = .gate msg) (hj : s.asks[j]? = some b) (hbd : b.done = false)
    (hk : b.cont = .connect msg.ns obj) (hb : HasAnswer b) (hd : (gateOf s msg.ns).done = false)
    (h1 : (gateOf s msg.ns).count = 1) :
    ∃ ops s1 b1 s2, NoCancel ops ∧ runOps cfg s ops = some s1 ∧ Reach cfg id s1 ∧ s1.asks[j]? = some b1 ∧
      b1.tok = b.tok ∧ (b1.mode = .table → b.mode = .table) ∧
      (∀ k, k ≠ j → s1.asks[k]? = s.asks[k]?) ∧ s1 = { s with asks := s1.asks } ∧
      exec cfg s1 (.resume j) = some s2 ∧ s2.rd = .gate msg ∧ (gateOf s2 msg.ns).count = 0 := by
  have hlt := (List.getElem?_eq_some_iff.mp hj).1
  obtain ⟨ops, s1, m, h0, hs, hc⟩ := served_ops hn hq hr hj hb
  have h2 : s1 = { s with asks := s1.asks } ∧ ∃ b1 : AskRec, s1.asks[j]? = some b1 ∧ b1.tok = b.tok ∧ b1.done = false ∧
      b1.cont = b.cont ∧ b1.box = some m ∧ (b1.mode = .table → b.mode = .table) ∧ ∀ k, k ≠ j → s1.asks[k]? = s.asks[k]? := by
    rcases hc with ⟨_, rfl, hm⟩ | ⟨_, rfl⟩
    · exact ⟨rfl, b, hj, rfl, hbd, rfl, hm, fun h => h, fun k _ => rfl⟩
    · exact ⟨rfl, { b with mode := .read, box := some m }, by simp [hlt], rfl, hbd, rfl, rfl, (fun h => nomatch h),
        fun k hk => List.getElem?_set_ne (Ne.symm hk)⟩
  obtain ⟨e1, b1, hb1, ht1, hd1, hk1, hm1, hmo, hoth⟩ := h2
  have hg1 : s1.rd = .gate msg := by rw [e1]; exact hg
  have hgo : gateOf s1 msg.ns = gateOf s msg.ns := by rw [e1]; rfl
  have he : ∃ s2, exec cfg s1 (.resume j) = some s2 := by
    simp only [exec, resume, hb1, hd1, hm1, Bool.false_eq_true, if_false]
    exact ⟨_, rfl⟩
  obtain ⟨s2, he⟩ := he
  obtain ⟨h3, h4⟩ := freed hg1 hb1 (hk1.trans hk) (by rw [hgo]; exact hd) (by rw [hgo]; exact h1) (.inl rfl) he
  exact ⟨ops, s1, b1, s2, h0, hs, runOps_reach hr hs, hb1, ht1, hmo, hoth, e1, he, h3, h4⟩

end Revive

/-- C108: a reader that waits at the gate of a namespace can go on exactly if the counter of the gate is zero, or no
Connect to the namespace has returned yet and exactly one is on its way. Otherwise nothing that ever happens to the
connection lets it go on. -/
theorem c108_gate {msg : Message} (hn : cfg.onlyNative = false) (hq : LeavesQuietly cfg) (hr : Reach cfg id s)
    (hg : s.rd = .gate msg) : (∃ ops s', runOps cfg s (ops ++ [.wake]) = some s') ↔ CanOpen s msg.ns := by
  constructor
  · rintro ⟨ops, s', hs⟩
    rw [canOpen_iff]
    intro hl
    exact lostGate_run hr hg hl hs (by simp)
  · intro h
    by_cases h0 : (gateOf s msg.ns).count = 0
    · obtain ⟨s', he⟩ := wake_exec (cfg := cfg) hg h0
      exact ⟨[], s', by simp only [List.nil_append, runOps, Revive.step_of_exec hn hq hr he]⟩
    · obtain ⟨g, hgg⟩ := Option.isSome_iff_exists.mp (gateOf_some h0)
      have e := gateOf_get hgg
      rcases h g hgg with h1 | ⟨hd, h1⟩
      · rw [e] at h0; exact absurd h1 h0
      · rw [← e] at hd h1
        obtain ⟨j, obj, b, hj, hbd, hk⟩ := one_pending hr hd h1
        have he : ∃ s1, exec cfg s (.cancel j errWrite) = some s1 := by
          simp only [exec, cancel, hj, hbd, Bool.false_eq_true, if_false]
          exact ⟨_, rfl⟩
        obtain ⟨s1, he⟩ := he
        obtain ⟨h2, h3⟩ := freed hg hj hk hd h1 (.inr ⟨_, rfl⟩) he
        have hs1 := Revive.step_of_exec hn hq hr he
        obtain ⟨s2, he2⟩ := wake_exec (cfg := cfg) h2 h3
        exact ⟨[.cancel j errWrite], s2, by
          simp only [List.cons_append, List.nil_append, runOps, hs1, Revive.step_of_exec hn hq (Reach.step hr hs1) he2]⟩

/-- C108: if no context ends, the one Connect on its way must have its answer, or read it itself. -/
theorem c108_gate_alone {msg : Message} (hn : cfg.onlyNative = false) (hq : LeavesQuietly cfg) (hr : Reach cfg id s)
    (hg : s.rd = .gate msg) :
    (∃ ops s', NoCancel ops ∧ runOps cfg s (ops ++ [.wake]) = some s') ↔ CanOpenAlone s msg.ns (fun _ => True) := by
  constructor
  · rintro ⟨ops, s', hc, hs⟩ g hgg
    have e := gateOf_get hgg
    have hco := (c108_gate hn hq hr hg).1 ⟨ops, s', hs⟩ g hgg
    rcases hco with h | ⟨hd, h1⟩
    · exact .inl h
    · refine .inr ⟨hd, h1, ?_⟩
      rw [← e] at hd h1
      obtain ⟨j, obj, b, hj, hbd, hk⟩ := one_pending hr hd h1
      refine ⟨j, obj, b, hj, hbd, hk, Classical.byContradiction fun hns => ?_, trivial⟩
      have hb : b.box = none := Classical.byContradiction fun h => hns (.inl h)
      have hm : b.mode ≠ .reading := fun h => hns (.inr h)
      -- the call stays as it is, and with it the reader
      have key : ∀ {ops : List Op} {t t' : St}, Reach cfg id t → t.rd = .gate msg → t.asks[j]? = some b → NoCancel ops →
          runOps cfg t ops = some t' → .wake ∉ ops := by
        intro ops
        induction ops with
        | nil => intros; simp
        | cons op ops ih =>
          intro t t' hr hg hj hc hs
          simp only [runOps] at hs
          split at hs
          · rename_i u hu
            have he := (step_exec hu).1
            have hbl : Blocked b.tok t := .gate msg j obj b hg hj hbd hk ⟨hm, .inl hb⟩
            have hop := hbl.still hr he
            have hh : HoldAsk j t u := (holdAsk_others cfg.isClient j).exec hop
              (by have := (List.getElem?_eq_some_iff.mp hj).1; omega) (fun k c hk ht e => by
                subst e
                rw [hj] at hk
                cases hk
                rcases ht with ⟨_, _, h⟩ | ⟨e, h⟩ | ⟨_, h⟩
                · exact h hb
                · exact hc _ _ (by rw [h]; exact List.mem_cons_self ..)
                · exact hm h) (fun k m e => by rw [hg] at e; cases e) he
            have := ih (Reach.step hr hu) (hh.rd.trans hg) ((hh.ask (List.getElem?_eq_some_iff.mp hj).1).2.trans hj)
              (fun i e x => hc i e (List.mem_cons_of_mem _ x)) hs
            intro hmem
            rcases List.mem_cons.mp hmem with hx | hx
            · subst hx; cases hop
            · exact this hx
          · cases hs
      exact key hr hg hj (noCancel_app hc (fun _ _ h => by simp at h)) hs (by simp)
  · intro h
    by_cases h0 : (gateOf s msg.ns).count = 0
    · obtain ⟨s', he⟩ := wake_exec (cfg := cfg) hg h0
      exact ⟨[], s', (fun _ _ h => by cases h), by simp only [List.nil_append, runOps, Revive.step_of_exec hn hq hr he]⟩
    · obtain ⟨g, hgg⟩ := Option.isSome_iff_exists.mp (gateOf_some h0)
      have e := gateOf_get hgg
      rcases h g hgg with h1 | ⟨hd, h1, j, obj, b, hj, hbd, hk, hb, _⟩
      · rw [e] at h0; exact absurd h1 h0
      · rw [← e] at hd h1
        obtain ⟨ops, s1, b1, s2, hc, hs, hr1, _, _, _, _, _, he, h2, h3⟩ := frees hn hq hr hg hj hbd hk hb hd h1
        have hs1 := Revive.step_of_exec hn hq hr1 he
        obtain ⟨s3, he3⟩ := wake_exec (cfg := cfg) h2 h3
        refine ⟨ops ++ [.resume j], s3, noCancel_app hc (fun _ _ h => by simp at h), ?_⟩
        exact run_snoc (run_snoc hs hs1) (Revive.step_of_exec hn hq (Reach.step hr1 hs1) he3)

/-- C108: a call can return, without its context ending, exactly if it has its answer, reads the next message itself,
or is the one its token stands for while the reader can get back to reading. -/
theorem c108_returns {i : Nat} {a : AskRec} (hn : cfg.onlyNative = false) (hcb : StillCbs cfg) (ht : TakesAll cfg)
    (hr : Reach cfg id s) (hcl : s.closed = false) (hak : s.acked = true) (htd : s.todo = []) (haa : s.ackAfter = false)
    (hrd : s.rd ≠ .ack) (hi : s.asks[i]? = some a) (hd : a.done = false) :
    (∃ ops s' a', NoCancel ops ∧ runOps cfg s ops = some s' ∧ s'.asks[i]? = some a' ∧ a'.done = true) ↔
      HasAnswer a ∨ (mapGet s.waiting a.tok = some i ∧ ComesBack s a.tok) := by
  have hq := still_leaves hcb
  constructor
  · rintro ⟨ops, s', a', hc, hs, ha', hd'⟩
    refine Classical.byContradiction fun hno => ?_
    have hns : ¬ HasAnswer a := fun h => hno (.inl h)
    have hb : a.box = none := Classical.byContradiction fun h => hns (.inl h)
    have hm : a.mode ≠ .reading := fun h => hns (.inr h)
    have hlost : Lost i a s := by
      refine ⟨hi, ?_⟩
      by_cases hw : mapGet s.waiting a.tok = some i
      · right
        have hnc : ¬ ComesBack s a.tok := fun h => hno (.inr ⟨hw, h⟩)
        -- a call whose return does not help
        have mute : ∀ b : AskRec, ¬ (HasAnswer b ∧ Leaves a.tok b) → Revive.Mute a.tok b := by
          intro b h
          by_cases hsv : HasAnswer b
          · have hl : b.mode = .table ∧ b.tok = a.tok := Classical.byContradiction fun h' => h ⟨hsv, h'⟩
            exact ⟨(fun e => nomatch hl.1.symm.trans e), .inr hl⟩
          · exact ⟨fun e => hsv (.inr e), .inl (Classical.byContradiction fun e => hsv (.inl e))⟩
        unfold ComesBack at hnc
        cases hrd' : s.rd with
        | idle => rw [hrd'] at hnc; exact absurd trivial hnc
        | ack => exact absurd hrd' hrd
        | dead => exact .dead hrd'
        | send j m =>
          rw [hrd'] at hnc
          obtain ⟨b, hj, _⟩ := (reach_all hr).2.send j m hrd'
          refine .send j m b hrd' hj ?_
          cases hbd : b.done with
          | true => exact .inl rfl
          | false =>
            right
            exact mute b (fun h => hnc ⟨b, hj, hbd, h.1, h.2⟩)
        | gate msg =>
          rw [hrd'] at hnc
          by_cases hl : GateLost msg.ns s
          · exact .lost msg hrd' hl
          · have hco := canOpen_iff.2 hl
            unfold CanOpenAlone at hnc
            simp only [Classical.not_forall, not_or] at hnc
            obtain ⟨g, hgg, h0, h1⟩ := hnc
            obtain ⟨hgd, hg1⟩ := (hco g hgg).resolve_left h0
            have e := gateOf_get hgg
            obtain ⟨j, obj, b, hj, hbd, hk⟩ := one_pending hr (by rw [e]; exact hgd) (by rw [e]; exact hg1)
            exact .gate msg j obj b hrd' hj hbd hk (mute b (fun h => h1 ⟨hgd, hg1, j, obj, b, hj, hbd, hk, h.1, h.2⟩))
      · left
        refine ⟨hi, fun w hx => ?_⟩
        obtain ⟨a2, h1, h2, _⟩ := (reach_all hr).2.table w i hx
        rw [hi] at h1
        cases h1
        rw [← h2] at hx
        exact hw hx
    have := (lost_run hr hb hm hlost hc hs).1
    rw [ha'] at this
    cases this
    rw [hd] at hd'
    cases hd'
  · intro h
    by_cases hsv : HasAnswer a
    · -- it returns at once
      obtain ⟨ops, s1, m, h0, hs, hc⟩ := served_ops hn hq hr hi hsv
      have hlt := (List.getElem?_eq_some_iff.mp hi).1
      have h2 : ∃ b1 : AskRec, s1.asks[i]? = some b1 ∧ b1.done = false ∧ b1.box = some m := by
        rcases hc with ⟨_, rfl, hm⟩ | ⟨_, rfl⟩
        · exact ⟨a, hi, hd, hm⟩
        · exact ⟨{ a with mode := .read, box := some m }, by simp [hlt], hd, rfl⟩
      obtain ⟨b1, hb1, hd1, hm1⟩ := h2
      have he : ∃ s2, resume cfg s1 i = some s2 := by
        simp only [resume, hb1, hd1, hm1, Bool.false_eq_true, if_false]
        exact ⟨_, rfl⟩
      obtain ⟨s2, he⟩ := he
      obtain ⟨a', ha', hd'⟩ := resume_done he
      exact ⟨ops ++ [.resume i], s2, a', noCancel_app h0 (fun _ _ h => by simp at h),
        run_snoc hs (Revive.step_of_exec (op := .resume i) hn hq (runOps_reach hr hs) he), ha', hd'⟩
    · obtain ⟨hw, hcb'⟩ := h.resolve_left hsv
      have hb : a.box = none := Classical.byContradiction fun h => hsv (.inl h)
      have hA : Awaits i a s := ⟨hcl, hak, htd, haa, hi, hw⟩
      -- it is enough to get the reader back
      have back : ∀ {ops : List Op} {t : St}, NoCancel ops → runOps cfg s ops = some t → Awaits i a t → t.rd = .idle →
          ∃ ops s' a', NoCancel ops ∧ runOps cfg s ops = some s' ∧ s'.asks[i]? = some a' ∧ a'.done = true := by
        intro ops t hc hs hA hrd
        obtain ⟨ops', s', a', h1, h2, h3, h4⟩ := hA.answered hn hq (runOps_reach hr hs) hrd hb hd
        exact ⟨ops ++ ops', s', a', noCancel_app hc h1, run_app hs h2, h3, h4⟩
      unfold ComesBack at hcb'
      cases hrd' : s.rd with
      | idle => exact back (ops := []) (fun _ _ h => by cases h) rfl hA hrd'
      | ack => exact absurd hrd' hrd
      | dead => rw [hrd'] at hcb'; exact hcb'.elim
      | send j m =>
        rw [hrd'] at hcb'
        obtain ⟨b, hj, hbd, hbs, hbl⟩ := hcb'
        have hne : j ≠ i := by
          rintro rfl
          rw [hi] at hj
          cases hj
          exact hsv hbs
        have hbx : b.box ≠ none := by
          rcases hbs with h | h
          · exact h
          · obtain ⟨b', hj', hm', _⟩ := (reach_all hr).2.send j m hrd'
            rw [hj] at hj'
            cases hj'
            rw [hm'] at h
            cases h
        obtain ⟨m', hm'⟩ := Option.ne_none_iff_exists'.mp hbx
        have he : ∃ s2, resume cfg s j = some s2 := by
          simp only [resume, hj, hbd, hm', Bool.false_eq_true, if_false]
          exact ⟨_, rfl⟩
        obtain ⟨s2, he⟩ := he
        obtain ⟨h1, h2⟩ := hA.resume hcb hne hj hbl he
        have hst : step cfg s (.resume j) = some s2 := Revive.step_of_exec hn hq hr he
        exact back (ops := [.resume j]) (fun _ _ h => by simp at h) (by simp only [runOps, hst]) h1 (h2 ⟨m, hrd'⟩)
      | gate msg =>
        rw [hrd'] at hcb'
        by_cases h0 : (gateOf s msg.ns).count = 0
        · obtain ⟨s', he⟩ := wake_exec (cfg := cfg) hrd' h0
          obtain ⟨h1, h2⟩ := hA.wake hcb ht hrd' he
          exact back (ops := [.wake]) (fun _ _ h => by simp at h)
            (by simp only [runOps, Revive.step_of_exec hn hq hr he]) h1 h2
        · obtain ⟨g, hgg⟩ := Option.isSome_iff_exists.mp (gateOf_some h0)
          have e := gateOf_get hgg
          rcases hcb' g hgg with h1 | ⟨hgd, h1, j, obj, b, hj, hbd, hk, hbs, hbl⟩
          · rw [e] at h0; exact absurd h1 h0
          · rw [← e] at hgd h1
            have hne : j ≠ i := by
              rintro rfl
              rw [hi] at hj
              cases hj
              exact hsv hbs
            obtain ⟨ops, s1, b1, s2, hc, hs, hr1, hb1, ht1, hmo, hoth, e1, he, h2, h3⟩ :=
              frees hn hq hr hrd' hj hbd hk hbs hgd h1
            have hA1 : Awaits i a s1 := by
              refine ⟨?_, ?_, ?_, ?_, ?_, ?_⟩
              · rw [e1]; exact hcl
              · rw [e1]; exact hak
              · rw [e1]; exact htd
              · rw [e1]; exact haa
              · rw [hoth i (Ne.symm hne)]; exact hi
              · rw [e1]; exact hw
            have hA2 := (hA1.resume hcb hne hb1 (fun x => hbl ⟨hmo x.1, ht1 ▸ x.2⟩) he).1
            have hs2 := Revive.step_of_exec hn hq hr1 he
            obtain ⟨s3, he3⟩ := wake_exec (cfg := cfg) h2 h3
            obtain ⟨h4, h5⟩ := hA2.wake hcb ht h2 he3
            exact back (ops := (ops ++ [.resume j]) ++ [.wake])
              (noCancel_app (noCancel_app hc (fun _ _ h => by simp at h)) (fun _ _ h => by simp at h))
              (run_snoc (run_snoc hs hs2) (Revive.step_of_exec hn hq (Reach.step hr1 hs2) he3)) h4 h5

/-! ## examples -/

/-- two Connects to `chat`, then an event of `chat`: the reader never goes on, whatever happens -/
def twoCalls : List Op := chatCallOps ++ [.connect (b! "chat") 8 false, .recv .text hiEvent]

example : ∃ (cfg : Cfg) (s : St), cfg.onlyNative = false ∧ LeavesQuietly cfg ∧ Reach cfg [] s ∧
    s.rd = .gate hiEventMsg ∧ ¬ ∃ ops s', runOps cfg s (ops ++ [.wake]) = some s' := by
  have e : (runOps (clientCfg chatDecl noCb) (newConn (clientCfg chatDecl noCb) []) twoCalls).isSome = true := by
    decide +kernel
  have hq : LeavesQuietly (clientCfg chatDecl noCb) := still_leaves (fun _ _ _ _ => rfl)
  have hg : (after (clientCfg chatDecl noCb) [] twoCalls).rd = .gate hiEventMsg := by decide +kernel
  refine ⟨_, _, rfl, hq, after_reach e, hg, fun h => ?_⟩
  have := (c108_gate rfl hq (after_reach e) hg).1 h
  have hm : mapGet (after (clientCfg chatDecl noCb) [] twoCalls).gates hiEventMsg.ns = some ⟨2, false⟩ := by
    decide +kernel
  rcases this _ hm with h | h
  · cases h
  · cases h.2

/-- one Connect: the reader goes on when the context of the Connect ends, and not otherwise -/
example : ∃ (cfg : Cfg) (s : St), cfg.onlyNative = false ∧ LeavesQuietly cfg ∧ Reach cfg [] s ∧
    s.rd = .gate hiEventMsg ∧ (∃ ops s', runOps cfg s (ops ++ [.wake]) = some s') ∧
    ¬ ∃ ops s', NoCancel ops ∧ runOps cfg s (ops ++ [.wake]) = some s' := by
  have e : (runOps (clientCfg chatDecl noCb) (newConn (clientCfg chatDecl noCb) [])
      (chatCallOps ++ [.recv .text hiEvent])).isSome = true := by decide +kernel
  have hq : LeavesQuietly (clientCfg chatDecl noCb) := still_leaves (fun _ _ _ _ => rfl)
  have hg : (after (clientCfg chatDecl noCb) [] (chatCallOps ++ [.recv .text hiEvent])).rd = .gate hiEventMsg := by
    decide +kernel
  have hm : mapGet (after (clientCfg chatDecl noCb) [] (chatCallOps ++ [.recv .text hiEvent])).gates hiEventMsg.ns =
      some ⟨1, false⟩ := by decide +kernel
  refine ⟨_, _, rfl, hq, after_reach e, hg, (c108_gate rfl hq (after_reach e) hg).2 (fun g h => ?_), fun h => ?_⟩
  · rw [hm] at h; cases h; exact .inr ⟨rfl, rfl⟩
  · rcases (c108_gate_alone rfl hq (after_reach e) hg).1 h _ hm with h | ⟨_, _, j, obj, b, hj, _, _, hs, _⟩
    · cases h
    · have h1 : (after (clientCfg chatDecl noCb) [] (chatCallOps ++ [.recv .text hiEvent])).asks =
        [⟨b! "$7", .connect (b! "chat") 0, .table, none, false⟩] := by decide +kernel
      rw [h1] at hj
      cases j with
      | zero => cases hj; exact hs.elim (fun h => h rfl) (fun h => nomatch h)
      | succ j => cases hj

/-- two namespaces -/
def bothDecl : List (Bytes × List Bytes) := [(b! "chat", [OnAnyEvent]), (b! "news", [OnAnyEvent])]

/-- a call to another namespace, made before the reader was held: it never returns by itself -/
def behindGate : List Op := chatCallOps ++ [.connect (b! "news") 8 false, .recv .text hiEvent]

example : ∃ (cfg : Cfg) (s : St) (a : AskRec), cfg.onlyNative = false ∧ StillCbs cfg ∧ TakesAll cfg ∧ Reach cfg [] s ∧
    s.closed = false ∧ s.acked = true ∧ s.todo = [] ∧ s.ackAfter = false ∧ s.rd ≠ .ack ∧ s.asks[1]? = some a ∧
    a.done = false ∧ mapGet s.waiting a.tok = some 1 ∧
    ¬ ∃ ops s' a', NoCancel ops ∧ runOps cfg s ops = some s' ∧ s'.asks[1]? = some a' ∧ a'.done = true := by
  have e : (runOps (clientCfg bothDecl noCb) (newConn (clientCfg bothDecl noCb) []) behindGate).isSome = true := by
    decide +kernel
  have hg : (after (clientCfg bothDecl noCb) [] behindGate).rd = .gate hiEventMsg := by decide +kernel
  have hm : mapGet (after (clientCfg bothDecl noCb) [] behindGate).gates hiEventMsg.ns = some ⟨1, false⟩ := by
    decide +kernel
  have h1 : (after (clientCfg bothDecl noCb) [] behindGate).asks =
    [⟨b! "$7", .connect (b! "chat") 0, .table, none, false⟩, ⟨b! "$8", .connect (b! "news") 1, .table, none, false⟩] := by
    decide +kernel
  have hi : (after (clientCfg bothDecl noCb) [] behindGate).asks[1]? =
    some ⟨b! "$8", .connect (b! "news") 1, .table, none, false⟩ := by rw [h1]; rfl
  have hrd : (after (clientCfg bothDecl noCb) [] behindGate).rd ≠ .ack := by rw [hg]; exact nofun
  refine ⟨_, _, _, rfl, (fun _ _ _ _ => rfl), (fun _ _ _ => rfl), after_reach e, by decide +kernel, by decide +kernel,
    by decide +kernel, by decide +kernel, hrd, hi, rfl, by decide +kernel, fun h => ?_⟩
  rw [c108_returns rfl (fun _ _ _ _ => rfl) (fun _ _ _ => rfl) (after_reach e) (by decide +kernel) (by decide +kernel)
    (by decide +kernel) (by decide +kernel) hrd hi rfl] at h
  rcases h with (h | h) | ⟨_, h⟩
  · exact h rfl
  · cases h
  · unfold ComesBack at h
    rw [hg] at h
    rcases h _ hm with h | ⟨_, _, j, obj, b, hj, _, hk, hs, _⟩
    · cases h
    · rw [h1] at hj
      rcases j with _ | _ | j
      · cases hj; exact hs.elim (fun h => h rfl) (fun h => nomatch h)
      · cases hj; injection hk with h; exact absurd h (by decide +kernel)
      · cases hj

/-- and one that returns: the reader is reading and the token stands for the call -/
example : ∃ (cfg : Cfg) (s : St) (a : AskRec), Reach cfg [] s ∧ s.asks[0]? = some a ∧ a.done = false ∧ a.box = none ∧
    ∃ ops s' a', NoCancel ops ∧ runOps cfg s ops = some s' ∧ s'.asks[0]? = some a' ∧ a'.done = true := by
  have e : (runOps (clientCfg chatDecl noCb) (newConn (clientCfg chatDecl noCb) []) chatCallOps).isSome = true := by
    decide +kernel
  have hg : (after (clientCfg chatDecl noCb) [] chatCallOps).rd = .idle := by decide +kernel
  have hi : (after (clientCfg chatDecl noCb) [] chatCallOps).asks[0]? =
    some ⟨b! "$7", .connect (b! "chat") 0, .table, none, false⟩ := by decide +kernel
  refine ⟨_, _, _, after_reach e, hi, rfl, rfl, ?_⟩
  rw [c108_returns rfl (fun _ _ _ _ => rfl) (fun _ _ _ => rfl) (after_reach e) (by decide +kernel) (by decide +kernel)
    (by decide +kernel) (by decide +kernel) (by rw [hg]; exact nofun) hi rfl]
  exact .inr ⟨by decide +kernel, by unfold ComesBack; rw [hg]; trivial⟩

end Neffos
