import Verif.Props.ServerLoop
/-!
# C86: which connections the server keeps for ever

Over the loop of the server (`Model/ServerLoop.lean`), for every interleaving of its goroutines.
-/
set_option autoImplicit false
set_option linter.unusedSimpArgs false
namespace Neffos
open Spec

variable {cfg : LCfg} {s s' : LSt}

theorem ignored_served {c : Nat} (hr : LReach cfg s) (h : .ignored c ∈ s.log) : (s.conn c).disc = .served := by
  have h3 := (lreach_placed hr c).disc
  have := List.count_pos_iff.mpr h
  by_cases e : (s.conn c).disc = .served
  · exact e
  · rw [b01_neg e] at h3; omega

theorem served_logged {c : Nat} (hr : LReach cfg s) (h : (s.conn c).disc = .served) :
    .drop c ∈ s.log ∨ .ignored c ∈ s.log := by
  have h3 := (lreach_placed hr c).disc
  rw [b01_pos h] at h3
  simp only [← List.count_pos_iff]
  omega

theorem regs_sent {c : Nat} (hr : LReach cfg s) (h : c ∈ s.regs) : (s.conn c).up = .sent := by
  have h1 := (lreach_placed hr c).sent; have h2 := (lreach_placed hr c).reg
  have := List.count_pos_iff.mpr h
  by_cases e : (s.conn c).up = .sent
  · exact e
  · rw [b01_neg e] at h1; omega

theorem regs_logged {c : Nat} (hr : LReach cfg s) : .reg c ∈ s.log ↔ c ∈ s.regs ∨ .drop c ∈ s.log := by
  have h2 := (lreach_placed hr c).reg
  simp only [← List.count_pos_iff]
  omega

theorem regs_undropped {c : Nat} (hr : LReach cfg s) (h : c ∈ s.regs) : .drop c ∉ s.log := by
  have h1 := (lreach_placed hr c).sent; have h2 := (lreach_placed hr c).reg
  have := List.count_pos_iff.mpr h
  have := b01_le ((s.conn c).up = .sent)
  rw [← List.count_eq_zero]
  omega

/-- the connection is made -/
def Made (x : LConn) : Prop := x.up = .send ∨ x.up = .sent

theorem made_some {c : Nat} (h : Made (s.conn c)) : s.conns[c]? = some (s.conn c) := by
  cases e : s.conns[c]? with
  | none => rcases h with h | h <;> simp [LSt.conn, e] at h
  | some x => simp [LSt.conn, e]

/-- at the `select`, the disconnection of any connection that was made and not told yet can come next -/
theorem can_tell {c : Nat} (hr : LReach cfg s) (hl : s.loop = .sel) (hm : Made (s.conn c))
    (hd : (s.conn c).disc ≠ .served) :
    ∃ ops t, s.run cfg ops = some t ∧ t.loop = .sel ∧ (t.conn c).disc = .sending ∧ t.regs = s.regs ∧ t.log = s.log := by
  have hc := made_some hm
  have hu : ¬((s.conn c).up = .check ∨ (s.conn c).up = .refused) := by
    rcases hm with h | h <;> rw [h] <;> simp
  have hlen := (List.getElem?_eq_some_iff.mp hc).1
  have ht := (lreach_placed hr c).told
  have hs := (lreach_placed hr c).shuts
  rw [hl] at hs
  generalize hx : s.conn c = x at *
  cases e : x.cl with
  | «open» =>
    refine ⟨[.close c, .closer c], (s.setC c { x with cl := .told, disc := .sending }), ?_, hl, ?_, rfl, rfl⟩
    · simp [LSt.run, LSt.step, hc, hu, e, LSt.setC, hlen, (List.getElem?_eq_some_iff.mp hc).2]
    · rw [conn_setC hc, if_pos rfl]
  | firing b =>
    cases b with
    | true => have := hs.mpr e; cases this
    | false =>
      refine ⟨[.closer c], (s.setC c { x with cl := .told, disc := .sending }), ?_, hl, ?_, rfl, rfl⟩
      · simp [LSt.run, LSt.step, hc, e]
      · rw [conn_setC hc, if_pos rfl]
  | told =>
    refine ⟨[], s, rfl, hl, ?_, rfl, rfl⟩
    rw [hx]
    cases e' : x.disc with
    | none => exact absurd e (ht.mp e')
    | sending => rfl
    | served => exact absurd e' hd

theorem sending_some {c : Nat} (h : (s.conn c).disc = .sending) : s.conns[c]? = some (s.conn c) := by
  cases e : s.conns[c]? with
  | none => simp [LSt.conn, e] at h
  | some x => simp [LSt.conn, e]

/-- C86: when the loop is at its `select`, a disconnection that waits can be the next thing it receives, and then
it drops the connection if it is registered and ignores it otherwise. -/
theorem c86_told {c : Nat} (hr : LReach cfg s) (hl : s.loop = .sel) (hd : (s.conn c).disc = .sending) :
    ∃ t, s.step cfg (.recvDisc c) = some t ∧ (t.conn c).disc = .served ∧ c ∉ t.regs ∧
      (∀ d, d ≠ c → (d ∈ t.regs ↔ d ∈ s.regs)) ∧ t.buf = s.buf ∧
      t.log = s.log ++ [if c ∈ s.regs then .drop c else .ignored c] := by
  have hc := sending_some hd
  have hn := lreach_nodup hr
  by_cases h : c ∈ s.regs
  · refine ⟨{ s.setC c { s.conn c with disc := .served } with
      regs := s.regs.erase c, loop := .dec c, log := s.log ++ [.drop c] }, ?_, ?_, ?_, ?_, rfl, by simp [h]⟩
    · simp [LSt.step, hl, LSt.recvStep, hc, hd, h]
    · rw [conn_set' (y := { s.conn c with disc := .served }) hc rfl, if_pos rfl]
    · exact hn.not_mem_erase
    · exact fun d hd => List.mem_erase_of_ne hd
  · refine ⟨{ s.setC c { s.conn c with disc := .served } with log := s.log ++ [.ignored c] }, ?_, ?_, h,
      fun _ _ => Iff.rfl, rfl, by simp [h]⟩
    · simp [LSt.step, hl, LSt.recvStep, hc, hd, h]
    · rw [conn_set' (y := { s.conn c with disc := .served }) hc rfl, if_pos rfl]

/-- C86: a registered connection stays registered whatever happens exactly if the loop received its disconnection
before it registered it. -/
theorem c86_kept {c : Nat} (hr : LReach cfg s) (hc : c ∈ s.regs) :
    (∀ ops s', s.run cfg ops = some s' → c ∈ s'.regs) ↔ .ignored c ∈ s.log := by
  constructor
  · intro h
    refine Classical.byContradiction fun hi => ?_
    obtain ⟨n, t, h1, hl⟩ := loop_returns hr
    have hk : c ∈ t.regs ∧ .ignored c ∉ t.log :=
      loops_ind (P := fun u => c ∈ u.regs ∧ .ignored c ∉ u.log)
        (fun u u' h hx => by cases hx <;> first | exact h | exact ⟨h.1, by simp [h.2]⟩) ⟨hc, hi⟩ h1
    have hrt := lreach_run hr h1
    have hd : (t.conn c).disc ≠ .served := by
      intro e
      rcases served_logged hrt e with e | e
      · exact regs_undropped hrt hk.1 e
      · exact hk.2 e
    obtain ⟨ops, u, h2, hlu, hdu, _, _⟩ := can_tell hrt hl (.inr (regs_sent hrt hk.1)) hd
    obtain ⟨v, h3, _, hv, _⟩ := c86_told (cfg := cfg) (lreach_run hrt h2) hlu hdu
    refine hv (h (List.replicate n .loop ++ (ops ++ [.recvDisc c])) v ?_)
    rw [lrun_append h1, lrun_append h2]
    simp [LSt.run, h3]
  · intro hi ops s' hx
    exact (c35_refuted_stuck hr hc (ignored_served hr hi) hx).2

/-- the connection is registered for ever in the state `leakOps` ends in, and no connection is in the one
`closeLateOps` ends in -/
example : (∀ ops s', (lafter {} leakOps).run {} ops = some s' → 0 ∈ s'.regs) ∧
    ¬∀ ops s', (lafter {} closeLateOps).run {} ops = some s' → 1 ∈ s'.regs :=
  ⟨(c86_kept (lafter_reach (by decide +kernel)) (by decide +kernel)).mpr (by decide +kernel),
   fun h => absurd ((c86_kept (lafter_reach (by decide +kernel)) (by decide +kernel)).mp h) (by decide +kernel)⟩

/-- What has to hold for an `Upgrade` to get past its check, now or later. -/
def CanPass (s : LSt) (c : Nat) : Prop :=
  Made (s.conn c) ∨ ((s.conn c).up = .check ∧ (s.flag = false ∨ s.loop = .boot))

theorem upgrades {n : Nat} : s.run cfg (List.replicate n .upgrade) =
    some { s with conns := s.conns ++ List.replicate n {} } := by
  induction n generalizing s with
  | zero => simp [LSt.run]
  | succ n ih =>
    simp only [List.replicate_succ, LSt.run, LSt.step]
    rw [ih]
    simp

theorem up_loop {c : Nat} (hx : LNext cfg s .loop s') : (s'.conn c).up = (s.conn c).up := by
  cases hx
  case actShut k d rest x y hl hk hd _ ho => exact up_set (x := y) hd rfl rfl
  case shut k d rest y hl hd => exact up_set (x := y) hd rfl rfl
  all_goals exact congrArg LConn.up (conn_same (s := s) rfl)

/-- C86: the disconnection of a connection can still come before its registration exactly if the connection is not
registered yet and its `Upgrade` is not refused: however far it has got, the order of the two is open. -/
theorem c86_leak {c : Nat} (hr : LReach cfg s) (hi : .ignored c ∉ s.log) :
    (∃ ops s', s.run cfg ops = some s' ∧ .ignored c ∈ s'.log) ↔ .reg c ∉ s.log ∧ CanPass s c := by
  constructor
  · rintro ⟨ops, s', hx, h⟩
    refine Classical.byContradiction fun hn => ?_
    have hcase : .reg c ∈ s.log ∨ (.reg c ∉ s.log ∧ ¬CanPass s c) := by
      by_cases e : .reg c ∈ s.log
      · exact .inl e
      · exact .inr ⟨e, fun h => hn ⟨e, h⟩⟩
    rcases hcase with hg | ⟨_, hp⟩
    · have := lrun_placed (P := fun t => .reg c ∈ t.log ∧ .ignored c ∉ t.log) (fun t op t' hr ⟨h1, h2⟩ hx => ?_) hr
        ⟨hg, hi⟩ hx
      · exact this.2 h
      · cases hx
        case recvIgnore d x hl hd hs hreg =>
          refine ⟨by simp [h1], ?_⟩
          simp only [List.mem_append, List.mem_singleton, LEv.ignored.injEq, not_or]
          refine ⟨h2, ?_⟩
          rintro rfl
          rcases (regs_logged hr).mp h1 with e | e
          · exact hreg e
          · have h3 := (lreach_placed hr c).disc
            rw [conn_of hd, hs] at h3
            have := List.count_pos_iff.mpr e
            simp only [reduceCtorEq, b01_false] at h3
            omega
        all_goals first
          | exact ⟨h1, h2⟩
          | exact ⟨by simp [h1], by simp [h2]⟩
    · have hd := ignored_served (lreach_run hr hx) h
      have hcl := served_told (lreach_run hr hx) hd
      have hearly := (lreach_placed (lreach_run hr hx) c).early
      have hup : ¬((s'.conn c).up = .check ∨ (s'.conn c).up = .refused) := by
        intro e
        rw [(hearly e).1] at hcl; cases hcl
      apply hup
      unfold CanPass at hp
      cases e : (s.conn c).up with
      | check =>
        have hf : s.flag = true := by
          cases hf : s.flag
          · exact absurd (.inr ⟨e, .inl hf⟩) hp
          · rfl
        exact (c45_refused_partial hr hf (fun h => hp (.inr ⟨e, .inr h⟩)) hx).2 c e |>.1
      | refused =>
        refine .inr ?_
        exact lrun_placed (P := fun t => (t.conn c).up = .refused)
          (fun t op t' hr h hx => cnext_refused (cnext_of (lreach_placed hr) hx c) h) hr e hx
      | send => exact absurd (.inl (.inl e)) hp
      | sent => exact absurd (.inl (.inr e)) hp
  · rintro ⟨hg, hp⟩
    -- the loop comes back to its `select`
    obtain ⟨n, t, h1, hl⟩ := loop_returns hr
    have hrt := lreach_run hr h1
    have hk : (.reg c ∉ t.log ∧ .ignored c ∉ t.log) ∧ (CanPass t c) := by
      refine loops_ind (P := fun u => (.reg c ∉ u.log ∧ .ignored c ∉ u.log) ∧ CanPass u c)
        (fun u u' h hx => ⟨?_, ?_⟩) ⟨⟨hg, hi⟩, hp⟩ h1
      · cases hx <;> first | exact h.1 | exact ⟨by simp [h.1.1], by simp [h.1.2]⟩
      · have hu := up_loop (c := c) hx
        unfold CanPass Made at h ⊢
        rw [hu]
        rcases h.2 with h2 | ⟨h2, h3⟩
        · exact .inl h2
        · refine .inr ⟨h2, ?_⟩
          rcases h3 with h3 | h3
          · refine .inl ?_
            cases hx <;> first | exact h3 | rfl
          · refine .inl ?_
            cases hx
            case boot => rfl
            all_goals simp_all
    -- the `Upgrade` is made, if it was not, and passes its check
    have hmade : ∃ ops u, t.run cfg ops = some u ∧ u.loop = .sel ∧ Made (u.conn c) ∧ u.log = t.log := by
      rcases hk.2 with h | ⟨h2, h3⟩
      · exact ⟨[], t, rfl, hl, h, rfl⟩
      · have hf : t.flag = false := h3.resolve_right (by rw [hl]; simp)
        have hlen : c < (t.conns ++ List.replicate (c + 1) ({} : LConn)).length := by simp; omega
        have hc : ({ t with conns := t.conns ++ List.replicate (c + 1) {} } : LSt).conn c = t.conn c := by
          simp only [LSt.conn, List.getElem?_append]
          split
          · rfl
          · rename_i h
            rw [List.getElem?_eq_none (l := t.conns) (by omega), List.getElem?_replicate]
            split <;> rfl
        have hx := List.getElem?_eq_some_iff.mpr ⟨hlen, rfl⟩
        rw [← conn_of (s := { t with conns := t.conns ++ List.replicate (c + 1) {} }) hx] at hx
        rw [hc] at hx
        refine ⟨List.replicate (c + 1) .upgrade ++ [.up c],
          ({ t with conns := t.conns ++ List.replicate (c + 1) {} } : LSt).setC c { t.conn c with up := .send },
          (lrun_append upgrades).trans ?_, hl, .inl ?_, rfl⟩
        · simp [LSt.run, LSt.step, LSt.upStep, hx, h2, hf]
        · rw [conn_setC (s := { t with conns := t.conns ++ List.replicate (c + 1) {} }) hx, if_pos rfl]
    obtain ⟨ops2, u, h2, hlu, hmu, hlog⟩ := hmade
    have hru := lreach_run hrt h2
    have hd : (u.conn c).disc ≠ .served := by
      intro e
      rcases served_logged hru e with e | e
      · exact hk.1.1 ((hlog ▸ (regs_logged hru).mpr (.inr e)))
      · exact hk.1.2 (hlog ▸ e)
    obtain ⟨ops3, v, h3, hlv, hdv, hgv, hlogv⟩ := can_tell hru hlu hmu hd
    obtain ⟨w, h4, _, _, _, _, hw⟩ := c86_told (cfg := cfg) (lreach_run hru h3) hlv hdv
    refine ⟨List.replicate n .loop ++ (ops2 ++ (ops3 ++ [.recvDisc c])), w, ?_, ?_⟩
    · rw [lrun_append h1, lrun_append h2, lrun_append h3]
      simp [LSt.run, h4]
    · have : c ∉ v.regs := by
        intro e
        refine hk.1.1 (hlog ▸ (regs_logged hru).mpr (.inl (hgv ▸ e)))
      rw [hw, if_neg this]
      simp

/-- a connection that the loop is about to register can leak; one it has registered, or refused, cannot -/
example :
    (∃ ops s', (lafter {} [.loop, .upgrade, .up 0, .up 0]).run {} ops = some s' ∧ .ignored 0 ∈ s'.log) ∧
    ¬(∃ ops s', (lafter {} [.loop, .upgrade, .up 0, .up 0, .recvConnect]).run {} ops = some s' ∧ .ignored 0 ∈ s'.log) ∧
    ¬(∃ ops s', (lafter {} [.loop, .call .close, .caller 0, .upgrade, .up 0]).run {} ops = some s' ∧ .ignored 0 ∈ s'.log) := by
  refine ⟨(c86_leak (lafter_reach (by decide +kernel)) (by decide +kernel)).mpr ⟨by decide +kernel, .inl (.inr (by decide +kernel))⟩,
    fun h => ((c86_leak (lafter_reach (by decide +kernel)) (by decide +kernel)).mp h).1 (by decide +kernel), fun h => ?_⟩
  rcases ((c86_leak (lafter_reach (by decide +kernel)) (by decide +kernel)).mp h).2 with (h | h) | h
  · revert h; decide +kernel
  · revert h; decide +kernel
  · exact absurd h.1 (by decide +kernel)

/-- C86: how many connections the server counts when nothing is under way: the open ones, and the closed ones whose
disconnection came first. -/
theorem c86_count (hr : LReach cfg s) (hs : Settled s) :
    s.count = BitVec.ofNat 64 (((List.range s.conns.length).filter
      (fun c => decide ((s.conn c).up = .sent) && (decide ((s.conn c).cl = .open) || decide (.ignored c ∈ s.log)))).length) := by
  have h := (c35_count hr).2
  rw [hs.loop] at h
  dsimp only at h
  rw [h]
  congr 1
  apply List.Perm.length_eq
  rw [List.perm_ext_iff_of_nodup (lreach_nodup hr) (List.nodup_range.filter _)]
  intro c
  rw [c35_settled_partial hr hs c]
  simp only [List.mem_filter, List.mem_range, Bool.and_eq_true, Bool.or_eq_true, decide_eq_true_eq]
  constructor
  · intro h
    refine ⟨?_, h⟩
    have := made_some (s := s) (c := c) (.inr h.1)
    exact (List.getElem?_eq_some_iff.mp this).1
  · exact fun h => h.2

end Neffos
