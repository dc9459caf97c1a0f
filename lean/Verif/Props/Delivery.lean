import Verif.Proofs.Delivery
import Verif.Props.Handshake
import Verif.Props.Wire
import Verif.Props.Write
import Verif.Proofs.Session
/-!
# C62: the delivery of events

What one side emits is heard by the other: unchanged, in order and at most once; and, while the
receiver is connected to the namespace, exactly once.
-/
set_option autoImplicit false
namespace Neffos
open Neffos.Spec

variable {cfg cc sc : Cfg} {id idc ids : Bytes}

theorem staysIn_cons {ns : Bytes} {s t : St} {op : Op} {ops : List Op} (h : StaysIn cfg ns s (op :: ops))
    (hs : step cfg s op = some t) : (handles op = true → s.namespace ns ≠ none) ∧ StaysIn cfg ns t ops := by
  refine ⟨fun ho => h [] op ops s rfl ho rfl, ?_⟩
  intro pre op' post u he ho hu
  refine h (op :: pre) op' post u (by rw [he]; rfl) ho ?_
  simp only [runOps, hs]; exact hu

theorem staysIn_intro {ns : Bytes} {s t : St} {op : Op} {ops : List Op} (hs : step cfg s op = some t)
    (h1 : handles op = true → s.namespace ns ≠ none) (h2 : StaysIn cfg ns t ops) : StaysIn cfg ns s (op :: ops) := by
  intro pre op' post u he ho hu
  cases pre with
  | nil =>
    simp at he
    simp [runOps] at hu
    subst hu
    rw [← he.1] at ho
    exact h1 ho
  | cons x pre =>
    simp at he
    obtain ⟨rfl, he⟩ := he
    simp only [runOps, hs] at hu
    exact h2 pre op' post u he ho hu

theorem heard_run {s s' : St} {ops : List Op} (hr : Reach cfg id s) (hw : Working s)
    (h : runOps cfg s ops = some s') (ho : s'.closed = false) :
    (heard s'.log ++ held s').Sublist (heard s.log ++ held s ++ (readIn ops).filterMap (carried cfg)) ∧
      ∀ ns, cfg.onlyNative = false → StaysIn cfg ns s ops →
        (heard s'.log ++ held s').filter (Plain ns ·) =
          (heard s.log ++ held s ++ (readIn ops).filterMap (carried cfg)).filter (Plain ns ·) := by
  induction ops generalizing s with
  | nil =>
    cases h
    simp [readIn]
  | cons op ops ih =>
    have hall := h
    simp only [runOps] at h
    split at h
    · rename_i t ht
      have hrt := Reach.step hr ht
      obtain ⟨d1, d2, d3⟩ := delivers hr ⟨hw.todo, hw.ackAfter, hw.notAck⟩ hw.acked (step_exec ht).1
      have hta : t.acked = true := by
        rcases step_acked hr ht (.inl hw.acked) with x | x
        · exact x
        · have := run_closed hrt h x; rw [ho] at this; cases this
      obtain ⟨i1, i2⟩ := ih hrt ⟨hta, d1.todo, d1.ackAfter, d1.notAck⟩ h
      rw [readIn_cons, List.filterMap_append, ← List.append_assoc]
      refine ⟨i1.trans (d2.append (List.Sublist.refl _)), ?_⟩
      intro ns hon hst
      obtain ⟨k1, k2⟩ := staysIn_cons hst ht
      rw [i2 ns hon k2, List.filter_append, d3 ns hon ?_, ← List.filter_append]
      rintro (rfl | ⟨a, b, rfl⟩)
      · exact k1 rfl
      · exact k1 rfl
    · cases h

theorem heard_new {s s' : St} {ops : List Op} (hr : Reach cfg id s) (h : runOps cfg s ops = some s') :
    ∃ l, s'.log = s.log ++ l := by
  induction ops generalizing s with
  | nil => cases h; exact ⟨[], by simp⟩
  | cons op ops ih =>
    simp only [runOps] at h
    split at h
    · rename_i t ht
      obtain ⟨l, hl⟩ := ih (.step hr ht) h
      obtain ⟨k, hk⟩ := (Prims.grows (reach_prims hr ht)).log
      exact ⟨k ++ l, by rw [hl, ← hk, List.append_assoc]⟩
    · cases h

/-- C62: whatever else happens, the application messages that a working connection hears are
among those carried by the payloads it read, in the order of the payloads, each payload at most
once and with exactly the decoded content. -/
theorem c62_order {s s' : St} {ops : List Op} (hr : Reach cfg id s) (hw : Working s)
    (h : runOps cfg s ops = some s') (ho : s'.closed = false) :
    ∃ new, heard s'.log = heard s.log ++ new ∧ ArriveInOrder cfg s s' new (readIn ops) := by
  obtain ⟨l, hl⟩ := heard_new hr h
  have h1 := (heard_run hr hw h ho).1
  refine ⟨heard l, by rw [hl, heard_append], ?_⟩
  rw [hl, heard_append, List.append_assoc, List.append_assoc] at h1
  exact (List.append_sublist_append_left _).mp h1

/-- C62: while it is connected to the namespace, none of its messages is lost: the application
messages of the namespace that are not answers are heard exactly once each. -/
theorem c62_exact {s s' : St} {ops : List Op} {ns : Bytes} (hr : Reach cfg id s) (hw : Working s)
    (h : runOps cfg s ops = some s') (ho : s'.closed = false) (hon : cfg.onlyNative = false)
    (hst : StaysIn cfg ns s ops) :
    ∃ new, heard s'.log = heard s.log ++ new ∧ ArriveAll cfg ns s s' new (readIn ops) := by
  obtain ⟨l, hl⟩ := heard_new hr h
  have h1 := (heard_run hr hw h ho).2 ns hon hst
  refine ⟨heard l, by rw [hl, heard_append], ?_⟩
  rw [hl, heard_append, List.append_assoc, List.append_assoc, List.filter_append,
    List.filter_append (l₁ := heard s.log)] at h1
  exact List.append_cancel_left h1

/-! ## Both sides of a session -/

theorem pipe_mono {a b : List Obs} (h : a <+: b) : pipe a <+: pipe b := by
  obtain ⟨l, rfl⟩ := h
  rw [pipe_append]; exact List.prefix_append _ _

theorem getElem_of_prefix {α : Type} {l l' : List α} {n : Nat} {x : α} (h : l <+: l') (hx : l[n]? = some x) :
    l'[n]? = some x := by
  obtain ⟨r, rfl⟩ := h
  obtain ⟨hn, _⟩ := List.getElem?_eq_some_iff.mp hx
  rw [List.getElem?_append_left hn]; exact hx

theorem slice_next {l : List (MsgType × Bytes)} {p : MsgType × Bytes} {n k : Nat} (h : l[n]? = some p)
    (hk : n < k) : (l.take k).drop n = p :: (l.take k).drop (n + 1) := by
  have h1 : (l.take k)[n]? = some p := by rw [List.getElem?_take_of_lt hk]; exact h
  obtain ⟨hlt, he⟩ := List.getElem?_eq_some_iff.mp h1
  rw [List.drop_eq_getElem_cons hlt, he]

/-- the operations of the client in a session -/
theorem client_ops {s s' : Sess} {ops : List SessOp} (hd : Reach sc ids s.d)
    (h : srun cc sc s ops = some s') :
    s.down ≤ s'.down ∧ pipe s.d.log <+: pipe s'.d.log ∧
    ∃ ops', runOps cc s.c ops' = some s'.c ∧
      (readIn ops').Sublist (((pipe s'.d.log).take s'.down).drop s.down) ∧
      ((∀ i, SessOp.downAsk i ∉ ops) → readIn ops' = ((pipe s'.d.log).take s'.down).drop s.down) ∧
      ∀ ns, ClientStaysIn cc sc ns s ops → StaysIn cc ns s.c ops' := by
  induction ops generalizing s with
  | nil =>
    cases h
    have e : ((pipe s'.d.log).take s'.down).drop s'.down = [] := by
      rw [List.drop_eq_nil_iff]; simp; omega
    refine ⟨Nat.le_refl _, List.prefix_rfl, [], rfl, by simp [readIn], fun _ => by rw [e]; rfl, ?_⟩
    intro ns _ pre op post t he
    simp at he
  | cons op ops ih =>
    simp only [srun] at h
    split at h
    · rename_i t ht
      have stay : ∀ ns, ClientStaysIn cc sc ns s (op :: ops) → ClientStaysIn cc sc ns t ops := by
        intro ns hc pre op' post u he ho hu
        refine hc (op :: pre) op' post u (by rw [he]; rfl) ho ?_
        simp only [srun, ht]; exact hu
      have now : ∀ ns, ClientStaysIn cc sc ns s (op :: ops) → op = .down ∨ op = .client .wake →
          s.c.namespace ns ≠ none := fun ns hc ho => hc [] op ops s rfl ho rfl
      -- an operation of the server
      have other : t.c = s.c → t.down = s.down → Reach sc ids t.d → pipe s.d.log <+: pipe t.d.log →
          s.down ≤ s'.down ∧ pipe s.d.log <+: pipe s'.d.log ∧
          ∃ ops', runOps cc s.c ops' = some s'.c ∧
            (readIn ops').Sublist (((pipe s'.d.log).take s'.down).drop s.down) ∧
            ((∀ i, SessOp.downAsk i ∉ op :: ops) → readIn ops' = ((pipe s'.d.log).take s'.down).drop s.down) ∧
            ∀ ns, ClientStaysIn cc sc ns s (op :: ops) → StaysIn cc ns s.c ops' := by
        intro e1 e2 e3 e4
        obtain ⟨i0, i1, ops', i2, i3, i4, i5⟩ := ih e3 h
        rw [e1] at i2 i5
        rw [e2] at i0 i3 i4
        exact ⟨i0, e4.trans i1, ops', i2, i3, fun hno => i4 fun i hi => hno i (List.mem_cons_of_mem _ hi),
          fun ns hc => i5 ns (stay ns hc)⟩
      -- an operation of the client
      have own : ∀ o, step cc s.c o = some t.c → t.d = s.d → t.down = s.down → readIn [o] = [] →
          (handles o = true → op = .client .wake) →
          s.down ≤ s'.down ∧ pipe s.d.log <+: pipe s'.d.log ∧
          ∃ ops', runOps cc s.c ops' = some s'.c ∧
            (readIn ops').Sublist (((pipe s'.d.log).take s'.down).drop s.down) ∧
            ((∀ i, SessOp.downAsk i ∉ op :: ops) → readIn ops' = ((pipe s'.d.log).take s'.down).drop s.down) ∧
            ∀ ns, ClientStaysIn cc sc ns s (op :: ops) → StaysIn cc ns s.c ops' := by
        intro o e1 e2 e3 e4 e5
        obtain ⟨i0, i1, ops', i2, i3, i4, i5⟩ := ih (by rw [e2]; exact hd) h
        rw [e3] at i0 i3 i4
        rw [e2] at i1
        refine ⟨i0, i1, o :: ops', by simp only [runOps, e1]; exact i2, ?_, ?_, ?_⟩
        · rw [readIn_cons, e4]; exact i3
        · intro hno
          rw [readIn_cons, e4]
          exact i4 fun i hi => hno i (List.mem_cons_of_mem _ hi)
        · intro ns hc
          exact staysIn_intro e1 (fun hh => now ns hc (.inr (e5 hh))) (i5 ns (stay ns hc))
      cases op with
      | client o =>
        simp only [sstep] at ht
        split at ht
        · cases ht
        · rename_i hrd
          obtain ⟨c', hc', rfl⟩ := Option.map_eq_some_iff.mp ht
          refine own o hc' rfl rfl ?_ ?_
          · cases o <;> first | rfl | simp [Op.reads] at hrd
          · cases o <;> simp [handles, Op.reads] at hrd ⊢
      | server o =>
        simp only [sstep] at ht
        split at ht
        · cases ht
        · obtain ⟨d', hd', rfl⟩ := Option.map_eq_some_iff.mp ht
          exact other rfl rfl (.step hd hd') (pipe_mono (Prims.grows (reach_prims hd hd')).log)
      | up =>
        simp only [sstep] at ht
        split at ht
        · cases ht
        · obtain ⟨d', hd', rfl⟩ := Option.map_eq_some_iff.mp ht
          exact other rfl rfl (.step hd hd') (pipe_mono (Prims.grows (reach_prims hd hd')).log)
      | upAsk i =>
        simp only [sstep] at ht
        split at ht
        · cases ht
        · obtain ⟨d', hd', rfl⟩ := Option.map_eq_some_iff.mp ht
          exact other rfl rfl (.step hd hd') (pipe_mono (Prims.grows (reach_prims hd hd')).log)
      | down =>
        simp only [sstep] at ht
        split at ht
        · cases ht
        · rename_i ty b hp
          obtain ⟨c', hc', rfl⟩ := Option.map_eq_some_iff.mp ht
          obtain ⟨i0, i1, ops', i2, i3, i4, i5⟩ := ih (s := { s with c := c', down := s.down + 1 }) hd h
          have i0 : s.down + 1 ≤ s'.down := i0
          have hnext := slice_next (k := s'.down) (getElem_of_prefix i1 hp) i0
          refine ⟨by omega, i1, .recv ty b :: ops', by simp only [runOps, hc']; exact i2, ?_, ?_, ?_⟩
          · rw [hnext, readIn]; exact List.Sublist.cons_cons _ i3
          · intro hno
            rw [hnext, readIn]
            exact congrArg _ (i4 fun i hi => hno i (List.mem_cons_of_mem _ hi))
          · intro ns hc
            exact staysIn_intro hc' (fun _ => now ns hc (.inl rfl)) (i5 ns (stay ns hc))
      | downAsk i =>
        simp only [sstep] at ht
        split at ht
        · cases ht
        · rename_i ty b hp
          obtain ⟨c', hc', rfl⟩ := Option.map_eq_some_iff.mp ht
          obtain ⟨i0, i1, ops', i2, i3, i4, i5⟩ := ih (s := { s with c := c', down := s.down + 1 }) hd h
          have i0 : s.down + 1 ≤ s'.down := i0
          have hnext := slice_next (k := s'.down) (getElem_of_prefix i1 hp) i0
          refine ⟨by omega, i1, .steal i ty b :: ops', by simp only [runOps, hc']; exact i2, ?_, ?_, ?_⟩
          · rw [hnext]; exact List.Sublist.cons _ i3
          · intro hno
            exact absurd (List.mem_cons_self ..) (hno i)
          · intro ns hc
            exact staysIn_intro hc' (fun hh => by simp [handles] at hh) (i5 ns (stay ns hc))
    · cases h

/-- the operations of the server in a session -/
theorem server_ops {s s' : Sess} {ops : List SessOp} (hd : Reach cc idc s.c)
    (h : srun cc sc s ops = some s') :
    s.up ≤ s'.up ∧ pipe s.c.log <+: pipe s'.c.log ∧
    ∃ ops', runOps sc s.d ops' = some s'.d ∧
      (readIn ops').Sublist (((pipe s'.c.log).take s'.up).drop s.up) ∧
      ((∀ i, SessOp.upAsk i ∉ ops) → readIn ops' = ((pipe s'.c.log).take s'.up).drop s.up) ∧
      ∀ ns, ServerStaysIn cc sc ns s ops → StaysIn sc ns s.d ops' := by
  induction ops generalizing s with
  | nil =>
    cases h
    have e : ((pipe s'.c.log).take s'.up).drop s'.up = [] := by
      rw [List.drop_eq_nil_iff]; simp; omega
    refine ⟨Nat.le_refl _, List.prefix_rfl, [], rfl, by simp [readIn], fun _ => by rw [e]; rfl, ?_⟩
    intro ns _ pre op post t he
    simp at he
  | cons op ops ih =>
    simp only [srun] at h
    split at h
    · rename_i t ht
      have stay : ∀ ns, ServerStaysIn cc sc ns s (op :: ops) → ServerStaysIn cc sc ns t ops := by
        intro ns hc pre op' post u he ho hu
        refine hc (op :: pre) op' post u (by rw [he]; rfl) ho ?_
        simp only [srun, ht]; exact hu
      have now : ∀ ns, ServerStaysIn cc sc ns s (op :: ops) → op = .up ∨ op = .server .wake →
          s.d.namespace ns ≠ none := fun ns hc ho => hc [] op ops s rfl ho rfl
      -- an operation of the client
      have other : t.d = s.d → t.up = s.up → Reach cc idc t.c → pipe s.c.log <+: pipe t.c.log →
          s.up ≤ s'.up ∧ pipe s.c.log <+: pipe s'.c.log ∧
          ∃ ops', runOps sc s.d ops' = some s'.d ∧
            (readIn ops').Sublist (((pipe s'.c.log).take s'.up).drop s.up) ∧
            ((∀ i, SessOp.upAsk i ∉ op :: ops) → readIn ops' = ((pipe s'.c.log).take s'.up).drop s.up) ∧
            ∀ ns, ServerStaysIn cc sc ns s (op :: ops) → StaysIn sc ns s.d ops' := by
        intro e1 e2 e3 e4
        obtain ⟨i0, i1, ops', i2, i3, i4, i5⟩ := ih e3 h
        rw [e1] at i2 i5
        rw [e2] at i0 i3 i4
        exact ⟨i0, e4.trans i1, ops', i2, i3, fun hno => i4 fun i hi => hno i (List.mem_cons_of_mem _ hi),
          fun ns hc => i5 ns (stay ns hc)⟩
      -- an operation of the server
      have own : ∀ o, step sc s.d o = some t.d → t.c = s.c → t.up = s.up → readIn [o] = [] →
          (handles o = true → op = .server .wake) →
          s.up ≤ s'.up ∧ pipe s.c.log <+: pipe s'.c.log ∧
          ∃ ops', runOps sc s.d ops' = some s'.d ∧
            (readIn ops').Sublist (((pipe s'.c.log).take s'.up).drop s.up) ∧
            ((∀ i, SessOp.upAsk i ∉ op :: ops) → readIn ops' = ((pipe s'.c.log).take s'.up).drop s.up) ∧
            ∀ ns, ServerStaysIn cc sc ns s (op :: ops) → StaysIn sc ns s.d ops' := by
        intro o e1 e2 e3 e4 e5
        obtain ⟨i0, i1, ops', i2, i3, i4, i5⟩ := ih (by rw [e2]; exact hd) h
        rw [e3] at i0 i3 i4
        rw [e2] at i1
        refine ⟨i0, i1, o :: ops', by simp only [runOps, e1]; exact i2, ?_, ?_, ?_⟩
        · rw [readIn_cons, e4]; exact i3
        · intro hno
          rw [readIn_cons, e4]
          exact i4 fun i hi => hno i (List.mem_cons_of_mem _ hi)
        · intro ns hc
          exact staysIn_intro e1 (fun hh => now ns hc (.inr (e5 hh))) (i5 ns (stay ns hc))
      cases op with
      | server o =>
        simp only [sstep] at ht
        split at ht
        · cases ht
        · rename_i hrd
          obtain ⟨d', hd', rfl⟩ := Option.map_eq_some_iff.mp ht
          refine own o hd' rfl rfl ?_ ?_
          · cases o <;> first | rfl | simp [Op.reads] at hrd
          · cases o <;> simp [handles, Op.reads] at hrd ⊢
      | client o =>
        simp only [sstep] at ht
        split at ht
        · cases ht
        · obtain ⟨c', hc', rfl⟩ := Option.map_eq_some_iff.mp ht
          exact other rfl rfl (.step hd hc') (pipe_mono (Prims.grows (reach_prims hd hc')).log)
      | down =>
        simp only [sstep] at ht
        split at ht
        · cases ht
        · obtain ⟨c', hc', rfl⟩ := Option.map_eq_some_iff.mp ht
          exact other rfl rfl (.step hd hc') (pipe_mono (Prims.grows (reach_prims hd hc')).log)
      | downAsk i =>
        simp only [sstep] at ht
        split at ht
        · cases ht
        · obtain ⟨c', hc', rfl⟩ := Option.map_eq_some_iff.mp ht
          exact other rfl rfl (.step hd hc') (pipe_mono (Prims.grows (reach_prims hd hc')).log)
      | up =>
        simp only [sstep] at ht
        split at ht
        · cases ht
        · rename_i ty b hp
          obtain ⟨d', hd', rfl⟩ := Option.map_eq_some_iff.mp ht
          obtain ⟨i0, i1, ops', i2, i3, i4, i5⟩ := ih (s := { s with d := d', up := s.up + 1 }) hd h
          have i0 : s.up + 1 ≤ s'.up := i0
          have hnext := slice_next (k := s'.up) (getElem_of_prefix i1 hp) i0
          refine ⟨by omega, i1, .recv ty b :: ops', by simp only [runOps, hd']; exact i2, ?_, ?_, ?_⟩
          · rw [hnext, readIn]; exact List.Sublist.cons_cons _ i3
          · intro hno
            rw [hnext, readIn]
            exact congrArg _ (i4 fun i hi => hno i (List.mem_cons_of_mem _ hi))
          · intro ns hc
            exact staysIn_intro hd' (fun _ => now ns hc (.inl rfl)) (i5 ns (stay ns hc))
      | upAsk i =>
        simp only [sstep] at ht
        split at ht
        · cases ht
        · rename_i ty b hp
          obtain ⟨d', hd', rfl⟩ := Option.map_eq_some_iff.mp ht
          obtain ⟨i0, i1, ops', i2, i3, i4, i5⟩ := ih (s := { s with d := d', up := s.up + 1 }) hd h
          have i0 : s.up + 1 ≤ s'.up := i0
          have hnext := slice_next (k := s'.up) (getElem_of_prefix i1 hp) i0
          refine ⟨by omega, i1, .steal i ty b :: ops', by simp only [runOps, hd']; exact i2, ?_, ?_, ?_⟩
          · rw [hnext]; exact List.Sublist.cons _ i3
          · intro hno
            exact absurd (List.mem_cons_self ..) (hno i)
          · intro ns hc
            exact staysIn_intro hd' (fun hh => by simp [handles] at hh) (i5 ns (stay ns hc))
    · cases h


/-- C62: in a session, what the client hears was emitted by the server-side connection, in order
and at most once each. -/
theorem c62_client {s s' : Sess} {ops : List SessOp} (hc : Reach cc idc s.c) (hd : Reach sc ids s.d)
    (hw : Working s.c) (h : srun cc sc s ops = some s') (ho : s'.c.closed = false) :
    ∃ new, heard s'.c.log = heard s.c.log ++ new ∧
      ArriveInOrder cc s.c s'.c new (((pipe s'.d.log).take s'.down).drop s.down) := by
  obtain ⟨_, _, ops', h1, h2, _, _⟩ := client_ops hd h
  obtain ⟨new, h3, h4⟩ := c62_order hc hw h1 ho
  exact ⟨new, h3, h4.trans ((List.Sublist.refl _).append (h2.filterMap _))⟩

/-- C62: and every message of a namespace it stays connected to is heard, if no Ask of the
client itself reads from the socket. -/
theorem c62_client_exact {s s' : Sess} {ops : List SessOp} {ns : Bytes} (hc : Reach cc idc s.c)
    (hd : Reach sc ids s.d) (hw : Working s.c) (h : srun cc sc s ops = some s') (ho : s'.c.closed = false)
    (hon : cc.onlyNative = false) (hno : ∀ i, SessOp.downAsk i ∉ ops) (hst : ClientStaysIn cc sc ns s ops) :
    ∃ new, heard s'.c.log = heard s.c.log ++ new ∧
      ArriveAll cc ns s.c s'.c new (((pipe s'.d.log).take s'.down).drop s.down) := by
  obtain ⟨_, _, ops', h1, _, h3, h4⟩ := client_ops hd h
  obtain ⟨new, h5, h6⟩ := c62_exact hc hw h1 ho hon (h4 ns hst)
  exact ⟨new, h5, by rw [← h3 hno]; exact h6⟩

/-- C62: the same for what the server-side connection hears from the client. -/
theorem c62_server {s s' : Sess} {ops : List SessOp} (hc : Reach cc idc s.c) (hd : Reach sc ids s.d)
    (hw : Working s.d) (h : srun cc sc s ops = some s') (ho : s'.d.closed = false) :
    ∃ new, heard s'.d.log = heard s.d.log ++ new ∧
      ArriveInOrder sc s.d s'.d new (((pipe s'.c.log).take s'.up).drop s.up) := by
  obtain ⟨_, _, ops', h1, h2, _, _⟩ := server_ops hc h
  obtain ⟨new, h3, h4⟩ := c62_order hd hw h1 ho
  exact ⟨new, h3, h4.trans ((List.Sublist.refl _).append (h2.filterMap _))⟩

theorem c62_server_exact {s s' : Sess} {ops : List SessOp} {ns : Bytes} (hc : Reach cc idc s.c)
    (hd : Reach sc ids s.d) (hw : Working s.d) (h : srun cc sc s ops = some s') (ho : s'.d.closed = false)
    (hon : sc.onlyNative = false) (hno : ∀ i, SessOp.upAsk i ∉ ops) (hst : ServerStaysIn cc sc ns s ops) :
    ∃ new, heard s'.d.log = heard s.d.log ++ new ∧
      ArriveAll sc ns s.d s'.d new (((pipe s'.c.log).take s'.up).drop s.up) := by
  obtain ⟨_, _, ops', h1, _, h3, h4⟩ := server_ops hc h
  obtain ⟨new, h5, h6⟩ := c62_exact hd hw h1 ho hon (h4 ns hst)
  exact ⟨new, h5, by rw [← h3 hno]; exact h6⟩

/-! ## What is emitted -/

theorem pipe_of_sentOf {l : List Obs} (h : sentOf l = []) : pipe l = [] := by
  induction l with
  | nil => rfl
  | cons o l ih =>
    cases o <;> first | exact ih h | simp [sentOf] at h

/-- C62: a write that returns true puts exactly one payload into the socket and it carries the
message: its namespace, room, event, body and kind. One that returns false puts nothing there. -/
theorem c62_emitted {s : St} {m : Message} (hr : Reach cfg id s) (happ : AppMsg m) (he : m.err = none)
    (h1 : SafeName m.ns) (h2 : SafeName m.room) (h3 : SafeName m.event) (hl : ¬ Life m.event) :
    ((write cfg s m).2 = true → ∃ p, pipe (write cfg s m).1.log = pipe s.log ++ [p] ∧
      ∀ cfg' : Cfg, cfg'.onlyNative = false → ∃ r, carried cfg' p = some r ∧ Plain m.ns r ∧
        r.room = m.room ∧ r.event = m.event ∧ r.body = m.body ∧ r.err = none ∧ r.setBinary = m.setBinary) ∧
    ((write cfg s m).2 = false → pipe (write cfg s m).1.log = pipe s.log) := by
  have htok : PlainToken m.wait := by
    rw [happ.1]; exact ⟨by simp, by simp, by simp⟩
  obtain ⟨b, hb, hy, hn⟩ := c13_write hr m
  by_cases hm : MayWrite cfg s m
  · obtain ⟨rest, e1, e2, _, e4⟩ := hy hm
    have hp := pipe_of_sentOf e2
    constructor
    · intro ht
      rw [e4] at ht
      rw [ht] at e1
      refine ⟨(if m.setBinary then .binary else .text, b), by rw [e1, pipe_append]; simp [pipe, hp], ?_⟩
      intro cfg' hon
      obtain ⟨b', hb', hd⟩ := c01_round_trip cfg'.known (if m.setBinary then .binary else .text) cfg'.allowNative
        { m with fromExplicit := [] } (.inl happ.2) rfl he htok h1 h2 h3
      rw [hb] at hb'
      cases hb'
      refine ⟨⟨m.wait, m.ns, m.room, m.event, m.body, none, false, m.isNoOp, false, default, default, default,
        default, default, default, cfg'.allowNative && m.event = OnNativeMessage, default, m.setBinary⟩, ?_, ⟨rfl, happ.1⟩, rfl, rfl, rfl, rfl, rfl⟩
      unfold carried
      rw [hon, hd]
      dsimp only
      rw [if_neg (by simpa using hl)]
      cases m.setBinary <;> rfl
    · intro hf
      rw [e4] at hf
      rw [e1, pipe_append, hf]
      simp [pipe, hp]
  · obtain ⟨e1, e2, _⟩ := hn hm
    refine ⟨?_, fun _ => (by rw [e1])⟩
    intro ht
    rw [e2] at ht; cases ht

/-! ## Concrete cases -/

/-- a client and a server-side connection that are connected to `chat` -/
def chatPair : Sess :=
  { c := after (clientCfg chatDecl noCb) [] chatOps, d := after (serverCfg chatDecl noCb) (b! "1") chatSrvOps,
    up := 1, down := 2 }

/-- The server emits two messages, the client reads them: it hears both, in order. -/
example : let cc := clientCfg chatDecl noCb
    let sc := serverCfg chatDecl noCb
    let ops : List SessOp := [.server (.write { ns := b! "chat", event := b! "e", body := b! "1" }),
      .server (.write { ns := b! "chat", event := b! "e", body := b! "2" }), .down, .down]
    Reach cc [] chatPair.c ∧ Reach sc (b! "1") chatPair.d ∧
      chatPair.c.acked = true ∧ chatPair.c.todo = [] ∧ chatPair.c.ackAfter = false ∧ chatPair.c.rd = .idle ∧
      (srun cc sc chatPair ops).map (fun s => (heard s.c.log).map (·.body)) = some [b! "1", b! "2"] ∧
      (srun cc sc chatPair ops).map (fun s => s.c.closed) = some false := by
  refine ⟨after_reach (ops := chatOps) (by decide +kernel), after_reach (ops := chatSrvOps) (by decide +kernel), ?_⟩
  decide +kernel

/-- At the connect gate: a message of `game` arrives while the client's own Connect to `game` is
in flight; it is held, and heard after the Connect has returned. -/
example : let cfg := clientCfg [(b! "chat", [OnAnyEvent]), (b! "game", [OnAnyEvent])] noCb
    let s := after cfg [] (chatOps ++ [.connect (b! "game") 8 false, .recv .text (b! "$8;;;;;;")])
    let ops : List Op := [.recv .text (b! ";game;;x;0;0;hello"), .resume 1, .wake]
    s.acked = true ∧ s.todo = [] ∧ s.ackAfter = false ∧ s.rd = .idle ∧
      (runOps cfg s (ops.take 1)).map (fun t => ((heard t.log).length, (held t).map (·.body))) =
        some (0, [b! "hello"]) ∧
      (runOps cfg s ops).map (fun t => ((heard t.log).map (·.body), (held t).length)) =
        some ([b! "hello"], 0) := by
  decide +kernel

/-- The message is lost when the namespace is not connected: the hypothesis of `c62_exact` is
needed. -/
theorem c62_unconnected_lost :
    ∃ (cfg : Cfg) (s s' : St) (ops : List Op), Reach cfg [] s ∧ Working s ∧ runOps cfg s ops = some s' ∧
      s'.closed = false ∧ cfg.onlyNative = false ∧ heard s'.log = heard s.log ∧ held s' = [] ∧ held s = [] ∧
      ((readIn ops).filterMap (carried cfg)).filter (Plain (b! "game") ·) ≠ [] :=
  ⟨clientCfg chatDecl noCb, after _ _ chatOps,
    (runOps (clientCfg chatDecl noCb) (after (clientCfg chatDecl noCb) [] chatOps)
      [.recv .text (b! ";game;;x;0;0;hello")]).getD {}, [.recv .text (b! ";game;;x;0;0;hello")],
    after_reach (by decide +kernel), ⟨by decide +kernel, by decide +kernel, by decide +kernel, by decide +kernel⟩,
    by
      have h : (runOps (clientCfg chatDecl noCb) (after (clientCfg chatDecl noCb) [] chatOps)
        [.recv .text (b! ";game;;x;0;0;hello")]).isSome = true := by decide +kernel
      obtain ⟨t, ht⟩ := Option.isSome_iff_exists.mp h
      rw [ht]; rfl,
    by decide +kernel, rfl, by decide +kernel, by decide +kernel, by decide +kernel, by decide +kernel⟩

end Neffos
