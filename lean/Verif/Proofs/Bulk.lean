import Verif.Spec.Bulk
/-!
# `Model/Bulk.lean`: the walks, and when they return
-/
set_option autoImplicit false
namespace Neffos
open Spec

theorem leaveWalk_exact {env : BulkEnv} {ns : Bytes} {l : List Bytes} (hn : l.Nodup) (log : List BulkObs) :
    ∃ gone rest, l = gone ++ rest ∧ (leaveWalk env ns l l log).rooms = rest ∧
      let before := log ++ gone.flatMap (wholeLeave ns)
      ((rest = [] ∧ (leaveWalk env ns l l log).err = none ∧ (leaveWalk env ns l l log).log = before) ∨
       (∃ r rest' e, rest = r :: rest' ∧ (leaveWalk env ns l l log).err = some e ∧
         ((env.ask before r = some e ∧ (leaveWalk env ns l l log).log = before ++ [.ask r]) ∨
          (env.ask before r = none ∧ env.veto (before ++ [.ask r]) r = some e ∧
            (leaveWalk env ns l l log).log = before ++ [.ask r, .leave ns r false])))) := by
  induction l generalizing log with
  | nil => exact ⟨[], [], rfl, rfl, .inl ⟨rfl, rfl, by simp [leaveWalk]⟩⟩
  | cons r l ih =>
    have hr : r ∉ l := (List.nodup_cons.mp hn).1
    have hf : (r :: l).filter (· ≠ r) = l := by
      rw [List.filter_cons]
      simp only [ne_eq, not_true_eq_false, decide_false, Bool.false_eq_true, if_false]
      exact List.filter_eq_self.mpr (fun a ha => by simp; rintro rfl; exact hr ha)
    cases ha : env.ask log r with
    | some e =>
      have hw : leaveWalk env ns (r :: l) (r :: l) log = ⟨r :: l, log ++ [.ask r], some e⟩ := by
        simp [leaveWalk, ha]
      refine ⟨[], r :: l, rfl, by rw [hw], .inr ⟨r, l, e, rfl, by rw [hw], .inl ⟨?_, ?_⟩⟩⟩
      · simpa using ha
      · rw [hw]; simp
    | none =>
      cases hv : env.veto (log ++ [.ask r]) r with
      | some e =>
        have hw : leaveWalk env ns (r :: l) (r :: l) log = ⟨r :: l, log ++ [.ask r, .leave ns r false], some e⟩ := by
          simp [leaveWalk, ha, hv]
        refine ⟨[], r :: l, rfl, by rw [hw], .inr ⟨r, l, e, rfl, by rw [hw], .inr ⟨?_, ?_, ?_⟩⟩⟩
        · simpa using ha
        · simpa using hv
        · rw [hw]; simp
      | none =>
        have hw : leaveWalk env ns (r :: l) (r :: l) log =
            leaveWalk env ns l l (log ++ wholeLeave ns r) := by
          simp only [leaveWalk, ha, hv, hf, wholeLeave]
          simp
        obtain ⟨gone, rest, h1, h2, h3⟩ := ih (List.nodup_cons.mp hn).2 (log ++ wholeLeave ns r)
        refine ⟨r :: gone, rest, by simp [h1], by rw [hw]; exact h2, ?_⟩
        simp only [List.flatMap_cons, ← List.append_assoc]
        rw [hw]
        exact h3

theorem forcedLeaves_eq (n : Bytes) (rs : List Bytes) :
    forcedLeaves n rs = rs.flatMap (fun r => [.leave n r true, .left n r true]) := by
  induction rs with
  | nil => rfl
  | cons r rs ih => simp [forcedLeaves, ih]

theorem discWalk_exact {env : BulkEnv} {l : List (Bytes × List Bytes)} (hn : (l.map (·.1)).Nodup)
    (log : List BulkObs) :
    ∃ gone rest, l = gone ++ rest ∧ (discWalk env l l log).conn = rest ∧
      let before := log ++ gone.flatMap (wholeDisconnect env.exchange)
      ((rest = [] ∧ (discWalk env l l log).err = none ∧ (discWalk env l l log).log = before) ∨
       (∃ p rest' e, rest = p :: rest' ∧ (discWalk env l l log).err = some e ∧
         env.ask before p.1 = some e ∧ (discWalk env l l log).log = before ++ [.ask p.1])) := by
  induction l generalizing log with
  | nil => exact ⟨[], [], rfl, rfl, .inl ⟨rfl, rfl, by simp [discWalk]⟩⟩
  | cons p l ih =>
    obtain ⟨n, rs⟩ := p
    simp only [List.map_cons, List.nodup_cons] at hn
    have hf : ((n, rs) :: l).filter (·.1 ≠ n) = l := by
      rw [List.filter_cons]
      simp only [ne_eq, not_true_eq_false, decide_false, Bool.false_eq_true, if_false]
      refine List.filter_eq_self.mpr (fun a ha => ?_)
      simp only [decide_not, Bool.not_eq_true', decide_eq_false_iff_not]
      rintro rfl
      exact hn.1 (List.mem_map_of_mem ha)
    cases ha : env.ask log n with
    | some e =>
      have hw : discWalk env ((n, rs) :: l) ((n, rs) :: l) log = ⟨(n, rs) :: l, log ++ [.ask n], some e⟩ := by
        simp [discWalk, ha]
      refine ⟨[], (n, rs) :: l, rfl, by rw [hw], .inr ⟨(n, rs), l, e, rfl, by rw [hw], ?_, ?_⟩⟩
      · simpa using ha
      · rw [hw]; simp
    | none =>
      have hw : discWalk env ((n, rs) :: l) ((n, rs) :: l) log =
          discWalk env l l (log ++ wholeDisconnect env.exchange (n, rs)) := by
        simp only [discWalk, ha, hf, wholeDisconnect, forcedLeaves_eq]
        simp
      obtain ⟨gone, rest, h1, h2, h3⟩ := ih hn.2 (log ++ wholeDisconnect env.exchange (n, rs))
      refine ⟨(n, rs) :: gone, rest, by simp [h1], by rw [hw]; exact h2, ?_⟩
      simp only [List.flatMap_cons, ← List.append_assoc]
      rw [hw]
      exact h3

/-! ## Does it return? -/

/-- where the answer is -/
def BulkInv (s : BulkSt) : Prop :=
  s.inbox.count .answer + s.box.toNat = if s.asking && s.answered then 1 else 0

theorem bulkInv_step {s s' : BulkSt} {op : BulkOp} (h : BulkInv s) (hs : s.step op = some s') : BulkInv s' := by
  obtain ⟨kind, todo, asking, answered, box, inbox⟩ := s
  simp only [BulkInv] at h ⊢
  cases op with
  | send =>
    simp only [BulkSt.step] at hs
    split at hs <;> cases hs
    rename_i hc
    simp [hc.2] at h
    simp [h]
  | take =>
    simp only [BulkSt.step] at hs
    split at hs <;> cases hs
    rename_i hc
    simp [hc.1, hc.2] at h
    cases answered <;> simp at h ⊢
    exact h
  | arrive m =>
    cases m <;> simp only [BulkSt.step] at hs
    case answer =>
      split at hs <;> cases hs
      rename_i hc
      simp [hc.1, hc.2] at h
      simp [h, hc.1, List.count_append]
    all_goals cases hs; simpa [List.count_append] using h
  | read =>
    simp only [BulkSt.step] at hs
    cases inbox with
    | nil => cases hs
    | cons m rest =>
      cases m <;> simp only at hs
      case answer =>
        cases hs
        simp only [List.count_cons_self] at h
        cases box <;> simp at h ⊢ <;> (revert h; split <;> omega)
      all_goals (split at hs <;> cases hs; simpa using h)

theorem bulk_kind {s s' : BulkSt} {op : BulkOp} (hs : s.step op = some s') : s'.kind = s.kind := by
  cases op with
  | arrive m =>
    cases m <;> simp only [BulkSt.step] at hs
    case answer => split at hs <;> cases hs; rfl
    all_goals cases hs; rfl
  | read =>
    simp only [BulkSt.step] at hs
    split at hs
    · cases hs
    · cases hs; rfl
    · split at hs <;> cases hs; rfl
  | _ => simp only [BulkSt.step] at hs; split at hs <;> cases hs; rfl

theorem takeWhile_snoc_of_bad {α : Type} {p : α → Bool} {l : List α} {x : α} (h : ∃ m ∈ l, p m = false) :
    (l ++ [x]).takeWhile p = l.takeWhile p := by
  induction l with
  | nil => obtain ⟨m, hm, _⟩ := h; cases hm
  | cons a l ih =>
    cases ha : p a with
    | false => simp [ha]
    | true =>
      obtain ⟨m, hm, hp⟩ := h
      rcases List.mem_cons.mp hm with rfl | hm
      · rw [ha] at hp; cases hp
      · simp [ha, ih ⟨m, hm, hp⟩]

theorem mem_takeWhile {α : Type} {p : α → Bool} {l : List α} {x : α} (h : x ∈ l.takeWhile p) : p x = true := by
  induction l with
  | nil => cases h
  | cons a l ih =>
    rw [List.takeWhile_cons] at h
    split at h
    · rename_i ha
      rcases List.mem_cons.mp h with rfl | h
      · exact ha
      · exact ih h
    · cases h

theorem doomed_step {s s' : BulkSt} {op : BulkOp} (hi : BulkInv s) (h : Doomed s) (hs : s.step op = some s') :
    Doomed s' := by
  obtain ⟨kind, todo, asking, answered, box, inbox⟩ := s
  obtain ⟨h1, ⟨m0, hm0, hb0⟩, h3⟩ := h
  simp only at h1 hm0 hb0 h3
  have snoc : ∀ (m : BulkMsg) (as ans : Bool), Doomed ⟨kind, todo, as, ans, box, inbox ++ [m]⟩ := by
    intro m as ans
    refine ⟨h1, ⟨m0, List.mem_append_left _ hm0, hb0⟩, ?_⟩
    simp only
    rw [takeWhile_snoc_of_bad ⟨m0, hm0, by simp [hb0]⟩]
    exact h3
  cases op with
  | send =>
    simp only [BulkSt.step] at hs
    split at hs <;> cases hs
    exact ⟨h1, ⟨m0, hm0, hb0⟩, h3⟩
  | take =>
    simp only [BulkSt.step] at hs
    split at hs <;> cases hs
    rename_i hc
    have h2 : todo ≠ 1 := fun e => h3 ⟨e, .inl hc.2⟩
    refine ⟨by simp only; omega, ⟨m0, hm0, hb0⟩, ?_⟩
    rintro ⟨_, hb | hm⟩
    · cases hb
    · have hm := (List.takeWhile_sublist _).subset hm
      have := List.count_pos_iff.mpr hm
      simp only [BulkInv, hc.1, hc.2] at hi
      simp only at this
      revert hi
      cases answered <;> simp <;> omega
  | arrive m =>
    cases m <;> simp only [BulkSt.step] at hs
    case answer => split at hs <;> cases hs; exact snoc _ _ _
    all_goals cases hs; exact snoc _ _ _
  | read =>
    simp only [BulkSt.step] at hs
    cases inbox with
    | nil => cases hs
    | cons m rest =>
      have tail : kind.blocks m = false → ∃ m1 ∈ rest, kind.blocks m1 = true := by
        intro hm
        rcases List.mem_cons.mp hm0 with rfl | hm1
        · rw [hm] at hb0; cases hb0
        · exact ⟨m0, hm1, hb0⟩
      cases m <;> simp only at hs
      case answer =>
        cases hs
        have hna : kind.blocks .answer = false := by cases kind <;> rfl
        refine ⟨h1, tail hna, ?_⟩
        rintro ⟨e, _⟩
        exact h3 ⟨e, .inr (by simp [hna])⟩
      all_goals
        split at hs
        · cases hs
        · rename_i hc
          cases hs
          have hnb : ∀ b : Bool, ¬ (todo ≠ 0 ∧ b = true) → b = false := by
            intro b hb
            cases b
            · rfl
            · exact absurd ⟨h1, rfl⟩ hb
          have hnb := hnb _ hc
          refine ⟨h1, tail hnb, ?_⟩
          simp only at hnb h3 ⊢
          rw [List.takeWhile_cons] at h3
          simpa [hnb] using h3

theorem bulk_run_append {s : BulkSt} {a b : List BulkOp} :
    s.run (a ++ b) = (s.run a).bind (·.run b) := by
  induction a generalizing s with
  | nil => rfl
  | cons op a ih =>
    simp only [List.cons_append, BulkSt.run]
    split
    · exact ih
    · rfl

theorem bulk_then {s s1 s2 : BulkSt} {a b : List BulkOp} (h1 : s.run a = some s1) (h2 : s1.run b = some s2) :
    s.run (a ++ b) = some s2 := by
  rw [bulk_run_append, h1]; exact h2

theorem bulkInv_run {s s' : BulkSt} {ops : List BulkOp} (h : BulkInv s) (hs : s.run ops = some s') : BulkInv s' := by
  induction ops generalizing s with
  | nil => simp [BulkSt.run] at hs; exact hs ▸ h
  | cons op ops ih =>
    simp only [BulkSt.run] at hs
    split at hs
    · rename_i s1 h1; exact ih (bulkInv_step h h1) hs
    · cases hs

/-- the reader can work off what does not block -/
theorem bulk_drain (kind : BulkKind) (todo : Nat) (asking answered : Bool) (inbox rest : List BulkMsg)
    (h : ∀ m ∈ inbox, kind.blocks m = false) : ∀ box : Bool, ∃ ops,
    (⟨kind, todo, asking, answered, box, inbox ++ rest⟩ : BulkSt).run ops =
      some ⟨kind, todo, asking, answered, box || inbox.contains .answer, rest⟩ := by
  induction inbox with
  | nil => intro box; exact ⟨[], by simp [BulkSt.run]⟩
  | cons m inbox ih =>
    intro box
    have hm := h m List.mem_cons_self
    have ih := ih (fun x hx => h x (List.mem_cons_of_mem _ hx))
    by_cases ha : m = .answer
    · subst ha
      obtain ⟨ops, ho⟩ := ih true
      refine ⟨.read :: ops, ?_⟩
      simp only [List.cons_append, BulkSt.run, BulkSt.step]
      rw [ho]
      simp
    · obtain ⟨ops, ho⟩ := ih box
      refine ⟨.read :: ops, ?_⟩
      have : (⟨kind, todo, asking, answered, box, m :: inbox ++ rest⟩ : BulkSt).step .read =
          some ⟨kind, todo, asking, answered, box, inbox ++ rest⟩ := by
        cases m <;> first | exact absurd rfl ha | simp [BulkSt.step, hm]
      simp only [BulkSt.run, this]
      rw [ho]
      have hc : (m :: inbox).contains BulkMsg.answer = inbox.contains BulkMsg.answer := by
        rw [List.contains_cons]
        have : (BulkMsg.answer == m) = false := by simp; exact fun e => ha e.symm
        simp [this]
      rw [hc]

/-- with nothing in the way, a call can always return -/
theorem bulk_finish (kind : BulkKind) (todo : Nat) : ∀ (asking answered box : Bool),
    BulkInv ⟨kind, todo, asking, answered, box, []⟩ →
    ∃ ops s', (⟨kind, todo, asking, answered, box, []⟩ : BulkSt).run ops = some s' ∧ s'.returned = true := by
  induction todo with
  | zero => intro a b c _; exact ⟨[], _, rfl, rfl⟩
  | succ n ih =>
    intro asking answered box hi
    simp only [BulkInv] at hi
    cases asking with
    | false =>
      have hb : box = false := by simpa using hi
      subst hb
      obtain ⟨ops, s', h1, h2⟩ := ih false true false (by simp [BulkInv])
      exact ⟨[.send, .arrive .answer, .read, .take] ++ ops, s', bulk_then (by simp [BulkSt.run, BulkSt.step]) h1, h2⟩
    | true =>
      cases answered with
      | true =>
        have hb : box = true := by simpa using hi
        subst hb
        obtain ⟨ops, s', h1, h2⟩ := ih false true false (by simp [BulkInv])
        exact ⟨[.take] ++ ops, s', bulk_then (by simp [BulkSt.run, BulkSt.step]) h1, h2⟩
      | false =>
        have hb : box = false := by simpa using hi
        subst hb
        obtain ⟨ops, s', h1, h2⟩ := ih false true false (by simp [BulkInv])
        exact ⟨[.arrive .answer, .read, .take] ++ ops, s', bulk_then (by simp [BulkSt.run, BulkSt.step]) h1, h2⟩

theorem bulk_returns {s : BulkSt} (hi : BulkInv s) (h : ¬ Doomed s) :
    ∃ ops s', s.run ops = some s' ∧ s'.returned = true := by
  obtain ⟨kind, todo, asking, answered, box, inbox⟩ := s
  by_cases h0 : todo = 0
  · exact ⟨[], _, rfl, by simp [BulkSt.returned, h0]⟩
  by_cases hb : ∃ m ∈ inbox, kind.blocks m = true
  · have h1 : todo = 1 ∧ (box = true ∨ BulkMsg.answer ∈ inbox.takeWhile (fun m => !kind.blocks m)) := by
      apply Classical.byContradiction
      intro hn
      exact h ⟨h0, hb, hn⟩
    obtain ⟨rfl, h2⟩ := h1
    -- read up to the first message that blocks, then take the answer
    obtain ⟨ops, ho⟩ := bulk_drain kind 1 asking answered (inbox.takeWhile (fun m => !kind.blocks m))
      (inbox.dropWhile (fun m => !kind.blocks m)) (fun m hm => by
        have := mem_takeWhile hm; simpa using this) box
    rw [List.takeWhile_append_dropWhile] at ho
    have hbox : (box || (inbox.takeWhile (fun m => !kind.blocks m)).contains .answer) = true := by
      rcases h2 with h2 | h2
      · simp [h2]
      · simp [h2]
    rw [hbox] at ho
    have hi' := bulkInv_run hi ho
    have ha : asking = true := by
      simp only [BulkInv, Bool.toNat_true] at hi'
      cases asking
      · simp at hi'
      · rfl
    subst ha
    exact ⟨ops ++ [.take], _, bulk_then ho (by simp [BulkSt.run, BulkSt.step]; rfl), rfl⟩
  · have hb' : ∀ m ∈ inbox, kind.blocks m = false := by
      intro m hm
      cases hx : kind.blocks m
      · rfl
      · exact absurd ⟨m, hm, hx⟩ hb
    obtain ⟨ops, ho⟩ := bulk_drain kind todo asking answered inbox [] hb' box
    rw [List.append_nil] at ho
    obtain ⟨ops2, s', h1, h2⟩ := bulk_finish kind todo asking answered _ (bulkInv_run hi ho)
    exact ⟨ops ++ ops2, s', bulk_then ho h1, h2⟩

theorem doomed_run {s s' : BulkSt} {ops : List BulkOp} (hi : BulkInv s) (h : Doomed s) (hs : s.run ops = some s') :
    Doomed s' := by
  induction ops generalizing s with
  | nil => simp [BulkSt.run] at hs; exact hs ▸ h
  | cons op ops ih =>
    simp only [BulkSt.run] at hs
    split at hs
    · rename_i s1 h1; exact ih (bulkInv_step hi h1) (doomed_step hi h h1) hs
    · cases hs

theorem bulkInv_reach {kind : BulkKind} {n : Nat} {inbox : List BulkMsg} (hin : BulkMsg.answer ∉ inbox) {s : BulkSt}
    (h : BulkReach kind n inbox s) : BulkInv s := by
  induction h with
  | start => simp [BulkInv, bulkStart, List.count_eq_zero_of_not_mem hin]
  | step _ hs ih => exact bulkInv_step ih hs

/-- how far the call and the reader have to go -/
def BulkSt.weight (s : BulkSt) : Nat := 2 * s.todo + (if s.asking then 0 else 1) + s.inbox.length

theorem bulk_weight {s s' : BulkSt} {op : BulkOp} (hi : BulkInv s) (ht : s.asking = true → s.todo ≠ 0)
    (hs : s.step op = some s') : (match op with | .arrive _ => s'.weight = s.weight + 1 | _ => s'.weight < s.weight) ∧
      (s'.asking = true → s'.todo ≠ 0) := by
  obtain ⟨kind, todo, asking, answered, box, inbox⟩ := s
  cases op with
  | send =>
    simp only [BulkSt.step] at hs
    split at hs <;> cases hs
    rename_i hc
    exact ⟨by simp [BulkSt.weight, hc.2], fun _ => hc.1⟩
  | take =>
    simp only [BulkSt.step] at hs
    split at hs <;> cases hs
    rename_i hc
    simp only at hc ht
    have := ht hc.1
    refine ⟨?_, by simp⟩
    simp [BulkSt.weight, hc.1]
    omega
  | arrive m =>
    cases m <;> simp only [BulkSt.step] at hs
    case answer => split at hs <;> cases hs; exact ⟨by simp [BulkSt.weight]; omega, ht⟩
    all_goals cases hs; exact ⟨by simp [BulkSt.weight]; omega, ht⟩
  | read =>
    simp only [BulkSt.step] at hs
    split at hs
    · cases hs
    · cases hs
      exact ⟨by simp [BulkSt.weight], ht⟩
    · split at hs <;> cases hs
      exact ⟨by simp [BulkSt.weight], ht⟩

/-- how often the other side sent something -/
def arrivals (ops : List BulkOp) : Nat := ops.countP (fun | .arrive _ => true | _ => false)

theorem bulk_bound {s s' : BulkSt} {ops : List BulkOp} (hi : BulkInv s) (ht : s.asking = true → s.todo ≠ 0)
    (hs : s.run ops = some s') : ops.length ≤ s.weight + 2 * arrivals ops := by
  induction ops generalizing s with
  | nil => simp
  | cons op ops ih =>
    simp only [BulkSt.run] at hs
    split at hs
    · rename_i s1 h1
      have hw := bulk_weight hi ht h1
      have := ih (bulkInv_step hi h1) hw.2 hs
      cases op <;> simp only [arrivals, List.countP_cons, List.length_cons] at hw this ⊢ <;> simp <;> omega
    · cases hs

theorem bulk_todo_reach {kind : BulkKind} {n : Nat} {inbox : List BulkMsg} (hin : BulkMsg.answer ∉ inbox) {s : BulkSt}
    (h : BulkReach kind n inbox s) : s.asking = true → s.todo ≠ 0 := by
  induction h with
  | start => simp [bulkStart]
  | step hr hs ih => exact (bulk_weight (bulkInv_reach hin hr) ih hs).2

end Neffos
