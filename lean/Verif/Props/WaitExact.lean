import Verif.Spec.WaitExact
import Verif.Props.WaitConnect
/-!
# C110: exactly what WaitConnect returns, and when
-/
set_option autoImplicit false
namespace Neffos
open Spec

variable {cfg : Cfg} {name : Bytes}

namespace WaitExact

abbrev Glance := Option GoErr × St

/-- the goroutine depends on nothing but its glances -/
theorem run_fold {ops : List WaitOp} : ∀ {s0 s : St} {w0 w : NsWaiter}, waitRun cfg name (s0, w0) ops = some (s, w) →
    w = (glances cfg s0 ops).foldl (fun w (p : Glance) => waitStep name p.1 p.2 w) w0 := by
  induction ops with
  | nil => intro s0 s w0 w h; cases h; rfl
  | cons o ops ih =>
    intro s0 s w0 w h
    simp only [waitRun, Option.bind_eq_some_iff] at h
    obtain ⟨⟨s1, w1⟩, h1, h2⟩ := h
    cases o with
    | conn op =>
      simp only [waitOpStep, Option.map_eq_some_iff] at h1
      obtain ⟨t, ht, he⟩ := h1
      cases he
      simp only [glances, ht]
      exact ih h2
    | wait ctx =>
      simp only [waitOpStep, Option.some.injEq] at h1
      cases h1
      simp only [glances, List.foldl_cons]
      exact ih h2

theorem firstSeen_unique {g : List Glance} {i i' o o' : Nat} (h : FirstSeen name g i o) (h' : FirstSeen name g i' o') :
    i = i' ∧ o = o' := by
  obtain ⟨⟨c, s, h1, h2⟩, h3⟩ := h
  obtain ⟨⟨c', s', h1', h2'⟩, h3'⟩ := h'
  have : i = i' := by
    rcases Nat.lt_trichotomy i i' with hl | hl | hl
    · have := h3' i hl c s h1; rw [h2] at this; cases this
    · exact hl
    · have := h3 i' hl c' s' h1'; rw [h2'] at this; cases this
  subst this
  rw [h1] at h1'
  cases h1'
  rw [h2] at h2'
  cases h2'
  exact ⟨rfl, rfl⟩

theorem get_snoc {α : Type} {g : List α} {x y : α} {k : Nat} :
    (g ++ [x])[k]? = some y ↔ g[k]? = some y ∨ (k = g.length ∧ x = y) := by
  rw [List.getElem?_append]
  split
  · rename_i h
    constructor
    · exact .inl
    · rintro (h' | ⟨h', _⟩)
      · exact h'
      · omega
  · rename_i h
    have hn : g[k]? = none := by rw [List.getElem?_eq_none_iff]; omega
    rw [hn]
    by_cases hk : k = g.length
    · subst hk; simp
    · have : k - g.length ≠ 0 := by omega
      constructor
      · intro h'
        obtain ⟨n, hn⟩ := Nat.exists_eq_succ_of_ne_zero this
        rw [hn] at h'
        simp at h'
      · rintro (h' | ⟨h', _⟩)
        · cases h'
        · exact absurd h' hk

theorem firstSeen_snoc {g : List Glance} {x : Glance} {i o : Nat} (h : FirstSeen name g i o) : FirstSeen name (g ++ [x]) i o := by
  obtain ⟨⟨c, s, h1, h2⟩, h3⟩ := h
  have hl := (List.getElem?_eq_some_iff.mp h1).1
  refine ⟨⟨c, s, get_snoc.2 (.inl h1), h2⟩, fun j hj c s h => ?_⟩
  rcases get_snoc.1 h with h | ⟨h, _⟩
  · exact h3 j hj c s h
  · omega

theorem firstSeen_back {g : List Glance} {x : Glance} {i o : Nat} (h : FirstSeen name (g ++ [x]) i o)
    (hi : 3 * i + 1 < g.length) : FirstSeen name g i o := by
  obtain ⟨⟨c, s, h1, h2⟩, h3⟩ := h
  refine ⟨⟨c, s, (get_snoc.1 h1).resolve_right (by omega), h2⟩, fun j hj c s h => h3 j hj c s (get_snoc.2 (.inl h))⟩

theorem reason_lt {g : List Glance} {k : Nat} {r : Except GoErr Nat} (h : Reason name g k r) : k < g.length := by
  rcases h with ⟨j, e, s, _, h, _⟩ | ⟨j, i, obj, c, s, _, h, _⟩
  · exact (List.getElem?_eq_some_iff.mp h).1
  · exact (List.getElem?_eq_some_iff.mp h).1

theorem reason_snoc {g : List Glance} {x : Glance} {k : Nat} {r : Except GoErr Nat} (h : Reason name g k r) :
    Reason name (g ++ [x]) k r := by
  rcases h with ⟨j, e, s, h1, h2, h3⟩ | ⟨j, i, obj, c, s, h1, h2, h3, h4, h5, h6⟩
  · exact .inl ⟨j, e, s, h1, get_snoc.2 (.inl h2), h3⟩
  · exact .inr ⟨j, i, obj, c, s, h1, get_snoc.2 (.inl h2), h3, h4, firstSeen_snoc h5, h6⟩

theorem reason_back {g : List Glance} {x : Glance} {k : Nat} {r : Except GoErr Nat} (h : Reason name (g ++ [x]) k r)
    (hk : k < g.length) : Reason name g k r := by
  rcases h with ⟨j, e, s, h1, h2, h3⟩ | ⟨j, i, obj, c, s, h1, h2, h3, h4, h5, h6⟩
  · exact .inl ⟨j, e, s, h1, (get_snoc.1 h2).resolve_right (by omega), h3⟩
  · exact .inr ⟨j, i, obj, c, s, h1, (get_snoc.1 h2).resolve_right (by omega), h3, h4, firstSeen_back h5 (by omega), h6⟩

theorem decides_snoc {g : List Glance} {x : Glance} {r : Except GoErr Nat} (h : FirstReason name g r) : FirstReason name (g ++ [x]) r := by
  obtain ⟨k, h1, h2⟩ := h
  have := reason_lt h1
  exact ⟨k, reason_snoc h1, fun k' hk r' h' => h2 k' hk r' (reason_back h' (by omega))⟩

/-- where the goroutine is after the glances `g` if it has not returned -/
def pcAt (n : Nat) : WaitPc := if n % 3 = 0 then .select else if n % 3 = 1 then .look else .ack

/-- its variable `ns` then -/
def Saw (name : Bytes) (g : List Glance) : Option Nat → Prop
  | some obj => ∃ i, FirstSeen name g i obj
  | none => ∀ j c s, g[3 * j + 1]? = some (c, s) → s.namespace name = none

/-- the goroutine after the glances `g` -/
def After (name : Bytes) (g : List Glance) (w : NsWaiter) : Prop :=
  (∃ r, w.pc = .done r ∧ FirstReason name g r) ∨
  (w.pc = pcAt g.length ∧ (∀ k r, ¬ Reason name g k r) ∧ Saw name g w.ns)

theorem after_snoc {g : List Glance} {w : NsWaiter} (x : Glance) (h : After name g w) :
    After name (g ++ [x]) (waitStep name x.1 x.2 w) := by
  obtain ⟨ctx, s⟩ := x
  obtain ⟨ns, pc⟩ := w
  rcases h with ⟨r, h1, h2⟩ | ⟨h1, h2, h3⟩
  · cases h1
    exact .inl ⟨r, rfl, decides_snoc h2⟩
  · simp only at h1 h3 ⊢
    -- an old reason is none
    have old : ∀ k r, Reason name (g ++ [(ctx, s)]) k r → k = g.length := by
      intro k r h
      rcases Nat.lt_or_ge k g.length with hk | hk
      · exact absurd (reason_back h hk) (h2 k r)
      · have := reason_lt h
        simp at this
        omega
    -- no new namespace is seen at a step that does not look
    have keep : g.length % 3 ≠ 1 → Saw name (g ++ [(ctx, s)]) ns := by
      intro hm
      cases ns with
      | some obj => obtain ⟨i, h⟩ := h3; exact ⟨i, firstSeen_snoc h⟩
      | none =>
        intro j c s' h
        rcases get_snoc.1 h with h | ⟨h, _⟩
        · exact h3 j c s' h
        · omega
    subst h1
    unfold pcAt
    rcases (by omega : g.length % 3 = 0 ∨ g.length % 3 = 1 ∨ g.length % 3 = 2) with hm | hm | hm
    · rw [if_pos hm]
      cases ctx with
      | some e =>
        refine .inl ⟨.error e, rfl, g.length, .inl ⟨g.length / 3, e, s, by omega, get_snoc.2 (.inr ⟨rfl, rfl⟩), rfl⟩, ?_⟩
        intro k' hk r' h'
        have := old k' r' h'
        omega
      | none =>
        refine .inr ⟨?_, ?_, keep (by omega)⟩
        · simp only [waitStep, pcAt, List.length_append, List.length_singleton]
          rw [if_neg (by omega), if_pos (by omega)]
        · intro k r h
          have hk := old k r h
          subst hk
          rcases h with ⟨j, e, s', _, h, _⟩ | ⟨j, i, obj, c, s', h, _⟩
          · rcases get_snoc.1 h with h | ⟨_, h⟩
            · have := (List.getElem?_eq_some_iff.mp h).1; omega
            · cases h
          · omega
    · rw [if_neg (by omega), if_pos hm]
      have hno : ∀ k r, ¬ Reason name (g ++ [(ctx, s)]) k r := by
        intro k r h
        have hk := old k r h
        subst hk
        rcases h with ⟨j, e, s', h, _⟩ | ⟨j, i, obj, c, s', h, _⟩ <;> omega
      cases ns with
      | some obj =>
        refine .inr ⟨?_, hno, ?_⟩
        · simp only [waitStep, pcAt, List.length_append, List.length_singleton]
          rw [if_neg (by omega), if_neg (by omega)]
        · obtain ⟨i, h⟩ := h3; exact ⟨i, firstSeen_snoc h⟩
      | none =>
        refine .inr ⟨?_, hno, ?_⟩
        · simp only [waitStep, pcAt, List.length_append, List.length_singleton]
          rw [if_neg (by omega), if_neg (by omega)]
        · simp only [waitStep]
          have hj : 3 * (g.length / 3) + 1 = g.length := by omega
          cases hn : s.namespace name with
          | some obj =>
            refine ⟨g.length / 3, ⟨ctx, s, get_snoc.2 (.inr ⟨hj, rfl⟩), hn⟩, fun j hj' c s' h => ?_⟩
            rcases get_snoc.1 h with h | ⟨h, _⟩
            · exact h3 j c s' h
            · omega
          | none =>
            intro j c s' h
            rcases get_snoc.1 h with h | ⟨h, he⟩
            · exact h3 j c s' h
            · cases he; exact hn
    · rw [if_neg (by omega), if_neg (by omega)]
      have hpc : pcAt (g ++ [(ctx, s)]).length = .select := by
        simp only [pcAt, List.length_append, List.length_singleton]
        rw [if_pos (by omega)]
      cases ns with
      | none =>
        refine .inr ⟨hpc.symm, ?_, keep (by omega)⟩
        intro k r h
        have hk := old k r h
        subst hk
        rcases h with ⟨j, e, s', h, _⟩ | ⟨j, i, obj, c, s', h1, h2, _, hi, hf, _⟩
        · omega
        · obtain ⟨⟨c', s'', h4, h5⟩, _⟩ := firstSeen_back hf (by omega)
          have := h3 i c' s'' h4
          rw [h5] at this
          cases this
      | some obj =>
        obtain ⟨i, hi⟩ := h3
        have hil : 3 * i + 1 < g.length := by
          obtain ⟨⟨c', s'', h4, _⟩, _⟩ := hi
          exact (List.getElem?_eq_some_iff.mp h4).1
        cases ha : s.acked with
        | true =>
          refine .inl ⟨.ok obj, by simp [waitStep, ha], g.length, .inr ⟨g.length / 3, i, obj, ctx, s, by omega,
            get_snoc.2 (.inr ⟨rfl, rfl⟩), ha, by omega, firstSeen_snoc hi, rfl⟩, ?_⟩
          intro k' hk r' h'
          have := old k' r' h'
          omega
        | false =>
          refine .inr ⟨by rw [hpc]; simp [waitStep, ha], ?_, ?_⟩
          · intro k r h
            have hk := old k r h
            subst hk
            rcases h with ⟨j, e, s', h, _⟩ | ⟨j, i, obj, c, s', h1, h2, h3, _⟩
            · omega
            · rcases get_snoc.1 h2 with h | ⟨_, h⟩
              · have := (List.getElem?_eq_some_iff.mp h).1; omega
              · cases h; rw [ha] at h3; cases h3
          · simp only [waitStep, ha, Bool.false_eq_true, if_false]
            exact ⟨i, firstSeen_snoc hi⟩

theorem after_fold (g : List Glance) : After name g (g.foldl (fun w (p : Glance) => waitStep name p.1 p.2 w) {}) := by
  rw [← List.reverse_reverse g]
  induction g.reverse with
  | nil =>
    refine .inr ⟨rfl, fun k r h => ?_, fun j c s h => by simp at h⟩
    have := reason_lt h
    simp at this
  | cons x t ih =>
    rw [List.reverse_cons, List.foldl_append]
    exact after_snoc x ih

theorem decides_unique {g : List Glance} {r r' : Except GoErr Nat} (h : FirstReason name g r) (h' : FirstReason name g r') : r = r' := by
  obtain ⟨k, h1, h2⟩ := h
  obtain ⟨k', h1', h2'⟩ := h'
  have : k = k' := by
    rcases Nat.lt_trichotomy k k' with hl | hl | hl
    · exact absurd h1 (h2' k hl r)
    · exact hl
    · exact absurd h1' (h2 k' hl r')
  subst this
  rcases h1 with ⟨j, e, s, h1, h2, h3⟩ | ⟨j, i, obj, c, s, h1, h2, h3, h4, h5, h6⟩
  · rcases h1' with ⟨j', e', s', g1, g2, g3⟩ | ⟨j', i', obj', c', s', g1, _⟩
    · rw [h2] at g2; cases g2; rw [h3, g3]
    · omega
  · rcases h1' with ⟨j', e', s', g1, _⟩ | ⟨j', i', obj', c', s', g1, g2, g3, g4, g5, g6⟩
    · omega
    · rw [h6, g6, (firstSeen_unique h5 g5).2]

end WaitExact

open WaitExact in
/-- C110: WaitConnect has returned `r` exactly if the first reason to return that it met gives `r`: a context that is done at a
`select`, or an acknowledgement seen in a round in or after the first one that saw the namespace; and then with the
NSConn seen in that first round. -/
theorem c110_exact {s0 s : St} {ops : List WaitOp} {w : NsWaiter} (h : waitRun cfg name (s0, {}) ops = some (s, w))
    (r : Except GoErr Nat) : w.pc = .done r ↔ FirstReason name (glances cfg s0 ops) r := by
  have ha : After name (glances cfg s0 ops) w := by rw [run_fold h]; exact after_fold _
  rcases ha with ⟨r', h1, h2⟩ | ⟨h1, h2, _⟩
  · constructor
    · intro h3
      rw [h1] at h3
      cases h3
      exact h2
    · intro h3
      rw [h1, decides_unique h2 h3]
  · constructor
    · intro h3
      rw [h3] at h1
      unfold pcAt at h1
      split at h1
      · cases h1
      · split at h1 <;> cases h1
    · rintro ⟨k, h3, _⟩
      exact absurd h3 (h2 k r)

/-- C110: while nothing happens to the connection and the context is not done, the call returns exactly if the connection is
acknowledged and has the namespace or had it when the goroutine first saw it; then within four steps of it. -/
theorem c110_settled {s : St} {w : NsWaiter} (hw : ∀ r, w.pc ≠ .done r) :
    (∃ n w' r, waitRun cfg name (s, w) (List.replicate n (.wait none)) = some (s, w') ∧ w'.pc = .done r) ↔
      s.acked = true ∧ (w.ns.isSome = true ∨ (s.namespace name).isSome = true) := by
  constructor
  · rintro ⟨n, w', r, h1, h2⟩
    refine Classical.byContradiction fun hno => ?_
    have key : ∀ n (w : NsWaiter), (∀ r, w.pc ≠ .done r) →
        ¬ (s.acked = true ∧ (w.ns.isSome = true ∨ (s.namespace name).isSome = true)) → ∀ w',
        waitRun cfg name (s, w) (List.replicate n (.wait none)) = some (s, w') → ∀ r, w'.pc ≠ .done r := by
      intro n
      induction n with
      | zero => intro w hw _ w' h; cases h; exact hw
      | succ n ih =>
        intro w hw hno w' h
        simp only [List.replicate_succ, waitRun, waitOpStep, Option.bind_some] at h
        refine ih _ ?_ ?_ w' h
        · intro r
          obtain ⟨ns, pc⟩ := w
          cases pc with
          | select => simp [waitStep]
          | look => cases ns <;> simp [waitStep]
          | ack =>
            cases ns with
            | none => simp [waitStep]
            | some o =>
              have : s.acked = false := by
                cases ha : s.acked with
                | false => rfl
                | true => exact absurd ⟨ha, .inl rfl⟩ hno
              simp [waitStep, this]
          | done r => exact absurd rfl (hw r)
        · obtain ⟨ns, pc⟩ := w
          rintro ⟨ha, hs⟩
          refine hno ⟨ha, ?_⟩
          cases pc with
          | select => simpa [waitStep] using hs
          | look => cases ns <;> simp_all [waitStep]
          | ack => cases ns <;> simp_all [waitStep]
          | done r => exact absurd rfl (hw r)
    exact key n w hw hno w' h1 r h2
  · rintro ⟨ha, hs⟩
    cases hns : w.ns with
    | none =>
      rw [hns] at hs
      simp only [Option.isSome_none, Bool.false_eq_true, false_or] at hs
      obtain ⟨obj, ho⟩ := Option.isSome_iff_exists.mp hs
      obtain ⟨n, _, w', h1, h2⟩ := c71_finds (cfg := cfg) ho ha hw
      exact ⟨n, w', _, h1, h2⟩
    | some o =>
      obtain ⟨ns, pc⟩ := w
      simp only at hns
      subst hns
      cases pc with
      | select => exact ⟨3, ⟨some o, .done (.ok o)⟩, _, by simp [waitRun, waitOpStep, waitStep, ha, List.replicate], rfl⟩
      | look => exact ⟨2, ⟨some o, .done (.ok o)⟩, _, by simp [waitRun, waitOpStep, waitStep, ha, List.replicate], rfl⟩
      | ack => exact ⟨1, ⟨some o, .done (.ok o)⟩, _, by simp [waitRun, waitOpStep, waitStep, ha, List.replicate], rfl⟩
      | done r => exact absurd rfl (hw r)

/-- the stale case of C71 seen by `c110_exact`: round 0 saw the namespace and the acknowledgement, with a disconnect between -/
example : ∃ s w, waitRun (clientCfg chatDecl noCb) (b! "chat") (newConn (clientCfg chatDecl noCb) [], {}) staleWait = some (s, w) ∧
    FirstReason (b! "chat") (glances (clientCfg chatDecl noCb) (newConn (clientCfg chatDecl noCb) []) staleWait) (.ok 0) := by
  obtain ⟨s, w, h1, h2, _⟩ := c71_stale_refuted
  exact ⟨s, w, h1, (c110_exact h1 _).1 h2⟩

/-- and a closed connection without acknowledgement: no number of steps suffices -/
example : Reach (clientCfg chatDecl noCb) [] closedChat ∧
    ¬ ∃ n w' r, waitRun (clientCfg chatDecl noCb) (b! "chat") (closedChat, {}) (List.replicate n (.wait none)) =
      some (closedChat, w') ∧ w'.pc = .done r := by
  refine ⟨after_reach (by decide +kernel), fun h => ?_⟩
  have := ((c110_settled (by simp)).1 h).1
  revert this
  decide +kernel

end Neffos
