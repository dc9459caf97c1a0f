import Verif.Spec.Receive
import Verif.Props.Broadcaster
/-!
Helper for C98: how many batches a connection has got by when, and schedules that bring it given batches.
-/
set_option autoImplicit false
namespace Neffos.Receive
open Spec

variable {s s' : BSt}

/-! ## Swaps and sets -/

/-- the call has written `messages` and not yet swapped the channel -/
def midway : BPc → Bool
  | .setLen | .unlock | .swap => true
  | _ => false

structure Swaps (s : BSt) : Prop where
  chs : s.chs.length = s.awaiter + 1
  sets : s.casts.countP midway + s.awaiter = s.sets.length

theorem count_set {l : List BPc} {k : Nat} {pc q : BPc} (h : l[k]? = some pc) :
    (l.set k q).countP midway + (if midway pc then 1 else 0) = l.countP midway + (if midway q then 1 else 0) := by
  obtain ⟨hk, e⟩ := List.getElem?_eq_some_iff.mp h
  rw [List.countP_set hk, e]
  have : midway pc = true → 0 < l.countP midway := fun hm =>
    List.countP_pos_iff.mpr ⟨pc, List.mem_of_getElem? h, hm⟩
  split
  · have := this ‹_›; omega
  · omega

theorem swaps_step {torn : Bool} {op : BOp} (h : Swaps s) (hx : BNext torn s op s') : Swaps s' := by
  have go : ∀ {k : Nat} {pc q : BPc} {t : BSt}, s.casts[k]? = some pc → t.casts = s.casts.set k q →
      t.chs.length = s.chs.length → t.awaiter = s.awaiter → t.sets = s.sets → midway pc = midway q → Swaps t := by
    intro k pc q t h1 h2 h3 h4 h5 h6
    have := count_set (q := q) h1
    rw [h6] at this
    exact ⟨by rw [h3, h4]; exact h.chs, by rw [h2, h4, h5, ← h.sets]; omega⟩
  cases hx
  case call => exact ⟨h.chs, by rw [List.countP_append]; exact h.sets⟩
  case castLock hk _ => exact go hk rfl rfl rfl rfl rfl
  case castPtr k hk _ =>
    have := count_set (q := .setLen) hk
    exact ⟨h.chs, by
      show (s.casts.set k _).countP midway + s.awaiter = (s.sets ++ [k]).length
      rw [List.length_append, ← h.sets]; simp only [midway] at this; simp only [List.length_singleton]; simp at this; omega⟩
  case castSet k hk _ =>
    have := count_set (q := .unlock) hk
    exact ⟨h.chs, by
      show (s.casts.set k _).countP midway + s.awaiter = (s.sets ++ [k]).length
      rw [List.length_append, ← h.sets]; simp only [midway] at this; simp only [List.length_singleton]; simp at this; omega⟩
  case castLen hk => exact go hk rfl rfl rfl rfl rfl
  case castUnlock hk => exact go hk rfl rfl rfl rfl rfl
  case castSwap k hk =>
    have := count_set (q := .close s.awaiter) hk
    refine ⟨by show (s.chs ++ [false]).length = s.chs.length + 1; simp, ?_⟩
    show (s.casts.set k _).countP midway + s.chs.length = s.sets.length
    rw [← h.sets, h.chs]; simp only [midway] at this; simp at this; omega
  case castClose hk _ => exact go hk rfl (by simp) rfl rfl rfl
  all_goals exact ⟨h.chs, h.sets⟩

theorem breach_swaps {torn : Bool} (hr : BReach torn s) : Swaps s :=
  breach_inv (P := Swaps) ⟨rfl, rfl⟩ (fun _ _ _ _ h hx => swaps_step h hx) hr

/-! ## What a connection has got by when -/

/-- the channel that a connection waits for is not older than the number of batches that it got -/
def Paced (s : BSt) (x : Recv) : Prop :=
  match x.pc with
  | .unlock ch | .sel ch => x.got.length ≤ ch ∧ ch ≤ s.awaiter
  | .readPtr => x.got.length < s.awaiter
  | .relock (some _) | .publish _ => x.got.length < s.awaiter
  | _ => x.got.length ≤ s.awaiter

/-- the batches are entries of `sets`, never going back and never too early -/
def Marked (sets : List Nat) (l : List Slice) : Prop :=
  ∃ ps : List Nat, Receivable sets.length ps ∧ l = ps.map (fun p => ⟨sets[p]?, sets[p]?⟩)

structure Good (s : BSt) (x : Recv) : Prop where
  paced : Paced s x
  marked : Marked s.sets (x.got ++ x.pc.flight)

theorem marked_grow {sets more : List Nat} {l : List Slice} (h : Marked sets l) : Marked (sets ++ more) l := by
  obtain ⟨ps, ⟨h1, h2⟩, h3⟩ := h
  refine ⟨ps, ⟨h1, fun j p hp => ?_⟩, ?_⟩
  · have := h2 j p hp
    rw [List.length_append]; omega
  · rw [h3]
    apply List.map_congr_left
    intro p hp
    obtain ⟨j, hj⟩ := List.getElem?_of_mem hp
    rw [List.getElem?_append_left (h2 j p hj).2]

theorem marked_last {sets : List Nat} {l : List Slice} (h : Marked sets l) (hs : l.length < sets.length) :
    Marked sets (l ++ [⟨sets.getLast?, sets.getLast?⟩]) := by
  obtain ⟨ps, ⟨h1, h2⟩, h3⟩ := h
  have hl : l.length = ps.length := by rw [h3, List.length_map]
  refine ⟨ps ++ [sets.length - 1], ⟨?_, ?_⟩, ?_⟩
  · rw [List.pairwise_append]
    refine ⟨h1, by simp, fun a ha b hb => ?_⟩
    rw [List.mem_singleton] at hb
    obtain ⟨j, hj⟩ := List.getElem?_of_mem ha
    have := h2 j a hj
    omega
  · intro j p hp
    rcases append_cases hp with ⟨e, rfl⟩ | hp
    · omega
    · exact h2 j p hp
  · rw [List.map_append, h3, List.getLast?_eq_getElem?]
    rfl

theorem paced_mono {t : BSt} {x : Recv} (h : Paced s x) (ha : s.awaiter ≤ t.awaiter) : Paced t x := by
  unfold Paced at h ⊢
  split at h <;> omega

theorem good_step {op : BOp} (hr : BReach false s) (h : ∀ (r : Nat) x, s.recvs[r]? = some x → Good s x)
    (hx : BNext false s op s') : ∀ (r : Nat) x, s'.recvs[r]? = some x → Good s' x := by
  have hsw := breach_swaps hr
  have hse := breach_sets hr
  have same : s'.recvs = s.recvs → s.awaiter ≤ s'.awaiter → (∃ l, s'.sets = s.sets ++ l) →
      ∀ (r : Nat) x, s'.recvs[r]? = some x → Good s' x := by
    rintro e1 e2 ⟨l, e3⟩ r x hx
    rw [e1] at hx
    exact ⟨paced_mono (h r x hx).paced e2, by rw [e3]; exact marked_grow (h r x hx).marked⟩
  have upd : ∀ {r : Nat} {x y : Recv}, s.recvs[r]? = some x → s'.recvs = s.recvs.set r y → s'.awaiter = s.awaiter →
      s'.sets = s.sets → (Good s x → Paced s y ∧ (y.got ++ y.pc.flight = x.got ++ x.pc.flight ∨
        Marked s.sets (y.got ++ y.pc.flight))) → ∀ (r : Nat) x, s'.recvs[r]? = some x → Good s' x := by
    intro r x y hk e1 e2 e3 hy j z hz
    rw [e1] at hz
    rcases set_cases hz with ⟨rfl, rfl, _⟩ | ⟨_, hz⟩
    · obtain ⟨h1, h2⟩ := hy (h r x hk)
      refine ⟨paced_mono h1 (Nat.le_of_eq e2.symm), ?_⟩
      rw [e3]
      rcases h2 with h2 | h2
      · rw [h2]; exact (h r x hk).marked
      · exact h2
    · exact ⟨paced_mono (h j z hz).paced (Nat.le_of_eq e2.symm), by rw [e3]; exact (h j z hz).marked⟩
  cases hx
  case join =>
    intro r x hr'
    rcases append_cases hr' with ⟨_, rfl⟩ | hr'
    · exact ⟨Nat.zero_le _, [], ⟨by simp, by simp⟩, rfl⟩
    · exact ⟨paced_mono (h r x hr').paced (Nat.le_refl _), (h r x hr').marked⟩
  case shut r x hk => exact upd hk rfl rfl rfl (fun hg => ⟨hg.paced, .inl rfl⟩)
  case lock r ok x hk hp _ =>
    refine upd hk rfl rfl rfl (fun hg => ⟨?_, .inl (by rw [hp]; rfl)⟩)
    have := hg.paced
    simp only [Paced, hp] at this
    exact this
  case load r ok x hk hp =>
    refine upd hk rfl rfl rfl (fun hg => ⟨?_, .inl (by rw [hp]; rfl)⟩)
    have := hg.paced
    simp only [Paced, hp] at this
    exact ⟨this, Nat.le_refl _⟩
  case unlock r ch ok x hk hp =>
    refine upd hk rfl rfl rfl (fun hg => ⟨?_, .inl (by rw [hp]; rfl)⟩)
    have := hg.paced
    simp only [Paced, hp] at this
    exact this
  case sel r ch ok x hk hp hc =>
    refine upd hk rfl rfl rfl (fun hg => ⟨?_, .inl (by rw [hp]; rfl)⟩)
    have := hg.paced
    simp only [Paced, hp] at this
    have hne : ch ≠ s.awaiter := by
      rintro rfl
      rw [(breach_chans hr).fresh] at hc; cases hc
    show x.got.length < s.awaiter
    omega
  case readPtr ht => cases ht
  case read r ok x hk hp _ =>
    refine upd hk rfl rfl rfl (fun hg => ?_)
    have h1 := hg.paced
    simp only [Paced, hp] at h1
    refine ⟨h1, .inr ?_⟩
    have h2 := hg.marked
    rw [hp, show (RPc.readPtr).flight = [] from rfl, List.append_nil] at h2
    have h3 := marked_last h2 (by have := hsw.sets; omega)
    rw [← hse.last] at h3
    have h4 := hse.whole rfl
    rcases he : s.msgs with ⟨a, b⟩
    rw [he] at h3 h4
    dsimp only at h3 h4
    rw [h4]
    exact h3
  case readLen r ok p x hk hp => exact absurd hp (breach_noReadLen hr hk)
  case relock r ok m x hk hp _ =>
    refine upd hk rfl rfl rfl (fun hg => ⟨?_, .inl (by rw [hp]; rfl)⟩)
    have := hg.paced
    simp only [Paced, hp] at this
    exact this
  case relockEnd r ok x hk hp _ =>
    refine upd hk rfl rfl rfl (fun hg => ⟨?_, .inl (by rw [hp]; rfl)⟩)
    have := hg.paced
    simp only [Paced, hp] at this
    exact this
  case publish r ok m x hk hp _ =>
    refine upd hk rfl rfl rfl (fun hg => ⟨?_, .inl (by rw [hp]; simp [RPc.flight])⟩)
    have := hg.paced
    simp only [Paced, hp] at this
    show (x.got ++ [m]).length ≤ s.awaiter
    simp only [List.length_append, List.length_singleton]; omega
  case leave r ok more x hk hp =>
    refine upd hk rfl rfl rfl (fun hg => ⟨?_, .inl (by rw [hp]; cases more <;> rfl)⟩)
    have := hg.paced
    simp only [Paced, hp] at this
    cases more <;> exact this
  case quit r ch x hk hp _ =>
    refine upd hk rfl rfl rfl (fun hg => ⟨?_, .inl (by rw [hp]; rfl)⟩)
    have := hg.paced
    simp only [Paced, hp] at this
    show x.got.length ≤ s.awaiter
    omega
  case castSwap => exact same rfl (by show s.awaiter ≤ s.chs.length; have := hsw.chs; omega) ⟨[], by simp⟩
  case castSet => exact same rfl (Nat.le_refl _) ⟨_, rfl⟩
  case castPtr ht => cases ht
  all_goals exact same rfl (Nat.le_refl _) ⟨[], by simp⟩

theorem breach_good (hr : BReach false s) : ∀ (r : Nat) x, s.recvs[r]? = some x → Good s x :=
  breach_inv (P := fun s => ∀ (r : Nat) x, s.recvs[r]? = some x → Good s x) (by simp)
    (fun _ _ _ hr h hx => good_step hr h hx) hr

/-! ## Schedules -/

theorem brun_cons {op : BOp} {ops : List BOp} (h : s.step false op = some s') :
    s.run false (op :: ops) = s'.run false ops := by
  simp only [BSt.run, h]

theorem get_set {α : Type} {l : List α} {k : Nat} {a b : α} (h : l[k]? = some a) : (l.set k b)[k]? = some b := by
  rw [List.getElem?_set, if_pos rfl, if_pos (List.getElem?_eq_some_iff.mp h).1]

/-- the call `k` writes `messages` -/
theorem run_set {k : Nat} (hc : s.casts[k]? = some .lock) (hm : s.mu = none) (hp : s.panicked = false) :
    s.run false [.cast k, .cast k, .cast k] =
      some { s with casts := s.casts.set k .swap, msgs := ⟨some k, some k⟩, sets := s.sets ++ [k] } := by
  have h1 : s.step false (.cast k) = some { s.setB k .setPtr with mu := some (.cast k) } := by
    simp [BSt.step, BSt.castStep, hp, hc, hm]
  have c1 : (s.casts.set k .setPtr)[k]? = some .setPtr := get_set hc
  have h2 : ({ s.setB k .setPtr with mu := some (.cast k) } : BSt).step false (.cast k) =
      some { s.setB k .unlock with mu := some (.cast k), msgs := ⟨some k, some k⟩, sets := s.sets ++ [k] } := by
    simp only [BSt.step, BSt.castStep, BSt.setB, hp, c1, List.set_set]
    rfl
  have c2 : (s.casts.set k .unlock)[k]? = some .unlock := get_set hc
  have h3 : ({ s.setB k .unlock with mu := some (.cast k), msgs := ⟨some k, some k⟩, sets := s.sets ++ [k] } : BSt).step
      false (.cast k) = some { s with casts := s.casts.set k .swap, msgs := ⟨some k, some k⟩, sets := s.sets ++ [k] } := by
    simp only [BSt.step, BSt.castStep, BSt.setB, hp, c2, List.set_set, hm]
    rfl
  exact (brun_cons h1).trans ((brun_cons h2).trans (brun_cons h3))

/-- the call `k` swaps the channel and closes the old one -/
theorem run_swap {k : Nat} (hc : s.casts[k]? = some .swap) (hp : s.panicked = false)
    (ha : s.chs[s.awaiter]? = some false) :
    s.run false [.cast k, .cast k] =
      some { s with casts := s.casts.set k .done, awaiter := s.chs.length, chs := (s.chs ++ [false]).set s.awaiter true } := by
  have hl := (List.getElem?_eq_some_iff.mp ha).1
  have e : (s.chs ++ [false])[s.awaiter]? = some false := by rw [List.getElem?_append_left hl]; exact ha
  have h1 : s.step false (.cast k) =
      some { s.setB k (.close s.awaiter) with awaiter := s.chs.length, chs := s.chs ++ [false] } := by
    simp [BSt.step, BSt.castStep, hp, hc]
  have c1 : (s.casts.set k (.close s.awaiter))[k]? = some (.close s.awaiter) := get_set hc
  have h2 : ({ s.setB k (.close s.awaiter) with awaiter := s.chs.length, chs := s.chs ++ [false] } : BSt).step
      false (.cast k) = some { s with casts := s.casts.set k .done, awaiter := s.chs.length, chs := (s.chs ++ [false]).set s.awaiter true } := by
    simp only [BSt.step, BSt.castStep, BSt.setB, hp, c1, List.set_set, e]
    rfl
  exact (brun_cons h1).trans (brun_cons h2)

/-- the connection `r` waits for the current channel -/
theorem run_arm {r : Nat} {g : List Slice} (hr : s.recvs[r]? = some ⟨.lock, false, g⟩) (hm : s.mu = none)
    (hp : s.panicked = false) : s.run false [.recv r true, .recv r true, .recv r true] =
      some { s with recvs := s.recvs.set r ⟨.sel s.awaiter, false, g⟩ } := by
  have h1 : s.step false (.recv r true) = some { s.setR r ⟨.load, false, g⟩ with mu := some (.conn r) } := by
    simp [BSt.step, BSt.recvStep, hp, hr, hm]
  have c1 : (s.recvs.set r ⟨.load, false, g⟩)[r]? = some ⟨.load, false, g⟩ := get_set hr
  have h2 : ({ s.setR r ⟨.load, false, g⟩ with mu := some (.conn r) } : BSt).step false (.recv r true) =
      some { s.setR r ⟨.unlock s.awaiter, false, g⟩ with mu := some (.conn r) } := by
    simp only [BSt.step, BSt.recvStep, BSt.setR, hp, c1, List.set_set]
    rfl
  have c2 : (s.recvs.set r ⟨.unlock s.awaiter, false, g⟩)[r]? = some ⟨.unlock s.awaiter, false, g⟩ := get_set hr
  have h3 : ({ s.setR r ⟨.unlock s.awaiter, false, g⟩ with mu := some (.conn r) } : BSt).step false (.recv r true) =
      some { s with recvs := s.recvs.set r ⟨.sel s.awaiter, false, g⟩ } := by
    simp only [BSt.step, BSt.recvStep, BSt.setR, hp, c2, List.set_set, hm]
    rfl
  exact (brun_cons h1).trans ((brun_cons h2).trans (brun_cons h3))

/-- the connection `r` is woken and publishes the batch that it reads -/
theorem run_get {r ch : Nat} {g : List Slice} (hr : s.recvs[r]? = some ⟨.sel ch, false, g⟩) (hm : s.mu = none)
    (hp : s.panicked = false) (hc : s.chs[ch]? = some true) :
    s.run false [.recv r true, .recv r true, .recv r true, .recv r true, .recv r true] =
      some { s with recvs := s.recvs.set r ⟨.lock, false, g ++ [s.msgs]⟩ } := by
  have h1 : s.step false (.recv r true) = some (s.setR r ⟨.readPtr, false, g⟩) := by
    simp [BSt.step, BSt.recvStep, hp, hr, hc]
  have c1 : (s.recvs.set r ⟨.readPtr, false, g⟩)[r]? = some ⟨.readPtr, false, g⟩ := get_set hr
  have h2 : (s.setR r ⟨.readPtr, false, g⟩).step false (.recv r true) =
      some (s.setR r ⟨.relock (some s.msgs), false, g⟩) := by
    simp only [BSt.step, BSt.recvStep, BSt.setR, hp, c1, List.set_set]
    rfl
  have c2 : (s.recvs.set r ⟨.relock (some s.msgs), false, g⟩)[r]? = some ⟨.relock (some s.msgs), false, g⟩ := get_set hr
  have h3 : (s.setR r ⟨.relock (some s.msgs), false, g⟩).step false (.recv r true) =
      some { s.setR r ⟨.publish s.msgs, false, g⟩ with mu := some (.conn r) } := by
    simp only [BSt.step, BSt.recvStep, BSt.setR, hp, c2, List.set_set, hm]
    rfl
  have c3 : (s.recvs.set r ⟨.publish s.msgs, false, g⟩)[r]? = some ⟨.publish s.msgs, false, g⟩ := get_set hr
  have h4 : ({ s.setR r ⟨.publish s.msgs, false, g⟩ with mu := some (.conn r) } : BSt).step false (.recv r true) =
      some { s.setR r ⟨.leave true, false, g ++ [s.msgs]⟩ with mu := some (.conn r) } := by
    simp only [BSt.step, BSt.recvStep, BSt.setR, hp, c3, List.set_set]
    rfl
  have c4 : (s.recvs.set r ⟨.leave true, false, g ++ [s.msgs]⟩)[r]? = some ⟨.leave true, false, g ++ [s.msgs]⟩ := get_set hr
  have h5 : ({ s.setR r ⟨.leave true, false, g ++ [s.msgs]⟩ with mu := some (.conn r) } : BSt).step false (.recv r true) =
      some { s with recvs := s.recvs.set r ⟨.lock, false, g ++ [s.msgs]⟩ } := by
    simp only [BSt.step, BSt.recvStep, BSt.setR, hp, c4, List.set_set, hm]
    rfl
  exact (brun_cons h1).trans ((brun_cons h2).trans ((brun_cons h3).trans ((brun_cons h4).trans (brun_cons h5))))

/-- where `n` calls are, the first `w` having returned and the first `m` having written `messages` -/
def castsAt (n m w : Nat) : List BPc :=
  (List.range n).map (fun i => if i < w then .done else if i < m then .swap else .lock)

/-- the state in which of `n` calls `m` have written `messages` and `w` have returned, and a connection `x` -/
def at_ (n m w : Nat) (x : Recv) : BSt where
  casts := castsAt n m w
  msgs := ⟨(List.range m).getLast?, (List.range m).getLast?⟩
  awaiter := w
  chs := List.replicate w true ++ [false]
  recvs := [x]
  sets := List.range m

theorem castsAt_get {n m w i : Nat} (h : i < n) :
    (castsAt n m w)[i]? = some (if i < w then .done else if i < m then .swap else .lock) := by
  rw [castsAt, List.getElem?_map, List.getElem?_range h]; rfl

theorem castsAt_set {n m w : Nat} (h : m < n) (hw : w ≤ m) : (castsAt n m w).set m .swap = castsAt n (m + 1) w := by
  apply List.ext_getElem?
  intro i
  rw [List.getElem?_set]
  by_cases hi : i < n
  · rw [castsAt_get hi, castsAt_get hi]
    have hl : m < (castsAt n m w).length := by simp [castsAt, h]
    by_cases e : m = i
    · subst e; rw [if_pos rfl, if_pos hl, if_neg (by omega), if_pos (by omega)]
    · rw [if_neg e]
      by_cases h1 : i < w
      · rw [if_pos h1, if_pos h1]
      · rw [if_neg h1, if_neg h1]
        by_cases h2 : i < m
        · rw [if_pos h2, if_pos (by omega)]
        · rw [if_neg h2, if_neg (by omega)]
  · rw [if_neg (by omega), List.getElem?_eq_none (by simp [castsAt]; omega),
      List.getElem?_eq_none (by simp [castsAt]; omega)]

theorem castsAt_swap {n m w : Nat} (h : w < m) (hm : m ≤ n) : (castsAt n m w).set w .done = castsAt n m (w + 1) := by
  apply List.ext_getElem?
  intro i
  rw [List.getElem?_set]
  by_cases hi : i < n
  · rw [castsAt_get hi, castsAt_get hi]
    have hl : w < (castsAt n m w).length := by simp [castsAt]; omega
    by_cases e : w = i
    · subst e; rw [if_pos rfl, if_pos hl, if_pos (by omega)]
    · rw [if_neg e]
      by_cases h1 : i < w
      · rw [if_pos h1, if_pos (by omega)]
      · have h2 : ¬ i < w + 1 := by omega
        rw [if_neg h1, if_neg h2]
  · rw [if_neg (by omega), List.getElem?_eq_none (by simp [castsAt]; omega),
      List.getElem?_eq_none (by simp [castsAt]; omega)]

/-- some schedule leads from one state to the other -/
def Leads (s t : BSt) : Prop := ∃ ops, s.run false ops = some t

theorem Leads.refl (s : BSt) : Leads s s := ⟨[], rfl⟩

theorem Leads.trans {t u : BSt} (h1 : Leads s t) (h2 : Leads t u) : Leads s u := by
  obtain ⟨o1, h1⟩ := h1
  obtain ⟨o2, h2⟩ := h2
  exact ⟨o1 ++ o2, (brun_append h1).trans h2⟩

theorem leads_set {n m w : Nat} {x : Recv} (h : m < n) (hw : w ≤ m) : Leads (at_ n m w x) (at_ n (m + 1) w x) := by
  refine ⟨_, (run_set (k := m) (s := at_ n m w x) ?_ rfl rfl).trans ?_⟩
  · show (castsAt n m w)[m]? = _
    rw [castsAt_get h, if_neg (by omega), if_neg (by omega)]
  · simp only [at_, castsAt_set h hw, List.range_succ, List.getLast?_append, List.getLast?_singleton, Option.some_or]

theorem leads_sets {n m m' w : Nat} {x : Recv} (hm : m ≤ m') (h : m' ≤ n) (hw : w ≤ m) :
    Leads (at_ n m w x) (at_ n m' w x) := by
  induction hm with
  | refl => exact .refl _
  | step hm ih => exact (ih (by omega)).trans (leads_set (by omega) (Nat.le_trans hw hm))

theorem leads_swap {n m w : Nat} {x : Recv} (h : w < m) (hm : m ≤ n) : Leads (at_ n m w x) (at_ n m (w + 1) x) := by
  refine ⟨_, (run_swap (k := w) (s := at_ n m w x) ?_ rfl ?_).trans ?_⟩
  · show (castsAt n m w)[w]? = _
    rw [castsAt_get (by omega), if_neg (by omega), if_pos h]
  · show (List.replicate w true ++ [false])[w]? = some false
    simp
  · simp only [at_, castsAt_swap h hm]
    have e1 : (List.replicate w true ++ [false]).length = w + 1 := by simp
    have e2 : (List.replicate w true ++ [false] ++ [false]).set w true = List.replicate (w + 1) true ++ [false] := by
      rw [List.replicate_succ']
      simp
    rw [e1, e2]

theorem leads_swaps {n m w w' : Nat} {x : Recv} (hw : w ≤ w') (h : w' ≤ m) (hm : m ≤ n) :
    Leads (at_ n m w x) (at_ n m w' x) := by
  induction hw with
  | refl => exact .refl _
  | step hw ih => exact (ih (by omega)).trans (leads_swap (by omega) hm)

theorem leads_arm {n m w : Nat} {g : List Slice} : Leads (at_ n m w ⟨.lock, false, g⟩) (at_ n m w ⟨.sel w, false, g⟩) :=
  ⟨_, run_arm (r := 0) (g := g) rfl rfl rfl⟩

theorem leads_get {n m w ch : Nat} {g : List Slice} (hc : ch < w) :
    Leads (at_ n (m + 1) w ⟨.sel ch, false, g⟩) (at_ n (m + 1) w ⟨.lock, false, g ++ [batch m]⟩) := by
  refine ⟨_, (run_get (r := 0) (g := g) (ch := ch) rfl rfl rfl ?_).trans ?_⟩
  · show (List.replicate w true ++ [false])[ch]? = some true
    rw [List.getElem?_append_left (by simpa using hc), List.getElem?_replicate, if_pos hc]
  · simp [at_, List.range_succ, batch]

theorem leads_all {n : Nat} (ps : List Nat) : ∀ {m w : Nat} {g : List Slice}, w ≤ m → m ≤ n →
    ps.Pairwise (· ≤ ·) → (∀ j p, ps[j]? = some p → w + j ≤ p ∧ m ≤ p + 1 ∧ p < n) →
    Leads (at_ n m w ⟨.lock, false, g⟩) (at_ n n n ⟨.sel n, false, g ++ ps.map batch⟩) := by
  induction ps with
  | nil =>
    intro m w g hw hm _ _
    rw [List.map_nil, List.append_nil]
    exact (leads_sets hm (Nat.le_refl _) hw).trans
      ((leads_swaps (Nat.le_trans hw hm) (Nat.le_refl _) (Nat.le_refl _)).trans leads_arm)
  | cons p ps ih =>
    intro m w g hw hm hp hx
    obtain ⟨h1, h2, h3⟩ := hx 0 p rfl
    have hc := List.pairwise_cons.mp hp
    have := ih (m := p + 1) (w := w + 1) (g := g ++ [batch p]) (by omega) (by omega) hc.2 (fun j q hq => by
      have h4 := hx (j + 1) q hq
      have h5 := hc.1 q (List.mem_of_getElem? hq)
      omega)
    rw [List.append_assoc] at this
    exact leads_arm.trans ((leads_sets h2 (by omega) hw).trans ((leads_swap (by omega) (by omega)).trans
      ((leads_get (by omega)).trans this)))

theorem leads_calls (n : Nat) (x : Recv) : ∀ k, Leads (at_ n 0 0 x) (at_ (n + k) 0 0 x)
  | 0 => .refl _
  | k + 1 => (leads_calls n x k).trans ⟨[.call], by
      simp [BSt.run, BSt.step, at_, castsAt, ← Nat.add_assoc, List.range_succ]⟩

theorem reach_start (n : Nat) : BReach false (at_ n 0 0 ⟨.lock, false, []⟩) := by
  obtain ⟨ops, h⟩ := leads_calls 0 ⟨.lock, false, []⟩ n
  rw [Nat.zero_add] at h
  refine ⟨.join :: ops, ?_⟩
  simp only [BSt.run, BSt.step]
  exact h

/-! ## Calls that do not overlap -/

/-- the states that are reached without two calls at the same time -/
def SReach (s : BSt) : Prop := ∃ ops, BSt.run false {} ops = some s ∧ Serial {} ops

theorem SReach.reach (h : SReach s) : BReach false s := ⟨_, h.choose_spec.1⟩

/-- at most one call is going on, the last one -/
def Alone (s : BSt) : Prop := ∀ (k : Nat) pc, s.casts[k]? = some pc → k + 1 < s.casts.length → pc = .done

theorem alone_step {op : BOp} (h : Alone s) (ho : op = .call → ∀ pc ∈ s.casts, pc = BPc.done)
    (hx : BNext false s op s') : Alone s' := by
  have upd : ∀ {k : Nat} {pc q : BPc}, s.casts[k]? = some pc → pc ≠ .done → s'.casts = s.casts.set k q → Alone s' := by
    intro k pc q hk hd e j pc' hj hl
    rw [e] at hj hl
    rw [List.length_set] at hl
    rcases set_cases hj with ⟨rfl, _, _⟩ | ⟨_, hj⟩
    · exact absurd (h k pc hk hl) hd
    · exact h j pc' hj hl
  cases hx
  case call =>
    intro k pc hk hl
    rcases append_cases hk with ⟨e, _⟩ | hk
    · simp only [List.length_append, List.length_singleton] at hl
      omega
    · exact ho rfl pc (List.mem_of_getElem? hk)
  case castLock hk _ => exact upd hk (by simp) rfl
  case castPtr ht => cases ht
  case castSet hk _ => exact upd hk (by simp) rfl
  case castLen hk => exact upd hk (by simp) rfl
  case castUnlock hk => exact upd hk (by simp) rfl
  case castSwap hk => exact upd hk (by simp) rfl
  case castClose hk _ => exact upd hk (by simp) rfl
  all_goals exact h

theorem alone_count {l : List BPc} (h : ∀ (k : Nat) pc, l[k]? = some pc → k + 1 < l.length → pc = .done) :
    l.countP midway ≤ 1 := by
  induction l with
  | nil => simp
  | cons a l ih =>
    rw [List.countP_cons]
    cases l with
    | nil => simp; split <;> omega
    | cons b l =>
      have e : a = .done := h 0 a rfl (by simp)
      rw [e]
      have := ih (fun k pc hk hl => h (k + 1) pc hk (by simp at hl ⊢; omega))
      simpa [midway] using this

/-- what a connection has got, measured against the calls -/
def Timed (s : BSt) (x : Recv) (ps : List Nat) : Prop :=
  match x.pc with
  | .unlock ch | .sel ch => ps.length ≤ ch ∧ ch ≤ s.awaiter ∧ ∀ i p, ps[i]? = some p → p + (ps.length - i) ≤ ch + 1
  | .readPtr => ps.length < s.awaiter ∧ ∀ i p, ps[i]? = some p → p + (ps.length - i) ≤ s.awaiter
  | _ => ps.length ≤ s.awaiter ∧ ∀ i p, ps[i]? = some p → p + (ps.length - i) ≤ s.awaiter + 1

/-- the batches are entries of `sets` as calls that do not overlap allow -/
def Fine (s : BSt) (x : Recv) : Prop :=
  ∃ ps : List Nat, SeriallyReceivable s.sets.length ps ∧
    x.got ++ x.pc.flight = ps.map (fun p => ⟨s.sets[p]?, s.sets[p]?⟩) ∧ Timed s x ps

theorem timed_mono {t : BSt} {x : Recv} {ps : List Nat} (h : Timed s x ps) (ha : s.awaiter ≤ t.awaiter) :
    Timed t x ps := by
  unfold Timed at h ⊢
  split at h
  · exact ⟨h.1, by omega, h.2.2⟩
  · exact ⟨h.1, by omega, h.2.2⟩
  · exact ⟨by omega, fun i p hp => by have := h.2 i p hp; omega⟩
  · exact ⟨by omega, fun i p hp => by have := h.2 i p hp; omega⟩

theorem fine_grow {t : BSt} {x : Recv} (h : Fine s x) (ha : s.awaiter ≤ t.awaiter) (hs : ∃ l, t.sets = s.sets ++ l) :
    Fine t x := by
  obtain ⟨ps, ⟨h1, h2⟩, h3, h4⟩ := h
  obtain ⟨l, hs⟩ := hs
  refine ⟨ps, ⟨fun j p hp => ?_, h2⟩, ?_, timed_mono h4 ha⟩
  · have := h1 j p hp
    rw [hs, List.length_append]; omega
  · rw [h3, hs]
    apply List.map_congr_left
    intro p hp
    obtain ⟨j, hj⟩ := List.getElem?_of_mem hp
    rw [List.getElem?_append_left (h1 j p hj).2]

theorem fine_step {op : BOp} (hr : BReach false s) (hal : Alone s)
    (h : ∀ (r : Nat) x, s.recvs[r]? = some x → Fine s x)
    (hx : BNext false s op s') : ∀ (r : Nat) x, s'.recvs[r]? = some x → Fine s' x := by
  have hsw := breach_swaps hr
  have hse := breach_sets hr
  have hone := alone_count hal
  have same : s'.recvs = s.recvs → s.awaiter ≤ s'.awaiter → (∃ l, s'.sets = s.sets ++ l) →
      ∀ (r : Nat) x, s'.recvs[r]? = some x → Fine s' x := by
    intro e1 e2 e3 r x hx
    rw [e1] at hx
    exact fine_grow (h r x hx) e2 e3
  have upd : ∀ {r : Nat} {x y : Recv}, s.recvs[r]? = some x → s'.recvs = s.recvs.set r y → s'.awaiter = s.awaiter →
      s'.sets = s.sets → (Fine s x → Fine s y) → ∀ (r : Nat) x, s'.recvs[r]? = some x → Fine s' x := by
    intro r x y hk e1 e2 e3 hy j z hz
    rw [e1] at hz
    rcases set_cases hz with ⟨rfl, rfl, _⟩ | ⟨_, hz⟩
    · exact fine_grow (hy (h r x hk)) (Nat.le_of_eq e2.symm) ⟨[], by rw [e3, List.append_nil]⟩
    · exact fine_grow (h j z hz) (Nat.le_of_eq e2.symm) ⟨[], by rw [e3, List.append_nil]⟩
  -- a step that reads nothing
  have quiet : ∀ {r : Nat} {x y : Recv}, s.recvs[r]? = some x → s'.recvs = s.recvs.set r y → s'.awaiter = s.awaiter →
      s'.sets = s.sets → y.got ++ y.pc.flight = x.got ++ x.pc.flight → (∀ ps, Timed s x ps → Timed s y ps) →
      ∀ (r : Nat) x, s'.recvs[r]? = some x → Fine s' x := by
    intro r x y hk e1 e2 e3 e4 e5
    refine upd hk e1 e2 e3 ?_
    rintro ⟨ps, h1, h2, h3⟩
    exact ⟨ps, h1, e4.trans h2, e5 ps h3⟩
  cases hx
  case join =>
    intro r x hr'
    rcases append_cases hr' with ⟨_, rfl⟩ | hr'
    · exact ⟨[], ⟨by simp, by simp⟩, rfl, Nat.zero_le _, by simp⟩
    · exact fine_grow (h r x hr') (Nat.le_refl _) ⟨[], by simp⟩
  case shut r x hk => exact quiet hk rfl rfl rfl rfl (fun ps h => h)
  case lock r ok x hk hp _ =>
    exact quiet hk rfl rfl rfl (by rw [hp]; rfl) (fun ps h => by simp only [Timed, hp] at h; exact h)
  case load r ok x hk hp =>
    exact quiet hk rfl rfl rfl (by rw [hp]; rfl) (fun ps h => by
      simp only [Timed, hp] at h; exact ⟨h.1, Nat.le_refl _, h.2⟩)
  case unlock r ch ok x hk hp =>
    exact quiet hk rfl rfl rfl (by rw [hp]; rfl) (fun ps h => by simp only [Timed, hp] at h; exact h)
  case sel r ch ok x hk hp hc =>
    refine quiet hk rfl rfl rfl (by rw [hp]; rfl) (fun ps h => ?_)
    simp only [Timed, hp] at h
    have hne : ch ≠ s.awaiter := by
      rintro rfl
      rw [(breach_chans hr).fresh] at hc; cases hc
    exact ⟨by omega, fun i p hp => by have := h.2.2 i p hp; omega⟩
  case readPtr ht => cases ht
  case read r ok x hk hp _ =>
    refine upd hk rfl rfl rfl ?_
    rintro ⟨ps, ⟨h1, h2⟩, h3, h4⟩
    simp only [Timed, hp] at h4
    have hs := hsw.sets
    have hpos : 0 < s.sets.length := by omega
    refine ⟨ps ++ [s.sets.length - 1], ⟨fun j p hj => ?_, fun i j p q hij hi hj => ?_⟩, ?_, ?_, fun i p hi => ?_⟩
    · rcases append_cases hj with ⟨e, rfl⟩ | hj
      · omega
      · exact h1 j p hj
    · rcases append_cases hj with ⟨e, rfl⟩ | hj
      · rcases append_cases hi with ⟨e', rfl⟩ | hi
        · omega
        · have := h4.2 i p hi
          omega
      · rcases append_cases hi with ⟨e', rfl⟩ | hi
        · have := (List.getElem?_eq_some_iff.mp hj).1
          omega
        · exact h2 i j p q hij hi hj
    · rw [hp, show (RPc.readPtr).flight = [] from rfl, List.append_nil] at h3
      show x.got ++ [s.msgs] = _
      rw [List.map_append, h3, List.map_singleton, ← List.getLast?_eq_getElem?, ← hse.last]
      have h5 := hse.whole rfl
      rcases he : s.msgs with ⟨a, b⟩
      rw [he] at h5
      dsimp only at h5 ⊢
      rw [h5]
    · rw [List.length_append, List.length_singleton]; omega
    · rw [List.length_append, List.length_singleton]
      rcases append_cases hi with ⟨e', rfl⟩ | hi
      · omega
      · have := h4.2 i p hi
        have := (List.getElem?_eq_some_iff.mp hi).1
        omega
  case readLen r ok p x hk hp => exact absurd hp (breach_noReadLen hr hk)
  case relock r ok m x hk hp _ =>
    exact quiet hk rfl rfl rfl (by rw [hp]; rfl) (fun ps h => by simp only [Timed, hp] at h; exact h)
  case relockEnd r ok x hk hp _ =>
    exact quiet hk rfl rfl rfl (by rw [hp]; rfl) (fun ps h => by simp only [Timed, hp] at h; exact h)
  case publish r ok m x hk hp _ =>
    exact quiet hk rfl rfl rfl (by rw [hp]; simp [RPc.flight]) (fun ps h => by simp only [Timed, hp] at h; exact h)
  case leave r ok more x hk hp =>
    exact quiet hk rfl rfl rfl (by rw [hp]; cases more <;> rfl) (fun ps h => by
      simp only [Timed, hp] at h; cases more <;> exact h)
  case quit r ch x hk hp _ =>
    refine quiet hk rfl rfl rfl (by rw [hp]; rfl) (fun ps h => ?_)
    simp only [Timed, hp] at h
    exact ⟨by omega, fun i p hp => by have := h.2.2 i p hp; omega⟩
  case castSwap => exact same rfl (by show s.awaiter ≤ s.chs.length; have := hsw.chs; omega) ⟨[], by simp⟩
  case castSet => exact same rfl (Nat.le_refl _) ⟨_, rfl⟩
  case castPtr ht => cases ht
  all_goals exact same rfl (Nat.le_refl _) ⟨[], by simp⟩

theorem serial_fine {ops : List BOp} : ∀ {s : BSt}, BReach false s → Alone s →
    (∀ (r : Nat) x, s.recvs[r]? = some x → Fine s x) → Serial s ops → s.run false ops = some s' →
    ∀ (r : Nat) x, s'.recvs[r]? = some x → Fine s' x := by
  induction ops with
  | nil => intro s _ _ h _ hs; cases hs; exact h
  | cons op ops ih =>
    intro s hr ha h hser hs
    simp only [BSt.run] at hs
    split at hs
    · rename_i t ht
      have hx := bnext_of_step ht
      exact ih (breach_run (ops := [op]) hr (by simp [BSt.run, ht])) (alone_step ha hser.1 hx) (fine_step hr ha h hx)
        (hser.2 t ht) hs
    · cases hs

theorem sreach_fine (h : SReach s) : ∀ (r : Nat) x, s.recvs[r]? = some x → Fine s x := by
  obtain ⟨ops, h1, h2⟩ := h
  exact serial_fine ⟨[], rfl⟩ (by simp [Alone]) (by simp) h2 h1

/-! ## Schedules without overlap -/

theorem serial_append {o1 o2 : List BOp} {t : BSt} : ∀ {s : BSt}, Serial s o1 → s.run false o1 = some t → Serial t o2 →
    Serial s (o1 ++ o2) := by
  induction o1 with
  | nil => intro s _ h h2; cases h; exact h2
  | cons op o1 ih =>
    intro s h1 h h2
    refine ⟨h1.1, fun u hu => ih (h1.2 u hu) ?_ h2⟩
    simp only [BSt.run, hu] at h
    exact h

theorem serial_noCall {ops : List BOp} : ∀ {s : BSt}, .call ∉ ops → Serial s ops := by
  induction ops with
  | nil => intro _ _; trivial
  | cons op ops ih =>
    intro s h
    exact ⟨fun e => absurd (e ▸ List.mem_cons_self ..) h, fun t _ => ih (fun e => h (List.mem_cons_of_mem _ e))⟩

/-- some schedule without overlap leads from one state to the other -/
def SLeads (s t : BSt) : Prop := ∃ ops, s.run false ops = some t ∧ Serial s ops

theorem SLeads.refl (s : BSt) : SLeads s s := ⟨[], rfl, trivial⟩

theorem SLeads.trans {t u : BSt} (h1 : SLeads s t) (h2 : SLeads t u) : SLeads s u := by
  obtain ⟨o1, h1, g1⟩ := h1
  obtain ⟨o2, h2, g2⟩ := h2
  exact ⟨o1 ++ o2, (brun_append h1).trans h2, serial_append g1 h1 g2⟩

theorem sleads_set {n m w : Nat} {x : Recv} (h : m < n) (hw : w ≤ m) : SLeads (at_ n m w x) (at_ n (m + 1) w x) := by
  refine ⟨_, (run_set (k := m) (s := at_ n m w x) ?_ rfl rfl).trans ?_, serial_noCall (by simp)⟩
  · show (castsAt n m w)[m]? = _
    rw [castsAt_get h, if_neg (by omega), if_neg (by omega)]
  · simp only [at_, castsAt_set h hw, List.range_succ, List.getLast?_append, List.getLast?_singleton, Option.some_or]

theorem sleads_swap {n m w : Nat} {x : Recv} (h : w < m) (hm : m ≤ n) : SLeads (at_ n m w x) (at_ n m (w + 1) x) := by
  refine ⟨_, (run_swap (k := w) (s := at_ n m w x) ?_ rfl ?_).trans ?_, serial_noCall (by simp)⟩
  · show (castsAt n m w)[w]? = _
    rw [castsAt_get (by omega), if_neg (by omega), if_pos h]
  · show (List.replicate w true ++ [false])[w]? = some false
    simp
  · simp only [at_, castsAt_swap h hm]
    have e1 : (List.replicate w true ++ [false]).length = w + 1 := by simp
    have e2 : (List.replicate w true ++ [false] ++ [false]).set w true = List.replicate (w + 1) true ++ [false] := by
      rw [List.replicate_succ']
      simp
    rw [e1, e2]

theorem sleads_arm {n m w : Nat} {g : List Slice} :
    SLeads (at_ n m w ⟨.lock, false, g⟩) (at_ n m w ⟨.sel w, false, g⟩) :=
  ⟨_, run_arm (r := 0) (g := g) rfl rfl rfl, serial_noCall (by simp)⟩

theorem sleads_get {n m w ch : Nat} {g : List Slice} (hc : ch < w) :
    SLeads (at_ n (m + 1) w ⟨.sel ch, false, g⟩) (at_ n (m + 1) w ⟨.lock, false, g ++ [batch m]⟩) := by
  refine ⟨_, (run_get (r := 0) (g := g) (ch := ch) rfl rfl rfl ?_).trans ?_, serial_noCall (by simp)⟩
  · show (List.replicate w true ++ [false])[ch]? = some true
    rw [List.getElem?_append_left (by simpa using hc), List.getElem?_replicate, if_pos hc]
  · simp [at_, List.range_succ, batch]

theorem castsAt_all (n m : Nat) : ∀ pc ∈ castsAt n m n, pc = BPc.done := by
  intro pc h
  obtain ⟨i, hi, rfl⟩ := List.mem_map.mp h
  rw [if_pos (List.mem_range.mp hi)]

/-- the next call is made and writes `messages` -/
theorem sleads_begin {w : Nat} {x : Recv} : SLeads (at_ w w w x) (at_ (w + 1) (w + 1) w x) := by
  refine SLeads.trans (t := at_ (w + 1) w w x) ⟨[.call], ?_, fun _ => castsAt_all w w, fun _ _ => trivial⟩
    (sleads_set (by omega) (Nat.le_refl _))
  simp [BSt.run, BSt.step, at_, castsAt, List.range_succ]

/-- the call that is going on, if any, returns -/
theorem sleads_still {m w : Nat} {x : Recv} (h1 : w ≤ m) (h2 : m ≤ w + 1) : SLeads (at_ m m w x) (at_ m m m x) := by
  by_cases e : m = w
  · subst e; exact .refl _
  · have e : m = w + 1 := by omega
    subst e
    exact sleads_swap (by omega) (Nat.le_refl _)

theorem sleads_full {w w' : Nat} {x : Recv} (h : w ≤ w') : SLeads (at_ w w w x) (at_ w' w' w' x) := by
  induction h with
  | refl => exact .refl _
  | step h ih => exact ih.trans (sleads_begin.trans (sleads_swap (by omega) (Nat.le_refl _)))

theorem sleads_all {n : Nat} (ps : List Nat) : ∀ {m w : Nat} {g : List Slice}, w ≤ m → m ≤ w + 1 → m ≤ n →
    (∀ j p, ps[j]? = some p → w + j ≤ p ∧ p < n) → (∀ i j p q, i < j → ps[i]? = some p → ps[j]? = some q → p + (j - i) ≤ q + 1) →
    SLeads (at_ m m w ⟨.lock, false, g⟩) (at_ n n n ⟨.sel n, false, g ++ ps.map batch⟩) := by
  induction ps with
  | nil =>
    intro m w g h1 h2 h3 _ _
    rw [List.map_nil, List.append_nil]
    exact (sleads_still h1 h2).trans ((sleads_full h3).trans sleads_arm)
  | cons p ps ih =>
    intro m w g h1 h2 h3 hx hy
    obtain ⟨h4, h5⟩ := hx 0 p rfl
    have hy' : ∀ i j p q, i < j → ps[i]? = some p → ps[j]? = some q → p + (j - i) ≤ q + 1 := fun i j p q hij hi hj => by
      have := hy (i + 1) (j + 1) p q (by omega) hi hj
      omega
    refine sleads_arm.trans ?_
    by_cases e : p = w
    · subst e
      -- up to the end of the call `p`
      have up : SLeads (at_ m m p ⟨.sel p, false, g⟩) (at_ (p + 1) (p + 1) (p + 1) ⟨.sel p, false, g⟩) :=
        (sleads_still h1 h2).trans (sleads_full h2)
      have := ih (m := p + 1) (w := p + 1) (g := g ++ [batch p]) (Nat.le_refl _) (by omega) (by omega) (fun j q hq => by
        have := hx (j + 1) q hq
        omega) hy'
      rw [List.append_assoc] at this
      exact up.trans ((sleads_get (by omega)).trans this)
    · -- up to the write of the call `p`
      have up : SLeads (at_ m m w ⟨.sel w, false, g⟩) (at_ (p + 1) (p + 1) p ⟨.sel w, false, g⟩) :=
        (sleads_still h1 h2).trans ((sleads_full (show m ≤ p by omega)).trans sleads_begin)
      have := ih (m := p + 1) (w := p) (g := g ++ [batch p]) (by omega) (by omega) (by omega) (fun j q hq => by
        have h6 := hx (j + 1) q hq
        have h7 := hy 0 (j + 1) p q (by omega) rfl hq
        omega) hy'
      rw [List.append_assoc] at this
      exact up.trans ((sleads_get (by omega)).trans this)

theorem sleads_start : SLeads {} (at_ 0 0 0 ⟨.lock, false, []⟩) :=
  ⟨[.join], rfl, serial_noCall (by simp)⟩

theorem range_map {n : Nat} {ps : List Nat} (h : ∀ p ∈ ps, p < n) :
    ps.map (fun p => (⟨(List.range n)[p]?, (List.range n)[p]?⟩ : Slice)) = ps.map batch := by
  apply List.map_congr_left
  intro p hp
  rw [List.getElem?_range (h p hp)]
  rfl

theorem batch_inj {ps qs : List Nat} (h : ps.map batch = qs.map batch) : ps = qs := by
  refine (List.map_inj_right ?_).mp h
  intro a b e
  have := congrArg Slice.ptr e
  exact Option.some.inj this

theorem count_span {p : Nat} {ps : List Nat} (h : 0 < ps.count p) :
    ∃ i j, i ≤ j ∧ ps[i]? = some p ∧ ps[j]? = some p ∧ ps.count p ≤ j - i + 1 := by
  induction ps with
  | nil => simp at h
  | cons a l ih =>
    by_cases hl : 0 < l.count p
    · obtain ⟨i, j, h1, h2, h3, h4⟩ := ih hl
      by_cases e : a = p
      · subst e
        exact ⟨0, j + 1, by omega, rfl, h3, by rw [List.count_cons_self]; omega⟩
      · exact ⟨i + 1, j + 1, by omega, h2, h3, by rw [List.count_cons_of_ne e]; omega⟩
    · by_cases e : a = p
      · subst e
        exact ⟨0, 0, by omega, rfl, rfl, by rw [List.count_cons_self]; omega⟩
      · rw [List.count_cons_of_ne e] at h
        omega

theorem count_pos {sets ps : List Nat} {p k : Nat} (hn : sets.Nodup) (hk : sets[p]? = some k)
    (h : ∀ q ∈ ps, q < sets.length) :
    (ps.map (fun q => (⟨sets[q]?, sets[q]?⟩ : Slice))).count (batch k) = ps.count p := by
  rw [List.count_eq_countP, List.count_eq_countP, List.countP_map]
  apply List.countP_congr
  intro q hq
  simp only [Function.comp, beq_iff_eq, batch, Slice.mk.injEq, and_self]
  rw [← hk]
  constructor
  · intro e
    exact (List.getElem?_inj (h q hq) hn).mp e
  · rintro rfl; rfl

end Neffos.Receive
