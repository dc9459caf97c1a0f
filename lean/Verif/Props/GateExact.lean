import Verif.Props.Gate
import Verif.Spec.Gate
/-!
# C102: what the connect gate does, exactly
-/
set_option autoImplicit false
namespace Neffos.GateExact
open Neffos Neffos.Spec

/-- the steps, one by one -/
inductive GStep (s : Gates) (i : Nat) : Gates → Prop
  | cGet {n : Bytes} {p : Nat} : s.ths[i]? = some (n, .cGet) → mapGet s.entries n = some p → GStep s i (s.goto i n (.cStart p))
  | cMiss {n : Bytes} : s.ths[i]? = some (n, .cGet) → mapGet s.entries n = none → GStep s i (s.goto i n .cCreate)
  | cCreate {n : Bytes} : s.ths[i]? = some (n, .cCreate) → GStep s i ((s.create n).goto i n (.cStart s.procs.length))
  | cStart {n : Bytes} {p : Nat} {x : Proc} : s.ths[i]? = some (n, .cStart p) → s.procs[p]? = some x →
      (x.w = 0 ∨ x.v ≠ 0) → GStep s i ((s.upd p { x with v := x.v + 1 }).goto i n (.cBody p))
  | cStartBad {n : Bytes} {p : Nat} {x : Proc} : s.ths[i]? = some (n, .cStart p) → s.procs[p]? = some x →
      x.w ≠ 0 → x.v = 0 → GStep s i s.fail
  | cBody {n : Bytes} {p : Nat} {x : Proc} : s.ths[i]? = some (n, .cBody p) → s.procs[p]? = some x → x.done = false →
      GStep s i ((s.upd p { x with done := true }).goto i n (.cWgDone p))
  | cBodyLate {n : Bytes} {p : Nat} {x : Proc} : s.ths[i]? = some (n, .cBody p) → s.procs[p]? = some x → x.done = true →
      GStep s i (s.goto i n .cEnd)
  | cWg {n : Bytes} {p : Nat} {x : Proc} : s.ths[i]? = some (n, .cWgDone p) → s.procs[p]? = some x → x.v ≠ 0 →
      ¬ (x.v = 1 ∧ x.w ≠ 0) → GStep s i ((s.upd p { x with v := x.v - 1 }).goto i n .cEnd)
  | cWgRel {n : Bytes} {p : Nat} {x : Proc} : s.ths[i]? = some (n, .cWgDone p) → s.procs[p]? = some x → x.v = 1 →
      x.w ≠ 0 → GStep s i ((s.upd p { x with v := 0 }).goto i n (.cRelease p x.w))
  | cWgBad {n : Bytes} {p : Nat} {x : Proc} : s.ths[i]? = some (n, .cWgDone p) → s.procs[p]? = some x → x.v = 0 →
      GStep s i s.fail
  | cRel {n : Bytes} {p w : Nat} {x : Proc} : s.ths[i]? = some (n, .cRelease p w) → s.procs[p]? = some x → x.v = 0 →
      x.w = w → GStep s i ((s.upd p { x with v := 0, w := 0, sem := x.sem + w }).goto i n .cEnd)
  | cRelBad {n : Bytes} {p w : Nat} {x : Proc} : s.ths[i]? = some (n, .cRelease p w) → s.procs[p]? = some x →
      (x.v ≠ 0 ∨ x.w ≠ w) → GStep s i s.fail
  | hGet {n : Bytes} {p : Nat} : s.ths[i]? = some (n, .hGet) → mapGet s.entries n = some p → GStep s i (s.goto i n (.hLoad p))
  | hMiss {n : Bytes} : s.ths[i]? = some (n, .hGet) → mapGet s.entries n = none → GStep s i (s.goto i n .hCreate)
  | hCreate {n : Bytes} : s.ths[i]? = some (n, .hCreate) → GStep s i ((s.create n).goto i n (.hLoad s.procs.length))
  | hLoad {n : Bytes} {p : Nat} {x : Proc} : s.ths[i]? = some (n, .hLoad p) → s.procs[p]? = some x → x.done = true →
      GStep s i (s.goto i n .hEnd)
  | hLoadOpen {n : Bytes} {p : Nat} {x : Proc} : s.ths[i]? = some (n, .hLoad p) → s.procs[p]? = some x → x.done = false →
      GStep s i (s.goto i n (.hWait p))
  | hWait {n : Bytes} {p : Nat} {x : Proc} : s.ths[i]? = some (n, .hWait p) → s.procs[p]? = some x → x.v = 0 →
      GStep s i (s.goto i n .hEnd)
  | hHeld {n : Bytes} {p : Nat} {x : Proc} : s.ths[i]? = some (n, .hWait p) → s.procs[p]? = some x → x.v ≠ 0 →
      GStep s i ((s.upd p { x with w := x.w + 1 }).goto i n (.hBlocked p))
  | hBlocked {n : Bytes} {p : Nat} {x : Proc} : s.ths[i]? = some (n, .hBlocked p) → s.procs[p]? = some x → x.sem ≠ 0 →
      GStep s i ((s.upd p { x with sem := x.sem - 1 }).goto i n (.hWoken p))
  | hWoken {n : Bytes} {p : Nat} {x : Proc} : s.ths[i]? = some (n, .hWoken p) → s.procs[p]? = some x → x.v = 0 → x.w = 0 →
      GStep s i (s.goto i n .hEnd)
  | hWokenBad {n : Bytes} {p : Nat} {x : Proc} : s.ths[i]? = some (n, .hWoken p) → s.procs[p]? = some x →
      (x.v ≠ 0 ∨ x.w ≠ 0) → GStep s i s.fail

theorem step_iff {s s' : Gates} {i : Nat} : s.step i = some s' ↔ s.panicked = false ∧ GStep s i s' := by
  constructor
  · intro h
    unfold Gates.step at h
    split at h
    · cases h
    rename_i hp
    refine ⟨by simpa using hp, ?_⟩
    split at h
    · cases h
    · rename_i n pc ht
      cases pc <;> dsimp only at h
      · split at h <;> cases h
        · exact .cGet ht ‹_›
        · exact .cMiss ht ‹_›
      · cases h; exact .cCreate ht
      · split at h
        · cases h
        · split at h <;> cases h
          · rename_i hx; exact .cStartBad ht ‹_› hx.1 hx.2
          · rename_i hx; exact .cStart ht ‹_› (by omega)
      · split at h
        · cases h
        · split at h <;> cases h
          · exact .cBodyLate ht ‹_› ‹_›
          · exact .cBody ht ‹_› (Bool.eq_false_iff.mpr ‹_›)
      · split at h
        · cases h
        · split at h
          · cases h; exact .cWgBad ht ‹_› ‹_›
          · split at h <;> cases h
            · rename_i hx; exact .cWgRel ht ‹_› hx.1 hx.2
            · exact .cWg ht ‹_› ‹_› ‹_›
      · split at h
        · cases h
        · split at h <;> cases h
          · exact .cRelBad ht ‹_› ‹_›
          · exact .cRel ht ‹_› (by omega) (by omega)
      · cases h
      · split at h <;> cases h
        · exact .hGet ht ‹_›
        · exact .hMiss ht ‹_›
      · cases h; exact .hCreate ht
      · split at h
        · cases h
        · rename_i x hx
          cases hd : x.done <;> rw [hd] at h <;> cases h
          · exact .hLoadOpen ht hx hd
          · exact .hLoad ht hx hd
      · split at h
        · cases h
        · split at h <;> cases h
          · exact .hWait ht ‹_› ‹_›
          · exact .hHeld ht ‹_› ‹_›
      · split at h
        · cases h
        · split at h
          · cases h
          · cases h; exact .hBlocked ht ‹_› ‹_›
      · split at h
        · cases h
        · split at h <;> cases h
          · exact .hWokenBad ht ‹_› ‹_›
          · exact .hWoken ht ‹_› (by omega) (by omega)
      · cases h
  · rintro ⟨hp, h⟩
    unfold Gates.step
    rw [if_neg (by simp [hp])]
    cases h <;> rename_i ht <;> simp_all <;> omega

/-- one process, `k` calls of Start, and how many goroutines are where -/
structure PInv (x : Proc) (k B G R L W : Nat) : Prop where
  fresh : x.done = false → x.v = B ∧ G = 0 ∧ R = 0 ∧ k = B ∧ x.sem = 0 ∧ W = 0
  one : G + R ≤ 1
  spent : x.done = true → k + G = x.v + 1
  held : L = x.w + x.sem
  rel : R ≠ 0 → x.v = 0 ∧ x.w ≠ 0
  win : G + R ≠ 0 → x.sem = 0 ∧ W = 0
  idle : x.v = 0 → x.w ≠ 0 → R ≠ 0
  gone : x.done = true → B + 1 ≤ k

structure Inv (k : Nat → Nat) (s : Gates) : Prop where
  own : ∀ t ∈ s.ths, ∀ p, t.2.proc = some p → p < s.procs.length
  ent : ∀ n p, mapGet s.entries n = some p → p < s.procs.length
  none : ∀ P, s.procs.length ≤ P → k P = 0
  st : ∀ (P : Nat) (x : Proc), s.procs[P]? = some x →
    PInv x (k P) (s.ths.countP (fBody P)) (s.ths.countP (fWg P)) (s.ths.countP (fRel P)) (s.ths.countP (fBlocked P))
      (s.ths.countP (fWoken P))
  rel : ∀ (P : Nat) (x : Proc), s.procs[P]? = some x → ∀ t ∈ s.ths, ∀ w, t.2 = .cRelease P w → w = x.w

/-- the calls of Start after one more step -/
def bump (k : Nat → Nat) (s : Gates) (i : Nat) (P : Nat) : Nat :=
  k P + if s.ths[i]?.map Prod.snd = some (.cStart P) then 1 else 0

/-- a step that changes only where goroutine `i` is, with the counts of every process unchanged -/
theorem inv_goto {k : Nat → Nat} {s : Gates} {i : Nat} {n : Bytes} {pc pc' : GPc} (h : Inv k s)
    (ht : s.ths[i]? = some (n, pc)) (hk : ∀ P, pc ≠ .cStart P) (hp : ∀ p, pc'.proc = some p → p < s.procs.length)
    (hr : ∀ p w, pc' ≠ .cRelease p w)
    (hst : ∀ (P : Nat) (x : Proc), s.procs[P]? = some x → ∀ B' G' R' L' W',
      B' + (if fBody P (n, pc) then 1 else 0) = s.ths.countP (fBody P) + (if fBody P (n, pc') then 1 else 0) →
      G' + (if fWg P (n, pc) then 1 else 0) = s.ths.countP (fWg P) + (if fWg P (n, pc') then 1 else 0) →
      R' + (if fRel P (n, pc) then 1 else 0) = s.ths.countP (fRel P) + (if fRel P (n, pc') then 1 else 0) →
      L' + (if fBlocked P (n, pc) then 1 else 0) = s.ths.countP (fBlocked P) + (if fBlocked P (n, pc') then 1 else 0) →
      W' + (if fWoken P (n, pc) then 1 else 0) = s.ths.countP (fWoken P) + (if fWoken P (n, pc') then 1 else 0) →
      PInv x (k P) B' G' R' L' W') : Inv (bump k s i) (s.goto i n pc') := by
  have hb : bump k s i = k := by
    funext P
    simp [bump, ht, hk P]
  rw [hb]
  refine ⟨?_, h.ent, h.none, ?_, ?_⟩
  · intro t htm p hp'
    rcases List.mem_or_eq_of_mem_set htm with h' | rfl
    · exact h.own t h' p hp'
    · exact hp p hp'
  · intro P x hx
    exact hst P x hx _ _ _ _ _ (countP_updA _ ht _) (countP_updA _ ht _) (countP_updA _ ht _) (countP_updA _ ht _)
      (countP_updA _ ht _)
  · intro P x hx t htm w hw
    rcases List.mem_or_eq_of_mem_set htm with h' | rfl
    · exact h.rel P x hx t h' w hw
    · exact absurd hw (hr _ _)

theorem not_counted (n : Bytes) {p P : Nat} {q : GPc} (hP : P ≠ p) (hq : q.proc = some p ∨ q.proc = none) :
    fBody P (n, q) = false ∧ fWg P (n, q) = false ∧ fRel P (n, q) = false ∧ fBlocked P (n, q) = false ∧
      fWoken P (n, q) = false := by
  have hP' := Ne.symm hP
  cases q <;> simp [GPc.proc] at hq <;> simp [fBody, fWg, fRel, fBlocked, fWoken] <;> (subst hq; exact hP')

/-- a step on process `p` -/
theorem inv_upd {k : Nat → Nat} {s : Gates} {i p : Nat} {n : Bytes} {pc pc' : GPc} {x x' : Proc} (h : Inv k s)
    (ht : s.ths[i]? = some (n, pc)) (hx : s.procs[p]? = some x) (hpc : pc.proc = some p)
    (hpc' : pc'.proc = some p ∨ pc'.proc = none)
    (hw : ∀ w, pc' = .cRelease p w → w = x'.w)
    (hr : x'.w = x.w ∨ (s.ths.set i (n, pc')).countP (fRel p) = 0)
    (hst : ∀ B' G' R' L' W', PInv x (k p) (s.ths.countP (fBody p)) (s.ths.countP (fWg p)) (s.ths.countP (fRel p))
        (s.ths.countP (fBlocked p)) (s.ths.countP (fWoken p)) →
      B' + (if fBody p (n, pc) then 1 else 0) = s.ths.countP (fBody p) + (if fBody p (n, pc') then 1 else 0) →
      G' + (if fWg p (n, pc) then 1 else 0) = s.ths.countP (fWg p) + (if fWg p (n, pc') then 1 else 0) →
      R' + (if fRel p (n, pc) then 1 else 0) = s.ths.countP (fRel p) + (if fRel p (n, pc') then 1 else 0) →
      L' + (if fBlocked p (n, pc) then 1 else 0) = s.ths.countP (fBlocked p) + (if fBlocked p (n, pc') then 1 else 0) →
      W' + (if fWoken p (n, pc) then 1 else 0) = s.ths.countP (fWoken p) + (if fWoken p (n, pc') then 1 else 0) →
      PInv x' (k p + if pc = .cStart p then 1 else 0) B' G' R' L' W') :
    Inv (bump k s i) ((s.upd p x').goto i n pc') := by
  have hlen : (s.procs.set p x').length = s.procs.length := List.length_set
  have hlt := lt_of_getElem? hx
  have hpn : ∀ P w, pc' = .cRelease P w → P = p := fun P w e => by
    rcases hpc' with h' | h' <;> rw [e] at h' <;> simp [GPc.proc] at h'
    exact h'
  refine ⟨?_, ?_, ?_, ?_, ?_⟩
  · intro t htm q hq
    show q < (s.procs.set p x').length
    rw [hlen]
    rcases List.mem_or_eq_of_mem_set htm with h' | rfl
    · exact h.own t h' q hq
    · rcases hpc' with h' | h' <;> simp only [h'] at hq
      · cases hq; exact hlt
      · cases hq
  · intro m q hq
    show q < (s.procs.set p x').length
    rw [hlen]
    exact h.ent m q hq
  · intro P hP
    have hP : (s.procs.set p x').length ≤ P := hP
    rw [hlen] at hP
    have hne : P ≠ p := by omega
    have : pc ≠ .cStart P := fun e => by rw [e] at hpc; simp [GPc.proc] at hpc; exact hne hpc
    simp [bump, ht, this, h.none P hP]
  · intro P y hy
    have hy : (s.procs.set p x')[P]? = some y := hy
    show PInv y _ ((s.ths.set i (n, pc')).countP _) ((s.ths.set i (n, pc')).countP _) ((s.ths.set i (n, pc')).countP _)
      ((s.ths.set i (n, pc')).countP _) ((s.ths.set i (n, pc')).countP _)
    by_cases hP : P = p
    · subst hP
      rw [List.getElem?_set_self hlt] at hy
      cases hy
      have := hst _ _ _ _ _ (h.st _ x hx) (countP_updA _ ht _) (countP_updA _ ht _) (countP_updA _ ht _)
        (countP_updA _ ht _) (countP_updA _ ht _)
      simpa [bump, ht] using this
    · rw [List.getElem?_set_ne (Ne.symm hP)] at hy
      obtain ⟨a1, a2, a3, a4, a5⟩ := not_counted n hP (.inl hpc)
      obtain ⟨b1, b2, b3, b4, b5⟩ := not_counted n hP hpc'
      have same : ∀ f : Bytes × GPc → Bool, f (n, pc) = false → f (n, pc') = false →
          (s.ths.set i (n, pc')).countP f = s.ths.countP f := by
        intro f h1 h2
        have := countP_updA f ht (n, pc')
        simp only [h1, h2] at this
        omega
      rw [same _ a1 b1, same _ a2 b2, same _ a3 b3, same _ a4 b4, same _ a5 b5]
      have hne : pc ≠ .cStart P := fun e => by rw [e] at hpc; simp [GPc.proc] at hpc; exact hP hpc
      have := h.st P y hy
      simpa [bump, ht, hne] using this
  · intro P y hy t htm w hw'
    have hy : (s.procs.set p x')[P]? = some y := hy
    have htm : t ∈ s.ths.set i (n, pc') := htm
    by_cases hP : P = p
    · subst hP
      rw [List.getElem?_set_self hlt] at hy
      cases hy
      rcases hr with hr | hr
      · rcases List.mem_or_eq_of_mem_set htm with h' | rfl
        · rw [hr]; exact h.rel P x hx t h' w hw'
        · exact hw w hw'
      · have := List.countP_eq_zero.mp hr t htm
        simp [fRel, hw'] at this
    · rw [List.getElem?_set_ne (Ne.symm hP)] at hy
      rcases List.mem_or_eq_of_mem_set htm with h' | rfl
      · exact h.rel P y hy t h' w hw'
      · exact absurd (hpn P w hw') hP

theorem count_zero_of_own {k : Nat → Nat} {s : Gates} (h : Inv k s) {P : Nat} (hP : s.procs.length ≤ P)
    (f : Bytes × GPc → Bool) (hf : ∀ t, f t = true → t.2.proc = some P) : s.ths.countP f = 0 := by
  rw [List.countP_eq_zero]
  intro t ht hft
  have := h.own t ht P (hf t hft)
  omega

theorem fBody_proc (P : Nat) (t : Bytes × GPc) (h : fBody P t = true) : t.2.proc = some P := by
  simp [fBody] at h; rw [h]; rfl
theorem fWg_proc (P : Nat) (t : Bytes × GPc) (h : fWg P t = true) : t.2.proc = some P := by
  simp [fWg] at h; rw [h]; rfl
theorem fRel_proc (P : Nat) (t : Bytes × GPc) (h : fRel P t = true) : t.2.proc = some P := by
  unfold fRel at h
  split at h
  · rename_i p w e; simp at h; subst h; rw [e]; rfl
  · cases h
theorem fBlocked_proc (P : Nat) (t : Bytes × GPc) (h : fBlocked P t = true) : t.2.proc = some P := by
  simp [fBlocked] at h; rw [h]; rfl
theorem fWoken_proc (P : Nat) (t : Bytes × GPc) (h : fWoken P t = true) : t.2.proc = some P := by
  simp [fWoken] at h; rw [h]; rfl

/-- a new process -/
theorem inv_create {k : Nat → Nat} {s : Gates} {i : Nat} {n : Bytes} {pc pc' : GPc} (h : Inv k s)
    (ht : s.ths[i]? = some (n, pc)) (hpc : pc.proc = none) (hpc' : pc' = .cStart s.procs.length ∨ pc' = .hLoad s.procs.length) :
    Inv (bump k s i) ((s.create n).goto i n pc') := by
  have hb : bump k s i = k := by
    funext P
    have : pc ≠ .cStart P := fun e => by rw [e] at hpc; simp [GPc.proc] at hpc
    simp [bump, ht, this]
  rw [hb]
  have hp' : pc'.proc = some s.procs.length := by rcases hpc' with rfl | rfl <;> rfl
  have same : ∀ f : Bytes × GPc → Bool, f (n, pc) = false → f (n, pc') = false →
      (s.ths.set i (n, pc')).countP f = s.ths.countP f := by
    intro f h1 h2
    have := countP_updA f ht (n, pc')
    simp only [h1, h2] at this
    omega
  have kill : ∀ P, (s.ths.set i (n, pc')).countP (fBody P) = s.ths.countP (fBody P) ∧
      (s.ths.set i (n, pc')).countP (fWg P) = s.ths.countP (fWg P) ∧
      (s.ths.set i (n, pc')).countP (fRel P) = s.ths.countP (fRel P) ∧
      (s.ths.set i (n, pc')).countP (fBlocked P) = s.ths.countP (fBlocked P) ∧
      (s.ths.set i (n, pc')).countP (fWoken P) = s.ths.countP (fWoken P) := by
    intro P
    have h1 : fBody P (n, pc) = false ∧ fWg P (n, pc) = false ∧ fRel P (n, pc) = false ∧ fBlocked P (n, pc) = false ∧
        fWoken P (n, pc) = false := by
      cases pc <;> simp_all [fBody, fWg, fRel, fBlocked, fWoken, GPc.proc]
    have h2 : fBody P (n, pc') = false ∧ fWg P (n, pc') = false ∧ fRel P (n, pc') = false ∧
        fBlocked P (n, pc') = false ∧ fWoken P (n, pc') = false := by
      rcases hpc' with rfl | rfl <;> simp [fBody, fWg, fRel, fBlocked, fWoken]
    exact ⟨same _ h1.1 h2.1, same _ h1.2.1 h2.2.1, same _ h1.2.2.1 h2.2.2.1, same _ h1.2.2.2.1 h2.2.2.2.1,
      same _ h1.2.2.2.2 h2.2.2.2.2⟩
  have hlen : (s.procs ++ [({} : Proc)]).length = s.procs.length + 1 := by simp
  refine ⟨?_, ?_, ?_, ?_, ?_⟩
  · intro t htm q hq
    show q < (s.procs ++ [({} : Proc)]).length
    rw [hlen]
    rcases List.mem_or_eq_of_mem_set htm with h' | rfl
    · have := h.own t h' q hq; omega
    · rw [hp'] at hq; cases hq; omega
  · intro m q hq
    show q < (s.procs ++ [({} : Proc)]).length
    rw [hlen]
    have hq : mapGet (mapSet s.entries n s.procs.length) m = some q := hq
    rw [mapGet_mapSet] at hq
    split at hq
    · cases hq; omega
    · have := h.ent m q hq; omega
  · intro P hP
    have hP : (s.procs ++ [({} : Proc)]).length ≤ P := hP
    exact h.none P (by omega)
  · intro P y hy
    have hy : (s.procs ++ [({} : Proc)])[P]? = some y := hy
    show PInv y _ ((s.ths.set i (n, pc')).countP _) ((s.ths.set i (n, pc')).countP _) ((s.ths.set i (n, pc')).countP _)
      ((s.ths.set i (n, pc')).countP _) ((s.ths.set i (n, pc')).countP _)
    obtain ⟨e1, e2, e3, e4, e5⟩ := kill P
    rw [e1, e2, e3, e4, e5]
    by_cases hP : P < s.procs.length
    · rw [List.getElem?_append_left hP] at hy
      exact h.st P y hy
    · have hP' : s.procs.length ≤ P := by omega
      have := lt_of_getElem? hy
      have hPe : P = s.procs.length := by omega
      subst hPe
      rw [List.getElem?_append_right (Nat.le_refl _)] at hy
      simp at hy
      subst hy
      rw [count_zero_of_own h hP' _ (fBody_proc _), count_zero_of_own h hP' _ (fWg_proc _),
        count_zero_of_own h hP' _ (fRel_proc _), count_zero_of_own h hP' _ (fBlocked_proc _),
        count_zero_of_own h hP' _ (fWoken_proc _), h.none _ hP']
      constructor <;> simp
  · intro P y hy t htm w hw
    have hy : (s.procs ++ [({} : Proc)])[P]? = some y := hy
    have htm : t ∈ s.ths.set i (n, pc') := htm
    rcases List.mem_or_eq_of_mem_set htm with h' | rfl
    · have hP : P < s.procs.length := h.own t h' P (by rw [hw]; rfl)
      rw [List.getElem?_append_left hP] at hy
      exact h.rel P y hy t h' w hw
    · rcases hpc' with rfl | rfl <;> simp at hw

theorem rel_last {k : Nat → Nat} {s : Gates} {i p w : Nat} {n : Bytes} {x : Proc} (h : Inv k s)
    (ht : s.ths[i]? = some (n, .cRelease p w)) (hx : s.procs[p]? = some x) :
    (s.ths.set i (n, .cEnd)).countP (fRel p) = 0 := by
  have h1 := countP_updA (fRel p) ht (n, .cEnd)
  have h2 := (h.st p x hx).one
  rw [if_pos (by simp [fRel]), if_neg (by simp [fRel])] at h1
  omega

theorem rel_none {k : Nat → Nat} {s : Gates} {i p : Nat} {n : Bytes} {x : Proc} (h : Inv k s)
    (ht : s.ths[i]? = some (n, .hWait p)) (hx : s.procs[p]? = some x) (hv : x.v ≠ 0) :
    (s.ths.set i (n, .hBlocked p)).countP (fRel p) = 0 := by
  have h1 := countP_updA (fRel p) ht (n, .hBlocked p)
  have h2 := (h.st p x hx).rel
  have h3 : s.ths.countP (fRel p) = 0 := Classical.byContradiction fun hc => hv (h2 hc).1
  rw [if_neg (by simp [fRel]), if_neg (by simp [fRel])] at h1
  omega

theorem inv_step {k : Nat → Nat} {s s' : Gates} {i : Nat} (h : Inv k s) (hs : GStep s i s') (hp : s'.panicked = false) :
    Inv (bump k s i) s' := by
  cases hs with
  | cGet ht he => 
    refine inv_goto h ht (by simp) ?_ (by simp) ?_
    · intro p hp; simp [GPc.proc] at hp; subst hp; exact h.ent _ _ he
    · intro P x hx B G R L W e1 e2 e3 e4 e5
      have := h.st P x hx
      simp [fBody, fWg, fRel, fBlocked, fWoken] at e1 e2 e3 e4 e5
      subst e1 e2 e3 e4 e5
      exact this
  | cMiss ht he =>
    refine inv_goto h ht (by simp) ?_ (by simp) ?_
    · simp [GPc.proc]
    · intro P x hx B G R L W e1 e2 e3 e4 e5
      have := h.st P x hx
      simp [fBody, fWg, fRel, fBlocked, fWoken] at e1 e2 e3 e4 e5
      subst e1 e2 e3 e4 e5
      exact this
  | cCreate ht => exact inv_create h ht rfl (.inl rfl)
  | cStart ht hx hw =>
    refine inv_upd h ht hx rfl (.inl rfl) (by simp) (.inl rfl) ?_
    intro B G R L W hi e1 e2 e3 e4 e5
    simp [fBody, fWg, fRel, fBlocked, fWoken] at e1 e2 e3 e4 e5
    obtain ⟨i1, i2, i3, i4, i5, i6, i7, i8⟩ := hi
    constructor <;> grind
  | cStartBad => cases hp
  | cBody ht hx hd =>
    refine inv_upd h ht hx rfl (.inl rfl) (by simp) (.inl rfl) ?_
    intro B G R L W hi e1 e2 e3 e4 e5
    simp [fBody, fWg, fRel, fBlocked, fWoken] at e1 e2 e3 e4 e5
    obtain ⟨i1, i2, i3, i4, i5, i6, i7, i8⟩ := hi
    constructor <;> grind
  | @cBodyLate n p x ht hx hd =>
    refine inv_goto h ht (by simp) (by simp [GPc.proc]) (by simp) ?_
    intro P y hy B G R L W e1 e2 e3 e4 e5
    have hi := h.st P y hy
    simp [fBody, fWg, fRel, fBlocked, fWoken] at e1 e2 e3 e4 e5
    subst e2 e3 e4 e5
    by_cases hP : P = p
    · subst hP
      rw [hx] at hy; cases hy
      obtain ⟨i1, i2, i3, i4, i5, i6, i7, i8⟩ := hi
      constructor <;> grind
    · rw [if_neg (Ne.symm hP)] at e1
      subst e1
      exact hi
  | cWg ht hx hv hn =>
    refine inv_upd h ht hx rfl (.inr rfl) (by simp) (.inl rfl) ?_
    intro B G R L W hi e1 e2 e3 e4 e5
    simp [fBody, fWg, fRel, fBlocked, fWoken] at e1 e2 e3 e4 e5
    obtain ⟨i1, i2, i3, i4, i5, i6, i7, i8⟩ := hi
    constructor <;> grind
  | cWgRel ht hx hv hw =>
    refine inv_upd h ht hx rfl (.inl rfl) (by simp) (.inl rfl) ?_
    intro B G R L W hi e1 e2 e3 e4 e5
    simp [fBody, fWg, fRel, fBlocked, fWoken] at e1 e2 e3 e4 e5
    obtain ⟨i1, i2, i3, i4, i5, i6, i7, i8⟩ := hi
    constructor <;> grind
  | cWgBad => cases hp
  | cRel ht hx hv hw =>
    refine inv_upd h ht hx rfl (.inr rfl) (by simp) (.inr (rel_last h ht hx)) ?_
    intro B G R L W hi e1 e2 e3 e4 e5
    simp [fBody, fWg, fRel, fBlocked, fWoken] at e1 e2 e3 e4 e5
    obtain ⟨i1, i2, i3, i4, i5, i6, i7, i8⟩ := hi
    constructor <;> grind
  | cRelBad => cases hp
  | hGet ht he =>
    refine inv_goto h ht (by simp) ?_ (by simp) ?_
    · intro p hp; simp [GPc.proc] at hp; subst hp; exact h.ent _ _ he
    · intro P x hx B G R L W e1 e2 e3 e4 e5
      have := h.st P x hx
      simp [fBody, fWg, fRel, fBlocked, fWoken] at e1 e2 e3 e4 e5
      subst e1 e2 e3 e4 e5
      exact this
  | hMiss ht he =>
    refine inv_goto h ht (by simp) ?_ (by simp) ?_
    · simp [GPc.proc]
    · intro P x hx B G R L W e1 e2 e3 e4 e5
      have := h.st P x hx
      simp [fBody, fWg, fRel, fBlocked, fWoken] at e1 e2 e3 e4 e5
      subst e1 e2 e3 e4 e5
      exact this
  | hCreate ht => exact inv_create h ht rfl (.inr rfl)
  | hLoad ht hx hd =>
    refine inv_goto h ht (by simp) ?_ (by simp) ?_
    · simp [GPc.proc]
    · intro P x hx B G R L W e1 e2 e3 e4 e5
      have := h.st P x hx
      simp [fBody, fWg, fRel, fBlocked, fWoken] at e1 e2 e3 e4 e5
      subst e1 e2 e3 e4 e5
      exact this
  | hLoadOpen ht hx hd =>
    refine inv_goto h ht (by simp) ?_ (by simp) ?_
    · intro p hp; simp [GPc.proc] at hp; subst hp; exact lt_of_getElem? hx
    · intro P x hx B G R L W e1 e2 e3 e4 e5
      have := h.st P x hx
      simp [fBody, fWg, fRel, fBlocked, fWoken] at e1 e2 e3 e4 e5
      subst e1 e2 e3 e4 e5
      exact this
  | hWait ht hx hv =>
    refine inv_goto h ht (by simp) ?_ (by simp) ?_
    · simp [GPc.proc]
    · intro P x hx B G R L W e1 e2 e3 e4 e5
      have := h.st P x hx
      simp [fBody, fWg, fRel, fBlocked, fWoken] at e1 e2 e3 e4 e5
      subst e1 e2 e3 e4 e5
      exact this
  | hHeld ht hx hv =>
    refine inv_upd h ht hx rfl (.inl rfl) (by simp) (.inr (rel_none h ht hx hv)) ?_
    intro B G R L W hi e1 e2 e3 e4 e5
    simp [fBody, fWg, fRel, fBlocked, fWoken] at e1 e2 e3 e4 e5
    obtain ⟨i1, i2, i3, i4, i5, i6, i7, i8⟩ := hi
    constructor <;> grind
  | hBlocked ht hx hv =>
    refine inv_upd h ht hx rfl (.inl rfl) (by simp) (.inl rfl) ?_
    intro B G R L W hi e1 e2 e3 e4 e5
    simp [fBody, fWg, fRel, fBlocked, fWoken] at e1 e2 e3 e4 e5
    obtain ⟨i1, i2, i3, i4, i5, i6, i7, i8⟩ := hi
    constructor <;> grind
  | @hWoken n p x ht hx hv hw =>
    refine inv_goto h ht (by simp) (by simp [GPc.proc]) (by simp) ?_
    intro P y hy B G R L W e1 e2 e3 e4 e5
    have hi := h.st P y hy
    simp [fBody, fWg, fRel, fBlocked, fWoken] at e1 e2 e3 e4 e5
    subst e1 e2 e3 e4
    by_cases hP : P = p
    · subst hP
      rw [hx] at hy; cases hy
      obtain ⟨i1, i2, i3, i4, i5, i6, i7, i8⟩ := hi
      constructor <;> grind
    · rw [if_neg (Ne.symm hP)] at e5
      subst e5
      exact hi
  | hWokenBad => cases hp

theorem inv_start {made : List Bytes} {ths : List (Bytes × GPc)} (hf : ∀ t ∈ ths, t.2.fresh = true) :
    Inv (fun _ => 0) (Gates.start made ths) := by
  have hn : ∀ t ∈ ths, t.2.proc = none := by
    intro t ht
    have := hf t ht
    cases h : t.2 <;> simp [h, GPc.fresh] at this <;> rfl
  have hz : ∀ f : Bytes × GPc → Bool, (∃ P, ∀ t, f t = true → t.2.proc = some P) → ths.countP f = 0 := by
    rintro f ⟨P, hP⟩
    rw [List.countP_eq_zero]
    intro t ht hft
    have := hP t hft
    rw [hn t ht] at this
    cases this
  refine ⟨?_, ?_, fun _ _ => rfl, ?_, ?_⟩
  · intro t ht p hp
    rw [hn t ht] at hp; cases hp
  · intro n p hp
    have := mapGet_zipIdx made 0 n p hp
    simp only [Gates.start, List.length_map]
    rcases Nat.lt_or_ge p made.length with h' | h'
    · exact h'
    · rw [List.getElem?_eq_none (by omega)] at this
      simp at this
  · intro P x hx
    show PInv x 0 (ths.countP _) (ths.countP _) (ths.countP _) (ths.countP _) (ths.countP _)
    rw [hz _ ⟨P, fBody_proc P⟩, hz _ ⟨P, fWg_proc P⟩, hz _ ⟨P, fRel_proc P⟩, hz _ ⟨P, fBlocked_proc P⟩,
      hz _ ⟨P, fWoken_proc P⟩]
    have hx : (made.map fun _ => ({} : Proc))[P]? = some x := hx
    rw [List.getElem?_map] at hx
    cases hm : made[P]? with
    | none => rw [hm] at hx; cases hx
    | some b =>
      rw [hm] at hx
      cases hx
      constructor <;> simp
  · intro P x _ t ht w hw
    have := hn t ht
    rw [hw] at this
    cases this

theorem panicked_stops {s s' : Gates} {sched : List Nat} (h : s.run sched = some s') (hp : s'.panicked = false) :
    s.panicked = false := by
  cases sched with
  | nil => cases h; exact hp
  | cons i is =>
    simp only [Gates.run] at h
    split at h
    · exact (step_iff.mp ‹_›).1
    · cases h

theorem inv_run {k : Nat → Nat} {s s' : Gates} {sched : List Nat} (h : Inv k s) (hr : s.run sched = some s')
    (hp : s'.panicked = false) : Inv (fun P => k P + begun P s sched) s' := by
  induction sched generalizing s k with
  | nil => cases hr; exact h
  | cons i is ih =>
    simp only [Gates.run] at hr
    split at hr
    · rename_i s1 hs
      have := ih (inv_step h (step_iff.mp hs).2 (panicked_stops hr hp)) hr
      have e : (fun P => k P + begun P s (i :: is)) = fun P => bump k s i P + begun P s1 is := by
        funext P
        simp only [begun, hs, bump]
        omega
      rw [e]
      exact this
    · cases hr

theorem inv_reach {made : List Bytes} {ths : List (Bytes × GPc)} (hf : ∀ t ∈ ths, t.2.fresh = true)
    {sched : List Nat} {s : Gates} (hr : (Gates.start made ths).run sched = some s) (hp : s.panicked = false) :
    Inv (fun P => begun P (Gates.start made ths) sched) s := by
  have := inv_run (inv_start hf) hr hp
  simpa using this

theorem canPass_step {s s' : Gates} {i j : Nat} (hs : s.step j = some s') (h : CanPass s' i) : CanPass s i := by
  obtain ⟨sched, t, n, h1, h2⟩ := h
  exact ⟨j :: sched, t, n, by simp only [Gates.run, hs]; exact h1, h2⟩

theorem canPass_end {s s' : Gates} {i j : Nat} {n : Bytes} (hs : s.step j = some s') (h : s'.ths[i]? = some (n, .hEnd)) :
    CanPass s i :=
  canPass_step hs ⟨[], s', n, rfl, h⟩

theorem goto_self {s : Gates} {i : Nat} {n m : Bytes} {pc pc' : GPc} (h : s.ths[i]? = some (m, pc)) :
    (s.goto i n pc').ths[i]? = some (n, pc') := by
  show (s.ths.set i (n, pc'))[i]? = _
  rw [List.getElem?_set_self (lt_of_getElem? h)]

theorem goto_ne {s : Gates} {i j : Nat} {n : Bytes} {pc' : GPc} (h : i ≠ j) :
    (s.goto j n pc').ths[i]? = s.ths[i]? := by
  show (s.ths.set j (n, pc'))[i]? = _
  rw [List.getElem?_set_ne (Ne.symm h)]

theorem exists_of_count {s : Gates} {f : Bytes × GPc → Bool} (h : s.ths.countP f ≠ 0) :
    ∃ (j : Nat) (t : Bytes × GPc), s.ths[j]? = some t ∧ f t = true := by
  obtain ⟨t, ht, hf⟩ := List.countP_pos_iff.mp (Nat.pos_of_ne_zero h)
  obtain ⟨j, hj⟩ := List.getElem?_of_mem ht
  exact ⟨j, t, hj, hf⟩

variable {k : Nat → Nat} {s s' : Gates}

theorem proc_of {i p : Nat} {n : Bytes} {pc : GPc} (h : Inv k s) (ht : s.ths[i]? = some (n, pc)) (hp : pc.proc = some p) :
    ∃ x, s.procs[p]? = some x :=
  ⟨_, List.getElem?_eq_getElem (h.own _ (List.mem_of_getElem? ht) p hp)⟩

theorem woken_pass {i p : Nat} {n : Bytes} (h : Inv k s) (hp : s.panicked = false) (hk : k p ≤ 1)
    (ht : s.ths[i]? = some (n, .hWoken p)) : CanPass s i := by
  obtain ⟨x, hx⟩ := proc_of h ht rfl
  have hi := h.st p x hx
  have hc : 1 ≤ s.ths.countP (fWoken p) := countP_posA ht (by simp [fWoken])
  obtain ⟨i1, i2, i3, i4, i5, i6, i7, i8⟩ := hi
  have hd : x.done = true := by
    cases hd : x.done with
    | true => rfl
    | false => have := (i1 hd).2.2.2.2.2; omega
  have hg : s.ths.countP (fWg p) + s.ths.countP (fRel p) = 0 :=
    Classical.byContradiction fun hc' => by have := (i6 hc').2; omega
  have := i3 hd
  have hv : x.v = 0 := by omega
  have hw : x.w = 0 := Classical.byContradiction fun hc' => by have := i7 hv hc'; omega
  exact canPass_end (step_iff.mpr ⟨hp, .hWoken ht hx hv hw⟩) (goto_self ht)

theorem bump_other {i : Nat} {n : Bytes} {pc : GPc} (ht : s.ths[i]? = some (n, pc)) (h : ∀ P, pc ≠ .cStart P) :
    bump k s i = k := by
  funext P
  simp [bump, ht, h P]

theorem sem_pass {i p : Nat} {n : Bytes} {x : Proc} (h : Inv k s) (hp : s.panicked = false) (hk : k p ≤ 1)
    (ht : s.ths[i]? = some (n, .hBlocked p)) (hx : s.procs[p]? = some x) (hs : x.sem ≠ 0) : CanPass s i := by
  have hst := step_iff.mpr ⟨hp, GStep.hBlocked ht hx hs⟩
  have hi := inv_step h (.hBlocked ht hx hs) hp
  rw [bump_other ht (by simp)] at hi
  exact canPass_step hst (woken_pass hi hp hk (goto_self (s := s.upd p _) ht))

theorem rel_pass {i j p w : Nat} {n m : Bytes} (h : Inv k s) (hp : s.panicked = false) (hk : k p ≤ 1)
    (ht : s.ths[i]? = some (n, .hBlocked p)) (hj : s.ths[j]? = some (m, .cRelease p w)) : CanPass s i := by
  obtain ⟨x, hx⟩ := proc_of h ht rfl
  have hne : i ≠ j := fun e => by rw [e, hj] at ht; simp at ht
  have hw := h.rel p x hx _ (List.mem_of_getElem? hj) w rfl
  have hc : 1 ≤ s.ths.countP (fRel p) := countP_posA hj (by simp [fRel])
  have hr := (h.st p x hx).rel (by omega)
  have hst := step_iff.mpr ⟨hp, GStep.cRel hj hx hr.1 hw.symm⟩
  have hi := inv_step h (.cRel hj hx hr.1 hw.symm) hp
  rw [bump_other hj (by simp)] at hi
  refine canPass_step hst (sem_pass hi hp hk (by rw [goto_ne hne]; exact ht)
    (by show (s.procs.set p _)[p]? = _; rw [List.getElem?_set_self (lt_of_getElem? hx)]) ?_)
  dsimp only
  omega

theorem wg_pass {i j p : Nat} {n m : Bytes} (h : Inv k s) (hp : s.panicked = false) (hk : k p ≤ 1)
    (ht : s.ths[i]? = some (n, .hBlocked p)) (hj : s.ths[j]? = some (m, .cWgDone p)) : CanPass s i := by
  obtain ⟨x, hx⟩ := proc_of h ht rfl
  have hne : i ≠ j := fun e => by rw [e, hj] at ht; simp at ht
  have hc : 1 ≤ s.ths.countP (fWg p) := countP_posA hj (by simp [fWg])
  have hL : 1 ≤ s.ths.countP (fBlocked p) := countP_posA ht (by simp [fBlocked])
  obtain ⟨i1, i2, i3, i4, i5, i6, i7, i8⟩ := h.st p x hx
  have hd : x.done = true := by
    cases hd : x.done with
    | true => rfl
    | false => have := (i1 hd).2.1; omega
  have h3 := i3 hd
  have h6 := (i6 (by omega)).1
  have hw : x.w ≠ 0 := by omega
  have h8 := i8 hd
  have hv : x.v = 1 := by omega
  have hst := step_iff.mpr ⟨hp, GStep.cWgRel hj hx hv hw⟩
  have hi := inv_step h (.cWgRel hj hx hv hw) hp
  rw [bump_other hj (by simp)] at hi
  exact canPass_step hst (rel_pass hi hp hk (by rw [goto_ne hne]; exact ht) (goto_self (s := s.upd p _) hj))

theorem body_step {j p : Nat} {m : Bytes} {x : Proc} (h : Inv k s) (hp : s.panicked = false)
    (hj : s.ths[j]? = some (m, .cBody p)) (hx : s.procs[p]? = some x) (hd : x.done = false) :
    ∃ s1, s.step j = some s1 ∧ Inv k s1 ∧ s1.panicked = false ∧ s1.ths[j]? = some (m, .cWgDone p) ∧
      (∀ i, i ≠ j → s1.ths[i]? = s.ths[i]?) ∧ s1.procs[p]? = some { x with done := true } := by
  have hi := inv_step h (.cBody hj hx hd) hp
  rw [bump_other hj (by simp)] at hi
  exact ⟨_, step_iff.mpr ⟨hp, GStep.cBody hj hx hd⟩, hi, hp, goto_self (s := s.upd p _) hj, fun i hne => goto_ne hne,
    by show (s.procs.set p _)[p]? = _; rw [List.getElem?_set_self (lt_of_getElem? hx)]⟩

theorem blocked_pass {i p : Nat} {n : Bytes} (h : Inv k s) (hp : s.panicked = false) (hk : k p ≤ 1)
    (ht : s.ths[i]? = some (n, .hBlocked p)) : CanPass s i := by
  obtain ⟨x, hx⟩ := proc_of h ht rfl
  have hL : 1 ≤ s.ths.countP (fBlocked p) := countP_posA ht (by simp [fBlocked])
  obtain ⟨i1, i2, i3, i4, i5, i6, i7, i8⟩ := h.st p x hx
  cases hd : x.done with
  | false =>
    obtain ⟨a1, a2, a3, a4, a5, a6⟩ := i1 hd
    have hw : x.w ≠ 0 := by omega
    have hB : s.ths.countP (fBody p) ≠ 0 := fun hz => by
      have := i7 (by omega) hw
      omega
    obtain ⟨j, ⟨m, pc⟩, hj, hf⟩ := exists_of_count hB
    simp [fBody] at hf
    subst hf
    have hne : i ≠ j := fun e => by rw [e, hj] at ht; simp at ht
    obtain ⟨s1, b1, b2, b3, b4, b5, b6⟩ := body_step h hp hj hx hd
    exact canPass_step b1 (wg_pass b2 b3 hk (by rw [b5 i hne]; exact ht) b4)
  | true =>
    have h3 := i3 hd
    by_cases hG : s.ths.countP (fWg p) = 0
    · by_cases hR : s.ths.countP (fRel p) = 0
      · have hv : x.v = 0 := by omega
        have hw : x.w = 0 := Classical.byContradiction fun hc => i7 hv hc hR
        exact sem_pass h hp hk ht hx (by omega)
      · obtain ⟨j, ⟨m, pc⟩, hj, hf⟩ := exists_of_count hR
        cases pc <;> simp [fRel] at hf
        subst hf
        exact rel_pass h hp hk ht hj
    · obtain ⟨j, ⟨m, pc⟩, hj, hf⟩ := exists_of_count hG
      simp [fWg] at hf
      subst hf
      exact wg_pass h hp hk ht hj

theorem wait_wg {i j p : Nat} {n m : Bytes} (h : Inv k s) (hp : s.panicked = false) (hk : k p ≤ 1)
    (ht : s.ths[i]? = some (n, .hWait p)) (hj : s.ths[j]? = some (m, .cWgDone p)) : CanPass s i := by
  obtain ⟨x, hx⟩ := proc_of h ht rfl
  have hne : i ≠ j := fun e => by rw [e, hj] at ht; simp at ht
  have hc : 1 ≤ s.ths.countP (fWg p) := countP_posA hj (by simp [fWg])
  obtain ⟨i1, i2, i3, i4, i5, i6, i7, i8⟩ := h.st p x hx
  have hd : x.done = true := by
    cases hd : x.done with
    | true => rfl
    | false => have := (i1 hd).2.1; omega
  have h3 := i3 hd
  have h8 := i8 hd
  have hv : x.v = 1 := by omega
  by_cases hw : x.w = 0
  · have hst := step_iff.mpr ⟨hp, GStep.cWg hj hx (by omega) (by simp [hw])⟩
    refine canPass_step hst (canPass_end (step_iff.mpr ⟨hp, GStep.hWait (x := { x with v := x.v - 1 })
      (by rw [goto_ne hne]; exact ht) (by show (s.procs.set p _)[p]? = _; rw [List.getElem?_set_self (lt_of_getElem? hx)]) ?_⟩)
      (goto_self (by rw [goto_ne hne]; exact ht)))
    dsimp only
    omega
  · have hst := step_iff.mpr ⟨hp, GStep.cWgRel hj hx hv hw⟩
    exact canPass_step hst (canPass_end (step_iff.mpr ⟨hp, GStep.hWait (x := { x with v := 0 })
      (by rw [goto_ne hne]; exact ht) (by show (s.procs.set p _)[p]? = _; rw [List.getElem?_set_self (lt_of_getElem? hx)]) rfl⟩)
      (goto_self (by rw [goto_ne hne]; exact ht)))

theorem wait_pass {i p : Nat} {n : Bytes} (h : Inv k s) (hp : s.panicked = false) (hk : k p ≤ 1)
    (ht : s.ths[i]? = some (n, .hWait p)) : CanPass s i := by
  obtain ⟨x, hx⟩ := proc_of h ht rfl
  obtain ⟨i1, i2, i3, i4, i5, i6, i7, i8⟩ := h.st p x hx
  by_cases hv : x.v = 0
  · exact canPass_end (step_iff.mpr ⟨hp, GStep.hWait ht hx hv⟩) (goto_self ht)
  cases hd : x.done with
  | false =>
    obtain ⟨a1, a2, a3, a4, a5, a6⟩ := i1 hd
    obtain ⟨j, ⟨m, pc⟩, hj, hf⟩ := exists_of_count (s := s) (f := fBody p) (by omega)
    simp [fBody] at hf
    subst hf
    have hne : i ≠ j := fun e => by rw [e, hj] at ht; simp at ht
    obtain ⟨s1, b1, b2, b3, b4, b5, b6⟩ := body_step h hp hj hx hd
    exact canPass_step b1 (wait_wg b2 b3 hk (by rw [b5 i hne]; exact ht) b4)
  | true =>
    have h3 := i3 hd
    obtain ⟨j, ⟨m, pc⟩, hj, hf⟩ := exists_of_count (s := s) (f := fWg p) (by omega)
    simp [fWg] at hf
    subst hf
    exact wait_wg h hp hk ht hj

theorem load_pass {i p : Nat} {n : Bytes} (h : Inv k s) (hp : s.panicked = false)
    (ht : s.ths[i]? = some (n, .hLoad p)) : CanPass s i := by
  obtain ⟨x, hx⟩ := proc_of h ht rfl
  obtain ⟨i1, i2, i3, i4, i5, i6, i7, i8⟩ := h.st p x hx
  cases hd : x.done with
  | true => exact canPass_end (step_iff.mpr ⟨hp, GStep.hLoad ht hx hd⟩) (goto_self ht)
  | false =>
    obtain ⟨a1, a2, a3, a4, a5, a6⟩ := i1 hd
    by_cases hv : x.v = 0
    · exact canPass_step (step_iff.mpr ⟨hp, GStep.hLoadOpen ht hx hd⟩)
        (canPass_end (step_iff.mpr ⟨hp, GStep.hWait (goto_self ht) hx hv⟩) (goto_self (goto_self (n := n) ht)))
    · obtain ⟨j, ⟨m, pc⟩, hj, hf⟩ := exists_of_count (s := s) (f := fBody p) (by omega)
      simp [fBody] at hf
      subst hf
      have hne : i ≠ j := fun e => by rw [e, hj] at ht; simp at ht
      obtain ⟨s1, b1, b2, b3, b4, b5, b6⟩ := body_step h hp hj hx hd
      have ht1 : s1.ths[i]? = some (n, .hLoad p) := by rw [b5 i hne]; exact ht
      exact canPass_step b1 (canPass_end (step_iff.mpr ⟨b3, GStep.hLoad ht1 b6 rfl⟩) (goto_self ht1))

theorem create_pass {i : Nat} {n : Bytes} (h : Inv k s) (hp : s.panicked = false)
    (ht : s.ths[i]? = some (n, .hCreate)) : CanPass s i := by
  have hi := inv_step h (.hCreate ht) hp
  exact canPass_step (step_iff.mpr ⟨hp, GStep.hCreate ht⟩) (load_pass hi hp (goto_self (s := s.create n) ht))

theorem get_pass {i : Nat} {n : Bytes} (h : Inv k s) (hp : s.panicked = false)
    (ht : s.ths[i]? = some (n, .hGet)) : CanPass s i := by
  cases he : mapGet s.entries n with
  | some p =>
    exact canPass_step (step_iff.mpr ⟨hp, GStep.hGet ht he⟩) (load_pass (inv_step h (.hGet ht he) hp) hp (goto_self ht))
  | none =>
    exact canPass_step (step_iff.mpr ⟨hp, GStep.hMiss ht he⟩)
      (create_pass (inv_step h (.hMiss ht he) hp) hp (goto_self ht))

/-- at the gate of process `p`, behind the look at its flag -/
def At (p : Nat) (pc : GPc) : Prop := pc = .hWait p ∨ pc = .hBlocked p ∨ pc = .hWoken p

theorem jam_v {p : Nat} {x : Proc} (h : Inv k s) (hk : 2 ≤ k p) (hx : s.procs[p]? = some x) : x.v ≠ 0 := by
  obtain ⟨i1, i2, i3, i4, i5, i6, i7, i8⟩ := h.st p x hx
  cases hd : x.done with
  | false => have := i1 hd; omega
  | true => have := i3 hd; omega

theorem step_ne {i j : Nat} (hs : GStep s j s') (hne : i ≠ j) : s'.panicked = true ∨ s'.ths[i]? = s.ths[i]? := by
  cases hs
  all_goals first
    | exact .inl rfl
    | exact .inr (goto_ne hne)

theorem jam_step {i j p : Nat} {n : Bytes} {pc : GPc} (h : Inv k s) (hk : 2 ≤ k p) (ht : s.ths[i]? = some (n, pc))
    (hpc : At p pc) (hs : s.step j = some s') : s'.panicked = true ∨ ∃ pc', s'.ths[i]? = some (n, pc') ∧ At p pc' := by
  obtain ⟨hp, hg⟩ := step_iff.mp hs
  by_cases hne : i = j
  · subst hne
    have hpr : pc.proc = some p := by rcases hpc with rfl | rfl | rfl <;> rfl
    obtain ⟨x, hx⟩ := proc_of h ht hpr
    have hv := jam_v h hk hx
    rcases hpc with rfl | rfl | rfl
    · have := step_iff.mpr ⟨hp, GStep.hHeld ht hx hv⟩
      rw [hs] at this
      cases this
      exact .inr ⟨_, goto_self (s := s.upd p _) ht, .inr (.inl rfl)⟩
    · by_cases hsem : x.sem = 0
      · exfalso
        unfold Gates.step at hs
        rw [if_neg (by simp [hp]), ht] at hs
        simp [hx, hsem] at hs
      · have := step_iff.mpr ⟨hp, GStep.hBlocked ht hx hsem⟩
        rw [hs] at this
        cases this
        exact .inr ⟨_, goto_self (s := s.upd p _) ht, .inr (.inr rfl)⟩
    · have := step_iff.mpr ⟨hp, GStep.hWokenBad ht hx (.inl hv)⟩
      rw [hs] at this
      cases this
      exact .inl rfl
  · rcases step_ne hg hne with h1 | h1
    · exact .inl h1
    · exact .inr ⟨pc, by rw [h1]; exact ht, hpc⟩

theorem bump_le (k : Nat → Nat) (s : Gates) (i P : Nat) : k P ≤ bump k s i P := Nat.le_add_right _ _

theorem panicked_run {sched : List Nat} (h : s.panicked = true) (hr : s.run sched = some s') : s' = s := by
  cases sched with
  | nil => cases hr; rfl
  | cons i is =>
    simp only [Gates.run] at hr
    split at hr
    · have := (step_iff.mp ‹_›).1
      rw [h] at this; cases this
    · cases hr

/-- a gate that two Connects have begun on lets nobody through any more -/
theorem jammed {i p : Nat} {n : Bytes} {pc : GPc} {sched : List Nat} (h : Inv k s) (hk : 2 ≤ k p)
    (ht : s.ths[i]? = some (n, pc)) (hpc : At p pc) (hr : s.run sched = some s') :
    ∃ pc', s'.ths[i]? = some (n, pc') ∧ At p pc' := by
  induction sched generalizing s k pc with
  | nil => cases hr; exact ⟨pc, ht, hpc⟩
  | cons j is ih =>
    have hr0 := hr
    simp only [Gates.run] at hr
    split at hr
    · rename_i s1 hs
      cases hpk : s1.panicked with
      | true =>
        have : s' = s1 := panicked_run hpk hr
        subst this
        obtain ⟨hp, hg⟩ := step_iff.mp hs
        have he : s'.ths = s.ths := by
          cases hg
          all_goals first
            | rfl
            | (have hpk : s.panicked = true := hpk; rw [hp] at hpk; cases hpk)
        exact ⟨pc, by rw [he]; exact ht, hpc⟩
      | false =>
        rcases jam_step h hk ht hpc hs with h1 | ⟨pc', h1, h2⟩
        · rw [hpk] at h1; cases h1
        · exact ih (inv_step h (step_iff.mp hs).2 hpk) (Nat.le_trans hk (bump_le _ _ _ _)) h1 h2 hr
    · cases hr


end Neffos.GateExact

namespace Neffos
open Spec GateExact

variable {made : List Bytes} {ths : List (Bytes × GPc)} {sched : List Nat} {s s' : Gates}

/-- C102: a goroutine that brings an event can still get past the gate exactly if it has not yet looked at the flag of
the gate, or at most one Connect has ever begun on that gate. A second Connect jams it for ever. -/
theorem c102_pass (hf : ∀ t ∈ ths, t.2.fresh = true) (hr : (Gates.start made ths).run sched = some s)
    (hp : s.panicked = false) {i : Nat} {n : Bytes} {pc : GPc} (ht : s.ths[i]? = some (n, pc))
    (hc : pc.isConn = false) :
    CanPass s i ↔ pc = .hEnd ∨ pc = .hGet ∨ pc = .hCreate ∨ (∃ p, pc = .hLoad p) ∨
      ∃ p, (pc = .hWait p ∨ pc = .hBlocked p ∨ pc = .hWoken p) ∧ begun p (Gates.start made ths) sched ≤ 1 := by
  have h := inv_reach hf hr hp
  have key : ∀ p, At p pc → (CanPass s i ↔ begun p (Gates.start made ths) sched ≤ 1) := by
    intro p hat
    constructor
    · rintro ⟨sc, t, m, h1, h2⟩
      rcases Nat.lt_or_ge 1 (begun p (Gates.start made ths) sched) with hk | hk
      · obtain ⟨pc', h3, h4⟩ := jammed h hk ht hat h1
        rw [h2] at h3
        simp only [Option.some.injEq, Prod.mk.injEq] at h3
        rw [← h3.2] at h4
        rcases h4 with h4 | h4 | h4 <;> cases h4
      · exact hk
    · intro hk
      rcases hat with rfl | rfl | rfl
      · exact wait_pass h hp hk ht
      · exact blocked_pass h hp hk ht
      · exact woken_pass h hp hk ht
  cases pc with
  | hGet => simp [get_pass h hp ht]
  | hCreate => simp [create_pass h hp ht]
  | hLoad p => simp [load_pass h hp ht]
  | hEnd => simp; exact ⟨[], s, n, rfl, ht⟩
  | hWait p => rw [key p (.inl rfl)]; simp
  | hBlocked p => rw [key p (.inr (.inl rfl))]; simp
  | hWoken p => rw [key p (.inr (.inr rfl))]; simp
  | _ => simp [GPc.isConn] at hc

/-- C102: a step makes the WaitGroup panic exactly in two cases: a Connect begins while another one, in its Done, is
waking the waiters up; or a woken waiter finds that a second Connect has begun. -/
theorem c102_panic (hf : ∀ t ∈ ths, t.2.fresh = true) (hr : (Gates.start made ths).run sched = some s) {i : Nat}
    (hs : s.step i = some s') :
    s'.panicked = true ↔
      (∃ n p, s.ths[i]? = some (n, .cStart p) ∧ ∃ (j : Nat) (m : Bytes) (w : Nat), s.ths[j]? = some (m, .cRelease p w)) ∨
      (∃ n p, s.ths[i]? = some (n, .hWoken p) ∧ 2 ≤ begun p (Gates.start made ths) sched) := by
  obtain ⟨hp, hg⟩ := step_iff.mp hs
  have h := inv_reach hf hr hp
  constructor
  · intro hk
    have no : s.panicked = true → False := fun h => by rw [hp] at h; cases h
    cases hg with
    | @cStartBad n p x ht hx hw hv =>
      obtain ⟨j, ⟨m, pc⟩, hj, hfr⟩ := exists_of_count ((h.st p x hx).idle hv hw)
      cases pc <;> simp [fRel] at hfr
      subst hfr
      exact .inl ⟨n, _, ht, j, m, _, hj⟩
    | @cWgBad n p x ht hx hv =>
      have hc : 1 ≤ s.ths.countP (fWg p) := countP_posA ht (by simp [fWg])
      obtain ⟨i1, i2, i3, i4, i5, i6, i7, i8⟩ := h.st p x hx
      cases hd : x.done with
      | false => have := (i1 hd).2.1; omega
      | true => have := i3 hd; have := i8 hd; omega
    | @cRelBad n p w x ht hx hb =>
      have hc : 1 ≤ s.ths.countP (fRel p) := countP_posA ht (by simp [fRel])
      have h1 := (h.st p x hx).rel (by omega)
      have h2 := h.rel p x hx _ (List.mem_of_getElem? ht) w rfl
      rcases hb with hb | hb
      · exact absurd h1.1 hb
      · exact absurd h2.symm hb
    | @hWokenBad n p x ht hx hb =>
      refine .inr ⟨n, p, ht, ?_⟩
      have hc : 1 ≤ s.ths.countP (fWoken p) := countP_posA ht (by simp [fWoken])
      obtain ⟨i1, i2, i3, i4, i5, i6, i7, i8⟩ := h.st p x hx
      have hgr : s.ths.countP (fWg p) + s.ths.countP (fRel p) = 0 :=
        Classical.byContradiction fun hc' => by have := (i6 hc').2; omega
      have hd : x.done = true := by
        cases hd : x.done with
        | true => rfl
        | false => have := (i1 hd).2.2.2.2.2; omega
      have h3 := i3 hd
      have hv : x.v ≠ 0 := fun hv => by
        rcases hb with hb | hb
        · exact hb hv
        · have := i7 hv hb; omega
      omega
    | _ => exact absurd hk (fun h => no h)
  · rintro (⟨n, p, ht, j, m, w, hj⟩ | ⟨n, p, ht, hk⟩)
    · obtain ⟨x, hx⟩ := proc_of h ht rfl
      have hc : 1 ≤ s.ths.countP (fRel p) := countP_posA hj (by simp [fRel])
      have h1 := (h.st p x hx).rel (by omega)
      have := step_iff.mpr ⟨hp, GStep.cStartBad ht hx h1.2 h1.1⟩
      rw [hs] at this
      cases this
      rfl
    · obtain ⟨x, hx⟩ := proc_of h ht rfl
      have := step_iff.mpr ⟨hp, GStep.hWokenBad ht hx (.inl (jam_v h hk hx))⟩
      rw [hs] at this
      cases this
      rfl

theorem begun_append (p : Nat) {s0 s1 : Gates} {a b : List Nat} (h : s0.run a = some s1) :
    begun p s0 (a ++ b) = begun p s0 a + begun p s1 b := by
  induction a generalizing s0 with
  | nil => cases h; simp [begun]
  | cons i is ih =>
    simp only [Gates.run] at h
    split at h
    · rename_i t ht
      simp only [List.cons_append, begun, ht, ih h, Nat.add_assoc]
    · cases h

/-- the last step of a schedule that ends in a panic -/
theorem panic_last {s0 s1 : Gates} {a : List Nat} (h : s0.run a = some s1) (h0 : s0.panicked = false)
    (h1 : s1.panicked = true) : ∃ (b : List Nat) (i : Nat) (t : Gates), a = b ++ [i] ∧ s0.run b = some t ∧ t.step i = some s1 := by
  induction a generalizing s0 with
  | nil => cases h; rw [h0] at h1; cases h1
  | cons j js ih =>
    simp only [Gates.run] at h
    split at h
    · rename_i u hu
      cases hup : u.panicked with
      | true =>
        have := panicked_run hup h
        subst this
        cases js with
        | nil => exact ⟨[], j, s0, rfl, rfl, hu⟩
        | cons l ls =>
          simp only [Gates.run] at h
          split at h
          · have := (step_iff.mp ‹_›).1
            rw [hup] at this; cases this
          · cases h
      | false =>
        obtain ⟨b, i, t, e1, e2, e3⟩ := ih h hup
        exact ⟨j :: b, i, t, by rw [e1]; rfl, by simp only [Gates.run, hu]; exact e2, e3⟩
    · cases h

/-- C102: if no gate has been begun on twice, nothing has panicked. -/
theorem c102_calm (hf : ∀ t ∈ ths, t.2.fresh = true) (hr : (Gates.start made ths).run sched = some s)
    (hb : ∀ p, begun p (Gates.start made ths) sched ≤ 1) : s.panicked = false := by
  cases hp : s.panicked with
  | false => rfl
  | true =>
    exfalso
    obtain ⟨b, i, t, e1, e2, e3⟩ := panic_last hr rfl hp
    obtain ⟨htp, _⟩ := step_iff.mp e3
    have h := inv_reach hf e2 htp
    rcases (c102_panic hf e2 e3).mp hp with ⟨n, p, ht, j, m, w, hj⟩ | ⟨n, p, ht, hk⟩
    · obtain ⟨x, hx⟩ := proc_of h ht rfl
      have hc : 1 ≤ t.ths.countP (fRel p) := countP_posA hj (by simp [fRel])
      obtain ⟨i1, i2, i3, i4, i5, i6, i7, i8⟩ := h.st p x hx
      have hd : x.done = true := by
        cases hd : x.done with
        | true => rfl
        | false => have := (i1 hd).2.2.1; omega
      have h8 := i8 hd
      have := hb p
      rw [e1, begun_append p e2] at this
      simp only [begun, ht, Option.map_some, if_true] at this
      omega
    · have := hb p
      rw [e1, begun_append p e2] at this
      omega

/-- C102: a Connect is never blocked by the gate. -/
theorem c102_connect (hf : ∀ t ∈ ths, t.2.fresh = true) (hr : (Gates.start made ths).run sched = some s)
    (hp : s.panicked = false) {i : Nat} {n : Bytes} {pc : GPc} (ht : s.ths[i]? = some (n, pc)) (hc : pc.isConn = true)
    (he : pc ≠ .cEnd) : s.step i ≠ none := by
  have h := inv_reach hf hr hp
  have ok : ∀ {t : Gates}, GStep s i t → s.step i ≠ none := fun hg => by rw [step_iff.mpr ⟨hp, hg⟩]; simp
  cases pc with
  | cGet =>
    cases hm : mapGet s.entries n with
    | some p => exact ok (.cGet ht hm)
    | none => exact ok (.cMiss ht hm)
  | cCreate => exact ok (.cCreate ht)
  | cStart p =>
    obtain ⟨x, hx⟩ := proc_of h ht rfl
    by_cases hb : x.w = 0 ∨ x.v ≠ 0
    · exact ok (.cStart ht hx hb)
    · exact ok (.cStartBad ht hx (by omega) (by omega))
  | cBody p =>
    obtain ⟨x, hx⟩ := proc_of h ht rfl
    cases hd : x.done with
    | true => exact ok (.cBodyLate ht hx hd)
    | false => exact ok (.cBody ht hx hd)
  | cWgDone p =>
    obtain ⟨x, hx⟩ := proc_of h ht rfl
    by_cases h0 : x.v = 0
    · exact ok (.cWgBad ht hx h0)
    · by_cases h1 : x.v = 1 ∧ x.w ≠ 0
      · exact ok (.cWgRel ht hx h1.1 h1.2)
      · exact ok (.cWg ht hx h0 h1)
  | cRelease p w =>
    obtain ⟨x, hx⟩ := proc_of h ht rfl
    by_cases hb : x.v ≠ 0 ∨ x.w ≠ w
    · exact ok (.cRelBad ht hx hb)
    · exact ok (.cRel ht hx (by omega) (by omega))
  | cEnd => exact absurd rfl he
  | _ => simp [GPc.isConn] at hc

/-- C102: when nothing can go on, every Connect has returned, and every event has passed the gate except those that
wait at a gate on which at least two Connects have begun. -/
theorem c102_rest (hf : ∀ t ∈ ths, t.2.fresh = true) (hr : (Gates.start made ths).run sched = some s)
    (ha : AtRest s) {i : Nat} {n : Bytes} {pc : GPc} (ht : s.ths[i]? = some (n, pc)) :
    pc = .cEnd ∨ pc = .hEnd ∨ ∃ p, pc = .hBlocked p ∧ 2 ≤ begun p (Gates.start made ths) sched := by
  obtain ⟨hp, hst⟩ := ha
  have h := inv_reach hf hr hp
  cases hc : pc.isConn with
  | true =>
    by_cases he : pc = .cEnd
    · exact .inl he
    · exact absurd (hst i) (c102_connect hf hr hp ht hc he)
  | false =>
    have no : ¬ CanPass s i ∨ pc = .hEnd := by
      by_cases he : pc = .hEnd
      · exact .inr he
      · refine .inl ?_
        rintro ⟨sc, t, m, h1, h2⟩
        cases sc with
        | nil =>
          cases h1
          rw [ht] at h2
          simp only [Option.some.injEq, Prod.mk.injEq] at h2
          exact he h2.2
        | cons j js =>
          simp only [Gates.run, hst j] at h1
          cases h1
    rcases no with no | no
    · rw [c102_pass hf hr hp ht hc] at no
      have hk : ∀ p, At p pc → 2 ≤ begun p (Gates.start made ths) sched := fun p hat =>
        Classical.byContradiction fun hk => no (.inr (.inr (.inr (.inr ⟨p, hat, by omega⟩))))
      cases pc with
      | hBlocked p => exact .inr (.inr ⟨p, rfl, hk p (.inr (.inl rfl))⟩)
      | hWait p =>
        obtain ⟨x, hx⟩ := proc_of h ht rfl
        have := step_iff.mpr ⟨hp, GStep.hHeld ht hx (jam_v h (hk p (.inl rfl)) hx)⟩
        rw [hst i] at this
        cases this
      | hWoken p =>
        obtain ⟨x, hx⟩ := proc_of h ht rfl
        have := step_iff.mpr ⟨hp, GStep.hWokenBad ht hx (.inl (jam_v h (hk p (.inr (.inr rfl))) hx))⟩
        rw [hst i] at this
        cases this
      | _ => first | (simp at no; done) | simp [GPc.isConn] at hc
    · exact .inr (.inl no)

/-- C102: an event that looks at the gate goes on at once exactly if one of the Connects that began on it has called
Done. -/
theorem c102_look (hf : ∀ t ∈ ths, t.2.fresh = true) (hr : (Gates.start made ths).run sched = some s) {i p : Nat}
    {n : Bytes} (ht : s.ths[i]? = some (n, .hLoad p)) (hs : s.step i = some s') :
    s'.ths[i]? = some (n, if inside p s < begun p (Gates.start made ths) sched then .hEnd else .hWait p) := by
  obtain ⟨hp, hg⟩ := step_iff.mp hs
  have h := inv_reach hf hr hp
  obtain ⟨x, hx⟩ := proc_of h ht rfl
  obtain ⟨i1, i2, i3, i4, i5, i6, i7, i8⟩ := h.st p x hx
  have hin : inside p s = s.ths.countP (fBody p) := rfl
  cases hd : x.done with
  | true =>
    have h8 := i8 hd
    have := step_iff.mpr ⟨hp, GStep.hLoad ht hx hd⟩
    rw [hs] at this
    cases this
    rw [if_pos (by omega)]
    exact goto_self ht
  | false =>
    have h1 := i1 hd
    have := step_iff.mpr ⟨hp, GStep.hLoadOpen ht hx hd⟩
    rw [hs] at this
    cases this
    rw [if_neg (by omega)]
    exact goto_self ht

/-- C102: an event that found none goes on exactly if at most one Connect has begun on the gate and none is inside or
before the Done of the WaitGroup; otherwise it is held. -/
theorem c102_held (hf : ∀ t ∈ ths, t.2.fresh = true) (hr : (Gates.start made ths).run sched = some s) {i p : Nat}
    {n : Bytes} (ht : s.ths[i]? = some (n, .hWait p)) (hs : s.step i = some s') :
    (begun p (Gates.start made ths) sched ≤ 1 ∧ (∀ t ∈ s.ths, t.2 ≠ .cBody p ∧ t.2 ≠ .cWgDone p) →
      s'.ths[i]? = some (n, .hEnd)) ∧
    (¬ (begun p (Gates.start made ths) sched ≤ 1 ∧ ∀ t ∈ s.ths, t.2 ≠ .cBody p ∧ t.2 ≠ .cWgDone p) →
      s'.ths[i]? = some (n, .hBlocked p)) := by
  obtain ⟨hp, hg⟩ := step_iff.mp hs
  have h := inv_reach hf hr hp
  obtain ⟨x, hx⟩ := proc_of h ht rfl
  obtain ⟨i1, i2, i3, i4, i5, i6, i7, i8⟩ := h.st p x hx
  have hq : (∀ t ∈ s.ths, t.2 ≠ .cBody p ∧ t.2 ≠ .cWgDone p) ↔
      s.ths.countP (fBody p) = 0 ∧ s.ths.countP (fWg p) = 0 := by
    rw [List.countP_eq_zero, List.countP_eq_zero]
    simp only [fBody, fWg, decide_eq_true_eq]
    exact ⟨fun h => ⟨fun t ht => (h t ht).1, fun t ht => (h t ht).2⟩, fun h t ht => ⟨h.1 t ht, h.2 t ht⟩⟩
  have hv : x.v = 0 ↔ (begun p (Gates.start made ths) sched ≤ 1 ∧ ∀ t ∈ s.ths, t.2 ≠ .cBody p ∧ t.2 ≠ .cWgDone p) := by
    rw [hq]
    cases hd : x.done with
    | false => have := i1 hd; omega
    | true => have := i3 hd; have := i8 hd; omega
  rw [← hv]
  constructor
  · intro hv0
    have := step_iff.mpr ⟨hp, GStep.hWait ht hx hv0⟩
    rw [hs] at this
    cases this
    exact goto_self ht
  · intro hv0
    have := step_iff.mpr ⟨hp, GStep.hHeld ht hx hv0⟩
    rw [hs] at this
    cases this
    exact goto_self (s := s.upd p _) ht

/-! ## The hypotheses hold -/

/-- two Connects and two events of one namespace -/
def fourGo (ns : Bytes) : List (Bytes × GPc) := [(ns, .cGet), (ns, .cGet), (ns, .hGet), (ns, .hGet)]

/-- an event held by one Connect can pass; after the second Connect has begun it cannot -/
example : ∃ s1 s2, (∀ t ∈ fourGo (b! "a"), t.2.fresh = true) ∧
    (Gates.start [b! "a"] (fourGo (b! "a"))).run [0, 0, 2, 2, 2] = some s1 ∧ s1.panicked = false ∧
    s1.ths[2]? = some (b! "a", .hBlocked 0) ∧ begun 0 (Gates.start [b! "a"] (fourGo (b! "a"))) [0, 0, 2, 2, 2] = 1 ∧
    (Gates.start [b! "a"] (fourGo (b! "a"))).run [0, 0, 2, 2, 2, 1, 1] = some s2 ∧ s2.panicked = false ∧
    s2.ths[2]? = some (b! "a", .hBlocked 0) ∧
    begun 0 (Gates.start [b! "a"] (fourGo (b! "a"))) [0, 0, 2, 2, 2, 1, 1] = 2 :=
  ⟨_, _, by decide, rfl, rfl, rfl, by decide +kernel, rfl, rfl, rfl, by decide +kernel⟩

/-- at rest with an event that waits for ever -/
example : ∃ s, (Gates.start [b! "a"] [(b! "a", .cGet), (b! "a", .cGet), (b! "a", .hGet)]).run
      [0, 0, 1, 1, 2, 2, 2, 0, 0, 1] = some s ∧ AtRest s ∧ s.ths[2]? = some (b! "a", .hBlocked 0) := by
  refine ⟨_, rfl, ⟨rfl, fun i => ?_⟩, rfl⟩
  match i with
  | 0 | 1 | 2 => rfl
  | _ + 3 => rfl

/-- both panics happen -/
example : ((Gates.start [b! "a"] (fourGo (b! "a"))).run [0, 0, 2, 2, 2, 0, 0, 1, 1]).map Gates.panicked = some true ∧
    ((Gates.start [b! "a"] (fourGo (b! "a"))).run [0, 0, 2, 2, 2, 0, 0, 0, 1, 1, 2, 2]).map Gates.panicked = some true := by
  decide +kernel

end Neffos
