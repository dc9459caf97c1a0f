import Verif.Model.Process
import Verif.Proofs.ConnPrim
/-!
# The connect gate (C32)
-/
set_option autoImplicit false
namespace Neffos

theorem countP_updA {α : Type} (p : α → Bool) {l : List α} {i : Nat} {x : α} (h : l[i]? = some x) (y : α) :
    (l.set i y).countP p + (if p x then 1 else 0) = l.countP p + (if p y then 1 else 0) := by
  induction l generalizing i with
  | nil => simp at h
  | cons a l ih =>
    cases i with
    | zero =>
      simp only [List.getElem?_cons_zero, Option.some.injEq] at h
      subst h
      simp only [List.set_cons_zero, List.countP_cons]
      omega
    | succ i =>
      simp only [List.getElem?_cons_succ] at h
      simp only [List.set_cons_succ, List.countP_cons]
      have := ih h
      omega

theorem countP_posA {α : Type} {p : α → Bool} {l : List α} {i : Nat} {x : α} (h : l[i]? = some x)
    (hp : p x = true) : 1 ≤ l.countP p :=
  List.countP_pos_iff.2 ⟨x, List.mem_of_getElem? h, hp⟩

/-- every state that some schedule reaches -/
def GatesReach (made : List Bytes) (ths : List (Bytes × GPc)) (s : Gates) : Prop :=
  ∃ sched, (Gates.start made ths).run sched = some s

theorem gates_ind {P : Gates → Prop} {s s' : Gates} {sched : List Nat} (h0 : P s)
    (hs : ∀ s i s', P s → s.step i = some s' → P s') (h : s.run sched = some s') : P s' := by
  induction sched generalizing s with
  | nil => cases h; exact h0
  | cons i sched ih =>
    simp only [Gates.run] at h
    split at h
    · exact ih (hs _ _ _ h0 ‹_›) h
    · cases h

/-- a goroutine in `askConnect` -/
def GPc.isConn : GPc → Bool
  | .cGet | .cCreate | .cStart _ | .cBody _ | .cWgDone _ | .cRelease _ _ | .cEnd => true
  | _ => false

/-- the process a goroutine holds -/
def GPc.proc : GPc → Option Nat
  | .cStart p | .cBody p | .cWgDone p | .cRelease p _ => some p
  | .hLoad p | .hWait p | .hBlocked p | .hWoken p => some p
  | _ => none

def fConn (ns : Bytes) (t : Bytes × GPc) : Bool := t.1 = ns && t.2.isConn
def fBody (P : Nat) (t : Bytes × GPc) : Bool := t.2 = .cBody P
def fWg (P : Nat) (t : Bytes × GPc) : Bool := t.2 = .cWgDone P
def fRel (P : Nat) (t : Bytes × GPc) : Bool :=
  match t.2 with
  | .cRelease p _ => p = P
  | _ => false
def fEnd (ns : Bytes) (t : Bytes × GPc) : Bool := t.1 = ns && t.2 = .cEnd
def fBlocked (P : Nat) (t : Bytes × GPc) : Bool := t.2 = .hBlocked P
def fWoken (P : Nat) (t : Bytes × GPc) : Bool := t.2 = .hWoken P

/-- the gate of `ns` and the goroutines of `ns` -/
structure GInv (ns : Bytes) (P : Nat) (s : Gates) : Prop where
  ent : mapGet s.entries ns = some P
  entO : ∀ n, n ≠ ns → mapGet s.entries n ≠ some P
  own : ∀ t ∈ s.ths, t.1 = ns → t.2 ≠ .cCreate ∧ t.2 ≠ .hCreate ∧ ∀ p, t.2.proc = some p → p = P
  oth : ∀ t ∈ s.ths, t.1 ≠ ns → t.2.proc ≠ some P
  one : s.ths.countP (fConn ns) ≤ 1
  st : ∃ x, s.procs[P]? = some x ∧
    x.done.toNat = s.ths.countP (fWg P) + s.ths.countP (fRel P) + s.ths.countP (fEnd ns) ∧
    x.v = s.ths.countP (fBody P) + s.ths.countP (fWg P) ∧
    (s.ths.countP (fEnd ns) = 0 → x.sem = 0 ∧ x.w = s.ths.countP (fBlocked P) ∧
      s.ths.countP (fWoken P) = 0) ∧
    (1 ≤ s.ths.countP (fEnd ns) → x.w = 0 ∧ x.sem = s.ths.countP (fBlocked P)) ∧
    (s.ths.countP (fBody P) + s.ths.countP (fWg P) + s.ths.countP (fRel P) +
      s.ths.countP (fEnd ns) = 0 → x.w = 0) ∧
    ∀ t ∈ s.ths, ∀ w, t.2 = .cRelease P w → w = x.w

theorem lt_of_getElem? {α : Type} {l : List α} {i : Nat} {x : α} (h : l[i]? = some x) : i < l.length := by
  rcases Nat.lt_or_ge i l.length with h' | h'
  · exact h'
  · rw [List.getElem?_eq_none h'] at h; cases h

/-- a step of a goroutine of another namespace -/
theorem ginv_other {ns : Bytes} {P : Nat} {s s' : Gates} (hi : GInv ns P s) {i : Nat} {n : Bytes} {pc pc' : GPc}
    (ht : s.ths[i]? = some (n, pc)) (hn : n ≠ ns) (hth : s'.ths = s.ths.set i (n, pc'))
    (hp : s'.procs[P]? = s.procs[P]?) (hent : mapGet s'.entries ns = some P)
    (hentO : ∀ n, n ≠ ns → mapGet s'.entries n ≠ some P) (hpc : pc'.proc ≠ some P) : GInv ns P s' := by
  have hold := hi.oth _ (List.mem_of_getElem? ht) hn
  have same : ∀ f : Bytes × GPc → Bool, f (n, pc) = false → f (n, pc') = false →
      s'.ths.countP f = s.ths.countP f := by
    intro f h1 h2
    have := countP_updA f ht (n, pc')
    rw [hth]
    simp only [h1, h2] at this
    omega
  have kill : ∀ q : GPc, q.proc ≠ some P → fBody P (n, q) = false ∧ fWg P (n, q) = false ∧
      fRel P (n, q) = false ∧ fBlocked P (n, q) = false ∧ fWoken P (n, q) = false := by
    intro q hq
    cases q <;> simp_all [fBody, fWg, fRel, fBlocked, fWoken, GPc.proc]
  obtain ⟨a1, a2, a3, a4, a5⟩ := kill pc hold
  obtain ⟨b1, b2, b3, b4, b5⟩ := kill pc' hpc
  obtain ⟨x, h1, h2, h3, h4, h5, h6, h7⟩ := hi.st
  have mem : ∀ t, t ∈ s'.ths → t = (n, pc') ∨ t ∈ s.ths := by
    intro t htm
    rw [hth] at htm
    rcases List.mem_or_eq_of_mem_set htm with h | h
    · exact .inr h
    · exact .inl h
  refine ⟨hent, hentO, ?_, ?_, ?_, x, ?_⟩
  · intro t htm hx
    rcases mem t htm with rfl | h
    · exact absurd hx hn
    · exact hi.own t h hx
  · intro t htm hx
    rcases mem t htm with rfl | h
    · exact hpc
    · exact hi.oth t h hx
  · rw [same (fConn ns) (by simp [fConn, hn]) (by simp [fConn, hn])]
    exact hi.one
  · rw [hp, same _ a1 b1, same _ a2 b2, same _ a3 b3, same _ a4 b4, same _ a5 b5,
      same (fEnd ns) (by simp [fEnd, hn]) (by simp [fEnd, hn])]
    refine ⟨h1, h2, h3, h4, h5, h6, ?_⟩
    intro t htm w hw
    rcases mem t htm with rfl | h
    · simp only at hw; rw [hw] at hpc; simp [GPc.proc] at hpc
    · exact h7 t h w hw

/-- a step of a goroutine of this namespace -/
theorem ginv_own {ns : Bytes} {P : Nat} {s s' : Gates} (hi : GInv ns P s) {i : Nat} {pc pc' : GPc} {x' : Proc}
    (ht : s.ths[i]? = some (ns, pc)) (hth : s'.ths = s.ths.set i (ns, pc')) (hent : s'.entries = s.entries)
    (hx : s'.procs[P]? = some x') (hpc : pc'.proc = some P ∨ pc'.proc = none) (hc : pc' ≠ .cCreate ∧ pc' ≠ .hCreate)
    (hk : pc'.isConn = pc.isConn)
    (hst : x'.done.toNat = s'.ths.countP (fWg P) + s'.ths.countP (fRel P) + s'.ths.countP (fEnd ns) ∧
    x'.v = s'.ths.countP (fBody P) + s'.ths.countP (fWg P) ∧
    (s'.ths.countP (fEnd ns) = 0 → x'.sem = 0 ∧ x'.w = s'.ths.countP (fBlocked P) ∧
      s'.ths.countP (fWoken P) = 0) ∧
    (1 ≤ s'.ths.countP (fEnd ns) → x'.w = 0 ∧ x'.sem = s'.ths.countP (fBlocked P)) ∧
    (s'.ths.countP (fBody P) + s'.ths.countP (fWg P) + s'.ths.countP (fRel P) +
      s'.ths.countP (fEnd ns) = 0 → x'.w = 0))
    (hr : (∀ t ∈ s.ths, ∀ w, t.2 = .cRelease P w → w = x'.w) ∧ ∀ w, pc' = .cRelease P w → w = x'.w) :
    GInv ns P s' := by
  have mem : ∀ t, t ∈ s'.ths → t = (ns, pc') ∨ t ∈ s.ths := by
    intro t htm
    rw [hth] at htm
    rcases List.mem_or_eq_of_mem_set htm with h | h
    · exact .inr h
    · exact .inl h
  refine ⟨by rw [hent]; exact hi.ent, by rw [hent]; exact hi.entO, ?_, ?_, ?_, x', hx, hst.1, hst.2.1, hst.2.2.1,
    hst.2.2.2.1, hst.2.2.2.2, ?_⟩
  · intro t htm hx
    rcases mem t htm with rfl | h
    · refine ⟨hc.1, hc.2, fun p hp => ?_⟩
      rcases hpc with h | h
      · rw [h] at hp; cases hp; rfl
      · rw [h] at hp; cases hp
    · exact hi.own t h hx
  · intro t htm hx
    rcases mem t htm with rfl | h
    · exact absurd rfl hx
    · exact hi.oth t h hx
  · have := countP_updA (fConn ns) ht (ns, pc')
    have e : fConn ns (ns, pc') = fConn ns (ns, pc) := by simp [fConn, hk]
    rw [e] at this
    rw [hth]
    have := hi.one
    omega
  · intro t htm w hw
    rcases mem t htm with rfl | h
    · exact hr.2 w hw
    · exact hr.1 t h w hw

/-- at most one goroutine of `ns` is past a point of `askConnect` -/
theorem conn_sum (ns : Bytes) (P : Nat) (l : List (Bytes × GPc)) (oth : ∀ t ∈ l, t.1 ≠ ns → t.2.proc ≠ some P) :
    l.countP (fBody P) + l.countP (fWg P) + l.countP (fRel P) + l.countP (fEnd ns) ≤ l.countP (fConn ns) := by
  induction l with
  | nil => simp
  | cons t l ih =>
    have ih := ih (fun t ht => oth t (List.mem_cons_of_mem _ ht))
    have h0 := oth t (List.mem_cons_self)
    simp only [List.countP_cons]
    have : (if fBody P t then 1 else 0) + (if fWg P t then 1 else 0) + (if fRel P t then 1 else 0) +
        (if fEnd ns t then 1 else 0) ≤ (if fConn ns t then 1 else 0) := by
      obtain ⟨n, pc⟩ := t
      by_cases hn : n = ns
      · subst hn
        cases pc <;> simp [fBody, fWg, fRel, fEnd, fConn, GPc.isConn] <;> (split <;> omega)
      · have := h0 hn
        cases pc <;> simp_all [fBody, fWg, fRel, fEnd, fConn, GPc.isConn, GPc.proc]
    omega

theorem ginv_step {ns : Bytes} {P : Nat} {s s' : Gates} {i : Nat} (hi : GInv ns P s)
    (h : s.step i = some s') : GInv ns P s' ∧ (s'.panicked = true → ∃ n pc, s.ths[i]? = some (n, pc) ∧ n ≠ ns) := by
  obtain ⟨x, h1, h2, h3, h4, h5, h6, h7⟩ := hi.st
  have hP := lt_of_getElem? h1
  unfold Gates.step at h
  by_cases hp : s.panicked = true
  · rw [if_pos hp] at h; cases h
  rw [if_neg hp] at h
  have hp : s.panicked = false := by simpa using hp
  cases ht : s.ths[i]? with
  | none => rw [ht] at h; cases h
  | some t =>
    obtain ⟨n, pc⟩ := t
    rw [ht] at h
    dsimp only at h
    by_cases hn : n = ns
    · -- a goroutine of this namespace
      subst hn
      have hown := hi.own _ (List.mem_of_getElem? ht) rfl
      have hsum := conn_sum n P s.ths hi.oth
      have hone := hi.one
      have c1 := fun y => countP_updA (fBody P) ht (n, y)
      have c2 := fun y => countP_updA (fWg P) ht (n, y)
      have c3 := fun y => countP_updA (fRel P) ht (n, y)
      have c4 := fun y => countP_updA (fEnd n) ht (n, y)
      have c5 := fun y => countP_updA (fBlocked P) ht (n, y)
      have c6 := fun y => countP_updA (fWoken P) ht (n, y)
      have c7 := fun y => countP_updA (fConn n) ht (n, y)
      have fin : ∀ {s' : Gates} {pc' : GPc} {x' : Proc}, s'.ths = s.ths.set i (n, pc') → s'.entries = s.entries →
          s'.panicked = false → s'.procs[P]? = some x' → (pc'.proc = some P ∨ pc'.proc = none) →
          (pc' ≠ .cCreate ∧ pc' ≠ .hCreate) → pc'.isConn = pc.isConn →
          (x'.done.toNat = (s.ths.set i (n, pc')).countP (fWg P) + (s.ths.set i (n, pc')).countP (fRel P) +
              (s.ths.set i (n, pc')).countP (fEnd n) ∧
            x'.v = (s.ths.set i (n, pc')).countP (fBody P) + (s.ths.set i (n, pc')).countP (fWg P) ∧
            ((s.ths.set i (n, pc')).countP (fEnd n) = 0 → x'.sem = 0 ∧
              x'.w = (s.ths.set i (n, pc')).countP (fBlocked P) ∧ (s.ths.set i (n, pc')).countP (fWoken P) = 0) ∧
            (1 ≤ (s.ths.set i (n, pc')).countP (fEnd n) → x'.w = 0 ∧
              x'.sem = (s.ths.set i (n, pc')).countP (fBlocked P)) ∧
            ((s.ths.set i (n, pc')).countP (fBody P) + (s.ths.set i (n, pc')).countP (fWg P) +
              (s.ths.set i (n, pc')).countP (fRel P) + (s.ths.set i (n, pc')).countP (fEnd n) = 0 → x'.w = 0)) →
          ((∀ t ∈ s.ths, ∀ w, t.2 = .cRelease P w → w = x'.w) ∧ ∀ w, pc' = .cRelease P w → w = x'.w) →
          GInv n P s' ∧ (s'.panicked = true → ∃ m pc0, some (n, pc) = some (m, pc0) ∧ m ≠ n) := by
        intro s' pc' x' e1 e2 e3 e4 e5 e6 e7 e8 e9
        refine ⟨ginv_own hi ht e1 e2 e4 e5 e6 e7 ?_ e9, fun hh => by rw [e3] at hh; cases hh⟩
        rw [e1]; exact e8
      have norel : (s.ths.countP (fRel P) = 0) → ∀ t ∈ s.ths, ∀ w y, t.2 = .cRelease P w → w = y := by
        intro hz t ht w y hw
        have := List.countP_eq_zero.1 hz t ht
        exact absurd (by simp [fRel, hw]) this
      cases pc with
      | cGet =>
        dsimp only at h
        rw [hi.ent] at h
        cases h
        refine fin (pc' := .cStart P) rfl rfl hp h1 (.inl rfl) ⟨by simp, by simp⟩ rfl ?_ ⟨h7, by simp⟩
        have c1 := c1 (.cStart P); have c2 := c2 (.cStart P); have c3 := c3 (.cStart P); have c4 := c4 (.cStart P)
        have c5 := c5 (.cStart P); have c6 := c6 (.cStart P)
        simp [fBody, fWg, fRel, fEnd, fBlocked, fWoken] at c1 c2 c3 c4 c5 c6
        simp only [c1, c2, c3, c4, c5, c6]
        exact ⟨h2, h3, h4, h5, h6⟩
      | cCreate => exact absurd rfl hown.1
      | cStart p =>
        have hpP := hown.2.2 p rfl
        subst hpP
        dsimp only at h
        rw [h1] at h
        have c1 := c1 (.cBody p); have c2 := c2 (.cBody p); have c3 := c3 (.cBody p); have c4 := c4 (.cBody p)
        have c5 := c5 (.cBody p); have c6 := c6 (.cBody p); have c7 := c7 (.cBody p)
        simp [fBody, fWg, fRel, fEnd, fBlocked, fWoken, fConn, GPc.isConn] at c1 c2 c3 c4 c5 c6 c7
        have hsum' := conn_sum n p (s.ths.set i (n, .cBody p)) (by
          intro t htm hx
          rcases List.mem_or_eq_of_mem_set htm with hm | rfl
          · exact hi.oth t hm hx
          · exact absurd rfl hx)
        have hc7 : (s.ths.set i (n, GPc.cBody p)).countP (fConn n) = s.ths.countP (fConn n) := by
          have := countP_updA (fConn n) ht (n, .cBody p)
          simp [fConn, GPc.isConn] at this; exact this
        have hw : x.w = 0 := h6 (by omega)
        dsimp only at h
        rw [if_neg (by simp [hw])] at h
        cases h
        refine fin (pc' := .cBody p) (x' := { x with v := x.v + 1 }) rfl rfl hp (by simp [Gates.goto, Gates.upd, hP]) (.inl rfl) ⟨by simp, by simp⟩ rfl ?_
          ⟨h7, by simp⟩
        dsimp only
        refine ⟨by omega, by omega, fun h => ?_, fun h => by omega, fun h => by omega⟩
        have := h4 (by omega)
        omega
      | cBody p =>
        have hpP := hown.2.2 p rfl
        subst hpP
        dsimp only at h
        rw [h1] at h
        have b1 := countP_posA (p := fBody p) ht (by simp [fBody])
        have hd : x.done = false := by
          cases hd : x.done with
          | false => rfl
          | true => rw [hd] at h2; simp only [Bool.toNat_true] at h2; omega
        rw [hd] at h2
        simp only [hd, Bool.toNat_false] at h2
        have c1 := c1 (.cWgDone p); have c2 := c2 (.cWgDone p); have c3 := c3 (.cWgDone p); have c4 := c4 (.cWgDone p)
        have c5 := c5 (.cWgDone p); have c6 := c6 (.cWgDone p)
        simp [fBody, fWg, fRel, fEnd, fBlocked, fWoken] at c1 c2 c3 c4 c5 c6
        dsimp only at h
        rw [if_neg (by simp [hd])] at h
        cases h
        refine fin (pc' := .cWgDone p) (x' := { x with done := true }) rfl rfl hp (by simp [Gates.goto, Gates.upd, hP]) (.inl rfl) ⟨by simp, by simp⟩ rfl ?_
          ⟨h7, by simp⟩
        simp only [Bool.toNat_true]
        refine ⟨by omega, by omega, fun h => ?_, fun h => by omega, fun h => by omega⟩
        have := h4 (by omega)
        omega
      | cWgDone p =>
        have hpP := hown.2.2 p rfl
        subst hpP
        dsimp only at h
        rw [h1] at h
        have b1 := countP_posA (p := fWg p) ht (by simp [fWg])
        have hv : x.v = 1 := by omega
        have hz : s.ths.countP (fRel p) = 0 := by omega
        dsimp only at h
        rw [if_neg (by omega)] at h
        by_cases hw : x.w = 0
        · rw [if_neg (by simp [hw])] at h
          cases h
          have c1 := c1 .cEnd; have c2 := c2 .cEnd; have c3 := c3 .cEnd; have c4 := c4 .cEnd
          have c5 := c5 .cEnd; have c6 := c6 .cEnd
          simp [fBody, fWg, fRel, fEnd, fBlocked, fWoken] at c1 c2 c3 c4 c5 c6
          refine fin (pc' := .cEnd) (x' := { x with v := x.v - 1 }) rfl rfl hp (by simp [Gates.goto, Gates.upd, hP]) (.inr rfl) ⟨by simp, by simp⟩ rfl ?_
            ⟨h7, by simp⟩
          dsimp only
          refine ⟨by omega, by omega, fun h => by omega, fun h => ?_, fun h => by omega⟩
          have := h4 (by omega)
          omega
        · rw [if_pos ⟨hv, hw⟩] at h
          cases h
          have c1 := c1 (.cRelease p x.w); have c2 := c2 (.cRelease p x.w); have c3 := c3 (.cRelease p x.w)
          have c4 := c4 (.cRelease p x.w); have c5 := c5 (.cRelease p x.w); have c6 := c6 (.cRelease p x.w)
          simp [fBody, fWg, fRel, fEnd, fBlocked, fWoken] at c1 c2 c3 c4 c5 c6
          refine fin (pc' := .cRelease p x.w) (x' := { x with v := 0 }) rfl rfl hp (by simp [Gates.goto, Gates.upd, hP]) (.inl rfl) ⟨by simp, by simp⟩ rfl ?_
            ⟨h7, by simp⟩
          dsimp only
          refine ⟨by omega, by omega, fun h => ?_, fun h => by omega, fun h => by omega⟩
          have := h4 (by omega)
          omega
      | cRelease p w =>
        have hpP := hown.2.2 p rfl
        subst hpP
        dsimp only at h
        rw [h1] at h
        have b1 := countP_posA (p := fRel p) ht (by simp [fRel])
        have hw := h7 _ (List.mem_of_getElem? ht) w rfl
        have hv : x.v = 0 := by omega
        dsimp only at h
        rw [if_neg (by omega)] at h
        cases h
        have c1 := c1 .cEnd; have c2 := c2 .cEnd; have c3 := c3 .cEnd; have c4 := c4 .cEnd
        have c5 := c5 .cEnd; have c6 := c6 .cEnd
        simp [fBody, fWg, fRel, fEnd, fBlocked, fWoken] at c1 c2 c3 c4 c5 c6
        have hrest : (s.ths.set i (n, GPc.cEnd)).countP (fRel p) = 0 := by
          have := conn_sum n p (s.ths.set i (n, .cEnd)) (by
            intro t htm hx
            rcases List.mem_or_eq_of_mem_set htm with hm | rfl
            · exact hi.oth t hm hx
            · exact absurd rfl hx)
          have hc7 : (s.ths.set i (n, GPc.cEnd)).countP (fConn n) = s.ths.countP (fConn n) := by
            have := countP_updA (fConn n) ht (n, .cEnd)
            simp [fConn, GPc.isConn] at this; exact this
          omega
        have hg : GInv n p ((s.upd p { x with v := 0, w := 0, sem := x.sem + w }).goto i n .cEnd) := by
          refine ⟨hi.ent, hi.entO, ?_, ?_, ?_, { x with v := 0, w := 0, sem := x.sem + w }, ?_, ?_⟩
          · intro t htm hx
            simp only [Gates.goto] at htm
            rcases List.mem_or_eq_of_mem_set htm with hm | rfl
            · exact hi.own t hm hx
            · exact ⟨by simp, by simp, by simp [GPc.proc]⟩
          · intro t htm hx
            simp only [Gates.goto] at htm
            rcases List.mem_or_eq_of_mem_set htm with hm | rfl
            · exact hi.oth t hm hx
            · exact absurd rfl hx
          · have := countP_updA (fConn n) ht (n, .cEnd)
            simp [fConn, GPc.isConn] at this
            simp only [Gates.goto, Gates.upd]
            have e : (s.ths.set i (n, GPc.cEnd)).countP (fConn n) = s.ths.countP (fConn n) := this
            omega
          · simp [Gates.goto, Gates.upd, hP]
          · simp only [Gates.goto, Gates.upd]
            have hz0 := h4 (by omega)
            refine ⟨by omega, by omega, fun h => by omega, fun _ => ⟨trivial, by omega⟩, fun h => by omega, ?_⟩
            intro t htm w' hw'
            have := List.countP_eq_zero.1 hrest t htm
            exact absurd (by simp [fRel, hw']) this
        exact ⟨hg, fun hh => by simp [Gates.goto, Gates.upd, hp] at hh⟩
      | cEnd => cases h
      | hGet =>
        dsimp only at h
        rw [hi.ent] at h
        cases h
        refine fin (pc' := .hLoad P) rfl rfl hp h1 (.inl rfl) ⟨by simp, by simp⟩ rfl ?_ ⟨h7, by simp⟩
        have c1 := c1 (.hLoad P); have c2 := c2 (.hLoad P); have c3 := c3 (.hLoad P); have c4 := c4 (.hLoad P)
        have c5 := c5 (.hLoad P); have c6 := c6 (.hLoad P)
        simp [fBody, fWg, fRel, fEnd, fBlocked, fWoken] at c1 c2 c3 c4 c5 c6
        simp only [c1, c2, c3, c4, c5, c6]
        exact ⟨h2, h3, h4, h5, h6⟩
      | hCreate => exact absurd rfl hown.2.1
      | hLoad p =>
        have hpP := hown.2.2 p rfl
        subst hpP
        dsimp only at h
        rw [h1] at h
        dsimp only at h
        cases hd : x.done with
        | true =>
          rw [hd] at h
          cases h
          refine fin (pc' := .hEnd) rfl rfl hp h1 (.inr rfl) ⟨by simp, by simp⟩ rfl ?_ ⟨h7, by simp⟩
          have c1 := c1 .hEnd; have c2 := c2 .hEnd; have c3 := c3 .hEnd; have c4 := c4 .hEnd
          have c5 := c5 .hEnd; have c6 := c6 .hEnd
          simp [fBody, fWg, fRel, fEnd, fBlocked, fWoken] at c1 c2 c3 c4 c5 c6
          simp only [c1, c2, c3, c4, c5, c6]
          exact ⟨h2, h3, h4, h5, h6⟩
        | false =>
          rw [hd] at h
          cases h
          refine fin (pc' := .hWait p) rfl rfl hp h1 (.inl rfl) ⟨by simp, by simp⟩ rfl ?_ ⟨h7, by simp⟩
          have c1 := c1 (.hWait p); have c2 := c2 (.hWait p); have c3 := c3 (.hWait p); have c4 := c4 (.hWait p)
          have c5 := c5 (.hWait p); have c6 := c6 (.hWait p)
          simp [fBody, fWg, fRel, fEnd, fBlocked, fWoken] at c1 c2 c3 c4 c5 c6
          simp only [c1, c2, c3, c4, c5, c6]
          exact ⟨h2, h3, h4, h5, h6⟩
      | hWait p =>
        have hpP := hown.2.2 p rfl
        subst hpP
        dsimp only at h
        rw [h1] at h
        dsimp only at h
        by_cases hv : x.v = 0
        · rw [if_pos hv] at h
          cases h
          refine fin (pc' := .hEnd) rfl rfl hp h1 (.inr rfl) ⟨by simp, by simp⟩ rfl ?_ ⟨h7, by simp⟩
          have c1 := c1 .hEnd; have c2 := c2 .hEnd; have c3 := c3 .hEnd; have c4 := c4 .hEnd
          have c5 := c5 .hEnd; have c6 := c6 .hEnd
          simp [fBody, fWg, fRel, fEnd, fBlocked, fWoken] at c1 c2 c3 c4 c5 c6
          simp only [c1, c2, c3, c4, c5, c6]
          exact ⟨h2, h3, h4, h5, h6⟩
        · rw [if_neg hv] at h
          cases h
          have c1 := c1 (.hBlocked p); have c2 := c2 (.hBlocked p); have c3 := c3 (.hBlocked p); have c4 := c4 (.hBlocked p)
          have c5 := c5 (.hBlocked p); have c6 := c6 (.hBlocked p)
          simp [fBody, fWg, fRel, fEnd, fBlocked, fWoken] at c1 c2 c3 c4 c5 c6
          refine fin (pc' := .hBlocked p) (x' := { x with w := x.w + 1 }) rfl rfl hp (by simp [Gates.goto, Gates.upd, hP]) (.inl rfl) ⟨by simp, by simp⟩ rfl ?_
            ⟨fun t ht w => norel (by omega) t ht w _, by simp⟩
          dsimp only
          refine ⟨by omega, by omega, fun h => ?_, fun h => by omega, fun h => by omega⟩
          have := h4 (by omega)
          omega
      | hBlocked p =>
        have hpP := hown.2.2 p rfl
        subst hpP
        dsimp only at h
        rw [h1] at h
        dsimp only at h
        by_cases hs : x.sem = 0
        · rw [if_pos hs] at h; cases h
        · rw [if_neg hs] at h
          cases h
          have c1 := c1 (.hWoken p); have c2 := c2 (.hWoken p); have c3 := c3 (.hWoken p); have c4 := c4 (.hWoken p)
          have c5 := c5 (.hWoken p); have c6 := c6 (.hWoken p)
          simp [fBody, fWg, fRel, fEnd, fBlocked, fWoken] at c1 c2 c3 c4 c5 c6
          refine fin (pc' := .hWoken p) (x' := { x with sem := x.sem - 1 }) rfl rfl hp (by simp [Gates.goto, Gates.upd, hP]) (.inl rfl) ⟨by simp, by simp⟩ rfl ?_
            ⟨h7, by simp⟩
          dsimp only
          have he : 1 ≤ s.ths.countP (fEnd n) := by
            rcases Nat.eq_zero_or_pos (s.ths.countP (fEnd n)) with hz | hz
            · exact absurd (h4 hz).1 hs
            · exact hz
          have := h5 he
          refine ⟨by omega, by omega, fun h => by omega, fun h => ?_, fun h => by omega⟩
          omega
      | hWoken p =>
        have hpP := hown.2.2 p rfl
        subst hpP
        dsimp only at h
        rw [h1] at h
        dsimp only at h
        have b1 := countP_posA (p := fWoken p) ht (by simp [fWoken])
        have he : 1 ≤ s.ths.countP (fEnd n) := by
          rcases Nat.eq_zero_or_pos (s.ths.countP (fEnd n)) with hz | hz
          · have := h4 hz; omega
          · exact hz
        have := h5 he
        rw [if_neg (by omega)] at h
        cases h
        refine fin (pc' := .hEnd) rfl rfl hp h1 (.inr rfl) ⟨by simp, by simp⟩ rfl ?_ ⟨h7, by simp⟩
        have c1 := c1 .hEnd; have c2 := c2 .hEnd; have c3 := c3 .hEnd; have c4 := c4 .hEnd
        have c5 := c5 .hEnd; have c6 := c6 .hEnd
        simp [fBody, fWg, fRel, fEnd, fBlocked, fWoken] at c1 c2 c3 c4 c5 c6
        simp only [c1, c2, c3, c4, c5]
        exact ⟨h2, h3, fun h => by omega, h5, h6⟩
      | hEnd => cases h
    · -- a goroutine of another namespace
      refine ⟨?_, fun _ => ⟨n, pc, rfl, hn⟩⟩
      have hoth := hi.oth _ (List.mem_of_getElem? ht) hn
      have hfail : GInv ns P s.fail := ⟨hi.ent, hi.entO, hi.own, hi.oth, hi.one, hi.st⟩
      have go : ∀ pc' : GPc, pc'.proc ≠ some P → GInv ns P (s.goto i n pc') := fun pc' hpc =>
        ginv_other hi ht hn rfl rfl hi.ent hi.entO hpc
      have goU : ∀ (pc' : GPc) (q : Nat) (y : Proc), q ≠ P → pc'.proc ≠ some P →
          GInv ns P ((s.upd q y).goto i n pc') := fun pc' q y hq hpc =>
        ginv_other hi ht hn rfl (by simp [Gates.goto, Gates.upd, List.getElem?_set_ne hq]) hi.ent hi.entO hpc
      have goC : ∀ pc' : GPc, pc'.proc = some s.procs.length → GInv ns P ((s.create n).goto i n pc') := by
        intro pc' hpc
        refine ginv_other hi ht hn rfl ?_ ?_ ?_ ?_
        · simp only [Gates.goto, Gates.create]; rw [List.getElem?_append_left hP]
        · simp only [Gates.goto, Gates.create]
          rw [mapGet_mapSet, if_neg (fun e => hn e.symm)]; exact hi.ent
        · intro m hm
          simp only [Gates.goto, Gates.create]
          rw [mapGet_mapSet]
          split
          · intro e; cases e; omega
          · exact hi.entO m hm
        · rw [hpc]; intro e; cases e; omega
      cases pc with
      | cGet =>
        cases hg : mapGet s.entries n with
        | none => dsimp only at h; rw [hg] at h; cases h; exact go _ (by simp [GPc.proc])
        | some p =>
          dsimp only at h; rw [hg] at h; cases h
          exact go _ (by simp only [GPc.proc]; rw [← hg]; exact hi.entO n hn)
      | hGet =>
        cases hg : mapGet s.entries n with
        | none => dsimp only at h; rw [hg] at h; cases h; exact go _ (by simp [GPc.proc])
        | some p =>
          dsimp only at h; rw [hg] at h; cases h
          exact go _ (by simp only [GPc.proc]; rw [← hg]; exact hi.entO n hn)
      | cCreate => cases h; exact goC _ rfl
      | hCreate => cases h; exact goC _ rfl
      | cEnd => cases h
      | hEnd => cases h
      | cStart p =>
        have hq : p ≠ P := fun e => hoth (by rw [e]; rfl)
        cases hx : s.procs[p]? with
        | none => dsimp only at h; rw [hx] at h; cases h
        | some y =>
          dsimp only at h
          rw [hx] at h
          dsimp only at h
          split at h
          · cases h; exact hfail
          · cases h; exact goU _ p _ hq (by simp [GPc.proc, hq])
      | cBody p =>
        have hq : p ≠ P := fun e => hoth (by rw [e]; rfl)
        cases hx : s.procs[p]? with
        | none => dsimp only at h; rw [hx] at h; cases h
        | some y =>
          dsimp only at h
          rw [hx] at h
          dsimp only at h
          split at h
          · cases h; exact go _ (by simp [GPc.proc])
          · cases h; exact goU _ p _ hq (by simp [GPc.proc, hq])
      | cWgDone p =>
        have hq : p ≠ P := fun e => hoth (by rw [e]; rfl)
        cases hx : s.procs[p]? with
        | none => dsimp only at h; rw [hx] at h; cases h
        | some y =>
          dsimp only at h
          rw [hx] at h
          dsimp only at h
          split at h
          · cases h; exact hfail
          · split at h
            · cases h; exact goU _ p _ hq (by simp [GPc.proc, hq])
            · cases h; exact goU _ p _ hq (by simp [GPc.proc])
      | cRelease p w =>
        have hq : p ≠ P := fun e => hoth (by rw [e]; rfl)
        cases hx : s.procs[p]? with
        | none => dsimp only at h; rw [hx] at h; cases h
        | some y =>
          dsimp only at h
          rw [hx] at h
          dsimp only at h
          split at h
          · cases h; exact hfail
          · cases h; exact goU _ p _ hq (by simp [GPc.proc])
      | hLoad p =>
        have hq : p ≠ P := fun e => hoth (by rw [e]; rfl)
        cases hx : s.procs[p]? with
        | none => dsimp only at h; rw [hx] at h; cases h
        | some y =>
          dsimp only at h
          rw [hx] at h
          dsimp only at h
          cases h
          split
          · exact go _ (by simp [GPc.proc])
          · exact go _ (by simp [GPc.proc, hq])
      | hWait p =>
        have hq : p ≠ P := fun e => hoth (by rw [e]; rfl)
        cases hx : s.procs[p]? with
        | none => dsimp only at h; rw [hx] at h; cases h
        | some y =>
          dsimp only at h
          rw [hx] at h
          dsimp only at h
          split at h
          · cases h; exact go _ (by simp [GPc.proc])
          · cases h; exact goU _ p _ hq (by simp [GPc.proc, hq])
      | hBlocked p =>
        have hq : p ≠ P := fun e => hoth (by rw [e]; rfl)
        cases hx : s.procs[p]? with
        | none => dsimp only at h; rw [hx] at h; cases h
        | some y =>
          dsimp only at h
          rw [hx] at h
          dsimp only at h
          split at h
          · cases h
          · cases h; exact goU _ p _ hq (by simp [GPc.proc, hq])
      | hWoken p =>
        have hq : p ≠ P := fun e => hoth (by rw [e]; rfl)
        cases hx : s.procs[p]? with
        | none => dsimp only at h; rw [hx] at h; cases h
        | some y =>
          dsimp only at h
          rw [hx] at h
          dsimp only at h
          split at h
          · cases h; exact hfail
          · cases h; exact go _ (by simp [GPc.proc])

theorem mapGet_zipIdx (l : List Bytes) (k : Nat) (n : Bytes) (p : Nat) (h : mapGet (l.zipIdx k) n = some p) :
    k ≤ p ∧ l[p - k]? = some n := by
  induction l generalizing k with
  | nil => simp [mapGet] at h
  | cons a l ih =>
    simp only [List.zipIdx_cons, mapGet] at h
    by_cases ha : a = n
    · rw [if_pos ha, Option.some.injEq] at h
      subst h
      simp [ha]
    · rw [if_neg ha] at h
      obtain ⟨h1, h2⟩ := ih _ h
      refine ⟨by omega, ?_⟩
      have : p - k = (p - (k + 1)) + 1 := by omega
      rw [this, List.getElem?_cons_succ]; exact h2

theorem mapGet_zipIdx_mem (l : List Bytes) (k : Nat) {n : Bytes} (h : n ∈ l) :
    ∃ p, mapGet (l.zipIdx k) n = some p := by
  induction l generalizing k with
  | nil => cases h
  | cons a l ih =>
    simp only [List.zipIdx_cons, mapGet]
    by_cases ha : a = n
    · exact ⟨k, by rw [if_pos ha]⟩
    · rw [if_neg ha]
      rcases List.mem_cons.1 h with e | h
      · exact absurd e.symm ha
      · exact ih _ h

/-- goroutines that have not started, at most one of them in Connect of `ns`, and the gate of `ns`
exists; other namespaces are not restricted -/
structure OneConnect (made : List Bytes) (ths : List (Bytes × GPc)) (ns : Bytes) : Prop where
  fresh : ∀ t ∈ ths, t.2.fresh = true
  made : ns ∈ made
  one : ∀ i j : Nat, ths[i]? = some (ns, GPc.cGet) → ths[j]? = some (ns, GPc.cGet) → i = j

theorem countP_le_one {α : Type} (f : α → Bool) (l : List α)
    (h : ∀ (i j : Nat) (x y : α), l[i]? = some x → l[j]? = some y → f x = true → f y = true → i = j) : l.countP f ≤ 1 := by
  induction l with
  | nil => simp
  | cons a l ih =>
    rw [List.countP_cons]
    have ih := ih (fun i j x y h1 h2 h3 h4 => by
      have := h (i + 1) (j + 1) x y (by simpa using h1) (by simpa using h2) h3 h4
      omega)
    split
    · rename_i ha
      have : l.countP f = 0 := List.countP_eq_zero.2 (by
        intro x hx hfx
        obtain ⟨j, hj⟩ := List.getElem?_of_mem hx
        have := h 0 (j + 1) a x (by simp) (by simpa using hj) ha hfx
        omega)
      omega
    · omega

theorem ginv_start {made : List Bytes} {ths : List (Bytes × GPc)} {ns : Bytes} (h : OneConnect made ths ns) :
    ∃ P, GInv ns P (Gates.start made ths) := by
  obtain ⟨P, hP⟩ := mapGet_zipIdx_mem made 0 h.made
  have hat := (mapGet_zipIdx made 0 ns P hP).2
  have z : ∀ f : Bytes × GPc → Bool, (∀ t : Bytes × GPc, t.2.fresh = true → f t = false) → ths.countP f = 0 := by
    intro f hf
    exact List.countP_eq_zero.2 (fun t ht => by simp [hf t (h.fresh t ht)])
  have zb := z (fBody P) (by rintro ⟨n, pc⟩; cases pc <;> simp [GPc.fresh, fBody])
  have zw := z (fWg P) (by rintro ⟨n, pc⟩; cases pc <;> simp [GPc.fresh, fWg])
  have zr := z (fRel P) (by rintro ⟨n, pc⟩; cases pc <;> simp [GPc.fresh, fRel])
  have ze := z (fEnd ns) (by rintro ⟨n, pc⟩; cases pc <;> simp [GPc.fresh, fEnd])
  have zk := z (fBlocked P) (by rintro ⟨n, pc⟩; cases pc <;> simp [GPc.fresh, fBlocked])
  have zo := z (fWoken P) (by rintro ⟨n, pc⟩; cases pc <;> simp [GPc.fresh, fWoken])
  refine ⟨P, hP, ?_, ?_, ?_, ?_, {}, ?_, ?_⟩
  · intro n hn e
    have := (mapGet_zipIdx made 0 n P e).2
    rw [hat] at this
    cases this
    exact hn rfl
  · intro t ht _
    have := h.fresh t ht
    obtain ⟨n, pc⟩ := t
    cases pc <;> first | (cases this; done) | simp [GPc.proc]
  · intro t ht _
    have := h.fresh t ht
    obtain ⟨n, pc⟩ := t
    cases pc <;> first | (cases this; done) | simp [GPc.proc]
  · refine countP_le_one _ _ ?_
    intro i j x y hx hy fx fy
    have get : ∀ {x : Bytes × GPc}, x ∈ ths → fConn ns x = true → x = (ns, .cGet) := by
      intro x hx fx
      have := h.fresh x hx
      obtain ⟨n, pc⟩ := x
      simp only [fConn, Bool.and_eq_true, decide_eq_true_eq] at fx
      have e := fx.1
      cases pc <;> first | (cases this; done) | (rw [e]; done) | (simp [GPc.isConn] at fx; done)
    cases get (List.mem_of_getElem? hx) fx
    cases get (List.mem_of_getElem? hy) fy
    exact h.one i j hx hy
  · simp only [Gates.start]
    rw [List.getElem?_map]
    simp only [Nat.sub_zero] at hat
    rw [hat]; rfl
  · simp only [Gates.start, zb, zw, zr, ze, zk, zo]
    refine ⟨by simp, by simp, by simp, by simp, by simp, ?_⟩
    intro t ht w hw
    have := h.fresh t ht
    rw [hw] at this; cases this

theorem ginv_reach {made : List Bytes} {ths : List (Bytes × GPc)} {ns : Bytes} (h : OneConnect made ths ns)
    {s : Gates} (hr : GatesReach made ths s) : ∃ P, GInv ns P s := by
  obtain ⟨P, hP⟩ := ginv_start h
  obtain ⟨sched, hs⟩ := hr
  exact ⟨P, gates_ind hP (fun _ _ _ hi hst => (ginv_step hi hst).1) hs⟩

/-- how a goroutine goes on -/
inductive Next (s : Gates) (n : Bytes) : GPc → GPc → Prop
  | cGet {p : Nat} : mapGet s.entries n = some p → Next s n .cGet (.cStart p)
  | cGet' : mapGet s.entries n = none → Next s n .cGet .cCreate
  | cCreate : Next s n .cCreate (.cStart s.procs.length)
  | cStart {p : Nat} : Next s n (.cStart p) (.cBody p)
  | cBody {p : Nat} : Next s n (.cBody p) (.cWgDone p)
  | cBody' {p : Nat} : Next s n (.cBody p) .cEnd
  | cWg {p w : Nat} : Next s n (.cWgDone p) (.cRelease p w)
  | cWg' {p : Nat} : Next s n (.cWgDone p) .cEnd
  | cRel {p w : Nat} : Next s n (.cRelease p w) .cEnd
  | hGet {p : Nat} : mapGet s.entries n = some p → Next s n .hGet (.hLoad p)
  | hGet' : mapGet s.entries n = none → Next s n .hGet .hCreate
  | hCreate : Next s n .hCreate (.hLoad s.procs.length)
  | hLoad {p : Nat} {x : Proc} : s.procs[p]? = some x → x.done = true → Next s n (.hLoad p) .hEnd
  | hLoad' {p : Nat} {x : Proc} : s.procs[p]? = some x → x.done = false → Next s n (.hLoad p) (.hWait p)
  | hWait {p : Nat} {x : Proc} : s.procs[p]? = some x → x.v = 0 → Next s n (.hWait p) .hEnd
  | hWait' {p : Nat} {x : Proc} : s.procs[p]? = some x → x.v ≠ 0 → Next s n (.hWait p) (.hBlocked p)
  | hBlocked {p : Nat} {x : Proc} : s.procs[p]? = some x → x.sem ≠ 0 → Next s n (.hBlocked p) (.hWoken p)
  | hWoken {p : Nat} : Next s n (.hWoken p) .hEnd

theorem gates_next {s s' : Gates} {i : Nat} (h : s.step i = some s') :
    s' = s.fail ∨ ∃ n pc pc', s.ths[i]? = some (n, pc) ∧ s'.ths = s.ths.set i (n, pc') ∧ Next s n pc pc' := by
  unfold Gates.step at h
  split at h
  · cases h
  split at h
  · cases h
  · rename_i n pc ht
    have go : ∀ {pc' : GPc} {s'' : Gates}, s''.ths = s.ths.set i (n, pc') → Next s n pc pc' → s'' = s' →
        s' = s.fail ∨ ∃ n pc pc', s.ths[i]? = some (n, pc) ∧ s'.ths = s.ths.set i (n, pc') ∧ Next s n pc pc' := by
      intro pc' s'' h1 h2 h3
      subst h3
      exact .inr ⟨n, pc, pc', ht, h1, h2⟩
    cases pc <;> dsimp only at h
    · split at h <;> cases h
      · exact go rfl (.cGet ‹_›) rfl
      · exact go rfl (.cGet' ‹_›) rfl
    · cases h; exact go rfl .cCreate rfl
    · split at h
      · cases h
      · split at h <;> cases h
        · exact .inl rfl
        · exact go rfl .cStart rfl
    · split at h
      · cases h
      · split at h <;> cases h
        · exact go rfl .cBody' rfl
        · exact go rfl .cBody rfl
    · split at h
      · cases h
      · split at h
        · cases h; exact .inl rfl
        · split at h <;> cases h
          · exact go rfl .cWg rfl
          · exact go rfl .cWg' rfl
    · split at h
      · cases h
      · split at h <;> cases h
        · exact .inl rfl
        · exact go rfl .cRel rfl
    · cases h
    · split at h <;> cases h
      · exact go rfl (.hGet ‹_›) rfl
      · exact go rfl (.hGet' ‹_›) rfl
    · cases h; exact go rfl .hCreate rfl
    · split at h
      · cases h
      · rename_i x hx
        cases hd : x.done <;> rw [hd] at h <;> cases h
        · exact go rfl (.hLoad' hx hd) rfl
        · exact go rfl (.hLoad hx hd) rfl
    · split at h
      · cases h
      · split at h <;> cases h
        · exact go rfl (.hWait ‹_› ‹_›) rfl
        · exact go rfl (.hWait' ‹_› ‹_›) rfl
    · split at h
      · cases h
      · split at h
        · cases h
        · cases h; exact go rfl (.hBlocked ‹_› ‹_›) rfl
    · split at h
      · cases h
      · split at h <;> cases h
        · exact .inl rfl
        · exact go rfl .hWoken rfl
    · cases h

/-- a Connect that has begun to leave the gate does not come back -/
theorem gates_mono {ns : Bytes} {P : Nat} {s s' : Gates} {i : Nat} (hi : GInv ns P s) (h : s.step i = some s') :
    s.ths.countP (fWg P) + s.ths.countP (fRel P) + s.ths.countP (fEnd ns) ≤
      s'.ths.countP (fWg P) + s'.ths.countP (fRel P) + s'.ths.countP (fEnd ns) ∧
    s.ths.countP (fBody P) + s.ths.countP (fWg P) + s.ths.countP (fRel P) + s.ths.countP (fEnd ns) ≤
      s'.ths.countP (fBody P) + s'.ths.countP (fWg P) + s'.ths.countP (fRel P) + s'.ths.countP (fEnd ns) := by
  rcases gates_next h with rfl | ⟨n, pc, pc', ht, hth, hn⟩
  · exact ⟨Nat.le_refl _, Nat.le_refl _⟩
  · have c1 := countP_updA (fBody P) ht (n, pc')
    have c2 := countP_updA (fWg P) ht (n, pc')
    have c3 := countP_updA (fRel P) ht (n, pc')
    have c4 := countP_updA (fEnd ns) ht (n, pc')
    rw [← hth] at c1 c2 c3 c4
    have hm := List.mem_of_getElem? ht
    have hown := hi.own _ hm
    have hoth := hi.oth _ hm
    by_cases hnn : n = ns
    · subst hnn
      have hown := hown rfl
      cases hn <;> simp [fBody, fWg, fRel, fEnd] at c1 c2 c3 c4 <;>
        first
          | omega
          | (have := hown.2.2 _ rfl; subst this; simp at c1 c2 c3; omega)
    · have hoth := hoth hnn
      cases hn <;> simp [fBody, fWg, fRel, fEnd, hnn] at c1 c2 c3 c4 <;>
        first
          | omega
          | (simp only [GPc.proc, ne_eq, Option.some.injEq] at hoth; simp [hoth] at c1 c2 c3; omega)

/-- a Connect of `ns` is in progress: it has entered the gate and has not begun to leave it -/
def Connecting (ns : Bytes) (s : Gates) : Prop := ∃ (i p : Nat), s.ths[i]? = some (ns, GPc.cBody p)

/-- C32, partial: while the only Connect of the namespace is in progress, an event whose handling
starts meanwhile does not pass the gate. -/
theorem c32_held_partial {made : List Bytes} {ths : List (Bytes × GPc)} {ns : Bytes} (h : OneConnect made ths ns)
    {s s' : Gates} (hr : GatesReach made ths s) (hc : Connecting ns s) {i : Nat}
    (hi : s.ths[i]? = some (ns, .hGet)) {sched : List Nat} (hs : s.run sched = some s')
    (hc' : Connecting ns s') : s'.ths[i]? ≠ some (ns, .hEnd) := by
  obtain ⟨P, hinv⟩ := ginv_reach h hr
  have key : GInv ns P s' ∧ 1 ≤ s'.ths.countP (fBody P) + s'.ths.countP (fWg P) + s'.ths.countP (fRel P) +
        s'.ths.countP (fEnd ns) ∧
      (s'.ths.countP (fWg P) + s'.ths.countP (fRel P) + s'.ths.countP (fEnd ns) = 0 →
        ∃ pc, s'.ths[i]? = some (ns, pc) ∧
          (pc = .hGet ∨ pc = .hLoad P ∨ pc = .hWait P ∨ pc = .hBlocked P)) := by
    refine gates_ind (P := fun s' => GInv ns P s' ∧ 1 ≤ s'.ths.countP (fBody P) + s'.ths.countP (fWg P) +
        s'.ths.countP (fRel P) + s'.ths.countP (fEnd ns) ∧
      (s'.ths.countP (fWg P) + s'.ths.countP (fRel P) + s'.ths.countP (fEnd ns) = 0 →
        ∃ pc, s'.ths[i]? = some (ns, pc) ∧
          (pc = .hGet ∨ pc = .hLoad P ∨ pc = .hWait P ∨ pc = .hBlocked P))) ?_ ?_ hs
    · refine ⟨hinv, ?_, fun _ => ⟨_, hi, .inl rfl⟩⟩
      obtain ⟨j, p, hj⟩ := hc
      have := (hinv.own _ (List.mem_of_getElem? hj) rfl).2.2 p rfl
      subst this
      have := countP_posA (p := fBody p) hj (by simp [fBody])
      omega
    · rintro s j s' ⟨hg, hb, hrd⟩ hst
      have hm := gates_mono hg hst
      have hg' := (ginv_step hg hst).1
      refine ⟨hg', by omega, fun hz => ?_⟩
      obtain ⟨pc, hpc, hk⟩ := hrd (by omega)
      obtain ⟨x, h1, h2, h3, h4, _⟩ := hg.st
      have hd : x.done = false := by
        cases hd : x.done with
        | false => rfl
        | true => rw [hd] at h2; simp only [Bool.toNat_true] at h2; omega
      have hlt := lt_of_getElem? hpc
      rcases gates_next hst with rfl | ⟨n, q, q', hq, hth, hn⟩
      · exact ⟨pc, hpc, hk⟩
      · by_cases hji : j = i
        · subst hji
          rw [hpc] at hq
          cases hq
          refine ⟨q', by rw [hth]; simp [hlt], ?_⟩
          rcases hk with rfl | rfl | rfl | rfl
          · cases hn with
            | hGet e => rw [hg.ent] at e; cases e; exact .inr (.inl rfl)
            | hGet' e => rw [hg.ent] at e; cases e
          · cases hn with
            | hLoad e1 e2 => rw [h1] at e1; cases e1; rw [hd] at e2; cases e2
            | hLoad' => exact .inr (.inr (.inl rfl))
          · cases hn with
            | hWait e1 e2 => rw [h1] at e1; cases e1; omega
            | hWait' => exact .inr (.inr (.inr rfl))
          · cases hn with
            | hBlocked e1 e2 => rw [h1] at e1; cases e1; exact absurd (h4 (by omega)).1 e2
        · refine ⟨pc, ?_, hk⟩
          rw [hth, List.getElem?_set_ne hji]; exact hpc
  obtain ⟨k, p, hk⟩ := hc'
  have := (key.1.own _ (List.mem_of_getElem? hk) rfl).2.2 p rfl
  subst this
  have hb := countP_posA (p := fBody p) hk (by simp [fBody])
  have hsum := conn_sum ns p s'.ths key.1.oth
  have hone := key.1.one
  obtain ⟨pc, hpc, hk⟩ := key.2.2 (by omega)
  rw [hpc]
  rcases hk with rfl | rfl | rfl | rfl <;> simp

/-- C32, partial: with one Connect of the namespace, no goroutine of that namespace makes the
WaitGroup panic, whatever happens in other namespaces. -/
theorem c32_calm_partial {made : List Bytes} {ths : List (Bytes × GPc)} {ns : Bytes} (h : OneConnect made ths ns)
    {s s' : Gates} (hr : GatesReach made ths s) {i : Nat} {pc : GPc} (hi : s.ths[i]? = some (ns, pc))
    (hs : s.step i = some s') : s'.panicked = false := by
  obtain ⟨P, hinv⟩ := ginv_reach h hr
  cases hp : s'.panicked with
  | false => rfl
  | true =>
    obtain ⟨n, pc', h1, h2⟩ := (ginv_step hinv hs).2 hp
    rw [hi] at h1
    cases h1
    exact absurd rfl h2

/-- C32, partial: when the only Connect of the namespace has returned, no event of it is held: the
goroutine handling it can always go on until it has passed the gate, in at most five steps. -/
theorem c32_released_partial {made : List Bytes} {ths : List (Bytes × GPc)} {ns : Bytes}
    (h : OneConnect made ths ns) {s : Gates} (hr : GatesReach made ths s) (hp : s.panicked = false) {j : Nat}
    (hc : s.ths[j]? = some (ns, .cEnd)) {i : Nat} {pc : GPc} (hi : s.ths[i]? = some (ns, pc))
    (hk : pc.isConn = false) :
    ∃ sched s', sched.length ≤ 5 ∧ (∀ k ∈ sched, k = i) ∧ s.run sched = some s' ∧
      s'.ths[i]? = some (ns, .hEnd) := by
  obtain ⟨P, hinv⟩ := ginv_reach h hr
  have hone := hinv.one
  have hsum := conn_sum ns P s.ths hinv.oth
  have he := countP_posA (p := fEnd ns) hc (by simp [fEnd])
  obtain ⟨x, h1, h2, h3, _, h5, _⟩ := hinv.st
  obtain ⟨hw, hsem⟩ := h5 he
  have hv : x.v = 0 := by omega
  have hd : x.done = true := by
    cases hd : x.done with
    | true => rfl
    | false => rw [hd] at h2; simp only [Bool.toNat_false] at h2; omega
  have hlt := lt_of_getElem? hi
  have hown := hinv.own _ (List.mem_of_getElem? hi) rfl
  have hPlt := lt_of_getElem? h1
  cases pc with
  | cGet => cases hk
  | cCreate => cases hk
  | cStart p => cases hk
  | cBody p => cases hk
  | cWgDone p => cases hk
  | cRelease p w => cases hk
  | cEnd => cases hk
  | hCreate => exact absurd rfl hown.2.1
  | hEnd => exact ⟨[], s, by simp, by simp, rfl, hi⟩
  | hGet =>
    refine ⟨[i, i], (s.goto i ns (.hLoad P)).goto i ns .hEnd, by simp, by simp, ?_, by simp [Gates.goto, hlt]⟩
    have e1 : s.step i = some (s.goto i ns (.hLoad P)) := by simp only [Gates.step, hp, hi, hinv.ent]; rfl
    have e2 : (s.goto i ns (.hLoad P)).ths[i]? = some (ns, .hLoad P) := by simp [Gates.goto, hlt]
    simp only [Gates.run, e1]
    unfold Gates.step
    rw [e2]
    simp [Gates.goto, hp, h1, hd]
  | hLoad p =>
    have := hown.2.2 p rfl
    subst this
    refine ⟨[i], s.goto i ns .hEnd, by simp, by simp, ?_, by simp [Gates.goto, hlt]⟩
    simp [Gates.run, Gates.step, hp, hi, Gates.goto, h1, hd]
  | hWait p =>
    have := hown.2.2 p rfl
    subst this
    refine ⟨[i], s.goto i ns .hEnd, by simp, by simp, ?_, by simp [Gates.goto, hlt]⟩
    simp [Gates.run, Gates.step, hp, hi, Gates.goto, h1, hv]
  | hBlocked p =>
    have := hown.2.2 p rfl
    subst this
    have hb := countP_posA (p := fBlocked p) hi (by simp [fBlocked])
    have hs : x.sem ≠ 0 := by omega
    refine ⟨[i, i], (((s.upd p { x with sem := x.sem - 1 }).goto i ns (.hWoken p))).goto i ns .hEnd, by simp,
      by simp, ?_, by simp [Gates.goto, Gates.upd, hlt]⟩
    have e1 : s.step i = some ((s.upd p { x with sem := x.sem - 1 }).goto i ns (.hWoken p)) := by
      simp only [Gates.step, hp, hi, h1, if_neg hs]; rfl
    have e2 : ((s.upd p { x with sem := x.sem - 1 }).goto i ns (.hWoken p)).ths[i]? = some (ns, .hWoken p) := by
      simp [Gates.goto, Gates.upd, hlt]
    simp only [Gates.run, e1]
    unfold Gates.step
    rw [e2]
    simp [Gates.goto, Gates.upd, hp, hPlt, hv, hw]
  | hWoken p =>
    have := hown.2.2 p rfl
    subst this
    refine ⟨[i], s.goto i ns .hEnd, by simp, by simp, ?_, by simp [Gates.goto, hlt]⟩
    simp [Gates.run, Gates.step, hp, hi, Gates.goto, h1, hv, hw]

/-- the hypotheses of the theorems above: two events and one Connect of `chat`, two Connects of
another namespace; in the second state the Connect of `chat` has returned while both events wait -/
example : OneConnect [b! "chat"] [(b! "chat", .cGet), (b! "chat", .hGet), (b! "x", .cGet), (b! "x", .cGet), (b! "chat", .hGet)] (b! "chat") ∧
    ∃ s s', GatesReach [b! "chat"] [(b! "chat", .cGet), (b! "chat", .hGet), (b! "x", .cGet), (b! "x", .cGet), (b! "chat", .hGet)] s ∧
      Connecting (b! "chat") s ∧ s.ths[1]? = some (b! "chat", .hGet) ∧
      s.run [1, 1, 1, 4, 4, 4] = some s' ∧ Connecting (b! "chat") s' ∧ s'.ths[1]? = some (b! "chat", .hBlocked 0) ∧
      ∃ s'', s'.run [0, 0, 0] = some s'' ∧ s''.panicked = false ∧ s''.ths[0]? = some (b! "chat", .cEnd) ∧
        s''.ths[1]? = some (b! "chat", .hBlocked 0) := by
  refine ⟨⟨by decide, by decide, ?_⟩, _, _, ⟨[0, 2, 3, 0], rfl⟩, ⟨0, 0, rfl⟩, rfl, rfl, ⟨0, 0, rfl⟩, rfl, _, rfl, rfl, rfl, rfl⟩
  have : ∀ i : Nat, [(b! "chat", GPc.cGet), (b! "chat", .hGet), (b! "x", .cGet), (b! "x", .cGet), (b! "chat", .hGet)][i]? = some (b! "chat", GPc.cGet) → i = 0 := by
    intro i hi
    match i, hi with
    | 0, _ => rfl
    | 1, hi => simp at hi
    | 2, hi => simp at hi
    | 3, hi => simp at hi
    | 4, hi => simp at hi
    | _ + 5, hi => simp at hi
  intro i j hi hj
  rw [this i hi, this j hj]

/-- C32 fails: the map is read and written in two steps, so that an event and a Connect that start
together can make two gates; the next event that arrives while the Connect is in progress passes. -/
theorem c32_refuted_race (ns : Bytes) :
    ∃ s s', GatesReach [] [(ns, .hGet), (ns, .cGet), (ns, .hGet)] s ∧ s.ths[0]? = some (ns, .hEnd) ∧
      Connecting ns s ∧ s.ths[2]? = some (ns, .hGet) ∧ s.run [2, 2, 2] = some s' ∧ Connecting ns s' ∧
      s'.ths[2]? = some (ns, .hEnd) := by
  have e : mapGet (mapSet (mapSet ([] : List (Bytes × Nat)) ns 0) ns 1) ns = some 1 := by simp [mapGet_mapSet]
  have run1 : (Gates.start [] [(ns, .hGet), (ns, .cGet), (ns, .hGet)]).run [0, 1, 1, 1, 0, 0, 0] =
      some ⟨[{ v := 1 }, {}], mapSet (mapSet [] ns 0) ns 1, [(ns, .hEnd), (ns, .cBody 0), (ns, .hGet)], false⟩ := rfl
  refine ⟨_, ⟨[{ v := 1 }, {}], mapSet (mapSet [] ns 0) ns 1, [(ns, .hEnd), (ns, .cBody 0), (ns, .hEnd)], false⟩,
    ⟨_, run1⟩, rfl, ⟨1, 0, rfl⟩, rfl, ?_, ⟨1, 0, rfl⟩, rfl⟩
  simp [Gates.run, Gates.step, Gates.goto, e]

/-- C32 fails: once a Connect of the namespace has returned, events that arrive during a later
Connect of it are not held. -/
theorem c32_refuted_later (ns : Bytes) :
    ∃ s s', GatesReach [ns] [(ns, .cGet), (ns, .cGet), (ns, .hGet)] s ∧ Connecting ns s ∧
      s.ths[2]? = some (ns, .hGet) ∧ s.run [2, 2] = some s' ∧ Connecting ns s' ∧
      s'.ths[2]? = some (ns, .hEnd) := by
  have run1 : (Gates.start [ns] [(ns, .cGet), (ns, .cGet), (ns, .hGet)]).run [0, 0, 0, 0, 1, 1] =
      some ⟨[{ done := true, v := 1 }], [(ns, 0)], [(ns, .cEnd), (ns, .cBody 0), (ns, .hGet)], false⟩ := by
    simp [Gates.run, Gates.start, Gates.step, Gates.goto, Gates.upd, mapGet]
  refine ⟨_, ⟨[{ done := true, v := 1 }], [(ns, 0)], [(ns, .cEnd), (ns, .cBody 0), (ns, .hEnd)], false⟩,
    ⟨_, run1⟩, ⟨1, 0, rfl⟩, rfl, ?_, ⟨1, 0, rfl⟩, rfl⟩
  simp [Gates.run, Gates.step, Gates.goto, mapGet]

/-- C32 fails: when two Connects of the namespace overlap, an event held meanwhile stays held for
ever after both have returned, whatever any goroutines do afterwards. -/
theorem c32_refuted_stuck (ns : Bytes) (rest : List (Bytes × GPc)) (hf : ∀ t ∈ rest, t.2.fresh = true) :
    ∃ s, GatesReach [ns] ((ns, .cGet) :: (ns, .cGet) :: (ns, .hGet) :: rest) s ∧
      s.ths[0]? = some (ns, .cEnd) ∧ s.ths[1]? = some (ns, .cEnd) ∧
      ∀ sched s', s.run sched = some s' → s'.ths[2]? = some (ns, .hBlocked 0) ∧ s'.step 2 = none := by
  have run1 : (Gates.start [ns] ((ns, .cGet) :: (ns, .cGet) :: (ns, .hGet) :: rest)).run
      [0, 0, 1, 1, 2, 2, 2, 0, 0, 1] =
      some ⟨[{ done := true, v := 1, w := 1 }], [(ns, 0)],
        (ns, .cEnd) :: (ns, .cEnd) :: (ns, .hBlocked 0) :: rest, false⟩ := by
    simp [Gates.run, Gates.start, Gates.step, Gates.goto, Gates.upd, mapGet]
  refine ⟨_, ⟨_, run1⟩, rfl, rfl, ?_⟩
  intro sched s' hs
  have inv := gates_ind (P := fun s => (∃ x, s.procs[0]? = some x ∧ x.done = true ∧ x.v ≠ 0 ∧ x.sem = 0) ∧
    s.ths[2]? = some (ns, .hBlocked 0) ∧ ∀ t ∈ s.ths, t.2 ≠ .cWgDone 0 ∧ ∀ w, t.2 ≠ .cRelease 0 w)
    ⟨⟨_, rfl, rfl, by simp, rfl⟩, rfl, ?_⟩ ?_ hs
  · obtain ⟨⟨x, h1, _, _, h4⟩, h2, _⟩ := inv
    refine ⟨h2, ?_⟩
    unfold Gates.step
    split
    · rfl
    · rw [h2]; dsimp only; rw [h1]; dsimp only; rw [if_pos h4]
  · intro t ht
    simp only [List.mem_cons] at ht
    rcases ht with rfl | rfl | rfl | ht
    · simp
    · simp
    · simp
    · have := hf t ht
      obtain ⟨n, pc⟩ := t
      cases pc <;> simp_all [GPc.fresh]
  · rintro s i s' ⟨⟨x, h1, h2, h3, h4⟩, hb, hn⟩ hst
    have hlt := lt_of_getElem? h1
    unfold Gates.step at hst
    split at hst
    · cases hst
    cases ht : s.ths[i]? with
    | none => rw [ht] at hst; cases hst
    | some t =>
      obtain ⟨n, pc⟩ := t
      rw [ht] at hst
      dsimp only at hst
      have hi : i = 2 → pc = .hBlocked 0 := by
        intro e; rw [e, hb] at ht; cases ht; rfl
      have hme := hn _ (List.mem_of_getElem? ht)
      have blocked : ∀ pc' : GPc, pc ≠ .hBlocked 0 → (s.ths.set i (n, pc'))[2]? = some (ns, .hBlocked 0) := by
        intro pc' hne
        rw [List.getElem?_set_ne (fun e => hne (hi e))]; exact hb
      have clean : ∀ pc' : GPc, (pc' ≠ .cWgDone 0 ∧ ∀ w, pc' ≠ .cRelease 0 w) →
          ∀ t ∈ s.ths.set i (n, pc'), t.2 ≠ .cWgDone 0 ∧ ∀ w, t.2 ≠ .cRelease 0 w := by
        intro pc' hp t htm
        rcases List.mem_or_eq_of_mem_set htm with h | rfl
        · exact hn t h
        · exact hp
      have other : ∀ (p : Nat) (y : Proc), p ≠ 0 → (s.procs.set p y)[0]? = some x := by
        intro p y hp; rw [List.getElem?_set_ne hp]; exact h1
      cases pc with
      | cGet =>
        dsimp only at hst
        split at hst <;> cases hst <;> exact ⟨⟨x, h1, h2, h3, h4⟩, blocked _ (by simp), clean _ (by simp)⟩
      | hGet =>
        dsimp only at hst
        split at hst <;> cases hst <;> exact ⟨⟨x, h1, h2, h3, h4⟩, blocked _ (by simp), clean _ (by simp)⟩
      | cCreate =>
        cases hst
        exact ⟨⟨x, by simp only [Gates.goto, Gates.create]; rw [List.getElem?_append_left hlt]; exact h1, h2, h3, h4⟩,
          blocked _ (by simp), clean _ (by simp)⟩
      | hCreate =>
        cases hst
        exact ⟨⟨x, by simp only [Gates.goto, Gates.create]; rw [List.getElem?_append_left hlt]; exact h1, h2, h3, h4⟩,
          blocked _ (by simp), clean _ (by simp)⟩
      | cEnd => cases hst
      | hEnd => cases hst
      | cStart p =>
        dsimp only at hst
        by_cases hp : p = 0
        · subst hp
          rw [h1] at hst
          dsimp only at hst
          rw [if_neg (by simp [h3])] at hst
          cases hst
          exact ⟨⟨{ x with v := x.v + 1 }, by simp [Gates.goto, Gates.upd, hlt], h2, by simp, h4⟩,
            blocked _ (by simp), clean _ (by simp)⟩
        · cases hx : s.procs[p]? with
          | none => rw [hx] at hst; cases hst
          | some y =>
            rw [hx] at hst
            dsimp only at hst
            split at hst <;> cases hst
            · exact ⟨⟨x, h1, h2, h3, h4⟩, hb, hn⟩
            · exact ⟨⟨x, other _ _ hp, h2, h3, h4⟩, blocked _ (by simp), clean _ (by simp)⟩
      | cBody p =>
        dsimp only at hst
        by_cases hp : p = 0
        · subst hp
          rw [h1] at hst
          dsimp only at hst
          rw [if_pos h2] at hst
          cases hst
          exact ⟨⟨x, h1, h2, h3, h4⟩, blocked _ (by simp), clean _ (by simp)⟩
        · cases hx : s.procs[p]? with
          | none => rw [hx] at hst; cases hst
          | some y =>
            rw [hx] at hst
            dsimp only at hst
            split at hst <;> cases hst
            · exact ⟨⟨x, h1, h2, h3, h4⟩, blocked _ (by simp), clean _ (by simp)⟩
            · exact ⟨⟨x, other _ _ hp, h2, h3, h4⟩, blocked _ (by simp), clean _ (by simp [hp])⟩
      | cWgDone p =>
        have hp : p ≠ 0 := fun e => hme.1 (by rw [e])
        dsimp only at hst
        cases hx : s.procs[p]? with
        | none => rw [hx] at hst; cases hst
        | some y =>
          rw [hx] at hst
          dsimp only at hst
          split at hst
          · cases hst; exact ⟨⟨x, h1, h2, h3, h4⟩, hb, hn⟩
          · split at hst <;> cases hst
            · exact ⟨⟨x, other _ _ hp, h2, h3, h4⟩, blocked _ (by simp), clean _ (by simp [hp])⟩
            · exact ⟨⟨x, other _ _ hp, h2, h3, h4⟩, blocked _ (by simp), clean _ (by simp)⟩
      | cRelease p w =>
        have hp : p ≠ 0 := fun e => hme.2 w (by rw [e])
        dsimp only at hst
        cases hx : s.procs[p]? with
        | none => rw [hx] at hst; cases hst
        | some y =>
          rw [hx] at hst
          dsimp only at hst
          split at hst <;> cases hst
          · exact ⟨⟨x, h1, h2, h3, h4⟩, hb, hn⟩
          · exact ⟨⟨x, other _ _ hp, h2, h3, h4⟩, blocked _ (by simp), clean _ (by simp)⟩
      | hLoad p =>
        dsimp only at hst
        cases hx : s.procs[p]? with
        | none => rw [hx] at hst; cases hst
        | some y =>
          rw [hx] at hst
          dsimp only at hst
          cases hst
          exact ⟨⟨x, h1, h2, h3, h4⟩, blocked _ (by simp), clean _ (by split <;> simp)⟩
      | hWait p =>
        dsimp only at hst
        by_cases hp : p = 0
        · subst hp
          rw [h1] at hst
          dsimp only at hst
          rw [if_neg h3] at hst
          cases hst
          exact ⟨⟨{ x with w := x.w + 1 }, by simp [Gates.goto, Gates.upd, hlt], h2, h3, h4⟩,
            blocked _ (by simp), clean _ (by simp)⟩
        · cases hx : s.procs[p]? with
          | none => rw [hx] at hst; cases hst
          | some y =>
            rw [hx] at hst
            dsimp only at hst
            split at hst <;> cases hst
            · exact ⟨⟨x, h1, h2, h3, h4⟩, blocked _ (by simp), clean _ (by simp)⟩
            · exact ⟨⟨x, other _ _ hp, h2, h3, h4⟩, blocked _ (by simp), clean _ (by simp)⟩
      | hBlocked p =>
        dsimp only at hst
        by_cases hp : p = 0
        · subst hp
          rw [h1] at hst
          dsimp only at hst
          rw [if_pos h4] at hst
          cases hst
        · cases hx : s.procs[p]? with
          | none => rw [hx] at hst; cases hst
          | some y =>
            rw [hx] at hst
            dsimp only at hst
            split at hst
            · cases hst
            · cases hst
              exact ⟨⟨x, other _ _ hp, h2, h3, h4⟩, blocked _ (by simp [hp]), clean _ (by simp)⟩
      | hWoken p =>
        dsimp only at hst
        cases hx : s.procs[p]? with
        | none => rw [hx] at hst; cases hst
        | some y =>
          rw [hx] at hst
          dsimp only at hst
          split at hst <;> cases hst
          · exact ⟨⟨x, h1, h2, h3, h4⟩, hb, hn⟩
          · exact ⟨⟨x, h1, h2, h3, h4⟩, blocked _ (by simp), clean _ (by simp)⟩

/-- C32 fails: a Connect that starts between the release of the held reader and its waking up makes
the WaitGroup panic in the reader. -/
theorem c32_refuted_panic (ns : Bytes) :
    ∃ s, GatesReach [ns] [(ns, .cGet), (ns, .hGet), (ns, .cGet)] s ∧ s.panicked = true := by
  have run1 : (Gates.start [ns] [(ns, .cGet), (ns, .hGet), (ns, .cGet)]).run
      [0, 0, 1, 1, 1, 0, 0, 0, 1, 2, 2, 1] =
      some ⟨[{ done := true, v := 1 }], [(ns, 0)], [(ns, .cEnd), (ns, .hWoken 0), (ns, .cBody 0)], true⟩ := by
    simp [Gates.run, Gates.start, Gates.step, Gates.goto, Gates.upd, Gates.fail, mapGet]
  exact ⟨_, ⟨_, run1⟩, rfl⟩

end Neffos
