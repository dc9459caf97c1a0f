import Verif.Spec.Pieces
import Verif.Props.SocketWrite
/-!
# C124: exactly what can be on the wire
-/
set_option autoImplicit false
namespace Neffos
open Neffos.Spec

/-- the goroutines before any of them has written -/
def framesStart (fs : Frames) : Wire := { writers := fs.map fun f => { kind := f.1, pieces := f.2 } }

namespace Pieces

def holder (s : Wire) : WriteKind → Option Nat
  | .message => s.lock
  | .control => s.reader

/-- what is known of the goroutines and the wire -/
structure Inv (fs : Frames) (s : Wire) : Prop where
  len : s.writers.length = fs.length
  kinds : ∀ (t : Nat) (w : Writer), s.writers[t]? = some w → fs[t]? = some (w.kind, w.pieces)
  start : ∀ (t : Nat) (w : Writer), s.writers[t]? = some w → w.pc = .start → piecesOf s.out t = []
  writing : ∀ (t : Nat) (w : Writer) (i : Nat), s.writers[t]? = some w → w.pc = .writing i →
    i ≤ w.pieces ∧ piecesOf s.out t = (frameOf fs.pieces t).take i ∧ holder s w.kind = some t
  done : ∀ (t : Nat) (w : Writer), s.writers[t]? = some w → w.pc = .done → piecesOf s.out t = frameOf fs.pieces t
  held : ∀ k t, holder s k = some t → ∃ w i, s.writers[t]? = some w ∧ w.kind = k ∧ w.pc = .writing i
  out : ∀ x ∈ s.out, x.1 < fs.length
  ok : Wireable fs s.out

variable {fs : Frames} {s s' : Wire} {t : Nat}

theorem piecesOf_append (a b : List (Nat × Nat)) (t : Nat) : piecesOf (a ++ b) t = piecesOf a t ++ piecesOf b t := by
  simp [piecesOf]

theorem piecesOf_self (t i : Nat) : piecesOf [(t, i)] t = [(t, i)] := by simp [piecesOf]
theorem piecesOf_other {t u : Nat} (i : Nat) (h : t ≠ u) : piecesOf [(t, i)] u = [] := by simp [piecesOf, h]

theorem pieces_at {w : Writer} (h : Inv fs s) (hw : s.writers[t]? = some w) : fs.pieces t = w.pieces := by
  simp [Frames.pieces, h.kinds t w hw]

theorem inv_start (fs : Frames) : Inv fs (framesStart fs) := by
  have hw : ∀ (t : Nat) (w : Writer), (framesStart fs).writers[t]? = some w → ∃ f : WriteKind × Nat,
      fs[t]? = some f ∧ w = Writer.mk f.1 f.2 .start := by
    intro t w h
    simp only [framesStart, List.getElem?_map, Option.map_eq_some_iff] at h
    obtain ⟨f, h1, h2⟩ := h
    exact ⟨f, h1, h2.symm⟩
  refine ⟨by simp [framesStart], ?_, fun _ _ _ _ => rfl, ?_, ?_, ?_, ?_, ?_⟩
  · intro t w h; obtain ⟨f, h1, rfl⟩ := hw t w h; exact h1
  · intro t w i h hp; obtain ⟨f, h1, rfl⟩ := hw t w h; cases hp
  · intro t w h hp; obtain ⟨f, h1, rfl⟩ := hw t w h; cases hp
  · intro k t h; cases k <;> cases h
  · intro x h; cases h
  · refine ⟨fun t => List.nil_prefix, ?_⟩
    intro a u j b h
    simp [framesStart] at h

/-- a piece more -/
theorem wireable_snoc {w : List (Nat × Nat)} {i : Nat} (h : Wireable fs w)
    (hown : piecesOf (w ++ [(t, i)]) t <+: frameOf fs.pieces t)
    (hap : ∀ u, u ≠ t → SameKind fs u t → piecesOf w u ≠ [] → piecesOf w u = frameOf fs.pieces u) :
    Wireable fs (w ++ [(t, i)]) := by
  refine ⟨fun u => ?_, ?_⟩
  · by_cases e : t = u
    · subst e; exact hown
    · rw [piecesOf_append, piecesOf_other i e, List.append_nil]; exact h.own u
  · intro a u j b he
    rcases List.eq_nil_or_concat b with rfl | ⟨b', x, rfl⟩
    · obtain ⟨rfl, h2⟩ := List.append_inj' he rfl
      cases h2
      exact hap
    · have he' : w ++ [(t, i)] = (a ++ (u, j) :: b') ++ [x] := by rw [he]; simp
      exact h.apart a u j b' (List.append_inj' he' rfl).1

theorem wireable_init {w : List (Nat × Nat)} {x : Nat × Nat} (h : Wireable fs (w ++ [x])) : Wireable fs w := by
  refine ⟨fun t => ?_, ?_⟩
  · refine List.IsPrefix.trans ?_ (h.own t)
    rw [piecesOf_append]; exact List.prefix_append _ _
  · intro a u j b he
    exact h.apart a u j (b ++ [x]) (by rw [he]; simp)

/-- the step of a goroutine that begins -/
theorem step_start {w : Writer} (hw : s.writers[t]? = some w) (hp : w.pc = .start) (hh : holder s w.kind = none) :
    wstep s t = some (match w.kind with
      | .message => { s with writers := s.writers.set t { w with pc := .writing 0 }, lock := some t }
      | .control => { s with writers := s.writers.set t { w with pc := .writing 0 }, reader := some t }) := by
  obtain ⟨k, p, pc⟩ := w
  cases hp
  cases k <;> simp_all [wstep, holder]

theorem inv_step (h : Inv fs s) (hs : wstep s t = some s') : Inv fs s' := by
  cases hw : s.writers[t]? with
  | none => simp [wstep, hw] at hs
  | some w =>
    have hk := h.kinds t w hw
    have hpt := pieces_at h hw
    obtain ⟨k, p, pc⟩ := w
    have hset := fun (y : Writer) => @set_get _ _ _ _ y hw
    cases pc with
    | start =>
      have h0 := h.start t _ hw rfl
      obtain ⟨hn, hs'⟩ : holder s k = none ∧ s'.writers = s.writers.set t ⟨k, p, .writing 0⟩ ∧ s'.out = s.out ∧
          ∀ k', holder s' k' = if k' = k then some t else holder s k' := by
        cases k <;> simp only [wstep, hw] at hs <;> split at hs <;> cases hs
        · rename_i e; exact ⟨e, rfl, rfl, fun k' => by cases k' <;> simp [holder]⟩
        · rename_i e; exact ⟨e, rfl, rfl, fun k' => by cases k' <;> simp [holder]⟩
      obtain ⟨e1, e2, e3⟩ := hs'
      refine ⟨by rw [e1]; simpa using h.len, ?_, ?_, ?_, ?_, ?_, by rw [e2]; exact h.out, by rw [e2]; exact h.ok⟩
      · intro u x hx
        rw [e1, hset] at hx
        split at hx
        · rename_i e; cases hx; subst e; exact hk
        · exact h.kinds u x hx
      · intro u x hx hp
        rw [e1, hset] at hx
        rw [e2]
        split at hx
        · cases hx; cases hp
        · exact h.start u x hx hp
      · intro u x i hx hp
        rw [e1, hset] at hx
        rw [e2, e3]
        split at hx
        · rename_i e; cases hx; cases hp; subst e
          exact ⟨Nat.zero_le _, by simpa using h0, by simp⟩
        · obtain ⟨k1, k2, k3⟩ := h.writing u x i hx hp
          refine ⟨k1, k2, ?_⟩
          rw [if_neg ?_]
          · exact k3
          · intro e; rw [e, hn] at k3; cases k3
      · intro u x hx hp
        rw [e1, hset] at hx
        rw [e2]
        split at hx
        · cases hx; cases hp
        · exact h.done u x hx hp
      · intro k' u hu
        rw [e3] at hu
        rw [e1, hset]
        split at hu
        · rename_i e; cases hu; exact ⟨⟨k, p, .writing 0⟩, 0, by simp, e.symm, rfl⟩
        · obtain ⟨x, i, k1, k2, k3⟩ := h.held k' u hu
          refine ⟨x, i, ?_, k2, k3⟩
          rw [if_neg ?_]
          · exact k1
          · rintro rfl; rw [hw] at k1; cases k1; cases k3
    | done => simp [wstep, hw] at hs
    | writing i =>
      obtain ⟨hle, hout, hhold⟩ := h.writing t _ i hw rfl
      dsimp only at hle hhold hpt hk
      by_cases hi : i < p
      · have : s' = { s with writers := s.writers.set t ⟨k, p, .writing (i + 1)⟩, out := s.out ++ [(t, i)] } := by
          simp only [wstep, hw, if_pos hi] at hs; cases hs; rfl
        subst this
        have hfull : piecesOf (s.out ++ [(t, i)]) t = (frameOf fs.pieces t).take (i + 1) := by
          rw [piecesOf_append, piecesOf_self, hout, take_frame (by rw [hpt]; exact hi)]
        have hoth : ∀ u, u ≠ t → piecesOf (s.out ++ [(t, i)]) u = piecesOf s.out u := fun u hu => by
          rw [piecesOf_append, piecesOf_other i (fun e => hu e.symm), List.append_nil]
        have hlt : t < fs.length := (List.getElem?_eq_some_iff.mp hk).1
        refine ⟨by simpa using h.len, ?_, ?_, ?_, ?_, ?_, ?_, ?_⟩
        · intro u x hx
          simp only [hset] at hx
          split at hx
          · rename_i e; cases hx; subst e; exact hk
          · exact h.kinds u x hx
        · intro u x hx hp
          simp only [hset] at hx
          split at hx
          · cases hx; cases hp
          · rename_i e; show piecesOf (s.out ++ _) u = _; rw [hoth u e]; exact h.start u x hx hp
        · intro u x j hx hp
          simp only [hset] at hx
          split at hx
          · rename_i e; cases hx; cases hp; subst e; exact ⟨hi, hfull, hhold⟩
          · rename_i e
            obtain ⟨k1, k2, k3⟩ := h.writing u x j hx hp
            exact ⟨k1, (hoth u e).trans k2, k3⟩
        · intro u x hx hp
          simp only [hset] at hx
          split at hx
          · cases hx; cases hp
          · rename_i e; show piecesOf (s.out ++ _) u = _; rw [hoth u e]; exact h.done u x hx hp
        · intro k' u hu
          obtain ⟨x, j, k1, k2, k3⟩ := h.held k' u hu
          simp only [hset]
          by_cases e : u = t
          · subst e; rw [hw] at k1; cases k1
            exact ⟨⟨k, p, .writing (i + 1)⟩, i + 1, by simp, k2, rfl⟩
          · exact ⟨x, j, by rw [if_neg e]; exact k1, k2, k3⟩
        · intro x hx
          rcases List.mem_append.mp hx with hx | hx
          · exact h.out x hx
          · rw [List.mem_singleton] at hx; subst hx; exact hlt
        · refine wireable_snoc h.ok (by rw [hfull]; exact List.take_prefix _ _) ?_
          rintro u hu ⟨x, y, hx, hy, hxy⟩ hne
          rw [hk] at hy; cases hy
          have hul : u < s.writers.length := by rw [h.len]; exact (List.getElem?_eq_some_iff.mp hx).1
          have hgu := List.getElem?_eq_getElem hul
          have hku := h.kinds u _ hgu
          rw [hx] at hku
          cases hpc : s.writers[u].pc with
          | start => exact absurd (h.start u _ hgu hpc) hne
          | done => exact h.done u _ hgu hpc
          | writing j =>
            have k3 := (h.writing u _ j hgu hpc).2.2
            have : s.writers[u].kind = k := by cases hku; exact hxy
            rw [this, hhold] at k3
            cases k3; exact absurd rfl hu
      · have hip : i = p := by omega
        obtain ⟨e1, e2, e3⟩ : s'.writers = s.writers.set t ⟨k, p, .done⟩ ∧ s'.out = s.out ∧
            ∀ k', holder s' k' = if k' = k then none else holder s k' := by
          cases k <;> simp only [wstep, hw, if_neg hi] at hs <;> cases hs <;>
            exact ⟨rfl, rfl, fun k' => by cases k' <;> simp [holder]⟩
        have hfull : piecesOf s.out t = frameOf fs.pieces t := by
          rw [hout, List.take_of_length_le]
          simp only [frameOf, List.length_map, List.length_range, hpt]; omega
        refine ⟨by rw [e1]; simpa using h.len, ?_, ?_, ?_, ?_, ?_, by rw [e2]; exact h.out, by rw [e2]; exact h.ok⟩
        · intro u x hx
          rw [e1, hset] at hx
          split at hx
          · rename_i e; cases hx; subst e; exact hk
          · exact h.kinds u x hx
        · intro u x hx hp
          rw [e1, hset] at hx
          rw [e2]
          split at hx
          · cases hx; cases hp
          · exact h.start u x hx hp
        · intro u x j hx hp
          rw [e1, hset] at hx
          rw [e2, e3]
          split at hx
          · cases hx; cases hp
          · rename_i e
            obtain ⟨k1, k2, k3⟩ := h.writing u x j hx hp
            refine ⟨k1, k2, ?_⟩
            rw [if_neg ?_]
            · exact k3
            · intro e'; rw [e', hhold] at k3; cases k3; exact e rfl
        · intro u x hx hp
          rw [e1, hset] at hx
          rw [e2]
          split at hx
          · rename_i e; subst e; exact hfull
          · exact h.done u x hx hp
        · intro k' u hu
          rw [e3] at hu
          rw [e1, hset]
          split at hu
          · cases hu
          · rename_i ek
            obtain ⟨x, j, k1, k2, k3⟩ := h.held k' u hu
            refine ⟨x, j, ?_, k2, k3⟩
            rw [if_neg ?_]
            · exact k1
            · rintro rfl; rw [hw] at k1; cases k1; exact ek k2.symm

theorem wrun_append (ts us : List Nat) : ∀ s, wrun s (ts ++ us) = (wrun s ts).bind fun s' => wrun s' us := by
  induction ts with
  | nil => intro s; rfl
  | cons t ts ih =>
    intro s
    simp only [List.cons_append, wrun]
    cases wstep s t with
    | none => rfl
    | some s' => exact ih s'

theorem inv_run {ts : List Nat} : ∀ {s s' : Wire}, Inv fs s → wrun s ts = some s' → Inv fs s' := by
  induction ts with
  | nil => intro s s' h hr; cases hr; exact h
  | cons t ts ih =>
    intro s s' h hr
    simp only [wrun, Option.bind_eq_some_iff] at hr
    obtain ⟨s1, h1, h2⟩ := hr
    exact ih (inv_step h h1) h2

/-- the steps that a goroutine still has to take -/
def left (w : Writer) : Nat :=
  match w.pc with
  | .start => w.pieces + 2
  | .writing i => w.pieces - i + 1
  | .done => 0

theorem sum_set {l : List Writer} : ∀ {t : Nat} {x y : Writer}, l[t]? = some x →
    ((l.set t y).map left).sum + left x = (l.map left).sum + left y := by
  induction l with
  | nil => intro t x y h; simp at h
  | cons a l ih =>
    intro t x y h
    cases t with
    | zero => simp only [List.getElem?_cons_zero, Option.some.injEq] at h; subst h; simp; omega
    | succ t =>
      have := ih (t := t) (x := x) (y := y) (by simpa using h)
      simp only [List.set_cons_succ, List.map_cons, List.sum_cons]; omega

/-- every step is one step less -/
theorem left_step (hs : wstep s t = some s') : (s'.writers.map left).sum + 1 = (s.writers.map left).sum := by
  cases hw : s.writers[t]? with
  | none => simp [wstep, hw] at hs
  | some w =>
    obtain ⟨k, p, pc⟩ := w
    have hsum := fun y => @sum_set s.writers t _ y hw
    cases pc with
    | start =>
      have := hsum ⟨k, p, .writing 0⟩
      simp only [left] at this
      cases k <;> simp only [wstep, hw] at hs <;> split at hs <;> cases hs <;> dsimp only at this ⊢ <;> omega
    | done => simp [wstep, hw] at hs
    | writing i =>
      have h1 := hsum ⟨k, p, .writing (i + 1)⟩
      have h2 := hsum ⟨k, p, .done⟩
      simp only [left] at h1 h2
      by_cases hi : i < p
      · simp only [wstep, hw, if_pos hi] at hs; cases hs; dsimp only; omega
      · cases k <;> simp only [wstep, hw, if_neg hi] at hs <;> cases hs <;> dsimp only <;> omega

theorem left_run {ts : List Nat} : ∀ {s s' : Wire}, wrun s ts = some s' →
    (s'.writers.map left).sum + ts.length = (s.writers.map left).sum := by
  induction ts with
  | nil => intro s s' hr; cases hr; simp
  | cons t ts ih =>
    intro s s' hr
    simp only [wrun, Option.bind_eq_some_iff] at hr
    obtain ⟨s1, h1, h2⟩ := hr
    have := ih h2
    have := left_step h1
    simp only [List.length_cons]; omega

/-- a goroutine that is writing can go on -/
theorem writing_goes {w : Writer} {i : Nat} (hw : s.writers[t]? = some w) (hp : w.pc = .writing i) : (wstep s t).isSome := by
  obtain ⟨k, p, pc⟩ := w
  cases hp
  by_cases hi : i < p
  · simp [wstep, hw, hi]
  · cases k <;> simp [wstep, hw, hi]

theorem goes {w : Writer} (h : Inv fs s) (hw : s.writers[t]? = some w) (hn : w.pc ≠ .done) : ∃ u, (wstep s u).isSome := by
  cases hp : w.pc with
  | done => exact absurd hp hn
  | writing i => exact ⟨t, writing_goes hw hp⟩
  | start =>
    cases hh : holder s w.kind with
    | none => exact ⟨t, by rw [step_start hw hp hh]; rfl⟩
    | some u =>
      obtain ⟨x, i, k1, _, k3⟩ := h.held _ u hh
      exact ⟨u, writing_goes k1 k3⟩

theorem finish : ∀ (n : Nat) {s : Wire}, (s.writers.map left).sum = n → Inv fs s →
    ∃ us s', wrun s us = some s' ∧ ∀ w ∈ s'.writers, w.pc = .done := by
  intro n
  induction n with
  | zero =>
    intro s hn h
    refine ⟨[], s, rfl, fun w hw => ?_⟩
    obtain ⟨t, ht⟩ := List.mem_iff_getElem?.mp hw
    have := sum_set (y := ⟨.message, 0, .done⟩) ht
    simp only [hn, left] at this
    split at this
    · omega
    · omega
    · assumption
  | succ n ih =>
    intro s hn h
    by_cases hd : ∀ w ∈ s.writers, w.pc = .done
    · exact ⟨[], s, rfl, hd⟩
    · obtain ⟨w, hw⟩ := Classical.not_forall.mp hd
      obtain ⟨hw, hne⟩ := Classical.not_imp.mp hw
      obtain ⟨t, ht⟩ := List.mem_iff_getElem?.mp hw
      obtain ⟨u, hu⟩ := goes h ht hne
      obtain ⟨s1, h1⟩ := Option.isSome_iff_exists.mp hu
      obtain ⟨us, s', h2, h3⟩ := ih (by have := left_step h1; omega) (inv_step h h1)
      exact ⟨u :: us, s', by simp [wrun, h1, h2], h3⟩

theorem out_step (hs : wstep s t = some s') : s.out <+: s'.out := by
  cases hw : s.writers[t]? with
  | none => simp [wstep, hw] at hs
  | some w =>
    obtain ⟨k, p, pc⟩ := w
    cases pc with
    | start => cases k <;> simp only [wstep, hw] at hs <;> split at hs <;> cases hs <;> exact List.prefix_rfl
    | done => simp [wstep, hw] at hs
    | writing i =>
      by_cases hi : i < p
      · simp only [wstep, hw, if_pos hi] at hs; cases hs; exact List.prefix_append _ _
      · cases k <;> simp only [wstep, hw, if_neg hi] at hs <;> cases hs <;> exact List.prefix_rfl

theorem out_run {ts : List Nat} : ∀ {s s' : Wire}, wrun s ts = some s' → s.out <+: s'.out := by
  induction ts with
  | nil => intro s s' hr; cases hr; exact List.prefix_rfl
  | cons t ts ih =>
    intro s s' hr
    simp only [wrun, Option.bind_eq_some_iff] at hr
    obtain ⟨s1, h1, h2⟩ := hr
    exact (out_step h1).trans (ih h2)

/-- whoever holds a mutex has written a piece -/
def Begun (s : Wire) : Prop := ∀ k t, holder s k = some t → piecesOf s.out t ≠ []

theorem next_piece {w : List (Nat × Nat)} {t i j : Nat} (h : piecesOf (w ++ [(t, j)]) t <+: frameOf fs.pieces t)
    (hi : i ≤ fs.pieces t) (hw : piecesOf w t = (frameOf fs.pieces t).take i) : j = i ∧ i < fs.pieces t := by
  rw [piecesOf_append, piecesOf_self, hw] at h
  have hlen : ((frameOf fs.pieces t).take i).length = i := by
    simp only [List.length_take, frameOf, List.length_map, List.length_range]; omega
  obtain ⟨r, hr⟩ := h
  have hat : (frameOf fs.pieces t)[i]? = some (t, j) := by
    rw [← hr, List.append_assoc, List.getElem?_append_right (by omega)]
    simp [hlen]
  have hlt : i < fs.pieces t := by
    have := (List.getElem?_eq_some_iff.mp hat).1
    simpa [frameOf] using this
  refine ⟨?_, hlt⟩
  simp only [frameOf, List.getElem?_map, List.getElem?_range hlt, Option.map_some, Option.some.injEq, Prod.mk.injEq] at hat
  exact hat.2.symm

/-- the piece of a goroutine that is writing -/
theorem write_piece {w : Writer} {i : Nat} (hw : s.writers[t]? = some w) (hp : w.pc = .writing i) (hi : i < w.pieces) :
    wstep s t = some { s with writers := s.writers.set t { w with pc := .writing (i + 1) }, out := s.out ++ [(t, i)] } := by
  simp [wstep, hw, hp, hi]

/-- a goroutine that has written all lets go -/
theorem let_go {w : Writer} {i : Nat} (hw : s.writers[t]? = some w) (hp : w.pc = .writing i) (hi : ¬ i < w.pieces) :
    ∃ s', wstep s t = some s' ∧ s'.out = s.out ∧ (∀ k, holder s' k = if k = w.kind then none else holder s k) ∧
      ∀ u, u ≠ t → s'.writers[u]? = s.writers[u]? := by
  obtain ⟨k, p, pc⟩ := w
  cases hp
  have hset := fun (y : Writer) (u : Nat) (e : u ≠ t) => (@set_get _ _ _ _ y hw u).trans (if_neg e)
  dsimp only at hi
  cases k
  · exact ⟨{ s with writers := s.writers.set t ⟨.message, p, .done⟩, lock := none }, by simp [wstep, hw, hi], rfl,
      fun k' => by cases k' <;> simp [holder], fun u e => hset _ u e⟩
  · exact ⟨{ s with writers := s.writers.set t ⟨.control, p, .done⟩, reader := none }, by simp [wstep, hw, hi], rfl,
      fun k' => by cases k' <;> simp [holder], fun u e => hset _ u e⟩

/-- a goroutine that may begin writes its first piece -/
theorem first_piece {w : Writer} (hw : s.writers[t]? = some w) (hp : w.pc = .start) (hh : holder s w.kind = none)
    (hpos : 0 < w.pieces) :
    ∃ s', wrun s [t, t] = some s' ∧ s'.out = s.out ++ [(t, 0)] ∧
      ∀ k, holder s' k = if k = w.kind then some t else holder s k := by
  obtain ⟨k, p, pc⟩ := w
  cases hp
  have h1 := step_start hw rfl hh
  have hlt : t < s.writers.length := (List.getElem?_eq_some_iff.mp hw).1
  cases k <;> dsimp only at h1 hpos
  · refine ⟨_, by simp only [wrun, h1, Option.bind_some]; rw [write_piece (w := ⟨.message, p, .writing 0⟩) (i := 0) (by simp [hlt]) rfl hpos]; rfl, rfl, ?_⟩
    intro k'; cases k' <;> simp [holder]
  · refine ⟨_, by simp only [wrun, h1, Option.bind_some]; rw [write_piece (w := ⟨.control, p, .writing 0⟩) (i := 0) (by simp [hlt]) rfl hpos]; rfl, rfl, ?_⟩
    intro k'; cases k' <;> simp [holder]

theorem snoc_ind {P : List (Nat × Nat) → Prop} (h0 : P []) (h1 : ∀ l x, P l → P (l ++ [x])) : ∀ l, P l := by
  intro l
  rw [← List.reverse_reverse l]
  induction l.reverse with
  | nil => exact h0
  | cons x t ih => rw [List.reverse_cons]; exact h1 _ _ ih

theorem complete (w : List (Nat × Nat)) : Wireable fs w →
    ∃ ts s, wrun (framesStart fs) ts = some s ∧ s.out = w ∧ Begun s := by
  induction w using snoc_ind with
  | h0 => intro _; exact ⟨[], _, rfl, rfl, fun k t h => by cases k <;> cases h⟩
  | h1 l x ih =>
    intro h
    obtain ⟨t, j⟩ := x
    obtain ⟨ts, s, hr, rfl, hb⟩ := ih (wireable_init h)
    have hi := inv_run (inv_start fs) hr
    have hown := h.own t
    have hlt : t < fs.length := by
      have hne : frameOf fs.pieces t ≠ [] := by
        intro e
        rw [e, piecesOf_append, piecesOf_self] at hown
        have := hown.length_le
        simp at this
      refine Classical.byContradiction fun hn => hne ?_
      simp [frameOf, Frames.pieces, List.getElem?_eq_none (Nat.le_of_not_lt hn)]
    obtain ⟨w, hgt⟩ : ∃ w, s.writers[t]? = some w :=
      ⟨_, List.getElem?_eq_getElem (show t < s.writers.length by rw [hi.len]; exact hlt)⟩
    have hpt := pieces_at hi hgt
    have grow : ∀ us s', wrun s us = some s' → s'.out = s.out ++ [(t, j)] →
        (∀ k u, holder s' k = some u → u = t ∨ holder s k = some u) →
        ∃ ts s'', wrun (framesStart fs) ts = some s'' ∧ s''.out = s.out ++ [(t, j)] ∧ Begun s'' := by
      intro us s' h1 h2 h3
      refine ⟨ts ++ us, s', by rw [wrun_append, hr]; exact h1, h2, fun k u hu => ?_⟩
      rw [h2, piecesOf_append]
      rcases h3 k u hu with rfl | h4
      · rw [piecesOf_self]; simp
      · have := hb k u h4; simp [this]
    cases hpc : w.pc with
    | done =>
      have hd := hi.done t w hgt hpc
      have hlen : (frameOf fs.pieces t).take (fs.pieces t) = frameOf fs.pieces t := List.take_of_length_le (by simp [frameOf])
      exact absurd (next_piece hown (Nat.le_refl _) (hd.trans hlen.symm)).2 (Nat.lt_irrefl _)
    | writing i =>
      obtain ⟨hle, hout, _⟩ := hi.writing t w i hgt hpc
      obtain ⟨rfl, hlt'⟩ := next_piece hown (by rw [hpt]; exact hle) hout
      refine grow [t] _ (by simp only [wrun]; rw [write_piece hgt hpc (by rw [← hpt]; exact hlt')]; rfl) rfl ?_
      intro k u hu
      exact .inr (by cases k <;> exact hu)
    | start =>
      obtain ⟨rfl, hpos⟩ := next_piece (i := 0) hown (Nat.zero_le _) (by simpa using hi.start t w hgt hpc)
      rw [hpt] at hpos
      cases hh : holder s w.kind with
      | none =>
        obtain ⟨s', h1, h2, h3⟩ := first_piece hgt hpc hh hpos
        refine grow _ s' h1 h2 fun k u hu => ?_
        rw [h3] at hu
        split at hu
        · cases hu; exact .inl rfl
        · exact .inr hu
      | some u =>
        obtain ⟨x, i, k1, k2, k3⟩ := hi.held _ u hh
        have hut : u ≠ t := by rintro rfl; rw [hgt] at k1; cases k1; rw [hpc] at k3; cases k3
        have hfull := h.apart s.out t 0 [] rfl u hut
          ⟨_, _, hi.kinds u x k1, hi.kinds t w hgt, k2⟩ (hb _ u hh)
        obtain ⟨hle, hout, _⟩ := hi.writing u x i k1 k3
        have hpu := pieces_at hi k1
        have hni : ¬ i < x.pieces := by
          intro hlt'
          have := congrArg List.length (hout.symm.trans hfull)
          simp only [List.length_take, frameOf, List.length_map, List.length_range] at this
          omega
        obtain ⟨s1, g1, g2, g3, g4⟩ := let_go k1 k3 hni
        obtain ⟨s', h1, h2, h3⟩ := first_piece (s := s1) (t := t) (w := w) (by rw [g4 t (fun e => hut e.symm)]; exact hgt) hpc
          (by rw [g3, k2]; simp) hpos
        refine grow (u :: [t, t]) s' (by rw [wrun, g1]; exact h1) (by rw [h2, g2]) fun k v hv => ?_
        rw [h3] at hv
        split at hv
        · cases hv; exact .inl rfl
        · rw [g3] at hv
          split at hv
          · cases hv
          · exact .inr hv

end Pieces

/-- C124: any number of goroutines write messages while the reading goroutine answers pings. Exactly these pieces can be on
the wire at some time: those where the pieces of every frame are in order, and where a frame begins only after all frames of
its kind that were begun before are complete. -/
theorem c124_exact (fs : Frames) (w : List (Nat × Nat)) :
    (∃ ts s, wrun (framesStart fs) ts = some s ∧ s.out = w) ↔ Wireable fs w := by
  constructor
  · rintro ⟨ts, s, h, rfl⟩
    exact (Pieces.inv_run (Pieces.inv_start fs) h).ok
  · intro h
    obtain ⟨ts, s, h1, h2, _⟩ := Pieces.complete w h
    exact ⟨ts, s, h1, h2⟩

/-- C124: nobody waits for ever: whatever happened so far, all can still write their frames, and no run has more than
two steps and one for each piece of every goroutine. -/
theorem c124_returns {fs : Frames} {ts : List Nat} {s : Wire} (h : wrun (framesStart fs) ts = some s) :
    (∃ us s', wrun s us = some s' ∧ ∀ w ∈ s'.writers, w.pc = .done) ∧
    ((∃ w ∈ s.writers, w.pc ≠ .done) → ∃ u, (wstep s u).isSome) ∧
    ts.length ≤ (fs.map fun f => f.2 + 2).sum := by
  have hi := Pieces.inv_run (Pieces.inv_start fs) h
  refine ⟨Pieces.finish _ rfl hi, ?_, ?_⟩
  · rintro ⟨w, hw, hn⟩
    obtain ⟨t, ht⟩ := List.mem_iff_getElem?.mp hw
    exact Pieces.goes hi ht hn
  · have h1 := Pieces.left_run h
    have h2 : ((framesStart fs).writers.map Pieces.left) = fs.map fun f => f.2 + 2 := by
      simp [framesStart, Pieces.left, Function.comp_def]
    rw [h2] at h1
    omega

/-- C124: exactly these pieces can be on the wire when all have written: those that may be there and have every frame whole. -/
theorem c124_all (fs : Frames) (w : List (Nat × Nat)) :
    (∃ ts s, wrun (framesStart fs) ts = some s ∧ (∀ x ∈ s.writers, x.pc = .done) ∧ s.out = w) ↔
      Wireable fs w ∧ ∀ t, piecesOf w t = frameOf fs.pieces t := by
  constructor
  · rintro ⟨ts, s, h, hd, rfl⟩
    have hi := Pieces.inv_run (Pieces.inv_start fs) h
    refine ⟨hi.ok, fun t => ?_⟩
    by_cases hlt : t < s.writers.length
    · exact hi.done t _ (List.getElem?_eq_getElem hlt) (hd _ (List.getElem_mem hlt))
    · have e : frameOf fs.pieces t = [] := by
        simp [frameOf, Frames.pieces, List.getElem?_eq_none (show fs.length ≤ t by rw [← hi.len]; omega)]
      have := hi.ok.own t
      rw [e] at this ⊢
      exact List.prefix_nil.mp this
  · rintro ⟨h, hfull⟩
    obtain ⟨ts, s, h1, rfl, _⟩ := Pieces.complete w h
    have hi := Pieces.inv_run (Pieces.inv_start fs) h1
    obtain ⟨us, s', h2, h3⟩ := Pieces.finish _ rfl hi
    refine ⟨ts ++ us, s', by rw [Pieces.wrun_append, h1]; exact h2, h3, ?_⟩
    obtain ⟨r, hr⟩ := Pieces.out_run h2
    have hi' := Pieces.inv_run hi h2
    have : r = [] := by
      refine List.eq_nil_iff_forall_not_mem.mpr fun x hx => ?_
      have h4 := hi'.ok.own x.1
      rw [← hr, Pieces.piecesOf_append, hfull] at h4
      have h5 := h4.length_le
      have h6 : x ∈ piecesOf r x.1 := by simp [piecesOf, hx]
      have h7 := List.length_pos_of_mem h6
      rw [List.length_append] at h5
      omega
    rw [← hr, this, List.append_nil]

/-- C124: between two pieces of a frame there is no piece of another frame of its kind. -/
theorem c124_whole {fs : Frames} {ts : List Nat} {s : Wire} (h : wrun (framesStart fs) ts = some s)
    {a b c : List (Nat × Nat)} {t i u j k : Nat} (hs : SameKind fs u t)
    (ho : s.out = a ++ (t, i) :: (b ++ (u, j) :: (c ++ [(t, k)]))) : u = t := by
  refine Classical.byContradiction fun hne => ?_
  have hw := (c124_exact fs s.out).mp ⟨ts, s, h, rfl⟩
  obtain ⟨x, y, h1, h2, h3⟩ := hs
  have hfull := hw.apart (a ++ (t, i) :: b) u j (c ++ [(t, k)]) (by rw [ho]; simp) t (fun e => hne e.symm)
    ⟨y, x, h2, h1, h3.symm⟩ (by simp [piecesOf])
  have hown := (hw.own t).length_le
  have e : s.out = (a ++ (t, i) :: b) ++ ((u, j) :: c ++ [(t, k)]) := by rw [ho]; simp
  rw [e, Pieces.piecesOf_append, hfull, Pieces.piecesOf_append, Pieces.piecesOf_self] at hown
  simp only [List.length_append, List.length_singleton] at hown
  omega

/-- an answer to a ping in the middle of a message is possible, a message in the middle of another is not -/
example : Wireable [(.message, 2), (.control, 1), (.message, 2)] [(0, 0), (1, 0), (0, 1), (2, 0), (2, 1)] ∧
    ¬ Wireable [(.message, 2), (.control, 1), (.message, 2)] [(0, 0), (2, 0), (0, 1)] := by
  constructor
  · refine (c124_exact _ _).mp ⟨[0, 0, 1, 1, 0, 0, 2, 2, 2], _, rfl, rfl⟩
  · intro h
    have := h.apart [(0, 0)] 2 0 [(0, 1)] rfl 0 (by decide) ⟨_, _, rfl, rfl, rfl⟩ (by decide)
    exact absurd this (by decide)

end Neffos
