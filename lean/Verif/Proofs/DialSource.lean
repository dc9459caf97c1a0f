import Verif.Proofs.Dial

/-! # Where an error of `Dial` comes from (C99) -/

set_option autoImplicit false

namespace Neffos.Dialing

open Neffos.Spec

variable {native : Bool} {s s' : DialSt}

/-- where an error can come from, whatever the server sends -/
def Src (s : DialSt) (e : GoErr) : Prop :=
  (s.unsent = true ∧ e = errWrite) ∨ e ∈ s.fails ∨ ∃ t, 72 :: t ∈ s.reads ∧ e = .text t

structure SrcInv (s : DialSt) (p q : LPc) : Prop where
  lat : ∀ e, s.lat.err = some e → Src s e
  q : ∀ e, q = .uCheck (some e) ∨ q = .uErr (some e) → Src s e
  p : ∀ e, p = .wDone (some e) → Src s e
  dial : ∀ e, s.dial = .close e ∨ s.dial = .done (.err e) → Src s e

theorem src_mono {t : DialSt} {e : GoErr} (h : Src s e) (h1 : s.unsent = true → t.unsent = true)
    (h2 : ∀ e ∈ s.fails, e ∈ t.fails) (h3 : ∀ b ∈ s.reads, b ∈ t.reads) : Src t e := by
  rcases h with ⟨a, b⟩ | a | ⟨x, a, b⟩
  · exact .inl ⟨h1 a, b⟩
  · exact .inr (.inl (h2 _ a))
  · exact .inr (.inr ⟨x, h3 _ a, b⟩)

theorem src_next {p q p' q' : LPc} (h : LatInv native s p q) (hi : SrcInv s p q) (h' : LatInv native s' p' q')
    (hx : DNext native s p q s' p' q') : SrcInv s' p' q' := by
  obtain ⟨i1, i2, i3, i4⟩ := hi
  have calm := h'.calm
  have pw := h.pw
  have qk := h.qk
  clear h h'
  have up : ∀ {t : DialSt} {a b : LPc}, (s.unsent = true → t.unsent = true) → (∀ e ∈ s.fails, e ∈ t.fails) →
      (∀ b ∈ s.reads, b ∈ t.reads) → (∀ e, t.lat.err = some e → Src s e ∨ Src t e) →
      (∀ e, b = .uCheck (some e) ∨ b = .uErr (some e) → Src s e ∨ Src t e) →
      (∀ e, a = .wDone (some e) → Src s e ∨ Src t e) →
      (∀ e, t.dial = .close e ∨ t.dial = .done (.err e) → Src s e ∨ Src t e) → SrcInv t a b := by
    intro t a b h1 h2 h3 k1 k2 k3 k4
    have m : ∀ {e}, Src s e ∨ Src t e → Src t e := fun h => h.elim (fun h => src_mono h h1 h2 h3) id
    exact ⟨fun e h => m (k1 e h), fun e h => m (k2 e h), fun e h => m (k3 e h), fun e h => m (k4 e h)⟩
  cases hx
  case lat0 =>
    rename_i hd hne hl ht
    rcases lstep_cases hl calm (g0 q) ht with h | h | h | h | h | h | h | h | h | h | h <;>
      refine up (fun h => h) (fun _ h => h) (fun _ h => h) ?_ ?_ ?_ ?_ <;> clear up <;> grind [LPc.waits]
  case lat1 =>
    rename_i hd hl ht
    rcases lstep_cases hl calm (g1 p) ht with h | h | h | h | h | h | h | h | h | h | h <;>
      refine up (fun h => h) (fun _ h => h) (fun _ h => h) ?_ ?_ ?_ ?_ <;> clear up <;> grind [LPc.waits]
  all_goals
    refine up ?_ ?_ ?_ ?_ ?_ ?_ ?_ <;> (try simp only [shut_lat, shut_rd, shut_dial, shut_reads, shut_fails, shut_unsent]) <;>
      grind [Src]

theorem reach_src (hr : DialReach native s) : ∃ p q, LatInv native s p q ∧ SrcInv s p q := by
  obtain ⟨ops, h⟩ := hr
  refine run_inv (P := fun s => ∃ p q, LatInv native s p q ∧ SrcInv s p q) ?_
    ⟨_, _, latInv_new, by constructor <;> simp [newDial]⟩ h
  intro s t op ⟨p, q, h, hv⟩ hs
  obtain ⟨p', q', h', hx⟩ := dnext_of_step h hs
  exact ⟨p', q', h', src_next h hv h' hx⟩

/-! ## Clients with only native messages -/

structure NatInv (s : DialSt) : Prop where
  dial : s.dial = .start ∨ s.dial = .ident ∨ ∃ i, s.dial = .done (.client i)
  open' : s.closed = false → s.id = [] ∧ s.acked = true ∧ (s.rd = .start ∨ s.rd = .idle ∨ s.rd = .run ∨ s.rd = .lat .exit ∨ s.rd = .exit)
  res : s.closed = false → ∀ i, s.dial = .done (.client i) → i = []

theorem nat_next {p q p' q' : LPc} (hi : NatInv s) (hx : DNext true s p q s' p' q') : NatInv s' := by
  obtain ⟨i1, i2, i3⟩ := hi
  cases hx <;> constructor <;> (try simp only [shut_lat, shut_rd, shut_dial, shut_reads, shut_fails, shut_unsent, shut_id, shut_closed]) <;> grind

theorem reach_nat (hr : DialReach true s) : NatInv s := by
  obtain ⟨ops, h⟩ := hr
  refine (run_inv (P := fun s => (∃ p q, LatInv true s p q) ∧ NatInv s) ?_
    ⟨⟨_, _, latInv_new⟩, by constructor <;> simp [newDial]⟩ h).2
  intro s t op ⟨⟨p, q, h⟩, hv⟩ hs
  obtain ⟨p', q', h', hx⟩ := dnext_of_step h hs
  exact ⟨⟨p', q', h'⟩, nat_next hv hx⟩

/-! ## `Dial` on its own -/

theorem dialDone {e : Option GoErr} {q : LPc} (hd : s.dial = .wait) (ht : s.lat.ths = [.wDone e, q]) :
    ∃ n ≤ 2, ∃ t r, s.run native (List.replicate n (.dial true)) = some t ∧ t.dial = .done r := by
  refine ⟨2, Nat.le_refl _, ?_⟩
  cases e with
  | none => exact ⟨{ s with dial := .done (.client s.id) }, .client s.id,
      by simp [List.replicate, DialSt.run, DialSt.step, DialSt.dialStep, hd, ht], rfl⟩
  | some e => exact ⟨{ ({ s with dial := .close e } : DialSt).shut with dial := .done (.err e) }, .err e,
      by simp [List.replicate, DialSt.run, DialSt.step, DialSt.dialStep, hd, ht], rfl⟩

theorem dial_more {s t : DialSt} {k : Nat} (hs : s.step native (.dial true) = some t)
    (h : ∃ n ≤ k, ∃ u r, t.run native (List.replicate n (.dial true)) = some u ∧ u.dial = .done r) :
    ∃ n ≤ k + 1, ∃ u r, s.run native (List.replicate n (.dial true)) = some u ∧ u.dial = .done r := by
  obtain ⟨n, hn, u, r, hu, hr⟩ := h
  refine ⟨n + 1, by omega, u, r, ?_, hr⟩
  rw [List.replicate_succ]
  simp only [DialSt.run, hs]
  exact hu

theorem dial_lat {p q : LPc} {l : Latch} (hd : s.dial = .wait) (hp : s.lat.panicked = false) (ht : s.lat.ths = [p, q])
    (hne : ∀ e, p ≠ .wDone e) (hl : lstep s.lat p (fun x => [x, q]) = some l) :
    s.step native (.dial true) = some { s with lat := l } := by
  have e0 : (s.lat.ths[0]? : Option LPc) = some p := by rw [ht]; rfl
  simp only [DialSt.step, DialSt.dialStep, hd, e0, step0 ht hp, hl, Option.map_some]
  split
  · rename_i h; exact absurd (Option.some.inj h) (hne _)
  · rename_i h; exact absurd (Option.some.inj h) (hne _)
  · rfl

theorem dialRead {q : LPc} (hd : s.dial = .wait) (hp : s.lat.panicked = false) (ht : s.lat.ths = [.wRead, q]) :
    ∃ n ≤ 3, ∃ t r, s.run native (List.replicate n (.dial true)) = some t ∧ t.dial = .done r :=
  dial_more (dial_lat (l := { s.lat with ths := [.wDone s.lat.err, q] }) hd hp ht (by simp) rfl) (dialDone hd rfl)

theorem dialWait {p q : LPc} (h : LatInv native s p q) (hd : s.dial = .wait) (hr : s.lat.ready = true)
    (hc : ¬ AtChannel s) : ∃ n ≤ 4, ∃ t r, s.run native (List.replicate n (.dial true)) = some t ∧ t.dial = .done r := by
  have e0 : (s.lat.ths[0]? : Option LPc) = some p := by rw [h.ths]; rfl
  have ht := h.ths
  have hp := h.calm
  have hcl := h.closed
  have pw := h.pw
  simp only [AtChannel, e0, hd, true_and, Option.some.injEq] at hc
  cases p with
  | wCheck => exact dial_more (dial_lat (l := { s.lat with ths := [.wRead, q] }) hd hp ht (by simp) (by simp [lstep, hr])) (dialRead hd hp rfl)
  | wLock =>
    cases hl : s.lat.locked with
    | true => exact dial_more (dial_lat (l := { s.lat with ths := [.wRead, q] }) hd hp ht (by simp) (by simp [lstep, hl])) (dialRead hd hp rfl)
    | false =>
      cases hcc : s.lat.chClosed with
      | true => exact absurd rfl (hcl hcc).2.2
      | false => exact absurd ⟨hcc, .inr ⟨rfl, hl⟩⟩ hc
  | wBlocked =>
    cases hcc : s.lat.chClosed with
    | true => exact dial_more (dial_lat (l := { s.lat with ths := [.wRead, q] }) hd hp ht (by simp) (by simp [lstep, hcc])) (dialRead hd hp rfl)
    | false => exact absurd ⟨hcc, .inl rfl⟩ hc
  | wRead => obtain ⟨n, hn, h⟩ := dialRead (native := native) hd hp ht; exact ⟨n, by omega, h⟩
  | wDone e => obtain ⟨n, hn, h⟩ := dialDone (native := native) hd ht; exact ⟨n, by omega, h⟩
  | _ => cases pw

theorem dialAll {p q : LPc} (h : LatInv native s p q) (hr : s.lat.ready = true) (hc : ¬ AtChannel s)
    (hn : ∀ r, s.dial ≠ .done r) :
    ∃ n ≤ 6, ∃ t r, s.run native (List.replicate n (.dial true)) = some t ∧ t.dial = .done r := by
  have up : ∀ {s : DialSt} {k m : Nat}, k ≤ m →
      (∃ n ≤ k, ∃ t r, s.run native (List.replicate n (.dial true)) = some t ∧ t.dial = .done r) →
      ∃ n ≤ m, ∃ t r, s.run native (List.replicate n (.dial true)) = some t ∧ t.dial = .done r :=
    fun hk ⟨n, hn, h⟩ => ⟨n, Nat.le_trans hn hk, h⟩
  have ident : ∀ {s : DialSt}, s.dial = .ident →
      ∃ n ≤ 1, ∃ t r, s.run native (List.replicate n (.dial true)) = some t ∧ t.dial = .done r := fun {s} hd =>
    ⟨1, Nat.le_refl _, { s with dial := .done (.client s.id) }, _, by simp [DialSt.run, DialSt.step, DialSt.dialStep, hd], rfl⟩
  have write : ∀ {s : DialSt} {p q : LPc}, s.lat.ready = true → LatInv native s p q → s.dial = .write →
      ∃ n ≤ 5, ∃ t r, s.run native (List.replicate n (.dial true)) = some t ∧ t.dial = .done r := by
    intro s p q hr h hd
    have ht := h.ths
    rw [h.early (.inr hd)] at ht
    have hs : s.step native (.dial true) = some { s with dial := .wait } := by simp [DialSt.step, DialSt.dialStep, hd]
    obtain ⟨p', q', h', -⟩ := dnext_of_step h hs
    have hth : [LPc.wCheck, q] = [p', q'] := ht.symm.trans h'.ths
    cases hth
    refine dial_more hs (dialWait h' rfl hr ?_)
    rintro ⟨_, _, h⟩
    have e0 : (s.lat.ths[0]? : Option LPc) = some .wCheck := by rw [ht]; rfl
    rcases h with h | h
    · rw [e0] at h; cases h
    · rw [e0] at h; cases h.1
  cases hd : s.dial with
  | start =>
    have hs : s.step native (.dial true) = some { s with dial := if native then .ident else .write } := by
      simp [DialSt.step, DialSt.dialStep, hd]
    refine dial_more hs ?_
    cases native with
    | true => exact up (by omega) (ident rfl)
    | false =>
      obtain ⟨p', q', h', -⟩ := dnext_of_step h hs
      exact write (s := { s with dial := .write }) hr h' rfl
  | write => exact up (by omega) (write hr h hd)
  | wait => exact up (by omega) (dialWait h hd hr hc)
  | close e =>
    exact ⟨1, by omega, { s.shut with dial := .done (.err e) }, _, by simp [DialSt.run, DialSt.step, DialSt.dialStep, hd], rfl⟩
  | ident => exact up (by omega) (ident hd)
  | done r => exact absurd hd (hn r)

end Neffos.Dialing
