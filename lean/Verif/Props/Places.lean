import Verif.Props.AskRace
import Verif.Spec.Places
/-!
# Where every message ends (C84)

The machine of `Model/AskRace.lean`: any number of Asks, the reader, the goroutines that Asks start and
`Close`, in every interleaving.
-/
set_option autoImplicit false
namespace Neffos
open Spec

variable {cl : Bool} {s s' : ASt}

/-- the reader has message `k` and no callback was called with it -/
def ARd.due (k : Nat) : ARd → Nat
  | .got n | .srvLook n | .connLook n | .srvSend _ n | .connSend _ n => if n = k then 1 else 0
  | _ => 0

/-- in how many places message `k` is, when callbacks were called with the messages of `l` -/
def ASt.places (l : List Nat) (k : Nat) (s : ASt) : Nat :=
  l.count k + s.rd.due k + (s.asks.map (AskT.hold k)).sum

structure PInv (l : List Nat) (s : ASt) : Prop where
  pos : s.pos ≤ s.arr.length
  one : ∀ k, s.places l k = if k < s.pos then 1 else 0
  sorted : l.Pairwise (· < ·)
  last : ∀ k, s.rd.due k = 1 → ∀ x ∈ l, x < k

theorem places_upd (l : List Nat) (k : Nat) {i : Nat} {a a' : AskT} (h : s.asks[i]? = some a)
    (hs : s'.asks = s.asks.set i a') :
    s'.places l k + s.rd.due k + a.hold k = s.places l k + s'.rd.due k + a'.hold k := by
  unfold ASt.places
  rw [hs]
  have := sum_set (AskT.hold k) h a'
  omega

theorem places_put (l : List Nat) (k : Nat) {i : Nat} {a a' : AskT} (h : s.asks[i]? = some a)
    (hs : s'.asks = s.asks.set i a') (hr : s'.rd = s.rd) (ha : a'.hold k = a.hold k) :
    s'.places l k = s.places l k := by
  unfold ASt.places
  rw [hs, hr]
  have := sum_set (AskT.hold k) h a'
  omega

theorem PInv.put {l : List Nat} (hv : PInv l s) {i : Nat} {a a' : AskT} (h : s.asks[i]? = some a)
    (hs : s'.asks = s.asks.set i a') (hr : s'.rd = s.rd) (hp : s'.pos = s.pos) (hl : s'.arr = s.arr)
    (ha : ∀ k, a'.hold k = a.hold k) : PInv l s' := by
  refine ⟨?_, fun k => ?_, hv.sorted, fun k hk => ?_⟩
  · rw [hp, hl]; exact hv.pos
  · rw [places_put l k h hs hr (ha k), hp]; exact hv.one k
  · rw [hr] at hk; exact hv.last k hk

theorem PInv.rd {l : List Nat} (hv : PInv l s) (hs : s'.asks = s.asks) (hp : s'.pos = s.pos) (hl : s'.arr = s.arr)
    (hr : ∀ k, s'.rd.due k = s.rd.due k) : PInv l s' := by
  refine ⟨?_, fun k => ?_, hv.sorted, fun k hk => ?_⟩
  · rw [hp, hl]; exact hv.pos
  · unfold ASt.places; rw [hs, hr, hp]; exact hv.one k
  · rw [hr] at hk; exact hv.last k hk

theorem starts_nil {t : ASt} (h : ∀ k, s.rd ≠ .connLook k) : starts s t = [] := by
  unfold starts
  split
  · exact absurd ‹_› (h _)
  · rfl

theorem starts_same {t : ASt} (h : t.rd = s.rd) : starts s t = [] := by
  unfold starts
  rw [h]
  split
  · rename_i h1 h2; rw [h1] at h2; cases h2
  · rfl

theorem PInv.below {l : List Nat} (hv : PInv l s) {x : Nat} (hx : x ∈ l) : x < s.pos := by
  have h1 := hv.one x
  have h2 : 0 < l.count x := List.count_pos_iff.mpr hx
  unfold ASt.places at h1
  split at h1
  · assumption
  · omega

theorem PInv.quiet {l : List Nat} (h : starts s s' = []) (hv : PInv l s') : PInv (l ++ starts s s') s' := by
  rw [h, List.append_nil]; exact hv

theorem pinv_step {op : AOp} {l : List Nat} (hi : AInv s) (hv : PInv l s) (h : ANext cl s op s') :
    PInv (l ++ starts s s') s' := by
  cases h
  case connNo k hr hi =>
    have e : starts s { s with rd := .handler k } = [k] := by simp [starts, hr]
    rw [e]
    have hd : s.rd.due k = 1 := by simp [hr, ARd.due]
    refine ⟨hv.pos, fun n => ?_, ?_, fun n hn => by simp [ARd.due] at hn⟩
    · have h1 := hv.one n
      have h2 : (l ++ [k]).count n = l.count n + s.rd.due n := by
        rw [List.count_append, List.count_singleton, hr]
        simp [ARd.due]
      show _ = if n < s.pos then 1 else 0
      rw [← h1]
      simp only [ASt.places, h2, ARd.due]
      omega
    · rw [List.pairwise_append]
      refine ⟨hv.sorted, List.pairwise_singleton _ _, fun x hx y hy => ?_⟩
      rw [List.mem_singleton] at hy
      subst hy
      exact hv.last y hd x hx
  case connYes k i hr hi =>
    have e : starts s { s with rd := .connSend i k } = [] := by simp [starts]
    rw [e, List.append_nil]
    exact hv.rd rfl rfl rfl (fun n => by simp [hr, ARd.due])
  case arrive m =>
    refine PInv.quiet (starts_same (by rfl)) ?_
    refine ⟨?_, hv.one, hv.sorted, hv.last⟩
    have := hv.pos
    simp only [List.length_append, List.length_singleton]
    omega
  case call srv h =>
    refine PInv.quiet (starts_same (by rfl)) ?_
    refine ⟨hv.pos, fun k => ?_, hv.sorted, hv.last⟩
    have := hv.one k
    simpa [ASt.places, AskT.hold, boxHold, Help.hold, APc.hold] using this
  case callCb srv n hr h =>
    refine PInv.quiet (starts_nil (by simp [hr])) ?_
    refine ⟨hv.pos, fun k => ?_, hv.sorted, fun k hk => by simp [ARd.due] at hk⟩
    have := hv.one k
    simpa [ASt.places, AskT.hold, boxHold, Help.hold, APc.hold, hr, ARd.due] using this
  case helpR i a h hh hn hp =>
    refine PInv.quiet (starts_same (by rfl)) ?_
    refine ⟨hp, fun k => ?_, hv.sorted, hv.last⟩
    have h1 := hv.one k
    have h2 := places_upd (s' := { s with pos := s.pos + 1 }.put i { a with help := .got (.msg s.pos) }) l k h rfl
    have h3 : ({ s with pos := s.pos + 1 }.put i { a with help := .got (.msg s.pos) }).rd = s.rd := rfl
    have h4 : AskT.hold k { a with help := .got (.msg s.pos) } = a.hold k + if s.pos = k then 1 else 0 := by
      simp only [AskT.hold, hh, Help.hold, Got.hold]; omega
    rw [h3, h4] at h2
    show _ = if k < s.pos + 1 then 1 else 0
    split at h1 <;> split at h2 <;> split <;> omega
  case read hr hn hp =>
    refine PInv.quiet (starts_nil (by simp [hr])) ?_
    refine ⟨hp, fun k => ?_, hv.sorted, fun k hk x hx => ?_⟩
    · have h1 := hv.one k
      simp only [ASt.places, hr, ARd.due] at h1 ⊢
      split at h1 <;> split <;> split <;> omega
    · have : s.pos = k := by
        simp only [ARd.due] at hk
        split at hk
        · assumption
        · omega
      rw [← this]
      exact hv.below hx
  case srvSend i n a hr h hp =>
    refine PInv.quiet (starts_nil (by simp [hr])) ?_
    refine ⟨hv.pos, fun k => ?_, hv.sorted, fun k hk => by simp [ASt.put, ARd.due] at hk⟩
    have h1 := hv.one k
    have h2 := places_upd (s' := { s with rd := .clear }.put i { a with pc := .forget (.msg n) }) l k h rfl
    have h3 : s.rd.due k = if n = k then 1 else 0 := by rw [hr]; rfl
    have h4 : ({ s with rd := .clear }.put i { a with pc := .forget (.msg n) }).rd.due k = 0 := rfl
    have h5 : AskT.hold k { a with pc := .forget (.msg n) } = a.hold k + if n = k then 1 else 0 := by
      simp only [AskT.hold, APc.hold, Got.hold, hp]; omega
    rw [h4, h5, h3] at h2
    show _ = if k < s.pos then 1 else 0
    omega
  case connSend i n a hr h hb =>
    refine PInv.quiet (starts_nil (by simp [hr])) ?_
    refine ⟨hv.pos, fun k => ?_, hv.sorted, fun k hk => by simp [ASt.put, ARd.due] at hk⟩
    have h1 := hv.one k
    have h2 := places_upd (s' := { s with rd := .clear }.put i { a with box := some (.msg n) }) l k h rfl
    have h3 : s.rd.due k = if n = k then 1 else 0 := by rw [hr]; rfl
    have h4 : ({ s with rd := .clear }.put i { a with box := some (.msg n) }).rd.due k = 0 := rfl
    have h5 : AskT.hold k { a with box := some (.msg n) } = a.hold k + if n = k then 1 else 0 := by
      simp only [AskT.hold, boxHold, Got.hold, hb]; omega
    rw [h4, h5, h3] at h2
    show _ = if k < s.pos then 1 else 0
    omega
  case regN i a n o h hp hs hn =>
    refine PInv.quiet (starts_same (by rfl)) ?_
    refine hv.put h rfl rfl rfl rfl (fun k => ?_)
    have : a.help = .none := Classical.byContradiction fun hc => by
      have := ((hi.each i a h).help hc).2
      rw [hp] at this; cases this
    simp only [AskT.hold, hp, this, APc.hold, Help.hold]
  case checkF i a n o r h hp hr hc =>
    refine PInv.quiet (starts_same (by rfl)) ?_
    refine hv.put h rfl rfl rfl rfl (fun k => ?_)
    have : (APc.done r).hold k = 0 := by rw [hr]; split <;> rfl
    simp only [AskT.hold, hp, this]; rfl
  case ctx i a h hp =>
    refine PInv.quiet (starts_same (by rfl)) ?_
    refine hv.put h rfl rfl rfl rfl (fun k => ?_)
    have : (APc.done (if !a.srv && s.closed then .writeErr else .ctxErr)).hold k = 0 := by split <;> rfl
    simp only [AskT.hold, hp, this]; rfl
  case takeN i a n o g h hp hn hb =>
    refine PInv.quiet (starts_same (by rfl)) ?_
    refine hv.put h rfl rfl rfl rfl (fun k => ?_)
    simp only [AskT.hold, hp, hb, APc.hold, boxHold]
    omega
  case take i a n o g h hp hn hb =>
    refine PInv.quiet (starts_same (by rfl)) ?_
    refine hv.put h rfl rfl rfl rfl (fun k => ?_)
    simp only [AskT.hold, hp, hb, APc.hold, boxHold]
    omega
  case helpS i a g h hh hb =>
    refine PInv.quiet (starts_same (by rfl)) ?_
    refine hv.put h rfl rfl rfl rfl (fun k => ?_)
    simp only [AskT.hold, hh, hb, Help.hold, boxHold]
    omega
  case helpE i a h hh hn =>
    refine PInv.quiet (starts_same (by rfl)) ?_
    refine hv.put h rfl rfl rfl rfl (fun k => ?_)
    simp only [AskT.hold, hh, Help.hold, Got.hold]
  all_goals first
    | (refine PInv.quiet (starts_same (by rfl)) ?_
       first
        | exact hv.rd rfl rfl rfl (fun _ => rfl)
        | (refine hv.put (by assumption) rfl rfl rfl rfl (fun k => ?_)
           simp only [AskT.hold, APc.hold, Help.hold, Got.hold, boxHold, *]
           done))
    | (refine PInv.quiet (starts_nil (by simp_all)) ?_
       exact hv.rd rfl rfl rfl (fun n => by simp_all [ARd.due]))

theorem pinv_run {ops : List AOp} {l : List Nat} (hi : AInv s) (hv : PInv l s) (h : s.run cl ops = some s') :
    PInv (l ++ called cl s ops) s' := by
  induction ops generalizing s l with
  | nil => cases h; simpa [called] using hv
  | cons op ops ih =>
    simp only [ASt.run] at h
    simp only [called]
    split at h
    · rename_i t ht
      rw [ht, ← List.append_assoc]
      exact ih (ainv_step hi (anext_of_step ht)) (pinv_step hi hv (anext_of_step ht)) h
    · cases h

theorem pinv_init : PInv [] {} :=
  ⟨Nat.le_refl _, fun k => by simp [ASt.places, ARd.due], .nil, fun k h => by simp [ARd.due] at h⟩

theorem pinv_of {ops : List AOp} (h : ASt.run cl {} ops = some s) : PInv (called cl {} ops) s := by
  simpa using pinv_run (areach_inv (cl := cl) ⟨[], rfl⟩) pinv_init h

theorem called_append {ops ops' : List AOp} (h : s.run cl ops = some s') :
    called cl s (ops ++ ops') = called cl s ops ++ called cl s' ops' := by
  induction ops generalizing s with
  | nil => cases h; simp [called]
  | cons op ops ih =>
    simp only [ASt.run] at h
    simp only [called, List.cons_append]
    split at h
    · rename_i t ht
      simp only [ht, ih h, List.append_assoc]
    · cases h

theorem arun_append {ops ops' : List AOp} (h : s.run cl ops = some s') :
    s.run cl (ops ++ ops') = s'.run cl ops' := by
  induction ops generalizing s with
  | nil => cases h; rfl
  | cons op ops ih =>
    simp only [ASt.run, List.cons_append] at h ⊢
    split at h
    · exact ih h
    · cases h

/-! ## Exactly one place -/

theorem due_iff {r : ARd} {k : Nat} : r.due k = 1 ↔ (r = .got k ∨ r = .srvLook k ∨ r = .connLook k ∨
    (∃ i, r = .srvSend i k) ∨ ∃ i, r = .connSend i k) := by
  cases r <;> simp [ARd.due]

theorem due_le (r : ARd) (k : Nat) : r.due k ≤ 1 := by
  cases r <;> simp only [ARd.due] <;> (try split) <;> omega

theorem one_pos_iff {n k : Nat} : (0 < if n = k then 1 else 0) ↔ n = k := by split <;> simp [*]

theorem hold_pos {a : AskT} {k : Nat} : 0 < a.hold k ↔ Holds a k ∨ a.pc = .done (.answer (.msg k)) := by
  have hb : 0 < boxHold k a.box ↔ a.box = some (.msg k) := by
    cases a.box with
    | none => simp [boxHold]
    | some g => cases g <;> simp [boxHold, Got.hold, one_pos_iff]
  have hh : 0 < a.help.hold k ↔ a.help = .got (.msg k) := by
    cases a.help with
    | got g => cases g <;> simp [Help.hold, Got.hold, one_pos_iff]
    | _ => simp [Help.hold]
  have hp : 0 < a.pc.hold k ↔ a.pc = .forget (.msg k) ∨ a.pc = .done (.answer (.msg k)) := by
    cases a.pc with
    | forget g => cases g <;> simp [APc.hold, Got.hold, one_pos_iff]
    | done r =>
      cases r with
      | answer g => cases g <;> simp [APc.hold, Got.hold, one_pos_iff]
      | _ => simp [APc.hold]
    | _ => simp [APc.hold]
  unfold Holds AskT.hold
  rw [← hb, ← hh]
  constructor
  · intro h
    by_cases h1 : 0 < boxHold k a.box
    · exact .inl (.inl h1)
    by_cases h2 : 0 < a.help.hold k
    · exact .inl (.inr (.inl h2))
    rcases hp.mp (by omega) with h | h
    · exact .inl (.inr (.inr h))
    · exact .inr h
  · rintro ((h | h | h) | h)
    · omega
    · omega
    · have := hp.mpr (.inl h); omega
    · have := hp.mpr (.inr h); omega

/-- an Ask does not hold and return the same message -/
theorem hold_one {a : AskT} {k : Nat} (h1 : Holds a k) (h2 : a.pc = .done (.answer (.msg k))) : 2 ≤ a.hold k := by
  unfold AskT.hold
  have h3 : a.pc.hold k = 1 := by simp [h2, APc.hold, Got.hold]
  rcases h1 with h | h | h
  · have : boxHold k a.box = 1 := by simp [h, boxHold, Got.hold]
    omega
  · have : a.help.hold k = 1 := by simp [h, Help.hold, Got.hold]
    omega
  · rw [h2] at h; cases h

theorem sum_pos_iff {α : Type} {f : α → Nat} {l : List α} : 0 < (l.map f).sum ↔ ∃ (i : Nat) (x : α), l[i]? = some x ∧ 0 < f x := by
  induction l with
  | nil => simp
  | cons a l ih =>
    rw [List.map_cons, List.sum_cons]
    constructor
    · intro h
      by_cases ha : 0 < f a
      · exact ⟨0, a, by simp, ha⟩
      · obtain ⟨i, x, h1, h2⟩ := ih.mp (by omega)
        exact ⟨i + 1, x, by simpa using h1, h2⟩
    · rintro ⟨i, x, h1, h2⟩
      cases i with
      | zero =>
        simp only [List.getElem?_cons_zero, Option.some.injEq] at h1
        subst h1; omega
      | succ i =>
        have := ih.mpr ⟨i, x, by simpa using h1, h2⟩
        omega

/-- C84: every message that arrived is at exactly one place, after every schedule. -/
theorem c84_place {ops : List AOp} {k : Nat} (h : ASt.run cl {} ops = some s) :
    ∃ p, IsAt cl ops s k p ∧ ∀ q, IsAt cl ops s k q → q = p := by
  have hv := pinv_of h
  have h1 := hv.one k
  unfold ASt.places at h1
  have hd := due_le s.rd k
  -- what is known about every place
  have cb : IsAt cl ops s k .callback ↔ 0 < (called cl {} ops).count k := List.count_pos_iff.symm
  have rd : IsAt cl ops s k .reader ↔ s.rd.due k = 1 := due_iff.symm
  have un : IsAt cl ops s k .unread ↔ s.pos ≤ k := Iff.rfl
  have ha : ∀ i, IsAt cl ops s k (.hands i) → ∃ a, s.asks[i]? = some a ∧ 0 < a.hold k :=
    fun i ⟨a, h2, h3⟩ => ⟨a, h2, hold_pos.mpr (.inl h3)⟩
  have re : ∀ i, IsAt cl ops s k (.returned i) → ∃ a, s.asks[i]? = some a ∧ 0 < a.hold k :=
    fun i ⟨a, h2, h3⟩ => ⟨a, h2, hold_pos.mpr (.inr h3)⟩
  have noask : (s.asks.map (AskT.hold k)).sum = 0 → (∀ i, ¬ IsAt cl ops s k (.hands i)) ∧
      ∀ i, ¬ IsAt cl ops s k (.returned i) := by
    intro h0
    refine ⟨fun i hi => ?_, fun i hi => ?_⟩
    · obtain ⟨a, x1, x2⟩ := ha i hi
      have := sum_pos_iff.mpr ⟨i, a, x1, x2⟩
      omega
    · obtain ⟨a, x1, x2⟩ := re i hi
      have := sum_pos_iff.mpr ⟨i, a, x1, x2⟩
      omega
  by_cases hp : k < s.pos
  · rw [if_pos hp] at h1
    have nun : ¬ IsAt cl ops s k .unread := by rw [un]; omega
    by_cases hc : 0 < (called cl {} ops).count k
    · have h0 := noask (by omega)
      refine ⟨.callback, cb.mpr hc, fun q hq => ?_⟩
      cases q with
      | unread => exact absurd hq nun
      | reader => have := rd.mp hq; omega
      | callback => rfl
      | hands i => exact absurd hq (h0.1 i)
      | returned i => exact absurd hq (h0.2 i)
    by_cases hr : s.rd.due k = 1
    · have h0 := noask (by omega)
      refine ⟨.reader, rd.mpr hr, fun q hq => ?_⟩
      cases q with
      | unread => exact absurd hq nun
      | reader => rfl
      | callback => exact absurd (cb.mp hq) hc
      | hands i => exact absurd hq (h0.1 i)
      | returned i => exact absurd hq (h0.2 i)
    obtain ⟨i, a, hi, hpos⟩ := sum_pos_iff.mp (show 0 < (s.asks.map (AskT.hold k)).sum by omega)
    -- no other Ask has it
    have same : ∀ j, (∃ b, s.asks[j]? = some b ∧ 0 < b.hold k) → j = i := by
      rintro j ⟨b, hj, hb⟩
      rcases Nat.lt_trichotomy i j with hij | hij | hij
      · have := two_le_sum (AskT.hold k) hi hj hij
        omega
      · exact hij.symm
      · have := two_le_sum (AskT.hold k) hj hi hij
        omega
    have le := le_sum (AskT.hold k) hi
    rcases hold_pos.mp hpos with hh | hh
    · refine ⟨.hands i, ⟨a, hi, hh⟩, fun q hq => ?_⟩
      cases q with
      | unread => exact absurd hq nun
      | reader => exact absurd (rd.mp hq) hr
      | callback => exact absurd (cb.mp hq) hc
      | hands j => rw [same j (ha j hq)]
      | returned j =>
        have := same j (re j hq)
        subst this
        obtain ⟨b, hb, hb'⟩ := hq
        rw [hi] at hb; cases hb
        have := hold_one hh hb'
        omega
    · refine ⟨.returned i, ⟨a, hi, hh⟩, fun q hq => ?_⟩
      cases q with
      | unread => exact absurd hq nun
      | reader => exact absurd (rd.mp hq) hr
      | callback => exact absurd (cb.mp hq) hc
      | hands j =>
        have := same j (ha j hq)
        subst this
        obtain ⟨b, hb, hb'⟩ := hq
        rw [hi] at hb; cases hb
        have := hold_one hb' hh
        omega
      | returned j => rw [same j (re j hq)]
  · rw [if_neg hp] at h1
    have h0 := noask (by omega)
    refine ⟨.unread, by rw [un]; omega, fun q hq => ?_⟩
    cases q with
    | unread => rfl
    | reader => have := rd.mp hq; omega
    | callback => have := cb.mp hq; omega
    | hands i => exact absurd hq (h0.1 i)
    | returned i => exact absurd hq (h0.2 i)

/-- C84: callbacks are called in the order in which the messages arrived, for each message at most once. -/
theorem c84_order {ops : List AOp} (h : ASt.run cl {} ops = some s) :
    (called cl {} ops).Pairwise (· < ·) ∧ ∀ k ∈ called cl {} ops, k < s.pos :=
  ⟨(pinv_of h).sorted, fun _ hk => (pinv_of h).below hk⟩

/-! ## Messages in the hands of an Ask -/

/-- a `Server.Ask` has no buffer, and while its goroutine works the channel of an Ask is empty -/
structure TidyAsk (a : AskT) : Prop where
  srv : a.srv = true → a.box = none
  help : a.help ≠ .none → a.help ≠ .ended → a.box = none

theorem tidy_step {op : AOp} (hi : AInv s) (hv : ∀ (i : Nat) (a : AskT), s.asks[i]? = some a → TidyAsk a)
    (h : ANext cl s op s') : ∀ (i : Nat) (a : AskT), s'.asks[i]? = some a → TidyAsk a := by
  have upd : ∀ {j : Nat} {b b' : AskT}, s.asks[j]? = some b → (TidyAsk b → TidyAsk b') →
      ∀ (i : Nat) (a : AskT), (s.asks.set j b')[i]? = some a → TidyAsk a := by
    intro j b b' hj hx i a ha
    rcases getElem?_set_some hj ha with ⟨_, rfl⟩ | ⟨_, ha⟩
    · exact hx (hv j b hj)
    · exact hv i a ha
  have app : ∀ srv (i : Nat) (a : AskT), (s.asks ++ [{ srv := srv }])[i]? = some a → TidyAsk a := by
    intro srv i a ha
    by_cases hl : i < s.asks.length
    · rw [List.getElem?_append_left hl] at ha
      exact hv i a ha
    · rw [List.getElem?_append_right (by omega)] at ha
      have := List.mem_of_getElem? ha
      rw [List.mem_singleton] at this
      subst this
      exact ⟨fun _ => rfl, fun _ _ => rfl⟩
  cases h
  case call srv _ => exact app srv
  case callCb srv _ _ _ => exact app srv
  case regN j b n o hj hp _ _ =>
    refine upd hj (fun h => ⟨h.srv, fun _ _ => ?_⟩)
    cases hb : b.box with
    | none => rfl
    | some g =>
      have := ((hi.each j b hj).box g hb).1
      rw [hp] at this; cases this
  case connSend j k b hr hj hb =>
    obtain ⟨t, hl, _⟩ := hi.rdC j k hr
    obtain ⟨c, hc, hn, _, hs, _⟩ := hl.ex
    rw [hj] at hc; cases hc
    refine upd hj (fun h => ⟨fun x => ?_, fun x _ => ?_⟩)
    · have x : b.srv = true := x
      rw [hs] at x; cases x
    · have := ((hi.each j b hj).help x).1
      rw [hn] at this; cases this
  case takeN j b n o g hj hp _ _ => exact upd hj (fun h => ⟨fun _ => rfl, fun _ _ => rfl⟩)
  case take j b n o g hj hp _ _ => exact upd hj (fun h => ⟨fun _ => rfl, fun _ _ => rfl⟩)
  case helpE j b hj hh _ => exact upd hj (fun h => ⟨h.srv, fun _ _ => h.help (by simp [hh]) (by simp [hh])⟩)
  case helpR j b hj hh _ _ => exact upd hj (fun h => ⟨h.srv, fun _ _ => h.help (by simp [hh]) (by simp [hh])⟩)
  case helpS j b g hj hh _ =>
    refine upd hj (fun h => ⟨fun x => ?_, fun _ x => absurd rfl x⟩)
    have x : b.srv = true := x
    have h1 := (hi.each j b hj).srv x
    have h2 := ((hi.each j b hj).help (by simp [hh])).1
    rw [h1] at h2; cases h2
  all_goals first
    | exact hv
    | (refine upd (by assumption) ?_; exact fun h => ⟨h.srv, h.help⟩)

theorem areach_tidy (hr : AReach cl s) : ∀ (i : Nat) (a : AskT), s.asks[i]? = some a → TidyAsk a := by
  have : AInv s ∧ ∀ (i : Nat) (a : AskT), s.asks[i]? = some a → TidyAsk a := by
    refine areach_ind (P := fun s => AInv s ∧ ∀ (i : Nat) (a : AskT), s.asks[i]? = some a → TidyAsk a)
      ⟨⟨(by simp), (by simp [mapGet]), (by simp [mapGet]), (by simp), (by simp)⟩, by simp⟩ ?_ hr
    exact fun s op s' h h' => ⟨ainv_step h.1 h', tidy_step h.1 h.2 h'⟩
  exact this.2

theorem closed_stays {op : AOp} (h : ANext cl s op s') (hc : s.closed = true) : s'.closed = true := by
  have hc' : s.cl ≠ .open := by simpa [ASt.closed] using hc
  cases h <;> (try exact hc) <;> simp_all [ASt.closed]

/-- what a deaf Ask has, it keeps -/
theorem deaf_step {op : AOp} {i k : Nat} {a : AskT} (hi : AInv s) (ht : TidyAsk a) (ha : s.asks[i]? = some a)
    (hh : Holds a k) (hd : Deaf s a k) (h : ANext cl s op s') :
    ∃ a', s'.asks[i]? = some a' ∧ Holds a' k ∧ Deaf s' a' k := by
  have hcl : s.closed = true → s'.closed = true := closed_stays h
  -- the same Ask
  have same : s'.asks[i]? = some a → ∃ a', s'.asks[i]? = some a' ∧ Holds a' k ∧ Deaf s' a' k := fun hx =>
    ⟨a, hx, hh, by
      rcases hd with hd | ⟨h1, h2⟩ | hd
      · exact .inl hd
      · exact .inr (.inl ⟨h1, hcl h2⟩)
      · exact .inr (.inr hd)⟩
  have deaf : ∀ {b : AskT}, b.pc = a.pc → Deaf s' b k := fun hb => by
    rcases hd with hd | ⟨h1, h2⟩ | hd
    · exact .inl (hb ▸ hd)
    · exact .inr (.inl ⟨hb.trans h1, hcl h2⟩)
    · exact .inr (.inr (hb ▸ hd))
  have upd : ∀ {j : Nat} {b b' : AskT}, s'.asks = s.asks.set j b' → s.asks[j]? = some b →
      (b = a → Holds b' k ∧ Deaf s' b' k) → ∃ a', s'.asks[i]? = some a' ∧ Holds a' k ∧ Deaf s' a' k := by
    intro j b b' he hj hx
    by_cases hij : j = i
    · subst hij
      rw [ha] at hj; cases hj
      exact ⟨b', by rw [he, List.getElem?_set_self (List.getElem?_eq_some_iff.mp ha).1], (hx rfl).1, (hx rfl).2⟩
    · exact same (by rw [he, List.getElem?_set_ne hij]; exact ha)
  have no : ∀ {pc : APc}, a.pc = pc → (∀ r, pc ≠ .done r) → pc ≠ .write → (∀ g, pc ≠ .forget g) → False := by
    intro pc h1 h2 h3 h4
    rcases hd with ⟨r, hd⟩ | ⟨hd, _⟩ | ⟨g, hd, _⟩
    · exact h2 r (h1.symm.trans hd)
    · exact h3 (h1.symm.trans hd)
    · exact h4 g (h1.symm.trans hd)
  have app : ∀ srv, s'.asks = s.asks ++ [{ srv := srv }] →
      ∃ a', s'.asks[i]? = some a' ∧ Holds a' k ∧ Deaf s' a' k := fun srv he =>
    same (by rw [he, List.getElem?_append_left (List.getElem?_eq_some_iff.mp ha).1]; exact ha)
  have hsrv : (a.pc = .write ∨ ∃ g, a.pc = .forget g ∧ g ≠ .msg k) → a.srv = true → False := by
    intro hp hs
    have hn := (hi.each i a ha).srv hs
    rcases hh with hh | hh | hh
    · rw [ht.srv hs] at hh; cases hh
    · have := ((hi.each i a ha).help (by simp [hh])).1
      rw [hn] at this; cases this
    · rcases hp with hp | ⟨g, hp, hg⟩
      · rw [hp] at hh; cases hh
      · rw [hp] at hh; cases hh; exact hg rfl
  have hbh : ∀ {pc : APc}, a.pc = pc → (∀ g, pc ≠ .forget g) →
      a.box = some (.msg k) ∨ a.help = .got (.msg k) := by
    intro pc hp hg
    rcases hh with hh | hh | hh
    · exact .inl hh
    · exact .inr hh
    · exact absurd (hp.symm.trans hh) (hg _)
  cases h
  case call srv _ => exact app srv rfl
  case callCb srv _ _ _ => exact app srv rfl
  case write j b n o hj hp ho =>
    refine upd rfl hj (fun e => ?_)
    subst e
    rcases ho with ho | ho
    · exact (hsrv (.inl hp) ho).elim
    · rcases hd with ⟨r, hd⟩ | ⟨_, hd⟩ | ⟨g, hd, _⟩
      · rw [hp] at hd; cases hd
      · rw [hd] at ho; cases ho
      · rw [hp] at hd; cases hd
  case writeF j b n o hj hp _ =>
    refine upd rfl hj (fun e => ?_)
    subst e
    refine ⟨?_, .inl ⟨_, rfl⟩⟩
    rcases hbh hp (by simp) with h | h
    · exact .inl h
    · exact .inr (.inl h)
  case forgetS j b n o g hj hp hs =>
    refine upd rfl hj (fun e => ?_)
    subst e
    rcases hd with ⟨r, hd⟩ | ⟨hd, _⟩ | hd
    · rw [hp] at hd; cases hd
    · rw [hp] at hd; cases hd
    · exact (hsrv (.inr hd) hs).elim
  case forgetC j b n o g hj hp hs =>
    refine upd rfl hj (fun e => ?_)
    subst e
    refine ⟨?_, .inl ⟨_, rfl⟩⟩
    rcases hd with ⟨r, hd⟩ | ⟨hd, _⟩ | ⟨g', hd, hg⟩
    · rw [hp] at hd; cases hd
    · rw [hp] at hd; cases hd
    · rcases hh with hh | hh | hh
      · exact .inl hh
      · exact .inr (.inl hh)
      · rw [hd] at hh; cases hh; exact absurd rfl hg
  case helpE j b hj hb _ =>
    refine upd rfl hj (fun e => ?_)
    subst e
    refine ⟨?_, deaf rfl⟩
    rcases hh with hh | hh | hh
    · exact .inl hh
    · rw [hb] at hh; cases hh
    · exact .inr (.inr hh)
  case helpR j b hj hb _ _ =>
    refine upd rfl hj (fun e => ?_)
    subst e
    refine ⟨?_, deaf rfl⟩
    rcases hh with hh | hh | hh
    · exact .inl hh
    · rw [hb] at hh; cases hh
    · exact .inr (.inr hh)
  case helpS j b g hj hg hb =>
    refine upd rfl hj (fun e => ?_)
    subst e
    refine ⟨?_, deaf rfl⟩
    rcases hh with hh | hh | hh
    · rw [hb] at hh; cases hh
    · rw [hg] at hh; cases hh; exact .inl rfl
    · exact .inr (.inr hh)
  case connSend j n b hr hj hb =>
    refine upd rfl hj (fun e => ?_)
    subst e
    refine ⟨?_, deaf rfl⟩
    rcases hh with hh | hh | hh
    · rw [hb] at hh; cases hh
    · exact .inr (.inl hh)
    · exact .inr (.inr hh)
  all_goals first
    | exact same ha
    | (refine upd rfl (by assumption) ?_
       intro e; subst e; exact (no (by assumption) (by simp) (by simp) (by simp)).elim)

/-- C84: a message that an Ask has that will not return it is lost: whatever happens, no callback is called with it and
no Ask returns it. -/
theorem c84_lost {ops ops' : List AOp} {i k : Nat} {a : AskT} {t : ASt} (h : ASt.run cl {} ops = some s)
    (ha : s.asks[i]? = some a) (hh : Holds a k) (hd : Deaf s a k) (h' : s.run cl ops' = some t) :
    IsAt cl (ops ++ ops') t k (.hands i) ∧ k ∉ called cl {} (ops ++ ops') ∧
      ∀ j, ¬ IsAt cl (ops ++ ops') t k (.returned j) := by
  have main : ∃ b, t.asks[i]? = some b ∧ Holds b k ∧ Deaf t b k := by
    have hi := areach_inv ⟨ops, h⟩
    have ht := areach_tidy ⟨ops, h⟩
    clear h
    induction ops' generalizing s a with
    | nil => cases h'; exact ⟨a, ha, hh, hd⟩
    | cons op ops' ih =>
      simp only [ASt.run] at h'
      split at h'
      · rename_i u hu
        have hn := anext_of_step hu
        obtain ⟨b, h1, h2, h3⟩ := deaf_step hi (ht i a ha) ha hh hd hn
        exact ih h1 h2 h3 h' (ainv_step hi hn) (tidy_step hi ht hn)
      · cases h'
  obtain ⟨b, h1, h2, _⟩ := main
  have hat : IsAt cl (ops ++ ops') t k (.hands i) := ⟨b, h1, h2⟩
  obtain ⟨p, hp, hu⟩ := c84_place (cl := cl) (ops := ops ++ ops') (k := k) ((arun_append h).trans h')
  have := hu _ hat
  subst this
  refine ⟨hat, fun hc => ?_, fun j hj => ?_⟩
  · exact Place.noConfusion (hu .callback hc)
  · exact Place.noConfusion (hu (.returned j) hj)

/-- C84: what an Ask has and is not deaf to, it can return. -/
theorem c84_returns {i k : Nat} {a : AskT} (hr : AReach cl s) (ha : s.asks[i]? = some a) (hh : Holds a k)
    (hd : ¬ Deaf s a k) : ∃ ops t b, s.run cl ops = some t ∧ t.asks[i]? = some b ∧
      b.pc = .done (.answer (.msg k)) := by
  -- the end of the Ask
  have fin : ∀ {u : ASt} {b : AskT}, u.asks[i]? = some b → b.pc = .forget (.msg k) →
      ∃ ops t b, u.run cl ops = some t ∧ t.asks[i]? = some b ∧ b.pc = .done (.answer (.msg k)) := by
    intro u b hu hp
    by_cases hs : b.srv = true
    · refine ⟨[.ask i 0 true], ({ u with srvWaiting := mapDel u.srvWaiting b.tok }.put i { b with pc := .done (.answer (.msg k)) }),
        _, ?_, put_get (s := { u with srvWaiting := mapDel u.srvWaiting b.tok }) hu, rfl⟩
      simp [ASt.run, ASt.step, ASt.askStep, hu, hp, hs]
    · refine ⟨[.ask i 0 true], ({ u with waiting := mapDel u.waiting b.tok }.put i { b with pc := .done (.answer (.msg k)) }),
        _, ?_, put_get (s := { u with waiting := mapDel u.waiting b.tok }) hu, rfl⟩
      simp [ASt.run, ASt.step, ASt.askStep, hu, hp, hs]
  have cons : ∀ {u v : ASt} {op : AOp}, u.step cl op = some v →
      (∃ ops t b, v.run cl ops = some t ∧ t.asks[i]? = some b ∧ b.pc = .done (.answer (.msg k))) →
      ∃ ops t b, u.run cl ops = some t ∧ t.asks[i]? = some b ∧ b.pc = .done (.answer (.msg k)) := by
    rintro u v op hv ⟨ops, t, b, h1, h2, h3⟩
    exact ⟨op :: ops, t, b, by simp only [ASt.run, hv]; exact h1, h2, h3⟩
  -- it takes the message out of the channel
  have take : ∀ {u : ASt} {b : AskT}, u.asks[i]? = some b → b.pc = .wait → b.box = some (.msg k) →
      ∃ ops t b, u.run cl ops = some t ∧ t.asks[i]? = some b ∧ b.pc = .done (.answer (.msg k)) := by
    intro u b hu hp hb
    cases hn : b.next with
    | true =>
      refine ⟨[.ask i 0 true], u.put i { b with box := none, pc := .done (.answer (.msg k)) }, _, ?_, put_get hu, rfl⟩
      simp [ASt.run, ASt.step, ASt.askStep, hu, hp, hb, hn]
    | false =>
      refine cons (v := u.put i { b with box := none, pc := .forget (.msg k) }) (op := .ask i 0 true) ?_ (fin (put_get hu) rfl)
      simp [ASt.step, ASt.askStep, hu, hp, hb, hn]
  have wait : ∀ {u : ASt} {b : AskT}, u.asks[i]? = some b → b.pc = .wait → TidyAsk b →
      (b.box = some (.msg k) ∨ b.help = .got (.msg k)) →
      ∃ ops t b, u.run cl ops = some t ∧ t.asks[i]? = some b ∧ b.pc = .done (.answer (.msg k)) := by
    intro u b hu hp ht hb
    rcases hb with hb | hb
    · exact take hu hp hb
    · have hx := ht.help (by simp [hb]) (by simp [hb])
      refine cons (v := u.put i { b with box := some (.msg k), help := .ended }) (op := .help i) ?_ (take (put_get hu) hp rfl)
      simp [ASt.step, ASt.helpStep, hu, hb, hx]
  have ht := areach_tidy hr i a ha
  have ho := (areach_inv hr).each i a ha
  have reg : a.pc.reg' = true := by
    rcases hh with hh | hh | hh
    · exact (ho.box _ hh).1
    · exact (ho.help (by simp [hh])).2
    · rw [hh]; rfl
  cases hp : a.pc with
  | flag => rw [hp] at reg; cases reg
  | check => rw [hp] at reg; cases reg
  | tok => rw [hp] at reg; cases reg
  | reg => rw [hp] at reg; cases reg
  | done r => exact absurd (.inl ⟨r, hp⟩) hd
  | forget g =>
    by_cases hg : g = .msg k
    · subst hg; exact fin ha hp
    · exact absurd (.inr (.inr ⟨g, hp, hg⟩)) hd
  | wait =>
    refine wait ha hp ht ?_
    rcases hh with hh | hh | hh
    · exact .inl hh
    · exact .inr hh
    · rw [hp] at hh; cases hh
  | write =>
    have hc : s.closed = false := by
      cases hc : s.closed with
      | false => rfl
      | true => exact absurd (.inr (.inl ⟨hp, hc⟩)) hd
    refine cons (v := s.put i { a with pc := .wait }) (op := .ask i 0 true) ?_
      (wait (put_get ha) rfl ⟨ht.srv, ht.help⟩ ?_)
    · simp [ASt.step, ASt.askStep, ha, hp, hc]
    · rcases hh with hh | hh | hh
      · exact .inl hh
      · exact .inr hh
      · rw [hp] at hh; cases hh

/-- the callback of the first message asks and gives up; then an event and the answer arrive -/
def swallowOps : List AOp :=
  [.arrive plainMsg] ++ List.replicate 4 .reader ++ [.callCb false] ++ askOps 0 7 ++
  [.ctx 0, .reader, .reader, .reader, .arrive plainMsg, .help 0]

/-- C84: an Ask of a callback that gave up leaves a goroutine that takes the next message off the socket. Here it is
an event without a token, which no callback will see. -/
theorem c84_swallowed : ∃ (s : ASt) (a : AskT), ASt.run true {} swallowOps = some s ∧ s.arr[1]? = some plainMsg ∧
    plainMsg.wait = [] ∧ s.rd = .idle ∧ s.cl = .open ∧ s.asks[0]? = some a ∧ a.pc = .done .ctxErr ∧
    ∀ ops t, s.run true ops = some t → 1 ∉ called true {} (swallowOps ++ ops) ∧
      ∀ j, ¬ IsAt true (swallowOps ++ ops) t 1 (.returned j) := by
  have hrun : ASt.run true {} swallowOps = some (aafter true swallowOps) := aafter_run (by decide +kernel)
  have ha : (aafter true swallowOps).asks[0]? =
      some ⟨false, true, genWait true 7, none, .got (.msg 1), .done .ctxErr⟩ := by decide +kernel
  refine ⟨aafter true swallowOps, _, hrun, by decide +kernel, rfl, by decide +kernel, by decide +kernel, ha, rfl,
    fun ops t h => ?_⟩
  exact (c84_lost hrun ha (.inr (.inl rfl)) (.inl ⟨_, rfl⟩) h).2

/-- the first message was handled, the second is in the hands of the Ask -/
example : ∃ s, ASt.run true {} swallowOps = some s ∧ IsAt true swallowOps s 0 .callback ∧
    IsAt true swallowOps s 1 (.hands 0) ∧ IsAt true swallowOps s 2 .unread := by
  have hrun : ASt.run true {} swallowOps = some (aafter true swallowOps) := aafter_run (by decide +kernel)
  have ha : (aafter true swallowOps).asks[0]? =
      some ⟨false, true, genWait true 7, none, .got (.msg 1), .done .ctxErr⟩ := by decide +kernel
  refine ⟨_, hrun, ?_, ⟨_, ha, .inr (.inl rfl)⟩, ?_⟩
  · show 0 ∈ called true {} swallowOps
    decide +kernel
  · show (aafter true swallowOps).pos ≤ 2
    decide +kernel

/-- an Ask that waits in a callback and whose goroutine has read a message can return it -/
example : ∃ (s : ASt) (a : AskT), AReach true s ∧ s.asks[0]? = some a ∧ Holds a 1 ∧ ¬ Deaf s a 1 := by
  refine ⟨aafter true (cbWaitOps ++ [.arrive plainMsg, .help 0]),
    ⟨false, true, genWait true 7, none, .got (.msg 1), .wait⟩, aafter_reach (by decide +kernel), by decide +kernel,
    .inr (.inl rfl), ?_⟩
  rintro (⟨_, h⟩ | ⟨h, _⟩ | ⟨_, h, _⟩) <;> cases h

end Neffos
