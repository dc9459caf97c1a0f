import Verif.Proofs.Dial

/-! # What `Dial` returns (C99)

The results of the latch machine of `Verif.Model.Dial`: which payload decides the verdict. -/

set_option autoImplicit false

namespace Neffos.Dialing

open Neffos.Spec

variable {native : Bool} {s s' : DialSt}

/-- what the marks and the reading say -/
def Verd (reads : List Bytes) (fails : List GoErr) : Option GoErr → Prop
  | none => ∃ b, firstAnswer reads = some (65 :: b)
  | some e => (firstAnswer reads = none ∧ e ∈ fails) ∨ ∃ t, firstAnswer reads = some (72 :: t) ∧ e = .text t

structure VInv (s : DialSt) (p q : LPc) : Prop where
  nomark : s.rd ≠ .lat .mark ∧ s.rd ≠ .ack ∧ s.rd ≠ .answer ∧ s.rd ≠ .refuse
  quiet : s.lat.ready = false → s.rd = .start ∨ s.rd = .idle → firstAnswer s.reads = none ∧ s.acked = false
  fin : s.fails ≠ [] → s.rd = .lat .exit ∨ s.rd = .exit ∨ s.rd = .dead
  busy : s.lat.ready = false → s.rd ≠ .run ∧ s.rd ≠ .exit ∧ (s.rd = .dead → ∃ r, s.dial = .done r)
  setId : ∀ b, s.rd = .setId b → 65 :: b ∈ s.reads ∧ (s.lat.ready = false → Verd s.reads s.fails none)
  setAck : s.rd = .setAck → 65 :: s.id ∈ s.reads ∧ (s.lat.ready = false → Verd s.reads s.fails none)
  go : s.rd = .lat .go → 65 :: s.id ∈ s.reads
  ex : s.rd = .lat .exit → q ≠ .uCheck none ∧ q ≠ .uErr none ∧ (q = .uReady → s.lat.err ≠ none)
  uCheck : ∀ e, s.lat.ready = false → q = .uCheck e → Verd s.reads s.fails e
  uErr : ∀ e, q = .uErr e → Verd s.reads s.fails e
  uReady : q = .uReady → Verd s.reads s.fails s.lat.err
  ready : s.lat.ready = true → Verd s.reads s.fails s.lat.err
  idd : s.lat.ready = true → s.lat.err = none → 65 :: s.id ∈ s.reads
  pRead : p = .wRead → s.lat.ready = true
  pDone : ∀ e, p = .wDone e → s.lat.ready = true ∧ e = s.lat.err
  ident : s.dial = .ident → s.lat.ready = true ∧ s.lat.err = none
  close : ∀ e, s.dial = .close e → s.unsent = true ∧ e = errWrite ∨ Verd s.reads s.fails (some e)
  client : ∀ i, s.dial = .done (.client i) → Verd s.reads s.fails none ∧ 65 :: i ∈ s.reads
  error : ∀ e, s.dial = .done (.err e) → s.unsent = true ∧ e = errWrite ∨ Verd s.reads s.fails (some e)

theorem firstAnswer_append (l : List Bytes) (b : Bytes) :
    firstAnswer (l ++ [b]) = (firstAnswer l).or (if b.head? = some 65 ∨ b.head? = some 72 then some b else none) := by
  simp only [firstAnswer, List.find?_append, List.find?_singleton]
  congr 1
  by_cases h : b.head? = some 65 ∨ b.head? = some 72
  · simp [h]
  · simp only [if_neg h]
    have : ¬ (decide (b.head? = some 65) || decide (b.head? = some 72)) = true := by simpa using h
    rw [if_neg this]

/-- nothing that was said is taken back -/
theorem verd_read {r : List Bytes} {e : Option GoErr} (h : Verd r [] e) (b : Bytes) : Verd (r ++ [b]) [] e := by
  cases e with
  | none =>
    obtain ⟨x, hx⟩ := h
    exact ⟨x, by rw [firstAnswer_append, hx]; rfl⟩
  | some e =>
    rcases h with ⟨_, h⟩ | ⟨x, hx, he⟩
    · cases h
    · exact .inr ⟨x, by rw [firstAnswer_append, hx]; rfl, he⟩

theorem verd_fail {r : List Bytes} {f : List GoErr} {e : Option GoErr} (h : Verd r f e) (x : GoErr) : Verd r (f ++ [x]) e := by
  cases e with
  | none => exact h
  | some e =>
    rcases h with ⟨a, h⟩ | h
    · exact .inl ⟨a, by simp [h]⟩
    · exact .inr h

theorem vInv_new : VInv (newDial false) .wCheck .uDone := by
  constructor <;> simp [newDial, firstAnswer]

theorem q_calm {p q : LPc} (h : LatInv native s p q)
    (v1 : s.rd ≠ .lat .mark) : q ≠ .wBlocked ∧ q ≠ .wCheck ∧ q ≠ .wLock ∧ q ≠ .wRead := by
  have qk := h.qk
  clear h
  revert qk v1
  cases s.rd with
  | lat k =>
    intro v1 qk
    cases k
    · exact absurd rfl v1
    all_goals cases q <;> simp_all [LPc.waits]
  | _ => intro v1 qk; cases q <;> simp_all [LPc.settled]

set_option maxHeartbeats 4000000 in
theorem v_next {p q p' q' : LPc} (h : LatInv false s p q) (h' : LatInv false s' p' q') (hm : NoM s'.reads)
    (hv : VInv s p q) (hx : DNext false s p q s' p' q') : VInv s' p' q' := by
  have calm := h'.calm
  have hq := q_calm h hv.nomark.1
  obtain ⟨h1, h2, h3, h4, h5, h6, h7, h8, h9, h10, h11, h12, h13, h14, h15, h16, h17, h18, h19⟩ := h
  clear h1 h2 h5 h7 h16 h17 h'
  obtain ⟨v1, v2, v3, v4, v5, v6, v7, v8, v9, v10, v11, v12, v13, v14, v15, v16, v17, v18, v19⟩ := hv
  cases hx
  case lat0 =>
    rename_i hd hne hl ht
    rcases lstep_cases hl calm (g0 q) ht with h | h | h | h | h | h | h | h | h | h | h <;> constructor <;> grind [LPc.waits]
  case lat1 =>
    rename_i k l hd hl ht
    cases k <;> rcases lstep_cases hl calm (g1 p) ht with h | h | h | h | h | h | h | h | h | h | h <;> constructor <;> grind [LPc.waits]
  case readM rest hrd ha => exact absurd rfl (hm (77 :: rest) (by simp))
  case fail e hrd =>
    have f0 : s.fails = [] := by grind
    have := fun {e'} h => @verd_fail s.reads s.fails e' h e
    constructor <;> grind [Verd]
  case readNil hrd =>
    have f0 : s.fails = [] := by grind
    have := fun {e'} h => @verd_read s.reads e' h []
    have fm := firstAnswer_append s.reads []
    constructor <;> grind
  case readRun c rest hrd ha =>
    have f0 : s.fails = [] := by grind
    have := fun {e'} h => @verd_read s.reads e' h (c :: rest)
    constructor <;> grind
  case readA rest hrd ha =>
    have f0 : s.fails = [] := by grind
    have := fun {e'} h => @verd_read s.reads e' h (65 :: rest)
    have fm := firstAnswer_append s.reads (65 :: rest)
    constructor <;> grind [Verd]
  case readH rest hrd ha =>
    have f0 : s.fails = [] := by grind
    have := fun {e'} h => @verd_read s.reads e' h (72 :: rest)
    have fm := firstAnswer_append s.reads (72 :: rest)
    constructor <;> grind [Verd]
  case readOther c rest hrd ha c1 c2 c3 =>
    have f0 : s.fails = [] := by grind
    have := fun {e'} h => @verd_read s.reads e' h (c :: rest)
    have fm := firstAnswer_append s.reads (c :: rest)
    constructor <;> grind
  all_goals
    constructor <;> (try simp only [shut_lat, shut_rd, shut_dial, shut_reads, shut_fails, shut_unsent, shut_id]) <;>
      grind [shut_acked]

theorem noM_of_append {a b : List Bytes} (h : NoM (a ++ b)) : NoM a := fun x hx => h x (by simp [hx])

theorem reads_next {p q p' q' : LPc} (hx : DNext native s p q s' p' q') : ∃ l, s'.reads = s.reads ++ l := by
  cases hx <;> first
    | (refine ⟨[], ?_⟩; simp [shut_reads]; done)
    | exact ⟨_, rfl⟩

theorem noM_next {p q p' q' : LPc} (hx : DNext native s p q s' p' q') (h : NoM s'.reads) : NoM s.reads := by
  obtain ⟨l, hl⟩ := reads_next hx
  rw [hl] at h
  exact noM_of_append h

theorem reach_v (hr : DialReach false s) : ∃ p q, LatInv false s p q ∧ (NoM s.reads → VInv s p q) := by
  obtain ⟨ops, h⟩ := hr
  refine run_inv (P := fun s => ∃ p q, LatInv false s p q ∧ (NoM s.reads → VInv s p q)) ?_
    ⟨_, _, latInv_new, fun _ => vInv_new⟩ h
  intro s t op ⟨p, q, h, hv⟩ hs
  obtain ⟨p', q', h', hx⟩ := dnext_of_step h hs
  exact ⟨p', q', h', fun hm => v_next h h' hm (hv (noM_next hx hm)) hx⟩

/-! ## Once `Dial` waits at the channel in time -/

structure InTime (s : DialSt) (p q : LPc) : Prop where
  late : p ≠ .wCheck ∧ p ≠ .wLock
  woken : p = .wBlocked →
    s.lat.chClosed = true ∨ s.lat.locked = true ∧ (s.lat.ready = false ∨ q = .uUnlock) ∨ q = .uClose

theorem inTime_next {p q p' q' : LPc} (h : LatInv false s p q) (h' : LatInv false s' p' q') (hv : VInv s p q)
    (hf : InTime s p q) (hx : DNext false s p q s' p' q') : InTime s' p' q' := by
  have calm := h'.calm
  have hq := q_calm h hv.nomark.1
  have pw := h.pw
  have qk := h.qk
  have go := h.uDone
  clear h h' hv
  obtain ⟨f1, f2⟩ := hf
  cases hx
  case lat0 =>
    rename_i hd hne hl ht
    rcases lstep_cases hl calm (g0 q) ht with h | h | h | h | h | h | h | h | h | h | h <;> constructor <;> grind [LPc.waits]
  case lat1 =>
    rename_i k l hd hl ht
    cases k <;> rcases lstep_cases hl calm (g1 p) ht with h | h | h | h | h | h | h | h | h | h | h <;> constructor <;>
      grind [LPc.waits]
  all_goals
    constructor <;> (try simp only [shut_lat]) <;> grind [LPc.settled]

theorem inTime_of {p q : LPc} (h : LatInv false s p q) (hv : VInv s p q) (hr : s.reads = []) (hf : s.fails = [])
    (hp : p = .wBlocked) : InTime s p q := by
  have nr : s.lat.ready = false := by
    cases hr' : s.lat.ready with
    | false => rfl
    | true =>
      have := hv.ready hr'
      cases he : s.lat.err with
      | none => rw [he, hr, Verd] at this; obtain ⟨b, hb⟩ := this; cases hb
      | some e =>
        rw [he, hr, hf, Verd] at this
        rcases this with ⟨_, h⟩ | ⟨t, h, _⟩ <;> cases h
  have h1 := h.blocked hp
  have h2 := h.closed
  have h3 := h.ready
  constructor <;> grind

theorem inTime_not_lost {p q : LPc} (h : LatInv false s p q) (hv : VInv s p q) (hf : InTime s p q) : ¬ LostAt s p q := by
  have h2 := h.closed
  have h3 := h.ready
  obtain ⟨f1, f2⟩ := hf
  have v1 := hv.nomark
  have v4 := hv.busy
  unfold LostAt
  grind

end Neffos.Dialing
