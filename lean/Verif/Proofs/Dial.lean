import Verif.Spec.Dial
/-!
Helper for C99: invariants of the two goroutines of `Dial`.
-/
set_option autoImplicit false
namespace Neffos.Dialing
open Spec

variable {native : Bool} {s s' : DialSt}

/-! ## The latch between the two -/

def LPc.waits : LPc → Bool
  | .wCheck | .wLock | .wBlocked | .wRead | .wDone _ => true
  | _ => false

def LPc.settled : LPc → Bool
  | .wDone _ | .uDone => true
  | _ => false

structure LatInv (native : Bool) (s : DialSt) (p q : LPc) : Prop where
  ths : s.lat.ths = [p, q]
  calm : s.lat.panicked = false
  pw : LPc.waits p = true
  early : s.dial = .start ∨ s.dial = .write → p = .wCheck
  native : native = true → s.lat.ready = true ∧ p = .wCheck ∧ s.dial ≠ .write ∧ s.dial ≠ .wait
  done : s.closed = true → s.rd = .start → ∃ r, s.dial = .done r
  qk : match s.rd with
    | .lat .mark => LPc.waits q = true
    | .lat .go => LPc.waits q = false
    | .lat .exit => LPc.waits q = false
    | _ => LPc.settled q = true
  closed : s.lat.chClosed = true → s.lat.ready = true ∧ p ≠ .wCheck ∧ p ≠ .wLock
  locked : s.lat.locked = true → s.lat.chClosed = false ∧ (p = .wBlocked ∨ q = .wBlocked)
  blocked : p = .wBlocked → s.lat.chClosed = true ∨ s.lat.locked = true ∨ q = .uClose
  qBlocked : q = .wBlocked → s.lat.locked = true ∧ p ≠ .wBlocked
  unready : q = .wLock ∨ q = .wBlocked ∨ (∃ e, q = .uErr e) ∨ q = .uReady → s.lat.ready = false
  ready : q = .uUnlock ∨ q = .uClose → s.lat.ready = true
  closing : q = .uClose → p = .wBlocked ∧ s.lat.chClosed = false ∧ s.lat.locked = false
  err : s.lat.err ≠ none → s.lat.ready = true ∨ q = .uReady
  wRead : s.lat.ready = false → q = .wRead ∨ (∃ e, q = .wDone e) → s.rd = .lat .mark → p = .wBlocked ∧ s.lat.locked = true
  wDone : ∀ e, q = .wDone (some e) → s.lat.ready = true
  past : s.lat.ready = false → s.rd = .ack ∨ s.rd = .answer ∨ s.rd = .run ∨ s.rd = .exit ∨ s.rd = .dead ∨ s.rd = .refuse ∨
      s.acked = true ∧ s.rd ≠ .lat .go → p = .wBlocked ∧ s.lat.locked = true ∨ s.rd = .dead ∧ ∃ r, s.dial = .done r
  uDone : s.lat.ready = false → s.rd = .lat .go ∨ s.rd = .lat .exit → q ≠ .uDone

theorem latInv_new : LatInv native (newDial native) .wCheck .uDone := by
  constructor <;> cases native <;> simp [newDial, LPc.waits, LPc.settled]

theorem shut_lat (s : DialSt) : s.shut.lat = s.lat := by unfold DialSt.shut; split <;> rfl
theorem shut_dial (s : DialSt) : s.shut.dial = s.dial := by unfold DialSt.shut; split <;> rfl
theorem shut_rd (s : DialSt) : s.shut.rd = s.rd := by unfold DialSt.shut; split <;> rfl
theorem shut_id (s : DialSt) : s.shut.id = s.id := by unfold DialSt.shut; split <;> rfl
theorem shut_reads (s : DialSt) : s.shut.reads = s.reads := by unfold DialSt.shut; split <;> rfl
theorem shut_fails (s : DialSt) : s.shut.fails = s.fails := by unfold DialSt.shut; split <;> rfl
theorem shut_unsent (s : DialSt) : s.shut.unsent = s.unsent := by unfold DialSt.shut; split <;> rfl
theorem shut_closed (s : DialSt) : s.shut.closed = true := by unfold DialSt.shut; split <;> simp_all
theorem shut_acked (s : DialSt) (h : s.shut.acked = true) : s.acked = true := by
  unfold DialSt.shut at h; split at h <;> simp_all

/-- `Latch.step` as a function of the goroutine's place -/
def lstep (l : Latch) (pc : LPc) (g : LPc → List LPc) : Option Latch :=
  match pc with
  | .wCheck => some { l with ths := g (if l.ready then .wRead else .wLock) }
  | .wLock => if l.locked then some { l with ths := g .wRead } else some { l with ths := g .wBlocked, locked := true }
  | .wBlocked => if l.chClosed then some { l with ths := g .wRead } else none
  | .wRead => some { l with ths := g (.wDone l.err) }
  | .wDone _ => none
  | .uCheck e => some { l with ths := g (if l.ready then .uDone else .uErr e) }
  | .uErr e => some { l with ths := g .uReady, err := e }
  | .uReady => some { l with ths := g .uUnlock, ready := true }
  | .uUnlock => if l.locked then some { l with ths := g .uClose, locked := false } else some { l with ths := g .uDone }
  | .uClose => if l.chClosed then some { l with panicked := true } else some { l with ths := g .uDone, chClosed := true }
  | .uDone => none

theorem step0 {l : Latch} {p q : LPc} (h : l.ths = [p, q]) (hp : l.panicked = false) :
    l.step 0 = lstep l p (fun x => [x, q]) := by
  obtain ⟨a, b, c, d, e, f⟩ := l
  dsimp only at h hp
  subst h; subst hp
  cases p <;> rfl

theorem step1 {l : Latch} {p q : LPc} (h : l.ths = [p, q]) (hp : l.panicked = false) :
    l.step 1 = lstep l q (fun x => [p, x]) := by
  obtain ⟨a, b, c, d, e, f⟩ := l
  dsimp only at h hp
  subst h; subst hp
  cases q <;> rfl

theorem goto1 {l : Latch} {p q x : LPc} (h : l.ths = [p, q]) : l.goto 1 x = { l with ths := [p, x] } := by
  rw [Latch.goto, h]; rfl

theorem latInv_dial {p q : LPc} {ok : Bool} (h : LatInv native s p q) (hs : s.dialStep native ok = some s') :
    ∃ p', LatInv native s' p' q := by
  have e0 : (s.lat.ths[0]? : Option LPc) = some p := by rw [h.ths]; rfl
  have es := step0 h.ths h.calm
  obtain ⟨h1, h2, h3, h4, h5, h6, h7, h8, h9, h10, h11, h12, h13, h14, h15, h16, h17, h18, h19⟩ := h
  unfold DialSt.dialStep at hs
  cases hd : s.dial
  case start =>
    simp only [hd] at hs; cases hs
    refine ⟨p, ?_⟩
    constructor <;> first | assumption | rfl | grind [LPc.waits, LPc.settled]
  case write =>
    simp only [hd] at hs
    split at hs <;> cases hs <;> refine ⟨p, ?_⟩ <;> constructor <;> first | assumption | rfl | grind [LPc.waits, LPc.settled]
  case close e =>
    simp only [hd] at hs; cases hs
    refine ⟨p, ?_⟩
    have := shut_acked s
    constructor <;> (try simp only [shut_lat, shut_rd]) <;> first | assumption | rfl | grind [LPc.waits, LPc.settled]
  case ident =>
    simp only [hd] at hs; cases hs
    refine ⟨p, ?_⟩
    constructor <;> first | assumption | rfl | grind [LPc.waits, LPc.settled]
  case done => simp only [hd] at hs; cases hs
  case wait =>
    simp only [hd, e0] at hs
    have hn : native = false := by cases native <;> simp_all
    subst hn
    cases p <;> simp only [LPc.waits, Bool.false_eq_true] at h3
    case wCheck =>
      simp only [es, lstep, Option.map_some] at hs
      cases hs
      refine ⟨if s.lat.ready then .wRead else .wLock, ?_⟩
      cases hr : s.lat.ready <;> constructor <;> first | assumption | rfl | grind [LPc.waits, LPc.settled]
    case wLock =>
      simp only [es, lstep] at hs
      split at hs <;> simp only [Option.map_some] at hs <;> cases hs
      · refine ⟨.wRead, ?_⟩
        constructor <;> first | assumption | rfl | grind [LPc.waits, LPc.settled]
      · refine ⟨.wBlocked, ?_⟩
        constructor <;> first | assumption | rfl | grind [LPc.waits, LPc.settled]
    case wBlocked =>
      simp only [es, lstep] at hs
      split at hs <;> simp only [Option.map_some, Option.map_none] at hs <;> cases hs
      refine ⟨.wRead, ?_⟩
      constructor <;> first | assumption | rfl | grind [LPc.waits, LPc.settled]
    case wRead =>
      simp only [es, lstep, Option.map_some] at hs
      cases hs
      refine ⟨.wDone s.lat.err, ?_⟩
      constructor <;> first | assumption | rfl | grind [LPc.waits, LPc.settled]
    case wDone e =>
      cases e <;> cases hs
      · refine ⟨.wDone none, ?_⟩
        constructor <;> first | assumption | rfl | grind [LPc.waits, LPc.settled]
      · rename_i e
        refine ⟨.wDone (some e), ?_⟩
        constructor <;> first | assumption | rfl | grind [LPc.waits, LPc.settled]

theorem latInv_idle {p q q' : LPc} (h : LatInv native s p q) (hd : s.rd = .idle) {t : DialSt} {k : DialNext}
    (hq : k = .mark ∧ q' = .wCheck ∨ k ≠ .mark ∧ ∃ e, q' = .uCheck e)
    (h1 : t.lat = s.lat.goto 1 q') (h2 : t.dial = s.dial) (h3 : t.rd = .lat k) (h4 : t.acked = s.acked)
    (h5 : t.closed = s.closed) : LatInv native t p q' := by
  rw [goto1 h.ths] at h1
  obtain ⟨h1, h2, h3, h4, h5, h6, h7, h8, h9, h10, h11, h12, h13, h14, h15, h16, h17, h18, h19⟩ := h
  simp only [hd] at h7
  have hq' : q = .uDone ∨ ∃ e, q = .wDone e := by cases q <;> simp_all [LPc.settled]
  cases k <;> constructor <;> first | assumption | rfl | grind [LPc.waits, LPc.settled]

theorem latInv_read {p q : LPc} {b : Bytes} (h : LatInv native s p q) (hs : s.readStep b = some s') :
    ∃ q', LatInv native s' p q' := by
  unfold DialSt.readStep at hs
  split at hs
  · cases hs
  rename_i hd
  have hd : s.rd = .idle := Classical.byContradiction hd
  dsimp only at hs
  have keep : ∀ {t : DialSt}, t.lat = s.lat → t.dial = s.dial → t.closed = s.closed → t.acked = s.acked →
      (t.rd = .idle ∨ (∃ i, t.rd = .setId i) ∨ t.rd = .run ∧ s.acked = true) → ∃ q', LatInv native t p q' := by
    intro t g1 g2 g3 g4 g5
    refine ⟨q, ?_⟩
    obtain ⟨h1, h2, h3, h4, h5, h6, h7, h8, h9, h10, h11, h12, h13, h14, h15, h16, h17, h18, h19⟩ := h
    simp only [hd] at h7
    rcases g5 with g5 | ⟨i, g5⟩ | ⟨g5, g6⟩ <;> constructor <;> first | assumption | rfl | grind [LPc.waits, LPc.settled]
  split at hs
  · cases hs
    exact keep rfl rfl rfl rfl (.inl hd)
  · split at hs
    · cases hs
      exact keep rfl rfl rfl rfl (.inr (.inr ⟨rfl, ‹_›⟩))
    split at hs
    · cases hs
      exact ⟨_, latInv_idle h hd (.inl ⟨rfl, rfl⟩) rfl rfl rfl rfl rfl⟩
    split at hs
    · cases hs
      exact keep rfl rfl rfl rfl (.inr (.inl ⟨_, rfl⟩))
    split at hs
    · cases hs
      exact ⟨_, latInv_idle h hd (.inr ⟨by simp, _, rfl⟩) rfl rfl rfl rfl rfl⟩
    · cases hs
      exact keep rfl rfl rfl rfl (.inl hd)

theorem latInv_reader {p q : LPc} {ok : Bool} (h : LatInv native s p q) (hs : s.readerStep ok = some s') :
    ∃ q', LatInv native s' p q' := by
  have e0 : (s.lat.ths[1]? : Option LPc) = some q := by rw [h.ths]; rfl
  have es := step1 h.ths h.calm
  have eg : ∀ x, s.lat.goto 1 x = _ := fun x => goto1 h.ths
  obtain ⟨h1, h2, h3, h4, h5, h6, h7, h8, h9, h10, h11, h12, h13, h14, h15, h16, h17, h18, h19⟩ := h
  unfold DialSt.readerStep at hs
  cases hd : s.rd
  case lat k =>
    simp only [hd, e0] at hs
    simp only [hd] at h7
    cases k <;> cases q <;> simp only [LPc.waits, Bool.false_eq_true, Bool.true_eq_false] at h7
    all_goals
      try simp only [es, lstep] at hs
    case mark.wCheck =>
      cases hs
      refine ⟨if s.lat.ready then .wRead else .wLock, ?_⟩
      cases hr : s.lat.ready <;> constructor <;> first | assumption | rfl | grind [LPc.waits, LPc.settled]
    case mark.wLock =>
      split at hs <;> simp only [Option.map_some] at hs <;> cases hs
      · refine ⟨.wRead, ?_⟩
        constructor <;> first | assumption | rfl | grind [LPc.waits, LPc.settled]
      · refine ⟨.wBlocked, ?_⟩
        constructor <;> first | assumption | rfl | grind [LPc.waits, LPc.settled]
    case mark.wBlocked =>
      split at hs <;> simp only [Option.map_some, Option.map_none] at hs <;> cases hs
      refine ⟨.wRead, ?_⟩
      constructor <;> first | assumption | rfl | grind [LPc.waits, LPc.settled]
    case mark.wRead =>
      cases hs
      refine ⟨.wDone s.lat.err, ?_⟩
      constructor <;> first | assumption | rfl | grind [LPc.waits, LPc.settled]
    case mark.wDone e =>
      refine ⟨.wDone e, ?_⟩
      cases e <;> cases hs <;> constructor <;> first | assumption | rfl | grind [LPc.waits, LPc.settled]
    case go.uDone =>
      cases hs
      refine ⟨.uDone, ?_⟩
      constructor <;> first | assumption | rfl | grind [LPc.waits, LPc.settled]
    case exit.uDone =>
      cases hs
      refine ⟨.uDone, ?_⟩
      constructor <;> first | assumption | rfl | grind [LPc.waits, LPc.settled]
    case go.uCheck e | exit.uCheck e =>
      cases hs
      refine ⟨if s.lat.ready then .uDone else .uErr e, ?_⟩
      cases hr : s.lat.ready <;> constructor <;> first | assumption | rfl | grind [LPc.waits, LPc.settled]
    case go.uErr e | exit.uErr e =>
      cases hs
      refine ⟨.uReady, ?_⟩
      constructor <;> first | assumption | rfl | grind [LPc.waits, LPc.settled]
    case go.uReady | exit.uReady =>
      cases hs
      refine ⟨.uUnlock, ?_⟩
      constructor <;> first | assumption | rfl | grind [LPc.waits, LPc.settled]
    case go.uUnlock | exit.uUnlock =>
      split at hs <;> simp only [Option.map_some] at hs <;> cases hs
      · refine ⟨.uClose, ?_⟩
        constructor <;> first | assumption | rfl | grind [LPc.waits, LPc.settled]
      · refine ⟨.uDone, ?_⟩
        constructor <;> first | assumption | rfl | grind [LPc.waits, LPc.settled]
    case go.uClose | exit.uClose =>
      split at hs <;> simp only [Option.map_some] at hs <;> cases hs
      · exact absurd ‹_› (by simp [(h14 rfl).2.1])
      · refine ⟨.uDone, ?_⟩
        constructor <;> first | assumption | rfl | grind [LPc.waits, LPc.settled]
  case setAck =>
    simp only [hd] at hs h7; cases hs
    refine ⟨.uCheck none, ?_⟩
    rw [eg]
    have hq' : q = .uDone ∨ ∃ e, q = .wDone e := by cases q <;> simp_all [LPc.settled]
    constructor <;> first | assumption | rfl | grind [LPc.waits, LPc.settled]
  case exit =>
    simp only [hd] at hs h7; cases hs
    refine ⟨q, ?_⟩
    have := shut_acked s
    constructor <;> (try simp only [shut_lat, shut_dial]) <;> first | assumption | rfl | grind [LPc.waits, LPc.settled]
  case idle => simp only [hd] at hs; cases hs
  case dead => simp only [hd] at hs; cases hs
  all_goals
    simp only [hd] at hs h7; cases hs
    refine ⟨q, ?_⟩
    constructor <;> first | assumption | rfl | grind [LPc.waits, LPc.settled]

theorem latInv_step {p q : LPc} {op : DialOp} (h : LatInv native s p q) (hs : s.step native op = some s') :
    ∃ p' q', LatInv native s' p' q' := by
  cases op with
  | dial ok =>
    obtain ⟨p', h⟩ := latInv_dial h hs
    exact ⟨p', q, h⟩
  | read b =>
    obtain ⟨q', h⟩ := latInv_read h hs
    exact ⟨p, q', h⟩
  | reader ok =>
    obtain ⟨q', h⟩ := latInv_reader h hs
    exact ⟨p, q', h⟩
  | fail e =>
    simp only [DialSt.step] at hs
    split at hs <;> cases hs
    exact ⟨p, _, latInv_idle h ‹_› (.inr ⟨by simp, _, rfl⟩) rfl rfl rfl rfl rfl⟩
  | cbClose =>
    simp only [DialSt.step] at hs
    split at hs <;> cases hs
    refine ⟨p, q, ?_⟩
    have := shut_acked s
    obtain ⟨h1, h2, h3, h4, h5, h6, h7, h8, h9, h10, h11, h12, h13, h14, h15, h16, h17, h18, h19⟩ := h
    constructor <;> (try simp only [shut_lat, shut_rd, shut_dial]) <;> first | assumption | rfl | grind [LPc.waits, LPc.settled]

theorem run_append {ops ops' : List DialOp} : ∀ {s t : DialSt}, s.run native ops = some t →
    s.run native (ops ++ ops') = t.run native ops' := by
  induction ops with
  | nil => intro s t h; cases h; rfl
  | cons op ops ih =>
    intro s t h
    simp only [DialSt.run, List.cons_append] at h ⊢
    split at h
    · exact ih h
    · cases h

theorem run_inv {P : DialSt → Prop} (hP : ∀ {s t op}, P s → s.step native op = some t → P t) {ops : List DialOp} :
    ∀ {s t : DialSt}, P s → s.run native ops = some t → P t := by
  induction ops with
  | nil => intro s t h hs; cases hs; exact h
  | cons op ops ih =>
    intro s t h hs
    simp only [DialSt.run] at hs
    split at hs
    · exact ih (hP h ‹_›) hs
    · cases hs

theorem reach_inv (hr : DialReach native s) : ∃ p q, LatInv native s p q := by
  obtain ⟨ops, h⟩ := hr
  exact run_inv (P := fun s => ∃ p q, LatInv native s p q) (fun ⟨_, _, h⟩ hs => latInv_step h hs)
    ⟨_, _, latInv_new⟩ h

/-! ## The steps, one by one -/

inductive DNext (native : Bool) (s : DialSt) (p q : LPc) : DialSt → LPc → LPc → Prop
  | start : s.dial = .start → DNext native s p q { s with dial := if native then .ident else .write } p q
  | sent : s.dial = .write → DNext native s p q { s with dial := .wait } p q
  | unsent : s.dial = .write → DNext native s p q { s with dial := .close errWrite, unsent := true } p q
  | wDone : s.dial = .wait → p = .wDone none → DNext native s p q { s with dial := .ident } p q
  | wErr (e) : s.dial = .wait → p = .wDone (some e) → DNext native s p q { s with dial := .close e } p q
  | lat0 (l p') : s.dial = .wait → (∀ e, p ≠ .wDone e) → lstep s.lat p (fun x => [x, q]) = some l → l.ths = [p', q] →
      DNext native s p q { s with lat := l } p' q
  | close (e) : s.dial = .close e → DNext native s p q { s.shut with dial := .done (.err e) } p q
  | ident : s.dial = .ident → DNext native s p q { s with dial := .done (.client s.id) } p q
  | readNil : s.rd = .idle → DNext native s p q { s with reads := s.reads ++ [[]] } p q
  | readRun (c rest) : s.rd = .idle → s.acked = true → DNext native s p q { s with reads := s.reads ++ [c :: rest], rd := .run } p q
  | readM (rest) : s.rd = .idle → s.acked = false → DNext native s p q
      { s with reads := s.reads ++ [77 :: rest], lat := { s.lat with ths := [p, .wCheck] }, rd := .lat .mark } p .wCheck
  | readA (rest) : s.rd = .idle → s.acked = false → DNext native s p q
      { s with reads := s.reads ++ [65 :: rest], rd := .setId rest } p q
  | readH (rest) : s.rd = .idle → s.acked = false → DNext native s p q
      { s with reads := s.reads ++ [72 :: rest], lat := { s.lat with ths := [p, .uCheck (some (.text rest))] }, rd := .lat .exit }
      p (.uCheck (some (.text rest)))
  | readOther (c rest) : s.rd = .idle → s.acked = false → c ≠ 77 → c ≠ 65 → c ≠ 72 → DNext native s p q
      { s with reads := s.reads ++ [c :: rest] } p q
  | fail (e) : s.rd = .idle → DNext native s p q
      { s with fails := s.fails ++ [e], lat := { s.lat with ths := [p, .uCheck (some e)] }, rd := .lat .exit } p (.uCheck (some e))
  | rdStart : s.rd = .start → DNext native s p q { s with rd := if s.closed then .dead else .idle } p q
  | mark : s.rd = .lat .mark → q = .wDone none → DNext native s p q { s with rd := .ack } p q
  | markErr (e) : s.rd = .lat .mark → q = .wDone (some e) → DNext native s p q { s with rd := .refuse } p q
  | go : s.rd = .lat .go → q = .uDone → DNext native s p q { s with rd := .idle } p q
  | gone : s.rd = .lat .exit → q = .uDone → DNext native s p q { s with rd := .exit } p q
  | lat1 (k l q') : s.rd = .lat k → lstep s.lat q (fun x => [p, x]) = some l → l.ths = [p, q'] →
      DNext native s p q { s with lat := l } p q'
  | ack : s.rd = .ack → DNext native s p q { s with acked := true, rd := .answer } p q
  | answer (ok : Bool) : s.rd = .answer → DNext native s p q { s with rd := if ok then .idle else .exit } p q
  | refuse : s.rd = .refuse → DNext native s p q { s with rd := .exit } p q
  | setId (id) : s.rd = .setId id → DNext native s p q { s with id := id, rd := .setAck } p q
  | setAck : s.rd = .setAck → DNext native s p q
      { s with acked := true, lat := { s.lat with ths := [p, .uCheck none] }, rd := .lat .go } p (.uCheck none)
  | run : s.rd = .run → DNext native s p q { s with rd := .idle } p q
  | exit : s.rd = .exit → DNext native s p q { s.shut with rd := .dead } p q
  | cbClose : s.rd = .run ∨ s.rd = .answer → DNext native s p q s.shut p q

theorem lstep_ths {l l' : Latch} {pc : LPc} {g : LPc → List LPc} (h : lstep l pc g = some l') (hp : l'.panicked = false) :
    ∃ x, l'.ths = g x := by
  unfold lstep at h
  split at h <;> (try split at h) <;> cases h <;> first | exact ⟨_, rfl⟩ | cases hp

theorem dnext_of_step {p q : LPc} {op : DialOp} (h : LatInv native s p q) (hs : s.step native op = some s') :
    ∃ p' q', LatInv native s' p' q' ∧ DNext native s p q s' p' q' := by
  obtain ⟨p', q', h'⟩ := latInv_step h hs
  have e0 : (s.lat.ths[0]? : Option LPc) = some p := by rw [h.ths]; rfl
  have e1 : (s.lat.ths[1]? : Option LPc) = some q := by rw [h.ths]; rfl
  have es0 := step0 h.ths h.calm
  have es1 := step1 h.ths h.calm
  have fin : ∀ {x y : LPc}, s'.lat.ths = [x, y] → DNext native s p q s' x y → ∃ p' q', LatInv native s' p' q' ∧ DNext native s p q s' p' q' := by
    intro x y e hd
    rw [h'.ths] at e
    cases e
    exact ⟨_, _, h', hd⟩
  cases op with
  | dial ok =>
    simp only [DialSt.step, DialSt.dialStep] at hs
    split at hs
    · cases hs; exact fin h.ths (.start ‹_›)
    · split at hs <;> cases hs
      · exact fin h.ths (.sent ‹_›)
      · exact fin h.ths (.unsent ‹_›)
    · rw [e0] at hs
      split at hs
      · rename_i hp
        cases hp; cases hs; exact fin h.ths (.wDone ‹_› rfl)
      · rename_i hp
        cases hp; cases hs; exact fin h.ths (.wErr _ ‹_› rfl)
      · rename_i g1 g2
        rw [es0] at hs
        cases hl : lstep s.lat p (fun x => [x, q]) with
        | none => rw [hl] at hs; cases hs
        | some l =>
          rw [hl] at hs; cases hs
          obtain ⟨x, hx⟩ := lstep_ths hl h'.calm
          refine fin hx (.lat0 l x ‹_› (fun e he => ?_) hl hx)
          cases e with
          | none => exact g1 (by rw [he])
          | some e => exact g2 e (by rw [he])
    · cases hs; exact fin (by simp only [shut_lat]; exact h.ths) (.close _ ‹_›)
    · cases hs; exact fin h.ths (.ident ‹_›)
    · cases hs
  | read b =>
    simp only [DialSt.step, DialSt.readStep] at hs
    split at hs
    · cases hs
    rename_i hd
    have hd : s.rd = .idle := Classical.byContradiction hd
    split at hs
    · cases hs; exact fin h.ths (.readNil hd)
    split at hs
    · cases hs; exact fin h.ths (.readRun _ _ hd ‹_›)
    rename_i ha
    have ha : s.acked = false := by simpa using ha
    split at hs
    · cases hs
      rename_i hc; subst hc
      rw [goto1 h.ths] at fin ⊢
      exact fin rfl (.readM _ hd ha)
    split at hs
    · cases hs
      rename_i hc; subst hc
      exact fin h.ths (.readA _ hd ha)
    split at hs
    · cases hs
      rename_i hc; subst hc
      rw [goto1 h.ths] at fin ⊢
      exact fin rfl (.readH _ hd ha)
    · cases hs
      exact fin h.ths (.readOther _ _ hd ha ‹_› ‹_› ‹_›)
  | fail e =>
    simp only [DialSt.step] at hs
    split at hs <;> cases hs
    rw [goto1 h.ths] at fin ⊢
    exact fin rfl (.fail _ ‹_›)
  | cbClose =>
    simp only [DialSt.step] at hs
    split at hs <;> cases hs
    exact fin (by simp only [shut_lat]; exact h.ths) (.cbClose ‹_›)
  | reader ok =>
    simp only [DialSt.step, DialSt.readerStep] at hs
    split at hs
    · cases hs; exact fin h.ths (.rdStart ‹_›)
    · cases hs
    · rw [e1] at hs
      split at hs
      · obtain rfl := Option.some.inj ‹some q = some _›; cases hs; exact fin h.ths (.mark ‹_› rfl)
      · obtain rfl := Option.some.inj ‹some q = some _›; cases hs; exact fin h.ths (.markErr _ ‹_› rfl)
      · obtain rfl := Option.some.inj ‹some q = some _›; cases hs; exact fin h.ths (.go ‹_› rfl)
      · obtain rfl := Option.some.inj ‹some q = some _›; cases hs; exact fin h.ths (.gone ‹_› rfl)
      · rw [es1] at hs
        cases hl : lstep s.lat q (fun x => [p, x]) with
        | none => rw [hl] at hs; cases hs
        | some l =>
          rw [hl] at hs; cases hs
          obtain ⟨x, hx⟩ := lstep_ths hl h'.calm
          exact fin hx (.lat1 _ l x ‹_› hl hx)
    · cases hs; exact fin h.ths (.ack ‹_›)
    · cases hs; exact fin h.ths (.answer _ ‹_›)
    · cases hs; exact fin h.ths (.refuse ‹_›)
    · cases hs; exact fin h.ths (.setId _ ‹_›)
    · cases hs
      rw [goto1 h.ths] at fin ⊢
      exact fin rfl (.setAck ‹_›)
    · cases hs; exact fin h.ths (.run ‹_›)
    · cases hs; exact fin (by simp only [shut_lat]; exact h.ths) (.exit ‹_›)
    · cases hs

/-- what a step in the latch does -/
theorem lstep_cases {l l' : Latch} {pc x : LPc} {g : LPc → List LPc} (h : lstep l pc g = some l') (hp : l'.panicked = false)
    (hg : ∀ a b, g a = g b → a = b) (hx : l'.ths = g x) :
    (pc = .wCheck ∧ x = (if l.ready then .wRead else .wLock) ∧ l' = { l with ths := g x }) ∨
    (pc = .wLock ∧ l.locked = true ∧ x = .wRead ∧ l' = { l with ths := g x }) ∨
    (pc = .wLock ∧ l.locked = false ∧ x = .wBlocked ∧ l' = { l with ths := g x, locked := true }) ∨
    (pc = .wBlocked ∧ l.chClosed = true ∧ x = .wRead ∧ l' = { l with ths := g x }) ∨
    (pc = .wRead ∧ x = .wDone l.err ∧ l' = { l with ths := g x }) ∨
    (∃ e, pc = .uCheck e ∧ x = (if l.ready then .uDone else .uErr e) ∧ l' = { l with ths := g x }) ∨
    (∃ e, pc = .uErr e ∧ x = .uReady ∧ l' = { l with ths := g x, err := e }) ∨
    (pc = .uReady ∧ x = .uUnlock ∧ l' = { l with ths := g x, ready := true }) ∨
    (pc = .uUnlock ∧ l.locked = true ∧ x = .uClose ∧ l' = { l with ths := g x, locked := false }) ∨
    (pc = .uUnlock ∧ l.locked = false ∧ x = .uDone ∧ l' = { l with ths := g x }) ∨
    (pc = .uClose ∧ l.chClosed = false ∧ x = .uDone ∧ l' = { l with ths := g x, chClosed := true }) := by
  unfold lstep at h
  split at h
  · cases h; have := hg _ _ hx; subst this; simp
  · split at h <;> cases h <;> (have := hg _ _ hx; subst this; simp_all)
  · split at h <;> cases h; have := hg _ _ hx; subst this; simp_all
  · cases h; have := hg _ _ hx; subst this; simp
  · cases h
  · cases h; have := hg _ _ hx; subst this; simp
  · cases h; have := hg _ _ hx; subst this; simp
  · cases h; have := hg _ _ hx; subst this; simp
  · split at h <;> cases h <;> (have := hg _ _ hx; subst this; simp_all)
  · split at h <;> cases h
    · cases hp
    · have := hg _ _ hx; subst this; simp_all
  · cases h

theorem g0 (q : LPc) : ∀ a b : LPc, [a, q] = [b, q] → a = b := by intro a b h; cases h; rfl
theorem g1 (p : LPc) : ∀ a b : LPc, [p, a] = [p, b] → a = b := by intro a b h; cases h; rfl

/-! ## `Dial` that waits for ever -/

def LostAt (s : DialSt) (p q : LPc) : Prop :=
  s.dial = .wait ∧ s.lat.chClosed = false ∧ (p = .wBlocked ∨ p = .wLock ∧ s.lat.locked = false) ∧
  (s.lat.ready = true ∧ q ≠ .uUnlock ∧ q ≠ .uClose ∨ s.lat.ready = false ∧ (s.rd = .refuse ∨ s.rd = .exit ∨ s.rd = .dead))

theorem lostAt_iff {p q : LPc} (h : LatInv native s p q) : LostAt s p q ↔ AtChannel s ∧ PastWaking s := by
  have e0 : (s.lat.ths[0]? : Option LPc) = some p := by rw [h.ths]; rfl
  have e1 : (s.lat.ths[1]? : Option LPc) = some q := by rw [h.ths]; rfl
  simp only [LostAt, AtChannel, PastWaking, e0, e1, Option.some.injEq, ne_eq]
  constructor
  · rintro ⟨a, b, c, d⟩; exact ⟨⟨a, b, c⟩, d⟩
  · rintro ⟨⟨a, b, c⟩, d⟩; exact ⟨a, b, c, d⟩

theorem lost_next {p q p' q' : LPc} (h : LatInv native s p q) (h' : LatInv native s' p' q') (hl : LostAt s p q)
    (hx : DNext native s p q s' p' q') : LostAt s' p' q' := by
  obtain ⟨h1, h2, h3, h4, h5, h6, h7, h8, h9, h10, h11, h12, h13, h14, h15, h16, h17, h18, h19⟩ := h
  obtain ⟨l1, l2, l3, l4⟩ := hl
  have hn : native = false := by cases native <;> simp_all
  subst hn
  have calm := h'.calm
  cases hx
  case lat0 =>
    rename_i hd hne hl ht
    rcases lstep_cases hl calm (g0 q) ht with h | h | h | h | h | h | h | h | h | h | h <;> grind [LostAt]
  case lat1 =>
    rename_i hd hl ht
    rcases lstep_cases hl calm (g1 p) ht with h | h | h | h | h | h | h | h | h | h | h <;> grind [LostAt]
  all_goals (unfold LostAt; (try simp only [shut_lat, shut_rd, shut_dial]); grind)

/-! ## `Dial` that can still return -/

def Ends (native : Bool) (s : DialSt) : Prop := ∃ ops t r, s.run native ops = some t ∧ t.dial = .done r

theorem Ends.step {op : DialOp} {t : DialSt} (h : s.step native op = some t) (he : Ends native t) : Ends native s := by
  obtain ⟨ops, u, r, h1, h2⟩ := he
  exact ⟨op :: ops, u, r, by simp only [DialSt.run, h]; exact h1, h2⟩

theorem latInv_pin {p q p' q' : LPc} {op : DialOp} (h : LatInv native s p q) (hs : s.step native op = some s')
    (ht : s'.lat.ths = [p', q']) : LatInv native s' p' q' := by
  obtain ⟨a, b, h'⟩ := latInv_step h hs
  have := h'.ths
  rw [ht] at this
  cases this
  exact h'

theorem next0 {p q p' : LPc} {l : Latch} (h : LatInv native s p q) (hd : s.dial = .wait) (hne : ∀ e, p ≠ .wDone e)
    (hl : lstep s.lat p (fun x => [x, q]) = some l) : s.step native (.dial true) = some { s with lat := l } := by
  have e0 : (s.lat.ths[0]? : Option LPc) = some p := by rw [h.ths]; rfl
  simp only [DialSt.step, DialSt.dialStep, hd, e0, step0 h.ths h.calm, hl, Option.map_some]
  split
  · rename_i hp; cases hp; exact absurd rfl (hne _)
  · rename_i hp; cases hp; exact absurd rfl (hne _)
  · rfl

theorem next1 {p q : LPc} {l : Latch} {k : DialNext} (h : LatInv native s p q) (hd : s.rd = .lat k) (hne : LPc.settled q = false)
    (hl : lstep s.lat q (fun x => [p, x]) = some l) : s.step native (.reader true) = some { s with lat := l } := by
  have e0 : (s.lat.ths[1]? : Option LPc) = some q := by rw [h.ths]; rfl
  simp only [DialSt.step, DialSt.readerStep, hd, e0, step1 h.ths h.calm, hl, Option.map_some]
  cases k <;> cases q <;> first | rfl | cases hne

theorem ends_ident (hd : s.dial = .ident) : Ends native s :=
  ⟨[.dial true], _, _, by simp only [DialSt.run, DialSt.step, DialSt.dialStep, hd]; rfl, rfl⟩

theorem ends_close {e : GoErr} (hd : s.dial = .close e) : Ends native s :=
  ⟨[.dial true], _, _, by simp only [DialSt.run, DialSt.step, DialSt.dialStep, hd]; rfl, rfl⟩

theorem ends_wDone {p q : LPc} {e : Option GoErr} (h : LatInv native s p q) (hd : s.dial = .wait) (hp : p = .wDone e) :
    Ends native s := by
  have e0 : (s.lat.ths[0]? : Option LPc) = some (.wDone e) := by rw [h.ths, hp]; rfl
  cases e with
  | none =>
    exact .step (op := .dial true) (by simp only [DialSt.step, DialSt.dialStep, hd, e0]; rfl) (ends_ident rfl)
  | some e =>
    exact .step (op := .dial true) (by simp only [DialSt.step, DialSt.dialStep, hd, e0]; rfl) (ends_close rfl)

theorem ends_wRead {p q : LPc} (h : LatInv native s p q) (hd : s.dial = .wait) (hp : p = .wRead) : Ends native s := by
  subst hp
  have hs := next0 (p' := .wDone s.lat.err) h hd (by simp) (by simp only [lstep]; rfl)
  exact .step hs (ends_wDone (latInv_pin h hs rfl) hd rfl)

theorem ends_closed {p q : LPc} (h : LatInv native s p q) (hd : s.dial = .wait) (hp : p = .wBlocked)
    (hc : s.lat.chClosed = true) : Ends native s := by
  subst hp
  have hs := next0 (p' := .wRead) h hd (by simp) (by simp only [lstep, hc, if_true]; rfl)
  exact .step hs (ends_wRead (latInv_pin h hs rfl) hd rfl)

theorem rd_of_uns {p q : LPc} (h : LatInv native s p q) (hq : LPc.settled q = false) : ∃ k, s.rd = .lat k := by
  have := h.qk
  cases hr : s.rd <;> simp only [hr] at this <;> first | exact ⟨_, rfl⟩ | (rw [this] at hq; cases hq)

theorem ends_uClose {p q : LPc} (h : LatInv native s p q) (hd : s.dial = .wait) (hp : p = .wBlocked) (hq : q = .uClose) :
    Ends native s := by
  subst hp; subst hq
  obtain ⟨k, hk⟩ := rd_of_uns h rfl
  have hs := next1 h hk rfl (by simp only [lstep, (h.closing rfl).2.1, Bool.false_eq_true, if_false]; rfl)
  exact .step hs (ends_closed (latInv_pin h hs rfl) hd rfl rfl)

theorem ends_uUnlock {p q : LPc} (h : LatInv native s p q) (hd : s.dial = .wait) (hp : p = .wBlocked) (hq : q = .uUnlock) :
    Ends native s := by
  subst hp; subst hq
  obtain ⟨k, hk⟩ := rd_of_uns h rfl
  rcases h.blocked rfl with hc | hc | hc
  · exact ends_closed h hd rfl hc
  · have hs := next1 h hk rfl (by simp only [lstep, hc, if_true]; rfl)
    exact .step hs (ends_uClose (latInv_pin h hs rfl) hd rfl rfl)
  · cases hc

theorem ends_uReady {p q : LPc} (h : LatInv native s p q) (hd : s.dial = .wait) (hp : p = .wBlocked) (hq : q = .uReady) :
    Ends native s := by
  subst hp; subst hq
  obtain ⟨k, hk⟩ := rd_of_uns h rfl
  have hs := next1 h hk rfl (by simp only [lstep]; rfl)
  exact .step hs (ends_uUnlock (latInv_pin h hs rfl) hd rfl rfl)

theorem ends_uErr {p q : LPc} {e : Option GoErr} (h : LatInv native s p q) (hd : s.dial = .wait) (hp : p = .wBlocked)
    (hq : q = .uErr e) : Ends native s := by
  subst hp; subst hq
  obtain ⟨k, hk⟩ := rd_of_uns h rfl
  have hs := next1 h hk rfl (by simp only [lstep]; rfl)
  exact .step hs (ends_uReady (latInv_pin h hs rfl) hd rfl rfl)

theorem ends_uCheck {p q : LPc} {e : Option GoErr} (h : LatInv native s p q) (hd : s.dial = .wait) (hp : p = .wBlocked)
    (hr : s.lat.ready = false) (hq : q = .uCheck e) : Ends native s := by
  subst hp; subst hq
  obtain ⟨k, hk⟩ := rd_of_uns h rfl
  have hs := next1 h hk rfl (by simp only [lstep, hr, Bool.false_eq_true, if_false]; rfl)
  exact .step hs (ends_uErr (latInv_pin h hs rfl) hd rfl rfl)

theorem ends_idle {p q : LPc} (h : LatInv native s p q) (hd : s.dial = .wait) (hp : p = .wBlocked)
    (hr : s.lat.ready = false) (hi : s.rd = .idle) : Ends native s := by
  subst hp
  have hs : s.step native (.fail errWrite) = some { s with
      fails := s.fails ++ [errWrite], lat := s.lat.goto 1 (.uCheck (some errWrite)), rd := .lat .exit } := by
    simp only [DialSt.step, hi, if_true]
  exact .step hs (ends_uCheck (latInv_pin h hs (by rw [goto1 h.ths])) hd rfl hr rfl)

theorem ends_answer {p q : LPc} (h : LatInv native s p q) (hd : s.dial = .wait) (hp : p = .wBlocked)
    (hr : s.lat.ready = false) (hi : s.rd = .answer) : Ends native s := by
  have hs : s.step native (.reader true) = some { s with rd := .idle } := by
    simp only [DialSt.step, DialSt.readerStep, hi, if_true]
  exact .step hs (ends_idle (latInv_pin h hs h.ths) hd hp hr rfl)

theorem ends_ack {p q : LPc} (h : LatInv native s p q) (hd : s.dial = .wait) (hp : p = .wBlocked)
    (hr : s.lat.ready = false) (hi : s.rd = .ack) : Ends native s := by
  have hs : s.step native (.reader true) = some { s with acked := true, rd := .answer } := by
    simp only [DialSt.step, DialSt.readerStep, hi]
  exact .step hs (ends_answer (latInv_pin h hs h.ths) hd hp hr rfl)

theorem ends_run {p q : LPc} (h : LatInv native s p q) (hd : s.dial = .wait) (hp : p = .wBlocked)
    (hr : s.lat.ready = false) (hi : s.rd = .run) : Ends native s := by
  have hs : s.step native (.reader true) = some { s with rd := .idle } := by
    simp only [DialSt.step, DialSt.readerStep, hi]
  exact .step hs (ends_idle (latInv_pin h hs h.ths) hd hp hr rfl)

theorem ends_start {p q : LPc} (h : LatInv native s p q) (hd : s.dial = .wait) (hp : p = .wBlocked)
    (hr : s.lat.ready = false) (hi : s.rd = .start) : Ends native s := by
  have hc : s.closed = false := by
    cases hc : s.closed with
    | false => rfl
    | true =>
      obtain ⟨r, e⟩ := h.done hc hi
      rw [hd] at e; cases e
  have hs : s.step native (.reader true) = some { s with rd := .idle } := by
    simp only [DialSt.step, DialSt.readerStep, hi, hc, Bool.false_eq_true, if_false]
  exact .step hs (ends_idle (latInv_pin h hs h.ths) hd hp hr rfl)

theorem ends_setAck {p q : LPc} (h : LatInv native s p q) (hd : s.dial = .wait) (hp : p = .wBlocked)
    (hr : s.lat.ready = false) (hi : s.rd = .setAck) : Ends native s := by
  have hs : s.step native (.reader true) = some { s with acked := true, lat := s.lat.goto 1 (.uCheck none), rd := .lat .go } := by
    simp only [DialSt.step, DialSt.readerStep, hi]
  exact .step hs (ends_uCheck (latInv_pin h hs (by rw [goto1 h.ths])) hd hp hr rfl)

theorem ends_setId {p q : LPc} {id : Bytes} (h : LatInv native s p q) (hd : s.dial = .wait) (hp : p = .wBlocked)
    (hr : s.lat.ready = false) (hi : s.rd = .setId id) : Ends native s := by
  have hs : s.step native (.reader true) = some { s with id := id, rd := .setAck } := by
    simp only [DialSt.step, DialSt.readerStep, hi]
  exact .step hs (ends_setAck (latInv_pin h hs h.ths) hd hp hr rfl)

theorem ends_mDone {p q : LPc} {e : Option GoErr} (h : LatInv native s p q) (hd : s.dial = .wait) (hp : p = .wBlocked)
    (hr : s.lat.ready = false) (hi : s.rd = .lat .mark) (hq : q = .wDone e) : Ends native s := by
  have e0 : (s.lat.ths[1]? : Option LPc) = some q := by rw [h.ths]; rfl
  cases e with
  | some e =>
    have := h.wDone e hq
    rw [hr] at this; cases this
  | none =>
    have hs : s.step native (.reader true) = some { s with rd := .ack } := by
      simp only [DialSt.step, DialSt.readerStep, hi, e0, hq]
    exact .step hs (ends_ack (latInv_pin h hs h.ths) hd hp hr rfl)

theorem ends_mRead {p q : LPc} (h : LatInv native s p q) (hd : s.dial = .wait) (hp : p = .wBlocked)
    (hr : s.lat.ready = false) (hi : s.rd = .lat .mark) (hq : q = .wRead) : Ends native s := by
  subst hq
  have hs := next1 h hi rfl (by simp only [lstep]; rfl)
  exact .step hs (ends_mDone (latInv_pin h hs rfl) hd hp hr hi rfl)

theorem ends_mLock {p q : LPc} (h : LatInv native s p q) (hd : s.dial = .wait) (hp : p = .wBlocked)
    (hr : s.lat.ready = false) (hi : s.rd = .lat .mark) (hq : q = .wLock) : Ends native s := by
  subst hq
  rcases h.blocked hp with hc | hc | hc
  · exact ends_closed h hd hp hc
  · have hs := next1 h hi rfl (by simp only [lstep, hc, if_true]; rfl)
    exact .step hs (ends_mRead (latInv_pin h hs rfl) hd hp hr hi rfl)
  · cases hc

theorem ends_mCheck {p q : LPc} (h : LatInv native s p q) (hd : s.dial = .wait) (hp : p = .wBlocked)
    (hr : s.lat.ready = false) (hi : s.rd = .lat .mark) (hq : q = .wCheck) : Ends native s := by
  subst hq
  have hs := next1 h hi rfl (by simp only [lstep, hr, Bool.false_eq_true, if_false]; rfl)
  exact .step hs (ends_mLock (latInv_pin h hs rfl) hd hp rfl hi rfl)

theorem ends_blocked {p q : LPc} (h : LatInv native s p q) (hd : s.dial = .wait) (hp : p = .wBlocked)
    (hl : ¬ LostAt s p q) : Ends native s := by
  by_cases hc : s.lat.chClosed = true
  · exact ends_closed h hd hp hc
  have hc : s.lat.chClosed = false := by simpa using hc
  by_cases h1 : q = .uUnlock
  · exact ends_uUnlock h hd hp h1
  by_cases h2 : q = .uClose
  · exact ends_uClose h hd hp h2
  have hr : s.lat.ready = false := by
    cases hr : s.lat.ready with
    | false => rfl
    | true => exact absurd ⟨hd, hc, .inl hp, .inl ⟨hr, h1, h2⟩⟩ hl
  have hk := h.qk
  have hu := h.uDone hr
  have lost : (s.rd = .refuse ∨ s.rd = .exit ∨ s.rd = .dead) → Ends native s := fun he =>
    absurd ⟨hd, hc, .inl hp, .inr ⟨hr, he⟩⟩ hl
  cases hi : s.rd with
  | start => exact ends_start h hd hp hr hi
  | idle => exact ends_idle h hd hp hr hi
  | ack => exact ends_ack h hd hp hr hi
  | answer => exact ends_answer h hd hp hr hi
  | setId id => exact ends_setId h hd hp hr hi
  | setAck => exact ends_setAck h hd hp hr hi
  | run => exact ends_run h hd hp hr hi
  | refuse => exact lost (.inl hi)
  | exit => exact lost (.inr (.inl hi))
  | dead => exact lost (.inr (.inr hi))
  | lat k =>
    simp only [hi] at hk
    cases hq : q with
    | wCheck => cases k <;> simp only [hq, LPc.waits, Bool.true_eq_false] at hk; exact ends_mCheck h hd hp hr hi hq
    | wLock => cases k <;> simp only [hq, LPc.waits, Bool.true_eq_false] at hk; exact ends_mLock h hd hp hr hi hq
    | wBlocked => exact absurd hp (h.qBlocked hq).2
    | wRead => cases k <;> simp only [hq, LPc.waits, Bool.true_eq_false] at hk; exact ends_mRead h hd hp hr hi hq
    | wDone e => cases k <;> simp only [hq, LPc.waits, Bool.true_eq_false] at hk; exact ends_mDone h hd hp hr hi hq
    | uCheck e => exact ends_uCheck h hd hp hr hq
    | uErr e => exact ends_uErr h hd hp hq
    | uReady => exact ends_uReady h hd hp hq
    | uUnlock => exact absurd hq h1
    | uClose => exact absurd hq h2
    | uDone =>
      cases k
      · simp only [hq, LPc.waits, Bool.false_eq_true] at hk
      · exact absurd hq (hu (.inl hi))
      · exact absurd hq (hu (.inr hi))

theorem ends_wLock {p q : LPc} (h : LatInv native s p q) (hd : s.dial = .wait) (hp : p = .wLock)
    (hl : ¬ LostAt s p q) : Ends native s := by
  subst hp
  cases hk : s.lat.locked with
  | true =>
    have hs := next0 (p' := .wRead) h hd (by simp) (by simp only [lstep, hk, if_true]; rfl)
    exact .step hs (ends_wRead (latInv_pin h hs rfl) hd rfl)
  | false =>
    have hs := next0 (p' := .wBlocked) h hd (by simp) (by simp only [lstep, hk, Bool.false_eq_true, if_false]; rfl)
    refine .step hs (ends_blocked (latInv_pin h hs rfl) hd rfl fun ⟨_, h2, _, h4⟩ => hl ⟨hd, h2, .inr ⟨rfl, hk⟩, h4⟩)

theorem ends_of_not_lost {p q : LPc} (h : LatInv native s p q) (hl : ¬ LostAt s p q) : Ends native s := by
  have wait : s.dial = .wait → Ends native s := by
    intro hd
    cases hp : p with
    | wCheck =>
      subst hp
      cases hr : s.lat.ready with
      | true =>
        have hs := next0 (p' := .wRead) h hd (by simp) (by simp only [lstep, hr, if_true]; rfl)
        exact .step hs (ends_wRead (latInv_pin h hs rfl) hd rfl)
      | false =>
        have hs := next0 (p' := .wLock) h hd (by simp) (by simp only [lstep, hr, Bool.false_eq_true, if_false]; rfl)
        refine .step hs (ends_wLock (latInv_pin h hs rfl) hd rfl ?_)
        rintro ⟨_, _, _, ⟨h4, _⟩ | ⟨_, h4⟩⟩
        · cases h4
        · have h4 : s.rd = .refuse ∨ s.rd = .exit ∨ s.rd = .dead := h4
          rcases h.past hr (by rcases h4 with e | e | e <;> simp [e]) with ⟨e, _⟩ | ⟨_, r, e⟩
          · cases e
          · rw [hd] at e; cases e
    | wLock => exact ends_wLock h hd hp hl
    | wBlocked => exact ends_blocked h hd hp hl
    | wRead => exact ends_wRead h hd hp
    | wDone e => exact ends_wDone h hd hp
    | _ => have := h.pw; rw [hp] at this; cases this
  cases hd : s.dial with
  | wait => exact wait hd
  | start =>
    cases native with
    | true => exact .step (op := .dial true) (by simp only [DialSt.step, DialSt.dialStep, hd]; rfl) (ends_ident rfl)
    | false =>
      exact .step (op := .dial true) (by simp only [DialSt.step, DialSt.dialStep, hd]; rfl)
        (.step (op := .dial false) (by simp only [DialSt.step, DialSt.dialStep]; rfl) (ends_close rfl))
  | write =>
    exact .step (op := .dial false) (by simp only [DialSt.step, DialSt.dialStep, hd]; rfl) (ends_close rfl)
  | close e => exact ends_close hd
  | ident => exact ends_ident hd
  | done r => exact ⟨[], s, r, rfl, hd⟩

end Neffos.Dialing
