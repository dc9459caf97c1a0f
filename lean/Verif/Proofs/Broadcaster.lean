import Verif.Model.Broadcaster
/-! Invariants of the default broadcaster. -/
set_option autoImplicit false
namespace Neffos

variable {torn : Bool} {s s' : BSt}

/-- the steps, one by one -/
inductive BNext (torn : Bool) (s : BSt) : BOp → BSt → Prop where
  | call : BNext torn s .call { s with casts := s.casts ++ [.lock] }
  | castLock {k : Nat} (h : s.casts[k]? = some .lock) (hm : s.mu = none) :
      BNext torn s (.cast k) { s.setB k .setPtr with mu := some (.cast k) }
  | castPtr {k : Nat} (h : s.casts[k]? = some .setPtr) (ht : torn = true) :
      BNext torn s (.cast k) { s.setB k .setLen with msgs := { s.msgs with ptr := some k }, sets := s.sets ++ [k] }
  | castSet {k : Nat} (h : s.casts[k]? = some .setPtr) (ht : torn = false) :
      BNext torn s (.cast k) { s.setB k .unlock with msgs := ⟨some k, some k⟩, sets := s.sets ++ [k] }
  | castLen {k : Nat} (h : s.casts[k]? = some .setLen) :
      BNext torn s (.cast k) { s.setB k .unlock with msgs := { s.msgs with len := some k } }
  | castUnlock {k : Nat} (h : s.casts[k]? = some .unlock) :
      BNext torn s (.cast k) { s.setB k .swap with mu := none }
  | castSwap {k : Nat} (h : s.casts[k]? = some .swap) :
      BNext torn s (.cast k)
        { s.setB k (.close s.awaiter) with awaiter := s.chs.length, chs := s.chs ++ [false] }
  | castPanic {k ch : Nat} (h : s.casts[k]? = some (.close ch)) (hc : s.chs[ch]? = some true) :
      BNext torn s (.cast k) { s with panicked := true }
  | castClose {k ch : Nat} (h : s.casts[k]? = some (.close ch)) (hc : s.chs[ch]? ≠ some true) :
      BNext torn s (.cast k) { s.setB k .done with chs := s.chs.set ch true }
  | join : BNext torn s .join { s with recvs := s.recvs ++ [{}] }
  | shut {r : Nat} {x : Recv} (h : s.recvs[r]? = some x) :
      BNext torn s (.shut r) (s.setR r { x with closed := true })
  | lock {r : Nat} {ok : Bool} {x : Recv} (h : s.recvs[r]? = some x) (hp : x.pc = .lock) (hm : s.mu = none) :
      BNext torn s (.recv r ok) { s.setR r { x with pc := .load } with mu := some (.conn r) }
  | load {r : Nat} {ok : Bool} {x : Recv} (h : s.recvs[r]? = some x) (hp : x.pc = .load) :
      BNext torn s (.recv r ok) (s.setR r { x with pc := .unlock s.awaiter })
  | unlock {r ch : Nat} {ok : Bool} {x : Recv} (h : s.recvs[r]? = some x) (hp : x.pc = .unlock ch) :
      BNext torn s (.recv r ok) { s.setR r { x with pc := .sel ch } with mu := none }
  | sel {r ch : Nat} {ok : Bool} {x : Recv} (h : s.recvs[r]? = some x) (hp : x.pc = .sel ch)
      (hc : s.chs[ch]? = some true) : BNext torn s (.recv r ok) (s.setR r { x with pc := .readPtr })
  | readPtr {r : Nat} {ok : Bool} {x : Recv} (h : s.recvs[r]? = some x) (hp : x.pc = .readPtr) (ht : torn = true) :
      BNext torn s (.recv r ok) (s.setR r { x with pc := .readLen s.msgs.ptr })
  | read {r : Nat} {ok : Bool} {x : Recv} (h : s.recvs[r]? = some x) (hp : x.pc = .readPtr) (ht : torn = false) :
      BNext torn s (.recv r ok) (s.setR r { x with pc := .relock (some s.msgs) })
  | readLen {r : Nat} {ok : Bool} {p : Option Nat} {x : Recv} (h : s.recvs[r]? = some x) (hp : x.pc = .readLen p) :
      BNext torn s (.recv r ok) (s.setR r { x with pc := .relock (some ⟨p, s.msgs.len⟩) })
  | relock {r : Nat} {ok : Bool} {m : Slice} {x : Recv} (h : s.recvs[r]? = some x) (hp : x.pc = .relock (some m))
      (hm : s.mu = none) :
      BNext torn s (.recv r ok) { s.setR r { x with pc := .publish m } with mu := some (.conn r) }
  | relockEnd {r : Nat} {ok : Bool} {x : Recv} (h : s.recvs[r]? = some x) (hp : x.pc = .relock none)
      (hm : s.mu = none) :
      BNext torn s (.recv r ok) { s.setR r { x with pc := .leave false } with mu := some (.conn r) }
  | publish {r : Nat} {ok : Bool} {m : Slice} {x : Recv} (h : s.recvs[r]? = some x) (hp : x.pc = .publish m)
      (ho : ok = true ∨ x.closed = true) :
      BNext torn s (.recv r ok) (s.setR r { x with pc := .leave ok, got := x.got ++ [m] })
  | leave {r : Nat} {ok more : Bool} {x : Recv} (h : s.recvs[r]? = some x) (hp : x.pc = .leave more) :
      BNext torn s (.recv r ok) { s.setR r { x with pc := if more then .lock else .ended } with mu := none }
  | quit {r ch : Nat} {x : Recv} (h : s.recvs[r]? = some x) (hp : x.pc = .sel ch) (hc : x.closed = true) :
      BNext torn s (.quit r) (s.setR r { x with pc := .relock none })

theorem bnext_of_cast {k : Nat} (h : s.castStep torn k = some s') : BNext torn s (.cast k) s' := by
  unfold BSt.castStep at h
  split at h
  · cases h
  · split at h
    · split at h
      · cases h; exact .castLock ‹_› ‹_›
      · cases h
    · split at h
      · cases h; exact .castPtr ‹_› ‹_›
      · cases h; exact .castSet ‹_› (by simpa using ‹¬torn = true›)
    · cases h; exact .castLen ‹_›
    · cases h; exact .castUnlock ‹_›
    · cases h; exact .castSwap ‹_›
    · split at h
      · cases h; exact .castPanic ‹_› ‹_›
      · cases h; exact .castClose ‹_› ‹_›
    · cases h

theorem bnext_of_recv {r : Nat} {ok : Bool} (h : s.recvStep torn r ok = some s') : BNext torn s (.recv r ok) s' := by
  unfold BSt.recvStep at h
  split at h
  · cases h
  · split at h
    · split at h
      · cases h; exact .lock ‹_› ‹_› ‹_›
      · cases h
    · cases h; exact .load ‹_› ‹_›
    · cases h; exact .unlock ‹_› ‹_›
    · split at h
      · cases h; exact .sel ‹_› ‹_› ‹_›
      · cases h
    · split at h
      · cases h; exact .readPtr ‹_› ‹_› ‹_›
      · cases h; exact .read ‹_› ‹_› (by simpa using ‹¬torn = true›)
    · cases h; exact .readLen ‹_› ‹_›
    · rename_i m _
      split at h
      · cases m <;> cases h
        · exact .relockEnd ‹_› ‹_› ‹_›
        · exact .relock ‹_› ‹_› ‹_›
      · cases h
    · split at h
      · cases h; exact .publish ‹_› ‹_› (by simpa using ‹(ok || _) = true›)
      · cases h
    · cases h; exact .leave ‹_› ‹_›
    · cases h

theorem bnext_of_step {op : BOp} (h : s.step torn op = some s') : BNext torn s op s' := by
  unfold BSt.step at h
  split at h
  · cases h; exact .call
  · split at h
    · cases h
    · exact bnext_of_cast h
  · cases h; exact .join
  · split at h
    · cases h
    · cases h; exact .shut ‹_›
  · split at h
    · cases h
    · exact bnext_of_recv h
  · split at h
    · cases h
    · split at h
      · split at h
        · cases h; exact .quit ‹_› ‹_› ‹_›
        · cases h
      · cases h

theorem brun_append {ops ops' : List BOp} (h : s.run torn ops = some s') :
    s.run torn (ops ++ ops') = s'.run torn ops' := by
  induction ops generalizing s with
  | nil => cases h; rfl
  | cons op ops ih =>
    simp only [BSt.run, List.cons_append] at h ⊢
    split at h
    · exact ih h
    · cases h

theorem breach_run {ops : List BOp} (hr : BReach torn s) (h : s.run torn ops = some s') : BReach torn s' := by
  obtain ⟨ops0, h0⟩ := hr
  exact ⟨ops0 ++ ops, by rw [brun_append h0]; exact h⟩

/-- an invariant along a run from a state that some schedule reaches -/
theorem brun_inv {P : BSt → Prop} (hs : ∀ t op t', BReach torn t → P t → BNext torn t op t' → P t')
    {ops : List BOp} (hr : BReach torn s) (h : P s) (hx : s.run torn ops = some s') : P s' := by
  induction ops generalizing s with
  | nil => cases hx; exact h
  | cons op ops ih =>
    simp only [BSt.run] at hx
    split at hx
    · rename_i t ht
      exact ih (breach_run (ops := [op]) hr (by simp [BSt.run, ht])) (hs _ _ _ hr h (bnext_of_step ht)) hx
    · cases hx

theorem breach_inv {P : BSt → Prop} (h0 : P {}) (hs : ∀ t op t', BReach torn t → P t → BNext torn t op t' → P t')
    (hr : BReach torn s) : P s := by
  obtain ⟨ops, h⟩ := hr
  exact brun_inv hs ⟨[], rfl⟩ h0 h

/-! ## the mutex -/

def BPc.holds : BPc → Bool
  | .setPtr | .setLen | .unlock => true
  | _ => false

def RPc.holds : RPc → Bool
  | .load | .unlock _ | .publish _ | .leave _ => true
  | _ => false

/-- the goroutine holds the mutex exactly if it is between a lock and an unlock -/
structure BSt.Locked (s : BSt) : Prop where
  cast : ∀ k pc, s.casts[k]? = some pc → (s.mu = some (.cast k) ↔ pc.holds = true)
  conn : ∀ r x, s.recvs[r]? = some x → (s.mu = some (.conn r) ↔ x.pc.holds = true)
  castIn : ∀ k, s.mu = some (.cast k) → k < s.casts.length
  connIn : ∀ r, s.mu = some (.conn r) → r < s.recvs.length

theorem set_cases {α : Type} {l : List α} {i j : Nat} {a b : α} (h : (l.set i a)[j]? = some b) :
    (i = j ∧ b = a ∧ i < l.length) ∨ (i ≠ j ∧ l[j]? = some b) := by
  rw [List.getElem?_set] at h
  split at h
  · split at h
    · cases h; exact .inl ⟨‹_›, rfl, ‹_›⟩
    · cases h
  · exact .inr ⟨‹_›, h⟩

theorem append_cases {α : Type} {l : List α} {j : Nat} {a b : α} (h : (l ++ [a])[j]? = some b) :
    (j = l.length ∧ b = a) ∨ l[j]? = some b := by
  rw [List.getElem?_append] at h
  split at h
  · exact .inr h
  · rw [List.getElem?_singleton] at h
    split at h
    · cases h; exact .inl ⟨by omega, rfl⟩
    · cases h

section
variable {i : Nat} {x : Recv} {y : BPc}
@[simp] theorem setR_mu : (s.setR i x).mu = s.mu := rfl
@[simp] theorem setR_msgs : (s.setR i x).msgs = s.msgs := rfl
@[simp] theorem setR_awaiter : (s.setR i x).awaiter = s.awaiter := rfl
@[simp] theorem setR_chs : (s.setR i x).chs = s.chs := rfl
@[simp] theorem setR_casts : (s.setR i x).casts = s.casts := rfl
@[simp] theorem setR_sets : (s.setR i x).sets = s.sets := rfl
@[simp] theorem setR_panicked : (s.setR i x).panicked = s.panicked := rfl
@[simp] theorem setR_recvs : (s.setR i x).recvs = s.recvs.set i x := rfl
@[simp] theorem setB_mu : (s.setB i y).mu = s.mu := rfl
@[simp] theorem setB_msgs : (s.setB i y).msgs = s.msgs := rfl
@[simp] theorem setB_awaiter : (s.setB i y).awaiter = s.awaiter := rfl
@[simp] theorem setB_chs : (s.setB i y).chs = s.chs := rfl
@[simp] theorem setB_recvs : (s.setB i y).recvs = s.recvs := rfl
@[simp] theorem setB_sets : (s.setB i y).sets = s.sets := rfl
@[simp] theorem setB_panicked : (s.setB i y).panicked = s.panicked := rfl
@[simp] theorem setB_casts : (s.setB i y).casts = s.casts.set i y := rfl
end

/-- call `k` goes from `pc` to `pc'` -/
theorem locked_cast {t : BSt} {k : Nat} {pc pc' : BPc} (h : s.Locked) (hk : s.casts[k]? = some pc)
    (hc : t.casts = s.casts.set k pc') (hr : t.recvs = s.recvs)
    (hm : (pc'.holds = pc.holds ∧ t.mu = s.mu) ∨ (pc'.holds = true ∧ s.mu = none ∧ t.mu = some (.cast k)) ∨
      (pc.holds = true ∧ pc'.holds = false ∧ t.mu = none)) : t.Locked := by
  have hlen := (List.getElem?_eq_some_iff.mp hk).1
  rcases hm with ⟨hm, e⟩ | ⟨hm, e0, e⟩ | ⟨hm0, hm, e⟩
  · refine ⟨fun j q hj => ?_, ?_, ?_, ?_⟩
    · rw [hc] at hj
      rcases set_cases hj with ⟨rfl, rfl, _⟩ | ⟨_, hj⟩
      · rw [e, hm]; exact h.cast k pc hk
      · rw [e]; exact h.cast j q hj
    · rw [e, hr]; exact h.conn
    · rw [e, hc, List.length_set]; exact h.castIn
    · rw [e, hr]; exact h.connIn
  · refine ⟨fun j q hj => ?_, fun r x hx => ?_, fun j hj => ?_, fun r hx => ?_⟩
    · rw [hc] at hj
      rcases set_cases hj with ⟨rfl, rfl, _⟩ | ⟨hne, hj⟩
      · simp [e, hm]
      · have := h.cast j q hj
        rw [e0] at this
        rw [e]
        simp [hne, ← this]
    · rw [hr] at hx
      have := h.conn r x hx
      rw [e0] at this
      rw [e]
      simp [← this]
    · rw [e] at hj; cases hj; rw [hc, List.length_set]; exact hlen
    · rw [e] at hx; cases hx
  · have e0 := (h.cast k pc hk).mpr hm0
    refine ⟨fun j q hj => ?_, fun r x hx => ?_, fun j hj => ?_, fun r hx => ?_⟩
    · rw [hc] at hj
      rcases set_cases hj with ⟨rfl, rfl, _⟩ | ⟨hne, hj⟩
      · simp [e, hm]
      · have := h.cast j q hj
        rw [e0] at this
        rw [e]
        simp [← this, hne]
    · rw [hr] at hx
      have := h.conn r x hx
      rw [e0] at this
      rw [e]
      simp [← this]
    · rw [e] at hj; cases hj
    · rw [e] at hx; cases hx

/-- the goroutine of connection `r` goes from `x` to `y` -/
theorem locked_conn {t : BSt} {r : Nat} {x y : Recv} (h : s.Locked) (hk : s.recvs[r]? = some x)
    (hr : t.recvs = s.recvs.set r y) (hc : t.casts = s.casts)
    (hm : (y.pc.holds = x.pc.holds ∧ t.mu = s.mu) ∨ (y.pc.holds = true ∧ s.mu = none ∧ t.mu = some (.conn r)) ∨
      (x.pc.holds = true ∧ y.pc.holds = false ∧ t.mu = none)) : t.Locked := by
  have hlen := (List.getElem?_eq_some_iff.mp hk).1
  rcases hm with ⟨hm, e⟩ | ⟨hm, e0, e⟩ | ⟨hm0, hm, e⟩
  · refine ⟨?_, fun j q hj => ?_, ?_, ?_⟩
    · rw [e, hc]; exact h.cast
    · rw [hr] at hj
      rcases set_cases hj with ⟨rfl, rfl, _⟩ | ⟨_, hj⟩
      · rw [e, hm]; exact h.conn r x hk
      · rw [e]; exact h.conn j q hj
    · rw [e, hc]; exact h.castIn
    · rw [e, hr, List.length_set]; exact h.connIn
  · refine ⟨fun j q hj => ?_, fun j q hj => ?_, fun j hj => ?_, fun j hj => ?_⟩
    · rw [hc] at hj
      have := h.cast j q hj
      rw [e0] at this
      rw [e]
      simp [← this]
    · rw [hr] at hj
      rcases set_cases hj with ⟨rfl, rfl, _⟩ | ⟨hne, hj⟩
      · simp [e, hm]
      · have := h.conn j q hj
        rw [e0] at this
        rw [e]
        simp [hne, ← this]
    · rw [e] at hj; cases hj
    · rw [e] at hj; cases hj; rw [hr, List.length_set]; exact hlen
  · have e0 := (h.conn r x hk).mpr hm0
    refine ⟨fun j q hj => ?_, fun j q hj => ?_, fun j hj => ?_, fun j hj => ?_⟩
    · rw [hc] at hj
      have := h.cast j q hj
      rw [e0] at this
      rw [e]
      simp [← this]
    · rw [hr] at hj
      rcases set_cases hj with ⟨rfl, rfl, _⟩ | ⟨hne, hj⟩
      · simp [e, hm]
      · have := h.conn j q hj
        rw [e0] at this
        rw [e]
        simp [← this, hne]
    · rw [e] at hj; cases hj
    · rw [e] at hj; cases hj

theorem locked_step {op : BOp} (h : s.Locked) (hx : BNext torn s op s') : s'.Locked := by
  cases hx
  case call =>
    refine ⟨fun k pc hk => ?_, h.conn, fun k hk => ?_, h.connIn⟩
    · rcases append_cases hk with ⟨rfl, rfl⟩ | hk
      · refine ⟨fun e => absurd (h.castIn _ e) (by omega), fun e => by simp [BPc.holds] at e⟩
      · exact h.cast k pc hk
    · have := h.castIn k hk
      simp only [List.length_append]; omega
  case join =>
    refine ⟨h.cast, fun r x hr => ?_, h.castIn, fun r hr => ?_⟩
    · rcases append_cases hr with ⟨rfl, rfl⟩ | hr
      · refine ⟨fun e => absurd (h.connIn _ e) (by omega), fun e => by simp [RPc.holds] at e⟩
      · exact h.conn r x hr
    · have := h.connIn r hr
      simp only [List.length_append]; omega
  case castPanic => exact ⟨h.cast, h.conn, h.castIn, h.connIn⟩
  case castLock hk hm => exact locked_cast h hk rfl rfl (.inr (.inl ⟨rfl, hm, rfl⟩))
  case castPtr hk _ => exact locked_cast h hk rfl rfl (.inl ⟨rfl, rfl⟩)
  case castSet hk _ => exact locked_cast h hk rfl rfl (.inl ⟨rfl, rfl⟩)
  case castLen hk => exact locked_cast h hk rfl rfl (.inl ⟨rfl, rfl⟩)
  case castUnlock hk => exact locked_cast h hk rfl rfl (.inr (.inr ⟨rfl, rfl, rfl⟩))
  case castSwap hk => exact locked_cast h hk rfl rfl (.inl ⟨rfl, rfl⟩)
  case castClose hk _ => exact locked_cast h hk rfl rfl (.inl ⟨rfl, rfl⟩)
  case shut hk => exact locked_conn h hk rfl rfl (.inl ⟨rfl, rfl⟩)
  case lock hk hp hm => exact locked_conn h hk rfl rfl (.inr (.inl ⟨rfl, hm, rfl⟩))
  case load hk hp => exact locked_conn h hk rfl rfl (.inl ⟨by rw [hp]; rfl, rfl⟩)
  case unlock hk hp => exact locked_conn h hk rfl rfl (.inr (.inr ⟨by rw [hp]; rfl, rfl, rfl⟩))
  case sel hk hp _ => exact locked_conn h hk rfl rfl (.inl ⟨by rw [hp]; rfl, rfl⟩)
  case readPtr hk hp _ => exact locked_conn h hk rfl rfl (.inl ⟨by rw [hp]; rfl, rfl⟩)
  case read hk hp _ => exact locked_conn h hk rfl rfl (.inl ⟨by rw [hp]; rfl, rfl⟩)
  case readLen hk hp => exact locked_conn h hk rfl rfl (.inl ⟨by rw [hp]; rfl, rfl⟩)
  case relock hk hp hm => exact locked_conn h hk rfl rfl (.inr (.inl ⟨rfl, hm, rfl⟩))
  case relockEnd hk hp hm => exact locked_conn h hk rfl rfl (.inr (.inl ⟨rfl, hm, rfl⟩))
  case publish hk hp _ => exact locked_conn h hk rfl rfl (.inl ⟨by rw [hp]; rfl, rfl⟩)
  case leave more x hk hp =>
    exact locked_conn h hk rfl rfl (.inr (.inr ⟨by rw [hp]; rfl, by cases more <;> rfl, rfl⟩))
  case quit hk hp _ => exact locked_conn h hk rfl rfl (.inl ⟨by rw [hp]; rfl, rfl⟩)

theorem breach_locked (hr : BReach torn s) : s.Locked :=
  breach_inv (P := BSt.Locked) ⟨by simp, by simp, by simp, by simp⟩ (fun _ _ _ _ => locked_step) hr

/-! ## the channels -/

/-- the channel the goroutine has got -/
def RPc.chan : RPc → Option Nat
  | .unlock ch | .sel ch => some ch
  | _ => none

/-- Every channel but the current one is closed, or exactly one call is about to close it. -/
structure BSt.Chans (s : BSt) : Prop where
  fresh : s.chs[s.awaiter]? = some false
  closing : ∀ (k ch : Nat), s.casts[k]? = some (.close ch) → s.chs[ch]? = some false ∧ ch ≠ s.awaiter
  one : ∀ (j k ch : Nat), s.casts[j]? = some (.close ch) → s.casts[k]? = some (.close ch) → j = k
  old : ∀ (ch : Nat), s.chs[ch]? = some false → ch = s.awaiter ∨ ∃ k : Nat, s.casts[k]? = some (.close ch)
  held : ∀ (r : Nat) (x : Recv) (ch : Nat), s.recvs[r]? = some x → x.pc.chan = some ch → ch < s.chs.length
  calm : s.panicked = false

theorem chans_casts {t : BSt} {k : Nat} {pc pc' : BPc} (h : s.Chans) (hk : s.casts[k]? = some pc)
    (hc : t.casts = s.casts.set k pc') (h0 : ∀ ch, pc ≠ .close ch) (h1 : ∀ ch, pc' ≠ .close ch)
    (hr : t.recvs = s.recvs) (ha : t.awaiter = s.awaiter) (hch : t.chs = s.chs) (hp : t.panicked = s.panicked) :
    t.Chans := by
  have hlen := (List.getElem?_eq_some_iff.mp hk).1
  have key : ∀ (j ch : Nat), t.casts[j]? = some (.close ch) ↔ s.casts[j]? = some (.close ch) := by
    intro j ch
    rw [hc]
    constructor
    · intro hj
      rcases set_cases hj with ⟨_, e, _⟩ | ⟨_, hj⟩
      · exact absurd e.symm (h1 ch)
      · exact hj
    · intro hj
      have : k ≠ j := by
        intro e; subst e; rw [hk] at hj; cases hj; exact h0 ch rfl
      rw [List.getElem?_set_ne this]; exact hj
  refine ⟨by rw [ha, hch]; exact h.fresh, fun j ch hj => ?_, fun i j ch hi hj => ?_, fun ch hf => ?_, ?_, ?_⟩
  · rw [hch, ha]; exact h.closing j ch ((key j ch).mp hj)
  · exact h.one i j ch ((key i ch).mp hi) ((key j ch).mp hj)
  · rw [hch] at hf
    rw [ha]
    exact (h.old ch hf).imp id (fun ⟨j, hj⟩ => ⟨j, (key j ch).mpr hj⟩)
  · rw [hr, hch]; exact h.held
  · rw [hp]; exact h.calm

theorem chans_recvs {t : BSt} {r : Nat} {x y : Recv} (h : s.Chans) (hk : s.recvs[r]? = some x)
    (hr : t.recvs = s.recvs.set r y) (hy : ∀ ch, y.pc.chan = some ch → x.pc.chan = some ch ∨ ch = s.awaiter)
    (hc : t.casts = s.casts) (ha : t.awaiter = s.awaiter) (hch : t.chs = s.chs) (hp : t.panicked = s.panicked) :
    t.Chans := by
  refine ⟨by rw [ha, hch]; exact h.fresh, ?_, ?_, ?_, fun j z ch hj hz => ?_, ?_⟩
  · rw [hc, hch, ha]; exact h.closing
  · rw [hc]; exact h.one
  · rw [hc, hch, ha]; exact h.old
  · rw [hr] at hj
    rw [hch]
    rcases set_cases hj with ⟨rfl, rfl, _⟩ | ⟨_, hj⟩
    · rcases hy ch hz with e | e
      · exact h.held r x ch hk e
      · rw [e]; exact (List.getElem?_eq_some_iff.mp h.fresh).1
    · exact h.held j z ch hj hz
  · rw [hp]; exact h.calm

theorem chans_step {op : BOp} (h : s.Chans) (hx : BNext torn s op s') : s'.Chans := by
  have hlt : s.awaiter < s.chs.length := (List.getElem?_eq_some_iff.mp h.fresh).1
  cases hx
  case call =>
    have key : ∀ (j ch : Nat), (s.casts ++ [BPc.lock])[j]? = some (.close ch) ↔ s.casts[j]? = some (.close ch) := by
      intro j ch
      constructor
      · intro hj
        rcases append_cases hj with ⟨_, e⟩ | hj
        · cases e
        · exact hj
      · intro hj
        rw [List.getElem?_append_left (List.getElem?_eq_some_iff.mp hj).1]; exact hj
    exact ⟨h.fresh, fun j ch hj => h.closing j ch ((key j ch).mp hj),
      fun i j ch hi hj => h.one i j ch ((key i ch).mp hi) ((key j ch).mp hj),
      fun ch hf => (h.old ch hf).imp id (fun ⟨j, hj⟩ => ⟨j, (key j ch).mpr hj⟩), h.held, h.calm⟩
  case join =>
    refine ⟨h.fresh, h.closing, h.one, h.old, fun r x ch hr hc => ?_, h.calm⟩
    rcases append_cases hr with ⟨_, rfl⟩ | hr
    · cases hc
    · exact h.held r x ch hr hc
  case castPanic k ch hk hc =>
    have := (h.closing k ch hk).1
    rw [hc] at this; cases this
  case castSwap k hk =>
    have hlen := (List.getElem?_eq_some_iff.mp hk).1
    have old : ∀ {ch : Nat} {b : Bool}, s.chs[ch]? = some b → (s.chs ++ [false])[ch]? = some b := by
      intro ch b e
      rw [List.getElem?_append_left (List.getElem?_eq_some_iff.mp e).1]; exact e
    refine ⟨by simp, fun j ch hj => ?_, fun i j ch hi hj => ?_, fun ch hf => ?_, fun r x ch hr hc => ?_, h.calm⟩
    · rcases set_cases hj with ⟨rfl, e, _⟩ | ⟨_, hj⟩
      · cases e; exact ⟨old h.fresh, by dsimp only; omega⟩
      · have := h.closing j ch hj
        exact ⟨old this.1, by have := (List.getElem?_eq_some_iff.mp this.1).1; dsimp only; omega⟩
    · rcases set_cases hi with ⟨rfl, e, _⟩ | ⟨_, hi⟩ <;> rcases set_cases hj with ⟨rfl, e', _⟩ | ⟨_, hj⟩
      · rfl
      · cases e; exact absurd rfl (h.closing j _ hj).2
      · cases e'; exact absurd rfl (h.closing i _ hi).2
      · exact h.one i j ch hi hj
    · rcases append_cases hf with ⟨e, _⟩ | hf
      · exact .inl e
      · right
        rcases h.old ch hf with e | ⟨j, hj⟩
        · subst e; exact ⟨k, by simp [hlen]⟩
        · refine ⟨j, ?_⟩
          have : k ≠ j := by intro e; subst e; rw [hk] at hj; cases hj
          show (s.casts.set k _)[j]? = _
          rw [List.getElem?_set_ne this]; exact hj
    · have := h.held r x ch hr hc
      simp only [List.length_append]; omega
  case castClose k ch hk hc =>
    have hlen := (List.getElem?_eq_some_iff.mp hk).1
    have hcl := h.closing k ch hk
    refine ⟨?_, fun j c hj => ?_, fun i j c hi hj => ?_, fun c hf => ?_, fun r x c hr hc => ?_, h.calm⟩
    · show (s.chs.set ch true)[s.awaiter]? = _
      rw [List.getElem?_set_ne hcl.2]; exact h.fresh
    · rcases set_cases hj with ⟨_, e, _⟩ | ⟨hne, hj⟩
      · cases e
      · have h2 := h.closing j c hj
        refine ⟨?_, h2.2⟩
        have : ch ≠ c := by intro e; subst e; exact hne (h.one k j ch hk hj)
        show (s.chs.set ch true)[c]? = _
        rw [List.getElem?_set_ne this]; exact h2.1
    · rcases set_cases hi with ⟨_, e, _⟩ | ⟨_, hi⟩
      · cases e
      · rcases set_cases hj with ⟨_, e, _⟩ | ⟨_, hj⟩
        · cases e
        · exact h.one i j c hi hj
    · rcases set_cases hf with ⟨_, e, _⟩ | ⟨hne, hf⟩
      · cases e
      · refine (h.old c hf).imp id (fun ⟨j, hj⟩ => ⟨j, ?_⟩)
        have : k ≠ j := by intro e; subst e; rw [hk] at hj; cases hj; exact hne rfl
        show (s.casts.set k _)[j]? = _
        rw [List.getElem?_set_ne this]; exact hj
    · have := h.held r x c hr hc
      simpa using this
  case castLock hk _ => exact chans_casts h hk rfl (by simp) (by simp) rfl rfl rfl rfl
  case castPtr hk _ => exact chans_casts h hk rfl (by simp) (by simp) rfl rfl rfl rfl
  case castSet hk _ => exact chans_casts h hk rfl (by simp) (by simp) rfl rfl rfl rfl
  case castLen hk => exact chans_casts h hk rfl (by simp) (by simp) rfl rfl rfl rfl
  case castUnlock hk => exact chans_casts h hk rfl (by simp) (by simp) rfl rfl rfl rfl
  case shut hk => exact chans_recvs h hk rfl (fun _ e => .inl e) rfl rfl rfl rfl
  case lock hk hp hm => exact chans_recvs h hk rfl (by simp [RPc.chan]) rfl rfl rfl rfl
  case load hk hp => exact chans_recvs h hk rfl (fun ch e => .inr (by cases e; rfl)) rfl rfl rfl rfl
  case unlock hk hp => exact chans_recvs h hk rfl (fun ch e => .inl (by rw [hp]; exact e)) rfl rfl rfl rfl
  case leave more x hk hp =>
    exact chans_recvs h hk rfl (fun ch e => by cases more <;> cases e) rfl rfl rfl rfl
  case sel hk _ _ => exact chans_recvs h hk rfl (by simp [RPc.chan]) rfl rfl rfl rfl
  case readPtr hk _ _ => exact chans_recvs h hk rfl (by simp [RPc.chan]) rfl rfl rfl rfl
  case read hk _ _ => exact chans_recvs h hk rfl (by simp [RPc.chan]) rfl rfl rfl rfl
  case readLen hk _ => exact chans_recvs h hk rfl (by simp [RPc.chan]) rfl rfl rfl rfl
  case relock hk _ _ => exact chans_recvs h hk rfl (by simp [RPc.chan]) rfl rfl rfl rfl
  case relockEnd hk _ _ => exact chans_recvs h hk rfl (by simp [RPc.chan]) rfl rfl rfl rfl
  case publish hk _ _ => exact chans_recvs h hk rfl (by simp [RPc.chan]) rfl rfl rfl rfl
  case quit hk _ _ => exact chans_recvs h hk rfl (by simp [RPc.chan]) rfl rfl rfl rfl

theorem breach_chans (hr : BReach torn s) : s.Chans :=
  breach_inv (P := BSt.Chans) ⟨rfl, by simp, by simp, fun ch h => .inl (by
    cases ch with
    | zero => rfl
    | succ n => simp at h), by simp, rfl⟩ (fun _ _ _ _ => chans_step) hr

/-! ## what is in `messages` -/

/-- `messages` was written -/
def BPc.past : BPc → Bool
  | .lock | .setPtr => false
  | _ => true

structure BSt.Sets (torn : Bool) (s : BSt) : Prop where
  mem : ∀ k, k ∈ s.sets ↔ ∃ pc, s.casts[k]? = some pc ∧ pc.past = true
  nodup : s.sets.Nodup
  last : s.msgs.ptr = s.sets.getLast?
  whole : torn = false → s.msgs.len = s.msgs.ptr
  some : ∀ ch : Nat, s.chs[ch]? = some true → s.sets ≠ []

theorem sets_same {t : BSt} (h : s.Sets torn) (hc : ∀ k : Nat, (∃ pc, t.casts[k]? = some pc ∧ pc.past = true) ↔
    ∃ pc, s.casts[k]? = some pc ∧ pc.past = true) (hs : t.sets = s.sets) (hm : t.msgs = s.msgs)
    (hch : ∀ ch : Nat, t.chs[ch]? = some true → s.sets ≠ []) : t.Sets torn := by
  refine ⟨fun k => ?_, ?_, ?_, ?_, ?_⟩
  · rw [hs, hc]; exact h.mem k
  · rw [hs]; exact h.nodup
  · rw [hs, hm]; exact h.last
  · rw [hm]; exact h.whole
  · rw [hs]; exact hch

theorem past_set {t : BSt} {k : Nat} {pc pc' : BPc} (hk : s.casts[k]? = some pc) (hc : t.casts = s.casts.set k pc')
    (h : pc'.past = pc.past) (j : Nat) : (∃ q, t.casts[j]? = some q ∧ q.past = true) ↔
    ∃ q, s.casts[j]? = some q ∧ q.past = true := by
  have hlen := (List.getElem?_eq_some_iff.mp hk).1
  rw [hc]
  by_cases e : k = j
  · subst e
    rw [hk]
    simp [hlen, h]
  · rw [List.getElem?_set_ne e]

theorem sets_add {t : BSt} {k : Nat} {pc' : BPc} (h : s.Sets torn) (hk : s.casts[k]? = some .setPtr)
    (hc : t.casts = s.casts.set k pc') (hp : pc'.past = true) (hs : t.sets = s.sets ++ [k])
    (hm : t.msgs.ptr = some k) (hw : torn = false → t.msgs.len = some k) : t.Sets torn := by
  have hlen := (List.getElem?_eq_some_iff.mp hk).1
  have hnot : k ∉ s.sets := by
    rw [h.mem]
    rintro ⟨pc, e, e'⟩
    rw [hk] at e; cases e; cases e'
  refine ⟨fun j => ?_, ?_, ?_, ?_, ?_⟩
  · rw [hs, hc]
    by_cases e : k = j
    · subst e; simp [hlen, hp]
    · rw [List.getElem?_set_ne e, ← h.mem]
      simp [Ne.symm e]
  · rw [hs, List.nodup_append]
    refine ⟨h.nodup, by simp, fun a ha b hb e => ?_⟩
    rw [List.mem_singleton] at hb
    subst hb; subst e; exact hnot ha
  · rw [hs, hm]; simp
  · intro e; rw [hw e, hm]
  · intro ch _; rw [hs]; simp

/-- without `torn` a slice is written in one step -/
theorem breach_noLen (hr : BReach false s) (k : Nat) : s.casts[k]? ≠ some .setLen := by
  refine breach_inv (P := fun s => s.casts[k]? ≠ some .setLen) (by simp) (fun t op t' _ h hx => ?_) hr
  have put : ∀ {j : Nat} {pc : BPc}, pc ≠ .setLen → (t.casts.set j pc)[k]? ≠ some .setLen := by
    intro j pc hp e
    rcases set_cases e with ⟨_, e, _⟩ | ⟨_, e⟩
    · exact hp e.symm
    · exact h e
  cases hx
  case call =>
    intro e
    rcases append_cases e with ⟨_, e⟩ | e
    · cases e
    · exact h e
  case castPtr ht => cases ht
  all_goals first | exact h | exact put (by simp)

theorem sets_step {op : BOp} (h : s.Sets torn) (hn : torn = false → ∀ k : Nat, s.casts[k]? ≠ some .setLen) (hx : BNext torn s op s') : s'.Sets torn := by
  cases hx
  case call =>
    refine sets_same h (fun k => ?_) rfl rfl h.some
    constructor
    · rintro ⟨q, h1, h2⟩
      rcases append_cases h1 with ⟨_, rfl⟩ | h1
      · cases h2
      · exact ⟨q, h1, h2⟩
    · rintro ⟨q, h1, h2⟩
      refine ⟨q, ?_, h2⟩
      show (s.casts ++ _)[k]? = _
      rw [List.getElem?_append_left (List.getElem?_eq_some_iff.mp h1).1]; exact h1
  case castPtr hk ht => exact sets_add h hk rfl rfl rfl rfl (fun e => by rw [ht] at e; cases e)
  case castSet hk ht => exact sets_add h hk rfl rfl rfl rfl (fun _ => rfl)
  case castLen k hk =>
    refine ⟨fun j => ?_, h.nodup, h.last, fun e => ?_, h.some⟩
    · refine (h.mem j).trans (past_set (t := s.setB k .unlock) hk rfl rfl j).symm
    · exact absurd hk (hn e k)
  case castLock hk _ => exact sets_same h (past_set hk rfl rfl) rfl rfl h.some
  case castUnlock hk => exact sets_same h (past_set hk rfl rfl) rfl rfl h.some
  case castSwap hk =>
    refine sets_same h (past_set hk rfl rfl) rfl rfl (fun ch hc => ?_)
    rcases append_cases hc with ⟨_, e⟩ | hc
    · cases e
    · exact h.some ch hc
  case castClose k ch hk hc =>
    refine sets_same h (past_set hk rfl rfl) rfl rfl (fun ch hc => ?_)
    have := (h.mem k).mpr ⟨_, hk, rfl⟩
    intro e; rw [e] at this; cases this
  all_goals exact sets_same h (fun _ => Iff.rfl) rfl rfl h.some

theorem breach_sets (hr : BReach torn s) : s.Sets torn :=
  breach_inv (P := BSt.Sets torn) ⟨by simp, by simp, rfl, fun _ => rfl, fun ch h => by
      cases ch <;> simp at h⟩
    (fun t _ _ hr h hx => sets_step h (fun e k => by subst e; exact breach_noLen hr k) hx) hr

theorem sets_next {op : BOp} (hx : BNext torn s op s') : ∃ l, s'.sets = s.sets ++ l := by
  cases hx <;> first | exact ⟨[], (List.append_nil _).symm⟩ | exact ⟨_, rfl⟩

theorem sets_run {ops : List BOp} (hr : BReach torn s) (h : s.run torn ops = some s') : ∃ l, s'.sets = s.sets ++ l := by
  refine brun_inv (P := fun t => ∃ l, t.sets = s.sets ++ l) (fun t op t' _ ⟨l, hl⟩ hx => ?_) hr ⟨[], by simp⟩ h
  obtain ⟨l', hl'⟩ := sets_next hx
  exact ⟨l ++ l', by rw [hl', hl, List.append_assoc]⟩

/-! ## what is received -/

/-- read and not yet published -/
def RPc.flight : RPc → List Slice
  | .relock (some m) => [m]
  | .publish m => [m]
  | _ => []

/-- the batches `l` are entries of `sets`, never going back -/
def Reads (sets : List Nat) (l : List Slice) : Prop :=
  ∃ ps : List Nat, ps.Pairwise (· ≤ ·) ∧ (∀ p ∈ ps, p < sets.length) ∧ l = ps.map (fun p => ⟨sets[p]?, sets[p]?⟩)

theorem reads_grow {sets more : List Nat} {l : List Slice} (h : Reads sets l) : Reads (sets ++ more) l := by
  obtain ⟨ps, h1, h2, h3⟩ := h
  refine ⟨ps, h1, fun p hp => by have := h2 p hp; simp only [List.length_append]; omega, ?_⟩
  rw [h3]
  apply List.map_congr_left
  intro p hp
  rw [List.getElem?_append_left (h2 p hp)]

theorem reads_last {sets : List Nat} {l : List Slice} (h : Reads sets l) (hs : sets ≠ []) :
    Reads sets (l ++ [⟨sets.getLast?, sets.getLast?⟩]) := by
  obtain ⟨ps, h1, h2, h3⟩ := h
  have hlen := List.length_pos_iff.mpr hs
  refine ⟨ps ++ [sets.length - 1], ?_, ?_, ?_⟩
  · rw [List.pairwise_append]
    refine ⟨h1, by simp, fun a ha b hb => ?_⟩
    rw [List.mem_singleton] at hb
    have := h2 a ha
    omega
  · intro p hp
    rcases List.mem_append.mp hp with hp | hp
    · exact h2 p hp
    · rw [List.mem_singleton] at hp; omega
  · rw [List.map_append, h3, List.getLast?_eq_getElem?]
    rfl

structure BSt.Reading (s : BSt) : Prop where
  got : ∀ (r : Nat) x, s.recvs[r]? = some x → Reads s.sets (x.got ++ x.pc.flight)
  ready : ∀ (r : Nat) x, s.recvs[r]? = some x → x.pc = .readPtr → s.sets ≠ []

theorem reading_set {t : BSt} {r : Nat} {x y : Recv} (h : s.Reading) (hk : s.recvs[r]? = some x)
    (hr : t.recvs = s.recvs.set r y) (hs : t.sets = s.sets)
    (h1 : y.got ++ y.pc.flight = x.got ++ x.pc.flight ∨ Reads s.sets (y.got ++ y.pc.flight))
    (h2 : y.pc = .readPtr → x.pc = .readPtr ∨ s.sets ≠ []) : t.Reading := by
  refine ⟨fun j z hj => ?_, fun j z hj hz => ?_⟩
  · rw [hr] at hj
    rw [hs]
    rcases set_cases hj with ⟨rfl, rfl, _⟩ | ⟨_, hj⟩
    · rcases h1 with e | e
      · rw [e]; exact h.got r x hk
      · exact e
    · exact h.got j z hj
  · rw [hr] at hj
    rw [hs]
    rcases set_cases hj with ⟨rfl, rfl, _⟩ | ⟨_, hj⟩
    · rcases h2 hz with e | e
      · exact h.ready r x hk e
      · exact e
    · exact h.ready j z hj hz

theorem reading_sets {t : BSt} (h : s.Reading) (hr : t.recvs = s.recvs) (hs : ∃ l, t.sets = s.sets ++ l) :
    t.Reading := by
  obtain ⟨l, hs⟩ := hs
  refine ⟨fun j z hj => ?_, fun j z hj hz => ?_⟩
  · rw [hr] at hj; rw [hs]; exact reads_grow (h.got j z hj)
  · rw [hr] at hj
    have := h.ready j z hj hz
    rw [hs]; simp [this]

/-- without `torn` a slice is read in one step -/
theorem breach_noReadLen (hr : BReach false s) {r : Nat} {x : Recv} {p : Option Nat} (h : s.recvs[r]? = some x) :
    x.pc ≠ .readLen p := by
  refine breach_inv (P := fun s => ∀ x : Recv, s.recvs[r]? = some x → x.pc ≠ .readLen p) (by simp)
    (fun t op t' _ h hx => ?_) hr x h
  have put : ∀ {j : Nat} {y : Recv}, y.pc ≠ .readLen p → ∀ x : Recv, (t.recvs.set j y)[r]? = some x →
      x.pc ≠ .readLen p := by
    intro j y hp x e
    rcases set_cases e with ⟨_, e, _⟩ | ⟨_, e⟩
    · rw [e]; exact hp
    · exact h x e
  cases hx
  case join =>
    intro x e
    rcases append_cases e with ⟨_, e⟩ | e
    · rw [e]; simp
    · exact h x e
  case readPtr ht => cases ht
  case shut j x hk =>
    intro z e
    rcases set_cases e with ⟨rfl, e, _⟩ | ⟨_, e⟩
    · rw [e]; exact h x hk
    · exact h z e
  case leave more _ _ _ => exact put (by cases more <;> simp)
  all_goals first | exact h | exact put (by simp)

theorem reading_step {op : BOp} (hr : BReach false s) (h : s.Reading) (hx : BNext false s op s') : s'.Reading := by
  have hs := sets_next hx
  have hm := (breach_sets hr)
  cases hx
  case join =>
    refine ⟨fun r x hr => ?_, fun r x hr hp => ?_⟩
    · rcases append_cases hr with ⟨_, rfl⟩ | hr
      · exact ⟨[], by simp, by simp, rfl⟩
      · exact h.got r x hr
    · rcases append_cases hr with ⟨_, rfl⟩ | hr
      · cases hp
      · exact h.ready r x hr hp
  case shut hk => exact reading_set h hk rfl rfl (.inl rfl) (fun e => .inl e)
  case lock hk hp _ => exact reading_set h hk rfl rfl (.inl (by rw [hp]; rfl)) (by simp)
  case load hk hp => exact reading_set h hk rfl rfl (.inl (by rw [hp]; rfl)) (by simp)
  case unlock hk hp => exact reading_set h hk rfl rfl (.inl (by rw [hp]; rfl)) (by simp)
  case sel hk hp hc => exact reading_set h hk rfl rfl (.inl (by rw [hp]; rfl)) (fun _ => .inr (hm.some _ hc))
  case readPtr ht => cases ht
  case read r ok x hk hp _ =>
    refine reading_set h hk rfl rfl (.inr ?_) (by simp)
    have h1 := h.got r x hk
    rw [hp, show (RPc.readPtr).flight = [] from rfl, List.append_nil] at h1
    have h2 := reads_last h1 (h.ready r x hk hp)
    rw [← hm.last] at h2
    have h3 := hm.whole rfl
    rcases he : s.msgs with ⟨a, b⟩
    rw [he] at h2 h3
    dsimp only at h2 h3
    rw [h3]
    exact h2
  case readLen r ok p x hk hp =>
    exact absurd hp (breach_noReadLen hr hk)
  case relock hk hp _ => exact reading_set h hk rfl rfl (.inl (by rw [hp]; rfl)) (by simp)
  case relockEnd hk hp _ => exact reading_set h hk rfl rfl (.inl (by rw [hp]; rfl)) (by simp)
  case publish r ok m x hk hp _ =>
    exact reading_set h hk rfl rfl (.inl (by rw [hp]; simp [RPc.flight])) (by simp)
  case leave more x hk hp =>
    exact reading_set h hk rfl rfl (.inl (by rw [hp]; cases more <;> rfl)) (by cases more <;> simp)
  case quit hk hp _ => exact reading_set h hk rfl rfl (.inl (by rw [hp]; rfl)) (by simp)
  all_goals exact reading_sets h rfl hs

theorem breach_reading (hr : BReach false s) : s.Reading :=
  breach_inv (P := BSt.Reading) ⟨by simp, by simp⟩ (fun _ _ _ hr h hx => reading_step hr h hx) hr

/-! ## calls go on -/

/-- how many steps a call has before it, at most -/
def BPc.rank : BPc → Nat
  | .lock => 6
  | .setPtr => 5
  | .setLen => 4
  | .unlock => 3
  | .swap => 2
  | .close _ => 1
  | .done => 0

theorem cast_forth (hr : BReach torn s) {k : Nat} {pc : BPc} (h : s.casts[k]? = some pc) (hd : pc ≠ .done)
    (hl : pc = .lock → s.mu = none) : ∃ s' pc', s.step torn (.cast k) = some s' ∧ s'.casts[k]? = some pc' ∧
      pc'.rank < pc.rank ∧ pc' ≠ .lock ∧ (∀ j : Nat, j ≠ k → s'.casts[j]? = s.casts[j]?) ∧
      (pc.holds = true → pc'.holds = false → s'.mu = none) := by
  have hc := breach_chans hr
  have hlen := (List.getElem?_eq_some_iff.mp h).1
  have ne : ∀ (q : BPc) (j : Nat), j ≠ k → (s.casts.set k q)[j]? = s.casts[j]? := fun q j hj =>
    List.getElem?_set_ne (fun e => hj e.symm)
  cases pc
  case lock =>
    refine ⟨{ s.setB k .setPtr with mu := some (.cast k) }, .setPtr, ?_, ?_, by decide, by simp, ne _, by simp [BPc.holds]⟩
    · simp [BSt.step, BSt.castStep, hc.calm, h, hl rfl]
    · simp [hlen]
  case setPtr =>
    cases torn
    · refine ⟨{ s.setB k .unlock with msgs := ⟨some k, some k⟩, sets := s.sets ++ [k] }, .unlock, ?_, ?_, by decide,
        by simp, ne _, by simp [BPc.holds]⟩
      · simp [BSt.step, BSt.castStep, hc.calm, h]
      · simp [hlen]
    · refine ⟨{ s.setB k .setLen with msgs := { s.msgs with ptr := some k }, sets := s.sets ++ [k] }, .setLen, ?_, ?_,
        by decide, by simp, ne _, by simp [BPc.holds]⟩
      · simp [BSt.step, BSt.castStep, hc.calm, h]
      · simp [hlen]
  case setLen =>
    refine ⟨{ s.setB k .unlock with msgs := { s.msgs with len := some k } }, .unlock, ?_, ?_, by decide, by simp, ne _,
      by simp [BPc.holds]⟩
    · simp [BSt.step, BSt.castStep, hc.calm, h]
    · simp [hlen]
  case unlock =>
    refine ⟨{ s.setB k .swap with mu := none }, .swap, ?_, ?_, by decide, by simp, ne _, by simp⟩
    · simp [BSt.step, BSt.castStep, hc.calm, h]
    · simp [hlen]
  case swap =>
    refine ⟨{ s.setB k (.close s.awaiter) with awaiter := s.chs.length, chs := s.chs ++ [false] },
      .close s.awaiter, ?_, ?_, by simp [BPc.rank], by simp, ne _, by simp [BPc.holds]⟩
    · simp [BSt.step, BSt.castStep, hc.calm, h]
    · simp [hlen]
  case close ch =>
    refine ⟨{ s.setB k .done with chs := s.chs.set ch true }, .done, ?_, ?_, by simp [BPc.rank], by simp, ne _, by simp [BPc.holds]⟩
    · simp [BSt.step, BSt.castStep, hc.calm, h, (hc.closing k ch h).1]
    · simp [hlen]
  case done => exact absurd rfl hd

theorem cast_ends (n : Nat) : ∀ {s : BSt} {k : Nat} {pc : BPc}, BReach torn s → s.casts[k]? = some pc → pc.rank = n →
    (pc = .lock → s.mu = none) → ∃ (m : Nat) (s' : BSt), s.run torn (List.replicate m (.cast k)) = some s' ∧
      s'.casts[k]? = some .done := by
  induction n using Nat.strongRecOn with
  | ind n ih =>
    intro s k pc hr h hn hl
    by_cases hd : pc = .done
    · subst hd; exact ⟨0, s, rfl, h⟩
    · obtain ⟨s1, pc1, h1, h2, h3, h4, _⟩ := cast_forth hr h hd hl
      have hr1 : BReach torn s1 := breach_run (ops := [.cast k]) hr (by simp [BSt.run, h1])
      obtain ⟨m, s2, h5, h6⟩ := ih pc1.rank (by omega) hr1 h2 rfl (fun e => absurd e h4)
      exact ⟨m + 1, s2, by simp [List.replicate_succ, BSt.run, h1, h5], h6⟩

theorem cast_lets (n : Nat) : ∀ {s : BSt} {k : Nat} {pc : BPc}, BReach torn s → s.casts[k]? = some pc → pc.rank = n →
    pc.holds = true → ∃ (m : Nat) (s' : BSt), s.run torn (List.replicate m (.cast k)) = some s' ∧
      s'.mu = none ∧ ∀ j : Nat, j ≠ k → s'.casts[j]? = s.casts[j]? := by
  induction n using Nat.strongRecOn with
  | ind n ih =>
    intro s k pc hr h hn hh
    have hd : pc ≠ .done := by intro e; subst e; cases hh
    have hl : pc = .lock → s.mu = none := by intro e; subst e; cases hh
    obtain ⟨s1, pc1, h1, h2, h3, h4, h5, h6⟩ := cast_forth hr h hd hl
    have hr1 : BReach torn s1 := breach_run (ops := [.cast k]) hr (by simp [BSt.run, h1])
    cases hh1 : pc1.holds
    · exact ⟨1, s1, by simp [BSt.run, h1], h6 hh hh1, h5⟩
    · obtain ⟨m, s2, h7, h8, h9⟩ := ih pc1.rank (by omega) hr1 h2 rfl hh1
      exact ⟨m + 1, s2, by simp [List.replicate_succ, BSt.run, h1, h7], h8,
        fun j hj => by rw [h9 j hj, h5 j hj]⟩

theorem conn_lets (hr : BReach torn s) {r : Nat} {x : Recv} (h : s.recvs[r]? = some x) (hh : x.pc.holds = true) :
    ∃ (m : Nat) (s' : BSt), s.run torn (List.replicate m (.recv r true)) = some s' ∧ s'.mu = none ∧
      s'.casts = s.casts := by
  have hc := (breach_chans hr).calm
  have hg : ∀ z : Recv, (s.recvs.set r z)[r]? = some z := fun z =>
    List.getElem?_set_self (List.getElem?_eq_some_iff.mp h).1
  cases hp : x.pc <;> rw [hp] at hh <;> try cases hh
  · exact ⟨2, { s.setR r { x with pc := .sel s.awaiter } with mu := none }, by
      simp [List.replicate, BSt.run, BSt.step, BSt.recvStep, hc, h, hp, BSt.setR, hg], rfl, rfl⟩
  · rename_i ch
    exact ⟨1, { s.setR r { x with pc := .sel ch } with mu := none }, by
      simp [List.replicate, BSt.run, BSt.step, BSt.recvStep, hc, h, hp, BSt.setR], rfl, rfl⟩
  · rename_i m
    exact ⟨2, { s.setR r { x with pc := .lock, got := x.got ++ [m] } with mu := none }, by
      simp [List.replicate, BSt.run, BSt.step, BSt.recvStep, hc, h, hp, BSt.setR, hg], rfl, rfl⟩
  · rename_i more
    exact ⟨1, { s.setR r { x with pc := if more then .lock else .ended } with mu := none }, by
      simp [List.replicate, BSt.run, BSt.step, BSt.recvStep, hc, h, hp, BSt.setR], rfl, rfl⟩

/-! ## one call -/

/-- what the goroutine of an armed connection does about the call `n`; `g` is what it got before, `a` the channel
it waits on -/
def Stage (a n : Nat) (g : List Slice) (t : BSt) (y : Recv) : Prop :=
  match t.casts[n]? with
  | none => t.awaiter = a ∧ y.pc = .sel a ∧ y.got = g
  | some (.close ch) => ch = a ∧ a ≠ t.awaiter ∧ t.msgs = ⟨some n, some n⟩ ∧ y.pc = .sel a ∧ y.got = g
  | some .done => a ≠ t.awaiter ∧ t.msgs = ⟨some n, some n⟩ ∧
      ((y.got = g ∧ (y.pc = .sel a ∨ y.pc = .readPtr ∨ y.pc = .relock (some ⟨some n, some n⟩) ∨
          y.pc = .publish ⟨some n, some n⟩)) ∨
        (y.got = g ++ [⟨some n, some n⟩] ∧ (y.pc = .leave true ∨ y.pc = .lock ∨ y.pc = .load ∨
          y.pc = .unlock t.awaiter ∨ y.pc = .sel t.awaiter)))
  | some pc => t.awaiter = a ∧ (pc.past = true → t.msgs = ⟨some n, some n⟩) ∧ y.pc = .sel a ∧ y.got = g

/-- along a run with one call, unless the connection is closed -/
def BSt.Once (a n r : Nat) (g : List Slice) (t : BSt) : Prop :=
  n + 1 < t.casts.length ∨ ∃ y : Recv, t.recvs[r]? = some y ∧
    (y.closed = true ∨ (∀ k : Nat, k < n → t.casts[k]? = some .done) ∧ n ≤ t.casts.length ∧ Stage a n g t y)

theorem casts_next {op : BOp} (hx : BNext torn s op s') : s.casts.length ≤ s'.casts.length := by
  cases hx <;> simp

theorem once_step {a n r : Nat} {g : List Slice} {op : BOp} (hr : BReach false s) (h : s.Once a n r g)
    (hx : BNext false s op s') : s'.Once a n r g := by
  have hlen := casts_next hx
  rcases h with h | ⟨y, hy, h⟩
  · exact .inl (by omega)
  by_cases hbig : n + 1 < s'.casts.length
  · exact .inl hbig
  refine .inr ?_
  have hn := breach_noLen hr
  have hnr := breach_noReadLen (p := none) hr hy
  have hch := breach_chans hr
  have hm := breach_sets hr
  rcases h with h | ⟨hd, hn, hst⟩
  · -- closed
    have put : ∀ {j : Nat} {x z : Recv}, s.recvs[j]? = some x → (x.closed = true → z.closed = true) →
        ∃ y : Recv, (s.recvs.set j z)[r]? = some y ∧ (y.closed = true ∨ False) := by
      intro j x z hj hz
      by_cases e : j = r
      · subst e
        rw [hj] at hy; cases hy
        exact ⟨z, by simp [(List.getElem?_eq_some_iff.mp hj).1], .inl (hz h)⟩
      · exact ⟨y, by rw [List.getElem?_set_ne e]; exact hy, .inl h⟩
    have weak : ∀ {P : Recv → Prop} {l : List Recv}, (∃ y : Recv, l[r]? = some y ∧ (y.closed = true ∨ False)) →
        ∃ y : Recv, l[r]? = some y ∧ (y.closed = true ∨ P y) := fun ⟨y, h1, h2⟩ =>
      ⟨y, h1, .inl (h2.elim id False.elim)⟩
    cases hx
    case join => exact ⟨y, by rw [List.getElem?_append_left (List.getElem?_eq_some_iff.mp hy).1]; exact hy, .inl h⟩
    case shut hk => exact weak (put hk (fun _ => rfl))
    case lock hk _ _ => exact weak (put hk id)
    case load hk _ => exact weak (put hk id)
    case unlock hk _ => exact weak (put hk id)
    case sel hk _ _ => exact weak (put hk id)
    case readPtr hk _ _ => exact weak (put hk id)
    case read hk _ _ => exact weak (put hk id)
    case readLen hk _ => exact weak (put hk id)
    case relock hk _ _ => exact weak (put hk id)
    case relockEnd hk _ _ => exact weak (put hk id)
    case publish hk _ _ => exact weak (put hk id)
    case leave hk _ => exact weak (put hk id)
    case quit hk _ _ => exact weak (put hk id)
    all_goals exact ⟨y, hy, .inl h⟩
  · -- only the call `n` can go on
    have only : ∀ {k : Nat} {pc : BPc}, s.casts[k]? = some pc → pc ≠ .done → k = n := by
      intro k pc hk hp
      have h1 := (List.getElem?_eq_some_iff.mp hk).1
      rcases Nat.lt_trichotomy k n with h2 | h2 | h2
      · rw [hd k h2] at hk; cases hk; exact absurd rfl hp
      · exact h2
      · omega
    have old : ∀ (pc : BPc) (k : Nat), k < n → (s.casts.set n pc)[k]? = some .done := by
      intro pc k hk
      rw [List.getElem?_set_ne (by omega)]; exact hd k hk
    -- the goroutine goes on
    have put : ∀ {t : BSt} {j : Nat} {x z : Recv}, s.recvs[j]? = some x → t.recvs = s.recvs.set j z →
        t.casts = s.casts → t.awaiter = s.awaiter → t.msgs = s.msgs →
        (j = r → z.closed = true ∨ (Stage a n g s x → Stage a n g s z)) → ∃ y : Recv, t.recvs[r]? = some y ∧
          (y.closed = true ∨ (∀ k : Nat, k < n → t.casts[k]? = some .done) ∧ n ≤ t.casts.length ∧ Stage a n g t y) := by
      intro t j x z hj e1 e2 e3 e4 hz
      have st : ∀ y, Stage a n g s y → Stage a n g t y := by
        intro y hy
        unfold Stage at hy ⊢
        rw [e2, e3, e4]; exact hy
      by_cases e : j = r
      · subst e
        rw [hj] at hy; cases hy
        refine ⟨z, by rw [e1]; simp [(List.getElem?_eq_some_iff.mp hj).1], ?_⟩
        rcases hz rfl with h | h
        · exact .inl h
        · exact .inr ⟨by rw [e2]; exact hd, by rw [e2]; exact hn, st _ (h hst)⟩
      · exact ⟨y, by rw [e1, List.getElem?_set_ne e]; exact hy, .inr ⟨by rw [e2]; exact hd, by rw [e2]; exact hn, st _ hst⟩⟩
    have stay : (∀ ch, y.pc ≠ .sel ch) → Stage a n g s y → s.casts[n]? = some .done := by
      intro hz h
      unfold Stage at h
      split at h
      · exact absurd h.2.1 (hz a)
      · exact absurd h.2.2.2.1 (hz a)
      · assumption
      · exact absurd h.2.2.1 (hz a)
    cases hx
    case call =>
      simp only [List.length_append, List.length_singleton] at hbig
      have e : n = s.casts.length := by omega
      have e0 : s.casts[n]? = none := by rw [e]; simp
      refine ⟨y, hy, .inr ⟨fun k hk => ?_, by simp; omega, ?_⟩⟩
      · rw [List.getElem?_append_left (by omega)]; exact hd k hk
      · unfold Stage at hst ⊢
        rw [e0] at hst
        dsimp only at hst ⊢
        rw [show (s.casts ++ [BPc.lock])[n]? = some .lock from by rw [e]; simp]
        exact ⟨hst.1, (fun e => by simp [BPc.past] at e), hst.2⟩
    case castLock k hk _ =>
      obtain rfl := only hk (by simp)
      have hl := (List.getElem?_eq_some_iff.mp hk).1
      refine ⟨y, hy, .inr ⟨old _, by simp; omega, ?_⟩⟩
      simp only [Stage, hk] at hst
      simp only [Stage, setB_casts, List.getElem?_set_self hl]
      exact ⟨hst.1, (fun e => by simp [BPc.past] at e), hst.2.2⟩
    case castPtr ht => cases ht
    case castSet k hk _ =>
      obtain rfl := only hk (by simp)
      have hl := (List.getElem?_eq_some_iff.mp hk).1
      refine ⟨y, hy, .inr ⟨old _, by simp; omega, ?_⟩⟩
      simp only [Stage, hk] at hst
      simp only [Stage, setB_casts, List.getElem?_set_self hl]
      exact ⟨hst.1, (fun _ => trivial), hst.2.2⟩
    case castLen k hk => exact absurd hk (breach_noLen hr k)
    case castUnlock k hk =>
      obtain rfl := only hk (by simp)
      have hl := (List.getElem?_eq_some_iff.mp hk).1
      refine ⟨y, hy, .inr ⟨old _, by simp; omega, ?_⟩⟩
      simp only [Stage, hk] at hst
      simp only [Stage, setB_casts, List.getElem?_set_self hl]
      exact ⟨hst.1, (fun _ => hst.2.1 rfl), hst.2.2⟩
    case castSwap k hk =>
      obtain rfl := only hk (by simp)
      have hl := (List.getElem?_eq_some_iff.mp hk).1
      refine ⟨y, hy, .inr ⟨old _, by simp; omega, ?_⟩⟩
      simp only [Stage, hk] at hst
      simp only [Stage, setB_casts, List.getElem?_set_self hl]
      refine ⟨hst.1, ?_, hst.2.1 rfl, hst.2.2⟩
      have := (List.getElem?_eq_some_iff.mp hch.fresh).1
      rw [← hst.1]; omega
    case castPanic k ch hk hc =>
      rw [(hch.closing k ch hk).1] at hc; cases hc
    case castClose k ch hk hc =>
      obtain rfl := only hk (by simp)
      have hl := (List.getElem?_eq_some_iff.mp hk).1
      refine ⟨y, hy, .inr ⟨old _, by simp; omega, ?_⟩⟩
      simp only [Stage, hk] at hst
      simp only [Stage, setB_casts, List.getElem?_set_self hl]
      exact ⟨hst.2.1, hst.2.2.1, .inl ⟨hst.2.2.2.2, .inl hst.2.2.2.1⟩⟩
    case join =>
      exact ⟨y, by rw [List.getElem?_append_left (List.getElem?_eq_some_iff.mp hy).1]; exact hy, .inr ⟨hd, hn, hst⟩⟩
    case shut hk => exact put hk rfl rfl rfl rfl (fun _ => .inl rfl)
    case lock j ok x hk hp _ =>
      refine put hk rfl rfl rfl rfl (fun e => .inr (fun h => ?_))
      subst e; rw [hk] at hy; cases hy
      have hdn := stay (by rw [hp]; simp) h
      simp only [Stage, hdn, hp] at h ⊢
      simpa using h
    case load j ok x hk hp =>
      refine put hk rfl rfl rfl rfl (fun e => .inr (fun h => ?_))
      subst e; rw [hk] at hy; cases hy
      have hdn := stay (by rw [hp]; simp) h
      simp only [Stage, hdn, hp] at h ⊢
      simpa using h
    case unlock j ch ok x hk hp =>
      refine put hk rfl rfl rfl rfl (fun e => .inr (fun h => ?_))
      subst e; rw [hk] at hy; cases hy
      have hdn := stay (by rw [hp]; simp) h
      simp only [Stage, hdn, hp] at h ⊢
      simp at h
      simp [h]
    case sel j ch ok x hk hp hc =>
      refine put hk rfl rfl rfl rfl (fun e => .inr (fun h => ?_))
      subst e; rw [hk] at hy; cases hy
      have hne : ch ≠ s.awaiter := by
        intro e; rw [e, hch.fresh] at hc; cases hc
      unfold Stage at h ⊢
      split at h
      · rw [hp] at h; obtain ⟨h1, h2, _⟩ := h; cases h2; exact absurd h1.symm hne
      · rename_i ch' hk'
        rw [hp] at h
        obtain ⟨rfl, _, _, h2, _⟩ := h
        cases h2
        rw [(hch.closing n _ hk').1] at hc; cases hc
      · rw [hp] at h
        simp [hne] at h
        simp [h]
      · rw [hp] at h; obtain ⟨h1, _, h2, _⟩ := h; cases h2; exact absurd h1.symm hne
    case readPtr ht => cases ht
    case read j ok x hk hp _ =>
      refine put hk rfl rfl rfl rfl (fun e => .inr (fun h => ?_))
      subst e; rw [hk] at hy; cases hy
      have hdn := stay (by rw [hp]; simp) h
      simp only [Stage, hdn, hp] at h ⊢
      simp at h
      simp [h]
    case readLen hk hp => exact absurd hp (breach_noReadLen hr hk)
    case relock j ok m x hk hp _ =>
      refine put hk rfl rfl rfl rfl (fun e => .inr (fun h => ?_))
      subst e; rw [hk] at hy; cases hy
      have hdn := stay (by rw [hp]; simp) h
      simp only [Stage, hdn, hp] at h ⊢
      simp at h
      simp [h]
    case relockEnd j ok x hk hp _ =>
      refine put hk rfl rfl rfl rfl (fun e => .inr (fun h => ?_))
      subst e; rw [hk] at hy; cases hy
      have hdn := stay (by rw [hp]; simp) h
      simp only [Stage, hdn, hp] at h
      simp at h
    case publish j ok m x hk hp ho =>
      refine put hk rfl rfl rfl rfl (fun e => ?_)
      rcases ho with rfl | ho
      · refine .inr (fun h => ?_)
        subst e; rw [hk] at hy; cases hy
        have hdn := stay (by rw [hp]; simp) h
        simp only [Stage, hdn, hp] at h ⊢
        simp at h
        simp [h]
      · exact .inl ho
    case leave j ok more x hk hp =>
      refine put hk rfl rfl rfl rfl (fun e => .inr (fun h => ?_))
      subst e; rw [hk] at hy; cases hy
      have hdn := stay (by rw [hp]; simp) h
      simp only [Stage, hdn, hp] at h ⊢
      simp at h
      simp [h]
    case quit hk _ hc => exact put hk rfl rfl rfl rfl (fun _ => .inl hc)

end Neffos
