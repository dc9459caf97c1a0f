import Verif.Model.AskRace
import Verif.Proofs.ConnPrim
/-! Invariants of the Ask machine. -/
set_option autoImplicit false
namespace Neffos

variable {cl : Bool} {s s' : ASt}

/-- The steps, one constructor each. -/
inductive ANext (cl : Bool) (s : ASt) : AOp → ASt → Prop where
  | arrive (m : Message) : ANext cl s (.arrive m) { s with arr := s.arr ++ [m] }
  | call (srv : Bool) (h : (srv && cl) = false) : ANext cl s (.call srv) { s with asks := s.asks ++ [{ srv := srv }] }
  | callCb (srv : Bool) (k : Nat) (hr : s.rd = .handler k) (h : (srv && cl) = false) :
      ANext cl s (.callCb srv) { s with asks := s.asks ++ [{ srv := srv }], rd := .inAsk s.asks.length k }
  | flagS {i : Nat} {a : AskT} (n : Int) (o : Bool) (h : s.asks[i]? = some a) (hp : a.pc = .flag)
      (hs : a.srv = true) : ANext cl s (.ask i n o) (s.put i { a with pc := .tok })
  | flagC {i : Nat} {a : AskT} (n : Int) (o : Bool) (h : s.asks[i]? = some a) (hp : a.pc = .flag)
      (hs : a.srv = false) : ANext cl s (.ask i n o) (s.put i { a with next := s.inside, pc := .check })
  | check {i : Nat} {a : AskT} (n : Int) (o : Bool) (h : s.asks[i]? = some a) (hp : a.pc = .check)
      (hc : s.closed = false) (ho : o = true) : ANext cl s (.ask i n o) (s.put i { a with pc := .tok })
  | checkF {i : Nat} {a : AskT} (n : Int) (o : Bool) (r : ARes) (h : s.asks[i]? = some a)
      (hp : a.pc = .check) (hr : r = if s.closed then .closedErr else .ctxErr)
      (hc : s.closed = true ∨ o = false) : ANext cl s (.ask i n o) (s.put i { a with pc := .done r })
  | tok {i : Nat} {a : AskT} (n : Int) (o : Bool) (h : s.asks[i]? = some a) (hp : a.pc = .tok) :
      ANext cl s (.ask i n o) (s.put i { a with tok := genWait (cl && !a.srv) n, pc := .reg })
  | regS {i : Nat} {a : AskT} (n : Int) (o : Bool) (h : s.asks[i]? = some a) (hp : a.pc = .reg)
      (hs : a.srv = true) :
      ANext cl s (.ask i n o) ({ s with srvWaiting := mapSet s.srvWaiting a.tok i }.put i { a with pc := .write })
  | regN {i : Nat} {a : AskT} (n : Int) (o : Bool) (h : s.asks[i]? = some a) (hp : a.pc = .reg)
      (hs : a.srv = false) (hn : a.next = true) :
      ANext cl s (.ask i n o) (s.put i { a with help := .reading, pc := .write })
  | regC {i : Nat} {a : AskT} (n : Int) (o : Bool) (h : s.asks[i]? = some a) (hp : a.pc = .reg)
      (hs : a.srv = false) (hn : a.next = false) :
      ANext cl s (.ask i n o) ({ s with waiting := mapSet s.waiting a.tok i }.put i { a with pc := .write })
  | write {i : Nat} {a : AskT} (n : Int) (o : Bool) (h : s.asks[i]? = some a) (hp : a.pc = .write)
      (hc : a.srv = true ∨ s.closed = false) : ANext cl s (.ask i n o) (s.put i { a with pc := .wait })
  | writeF {i : Nat} {a : AskT} (n : Int) (o : Bool) (h : s.asks[i]? = some a) (hp : a.pc = .write)
      (hs : a.srv = false) : ANext cl s (.ask i n o) (s.put i { a with pc := .done .writeErr })
  | takeN {i : Nat} {a : AskT} (n : Int) (o : Bool) (g : Got) (h : s.asks[i]? = some a) (hp : a.pc = .wait)
      (hn : a.next = true) (hb : a.box = some g) :
      ANext cl s (.ask i n o) (s.put i { a with box := none, pc := .done (.answer g) })
  | take {i : Nat} {a : AskT} (n : Int) (o : Bool) (g : Got) (h : s.asks[i]? = some a) (hp : a.pc = .wait)
      (hn : a.next = false) (hb : a.box = some g) :
      ANext cl s (.ask i n o) (s.put i { a with box := none, pc := .forget g })
  | forgetS {i : Nat} {a : AskT} (n : Int) (o : Bool) (g : Got) (h : s.asks[i]? = some a)
      (hp : a.pc = .forget g) (hs : a.srv = true) :
      ANext cl s (.ask i n o)
        ({ s with srvWaiting := mapDel s.srvWaiting a.tok }.put i { a with pc := .done (.answer g) })
  | forgetC {i : Nat} {a : AskT} (n : Int) (o : Bool) (g : Got) (h : s.asks[i]? = some a)
      (hp : a.pc = .forget g) (hs : a.srv = false) :
      ANext cl s (.ask i n o)
        ({ s with waiting := mapDel s.waiting a.tok }.put i { a with pc := .done (.answer g) })
  | ctx {i : Nat} {a : AskT} (h : s.asks[i]? = some a) (hp : a.pc = .wait) :
      ANext cl s (.ctx i)
        (s.put i { a with pc := .done (if !a.srv && s.closed then .writeErr else .ctxErr) })
  | helpE {i : Nat} {a : AskT} (h : s.asks[i]? = some a) (hh : a.help = .reading) (hn : s.netClosed = true) :
      ANext cl s (.help i) (s.put i { a with help := .got .readErr })
  | helpR {i : Nat} {a : AskT} (h : s.asks[i]? = some a) (hh : a.help = .reading) (hn : s.netClosed = false)
      (hp : s.pos < s.arr.length) :
      ANext cl s (.help i) ({ s with pos := s.pos + 1 }.put i { a with help := .got (.msg s.pos) })
  | helpS {i : Nat} {a : AskT} {g : Got} (h : s.asks[i]? = some a) (hh : a.help = .got g) (hb : a.box = none) :
      ANext cl s (.help i) (s.put i { a with box := some g, help := .ended })
  | dead (hr : s.rd = .idle) (hn : s.netClosed = true) :
      ANext cl s .reader { s with rd := .dead, cl := if s.cl = .open then .fire else s.cl }
  | read (hr : s.rd = .idle) (hn : s.netClosed = false) (hp : s.pos < s.arr.length) :
      ANext cl s .reader { s with rd := .got s.pos, pos := s.pos + 1 }
  | got {k : Nat} (hr : s.rd = .got k) : ANext cl s .reader { s with inside := true, rd := .srvLook k }
  | srvYes {k i : Nat} (hr : s.rd = .srvLook k) (hi : s.srvAsk cl k = some i) :
      ANext cl s .reader { s with rd := .srvSend i k }
  | srvNo {k : Nat} (hr : s.rd = .srvLook k) (hi : s.srvAsk cl k = none) :
      ANext cl s .reader { s with rd := .connLook k }
  | connYes {k i : Nat} (hr : s.rd = .connLook k) (hi : s.connAsk cl k = some i) :
      ANext cl s .reader { s with rd := .connSend i k }
  | connNo {k : Nat} (hr : s.rd = .connLook k) (hi : s.connAsk cl k = none) :
      ANext cl s .reader { s with rd := .handler k }
  | srvSend {i k : Nat} {a : AskT} (hr : s.rd = .srvSend i k) (h : s.asks[i]? = some a) (hp : a.pc = .wait) :
      ANext cl s .reader ({ s with rd := .clear }.put i { a with pc := .forget (.msg k) })
  | connSend {i k : Nat} {a : AskT} (hr : s.rd = .connSend i k) (h : s.asks[i]? = some a) (hb : a.box = none) :
      ANext cl s .reader ({ s with rd := .clear }.put i { a with box := some (.msg k) })
  | handler {k : Nat} (hr : s.rd = .handler k) : ANext cl s .reader { s with rd := .clear }
  | inAsk {i k : Nat} {a : AskT} {r : ARes} (hr : s.rd = .inAsk i k) (h : s.asks[i]? = some a)
      (hp : a.pc = .done r) : ANext cl s .reader { s with rd := .handler k }
  | clear (hr : s.rd = .clear) : ANext cl s .reader { s with inside := false, rd := .idle }
  | other {m : Message} {i : Nat} {a : AskT} (hc : cl = false) (hw : mapGet s.srvWaiting m.wait = some i)
      (h : s.asks[i]? = some a) (hp : a.pc = .wait) :
      ANext cl s (.other m) (s.put i { a with pc := .forget (.other m) })
  | close (hc : s.cl = .open) : ANext cl s .close { s with cl := .fire }
  | closeFire (hc : s.cl = .fire) : ANext cl s .closer { s with cl := .clear }
  | closeClear (hc : s.cl = .clear) : ANext cl s .closer { s with waiting := [], cl := .net }
  | closeNet (hc : s.cl = .net) : ANext cl s .closer { s with netClosed := true, cl := .done }

theorem anext_of_ask {i : Nat} {n : Int} {o : Bool} (h : s.askStep cl i n o = some s') :
    ANext cl s (.ask i n o) s' := by
  unfold ASt.askStep at h
  split at h
  · cases h
  rename_i a ha
  cases hp : a.pc <;> rw [hp] at h <;> dsimp only at h
  · split at h <;> cases h
    · exact .flagS n o ha hp ‹_›
    · exact .flagC n o ha hp (by simp_all)
  · split at h
    · cases h
      exact .checkF n o _ ha hp (by simp_all) (.inl ‹_›)
    · split at h <;> cases h
      · exact .check n o ha hp (by simp_all) ‹_›
      · exact .checkF n o _ ha hp (by simp_all) (.inr (by simp_all))
  · cases h; exact .tok n o ha hp
  · split at h
    · cases h; exact .regS n o ha hp ‹_›
    · split at h <;> cases h
      · exact .regN n o ha hp (by simp_all) ‹_›
      · exact .regC n o ha hp (by simp_all) (by simp_all)
  · split at h <;> cases h
    · rename_i hh
      exact .write n o ha hp (by
        simp only [Bool.or_eq_true, Bool.and_eq_true, Bool.not_eq_true'] at hh
        exact hh.imp id (·.2))
    · rename_i hh
      exact .writeF n o ha hp (by
        simp only [Bool.or_eq_true, not_or] at hh
        simpa using hh.1)
  · split at h
    · cases h
    · rename_i g hb
      by_cases hn : a.next = true
      · rw [if_pos hn] at h; cases h; exact .takeN n o g ha hp hn hb
      · rw [if_neg hn] at h; cases h; exact .take n o g ha hp (by simpa using hn) hb
  · split at h <;> cases h
    · exact .forgetS n o _ ha hp ‹_›
    · exact .forgetC n o _ ha hp (by simp_all)
  · cases h

theorem anext_of_reader (h : s.readerStep cl = some s') : ANext cl s .reader s' := by
  unfold ASt.readerStep at h
  cases hr : s.rd <;> rw [hr] at h <;> dsimp only at h
  · split at h
    · cases h; exact .dead hr ‹_›
    · split at h
      · cases h; exact .read hr (by simp_all) ‹_›
      · cases h
  · cases h; exact .got hr
  · split at h <;> cases h
    · exact .srvYes hr ‹_›
    · exact .srvNo hr ‹_›
  · split at h <;> cases h
    · exact .connYes hr ‹_›
    · exact .connNo hr ‹_›
  · split at h
    · cases h
    · split at h
      · cases h; exact .srvSend hr ‹_› ‹_›
      · cases h
  · split at h
    · cases h
    · split at h
      · cases h; exact .connSend hr ‹_› ‹_›
      · cases h
  · cases h; exact .handler hr
  · split at h
    · cases h
    · split at h
      · cases h; exact .inAsk hr ‹_› ‹_›
      · cases h
  · cases h; exact .clear hr
  · cases h

theorem anext_of_step {op : AOp} (h : s.step cl op = some s') : ANext cl s op s' := by
  cases op <;> simp only [ASt.step] at h
  · cases h; exact .arrive _
  · split at h
    · cases h
    · cases h; exact .call _ (by simp_all)
  · split at h
    · split at h
      · cases h
      · cases h; exact .callCb _ _ ‹_› (by simp_all)
    · cases h
  · exact anext_of_ask h
  · unfold ASt.ctxStep at h
    split at h
    · cases h
    · split at h
      · cases h; exact .ctx ‹_› ‹_›
      · cases h
  · unfold ASt.helpStep at h
    split at h
    · cases h
    · split at h
      · split at h
        · cases h; exact .helpE ‹_› ‹_› ‹_›
        · split at h
          · cases h; exact .helpR ‹_› ‹_› (by simp_all) ‹_›
          · cases h
      · split at h
        · cases h; exact .helpS ‹_› ‹_› ‹_›
        · cases h
      · cases h
  · exact anext_of_reader h
  · unfold ASt.otherStep at h
    split at h
    · cases h
    · split at h
      · cases h
      · split at h
        · cases h
        · split at h
          · rename_i hh
            cases h
            simp only [Bool.and_eq_true, decide_eq_true_eq] at hh
            exact .other (by simp_all) ‹_› ‹_› hh.2
          · cases h
  · split at h
    · cases h; exact .close ‹_›
    · cases h
  · unfold ASt.closeStep at h
    cases hc : s.cl <;> rw [hc] at h <;> dsimp only at h
    · cases h
    · cases h; exact .closeFire hc
    · cases h; exact .closeClear hc
    · cases h; exact .closeNet hc
    · cases h

theorem arun_ind {P : ASt → Prop} {ops : List AOp} (h0 : P s)
    (hs : ∀ s op s', P s → ANext cl s op s' → P s') (h : s.run cl ops = some s') : P s' := by
  induction ops generalizing s with
  | nil => cases h; exact h0
  | cons op ops ih =>
    simp only [ASt.run] at h
    split at h
    · exact ih (hs _ _ _ h0 (anext_of_step ‹_›)) h
    · cases h

theorem areach_ind {P : ASt → Prop} (h0 : P {}) (hs : ∀ s op s', P s → ANext cl s op s' → P s')
    (h : AReach cl s) : P s := by
  obtain ⟨ops, h⟩ := h
  exact arun_ind h0 hs h

theorem areach_step {op : AOp} (h : AReach cl s) (hs : s.step cl op = some s') : AReach cl s' := by
  obtain ⟨ops, h⟩ := h
  refine ⟨ops ++ [op], ?_⟩
  generalize ({} : ASt) = s0 at h ⊢
  induction ops generalizing s0 with
  | nil => cases h; simp [ASt.run, hs]
  | cons o ops ih =>
    simp only [ASt.run, List.cons_append] at h ⊢
    split at h
    · exact ih _ h
    · cases h

/-- the token of the Ask does not change any more -/
def APc.reg' : APc → Bool
  | .write | .wait | .forget _ | .done _ => true
  | _ => false

/-- message `k` has this token -/
def ASt.fits (s : ASt) (t : Bytes) (k : Nat) : Prop := ∃ m, s.arr[k]? = some m ∧ m.wait = t

/-- the received message has the token of the Ask -/
def ASt.own (s : ASt) (a : AskT) : Got → Prop
  | .msg k => s.fits a.tok k
  | .other m => m.wait = a.tok
  | .readErr => False

structure AOk (s : ASt) (a : AskT) : Prop where
  box : ∀ g, a.box = some g → a.pc.reg' = true ∧ (a.next = false → s.own a g)
  forget : ∀ g, a.pc = .forget g → a.next = false → s.own a g
  done : ∀ g, a.pc = .done (.answer g) → a.next = false → s.own a g
  help : a.help ≠ .none → a.next = true ∧ a.pc.reg' = true
  srv : a.srv = true → a.next = false

/-- an Ask that is in a table under `t` -/
structure Listed (s : ASt) (srv : Bool) (t : Bytes) (i : Nat) : Prop where
  ex : ∃ a, s.asks[i]? = some a ∧ a.next = false ∧ a.tok = t ∧ a.srv = srv ∧ a.pc.reg' = true

structure AInv (s : ASt) : Prop where
  each : ∀ (i : Nat) (a : AskT), s.asks[i]? = some a → AOk s a
  tab : ∀ t i, mapGet s.waiting t = some i → Listed s false t i
  stab : ∀ t i, mapGet s.srvWaiting t = some i → Listed s true t i
  rdC : ∀ i k, s.rd = .connSend i k → ∃ t, Listed s false t i ∧ s.fits t k
  rdS : ∀ i k, s.rd = .srvSend i k → ∃ t, Listed s true t i ∧ s.fits t k

theorem fits_mono {t : Bytes} {k : Nat} (h : s.fits t k) (ha : s.arr <+: s'.arr) : s'.fits t k := by
  obtain ⟨m, h1, h2⟩ := h
  obtain ⟨l, hl⟩ := ha
  refine ⟨m, ?_, h2⟩
  rw [← hl, List.getElem?_append_left (List.getElem?_eq_some_iff.mp h1).1]
  exact h1

theorem own_mono {a : AskT} {g : Got} (h : s.own a g) (ha : s.arr <+: s'.arr) : s'.own a g := by
  cases g with
  | msg k => exact fits_mono h ha
  | other m => exact h
  | readErr => exact h

theorem AOk.mono {a : AskT} (h : AOk s a) (ha : s.arr <+: s'.arr) : AOk s' a :=
  ⟨fun g hg => ⟨(h.box g hg).1, fun hn => own_mono ((h.box g hg).2 hn) ha⟩,
    fun g hg hn => own_mono (h.forget g hg hn) ha, fun g hg hn => own_mono (h.done g hg hn) ha, h.help, h.srv⟩

/-- what every step keeps of the Asks -/
structure AKeep (s s' : ASt) : Prop where
  arr : s.arr <+: s'.arr
  asks : ∀ (i : Nat) (a : AskT), s.asks[i]? = some a → ∃ a', s'.asks[i]? = some a' ∧ a'.srv = a.srv ∧
    (a.pc.reg' = true → a'.pc.reg' = true ∧ a'.tok = a.tok ∧ a'.next = a.next)

theorem Listed.keep {srv : Bool} {t : Bytes} {i : Nat} (h : Listed s srv t i) (k : AKeep s s') :
    Listed s' srv t i := by
  obtain ⟨a, h1, h2, h3, h4, h5⟩ := h.ex
  obtain ⟨a', k1, k2, k3⟩ := k.asks i a h1
  obtain ⟨k4, k5, k6⟩ := k3 h5
  exact ⟨a', k1, k6.trans h2, k5.trans h3, k2.trans h4, k4⟩

theorem getElem?_set_some {α : Type} {l : List α} {i j : Nat} {x y z : α} (hi : l[i]? = some x)
    (h : (l.set i y)[j]? = some z) : (j = i ∧ z = y) ∨ (j ≠ i ∧ l[j]? = some z) := by
  rw [List.getElem?_set] at h
  split at h
  · subst_vars
    rw [if_pos (List.getElem?_eq_some_iff.mp hi).1] at h
    cases h
    exact .inl ⟨rfl, rfl⟩
  · exact .inr ⟨fun e => by simp_all, h⟩

theorem AKeep.put {i : Nat} {a a' : AskT} (h : s.asks[i]? = some a) (ha : s'.arr = s.arr)
    (hs : s'.asks = s.asks.set i a') (h1 : a'.srv = a.srv)
    (h2 : a.pc.reg' = true → a'.pc.reg' = true ∧ a'.tok = a.tok ∧ a'.next = a.next) : AKeep s s' := by
  refine ⟨by rw [ha]; exact List.prefix_refl _, fun j b hb => ?_⟩
  rw [hs, List.getElem?_set]
  split
  · subst_vars
    rw [h] at hb; cases hb
    rw [if_pos (List.getElem?_eq_some_iff.mp h).1]
    exact ⟨a', rfl, h1, h2⟩
  · exact ⟨b, hb, rfl, fun x => ⟨x, rfl, rfl⟩⟩

theorem AKeep.same (ha : s.arr <+: s'.arr) (hs : s.asks <+: s'.asks) : AKeep s s' := by
  refine ⟨ha, fun i a h => ?_⟩
  obtain ⟨l, hl⟩ := hs
  refine ⟨a, ?_, rfl, fun x => ⟨x, rfl, rfl⟩⟩
  rw [← hl, List.getElem?_append_left (List.getElem?_eq_some_iff.mp h).1]
  exact h

theorem anext_keep {op : AOp} (h : ANext cl s op s') : AKeep s s' := by
  cases h
  case arrive => exact .same (List.prefix_append _ _) (List.prefix_refl _)
  case call => exact .same (List.prefix_refl _) (List.prefix_append _ _)
  case callCb => exact .same (List.prefix_refl _) (List.prefix_append _ _)
  all_goals first
    | (exact .same (List.prefix_refl _) (List.prefix_refl _); done)
    | exact AKeep.put (by assumption) (by rfl) rfl (by rfl) (by simp_all [APc.reg'])

/-- only one Ask changed -/
theorem AInv.put {i : Nat} {a a' : AskT} (hv : AInv s) (k : AKeep s s') (h : s.asks[i]? = some a)
    (hs : s'.asks = s.asks.set i a') (hok : AOk s' a')
    (hw : ∀ t j, mapGet s'.waiting t = some j → mapGet s.waiting t = some j ∨ Listed s' false t j)
    (hsw : ∀ t j, mapGet s'.srvWaiting t = some j → mapGet s.srvWaiting t = some j ∨ Listed s' true t j)
    (hr : s'.rd = s.rd ∨ s'.rd = .clear) : AInv s' := by
  refine ⟨fun j b hb => ?_, fun t j hj => ?_, fun t j hj => ?_, fun j n hj => ?_, fun j n hj => ?_⟩
  · rw [hs] at hb
    rcases getElem?_set_some h hb with ⟨_, rfl⟩ | ⟨_, hb⟩
    · exact hok
    · exact (hv.each j b hb).mono k.arr
  · rcases hw t j hj with h | h
    · exact (hv.tab t j h).keep k
    · exact h
  · rcases hsw t j hj with h | h
    · exact (hv.stab t j h).keep k
    · exact h
  · rcases hr with hr | hr
    · obtain ⟨t, h1, h2⟩ := hv.rdC j n (hr ▸ hj)
      exact ⟨t, h1.keep k, fits_mono h2 k.arr⟩
    · rw [hr] at hj; cases hj
  · rcases hr with hr | hr
    · obtain ⟨t, h1, h2⟩ := hv.rdS j n (hr ▸ hj)
      exact ⟨t, h1.keep k, fits_mono h2 k.arr⟩
    · rw [hr] at hj; cases hj

/-- the Asks did not change, some may be new -/
theorem AInv.same (hv : AInv s) (k : AKeep s s') (hs : s'.asks = s.asks ∨ ∃ srv, s'.asks = s.asks ++ [{ srv := srv }])
    (hw : s'.waiting = s.waiting ∨ s'.waiting = []) (hsw : s'.srvWaiting = s.srvWaiting)
    (hc : ∀ i n, s'.rd = .connSend i n → s.rd = .connSend i n ∨ ∃ t, Listed s false t i ∧ s.fits t n)
    (hq : ∀ i n, s'.rd = .srvSend i n → s.rd = .srvSend i n ∨ ∃ t, Listed s true t i ∧ s.fits t n) : AInv s' := by
  refine ⟨fun j b hb => ?_, fun t j hj => ?_, fun t j hj => ?_, fun j n hj => ?_, fun j n hj => ?_⟩
  · rcases hs with hs | ⟨srv, hs⟩
    · rw [hs] at hb; exact (hv.each j b hb).mono k.arr
    · rw [hs] at hb
      by_cases hl : j < s.asks.length
      · rw [List.getElem?_append_left hl] at hb
        exact (hv.each j b hb).mono k.arr
      · rw [List.getElem?_append_right (by omega)] at hb
        have := List.mem_of_getElem? hb
        rw [List.mem_singleton] at this
        subst this
        exact ⟨(by simp), (by simp), (by simp), (by simp), (by simp)⟩
  · rcases hw with hw | hw
    · exact (hv.tab t j (hw ▸ hj)).keep k
    · rw [hw] at hj; cases hj
  · exact (hv.stab t j (hsw ▸ hj)).keep k
  · have : ∃ t, Listed s false t j ∧ s.fits t n := (hc j n hj).elim (hv.rdC j n) id
    obtain ⟨t, h1, h2⟩ := this
    exact ⟨t, h1.keep k, fits_mono h2 k.arr⟩
  · have : ∃ t, Listed s true t j ∧ s.fits t n := (hq j n hj).elim (hv.rdS j n) id
    obtain ⟨t, h1, h2⟩ := this
    exact ⟨t, h1.keep k, fits_mono h2 k.arr⟩

theorem listed_self {srv : Bool} {i : Nat} {a a' : AskT} (h : s.asks[i]? = some a)
    (hs : s'.asks = s.asks.set i a') (h1 : a'.next = false) (h2 : a'.srv = srv) (h3 : a'.pc.reg' = true) :
    Listed s' srv a'.tok i := by
  refine ⟨a', ?_, h1, rfl, h2, h3⟩
  rw [hs, List.getElem?_set, if_pos rfl, if_pos (List.getElem?_eq_some_iff.mp h).1]

theorem mapGet_mapDel_some {α : Type} {m : List (Bytes × α)} {k k' : Bytes} {v : α}
    (h : mapGet (mapDel m k) k' = some v) : mapGet m k' = some v := by
  rw [mapGet_mapDel] at h
  split at h
  · cases h
  · exact h

theorem own_eq {a a' : AskT} {g : Got} (h : s.own a g) (ha : s'.arr = s.arr) (ht : a'.tok = a.tok) :
    s'.own a' g := by
  have : s'.own a g := own_mono h (by rw [ha]; exact List.prefix_refl _)
  cases g <;> simp only [ASt.own, ht] at this ⊢ <;> exact this

/-- a step of the Ask's own goroutine that leaves box and helper alone -/
theorem AOk.goto {a : AskT} (h : AOk s a) (pc : APc) (ha : s'.arr = s.arr)
    (hp : a.pc.reg' = true → pc.reg' = true)
    (hf : ∀ g, pc = .forget g → a.next = false → s.own a g)
    (hd : ∀ g, pc = .done (.answer g) → a.next = false → s.own a g) : AOk s' { a with pc := pc } :=
  ⟨fun g hg => ⟨hp (h.box g hg).1, fun hn => own_eq ((h.box g hg).2 hn) ha rfl⟩,
    fun g hg hn => own_eq (hf g hg hn) ha rfl, fun g hg hn => own_eq (hd g hg hn) ha rfl,
    fun hh => ⟨(h.help hh).1, hp (h.help hh).2⟩, h.srv⟩

theorem ainv_step {op : AOp} (hv : AInv s) (h : ANext cl s op s') : AInv s' := by
  have k := anext_keep h
  have W : ∀ t j, mapGet s.waiting t = some j → mapGet s.waiting t = some j ∨ Listed s' false t j :=
    fun t j h => .inl h
  have SW : ∀ t j, mapGet s.srvWaiting t = some j → mapGet s.srvWaiting t = some j ∨ Listed s' true t j :=
    fun t j h => .inl h
  cases h
  case arrive => exact hv.same k (.inl rfl) (.inl rfl) rfl (fun _ _ => .inl) (fun _ _ => .inl)
  case call srv h => exact hv.same k (.inr ⟨srv, rfl⟩) (.inl rfl) rfl (fun _ _ => .inl) (fun _ _ => .inl)
  case callCb srv n hr h =>
    exact hv.same k (.inr ⟨srv, rfl⟩) (.inl rfl) rfl (fun _ _ x => by cases x) (fun _ _ x => by cases x)
  case flagS i a n o h hp hs =>
    exact hv.put k h rfl ((hv.each i a h).goto _ rfl (by simp [hp, APc.reg']) (by simp) (by simp)) W SW (.inl rfl)
  case flagC i a n o h hp hs =>
    have hk := hv.each i a h
    refine hv.put k h rfl ⟨fun g hg => ?_, (by simp), (by simp), fun hh => ?_, (by simp [hs])⟩ W SW (.inl rfl)
    · have := (hk.box g hg).1
      rw [hp] at this; cases this
    · have := (hk.help hh).2
      rw [hp] at this; cases this
  case check i a n o h hp hc ho =>
    exact hv.put k h rfl ((hv.each i a h).goto _ rfl (by simp [hp, APc.reg']) (by simp) (by simp)) W SW (.inl rfl)
  case checkF i a n o r h hp hr hc =>
    exact hv.put k h rfl ((hv.each i a h).goto _ rfl (by simp [hp, APc.reg']) (by simp)
      (by intro g hg; cases hg; split at hr <;> cases hr)) W SW (.inl rfl)
  case tok i a n o h hp =>
    have hk := hv.each i a h
    refine hv.put k h rfl ⟨fun g hg => ?_, (by simp), (by simp), fun hh => ?_, hk.srv⟩ W SW (.inl rfl)
    · have := (hk.box g hg).1
      rw [hp] at this; cases this
    · have := (hk.help hh).2
      rw [hp] at this; cases this
  case regS i a n o h hp hs =>
    refine hv.put k h rfl ((hv.each i a h).goto _ rfl (by simp [hp, APc.reg']) (by simp) (by simp)) W ?_ (.inl rfl)
    intro t j hj
    change mapGet (mapSet s.srvWaiting a.tok i) t = some j at hj
    rw [mapGet_mapSet] at hj
    split at hj
    · cases hj
      subst_vars
      exact .inr (listed_self (a' := { a with pc := .write }) h rfl ((hv.each i a h).srv hs) hs rfl)
    · exact .inl hj
  case regN i a n o h hp hs hn =>
    have hk := hv.each i a h
    refine hv.put k h rfl ⟨fun g hg => ?_, (by simp), (by simp), fun hh => ⟨hn, rfl⟩, hk.srv⟩ W SW (.inl rfl)
    have := (hk.box g hg).1
    rw [hp] at this; cases this
  case regC i a n o h hp hs hn =>
    refine hv.put k h rfl ((hv.each i a h).goto _ rfl (by simp [hp, APc.reg']) (by simp) (by simp)) ?_ SW (.inl rfl)
    intro t j hj
    change mapGet (mapSet s.waiting a.tok i) t = some j at hj
    rw [mapGet_mapSet] at hj
    split at hj
    · cases hj
      subst_vars
      exact .inr (listed_self (a' := { a with pc := .write }) h rfl hn hs rfl)
    · exact .inl hj
  case write i a n o h hp hc =>
    exact hv.put k h rfl ((hv.each i a h).goto _ rfl (by simp [APc.reg']) (by simp) (by simp)) W SW (.inl rfl)
  case writeF i a n o h hp hs =>
    exact hv.put k h rfl ((hv.each i a h).goto _ rfl (by simp [APc.reg']) (by simp) (by simp)) W SW (.inl rfl)
  case takeN i a n o g h hp hn hb =>
    have hk := hv.each i a h
    refine hv.put k h rfl ⟨(by simp), (by simp), (by simp [hn]), fun hh => ⟨hn, rfl⟩, hk.srv⟩ W SW (.inl rfl)
  case take i a n o g h hp hn hb =>
    have hk := hv.each i a h
    refine hv.put k h rfl ⟨(by simp), fun g' hg' _ => ?_, (by simp), fun hh => ⟨(hk.help hh).1, rfl⟩, hk.srv⟩
      W SW (.inl rfl)
    cases hg'
    exact own_eq ((hk.box g hb).2 hn) rfl rfl
  case forgetS i a n o g h hp hs =>
    refine hv.put k h rfl ((hv.each i a h).goto _ rfl (by simp [APc.reg']) (by simp) ?_) W ?_ (.inl rfl)
    · intro g' hg' hn; cases hg'; exact (hv.each i a h).forget g hp hn
    · intro t j hj; exact .inl (mapGet_mapDel_some hj)
  case forgetC i a n o g h hp hs =>
    refine hv.put k h rfl ((hv.each i a h).goto _ rfl (by simp [APc.reg']) (by simp) ?_) ?_ SW (.inl rfl)
    · intro g' hg' hn; cases hg'; exact (hv.each i a h).forget g hp hn
    · intro t j hj; exact .inl (mapGet_mapDel_some hj)
  case ctx i a h hp =>
    exact hv.put k h rfl ((hv.each i a h).goto _ rfl (by simp [APc.reg']) (by simp)
      (by intro g hg; split at hg <;> cases hg)) W SW (.inl rfl)
  case helpE i a h hh hn =>
    have hk := hv.each i a h
    have hx := hk.help (by rw [hh]; simp)
    exact hv.put k h rfl ⟨fun g hg => ⟨hx.2, fun hn => own_eq ((hk.box g hg).2 hn) rfl rfl⟩,
      fun g hg hn => own_eq (hk.forget g hg hn) rfl rfl, fun g hg hn => own_eq (hk.done g hg hn) rfl rfl,
      fun _ => hx, hk.srv⟩ W SW (.inl rfl)
  case helpR i a h hh hn hp =>
    have hk := hv.each i a h
    have hx := hk.help (by rw [hh]; simp)
    exact hv.put k h rfl ⟨fun g hg => ⟨hx.2, fun hn => own_eq ((hk.box g hg).2 hn) rfl rfl⟩,
      fun g hg hn => own_eq (hk.forget g hg hn) rfl rfl, fun g hg hn => own_eq (hk.done g hg hn) rfl rfl,
      fun _ => hx, hk.srv⟩ W SW (.inl rfl)
  case helpS i a g h hh hb =>
    have hk := hv.each i a h
    have hx := hk.help (by rw [hh]; simp)
    exact hv.put k h rfl ⟨fun g hg => ⟨hx.2, fun hn => by simp [hx.1] at hn⟩,
      fun g hg hn => by simp [hx.1] at hn, fun g hg hn => by simp [hx.1] at hn,
      fun _ => hx, hk.srv⟩ W SW (.inl rfl)
  case srvYes n i hr hi =>
    refine hv.same k (.inl rfl) (.inl rfl) rfl (fun _ _ x => by cases x) (fun j n' x => .inr ?_)
    cases x
    unfold ASt.srvAsk at hi
    split at hi
    · cases hi
    · rename_i m hm
      split at hi
      · exact ⟨_, hv.stab _ _ hi, m, hm, rfl⟩
      · cases hi
  case connYes n i hr hi =>
    refine hv.same k (.inl rfl) (.inl rfl) rfl (fun j n' x => .inr ?_) (fun _ _ x => by cases x)
    cases x
    unfold ASt.connAsk at hi
    split at hi
    · cases hi
    · rename_i m hm
      split at hi
      · exact ⟨_, hv.tab _ _ hi, m, hm, rfl⟩
      · cases hi
  case srvSend i n a hr h hp =>
    have hk := hv.each i a h
    obtain ⟨t, hl, hf⟩ := hv.rdS i n hr
    obtain ⟨b, h1, h2, h3, h4, h5⟩ := hl.ex
    rw [h] at h1; cases h1
    refine hv.put k h rfl (hk.goto _ rfl (by simp [APc.reg']) ?_ (by simp)) W SW (.inr rfl)
    intro g hg _
    cases hg
    rw [← h3] at hf
    exact hf
  case connSend i n a hr h hb =>
    have hk := hv.each i a h
    obtain ⟨t, hl, hf⟩ := hv.rdC i n hr
    obtain ⟨b, h1, h2, h3, h4, h5⟩ := hl.ex
    rw [h] at h1; cases h1
    refine hv.put k h rfl ⟨fun g hg => ⟨h5, fun _ => ?_⟩, fun g hg hn => own_eq (hk.forget g hg hn) rfl rfl,
      fun g hg hn => own_eq (hk.done g hg hn) rfl rfl, hk.help, hk.srv⟩ W SW (.inr rfl)
    cases hg
    rw [← h3] at hf
    exact hf
  case other m i a hc hw h hp =>
    have hk := hv.each i a h
    obtain ⟨b, h1, h2, h3, h4, h5⟩ := (hv.stab _ _ hw).ex
    rw [h] at h1; cases h1
    refine hv.put k h rfl (hk.goto _ rfl (by simp [APc.reg']) ?_ (by simp)) W SW (.inl rfl)
    intro g hg _
    cases hg
    exact h3.symm
  case closeClear hc => exact hv.same k (.inl rfl) (.inr rfl) rfl (fun _ _ => .inl) (fun _ _ => .inl)
  all_goals first
    | (exact hv.same k (.inl rfl) (.inl rfl) rfl (fun _ _ x => by cases x) (fun _ _ x => by cases x); done)
    | (exact hv.same k (.inl rfl) (.inl rfl) rfl (fun _ _ => .inl) (fun _ _ => .inl); done)

theorem areach_inv (h : AReach cl s) : AInv s :=
  areach_ind ⟨(by simp), (by simp [mapGet]), (by simp [mapGet]), (by simp), (by simp)⟩ (fun _ _ _ => ainv_step) h

/-! ### Each message is in one place -/

theorem sum_set {α : Type} (f : α → Nat) {l : List α} {i : Nat} {x : α} (h : l[i]? = some x) (y : α) :
    ((l.set i y).map f).sum + f x = (l.map f).sum + f y := by
  induction l generalizing i with
  | nil => simp at h
  | cons a l ih =>
    cases i with
    | zero =>
      simp only [List.getElem?_cons_zero, Option.some.injEq] at h
      subst h
      simp only [List.set_cons_zero, List.map_cons, List.sum_cons]
      omega
    | succ i =>
      simp only [List.getElem?_cons_succ] at h
      simp only [List.set_cons_succ, List.map_cons, List.sum_cons]
      have := ih h
      omega

theorem le_sum {α : Type} (f : α → Nat) {l : List α} {i : Nat} {x : α} (h : l[i]? = some x) :
    f x ≤ (l.map f).sum := by
  induction l generalizing i with
  | nil => simp at h
  | cons a l ih =>
    rw [List.map_cons, List.sum_cons]
    cases i with
    | zero =>
      simp only [List.getElem?_cons_zero, Option.some.injEq] at h
      subst h; omega
    | succ i =>
      have := ih (by simpa using h)
      omega

theorem two_le_sum {α : Type} (f : α → Nat) {l : List α} {i j : Nat} {x y : α} (h : l[i]? = some x)
    (k : l[j]? = some y) (hij : i < j) : f x + f y ≤ (l.map f).sum := by
  induction l generalizing i j with
  | nil => simp at h
  | cons a l ih =>
    rw [List.map_cons, List.sum_cons]
    cases j with
    | zero => omega
    | succ j =>
      cases i with
      | zero =>
        simp only [List.getElem?_cons_zero, Option.some.injEq] at h
        subst h
        have := le_sum f (i := j) (by simpa using k)
        omega
      | succ i =>
        have := ih (by simpa using h) (by simpa using k) (by omega)
        omega

def ARd.hold (k : Nat) : ARd → Nat
  | .got n | .srvLook n | .connLook n | .srvSend _ n | .connSend _ n | .handler n | .inAsk _ n =>
    if n = k then 1 else 0
  | _ => 0

def Got.hold (k : Nat) : Got → Nat
  | .msg n => if n = k then 1 else 0
  | _ => 0

def APc.hold (k : Nat) : APc → Nat
  | .forget g | .done (.answer g) => g.hold k
  | _ => 0

def Help.hold (k : Nat) : Help → Nat
  | .got g => g.hold k
  | _ => 0

def boxHold (k : Nat) : Option Got → Nat
  | some g => g.hold k
  | none => 0

def AskT.hold (k : Nat) (a : AskT) : Nat := boxHold k a.box + a.help.hold k + a.pc.hold k

/-- in how many places message `k` is -/
def ASt.total (k : Nat) (s : ASt) : Nat := s.rd.hold k + (s.asks.map (AskT.hold k)).sum

structure AOne (s : ASt) : Prop where
  pos : s.pos ≤ s.arr.length
  one : ∀ k, s.total k ≤ if k < s.pos then 1 else 0

theorem total_put (k : Nat) {i : Nat} {a a' : AskT} (h : s.asks[i]? = some a) (hs : s'.asks = s.asks.set i a') :
    s'.total k + s.rd.hold k + a.hold k = s.total k + s'.rd.hold k + a'.hold k := by
  unfold ASt.total
  rw [hs]
  have := sum_set (AskT.hold k) h a'
  omega

theorem total_le (k : Nat) {i : Nat} {a a' : AskT} (h : s.asks[i]? = some a) (hs : s'.asks = s.asks.set i a')
    (hr : s'.rd = s.rd) (ha : a'.hold k ≤ a.hold k) : s'.total k ≤ s.total k := by
  have := total_put k h hs
  rw [hr] at this
  omega

theorem aone_step {op : AOp} (hv : AOne s) (h : ANext cl s op s') : AOne s' := by
  cases h
  case arrive =>
    refine ⟨?_, hv.one⟩
    have := hv.pos
    simp only [List.length_append, List.length_singleton]
    omega
  case call =>
    refine ⟨hv.pos, fun k => ?_⟩
    have := hv.one k
    simpa [ASt.total, AskT.hold, boxHold, Help.hold, APc.hold] using this
  case callCb srv n hr h =>
    refine ⟨hv.pos, fun k => ?_⟩
    have := hv.one k
    simpa [ASt.total, AskT.hold, boxHold, Help.hold, APc.hold, hr, ARd.hold] using this
  case helpR i a h hh hn hp =>
    refine ⟨hp, fun k => ?_⟩
    have h1 := hv.one k
    have h2 := total_put (s' := { s with pos := s.pos + 1 }.put i { a with help := .got (.msg s.pos) }) k h rfl
    have h3 : ({ s with pos := s.pos + 1 }.put i { a with help := .got (.msg s.pos) }).rd = s.rd := rfl
    rw [h3] at h2
    simp only [AskT.hold, hh, Help.hold, Got.hold] at h2
    show _ ≤ if k < s.pos + 1 then 1 else 0
    split <;> split at h1 <;> split at h2 <;> omega
  case read hr hn hp =>
    refine ⟨hp, fun k => ?_⟩
    have h1 := hv.one k
    simp only [ASt.total, hr, ARd.hold] at h1 ⊢
    split at h1 <;> split <;> split <;> omega
  case srvSend i n a hr h hp =>
    refine ⟨hv.pos, fun k => ?_⟩
    have h1 := hv.one k
    have h2 := total_put (s' := { s with rd := .clear }.put i { a with pc := .forget (.msg n) }) k h rfl
    simp only [AskT.hold, APc.hold, Got.hold, ARd.hold, hr, hp, ASt.put] at h2
    show ASt.total k _ ≤ if k < s.pos then 1 else 0
    simp only [ASt.put]
    omega
  case connSend i n a hr h hb =>
    refine ⟨hv.pos, fun k => ?_⟩
    have h1 := hv.one k
    have h2 := total_put (s' := { s with rd := .clear }.put i { a with box := some (.msg n) }) k h rfl
    simp only [AskT.hold, Got.hold, ARd.hold, hr, hb, boxHold, ASt.put] at h2
    show ASt.total k _ ≤ if k < s.pos then 1 else 0
    simp only [ASt.put]
    omega
  case checkF i a n o r h hp hr hc =>
    refine ⟨hv.pos, fun k => Nat.le_trans (total_le k h rfl rfl ?_) (hv.one k)⟩
    have : (APc.done r).hold k = 0 := by rw [hr]; split <;> rfl
    simp only [AskT.hold, this, hp]
    omega
  case ctx i a h hp =>
    refine ⟨hv.pos, fun k => Nat.le_trans (total_le k h rfl rfl ?_) (hv.one k)⟩
    have : (APc.done (if !a.srv && s.closed then .writeErr else .ctxErr)).hold k = 0 := by split <;> rfl
    simp only [AskT.hold, this, hp]
    omega
  case takeN i a n o g h hp hn hb =>
    refine ⟨hv.pos, fun k => Nat.le_trans (total_le k h rfl rfl ?_) (hv.one k)⟩
    simp only [AskT.hold, hp, hb, APc.hold, boxHold]
    omega
  case take i a n o g h hp hn hb =>
    refine ⟨hv.pos, fun k => Nat.le_trans (total_le k h rfl rfl ?_) (hv.one k)⟩
    simp only [AskT.hold, hp, hb, APc.hold, boxHold]
    omega
  all_goals
    refine ⟨hv.pos, fun k => ?_⟩
    have h1 := hv.one k
    first
      | exact h1
      | (simp only [ASt.total, ARd.hold, *] at h1 ⊢; first | exact h1 | omega)
      | exact Nat.le_trans (total_le k (by assumption) rfl (by rfl)
          (by simp_all [AskT.hold, APc.hold, Got.hold, Help.hold, boxHold])) h1

theorem areach_one (h : AReach cl s) : AOne s :=
  areach_ind ⟨Nat.le_refl _, fun k => by simp [ASt.total, ARd.hold]⟩ (fun _ _ _ => aone_step) h

end Neffos
