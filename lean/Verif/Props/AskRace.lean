import Verif.Proofs.AskRace
/-!
# Asks (C27, C28, C29, C30)

All interleavings of any number of Asks, the reader, the goroutines that Asks start, `Close` and
messages that arrive. The machine is in `Model/AskRace.lean`.
-/
set_option autoImplicit false
namespace Neffos

variable {cl : Bool} {s s' : ASt}

/-! ## C27 -/

/-- the message that an Ask returned carries this token -/
def ASt.carries (s : ASt) (t : Bytes) : Got → Prop
  | .msg k => ∃ m, s.arr[k]? = some m ∧ m.wait = t
  | .other m => m.wait = t
  | .readErr => False

/-- C27: an Ask that began while no handler was running returns only a message with its own token. -/
theorem c27_own_partial (hr : AReach cl s) {i : Nat} {a : AskT} {g : Got} (ha : s.asks[i]? = some a)
    (hn : a.next = false) (hd : a.pc = .done (.answer g)) : s.carries a.tok g := by
  have := ((areach_inv hr).each i a ha).done g hd hn
  cases g <;> exact this

/-- C27: no message completes two Asks. -/
theorem c27_once (hr : AReach cl s) {i j : Nat} {a b : AskT} {k : Nat} (ha : s.asks[i]? = some a)
    (hb : s.asks[j]? = some b) (h1 : a.pc = .done (.answer (.msg k))) (h2 : b.pc = .done (.answer (.msg k))) :
    i = j := by
  have ho := (areach_one hr).one k
  have x1 : 1 ≤ a.hold k := by simp [AskT.hold, h1, APc.hold, Got.hold]
  have x2 : 1 ≤ b.hold k := by simp [AskT.hold, h2, APc.hold, Got.hold]
  rcases Nat.lt_trichotomy i j with h | h | h
  · have := two_le_sum (AskT.hold k) ha hb h
    unfold ASt.total at ho
    split at ho <;> omega
  · exact h
  · have := two_le_sum (AskT.hold k) hb ha h
    unfold ASt.total at ho
    split at ho <;> omega

/-- a message with a token of the client, and one without -/
def tokMsg (t : Int) : Message := { wait := genWait true t, event := b! "answer" }
def plainMsg : Message := { ns := b! "chat", event := b! "hi" }

/-- the state after a schedule -/
def aafter (cl : Bool) (ops : List AOp) : ASt := (ASt.run cl {} ops).getD {}

theorem aafter_run {ops : List AOp} (h : (ASt.run cl {} ops).isSome = true) :
    ASt.run cl {} ops = some (aafter cl ops) := by
  obtain ⟨s, hs⟩ := Option.isSome_iff_exists.mp h
  simp [aafter, hs]

theorem aafter_reach {ops : List AOp} (h : (ASt.run cl {} ops).isSome = true) : AReach cl (aafter cl ops) := by
  obtain ⟨s, hs⟩ := Option.isSome_iff_exists.mp h
  exact ⟨ops, by simp [aafter, hs]⟩

/-- Ask 0 with the clock at `t`, up to the point where it waits -/
def askOps (i : Nat) (t : Int) : List AOp :=
  [.ask i t true, .ask i t true, .ask i t true, .ask i t true, .ask i t true]

/-- two Asks, answered in the other order -/
def twoAskOps : List AOp :=
  [.call false, .call false] ++ askOps 0 7 ++ askOps 1 8 ++ [.arrive (tokMsg 8), .arrive (tokMsg 7)] ++
  List.replicate 6 .reader ++ List.replicate 6 .reader ++
  [.ask 0 0 true, .ask 0 0 true, .ask 1 0 true, .ask 1 0 true]

example : ∃ (s : ASt) (a b : AskT), AReach true s ∧ s.asks[0]? = some a ∧ s.asks[1]? = some b ∧
    a.next = false ∧ a.pc = .done (.answer (.msg 1)) ∧ b.next = false ∧ b.pc = .done (.answer (.msg 0)) :=
  ⟨aafter true twoAskOps,
    ⟨false, false, genWait true 7, none, .none, .done (.answer (.msg 1))⟩,
    ⟨false, false, genWait true 8, none, .none, .done (.answer (.msg 0))⟩,
    aafter_reach (by decide +kernel), by decide +kernel, by decide +kernel, rfl, rfl, rfl, rfl⟩

/-- the reader runs a callback for the first message while another goroutine calls Ask -/
def strayOps : List AOp :=
  [.arrive plainMsg] ++ List.replicate 4 .reader ++ [.call false] ++ askOps 0 7 ++
  [.arrive plainMsg, .help 0, .help 0, .ask 0 0 true]

/-- C27 fails: `isInsideHandler` belongs to the connection, not to the goroutine. An Ask of any
goroutine that begins while the reader runs a callback takes the next message for its answer. -/
theorem c27_refuted : ∃ (s : ASt) (a : AskT), AReach true s ∧ s.asks[0]? = some a ∧
    a.pc = .done (.answer (.msg 1)) ∧ ¬ s.carries a.tok (.msg 1) := by
  have h1 : (aafter true strayOps).arr[1]? = some plainMsg := by decide +kernel
  refine ⟨aafter true strayOps, ⟨false, true, genWait true 7, none, .ended, .done (.answer (.msg 1))⟩,
    aafter_reach (by decide +kernel), by decide +kernel, rfl, ?_⟩
  rintro ⟨m, hm, hw⟩
  rw [h1] at hm
  cases hm
  revert hw
  decide +kernel

/-- two Asks in the same tick of the clock, each answered -/
def tickOps : List AOp :=
  [.call false, .call false] ++ askOps 0 7 ++ askOps 1 7 ++ [.arrive (tokMsg 7)] ++
  List.replicate 6 .reader ++ [.ask 1 0 true, .ask 1 0 true, .arrive (tokMsg 7)] ++ List.replicate 6 .reader

/-- an Ask that nobody can answer any more: it is in no table and the reader is not about to answer it -/
structure Lost (i : Nat) (a : AskT) (s : ASt) : Prop where
  ask : s.asks[i]? = some a
  tab : ∀ t, mapGet s.waiting t ≠ some i
  rd : ∀ k, s.rd ≠ .connSend i k

theorem lost_step {op : AOp} {i : Nat} {a : AskT} (hi : AInv s) (h : Lost i a s) (hp : a.pc = .wait)
    (hb : a.box = none) (hn : a.next = false) (hs : a.srv = false) (hc : op ≠ .ctx i) (h' : ANext cl s op s') :
    Lost i a s' := by
  have hh : a.help = .none := by
    cases hx : a.help with
    | none => rfl
    | _ =>
      have := ((hi.each i a h.ask).help (by rw [hx]; simp)).1
      rw [hn] at this; cases this
  have upd : ∀ {j : Nat} {b : AskT} (b' : AskT), s.asks[j]? = some b → b ≠ a → (s.asks.set j b')[i]? = some a := by
    intro j b b' hj hba
    rw [List.getElem?_set]
    split
    · subst_vars
      rw [h.ask] at hj; cases hj; exact absurd rfl hba
    · exact h.ask
  cases h'
  case arrive => exact ⟨h.ask, h.tab, h.rd⟩
  case call =>
    exact ⟨by rw [← h.ask]; exact List.getElem?_append_left (List.getElem?_eq_some_iff.mp h.ask).1, h.tab, h.rd⟩
  case callCb =>
    exact ⟨by rw [← h.ask]; exact List.getElem?_append_left (List.getElem?_eq_some_iff.mp h.ask).1, h.tab,
      fun _ x => by cases x⟩
  case regC j b n o hj hp' hs' hn' =>
    refine ⟨upd _ hj (fun e => by rw [e, hp] at hp'; cases hp'), fun t x => ?_, h.rd⟩
    change mapGet (mapSet s.waiting b.tok j) t = some i at x
    rw [mapGet_mapSet] at x
    split at x
    · cases x
      rw [h.ask] at hj; cases hj
      rw [hp] at hp'; cases hp'
    · exact h.tab t x
  case regS j b n o hj hp' hs' =>
    exact ⟨upd _ hj (fun e => by rw [e, hp] at hp'; cases hp'), h.tab, h.rd⟩
  case forgetC j b n o g hj hp' hs' =>
    exact ⟨upd _ hj (fun e => by rw [e, hp] at hp'; cases hp'), fun t x => h.tab t (mapGet_mapDel_some x), h.rd⟩
  case ctx j b hj hp' =>
    refine ⟨?_, h.tab, h.rd⟩
    show (s.asks.set j _)[i]? = some a
    rw [List.getElem?_set]
    split
    · subst_vars; exact absurd rfl hc
    · exact h.ask
  case takeN j b n o g hj hp' hn' hb' =>
    exact ⟨upd _ hj (fun e => by rw [e, hb] at hb'; cases hb'), h.tab, h.rd⟩
  case take j b n o g hj hp' hn' hb' =>
    exact ⟨upd _ hj (fun e => by rw [e, hb] at hb'; cases hb'), h.tab, h.rd⟩
  case helpE j b hj hh' _ =>
    exact ⟨upd _ hj (fun e => by rw [e, hh] at hh'; cases hh'), h.tab, h.rd⟩
  case helpR j b hj hh' _ _ =>
    exact ⟨upd _ hj (fun e => by rw [e, hh] at hh'; cases hh'), h.tab, h.rd⟩
  case helpS j b g hj hh' _ =>
    exact ⟨upd _ hj (fun e => by rw [e, hh] at hh'; cases hh'), h.tab, h.rd⟩
  case connYes k j hr hj =>
    refine ⟨h.ask, h.tab, fun k' x => ?_⟩
    cases x
    unfold ASt.connAsk at hj
    split at hj
    · cases hj
    · split at hj
      · exact h.tab _ hj
      · cases hj
  case srvSend j k b hr hj hp' =>
    obtain ⟨t, hl, _⟩ := hi.rdS j k hr
    obtain ⟨b', x1, _, _, x4, _⟩ := hl.ex
    rw [hj] at x1; cases x1
    exact ⟨upd _ hj (fun e => by rw [e, hs] at x4; cases x4), h.tab, fun _ x => by cases x⟩
  case connSend j k b hr hj hb' =>
    refine ⟨?_, h.tab, fun _ x => by cases x⟩
    show (s.asks.set j _)[i]? = some a
    rw [List.getElem?_set]
    split
    · subst_vars; exact absurd hr (h.rd k)
    · exact h.ask
  case other m j b hc' hw hj hp' =>
    obtain ⟨b', x1, _, _, x4, _⟩ := (hi.stab _ _ hw).ex
    rw [hj] at x1; cases x1
    exact ⟨upd _ hj (fun e => by rw [e, hs] at x4; cases x4), h.tab, h.rd⟩
  case closeClear => exact ⟨h.ask, (fun t x => by cases x), h.rd⟩
  all_goals first
    | (exact ⟨h.ask, h.tab, fun _ x => by cases x⟩; done)
    | (exact ⟨h.ask, h.tab, h.rd⟩; done)
    | exact ⟨upd _ (by assumption) (fun e => by simp_all), h.tab, h.rd⟩

theorem lost_run {ops : List AOp} {i : Nat} {a : AskT} (hi : AInv s) (h : Lost i a s) (hp : a.pc = .wait)
    (hb : a.box = none) (hn : a.next = false) (hs : a.srv = false) (hc : .ctx i ∉ ops)
    (h' : s.run cl ops = some s') : AInv s' ∧ Lost i a s' := by
  induction ops generalizing s with
  | nil => cases h'; exact ⟨hi, h⟩
  | cons op ops ih =>
    simp only [ASt.run] at h'
    split at h'
    · rename_i t ht
      have hx := anext_of_step ht
      exact ih (ainv_step hi hx) (lost_step hi h hp hb hn hs (fun e => hc (e ▸ List.mem_cons_self ..)) hx)
        (fun e => hc (List.mem_cons_of_mem _ e)) h'
    · cases h'

/-- C27 fails in another way: tokens are clock readings. Two Asks in the same tick share a token, the
answers to both go to the second one, and the first never returns, whatever arrives. -/
theorem c27_refuted_tick : ∃ (s : ASt) (a b : AskT), AReach true s ∧ s.asks[0]? = some a ∧
    s.asks[1]? = some b ∧ a.tok = b.tok ∧ b.pc = .done (.answer (.msg 0)) ∧
    (∃ m m', s.arr = [m, m'] ∧ m.wait = a.tok ∧ m'.wait = a.tok) ∧
    ∀ ops s', .ctx 0 ∉ ops → s.run true ops = some s' → s'.asks[0]? = some a ∧ a.pc = .wait := by
  have hr : AReach true (aafter true tickOps) := aafter_reach (by decide +kernel)
  have h0 : (aafter true tickOps).asks[0]? = some ⟨false, false, genWait true 7, none, .none, .wait⟩ := by
    decide +kernel
  refine ⟨aafter true tickOps, ⟨false, false, genWait true 7, none, .none, .wait⟩,
    ⟨false, false, genWait true 7, none, .none, .done (.answer (.msg 0))⟩, hr, h0, by decide +kernel, rfl, rfl,
    ⟨tokMsg 7, tokMsg 7, by decide +kernel, by decide +kernel, by decide +kernel⟩, fun ops s' hc hs => ?_⟩
  have hl : Lost 0 ⟨false, false, genWait true 7, none, .none, .wait⟩ (aafter true tickOps) := by
    refine ⟨h0, fun t => ?_, fun k => ?_⟩
    · have : (aafter true tickOps).waiting = [] := by decide +kernel
      rw [this]; simp [mapGet]
    · have : (aafter true tickOps).rd = .idle := by decide +kernel
      rw [this]; simp
  exact ⟨(lost_run (areach_inv hr) hl rfl rfl rfl rfl hc hs).2.ask, rfl⟩

/-! ## C28 -/

/-- the callback of the first message asks; an event comes before the answer -/
def cbAskOps : List AOp :=
  [.arrive plainMsg] ++ List.replicate 4 .reader ++ [.callCb false] ++ askOps 0 7 ++
  [.arrive plainMsg, .arrive (tokMsg 7), .help 0, .help 0, .ask 0 0 true]

/-- C28 fails: an Ask made by a callback returns the next message, here an unrelated event that came
before its answer; the event is not handled. -/
theorem c28_refuted : ∃ (s : ASt) (a : AskT), AReach true s ∧ s.asks[0]? = some a ∧
    s.rd = .inAsk 0 0 ∧ a.pc = .done (.answer (.msg 1)) ∧ ¬ s.carries a.tok (.msg 1) ∧
    ∃ m, s.arr[2]? = some m ∧ m.wait = a.tok := by
  have h1 : (aafter true cbAskOps).arr[1]? = some plainMsg := by decide +kernel
  refine ⟨aafter true cbAskOps, ⟨false, true, genWait true 7, none, .ended, .done (.answer (.msg 1))⟩,
    aafter_reach (by decide +kernel), by decide +kernel, by decide +kernel, rfl, ?_,
    tokMsg 7, by decide +kernel, by decide +kernel⟩
  rintro ⟨m, hm, hw⟩
  rw [h1] at hm
  cases hm
  revert hw
  decide +kernel

/-- the messages of an Ask are all message number `p` -/
structure OnlyAt (p : Nat) (a : AskT) : Prop where
  next : a.next = true
  reg : a.pc.reg' = true
  help : a.help ≠ .reading
  box : ∀ n, a.box = some (.msg n) → n = p
  got : ∀ n, a.help = .got (.msg n) → n = p
  pc : ∀ n, a.pc = .forget (.msg n) ∨ a.pc = .done (.answer (.msg n)) → n = p

/-- the callback waits in its Ask `j` for the message number `p`, and no other Ask takes messages off
the socket -/
structure Alone (j k p : Nat) (s : ASt) : Prop where
  rd : s.rd = .inAsk j k
  pos : s.pos = p
  own : ∃ a, s.asks[j]? = some a ∧ a.next = true ∧ a.help = .reading ∧ a.box = none ∧
    (a.pc = .write ∨ a.pc = .wait)
  rest : ∀ (i : Nat) (b : AskT), s.asks[i]? = some b → i ≠ j → b.help ≠ .reading ∧ b.pc.reg' = true

/-- the Ask `j` gave up -/
def GaveUp (a : AskT) : Prop := a.pc = .done .writeErr ∨ a.pc = .done .ctxErr

def NextInv (j k p : Nat) (s : ASt) : Prop :=
  Alone j k p s ∨ ∃ a, s.asks[j]? = some a ∧ (OnlyAt p a ∨ GaveUp a)

theorem nextInv_step {op : AOp} {j k p : Nat} (hi : AInv s) (h : NextInv j k p s) (h1 : ∀ srv, op ≠ .call srv)
    (h' : ANext cl s op s') : NextInv j k p s' := by
  have keep : ∀ {i : Nat} {a b : AskT} (b' : AskT), s.asks[i]? = some b → s.asks[j]? = some a → i ≠ j →
      (s.asks.set i b')[j]? = some a := by
    intro i a b b' hb ha hij
    rw [List.getElem?_set, if_neg hij]; exact ha
  have self : ∀ {a : AskT} (b : AskT), s.asks[j]? = some a → (s.asks.set j b)[j]? = some b := by
    intro a b ha
    rw [List.getElem?_set, if_pos rfl, if_pos (List.getElem?_eq_some_iff.mp ha).1]
  rcases h with h | ⟨a, ha, h⟩
  · obtain ⟨a, ha, hn, hh, hb, hp⟩ := h.own
    have hr : s.rd = .inAsk j k := h.rd
    -- a step of another Ask
    have oth : ∀ {i : Nat} {b : AskT} (b' : AskT) (t : ASt), s.asks[i]? = some b → i ≠ j →
        t.asks = s.asks.set i b' → t.rd = s.rd → t.pos = s.pos → b'.help ≠ .reading → b'.pc.reg' = true →
        NextInv j k p t := by
      intro i b b' t hb' hij e1 e2 e3 e4 e5
      refine .inl ⟨e2.trans hr, e3.trans h.pos, ⟨a, ?_, hn, hh, hb, hp⟩, fun i' c hc hne => ?_⟩
      · rw [e1]; exact keep b' hb' ha hij
      · rw [e1] at hc
        rcases getElem?_set_some hb' hc with ⟨_, rfl⟩ | ⟨_, hc⟩
        · exact ⟨e4, e5⟩
        · exact h.rest i' c hc hne
    have nj : ∀ {i : Nat} {b : AskT}, s.asks[i]? = some b → b ≠ a → i ≠ j := by
      rintro i b hb' hne rfl
      rw [ha] at hb'; cases hb'; exact hne rfl
    cases h'
    case arrive => exact .inl ⟨hr, h.pos, ⟨a, ha, hn, hh, hb, hp⟩, h.rest⟩
    case call srv _ => exact absurd rfl (h1 srv)
    case callCb hr' _ => rw [hr] at hr'; cases hr'
    case flagS i b n o hb' hp' hs =>
      have hij := nj hb' (by rintro rfl; rw [hp'] at hp; simp at hp)
      have := (h.rest i b hb' hij).2
      rw [hp'] at this; cases this
    case flagC i b n o hb' hp' hs =>
      have hij := nj hb' (by rintro rfl; rw [hp'] at hp; simp at hp)
      have := (h.rest i b hb' hij).2
      rw [hp'] at this; cases this
    case check i b n o hb' hp' hs ho =>
      have hij := nj hb' (by rintro rfl; rw [hp'] at hp; simp at hp)
      have := (h.rest i b hb' hij).2
      rw [hp'] at this; cases this
    case checkF i b n o r hb' hp' _ _ =>
      have hij := nj hb' (by rintro rfl; rw [hp'] at hp; simp at hp)
      have := (h.rest i b hb' hij).2
      rw [hp'] at this; cases this
    case tok i b n o hb' hp' =>
      have hij := nj hb' (by rintro rfl; rw [hp'] at hp; simp at hp)
      have := (h.rest i b hb' hij).2
      rw [hp'] at this; cases this
    case regS i b n o hb' hp' _ =>
      have hij := nj hb' (by rintro rfl; rw [hp'] at hp; simp at hp)
      have := (h.rest i b hb' hij).2
      rw [hp'] at this; cases this
    case regN i b n o hb' hp' _ _ =>
      have hij := nj hb' (by rintro rfl; rw [hp'] at hp; simp at hp)
      have := (h.rest i b hb' hij).2
      rw [hp'] at this; cases this
    case regC i b n o hb' hp' _ _ =>
      have hij := nj hb' (by rintro rfl; rw [hp'] at hp; simp at hp)
      have := (h.rest i b hb' hij).2
      rw [hp'] at this; cases this
    case write i b n o hb' hp' _ =>
      by_cases hij : i = j
      · subst hij
        rw [ha] at hb'; cases hb'
        refine .inl ⟨hr, h.pos, ⟨_, self _ ha, hn, hh, hb, .inr rfl⟩, fun i' c hc hne => ?_⟩
        rcases getElem?_set_some ha hc with ⟨e, _⟩ | ⟨_, hc⟩
        · exact absurd e hne
        · exact h.rest i' c hc hne
      · exact oth _ _ hb' hij rfl rfl rfl (h.rest i b hb' hij).1 rfl
    case writeF i b n o hb' hp' _ =>
      by_cases hij : i = j
      · subst hij
        rw [ha] at hb'; cases hb'
        exact .inr ⟨_, self _ ha, .inr (.inl rfl)⟩
      · exact oth _ _ hb' hij rfl rfl rfl (h.rest i b hb' hij).1 rfl
    case takeN i b n o g hb' hp' hn' hbb =>
      have hij := nj hb' (by rintro rfl; rw [hb] at hbb; cases hbb)
      exact oth _ _ hb' hij rfl rfl rfl (h.rest i b hb' hij).1 rfl
    case take i b n o g hb' hp' hn' hbb =>
      have hij := nj hb' (by rintro rfl; rw [hb] at hbb; cases hbb)
      exact oth _ _ hb' hij rfl rfl rfl (h.rest i b hb' hij).1 rfl
    case forgetS i b n o g hb' hp' _ =>
      have hij := nj hb' (by rintro rfl; rw [hp'] at hp; simp at hp)
      exact oth _ _ hb' hij rfl rfl rfl (h.rest i b hb' hij).1 rfl
    case forgetC i b n o g hb' hp' _ =>
      have hij := nj hb' (by rintro rfl; rw [hp'] at hp; simp at hp)
      exact oth _ _ hb' hij rfl rfl rfl (h.rest i b hb' hij).1 rfl
    case ctx i b hb' hp' =>
      by_cases hij : i = j
      · subst hij
        rw [ha] at hb'; cases hb'
        refine .inr ⟨_, self _ ha, .inr ?_⟩
        unfold GaveUp
        dsimp only
        split
        · exact .inl rfl
        · exact .inr rfl
      · exact oth _ _ hb' hij rfl rfl rfl (h.rest i b hb' hij).1 rfl
    case helpE i b hb' hh' hn' =>
      by_cases hij : i = j
      · subst hij
        rw [ha] at hb'; cases hb'
        refine .inr ⟨_, self _ ha, .inl ⟨hn, ?_, (by simp), (by simp [hb]), (by simp), fun n hx => ?_⟩⟩
        · rcases hp with hp | hp <;> (show a.pc.reg' = true; rw [hp]; rfl)
        · change a.pc = _ ∨ a.pc = _ at hx
          rcases hp with hp | hp <;> rw [hp] at hx <;> simp at hx
      · exact absurd hh' (h.rest i b hb' hij).1
    case helpR i b hb' hh' hn' hlt =>
      by_cases hij : i = j
      · subst hij
        rw [ha] at hb'; cases hb'
        refine .inr ⟨_, self _ ha, .inl ⟨hn, ?_, (by simp), (by simp [hb]), (by simp [h.pos]), fun n hx => ?_⟩⟩
        · rcases hp with hp | hp <;> (show a.pc.reg' = true; rw [hp]; rfl)
        · change a.pc = _ ∨ a.pc = _ at hx
          rcases hp with hp | hp <;> rw [hp] at hx <;> simp at hx
      · exact absurd hh' (h.rest i b hb' hij).1
    case helpS i b g hb' hh' hbb =>
      have hij := nj hb' (by rintro rfl; rw [hh] at hh'; cases hh')
      exact oth _ _ hb' hij rfl rfl rfl (by simp) (h.rest i b hb' hij).2
    case other m i b hc hw hb' hp' =>
      have hij := nj hb' (by
        rintro rfl
        obtain ⟨b', x1, x2, _⟩ := (hi.stab _ _ hw).ex
        rw [hb'] at x1; cases x1
        rw [hn] at x2; cases x2)
      exact oth _ _ hb' hij rfl rfl rfl (h.rest i b hb' hij).1 rfl
    case inAsk i n b r hr' hb' hp' =>
      rw [hr] at hr'; cases hr'
      rw [ha] at hb'; cases hb'
      rw [hp'] at hp; simp at hp
    case close => exact .inl ⟨hr, h.pos, ⟨a, ha, hn, hh, hb, hp⟩, h.rest⟩
    case closeFire => exact .inl ⟨hr, h.pos, ⟨a, ha, hn, hh, hb, hp⟩, h.rest⟩
    case closeClear => exact .inl ⟨hr, h.pos, ⟨a, ha, hn, hh, hb, hp⟩, h.rest⟩
    case closeNet => exact .inl ⟨hr, h.pos, ⟨a, ha, hn, hh, hb, hp⟩, h.rest⟩
    all_goals (exfalso; simp_all; done)
  · right
    have upd : ∀ {i : Nat} {b : AskT} (b' : AskT), s.asks[i]? = some b → (b = a → OnlyAt p b' ∨ GaveUp b') →
        ∃ a, (s.asks.set i b')[j]? = some a ∧ (OnlyAt p a ∨ GaveUp a) := by
      intro i b b' hb hx
      by_cases hij : i = j
      · subst hij
        rw [ha] at hb; cases hb
        exact ⟨b', self _ ha, hx rfl⟩
      · exact ⟨a, keep b' hb ha hij, h⟩
    -- a step to a place that holds no message
    have go : ∀ {pc : APc}, pc.reg' = true → (∀ g, pc ≠ .forget g ∧ pc ≠ .done (.answer g)) →
        ¬ GaveUp a → OnlyAt p { a with pc := pc } ∨ GaveUp { a with pc := pc } := by
      intro pc hp hg hna
      rcases h with h | h
      · exact .inl ⟨h.next, hp, h.help, h.box, h.got, fun n hn => by
          rcases hn with hn | hn
          · exact absurd hn (hg _).1
          · exact absurd hn (hg _).2⟩
      · exact absurd h hna
    have early : ∀ {q : APc}, a.pc = q → q.reg' = false → False := by
      intro q hq hx
      rcases h with h | h | h
      · have := h.reg; rw [hq, hx] at this; cases this
      · rw [h] at hq; subst hq; cases hx
      · rw [h] at hq; subst hq; cases hx
    cases h'
    case arrive => exact ⟨a, ha, h⟩
    case call srv _ => exact absurd rfl (h1 srv)
    case callCb =>
      exact ⟨a, by rw [← ha]; exact List.getElem?_append_left (List.getElem?_eq_some_iff.mp ha).1, h⟩
    case flagS i b n o hb hp hs => exact upd _ hb (fun e => by subst e; exact (early hp rfl).elim)
    case flagC i b n o hb hp hs => exact upd _ hb (fun e => by subst e; exact (early hp rfl).elim)
    case check i b n o hb hp hs ho => exact upd _ hb (fun e => by subst e; exact (early hp rfl).elim)
    case checkF i b n o r hb hp _ _ => exact upd _ hb (fun e => by subst e; exact (early hp rfl).elim)
    case tok i b n o hb hp => exact upd _ hb (fun e => by subst e; exact (early hp rfl).elim)
    case regS i b n o hb hp _ => exact upd _ hb (fun e => by subst e; exact (early hp rfl).elim)
    case regN i b n o hb hp _ _ => exact upd _ hb (fun e => by subst e; exact (early hp rfl).elim)
    case regC i b n o hb hp _ _ => exact upd _ hb (fun e => by subst e; exact (early hp rfl).elim)
    case write i b n o hb hp _ =>
      exact upd _ hb (fun e => by subst e; exact go rfl (by simp) (by simp [GaveUp, hp]))
    case writeF i b n o hb hp _ =>
      exact upd _ hb (fun e => by subst e; exact .inr (.inl rfl))
    case takeN i b n o g hb hp hn hbb =>
      refine upd _ hb (fun e => ?_)
      subst e
      rcases h with h | h
      · refine .inl ⟨h.next, rfl, h.help, (by simp), h.got, fun n hn => ?_⟩
        rcases hn with hn | hn
        · cases hn
        · cases hn; exact h.box n hbb
      · simp [GaveUp, hp] at h
    case take i b n o g hb hp hn hbb =>
      refine upd _ hb (fun e => ?_)
      subst e
      rcases h with h | h
      · have := h.next; rw [hn] at this; cases this
      · simp [GaveUp, hp] at h
    case forgetS i b n o g hb hp hs =>
      refine upd _ hb (fun e => ?_)
      subst e
      rcases h with h | h
      · refine .inl ⟨h.next, rfl, h.help, h.box, h.got, fun n hn => ?_⟩
        rcases hn with hn | hn
        · cases hn
        · cases hn; exact h.pc n (.inl hp)
      · simp [GaveUp, hp] at h
    case forgetC i b n o g hb hp hs =>
      refine upd _ hb (fun e => ?_)
      subst e
      rcases h with h | h
      · refine .inl ⟨h.next, rfl, h.help, h.box, h.got, fun n hn => ?_⟩
        rcases hn with hn | hn
        · cases hn
        · cases hn; exact h.pc n (.inl hp)
      · simp [GaveUp, hp] at h
    case ctx i b hb hp =>
      refine upd _ hb (fun e => .inr ?_)
      unfold GaveUp
      dsimp only
      split
      · exact .inl rfl
      · exact .inr rfl
    case helpE i b hb hh _ =>
      refine upd _ hb (fun e => ?_)
      subst e
      rcases h with h | h
      · exact absurd hh h.help
      · exact .inr h
    case helpR i b hb hh _ _ =>
      refine upd _ hb (fun e => ?_)
      subst e
      rcases h with h | h
      · exact absurd hh h.help
      · exact .inr h
    case helpS i b g hb hh _ =>
      refine upd _ hb (fun e => ?_)
      subst e
      rcases h with h | h
      · refine .inl ⟨h.next, h.reg, (by simp), fun n hn => ?_, (by simp), h.pc⟩
        cases hn
        exact h.got n hh
      · exact .inr h
    case srvSend i n b hr hb hp =>
      refine upd _ hb (fun e => ?_)
      subst e
      rcases h with h | h
      · obtain ⟨t, hl, _⟩ := hi.rdS i n hr
        obtain ⟨b', x1, x2, _⟩ := hl.ex
        rw [hb] at x1; cases x1
        have := h.next; rw [x2] at this; cases this
      · simp [GaveUp, hp] at h
    case connSend i n b hr hb _ =>
      refine upd _ hb (fun e => ?_)
      subst e
      rcases h with h | h
      · obtain ⟨t, hl, _⟩ := hi.rdC i n hr
        obtain ⟨b', x1, x2, _⟩ := hl.ex
        rw [hb] at x1; cases x1
        have := h.next; rw [x2] at this; cases this
      · exact .inr h
    case other m i b hc hw hb hp =>
      refine upd _ hb (fun e => ?_)
      subst e
      rcases h with h | h
      · obtain ⟨b', x1, x2, _⟩ := (hi.stab _ _ hw).ex
        rw [hb] at x1; cases x1
        have := h.next; rw [x2] at this; cases this
      · simp [GaveUp, hp] at h
    all_goals exact ⟨a, ha, h⟩

/-- C28, partial: an Ask of a callback returns the next message that the socket delivers, and so its
answer if that is the next message. Here no other Ask takes messages off the socket, and no goroutine
begins an Ask meanwhile. -/
theorem c28_next_partial {j k p n : Nat} {a : AskT} {ops : List AOp} (hr : AReach cl s) (h : Alone j k p s)
    (hc : ∀ srv, AOp.call srv ∉ ops) (hs : s.run cl ops = some s') (ha : s'.asks[j]? = some a)
    (hd : a.pc = .done (.answer (.msg n))) : n = p := by
  have key : NextInv j k p s' := by
    have : ∀ {s : ASt}, AInv s → NextInv j k p s → s.run cl ops = some s' → NextInv j k p s' := by
      clear hs h hr
      induction ops with
      | nil => intro s _ h hs; cases hs; exact h
      | cons op ops ih =>
        intro s hi h hs
        simp only [ASt.run] at hs
        split at hs
        · rename_i t ht
          have hx := anext_of_step ht
          exact ih (fun srv hm => hc srv (List.mem_cons_of_mem _ hm)) (ainv_step hi hx)
            (nextInv_step hi h (fun srv e => hc srv (e ▸ List.mem_cons_self ..)) hx) hs
        · cases hs
    exact this (areach_inv hr) (.inl h) hs
  rcases key with h | ⟨b, hb, h | h⟩
  · obtain ⟨b, hb, _, _, _, hp⟩ := h.own
    rw [ha] at hb; cases hb
    rw [hd] at hp; simp at hp
  · rw [ha] at hb; cases hb
    exact h.pc n (.inr hd)
  · rw [ha] at hb; cases hb
    simp [GaveUp, hd] at h

/-- the callback of the first message waits in its Ask -/
def cbWaitOps : List AOp :=
  [.arrive plainMsg] ++ List.replicate 4 .reader ++ [.callCb false] ++ askOps 0 7

example : ∃ (s s' : ASt) (a : AskT) (ops : List AOp), AReach true s ∧ Alone 0 0 1 s ∧
    (∀ srv, AOp.call srv ∉ ops) ∧ s.run true ops = some s' ∧ s'.asks[0]? = some a ∧
    a.pc = .done (.answer (.msg 1)) ∧ s'.carries a.tok (.msg 1) := by
  refine ⟨aafter true cbWaitOps, aafter true (cbWaitOps ++ [.arrive (tokMsg 7), .help 0, .help 0, .ask 0 0 true]),
    ⟨false, true, genWait true 7, none, .ended, .done (.answer (.msg 1))⟩,
    [.arrive (tokMsg 7), .help 0, .help 0, .ask 0 0 true], aafter_reach (by decide +kernel),
    ⟨by decide +kernel, by decide +kernel, ⟨⟨false, true, genWait true 7, none, .reading, .wait⟩,
      by decide +kernel, rfl, rfl, rfl, .inr rfl⟩, ?_⟩, by simp, by rfl, by decide +kernel, rfl,
    tokMsg 7, by decide +kernel, by decide +kernel⟩
  intro i b hb hi
  have hl : (aafter true cbWaitOps).asks.length = 1 := by decide +kernel
  have := (List.getElem?_eq_some_iff.mp hb).1
  omega

/-! ## C29 -/

/-- an Ask waits, then the connection is closed -/
def closeAskOps : List AOp := [.call false] ++ askOps 0 7 ++ [.close, .closer, .closer, .closer, .reader]

/-- C29 fails: `Close` empties the table of waiting Asks without telling them. An Ask that waits at
that moment for its answer, with a context that is never done, never returns. -/
theorem c29_refuted_stuck {i : Nat} {a : AskT} {ops : List AOp} (hr : AReach cl s) (hc : s.cl = .clear)
    (ha : s.asks[i]? = some a) (hp : a.pc = .wait) (hn : a.next = false) (hs : a.srv = false)
    (hb : a.box = none) (hrd : ∀ k, s.rd ≠ .connSend i k) {t : ASt} (ht : s.step cl .closer = some t)
    (hx : .ctx i ∉ ops) (h : t.run cl ops = some s') : s'.asks[i]? = some a ∧ s'.askStep cl i 0 true = none := by
  have hi := ainv_step (areach_inv hr) (anext_of_step ht)
  have hl : Lost i a t := by
    simp only [ASt.step, ASt.closeStep, hc] at ht
    cases ht
    exact ⟨ha, (fun t x => by cases x), hrd⟩
  have := (lost_run hi hl hp hb hn hs hx h).2.ask
  refine ⟨this, ?_⟩
  unfold ASt.askStep
  rw [this]
  simp [hp, hb]

theorem c29_refuted : ∃ (s : ASt) (a : AskT), AReach true s ∧ s.cl = .done ∧ s.rd = .dead ∧
    s.asks[0]? = some a ∧ a.pc = .wait ∧
    ∀ ops s', .ctx 0 ∉ ops → s.run true ops = some s' → s'.asks[0]? = some a := by
  have hr : AReach true (aafter true closeAskOps) := aafter_reach (by decide +kernel)
  have h0 : (aafter true closeAskOps).asks[0]? = some ⟨false, false, genWait true 7, none, .none, .wait⟩ := by
    decide +kernel
  refine ⟨aafter true closeAskOps, _, hr, by decide +kernel, by decide +kernel, h0, rfl, fun ops s' hc hs => ?_⟩
  refine (lost_run (areach_inv hr) ⟨h0, fun t => ?_, fun k => ?_⟩ rfl rfl rfl rfl hc hs).2.ask
  · have : (aafter true closeAskOps).waiting = [] := by decide +kernel
    rw [this]; simp [mapGet]
  · have : (aafter true closeAskOps).rd = .dead := by decide +kernel
    rw [this]; simp

/-- C29, partial: with a context that gets done, an Ask in flight on a closed connection returns
`ErrWrite`. -/
theorem c29_ctx_partial {i : Nat} {a : AskT} (ha : s.asks[i]? = some a) (hp : a.pc = .wait)
    (hs : a.srv = false) (hc : s.closed = true) :
    ∃ t, s.step cl (.ctx i) = some t ∧ t.asks[i]? = some { a with pc := .done .writeErr } := by
  refine ⟨s.put i { a with pc := .done .writeErr }, ?_, ?_⟩
  · simp [ASt.step, ASt.ctxStep, ha, hp, hs, hc]
  · show (s.asks.set i _)[i]? = _
    rw [List.getElem?_set, if_pos rfl, if_pos (List.getElem?_eq_some_iff.mp ha).1]

example : ∃ (s : ASt) (a : AskT), AReach true s ∧ s.asks[0]? = some a ∧ a.pc = .wait ∧ a.srv = false ∧
    s.closed = true :=
  ⟨aafter true closeAskOps, ⟨false, false, genWait true 7, none, .none, .wait⟩, aafter_reach (by decide +kernel),
    by decide +kernel, rfl, rfl, by decide +kernel⟩

/-- an Ask that has not come to wait for its answer -/
def NotWaiting (a : AskT) : Prop :=
  a.pc.reg' = false ∨ a.pc = .write ∨ ∃ r, a.pc = .done r ∧ ∀ g, r ≠ .answer g

theorem notWaiting_step {op : AOp} {i : Nat} {a : AskT} (ha : s.asks[i]? = some a) (hs : a.srv = false)
    (hn : NotWaiting a) (hc : s.closed = true) (h : ANext cl s op s') :
    (∃ b, s'.asks[i]? = some b ∧ b.srv = false ∧ NotWaiting b) ∧ s'.closed = true := by
  have upd : ∀ {j : Nat} {b : AskT} (b' : AskT), s.asks[j]? = some b → (b = a → b'.srv = false ∧ NotWaiting b') →
      ∃ b, (s.asks.set j b')[i]? = some b ∧ b.srv = false ∧ NotWaiting b := by
    intro j b b' hj hx
    rw [List.getElem?_set]
    split
    · subst_vars
      rw [ha] at hj; cases hj
      rw [if_pos (List.getElem?_eq_some_iff.mp ha).1]
      exact ⟨b', rfl, hx rfl⟩
    · exact ⟨a, ha, hs, hn⟩
  have nw : a.pc ≠ .wait := by
    intro e; unfold NotWaiting at hn; rw [e] at hn
    rcases hn with h | h | ⟨r, h, _⟩ <;> cases h
  have nf : ∀ g, a.pc ≠ .forget g := by
    intro g e; unfold NotWaiting at hn; rw [e] at hn
    rcases hn with h | h | ⟨r, h, _⟩ <;> cases h
  cases h
  case call =>
    exact ⟨⟨a, by rw [← ha]; exact List.getElem?_append_left (List.getElem?_eq_some_iff.mp ha).1, hs, hn⟩, hc⟩
  case callCb =>
    exact ⟨⟨a, by rw [← ha]; exact List.getElem?_append_left (List.getElem?_eq_some_iff.mp ha).1, hs, hn⟩, hc⟩
  case flagS j b n o hj hp hs' => exact ⟨upd _ hj (fun e => by subst e; exact ⟨hs, .inl rfl⟩), hc⟩
  case flagC j b n o hj hp hs' => exact ⟨upd _ hj (fun e => by subst e; exact ⟨hs, .inl rfl⟩), hc⟩
  case check j b n o hj hp _ _ => exact ⟨upd _ hj (fun e => by subst e; exact ⟨hs, .inl rfl⟩), hc⟩
  case checkF j b n o r hj hp hr _ =>
    exact ⟨upd _ hj (fun e => by
      subst e; exact ⟨hs, .inr (.inr ⟨r, rfl, fun g e => by subst e; split at hr <;> cases hr⟩)⟩), hc⟩
  case tok j b n o hj hp => exact ⟨upd _ hj (fun e => by subst e; exact ⟨hs, .inl rfl⟩), hc⟩
  case regS j b n o hj hp _ => exact ⟨upd _ hj (fun e => by subst e; exact ⟨hs, .inr (.inl rfl)⟩), hc⟩
  case regN j b n o hj hp _ _ => exact ⟨upd _ hj (fun e => by subst e; exact ⟨hs, .inr (.inl rfl)⟩), hc⟩
  case regC j b n o hj hp _ _ => exact ⟨upd _ hj (fun e => by subst e; exact ⟨hs, .inr (.inl rfl)⟩), hc⟩
  case write j b n o hj hp h' =>
    exact ⟨upd _ hj (fun e => by
      subst e
      rcases h' with h' | h'
      · rw [hs] at h'; cases h'
      · rw [hc] at h'; cases h'), hc⟩
  case writeF j b n o hj hp _ =>
    exact ⟨upd _ hj (fun e => by subst e; exact ⟨hs, .inr (.inr ⟨_, rfl, by simp⟩)⟩), hc⟩
  case takeN j b n o g hj hp _ _ => exact ⟨upd _ hj (fun e => by subst e; exact absurd hp nw), hc⟩
  case take j b n o g hj hp _ _ => exact ⟨upd _ hj (fun e => by subst e; exact absurd hp nw), hc⟩
  case forgetS j b n o g hj hp _ => exact ⟨upd _ hj (fun e => by subst e; exact absurd hp (nf g)), hc⟩
  case forgetC j b n o g hj hp _ => exact ⟨upd _ hj (fun e => by subst e; exact absurd hp (nf g)), hc⟩
  case ctx j b hj hp => exact ⟨upd _ hj (fun e => by subst e; exact absurd hp nw), hc⟩
  case helpE j b hj hh _ => exact ⟨upd _ hj (fun e => by subst e; exact ⟨hs, hn⟩), hc⟩
  case helpR j b hj hh _ _ => exact ⟨upd _ hj (fun e => by subst e; exact ⟨hs, hn⟩), hc⟩
  case helpS j b g hj hh _ => exact ⟨upd _ hj (fun e => by subst e; exact ⟨hs, hn⟩), hc⟩
  case srvSend j k b hr hj hp => exact ⟨upd _ hj (fun e => by subst e; exact absurd hp nw), hc⟩
  case connSend j k b hr hj hb => exact ⟨upd _ hj (fun e => by subst e; exact ⟨hs, hn⟩), hc⟩
  case other m j b hc' hw hj hp => exact ⟨upd _ hj (fun e => by subst e; exact absurd hp nw), hc⟩
  case dead =>
    refine ⟨⟨a, ha, hs, hn⟩, ?_⟩
    simp only [ASt.closed, decide_eq_true_eq] at hc ⊢
    rw [if_neg hc]; exact hc
  case close h' => simp [ASt.closed, h'] at hc
  case closeFire => exact ⟨⟨a, ha, hs, hn⟩, rfl⟩
  case closeClear => exact ⟨⟨a, ha, hs, hn⟩, rfl⟩
  case closeNet => exact ⟨⟨a, ha, hs, hn⟩, rfl⟩
  all_goals exact ⟨⟨a, ha, hs, hn⟩, hc⟩

/-- C29, partial: an Ask of a closed connection that does not wait yet never waits, whatever the other
goroutines do: until it returns it can take its next step, and it returns an error. -/
theorem c29_before_partial {i : Nat} {a : AskT} {ops : List AOp} (ha : s.asks[i]? = some a)
    (hp : a.pc = .flag ∨ a.pc = .check ∨ a.pc = .tok ∨ a.pc = .reg ∨ a.pc = .write) (hs : a.srv = false)
    (hc : s.closed = true) (h : s.run cl ops = some s') :
    ∃ b, s'.asks[i]? = some b ∧
      ((∃ r, b.pc = .done r ∧ ∀ g, r ≠ .answer g) ∨ ∀ now ok, (s'.step cl (.ask i now ok)).isSome = true) := by
  have hn : NotWaiting a := by
    rcases hp with h | h | h | h | h
    · exact .inl (by rw [h]; rfl)
    · exact .inl (by rw [h]; rfl)
    · exact .inl (by rw [h]; rfl)
    · exact .inl (by rw [h]; rfl)
    · exact .inr (.inl h)
  have key : (∃ b, s'.asks[i]? = some b ∧ b.srv = false ∧ NotWaiting b) ∧ s'.closed = true := by
    clear hp
    induction ops generalizing s a with
    | nil => cases h; exact ⟨⟨a, ha, hs, hn⟩, hc⟩
    | cons op ops ih =>
      simp only [ASt.run] at h
      split at h
      · rename_i t ht
        obtain ⟨⟨b, h1, h2, h3⟩, h4⟩ := notWaiting_step ha hs hn hc (anext_of_step ht)
        exact ih h1 h2 h4 h h3
      · cases h
  obtain ⟨⟨b, h1, h2, h3⟩, h4⟩ := key
  refine ⟨b, h1, ?_⟩
  cases hq : b.pc with
  | wait => unfold NotWaiting at h3; rw [hq] at h3; rcases h3 with h | h | ⟨r, h, _⟩ <;> cases h
  | forget g => unfold NotWaiting at h3; rw [hq] at h3; rcases h3 with h | h | ⟨r, h, _⟩ <;> cases h
  | done r =>
    left
    unfold NotWaiting at h3; rw [hq] at h3
    rcases h3 with h | h | ⟨r', h, h'⟩
    · cases h
    · cases h
    · cases h; exact ⟨r, rfl, h'⟩
  | flag => right; intro now ok; simp [ASt.step, ASt.askStep, h1, hq, h2]
  | check => right; intro now ok; simp [ASt.step, ASt.askStep, h1, hq, h4]
  | tok => right; intro now ok; simp [ASt.step, ASt.askStep, h1, hq]
  | reg => right; intro now ok; simp only [ASt.step, ASt.askStep, h1, hq, h2]; cases b.next <;> rfl
  | write => right; intro now ok; simp [ASt.step, ASt.askStep, h1, hq, h2, h4]

example : ∃ (s : ASt) (a : AskT), AReach true s ∧ s.asks[0]? = some a ∧ a.pc = .reg ∧ a.srv = false ∧
    s.closed = true :=
  ⟨aafter true [.call false, .ask 0 7 true, .ask 0 7 true, .ask 0 7 true, .close],
    ⟨false, false, genWait true 7, none, .none, .reg⟩, aafter_reach (by decide +kernel),
    by decide +kernel, rfl, rfl, by decide +kernel⟩

/-- what the goroutine of an Ask and its channel look like while the Ask waits -/
structure AHelp (a : AskT) : Prop where
  run : a.next = true → a.pc = .write ∨ a.pc = .wait →
    ((a.help = .reading ∨ ∃ g, a.help = .got g) ∧ a.box = none) ∨ ∃ g, a.box = some g
  noBox : ∀ m, a.box ≠ some (.other m)
  noHelp : ∀ m, a.help ≠ .got (.other m)

theorem ahelp_step {op : AOp} (hi : AInv s) (hv : ∀ (i : Nat) (a : AskT), s.asks[i]? = some a → AHelp a)
    (h : ANext cl s op s') : ∀ (i : Nat) (a : AskT), s'.asks[i]? = some a → AHelp a := by
  have upd : ∀ {j : Nat} {b b' : AskT}, s.asks[j]? = some b → (AHelp b → AHelp b') →
      ∀ (i : Nat) (a : AskT), (s.asks.set j b')[i]? = some a → AHelp a := by
    intro j b b' hj hx i a ha
    rcases getElem?_set_some hj ha with ⟨_, rfl⟩ | ⟨_, ha⟩
    · exact hx (hv j b hj)
    · exact hv i a ha
  have go : ∀ {j : Nat} {b : AskT} {pc : APc}, s.asks[j]? = some b → pc ≠ .write ∧ pc ≠ .wait →
      ∀ (i : Nat) (a : AskT), (s.asks.set j { b with pc := pc })[i]? = some a → AHelp a :=
    fun hj hp => upd hj (fun h => ⟨fun _ x => by
      rcases x with x | x
      · exact absurd x hp.1
      · exact absurd x hp.2, h.noBox, h.noHelp⟩)
  have app : ∀ srv (i : Nat) (a : AskT), (s.asks ++ [{ srv := srv }])[i]? = some a → AHelp a := by
    intro srv i a ha
    by_cases hl : i < s.asks.length
    · rw [List.getElem?_append_left hl] at ha
      exact hv i a ha
    · rw [List.getElem?_append_right (by omega)] at ha
      have := List.mem_of_getElem? ha
      rw [List.mem_singleton] at this
      subst this
      exact ⟨(by simp), (by simp), (by simp)⟩
  cases h
  case call srv _ => exact app srv
  case callCb srv _ _ _ => exact app srv
  case regN j b n o hj hp _ _ =>
    refine upd hj (fun h => ⟨fun _ _ => .inl ⟨.inl rfl, ?_⟩, h.noBox, (by simp)⟩)
    cases hb : b.box with
    | none => rfl
    | some g =>
      have := ((hi.each j b hj).box g hb).1
      rw [hp] at this; cases this
  case write j b n o hj hp _ =>
    exact upd hj (fun h => ⟨fun hn _ => h.run hn (.inl hp), h.noBox, h.noHelp⟩)
  case helpE j b hj hh _ =>
    refine upd hj (fun h => ⟨fun hn hp => ?_, h.noBox, (by simp)⟩)
    rcases h.run hn hp with ⟨_, h2⟩ | h2
    · exact .inl ⟨.inr ⟨_, rfl⟩, h2⟩
    · exact .inr h2
  case helpR j b hj hh _ _ =>
    refine upd hj (fun h => ⟨fun hn hp => ?_, h.noBox, (by simp)⟩)
    rcases h.run hn hp with ⟨_, h2⟩ | h2
    · exact .inl ⟨.inr ⟨_, rfl⟩, h2⟩
    · exact .inr h2
  case helpS j b g hj hh _ =>
    refine upd hj (fun h => ⟨fun hn hp => .inr ⟨g, rfl⟩, fun m e => ?_, (by simp)⟩)
    cases e
    exact h.noHelp m hh
  case connSend j k b hr hj hb =>
    exact upd hj (fun h => ⟨fun hn hp => .inr ⟨_, rfl⟩, (by simp), h.noHelp⟩)
  case regC j b n o hj hp _ hn =>
    exact upd hj (fun h => ⟨fun hn' _ => by simp [hn] at hn', h.noBox, h.noHelp⟩)
  case regS j b n o hj hp hs =>
    exact upd hj (fun h => ⟨fun hn' _ => by
      have := (hi.each j b hj).srv hs
      simp [this] at hn', h.noBox, h.noHelp⟩)
  case takeN j b n o g hj hp _ _ => exact upd hj (fun h => ⟨(by simp), (by simp), h.noHelp⟩)
  case take j b n o g hj hp _ _ => exact upd hj (fun h => ⟨(by simp), (by simp), h.noHelp⟩)
  case flagC j b n o hj hp _ => exact upd hj (fun h => ⟨(by simp), h.noBox, h.noHelp⟩)
  case tok j b n o hj hp => exact upd hj (fun h => ⟨(by simp), h.noBox, h.noHelp⟩)
  all_goals first
    | exact hv
    | exact go (by assumption) (by simp)

theorem areach_help (hr : AReach cl s) : ∀ (i : Nat) (a : AskT), s.asks[i]? = some a → AHelp a := by
  have : AInv s ∧ ∀ (i : Nat) (a : AskT), s.asks[i]? = some a → AHelp a := by
    refine areach_ind (P := fun s => AInv s ∧ ∀ (i : Nat) (a : AskT), s.asks[i]? = some a → AHelp a)
      ⟨⟨(by simp), (by simp [mapGet]), (by simp [mapGet]), (by simp), (by simp)⟩, by simp⟩ ?_ hr
    exact fun s op s' h h' => ⟨ainv_step h.1 h', ahelp_step h.1 h.2 h'⟩
  exact this.2

theorem put_get {i : Nat} {a b : AskT} (h : s.asks[i]? = some a) : (s.put i b).asks[i]? = some b := by
  show (s.asks.set i b)[i]? = some b
  rw [List.getElem?_set, if_pos rfl, if_pos (List.getElem?_eq_some_iff.mp h).1]

/-- C29, partial: an Ask that waits only for the next message can return once the socket is closed; its
goroutine, if it still reads, gets an error. -/
theorem c29_next_partial (hr : AReach cl s) {i : Nat} {a : AskT} (ha : s.asks[i]? = some a)
    (hn : a.next = true) (hp : a.pc = .wait) (hc : s.netClosed = true) :
    ∃ ops t b g, s.run cl ops = some t ∧ t.asks[i]? = some b ∧ b.pc = .done (.answer g) ∧
      (a.help = .reading → a.box = none → g = .readErr) := by
  -- the last step
  have take : ∀ {u : ASt} {b : AskT} {g : Got}, u.asks[i]? = some b → b.next = true → b.pc = .wait →
      b.box = some g → ∃ t c, u.step cl (.ask i 0 true) = some t ∧ t.asks[i]? = some c ∧
        c.pc = .done (.answer g) := by
    intro u b g hu hn hp hb
    refine ⟨u.put i { b with box := none, pc := .done (.answer g) }, _, ?_, put_get hu, rfl⟩
    simp [ASt.step, ASt.askStep, hu, hp, hb, hn]
  -- the goroutine sends
  have send : ∀ {u : ASt} {b : AskT} {g : Got}, u.asks[i]? = some b → b.next = true → b.pc = .wait →
      b.help = .got g → b.box = none → ∃ t t' c, u.step cl (.help i) = some t ∧
        t.step cl (.ask i 0 true) = some t' ∧ t'.asks[i]? = some c ∧ c.pc = .done (.answer g) := by
    intro u b g hu hn hp hh hb
    obtain ⟨t, c, h1, h2⟩ := take (put_get (b := { b with box := some g, help := .ended }) hu) hn hp rfl
    exact ⟨_, t, c, by simp [ASt.step, ASt.helpStep, hu, hh, hb], h1, h2⟩
  rcases (areach_help hr i a ha).run hn (.inr hp) with ⟨h | ⟨g, h⟩, hb⟩ | ⟨g, hb⟩
  · obtain ⟨t, t', c, h1, h2, h3, h4⟩ := send (put_get (b := { a with help := .got .readErr }) ha) hn hp rfl hb
    refine ⟨[.help i, .help i, .ask i 0 true], t', c, .readErr, ?_, h3, h4, fun _ _ => rfl⟩
    have h0 : s.step cl (.help i) = some (s.put i { a with help := .got .readErr }) := by
      simp [ASt.step, ASt.helpStep, ha, h, hc]
    simp only [ASt.run, h0, h1, h2]
  · obtain ⟨t, t', c, h1, h2, h3, h4⟩ := send ha hn hp h hb
    exact ⟨[.help i, .ask i 0 true], t', c, g, by simp only [ASt.run, h1, h2], h3, h4,
      fun h' => by rw [h] at h'; cases h'⟩
  · obtain ⟨t, c, h1, h2, h3⟩ := take ha hn hp hb
    exact ⟨[.ask i 0 true], t, c, g, by simp only [ASt.run, h1], h2, h3, fun _ h' => by rw [hb] at h'; cases h'⟩

example : ∃ (s : ASt) (a : AskT), AReach true s ∧ s.asks[0]? = some a ∧ a.next = true ∧ a.pc = .wait ∧
    s.netClosed = true ∧ a.help = .reading ∧ a.box = none :=
  ⟨aafter true (cbWaitOps ++ [.close, .closer, .closer, .closer]),
    ⟨false, true, genWait true 7, none, .reading, .wait⟩, aafter_reach (by decide +kernel), by decide +kernel,
    rfl, rfl, by decide +kernel, rfl, rfl⟩

/-! ## C30 -/

/-- the reader sends to an Ask that has returned -/
structure Wedged (i k : Nat) (s : ASt) : Prop where
  at_ : (s.rd = .srvSend i k ∨ s.rd = .connSend i k ∧ ∃ a g, s.asks[i]? = some a ∧ a.box = some g)
  done : ∃ a r, s.asks[i]? = some a ∧ a.pc = .done r

theorem wedged_stuck {i k : Nat} (h : Wedged i k s) : s.step cl .reader = none := by
  obtain ⟨a, r, ha, hd⟩ := h.done
  rcases h.at_ with hr | ⟨hr, b, g, hb, hx⟩
  · simp [ASt.step, ASt.readerStep, hr, ha, hd]
  · rw [ha] at hb; cases hb
    simp [ASt.step, ASt.readerStep, hr, ha, hx]

theorem wedged_step {i k : Nat} {op : AOp} (h : Wedged i k s) (h' : ANext cl s op s') :
    Wedged i k s' := by
  obtain ⟨a, r, ha, hd⟩ := h.done
  have upd : ∀ {j : Nat} {b : AskT} (b' : AskT) (t : ASt), s.asks[j]? = some b → t.asks = s.asks.set j b' →
      t.rd = s.rd → (b = a → b'.pc = b.pc ∧ ∀ g, b.box = some g → b'.box = some g) → Wedged i k t := by
    intro j b b' t hj e1 e2 hx
    by_cases hij : j = i
    · subst hij
      rw [ha] at hj; cases hj
      have hg : t.asks[j]? = some b' := by
        rw [e1, List.getElem?_set, if_pos rfl, if_pos (List.getElem?_eq_some_iff.mp ha).1]
      refine ⟨?_, b', r, hg, (hx rfl).1.trans hd⟩
      rcases h.at_ with hr | ⟨hr, b, g, hb, hy⟩
      · exact .inl (e2.trans hr)
      · rw [ha] at hb; cases hb
        exact .inr ⟨e2.trans hr, b', g, hg, (hx rfl).2 g hy⟩
    · have hg : ∀ {c}, s.asks[i]? = some c → t.asks[i]? = some c := by
        intro c hc; rw [e1, List.getElem?_set, if_neg hij]; exact hc
      refine ⟨?_, a, r, hg ha, hd⟩
      rcases h.at_ with hr | ⟨hr, b, g, hb, hy⟩
      · exact .inl (e2.trans hr)
      · exact .inr ⟨e2.trans hr, b, g, hg hb, hy⟩
  have same : ∀ (t : ASt), s.asks <+: t.asks → t.rd = s.rd → Wedged i k t := by
    rintro t ⟨l, hl⟩ e2
    have hg : ∀ {c}, s.asks[i]? = some c → t.asks[i]? = some c := by
      intro c hc; rw [← hl, List.getElem?_append_left (List.getElem?_eq_some_iff.mp hc).1]; exact hc
    refine ⟨?_, a, r, hg ha, hd⟩
    rcases h.at_ with hr | ⟨hr, b, g, hb, hy⟩
    · exact .inl (e2.trans hr)
    · exact .inr ⟨e2.trans hr, b, g, hg hb, hy⟩
  have nr : ∀ {q}, s.rd = q → (∀ i k, q ≠ .srvSend i k ∧ q ≠ .connSend i k) → False := by
    intro q hq hx
    rcases h.at_ with hr | ⟨hr, _⟩
    · exact (hx i k).1 (hq ▸ hr)
    · exact (hx i k).2 (hq ▸ hr)
  cases h'
  case arrive => exact same _ (List.prefix_refl _) rfl
  case call => exact same _ (List.prefix_append _ _) rfl
  case callCb hr _ => exact (nr hr (by simp)).elim
  case dead hr _ => exact (nr hr (by simp)).elim
  case read hr _ _ => exact (nr hr (by simp)).elim
  case got hr => exact (nr hr (by simp)).elim
  case srvYes hr _ => exact (nr hr (by simp)).elim
  case srvNo hr _ => exact (nr hr (by simp)).elim
  case connYes hr _ => exact (nr hr (by simp)).elim
  case connNo hr _ => exact (nr hr (by simp)).elim
  case handler hr => exact (nr hr (by simp)).elim
  case inAsk hr _ _ => exact (nr hr (by simp)).elim
  case clear hr => exact (nr hr (by simp)).elim
  case srvSend j n b hr hj hp =>
    rcases h.at_ with hr' | ⟨hr', _⟩
    · rw [hr] at hr'; cases hr'
      rw [ha] at hj; cases hj
      rw [hd] at hp; cases hp
    · rw [hr] at hr'; cases hr'
  case connSend j n b hr hj hb =>
    rcases h.at_ with hr' | ⟨hr', c, g, hc, hg⟩
    · rw [hr] at hr'; cases hr'
    · rw [hr] at hr'; cases hr'
      rw [hc] at hj; cases hj
      rw [hb] at hg; cases hg
  case helpE j b hj hh _ => exact upd _ _ hj rfl rfl (fun _ => ⟨rfl, fun g => id⟩)
  case helpR j b hj hh _ _ => exact upd _ _ hj rfl rfl (fun _ => ⟨rfl, fun g => id⟩)
  case helpS j b g hj hh hb =>
    exact upd _ _ hj rfl rfl (fun _ => ⟨rfl, fun g hg => by rw [hb] at hg; cases hg⟩)
  case close => exact same _ (List.prefix_refl _) rfl
  case closeFire => exact same _ (List.prefix_refl _) rfl
  case closeClear => exact same _ (List.prefix_refl _) rfl
  case closeNet => exact same _ (List.prefix_refl _) rfl
  all_goals
    rename_i hj hp
    exact upd _ _ (by assumption) rfl rfl (fun e => by subst e; simp_all)

/-- C30 fails: once the reader sends to a `Server.Ask` that has returned, or to a `Conn.Ask` that has
returned with a message in its channel, it never handles a message again, not even after `Close`. -/
theorem c30_refuted_stuck {i k : Nat} {ops : List AOp} (h : Wedged i k s) (hs : s.run cl ops = some s') :
    (s'.rd = .srvSend i k ∨ s'.rd = .connSend i k) ∧ s'.step cl .reader = none := by
  have : Wedged i k s' := arun_ind h (fun _ _ _ h h' => wedged_step h h') hs
  exact ⟨this.at_.imp id (·.1), wedged_stuck this⟩

/-- a message with a token of the server -/
def srvTokMsg (t : Int) : Message := { wait := genWait false t, event := b! "answer" }

/-- a `Server.Ask`, up to the point where it waits -/
def srvAskOps (i : Nat) (t : Int) : List AOp := [.ask i t true, .ask i t true, .ask i t true, .ask i t true]

/-- C30 fails: the answer to a `Server.Ask` that gave up stops the reader for good. -/
theorem c30_refuted : ∃ s, AReach false s ∧ Wedged 0 0 s ∧
    ASt.run false {} ([.call true] ++ srvAskOps 0 7 ++ [.ctx 0, .arrive (srvTokMsg 7)] ++
      List.replicate 3 .reader) = some s := by
  refine ⟨aafter false ([.call true] ++ srvAskOps 0 7 ++ [.ctx 0, .arrive (srvTokMsg 7)] ++
      List.replicate 3 .reader), aafter_reach (by decide +kernel), ⟨.inl (by decide +kernel),
      ⟨true, false, genWait false 7, none, .none, .done .ctxErr⟩, .ctxErr, by decide +kernel, rfl⟩, aafter_run (by decide +kernel)⟩

/-- C30 fails: the second answer to a `Server.Ask`, the first one having come from another connection,
stops the reader for good if it was looked up before the Ask deleted its entry. -/
theorem c30_refuted_second : ∃ s, AReach false s ∧ Wedged 0 0 s ∧
    ASt.run false {} ([.call true] ++ srvAskOps 0 7 ++ [.arrive (srvTokMsg 7)] ++ List.replicate 3 .reader ++
      [.other (srvTokMsg 7), .ask 0 0 true]) = some s := by
  refine ⟨aafter false ([.call true] ++ srvAskOps 0 7 ++ [.arrive (srvTokMsg 7)] ++ List.replicate 3 .reader ++
      [.other (srvTokMsg 7), .ask 0 0 true]), aafter_reach (by decide +kernel), ⟨.inl (by decide +kernel),
      ⟨true, false, genWait false 7, none, .none, .done (.answer (.other (srvTokMsg 7)))⟩,
      .answer (.other (srvTokMsg 7)), by decide +kernel, rfl⟩, aafter_run (by decide +kernel)⟩

/-- C30 fails: the second answer to a `Conn.Ask` that gave up stops the reader for good. -/
theorem c30_refuted_twice : ∃ s, AReach true s ∧ Wedged 0 1 s ∧
    ASt.run true {} ([.call false] ++ askOps 0 7 ++ [.ctx 0, .arrive (tokMsg 7), .arrive (tokMsg 7)] ++
      List.replicate 6 .reader ++ List.replicate 4 .reader) = some s := by
  refine ⟨aafter true ([.call false] ++ askOps 0 7 ++ [.ctx 0, .arrive (tokMsg 7), .arrive (tokMsg 7)] ++
      List.replicate 6 .reader ++ List.replicate 4 .reader), aafter_reach (by decide +kernel),
      ⟨.inr ⟨by decide +kernel, ⟨false, false, genWait true 7, some (.msg 0), .none, .done .ctxErr⟩, .msg 0,
        by decide +kernel, rfl⟩,
      ⟨false, false, genWait true 7, some (.msg 0), .none, .done .ctxErr⟩, .ctxErr, by decide +kernel, rfl⟩, aafter_run (by decide +kernel)⟩

theorem areach_wait {i k : Nat} (hr : AReach cl s) (hrd : s.rd = .connSend i k) :
    ∃ m, s.arr[k]? = some m ∧ m.isWait cl = true := by
  have : ∀ i k, s.rd = .connSend i k → ∃ m, s.arr[k]? = some m ∧ m.isWait cl = true := by
    refine areach_ind (P := fun s => ∀ i k, s.rd = .connSend i k → ∃ m, s.arr[k]? = some m ∧ m.isWait cl = true)
      (by simp) (fun s op s' h h' i k hrd => ?_) hr
    obtain ⟨l, hl⟩ := (anext_keep h').arr
    have keep : s.rd = .connSend i k → ∃ m, s'.arr[k]? = some m ∧ m.isWait cl = true := by
      intro e
      obtain ⟨m, hm, hw⟩ := h i k e
      exact ⟨m, by rw [← hl, List.getElem?_append_left (List.getElem?_eq_some_iff.mp hm).1]; exact hm, hw⟩
    cases h'
    case connYes hr hi =>
      cases hrd
      unfold ASt.connAsk at hi
      split at hi
      · cases hi
      · split at hi
        · exact ⟨_, ‹_›, ‹_›⟩
        · cases hi
    all_goals first
      | exact keep hrd
      | (cases hrd; done)
  exact this i k hrd

/-- C30, partial: if no two messages carry the same token, an answer to a `Conn.Ask`, late or not, never
stops the reader. -/
theorem c30_conn_partial {i k : Nat} (hr : AReach cl s) (hrd : s.rd = .connSend i k)
    (hu : ∀ (k k' : Nat) (m m' : Message), s.arr[k]? = some m → s.arr[k']? = some m' → m.wait = m'.wait →
      m.wait ≠ [] → k = k') : ∃ t, s.step cl .reader = some t ∧ t.rd = .clear := by
  obtain ⟨t, hl, m, hm, hw⟩ := (areach_inv hr).rdC i k hrd
  obtain ⟨a, ha, hn, ht, _, _⟩ := hl.ex
  cases hb : a.box with
  | none => exact ⟨{ s with rd := .clear }.put i { a with box := some (.msg k) }, by
      simp [ASt.step, ASt.readerStep, hrd, ha, hb], rfl⟩
  | some g =>
    exfalso
    have ho := (((areach_inv hr).each i a ha).box g hb).2 hn
    cases g with
    | other m' => exact (areach_help hr i a ha).noBox m' hb
    | readErr => exact ho
    | msg k' =>
      obtain ⟨m', hm', hw'⟩ := ho
      have := hu k k' m m' hm hm' (by rw [hw, hw', ht]) (by
        obtain ⟨m0, h0, hw0⟩ := areach_wait hr hrd
        rw [hm] at h0; cases h0
        intro e; simp [Message.isWait, e] at hw0)
      subst this
      have h1 := (areach_one hr).one k
      have h2 := le_sum (AskT.hold k) ha
      have h3 : 1 ≤ a.hold k := by simp only [AskT.hold, hb, boxHold, Got.hold, if_true]; omega
      have h4 : s.rd.hold k = 1 := by simp [hrd, ARd.hold]
      unfold ASt.total at h1
      split at h1 <;> omega

/-- a late answer -/
def lateOps : List AOp :=
  [.call false] ++ askOps 0 7 ++ [.ctx 0, .arrive (tokMsg 7)] ++ List.replicate 4 .reader

example : ∃ s, AReach true s ∧ s.rd = .connSend 0 0 ∧
    (∀ (k k' : Nat) (m m' : Message), s.arr[k]? = some m → s.arr[k']? = some m' → m.wait = m'.wait →
      m.wait ≠ [] → k = k') := by
  have h : (aafter true lateOps).arr = [tokMsg 7] := by decide +kernel
  refine ⟨aafter true lateOps, aafter_reach (by decide +kernel), by decide +kernel, ?_⟩
  intro k k' m m' h1 h2 _ _
  rw [h] at h1 h2
  have h3 := (List.getElem?_eq_some_iff.mp h1).1
  have h4 := (List.getElem?_eq_some_iff.mp h2).1
  rw [List.length_singleton] at h3 h4
  omega

/-- C30, partial: an answer to a `Server.Ask` that waits is taken at once. -/
theorem c30_server_partial {i k : Nat} {a : AskT} (hrd : s.rd = .srvSend i k) (ha : s.asks[i]? = some a)
    (hp : a.pc = .wait) : ∃ t, s.step cl .reader = some t ∧ t.rd = .clear ∧
      t.asks[i]? = some { a with pc := .forget (.msg k) } :=
  ⟨{ s with rd := .clear }.put i { a with pc := .forget (.msg k) }, by
    simp [ASt.step, ASt.readerStep, hrd, ha, hp], rfl, put_get (s := { s with rd := .clear }) ha⟩

example : ∃ (s : ASt) (a : AskT), AReach false s ∧ s.rd = .srvSend 0 0 ∧ s.asks[0]? = some a ∧ a.pc = .wait :=
  ⟨aafter false ([.call true] ++ srvAskOps 0 7 ++ [.arrive (srvTokMsg 7)] ++ List.replicate 3 .reader),
    ⟨true, false, genWait false 7, none, .none, .wait⟩, aafter_reach (by decide +kernel), by decide +kernel,
    by decide +kernel, rfl⟩

end Neffos